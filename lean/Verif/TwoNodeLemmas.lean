import Verif.NodeDownProps
import Verif.SendProps
/-!
# Lemmas about one node that talks to another one
-/
namespace Verif.World
open Verif.Mailbox
variable {B V : Type}

/-! ## The frames an operation asks for -/

theorem asked_act (w : World B V) (a : Atom B V) : (act w a).asked =
    match a with | .nodes (.frame f id) => w.asked ++ [(id, f)] | _ => w.asked := by
  have h : (act w a).asked = (nt (act w a)).asked := rfl
  rw [h, nt_act]
  have hs : ∀ (t : NT B) n g, (t.setReg n g).asked = t.asked := by
    intro t n g; unfold NT.setReg; split <;> rfl
  cases a <;> try rfl
  rename_i na
  cases na with
  | frame f id =>
    simp only [nact, nt]
    split
    · rfl
    · split
      · rfl
      · split <;> rfl
  | regSup n s =>
    cases n <;> simp only [nact] <;> try rfl
    split
    · rfl
    · split
      · split
        · rw [hs]; rfl
        · rfl
      · rfl
  | regKnown n =>
    cases n <;> simp only [nact] <;> try rfl
    split <;> rfl
  | accept n s =>
    cases n <;> simp only [nact] <;> try rfl
    split
    · rfl
    · split
      · split
        · rw [hs]; rfl
        · rfl
      · rfl
  | start s nm ad => simp only [nact]; split <;> rfl
  | stop => rfl
  | workers n s r =>
    simp only [nact]
    split
    · rfl
    · simp only [hs]; rfl
  | down n p =>
    simp only [nact]
    split
    · rfl
    · split
      · rfl
      · rw [hs]; rfl
  | clrPending n => rfl
  | disc n =>
    simp only [nact]
    split
    · rfl
    · rw [hs]; rfl
  | forget n =>
    simp only [nact]
    split
    · rfl
    · split <;> rfl

/-- Every frame has a reason (`FrameOf`). -/
theorem asked_acts {w : World B V} {o : Op B V} {w' : World B V} (h : Acts (AtomOf w o) w w') :
    ∃ new, w'.asked = w.asked ++ new ∧ ∀ x ∈ new, FrameOf w o x.2 x.1 := by
  induction h with
  | refl => exact ⟨[], by simp, by simp⟩
  | @tail w1 a h hq ih =>
    obtain ⟨new, h1, h2⟩ := ih
    rw [asked_act]
    cases a <;> try exact ⟨new, h1, h2⟩
    rename_i na
    cases na <;> try exact ⟨new, h1, h2⟩
    rename_i f id
    refine ⟨new ++ [(id, f)], by simp [h1], ?_⟩
    intro x hx
    rcases List.mem_append.1 hx with hx | hx
    · exact h2 x hx
    · simp at hx; subst hx; exact hq

theorem askedFor_acts {w : World B V} {o : Op B V} {w' : World B V} (h : Acts (AtomOf w o) w w') (id : Nat) :
    ∃ new, askedFor id w' = askedFor id w ++ new ∧ ∀ f ∈ new, FrameOf w o f id := by
  obtain ⟨new, h1, h2⟩ := asked_acts h
  refine ⟨(new.filter (·.1 = id)).map (·.2), by simp [askedFor, h1], ?_⟩
  intro f hf
  obtain ⟨x, hx, rfl⟩ := List.mem_map.1 hf
  obtain ⟨hx, hk⟩ := List.mem_filter.1 hx
  simp at hk
  rw [← hk]
  exact h2 x hx

/-! ## Grouping by node -/

theorem pushGroup_other {A : Type} (k k' : Nat) (a : A) (G : List (Nat × List A)) (h : k' ≠ k) :
    (pushGroup k a G).filter (·.1 = k') = G.filter (·.1 = k') := by
  induction G with
  | nil => simp [pushGroup, Ne.symm h]
  | cons g G ih =>
    obtain ⟨k0, l⟩ := g
    simp only [pushGroup]
    split
    · subst_vars; simp [Ne.symm h]
    · simp only [List.filter_cons, ih]

theorem pushGroup_new {A : Type} (k : Nat) (a : A) (G : List (Nat × List A)) (h : G.filter (·.1 = k) = []) :
    (pushGroup k a G).filter (·.1 = k) = [(k, [a])] := by
  induction G with
  | nil => simp [pushGroup]
  | cons g G ih =>
    obtain ⟨k0, l⟩ := g
    have h0 : k0 ≠ k := by rintro rfl; simp at h
    have h1 : G.filter (·.1 = k) = [] := by simpa [h0] using h
    simp only [pushGroup, if_neg h0, List.filter_cons, decide_eq_true_eq]
    exact ih h1

theorem pushGroup_same {A : Type} (k : Nat) (a : A) (l : List A) (G : List (Nat × List A)) (h : G.filter (·.1 = k) = [(k, l)]) :
    (pushGroup k a G).filter (·.1 = k) = [(k, l ++ [a])] := by
  induction G with
  | nil => simp at h
  | cons g G ih =>
    obtain ⟨k0, l0⟩ := g
    by_cases h0 : k0 = k
    · subst h0
      simp at h
      obtain ⟨rfl, h⟩ := h
      simp only [pushGroup, if_true]
      simp; exact h
    · have h1 : G.filter (·.1 = k) = [(k, l)] := by simpa [h0] using h
      simp only [pushGroup, if_neg h0, List.filter_cons, decide_eq_true_eq]
      exact ih h1

/-- The values with key `k` form one group. -/
theorem group_at {A : Type} (l : List (Nat × A)) (k : Nat) :
    (group l).filter (·.1 = k) =
      if (l.filter (·.1 = k)).map (·.2) = [] then [] else [(k, (l.filter (·.1 = k)).map (·.2))] := by
  have key : ∀ (l : List (Nat × A)) (G : List (Nat × List A)) (L : List A),
      G.filter (·.1 = k) = (if L = [] then [] else [(k, L)]) →
      (l.foldl (fun gs x => pushGroup x.1 x.2 gs) G).filter (·.1 = k) =
        if L ++ (l.filter (·.1 = k)).map (·.2) = [] then [] else [(k, L ++ (l.filter (·.1 = k)).map (·.2))] := by
    intro l
    induction l with
    | nil => intro G L h; simpa using h
    | cons x l ih =>
      intro G L h
      simp only [List.foldl_cons]
      by_cases hx : x.1 = k
      · have h2 : (pushGroup x.1 x.2 G).filter (·.1 = k) = (if L ++ [x.2] = [] then [] else [(k, L ++ [x.2])]) := by
          rw [hx]
          by_cases hL : L = []
          · subst hL
            simp only [if_true] at h
            simpa using pushGroup_new k x.2 G h
          · rw [if_neg hL] at h
            rw [pushGroup_same k x.2 L G h]; simp
        rw [ih _ _ h2]
        simp [hx]
      · have h2 : (pushGroup x.1 x.2 G).filter (·.1 = k) = (if L = [] then [] else [(k, L)]) := by
          rw [pushGroup_other _ _ _ _ (Ne.symm hx)]; exact h
        have e : (x :: l).filter (·.1 = k) = l.filter (·.1 = k) := by simp [hx]
        rw [ih _ _ h2, e]
  simpa [group] using key l [] [] (by simp)

/-! ## The frames of a death -/

theorem sendFrame_asked (w : World B V) (f : NFrame B) (id : Nat) : (sendFrame w f id).asked = w.asked ++ [(id, f)] := by
  rw [sendFrame_act, asked_act]

theorem linkDownRemote_asked (me : Nat) (r : ExitReason) (gs : List (Nat × List Pid)) (w : World B V) :
    (linkDownRemote me r w gs).asked = w.asked ++ gs.map fun g => (g.1, .linkDown (g.2.map Pid.id) me r) := by
  induction gs generalizing w with
  | nil => simp [linkDownRemote]
  | cons g gs ih =>
    obtain ⟨k, ps⟩ := g
    rw [linkDownRemote, ih, sendFrame_asked]
    cases lookupNode w k with
    | none => simp
    | some node =>
      dsimp only
      rw [foldl_keep World.asked (fun w p => delNodeLink w node p me) (fun _ _ => rfl)]; simp

theorem monDownRemote_asked (r : ExitReason) (gs : List (Nat × List Ref)) (w : World B V) :
    (monDownRemote r w gs).asked = w.asked ++ gs.map fun g => (g.1, .monitorDown (g.2.map Ref.id) r) := by
  induction gs generalizing w with
  | nil => simp [monDownRemote]
  | cons g gs ih =>
    obtain ⟨k, ps⟩ := g
    rw [monDownRemote, ih, sendFrame_asked]
    cases lookupNode w k with
    | none => simp
    | some node =>
      dsimp only
      rw [foldl_keep World.asked (fun w p => delNodeMon w node p) (fun _ _ => rfl)]; simp

theorem exitLinked_asked (w : World B V) (i : Nat) (p : Pid) (r : ExitReason) : (exitLinked w i p r).asked = w.asked := by
  unfold exitLinked; split
  · rfl
  · split
    · unfold put; split <;> rfl
    · split <;> rfl

theorem linkDownLocal_asked (me : Nat) (r : ExitReason) (l : List Pid) (w : World B V) :
    (linkDownLocal me r w l).asked = w.asked := by
  induction l generalizing w with
  | nil => rfl
  | cons p ps ih => cases p with
    | loc i => rw [linkDownLocal, ih, exitLinked_asked]; rfl
    | rem i n => exact ih _

theorem monDownLocal_asked (r : ExitReason) (l : List (Ref × Pid × Option Dest)) (w : World B V) :
    (monDownLocal r w l).asked = w.asked :=
  monDownLocal_keep World.asked (by intro w i it; unfold put; split <;> rfl) (by intros; rfl) r l w

/-- The frames by which a dying process takes its own monitors back. -/
theorem monitorDestroyAll_asked (l : List (Ref × PMon)) (w : World B V) :
    ∃ L, (monitorDestroyAll w l).asked = w.asked ++ L ∧ ∀ x ∈ L, ∃ r m i, (r, m) ∈ l ∧ x = (r.node, .monitor false (some i) none none r.id) := by
  induction l generalizing w with
  | nil => exact ⟨[], by simp [monitorDestroyAll], by simp⟩
  | cons y l ih =>
    obtain ⟨r, m⟩ := y
    have lift : ∀ {L : List (Nat × NFrame B)}, (∀ x ∈ L, ∃ r' m' i, (r', m') ∈ l ∧ x = (r'.node, .monitor false (some i) none none r'.id)) →
        ∀ x ∈ L, ∃ r' m' i, (r', m') ∈ (r, m) :: l ∧ x = (r'.node, .monitor false (some i) none none r'.id) := by
      intro L h x hx
      obtain ⟨r', m', i, h1, h2⟩ := h x hx
      exact ⟨r', m', i, .tail _ h1, h2⟩
    have hd : ∀ w1 : World B V, (if r.isLocal then delAlias w1 r else w1).asked = w1.asked := by
      intro w1; split <;> rfl
    cases m with
    | forProcess p =>
      cases p with
      | none =>
        obtain ⟨L, h1, h2⟩ := ih w
        exact ⟨L, by rw [monitorDestroyAll]; exact h1, lift h2⟩
      | some pid =>
        simp only [monitorDestroyAll]
        cases pid with
        | loc i =>
          obtain ⟨L, h1, h2⟩ := ih (if r.isLocal then delAlias (delMon w i r) r else delMon w i r)
          exact ⟨L, by rw [h1, hd]; rfl, lift h2⟩
        | rem i n =>
          dsimp only
          obtain ⟨L, h1, h2⟩ := ih (if r.isLocal then delAlias (sendFrame w (.monitor false (some i) none none r.id) r.node) r
            else sendFrame w (.monitor false (some i) none none r.id) r.node)
          refine ⟨(r.node, .monitor false (some i) none none r.id) :: L, by rw [h1, hd, sendFrame_asked]; simp, ?_⟩
          intro x hx
          rcases List.mem_cons.1 hx with rfl | hx
          · exact ⟨r, _, i, List.mem_cons_self, rfl⟩
          · exact lift h2 x hx
    | forNode n =>
      rw [monitorDestroyAll]
      obtain ⟨L, h1, h2⟩ := ih (if r.isLocal then delAlias (delNodeMon w n r) r else delNodeMon w n r)
      exact ⟨L, by rw [h1, hd]; rfl, lift h2⟩

theorem aliasDestroyAll_asked (l : List Nat) (w : World B V) : (aliasDestroyAll w l).asked = w.asked := by
  rw [aliasDestroyAll_eq]

theorem removeProc_asked (w : World B V) (me : Nat) : (removeProc w me).asked = w.asked := by
  unfold removeProc; split
  · rfl
  · dsimp only; split <;> rfl

/-- The frames of a death: one LinkDown and one MonitorDown for each node that has links and monitors on the process, then those
by which it takes its own monitors back. -/
theorem dropProc_asked (w : World B V) (me : Nat) (p : Proc B V) (hp : w.procs me = some p) :
    ∃ L, (dropProc w me).asked = w.asked ++
        ((group (remotePids (w.links me))).map fun g => (g.1, .linkDown (g.2.map Pid.id) me (p.reason.getD .normal))) ++
        ((group (remoteRefs (w.mons me))).map fun g => (g.1, .monitorDown (g.2.map Ref.id) (p.reason.getD .normal))) ++ L ∧
      ∀ x ∈ L, ∃ r m i, (r, m) ∈ p.box.mons ∧ x = (r.node, .monitor false (some i) none none r.id) := by
  rw [dropProc_eq w me p hp, aliasDestroyAll_asked]
  obtain ⟨L, h1, h2⟩ := monitorDestroyAll_asked p.box.mons (monitorProcessDown (linkProcessDown (removeProc w me) me
      (p.reason.getD .normal)) me (p.reason.getD .normal))
  refine ⟨L, ?_, h2⟩
  rw [h1]
  unfold monitorProcessDown
  simp only [monDownRemote_asked, monDownLocal_asked, linkProcessDown_mons, removeProc_mons]
  unfold linkProcessDown
  simp only [linkDownRemote_asked, linkDownLocal_asked, removeProc_links, removeProc_asked]

theorem filter_map_pair {A C : Type} (l : List (Nat × A)) (f : Nat × A → C) (k : Nat) :
    ((l.map fun g => (g.1, f g)).filter (·.1 = k)).map (·.2) = (l.filter (·.1 = k)).map f := by
  induction l with
  | nil => rfl
  | cons x l ih =>
    simp only [List.map_cons, List.filter_cons]
    split <;> simp_all

/-- The frames of a death for node `k`. -/
theorem dropProc_askedFor (w : World B V) (me : Nat) (p : Proc B V) (hp : w.procs me = some p) (k : Nat)
    (hl : ∀ r m, (r, m) ∈ p.box.mons → r.node ≠ k) :
    let e := p.reason.getD .normal
    let ps := ((remotePids (w.links me)).filter (·.1 = k)).map (·.2)
    let rs := ((remoteRefs (w.mons me)).filter (·.1 = k)).map (·.2)
    askedFor k (dropProc w me) = askedFor k w ++ (if ps = [] then [] else [.linkDown (ps.map Pid.id) me e]) ++
      (if rs = [] then [] else [.monitorDown (rs.map Ref.id) e]) := by
  intro e ps rs
  obtain ⟨L, h1, h2⟩ := dropProc_asked w me p hp
  have hL : L.filter (·.1 = k) = [] := by
    rw [List.filter_eq_nil_iff]
    intro x hx
    obtain ⟨r, m, i, hm, rfl⟩ := h2 x hx
    simpa using hl r m hm
  unfold askedFor
  rw [h1]
  simp only [List.filter_append, List.map_append, hL, List.append_nil]
  rw [filter_map_pair (group (remotePids (w.links me))) (fun g => NFrame.linkDown (g.2.map Pid.id) me (p.reason.getD .normal)) k,
    filter_map_pair (group (remoteRefs (w.mons me))) (fun g => NFrame.monitorDown (g.2.map Ref.id) (p.reason.getD .normal)) k,
    group_at, group_at]
  congr 1
  · congr 1
    change (if ps = [] then [] else [(k, ps)]).map _ = _
    split <;> rfl
  · change (if rs = [] then [] else [(k, rs)]).map _ = _
    split <;> rfl

/-! ## References in the tables -/

/-- The monitors a process holds have references of this node. -/
def BoxLocal (w : World B V) : Prop := ∀ i p, w.procs i = some p → ∀ x ∈ p.box.mons, x.1.isLocal = true

theorem keeps_local : KeepsItem (B := B) (V := V) (fun m _ => ∀ x ∈ m, x.1.isLocal = true) (fun _ => True) := by
  intro T τ mons als it h1 _
  have hd : ∀ r, ∀ x ∈ dropMon mons r, x.1.isLocal = true := fun r x hx => h1 x (List.mem_filter.1 hx).1
  cases it <;> simp only [processItem]
  · split <;> exact ⟨h1, trivial⟩
  · split <;> exact ⟨h1, trivial⟩
  · exact ⟨h1, trivial⟩
  · split
    · exact ⟨hd _, trivial⟩
    · exact ⟨h1, trivial⟩
  · split
    · exact ⟨hd _, trivial⟩
    · exact ⟨h1, trivial⟩
  · refine ⟨?_, trivial⟩
    intro x hx
    obtain ⟨y, hy, rfl⟩ := List.mem_map.1 hx
    split <;> exact h1 y hy
  · exact ⟨h1, trivial⟩

theorem run_boxLocal (ser : V → B) (os : List (Op B V)) : BoxLocal (run ser init os) := by
  have : ∀ j b, pmap (·.box) (run ser (init : World B V) os) j = some b →
      BoxOk (fun m _ => ∀ x ∈ m, x.1.isLocal = true) (fun _ => True) b := by
    refine run_inv ser (fun w => ∀ j b, pmap (·.box) w j = some b →
      BoxOk (fun m _ => ∀ x ∈ m, x.1.isLocal = true) (fun _ => True) b) ?_ os init (by intro j b hb; simp [pmap, init] at hb)
    intro w a h j b hb
    refine boxOk_act keeps_local w a j (h j) (by simp) (by simp) (by simp) ?_ ?_ ?_ (by simp) b hb
    · intro m als als' h _; exact h
    · intro r m als _ h x hx; exact h x (List.mem_filter.1 hx).1
    · intro b m _ h x hx
      simp only [setMon] at hx
      rcases List.mem_append.1 hx with hx | hx
      · exact h x (List.mem_filter.1 hx).1
      · simp at hx; subst hx; rfl
  intro i p hp x hx
  exact (this i p.box (by simp [pmap, hp])).1 x hx

/-- A monitor of a process of node `k` has a reference of node `k`. -/
def MonsRemote (w : World B V) : Prop :=
  ∀ i r fid k d, (r, .rem fid k, d) ∈ w.mons i → ∃ m, r = .rem m k

theorem run_monsRemote (ser : V → B) (os : List (Op B V)) : MonsRemote (run ser (init : World B V) os) := by
  refine run_inv' ser MonsRemote (fun _ => True) ?_ os (fun _ _ => trivial) init (by intro i r fid k d h; simp [init] at h)
  intro w o _ _ w' a _ ha h i r fid k d hm
  rw [mons_act] at hm
  cases a <;> simp only [] at hm <;> try exact h i r fid k d hm
  · rename_i j r' frm
    simp only [upd_at] at hm
    split at hm
    · subst_vars
      rcases filter_append_single_mem _ _ _ _ hm with hm | hm
      · exact h _ r fid k d hm
      · cases hm
        obtain ⟨rp, N, p, nm, fid', n, -, h1, h2, -⟩ := ha
        cases h2
        exact ⟨n, h1⟩
    · exact h i r fid k d hm
  · simp only [upd_at] at hm
    split at hm
    · subst_vars; exact h _ r fid k d (List.mem_filter.1 hm).1
    · exact h i r fid k d hm
  · simp only [upd_at] at hm
    split at hm
    · simp at hm
    · exact h i r fid k d hm
  · simp only [upd_at] at hm
    split at hm
    · subst_vars
      rcases filter_append_single_mem _ _ _ _ hm with hm | hm
      · exact h _ r fid k d hm
      · cases hm
    · exact h i r fid k d hm

theorem nodeRegister_id {w : World B V} (hi : NodeInv (nt w)) {N : Node} {id : Nat} (hN : N ≠ .loc) (hm : w.nodeMap N = some id) {n : Node}
    (h : (nodeRegister w n false).2 = id) : n = N := by
  have hr := hi.range N id hm
  have hid : 0 < id ∧ id < w.nextNode := by
    rcases hr with ⟨h, -⟩ | ⟨-, h1, h2⟩
    · exact absurd h hN
    · exact ⟨h1, h2⟩
  unfold nodeRegister at h
  split at h
  · simp [LOCAL_NODE_ID] at h; omega
  · split at h
    · rename_i k hk
      simp at h
      subst h
      exact hi.inj _ _ _ hk hm
    · simp at h; omega

theorem nodeRegister_idle {w : World B V} {N : Node} {id : Nat} (hN : N ≠ .loc) (hm : w.nodeMap N = some id) :
    nodeRegister w N false = (w, id) := by
  unfold nodeRegister
  split
  · exact absurd rfl hN
  · simp [hm]

/-- References and links of node `id` are filed under node `N` only. -/
def Filed (N : Node) (id : Nat) (w : World B V) : Prop :=
  (∀ M x, x ∈ w.nodeMons M → x.1.node = id → M = N) ∧ ∀ M x, x ∈ w.nodeLinks M → x.1.node = id → M = N

theorem lookupNode_id {w : World B V} (hi : NodeInv (nt w)) {N n : Node} {id : Nat} (hN : N ≠ .loc) (hm : w.nodeMap N = some id)
    (h : lookupNode w id = some n) : n = N := by
  obtain ⟨g, h1, h2⟩ := hi.reg N id hm
  have h1 : w.nodeRegs id = some g := h1
  unfold lookupNode at h
  rw [h1] at h
  simp at h
  rw [← h, h2 hN]

theorem filed_act {N : Node} {id : Nat} (hN : N ≠ .loc) {w : World B V} {o : Op B V} (hi : NodeInv (nt w)) (hm : w.nodeMap N = some id)
    {w' : World B V} {a : Atom B V} (ha : AtomOf w o a) (h : Filed N id w') : Filed N id (act w' a) := by
  have hid : id ≠ 0 := by
    rcases hi.range N id hm with ⟨h, -⟩ | ⟨-, h1, h2⟩
    · exact absurd h hN
    · omega
  constructor
  · intro M x hx hk
    rw [nodeMons_act] at hx
    cases a <;> simp only [] at hx <;> try exact h.1 M x hx hk
    all_goals
      simp only [upd_at] at hx
      split at hx
      rotate_left
      · exact h.1 M x hx hk
    all_goals subst_vars
    · rcases filter_append_single_mem _ _ _ _ hx with hx | rfl
      · exact h.1 _ x hx rfl
      · exact absurd rfl hid
    · rcases filter_append_single_mem _ _ _ _ hx with hx | rfl
      · exact h.1 _ x hx rfl
      · obtain ⟨rp, p, nm, fid, k, -, hr⟩ := ha
        simp only [hr] at hm
        exact nodeRegister_id hi hN hm rfl
    · exact h.1 _ x (List.mem_filter.1 hx).1 rfl
    · simp at hx
  · intro M x hx hk
    rw [nodeLinks_act] at hx
    cases a <;> simp only [] at hx <;> try exact h.2 M x hx hk
    all_goals
      simp only [upd_at] at hx
      split at hx
      rotate_left
      · exact h.2 M x hx hk
    all_goals subst_vars
    · split at hx
      · exact h.2 _ x hx rfl
      · rcases List.mem_append.1 hx with hx | hx
        · exact h.2 _ x hx rfl
        · simp at hx; subst hx
          obtain ⟨-, ⟨-, hl⟩ | ⟨rp, fid, -, hr⟩⟩ := ha
          · exact lookupNode_id hi hN hm hl
          · simp only [hr] at hm
            exact nodeRegister_id hi hN hm rfl
    · exact h.2 _ x (List.mem_filter.1 hx).1 rfl
    · simp at hx

theorem filed_acts {N : Node} {id : Nat} (hN : N ≠ .loc) {w w' : World B V} {o : Op B V} (hi : NodeInv (nt w)) (hm : w.nodeMap N = some id)
    (h : Filed N id w) (ha : Acts (AtomOf w o) w w') : Filed N id w' :=
  ha.inv h fun _ _ hx h => filed_act hN hi hm hx h

/-! ## One remote monitor in the table of the monitored node -/

/-- The entries for reference `r` of process `i`. -/
def entries (r : Ref) (i : Nat) (w : World B V) : List (Ref × Pid × Option Dest) := (w.mons i).filter fun x => x.1 = r

/-- What can change the entries of a reference `.rem m id` of node `N`, apart from deaths: the loss of the connection and frames of that
node for the reference. -/
def Touches (N : Node) (m : Nat) (o : Op B V) : Prop :=
  (∃ p, o = .supDown N p) ∨ ∃ rp i p nm frm, o = .frame rp N (.monitor i p nm frm m)

theorem mem_of_filter_ne {A : Type} (l : List (Ref × A)) (r r' : Ref) (h : r' ≠ r) (l' : List (Ref × A)) (hl : ∀ x ∈ l', x.1 = r') :
    (l.filter (fun x => x.1 ≠ r') ++ l').filter (fun x => x.1 = r) = l.filter (fun x => x.1 = r) := by
  rw [List.filter_append, filter_ne_filter _ _ _ (Ne.symm h)]
  have : l'.filter (fun x => x.1 = r) = [] := by
    rw [List.filter_eq_nil_iff]; intro x hx; simp [hl x hx, h]
  rw [this, List.append_nil]

theorem entries_act {N : Node} {id m : Nat} (hN : N ≠ .loc) {w : World B V} {o : Op B V} (hi : NodeInv (nt w)) (hm : w.nodeMap N = some id)
    (hf : Filed N id w) (hb : BoxLocal w) (ho : ¬ Touches N m o) {w' : World B V} {a : Atom B V} (ha : AtomOf w o a) (i : Nat) :
    entries (.rem m id) i (act w' a) = entries (.rem m id) i w' ∨ (o = .drop i ∧ entries (.rem m id) i (act w' a) = []) := by
  unfold entries
  rw [mons_act]
  cases a <;> simp only [upd_at] <;> try exact .inl trivial
  all_goals
    split
    rotate_left
    · exact .inl rfl
  all_goals subst_vars
  · rename_i r frm
    left
    obtain ⟨rp, M, p, nm, fid, n, rfl, rfl, rfl, -⟩ := ha
    have hne : Ref.rem n (nodeRegister w M false).2 ≠ .rem m id := by
      intro h
      injection h with h1 h2
      subst h1
      have := nodeRegister_id hi hN hm h2
      subst this
      exact ho (.inr ⟨_, _, _, _, _, rfl⟩)
    exact mem_of_filter_ne _ _ _ hne _ (by simp)
  · rename_i r
    left
    have hne : r ≠ .rem m id := by
      rintro rfl
      rcases ha with ⟨me, p, mm, -, hp, hx⟩ | ⟨M, hx, p, rfl⟩ | ⟨rp, M, p, nm, fid, n, rfl, h⟩
      · have := hb me p hp _ hx; simp [Ref.isLocal] at this
      · have := hf.1 M _ hx rfl
        subst this
        exact ho (.inl ⟨p, rfl⟩)
      · injection h with h1 h2
        subst h1
        have := nodeRegister_id hi hN hm h2.symm
        subst this
        exact ho (.inr ⟨_, _, _, _, _, rfl⟩)
    exact filter_ne_filter _ _ _ (Ne.symm hne)
  · right; exact ⟨rfl, by simp⟩
  · left; exact mem_of_filter_ne _ _ _ (by simp) _ (by simp)

theorem entries_acts {N : Node} {id m : Nat} (hN : N ≠ .loc) {w w' : World B V} {o : Op B V} (hi : NodeInv (nt w)) (hm : w.nodeMap N = some id)
    (hf : Filed N id w) (hb : BoxLocal w) (ho : ¬ Touches N m o) (ha : Acts (AtomOf w o) w w') (i : Nat) :
    entries (.rem m id) i w' = entries (.rem m id) i w ∨ (o = .drop i ∧ entries (.rem m id) i w' = []) :=
  ha.inv (I := fun w' => entries (.rem m id) i w' = entries (.rem m id) i w ∨ (o = .drop i ∧ entries (.rem m id) i w' = []))
    (.inl rfl) fun w1 a hx h => by
      rcases entries_act hN hi hm hf hb ho (w' := w1) hx i with h1 | h1
      · rw [h1]; exact h
      · exact .inr h1

theorem exists_act {w : World B V} {o : Op B V} {w' : World B V} {a : Atom B V} (ha : AtomOf w o a) (i : Nat) (h : exists? w' i = true)
    (ho : o ≠ .drop i) : exists? (act w' a) i = true := by
  unfold exists? at *
  rw [ex_act]
  cases a <;> simp only [] <;> try exact h
  · simp [h]
  · rename_i j
    have : i ≠ j := by rintro rfl; exact ho ha
    simp [h, this]

theorem exists_acts {w w' : World B V} {o : Op B V} (ha : Acts (AtomOf w o) w w') (i : Nat) (h : exists? w i = true)
    (ho : o ≠ .drop i) : exists? w' i = true :=
  ha.inv (I := fun w => exists? w i = true) h fun _ _ hx h => exists_act hx i h ho

end Verif.World
