import Verif.TwoNodeProps
/-!
# Links between two connected nodes (C51)
-/
namespace Verif.World
open Verif.Mailbox
variable {B V : Type}

/-! ## One side -/

theorem links_keep {ser : V → B} {N : Node} {id s : Nat} {w : World B V} (h : Side ser N id s w) {o : Op B V} (hu : Undisturbed N s o) {t a : Nat}
    (hd : o ≠ .drop a) (hf : ∀ rp, o ≠ .frame rp N (.link false a t)) (hl : Pid.rem t id ∈ w.links a) :
    Pid.rem t id ∈ (step ser w o).1.links a := by
  refine (step_acts ser w o).inv (I := fun w => Pid.rem t id ∈ w.links a) hl ?_
  intro w' x hx hw
  rw [links_act]
  cases x <;> simp only [upd_at] <;> try exact hw
  · split
    · subst_vars
      split
      · exact hw
      · exact List.mem_append_left _ hw
    · exact hw
  · rename_i i p
    split
    · subst_vars
      refine List.mem_filter.2 ⟨hw, ?_⟩
      simp only [ne_eq, decide_eq_true_eq]
      rintro rfl
      rcases hx with ⟨j, h1, -⟩ | ⟨rp, M, fid, ho, h1⟩ | ⟨n, h1, q, ho⟩
      · cases h1
      · injection h1 with h1 h2
        subst h1
        have := nodeRegister_id h.inv h.ne h.map h2.symm
        subst this
        exact hf rp ho
      · have := h.filed.2 n _ h1 rfl
        subst this
        rw [ho] at hu
        exact hu rfl
    · exact hw
  · split
    · rename_i h0; subst h0; exact absurd hx hd
    · exact hw

theorem nodeLinks_keep {ser : V → B} {N : Node} {w : World B V} {o : Op B V} {a i k : Nat} (ho : ¬ LEnds a i k N o)
    (h : (Pid.rem i k, a) ∈ w.nodeLinks N) : (Pid.rem i k, a) ∈ (step ser w o).1.nodeLinks N :=
  (step_acts ser w o).inv (I := fun w => (Pid.rem i k, a) ∈ w.nodeLinks N) h fun _ _ hx hw => linked_act ho hx hw

theorem exitLinked_nodeLinks (w : World B V) (i : Nat) (p : Pid) (r : ExitReason) : (exitLinked w i p r).nodeLinks = w.nodeLinks := by
  unfold exitLinked; split
  · rfl
  · split
    · unfold put; split <;> rfl
    · split <;> rfl

/-- What the arrival of the news does to `a`. -/
theorem linkDown_fold (frm : Pid) (N : Node) (a : Nat) (e : ExitReason) (ls : List Nat) : ∀ w : World B V,
    let w' := ls.foldl (fun w i => nodeLinkDown w N i frm e) w
    if a ∈ ls ∧ (frm, a) ∈ w.nodeLinks N then
      w'.procs a = (w.procs a).map (signalled frm e) ∧ exitsFrom frm a w'.sent = exitsFrom frm a w.sent ++ signalMsg w frm e a
    else w'.procs a = w.procs a ∧ exitsFrom frm a w'.sent = exitsFrom frm a w.sent := by
  induction ls with
  | nil => intro w; simp
  | cons j ls ih =>
    intro w
    simp only [List.foldl_cons]
    have ih := ih (nodeLinkDown w N j frm e)
    dsimp only at ih ⊢
    have hnl : (nodeLinkDown w N j frm e).nodeLinks = upd w.nodeLinks N ((w.nodeLinks N).filter (· ≠ (frm, j))) := by
      unfold nodeLinkDown
      dsimp only
      split
      · rw [exitLinked_nodeLinks]; rfl
      · rfl
    by_cases hj : j = a
    · subst hj
      have hn : ¬ (j ∈ ls ∧ (frm, j) ∈ (nodeLinkDown w N j frm e).nodeLinks N) := by
        rw [hnl]; simp [upd_at]
      rw [if_neg hn] at ih
      by_cases hin : (frm, j) ∈ w.nodeLinks N
      · rw [if_pos ⟨List.mem_cons_self, hin⟩]
        have e1 : nodeLinkDown w N j frm e = exitLinked (delNodeLink w N frm j) j frm e := by
          unfold nodeLinkDown; simp [hin]
        rw [ih.1, ih.2, e1, exitLinked_procs', exitLinked_sent', exitsFrom_append]
        refine ⟨by simp [upd_at], ?_⟩
        have : signalMsg (delNodeLink w N frm j) frm e j = signalMsg w frm e j := rfl
        rw [this]
        congr 1
        unfold exitsFrom
        rw [List.filter_eq_self]
        intro y hy
        unfold signalMsg at hy
        split at hy
        · split at hy
          · simp at hy; subst hy; simp
          · simp at hy
        · simp at hy
      · rw [if_neg (fun h => hin h.2)]
        have e1 : nodeLinkDown w N j frm e = delNodeLink w N frm j := by
          unfold nodeLinkDown; simp [hin]
        rw [ih.1, ih.2, e1]
        exact ⟨rfl, rfl⟩
    · have h1 : (nodeLinkDown w N j frm e).procs a = w.procs a := by
        unfold nodeLinkDown
        dsimp only
        split
        · rw [exitLinked_procs']; simp only [upd_at, Ne.symm hj, if_false]; rfl
        · rfl
      have h2 : exitsFrom frm a (nodeLinkDown w N j frm e).sent = exitsFrom frm a w.sent := by
        unfold nodeLinkDown
        dsimp only
        split
        · rw [exitLinked_sent', exitsFrom_append]
          have : exitsFrom frm a (signalMsg (delNodeLink w N frm j) frm e j) = [] := by
            unfold exitsFrom
            rw [List.filter_eq_nil_iff]
            intro y hy
            unfold signalMsg at hy
            split at hy
            · split at hy
              · simp at hy; subst hy; simp [hj]
              · simp at hy
            · simp at hy
          rw [this, List.append_nil]; rfl
        · rfl
      have h3 : signalMsg (nodeLinkDown w N j frm e) frm e a = signalMsg w frm e a := by unfold signalMsg; rw [h1]
      have hiff : (a ∈ j :: ls ∧ (frm, a) ∈ w.nodeLinks N) ↔ (a ∈ ls ∧ (frm, a) ∈ (nodeLinkDown w N j frm e).nodeLinks N) := by
        rw [hnl]
        have : a ≠ j := Ne.symm hj
        simp [upd_at, this]
      simp only [hiff]
      rw [h1, h2, h3] at ih
      exact ih

/-- `a` gets an exit signal from `frm` with reason `e` between `w` and `w'`: a message if it traps exits, and else it is terminated with
this reason unless the reason is normal. -/
def Signal (frm : Pid) (a : Nat) (e : ExitReason) (w w' : World B V) : Prop :=
  ∃ q q', w.procs a = some q ∧ w'.procs a = some q' ∧
    (q.trap = true → exitsFrom frm a w'.sent = exitsFrom frm a w.sent ++ [(a, .system (.exit frm e))]) ∧
    (q.trap = false → isNormal e = false → q'.reason = some e ∧ q'.aborted = true)

theorem linkDown_signal {N : Node} {id : Nat} (hN : N ≠ .loc) {w : World B V} (hm : w.nodeMap N = some id) (rp i a : Nat) (ls : List Nat)
    (e : ExitReason) (ha : a ∈ ls) (hl : (Pid.rem i id, a) ∈ w.nodeLinks N) (hex : exists? w a = true) :
    Signal (.rem i id) a e w (recvFrame w N rp (.linkDown ls i e)) := by
  have := linkDown_fold (.rem i id) N a e ls w
  dsimp only at this
  rw [if_pos ⟨ha, hl⟩] at this
  have hr : recvFrame w N rp (.linkDown ls i e) = ls.foldl (fun w j => nodeLinkDown w N j (.rem i id) e) w := by
    simp only [recvFrame, nodeRegister_idle hN hm]
  rw [hr]
  obtain ⟨h1, h2⟩ := this
  unfold exists? at hex
  cases hq : w.procs a with
  | none => rw [hq] at hex; simp at hex
  | some q =>
    rw [hq] at h1
    refine ⟨q, _, hq, h1, ?_, ?_⟩
    · intro ht; rw [h2]; simp [signalMsg, hq, ht]
    · intro ht hn; simp [signalled, ht, hn]

/-! ## The frames of a death -/

theorem death_news {ser : V → B} {N : Node} {id s : Nat} {w : World B V} (h : Side ser N id s w) {t a : Nat} {p : Proc B V}
    (hp : w.procs t = some p) (hl : Pid.rem a id ∈ w.links t) {new : List (NFrame B)} (hn : askedFor id (dropProc w t) = askedFor id w ++ new) :
    ∃ ls rest, new = .linkDown ls t (p.reason.getD .normal) :: rest ∧ a ∈ ls := by
  have hfr := dropProc_askedFor w t p hp id (by
    intro r m hm' hk
    have := h.boxLocal t p hp _ hm'
    cases r with
    | loc i => exact h.id_ne hk.symm
    | rem i k => simp [Ref.isLocal] at this)
  dsimp only at hfr
  rw [hn, List.append_assoc] at hfr
  have hnew := List.append_cancel_left hfr
  have hin : Pid.rem a id ∈ ((remotePids (w.links t)).filter (fun x => decide (x.1 = id))).map (fun x => x.2) := by
    refine List.mem_map.2 ⟨(id, .rem a id), List.mem_filter.2 ⟨?_, by simp⟩, rfl⟩
    exact List.mem_filterMap.2 ⟨_, hl, rfl⟩
  generalize ((remotePids (w.links t)).filter (fun x => decide (x.1 = id))).map (fun x => x.2) = ps at hnew hin
  have hps : ps ≠ [] := by rintro rfl; simp at hin
  rw [if_neg hps] at hnew
  exact ⟨ps.map Pid.id, _, by rw [hnew]; rfl, List.mem_map.2 ⟨_, hin, rfl⟩⟩

/-! ## The link between `a` of the left and `t` of the right node -/

/-- `e` is the right reason for an exit signal from `t` to `a`: `t` died with this reason during `l`, or it did not exist when a request for
a link arrived. -/
def LinkWhy (ser : Sers V B) (c : Conn) (d : Duo B V) (t a : Nat) (l : List (DOp B V)) (e : ExitReason) : Prop :=
  (∃ x y p, l = x ++ .right (.drop t) :: y ∧ (drun ser c d x).R.procs t = some p ∧ doomed (drun ser c d x).R t = true ∧
    e = p.reason.getD .normal) ∨
  (e = .custom "noproc" ∧ ∃ x rp y, l = x ++ .toR rp :: y ∧ (drun ser c d x).nextR c = some (.link true t a) ∧
    exists? (drun ser c d x).R t = false)

theorem LinkWhy.snoc {ser : Sers V B} {c : Conn} {d : Duo B V} {t a : Nat} {l : List (DOp B V)} {e : ExitReason}
    (h : LinkWhy ser c d t a l e) (s : DOp B V) : LinkWhy ser c d t a (l ++ [s]) e := by
  rcases h with ⟨x, y, p, h1, h2⟩ | ⟨h0, x, rp, y, h1, h2⟩
  · exact .inl ⟨x, y ++ [s], p, by rw [h1]; simp, h2⟩
  · exact .inr ⟨h0, x, rp, y ++ [s], by rw [h1]; simp, h2⟩

structure LInv (ser : Sers V B) (c : Conn) (d : Duo B V) (t a : Nat) (l : List (DOp B V)) : Prop where
  conn : CInv ser c (drun ser c d l)
  why : ∀ ls e, NFrame.linkDown ls t e ∈ onLine c.nL c.sR (drun ser c d l).R → a ∈ ls → LinkWhy ser c d t a l e

theorem linv_step {ser : Sers V B} {c : Conn} {d : Duo B V} {t a : Nat} {l : List (DOp B V)} (h : LInv ser c d t a l) (s : DOp B V)
    (hs : Legal c s) : LInv ser c d t a (l ++ [s]) := by
  obtain ⟨hc, hm⟩ := dstep_moves h.conn s hs
  rw [← drun_snoc] at hc hm
  refine ⟨hc, ?_⟩
  intro ls e hf ha
  rcases hm with ⟨h0, -⟩ | ⟨o, k, hm, -⟩ | ⟨o, k, hm, hso⟩
  · rw [h0] at hf; exact (h.why ls e hf ha).snoc s
  · rw [hm.R] at hf; exact (h.why ls e hf ha).snoc s
  · obtain ⟨new, -, g2, g3, g4⟩ := hm.new
    rw [g2] at hf
    rcases List.mem_append.1 hf with hf | hf
    · exact (h.why ls e hf ha).snoc s
    · rcases g4 _ hf with ⟨p, rfl, hp, he, -⟩ | ⟨rp, N, i, ho, rfl, he, hid, hex⟩
      · have hdm : doomed (drun ser c d l).R t = true := by
          cases hdm : doomed (drun ser c d l).R t with
          | true => rfl
          | false =>
            have : (drun ser c d (l ++ [s])).R = (drun ser c d l).R := by rw [hm.R]; simp [step, Op.caller, Op.exec, hdm]
            rw [this] at g3
            have : new = [] := by simpa using g3
            subst this; simp at hf
        rcases hso with rfl | ⟨rp, f, -, h2, -⟩
        · exact .inl ⟨l, [], p, rfl, hp, hdm, he⟩
        · cases h2
      · simp at ha; subst ha
        obtain ⟨rfl, h2, h3, h4⟩ := rmove_frame h.conn hm ho hid.symm
        rcases hso with rfl | ⟨rp', f, rfl, h5, h6⟩
        · exact absurd ho (hs.2 rp _)
        · rw [ho] at h5; cases h5
          exact .inr ⟨he, l, rp, [], rfl, h6, hex⟩

theorem linv_run {ser : Sers V B} {c : Conn} {d : Duo B V} {t a : Nat} (l : List (DOp B V)) (hb : Begins ser c d) (hl : ∀ s ∈ l, Legal c s) :
    LInv ser c d t a l := by
  have key : ∀ (l' l : List (DOp B V)), (∀ s ∈ l', Legal c s) → LInv ser c d t a l → LInv ser c d t a (l ++ l') := by
    intro l'
    induction l' with
    | nil => intro l _ h; simpa using h
    | cons s l' ih =>
      intro l hl' h
      have := ih (l ++ [s]) (fun s hs => hl' s (.tail _ hs)) (linv_step h s (hl' s List.mem_cons_self))
      simpa using this
  refine key l [] hl ⟨hb.cinv, ?_⟩
  intro ls e hf
  have hr : onLine c.nL c.sR d.R = [] := by unfold onLine; rw [hb.readyR.handed, hb.readyR.pending]; rfl
  rw [show drun ser c d [] = d from rfl, hr] at hf; simp at hf

/-- During `l` (after `pre`), `a` of the left node gets an exit signal from `t` of the right node. -/
def SignalledL (ser : Sers V B) (c : Conn) (d : Duo B V) (t a : Nat) (pre l : List (DOp B V)) : Prop :=
  ∃ x s y e, l = x ++ s :: y ∧ LinkWhy ser c d t a (pre ++ x) e ∧
    Signal (.rem t c.idR) a e (drun ser c d (pre ++ x)).L (drun ser c d (pre ++ x ++ [s])).L

/-- The link is on its way or in place, or the news are on their way. -/
structure Linked1 (c : Conn) (t a : Nat) (d : Duo B V) : Prop where
  ex : exists? d.L a = true
  link : (Pid.rem t c.idR, a) ∈ d.L.nodeLinks c.nR
  noR : NFrame.link false t a ∉ toRight c d
  noL : NFrame.link false a t ∉ toLeft c d
  state : NFrame.link true t a ∈ toRight c d ∨ (Pid.rem a c.idL ∈ d.R.links t ∧ exists? d.R t = true) ∨
    ∃ ls e, NFrame.linkDown ls t e ∈ toLeft c d ∧ a ∈ ls

theorem lmove_noR {ser : Sers V B} {c : Conn} {d d' : Duo B V} {t a : Nat} {o : Op B V} {k : List (NFrame B)} (hm : LMove ser c d d' o k)
    (ho : o ≠ .unlink a (.rem t c.idR)) (h : NFrame.link false t a ∉ toRight c d) : NFrame.link false t a ∉ toRight c d' := by
  obtain ⟨new, g1, -, -, g4⟩ := hm.new
  rw [g1]
  intro hf
  rcases List.mem_append.1 hf with hf | hf
  · exact h hf
  · exact ho (g4 _ hf)

theorem rmove_noL {ser : Sers V B} {c : Conn} {d d' : Duo B V} {t a : Nat} {o : Op B V} {k : List (NFrame B)} (hm : RMove ser c d d' o k)
    (ho : o ≠ .unlink t (.rem a c.idL)) (h : NFrame.link false a t ∉ toLeft c d) : NFrame.link false a t ∉ toLeft c d' := by
  obtain ⟨new, g1, -, -, g4⟩ := hm.new
  rw [g1]
  intro hf
  rcases List.mem_append.1 hf with hf | hf
  · exact h hf
  · exact ho (g4 _ hf)

theorem link_frame {N : Node} {id : Nat} (hN : N ≠ .loc) {w : World B V} (hm : w.nodeMap N = some id) (rp t a : Nat) :
    if exists? w t then Pid.rem a id ∈ (recvFrame w N rp (.link true t a)).links t ∧ (Pid.rem a id, t) ∈ (recvFrame w N rp (.link true t a)).nodeLinks N
    else askedFor id (recvFrame w N rp (.link true t a)) = askedFor id w ++ [.linkDown [a] t (.custom "noproc")] := by
  simp only [recvFrame, nodeRegister_idle hN hm]
  split
  · simp only [if_true]
    refine ⟨?_, ?_⟩
    · simp only [addNodeLink_links_eq, addLink_links_eq, upd_at, if_true]
      split
      · assumption
      · simp
    · simp only [addNodeLink_nodeLinks_eq, upd_at, if_true]
      split
      · assumption
      · simp
  · simp only [if_true]
    unfold askedFor
    simp [sendFrame_asked]

/-- One step: the link stays, or the signal comes. -/
theorem linked1_step {ser : Sers V B} {c : Conn} {d : Duo B V} {t a : Nat} {l : List (DOp B V)} (hi : LInv ser c d t a l)
    (h : Linked1 c t a (drun ser c d l)) (s : DOp B V) (hs : Legal c s)
    (h1 : ∀ o, s = .left o → o ≠ .drop a ∧ o ≠ .unlink a (.rem t c.idR)) (h2 : s ≠ .right (.unlink t (.rem a c.idL))) :
    Linked1 c t a (drun ser c d (l ++ [s])) ∨
    ∃ e, LinkWhy ser c d t a l e ∧ Signal (.rem t c.idR) a e (drun ser c d l).L (drun ser c d (l ++ [s])).L := by
  obtain ⟨hc, hm⟩ := dstep_moves hi.conn s hs
  rw [← drun_snoc] at hc hm
  rcases hm with ⟨h0, -⟩ | ⟨o, k, hm, hso⟩ | ⟨o, k, hm, hso⟩
  · rw [h0]; exact .inl h
  · -- left moves
    have hdrop : o ≠ .drop a := by
      rcases hso with rfl | ⟨rp, f, -, rfl, -⟩
      · exact (h1 o rfl).1
      · simp
    have hunl : o ≠ .unlink a (.rem t c.idR) := by
      rcases hso with rfl | ⟨rp, f, -, rfl, -⟩
      · exact (h1 o rfl).2
      · simp
    obtain ⟨new, g1, -, -, g4⟩ := hm.new
    have hexa : exists? (drun ser c d (l ++ [s])).L a = true := by rw [hm.L]; exact exists_acts (step_acts ser.L _ o) a h.ex hdrop
    have hsub : ∀ f, f ∈ toLeft c (drun ser c d (l ++ [s])) → f ∈ toLeft c (drun ser c d l) := by
      intro f hf; rw [hm.got]; exact List.mem_append_right _ hf
    by_cases ht : ∃ rp ls e, o = .frame rp c.nR (.linkDown ls t e) ∧ a ∈ ls
    · obtain ⟨rp, ls, e, rfl, ha⟩ := ht
      rcases hm.from_ with ⟨-, h3⟩ | ⟨rp', f, rfl, h3, h4, h5⟩
      · exact absurd rfl (h3 rp _)
      · cases h3
        right
        refine ⟨e, hi.why ls e h5 ha, ?_⟩
        rw [hm.L]
        simp only [step, Op.caller, h4, if_true, Op.exec]
        exact linkDown_signal hi.conn.left.ne hi.conn.left.map rp t a ls e ha h.link h.ex
    · left
      have hne : ¬ LEnds a t c.idR c.nR o := by
        rintro (h3 | h3 | ⟨p, h3⟩ | ⟨rp, ls, e, h3, h4⟩ | ⟨rp, h3⟩)
        · exact hdrop h3
        · exact hunl h3
        · have := hm.und; rw [h3] at this; exact this rfl
        · exact ht ⟨rp, ls, e, h3, h4⟩
        · rcases hm.from_ with ⟨-, h4⟩ | ⟨rp', f, rfl, h4, -⟩
          · exact h4 rp _ h3
          · rw [h3] at h4; cases h4
            exact h.noL (by rw [hm.got]; simp)
      refine ⟨hexa, by rw [hm.L]; exact nodeLinks_keep hne h.link, lmove_noR hm hunl h.noR, fun hf => h.noL (hsub _ hf), ?_⟩
      rcases h.state with h3 | h3 | ⟨ls, e, h3, h4⟩
      · exact .inl (by rw [g1]; exact List.mem_append_left _ h3)
      · exact .inr (.inl (by rw [hm.R]; exact h3))
      · refine .inr (.inr ⟨ls, e, ?_, h4⟩)
        rw [hm.got] at h3
        rcases List.mem_append.1 h3 with h3 | h3
        · exfalso
          rcases hm.from_ with ⟨rfl, -⟩ | ⟨rp, f, rfl, h5, -⟩
          · simp at h3
          · simp at h3; subst h3
            exact ht ⟨rp, ls, e, h5, h4⟩
        · exact h3
  · -- right moves
    left
    have hunl : o ≠ .unlink t (.rem a c.idL) := by
      rcases hso with rfl | ⟨rp, f, -, rfl, -⟩
      · rintro rfl; exact h2 rfl
      · simp
    obtain ⟨new, g1, -, g3, g4⟩ := hm.new
    have hsub : ∀ f, f ∈ toRight c (drun ser c d (l ++ [s])) → f ∈ toRight c (drun ser c d l) := by
      intro f hf; rw [hm.got]; exact List.mem_append_right _ hf
    refine ⟨by rw [hm.L]; exact h.ex, by rw [hm.L]; exact h.link, fun hf => h.noR (hsub _ hf), rmove_noL hm hunl h.noL, ?_⟩
    rcases h.state with h3 | ⟨h3, h4⟩ | ⟨ls, e, h3, h4⟩
    · rw [hm.got] at h3
      rcases List.mem_append.1 h3 with h3 | h3
      · rcases hm.from_ with ⟨rfl, -⟩ | ⟨rp, f, rfl, h5, h6, -⟩
        · simp at h3
        · simp at h3; subst h3
          have hfr := link_frame hi.conn.right.ne hi.conn.right.map rp t a
          have hR : (drun ser c d (l ++ [s])).R = recvFrame (drun ser c d l).R c.nL rp (.link true t a) := by
            rw [hm.R, h5]; simp [step, Op.caller, h6, Op.exec]
          rw [← hR] at hfr
          split at hfr
          · rename_i hex
            refine .inr (.inl ⟨hfr.1, ?_⟩)
            rw [hm.R, h5]
            exact exists_acts (step_acts ser.R _ _) t hex (by simp)
          · rw [g3] at hfr
            have hfr := List.append_cancel_left hfr
            exact .inr (.inr ⟨[a], .custom "noproc", by rw [g1, hfr]; simp, by simp⟩)
      · exact .inl h3
    · by_cases hd : o = .drop t ∧ doomed (drun ser c d l).R t = true
      · obtain ⟨rfl, hdm⟩ := hd
        obtain ⟨p, hp⟩ : ∃ p, (drun ser c d l).R.procs t = some p := by
          unfold exists? at h4; cases h : (drun ser c d l).R.procs t <;> simp_all
        have hR : (drun ser c d (l ++ [s])).R = dropProc (drun ser c d l).R t := by rw [hm.R]; simp [step, Op.caller, Op.exec, hdm]
        rw [hR] at g3
        obtain ⟨ls, rest, k1, k2⟩ := death_news hi.conn.right hp h3 g3
        exact .inr (.inr ⟨ls, p.reason.getD .normal, by rw [g1, k1]; simp, k2⟩)
      · by_cases hd2 : o = .drop t
        · have hR : (drun ser c d (l ++ [s])).R = (drun ser c d l).R := by
            have : doomed (drun ser c d l).R t = false := by
              cases hdm : doomed (drun ser c d l).R t with
              | true => exact absurd ⟨hd2, hdm⟩ hd
              | false => rfl
            rw [hm.R, hd2]; simp [step, Op.caller, Op.exec, this]
          exact .inr (.inl (by rw [hR]; exact ⟨h3, h4⟩))
        · refine .inr (.inl ⟨?_, by rw [hm.R]; exact exists_acts (step_acts ser.R _ o) t h4 hd2⟩)
          rw [hm.R]
          refine links_keep hi.conn.right hm.und hd2 ?_ h3
          intro rp ho
          rcases hm.from_ with ⟨-, h5⟩ | ⟨rp', f, rfl, h5, -⟩
          · exact h5 rp _ ho
          · rw [ho] at h5; cases h5
            exact h.noR (by rw [hm.got]; simp)
    · exact .inr (.inr ⟨ls, e, by rw [g1]; exact List.mem_append_left _ h3, h4⟩)

/-- The request that a link operation makes. -/
theorem link_asks {ser : V → B} {N : Node} {id s : Nat} {w : World B V} (h : Side ser N id s w) {a t : Nat} (hrun : running w a = true) :
    lookupNode w id = some N ∧ askedFor id (step ser w (.link a (.rem t id))).1 = askedFor id w ++ [.link true t a] := by
  have hl : lookupNode w id = some N := by
    obtain ⟨g, h1, h2⟩ := h.inv.reg N id h.map
    have h1 : w.nodeRegs id = some g := h1
    unfold lookupNode; rw [h1]; simp [h2 h.ne]
  refine ⟨hl, ?_⟩
  have hc : ∀ (w1 : World B V) M, (nodeRegister w1 M true).1.asked = w1.asked := by
    intro w1 M; unfold nodeRegister spawnRaw
    split
    · rfl
    · split
      · simp only [if_true]; split
        · rfl
        · split <;> rfl
      · simp only [if_true]
  have hid : ∀ (w1 : World B V), w1.nodeMap = w.nodeMap → (nodeRegister w1 N true).2 = id := by
    intro w1 h1
    have hm : w1.nodeMap N = some id := by rw [h1]; exact h.map
    unfold nodeRegister
    split
    · exact absurd rfl h.ne
    · simp only [hm]
      simp only [if_true]; split
      · rfl
      · split <;> rfl
  have hl2 : lookupNode (addLink w a (.rem t id)) id = some N := hl
  simp only [step, Op.caller, hrun, if_true, Op.exec, World.link, linkInstall]
  rw [if_neg (by simp)]
  simp only [hl2]
  rw [hid _ (by simp)]
  unfold askedFor
  rw [sendFrame_asked, hc]; simp

theorem linked1_begins {ser : Sers V B} {c : Conn} {d : Duo B V} (hi : CInv ser c d) {a t : Nat} (hrun : running d.L a = true)
    (hr : NFrame.link false t a ∉ toRight c d) (hl : NFrame.link false a t ∉ toLeft c d) :
    Linked1 c t a (dstep ser c d (.left (.link a (.rem t c.idR)))) := by
  have hleg : Legal c (.left (.link a (.rem t c.idR)) : DOp B V) := ⟨trivial, by simp⟩
  obtain ⟨-, -, new, g3, g4, -⟩ := hi.left.step (.link a (.rem t c.idR)) hleg.1
  obtain ⟨k1, k2⟩ := link_asks hi.left (t := t) hrun
  have hnew : new = [.link true t a] := by rw [g4] at k2; exact List.append_cancel_left k2
  have e : toRight c (dstep ser c d (.left (.link a (.rem t c.idR)))) = toRight c d ++ [.link true t a] := by
    rw [← hnew]; exact drop_wire _ _ _ hi.cL _ _ _ g3
  refine ⟨?_, link_step ser.L d.L a t c.idR c.nR k1 hrun, ?_, hl, .inl (by rw [e]; simp)⟩
  · have : exists? d.L a = true := by
      unfold running at hrun; unfold exists?; cases h : d.L.procs a <;> simp_all
    exact exists_acts (step_acts ser.L d.L _) a this (by simp)
  · rw [e]; simpa using hr

/-- The operations that cut the link between `a` (left) and `t` (right) on purpose. -/
def Cuts (c : Conn) (t a : Nat) (s : DOp B V) : Prop := s = .left (.unlink a (.rem t c.idR)) ∨ s = .right (.unlink t (.rem a c.idL))

theorem linked1_run (ser : Sers V B) (c : Conn) (d : Duo B V) (l1 l2 : List (DOp B V)) (a t : Nat) :
    let d1 := drun ser c d l1
    let pre := l1 ++ [.left (.link a (.rem t c.idR))]
    let d2 := drun ser c d (pre ++ l2)
    Begins ser c d → (∀ s ∈ l1, Legal c s) → running d1.L a = true →
    NFrame.link false t a ∉ toRight c d1 → NFrame.link false a t ∉ toLeft c d1 →
    (∀ s ∈ l2, Legal c s ∧ ¬ Cuts c t a s ∧ s ≠ .left (.drop a)) →
    SignalledL ser c d t a pre l2 ∨ Linked1 c t a d2 := by
  intro d1 pre d2 hb hl1 hrun hr hl hl2
  have hpre : ∀ s ∈ pre, Legal c s := by
    intro s hs
    rcases List.mem_append.1 hs with hs | hs
    · exact hl1 s hs
    · simp at hs; subst hs; exact ⟨trivial, by simp⟩
  have h0 : Linked1 c t a (drun ser c d pre) := by
    show Linked1 c t a (drun ser c d (l1 ++ _))
    rw [drun_snoc]
    exact linked1_begins (cinv_run l1 hb.cinv hl1) hrun hr hl
  have key : ∀ (l' l : List (DOp B V)), (∀ s ∈ l, Legal c s) → (∀ s ∈ l', Legal c s ∧ ¬ Cuts c t a s ∧ s ≠ .left (.drop a)) →
      Linked1 c t a (drun ser c d (pre ++ l)) → SignalledL ser c d t a pre (l ++ l') ∨ Linked1 c t a (drun ser c d (pre ++ (l ++ l'))) := by
    intro l'
    induction l' with
    | nil => intro l _ _ h; right; simpa using h
    | cons s l' ih =>
      intro l hl hl' h
      obtain ⟨k1, k2, k3⟩ := hl' s List.mem_cons_self
      have hi : LInv ser c d t a (pre ++ l) := linv_run _ hb (by
        intro s hs
        rcases List.mem_append.1 hs with hs | hs
        · exact hpre s hs
        · exact hl s hs)
      rcases linked1_step hi h s k1 (by
        rintro o rfl
        exact ⟨fun h => k3 (by rw [h]), fun h => k2 (.inl (by rw [h]))⟩) (fun h => k2 (.inr h)) with h3 | ⟨e, h3, h4⟩
      · rw [List.append_assoc] at h3
        have := ih (l ++ [s]) (by
          intro s' hs'
          rcases List.mem_append.1 hs' with hs' | hs'
          · exact hl s' hs'
          · simp at hs'; subst hs'; exact k1) (fun s hs => hl' s (.tail _ hs)) h3
        simpa using this
      · exact .inl ⟨l, s, l', e, rfl, h3, h4⟩
  exact key l2 [] (by simp) hl2 (by simpa using h0)

/-- C51, the death of the remote end. Two nodes with a connection; after any history `l1`, process `a` of the left node links to process
`t` of the right node, while no askFrame to remove their link is on its way; then any interleaving `l2` of operations of both nodes and
arrivals of frames, in which the connection stays up, neither end unlinks and `a` does not die. When nothing is on its way any more
and `t` does not exist, `a` got an exit signal from `t` since, with the reason with which `t` died or "noproc" if it was dead already. -/
theorem C51_remote_end_dies (ser : Sers V B) (c : Conn) (d : Duo B V) (l1 l2 : List (DOp B V)) (a t : Nat) :
    let d1 := drun ser c d l1
    let pre := l1 ++ [.left (.link a (.rem t c.idR))]
    let d2 := drun ser c d (pre ++ l2)
    Begins ser c d → (∀ s ∈ l1, Legal c s) → running d1.L a = true →
    NFrame.link false t a ∉ toRight c d1 → NFrame.link false a t ∉ toLeft c d1 →
    (∀ s ∈ l2, Legal c s ∧ ¬ Cuts c t a s ∧ s ≠ .left (.drop a)) →
    Quiet c d2 → exists? d2.R t = false → SignalledL ser c d t a pre l2 := by
  intro d1 pre d2 hb hl1 hrun hr hl hl2 hq hex
  rcases linked1_run ser c d l1 l2 a t hb hl1 hrun hr hl hl2 with h | h
  · exact h
  · exfalso
    have h : Linked1 c t a d2 := h
    rcases h.state with h3 | ⟨-, h3⟩ | ⟨ls, e, h3, -⟩
    · rw [hq.1] at h3; simp at h3
    · have : exists? d2.R t = true := h3
      rw [hex] at this; simp at this
    · rw [hq.2] at h3; simp at h3

/-! ## The other direction: the end that made the link dies -/

/-- The news of `a`'s death for `t`. -/
def newsFor (t a : Nat) : NFrame B → Bool
  | .linkDown ls i _ => decide (i = a) && decide (t ∈ ls)
  | _ => false

/-- Before the death of `a`. -/
structure Linked2 (c : Conn) (t a : Nat) (d : Duo B V) : Prop where
  ex : exists? d.L a = true
  link : Pid.rem t c.idR ∈ d.L.links a
  noR : NFrame.link false t a ∉ toRight c d
  noL : NFrame.link false a t ∉ toLeft c d
  noNews : ∀ f ∈ toRight c d, newsFor t a f = false
  state : NFrame.link true t a ∈ toRight c d ∨ ((Pid.rem a c.idL, t) ∈ d.R.nodeLinks c.nL ∧ exists? d.R t = true)

/-- After the death of `a` with reason `e`. -/
structure Told2 (c : Conn) (t a : Nat) (e : ExitReason) (d : Duo B V) : Prop where
  noR : NFrame.link false t a ∉ toRight c d
  news : ∃ u ls v, toRight c d = u ++ .linkDown ls a e :: v ∧ t ∈ ls ∧ (∀ f ∈ u, newsFor t a f = false) ∧
    (NFrame.link true t a ∈ u ∨ ((Pid.rem a c.idL, t) ∈ d.R.nodeLinks c.nL ∧ exists? d.R t = true))

/-- With step `s` the request for the link arrives, and `t` does not exist. -/
def Misses (c : Conn) (t a : Nat) (d : Duo B V) (s : DOp B V) : Prop :=
  ∃ rp, s = .toR rp ∧ d.nextR c = some (.link true t a) ∧ exists? d.R t = false

/-- What the arrival of a frame other than the news does to the link on the right. -/
theorem right_arrival {ser : Sers V B} {c : Conn} {d d' : Duo B V} {t a : Nat} {o : Op B V} {k : List (NFrame B)} {s : DOp B V}
    (hi : CInv ser c d) (hm : RMove ser c d d' o k) (hleg : Legal c s)
    (hso : s = .right o ∨ ∃ rp f, s = .toR rp ∧ o = .frame rp c.nL f ∧ d.nextR c = some f)
    (hnews : ∀ f ∈ k, newsFor t a f = false) (hno : NFrame.link false t a ∉ k)
    (hunl : s ≠ .right (.unlink t (.rem a c.idL))) (hdrop : s ≠ .right (.drop t))
    (h : NFrame.link true t a ∈ k ∨ ((Pid.rem a c.idL, t) ∈ d.R.nodeLinks c.nL ∧ exists? d.R t = true)) :
    Misses c t a d s ∨ ((Pid.rem a c.idL, t) ∈ d'.R.nodeLinks c.nL ∧ exists? d'.R t = true) := by
  have hd : o ≠ .drop t := by
    rcases hso with rfl | ⟨rp, f, -, rfl, -⟩
    · rintro rfl; exact hdrop rfl
    · simp
  rcases h with h | ⟨h, hex⟩
  · rcases hm.from_ with ⟨rfl, -⟩ | ⟨rp, f, rfl, h5, h6, -⟩
    · simp at h
    · simp at h; subst h
      have hfr := link_frame hi.right.ne hi.right.map rp t a
      have hR : d'.R = recvFrame d.R c.nL rp (.link true t a) := by
        rw [hm.R, h5]; simp [step, Op.caller, h6, Op.exec]
      rw [← hR] at hfr
      split at hfr
      · rename_i hex
        refine .inr ⟨hfr.2, ?_⟩
        rw [hm.R]; exact exists_acts (step_acts ser.R _ _) t hex hd
      · rename_i hex
        left
        rcases hso with rfl | ⟨rp', f, rfl, h7, h8⟩
        · exact absurd h5 (hleg.2 rp _)
        · rw [h5] at h7; cases h7
          exact ⟨rp, rfl, h8, by simpa using hex⟩
  · right
    refine ⟨?_, by rw [hm.R]; exact exists_acts (step_acts ser.R _ _) t hex hd⟩
    rw [hm.R]
    refine nodeLinks_keep ?_ h
    have hfrom : ∀ rp f, o = .frame rp c.nL f → k = [f] := by
      intro rp f ho
      rcases hm.from_ with ⟨-, h4⟩ | ⟨rp', f', h4, h5, -⟩
      · exact absurd ho (h4 rp f)
      · rw [ho] at h5; cases h5; exact h4
    rintro (h3 | h3 | ⟨p, h3⟩ | ⟨rp, ls, e, h3, h4⟩ | ⟨rp, h3⟩)
    · exact hd h3
    · rcases hso with rfl | ⟨rp, f, -, rfl, -⟩
      · exact hunl (by rw [h3])
      · cases h3
    · have := hm.und; rw [h3] at this; exact this rfl
    · have := hnews (.linkDown ls a e) (by rw [hfrom _ _ h3]; simp)
      simp [newsFor, h4] at this
    · exact hno (by rw [hfrom _ _ h3]; simp)

theorem linked2_step {ser : Sers V B} {c : Conn} {d : Duo B V} {t a : Nat} (hi : CInv ser c d)
    (h : Linked2 c t a d) (s : DOp B V) (hs : Legal c s) (h1 : ¬ Cuts c t a s) (h2 : s ≠ .left (.drop a)) (h3 : s ≠ .right (.drop t)) :
    Linked2 c t a (dstep ser c d s) ∨ Misses c t a d s := by
  obtain ⟨hc, hm⟩ := dstep_moves hi s hs
  rcases hm with ⟨h0, -⟩ | ⟨o, k, hm, hso⟩ | ⟨o, k, hm, hso⟩
  · rw [h0]; exact .inl h
  · left
    have hdrop : o ≠ .drop a := by
      rcases hso with rfl | ⟨rp, f, -, rfl, -⟩
      · rintro rfl; exact h2 rfl
      · simp
    have hunl : o ≠ .unlink a (.rem t c.idR) := by
      rcases hso with rfl | ⟨rp, f, -, rfl, -⟩
      · rintro rfl; exact h1 (.inl rfl)
      · simp
    obtain ⟨new, g1, -, -, g4⟩ := hm.new
    refine ⟨by rw [hm.L]; exact exists_acts (step_acts ser.L _ o) a h.ex hdrop, ?_, lmove_noR hm hunl h.noR, ?_, ?_, ?_⟩
    · rw [hm.L]
      refine links_keep hi.left hm.und hdrop ?_ h.link
      intro rp ho
      rcases hm.from_ with ⟨-, h5⟩ | ⟨rp', f, rfl, h5, -⟩
      · exact h5 rp _ ho
      · rw [ho] at h5; cases h5
        exact h.noL (by rw [hm.got]; simp)
    · intro hf; exact h.noL (by rw [hm.got]; exact List.mem_append_right _ hf)
    · rw [g1]
      intro f hf
      rcases List.mem_append.1 hf with hf | hf
      · exact h.noNews f hf
      · have hof := g4 f hf
        cases f with
        | linkDown ls i e =>
          by_cases hia : i = a
          · subst hia
            rcases hof with ⟨p, ho, -⟩ | ⟨rp, N, j, -, -, -, -, hex⟩
            · exact absurd ho hdrop
            · rw [h.ex] at hex; simp at hex
          · simp [newsFor, hia]
        | _ => rfl
    · rcases h.state with h4 | h4
      · exact .inl (by rw [g1]; exact List.mem_append_left _ h4)
      · exact .inr (by rw [hm.R]; exact h4)
  · have hunl : o ≠ .unlink t (.rem a c.idL) := by
      rcases hso with rfl | ⟨rp, f, -, rfl, -⟩
      · rintro rfl; exact h1 (.inr rfl)
      · simp
    have hk : ∀ f ∈ k, f ∈ toRight c d := fun f hf => by rw [hm.got]; exact List.mem_append_left _ hf
    have hr : ∀ f ∈ toRight c (dstep ser c d s), f ∈ toRight c d := fun f hf => by rw [hm.got]; exact List.mem_append_right _ hf
    have hst : NFrame.link true t a ∈ toRight c (dstep ser c d s) ∨
        (NFrame.link true t a ∈ k ∨ ((Pid.rem a c.idL, t) ∈ d.R.nodeLinks c.nL ∧ exists? d.R t = true)) := by
      rcases h.state with h4 | h4
      · rw [hm.got] at h4
        rcases List.mem_append.1 h4 with h4 | h4
        · exact .inr (.inl h4)
        · exact .inl h4
      · exact .inr (.inr h4)
    have hmk : NFrame.link true t a ∈ toRight c (dstep ser c d s) ∨
        ((Pid.rem a c.idL, t) ∈ (dstep ser c d s).R.nodeLinks c.nL ∧ exists? (dstep ser c d s).R t = true) →
        Linked2 c t a (dstep ser c d s) := fun hst =>
      ⟨by rw [hm.L]; exact h.ex, by rw [hm.L]; exact h.link, fun hf => h.noR (hr _ hf), rmove_noL hm hunl h.noL,
        fun f hf => h.noNews f (hr f hf), hst⟩
    rcases hst with h4 | h4
    · exact .inl (hmk (.inl h4))
    · rcases right_arrival hi hm hs hso (fun f hf => h.noNews f (hk f hf)) (fun hf => h.noR (hk _ hf)) (fun h => h1 (.inr h)) h3 h4 with h5 | h5
      · exact .inr h5
      · exact .inl (hmk (.inr h5))

/-- `a` dies. -/
theorem linked2_dies {ser : Sers V B} {c : Conn} {d : Duo B V} {t a : Nat} (hi : CInv ser c d) (h : Linked2 c t a d) {p : Proc B V}
    (hp : d.L.procs a = some p) (hdm : doomed d.L a = true) : Told2 c t a (p.reason.getD .normal) (dstep ser c d (.left (.drop a))) := by
  have hleg : Legal c (.left (.drop a) : DOp B V) := ⟨trivial, by simp⟩
  obtain ⟨hc, hm⟩ := dstep_moves hi _ hleg
  obtain ⟨-, -, new, g3, g4, g5⟩ := hi.left.step (.drop a) hleg.1
  have hL : (step ser.L d.L (.drop a)).1 = dropProc d.L a := by simp [step, Op.caller, Op.exec, hdm]
  have e : toRight c (dstep ser c d (.left (.drop a))) = toRight c d ++ new := drop_wire _ _ _ hi.cL _ _ _ g3
  rw [hL] at g4
  obtain ⟨ls, rest, k1, k2⟩ := death_news hi.left hp h.link g4
  refine ⟨?_, toRight c d, ls, rest, by rw [e, k1], k2, h.noNews, h.state⟩
  rw [e]
  intro hf
  rcases List.mem_append.1 hf with hf | hf
  · exact h.noR hf
  · have := g5 _ hf; simp [FrameOf] at this

theorem told2_step {ser : Sers V B} {c : Conn} {d : Duo B V} {t a : Nat} {e : ExitReason} (hi : CInv ser c d)
    (h : Told2 c t a e d) (s : DOp B V) (hs : Legal c s) (h1 : ¬ Cuts c t a s) (h3 : s ≠ .right (.drop t)) :
    Told2 c t a e (dstep ser c d s) ∨ Misses c t a d s ∨ Signal (.rem a c.idL) t e d.R (dstep ser c d s).R := by
  obtain ⟨hc, hm⟩ := dstep_moves hi s hs
  obtain ⟨u, ls, v, hw, ht, hu, hst⟩ := h.news
  rcases hm with ⟨h0, -⟩ | ⟨o, k, hm, hso⟩ | ⟨o, k, hm, hso⟩
  · rw [h0]; exact .inl h
  · left
    have hunl : o ≠ .unlink a (.rem t c.idR) := by
      rcases hso with rfl | ⟨rp, f, -, rfl, -⟩
      · rintro rfl; exact h1 (.inl rfl)
      · simp
    obtain ⟨new, g1, -, -, g4⟩ := hm.new
    refine ⟨lmove_noR hm hunl h.noR, u, ls, v ++ new, by rw [g1, hw]; simp, ht, hu, by rw [hm.R]; exact hst⟩
  · have hk : ∀ f ∈ k, f ∈ toRight c d := fun f hf => by rw [hm.got]; exact List.mem_append_left _ hf
    have hr : ∀ f ∈ toRight c (dstep ser c d s), f ∈ toRight c d := fun f hf => by rw [hm.got]; exact List.mem_append_right _ hf
    have hno : NFrame.link false t a ∉ toRight c (dstep ser c d s) := fun hf => h.noR (hr _ hf)
    rcases u with _ | ⟨f0, u⟩
    · -- the news are next
      rcases hst with hst | ⟨hst, hex⟩
      · simp at hst
      rcases hm.from_ with ⟨rfl, h4⟩ | ⟨rp, f, rfl, h5, h6, -⟩
      · left
        refine ⟨hno, [], ls, v, by rw [← hw, hm.got]; rfl, ht, by simp, .inr ?_⟩
        rcases right_arrival (k := []) hi hm hs hso (by simp) (by simp) (fun h => h1 (.inr h)) h3 (.inr ⟨hst, hex⟩) with h5 | h5
        · exfalso
          obtain ⟨rp, rfl, -, h6⟩ := h5
          rw [hex] at h6; simp at h6
        · exact h5
      · right; right
        have : f = .linkDown ls a e := by
          have := hm.got; rw [hw] at this; simp at this; exact this.1.symm
        subst this
        rw [hm.R, h5]
        simp only [step, Op.caller, h6, if_true, Op.exec]
        exact linkDown_signal hi.right.ne hi.right.map rp a t ls e ht hst hex
    · -- something else is next
      have hkm : k = [] ∨ k = [f0] := by
        rcases hm.from_ with ⟨rfl, -⟩ | ⟨rp, f, rfl, -⟩
        · exact .inl rfl
        · right
          have := hm.got; rw [hw] at this; simp at this; rw [this.1]
      have hmk : ∀ u', toRight c (dstep ser c d s) = u' ++ .linkDown ls a e :: v → (∀ f ∈ u', f ∈ f0 :: u) →
          (NFrame.link true t a ∈ u' ∨ ((Pid.rem a c.idL, t) ∈ (dstep ser c d s).R.nodeLinks c.nL ∧ exists? (dstep ser c d s).R t = true)) →
          Told2 c t a e (dstep ser c d s) := fun u' e1 e2 e3 => ⟨hno, u', ls, v, e1, ht, fun f hf => hu f (e2 f hf), e3⟩
      have hku : ∀ f ∈ k, f ∈ f0 :: u := by
        rcases hkm with rfl | rfl <;> simp
      obtain ⟨u', e1, e2⟩ : ∃ u', toRight c (dstep ser c d s) = u' ++ .linkDown ls a e :: v ∧ f0 :: u = k ++ u' := by
        have hg := hm.got
        rw [hw] at hg
        rcases hkm with rfl | rfl
        · exact ⟨f0 :: u, by simpa using hg.symm, rfl⟩
        · exact ⟨u, by simpa using hg.symm, rfl⟩
      have e3 : ∀ f ∈ u', f ∈ f0 :: u := fun f hf => by rw [e2]; exact List.mem_append_right _ hf
      have hst : NFrame.link true t a ∈ u' ∨
          (NFrame.link true t a ∈ k ∨ ((Pid.rem a c.idL, t) ∈ d.R.nodeLinks c.nL ∧ exists? d.R t = true)) := by
        rcases hst with h4 | h4
        · rw [e2] at h4
          rcases List.mem_append.1 h4 with h4 | h4
          · exact .inr (.inl h4)
          · exact .inl h4
        · exact .inr (.inr h4)
      rcases hst with h4 | h4
      · exact .inl (hmk u' e1 e3 (.inl h4))
      · rcases right_arrival hi hm hs hso (fun f hf => hu f (hku f hf)) (fun hf => h.noR (hk _ hf)) (fun h => h1 (.inr h)) h3 h4 with h5 | h5
        · exact .inr (.inl h5)
        · exact .inl (hmk u' e1 e3 (.inr h5))

theorem linked2_begins {ser : Sers V B} {c : Conn} {d : Duo B V} (hi : CInv ser c d) {a t : Nat} (hrun : running d.L a = true)
    (hr : NFrame.link false t a ∉ toRight c d) (hl : NFrame.link false a t ∉ toLeft c d) (hn : ∀ f ∈ toRight c d, newsFor t a f = false) :
    Linked2 c t a (dstep ser c d (.left (.link a (.rem t c.idR)))) := by
  have hleg : Legal c (.left (.link a (.rem t c.idR)) : DOp B V) := ⟨trivial, by simp⟩
  obtain ⟨-, -, new, g3, g4, -⟩ := hi.left.step (.link a (.rem t c.idR)) hleg.1
  obtain ⟨k1, k2⟩ := link_asks hi.left (t := t) hrun
  have hnew : new = [.link true t a] := by rw [g4] at k2; exact List.append_cancel_left k2
  have e : toRight c (dstep ser c d (.left (.link a (.rem t c.idR)))) = toRight c d ++ [.link true t a] := by
    rw [← hnew]; exact drop_wire _ _ _ hi.cL _ _ _ g3
  have h1 := linked1_begins hi hrun hr hl
  refine ⟨h1.ex, ?_, h1.noR, h1.noL, ?_, .inl (by rw [e]; simp)⟩
  · show Pid.rem t c.idR ∈ (step ser.L d.L (.link a (.rem t c.idR))).1.links a
    have hl2 : lookupNode (addLink d.L a (.rem t c.idR)) c.idR = some c.nR := k1
    simp only [step, Op.caller, hrun, if_true, Op.exec, World.link, linkInstall]
    rw [if_neg (by simp)]
    simp only [hl2]
    have hreg : ∀ (w1 : World B V) M, (nodeRegister w1 M true).1.links = w1.links := by
      intro w1 M; unfold nodeRegister spawnRaw
      split
      · rfl
      · split
        · simp only [if_true]; split
          · rfl
          · split <;> rfl
        · simp only [if_true]
    rw [sendFrame_act, links_act]
    simp only [hreg, addNodeLink_links_eq, addLink_links_eq, upd_at, if_true]
    split
    · assumption
    · simp
  · rw [e]
    intro f hf
    rcases List.mem_append.1 hf with hf | hf
    · exact hn f hf
    · simp at hf; subst hf; rfl

/-- C51, the death of the end that made the link. As above, process `a` of the left node links to process `t` of the right node after
any history `l1`, while no askFrame to remove their link and no earlier news of a death of `a` are on their way. Then any
interleaving `x` in which neither end unlinks or dies; then `a` dies; then any interleaving `y` in which `t` neither unlinks nor dies. When
nothing is on its way any more, `t` got an exit signal from `a` with the reason of its death, unless it did not exist when the request for
the link arrived. -/
theorem C51_linking_end_dies (ser : Sers V B) (c : Conn) (d : Duo B V) (l1 x y : List (DOp B V)) (a t : Nat) (p : Proc B V) :
    let d1 := drun ser c d l1
    let d0 := dstep ser c d1 (.left (.link a (.rem t c.idR)))
    let l2 := x ++ .left (.drop a) :: y
    Begins ser c d → (∀ s ∈ l1, Legal c s) → running d1.L a = true →
    NFrame.link false t a ∉ toRight c d1 → NFrame.link false a t ∉ toLeft c d1 →
    (∀ ls e, NFrame.linkDown ls a e ∈ toRight c d1 → t ∉ ls) →
    (∀ s ∈ x, Legal c s ∧ ¬ Cuts c t a s ∧ s ≠ .left (.drop a) ∧ s ≠ .right (.drop t)) →
    (∀ s ∈ y, Legal c s ∧ ¬ Cuts c t a s ∧ s ≠ .right (.drop t)) →
    (drun ser c d0 x).L.procs a = some p → doomed (drun ser c d0 x).L a = true →
    Quiet c (drun ser c d0 l2) →
    (∃ l s l', l2 = l ++ s :: l' ∧ Misses c t a (drun ser c d0 l) s) ∨
    (∃ l s l', y = l ++ s :: l' ∧ Signal (.rem a c.idL) t (p.reason.getD .normal) (drun ser c d0 (x ++ .left (.drop a) :: l)).R
      (drun ser c d0 (x ++ .left (.drop a) :: l ++ [s])).R) := by
  intro d1 d0 l2 hb hl1 hrun hr hl hn hx hy hp hdm hq
  have hi1 := cinv_run l1 hb.cinv hl1
  have hi0 : CInv ser c d0 := (dstep_moves hi1 (.left (.link a (.rem t c.idR))) (show Legal c (.left (.link a (.rem t c.idR)) : DOp B V) from ⟨trivial, by simp⟩)).1
  have h0 : Linked2 c t a d0 := linked2_begins hi1 hrun hr hl (by
    intro f hf
    cases f with
    | linkDown ls i e =>
      by_cases hia : i = a
      · subst hia; simp [newsFor, hn ls e hf]
      · simp [newsFor, hia]
    | _ => rfl)
  have key1 : ∀ (l' l : List (DOp B V)), (∀ s ∈ l, Legal c s) →
      (∀ s ∈ l', Legal c s ∧ ¬ Cuts c t a s ∧ s ≠ .left (.drop a) ∧ s ≠ .right (.drop t)) →
      Linked2 c t a (drun ser c d0 l) →
      (∃ u s v, l' = u ++ s :: v ∧ Misses c t a (drun ser c d0 (l ++ u)) s) ∨ Linked2 c t a (drun ser c d0 (l ++ l')) := by
    intro l'
    induction l' with
    | nil => intro l _ _ h; right; simpa using h
    | cons s l' ih =>
      intro l hl hl' h
      obtain ⟨k1, k2, k3, k4⟩ := hl' s List.mem_cons_self
      rcases linked2_step (cinv_run l hi0 hl) h s k1 k2 k3 k4 with h3 | h3
      · rw [← drun_snoc] at h3
        rcases ih (l ++ [s]) (by
          intro s' hs'
          rcases List.mem_append.1 hs' with hs' | hs'
          · exact hl s' hs'
          · simp at hs'; subst hs'; exact k1) (fun s hs => hl' s (.tail _ hs)) h3 with ⟨u, s', v, e1, e2⟩ | h4
        · exact .inl ⟨s :: u, s', v, by rw [e1]; rfl, by simpa using e2⟩
        · exact .inr (by simpa using h4)
      · exact .inl ⟨[], s, l', rfl, by simpa using h3⟩
  have hxl : ∀ s ∈ x, Legal c s := fun s hs => (hx s hs).1
  rcases key1 x [] (by simp) hx h0 with ⟨u, s, v, e1, e2⟩ | h1
  · left
    exact ⟨u, s, v ++ .left (.drop a) :: y, by show x ++ _ = _; rw [e1]; simp, e2⟩
  · have h1 : Linked2 c t a (drun ser c d0 x) := h1
    have hix := cinv_run x hi0 hxl
    have h2 := linked2_dies hix h1 hp hdm
    rw [← drun_snoc] at h2
    have key2 : ∀ (l' l : List (DOp B V)), (∀ s ∈ l, Legal c s) → (∀ s ∈ l', Legal c s ∧ ¬ Cuts c t a s ∧ s ≠ .right (.drop t)) →
        Told2 c t a (p.reason.getD .normal) (drun ser c d0 l) →
        (∃ u s v, l' = u ++ s :: v ∧ Misses c t a (drun ser c d0 (l ++ u)) s) ∨
        (∃ u s v, l' = u ++ s :: v ∧ Signal (.rem a c.idL) t (p.reason.getD .normal) (drun ser c d0 (l ++ u)).R (drun ser c d0 (l ++ u ++ [s])).R) ∨
        Told2 c t a (p.reason.getD .normal) (drun ser c d0 (l ++ l')) := by
      intro l'
      induction l' with
      | nil => intro l _ _ h; right; right; simpa using h
      | cons s l' ih =>
        intro l hl hl' h
        obtain ⟨k1, k2, k4⟩ := hl' s List.mem_cons_self
        rcases told2_step (cinv_run l hi0 hl) h s k1 k2 k4 with h3 | h3 | h3
        · rw [← drun_snoc] at h3
          rcases ih (l ++ [s]) (by
            intro s' hs'
            rcases List.mem_append.1 hs' with hs' | hs'
            · exact hl s' hs'
            · simp at hs'; subst hs'; exact k1) (fun s hs => hl' s (.tail _ hs)) h3 with ⟨u, s', v, e1, e2⟩ | ⟨u, s', v, e1, e2⟩ | h4
          · exact .inl ⟨s :: u, s', v, by rw [e1]; rfl, by simpa using e2⟩
          · exact .inr (.inl ⟨s :: u, s', v, by rw [e1]; rfl, by simpa using e2⟩)
          · exact .inr (.inr (by simpa using h4))
        · exact .inl ⟨[], s, l', rfl, by simpa using h3⟩
        · refine .inr (.inl ⟨[], s, l', rfl, ?_⟩)
          rw [List.append_nil, drun_snoc]; exact h3
    rcases key2 y (x ++ [.left (.drop a)]) (by
      intro s hs
      rcases List.mem_append.1 hs with hs | hs
      · exact hxl s hs
      · simp at hs; subst hs; exact ⟨trivial, by simp⟩) hy h2 with ⟨u, s, v, e1, e2⟩ | ⟨u, s, v, e1, e2⟩ | h3
    · left
      refine ⟨x ++ .left (.drop a) :: u, s, v, by show x ++ _ = _; rw [e1]; simp, by simpa using e2⟩
    · right
      exact ⟨u, s, v, e1, by simpa using e2⟩
    · exfalso
      obtain ⟨u, ls, v, hw, -⟩ := h3.news
      have hq1 : toRight c (drun ser c d0 (x ++ [.left (.drop a)] ++ y)) = [] := by
        have := hq.1; simpa [l2] using this
      rw [hq1] at hw; simp at hw

/-! ### An example -/

/-- Process 1 of "a" links to process 1 of "b" and one of them ends. -/
def linkSched1 : List (DOp Nat Nat) := [.left (.setTrap 1 true), .toR 5, .right (.finish 1), .right (.drop 1), .toL 5]
def linkSched2 : List (DOp Nat Nat) := [.right (.setTrap 1 true), .toR 5, .left (.finish 1)]

example : let d2 := drun sameSer duoC duo ([.left (.link 1 (.rem 1 1))] ++ linkSched1)
    Quiet duoC d2 ∧ exists? d2.R 1 = false ∧ d2.L.sent = [(1, .system (.exit (.rem 1 1) .normal))] := ⟨⟨rfl, rfl⟩, rfl, rfl⟩
example : ∀ s ∈ linkSched1, Legal duoC s ∧ ¬ Cuts duoC 1 1 s ∧ s ≠ .left (.drop 1) := by
  simp [linkSched1, Legal, Undisturbed, Cuts]
example : ∀ s ∈ linkSched2, Legal duoC s ∧ ¬ Cuts duoC 1 1 s ∧ s ≠ .left (.drop 1) ∧ s ≠ .right (.drop 1) := by
  simp [linkSched2, Legal, Undisturbed, Cuts]
example : let d0 := drun sameSer duoC duo ([.left (.link 1 (.rem 1 1))] ++ linkSched2)
    let d2 := drun sameSer duoC d0 [.left (.drop 1), .toR 5]
    doomed d0.L 1 = true ∧ Quiet duoC d2 ∧ d2.R.sent = [(1, .system (.exit (.rem 1 1) .normal))] := ⟨rfl, ⟨rfl, rfl⟩, rfl⟩

end Verif.World
