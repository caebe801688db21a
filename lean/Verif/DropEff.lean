import Verif.SendProps
/-! # The effect of a death (`dropProc`) on every table -/
namespace Verif.World
open Verif.Mailbox
variable {B V : Type}

/-- What an exit signal over a link does to a process: a trapping process gets one message, another one is terminated
unless the reason is normal (documentation of `Process::link` and `ProcessFlags::TRAP_EXIT`). -/
def signalled (frm : Pid) (r : ExitReason) (p : Proc B V) : Proc B V :=
  if p.trap then { p with box := deliver p.box (.system (.exit frm r)) }
  else if isNormal r then p
  else { p with reason := some r, aborted := true }

/-- The message sent along. -/
def signalMsg (w : World B V) (frm : Pid) (r : ExitReason) (i : Nat) : List (Nat × Item B V) :=
  match w.procs i with
  | some p => if p.trap then [(i, .system (.exit frm r))] else []
  | none => []

theorem exitLinked_procs' (w : World B V) (i : Nat) (frm : Pid) (r : ExitReason) :
    (exitLinked w i frm r).procs = upd w.procs i ((w.procs i).map (signalled frm r)) := by
  unfold exitLinked
  cases h : w.procs i with
  | none => simp [upd_eq_self, h]
  | some p =>
    simp only [signalled, Option.map_some]
    split
    · simp [h]
    · split
      · rw [upd_eq_self _ _ _ h]
      · simp [h]

theorem exitLinked_sent' (w : World B V) (i : Nat) (frm : Pid) (r : ExitReason) :
    (exitLinked w i frm r).sent = w.sent ++ signalMsg w frm r i := by
  unfold exitLinked signalMsg
  cases h : w.procs i with
  | none => simp
  | some p =>
    dsimp only
    split
    · simp [h]
    · split <;> simp

theorem signalled_trap (frm : Pid) (r : ExitReason) (p : Proc B V) : (signalled frm r p).trap = p.trap := by
  unfold signalled; split <;> (try split) <;> rfl

theorem signalMsg_congr (w w' : World B V) (frm : Pid) (r : ExitReason) (i : Nat)
    (h : (w'.procs i).map (·.trap) = (w.procs i).map (·.trap)) : signalMsg w' frm r i = signalMsg w frm r i := by
  unfold signalMsg
  cases h1 : w.procs i <;> cases h2 : w'.procs i <;> simp_all

/-- The exit messages of a death: one for every linked trapping local process. -/
def exitMsgs (w : World B V) (me : Nat) (r : ExitReason) (l : List Pid) : List (Nat × Item B V) :=
  l.flatMap fun | .loc i => signalMsg w (.loc me) r i | .rem _ _ => []

theorem exitMsgs_congr (w w' : World B V) (me : Nat) (r : ExitReason) (l : List Pid)
    (h : ∀ i, (w'.procs i).map (·.trap) = (w.procs i).map (·.trap)) : exitMsgs w' me r l = exitMsgs w me r l := by
  unfold exitMsgs
  congr 1
  funext p
  cases p with
  | loc i => exact signalMsg_congr w w' _ r i (h i)
  | rem i n => rfl

theorem linkDownLocal_eff (me : Nat) (r : ExitReason) (l : List Pid) (w : World B V) (hn : l.Nodup) :
    (∀ j, (linkDownLocal me r w l).procs j =
      if Pid.loc j ∈ l then (w.procs j).map (signalled (.loc me) r) else w.procs j) ∧
    (linkDownLocal me r w l).sent = w.sent ++ exitMsgs w me r l ∧
    (∀ j, (linkDownLocal me r w l).links j =
      if Pid.loc j ∈ l then (w.links j).filter (· ≠ .loc me) else w.links j) := by
  induction l generalizing w with
  | nil => simp [linkDownLocal, exitMsgs]
  | cons p ps ih =>
    simp only [List.nodup_cons] at hn
    cases p with
    | rem i n =>
      obtain ⟨h1, h2, h3⟩ := ih w hn.2
      refine ⟨?_, ?_, ?_⟩
      · intro j; simp only [linkDownLocal, h1]; simp
      · simp only [linkDownLocal, h2]; simp [exitMsgs]
      · intro j; simp only [linkDownLocal, h3]; simp
    | loc i =>
      obtain ⟨h1, h2, h3⟩ := ih (exitLinked (delLink w i (.loc me)) i (.loc me) r) hn.2
      simp only [linkDownLocal]
      refine ⟨?_, ?_, ?_⟩
      · intro j
        rw [h1, exitLinked_procs']
        simp only [delLink_procs_eq, upd_at, List.mem_cons, Pid.loc.injEq]
        by_cases hj : j = i
        · subst hj; rw [if_neg hn.1]; simp
        · simp [hj]
      · rw [h2, exitLinked_sent']
        simp only [delLink_sent_eq]
        rw [exitMsgs_congr w _ me r ps, List.append_assoc]
        · congr 1
        · intro j
          rw [exitLinked_procs']
          simp only [delLink_procs_eq, upd_at]
          split
          · subst_vars; cases w.procs j <;> simp [signalled_trap]
          · rfl
      · intro j
        rw [h3]
        simp only [exitLinked_links_eq, delLink_links_eq, upd_at, List.mem_cons, Pid.loc.injEq]
        by_cases hj : j = i
        · subst hj; rw [if_neg hn.1]; simp
        · simp [hj]

theorem linkDownLocal_rest (me : Nat) (r : ExitReason) (l : List Pid) (w : World B V) :
    let w' := linkDownLocal me r w l
    w'.names = w.names ∧ w'.mons = w.mons ∧ w'.aliases = w.aliases ∧ w'.nodeMons = w.nodeMons ∧
    w'.nodeLinks = w.nodeLinks ∧ w'.nextPid = w.nextPid ∧ w'.nextRef = w.nextRef ∧ w'.nodeRegs = w.nodeRegs ∧
    w'.nodeMap = w.nodeMap ∧ w'.out = w.out := by
  induction l generalizing w with
  | nil => simp [linkDownLocal]
  | cons p ps ih =>
    cases p with
    | rem i n => exact ih w
    | loc i => simpa [linkDownLocal] using ih (exitLinked (delLink w i (.loc me)) i (.loc me) r)

theorem foldl_eq {A X : Type} (π : World B V → X) (f : World B V → A → World B V) (hf : ∀ w a, π (f w a) = π w)
    (l : List A) (w : World B V) : π (l.foldl f w) = π w := by
  induction l generalizing w with
  | nil => rfl
  | cons a l ih => rw [List.foldl_cons, ih, hf]

theorem linkDownRemote_keep {X : Type} (π : World B V → X) (h1 : ∀ w f id, π (sendFrame w f id) = π w)
    (h2 : ∀ w n p i, π (delNodeLink w n p i) = π w) (me : Nat) (r : ExitReason) (gs : List (Nat × List Pid)) (w : World B V) :
    π (linkDownRemote me r w gs) = π w := by
  induction gs generalizing w with
  | nil => rfl
  | cons g gs ih =>
    obtain ⟨nid, ps⟩ := g
    rw [linkDownRemote, ih, h1]
    split
    · exact foldl_eq π _ (fun w p => h2 w _ p me) _ _
    · rfl

theorem monDownRemote_keep {X : Type} (π : World B V → X) (h1 : ∀ w f id, π (sendFrame w f id) = π w)
    (h2 : ∀ w n r, π (delNodeMon w n r) = π w) (r : ExitReason) (gs : List (Nat × List Ref)) (w : World B V) :
    π (monDownRemote r w gs) = π w := by
  induction gs generalizing w with
  | nil => rfl
  | cons g gs ih =>
    obtain ⟨nid, ps⟩ := g
    rw [monDownRemote, ih, h1]
    split
    · exact foldl_eq π _ (fun w p => h2 w _ p) _ _
    · rfl

theorem monDownLocal_keep {X : Type} (π : World B V → X) (h1 : ∀ w i it, π (put w i it) = π w)
    (h2 : ∀ w r, π (delAlias w r) = π w) (r : ExitReason) (ms : List (Ref × Pid × Option Dest)) (w : World B V) :
    π (monDownLocal r w ms) = π w := by
  induction ms generalizing w with
  | nil => rfl
  | cons x ms ih =>
    obtain ⟨ref, frm, d⟩ := x
    simp only [monDownLocal]; rw [ih]
    cases frm <;> cases ref <;> simp [Ref.isLocal, h1, h2]

theorem monitorDestroyAll_keep {X : Type} (π : World B V → X) (h1 : ∀ w f id, π (sendFrame w f id) = π w)
    (h2 : ∀ w n r, π (delNodeMon w n r) = π w) (h3 : ∀ w r, π (delAlias w r) = π w) (h4 : ∀ w i r, π (delMon w i r) = π w)
    (l : List (Ref × PMon)) (w : World B V) : π (monitorDestroyAll w l) = π w := by
  induction l generalizing w with
  | nil => rfl
  | cons x l ih =>
    obtain ⟨r, m⟩ := x
    cases m with
    | forProcess p =>
      cases p with
      | none => exact ih w
      | some pid =>
        simp only [monitorDestroyAll]; rw [ih]
        cases pid <;> cases r <;> simp [Ref.isLocal, h1, h3, h4]
    | forNode n =>
      rw [monitorDestroyAll, ih]
      cases r <;> simp [Ref.isLocal, h2, h3]

theorem monitorDestroyAll_mons (l : List (Ref × PMon)) (w : World B V) (i : Nat) :
    ((monitorDestroyAll w l).mons i).Sublist (w.mons i) := by
  induction l generalizing w with
  | nil => exact .refl _
  | cons x l ih =>
    obtain ⟨r, m⟩ := x
    cases m with
    | forProcess p =>
      cases p with
      | none => exact ih w
      | some pid =>
        simp only [monitorDestroyAll]
        refine (ih _).trans ?_
        cases pid <;> cases r <;> simp [Ref.isLocal, upd_at]
        all_goals (split <;> simp_all)
    | forNode n =>
      rw [monitorDestroyAll]
      refine (ih _).trans ?_
      cases r <;> simp [Ref.isLocal]

/-- The Down messages of a death: one for every monitor held by an existing local process. -/
def downMsgs (w : World B V) (r : ExitReason) (ms : List (Ref × Pid × Option Dest)) : List (Nat × Item B V) :=
  ms.filterMap fun x => match x.2.1 with
    | .loc i => if exists? w i then some (i, .down (x.2.2.getD (.pid x.2.1)) x.1 r) else none
    | .rem _ _ => none

theorem downMsgs_congr (w w' : World B V) (r : ExitReason) (ms : List (Ref × Pid × Option Dest))
    (h : ∀ i, exists? w' i = exists? w i) : downMsgs w' r ms = downMsgs w r ms := by
  unfold downMsgs
  congr 1
  funext x
  split
  · rw [h]
  · rfl

theorem monDownLocal_eff (r : ExitReason) (ms : List (Ref × Pid × Option Dest)) (w : World B V) :
    Delivers w (monDownLocal r w ms) (downMsgs w r ms) ∧
    (∀ a, (monDownLocal r w ms).aliases a = if Ref.loc a ∈ ms.map Prod.fst then none else w.aliases a) := by
  induction ms generalizing w with
  | nil => exact ⟨.refl w, by simp [monDownLocal]⟩
  | cons m ms ih =>
    obtain ⟨ref, frm, d⟩ := m
    simp only [monDownLocal]
    have key : ∀ w1 D1, Delivers w w1 D1 → w1.aliases = w.aliases →
        downMsgs w r ((ref, frm, d) :: ms) = D1 ++ downMsgs w r ms →
        Delivers w (monDownLocal r (if ref.isLocal then delAlias w1 ref else w1) ms) (downMsgs w r ((ref, frm, d) :: ms)) ∧
        (∀ a, (monDownLocal r (if ref.isLocal then delAlias w1 ref else w1) ms).aliases a =
          if Ref.loc a ∈ ((ref, frm, d) :: ms).map Prod.fst then none else w.aliases a) := by
      intro w1 D1 h1 ha he
      obtain ⟨i1, i2⟩ := ih (if ref.isLocal then delAlias w1 ref else w1)
      have hd : Delivers w1 (if ref.isLocal then delAlias w1 ref else w1) [] := by
        split
        · exact .of_eq rfl rfl rfl rfl rfl
        · exact .refl _
      have h2 := h1.trans hd
      rw [List.append_nil] at h2
      refine ⟨?_, ?_⟩
      · rw [he]
        have := h2.trans i1
        rwa [downMsgs_congr w _ r ms (fun i => exists_delivers h2 i)] at this
      · intro a
        rw [i2]
        cases ref with
        | loc b =>
          simp only [Ref.isLocal, if_true, delAlias_aliases_eq, Ref.id, upd_at, ha, List.map_cons, List.mem_cons, Ref.loc.injEq]
          by_cases hab : a = b
          · simp [hab]
          · by_cases hm : Ref.loc a ∈ ms.map Prod.fst
            · rw [if_pos hm, if_pos (.inr hm)]
            · rw [if_neg hm, if_neg hab, if_neg (by rintro (h | h) <;> contradiction)]
        | rem b n =>
          simp only [Ref.isLocal, Bool.false_eq_true, if_false, ha, List.map_cons, List.mem_cons, reduceCtorEq, false_or]
    cases frm with
    | loc i =>
      refine key _ _ (delivers_put w i _) (by simp) ?_
      have : exists? w i = (w.procs i).isSome := rfl
      rw [← this]
      simp only [downMsgs, List.filterMap_cons]
      cases exists? w i <;> simp
    | rem i n => exact key w [] (.refl w) rfl (by simp [downMsgs])

theorem aliasDestroyAll_eq (l : List Nat) (w : World B V) :
    aliasDestroyAll w l = { w with aliases := fun a => if a ∈ l then none else w.aliases a } := by
  induction l generalizing w with
  | nil => simp [aliasDestroyAll]
  | cons a l ih =>
    rw [aliasDestroyAll, ih]
    congr 1
    funext b
    simp only [upd_at, List.mem_cons]
    by_cases h1 : b = a <;> by_cases h2 : b ∈ l <;> simp [h1, h2]

/-- The Down items of a death for one process. -/
def downsFor (r : ExitReason) (ms : List (Ref × Pid × Option Dest)) (j : Nat) : List (Item B V) :=
  ms.filterMap fun x => if x.2.1 = .loc j then some (.down (x.2.2.getD (.pid x.2.1)) x.1 r) else none

/-- A surviving process after the death of `me`: the link signal, then the Down messages. -/
def afterDeath (w : World B V) (me : Nat) (r : ExitReason) (j : Nat) (q : Proc B V) : Proc B V :=
  let q1 := if Pid.loc j ∈ w.links me then signalled (.loc me) r q else q
  { q1 with box := { q1.box with chan := q1.box.chan ++ downsFor r (w.mons me) j } }

theorem downMsgs_for (w : World B V) (r : ExitReason) (ms : List (Ref × Pid × Option Dest)) (j : Nat) (hj : exists? w j = true) :
    ((downMsgs w r ms).filter (·.1 == j)).map Prod.snd = downsFor r ms j := by
  induction ms with
  | nil => rfl
  | cons x ms ih =>
    obtain ⟨ref, frm, d⟩ := x
    simp only [downMsgs, downsFor, List.filterMap_cons] at ih ⊢
    cases frm with
    | rem i n => simpa using ih
    | loc i =>
      dsimp only
      by_cases hij : i = j
      · subst hij
        simp only [hj, if_true]
        simpa using ih
      · simp only [Pid.loc.injEq, hij, if_false]
        cases exists? w i with
        | true => simpa [hij] using ih
        | false => simpa using ih

/-- The effect of a death on everything local. -/
theorem drop_eff (w : World B V) (me : Nat) (p : Proc B V) (hp : w.procs me = some p) (hn : (w.links me).Nodup) :
    let r := p.reason.getD .normal
    let w' := dropProc w me
    w'.procs me = none ∧
    (∀ j, j ≠ me → w'.procs j = (w.procs j).map (afterDeath w me r j)) ∧
    w'.sent = w.sent ++ exitMsgs (removeProc w me) me r (w.links me) ++ downMsgs (removeProc w me) r (w.mons me) ∧
    (∀ j, w'.links j = if j = me then [] else if Pid.loc j ∈ w.links me then (w.links j).filter (· ≠ .loc me) else w.links j) ∧
    w'.names = (removeProc w me).names ∧
    (∀ i, (w'.mons i).Sublist (if i = me then [] else w.mons i)) ∧
    w'.nextPid = w.nextPid ∧ w'.nextRef = w.nextRef := by
  intro r w'
  have hw' := dropProc_eq w me p hp
  change w' = aliasDestroyAll (monitorDestroyAll (monitorProcessDown (linkProcessDown (removeProc w me) me r) me r)
    p.box.mons) p.box.aliases at hw'
  rw [aliasDestroyAll_eq] at hw'
  generalize hw0 : ({ removeProc w me with links := upd w.links me [] } : World B V) = w0
  have hw0p : w0.procs = upd w.procs me none := by rw [← hw0]; simp
  have hl : linkProcessDown (removeProc w me) me r =
      linkDownRemote me r (linkDownLocal me r w0 (w.links me)) (group (remotePids (w.links me))) := by
    rw [← hw0]; simp [linkProcessDown]
  obtain ⟨a1, a2, a3⟩ := linkDownLocal_eff me r (w.links me) w0 hn
  obtain ⟨b1, b2, b3, b4, b5, b6, b7, b8, b9, b10⟩ := linkDownLocal_rest me r (w.links me) w0
  rw [hl] at hw'
  generalize linkDownLocal me r w0 (w.links me) = w1 at *
  generalize hg : group (remotePids (w.links me)) = gs at *
  have c1 := linkDownRemote_keep World.procs (by simp) (by simp) me r gs w1
  have c2 := linkDownRemote_keep World.sent (by simp) (by simp) me r gs w1
  have c3 := linkDownRemote_keep World.links (by simp) (by simp) me r gs w1
  have c4 := linkDownRemote_keep World.names (by simp) (by simp) me r gs w1
  have c5 := linkDownRemote_keep World.mons (by simp) (by simp) me r gs w1
  have c6 := linkDownRemote_keep World.nextPid (by simp) (by simp) me r gs w1
  have c7 := linkDownRemote_keep World.nextRef (by simp) (by simp) me r gs w1
  generalize linkDownRemote me r w1 gs = w2 at *
  have hm : w2.mons = w.mons := by rw [c5, b2, ← hw0]; simp
  generalize hw2 : ({ w2 with mons := upd w2.mons me [] } : World B V) = w2' at *
  have hmd : monitorProcessDown w2 me r = monDownRemote r (monDownLocal r w2' (w.mons me)) (group (remoteRefs (w.mons me))) := by
    rw [← hw2, ← hm]; rfl
  rw [hmd] at hw'
  obtain ⟨d1, d2⟩ := monDownLocal_eff r (w.mons me) w2'
  have d3 := monDownLocal_keep World.nextPid (by simp) (by simp) r (w.mons me) w2'
  have d4 := monDownLocal_keep World.nextRef (by simp) (by simp) r (w.mons me) w2'
  generalize monDownLocal r w2' (w.mons me) = w3 at *
  generalize group (remoteRefs (w.mons me)) = rs at *
  have e1 := monDownRemote_keep World.procs (by simp) (by simp) r rs w3
  have e2 := monDownRemote_keep World.sent (by simp) (by simp) r rs w3
  have e3 := monDownRemote_keep World.links (by simp) (by simp) r rs w3
  have e4 := monDownRemote_keep World.names (by simp) (by simp) r rs w3
  have e5 := monDownRemote_keep World.mons (by simp) (by simp) r rs w3
  have e6 := monDownRemote_keep World.nextPid (by simp) (by simp) r rs w3
  have e7 := monDownRemote_keep World.nextRef (by simp) (by simp) r rs w3
  generalize monDownRemote r w3 rs = w4 at *
  have f1 := monitorDestroyAll_keep World.procs (by simp) (by simp) (by simp) (by simp) p.box.mons w4
  have f2 := monitorDestroyAll_keep World.sent (by simp) (by simp) (by simp) (by simp) p.box.mons w4
  have f3 := monitorDestroyAll_keep World.links (by simp) (by simp) (by simp) (by simp) p.box.mons w4
  have f4 := monitorDestroyAll_keep World.names (by simp) (by simp) (by simp) (by simp) p.box.mons w4
  have f6 := monitorDestroyAll_keep World.nextPid (by simp) (by simp) (by simp) (by simp) p.box.mons w4
  have f7 := monitorDestroyAll_keep World.nextRef (by simp) (by simp) (by simp) (by simp) p.box.mons w4
  have f9 := monitorDestroyAll_mons p.box.mons w4
  have hex : ∀ i, exists? w2' i = exists? (removeProc w me) i := by
    intro i
    unfold exists?
    rw [← hw2]
    simp only [c1, a1, hw0p, removeProc_procs_eq]
    split <;> simp
  rw [downMsgs_congr (removeProc w me) w2' r (w.mons me) hex] at d1
  rw [hw']
  dsimp only
  refine ⟨?_, ?_, ?_, ?_, ?_, ?_, ?_, ?_⟩
  · rw [f1, e1, d1.box, ← hw2]
    simp [c1, a1, hw0p, upd_at]
  · intro j hj
    rw [f1, e1, d1.box, ← hw2]
    simp only [c1, a1, hw0p, upd_at, hj, if_false]
    cases hq : w.procs j with
    | none => simp
    | some q =>
      rw [downMsgs_for _ _ _ _ (by simp [exists?, upd_at, hj, hq])]
      split <;> simp_all [afterDeath]
  · rw [f2, e2, d1.sent, ← hw2]
    simp only [c2, a2]
    rw [exitMsgs_congr (removeProc w me) w0 me r (w.links me) (fun i => by rw [hw0p]; simp)]
    rw [← hw0]; simp
  · intro j
    rw [f3, e3, d1.links, ← hw2]
    simp only [c3, a3]
    rw [← hw0]
    simp only [upd_at]
    by_cases hj : j = me
    · simp [hj]
    · simp [hj]
  · rw [f4, e4, d1.names, ← hw2]
    simp only [c4, b1]; rw [← hw0]
  · intro i
    refine (f9 i).trans ?_
    rw [e5, d1.mons, ← hw2]
    simp only [upd_at, hm]
    split <;> simp
  · rw [f6, e6, d3, ← hw2]; simp only [c6, b6]; rw [← hw0]; simp
  · rw [f7, e7, d4, ← hw2]; simp only [c7, b7]; rw [← hw0]; simp

end Verif.World
