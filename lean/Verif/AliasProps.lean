import Verif.TwoNodeProps
import Verif.CallProps
import Verif.NodeDownEff
/-!
# The alias of a monitor, one-shot aliases (C94, C35)
-/
namespace Verif.World
open Verif.Mailbox
variable {B V : Type}

/-! ## C94: the alias of a monitor ends with the monitor -/

/-- Of the messages put in mailboxes meanwhile, every Down is for a reference whose alias is gone; no alias came back. -/
def Clean (w w' : World B V) : Prop :=
  ∃ D, w'.sent = w.sent ++ D ∧ (∀ x ∈ D, ∀ d n e, x.2 = .down d (.loc n) e → w'.aliases n = none) ∧
    ∀ n, w.aliases n = none → w'.aliases n = none

theorem Clean.refl (w : World B V) : Clean w w := ⟨[], by simp, by simp, fun _ h => h⟩

theorem Clean.trans {w1 w2 w3 : World B V} (h1 : Clean w1 w2) (h2 : Clean w2 w3) : Clean w1 w3 := by
  obtain ⟨D, a1, a2, a3⟩ := h1
  obtain ⟨E, b1, b2, b3⟩ := h2
  refine ⟨D ++ E, by rw [b1, a1, List.append_assoc], ?_, fun n h => b3 n (a3 n h)⟩
  intro x hx d n e hd
  rcases List.mem_append.1 hx with h | h
  · exact b3 n (a2 x h d n e hd)
  · exact b2 x h d n e hd

theorem Clean.keep {w w' : World B V} (h1 : w'.sent = w.sent) (h2 : w'.aliases = w.aliases) : Clean w w' :=
  ⟨[], by simp [h1], by simp, by rw [h2]; exact fun _ h => h⟩

theorem Clean.put (w : World B V) (i : Nat) (it : Item B V) (h : ∀ d n e, it = .down d (.loc n) e → w.aliases n = none) :
    Clean w (put w i it) := by
  refine ⟨if (w.procs i).isSome then [(i, it)] else [], by simp, ?_, by simp⟩
  intro x hx d n e hd
  split at hx
  · simp at hx; subst hx
    simpa using h d n e hd
  · cases hx

theorem Clean.delAlias (w : World B V) (r : Ref) : Clean w (delAlias w r) := by
  refine ⟨[], by simp, by simp, ?_⟩
  intro n h
  simp only [World.delAlias, upd_at]
  split
  · rfl
  · exact h

theorem Clean.down (w : World B V) (i : Nat) (d : Dest) (r : Ref) (e : ExitReason) :
    Clean w (if r.isLocal then World.delAlias (World.put w i (.down d r e)) r else World.put w i (.down d r e)) := by
  cases r with
  | loc n =>
    simp only [Ref.isLocal, if_true]
    refine ⟨if (w.procs i).isSome then [(i, .down d (.loc n) e)] else [], by simp [World.delAlias], ?_, ?_⟩
    · intro x hx d' n' e' hd
      split at hx
      · simp at hx; subst hx
        cases hd
        simp [World.delAlias, Ref.id, upd_at]
      · cases hx
    · intro m h
      simp only [World.delAlias, upd_at, put_aliases_eq]
      split
      · rfl
      · exact h
  | rem n k =>
    simp only [Ref.isLocal, Bool.false_eq_true, if_false]
    exact .put _ _ _ (by simp)

theorem Clean.ifDel (w : World B V) (r : Ref) : Clean w (if r.isLocal then World.delAlias w r else w) := by
  split
  · exact .delAlias _ _
  · exact .refl _

theorem Clean.exitLinked (w : World B V) (i : Nat) (p : Pid) (r : ExitReason) : Clean w (exitLinked w i p r) := by
  unfold World.exitLinked
  split
  · exact .refl _
  · split
    · exact .put _ _ _ (by simp)
    · split
      · exact .refl _
      · exact .keep rfl rfl

theorem clean_linkDownLocal (me : Nat) (r : ExitReason) (l : List Pid) : ∀ w : World B V, Clean w (linkDownLocal me r w l) := by
  induction l with
  | nil => intro w; exact .refl _
  | cons p l ih =>
    intro w
    cases p with
    | loc i => exact .trans (.trans (.keep (by simp) (by simp)) (.exitLinked _ _ _ _)) (ih _)
    | rem i n => exact ih _

theorem clean_monDownLocal (r : ExitReason) (l : List (Ref × Pid × Option Dest)) : ∀ w : World B V, Clean w (monDownLocal r w l) := by
  induction l with
  | nil => intro w; exact .refl _
  | cons x l ih =>
    intro w
    obtain ⟨ref, frm, d⟩ := x
    cases frm with
    | loc i => exact .trans (.down w i _ ref r) (ih _)
    | rem i n => exact .trans (.ifDel w ref) (ih _)

theorem clean_monitorDestroyAll (l : List (Ref × PMon)) : ∀ w : World B V, Clean w (monitorDestroyAll w l) := by
  induction l with
  | nil => intro w; exact .refl _
  | cons x l ih =>
    intro w
    obtain ⟨r, m⟩ := x
    cases m with
    | forNode n => exact .trans (.trans (w2 := delNodeMon w n r) (.keep (by simp) (by simp)) (.ifDel _ r)) (ih _)
    | forProcess p =>
      cases p with
      | none => exact ih w
      | some pid =>
        cases pid with
        | loc i => exact .trans (.trans (w2 := delMon w i r) (.keep (by simp) (by simp)) (.ifDel _ r)) (ih _)
        | rem i n => exact .trans (.trans (w2 := sendFrame w _ _) (.keep (by simp) (by simp)) (.ifDel _ r)) (ih _)

theorem clean_aliasDestroyAll (l : List Nat) : ∀ w : World B V, Clean w (aliasDestroyAll w l) := by
  induction l with
  | nil => intro w; exact .refl _
  | cons a l ih => intro w; exact .trans (.delAlias w (.loc a)) (ih _)

theorem clean_drop (w : World B V) (me : Nat) : Clean w (dropProc w me) := by
  cases hp : w.procs me with
  | none => simp only [dropProc, hp]; exact .refl _
  | some p =>
    rw [dropProc_eq w me p hp]
    have h1 : ∀ (w : World B V) me r, Clean w (linkProcessDown w me r) := by
      intro w me r
      unfold linkProcessDown
      dsimp only
      refine .trans (w2 := linkDownLocal me r { w with links := upd w.links me [] } (w.links me)) ?_ (.keep ?_ ?_)
      · exact .trans (w2 := { w with links := upd w.links me [] }) (.keep rfl rfl) (clean_linkDownLocal me _ _ _)
      · exact linkDownRemote_keep World.sent (by simp) (by simp) _ _ _ _
      · exact linkDownRemote_keep World.aliases (by simp) (by simp) _ _ _ _
    have h2 : ∀ (w : World B V) me r, Clean w (monitorProcessDown w me r) := by
      intro w me r
      unfold monitorProcessDown
      dsimp only
      refine .trans (w2 := monDownLocal r { w with mons := upd w.mons me [] } (w.mons me)) ?_ (.keep ?_ ?_)
      · exact .trans (w2 := { w with mons := upd w.mons me [] }) (.keep rfl rfl) (clean_monDownLocal _ _ _)
      · exact monDownRemote_keep World.sent (by simp) (by simp) _ _ _
      · exact monDownRemote_keep World.aliases (by simp) (by simp) _ _ _
    refine .trans ?_ (clean_aliasDestroyAll _ _)
    refine .trans ?_ (clean_monitorDestroyAll _ _)
    refine .trans ?_ (h2 _ _ _)
    refine .trans ?_ (h1 _ _ _)
    exact .keep (by simp) (by simp)

theorem clean_supDownLinks (l : List (Pid × Nat)) : ∀ w : World B V, Clean w (supDownLinks w l) := by
  induction l with
  | nil => intro w; exact .refl _
  | cons x l ih =>
    intro w
    exact .trans (.trans (.keep (by simp) (by simp)) (.exitLinked _ _ _ _)) (ih _)

theorem clean_supDownMons (n : Node) (l : List (Ref × NMon)) : ∀ w : World B V, Clean w (supDownMons n w l) := by
  induction l with
  | nil => intro w; exact .refl _
  | cons x l ih =>
    intro w
    obtain ⟨r, m⟩ := x
    cases m with
    | node i => exact .trans (.trans (.put w i (.nodeDown n r) (by simp)) (.ifDel _ r)) (ih _)
    | process i d => exact .trans (.down w i d r _) (ih _)
    | cleanup i => exact .trans (.trans (w2 := delMon w i r) (.keep (by simp) (by simp)) (.ifDel _ r)) (ih _)

theorem clean_supDown (w : World B V) (n : Node) (p : Nat) : Clean w (supDown w n p) := by
  unfold supDown
  split
  · exact .refl _
  · split
    · exact .refl _
    · split
      · exact .refl _
      · dsimp only
        refine .trans ?_ (.keep rfl rfl)
        refine .trans ?_ (clean_supDownMons n _ _)
        rename_i id _ _ g _ _
        refine .trans (w2 := supDownLinks { w with
          nodeRegs := upd w.nodeRegs id (some { g with sup := none, sender := none, recv := none, state := .known })
          nodeLinks := upd w.nodeLinks n [] } (w.nodeLinks n)) ?_ (.keep rfl rfl)
        exact .trans (.keep rfl rfl) (clean_supDownLinks _ _)

theorem clean_nodeMonDown (w : World B V) (n : Node) (r : Ref) (e : ExitReason) : Clean w (nodeMonDown w n r e) := by
  unfold nodeMonDown
  dsimp only
  have h0 : Clean w (delAlias (delNodeMon w n r) r) := .trans (.keep (by simp) (by simp)) (.delAlias _ _)
  split
  · refine .trans h0 (.put _ _ _ ?_)
    intro d k e' h
    cases h
    simp [delAlias, Ref.id, upd_at]
  · exact h0

theorem clean_foldl {A : Type} (f : World B V → A → World B V) (h : ∀ w a, Clean w (f w a)) (l : List A) : ∀ w, Clean w (l.foldl f w) := by
  induction l with
  | nil => intro w; exact .refl _
  | cons a l ih => intro w; exact .trans (h w a) (ih _)

/-- The same for one reference. -/
def CleanAt (n : Nat) (w w' : World B V) : Prop :=
  ∃ D, w'.sent = w.sent ++ D ∧ (∀ x ∈ D, ∀ d e, x.2 = .down d (.loc n) e → w'.aliases n = none) ∧
    (w.aliases n = none → w'.aliases n = none)

theorem Clean.at {w w' : World B V} (h : Clean w w') (n : Nat) : CleanAt n w w' := by
  obtain ⟨D, h1, h2, h3⟩ := h
  exact ⟨D, h1, fun x hx d e => h2 x hx d n e, h3 n⟩

theorem CleanAt.trans {n : Nat} {w1 w2 w3 : World B V} (h1 : CleanAt n w1 w2) (h2 : CleanAt n w2 w3) : CleanAt n w1 w3 := by
  obtain ⟨D, a1, a2, a3⟩ := h1
  obtain ⟨E, b1, b2, b3⟩ := h2
  refine ⟨D ++ E, by rw [b1, a1, List.append_assoc], ?_, fun h => b3 (a3 h)⟩
  intro x hx d e hd
  rcases List.mem_append.1 hx with h | h
  · exact b3 (a2 x h d e hd)
  · exact b2 x h d e hd

theorem clean_step (ser : V → B) (n : Nat) (w : World B V) (o : Op B V) (hn : n < w.nextRef) : CleanAt n w (step ser w o).1 := by
  by_cases h1 : ∃ t, o = .drop t
  · obtain ⟨t, rfl⟩ := h1
    simp only [step, Op.caller, Op.exec]
    split
    · exact (clean_drop w t).at n
    · exact (Clean.refl w).at n
  by_cases h2 : ∃ N p, o = .supDown N p
  · obtain ⟨N, p, rfl⟩ := h2
    exact (clean_supDown w N p).at n
  by_cases h3 : ∃ rp N refs e, o = .frame rp N (.monitorDown refs e)
  · obtain ⟨rp, N, refs, e, rfl⟩ := h3
    simp only [step, Op.caller]
    split
    · simp only [Op.exec, recvFrame]
      exact (clean_foldl _ (fun w r => clean_nodeMonDown w N (.loc r) e) refs w).at n
    · exact (Clean.refl w).at n
  · have key := (step_acts ser w o).inv (I := fun w' => n < w'.nextRef ∧ ∃ D, w'.sent = w.sent ++ D ∧
      (∀ x ∈ D, ∀ d e, x.2 ≠ .down d (.loc n) e) ∧ (w.aliases n = none → w'.aliases n = none)) ⟨hn, [], by simp, by simp, fun h => h⟩ ?_
    · obtain ⟨-, D, k1, k2, k3⟩ := key
      exact ⟨D, k1, fun x hx d e h => absurd h (k2 x hx d e), k3⟩
    · rintro w' a ha ⟨k0, D, k1, k2, k3⟩
      have hmono := (acts_mono_counters (Acts.one (Q := fun _ => True) (w := w') (a := a) trivial)).2
      have hal : w.aliases n = none → (act w' a).aliases n = none := by
        intro h
        have h := k3 h
        have hne : n ≠ w'.nextRef := by omega
        rw [aliases_act]
        cases a <;> simp only [upd_at, hne, if_false] <;> (try exact h)
        · split <;> simp [h]
        all_goals split <;> simp [upd_at, hne, h]
      refine ⟨by omega, ?_⟩
      have one : ∀ i it, (∀ d e, it ≠ .down d (.loc n) e) → (act w' a).sent = (if (w'.procs i).isSome then w'.sent ++ [(i, it)] else w'.sent) →
          ∃ D, (act w' a).sent = w.sent ++ D ∧ (∀ x ∈ D, ∀ d e, x.2 ≠ .down d (.loc n) e) ∧ (w.aliases n = none → (act w' a).aliases n = none) := by
        intro i it hit hs
        split at hs
        · refine ⟨D ++ [(i, it)], by rw [hs, k1, List.append_assoc], ?_, hal⟩
          intro x hx
          rcases List.mem_append.1 hx with h | h
          · exact k2 x h
          · simp at h; subst h; exact hit
        · exact ⟨D, by rw [hs, k1], k2, hal⟩
      have hs := sent_act w' a
      cases a <;> simp only [] at hs <;> try exact ⟨D, hs.trans k1, k2, hal⟩
      · rename_i i it
        refine one i it ?_ hs
        rintro d e rfl
        rcases ha with ⟨t, p, dd, h, -⟩ | ⟨N, -, ⟨p, h⟩ | ⟨rp, refs, e', h, -⟩⟩
        · exact h1 ⟨t, h⟩
        · exact h2 ⟨_, _, h⟩
        · exact h3 ⟨_, _, _, _, h⟩
      · exact one _ _ (by simp) hs
      · refine one _ _ ?_ hs
        rintro d e h; cases h; omega

theorem clean_run (ser : V → B) (n : Nat) (os : List (Op B V)) : ∀ w : World B V, n < w.nextRef → CleanAt n w (run ser w os) := by
  induction os with
  | nil => intro w _; exact (Clean.refl w).at n
  | cons o os ih =>
    intro w h
    exact (clean_step ser n w o h).trans (ih _ (Nat.lt_of_lt_of_le h (step_mono_counters ser w o).2))

theorem clean_monitorInstall (w : World B V) (d : Dest) (n me : Nat) : Clean w (monitorInstall w d (.loc n) me) := by
  have hd : ∀ (w : World B V) d e, Clean w (sendDown w me d (.loc n) e) := fun w d e => Clean.down w me d (.loc n) e
  unfold monitorInstall
  split
  · split
    · exact .keep (by simp) (by simp)
    · dsimp only
      split
      · exact .keep (by simp) (by simp)
      · exact .trans (.keep (by simp) (by simp)) (hd _ _ _)
  · dsimp only
    split
    · exact .keep (by simp) (by simp)
    · exact .trans (.keep (by simp) (by simp)) (hd _ _ _)
  · dsimp only
    split
    · exact .trans (.keep (by simp) (by simp)) (hd _ _ _)
    · split
      · exact .keep (by simp) (by simp)
      · exact .trans (.keep (by simp) (by simp)) (hd _ _ _)
  · dsimp only
    exact .keep (by simp) (by simp)
  · exact .keep (by simp) (by simp)


/-- C94. After any history `os`, process `a` monitors `d` with an alias; then any history `os'`. If a Down for the reference has
been put in a mailbox (at once, or later), then from then on, in any further history `os''`, the alias is inactive: a message
sent to it, by a process of this node or of another one, reaches nobody and changes nothing. -/
theorem C94_alias_ends (ser : V → B) (os os' os'' : List (Op B V)) (a : Nat) (d : Dest) (reply : Bool) (n : Nat) :
    let w0 := run ser init os
    let s := step ser w0 (.monitorAlias a d reply)
    let w1 := run ser s.1 os'
    let w2 := run ser w1 os''
    running w0 a = true → s.2 = .ref (.loc n) →
    (∃ i d' e, (i, .down d' (.loc n) e) ∈ w1.sent.drop w0.sent.length) →
    w2.aliases n = none ∧ (∀ v, send ser w2 (.one (.alias (.loc n))) v = w2) ∧ (∀ b, forwardSend b w2 [.alias n] = w2) := by
  intro w0 s w1 w2 hrun hres ⟨i, d', e, hx⟩
  have hs : s = (monitorInstall (freshRef w0 a (some reply)) d (.loc w0.nextRef) a, .ref (.loc w0.nextRef)) :=
    step_monOp ser w0 a d (some reply) hrun
  have hn : n = w0.nextRef := by rw [hs] at hres; cases hres; rfl
  subst hn
  have hlt : w0.nextRef < s.1.nextRef := by
    have := (nextRef_monitor ser w0 (.monitorAlias a d reply) a d (.inr ⟨reply, rfl⟩) hrun)
    have e : s.1 = (step ser w0 (.monitorAlias a d reply)).1 := rfl
    omega
  obtain ⟨D, k1, k2, -⟩ := (clean_monitorInstall (freshRef w0 a (some reply)) d w0.nextRef a).at w0.nextRef
  have k1' : s.1.sent = w0.sent ++ D := by rw [hs]; simpa using k1
  obtain ⟨E, l1, l2, l3⟩ := clean_run ser w0.nextRef os' s.1 hlt
  have hw1 : w1.aliases w0.nextRef = none := by
    have e1 : w1.sent.drop w0.sent.length = D ++ E := by
      show (run ser s.1 os').sent.drop _ = _
      rw [l1, k1', List.append_assoc, List.drop_left]
    rw [e1] at hx
    rcases List.mem_append.1 hx with h | h
    · have := k2 _ h d' e rfl
      exact l3 (by rw [hs]; exact this)
    · exact l2 _ h d' e rfl
  have hg : w2.aliases w0.nextRef = none := by
    refine alias_gone_run ser w0.nextRef w1 os'' ?_ hw1
    exact Nat.lt_of_lt_of_le hlt (run_nextRef_le ser s.1 os')
  refine ⟨hg, ?_, ?_⟩
  · intro v
    simp [send, sendOpt, destLocal, Ref.isLocal, sendLocal, putAlias, Ref.id, hg]
  · intro b
    simp [forwardSend, putAlias, Ref.id, hg]

/-- Process 1 monitors process 2 with an alias, gets a message through it; 2 dies; the next message is lost. -/
def monAliasOps : List (Op Nat Nat) := [.monitorAlias 1 (.pid (.loc 2)) false, .send 2 (.one (.alias (.loc 1))) 7, .finish 2, .drop 2]

example : (step id (run id init ([.boot, .boot] : List (Op Nat Nat))) (.monitorAlias 1 (.pid (.loc 2)) false)).2 = .ref (.loc 1) ∧
    (run id init ([.boot, .boot] ++ monAliasOps)).sent = [(1, .locl 7), (1, .down (.pid (.loc 2)) (.loc 1) .normal)] ∧
    (run id init ([.boot, .boot] ++ monAliasOps ++ [.send 1 (.one (.alias (.loc 1))) 8])).sent.length = 2 := ⟨rfl, rfl, rfl⟩


/-! ## C35: a one-shot alias is used up -/

/-- The alias `n`, if it exists, is one-shot. -/
def OneShot (n : Nat) (w : World B V) : Prop := ∀ x, w.aliases n = some x → x.2 = true

/-- Aliases only disappear. -/
def Shrinks (w w' : World B V) : Prop := ∀ n, w'.aliases n = w.aliases n ∨ w'.aliases n = none

theorem Shrinks.refl (w : World B V) : Shrinks w w := fun _ => .inl rfl
theorem Shrinks.trans {w1 w2 w3 : World B V} (h1 : Shrinks w1 w2) (h2 : Shrinks w2 w3) : Shrinks w1 w3 := by
  intro n
  rcases h2 n with h | h
  · rw [h]; exact h1 n
  · exact .inr h
theorem Shrinks.keep {w w' : World B V} (h : w'.aliases = w.aliases) : Shrinks w w' := fun n => .inl (by rw [h])
theorem Shrinks.oneShot {w w' : World B V} (h : Shrinks w w') {n : Nat} (h' : OneShot n w) : OneShot n w' := by
  intro x hx
  rcases h n with h | h
  · exact h' x (by rw [← h]; exact hx)
  · rw [h] at hx; cases hx
theorem Shrinks.none {w w' : World B V} (h : Shrinks w w') {n : Nat} (h' : w.aliases n = none) : w'.aliases n = none := by
  rcases h n with h | h
  · rw [h]; exact h'
  · exact h

theorem shrinks_putAlias (w : World B V) (r : Ref) (it : Item B V) : Shrinks w (putAlias w r it) := by
  unfold putAlias
  split
  · exact .refl _
  · exact .keep (by simp)
  · intro n
    simp only [put_aliases_eq, delAlias, upd_at]
    split
    · exact .inr rfl
    · exact .inl rfl

theorem putAlias_gone (w : World B V) (n : Nat) (it : Item B V) (h : OneShot n w) : (putAlias w (.loc n) it).aliases n = none := by
  unfold putAlias
  split
  · assumption
  · rename_i a ha
    have := h _ ha
    cases this
  · simp [delAlias, Ref.id, upd_at]

theorem shrinks_sendLocal (w : World B V) (d : Dest) (it : Item B V) : Shrinks w (sendLocal w d it) := by
  unfold sendLocal
  split
  · exact .keep (by simp)
  · split
    · exact .keep (by simp)
    · exact .refl _
  · exact shrinks_putAlias _ _ _

theorem shrinks_sendOpt (ser : V → B) (w : World B V) (d : Dest) (v : V) : Shrinks w (sendOpt ser w d v) := by
  unfold sendOpt
  split
  · exact shrinks_sendLocal _ _ _
  · split <;> exact .keep (by simp)

theorem shrinks_sendLoop (ser : V → B) (v : V) (l : List Dest) : ∀ (w : World B V) first groups,
    Shrinks w (sendLoop ser v w first groups l).1 ∧ (∀ x, first = some x → (sendLoop ser v w first groups l).2.1 = some x) ∧
    ∀ n, OneShot n w → .alias (.loc n) ∈ l →
      (sendLoop ser v w first groups l).1.aliases n = none ∨ (sendLoop ser v w first groups l).2.1 = some (.alias (.loc n)) := by
  induction l with
  | nil => intro w first groups; exact ⟨.refl _, fun _ h => h, by simp⟩
  | cons d ds ih =>
    intro w first groups
    unfold sendLoop
    split
    · rename_i hc
      obtain ⟨h1, h2, h3⟩ := ih w (some d) groups
      refine ⟨h1, ?_, ?_⟩
      · intro x hx; subst hx; simp at hc
      · intro n hn hm
        rcases List.mem_cons.1 hm with rfl | hm
        · exact .inr (h2 _ rfl)
        · exact h3 n hn hm
    · rename_i hc
      split
      · rename_i hl
        obtain ⟨h1, h2, h3⟩ := ih (sendLocal w d (.remote (ser v))) first groups
        have hs := shrinks_sendLocal w d (.remote (ser v))
        refine ⟨hs.trans h1, h2, ?_⟩
        intro n hn hm
        rcases List.mem_cons.1 hm with rfl | hm
        · exact .inl (h1.none (by simp only [sendLocal]; exact putAlias_gone _ _ _ hn))
        · exact h3 n (hs.oneShot hn) hm
      · rename_i hl
        have hne : ∀ n, d ≠ .alias (.loc n) := by
          rintro n rfl; simp [destLocal, Ref.isLocal] at hl
        split
        · obtain ⟨h1, h2, h3⟩ := ih w first (pushGroup _ _ groups)
          refine ⟨h1, h2, fun n hn hm => h3 n hn ?_⟩
          rcases List.mem_cons.1 hm with h | hm
          · exact absurd h.symm (hne n)
          · exact hm
        · rename_i nm node
          obtain ⟨h1, h2, h3⟩ := ih (nodeRegister w node false).1 first (pushGroup _ _ groups)
          have hs : Shrinks w (nodeRegister w node false).1 := .keep (by simp)
          refine ⟨hs.trans h1, h2, fun n hn hm => h3 n (hs.oneShot hn) ?_⟩
          rcases List.mem_cons.1 hm with h | hm
          · exact absurd h.symm (hne n)
          · exact hm
        · obtain ⟨h1, h2, h3⟩ := ih w first (pushGroup _ _ groups)
          refine ⟨h1, h2, fun n hn hm => h3 n hn ?_⟩
          rcases List.mem_cons.1 hm with h | hm
          · exact absurd h.symm (hne n)
          · exact hm

theorem send_gone (ser : V → B) (w : World B V) (ds : Dests) (v : V) (n : Nat) (hn : OneShot n w)
    (h : match ds with | .one d => d = .alias (.loc n) | .many l => .alias (.loc n) ∈ l) : (send ser w ds v).aliases n = none := by
  cases ds with
  | one d =>
    simp only at h
    subst h
    simp only [send, sendOpt, destLocal, Ref.isLocal, if_true, sendLocal]
    exact putAlias_gone _ _ _ hn
  | many l =>
    simp only [send]
    obtain ⟨h1, -, h3⟩ := shrinks_sendLoop ser v l w none []
    have h3 := h3 n hn h
    generalize sendLoop ser v w none [] l = z at *
    have key : (match z.2.1 with | some d => sendOpt ser z.1 d v | none => z.1).aliases n = none := by
      rcases h3 with h3 | h3
      · split
        · exact (shrinks_sendOpt ser _ _ _).none h3
        · exact h3
      · rw [h3]
        simp only [sendOpt, destLocal, Ref.isLocal, if_true, sendLocal]
        exact putAlias_gone _ _ _ (h1.oneShot hn)
    have hf : ∀ (gs : List (Nat × List Target)) (w0 : World B V), (gs.foldl (fun w g => sendFrame w (.send g.2 (ser v)) g.1) w0).aliases = w0.aliases := by
      intro gs
      induction gs with
      | nil => intro w0; rfl
      | cons g gs ih => intro w0; rw [List.foldl_cons, ih]; simp
    rw [hf]; exact key

theorem forward_gone (b : B) (n : Nat) (ts : List Target) : ∀ w : World B V, OneShot n w →
    Shrinks w (forwardSend b w ts) ∧ (.alias n ∈ ts → (forwardSend b w ts).aliases n = none) := by
  induction ts with
  | nil => intro w _; exact ⟨.refl _, by simp⟩
  | cons t ts ih =>
    intro w hn
    cases t with
    | pid i =>
      have hs : Shrinks w (put w i (.remote b)) := .keep (by simp)
      obtain ⟨h1, h2⟩ := ih _ (hs.oneShot hn)
      exact ⟨hs.trans h1, fun h => h2 (by simpa using h)⟩
    | named m =>
      have hs : Shrinks w (match w.names m with | some i => put w i (.remote b) | none => w) := by
        split
        · exact .keep (by simp)
        · exact .refl _
      obtain ⟨h1, h2⟩ := ih _ (hs.oneShot hn)
      exact ⟨hs.trans h1, fun h => h2 (by simpa using h)⟩
    | alias a =>
      have hs := shrinks_putAlias w (.loc a) (.remote b)
      obtain ⟨h1, h2⟩ := ih _ (hs.oneShot hn)
      refine ⟨hs.trans h1, fun h => ?_⟩
      rcases List.mem_cons.1 h with h | h
      · cases h
        exact h1.none (putAlias_gone w n _ hn)
      · exact h2 h

/-- `o` is a send, or a message from another node, one of whose destinations is the alias `n`. -/
def UsesAlias (n : Nat) (w : World B V) (o : Op B V) : Prop :=
  (∃ me ds v, o = .send me ds v ∧ running w me = true ∧ match ds with | .one d => d = .alias (.loc n) | .many l => .alias (.loc n) ∈ l) ∨
  ∃ rp N ts b, o = .frame rp N (.send ts b) ∧ running w rp = true ∧ .alias n ∈ ts

/-- C35, for whole operations. After any history `os`, the alias `n` exists and is one-shot (or it is gone already); somebody, on this node or on
another one, sends a message to it. Then from that moment on it is inactive: in any further history `os'`, a message sent to it
reaches nobody and changes nothing. -/
theorem C35_used_up (ser : V → B) (os os' : List (Op B V)) (n : Nat) (o : Op B V) :
    let w0 := run ser init os
    let w1 := run ser (step ser w0 o).1 os'
    n < w0.nextRef → OneShot n w0 → UsesAlias n w0 o →
    w1.aliases n = none ∧ (∀ v, send ser w1 (.one (.alias (.loc n))) v = w1) ∧ (∀ b, forwardSend b w1 [.alias n] = w1) := by
  intro w0 w1 hlt h1 hu
  have hg : w1.aliases n = none := by
    refine alias_gone_run ser n _ os' (Nat.lt_of_lt_of_le hlt (step_mono_counters ser w0 o).2) ?_
    rcases hu with ⟨me, ds, v, rfl, hr, hd⟩ | ⟨rp, N, ts, b, rfl, hr, hd⟩
    · simp only [step, Op.caller, hr, if_true, Op.exec]
      exact send_gone ser w0 ds v n h1 hd
    · simp only [step, Op.caller, hr, if_true, Op.exec, recvFrame]
      exact (forward_gone b n ts w0 h1).2 hd
  refine ⟨hg, ?_, ?_⟩
  · intro v
    simp [send, sendOpt, destLocal, Ref.isLocal, sendLocal, putAlias, Ref.id, hg]
  · intro b
    simp [forwardSend, putAlias, Ref.id, hg]

example : (run id init ([.boot, .boot, .alias 1 true] : List (Op Nat Nat))).aliases 1 = some (1, true) ∧
    UsesAlias 1 (run id init ([.boot, .boot, .alias 1 true] : List (Op Nat Nat))) (.send 2 (.many [.pid (.loc 2), .alias (.loc 1)]) 7) ∧
    (run id init ([.boot, .boot, .alias 1 true, .send 2 (.many [.pid (.loc 2), .alias (.loc 1)]) 7] : List (Op Nat Nat))).sent =
      [(1, .aliasOff 1), (1, .remote 7), (2, .locl 7)] :=
  ⟨rfl, .inl ⟨_, _, _, rfl, rfl, by simp⟩, rfl⟩

/-! ## C27: the trap flag -/

/-- C27. `Process::set_flags` decides how later signals are treated: the flag of the caller (and of nobody else) has the given value until
the caller sets it again, whatever happens meanwhile. -/
theorem C27_trap_flag (ser : V → B) (os os' : List (Op B V)) (a : Nat) (b : Bool) :
    let w0 := run ser init os
    let w1 := (step ser w0 (.setTrap a b)).1
    let w2 := run ser w1 os'
    running w0 a = true →
    (∀ j, j ≠ a → w1.procs j = w0.procs j) ∧
    ((∀ o ∈ os', ∀ b', o ≠ .setTrap a b') → ∀ p, w2.procs a = some p → p.trap = b) := by
  intro w0 w1 w2 hrun
  have hw1 : w1 = modProc w0 a fun p => { p with trap := b } := by simp only [w1, step, Op.caller, hrun, if_true, Op.exec]
  refine ⟨?_, ?_⟩
  · intro j hj
    rw [hw1]; simp [modProc, upd_at, hj]
  · intro hos
    have hlt : a < w0.nextPid := by
      apply Classical.byContradiction
      intro hn
      have := run_bounded ser os a (by show w0.nextPid ≤ a; omega)
      have e : w0.procs a = none := this
      simp [running, e] at hrun
    have hinv := run_inv' ser (fun w => a < w.nextPid ∧ ∀ p, w.procs a = some p → p.trap = b) (fun o => ∀ b', o ≠ .setTrap a b') ?_ os' hos w1 ?_
    · exact hinv.2
    · rintro w o ho - w' x - hx ⟨h1, h2⟩
      refine ⟨Nat.lt_of_lt_of_le h1 (acts_mono_counters (Acts.one (Q := fun _ => True) (w := w') (a := x) trivial)).1, ?_⟩
      intro p hp
      have ht := trap_act w' x a
      have : pmap (·.trap) (act w' x) a = some p.trap := by simp [pmap, hp]
      rw [this] at ht
      have h2' : ∀ t, pmap (·.trap) w' a = some t → t = b := by
        intro t h
        unfold pmap at h
        cases hq : w'.procs a with
        | none => rw [hq] at h; cases h
        | some q => rw [hq] at h; cases h; exact h2 q hq
      cases x <;> simp only [] at ht <;> try exact h2' _ ht.symm
      · rename_i i b'
        have hia : a ≠ i := by rintro rfl; exact ho b' hx
        rw [if_neg hia] at ht
        exact h2' _ ht.symm
      · have hne : a ≠ w'.nextPid := by omega
        rw [if_neg hne] at ht
        exact h2' _ ht.symm
      · split at ht
        · cases ht
        · exact h2' _ ht.symm
    · rw [hw1]
      refine ⟨by simpa [modProc] using hlt, ?_⟩
      intro p hp
      simp only [modProc, upd_at, if_true] at hp
      cases hq : w0.procs a with
      | none => rw [hq] at hp; cases hp
      | some q => rw [hq] at hp; cases hp; rfl

end Verif.World
