import Verif.RegistryInv
/-!
# The end of a registry: lemmas for C75
-/
namespace Verif.World
open Verif.Mailbox
variable {B V R R' : Type}

/-- Every operation of the program satisfies `P`. -/
inductive Uses (P : Op B V → Prop) : Prog B V R → Prop
  | ret (r) : Uses P (.ret r)
  | op {o k} : P o → (∀ r, Uses P (k r)) → Uses P (.op o k)
  | wait {kind o t k} : (∀ p, t = some p → Uses P p) → (∀ m, Uses P (k m)) → Uses P (.wait kind o t k)

theorem exec_uses {ser : V → B} {me : Nat} {P : Op B V → Prop} {w : World B V} {p : Prog B V R} {os : List (Op B V)} {r : R}
    (hx : Exec ser me w p os r) (hu : Uses P p) : ∀ o ∈ os, Others me o ∨ P o ∨ ∃ ro k, o = .recv me ro k := by
  induction hx with
  | ret => simp
  | env ho _ ih =>
    intro x hm; rcases List.mem_cons.1 hm with rfl | hm
    · exact .inl ho
    · exact ih hu x hm
  | op hr _ ih =>
    cases hu with
    | op h1 h2 =>
      intro x hm; rcases List.mem_cons.1 hm with rfl | hm
      · exact .inr (.inl h1)
      · exact ih (h2 _) x hm
  | got hr hm' _ ih =>
    cases hu with
    | wait h1 h2 =>
      intro x hm; rcases List.mem_cons.1 hm with rfl | hm
      · exact .inr (.inr ⟨_, _, rfl⟩)
      · exact ih (h2 _) x hm
  | pending hr hm' _ ih =>
    cases hu with
    | wait h1 h2 =>
      intro x hm; rcases List.mem_cons.1 hm with rfl | hm
      · exact .inr (.inr ⟨_, _, rfl⟩)
      · exact ih (.wait h1 h2) x hm
  | elapsed _ ih =>
    cases hu with
    | wait h1 h2 => exact ih (h1 _ rfl)

/-- Not the end of a monitor of `me`, nor its own end. -/
def KeepsMons (me : Nat) (o : Op B V) : Prop := (∀ r, o ≠ .demonitor me r) ∧ o ≠ .drop me

theorem keepsMons_exec {ser : V → B} {me : Nat} {w : World B V} {p : Prog B V R} {os : List (Op B V)} {r : R}
    (hx : Exec ser me w p os r) (hu : Uses (KeepsMons me) p) : ∀ o ∈ os, KeepsMons me o := by
  intro o ho
  rcases exec_uses hx hu o ho with h | h | ⟨ro, k, rfl⟩
  · exact ⟨by rintro r rfl; exact h.1 rfl, h.2⟩
  · exact h
  · exact ⟨by simp, by simp⟩

/-- `me` monitors process `i` with reference `n`, or process `i` is dead. -/
def Pend (me : Nat) (i n : Nat) (w : World B V) : Prop :=
  Watch n me i (.pid (.loc i)) w ∨ (w.procs i = none ∧ i < w.nextPid)

theorem pend_run {ser : V → B} {me i n : Nat} {w : World B V} (hre : Reachable ser w) {os : List (Op B V)} (ho : ∀ o ∈ os, KeepsMons me o)
    (hlt : i < w.nextPid) (h : Pend me i n w) : Pend me i n (run ser w os) := by
  rcases h with h | ⟨h1, h2⟩
  · rcases watch_history ser n me i _ os w hre h (fun o h => ⟨(ho o h).1 _, (ho o h).2⟩) with h | ⟨e, -, -, -, h⟩
    · exact .inl h
    · exact .inr ⟨h, Nat.lt_of_lt_of_le hlt (nextPid_run _ _ _)⟩
  · exact .inr (absent_run ser w os i h2 h1)

theorem pend_down {ser : V → B} {me i n : Nat} {w : World B V} (hre : Reachable ser w) (h : Pend me i n w) {o : RecvOp B V} {k : RecvKind}
    {d : Dest} {e : ExitReason} (hr : received w me o k = some (.system (.processDown d (.loc n) e))) : w.procs i = none := by
  rcases h with h | h
  · have hs := received_down w (reach_delivered hre) (reach_noConverted hre) me o k d _ e hr
    have : (me, Item.down d (.loc n) e) ∈ downsOf (.loc n) w.sent := List.mem_filter.2 ⟨hs, by simp⟩
    rw [h.sent] at this; cases this
  · exact h.1

theorem pend_monitor {ser : V → B} {me i : Nat} {w : World B V} (hre : Reachable ser w) (hr : running w me = true) (hne : i ≠ me) (hlt : i < w.nextPid) :
    (step ser w (.monitor me (.pid (.loc i)))).2 = .ref (.loc w.nextRef) ∧ Pend me i w.nextRef (step ser w (.monitor me (.pid (.loc i)))).1 := by
  obtain ⟨h1, h2⟩ := mon_local ser w hre me (.pid (.loc i)) none hr (.inl ⟨i, rfl, hne⟩)
  refine ⟨h1, ?_⟩
  rcases h2 with ⟨t, h3, h4⟩ | ⟨h3, -⟩
  · simp only [targetOf] at h3
    split at h3
    · cases h3; exact .inl h4
    · cases h3
  · right
    have hnone : w.procs i = none := by
      cases hp : w.procs i with
      | none => rfl
      | some p => simp [targetOf, exists?, hp] at h3
    exact absent_run ser w [.monitor me (.pid (.loc i))] i hlt hnone

theorem uses_flush (u : RecvType B V Unit) (me : Nat) (pid : Pid) : Uses (KeepsMons me) (unlinkFlush u me pid) :=
  .op ⟨by simp, by simp⟩ fun _ => .op ⟨by simp, by simp⟩ fun _ => .ret _

theorem uses_brutal (u : RecvType B V Unit) (me : Nat) (pid : Pid) (m : Ref) : Uses (KeepsMons me) (brutalKill u me pid m) :=
  .op ⟨by simp, by simp⟩ fun _ => .wait (by simp) fun _ => uses_flush u me pid

theorem uses_shutdown (u : RecvType B V Unit) (me : Nat) (pid : Pid) (m : Ref) (mode : ShutdownMode) : Uses (KeepsMons me) (shutdownWith u me pid m mode) := by
  cases mode with
  | brutalKill => exact uses_brutal u me pid m
  | duration => exact .op ⟨by simp, by simp⟩ fun _ => .wait (by rintro p ⟨rfl⟩; exact uses_brutal u me pid m) fun _ => uses_flush u me pid
  | infinity => exact .op ⟨by simp, by simp⟩ fun _ => .wait (by simp) fun _ => uses_flush u me pid

/-- When the shutdown of one child returns, the child is dead. -/
theorem shutdownWith_dead {ser : V → B} {u : RecvType B V Unit} {me i n : Nat} {mode : ShutdownMode} {w : World B V} {os : List (Op B V)}
    {r : Except ExitReason Unit} (hre : Reachable ser w) (hlt : i < w.nextPid) (hp : Pend me i n w)
    (hx : Exec ser me w (shutdownWith u me (.loc i) (.loc n) mode) os r) : (run ser w os).procs i = none ∧ i < (run ser w os).nextPid := by
  have hk := keepsMons_exec hx (uses_shutdown u me (.loc i) (.loc n) mode)
  -- a wait for the Down that returned
  have got : ∀ (os1 os2 : List (Op B V)) o k d e, os = os1 ++ os2 → received (run ser w os1) me o k = some (.system (.processDown d (.loc n) e)) →
      (run ser w os).procs i = none ∧ i < (run ser w os).nextPid := by
    rintro os1 os2 o k d e rfl hm
    have h1 := pend_run (ser := ser) hre (os := os1) (fun o h => hk o (List.mem_append_left _ h)) hlt hp
    have h2 := pend_down (reach_run hre os1) h1 hm
    rw [run_append]
    exact absent_run ser _ os2 i (Nat.lt_of_lt_of_le hlt (nextPid_run _ _ _)) h2
  have brutal : ∀ os1 os2, os = os1 ++ os2 → Exec ser me (run ser w os1) (brutalKill u me (.loc i) (.loc n)) os2 r →
      (run ser w os).procs i = none ∧ i < (run ser w os).nextPid := by
    intro os1 os2 h1 h2
    obtain ⟨-, ⟨os3, os4, o, k, d, e, rfl, -, hm, -⟩, -⟩ := brutal_inv h2
    exact got (os1 ++ os3) os4 o k d e (by rw [h1]; simp) (by rw [run_append]; exact hm)
  have waits : ∀ (t : Option (Prog B V (Except ExitReason Unit))), (t = none ∨ t = some (brutalKill u me (.loc i) (.loc n))) →
      Exec ser me w (.op (.exit me (.loc i) (.custom "shutdown")) fun _ =>
        .wait .select ⟨Unit, u, isDown (.loc n), false⟩ t fun _ => unlinkFlush u me (.loc i)) os r →
      (run ser w os).procs i = none ∧ i < (run ser w os).nextPid := by
    intro t ht hx
    obtain ⟨os1, os2, rfl, -, -, hx⟩ := exec_op_inv hx
    obtain ⟨os3, os4, rfl, -, h⟩ := exec_wait_inv hx
    rcases h with ⟨k, m, os6, hm, rfl, -, -⟩ | ⟨p, hp, hx⟩
    · obtain ⟨d, e, rfl⟩ := isDown_inv _ m (received_item _ me _ k m hm).1
      exact got (os1 ++ .exit me (.loc i) (.custom "shutdown") :: os3) (.recv me ⟨Unit, u, isDown (.loc n), false⟩ k :: os6) _ k d e (by simp) (by rw [run_append, run_cons]; exact hm)
    · rcases ht with rfl | rfl
      · cases hp
      · cases hp
        exact brutal (os1 ++ .exit me (.loc i) (.custom "shutdown") :: os3) os4 (by simp) (by rw [run_append, run_cons]; exact hx)
  cases mode with
  | brutalKill => exact brutal [] os rfl hx
  | duration => exact waits _ (.inr rfl) hx
  | infinity => exact waits _ (.inl rfl) hx

/-- The children that are being shut down. -/
def Pends (me : Nat) (ms : List (Pid × Ref)) (w : World B V) : Prop :=
  ∀ x ∈ ms, ∃ i n, x = (.loc i, .loc n) ∧ i < w.nextPid ∧ Pend me i n w

theorem pends_run {ser : V → B} {me : Nat} {ms : List (Pid × Ref)} {w : World B V} (hre : Reachable ser w) {os : List (Op B V)}
    (ho : ∀ o ∈ os, KeepsMons me o) (h : Pends me ms w) : Pends me ms (run ser w os) := by
  intro x hx
  obtain ⟨i, n, rfl, h1, h2⟩ := h x hx
  exact ⟨i, n, rfl, Nat.lt_of_lt_of_le h1 (nextPid_run _ _ _), pend_run hre ho h1 h2⟩

theorem keepsMons_others {me : Nat} {os : List (Op B V)} (h : ∀ o ∈ os, Others me o) : ∀ o ∈ os, KeepsMons me o :=
  fun o ho => ⟨by rintro r rfl; exact (h _ ho).1 rfl, (h o ho).2⟩

theorem exitChildren_inv {ser : V → B} {me : Nat} {e : Entries} (σ : Lookup) {ms : List (Pid × Ref)} {k : List (Pid × Ref) → Prog B V R}
    {w : World B V} {os : List (Op B V)} {r : R} (hre : Reachable ser w) (hσ : ∀ x ∈ σ, ∃ i, x.1 = .loc i ∧ i < w.nextPid ∧ i ≠ me) (hms : Pends me ms w)
    (hx : Exec ser me w (exitChildren me e σ ms k) os r) :
    ∃ os1 os2 ms', os = os1 ++ os2 ∧ (∀ o ∈ os1, KeepsMons me o) ∧ Pends me ms' (run ser w os1) ∧ (∀ x ∈ ms, x ∈ ms') ∧
      (∀ x ∈ σ, (aget e x.2).isSome = true → ∃ m, (x.1, m) ∈ ms') ∧ Exec ser me (run ser w os1) (k ms') os2 r := by
  induction σ generalizing ms w os with
  | nil => exact ⟨[], os, ms, rfl, by simp, hms, fun _ h => h, by simp, hx⟩
  | cons x σ ih =>
    obtain ⟨p, key⟩ := x
    rw [exitChildren] at hx
    by_cases hk : (aget e key).isSome = true
    · rw [if_pos hk] at hx
      obtain ⟨i, hi, hlt, hne⟩ := hσ (p, key) (by simp)
      dsimp only at hi; subst hi
      obtain ⟨os1, os2, rfl, ho1, hr1, hx⟩ := exec_op_inv hx
      have hre1 := reach_run hre os1
      have hlt1 : i < (run ser w os1).nextPid := Nat.lt_of_lt_of_le hlt (nextPid_run _ _ _)
      obtain ⟨e1, e2⟩ := pend_monitor hre1 hr1 hne hlt1
      rw [e1] at hx
      dsimp only at hx
      obtain ⟨os3, os4, rfl, ho3, hr3, hx⟩ := exec_op_inv hx
      have hall : ∀ o ∈ os1 ++ .monitor me (.pid (.loc i)) :: (os3 ++ [.exit me (.loc i) (.custom "shutdown")]), KeepsMons me o := by
        intro o ho
        simp only [List.mem_append, List.mem_cons, List.not_mem_nil, or_false] at ho
        rcases ho with ho | rfl | ho | rfl
        · exact keepsMons_others ho1 o ho
        · exact ⟨by simp, by simp⟩
        · exact keepsMons_others ho3 o ho
        · exact ⟨by simp, by simp⟩
      generalize hpre : os1 ++ Op.monitor me (.pid (.loc i)) :: (os3 ++ [.exit me (.loc i) (.custom "shutdown")]) = pre at *
      have hrw : run ser w pre = (step ser (run ser (step ser (run ser w os1) (.monitor me (.pid (.loc i)))).1 os3) (.exit me (.loc i) (.custom "shutdown"))).1 := by
        rw [← hpre, run_append, run_cons, run_append]; rfl
      rw [← hrw] at hx
      have hnew : Pend me i (run ser w os1).nextRef (run ser w pre) := by
        rw [← hpre, run_append, run_cons]
        refine pend_run (reach_step hre1 _) ?_ (Nat.lt_of_lt_of_le hlt1 (nextPid_step _ _ _)) e2
        intro o ho
        exact hall o (by rw [← hpre]; simp only [List.mem_append, List.mem_cons] at ho ⊢; exact .inr (.inr ho))
      have hms1 : Pends me (ms ++ [(.loc i, .loc (run ser w os1).nextRef)]) (run ser w pre) := by
        intro x hx
        rcases List.mem_append.1 hx with h | h
        · exact pends_run hre hall hms x h
        · simp at h; subst h
          exact ⟨_, _, rfl, Nat.lt_of_lt_of_le hlt (nextPid_run _ _ _), hnew⟩
      obtain ⟨os5, os6, ms', rfl, h1, h2, h3, h4, h5⟩ := ih (reach_run hre pre) (by
        intro x hx; obtain ⟨i, h1, h2, h3⟩ := hσ x (by simp [hx]); exact ⟨i, h1, Nat.lt_of_lt_of_le h2 (nextPid_run _ _ _), h3⟩) hms1 hx
      refine ⟨pre ++ os5, os6, ms', by rw [← hpre]; simp, ?_, by rw [run_append]; exact h2, fun x hx => h3 x (by simp [hx]), ?_, by rw [run_append]; exact h5⟩
      · intro o ho
        rcases List.mem_append.1 ho with h | h
        · exact hall o h
        · exact h1 o h
      · intro x hx hs
        rcases List.mem_cons.1 hx with rfl | hx
        · exact ⟨_, h3 _ (List.mem_append_right _ (List.mem_cons_self))⟩
        · exact h4 x hx hs
    · rw [if_neg hk] at hx
      obtain ⟨os5, os6, ms', rfl, h1, h2, h3, h4, h5⟩ := ih hre (fun x hx => hσ x (by simp [hx])) hms hx
      refine ⟨os5, os6, ms', rfl, h1, h2, h3, ?_, h5⟩
      intro x hx hs
      rcases List.mem_cons.1 hx with rfl | hx
      · exact absurd hs hk
      · exact h4 x hx hs

theorem awaitChildren_inv {ser : V → B} {u : RecvType B V Unit} {me : Nat} {mode : ShutdownMode} (ms : List (Pid × Ref)) {k : Prog B V R}
    {w : World B V} {os : List (Op B V)} {r : R} (hre : Reachable ser w) (hms : Pends me ms w) (hx : Exec ser me w (awaitChildren u me mode ms k) os r) :
    ∃ os1 os2, os = os1 ++ os2 ∧ (∀ x ∈ ms, ∃ i, x.1 = .loc i ∧ (run ser w os1).procs i = none ∧ i < (run ser w os1).nextPid) ∧
      Exec ser me (run ser w os1) k os2 r := by
  induction ms generalizing w os with
  | nil => exact ⟨[], os, rfl, by simp, hx⟩
  | cons x ms ih =>
    obtain ⟨i, n, rfl, h1, h2⟩ := hms x (by simp)
    rw [awaitChildren] at hx
    obtain ⟨os1, os2, q, rfl, hx1, hx2⟩ := exec_bind_inv hx
    have hd := shutdownWith_dead hre h1 h2 hx1
    have hk := keepsMons_exec hx1 (uses_shutdown u me (.loc i) (.loc n) mode)
    obtain ⟨os3, os4, rfl, h3, h4⟩ := ih (reach_run hre os1) (pends_run hre hk fun x h => hms x (by simp [h])) hx2
    refine ⟨os1 ++ os3, os4, by simp, ?_, by rw [run_append]; exact h4⟩
    rw [run_append]
    intro x hx
    rcases List.mem_cons.1 hx with rfl | hx
    · exact ⟨i, rfl, absent_run ser _ os3 i hd.2 hd.1⟩
    · exact h3 x hx

/-! ## Kills -/

/-- Process `i` does not run any more: it is dead, or it was told to stop and will not be scheduled again. -/
def Stopped (w : World B V) (i : Nat) : Prop := i < w.nextPid ∧ ∀ p, w.procs i = some p → p.aborted = true

theorem stopped_step (ser : V → B) {w : World B V} {i : Nat} (h : Stopped w i) (o : Op B V) : Stopped (step ser w o).1 i := by
  have key : ∀ w', Acts (AtomOf w o) w w' → i < w'.nextPid ∧ ∀ f, pmap (fun p => (p.reason, p.aborted, p.ended)) w' i = some f → f.2.1 = true := by
    intro w' hw
    induction hw with
    | refl =>
      refine ⟨h.1, fun f hf => ?_⟩
      simp only [pmap] at hf
      rw [Option.map_eq_some_iff] at hf
      obtain ⟨q, hq, rfl⟩ := hf
      exact h.2 q hq
    | @tail w1 a hw ha ih =>
      obtain ⟨hl, ih⟩ := ih
      have hc := acts_mono_counters (Acts.one (Q := fun _ => True) (w := w1) (a := a) trivial)
      refine ⟨by omega, ?_⟩
      intro f
      rw [fate_act]
      have hold : ∀ p, w1.procs i = some p → p.aborted = true := by
        intro p hp; exact ih (p.reason, p.aborted, p.ended) (by simp [pmap, hp])
      cases a <;> simp only [] <;> (try exact ih f) <;> split <;> (try exact ih f)
      all_goals intro hf
      all_goals first
        | omega
        | cases hf
        | (rw [Option.map_eq_some_iff] at hf; obtain ⟨q, hq, rfl⟩ := hf; first | rfl | exact hold q hq)
  obtain ⟨k1, k2⟩ := key _ (step_acts ser w o)
  exact ⟨k1, fun p hp => k2 (p.reason, p.aborted, p.ended) (by simp [pmap, hp])⟩

theorem stopped_run (ser : V → B) {w : World B V} {i : Nat} (h : Stopped w i) (os : List (Op B V)) : Stopped (run ser w os) i := by
  induction os generalizing w with
  | nil => exact h
  | cons o os ih => rw [run_cons]; exact ih (stopped_step ser h o)

theorem kill_stops {ser : V → B} {w : World B V} {me i : Nat} (hr : running w me = true) (hlt : i < w.nextPid) :
    Stopped (step ser w (.exit me (.loc i) .kill)).1 i := by
  refine ⟨Nat.lt_of_lt_of_le hlt (nextPid_step _ _ _), ?_⟩
  intro p hp
  cases hq : w.procs i with
  | none => simp [step, Op.caller, hr, Op.exec, exit, processExit, hq] at hp
  | some q =>
    simp [step, Op.caller, hr, Op.exec, exit, processExit, hq, terminate, modProc, upd_at] at hp
    subst hp; rfl

theorem killAll_stops {ser : V → B} {me : Nat} (ps : List Pid) {k : Prog B V R} {w : World B V} {os : List (Op B V)} {r : R}
    (hx : Exec ser me w (killAll me ps k) os r) (hps : ∀ p ∈ ps, ∃ i, p = .loc i ∧ i < w.nextPid) :
    ∀ i, Pid.loc i ∈ ps → Stopped (run ser w os) i := by
  induction ps generalizing w os with
  | nil => simp
  | cons p ps ih =>
    rw [killAll] at hx
    obtain ⟨os3, os4, rfl, ho3, -, hx⟩ := exec_op_inv hx
    obtain ⟨os5, os6, rfl, ho5, hr5, hx⟩ := exec_op_inv hx
    intro i hi
    rw [run_append, run_cons, run_append, run_cons]
    have hle : w.nextPid ≤ (run ser (step ser (run ser w os3) (.unlink me p)).1 os5).nextPid :=
      Nat.le_trans (nextPid_run _ _ _) (Nat.le_trans (nextPid_step _ _ _) (nextPid_run _ _ _))
    rcases List.mem_cons.1 hi with rfl | hi
    · obtain ⟨j, hj, hlt⟩ := hps _ List.mem_cons_self
      cases hj
      exact stopped_run ser (kill_stops hr5 (Nat.lt_of_lt_of_le hlt hle)) _
    · refine ih hx ?_ i hi
      intro p hp
      obtain ⟨j, rfl, hlt⟩ := hps p (List.mem_cons_of_mem _ hp)
      exact ⟨j, rfl, Nat.lt_of_lt_of_le hlt (Nat.le_trans hle (nextPid_step _ _ _))⟩

end Verif.World
