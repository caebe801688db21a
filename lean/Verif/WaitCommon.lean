import Verif.WaitLemmas
/-!
# The waits of `stop`, `call` and `shutdown`
-/
namespace Verif.World
open Verif.Mailbox
variable {B V R : Type}

/-- The process `me`, which has the wait `kind`, `o` ahead after the history `ops`, is done with `p` by taking its next steps on
its own: the poll, which finds a message `m`, and at most two more operations. No time limit is needed for that. -/
def FinishesNow (ser : V → B) (me : Nat) (w : World B V) (p : Prog B V R) (ops : List (Op B V)) (kind : RecvKind)
    (o : RecvOp B V) : Prop :=
  (∃ m, received (run ser w ops) me o kind = some m) ∧
  ∃ os res, os.length ≤ 2 ∧ (∀ x ∈ os, x.caller = some me) ∧ Exec ser me w p (ops ++ .recv me o kind :: os) res


/-- There is only one way to split a list at an element that occurs once. -/
theorem split_unique {A : Type _} {x : A} : ∀ {l1 l2 l1' l2' : List A}, l1 ++ x :: l2 = l1' ++ x :: l2' → x ∉ l1 → x ∉ l2 → l1' = l1 ∧ l2' = l2
  | [], l2, [], l2', h, _, _ => by simp at h; simp [h]
  | [], l2, y :: l1', l2', h, _, h2 => by
      simp at h; exact absurd (by rw [h.2]; simp) h2
  | y :: l1, l2, [], l2', h, h1, _ => by simp at h; simp [h.1] at h1
  | y :: l1, l2, z :: l1', l2', h, h1, h2 => by
      simp at h
      have := split_unique h.2 (fun hm => h1 (.tail _ hm)) h2
      simp [h.1, this.1, this.2]

theorem waits_no_monitor {ser : V → B} {n me : Nat} {w : World B V} {d : Dest} (os : List (Op B V)) (h : Quietly ser n me w os) :
    .monitor me d ∉ os := by
  induction os generalizing w with
  | nil => simp
  | cons x os ih =>
    intro hm
    rcases List.mem_cons.1 hm with rfl | hm
    · rcases h.1 with (⟨h, -⟩ | ⟨_, _, h⟩ | ⟨_, _, h⟩) | ⟨o, k, h, -⟩
      · exact h rfl
      · cases h
      · cases h
      · cases h
    · exact ih h.2 hm

theorem got_running (ser : V → B) {w : World B V} {me : Nat} {o : RecvOp B V} {kind : RecvKind} {m : Msg o.T}
    (hr : running w me = true) (hm : received w me o kind = some m) : running (step ser w (.recv me o kind)).1 me = true := by
  cases hp : w.procs me with
  | none => simp [running, hp] at hr
  | some p =>
    have hstep : (step ser w (.recv me o kind)).1 = recv w me o kind := by simp [step, Op.caller, hr, Op.exec]
    rw [hstep]
    unfold received at hm
    rw [hp] at hm
    simp only [running, hp] at hr
    cases kind with
    | remove => simp at hm
    | select =>
      dsimp only at hm
      simp only [recv, hp]
      generalize Mailbox.select o.τ o.filter o.strict p.box = z at *
      obtain ⟨res, b⟩ := z
      cases res <;> simp at hm
      simpa [running, modBox, modProc, upd_at, hp] using hr
    | resume =>
      dsimp only at hm
      simp only [recv, hp]
      generalize Mailbox.resume o.τ o.filter o.strict p.box = z at *
      obtain ⟨res, b⟩ := z
      cases res <;> simp at hm
      simpa [running, modBox, modProc, upd_at, hp] using hr

theorem quietly_op {ser : V → B} {n me : Nat} {o : RecvOp B V} (hf : ∀ d e, o.filter (.system (.processDown d (.loc n) e)) = true)
    (hs : o.strict = false) {w : World B V} {os2 os3 : List (Op B V)} (x : Op B V) (ho2 : ∀ o ∈ os2, Others me o) (hx : Calm me x)
    (hw : Waits ser me o (step ser (run ser w os2) x).1 os3) : Quietly ser n me w (os2 ++ x :: os3) :=
  Quietly.append os2 (quietly_others os2 ho2) ⟨.inl hx, quietly_waits hf hs os3 hw⟩


theorem monOp_ref (ser : V → B) (w : World B V) (me : Nat) (d : Dest) (al : Option Bool) (hrun : running w me = true) :
    (step ser w (monOp me d al)).2 = .ref (.loc w.nextRef) := congrArg Prod.snd (step_monOp ser w me d al hrun)

/-- The process `me` runs `p` and, after `ops`, waits with `kind` and `o` for the Down of the monitor of `d` that it has set up in `ops`: it did
nothing before, and since then it only sent messages and signals and polled in vain. Once the poll finds something, `p` is over. -/
structure WaitsFor (ser : V → B) (me : Nat) (w : World B V) (p : Prog B V R) (d : Dest) (al : Option Bool) (os1 os2 : List (Op B V)) (kind : RecvKind)
    (o : RecvOp B V) : Prop where
  before : ∀ x ∈ os1, Others me x
  run1 : running (run ser w os1) me = true
  quiet : Quietly ser (run ser w os1).nextRef me (step ser (run ser w os1) (monOp me d al)).1 os2
  accepts : ∀ d e, o.filter (.system (.processDown d (.loc (run ser w os1).nextRef) e)) = true
  lax : o.strict = false
  poll : kind ≠ .remove
  finish : (∃ m, received (run ser w (os1 ++ monOp me d al :: os2)) me o kind = some m) →
    FinishesNow ser me w p (os1 ++ monOp me d al :: os2) kind o

/-- The end of a shutdown has no further wait. -/
theorem flush_no_wait {u : RecvType B V Unit} {ser : V → B} {me : Nat} {pid : Pid} {w : World B V} {os : List (Op B V)} {kind : RecvKind}
    {o : RecvOp B V} {t : Option (Prog B V (Except ExitReason Unit))} {k : Msg o.T → Prog B V (Except ExitReason Unit)}
    (h : At ser me w (unlinkFlush u me pid) os (.wait kind o t k)) : False := by
  rcases at_op_inv h with h | ⟨_, _, -, -, -, h⟩
  · cases h
  rcases at_op_inv h with h | ⟨_, _, -, -, -, h⟩
  · cases h
  · exact absurd (at_ret_inv h) (by simp)

theorem unlink_running (ser : V → B) (w : World B V) (me : Nat) (c : Pid) (h : running w me = true) :
    running (step ser w (.unlink me c)).1 me = true := by
  have : (step ser w (.unlink me c)).1.procs = w.procs := by
    simp only [step, Op.caller, h, if_true, Op.exec, unlink]
    split
    · rfl
    · cases c <;> simp [linkDestroy] <;> (try split) <;> simp
  simpa only [running, this] using h

/-- From the wait of a shutdown to its end. -/
theorem flush_finishes (u : RecvType B V Unit) (ser : V → B) (w : World B V) (ops : List (Op B V)) (me : Nat) (c : Pid) (p : Prog B V (Except ExitReason Unit))
    (kind : RecvKind) (o : RecvOp B V) (t : Option (Prog B V (Except ExitReason Unit)))
    (hat : At ser me w p ops (.wait kind o t fun _ => unlinkFlush u me c))
    (halive : running (run ser w ops) me = true)
    (hm : ∃ m, received (run ser w ops) me o kind = some m) :
    FinishesNow ser me w p ops kind o := by
  obtain ⟨m, hm⟩ := hm
  have hrun' := got_running ser halive hm
  refine ⟨⟨m, hm⟩, [.unlink me c, .recv me ⟨Unit, u, isExitOf c, false⟩ .remove], .ok (), by simp, ?_,
    hat.exec (.got halive hm (.op hrun' (.op (unlink_running ser _ me c hrun') (.ret _ _))))⟩
  intro x hx
  simp at hx
  rcases hx with rfl | rfl <;> rfl


theorem stop_waits {M : Type} (τ : RecvType B V (GMsg M)) (ser : V → B) (w : World B V) (ops : List (Op B V)) (me : Nat) (d : Dest)
    (reason : ExitReason) (limited : Bool) (kind : RecvKind) (o : RecvOp B V)
    (t : Option (Prog B V (Except ExitReason Unit))) (k : Msg o.T → Prog B V (Except ExitReason Unit))
    (h : At ser me w (stopProg τ me d reason limited) ops (.wait kind o t k)) (halive : running (run ser w ops) me = true) :
    ∃ os1 os2, ops = os1 ++ monOp me d none :: os2 ∧ WaitsFor ser me w (stopProg τ me d reason limited) d none os1 os2 kind o := by
  have hat := h
  rcases at_op_inv h with h | ⟨os1, os', rfl, ho1, hrun, h⟩
  · cases h
  rw [show (Op.monitor me d : Op B V) = monOp me d none from rfl, monOp_ref ser _ me d none hrun] at h
  dsimp only at h
  rcases at_op_inv h with h | ⟨os2, os3, rfl, ho2, -, h⟩
  · cases h
  rcases at_wait_inv h (by simp) with ⟨kind', h, hk, hw⟩ | ⟨os4, os5, rfl, hw, ⟨m, w', os6, h⟩ | ⟨p, hp, h⟩⟩
  · cases h
    have hf : ∀ d e, (isDown (T := GMsg M) (.loc (run ser w os1).nextRef)) (.system (.processDown d (.loc (run ser w os1).nextRef) e)) = true := by
      intro d e; simp [isDown]
    have hq := quietly_op hf rfl _ ho2 (.inr (.inl ⟨_, _, rfl⟩)) hw
    refine ⟨_, _, rfl, ho1, hrun, hq, hf, rfl, hk, ?_⟩
    rintro ⟨m, hm⟩
    refine ⟨⟨m, hm⟩, ?_⟩
    obtain ⟨d', e, rfl⟩ := isDown_inv _ m (received_item _ me _ kind m hm).1
    exact ⟨[], _, by simp, by simp, hat.exec (.got halive hm (.ret _ _))⟩
  · split at h <;> exact absurd (at_ret_inv h) (by simp)
  · split at hp
    · simp at hp; subst hp
      rcases at_op_inv h with h | ⟨_, _, -, -, -, h⟩
      · cases h
      · exact absurd (at_ret_inv h) (by simp)
    · simp at hp

/-- How `call` watches its server: with an alias if it is on another node. -/
def callAlias (d : Dest) : Option Bool := if destLocal d then none else some true

theorem call_waits {M : Type} (τ : RecvType B V (GMsg M)) (ser : V → B) (w : World B V) (ops : List (Op B V)) (me : Nat) (d : Dest)
    (message : M) (kind : RecvKind) (o : RecvOp B V)
    (t : Option (Prog B V (Except CallError M))) (k : Msg o.T → Prog B V (Except CallError M))
    (h : At ser me w (callProg τ me d message) ops (.wait kind o t k)) (halive : running (run ser w ops) me = true) :
    ∃ os1 os2, ops = os1 ++ monOp me d (callAlias d) :: os2 ∧ WaitsFor ser me w (callProg τ me d message) d (callAlias d) os1 os2 kind o := by
  have hat := h
  have hop : (if destLocal d = true then .monitor me d else .monitorAlias me d true : Op B V) = monOp me d (callAlias d) := by
    unfold callAlias; split <;> rfl
  unfold callProg at h
  rw [hop] at h
  rcases at_op_inv h with h | ⟨os1, os', rfl, ho1, hrun, h⟩
  · cases h
  rw [monOp_ref ser _ me d _ hrun] at h
  dsimp only at h
  rcases at_op_inv h with h | ⟨os2, os3, rfl, ho2, -, h⟩
  · cases h
  rcases at_wait_inv h (by simp) with ⟨kind', h, hk, hw⟩ | ⟨os4, os5, rfl, hw, ⟨m, w', os6, h⟩ | ⟨p, hp, h⟩⟩
  · cases h
    have hf : ∀ d e, (isAnswer (M := M) (.loc (run ser w os1).nextRef)) (.system (.processDown d (.loc (run ser w os1).nextRef) e)) = true := by
      intro d e; simp [isAnswer]
    have hq := quietly_op hf rfl _ ho2 (.inr (.inl ⟨_, _, rfl⟩)) hw
    refine ⟨_, _, rfl, ho1, hrun, hq, hf, rfl, hk, ?_⟩
    rintro ⟨m, hm⟩
    have hrun' := got_running ser halive hm
    refine ⟨⟨m, hm⟩, ?_⟩
    have hfm := (received_item _ me _ kind m hm).1
    cases m with
    | system s =>
      cases s <;> simp [isAnswer] at hfm
      exact ⟨[], _, by simp, by simp, hat.exec (.got halive hm (.ret _ _))⟩
    | user g =>
      cases g <;> simp [isAnswer] at hfm
      exact ⟨[.demonitor me (.loc (run ser w os1).nextRef)], _, by simp, by simp [Op.caller],
        hat.exec (.got halive hm (.op hrun' (.ret _ _)))⟩
  · split at h
    · rcases at_op_inv h with h | ⟨_, _, -, -, -, h⟩
      · cases h
      · exact absurd (at_ret_inv h) (by simp)
    · exact absurd (at_ret_inv h) (by simp)
    · exact absurd (at_ret_inv h) (by simp)
  · simp at hp; subst hp
    rcases at_op_inv h with h | ⟨_, _, -, -, -, h⟩
    · cases h
    rcases at_op_inv h with h | ⟨_, _, -, -, -, h⟩
    · cases h
    · exact absurd (at_ret_inv h) (by simp)

theorem shutdown_waits (u : RecvType B V Unit) (ser : V → B) (w : World B V) (ops : List (Op B V)) (me : Nat) (c : Pid)
    (mode : ShutdownMode) (kind : RecvKind) (o : RecvOp B V)
    (t : Option (Prog B V (Except ExitReason Unit))) (k : Msg o.T → Prog B V (Except ExitReason Unit))
    (h : At ser me w (shutdownProg u me c mode) ops (.wait kind o t k)) (halive : running (run ser w ops) me = true) :
    ∃ os1 os2, ops = os1 ++ monOp me (.pid c) none :: os2 ∧ WaitsFor ser me w (shutdownProg u me c mode) (.pid c) none os1 os2 kind o := by
  have hat := h
  rcases at_op_inv h with h | ⟨os1, os', rfl, ho1, hrun, h⟩
  · cases h
  rw [show (Op.monitor me (.pid c) : Op B V) = monOp me (.pid c) none from rfl, monOp_ref ser _ me _ none hrun] at h
  dsimp only at h
  have hf : ∀ d e, (isDown (T := Unit) (.loc (run ser w os1).nextRef)) (.system (.processDown d (.loc (run ser w os1).nextRef) e)) = true := by
    intro d e; simp [isDown]
  -- the brutal kill, after what was done before
  have brutal : ∀ osa osb, os' = osa ++ osb →
      Quietly ser (run ser w os1).nextRef me (step ser (run ser w os1) (.monitor me (.pid c))).1 osa →
      At ser me (run ser (step ser (run ser w os1) (.monitor me (.pid c))).1 osa)
        (brutalKill u me c (.loc (run ser w os1).nextRef)) osb (.wait kind o t k) →
      WaitsFor ser me w (shutdownProg u me c mode) (.pid c) none os1 os' kind o := by
    rintro osa osb rfl hqa h
    rcases at_op_inv h with h | ⟨os2, os3, rfl, ho2, -, h⟩
    · cases h
    rcases at_wait_inv h (by simp) with ⟨kind', h, hk, hw⟩ | ⟨os4, os5, rfl, hw, ⟨m, w', os6, h⟩ | ⟨p, hp, h⟩⟩
    · cases h
      have hq := Quietly.append osa hqa (quietly_op hf rfl _ ho2 (.inr (.inr ⟨_, _, rfl⟩)) hw)
      exact ⟨ho1, hrun, hq, hf, rfl, hk, flush_finishes u ser w _ me c _ kind _ _ hat halive⟩
    · exact (flush_no_wait h).elim
    · simp at hp
  refine ⟨os1, os', rfl, ?_⟩
  cases mode with
  | brutalKill => exact brutal [] os' rfl trivial h
  | duration =>
    dsimp only at h
    rcases at_op_inv h with h | ⟨os2, os3, rfl, ho2, -, h⟩
    · cases h
    rcases at_wait_inv h (by simp) with ⟨kind', h, hk, hw⟩ | ⟨os4, os5, rfl, hw, ⟨m, w', os6, h⟩ | ⟨p, hp, h⟩⟩
    · cases h
      have hq := quietly_op hf rfl _ ho2 (.inr (.inr ⟨_, _, rfl⟩)) hw
      exact ⟨ho1, hrun, hq, hf, rfl, hk, flush_finishes u ser w _ me c _ kind _ _ hat halive⟩
    · exact (flush_no_wait h).elim
    · simp at hp; subst hp
      have hq := quietly_op hf rfl _ ho2 (.inr (.inr ⟨_, _, rfl⟩)) hw
      refine brutal _ os5 (by simp) hq ?_
      rw [run_append, run_cons]
      exact h
  | infinity =>
    dsimp only at h
    rcases at_op_inv h with h | ⟨os2, os3, rfl, ho2, -, h⟩
    · cases h
    rcases at_wait_inv h (by simp) with ⟨kind', h, hk, hw⟩ | ⟨os4, os5, rfl, hw, ⟨m, w', os6, h⟩ | ⟨p, hp, h⟩⟩
    · cases h
      have hq := quietly_op hf rfl _ ho2 (.inr (.inr ⟨_, _, rfl⟩)) hw
      exact ⟨ho1, hrun, hq, hf, rfl, hk, flush_finishes u ser w _ me c _ kind _ _ hat halive⟩
    · exact (flush_no_wait h).elim
    · simp at hp

end Verif.World
