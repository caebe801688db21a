import Verif.WaitCommon
/-!
# Nobody waits for a dead server (C111)
-/
namespace Verif.World
open Verif.Mailbox
variable {B V : Type}

/-! ## Specification -/

/-- In the history `ops`, starting in `w`, process `me` looked up the server `d` (it asked for a monitor), and what it found is
gone: there was no such process, or it has died since. -/
def ServerGone (ser : V → B) (w : World B V) (ops : List (Op B V)) (me : Nat) (d : Dest) : Prop :=
  ∃ os1 os2, ops = os1 ++ .monitor me d :: os2 ∧
    (targetOf (run ser w os1) d = none ∨ ∃ t, targetOf (run ser w os1) d = some t ∧ (run ser w ops).procs t = none)

/-! ## Proofs -/

/-- From the monitor of a server to the poll that ends the wait. -/
theorem wakes {R : Type} (ser : V → B) (w : World B V) (hr : Reachable ser w) (me : Nat) (p : Prog B V R) (d : Dest) (hd : LocalServer me d)
    (os1 os2 : List (Op B V)) (kind : RecvKind) (o : RecvOp B V) (h : WaitsFor ser me w p d none os1 os2 kind o)
    (hg : ServerGone ser w (os1 ++ .monitor me d :: os2) me d) : FinishesNow ser me w p (os1 ++ .monitor me d :: os2) kind o := by
  obtain ⟨os1', os2', he, hg⟩ := hg
  obtain ⟨rfl, rfl⟩ := split_unique he (fun hm => (h.before _ hm).1 rfl) (waits_no_monitor _ h.quiet)
  refine h.finish ?_
  have : run ser w (os1' ++ .monitor me d :: os2') = run ser (step ser (run ser w os1') (.monitor me d)).1 os2' := by
    rw [run_append, run_cons]
  rw [this] at hg
  have h2 : run ser w (os1' ++ monOp me d none :: os2') = run ser (step ser (run ser w os1') (.monitor me d)).1 os2' := this
  rw [h2]
  exact gone_wakes ser _ (reach_run hr os1') me d none h.run1 hd os2' h.quiet hg o kind h.accepts h.lax h.poll

theorem localServer_destLocal {me : Nat} {d : Dest} (h : LocalServer me d) : destLocal d = true := by
  rcases h with ⟨t, rfl, -⟩ | ⟨n, rfl⟩ <;> rfl

/-! ## Theorems -/

/-- C111. A process that waits in `GenServer::stop` for a local server that is gone: its next poll returns, and the call is
over. With or without a time limit. -/
theorem C111_stop {M : Type} (τ : RecvType B V (GMsg M)) (ser : V → B) (os0 ops : List (Op B V)) (me : Nat) (d : Dest)
    (reason : ExitReason) (limited : Bool) (hd : LocalServer me d) (kind : RecvKind) (o : RecvOp B V)
    (t : Option (Prog B V (Except ExitReason Unit))) (k : Msg o.T → Prog B V (Except ExitReason Unit))
    (h : At ser me (run ser init os0) (stopProg τ me d reason limited) ops (.wait kind o t k))
    (hg : ServerGone ser (run ser init os0) ops me d) (halive : running (run ser (run ser init os0) ops) me = true) :
    FinishesNow ser me (run ser init os0) (stopProg τ me d reason limited) ops kind o := by
  obtain ⟨os1, os2, rfl, hw⟩ := stop_waits τ ser _ ops me d reason limited kind o t k h halive
  exact wakes ser _ ⟨os0, rfl⟩ me _ d hd os1 os2 kind o hw hg

/-- C111. A process that waits in `GenServer::call` for a local server that is gone: its next poll returns (with the Down, or
with a reply that came before), and the call is over after at most one more operation. The time limit is not needed. -/
theorem C111_call {M : Type} (τ : RecvType B V (GMsg M)) (ser : V → B) (os0 ops : List (Op B V)) (me : Nat) (d : Dest)
    (message : M) (hd : LocalServer me d) (kind : RecvKind) (o : RecvOp B V)
    (t : Option (Prog B V (Except CallError M))) (k : Msg o.T → Prog B V (Except CallError M))
    (h : At ser me (run ser init os0) (callProg τ me d message) ops (.wait kind o t k))
    (hg : ServerGone ser (run ser init os0) ops me d) (halive : running (run ser (run ser init os0) ops) me = true) :
    FinishesNow ser me (run ser init os0) (callProg τ me d message) ops kind o := by
  obtain ⟨os1, os2, rfl, hw⟩ := call_waits τ ser _ ops me d message kind o t k h halive
  have hop : callAlias d = none := by unfold callAlias; rw [localServer_destLocal hd]; rfl
  rw [hop] at hw hg ⊢
  exact wakes ser _ ⟨os0, rfl⟩ me _ d hd os1 os2 kind o hw hg

/-- C111. A supervisor that waits, in the shutdown of a local child, for the child to end: if the child is gone, the next poll
returns and the shutdown is over after two more operations; in every mode, also in the second wait of a shutdown whose time
was up. -/
theorem C111_shutdown (u : RecvType B V Unit) (ser : V → B) (os0 ops : List (Op B V)) (me c : Nat) (hc : c ≠ me)
    (mode : ShutdownMode) (kind : RecvKind) (o : RecvOp B V)
    (t : Option (Prog B V (Except ExitReason Unit))) (k : Msg o.T → Prog B V (Except ExitReason Unit))
    (h : At ser me (run ser init os0) (shutdownProg u me (.loc c) mode) ops (.wait kind o t k))
    (hg : ServerGone ser (run ser init os0) ops me (.pid (.loc c))) (halive : running (run ser (run ser init os0) ops) me = true) :
    FinishesNow ser me (run ser init os0) (shutdownProg u me (.loc c) mode) ops kind o := by
  obtain ⟨os1, os2, rfl, hw⟩ := shutdown_waits u ser _ ops me (.loc c) mode kind o t k h halive
  exact wakes ser _ ⟨os0, rfl⟩ me _ _ (.inl ⟨c, rfl, hc⟩) os1 os2 kind o hw hg

/-! ## Concrete cases -/

/-- Process 1 waits in `stop` for process 2, which has died since. -/
example : ∃ k, At noSer 1 (run noSer init twoProcs) (stopProg natServer 1 (.pid (.loc 2)) .kill false) (stopOps.take 5)
    (.wait .resume ⟨GMsg Nat, natServer, isDown (.loc 1), false⟩ none k) :=
  ⟨_, .op rfl (.op rfl (.pending rfl rfl (.env ⟨by simp [Op.caller], by simp⟩ (.env ⟨by simp [Op.caller], by simp⟩ (.here _ _)))))⟩

example : ServerGone noSer (run noSer init twoProcs) (stopOps.take 5) 1 (.pid (.loc 2)) :=
  ⟨[], _, rfl, .inr ⟨2, rfl, rfl⟩⟩
example : running (run noSer (run noSer init twoProcs) (stopOps.take 5)) 1 = true := rfl

/-- Before the death of process 2 the poll does find nothing. -/
example : received (run noSer (run noSer init twoProcs) (stopOps.take 4)) 1 ⟨GMsg Nat, natServer, isDown (.loc 1), false⟩ .resume = none := rfl

/-- A call to a name that nobody has. -/
example : ∃ t k, At noSer 1 (run noSer init twoProcs) (callProg natServer 1 (.named "x" .loc) 7)
    [.monitor 1 (.named "x" .loc), .send 1 (.one (.named "x" .loc)) (.call ⟨.loc 1, .loc 1, false⟩ 7)]
    (.wait .select ⟨GMsg Nat, natServer, isAnswer (.loc 1), false⟩ t k) :=
  ⟨_, _, .op rfl (.op rfl (.here _ _))⟩
example : ServerGone noSer (run noSer init twoProcs)
    [.monitor 1 (.named "x" .loc), .send 1 (.one (.named "x" .loc)) (.call ⟨.loc 1, .loc 1, false⟩ 7)] 1 (.named "x" .loc) :=
  ⟨[], _, rfl, .inl rfl⟩

/-- A shutdown whose time was up, in its second wait, and the child is gone. -/
example : ∃ t k, At noSer 1 (run noSer init twoProcs') (shutdownProg anyUnit 1 (.loc 2) .duration) (shutOps.take 7)
    (.wait .resume ⟨Unit, anyUnit, isDown (.loc 1), false⟩ t k) :=
  ⟨_, _, .env ⟨by simp [Op.caller], by simp⟩ (.op rfl (.op rfl (.pending rfl rfl (.elapsed (.op rfl (.pending rfl rfl
    (.env ⟨by simp [Op.caller], by simp⟩ (.here _ _))))))))⟩
example : ServerGone noSer (run noSer init twoProcs') (shutOps.take 7) 1 (.pid (.loc 2)) :=
  ⟨[.setTrap 2 true], _, rfl, .inr ⟨2, rfl, rfl⟩⟩

end Verif.World
