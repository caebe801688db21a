import Verif.Provenance
/-!
# Client side of servers and supervisors: programs run by one process

`GenServer::stop`, `GenServer::call` (gen_server.rs:144-272) and the shutdown routines (shutdown.rs, supervisor.rs:961-969)
are small `async` functions run by a process `me`. They are modelled as `Prog`: a tree of operations of `me`, receives and
a result. `Exec` runs a program in the world: between any two of its steps any other operation may happen, by any other
process, node or connection.
-/
namespace Verif.World
open Verif.Mailbox
variable {B V R : Type}

/-- A program of one process. `wait` is `receiver.select(..).await`, with `some p` under `Process::timeout`, `p` being what
follows when the time is up. `kind` is `.select` for a new receive and `.resume` for one that was polled before. -/
inductive Prog (B V R : Type) : Type 1
  | ret (r : R)
  | op (o : Op B V) (k : Res → Prog B V R)
  | wait (kind : RecvKind) (o : RecvOp B V) (timeout : Option (Prog B V R)) (k : Msg o.T → Prog B V R)

/-- The others: every operation that is not made by `me` and is not the end of `me`. -/
def Others (me : Nat) (o : Op B V) : Prop := o.caller ≠ some me ∧ o ≠ .drop me

/-- `Exec ser me w p os r`: from the world `w`, the process `me` running `p` can return `r` after the history `os`, which
contains the operations of `me` and, interleaved in any way, those of the others. The time of a `wait` may be up at any
moment after its first poll (`tokio::time::timeout` polls the future before the timer). -/
inductive Exec (ser : V → B) (me : Nat) : World B V → Prog B V R → List (Op B V) → R → Prop
  | ret (w r) : Exec ser me w (.ret r) [] r
  | env {w p o os r} : Others me o → Exec ser me (step ser w o).1 p os r → Exec ser me w p (o :: os) r
  | op {w o k os r} : running w me = true → Exec ser me (step ser w o).1 (k (step ser w o).2) os r →
      Exec ser me w (.op o k) (o :: os) r
  | got {w kind o t k os r m} : running w me = true → received w me o kind = some m →
      Exec ser me (step ser w (.recv me o kind)).1 (k m) os r → Exec ser me w (.wait kind o t k) (.recv me o kind :: os) r
  | pending {w kind o t k os r} : running w me = true → received w me o kind = none →
      Exec ser me (step ser w (.recv me o kind)).1 (.wait .resume o t k) os r →
      Exec ser me w (.wait kind o t k) (.recv me o kind :: os) r
  | elapsed {w o p k os r} : Exec ser me w p os r → Exec ser me w (.wait .resume o (some p) k) os r

/-! ## The programs -/

/-- `From`, from.rs:9-13. -/
structure From where
  pid : Pid
  tag : Ref
  alias : Bool
  deriving DecidableEq

/-- `GenServerMessage<T>`, gen_server.rs:24-33. -/
inductive GMsg (M : Type)
  | cast (m : M)
  | call (frm : From) (m : M)
  | callReply (tag : Ref) (m : M)
  | stop (reason : ExitReason)

/-- The filter of `stop` and of the shutdown routines: the Down of the monitor. -/
def isDown {T : Type} (r : Ref) : Msg T → Bool
  | .system (.processDown _ r' _) => r' == r
  | _ => false

/-- The filter of `call`, gen_server.rs:232-246. -/
def isAnswer {M : Type} (r : Ref) : Msg (GMsg M) → Bool
  | .user (.callReply tag _) => tag == r
  | .system (.processDown _ tag _) => tag == r
  | _ => false

/-- The filter of the removal of a stale reply, gen_server.rs:263-265. -/
def isReply {M : Type} (r : Ref) : Msg (GMsg M) → Bool
  | .user (.callReply tag _) => tag == r
  | _ => false

/-- `GenServer::stop`, gen_server.rs:144-183. `limited` says whether a timeout was given. A result that is not the Down is
`unreachable!()` in the code (the filter passes nothing else, `isDown_inv`). -/
def stopProg {M : Type} (τ : RecvType B V (GMsg M)) (me : Nat) (server : Dest) (reason : ExitReason) (limited : Bool) :
    Prog B V (Except ExitReason Unit) :=
  .op (.monitor me server) fun res =>
    let monitor := match res with | .ref r => r | _ => .loc 0
    .op (.send me (.one server) (τ.box (.stop reason))) fun _ =>
      .wait .select ⟨GMsg M, τ, isDown monitor, false⟩
        (if limited then some (.op (.demonitor me monitor) fun _ => .ret (.error (.custom "timeout"))) else none)
        fun m => match m with
          | .system (.processDown _ _ exitReason) =>
              .ret (if reason = exitReason then .ok () else .error exitReason)
          | _ => .ret (.error (.custom "unreachable"))

/-- `CallError`, call_error.rs:9-12. -/
inductive CallError
  | timeout
  | serverDown (reason : ExitReason)
  deriving DecidableEq

/-- `GenServer::call`, gen_server.rs:213-272. -/
def callProg {M : Type} (τ : RecvType B V (GMsg M)) (me : Nat) (server : Dest) (message : M) :
    Prog B V (Except CallError M) :=
  .op (if destLocal server then .monitor me server else .monitorAlias me server true) fun res =>
    let monitor := match res with | .ref r => r | _ => .loc 0
    .op (.send me (.one server) (τ.box (.call ⟨.loc me, monitor, !destLocal server⟩ message))) fun _ =>
      .wait .select ⟨GMsg M, τ, isAnswer monitor, false⟩
        (some (.op (.demonitor me monitor) fun _ =>
          .op (.recv me ⟨GMsg M, τ, isReply monitor, false⟩ .remove) fun _ => .ret (.error .timeout)))
        fun m => match m with
          | .user (.callReply _ reply) => .op (.demonitor me monitor) fun _ => .ret (.ok reply)
          | .system (.processDown _ _ reason) => .ret (.error (.serverDown reason))
          | _ => .ret (.error .timeout)

/-- `GenServer::reply`, gen_server.rs:283-289, as an operation of process `me`. -/
def replyOp {M : Type} (τ : RecvType B V (GMsg M)) (me : Nat) (frm : From) (message : M) : Op B V :=
  .send me (.one (if frm.alias then .alias frm.tag else .pid frm.pid)) (τ.box (.callReply frm.tag message))

/-- The filter of `unlink_flush`, shutdown.rs:116-126. -/
def isExitOf {T : Type} (pid : Pid) : Msg T → Bool
  | .system (.exit p _) => p == pid
  | _ => false

/-- `unlink_flush`, shutdown.rs:111-129, followed by `Ok(())`. The reason it computes is not used by any caller. -/
def unlinkFlush (u : RecvType B V Unit) (me : Nat) (pid : Pid) : Prog B V (Except ExitReason Unit) :=
  .op (.unlink me pid) fun _ => .op (.recv me ⟨Unit, u, isExitOf pid, false⟩ .remove) fun _ => .ret (.ok ())

/-- `shutdown_brutal_kill`, shutdown.rs:41-64. The receives of shutdown.rs are for messages of type `()`. -/
def brutalKill (u : RecvType B V Unit) (me : Nat) (pid : Pid) (monitor : Ref) : Prog B V (Except ExitReason Unit) :=
  .op (.exit me pid .kill) fun _ =>
    .wait .select ⟨Unit, u, isDown monitor, false⟩ none fun _ => unlinkFlush u me pid

/-- `Shutdown`, shutdown.rs:11-22 (the length of the duration does not matter here). -/
inductive ShutdownMode
  | brutalKill | duration | infinity
  deriving DecidableEq

/-- `shutdown` of a child, supervisor.rs:961-969, with `shutdown_timeout` (shutdown.rs:68-90) and `shutdown_infinity`
(:93-107). -/
def shutdownProg (u : RecvType B V Unit) (me : Nat) (pid : Pid) (mode : ShutdownMode) : Prog B V (Except ExitReason Unit) :=
  .op (.monitor me (.pid pid)) fun res =>
    let monitor := match res with | .ref r => r | _ => .loc 0
    match mode with
    | .brutalKill => brutalKill u me pid monitor
    | .duration =>
        .op (.exit me pid (.custom "shutdown")) fun _ =>
          .wait .select ⟨Unit, u, isDown monitor, false⟩ (some (brutalKill u me pid monitor)) fun _ => unlinkFlush u me pid
    | .infinity =>
        .op (.exit me pid (.custom "shutdown")) fun _ =>
          .wait .select ⟨Unit, u, isDown monitor, false⟩ none fun _ => unlinkFlush u me pid

/-! ## Inversion of executions -/

theorem exec_ret_inv {ser : V → B} {me : Nat} {w : World B V} {r r' : R} {os : List (Op B V)}
    (h : Exec ser me w (.ret r) os r') : r' = r ∧ ∀ o ∈ os, Others me o := by
  generalize hp : (Prog.ret r : Prog B V R) = p at h
  induction h with
  | ret => cases hp; exact ⟨rfl, by simp⟩
  | env ho _ ih =>
    obtain ⟨h1, h2⟩ := ih hp
    refine ⟨h1, ?_⟩
    intro x hm; rcases List.mem_cons.1 hm with rfl | hm
    · exact ho
    · exact h2 x hm
  | _ => cases hp

theorem exec_op_inv {ser : V → B} {me : Nat} {w : World B V} {o : Op B V} {k : Res → Prog B V R} {r : R} {os : List (Op B V)}
    (h : Exec ser me w (.op o k) os r) :
    ∃ os1 os2, os = os1 ++ o :: os2 ∧ (∀ o ∈ os1, Others me o) ∧ running (run ser w os1) me = true ∧
      Exec ser me (step ser (run ser w os1) o).1 (k (step ser (run ser w os1) o).2) os2 r := by
  generalize hp : (Prog.op o k : Prog B V R) = p at h
  induction h with
  | op hr hx _ => cases hp; exact ⟨[], _, rfl, by simp, hr, hx⟩
  | @env w p o' os r ho _ ih =>
    obtain ⟨os1, os2, h1, h2, h3, h4⟩ := ih hp
    refine ⟨o' :: os1, os2, by rw [h1]; rfl, ?_, h3, h4⟩
    intro x hm; rcases List.mem_cons.1 hm with rfl | hm
    · exact ho
    · exact h2 x hm
  | _ => cases hp

/-- What happens during a wait. -/
def Waiting (me : Nat) (o : RecvOp B V) (x : Op B V) : Prop := Others me x ∨ ∃ kind, x = .recv me o kind

theorem exec_wait_inv {ser : V → B} {me : Nat} {w : World B V} {kind : RecvKind} {o : RecvOp B V} {t : Option (Prog B V R)}
    {k : Msg o.T → Prog B V R} {r : R} {os : List (Op B V)} (h : Exec ser me w (.wait kind o t k) os r) :
    ∃ os1 os2, os = os1 ++ os2 ∧ (∀ x ∈ os1, Waiting me o x) ∧
      ((∃ kind m os3, received (run ser w os1) me o kind = some m ∧ os2 = .recv me o kind :: os3 ∧
          running (run ser w os1) me = true ∧
          Exec ser me (step ser (run ser w os1) (.recv me o kind)).1 (k m) os3 r) ∨
       ∃ p, t = some p ∧ Exec ser me (run ser w os1) p os2 r) := by
  generalize hp : (Prog.wait kind o t k : Prog B V R) = p at h
  induction h generalizing kind with
  | @env w p o' os r ho _ ih =>
    obtain ⟨os1, os2, h1, h2, h3⟩ := ih hp
    refine ⟨o' :: os1, os2, by rw [h1]; rfl, ?_, h3⟩
    intro x hm; rcases List.mem_cons.1 hm with rfl | hm
    · exact .inl ho
    · exact h2 x hm
  | got hr hm hx _ => cases hp; exact ⟨[], _, rfl, by simp, .inl ⟨_, _, _, hm, rfl, hr, hx⟩⟩
  | @pending w kind' o' t' k' os r hr hn _ ih =>
    cases hp
    obtain ⟨os1, os2, h1, h2, h3⟩ := ih rfl
    refine ⟨.recv me _ kind' :: os1, os2, by rw [h1]; rfl, ?_, h3⟩
    intro x hm; rcases List.mem_cons.1 hm with rfl | hm
    · exact .inr ⟨_, rfl⟩
    · exact h2 x hm
  | elapsed hx _ => cases hp; exact ⟨[], _, rfl, by simp, .inr ⟨_, rfl, hx⟩⟩
  | _ => cases hp

end Verif.World
