import Verif.Server
/-!
# `Application` (application.rs)

Modelled: the process that `run` and `test` spawn, and what they do with what it reports. Not modelled: tracing, the console
server (feature `console`), the runtime, and the signal handler process, which here is a process that may exit at any time.
-/
namespace Verif.World
open Verif.Mailbox
variable {B V : Type}

/-- What the thread that called `test` gets to know, application.rs:163, :188: a reason sent through the channel, or that its sender was
dropped. -/
inductive TestEnd
  | reported (r : ExitReason)
  | dropped

/-- The loop of `test`, application.rs:169-181, cut off after a number of rounds; it returns the messages it received and the
reason it reports. -/
def testLoop (τ : RecvType B V Unit) (pid : Pid) : Nat → Prog B V (List (Msg Unit) × Option ExitReason)
  | 0 => .ret ([], none)
  | n + 1 => .wait .select ⟨Unit, τ, fun _ => true, true⟩ none fun m =>
      match m with
      | .system (.exit p r) =>
        if p = pid then .ret ([m], some r)
        else (testLoop τ pid n).bind fun l => .ret (m :: l.1, l.2)
      | _ => (testLoop τ pid n).bind fun l => .ret (m :: l.1, l.2)

/-- The process that `test` spawns, application.rs:166-186. `start` is `Application::start`. The result says whether `start`
succeeded, and as `testLoop`. -/
def testProg (start : Prog B V (Except ExitReason Pid)) (τ : RecvType B V Unit) (me n : Nat) :
    Prog B V (Option Pid × List (Msg Unit) × Option ExitReason) :=
  .op (.setTrap me true) fun _ => start.bind fun
    | .ok pid => (testLoop τ pid n).bind fun l => .ret (some pid, l)
    | .error r => .ret (none, [], some r)

/-- An execution of `test`, with the number of rounds of the loop as the bound. The channel's sender is dropped when the process dies
before it has sent something. -/
inductive TestRun (ser : V → B) (start : Prog B V (Except ExitReason Pid)) (τ : RecvType B V Unit) (me : Nat) :
    World B V → List (Op B V) → TestEnd → Prop
  | reported {w os n p ms r} : Exec ser me w (testProg start τ me n) os (p, ms, some r) → TestRun ser start τ me w os (.reported r)
  | dropped {w os n} : Cut ser me w (testProg start τ me n) os → doomed (run ser w os) me = true →
      TestRun ser start τ me w (os ++ [.drop me]) .dropped

/-- `ExitReason::is_custom`, exit_reason.rs:38-40. -/
def isCustom : ExitReason → Bool
  | .custom _ => true
  | _ => false

/-- Whether `test` panics, application.rs:188-192. -/
def testPanics : TestEnd → Bool
  | .reported r => isCustom r && r != .custom "shutdown"
  | .dropped => false

/-- What the loop of `run` does with a message, application.rs:99-133: the exits it makes, and whether it is done. `spid` is the signal
handler, if there is one. The timer that sends the shutdown timeout message (:121) is not modelled: the message may arrive at
any time. -/
def runReact (pid : Pid) (spid : Option Pid) : Msg Unit → List (Pid × ExitReason) × Bool
  | .user _ => ([(pid, .kill)], false)
  | .system (.exit p _) =>
    if p = pid then ([], true)
    else if spid = some p then ([(pid, .custom "shutdown")], false)
    else ([], false)
  | _ => ([], false)

/-- Makes exits one after the other. -/
def exitsProg (me : Nat) {R : Type} : List (Pid × ExitReason) → Prog B V R → Prog B V R
  | [], k => k
  | x :: xs, k => .op (.exit me x.1 x.2) fun _ => exitsProg me xs k

/-- The loop of `run`, application.rs:96-134, cut off after a number of rounds: the messages it received, and whether it ended. -/
def runLoop (τ : RecvType B V Unit) (me : Nat) (pid : Pid) (spid : Option Pid) : Nat → Prog B V (List (Msg Unit) × Bool)
  | 0 => .ret ([], false)
  | n + 1 => .wait .select ⟨Unit, τ, fun _ => true, true⟩ none fun m =>
      exitsProg me (runReact pid spid m).1
        (if (runReact pid spid m).2 then .ret ([m], true)
         else (runLoop τ me pid spid n).bind fun l => .ret (m :: l.1, l.2))

/-- The result of the process that `run` spawns: `start` failed, or the main process, the signal handler and the loop's result. -/
inductive RunEnd
  | failed (r : ExitReason)
  | looped (pid : Pid) (spid : Option Pid) (ms : List (Msg Unit)) (done : Bool)

/-- The rest of that process after `start` succeeded, application.rs:90-134. `graceful`: `config.graceful_shutdown`. -/
def runMain (τ : RecvType B V Unit) (me : Nat) (graceful : Bool) (n : Nat) (pid : Pid) : Prog B V RunEnd :=
  if graceful then .op (.spawn me true false) fun x =>
    match x with
    | .spawned j _ => (runLoop τ me pid (some (.loc j)) n).bind fun l => .ret (.looped pid (some (.loc j)) l.1 l.2)
    | _ => (runLoop τ me pid none n).bind fun l => .ret (.looped pid none l.1 l.2)
  else (runLoop τ me pid none n).bind fun l => .ret (.looped pid none l.1 l.2)

/-- The process that `run` spawns, application.rs:76-146. -/
def runProg (start : Prog B V (Except ExitReason Pid)) (τ : RecvType B V Unit) (me : Nat) (graceful : Bool) (n : Nat) : Prog B V RunEnd :=
  .op (.setTrap me true) fun _ => start.bind fun
    | .error r => .ret (.failed r)
    | .ok pid => runMain τ me graceful n pid

/-- Whether the process gets to `tx.send(())`, application.rs:145: `start` failed or the loop was left. -/
def RunEnd.sends : RunEnd → Bool
  | .failed _ => true
  | .looped _ _ _ done => done

/-- An execution of `run` up to the point where the call returns, application.rs:74-148: `let _ = rx.await` (:148) ends when the process has sent, and also
when the sender was dropped because the process died. The number of rounds of the loop is any. -/
inductive RunReturns (ser : V → B) (start : Prog B V (Except ExitReason Pid)) (τ : RecvType B V Unit) (me : Nat) (graceful : Bool) :
    World B V → List (Op B V) → Prop
  | sent {w os n e} : Exec ser me w (runProg start τ me graceful n) os e → e.sends = true → RunReturns ser start τ me graceful w os
  | dropped {w os n} : Cut ser me w (runProg start τ me graceful n) os → doomed (run ser w os) me = true →
      RunReturns ser start τ me graceful w (os ++ [.drop me])

end Verif.World
