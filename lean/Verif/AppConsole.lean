import Verif.App
/-!
# `Application::run` with the feature `console` (application.rs:79-83, :124-131)

With this feature the process of `run` also starts a console server, before the application, and starts another one when it ends. A start of the console server
(`ConsoleServer::start_link`, console.rs, gen_server.rs:350-464) is any program of the process of `run`; `cs k` is the `k`-th of them.
-/
namespace Verif.World
open Verif.Mailbox
variable {B V : Type}

/-- `cpid == epid && ereason != "shutdown"`, application.rs:125. -/
def consoleEnded (cpid : Pid) : Msg Unit → Bool
  | .system (.exit p r) => decide (p = cpid) && decide (r ≠ .custom "shutdown")
  | _ => false

/-- `expect("Failed to start console server!")` and `expect("Failed to restart console server!")`, application.rs:83, :129. -/
def consolePanics (me : Nat) {R : Type} (dead : R) : Prog B V R :=
  .op (.panic me "Failed to start console server!") fun _ => .op (.finish me) fun _ => .ret dead

/-- What the loop has done in one round: the message it took and the console server it has started. -/
abbrev ConsoleRound := Msg Unit × Option Pid

/-- The loop of `run`, application.rs:96-134, cut off after `n` rounds; `k` counts the starts of the console server, `cpid` is the last one. -/
def runLoopC (cs : Nat → Prog B V (Except ExitReason Pid)) (τ : RecvType B V Unit) (me : Nat) (pid : Pid) (spid : Option Pid) :
    Nat → Nat → Pid → Prog B V (List ConsoleRound × Bool)
  | 0, _, _ => .ret ([], false)
  | n + 1, k, cpid => .wait .select ⟨Unit, τ, fun _ => true, true⟩ none fun m =>
      exitsProg me (runReact pid spid m).1
        (if (runReact pid spid m).2 then .ret ([(m, none)], true)
         else if consoleEnded cpid m then (cs k).bind fun
           | .ok c => (runLoopC cs τ me pid spid n (k + 1) c).bind fun l => .ret ((m, some c) :: l.1, l.2)
           | .error _ => consolePanics me ([], false)
         else (runLoopC cs τ me pid spid n k cpid).bind fun l => .ret ((m, none) :: l.1, l.2))

/-- How the process of `run` got on: `start` failed, or the main process, the signal handler, the rounds of the loop and whether it was left. -/
inductive RunEndC
  | failed (r : ExitReason)
  | looped (pid : Pid) (spid : Option Pid) (log : List ConsoleRound) (done : Bool)

def RunEndC.sends : RunEndC → Bool
  | .failed _ => true
  | .looped _ _ _ done => done

/-- The rest of the process of `run` after `start` succeeded, application.rs:86-134. -/
def runMainC (cs : Nat → Prog B V (Except ExitReason Pid)) (τ : RecvType B V Unit) (me : Nat) (graceful : Bool) (n : Nat) (cpid pid : Pid) : Prog B V RunEndC :=
  if graceful then .op (.spawn me true false) fun x =>
    match x with
    | .spawned j _ => (runLoopC cs τ me pid (some (.loc j)) n 1 cpid).bind fun l => .ret (.looped pid (some (.loc j)) l.1 l.2)
    | _ => (runLoopC cs τ me pid none n 1 cpid).bind fun l => .ret (.looped pid none l.1 l.2)
  else (runLoopC cs τ me pid none n 1 cpid).bind fun l => .ret (.looped pid none l.1 l.2)

/-- The process that `run` spawns, application.rs:76-146; the first component of the result is the first console server. -/
def runProgC (cs : Nat → Prog B V (Except ExitReason Pid)) (start : Prog B V (Except ExitReason Pid)) (τ : RecvType B V Unit) (me : Nat) (graceful : Bool) (n : Nat) :
    Prog B V (Pid × RunEndC) :=
  .op (.setTrap me true) fun _ => (cs 0).bind fun
    | .error _ => consolePanics me (.loc 0, .failed .normal)
    | .ok cpid => start.bind fun
      | .error r => .ret (cpid, .failed r)
      | .ok pid => (runMainC cs τ me graceful n cpid pid).bind fun e => .ret (cpid, e)

/-- An execution of `run` up to the point where the call returns (see `RunReturns`). -/
inductive RunReturnsC (ser : V → B) (cs : Nat → Prog B V (Except ExitReason Pid)) (start : Prog B V (Except ExitReason Pid)) (τ : RecvType B V Unit) (me : Nat) (graceful : Bool) :
    World B V → List (Op B V) → Prop
  | sent {w os n c e} : Exec ser me w (runProgC cs start τ me graceful n) os (c, e) → e.sends = true → RunReturnsC ser cs start τ me graceful w os
  | dropped {w os n} : Cut ser me w (runProgC cs start τ me graceful n) os → doomed (run ser w os) me = true →
      RunReturnsC ser cs start τ me graceful w (os ++ [.drop me])

end Verif.World
