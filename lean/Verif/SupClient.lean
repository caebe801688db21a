import Verif.SupProc
/-!
# The functions by which a supervisor is asked (supervisor.rs)

`Supervisor::count_children`, `start_child`, `terminate_child`, `restart_child`, `delete_child` and `which_children`: each of them calls the supervisor
and takes the answer apart. They are programs of the process that calls them.
-/
namespace Verif.Sup
open Verif.World Verif.Mailbox
variable {B V : Type}

/-- Which of the functions, and its argument. -/
inductive Ask
  | count
  | which
  | start (c : Spec)
  | terminate (id : String)
  | restart (id : String)
  | delete (id : String)

/-- What the function returns in its `Ok`, supervisor.rs:228, :241, :261, :280, :296, :309. -/
def Ask.Out : Ask → Type
  | .count => Counts
  | .which => List Info
  | .start _ => Option Pid
  | .terminate _ => Unit
  | .restart _ => Option Pid
  | .delete _ => Unit

/-- `SupervisorError`, supervisor.rs:64-79: the failed call, or one of the others. `From<CallError>`, supervisor.rs:954-958. -/
inductive AskError
  | call (e : CallError)
  | sup (e : SupError)

/-- The message of the call: supervisor.rs:231, :244 (`Local` is transparent to a supervisor of this node), :264, :283, :299, :312. -/
def Ask.msg : Ask → SMsg
  | .count => .countChildren
  | .which => .whichChildren
  | .start c => .startChild c
  | .terminate id => .terminateChild id
  | .restart id => .restartChild id
  | .delete id => .deleteChild id

/-- The arms of the `match` on the reply, supervisor.rs:231-234, :244-248, :264-268, :283-287, :299-303, :312-315; `none` is the arm `unreachable!()`. -/
def Ask.read : (q : Ask) → SMsg → Option (Except SupError q.Out)
  | .count, .counts c => some (.ok c)
  | .which, .children l => some (.ok l)
  | .start _, .startChildIs r => some r
  | .terminate _, .terminateChildIs r => some r
  | .restart _, .restartChildIs r => some r
  | .delete _, .deleteChildIs r => some r
  | _, _ => none

/-- What is made of the outcome of the call: `?` and the `match`, same lines. `unreachable!()` is a panic (what stands after the panic is never executed,
`panic_never`). -/
def Ask.take (me : Nat) (q : Ask) : Except CallError SMsg → Prog B V (Except AskError q.Out)
  | .error e => .ret (.error (.call e))
  | .ok m => match q.read m with
    | some (.ok y) => .ret (.ok y)
    | some (.error e) => .ret (.error (.sup e))
    | none => .op (.panic me "unreachable") fun _ => .op (.finish me) fun _ => .ret (.error (.call .timeout))

/-- `Supervisor::count_children` etc., supervisor.rs:226-316, as a program of the process `me`; `d` is the supervisor. -/
def Ask.prog (τ : RecvType B V (GMsg SMsg)) (me : Nat) (d : Dest) (q : Ask) : Prog B V (Except AskError q.Out) :=
  (callProg τ me d q.msg).bind (q.take me)

end Verif.Sup
