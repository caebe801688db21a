import Verif.Supervisor
import Verif.Server
/-!
# A supervisor as a process of the node (supervisor.rs)

`Supervisor.lean` models the decisions of a supervisor: the shutdown of a child and the run of a start routine are single effects there. Here the
supervisor is what it is in the code: a `GenServer` whose callbacks run the start routines and the shutdowns, step by step, in a node where
everybody else goes on meanwhile. Its functions are written once more as *routines* (`Sk`), whose steps are: run a start routine and look at the
outcome, shut a process down, send a retry to itself. `Sk.prog` makes a program of a routine: the start routines are arbitrary programs of the supervisor's
process, a shutdown is `shutdownProg`. The fields `log`, `calls` and `casts` of the state are history, as in `Supervisor.lean`.
-/
namespace Verif.Sup
open Verif.World Verif.Mailbox
variable {B V R R' : Type}

/-- A routine of a supervisor that returns an `R`. -/
inductive Sk (R : Type) : Type
  | ret (r : R)
  | start (c : Spec) (k : Except ExitReason Pid → Sk R)
  | stop (p : Pid) (how : Shutdown) (k : Sk R)
  | cast (id : String) (k : Sk R)
  | panic

/-- Sequential composition. -/
def Sk.bind : Sk R → (R → Sk R') → Sk R'
  | .ret r, f => f r
  | .start c k, f => .start c fun x => (k x).bind f
  | .stop p how k, f => .stop p how (k.bind f)
  | .cast id k, f => .cast id (k.bind f)
  | .panic, _ => .panic

/-- Code that neither waits nor touches the node: `none` is a panic. -/
def Sk.pure : Option R → Sk R
  | some r => .ret r
  | none => .panic

/-! ## The routines -/

/-- `start_child_by_index`, supervisor.rs:664-686. -/
def startAtK (s : Sup) (i : Nat) : Sk (Sup × Except ExitReason (Option Pid)) :=
  match s.children[i]? with
  | none => .panic
  | some c =>
    if c.spec.hasStart then
      .start c.spec fun r =>
        let s := { s with calls := s.calls + 1, log := s.log ++ [.start c.spec.id r] }
        match r with
        | .ok p => .ret (s, .ok (some p))
        | .error .ignore => .ret (s, .ok none)
        | .error e => .ret (s, .error e)
    else .panic

/-- The loop of `start_children`, supervisor.rs:322-344, and of `restart_multiple_children`, :631-643. -/
def startAllK (s : Sup) : List Nat → Sk (Sup × Option (Nat × ExitReason))
  | [] => .ret (s, none)
  | i :: is => (startAtK s i).bind fun
    | (s, .ok pid) => startAllK (started s i pid) is
    | (s, .error e) => .ret (s, some (i, e))

/-- `start_children`, supervisor.rs:319-351. -/
def startChildrenK (s : Sup) : Sk (Sup × Except ExitReason Unit) :=
  (startAllK s (List.range s.children.length)).bind fun
    | (s, some _) => .ret (s, .error (.custom "failed_to_start_child"))
    | (s, none) =>
      let rem := (List.range s.children.length).filter fun i =>
        (s.children[i]?).any fun c => c.spec.restart = .temporary && c.pid.isNone
      .pure ((removeAll s rem.reverse).map fun s => (s, .ok ()))

/-- The loop of `terminate_children`, supervisor.rs:433-449. -/
def terminateLoopK (s : Sup) : List Nat → Sk Sup
  | [] => .ret s
  | i :: is =>
    match s.children[i]? with
    | none => .panic
    | some c =>
      match c.pid with
      | none => terminateLoopK s is
      | some p =>
        .stop p (howTo c.spec) (terminateLoopK { s with children := s.children.modify i fun c => { c with pid := none },
                                                        log := s.log ++ [.stop p (howTo c.spec)] } is)

/-- `terminate_children`, supervisor.rs:430-454. -/
def terminateChildrenK (s : Sup) : Sk Sup :=
  let rem := (List.range s.children.length).reverse.filter fun i =>
    (s.children[i]?).any fun c => c.spec.restart = .temporary
  (terminateLoopK s (List.range s.children.length).reverse).bind fun s => .pure (removeAll s rem)

/-- `terminate_child_by_index`, supervisor.rs:457-467. -/
def terminateAtK (s : Sup) (i : Nat) : Sk Sup :=
  match s.children[i]? with
  | none => .panic
  | some c =>
    match c.pid with
    | none => .ret s
    | some p => .stop p (howTo c.spec) (.ret { s with children := s.children.modify i fun c => { c with pid := none, restarting := false },
                                                      log := s.log ++ [.stop p (howTo c.spec)] })

/-- `init_children`, supervisor.rs:470-478. -/
def initChildrenK (s : Sup) : Sk (Sup × Except ExitReason Unit) :=
  (startChildrenK s).bind fun
    | (s, .ok ()) => .ret (s, .ok ())
    | (s, .error e) => (terminateChildrenK s).bind fun s => .ret (s, .error e)

/-- `terminate_child_by_id`, supervisor.rs:380-392. -/
def terminateChildK (s : Sup) (id : String) : Sk (Sup × Except SupError Unit) :=
  match indexOf s id with
  | none => .ret (s, .error .notFound)
  | some i => (terminateAtK s i).bind fun s => .ret (s, .ok ())

/-- `restart_child_by_id`, supervisor.rs:395-427. -/
def restartChildK (s : Sup) (id : String) : Sk (Sup × Except SupError (Option Pid)) :=
  match indexOf s id with
  | none => .ret (s, .error .notFound)
  | some i =>
    match s.children[i]? with
    | none => .panic
    | some c =>
      if c.restarting then .ret (s, .error .restarting)
      else if c.pid.isSome then .ret (s, .error .running)
      else (startAtK s i).bind fun
        | (s, .ok pid) => .ret (started s i pid, .ok pid)
        | (s, .error e) => .ret (s, .error (.startError e))

/-- `start_new_child`, supervisor.rs:689-727. -/
def startChildK (s : Sup) (spec : Spec) : Sk (Sup × Except SupError (Option Pid)) :=
  if spec.id ∈ s.ids then
    match s.children.find? fun c => c.spec.id = spec.id with
    | none => .panic
    | some c => if c.pid.isSome then .ret (s, .error .alreadyStarted) else .ret (s, .error .alreadyPresent)
  else
    let s := { s with ids := spec.id :: s.ids, children := s.children ++ [⟨spec, none, false⟩] }
    (startAtK s (s.children.length - 1)).bind fun
      | (s, .ok pid) =>
        let i := s.children.length - 1
        let s := started s i pid
        if spec.restart = .temporary ∧ pid = none then .ret ({ s with children := s.children.eraseIdx i }, .ok pid)
        else .ret (s, .ok pid)
      | (s, .error e) => .ret (s, .error (.startError e))

/-- The first loop of `restart_multiple_children`, supervisor.rs:621-629. -/
def terminateOthersK (s : Sup) (i : Nat) : List Nat → Sk Sup
  | [] => .ret s
  | j :: js => if i = j then terminateOthersK s i js else (terminateAtK s j).bind fun s => terminateOthersK s i js

/-- `restart_multiple_children`, supervisor.rs:608-646. -/
def restartManyK (s : Sup) (i : Nat) (all : Bool) : Sk (Sup × Option (Nat × ExitReason)) :=
  let n := s.children.length
  let range := if all then List.range' 0 n else List.range' i (n - i)
  (terminateOthersK s i range).bind fun s => startAllK s range

/-- After a failed restart: `restarting = true` and a cast to itself, supervisor.rs:570-572, :585-587, :600-602. -/
def failedK (s : Sup) (i : Nat) : Sk Sup :=
  match s.children[i]? with
  | none => .panic
  | some c => .cast c.spec.id (.ret { s with children := s.children.modify i fun c => { c with restarting := true },
                                             casts := s.casts ++ [c.spec.id] })

/-- `restart`, supervisor.rs:547-605. -/
def restartK (s : Sup) (i : Nat) : Sk Sup :=
  match s.strategy with
  | .oneForOne => (startAtK s i).bind fun
    | (s, .ok pid) => .ret (started s i pid)
    | (s, .error _) => failedK s i
  | .restForOne => (restartManyK s i false).bind fun
    | (s, none) => .ret s
    | (s, some (j, _)) => failedK s j
  | .oneForAll => (restartManyK s i true).bind fun
    | (s, none) => .ret s
    | (s, some (j, _)) => failedK s j

/-- `restart_exited_child`, supervisor.rs:481-544. -/
def childExitedK (s : Sup) (now : Nat) (pid : Pid) (reason : ExitReason) : Sk (Sup × Option ExitReason) :=
  match indexOfPid s pid with
  | none => .ret (s, none)
  | some i =>
    match s.children[i]? with
    | none => .panic
    | some c =>
      let again (s : Sup) : Sk (Sup × Option ExitReason) :=
        let r := addRestart s now
        if r.2 then .ret (r.1, some shutdownReason) else (restartK r.1 i).bind fun s => .ret (s, none)
      let drop (s : Sup) : Sk (Sup × Option ExitReason) :=
        .pure ((removeChild s i).map fun r => (r.1, if autoStops r.1 r.2 then some shutdownReason else none))
      if c.spec.restart = .permanent then again s
      else if isNormal reason ∨ reason = shutdownReason then drop s
      else if c.spec.restart = .transient then again s
      else drop s

/-- `try_again_restart`, supervisor.rs:649-661. -/
def tryAgainK (s : Sup) (now : Nat) (i : Nat) : Sk (Sup × Option ExitReason) :=
  let r := addRestart s now
  if r.2 then .ret (r.1, some shutdownReason)
  else
    match r.1.children[i]? with
    | none => .panic
    | some c => if c.restarting then (restartK r.1 i).bind fun s => .ret (s, none) else .ret (r.1, none)

/-! ## The process -/

/-- `SupervisorMessage`, supervisor.rs:40-60; the two answers of a request are one constructor here. -/
inductive SMsg
  | tryAgainPid (p : Pid)
  | tryAgainId (id : String)
  | countChildren
  | counts (c : Counts)
  | startChild (spec : Spec)
  | startChildIs (r : Except SupError (Option Pid))
  | terminateChild (id : String)
  | terminateChildIs (r : Except SupError Unit)
  | restartChild (id : String)
  | restartChildIs (r : Except SupError (Option Pid))
  | deleteChild (id : String)
  | deleteChildIs (r : Except SupError Unit)
  | whichChildren
  | children (l : List Info)

/-- The mode of a shutdown without the length of its time limit (`Client.lean`). -/
def modeOf : Shutdown → ShutdownMode
  | .brutalKill => .brutalKill
  | .duration _ => .duration
  | .infinity => .infinity

/-- What a supervisor process is made of: its own number, the types of its receives, the `k`-th run of a start routine (any program of the supervisor's
process), and the clock: `clock n` is what `Instant::now()` says while the `n`-th message is handled. -/
structure Conf (B V : Type) : Type 1 where
  me : Nat
  unit : RecvType B V Unit
  type : RecvType B V (GMsg SMsg)
  startOf : Nat → Spec → Prog B V (Except ExitReason Pid)
  clock : Nat → Nat

/-- The cast of a supervisor to itself, supervisor.rs:572, :587, :602 and gen_server.rs:190-192. -/
def castOp (cf : Conf B V) (id : String) : Op B V := .send cf.me (.one (.pid (.loc cf.me))) (cf.type.box (.cast (.tryAgainId id)))

/-- A routine as a program; `n` counts the runs of start routines. A panic ends the process (`dead` is never returned, `panic_never`). -/
def Sk.prog (cf : Conf B V) (dead : R) : Nat → Sk R → Prog B V R
  | _, .ret r => .ret r
  | n, .start c k => (cf.startOf n c).bind fun x => (k x).prog cf dead (n + 1)
  | n, .stop p how k => (shutdownProg cf.unit cf.me p (modeOf how)).bind fun _ => k.prog cf dead n
  | n, .cast id k => .op (castOp cf id) fun _ => k.prog cf dead n
  | _, .panic => .op (.panic cf.me "panic") fun _ => .op (.finish cf.me) fun _ => .ret dead

/-- The state of the process: the supervisor and the number of messages handled. -/
abbrev SState := Sup × Nat

/-- Runs a routine in a callback. -/
def play (cf : Conf B V) (σ : SState) {X : Type} (dead : X) (x : Sk (Sup × X)) : Prog B V (SState × X) :=
  (x.prog cf (σ.1, dead) σ.1.calls).bind fun r => .ret ((r.1, σ.2 + 1), r.2)

/-- `Result<(), ExitReason>` of the routines that return an `Option`. -/
def asResult : Option ExitReason → Except ExitReason Unit
  | none => .ok ()
  | some r => .error r

/-- The callbacks, supervisor.rs:873-952. -/
def supServer (cf : Conf B V) : Server B V SMsg SState where
  init σ := .op (.setTrap cf.me true) fun _ => play cf σ (.ok ()) (initChildrenK σ.1)
  cast σ m := match m with
    | .tryAgainPid p => match indexOfPid σ.1 p with
      | some i => play cf σ (.ok ()) ((tryAgainK σ.1 (cf.clock σ.2) i).bind fun r => .ret (r.1, asResult r.2))
      | none => play cf σ (.ok ()) (.ret (σ.1, .ok ()))
    | .tryAgainId id =>
      let s := { σ.1 with casts := σ.1.casts.erase id }
      match indexOf s id with
      | some i => play cf σ (.ok ()) ((tryAgainK s (cf.clock σ.2) i).bind fun r => .ret (r.1, asResult r.2))
      | none => play cf σ (.ok ()) (.ret (s, .ok ()))
    | _ => play cf σ (.ok ()) .panic
  call σ m _ := match m with
    | .countChildren => play cf σ (.ok none) (.ret (σ.1, .ok (some (.counts (countChildren σ.1)))))
    | .startChild spec => play cf σ (.ok none) ((startChildK σ.1 spec).bind fun r => .ret (r.1, .ok (some (.startChildIs r.2))))
    | .terminateChild id => play cf σ (.ok none) ((terminateChildK σ.1 id).bind fun r => .ret (r.1, .ok (some (.terminateChildIs r.2))))
    | .restartChild id => play cf σ (.ok none) ((restartChildK σ.1 id).bind fun r => .ret (r.1, .ok (some (.restartChildIs r.2))))
    | .deleteChild id => play cf σ (.ok none) (.ret ((deleteChild σ.1 id).1, .ok (some (.deleteChildIs (deleteChild σ.1 id).2))))
    | .whichChildren => play cf σ (.ok none) (.ret (σ.1, .ok (some (.children (whichChildren σ.1)))))
    | _ => play cf σ (.ok none) .panic
  info σ m := match m with
    | .system (.exit p r) => play cf σ (.ok ()) ((childExitedK σ.1 (cf.clock σ.2) p r).bind fun r => .ret (r.1, asResult r.2))
    | _ => play cf σ (.ok ()) (.ret (σ.1, .ok ()))
  terminate σ _ := (play cf σ () ((terminateChildrenK σ.1).bind fun s => .ret (s, ()))).bind fun r => .ret r.1

/-- The life of a supervisor process from `init` on, gen_server.rs:378-452, cut off after `n` messages. `none`: `init` failed and the process has
ended with the reason of `init`. -/
def supLife (cf : Conf B V) (parent : Pid) (n : Nat) (s : Sup) : Prog B V (Option (Log SMsg SState) × SState) :=
  ((supServer cf).init (s, 0)).bind fun q => match q.2 with
    | .ok _ => (serverLoop (supServer cf) cf.type cf.me parent n q.1).bind fun l => .ret (some l, l.state)
    | .error r => (exitSelf cf.me r).bind fun _ => .ret (none, q.1)

end Verif.Sup
