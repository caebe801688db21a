import Verif.Types
/-!
# Supervisors (supervisor.rs)

A supervisor is a sequential state machine: its `GenServer` loop handles one event at a time. What it cannot decide itself
is given from outside and quantified over in the theorems: the outcome of the `k`-th run of a start routine (`Oracle`), the
time at which each event is handled, and the order in which requests, exit signals and its own retry casts arrive.
`shutdown(pid, how)` (supervisor.rs:961-969) returns only when the child is dead (C71), so here it is one effect `stop`.
A start routine that panics or never returns is not modelled. `None` models a panic of the supervisor process.
`Instant - Duration` (supervisor.rs:755) is exact here; the code panics if the result is before the clock's minimum.
-/
namespace Verif.Sup

/-- restart.rs:3-12 -/
inductive Restart
  | permanent | temporary | transient
  deriving DecidableEq

/-- shutdown.rs:12-21 (durations in milliseconds) -/
inductive Shutdown
  | brutalKill
  | duration (ms : Nat)
  | infinity
  deriving DecidableEq

/-- child_spec.rs:13-18 -/
inductive ChildType
  | worker | supervisor
  deriving DecidableEq

/-- shutdown.rs:25-32 -/
inductive AutoShutdown
  | never | anySignificant | allSignificant
  deriving DecidableEq

/-- supervisor.rs:107-116 -/
inductive Strategy
  | oneForOne | oneForAll | restForOne
  deriving DecidableEq

/-- `ChildSpec`, child_spec.rs:22-35; `hasStart`: `start` is `Some`. -/
structure Spec where
  id : String
  hasStart : Bool
  restart : Restart
  shutdown : Option Shutdown
  childType : ChildType
  significant : Bool
  deriving DecidableEq

/-- `SupervisedChild`, supervisor.rs:32-36. -/
structure Child where
  spec : Spec
  pid : Option Pid
  restarting : Bool
  deriving DecidableEq

/-- What a supervisor does to the outside: run a start routine (with its outcome) or shut a child process down. -/
inductive Eff
  | start (id : String) (outcome : Except ExitReason Pid)
  | stop (pid : Pid) (how : Shutdown)

/-- `Supervisor`, supervisor.rs:118-130. `casts`: the `TryAgainRestartId` messages in its own mailbox. `calls` and `log`
are history variables: the number of start routine runs and all effects so far. -/
structure Sup where
  children : List Child
  ids : List String
  restarts : List Nat
  strategy : Strategy
  auto : AutoShutdown
  maxRestarts : Nat
  maxDuration : Nat
  casts : List String
  calls : Nat
  log : List Eff

/-- The outcome of the `k`-th start routine run. -/
abbrev Oracle := Nat → Spec → Except ExitReason Pid

/-- `SupervisorError`, supervisor.rs:64-79 (without `CallError`). -/
inductive SupError
  | alreadyStarted | alreadyPresent | startError (r : ExitReason) | notFound | running | restarting

/-- `SupervisedChild::shutdown`, supervisor.rs:856-864. -/
def howTo (c : Spec) : Shutdown :=
  match c.shutdown with
  | some h => h
  | none =>
    match c.childType with
    | .worker => .duration 5000
    | .supervisor => .infinity

/-- `Supervisor::new` and the builder methods, supervisor.rs:134-144, :182-207. -/
def new (strategy : Strategy) (auto : AutoShutdown) (maxRestarts maxDuration : Nat) : Sup :=
  ⟨[], [], [], strategy, auto, maxRestarts, maxDuration, [], 0, []⟩

/-- `Supervisor::new()` with its defaults, supervisor.rs:134-144. -/
def default : Sup := new .oneForOne .never 3 5000

/-- `add_child`, supervisor.rs:158-172. -/
def addChild (s : Sup) (c : Spec) : Option Sup :=
  if c.id ∈ s.ids then none
  else some { s with ids := c.id :: s.ids, children := s.children ++ [⟨c, none, false⟩] }

/-- `with_children`, supervisor.rs:147-155. -/
def addChildren (s : Sup) : List Spec → Option Sup
  | [] => some s
  | c :: cs => (addChild s c).bind fun s => addChildren s cs

/-- `start_child_by_index`, supervisor.rs:664-686. -/
def startAt (o : Oracle) (s : Sup) (i : Nat) : Option (Sup × Except ExitReason (Option Pid)) :=
  match s.children[i]? with
  | none => none
  | some c =>
    if c.spec.hasStart then
      let r := o s.calls c.spec
      let s := { s with calls := s.calls + 1, log := s.log ++ [.start c.spec.id r] }
      match r with
      | .ok p => some (s, .ok (some p))
      | .error .ignore => some (s, .ok none)
      | .error e => some (s, .error e)
    else none

/-- `child.pid = pid; child.restarting = false`, e.g. supervisor.rs:327-328. -/
def started (s : Sup) (i : Nat) (pid : Option Pid) : Sup :=
  { s with children := s.children.modify i fun c => { c with pid := pid, restarting := false } }

/-- `remove_child`, supervisor.rs:813-819. -/
def removeChild (s : Sup) (i : Nat) : Option (Sup × Child) :=
  match s.children[i]? with
  | none => none
  | some c => some ({ s with children := s.children.eraseIdx i, ids := s.ids.filter (· ≠ c.spec.id) }, c)

/-- The removals `for index in .. { self.remove_child(index) }`, supervisor.rs:346-348, :451-453. -/
def removeAll (s : Sup) : List Nat → Option Sup
  | [] => some s
  | i :: is => (removeChild s i).bind fun r => removeAll r.1 is

/-- Starts the children with the given indices one after the other, up to the first failure (supervisor.rs:322-344 and
:631-643). -/
def startAll (o : Oracle) (s : Sup) : List Nat → Option (Sup × Option (Nat × ExitReason))
  | [] => some (s, none)
  | i :: is =>
    match startAt o s i with
    | none => none
    | some (s, .ok pid) => startAll o (started s i pid) is
    | some (s, .error e) => some (s, some (i, e))

/-- `start_children`, supervisor.rs:319-351. The indices to remove are collected after the loop instead of in it. -/
def startChildren (o : Oracle) (s : Sup) : Option (Sup × Except ExitReason Unit) :=
  match startAll o s (List.range s.children.length) with
  | none => none
  | some (s, some _) => some (s, .error (.custom "failed_to_start_child"))
  | some (s, none) =>
    let rem := (List.range s.children.length).filter fun i =>
      (s.children[i]?).any fun c => c.spec.restart = .temporary && c.pid.isNone
    (removeAll s rem.reverse).map fun s => (s, .ok ())

/-- The loop of `terminate_children`, supervisor.rs:433-449: last child first. -/
def terminateLoop (s : Sup) : List Nat → Option Sup
  | [] => some s
  | i :: is =>
    match s.children[i]? with
    | none => none
    | some c =>
      match c.pid with
      | none => terminateLoop s is
      | some p =>
        terminateLoop { s with children := s.children.modify i fun c => { c with pid := none },
                               log := s.log ++ [.stop p (howTo c.spec)] } is

/-- `terminate_children`, supervisor.rs:430-454. -/
def terminateChildren (s : Sup) : Option Sup :=
  let rem := (List.range s.children.length).reverse.filter fun i =>
    (s.children[i]?).any fun c => c.spec.restart = .temporary
  (terminateLoop s (List.range s.children.length).reverse).bind fun s => removeAll s rem

/-- `terminate_child_by_index`, supervisor.rs:457-467. -/
def terminateAt (s : Sup) (i : Nat) : Option Sup :=
  match s.children[i]? with
  | none => none
  | some c =>
    match c.pid with
    | none => some s
    | some p => some { s with children := s.children.modify i fun c => { c with pid := none, restarting := false },
                              log := s.log ++ [.stop p (howTo c.spec)] }

/-- `init_children`, supervisor.rs:470-478. -/
def initChildren (o : Oracle) (s : Sup) : Option (Sup × Except ExitReason Unit) :=
  match startChildren o s with
  | none => none
  | some (s, .ok ()) => some (s, .ok ())
  | some (s, .error e) => (terminateChildren s).map fun s => (s, .error e)

/-- `position(|child| child.spec.id == id)`, supervisor.rs:355-358, `find_child_id` :829-831. -/
def indexOf (s : Sup) (id : String) : Option Nat := s.children.findIdx? fun c => c.spec.id = id

/-- `find_child`, supervisor.rs:822-826. -/
def indexOfPid (s : Sup) (p : Pid) : Option Nat := s.children.findIdx? fun c => c.pid = some p

/-- `delete_child_by_id`, supervisor.rs:354-377. -/
def deleteChild (s : Sup) (id : String) : Sup × Except SupError Unit :=
  match indexOf s id with
  | none => (s, .error .notFound)
  | some i =>
    match s.children[i]? with
    | none => (s, .error .notFound)
    | some c =>
      if c.restarting then (s, .error .restarting)
      else if c.pid.isSome then (s, .error .running)
      else ({ s with children := s.children.eraseIdx i, ids := s.ids.filter (· ≠ c.spec.id) }, .ok ())

/-- `terminate_child_by_id`, supervisor.rs:380-392. -/
def terminateChild (s : Sup) (id : String) : Option (Sup × Except SupError Unit) :=
  match indexOf s id with
  | none => some (s, .error .notFound)
  | some i => (terminateAt s i).map fun s => (s, .ok ())

/-- `restart_child_by_id`, supervisor.rs:395-427. -/
def restartChild (o : Oracle) (s : Sup) (id : String) : Option (Sup × Except SupError (Option Pid)) :=
  match indexOf s id with
  | none => some (s, .error .notFound)
  | some i =>
    match s.children[i]? with
    | none => none
    | some c =>
      if c.restarting then some (s, .error .restarting)
      else if c.pid.isSome then some (s, .error .running)
      else
        match startAt o s i with
        | none => none
        | some (s, .ok pid) => some (started s i pid, .ok pid)
        | some (s, .error e) => some (s, .error (.startError e))

/-- `start_new_child`, supervisor.rs:689-727. -/
def startChild (o : Oracle) (s : Sup) (spec : Spec) : Option (Sup × Except SupError (Option Pid)) :=
  if spec.id ∈ s.ids then
    match s.children.find? fun c => c.spec.id = spec.id with
    | none => none
    | some c => if c.pid.isSome then some (s, .error .alreadyStarted) else some (s, .error .alreadyPresent)
  else
    let s := { s with ids := spec.id :: s.ids, children := s.children ++ [⟨spec, none, false⟩] }
    match startAt o s (s.children.length - 1) with
    | none => none
    | some (s, .ok pid) =>
      let i := s.children.length - 1
      let s := started s i pid
      if spec.restart = .temporary ∧ pid = none then some ({ s with children := s.children.eraseIdx i }, .ok pid)
      else some (s, .ok pid)
    | some (s, .error e) => some (s, .error (.startError e))

/-- `check_auto_shutdown`, supervisor.rs:730-750. -/
def autoStops (s : Sup) (c : Child) : Bool :=
  if s.auto = .never then false
  else if c.spec.significant = false then false
  else if s.auto = .anySignificant then true
  else s.children.any fun c => c.pid.isSome && c.spec.significant

/-- `add_restart`, supervisor.rs:753-768 (`restart >= now - max_duration`). -/
def addRestart (s : Sup) (now : Nat) : Sup × Bool :=
  let rs := s.restarts.filter (fun t => now ≤ t + s.maxDuration) ++ [now]
  ({ s with restarts := rs }, s.maxRestarts < rs.length)

/-- The first loop of `restart_multiple_children`, supervisor.rs:621-629. -/
def terminateOthers (s : Sup) (i : Nat) : List Nat → Option Sup
  | [] => some s
  | j :: js => if i = j then terminateOthers s i js else (terminateAt s j).bind fun s => terminateOthers s i js

/-- `restart_multiple_children`, supervisor.rs:608-646. -/
def restartMany (o : Oracle) (s : Sup) (i : Nat) (all : Bool) : Option (Sup × Option (Nat × ExitReason)) :=
  let n := s.children.length
  let range := if all then List.range' 0 n else List.range' i (n - i)
  (terminateOthers s i range).bind fun s => startAll o s range

/-- After a failed restart: `restarting = true` and a cast to itself, supervisor.rs:570-572, :585-587, :600-602. -/
def failed (s : Sup) (i : Nat) : Option Sup :=
  match s.children[i]? with
  | none => none
  | some c => some { s with children := s.children.modify i fun c => { c with restarting := true },
                            casts := s.casts ++ [c.spec.id] }

/-- `restart`, supervisor.rs:547-605. -/
def restart (o : Oracle) (s : Sup) (i : Nat) : Option Sup :=
  match s.strategy with
  | .oneForOne =>
    match startAt o s i with
    | none => none
    | some (s, .ok pid) => some (started s i pid)
    | some (s, .error _) => failed s i
  | .restForOne =>
    match restartMany o s i false with
    | none => none
    | some (s, none) => some s
    | some (s, some (j, _)) => failed s j
  | .oneForAll =>
    match restartMany o s i true with
    | none => none
    | some (s, none) => some s
    | some (s, some (j, _)) => failed s j

/-- The exit reason `"shutdown"`. -/
def shutdownReason : ExitReason := .custom "shutdown"

/-- `restart_exited_child`, supervisor.rs:481-544; the second component is `Some` for `Err(reason)`. -/
def childExited (o : Oracle) (s : Sup) (now : Nat) (pid : Pid) (reason : ExitReason) : Option (Sup × Option ExitReason) :=
  match indexOfPid s pid with
  | none => some (s, none)
  | some i =>
    match s.children[i]? with
    | none => none
    | some c =>
      let again (s : Sup) : Option (Sup × Option ExitReason) :=
        let r := addRestart s now
        if r.2 then some (r.1, some shutdownReason) else (restart o r.1 i).map fun s => (s, none)
      let drop (s : Sup) : Option (Sup × Option ExitReason) :=
        (removeChild s i).map fun r => (r.1, if autoStops r.1 r.2 then some shutdownReason else none)
      if c.spec.restart = .permanent then again s
      else if isNormal reason ∨ reason = shutdownReason then drop s
      else if c.spec.restart = .transient then again s
      else drop s

/-- `try_again_restart`, supervisor.rs:649-661. -/
def tryAgain (o : Oracle) (s : Sup) (now : Nat) (i : Nat) : Option (Sup × Option ExitReason) :=
  let r := addRestart s now
  if r.2 then some (r.1, some shutdownReason)
  else
    match r.1.children[i]? with
    | none => none
    | some c => if c.restarting then (restart o r.1 i).map fun s => (s, none) else some (r.1, none)

/-- `SupervisorChildInfo`, supervisor.rs:83-92. -/
structure Info where
  id : String
  child : Option Pid
  childType : ChildType
  restarting : Bool

/-- `which_children_info`, supervisor.rs:771-784. -/
def whichChildren (s : Sup) : List Info := s.children.map fun c => ⟨c.spec.id, c.pid, c.spec.childType, c.restarting⟩

/-- `SupervisorCounts`, supervisor.rs:96-105. -/
structure Counts where
  specs : Nat
  active : Nat
  supervisors : Nat
  workers : Nat

/-- `count_all_children`, supervisor.rs:787-810. -/
def countChildren (s : Sup) : Counts :=
  s.children.foldl (fun k c =>
    { specs := k.specs + 1,
      active := if c.pid.isSome then k.active + 1 else k.active,
      supervisors := if c.spec.childType = .supervisor then k.supervisors + 1 else k.supervisors,
      workers := if c.spec.childType = .supervisor then k.workers else k.workers + 1 }) ⟨0, 0, 0, 0⟩

/-- What the supervisor process can be asked to handle: an exit signal (`handle_info`, supervisor.rs:944-951), the next
retry cast in its mailbox (`handle_cast`, :886-904; `TryAgainRestartPid` is never sent), a call (`handle_call`, :906-942),
any other message, and the order to stop (`GenServer::stop` or the exit of its parent). -/
inductive Event
  | exit (pid : Pid) (reason : ExitReason)
  | retry
  | count
  | which
  | startChild (spec : Spec)
  | terminateChild (id : String)
  | restartChild (id : String)
  | deleteChild (id : String)
  | other
  | stop (reason : ExitReason)

inductive Reply
  | none
  | counts (c : Counts)
  | children (l : List Info)
  | pid (r : Except SupError (Option Pid))
  | done (r : Except SupError Unit)

/-- Ends an event: on `Err(reason)` the `GenServer` loop calls `terminate` (supervisor.rs:882-884) and the process exits. -/
def finish (r : Sup × Option ExitReason) : Option (Sup × Reply × Option ExitReason) :=
  match r.2 with
  | none => some (r.1, .none, none)
  | some e => (terminateChildren r.1).map fun s => (s, .none, some e)

/-- One event at time `now`: the new state, the reply to a call, and the exit reason if the supervisor stops. -/
def step (o : Oracle) (s : Sup) (now : Nat) : Event → Option (Sup × Reply × Option ExitReason)
  | .exit pid reason => (childExited o s now pid reason).bind finish
  | .retry =>
    match s.casts with
    | [] => some (s, .none, none)
    | id :: rest =>
      let s := { s with casts := rest }
      match indexOf s id with
      | none => some (s, .none, none)
      | some i => (tryAgain o s now i).bind finish
  | .count => some (s, .counts (countChildren s), none)
  | .which => some (s, .children (whichChildren s), none)
  | .startChild spec => (startChild o s spec).map fun r => (r.1, .pid r.2, none)
  | .terminateChild id => (terminateChild s id).map fun r => (r.1, .done r.2, none)
  | .restartChild id => (restartChild o s id).map fun r => (r.1, .pid r.2, none)
  | .deleteChild id => some ((deleteChild s id).1, .done (deleteChild s id).2, none)
  | .other => some (s, .none, none)
  | .stop reason => (terminateChildren s).map fun s => (s, .none, some reason)

inductive Status
  | up (s : Sup)
  | stopped (s : Sup) (reason : ExitReason)
  | panicked

/-- The life of a supervisor process after `init`. -/
def run (o : Oracle) : Status → List (Nat × Event) → Status
  | .up s, (now, e) :: es =>
    match step o s now e with
    | none => .panicked
    | some (s, _, none) => run o (.up s) es
    | some (s, _, some r) => .stopped s r
  | st, _ => st

/-- `init`, supervisor.rs:876-880: on failure the process exits with the reason. -/
def boot (o : Oracle) (s : Sup) : Status :=
  match initChildren o s with
  | none => .panicked
  | some (s, .ok ()) => .up s
  | some (s, .error e) => .stopped s e

end Verif.Sup
