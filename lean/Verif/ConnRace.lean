import Verif.Race
/-!
# Races between watching a remote process and losing the connection

`Process::monitor` (and `link`) of a remote process makes three accesses to shared tables: it stores who is to be told (`NODE_MONITORS`, `NODE_LINKS`),
makes sure that there is a connection, and hands over the request (monitor.rs:137-151, :193-204, link.rs:57-64). On other threads the connection may come up,
be replaced or be lost between any two of them. This file models one remote node at the granularity of these accesses. Every access to the registration of the node
happens under the lock of that registration (`NODE_REGISTRATIONS.alter`/`get`/`insert`), which the clean-up after a loss holds from beginning to end.
As in `Race.lean` an action that is not enabled does nothing, and a schedule is any list of actions.

Not modelled: `Node::disconnect`, `Node::forget` and `Node::stop` (see C46, C48, C99), and the first registration of a node, which is treated as one that is known and
has no connection.
-/
namespace Verif.Race.Conn

/-- The state of one call of `monitor` (`link`) for a process of the node. -/
inductive PC
  | idle
  | created       -- the entry in `NODE_MONITORS` (`NODE_LINKS`) is made
  | registered    -- `node_register(node, true)` has returned
  | done          -- `node_send_frame` has returned
  deriving DecidableEq

/-- The state of one process that runs a connection (or the attempt to get one): a connector or an accepted socket, node_remote.rs:280-439. -/
inductive Phase
  | unborn
  | attempt       -- connecting or in the handshake
  | accepted      -- `node_accept` said yes
  | up            -- `node_register_workers` is done: sender and receiver are running
  | over          -- it has ended; the drop of its guard comes next, node_remote.rs:91-101
  | cleaned       -- `node_remote_supervisor_down` was called
  deriving DecidableEq

/-- node_state.rs, without `Current`, which is for the local node. -/
inductive State
  | known
  | pending
  | connected
  deriving DecidableEq

/-- A frame: the request of watcher `i`, or any other frame. -/
inductive Frame
  | watch (i : Nat)
  | other (k : Nat)
  deriving DecidableEq

/-- What the lock of the registration is held for between two actions: nothing, or the clean-up (which has still to take the entries, or still to tell
the watchers in the list). -/
inductive Lock
  | free
  | down
  | telling (l : List Nat)
  deriving DecidableEq

/-- `sup`, `sender`, `state`: the registration, node_registration.rs; `table`: the entries for the node in `NODE_MONITORS` (`NODE_LINKS`); `pending`:
`NODE_PENDING_MESSAGES`; `box s`: the frames that were sent to the sender process of connection `s`; `carrying`: the watchers whose entry was taken by
a `MonitorDown` (`LinkDown`) of the node and who have still to be told; `notices i`: how many notices watcher `i` was sent. -/
structure St where
  sup : Option Nat
  sender : Option Nat
  state : State
  table : List Nat
  lock : Lock
  pending : List Frame
  box : Nat → List Frame
  pc : Nat → PC
  phase : Nat → Phase
  next : Nat
  carrying : List Nat
  notices : Nat → Nat

inductive Act
  | create (i : Nat)
  | register (i : Nat)
  | send (i : Nat)
  | emit (k : Nat)
  | connect
  | incoming
  | accept (s : Nat)
  | workers (s : Nat)
  | die (s : Nat)
  | down (s : Nat)
  | take
  | tell
  | release
  | news (i : Nat)
  | deliver (i : Nat)

def setPc (s : St) (i : Nat) (p : PC) : St := { s with pc := fun j => if j = i then p else s.pc j }
def setPhase (s : St) (i : Nat) (p : Phase) : St := { s with phase := fun j => if j = i then p else s.phase j }
def notify (s : St) (i : Nat) : St := { s with notices := fun j => if j = i then s.notices j + 1 else s.notices j }

/-- `node_send_frame`, node_registry.rs:163-183. -/
def sendFrame (s : St) (f : Frame) : St :=
  match s.sender with
  | some c => { s with box := fun j => if j = c then s.box j ++ [f] else s.box j }
  | none => if s.state = .known then s else { s with pending := s.pending ++ [f] }

/-- `node_register(node, true)` of a node that is registered, node_registry.rs:242-257. -/
def register (s : St) : St :=
  if s.sup = none then
    { setPhase s s.next .attempt with sup := some s.next, state := .pending, next := s.next + 1 }
  else s

/-- `node_accept` of a registered node, node_registry.rs:205-228, and the panic of node_remote.rs:296-298 if it refuses. A connector that is replaced is killed
(it may or may not get further before it ends, see `die`). -/
def accept (s : St) (c : Nat) : St :=
  if s.state = .pending ∨ s.sup = none then { setPhase s c .accepted with sup := some c, state := .connected }
  else setPhase s c .over

/-- `create`, `register`, `send`: the three accesses of a call. `emit`: any other use of `node_send_frame`; `connect`: `Node::connect` and other uses
of `node_register(node, true)`; `incoming`: a socket was accepted and its handshake is complete, node_remote.rs:352; `accept`, `workers`: node_remote.rs:296, :303
with node_registry.rs:137-160; `die`: the process that runs the connection ends for any reason (and with it the processes linked to it); `down`:
node_remote_supervisor_down, node_registry.rs:282-298, up to the change of the registration; `take`: :310 (:300 for links); `tell`: one round of the loop, :311-335
(:301-307); `release`: :338-341; `news`: `MonitorDown` (`LinkDown`) for the watch arrives, node_registry.rs:507-513 (:530-535); `deliver`: :517-525 (:537-539). -/
def step (s : St) : Act → St
  | .create i => if s.pc i = .idle then { setPc s i .created with table := s.table ++ [i] } else s
  | .register i => if s.lock = .free ∧ s.pc i = .created then register (setPc s i .registered) else s
  | .send i => if s.lock = .free ∧ s.pc i = .registered then sendFrame (setPc s i .done) (.watch i) else s
  | .emit k => if s.lock = .free then sendFrame s (.other k) else s
  | .connect => if s.lock = .free then register s else s
  | .incoming => { setPhase s s.next .attempt with next := s.next + 1 }
  | .accept c => if s.lock = .free ∧ s.phase c = .attempt then accept s c else s
  | .workers c =>
    if s.lock = .free ∧ s.phase c = .accepted then
      { setPhase s c .up with sender := some c, box := fun j => if j = c then s.box j ++ s.pending else s.box j, pending := [] }
    else s
  | .die c => if s.phase c = .attempt ∨ s.phase c = .accepted ∨ s.phase c = .up then setPhase s c .over else s
  | .down c =>
    if s.lock = .free ∧ s.phase c = .over then
      if s.sup = none ∨ s.sup = some c then
        { setPhase s c .cleaned with sup := none, sender := none, state := .known, lock := .down }
      else setPhase s c .cleaned
    else s
  | .take => if s.lock = .down then { s with table := [], lock := .telling s.table } else s
  | .tell => match s.lock with
    | .telling (i :: l) => notify { s with lock := .telling l } i
    | _ => s
  | .release => match s.lock with
    | .telling [] => { s with pending := [], lock := .free }
    | _ => s
  | .news i => if i ∈ s.table then { s with table := s.table.erase i, carrying := s.carrying ++ [i] } else s
  | .deliver i => if i ∈ s.carrying then notify { s with carrying := s.carrying.erase i } i else s

/-- A node that is known and has no connection; nobody watches its processes. -/
def start : St := ⟨none, none, .known, [], .free, [], fun _ => [], fun _ => .idle, fun _ => .unborn, 0, [], fun _ => 0⟩

end Verif.Race.Conn
