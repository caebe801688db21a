import Verif.Types
/-!
# Setting up connections between two nodes

Two nodes may call `Node::connect` on each other any number of times. Every attempt is a TCP connection with one process at each end
(node_remote.rs:280-439): the *connector* on the node that made the attempt and the supervisor that the *accepter* spawns on the other one.
Both go through the handshake and then call `node_accept`. This file follows these processes and the registration that each node has for
the other one; a schedule is any list of actions, and an action that is not enabled does nothing. The frames after the handshake are the
subject of `TwoNode.lean`.

Simplifications: an exit signal `Kill` takes effect at once (until then the process could only be refused by `node_accept` and panic, with the
same effect); a handshake that is not valid, or a peer that is not the expected node, is the failure `fail`; `Node::disconnect`, `Node::forget` and `Node::stop` are
not here.
-/
namespace Verif.Handshake

/-- The two nodes. -/
abbrev Side := Bool

/-- The process at one end of a TCP connection. -/
inductive End
  | absent      -- the accepter has not run yet
  | shaking     -- up to the call of `node_accept`
  | accepted    -- `node_accept` returned `true`
  | dead
  deriving DecidableEq

/-- The registration of the other node, node_registry.rs:36-74: `idle`: no supervisor (`Known`, or no registration at all); otherwise the state and
the supervisor, which is given as the number of the TCP connection whose end it is. -/
inductive Reg
  | idle
  | pending (c : Nat)
  | connected (c : Nat)
  deriving DecidableEq

/-- `made` is the number of TCP connections so far, `by_ c` the node that made connection `c`. -/
structure St where
  made : Nat
  by_ : Nat → Side
  at_ : Side → Nat → End
  reg : Side → Reg

inductive Act
  | connect (x : Side)
  | reach (c : Nat)
  | accept (x : Side) (c : Nat)
  | notice (x : Side) (c : Nat)
  | fail (x : Side) (c : Nat)
  deriving DecidableEq

def setEnd (s : St) (x : Side) (c : Nat) (e : End) : St := { s with at_ := fun y d => if y = x ∧ d = c then e else s.at_ y d }
def setReg (s : St) (x : Side) (r : Reg) : St := { s with reg := fun y => if y = x then r else s.reg y }

/-- The process of node `x` at connection `c` ends: `Drop for NodeRemoteSupervisor` and `Drop for NodeRemoteConnector`, node_remote.rs:91-101, and
`node_remote_supervisor_down`, node_registry.rs:282-299. -/
def die (s : St) (x : Side) (c : Nat) : St :=
  let s := setEnd s x c .dead
  if s.reg x = .pending c ∨ s.reg x = .connected c then setReg s x .idle else s

/-- `node_accept`, node_registry.rs:185-230, by the process of node `x` at connection `c`, and the panic of node_remote.rs:296-298 if it returns `false`. -/
def nodeAccept (s : St) (x : Side) (c : Nat) : St :=
  match s.reg x with
  | .idle => setReg (setEnd s x c .accepted) x (.connected c)
  | .pending d => if d = c then setReg (setEnd s x c .accepted) x (.connected c)
      else setReg (setEnd (setEnd s x d .dead) x c .accepted) x (.connected c)
  | .connected _ => die s x c

/-- Is there a process at this end? -/
def live (s : St) (x : Side) (c : Nat) : Bool := s.at_ x c = .shaking || s.at_ x c = .accepted

/-- `connect`: `Node::connect`, that is `node_register` with `connect`, node_registry.rs:233-279; `reach`: the listener of the other node hands the new socket to
`node_remote_accepter`, node_local.rs:43-49; `accept`: the process has sent its hello, has the hello of the other end and calls `node_accept`;
`notice`: the process sees that the other end is gone (end of stream, error or timeout, node_remote.rs:141-145 and :339-348); `fail`: the process ends for any other
reason. -/
def step (s : St) : Act → St
  | .connect x =>
    if s.reg x = .idle then
      { made := s.made + 1, by_ := fun c => if c = s.made then x else s.by_ c,
        at_ := fun y d => if y = x ∧ d = s.made then .shaking else s.at_ y d,
        reg := fun y => if y = x then .pending s.made else s.reg y }
    else s
  | .reach c => if c < s.made ∧ s.at_ (!s.by_ c) c = .absent then setEnd s (!s.by_ c) c .shaking else s
  | .accept x c => if c < s.made ∧ s.at_ x c = .shaking ∧ s.at_ (!x) c ≠ .absent then nodeAccept s x c else s
  | .notice x c => if c < s.made ∧ live s x c = true ∧ s.at_ (!x) c = .dead then die s x c else s
  | .fail x c => if c < s.made ∧ live s x c = true then die s x c else s

def run (s : St) (l : List Act) : St := l.foldl step s

/-- Two nodes that have nothing to do with each other. -/
def start : St := ⟨0, fun _ => false, fun _ _ => .absent, fun _ => .idle⟩

end Verif.Handshake
