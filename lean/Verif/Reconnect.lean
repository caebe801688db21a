import Verif.Handshake
/-!
# Messages between two nodes that connect, lose the connection and connect again

`Handshake.lean` follows the TCP connections between two nodes and what `node_accept` decides; this file adds the frames that the nodes send each other: those that wait
for a connection, those handed to the sender of a connection, and those that the receiver at the other end has handled. A schedule is any list of actions.

Simplifications: the frames in the mailbox of a sender, in the buffers of its socket and on the wire are one queue for each connection and direction, from which the receiver at the
other end may take the first one at any time while it runs; what is not taken before it ends is lost. (That also covers a sender that is dead already when it gets a frame:
the model allows the frame to arrive, which the program does not.) The frames are any frames of `node_send_frame`; the sequence numbers are history and not in the program.
As in `Handshake.lean`, `Node::disconnect`, `Node::forget` and `Node::stop` are not here.
-/
namespace Verif.Handshake
variable {M : Type}

/-- A frame with its number among those its node has sent. -/
abbrev Item (M : Type) := Nat × M

/-- `ready x c`: `node_register_workers` has run at the end of node `x`; `pend x`: the entry of the other node in `NODE_PENDING_MESSAGES` of `x`, node_registry.rs:68;
`line x c`: what node `x` has given to the sender of connection `c` and the other end has not taken. History: `sent x`: all frames that `x` has sent to the other node;
`given x`: those given to senders, with the connection; `got y`: those that the receivers of `y` have taken, with the connection; `accs x`: the connections that `x` has accepted, the last one first. -/
structure Net (M : Type) where
  hs : St
  ready : Side → Nat → Bool
  pend : Side → List (Item M)
  line : Side → Nat → List (Item M)
  sent : Side → List M
  given : Side → List (Nat × Item M)
  got : Side → List (Nat × Item M)
  accs : Side → List Nat

inductive NAct (M : Type)
  | conn (a : Act)
  | workers (x : Side) (c : Nat)
  | send (x : Side) (m : M)
  | take (y : Side) (c : Nat)

def put {A : Type} (f : Side → A) (x : Side) (v : A) : Side → A := fun y => if y = x then v else f y
def put2 {A : Type} (f : Side → Nat → A) (x : Side) (c : Nat) (v : A) : Side → Nat → A := fun y d => if y = x ∧ d = c then v else f y d

/-- `node_remote_supervisor_down`, node_registry.rs:282-342 (`NODE_PENDING_MESSAGES.remove`, :338): what waits is thrown away when the registration becomes
`Known`. -/
def dropped (p : Net M) (hs : St) : Side → List (Item M) := fun x => if hs.reg x = .idle then [] else p.pend x

/-- Has this action made the process of `x` at connection `c` accepted? -/
def accepts (s : St) (x : Side) (a : Act) : Option Nat :=
  match a with
  | .accept y c => if y = x ∧ (step s a).at_ x c = .accepted ∧ s.at_ x c ≠ .accepted then some c else none
  | _ => none

/-- `conn`: a step of `Handshake`; `workers`: `node_register_workers`, node_registry.rs:137-161, by the process that was accepted, node_remote.rs:300-303;
`send`: `node_send_frame`, node_registry.rs:164-183; `take`: a round of `node_remote_receiver`, node_remote.rs:137-278. -/
def nstep (p : Net M) : NAct M → Net M
  | .conn a =>
    let hs := step p.hs a
    { p with hs := hs, pend := dropped p hs, accs := fun x => (accepts p.hs x a).toList ++ p.accs x }
  | .workers x c =>
    if p.hs.at_ x c = .accepted ∧ p.ready x c = false then
      { p with ready := put2 p.ready x c true, pend := put p.pend x [], line := put2 p.line x c (p.line x c ++ p.pend x),
               given := put p.given x (p.given x ++ (p.pend x).map fun i => (c, i)) }
    else p
  | .send x m =>
    let i : Item M := ((p.sent x).length, m)
    let p := { p with sent := put p.sent x (p.sent x ++ [m]) }
    match p.hs.reg x with
    | .idle => p
    | .pending _ => { p with pend := put p.pend x (p.pend x ++ [i]) }
    | .connected c =>
      if p.ready x c then { p with line := put2 p.line x c (p.line x c ++ [i]), given := put p.given x (p.given x ++ [(c, i)]) }
      else { p with pend := put p.pend x (p.pend x ++ [i]) }
  | .take y c =>
    match p.line (!y) c with
    | [] => p
    | i :: l =>
      if p.hs.at_ y c = .accepted ∧ p.ready y c = true then { p with line := put2 p.line (!y) c l, got := put p.got y (p.got y ++ [(c, i)]) }
      else p

def nrun (p : Net M) (l : List (NAct M)) : Net M := l.foldl nstep p

/-- Two nodes that have nothing to do with each other. -/
def nstart : Net M := ⟨start, fun _ _ => false, fun _ => [], fun _ _ => [], fun _ => [], fun _ => [], fun _ => [], fun _ => []⟩

end Verif.Handshake
