import Verif.Race
/-!
# Stopping and restarting the local node

The state `NodeLocalSupervisor` of the local node is shared (`Arc`) by the supervisor process, the listener, the accepters, the connectors
and all the connections (node_local.rs:25-83, node_remote.rs:280-318, :320-439); when the last of them lets go of it, its `Drop` calls
`node_local_panic` (node_local.rs:32-36), which clears the node tables. Every start of the node is a new generation. The other tables are
not modelled: `cur` stands for the entry of `Node::Local` in `NODE_MAP`, labelled with the generation that made it.
-/
namespace Verif.Race.Restart

/-- The supervisor process of a generation: not polled yet, has made the shared state, or gone. -/
inductive Sup
  | none | spawned | holds | gone
  deriving DecidableEq

/-- `killed g`: the supervisor of generation `g` was told to stop. `others g`: how many processes besides the supervisor share the state of
generation `g`. -/
structure St where
  cur : Option Nat
  next : Nat
  sup : Nat → Sup
  killed : Nat → Bool
  others : Nat → Nat

inductive Act
  | start          -- `Node::start`
  | stop           -- `Node::stop`
  | poll (g : Nat) -- the supervisor process of `g` runs for the first time
  | clone (g : Nat)
  | release (g : Nat)
  | reap (g : Nat) -- the killed supervisor process of `g` is dropped by the runtime
  | crash (g : Nat) -- the supervisor process of `g` panics

def set {α : Type} (f : Nat → α) (g : Nat) (x : α) : Nat → α := fun h => if h = g then x else f h

/-- `Drop for NodeLocalSupervisor` and `node_local_panic`, node_local.rs:32-36, node_registry.rs:123-127: only when nobody else holds the
shared state. `s` is the state after the holder has gone. -/
def dropped (s : St) (g : Nat) : St :=
  if s.sup g ≠ .holds ∧ s.others g = 0 then { s with cur := none } else s

/-- `start`: `node_local_start`, node_registry.rs:82-102 (panics if the node is started). `stop`: `node_local_stop`, node_registry.rs:105-120.
`poll`: node_local.rs:52-61, the state is made and the listener shares it. `clone`: node_local.rs:48, :68 (a new accepter or connector; any
holder may be the origin, which adds behaviours). `release`: an accepter, connector, connection or the listener ends. `reap`: the
task of a killed supervisor is dropped; one that was never polled holds nothing. `crash`: node_local.rs:75-79. -/
def step (s : St) : Act → St
  | .start => match s.cur with
    | some _ => s
    | none => { s with cur := some s.next, next := s.next + 1, sup := set s.sup s.next .spawned }
  | .stop => match s.cur with
    | none => s
    | some g => { s with cur := none, killed := set s.killed g true }
  | .poll g => if s.sup g = .spawned then { s with sup := set s.sup g .holds, others := set s.others g (s.others g + 1) } else s
  | .clone g => if s.sup g = .holds ∨ 0 < s.others g then { s with others := set s.others g (s.others g + 1) } else s
  | .release g => if 0 < s.others g then dropped { s with others := set s.others g (s.others g - 1) } g else s
  | .reap g =>
    if s.killed g = true ∧ s.sup g = .holds then dropped { s with sup := set s.sup g .gone } g
    else if s.killed g = true ∧ s.sup g = .spawned then { s with sup := set s.sup g .gone }
    else s
  | .crash g => if s.sup g = .holds then dropped { s with sup := set s.sup g .gone } g else s

def init : St := ⟨none, 0, fun _ => .none, fun _ => false, fun _ => 0⟩

end Verif.Race.Restart
