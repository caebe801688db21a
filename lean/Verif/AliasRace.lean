import Verif.Race
/-!
# The alias of a monitor, at the granularity of the accesses

A monitor with an alias (`Process::monitor_alias`; `GenServer::call` uses one for a server of another node): senders use the alias, the
monitored process goes down, the owner gives up waiting (`demonitor`, then the removal of a stale message). Every action is one access to a table or
one access to the mailbox of the owner, as in `Race.lean`.
-/
namespace Verif.Race.Down

/-- The state of one send to the alias, as in `Race.Alias`. -/
inductive PC
  | idle                 -- not begun
  | removed              -- `remove_if` has taken the one-shot alias, `AliasDeactivated` comes next
  | ready                -- the sender of the owner is at hand, the message comes next
  | done (sent : Bool)
  deriving DecidableEq

/-- What is put in the mailbox of the owner. -/
inductive Item
  | deactivated
  | message (i : Nat)
  | down
  deriving DecidableEq

/-- The handling of the death of the monitored process: two accesses. -/
inductive Mon
  | armed | half | over
  deriving DecidableEq

/-- The owner: it waits; `closed`: `demonitor` has destroyed the alias; `swept`: it has removed the stale message. -/
inductive Own
  | waiting | closed | swept
  deriving DecidableEq

/-- `entry`: the entry of the reference in `ALIASES` with the flag `reply`, alias.rs:10-19; `pc i`: the `i`-th sender; `chan`: the mailbox of the owner
(nothing is taken out of it but by `sweep`). -/
structure St where
  entry : Option Bool
  pc : Nat → PC
  chan : List Item
  mon : Mon
  owner : Own

inductive Act
  | retrieve (i : Nat)
  | notify (i : Nat)
  | push (i : Nat)
  | die
  | died
  | close
  | sweep

def setPc (s : St) (i : Nat) (p : PC) : St := { s with pc := fun j => if j = i then p else s.pc j }

def isMessage : Item → Bool
  | .message _ => true
  | _ => false

/-- `retrieve`, `notify`, `push`: as in `Race.Alias.step` (alias.rs:42-49, :53-55; process_kernel.rs:99-100, node_kernel.rs:41-43).
`die`, `died`: a round of the loop of `monitor_process_down` (a process of this node died) puts the Down (monitor.rs:223-230) and then destroys the
alias (:240-242), as do `monitor_install` for a process that does not exist (:99-111) and `node_registry_supervisor_down` (the connection was lost,
node_registry.rs:308-335); `node_process_monitor_down` (a process of another node died, its node says) destroys the alias (node_registry.rs:515) and then puts the
Down (:517-525): that is `aliasFirst`.
`close`: the `alias_destroy` of `Process::demonitor`, process.rs:373; `sweep`: the removal of the stale reply, gen_server.rs:263-265.
The Down is put also if the owner has called `demonitor` before (it is discarded by the receive, see C33). -/
def step (aliasFirst : Bool) (s : St) : Act → St
  | .retrieve i => match s.pc i with
    | .idle => match s.entry with
      | some true => { setPc s i .removed with entry := none }
      | some false => setPc s i .ready
      | none => setPc s i (.done false)
    | _ => s
  | .notify i => match s.pc i with
    | .removed => { setPc s i .ready with chan := s.chan ++ [.deactivated] }
    | _ => s
  | .push i => match s.pc i with
    | .ready => { setPc s i (.done true) with chan := s.chan ++ [.message i] }
    | _ => s
  | .die => match s.mon with
    | .armed => if aliasFirst then { s with mon := .half, entry := none } else { s with mon := .half, chan := s.chan ++ [.down] }
    | _ => s
  | .died => match s.mon with
    | .half => if aliasFirst then { s with mon := .over, chan := s.chan ++ [.down] } else { s with mon := .over, entry := none }
    | _ => s
  | .close => match s.owner with
    | .waiting => { s with owner := .closed, entry := none }
    | _ => s
  | .sweep => match s.owner with
    | .closed => { s with owner := .swept, chan := s.chan.filter (!isMessage ·) }
    | _ => s

/-- The monitor has just been made, with the flag `reply` of the alias. -/
def start (reply : Bool) : St := ⟨some reply, fun _ => .idle, [], .armed, .waiting⟩

end Verif.Race.Down
