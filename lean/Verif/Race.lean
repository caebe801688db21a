import Verif.Types
/-!
# Races between the steps of single functions

In `World.lean` every operation of a process is one atomic step. On a multi-threaded runtime the functions of alias.rs, process.rs,
process_registry.rs, monitor.rs and link.rs are sequences of accesses to tables, each of which is atomic (`DashMap` locks the shard of
the key), and other threads may run between them. This file models four of these places at the granularity of the accesses: every action is one
access to a table or one push to a mailbox, an action that is not enabled does nothing, and a schedule is any list of actions.
-/
namespace Verif.Race

/-- Runs a schedule. -/
def runs {S A : Type} (step : S → A → S) (s : S) (l : List A) : S := l.foldl step s

/-! ## Senders to an alias -/
namespace Alias

/-- The state of one call of `process_send` with `Dest::Alias`. -/
inductive PC
  | idle                 -- not started
  | removed              -- `remove_if` has taken the one-shot alias, `AliasDeactivated` comes next
  | ready                -- the sender of the owner is at hand, the message comes next
  | done (sent : Bool)
  deriving DecidableEq

/-- What arrives in the mailbox of the owner through the alias. -/
inductive Item
  | deactivated
  | message (i : Nat)
  deriving DecidableEq

/-- `entry` is `ALIASES.get(reference)` with the flag `reply`, alias.rs:10-19; `pc i` is the state of the `i`-th sender. -/
structure St where
  entry : Option Bool
  pc : Nat → PC
  chan : List Item

inductive Act
  | retrieve (i : Nat)
  | notify (i : Nat)
  | push (i : Nat)
  | destroy

def setPc (s : St) (i : Nat) (p : PC) : St := { s with pc := fun j => if j = i then p else s.pc j }

/-- `retrieve`: the `remove_if` of `alias_retrieve`, alias.rs:42-49; `notify`: the send of `AliasDeactivated`, alias.rs:53-55; `push`: the
send of the message, process_kernel.rs:99-100, :126-128, node_kernel.rs:41-43; `destroy`: `alias_destroy` and `alias_destroy_all`,
alias.rs:27-36, by the owner. -/
def step (s : St) : Act → St
  | .retrieve i => match s.pc i with
    | .idle => match s.entry with
      | some true => { setPc s i .removed with entry := none }
      | some false => setPc s i .ready
      | none => setPc s i (.done false)
    | _ => s
  | .notify i => match s.pc i with
    | .removed => { setPc s i .ready with chan := s.chan ++ [.deactivated] }
    | _ => s
  | .push i => match s.pc i with
    | .ready => { setPc s i (.done true) with chan := s.chan ++ [.message i] }
    | _ => s
  | .destroy => { s with entry := none }

/-- The alias has just been created with the flag `reply` (alias.rs:22-24). -/
def start (reply : Bool) : St := ⟨some reply, fun _ => .idle, []⟩

end Alias

/-! ## A process that is spawned -/
namespace Spawn

inductive Task
  | absent      -- `tokio::spawn` not called yet
  | running
  | ended       -- the function returned, panicked or was aborted; `Drop for Process` comes next
  | dropped     -- `process_drop` returned the registration, the rest of the drop is to be done
  | gone        -- the drop is complete
  | crashed     -- the `unwrap` of process.rs:419 panicked: the rest of the drop is not done
  deriving DecidableEq

/-- `spawned`, `inserted`: what the spawner has done; `entry`: `PROCESS_REGISTRY` has the process; `aborted`: its handle was aborted;
`watch`: `LINKS` or `MONITORS` has an entry for it (made before `tokio::spawn`, process.rs:460-482); `told`: the spawner has been told of the death. -/
structure St where
  task : Task
  inserted : Bool
  entry : Bool
  aborted : Bool
  watch : Bool
  told : Bool
  deriving DecidableEq

inductive Act
  | spawn
  | insert
  | finish
  | abort
  | drop
  | clean

/-- `spawn`, `insert`: process.rs:485-492; `finish`: the function returns or panics; `abort`: `process_exit`, process_registry.rs:149-171,
which needs the entry, since the handle is in it; `drop`: process.rs:419; `clean`: process.rs:421-432. -/
def step (s : St) : Act → St
  | .spawn => if s.task = .absent then { s with task := .running } else s
  | .insert => if s.task ≠ .absent ∧ s.inserted = false then { s with inserted := true, entry := true } else s
  | .finish => if s.task = .running then { s with task := .ended } else s
  | .abort => if s.entry = true then { s with aborted := true, task := if s.task = .running then .ended else s.task } else s
  | .drop => if s.task = .ended then (if s.entry = true then { s with entry := false, task := .dropped } else { s with task := .crashed }) else s
  | .clean => if s.task = .dropped then { s with task := .gone, watch := false, told := s.watch } else s

/-- After process.rs:482, with a link or a monitor. -/
def start : St := ⟨.absent, false, false, false, true, false⟩

end Spawn

/-! ## Watching a process that dies

The same steps make a monitor (monitor.rs:96-128, :212-252) and a link (link.rs:28-52, :92-124), with the tables `MONITORS` and `LINKS`. -/
namespace Watch

inductive PC
  | idle
  | found       -- `process_exists_lock` saw the target; the entry comes next
  | missing     -- it did not; the notice `noproc` comes next
  | done
  deriving DecidableEq

inductive Target
  | alive
  | unlisted    -- `process_drop` has been done
  | taken       -- `MONITORS.remove` (`LINKS.remove`) has been done
  deriving DecidableEq

/-- `table`: the entry of the target in `MONITORS` (`LINKS`); `sending`: the watchers that the loop of monitor.rs:222-243
(link.rs:99-115) has still to tell; `notices i`: how many notices watcher `i` was sent. -/
structure St where
  target : Target
  pc : Nat → PC
  table : List Nat
  sending : List Nat
  notices : Nat → Nat

inductive Act
  | check (i : Nat)
  | create (i : Nat)
  | noproc (i : Nat)
  | drop
  | take
  | tell

def setPc (s : St) (i : Nat) (p : PC) : St := { s with pc := fun j => if j = i then p else s.pc j }
def notify (s : St) (i : Nat) : St := { s with notices := fun j => if j = i then s.notices j + 1 else s.notices j }

/-- `check`: `process_exists_lock`, process_registry.rs:33, whose guard is gone before the callback is called (the condition of an `if` is a
temporary scope); `create`: `monitor_create`, monitor.rs:37-42 (link.rs:36); `noproc`: monitor.rs:99-110, :132 (link.rs:52); `drop`: process.rs:419;
`take`: monitor.rs:213-218 (link.rs:93); `tell`: one round of the loop, monitor.rs:223-230 (link.rs:100-106). -/
def step (s : St) : Act → St
  | .check i => match s.pc i with
    | .idle => if s.target = .alive then setPc s i .found else setPc s i .missing
    | _ => s
  | .create i => match s.pc i with
    | .found => { setPc s i .done with table := s.table ++ [i] }
    | _ => s
  | .noproc i => match s.pc i with
    | .missing => notify (setPc s i .done) i
    | _ => s
  | .drop => if s.target = .alive then { s with target := .unlisted } else s
  | .take => if s.target = .unlisted then { s with target := .taken, sending := s.table, table := [] } else s
  | .tell => match s.sending with
    | [] => s
    | i :: l => notify { s with sending := l } i

def start : St := ⟨.alive, fun _ => .idle, [], [], fun _ => 0⟩

end Watch

/-! ## Names -/
namespace Names

/-- `names`: `PROCESS_NAMES`; `procs p`: the registration of process `p` with its field `name`; `dead p`: it has been dropped;
`setting p n`: a `process_register` of `p` for the name `n`, which holds the lock of the name, has set the field and will insert the name;
`clearing p`: a `process_unregister` has removed the name of `p` and will clear the field; `removing p n`: the drop of `p` has taken its
registration with the name `n` and will remove the name. -/
structure St where
  names : String → Option Nat
  procs : Nat → Option (Option String)
  setting : Nat → String → Bool
  clearing : Nat → Bool
  removing : Nat → String → Bool

inductive Act
  | spawn (p : Nat)
  | register (p : Nat) (n : String)
  | insert (p : Nat) (n : String)
  | unregister (n : String)
  | clear (p : Nat)
  | drop (p : Nat)
  | remove (p : Nat) (n : String)

/-- The name is locked by a registration under way. -/
def locked (s : St) (n : String) : Prop := ∃ p, s.setting p n = true

open Classical in
/-- `spawn`: process.rs:492. `register`: `process_register`, process_registry.rs:89-128, up to the `alter`; nothing happens unless the name is
free and the process exists and has no name (the errors); `insert`: :130. The entry keeps the lock of the name, so that no other access to this name happens
between the two (other names of the same shard are locked, too; that is not modelled). `unregister`, `clear`: `process_unregister`, :137 and :141-144.
`drop`, `remove`: process.rs:419-423. -/
noncomputable def step (s : St) : Act → St
  | .spawn p => if s.procs p = none ∧ s.clearing p = false ∧ ∀ n, s.removing p n = false then { s with procs := fun q => if q = p then some none else s.procs q } else s
  | .register p n =>
    if ¬ locked s n ∧ s.names n = none ∧ s.procs p = some none then
      { s with procs := fun q => if q = p then some (some n) else s.procs q
               setting := fun q m => if q = p ∧ m = n then true else s.setting q m }
    else s
  | .insert p n =>
    if s.setting p n = true then
      { s with names := fun m => if m = n then some p else s.names m
               setting := fun q m => if q = p ∧ m = n then false else s.setting q m }
    else s
  | .unregister n =>
    if locked s n then s else
      match s.names n with
      | none => s
      | some p => { s with names := fun m => if m = n then none else s.names m
                           clearing := fun q => if q = p then true else s.clearing q }
  | .clear p =>
    if s.clearing p = true then
      { s with procs := fun q => if q = p then (s.procs p).map (fun _ => none) else s.procs q
               clearing := fun q => if q = p then false else s.clearing q }
    else s
  | .drop p => match s.procs p with
    | none => s
    | some x => { s with procs := fun q => if q = p then none else s.procs q
                         removing := fun q m => if q = p ∧ x = some m then true else s.removing q m }
  | .remove p n =>
    if s.removing p n = true ∧ ¬ locked s n then
      { s with names := fun m => if m = n then none else s.names m
               removing := fun q m => if q = p ∧ m = n then false else s.removing q m }
    else s

def start : St := ⟨fun _ => none, fun _ => none, fun _ _ => false, fun _ => false, fun _ _ => false⟩

end Names
end Verif.Race
