import Verif.Race
/-!
# Timers

`Process::send_after`, `cancel_timer`, `read_timer` at the granularity of the accesses to `PROCESS_TIMERS`. Time is a natural number (say nanoseconds) that
only grows. An action that is not enabled does nothing; a schedule is any list of actions of any timers.
-/
namespace Verif.Timer
open Verif.Race (runs)

/-- The task of a timer, process.rs:177-182. -/
inductive PC
  | absent                 -- `send_after` not called yet
  | spawned                -- not polled yet
  | asleep (till : Nat)    -- in `Process::sleep`
  | awake                  -- the sleep is over, the message comes next
  | sent                   -- `process_destroy_timer` comes next
  | done
  | aborted
  deriving DecidableEq

/-- One timer. `dur`, `called`: the duration and the time of the call of `send_after`; `inserted`: the time at which `send_after` returned, having inserted the
timer in the table; `entry`: the time in `PROCESS_TIMERS`; `sends`: the times at which the message was sent. -/
structure T where
  pc : PC
  dur : Nat
  called : Nat
  inserted : Option Nat
  entry : Option Nat
  sends : List Nat
  deriving DecidableEq

inductive TAct
  | call (dur : Nat)
  | poll
  | insert
  | wake
  | send
  | finish
  | cancel

/-- `handle.abort()`: a task that waits is dropped; one that runs is not interrupted, and has no further point to wait at. -/
def abort : PC → PC
  | .spawned => .aborted
  | .asleep _ => .aborted
  | p => p

/-- `process_destroy_timer`, process_registry.rs:267-271. -/
def destroy (t : T) : T := match t.entry with
  | none => t
  | some _ => { t with entry := none, pc := abort t.pc }

/-- `call`: `tokio::spawn`, process.rs:175-177; `insert`: process.rs:184 with process_registry.rs:249-251 (the message and the
destinations are not modelled, see `SendProps` for the effect of a send); `poll`: the task calls `Process::sleep`, process.rs:178; `wake`: the sleep ends, not before its time;
`send`: process.rs:179; `finish`: process.rs:181; `cancel`: `cancel_timer`, process.rs:190-192: it needs the reference, which the caller has after `send_after`. -/
def tstep (now : Nat) (t : T) : TAct → T
  | .call d => if t.pc = .absent then { t with pc := .spawned, dur := d, called := now } else t
  | .poll => if t.pc = .spawned then { t with pc := .asleep (now + t.dur) } else t
  | .insert => if t.pc ≠ .absent ∧ t.inserted = none then { t with inserted := some now, entry := some (now + t.dur) } else t
  | .wake => match t.pc with
    | .asleep till => if till ≤ now then { t with pc := .awake } else t
    | _ => t
  | .send => if t.pc = .awake then { t with pc := .sent, sends := t.sends ++ [now] } else t
  | .finish => if t.pc = .sent then { destroy t with pc := .done } else t
  | .cancel => if t.inserted ≠ none then destroy t else t

/-- All timers; the index is the reference. -/
structure St where
  now : Nat
  timers : Nat → T

inductive Act
  | tick (d : Nat)
  | on (i : Nat) (a : TAct)

def step (s : St) : Act → St
  | .tick d => { s with now := s.now + d }
  | .on i a => { s with timers := fun j => if j = i then tstep s.now (s.timers i) a else s.timers j }

/-- `process_read_timer`, process_registry.rs:254-265. -/
def read (s : St) (i : Nat) : Option Nat := (s.timers i).entry.map fun time => if time ≤ s.now then 0 else time - s.now

def start (now : Nat) : St := ⟨now, fun _ => ⟨.absent, 0, 0, none, none, []⟩⟩

end Verif.Timer
