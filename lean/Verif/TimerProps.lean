import Verif.Timer
import Verif.RaceProps
/-!
# C41: timers
-/
namespace Verif.Timer
open Verif.Race (runs runs_inv runs_append)

/-- A property of one timer that every action of it and the flow of time keep holds in every schedule. -/
theorem timer_inv {P : Nat → T → Prop} (hs : ∀ now t a, P now t → P now (tstep now t a)) (ht : ∀ now d t, P now t → P (now + d) t)
    (i : Nat) {s : St} (h : P s.now (s.timers i)) (l : List Act) : P (runs step s l).now ((runs step s l).timers i) := by
  refine runs_inv (P := fun s : St => P s.now (s.timers i)) ?_ h l
  intro s a h
  cases a with
  | tick d => exact ht _ _ _ h
  | on j a =>
    by_cases hij : i = j
    · subst hij; simpa [step] using hs _ _ a h
    · simpa [step, hij] using h

/-- What holds of every timer in every schedule. -/
def Inv (now : Nat) (t : T) : Prop :=
  (t.pc = .absent → t.inserted = none) ∧ (t.pc ≠ .absent → t.called ≤ now) ∧
  (∀ till, t.pc = .asleep till → t.called + t.dur ≤ till) ∧
  (t.pc = .awake → t.called + t.dur ≤ now) ∧
  (t.sends = [] ∨ ∃ x, t.sends = [x] ∧ t.called + t.dur ≤ x ∧ x ≤ now ∧ (t.pc = .sent ∨ t.pc = .done)) ∧
  (∀ x, t.inserted = some x → t.called ≤ x ∧ x ≤ now) ∧
  (∀ x, t.entry = some x → ∃ y, t.inserted = some y ∧ x = y + t.dur) ∧
  (t.pc = .aborted → t.entry = none ∧ t.inserted ≠ none)

theorem inv_tstep (now : Nat) (t : T) (a : TAct) (h : Inv now t) : Inv now (tstep now t a) := by
  obtain ⟨pc, dur, called, inserted, entry, sends⟩ := t
  cases a <;> cases pc <;> cases inserted <;> cases entry <;> simp_all [Inv, tstep, destroy, abort] <;>
    (try split) <;> simp_all <;> (try omega)

theorem inv_tick (now d : Nat) (t : T) (h : Inv now t) : Inv (now + d) t := by
  obtain ⟨h1, h2, h3, h4, h5, h6, h7, h8⟩ := h
  refine ⟨h1, fun h => by have := h2 h; omega, h3, fun h => by have := h4 h; omega, ?_, fun x h => by have := h6 x h; omega, h7, h8⟩
  rcases h5 with h | ⟨x, hx, h5, h6, h7⟩
  · exact .inl h
  · exact .inr ⟨x, hx, h5, by omega, h7⟩

theorem inv (now : Nat) (l : List Act) (i : Nat) : Inv (runs step (start now) l).now ((runs step (start now) l).timers i) :=
  timer_inv inv_tstep inv_tick i (by simp [Inv, start]) l

/-- C41. In every schedule of any timers, the message of a timer is sent at most once, and not before its time: the duration has passed since `send_after` was called. -/
theorem C41_once (now : Nat) (l : List Act) (i : Nat) :
    let t := (runs step (start now) l).timers i
    t.sends.length ≤ 1 ∧ ∀ x ∈ t.sends, t.called + t.dur ≤ x := by
  intro t
  obtain ⟨_, _, _, _, h, _⟩ := inv now l i
  rcases h with h | ⟨x, hx, h1, _⟩
  · exact ⟨by simp [t, h], by simp [t, h]⟩
  · exact ⟨by simp [t, hx], by simpa [t, hx] using h1⟩

/-- C41. `read_timer` reports the time that remains, counted from the return of `send_after`, as long as the timer is in the table;
in particular never more than the duration. -/
theorem C41_read (now : Nat) (l : List Act) (i : Nat) (r : Nat) (h : read (runs step (start now) l) i = some r) :
    let t := (runs step (start now) l).timers i
    ∃ x, t.inserted = some x ∧ x ≤ (runs step (start now) l).now ∧ r = x + t.dur - (runs step (start now) l).now ∧ r ≤ t.dur := by
  intro t
  obtain ⟨_, _, _, _, _, h6, h7, _⟩ := inv now l i
  simp only [read, Option.map_eq_some_iff] at h
  obtain ⟨e, he, hr⟩ := h
  obtain ⟨x, hx, hex⟩ := h7 e he
  have := h6 x hx
  simp only [t]
  exact ⟨x, hx, this.2, by split at hr <;> omega, by split at hr <;> omega⟩

/-- The timer is in the table from the return of `send_after` until its task removes it or it is cancelled. -/
def Kept (t : T) : Prop :=
  (t.pc = .absent → t.inserted = none) ∧ (t.inserted ≠ none → (t.pc = .spawned ∨ ∃ till, t.pc = .asleep till) → t.entry ≠ none)

theorem kept_tstep (now : Nat) (t : T) (a : TAct) (h : Kept t) : Kept (tstep now t a) := by
  obtain ⟨pc, dur, called, inserted, entry, sends⟩ := t
  cases a <;> cases pc <;> cases inserted <;> cases entry <;> simp_all [Kept, tstep, destroy, abort] <;>
    (try split) <;> (try simp_all)

/-- C41. `read_timer` answers for every timer whose task still waits, however many others there are. -/
theorem C41_read_pending (now : Nat) (l : List Act) (i : Nat) (h : ((runs step (start now) l).timers i).inserted ≠ none)
    (hw : ((runs step (start now) l).timers i).pc = .spawned ∨ ∃ till, ((runs step (start now) l).timers i).pc = .asleep till) :
    read (runs step (start now) l) i ≠ none := by
  have hk : Kept ((runs step (start now) l).timers i) :=
    timer_inv (P := fun _ => Kept) (fun now t a => kept_tstep now t a) (fun _ _ _ h => h) i (by simp [Kept, start]) l
  have := hk.2 h hw
  simpa [read] using this

/-- Dead: the task was aborted, nothing is left. -/
def Dead (t : T) : Prop := t.pc = .aborted ∧ t.entry = none ∧ t.sends = [] ∧ t.inserted ≠ none

theorem dead_tstep (now : Nat) (t : T) (a : TAct) (h : Dead t) : Dead (tstep now t a) := by
  obtain ⟨pc, dur, called, inserted, entry, sends⟩ := t
  obtain ⟨h1, h2, h3, h4⟩ := h
  dsimp only at h1 h2 h3 h4; subst h1 h2 h3
  cases a <;> simp_all [Dead, tstep, destroy]

/-- C41, in part. A timer that is cancelled while its task waits never sends its message, and `read_timer` returns `None` from then on,
whatever happens later. What is missing: a `cancel_timer` that runs while the task is about to send, see `C41_cancel_violated`. -/
theorem C41_cancel_partial (now : Nat) (l l' : List Act) (i : Nat) (h : ((runs step (start now) l).timers i).inserted ≠ none)
    (hw : ((runs step (start now) l).timers i).pc = .spawned ∨ ∃ till, ((runs step (start now) l).timers i).pc = .asleep till) :
    let s := runs step (start now) (l ++ .on i .cancel :: l')
    (s.timers i).sends = [] ∧ read s i = none := by
  have hk : Kept ((runs step (start now) l).timers i) :=
    timer_inv (P := fun _ => Kept) (fun now t a => kept_tstep now t a) (fun _ _ _ h => h) i (by simp [Kept, start]) l
  have he := hk.2 h hw
  obtain ⟨_, _, _, _, hsends, _⟩ := inv now l i
  have hd : Dead ((runs step (start now) (l ++ .on i .cancel :: l')).timers i) := by
    rw [runs_append]
    refine timer_inv (P := fun _ => Dead) (fun now t a => dead_tstep now t a) (fun _ _ _ h => h) i (s := step (runs step (start now) l) (.on i .cancel)) ?_ l'
    generalize runs step (start now) l = s at *
    show Dead (if i = i then tstep s.now (s.timers i) .cancel else s.timers i)
    rw [if_pos rfl]
    generalize s.timers i = t at *
    obtain ⟨pc, dur, called, inserted, entry, sends⟩ := t
    rcases hw with hw | ⟨till, hw⟩ <;> cases entry <;> cases inserted <;> simp_all [Dead, tstep, destroy, abort]
  exact ⟨hd.2.2.1, by simp [read, hd.2.1]⟩

/-- C41 fails: `cancel_timer` returns between the end of the sleep and the send on another thread. The timer is gone from the table, yet the message is sent afterwards. -/
theorem C41_cancel_violated : ∃ l, let s := runs step (start 0) (l ++ [.on 0 .cancel])
    read (runs step (start 0) l) 0 ≠ none ∧ read s 0 = none ∧ (s.timers 0).sends = [] ∧
    ((runs step (start 0) (l ++ [.on 0 .cancel] ++ [.on 0 .send])).timers 0).sends = [5] :=
  ⟨[.on 0 (.call 5), .on 0 .insert, .on 0 .poll, .tick 5, .on 0 .wake], by decide, by decide, by decide, by decide⟩

/-- C41, in part. If `send_after` returned before the task ended, then once the message has been sent and the task has ended `read_timer` returns `None`, for ever.
What is missing: see `C41_read_violated`. -/
theorem C41_read_fired_partial (now : Nat) (l l' : List Act) (i : Nat) (h : ((runs step (start now) l).timers i).inserted ≠ none)
    (hp : ((runs step (start now) l).timers i).pc ≠ .done) (hd : ((runs step (start now) (l ++ l')).timers i).pc = .done) :
    read (runs step (start now) (l ++ l')) i = none := by
  have : (fun t : T => t.inserted ≠ none ∧ (t.pc = .done → t.entry = none)) ((runs step (start now) (l ++ l')).timers i) := by
    rw [runs_append]
    refine timer_inv (P := fun _ t => t.inserted ≠ none ∧ (t.pc = .done → t.entry = none)) ?_ (fun _ _ _ h => h) i ⟨h, fun h => absurd h hp⟩ l'
    rintro now ⟨pc, dur, called, inserted, entry, sends⟩ a ⟨h1, h2⟩
    cases a <;> cases pc <;> cases inserted <;> cases entry <;> simp_all [tstep, destroy, abort] <;> (try split) <;> (try simp_all)
  simp [read, this.2 hd]

/-- C41 fails: with a short duration the message may be sent and the task may end on another thread before `send_after` has inserted the timer. The timer is then
in the table though it has fired: `read_timer` returns `Some(0)` for ever, unless someone cancels it. -/
theorem C41_read_violated : ∃ l, ((runs step (start 0) l).timers 0).sends = [0] ∧ ((runs step (start 0) l).timers 0).pc = .done ∧
    ∀ l' : List Act, .on 0 .cancel ∉ l' → read (runs step (start 0) (l ++ l')) 0 = some 0 := by
  refine ⟨[.on 0 (.call 0), .on 0 .poll, .on 0 .wake, .on 0 .send, .on 0 .finish, .on 0 .insert], by decide, by decide, fun l' h => ?_⟩
  rw [runs_append]
  generalize hs : runs step (start 0) [.on 0 (.call 0), .on 0 .poll, .on 0 .wake, .on 0 .send, .on 0 .finish, .on 0 .insert] = s
  have ht : s.timers 0 = ⟨.done, 0, 0, some 0, some 0, [0]⟩ := by rw [← hs]; decide
  clear hs
  induction l' generalizing s with
  | nil => simp [runs, read, ht]
  | cons a l' ih =>
    refine ih (by simp_all) (step s a) ?_
    cases a with
    | tick d => exact ht
    | on j a =>
      by_cases hj : j = 0
      · subst hj
        simp only [step, if_true, ht]
        cases a <;> first | rfl | simp at h
      · simp [step, Ne.symm hj, ht]

/-- C41. A timer that is not cancelled fires: whenever the task is scheduled after its time, the message is sent. -/
theorem C41_fires (now : Nat) (l : List Act) (i : Nat) (till : Nat) (h : ((runs step (start now) l).timers i).pc = .asleep till) (d : Nat)
    (hd : till ≤ (runs step (start now) l).now + d) :
    ((runs step (start now) (l ++ [.tick d, .on i .wake, .on i .send])).timers i).sends = [(runs step (start now) l).now + d] := by
  obtain ⟨_, _, _, _, hs, _⟩ := inv now l i
  have hs' : ((runs step (start now) l).timers i).sends = [] := by
    rcases hs with hs | ⟨x, _, _, _, hp⟩
    · exact hs
    · simp [h] at hp
  rw [runs_append]
  generalize runs step (start now) l = s at *
  simp [runs, step, tstep, h, hd, hs']

/-- Two timers, one cancelled in time, the other fires. -/
example : let s := runs step (start 3) [.on 0 (.call 5), .on 0 .insert, .on 1 (.call 2), .on 1 .poll, .on 1 .insert, .on 0 .poll, .tick 1, .on 0 .cancel,
      .tick 4, .on 0 .wake, .on 0 .send, .on 1 .wake, .on 1 .send, .on 1 .finish]
    (s.timers 0).sends = [] ∧ (s.timers 1).sends = [8] ∧ read s 0 = none ∧ read s 1 = none := by decide
example : read (runs step (start 3) [.on 0 (.call 5), .on 0 .insert, .on 0 .poll, .tick 2]) 0 = some 3 := by decide

end Verif.Timer
