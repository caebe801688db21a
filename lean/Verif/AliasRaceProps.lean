import Verif.AliasRace
import Verif.RaceProps
/-!
# The alias of a monitor under every interleaving

C94 (the alias ends with the Down) and C57 (a call that timed out leaves no reply behind), at the granularity of the accesses.
-/
namespace Verif.Race.Down

/-- A send to the alias that is under way: it has found the alias and has not put its message yet. -/
def Underway (s : St) : Prop := ∃ i, s.pc i = .removed ∨ s.pc i = .ready

/-- The alias is inactive, and `i` has not begun or has found nothing. -/
structure Shut (i : Nat) (s : St) : Prop where
  entry : s.entry = none
  pc : s.pc i = .idle ∨ s.pc i = .done false
  chan : .message i ∉ s.chan

theorem shut_step (f : Bool) (i : Nat) (s : St) (a : Act) (h : Shut i s) : Shut i (step f s a) := by
  obtain ⟨h1, h2, h3⟩ := h
  cases a <;> simp only [step] <;> (repeat' split) <;> constructor <;> simp_all [setPc] <;> grind

/-- A message is in the mailbox only if its sender says so. -/
def Sound (s : St) : Prop := ∀ i, .message i ∈ s.chan → s.pc i = .done true

theorem sound_step (f : Bool) (s : St) (a : Act) (h : Sound s) : Sound (step f s a) := by
  cases a <;> simp only [step] <;> (repeat' split) <;> intro i hi <;> have h' := h i <;> simp_all [setPc] <;> grind

theorem sound_run (f r : Bool) (l : List Act) : Sound (runs (step f) (start r) l) :=
  runs_inv (fun s a h => sound_step f s a h) (by simp [Sound, start]) l

/-- When the Down was put by a frame of the other node, or the round is over, the alias is inactive. -/
structure Ended (f : Bool) (s : St) : Prop where
  half : f = true → s.mon ≠ .armed → s.entry = none
  over : s.mon = .over → s.entry = none
  down : f = true → .down ∈ s.chan → s.mon = .over

theorem ended_step (f : Bool) (s : St) (a : Act) (h : Ended f s) : Ended f (step f s a) := by
  obtain ⟨h1, h2, h3⟩ := h
  cases a <;> simp only [step] <;> (repeat' split) <;> constructor <;> simp_all [setPc] <;> grind

theorem ended_run (f r : Bool) (l : List Act) : Ended f (runs (step f) (start r) l) :=
  runs_inv (fun s a h => ended_step f s a h) (by constructor <;> simp [start]) l

theorem shut_after (f r : Bool) (l l' : List Act) (i : Nat) (he : (runs (step f) (start r) l).entry = none)
    (hp : (runs (step f) (start r) l).pc i = .idle) : .message i ∉ (runs (step f) (start r) (l ++ l')).chan := by
  rw [runs_append]
  refine (runs_inv (P := Shut i) (fun s a h => shut_step f i s a h) ⟨he, .inl hp, ?_⟩ l').chan
  intro hm
  have := sound_run f r l i hm
  simp [hp] at this

/-- C94, in part, at the granularity of the accesses. Once the handling of the death is over (the Down has been put and the alias destroyed), a message
whose send begins later never arrives, whatever happens. What is missing: between the two, see `C94_race_violated`. -/
theorem C94_race_partial (aliasFirst reply : Bool) (l l' : List Act) (i : Nat)
    (h : (runs (step aliasFirst) (start reply) l).mon = .over) (hi : (runs (step aliasFirst) (start reply) l).pc i = .idle) :
    .message i ∉ (runs (step aliasFirst) (start reply) (l ++ l')).chan :=
  shut_after _ _ l l' i ((ended_run aliasFirst reply l).over h) hi

/-- C94, in part. If the Down comes from the node of the monitored process, then as soon as it is in the mailbox the alias is inactive: a
message whose send begins later never arrives. -/
theorem C94_race_frame_partial (reply : Bool) (l l' : List Act) (i : Nat)
    (h : .down ∈ (runs (step true) (start reply) l).chan) (hi : (runs (step true) (start reply) l).pc i = .idle) :
    .message i ∉ (runs (step true) (start reply) (l ++ l')).chan :=
  shut_after _ _ l l' i ((ended_run true reply l).over ((ended_run true reply l).down rfl h)) hi

/-- The hypotheses are met, with a message that had arrived before. -/
example : let s := runs (step true) (start false) [.retrieve 0, .push 0, .die, .retrieve 1, .died]
    s.chan = [.message 0, .down] ∧ s.mon = .over ∧ s.pc 2 = .idle := by decide

/-- C94 fails at the granularity of the accesses, for a process of this node: the Down is put before the alias is destroyed. The Down is in the
mailbox, the send begins afterwards, and the message arrives. -/
theorem C94_race_violated (reply : Bool) : ∃ l l' i,
    .down ∈ (runs (step false) (start reply) l).chan ∧ (runs (step false) (start reply) l).pc i = .idle ∧
    .message i ∈ (runs (step false) (start reply) (l ++ l')).chan := by
  refine ⟨[.die], [.retrieve 0, .notify 0, .push 0, .died], 0, ?_⟩
  cases reply <;> decide

/-! ## One-shot -/

/-- `i` has taken the alias. -/
def Won (s : St) (i : Nat) : Prop := s.pc i = .removed ∨ s.pc i = .ready ∨ s.pc i = .done true

/-- Nobody has taken the alias, or one sender has, and no other message is in the mailbox. -/
structure Once (s : St) : Prop where
  shot : s.entry ≠ some false
  taken : ∀ i, Won s i → s.entry = none
  one : ∀ i j, Won s i → Won s j → i = j
  chan : s.chan.filter isMessage = [] ∨ ∃ i, s.pc i = .done true ∧ s.chan.filter isMessage = [.message i]

set_option maxHeartbeats 2000000 in
theorem once_step (f : Bool) (s : St) (a : Act) (hs : Sound s) (h : Once s) : Once (step f s a) := by
  obtain ⟨h1, h2, h4, h3⟩ := h
  have hm : ∀ i, s.pc i ≠ .done true → .message i ∉ s.chan := fun i hi hc => hi (hs i hc)
  cases a
  case push i =>
    simp only [step]
    split
    · rename_i hi
      have hw : Won s i := .inr (.inl hi)
      have hu : ∀ j, Won s j → j = i := fun j hj => h4 j i hj hw
      have hnone : s.chan.filter isMessage = [] := by
        rcases h3 with h | ⟨j, hj, _⟩
        · exact h
        · have := hu j (.inr (.inr hj)); subst this; simp [hi] at hj
      refine ⟨h1, fun _ _ => h2 i hw, ?_, .inr ⟨i, by simp [setPc], ?_⟩⟩
      · have key : ∀ j, Won { setPc s i (.done true) with chan := s.chan ++ [.message i] } j → j = i := by
          intro j hj
          false_or_by_contra
          rename_i hne
          exact hne (hu j (by simpa [Won, setPc, hne] using hj))
        intro j k hj hk
        rw [key j hj, key k hk]
      · simp [List.filter_append, hnone, isMessage]
    · exact ⟨h1, h2, h4, h3⟩
  all_goals (simp only [step] <;> (repeat' split) <;> constructor <;> simp_all [setPc, Won, isMessage, List.filter_append] <;> grind)

/-- C35, for the alias of a monitor: under every interleaving of senders, the death of the monitored process, `demonitor` and the removal of a stale message, at most one message is in the
mailbox. -/
theorem C35_monitor_alias (aliasFirst : Bool) (l : List Act) :
    ((runs (step aliasFirst) (start true) l).chan.filter isMessage).length ≤ 1 := by
  have h : Sound (runs (step aliasFirst) (start true) l) ∧ Once (runs (step aliasFirst) (start true) l) :=
    runs_inv (P := fun s => Sound s ∧ Once s) (fun s a h => ⟨sound_step _ s a h.1, once_step _ s a h.1 h.2⟩)
      ⟨by simp [Sound, start], by constructor <;> simp [start, Won]⟩ l
  rcases h.2.chan with h | ⟨i, _, h⟩ <;> simp [h]

/-! ## A call that timed out -/

/-- The alias was closed; no send is under way; no message is in the mailbox. -/
structure Clean (s : St) : Prop where
  entry : s.entry = none
  pc : ¬ Underway s
  chan : ∀ i, .message i ∉ s.chan

theorem clean_step (f : Bool) (s : St) (a : Act) (h : Clean s) : Clean (step f s a) := by
  obtain ⟨h1, h2, h3⟩ := h
  simp only [Underway, not_exists, not_or] at h2
  cases a <;> simp only [step] <;> (repeat' split) <;> constructor <;> simp_all [setPc, Underway] <;> grind

/-- The alias of an owner that has closed it is inactive. -/
def Closed (s : St) : Prop := s.owner ≠ .waiting → s.entry = none

theorem closed_step (f : Bool) (s : St) (a : Act) (h : Closed s) : Closed (step f s a) := by
  unfold Closed at *
  cases a <;> simp only [step] <;> (repeat' split) <;> simp_all [setPc]

/-- C57, in part, at the granularity of the accesses, for a server of another node. The call times out and demonitors; if, when it removes the stale
reply, no reply is between the look-up of the alias and the mailbox, then there is no reply in the mailbox, and never will be. What is missing: a
reply that is there, see `C57_race_violated`. -/
theorem C57_race_partial (aliasFirst : Bool) (l l' : List Act) (h : (runs (step aliasFirst) (start true) l).owner = .closed)
    (hu : ¬ Underway (runs (step aliasFirst) (start true) l)) (i : Nat) :
    .message i ∉ (runs (step aliasFirst) (start true) (l ++ .sweep :: l')).chan := by
  rw [runs_append]
  show _ ∉ (runs _ (step aliasFirst _ .sweep) l').chan
  have hc : Closed (runs (step aliasFirst) (start true) l) :=
    runs_inv (fun s a h => closed_step aliasFirst s a h) (by simp [Closed, start]) l
  refine (runs_inv (P := Clean) (fun s a h => clean_step aliasFirst s a h) ?_ l').chan i
  constructor
  · simp [step, h, hc (by simp [h])]
  · simpa [step, h, Underway] using hu
  · intro j; simp [step, h, isMessage]

/-- The hypotheses are met with a reply that came before the time was up and one that comes too late. -/
example : let s := runs (step true) (start true) [.retrieve 0, .notify 0, .push 0, .close, .retrieve 1]
    s.owner = .closed ∧ s.chan = [.deactivated, .message 0] ∧ s.pc 1 = .done false := by decide

/-- C57 fails at the granularity of the accesses also for a server of another node: the receiver has looked the alias up, the call times out, destroys the
alias and removes stale replies, and then the receiver puts the reply. It stays in the mailbox, whatever happens next. -/
theorem C57_race_violated : ∃ l i, ∀ l', (runs (step true) (start true) (l ++ l')).owner = .swept ∧
    .message i ∈ (runs (step true) (start true) (l ++ l')).chan := by
  refine ⟨[.retrieve 0, .notify 0, .close, .sweep, .push 0], 0, fun l' => ?_⟩
  rw [runs_append]
  refine runs_inv (P := fun s : St => s.owner = .swept ∧ Item.message 0 ∈ s.chan) ?_ (by decide) l'
  intro s a ⟨h1, h2⟩
  cases a <;> simp only [step] <;> (repeat' split) <;> simp_all [setPc]

/-- C94, at the granularity of the accesses: once the handling of the death is over, exactly one Down is in the mailbox, whatever the senders and the owner do; before it begins there is none. -/
theorem C94_race_down_once (aliasFirst reply : Bool) (l : List Act) :
    let s := runs (step aliasFirst) (start reply) l
    (s.mon = .over → s.chan.count .down = 1) ∧ (s.mon = .armed → s.chan.count .down = 0) := by
  have h : ∀ l, let s := runs (step aliasFirst) (start reply) l
      (s.mon = .over → s.chan.count .down = 1) ∧ (s.mon = .armed → s.chan.count .down = 0) ∧
      (s.mon = .half → s.chan.count .down = if aliasFirst then 0 else 1) := by
    intro l
    refine runs_inv (P := fun s : St => (s.mon = .over → s.chan.count .down = 1) ∧ (s.mon = .armed → s.chan.count .down = 0) ∧
      (s.mon = .half → s.chan.count .down = if aliasFirst then 0 else 1)) ?_ (by simp [start]) l
    intro s a ⟨h1, h2, h3⟩
    have hf : (s.chan.filter (!isMessage ·)).count .down = s.chan.count .down := by
      rw [List.count_filter]; rfl
    cases a <;> simp only [step] <;> (repeat' split) <;> simp_all [setPc]
  exact ⟨(h l).1, (h l).2.1⟩

/-- Met with a reply that comes between. -/
example : let s := runs (step true) (start true) [.retrieve 0, .notify 0, .die, .push 0, .died]
    s.mon = .over ∧ s.chan = [.deactivated, .message 0, .down] := by decide

end Verif.Race.Down
