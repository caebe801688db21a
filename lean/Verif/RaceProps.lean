import Verif.Race
/-!
# Properties under every interleaving of the accesses

C35 (one-shot aliases), C42 (spawning), C43 and C89 (watching a process that dies), C44 (names).
-/
namespace Verif.Race

/-- What holds at the start and is kept by every action holds after every schedule. -/
theorem runs_inv {S A : Type} {step : S → A → S} {P : S → Prop} (hs : ∀ s a, P s → P (step s a)) {s : S} (h : P s) (l : List A) :
    P (runs step s l) := by
  induction l generalizing s with
  | nil => exact h
  | cons a l ih => exact ih (hs s a h)

theorem runs_append {S A : Type} (step : S → A → S) (s : S) (l l' : List A) : runs step s (l ++ l') = runs step (runs step s l) l' := by
  simp [runs, List.foldl_append]

/-- Induction on a schedule from its end. -/
theorem snoc_ind {A : Type} {P : List A → Prop} (nil : P []) (snoc : ∀ l a, P l → P (l ++ [a])) (l : List A) : P l := by
  have : ∀ l : List A, P l.reverse := by
    intro l
    induction l with
    | nil => exact nil
    | cons a l ih => rw [List.reverse_cons]; exact snoc _ a ih
  simpa using this l.reverse

/-! ## One-shot aliases -/
namespace Alias

/-- The messages, without the notice that the alias is inactive. -/
def messages (c : List Item) : List Nat := c.filterMap fun | .deactivated => none | .message i => some i

/-- `i` has taken the alias. -/
def Won (s : St) (i : Nat) : Prop := s.pc i = .removed ∨ s.pc i = .ready ∨ s.pc i = .done true

def expected (i : Nat) : PC → List Item
  | .removed => []
  | .ready => [.deactivated]
  | .done true => [.deactivated, .message i]
  | _ => []

/-- Nobody has the alias, or exactly one sender has it and the mailbox has what that sender has put there. -/
def Inv (s : St) : Prop :=
  (s.entry ≠ some false ∧ (∀ j, ¬ Won s j) ∧ s.chan = []) ∨
  (s.entry = none ∧ ∃ i, Won s i ∧ (∀ j, Won s j → j = i) ∧ s.chan = expected i (s.pc i))

theorem inv_step (s : St) (a : Act) (h : Inv s) : Inv (step s a) := by
  cases a with
  | retrieve k =>
    simp only [step]
    split
    · rename_i hk
      have hnk : ¬ Won s k := by simp [Won, hk]
      rcases h with ⟨he, hw, hc⟩ | ⟨he, i, hi, hu, hc⟩
      · split
        · right
          refine ⟨rfl, k, by simp [Won, setPc], ?_, by simp [setPc, expected, hc]⟩
          intro j hj
          false_or_by_contra
          rename_i hne
          refine hw j ?_
          simpa [Won, setPc, hne] using hj
        · rename_i h'; exact absurd h' he
        · left
          refine ⟨he, ?_, hc⟩
          intro j hj
          by_cases hjk : j = k
          · subst hjk; simp [Won, setPc] at hj
          · exact hw j (by simpa [Won, setPc, hjk] using hj)
      · have hik : i ≠ k := by rintro rfl; exact hnk hi
        split
        · rename_i h'; simp [he] at h'
        · rename_i h'; simp [he] at h'
        · right
          refine ⟨he, i, by simpa [Won, setPc, hik] using hi, ?_, by simpa [setPc, hik] using hc⟩
          intro j hj
          by_cases hjk : j = k
          · subst hjk; simp [Won, setPc] at hj
          · exact hu j (by simpa [Won, setPc, hjk] using hj)
    · exact h
  | notify k =>
    simp only [step]
    split
    · rename_i hk
      have hwk : Won s k := .inl hk
      rcases h with ⟨_, hw, _⟩ | ⟨he, i, hi, hu, hc⟩
      · exact absurd hwk (hw k)
      · obtain rfl := hu k hwk
        right
        refine ⟨he, k, by simp [Won, setPc], ?_, by simp [setPc, expected, hc, hk]⟩
        intro j hj
        by_cases hjk : j = k
        · exact hjk
        · exact hu j (by simpa [Won, setPc, hjk] using hj)
    · exact h
  | push k =>
    simp only [step]
    split
    · rename_i hk
      have hwk : Won s k := .inr (.inl hk)
      rcases h with ⟨_, hw, _⟩ | ⟨he, i, hi, hu, hc⟩
      · exact absurd hwk (hw k)
      · obtain rfl := hu k hwk
        right
        refine ⟨he, k, by simp [Won, setPc], ?_, by simp [setPc, expected, hc, hk]⟩
        intro j hj
        by_cases hjk : j = k
        · exact hjk
        · exact hu j (by simpa [Won, setPc, hjk] using hj)
    · exact h
  | destroy =>
    rcases h with ⟨_, hw, hc⟩ | ⟨_, i, hi, hu, hc⟩
    · exact .inl ⟨by simp [step], hw, hc⟩
    · exact .inr ⟨rfl, i, hi, hu, hc⟩

theorem inv_start : Inv (start true) := .inl ⟨by simp [start], by simp [Won, start], rfl⟩

/-- C35. Whatever senders use a one-shot alias, and however their steps and a removal of the alias by its owner are interleaved: at most
one message arrives, after the notice that the alias is inactive; and as soon as one has arrived the alias is gone. -/
theorem C35_at_most_once (l : List Act) :
    let s := runs step (start true) l
    (messages s.chan).length ≤ 1 ∧ (∀ i, .message i ∈ s.chan → s.chan = [.deactivated, .message i] ∧ s.entry = none) := by
  intro s
  have h : Inv s := runs_inv inv_step inv_start l
  rcases h with ⟨_, _, hc⟩ | ⟨he, i, hi, _, hc⟩
  · simp [hc, messages]
  · rcases hi with hi | hi | hi <;> simp [hc, hi, expected, messages, he]

/-- C35. Once a message has arrived, nothing arrives any more, whatever happens next. -/
theorem C35_inactive_afterwards (l l' : List Act) (i : Nat) (h : .message i ∈ (runs step (start true) l).chan) :
    (runs step (start true) (l ++ l')).chan = (runs step (start true) l).chan ∧ (runs step (start true) (l ++ l')).entry = none := by
  obtain ⟨hc, he⟩ := (C35_at_most_once l).2 i h
  have grow : ∀ (l' : List Act) (s : St), ∃ t, (runs step s l').chan = s.chan ++ t := by
    intro l'
    induction l' with
    | nil => exact fun s => ⟨[], by simp [runs]⟩
    | cons a l' ih =>
      intro s
      obtain ⟨t, ht⟩ := ih (step s a)
      have : ∃ t', (step s a).chan = s.chan ++ t' := by
        cases a <;> simp only [step] <;> repeat' split
        all_goals first | exact ⟨_, rfl⟩ | exact ⟨[], by simp [setPc]⟩
      obtain ⟨t', ht'⟩ := this
      exact ⟨t' ++ t, by show (runs step (step s a) l').chan = _; rw [ht, ht', List.append_assoc]⟩
  have hm : .message i ∈ (runs step (start true) (l ++ l')).chan := by
    rw [runs_append]
    obtain ⟨t, ht⟩ := grow l' (runs step (start true) l)
    rw [ht]; exact List.mem_append_left _ h
  obtain ⟨hc', he'⟩ := (C35_at_most_once (l ++ l')).2 i hm
  exact ⟨by rw [hc, hc'], he'⟩

/-- C35. A sender that finds the alias delivers its message when it is scheduled: the alias loses no message. -/
theorem C35_first_delivers (l : List Act) (i : Nat) (h : Won (runs step (start true) l) i) :
    .message i ∈ (runs step (start true) (l ++ [.notify i, .push i])).chan := by
  rw [runs_append]
  generalize hs : runs step (start true) l = s at h
  rcases h with h | h | h
  · simp [runs, step, h, setPc]
  · simp [runs, step, h, setPc]
  · have hinv : Inv s := by rw [← hs]; exact runs_inv inv_step inv_start l
    rcases hinv with ⟨_, hw, _⟩ | ⟨_, j, _, hu, hc⟩
    · exact absurd (.inr (.inr h)) (hw i)
    · obtain rfl := hu i (.inr (.inr h))
      simp [runs, step, h, hc, expected]

/-- An alias that is not one-shot passes both messages. -/
example : messages (runs step (start false) [.retrieve 0, .retrieve 1, .push 1, .push 0]).chan = [1, 0] := by decide
example : messages (runs step (start true) [.retrieve 0, .retrieve 1, .notify 0, .push 1, .push 0]).chan = [0] := by decide
example : (runs step (start true) [.retrieve 0, .destroy, .retrieve 1, .notify 0, .push 1, .push 0]).chan = [.deactivated, .message 0] := by decide

/-- No message of `i` has arrived or will, as long as the alias is gone. -/
def Late (s : St) (i : Nat) : Prop := s.entry = none ∧ (s.pc i = .idle ∨ s.pc i = .done false) ∧ .message i ∉ s.chan

theorem late_step (s : St) (a : Act) (i : Nat) (h : Late s i) : Late (step s a) i := by
  obtain ⟨he, hp, hc⟩ := h
  cases a with
  | retrieve k =>
    by_cases hk : k = i
    · subst hk
      rcases hp with hp | hp <;> simp [step, hp, he, Late, setPc, hc]
    · have : i ≠ k := fun e => hk e.symm
      simp only [step, he]
      split <;> simp_all [Late, setPc]
  | notify k =>
    by_cases hk : k = i
    · subst hk; rcases hp with hp | hp <;> simp [step, hp, he, Late, hc]
    · have : i ≠ k := fun e => hk e.symm
      simp only [step]
      split <;> simp_all [Late, setPc]
  | push k =>
    by_cases hk : k = i
    · subst hk; rcases hp with hp | hp <;> simp [step, hp, he, Late, hc]
    · have : i ≠ k := fun e => hk e.symm
      simp only [step]
      split <;> simp_all [Late, setPc]
  | destroy => exact ⟨rfl, hp, hc⟩

theorem unsent_step (s : St) (a : Act) (i : Nat) (h : (s.pc i ≠ .done true) → .message i ∉ s.chan) :
    ((step s a).pc i ≠ .done true) → .message i ∉ (step s a).chan := by
  intro hn
  cases a with
  | retrieve k =>
    have hc : (step s (.retrieve k)).chan = s.chan := by
      simp only [step]; repeat' split
      all_goals rfl
    rw [hc]
    refine h fun hd => hn ?_
    by_cases hk : k = i
    · subst hk; simp [step, hd]
    · have : i ≠ k := fun e => hk e.symm
      simp only [step]; repeat' split
      all_goals simp [setPc, this, hd]
  | notify k =>
    by_cases hk : s.pc k = .removed
    · simp only [step, hk] at hn ⊢
      by_cases hki : i = k
      · subst hki; have := h (by simp [hk]); simp [this, setPc]
      · simp only [setPc, hki, if_false] at hn
        have := h hn; simp [this, setPc]
    · have : step s (.notify k) = s := by simp only [step]
      rw [this] at hn ⊢; exact h hn
  | push k =>
    by_cases hk : s.pc k = .ready
    · simp only [step, hk] at hn ⊢
      by_cases hki : i = k
      · subst hki; simp [setPc] at hn
      · simp only [setPc, hki, if_false] at hn
        have := h hn; simp [this, setPc, hki]
    · have : step s (.push k) = s := by simp only [step]
      rw [this] at hn ⊢; exact h hn
  | destroy => exact h hn

/-- C36, under every interleaving: a message whose send has not begun when the owner removes the alias never arrives, whatever other senders do, and
whether the alias was one-shot or not. -/
theorem C36_race (reply : Bool) (l l' : List Act) (i : Nat) (h : (runs step (start reply) l).pc i = .idle) :
    .message i ∉ (runs step (start reply) (l ++ .destroy :: l')).chan := by
  have h1 : ∀ l, (runs step (start reply) l).pc i ≠ .done true → .message i ∉ (runs step (start reply) l).chan := by
    intro l
    have : ∀ (l : List Act) (s : St), ((s.pc i ≠ .done true) → .message i ∉ s.chan) →
        ((runs step s l).pc i ≠ .done true) → .message i ∉ (runs step s l).chan := by
      intro l
      induction l with
      | nil => intro s hs; exact hs
      | cons a l ih => intro s hs; exact ih (step s a) (unsent_step s a i hs)
    exact this l _ (by simp [start])
  have h2 : Late (runs step (start reply) (l ++ [.destroy])) i := by
    rw [runs, List.foldl_append]
    exact ⟨rfl, .inl h, h1 l (by rw [h]; simp)⟩
  have h3 : ∀ (l : List Act) (s : St), Late s i → Late (runs step s l) i := by
    intro l
    induction l with
    | nil => intro s hs; exact hs
    | cons a l ih => intro s hs; exact ih (step s a) (late_step s a i hs)
  have := h3 l' _ h2
  rw [show l ++ Act.destroy :: l' = (l ++ [.destroy]) ++ l' by simp, runs, List.foldl_append]
  exact this.2.2

example : (runs step (start true) [.retrieve 0, .notify 0]).pc 1 = .idle ∧
    (runs step (start true) ([.retrieve 0, .notify 0] ++ .destroy :: [.retrieve 1, .notify 1, .push 1, .push 0])).chan = [.deactivated, .message 0] := by
  decide

end Alias

/-! ## Spawning -/
namespace Spawn

/-- The accesses happen in this order: as long as the spawner is scheduled in time. -/
def InTime (l : List Act) : Prop := ∀ l₁ l₂, l = l₁ ++ .drop :: l₂ → (runs step start l₁).inserted = false → (runs step start l₁).task ≠ .ended

def Inv (s : St) : Prop :=
  (s.task = .absent → s.inserted = false) ∧ (s.task ≠ .dropped → s.task ≠ .gone → s.watch = true ∧ s.told = false) ∧
  (s.task = .dropped → s.watch = true ∧ s.told = false) ∧ (s.task = .gone → s.watch = false ∧ s.told = true) ∧
  ((s.task = .dropped ∨ s.task = .gone) → s.entry = false ∧ s.inserted = true) ∧
  (s.inserted = false → s.entry = false) ∧ (s.inserted = true → s.task = .running ∨ s.task = .ended → s.entry = true)

theorem inv_step (s : St) (a : Act) (h : Inv s) : Inv (step s a) := by
  obtain ⟨task, inserted, entry, aborted, watch, told⟩ := s
  cases a <;> cases task <;> cases inserted <;> cases entry <;> simp_all [Inv, step]

theorem inv_start : Inv start := by simp [Inv, start]

theorem crashed_needs (l : List Act) (h : InTime l) : (runs step start l).task ≠ .crashed := by
  induction l using snoc_ind with
  | nil => simp [runs, start]
  | snoc l a ih =>
    have hl : InTime l := fun l₁ l₂ e => h l₁ (l₂ ++ [a]) (by rw [e]; simp)
    specialize ih hl
    rw [runs_append]
    have hinv : Inv (runs step start l) := runs_inv inv_step inv_start l
    have hd : a = .drop → (runs step start l).inserted = false → (runs step start l).task ≠ .ended := by
      rintro rfl; exact h l [] (by simp)
    generalize runs step start l = s at *
    obtain ⟨task, inserted, entry, aborted, watch, told⟩ := s
    cases a <;> cases task <;> cases inserted <;> cases entry <;> simp_all [Inv, step, runs]

/-- C42, in part. If the spawner has inserted the registration before the new process is dropped, then whatever else happens: once the drop is
complete the process table has no entry for the process, its link or monitor is gone, and the spawner has been told; and the drop does not panic. What is
missing: `spawn_internal` does not wait for anything before it inserts the registration, see `C42_violated`. -/
theorem C42_partial (l : List Act) (h : InTime l) :
    let s := runs step start l
    s.task ≠ .crashed ∧ (s.task = .gone → s.entry = false ∧ s.watch = false ∧ s.told = true) := by
  intro s
  have hinv : Inv s := runs_inv inv_step inv_start l
  exact ⟨crashed_needs l h, fun hg => ⟨(hinv.2.2.2.2.1 (.inr hg)).1, hinv.2.2.2.1 hg⟩⟩

/-- The entry of a dead process stays: nothing that happens later removes it. -/
def Stuck (s : St) : Prop := s.task = .crashed ∧ s.entry = true ∧ s.inserted = true ∧ s.watch = true ∧ s.told = false

/-- C42 fails: the new process runs and ends on another thread before the spawner has inserted the registration. The drop of the process
panics, then the spawner inserts the registration of a process that is dead: it stays in the process table for ever, `is_alive` says it
lives, and whoever is linked to it or monitors it is never told, whatever happens next. -/
theorem C42_violated : ∃ l, ∀ l', Stuck (runs step start (l ++ l')) := by
  refine ⟨[.spawn, .finish, .drop, .insert], fun l' => ?_⟩
  rw [runs_append]
  refine runs_inv (P := Stuck) ?_ ?_ l'
  · rintro ⟨task, inserted, entry, aborted, watch, told⟩ a ⟨h1, h2, h3, h4, h5⟩
    dsimp only at h1 h2 h3 h4 h5; subst h1 h2 h3 h4 h5
    cases a <;> simp [step, Stuck]
  · simp [runs, step, start, Stuck]

/-- C42, exit signals. Once the registration is in the table, an exit signal that kills ends the function of the process, whatever happened before: it does not run after it,
whatever happens next; and when it is dropped and cleaned up the spawner has been told. -/
theorem C42_killed (l l' : List Act) (h : (runs step start l).entry = true) (h' : InTime l) :
    (runs step start (l ++ .abort :: l')).task ≠ .running ∧ (runs step start (l ++ [.abort, .drop, .clean])).told = true ∧
    (runs step start (l ++ [.abort, .drop, .clean])).entry = false := by
  have hinv : Inv (runs step start l) := runs_inv inv_step inv_start l
  have hc := crashed_needs l h'
  rw [runs_append, runs_append]
  generalize runs step start l = s at *
  refine ⟨?_, ?_⟩
  · show (runs step (step s .abort) l').task ≠ .running
    refine (runs_inv (P := fun s : St => s.task ≠ .running ∧ s.task ≠ .absent) ?_ ?_ l').1
    · rintro ⟨task, inserted, entry, aborted, watch, told⟩ a ⟨h1, h2⟩
      cases a <;> cases task <;> cases inserted <;> cases entry <;> simp_all [step]
    · obtain ⟨task, inserted, entry, aborted, watch, told⟩ := s
      cases task <;> cases inserted <;> cases entry <;> simp_all [Inv, step]
  · obtain ⟨task, inserted, entry, aborted, watch, told⟩ := s
    cases task <;> cases inserted <;> cases entry <;> simp_all [Inv, step, runs]

/-- C42 fails for exit signals too: one that comes when the new process runs already, but the spawner has not inserted the registration yet, is lost. -/
theorem C42_exit_lost_violated : ∃ l, (runs step start l).task = .running ∧ runs step start (l ++ [.abort]) = runs step start l ∧
    (runs step start (l ++ [.abort, .insert])).task = .running :=
  ⟨[.spawn], by decide⟩

example : InTime [.spawn, .insert, .finish, .drop, .clean] ∧ (runs step start [.spawn, .insert, .finish, .drop, .clean]).task = .gone := by
  refine ⟨?_, by decide⟩
  intro l₁ l₂ e
  match l₁, e with
  | [a, b, c], e => simp at e; obtain ⟨rfl, rfl, rfl, _⟩ := e; decide
  | [], e | [_], e | [_, _], e | [_, _, _, _], e | [_, _, _, _, _], e => simp at e
  | _ :: _ :: _ :: _ :: _ :: _ :: _, e => have := congrArg List.length e; simp at this

end Spawn

/-! ## Watching a process that dies -/
namespace Watch

/-- How many notices are on their way to `i`: the target was not there, an entry of the table, a round of the loop, or sent. -/
def due (s : St) (i : Nat) : Nat := (if s.pc i = .missing then 1 else 0) + s.table.count i + s.sending.count i + s.notices i

def Inv (s : St) : Prop :=
  (∀ i, s.pc i = .idle ∨ s.pc i = .found → due s i = 0) ∧ (∀ i, s.pc i = .missing ∨ s.pc i = .done → due s i = 1) ∧
  (s.target ≠ .taken → s.sending = [])

theorem inv_step (s : St) (a : Act) (h : Inv s) : Inv (step s a) := by
  obtain ⟨h0, h1, hs⟩ := h
  cases a with
  | check k =>
    simp only [step]
    split
    · rename_i hk
      have hdk := h0 k (.inl hk)
      simp only [due, hk, reduceCtorEq, if_false] at hdk
      split
      · refine ⟨fun i hi => ?_, fun i hi => ?_, hs⟩
        · by_cases hik : i = k
          · subst hik; simp only [due, setPc, if_true, reduceCtorEq, if_false]; omega
          · have := h0 i (by simpa [setPc, hik] using hi); simpa [due, setPc, hik] using this
        · by_cases hik : i = k
          · subst hik; simp [setPc] at hi
          · have := h1 i (by simpa [setPc, hik] using hi); simpa [due, setPc, hik] using this
      · refine ⟨fun i hi => ?_, fun i hi => ?_, hs⟩
        · by_cases hik : i = k
          · subst hik; simp [setPc] at hi
          · have := h0 i (by simpa [setPc, hik] using hi); simpa [due, setPc, hik] using this
        · by_cases hik : i = k
          · subst hik; simp only [due, setPc, if_true]; omega
          · have := h1 i (by simpa [setPc, hik] using hi); simpa [due, setPc, hik] using this
    · exact ⟨h0, h1, hs⟩
  | create k =>
    simp only [step]
    split
    · rename_i hk
      have hdk := h0 k (.inr hk)
      simp only [due, hk, reduceCtorEq, if_false] at hdk
      refine ⟨fun i hi => ?_, fun i hi => ?_, hs⟩
      · by_cases hik : i = k
        · subst hik; simp [setPc] at hi
        · have := h0 i (by simpa [setPc, hik] using hi)
          simpa [due, setPc, hik, List.count_append, List.count_singleton, Ne.symm hik] using this
      · by_cases hik : i = k
        · subst hik; simp only [due, setPc, if_true, reduceCtorEq, if_false, List.count_append, List.count_singleton_self]; omega
        · have := h1 i (by simpa [setPc, hik] using hi)
          simpa [due, setPc, hik, List.count_append, List.count_singleton, Ne.symm hik] using this
    · exact ⟨h0, h1, hs⟩
  | noproc k =>
    simp only [step]
    split
    · rename_i hk
      have hdk := h1 k (.inl hk)
      simp only [due, hk, if_true] at hdk
      refine ⟨fun i hi => ?_, fun i hi => ?_, hs⟩
      · by_cases hik : i = k
        · subst hik; simp [setPc, notify] at hi
        · have := h0 i (by simpa [setPc, notify, hik] using hi); simpa [due, setPc, notify, hik] using this
      · by_cases hik : i = k
        · subst hik; simp only [due, setPc, notify, if_true, reduceCtorEq, if_false]; omega
        · have := h1 i (by simpa [setPc, notify, hik] using hi); simpa [due, setPc, notify, hik] using this
    · exact ⟨h0, h1, hs⟩
  | drop =>
    simp only [step]
    split
    · exact ⟨h0, h1, fun _ => hs (by simp [*])⟩
    · exact ⟨h0, h1, hs⟩
  | take =>
    simp only [step]
    split
    · rename_i ht
      have hnil := hs (by simp [ht])
      refine ⟨fun i hi => ?_, fun i hi => ?_, by simp⟩
      · have := h0 i hi; simp only [due, hnil, List.count_nil] at this ⊢; omega
      · have := h1 i hi; simp only [due, hnil, List.count_nil] at this ⊢; omega
    · exact ⟨h0, h1, hs⟩
  | tell =>
    simp only [step]
    split
    · exact ⟨h0, h1, hs⟩
    · rename_i j l hl
      have key : ∀ i, due (notify { s with sending := l } j) i = due s i := by
        intro i
        simp only [due, notify, hl, List.count_cons]
        by_cases hij : i = j
        · subst hij; simp; omega
        · simp [hij, Ne.symm hij]
      refine ⟨fun i hi => ?_, fun i hi => ?_, fun ht => ?_⟩
      · rw [key]; exact h0 i hi
      · rw [key]; exact h1 i hi
      · have := hs ht; simp [hl] at this

theorem inv_start : Inv start := by
  refine ⟨fun i _ => by simp [due, start], fun i hi => by simp [start] at hi, fun _ => rfl⟩

theorem inv_runs (l : List Act) : Inv (runs step start l) := runs_inv inv_step inv_start l

/-- At most one notice in every schedule. -/
theorem at_most_one (l : List Act) (i : Nat) : (runs step start l).notices i ≤ 1 := by
  obtain ⟨h0, h1, _⟩ := inv_runs l
  generalize runs step start l = s at *
  rcases hp : s.pc i with _ | _ | _ | _
  · have := h0 i (.inl hp); simp [due] at this; omega
  · have := h0 i (.inr hp); simp [due] at this; omega
  · have := h1 i (.inl hp); simp only [due] at this; omega
  · have := h1 i (.inr hp); simp only [due] at this; omega

/-- The documentation of `process_exists_lock`: "The process will exist for the duration of `callback`". -/
def Locked (l : List Act) : Prop := ∀ l₁ l₂, l = l₁ ++ .drop :: l₂ → ∀ i, (runs step start l₁).pc i ≠ .found

/-- With the lock, a watcher is between the check and the entry only while the target is there, and nothing is entered after the table was taken. -/
theorem locked_inv (l : List Act) (h : Locked l) :
    let s := runs step start l
    (s.target ≠ .alive → ∀ i, s.pc i ≠ .found) ∧ (s.target = .taken → s.table = []) := by
  induction l using snoc_ind with
  | nil => simp [runs, start]
  | snoc l a ih =>
    have hl : Locked l := fun l₁ l₂ e => h l₁ (l₂ ++ [a]) (by rw [e]; simp)
    specialize ih hl
    rw [runs_append]
    have hd : a = .drop → ∀ i, (runs step start l).pc i ≠ .found := by rintro rfl; exact h l [] (by simp)
    generalize runs step start l = s at *
    obtain ⟨ih1, ih2⟩ := ih
    cases a with
    | check k =>
      simp only [runs, List.foldl, step]
      split
      · split
        · rename_i ha; simp [setPc, ha]
        · rename_i ha
          refine ⟨fun _ i => ?_, ih2⟩
          by_cases hik : i = k
          · simp [setPc, hik]
          · simpa [setPc, hik] using ih1 ha i
      · exact ⟨ih1, ih2⟩
    | create k =>
      simp only [runs, List.foldl, step]
      split
      · rename_i hk
        have ha : s.target = .alive := by
          false_or_by_contra; rename_i hne; exact ih1 hne k hk
        simp [setPc, ha]
      · exact ⟨ih1, ih2⟩
    | noproc k =>
      simp only [runs, List.foldl, step]
      split
      · refine ⟨fun ha i => ?_, ih2⟩
        by_cases hik : i = k
        · simp [setPc, notify, hik]
        · simpa [setPc, notify, hik] using ih1 ha i
      · exact ⟨ih1, ih2⟩
    | drop =>
      simp only [runs, List.foldl, step]
      split
      · exact ⟨fun _ => hd rfl, by simp⟩
      · exact ⟨ih1, ih2⟩
    | take =>
      simp only [runs, List.foldl, step]
      split
      · rename_i ht; exact ⟨fun _ => ih1 (by simp [ht]), fun _ => rfl⟩
      · exact ⟨ih1, ih2⟩
    | tell =>
      simp only [runs, List.foldl, step]
      split
      · exact ⟨ih1, ih2⟩
      · exact ⟨ih1, ih2⟩

/-- The target is dead, its drop is complete, and watcher `i` has finished its call. -/
def Over (s : St) (i : Nat) : Prop := s.target = .taken ∧ s.sending = [] ∧ s.pc i = .done

theorem exactly_one (l : List Act) (h : Locked l) (i : Nat) (ho : Over (runs step start l) i) : (runs step start l).notices i = 1 := by
  obtain ⟨_, h1, _⟩ := inv_runs l
  obtain ⟨_, h2⟩ := locked_inv l h
  generalize runs step start l = s at *
  obtain ⟨ht, hs, hp⟩ := ho
  have := h1 i (.inr hp)
  simpa [due, hp, h2 ht, hs] using this

theorem lost : ∃ l, Over (runs step start l) 0 ∧ ∀ l', (runs step start (l ++ l')).notices 0 = 0 := by
  refine ⟨[.check 0, .drop, .take, .create 0], ⟨rfl, rfl, rfl⟩, fun l' => ?_⟩
  rw [runs_append]
  have : (fun s : St => s.target = .taken ∧ 0 ∉ s.sending ∧ s.pc 0 = .done ∧ s.notices 0 = 0)
      (runs step (runs step start [.check 0, .drop, .take, .create 0]) l') := by
    refine runs_inv (P := fun s : St => s.target = .taken ∧ 0 ∉ s.sending ∧ s.pc 0 = .done ∧ s.notices 0 = 0) ?_ ?_ l'
    · rintro s a ⟨h1, h2, h3, h4⟩
      cases a with
      | check k =>
        have : 0 = k → s.pc k = .done := by rintro rfl; exact h3
        simp only [step]; split
        · by_cases hk : 0 = k
          · simp_all
          · split <;> simp [setPc, h1, h2, h3, h4, hk]
        · exact ⟨h1, h2, h3, h4⟩
      | create k =>
        simp only [step]; split
        · by_cases hk : 0 = k
          · subst hk; simp_all
          · simp [setPc, h1, h2, h3, h4, hk]
        · exact ⟨h1, h2, h3, h4⟩
      | noproc k =>
        simp only [step]; split
        · by_cases hk : 0 = k
          · subst hk; simp_all
          · simp [setPc, notify, h1, h2, h3, h4, hk]
        · exact ⟨h1, h2, h3, h4⟩
      | drop => simp [step, h1, h2, h3, h4]
      | take => simp [step, h1, h2, h3, h4]
      | tell =>
        simp only [step]; split
        · exact ⟨h1, h2, h3, h4⟩
        · rename_i j t hj
          rw [hj] at h2
          simp only [List.mem_cons, not_or] at h2
          exact ⟨h1, h2.2, h3, by simp [notify, h2.1, h4]⟩
    · simp [runs, step, start, setPc, notify]
  exact this.2.2.2

/-- C43. In every schedule a process that installs a monitor is sent at most one `Down`. -/
theorem C43_at_most_one (l : List Act) (i : Nat) : (runs step start l).notices i ≤ 1 := at_most_one l i

/-- C43, in part. If a process is not dropped while a `monitor` that has found it alive is under way, then once both are over exactly one `Down` has been sent,
however many processes watch. What is missing: `process_exists_lock` gives no such guarantee, see `C43_violated`. -/
theorem C43_exactly_one_partial (l : List Act) (h : Locked l) (i : Nat) (ho : Over (runs step start l) i) :
    (runs step start l).notices i = 1 := exactly_one l h i ho

/-- C43 fails: the target may be dropped between the check and the creation of the entry. Both are over, and the monitoring process is never sent a `Down`. -/
theorem C43_violated : ∃ l, Over (runs step start l) 0 ∧ ∀ l', (runs step start (l ++ l')).notices 0 = 0 := lost

/-- C89. In every schedule a process that installs a link is signalled at most once. -/
theorem C89_at_most_one (l : List Act) (i : Nat) : (runs step start l).notices i ≤ 1 := at_most_one l i

/-- C89, in part, as `C43_exactly_one_partial`. -/
theorem C89_exactly_one_partial (l : List Act) (h : Locked l) (i : Nat) (ho : Over (runs step start l) i) :
    (runs step start l).notices i = 1 := exactly_one l h i ho

/-- C89 fails: a link to a process that is dropped between the check and the creation of the entry never signals. -/
theorem C89_violated : ∃ l, Over (runs step start l) 0 ∧ ∀ l', (runs step start (l ++ l')).notices 0 = 0 := lost

/-- Both outcomes are met by schedules in which two processes watch, one before and one after the death. -/
example : let s := runs step start [.check 0, .create 0, .drop, .check 1, .take, .noproc 1, .tell]
    Over s 0 ∧ Over s 1 ∧ s.notices 0 = 1 ∧ s.notices 1 = 1 := ⟨⟨rfl, rfl, rfl⟩, ⟨rfl, rfl, rfl⟩, rfl, rfl⟩
example : Locked [.check 0, .create 0, .drop, .check 1, .take, .noproc 1, .tell] := by
  intro l₁ l₂ e i
  match l₁, e with
  | [a, b], e =>
    simp at e; obtain ⟨rfl, rfl, _⟩ := e
    by_cases hi : i = 0 <;> simp [runs, step, start, setPc, hi]
  | [], e | [_], e | [_, _, _], e | [_, _, _, _], e | [_, _, _, _, _], e | [_, _, _, _, _, _], e => simp at e
  | _ :: _ :: _ :: _ :: _ :: _ :: _ :: _, e => have := congrArg List.length e; simp at this

end Watch

/-! ## Names -/
namespace Names

/-- No `unregister` of a name overlaps with the drop of the process that has it: a process is not dropped between the two accesses of an
`unregister` of its name, and a name is not unregistered between the two accesses of the drop of the process that has it. -/
def Calm (l : List Act) : Prop :=
  (∀ l₁ p l₂, l = l₁ ++ .drop p :: l₂ → (runs step start l₁).clearing p = false) ∧
  (∀ l₁ n l₂, l = l₁ ++ .unregister n :: l₂ → ∀ p, (runs step start l₁).removing p n = false)

structure Inv (s : St) : Prop where
  named : ∀ n p, s.names n = some p → s.procs p = some (some n) ∨ s.removing p n = true
  set : ∀ n p, s.setting p n = true → (s.procs p = some (some n) ∨ s.removing p n = true) ∧ s.names n = none
  rem : ∀ n p, s.removing p n = true → s.names n = some p ∨ s.setting p n = true
  field : ∀ n p, s.procs p = some (some n) → s.names n = some p ∨ s.setting p n = true ∨ s.clearing p = true
  clr : ∀ p, s.clearing p = true → ∃ n, s.procs p = some (some n) ∧ s.names n ≠ some p ∧ s.setting p n = false
  one : ∀ n p q, s.setting p n = true → s.setting q n = true → p = q
  gone : ∀ n p, s.removing p n = true → s.procs p = none

theorem inv_start : Inv start := by constructor <;> simp [start]

theorem not_locked {s : St} {n : String} (h : ¬ locked s n) (p : Nat) : s.setting p n = false := by
  cases hp : s.setting p n
  · rfl
  · exact absurd ⟨p, hp⟩ h

theorem inv_step (s : St) (a : Act) (h : Inv s) (hd : ∀ p, a = .drop p → s.clearing p = false)
    (hu : ∀ n, a = .unregister n → ∀ p, s.removing p n = false) : Inv (step s a) := by
  obtain ⟨h1, h2, h3, h4, h5, h6, h7⟩ := h
  cases a with
  | spawn p =>
    simp only [step]; split
    · rename_i hc; obtain ⟨hc1, hc2, hc3⟩ := hc
      constructor
      · intro n q hq; have := h1 n q hq; by_cases hqp : q = p
        · subst hqp; simp_all
        · simpa [hqp] using this
      · intro n q hq; have := h2 n q hq; by_cases hqp : q = p
        · subst hqp; simp_all
        · simpa [hqp] using this
      · exact h3
      · intro n q hq; by_cases hqp : q = p
        · subst hqp; simp at hq
        · exact h4 n q (by simpa [hqp] using hq)
      · intro q hq; by_cases hqp : q = p
        · subst hqp; simp_all
        · simpa [hqp] using h5 q hq
      · exact h6
      · intro n q hq; by_cases hqp : q = p
        · subst hqp; simp_all
        · simpa [hqp] using h7 n q hq
    · exact ⟨h1, h2, h3, h4, h5, h6, h7⟩
  | register p n =>
    simp only [step]; split
    · rename_i hc; obtain ⟨hc1, hc2, hc3⟩ := hc
      have hl := not_locked hc1
      have hnr : ∀ m, s.removing p m = false := by
        intro m; cases hm : s.removing p m
        · rfl
        · have := h7 m p hm; simp [hc3] at this
      have hnc : s.clearing p = false := by
        cases hm : s.clearing p
        · rfl
        · obtain ⟨m, hm, _⟩ := h5 p hm; simp [hc3] at hm
      constructor
      · intro m q hq; have := h1 m q hq; by_cases hqp : q = p
        · subst hqp; simp_all
        · simpa [hqp] using this
      · intro m q hq; by_cases hqp : q = p
        · subst hqp; by_cases hmn : m = n
          · subst hmn; simp [hc2]
          · have := h2 m q (by simpa [hmn] using hq); simp_all
        · have := h2 m q (by simpa [hqp] using hq); simpa [hqp] using this
      · intro m q hq; have := h3 m q hq; by_cases hqp : q = p
        · subst hqp; simp_all
        · simpa [hqp] using this
      · intro m q hq; by_cases hqp : q = p
        · subst hqp; simp at hq; subst hq; simp
        · have := h4 m q (by simpa [hqp] using hq); simpa [hqp] using this
      · intro q hq; by_cases hqp : q = p
        · subst hqp; simp_all
        · simpa [hqp] using h5 q hq
      · intro m q r hq hr
        by_cases hmn : m = n
        · subst hmn; simp only [hl, and_true] at hq hr; by_cases hqp : q = p <;> by_cases hrp : r = p <;> simp_all
        · exact h6 m q r (by simpa [hmn] using hq) (by simpa [hmn] using hr)
      · intro m q hq; by_cases hqp : q = p
        · subst hqp; simp_all
        · simpa [hqp] using h7 m q hq
    · exact ⟨h1, h2, h3, h4, h5, h6, h7⟩
  | insert p n =>
    simp only [step]; split
    · rename_i hc
      obtain ⟨hp, hn⟩ := h2 n p hc
      constructor
      · intro m q hq; by_cases hmn : m = n
        · subst hmn; simp at hq; subst hq; exact hp
        · exact h1 m q (by simpa [hmn] using hq)
      · intro m q hq; by_cases hmn : m = n
        · subst hmn
          by_cases hqp : q = p
          · subst hqp; simp at hq
          · exact absurd (h6 m q p (by simpa [hqp] using hq) hc) hqp
        · have := h2 m q (by simpa [hmn] using hq); simpa [hmn] using this
      · intro m q hq; have := h3 m q hq; by_cases hmn : m = n
        · subst hmn; rcases this with h | h
          · simp [hn] at h
          · simp [h6 m q p h hc]
        · simpa [hmn] using this
      · intro m q hq; have := h4 m q hq; by_cases hmn : m = n
        · subst hmn; rcases this with h | h | h
          · simp [hn] at h
          · simp [h6 m q p h hc]
          · simp [h]
        · simpa [hmn] using this
      · intro q hq; obtain ⟨m, hm1, hm2, hm3⟩ := h5 q hq
        refine ⟨m, hm1, ?_, ?_⟩
        · by_cases hmn : m = n
          · subst hmn; simp; rintro rfl; simp [hc] at hm3
          · simpa [hmn] using hm2
        · by_cases hmn : q = p ∧ m = n <;> simp [hmn, hm3]
      · intro m q r hq hr
        refine h6 m q r ?_ ?_
        · by_cases hh : q = p ∧ m = n
          · simp [hh] at hq
          · simpa [hh] using hq
        · by_cases hh : r = p ∧ m = n
          · simp [hh] at hr
          · simpa [hh] using hr
      · exact h7
    · exact ⟨h1, h2, h3, h4, h5, h6, h7⟩
  | unregister n =>
    simp only [step]; split
    · exact ⟨h1, h2, h3, h4, h5, h6, h7⟩
    · rename_i hlk
      have hl := not_locked hlk
      have hr := hu n rfl
      split
      · exact ⟨h1, h2, h3, h4, h5, h6, h7⟩
      · rename_i p hn
        have hp : s.procs p = some (some n) := by
          rcases h1 n p hn with h | h
          · exact h
          · simp [hr p] at h
        constructor
        · intro m q hq; by_cases hmn : m = n
          · subst hmn; simp at hq
          · exact h1 m q (by simpa [hmn] using hq)
        · intro m q hq; have := h2 m q hq; by_cases hmn : m = n
          · subst hmn; simp [hl] at hq
          · simpa [hmn] using this
        · intro m q hq; have := h3 m q hq; by_cases hmn : m = n
          · subst hmn; simp [hr] at hq
          · simpa [hmn] using this
        · intro m q hq; have := h4 m q hq; by_cases hmn : m = n
          · subst hmn; rcases this with h | h | h
            · rw [hn] at h; simp at h; simp [h]
            · simp [h]
            · right; right; simp [h]
          · rcases this with h | h | h
            · simp [h, hmn]
            · simp [h]
            · right; right; simp [h]
        · intro q hq; by_cases hqp : q = p
          · subst hqp; exact ⟨n, hp, by simp, hl q⟩
          · obtain ⟨m, hm1, hm2, hm3⟩ := h5 q (by simpa [hqp] using hq)
            refine ⟨m, hm1, ?_, hm3⟩
            by_cases hmn : m = n <;> simp [hmn, hm2]
        · exact h6
        · exact h7
  | clear p =>
    simp only [step]; split
    · rename_i hc
      obtain ⟨n, hn1, hn2, hn3⟩ := h5 p hc
      constructor
      · intro m q hq; have := h1 m q hq; by_cases hqp : q = p
        · subst hqp; rcases this with h | h
          · rw [hn1] at h; simp at h; subst h; exact absurd hq hn2
          · exact .inr h
        · simpa [hqp] using this
      · intro m q hq; have := h2 m q hq; by_cases hqp : q = p
        · subst hqp; obtain ⟨h | h, h'⟩ := this
          · rw [hn1] at h; simp at h; subst h; simp [hn3] at hq
          · exact ⟨.inr h, h'⟩
        · simpa [hqp] using this
      · exact h3
      · intro m q hq; by_cases hqp : q = p
        · subst hqp; simp [hn1] at hq
        · have := h4 m q (by simpa [hqp] using hq); simpa [hqp] using this
      · intro q hq; by_cases hqp : q = p
        · subst hqp; simp at hq
        · obtain ⟨m, hm⟩ := h5 q (by simpa [hqp] using hq)
          exact ⟨m, by simpa [hqp] using hm⟩
      · exact h6
      · intro m q hq; have := h7 m q hq; by_cases hqp : q = p
        · subst hqp; simp [hn1] at this
        · simpa [hqp] using this
    · exact ⟨h1, h2, h3, h4, h5, h6, h7⟩
  | drop p =>
    have hnc := hd p rfl
    simp only [step]; split
    · exact ⟨h1, h2, h3, h4, h5, h6, h7⟩
    · rename_i x hx
      constructor
      · intro m q hq; have := h1 m q hq; by_cases hqp : q = p
        · subst hqp; rcases this with h | h
          · rw [hx] at h; simp at h; simp [h]
          · simp [h7 m q h] at hx
        · simpa [hqp] using this
      · intro m q hq; obtain ⟨this, hm⟩ := h2 m q hq; refine ⟨?_, hm⟩; by_cases hqp : q = p
        · subst hqp; rcases this with h | h
          · rw [hx] at h; simp at h; simp [h]
          · simp [h7 m q h] at hx
        · simpa [hqp] using this
      · intro m q hq; by_cases hqp : q = p ∧ x = some m
        · obtain ⟨rfl, rfl⟩ := hqp
          rcases h4 m q hx with h | h | h
          · exact .inl h
          · exact .inr h
          · simp [hnc] at h
        · exact h3 m q (by simpa [hqp] using hq)
      · intro m q hq; by_cases hqp : q = p
        · subst hqp; simp at hq
        · exact h4 m q (by simpa [hqp] using hq)
      · intro q hq; by_cases hqp : q = p
        · subst hqp; simp [hnc] at hq
        · simpa [hqp] using h5 q hq
      · exact h6
      · intro m q hq; by_cases hqp : q = p
        · simp [hqp]
        · simpa [hqp] using h7 m q (by simpa [hqp] using hq)
  | remove p n =>
    simp only [step]; split
    · rename_i hc; obtain ⟨hc, hlk⟩ := hc
      have hl := not_locked hlk
      have hn : s.names n = some p := by
        rcases h3 n p hc with h | h
        · exact h
        · simp [hl] at h
      have hp := h7 n p hc
      constructor
      · intro m q hq; by_cases hmn : m = n
        · subst hmn; simp at hq
        · simpa [hmn] using h1 m q (by simpa [hmn] using hq)
      · intro m q hq; have := h2 m q hq; by_cases hmn : m = n
        · subst hmn; simp [hl] at hq
        · simpa [hmn] using this
      · intro m q hq; by_cases hqp : q = p ∧ m = n
        · simp [hqp] at hq
        · have hq' : s.removing q m = true := by simpa [hqp] using hq
          have := h3 m q hq'
          by_cases hmn : m = n
          · subst hmn; rw [hn] at this; simp only [hl, or_false, Bool.false_eq_true] at this
            simp at this; exact absurd ⟨this.symm, rfl⟩ hqp
          · simpa [hmn] using this
      · intro m q hq; have := h4 m q hq; by_cases hmn : m = n
        · subst hmn; rcases this with h | h | h
          · rw [hn] at h; simp at h; subst h; simp [hp] at hq
          · exact .inr (.inl h)
          · exact .inr (.inr h)
        · simpa [hmn] using this
      · intro q hq; obtain ⟨m, hm1, hm2, hm3⟩ := h5 q hq
        refine ⟨m, hm1, ?_, hm3⟩
        by_cases hmn : m = n <;> simp [hmn]
        simpa [hmn] using hm2
      · exact h6
      · intro m q hq; refine h7 m q ?_
        by_cases hqp : q = p ∧ m = n
        · simp [hqp] at hq
        · simpa [hqp] using hq
    · exact ⟨h1, h2, h3, h4, h5, h6, h7⟩

theorem calm_prefix {l l' : List Act} (h : Calm (l ++ l')) : Calm l :=
  ⟨fun l₁ p l₂ e => h.1 l₁ p (l₂ ++ l') (by rw [e]; simp), fun l₁ n l₂ e => h.2 l₁ n (l₂ ++ l') (by rw [e]; simp)⟩

theorem calm_inv (l : List Act) (h : Calm l) : Inv (runs step start l) := by
  induction l using snoc_ind with
  | nil => exact inv_start
  | snoc l a ih =>
    rw [runs_append]
    refine inv_step _ a (ih (calm_prefix h)) ?_ ?_
    · rintro p rfl; exact h.1 l p [] (by simp)
    · rintro n rfl; exact h.2 l n [] (by simp)

/-- One action other than the two that end a registration keeps it. -/
theorem keeps_step (s : St) (a : Act) (h : Inv s) {n : String} {p : Nat} (hn : s.names n = some p) (hp : s.procs p = some (some n))
    (h1 : a ≠ .unregister n) (h2 : a ≠ .drop p) : (step s a).names n = some p ∧ (step s a).procs p = some (some n) := by
  cases a with
  | spawn q =>
    simp only [step]; split
    · rename_i hc; by_cases hqp : p = q
      · subst hqp; simp [hp] at hc
      · simp [hn, hp, hqp]
    · exact ⟨hn, hp⟩
  | register q m =>
    simp only [step]; split
    · rename_i hc; by_cases hqp : p = q
      · subst hqp; simp [hp] at hc
      · simp [hn, hp, hqp]
    · exact ⟨hn, hp⟩
  | insert q m =>
    simp only [step]; split
    · rename_i hc; by_cases hmn : n = m
      · subst hmn; have := (h.set n q hc).2; simp [hn] at this
      · simp [hn, hp, hmn]
    · exact ⟨hn, hp⟩
  | unregister m =>
    have hmn : n ≠ m := by rintro rfl; exact h1 rfl
    simp only [step]; split
    · exact ⟨hn, hp⟩
    · split
      · exact ⟨hn, hp⟩
      · simp [hn, hp, hmn]
  | clear q =>
    simp only [step]; split
    · rename_i hc; by_cases hqp : p = q
      · subst hqp; obtain ⟨m, hm1, hm2, _⟩ := h.clr p hc
        rw [hp] at hm1; simp at hm1; subst hm1; exact absurd hn hm2
      · simp [hn, hp, hqp]
    · exact ⟨hn, hp⟩
  | drop q =>
    have hqp : p ≠ q := by rintro rfl; exact h2 rfl
    simp only [step]; split
    · exact ⟨hn, hp⟩
    · simp [hn, hp, hqp]
  | remove q m =>
    simp only [step]; split
    · rename_i hc; by_cases hmn : n = m
      · subst hmn
        rcases h.rem n q hc.1 with h' | h'
        · rw [hn] at h'; simp at h'; subst h'; have := h.gone n p hc.1; simp [hp] at this
        · exact absurd ⟨q, h'⟩ hc.2
      · simp [hn, hp, hmn]
    · exact ⟨hn, hp⟩

/-- C44, in part. In every schedule in which no `unregister` overlaps with the drop of the process that has the name: a name that resolves to a process in
the table keeps resolving to it as long as the name is not unregistered and the process is not dropped, whatever other processes
register, unregister and die in between. What is missing: the overlaps, see `C44_violated`. -/
theorem C44_keeps_partial (l l' : List Act) (hc : Calm (l ++ l')) {n : String} {p : Nat} (hn : (runs step start l).names n = some p)
    (hp : (runs step start l).procs p ≠ none) (h1 : .unregister n ∉ l') (h2 : .drop p ∉ l') :
    (runs step start (l ++ l')).names n = some p ∧ (runs step start (l ++ l')).procs p = some (some n) := by
  induction l' using snoc_ind with
  | nil =>
    rw [List.append_nil]
    have h := calm_inv l (calm_prefix hc)
    refine ⟨hn, ?_⟩
    rcases h.named n p hn with h' | h'
    · exact h'
    · exact absurd (h.gone n p h') hp
  | snoc l' a ih =>
    rw [← List.append_assoc] at hc ⊢
    obtain ⟨i1, i2⟩ := ih (calm_prefix hc) (by simp_all) (by simp_all)
    rw [runs_append step start (l ++ l') [a]]
    exact keeps_step _ a (calm_inv _ (calm_prefix hc)) i1 i2 (by rintro rfl; simp at h1) (by rintro rfl; simp at h2)

/-- C44, in part. Two processes of the table whose `info` shows the same name: one of them is just being unregistered. -/
theorem C44_distinct_partial (l : List Act) (hc : Calm l) {n : String} {p q : Nat}
    (hp : (runs step start l).procs p = some (some n)) (hq : (runs step start l).procs q = some (some n)) (hne : p ≠ q) :
    (runs step start l).clearing p = true ∨ (runs step start l).clearing q = true := by
  have h := calm_inv l hc
  rcases h.field n p hp with h1 | h1 | h1
  · rcases h.field n q hq with h2 | h2 | h2
    · rw [h1] at h2; simp at h2; exact absurd h2 hne
    · have := (h.set n q h2).2; simp [h1] at this
    · exact .inr h2
  · rcases h.field n q hq with h2 | h2 | h2
    · have := (h.set n p h1).2; simp [h2] at this
    · exact absurd (h.one n p q h1 h2) hne
    · exact .inr h2
  · exact .inl h1

/-- C44. In every schedule, a registration succeeds only if the name is free: no registration takes a name over. -/
theorem C44_no_takeover (s : St) (p q : Nat) (n : String) (h : s.names n = some q) : step s (.register p n) = s := by
  simp [step, h]

/-- The steps of the witness: process 0 has the name, another process unregisters it while 0 dies, process 1 registers it in between. -/
def overlap : List Act := [.spawn 0, .spawn 1, .register 0 "a", .insert 0 "a", .unregister "a", .register 1 "a", .insert 1 "a"]

/-- C44 fails: a name that process 1 has registered stops resolving to it, though 1 lives, was never unregistered and still is registered under
the name according to its `info`: the drop of process 0, whose registration had not been cleared yet, removes the name. -/
theorem C44_violated : ∃ l l' : List Act, (runs step start l).names "a" = some 1 ∧ (runs step start l).procs 1 = some (some "a") ∧
    .unregister "a" ∉ l' ∧ .drop 1 ∉ l' ∧
    (runs step start (l ++ l')).names "a" = none ∧ (runs step start (l ++ l')).procs 1 = some (some "a") := by
  refine ⟨overlap, [.drop 0, .remove 0 "a"], ?_, ?_, by simp, by simp, ?_, ?_⟩ <;>
    simp [runs, overlap, step, start, locked]

/-- The same schedule without the overlap keeps the name. -/
example : Calm [.spawn 0, .spawn 1, .register 0 "a", .insert 0 "a", .drop 0, .remove 0 "a", .register 1 "a", .insert 1 "a"] ∧
    (runs step start [.spawn 0, .spawn 1, .register 0 "a", .insert 0 "a", .drop 0, .remove 0 "a", .register 1 "a", .insert 1 "a"]).names "a" = some 1 ∧
    (runs step start [.spawn 0, .spawn 1, .register 0 "a", .insert 0 "a", .drop 0, .remove 0 "a", .register 1 "a", .insert 1 "a"]).procs 1 ≠ none := by
  refine ⟨⟨?_, ?_⟩, by simp [runs, step, start, locked], by simp [runs, step, start, locked]⟩
  · intro l₁ p l₂ e
    match l₁, e with
    | [a, b, c, d], e => simp at e; obtain ⟨rfl, rfl, rfl, rfl, _⟩ := e; simp [runs, step, start, locked]
    | [], e | [_], e | [_, _], e | [_, _, _], e | [_, _, _, _, _], e | [_, _, _, _, _, _], e | [_, _, _, _, _, _, _], e => simp at e
    | _ :: _ :: _ :: _ :: _ :: _ :: _ :: _ :: _, e => have := congrArg List.length e; simp at this
  · intro l₁ p l₂ e
    have : Act.unregister p ∈ l₁ ++ .unregister p :: l₂ := by simp
    rw [← e] at this; simp at this

end Names
end Verif.Race
