import Verif.Restart
import Verif.RaceProps
/-!
# C83: restarting the node
-/
namespace Verif.Race.Restart

/-- Nothing of generation `g` is left: its supervisor process is gone and nobody shares its state. -/
def Finished (s : St) (g : Nat) : Prop := s.sup g = .gone ∧ s.others g = 0

structure Inv (s : St) : Prop where
  fresh : ∀ g, s.next ≤ g → s.sup g = .none ∧ s.others g = 0
  cur : ∀ g, s.cur = some g → g < s.next

theorem inv_step (s : St) (a : Act) (h : Inv s) : Inv (step s a) := by
  obtain ⟨h1, h2⟩ := h
  cases a <;> simp only [step, dropped] <;> (repeat' split) <;>
    first
    | exact ⟨h1, h2⟩
    | (refine ⟨fun g hg => ?_, fun g hg => ?_⟩ <;> simp_all [set] <;> grind)
    | (refine ⟨fun g hg => ?_, fun g hg => ?_⟩ <;> grind [set])

theorem inv_runs (l : List Act) : Inv (runs step init l) :=
  runs_inv (step := step) (P := Inv) inv_step ⟨fun _ _ => ⟨rfl, rfl⟩, fun _ h => by simp [init] at h⟩ l

/-- Generation `g` is registered, all older ones are finished, and its own supervisor is there. -/
structure Safe (g : Nat) (s : St) : Prop where
  cur : s.cur = some g
  last : s.next = g + 1
  fresh : ∀ h, g < h → s.sup h = .none ∧ s.others h = 0
  old : ∀ h, h < g → Finished s h
  mine : s.sup g = .holds ∨ (s.sup g = .spawned ∧ s.others g = 0)
  notKilled : s.killed g = false

theorem safe_step (g : Nat) (s : St) (a : Act) (h : Safe g s) (h1 : a ≠ .stop) (h2 : a ≠ .crash g) : Safe g (step s a) := by
  obtain ⟨c, l, f, o, m, k⟩ := h
  have ho : ∀ h, h < g → s.sup h = .gone ∧ s.others h = 0 := o
  have hz : ∀ h, h ≠ g → s.others h = 0 ∧ s.sup h ≠ .holds ∧ s.sup h ≠ .spawned := by
    intro h hh
    rcases Nat.lt_or_gt_of_ne hh with h' | h'
    · simp [ho h h']
    · simp [f h h']
  cases a with
  | start => simp only [step, c]; exact ⟨c, l, f, o, m, k⟩
  | stop => exact absurd rfl h1
  | poll x =>
    simp only [step]
    split
    · rename_i hx
      have : x = g := Classical.byContradiction fun hne => (hz x hne).2.2 hx
      subst this
      refine ⟨c, l, fun h hh => ?_, fun h hh => ?_, .inl (by simp [set]), k⟩
      · have := f h hh; simp [set, Nat.ne_of_gt hh, this]
      · have := ho h hh; simp [Finished, set, Nat.ne_of_lt hh, this]
    · exact ⟨c, l, f, o, m, k⟩
  | clone x =>
    simp only [step]
    split
    · rename_i hx
      have : x = g := Classical.byContradiction fun hne => by have := hz x hne; exact hx.elim (fun hx => this.2.1 hx) (fun hx => by omega)
      subst this
      refine ⟨c, l, fun h hh => ?_, fun h hh => ?_, ?_, k⟩
      · have := f h hh; simp [set, Nat.ne_of_gt hh, this]
      · have := ho h hh; simp [Finished, set, Nat.ne_of_lt hh, this]
      · rcases m with m | ⟨m1, m2⟩
        · exact .inl m
        · rcases hx with hx | hx
          · exact .inl hx
          · omega
    · exact ⟨c, l, f, o, m, k⟩
  | release x =>
    simp only [step]
    split
    · rename_i hx
      have : x = g := Classical.byContradiction fun hne => by have := hz x hne; omega
      subst this
      have hm : s.sup x = .holds := m.elim id (fun m => by have := m.2; omega)
      simp only [dropped, hm, ne_eq, not_true_eq_false, false_and, if_false]
      refine ⟨c, l, fun h hh => ?_, fun h hh => ?_, .inl hm, k⟩
      · have := f h hh; simp [set, Nat.ne_of_gt hh, this]
      · have := ho h hh; simp [Finished, set, Nat.ne_of_lt hh, this]
    · exact ⟨c, l, f, o, m, k⟩
  | reap x =>
    simp only [step]
    split
    · rename_i hx
      have : x = g := Classical.byContradiction fun hne => (hz x hne).2.1 hx.2
      subst this; rw [k] at hx; simp at hx
    · split
      · rename_i hx
        have : x = g := Classical.byContradiction fun hne => (hz x hne).2.2 hx.2
        subst this; rw [k] at hx; simp at hx
      · exact ⟨c, l, f, o, m, k⟩
  | crash x =>
    simp only [step]
    split
    · rename_i hx
      have : x = g := Classical.byContradiction fun hne => (hz x hne).2.1 hx
      subst this; exact absurd rfl h2
    · exact ⟨c, l, f, o, m, k⟩

/-- Killing affects generations that exist only. -/
theorem killed_old (l : List Act) : ∀ g, (runs step init l).next ≤ g → (runs step init l).killed g = false := by
  have := runs_inv (step := step) (P := fun s => Inv s ∧ ∀ g, s.next ≤ g → s.killed g = false) ?_ (s := init)
    ⟨⟨fun _ _ => ⟨rfl, rfl⟩, fun _ h => by simp [init] at h⟩, fun _ _ => rfl⟩ l
  · exact this.2
  · rintro s a ⟨hi, hk⟩
    refine ⟨inv_step s a hi, ?_⟩
    have hc := hi.cur
    cases a <;> simp only [step, dropped] <;> (repeat' split) <;> intro g hg <;> first | exact hk g hg | (simp_all [set]; grind) | grind [set]

/-- C83, the part that holds: if the node is not running and of every earlier start nothing is left, then a `start` registers
the node, and it stays registered for every schedule in which nobody stops it and its supervisor process does not panic - whatever
its connections do. Missing: nothing makes `Node::stop` wait for the processes of the old node, see `C83_violated`. -/
theorem C83_partial (l l' : List Act) :
    let s := runs step init l
    s.cur = none → (∀ g, g < s.next → Finished s g) → (∀ a ∈ l', a ≠ .stop ∧ a ≠ .crash s.next) →
    (runs step (step s .start) l').cur = some s.next := by
  intro s hc ho hl
  have hi : Inv s := inv_runs l
  have h0 : Safe s.next (step s .start) := by
    simp only [step, hc]
    refine ⟨rfl, rfl, fun h hh => ?_, fun h hh => ?_, .inr ⟨by simp [set], (hi.fresh _ (Nat.le_refl _)).2⟩, killed_old l _ (Nat.le_refl _)⟩
    · have := hi.fresh h (Nat.le_of_lt hh); simp [set, Nat.ne_of_gt hh, this]
    · have : s.sup h = .gone ∧ s.others h = 0 := ho h hh
      simp [Finished, set, Nat.ne_of_lt hh, this]
  have : ∀ l' : List Act, (∀ a ∈ l', a ≠ .stop ∧ a ≠ .crash s.next) → ∀ s1, Safe s.next s1 → Safe s.next (runs step s1 l') := by
    intro l'
    induction l' with
    | nil => intro _ s1 h; exact h
    | cons a l' ih =>
      intro hl s1 h
      exact ih (fun b hb => hl b (by simp [hb])) _ (safe_step _ _ a h (hl a (by simp)).1 (hl a (by simp)).2)
  exact (this l' hl _ h0).cur

/-- A node started and stopped twice with everything of it gone meets the hypotheses. -/
example : let s := runs step init [.start, .poll 0, .clone 0, .stop, .reap 0, .release 0, .release 0, .start, .stop, .reap 1]
    s.cur = none ∧ s.next = 2 ∧ Finished s 0 ∧ Finished s 1 := by
  refine ⟨rfl, rfl, ⟨rfl, rfl⟩, ⟨rfl, rfl⟩⟩

/-- C83: a node whose supervisor process has failed does not stay registered: in any schedule, once the listener, the connections and all others that shared its state have ended as well,
it is not registered any more (and the node can be started again). -/
theorem C83_failed (l l' : List Act) (g : Nat) (hg : (runs step init l).sup g = .holds) :
    let s := runs step init (l ++ .crash g :: l')
    s.sup g = .gone ∧ (s.others g = 0 → s.cur ≠ some g) := by
  intro s
  have hi := inv_runs l
  have hlt : g < (runs step init l).next := by
    rcases Nat.lt_or_ge g (runs step init l).next with h | h
    · exact h
    · have := (hi.fresh g h).1; rw [hg] at this; cases this
  have e : s = runs step (step (runs step init l) (.crash g)) l' := by simp [s, runs, List.foldl_append]
  rw [e]
  generalize runs step init l = s0 at hg hlt
  have h0 : (step s0 (.crash g)).sup g = .gone ∧ ((step s0 (.crash g)).others g = 0 → (step s0 (.crash g)).cur ≠ some g) ∧ g < (step s0 (.crash g)).next := by
    simp only [step, hg, if_true, dropped]
    split <;> simp_all [set]
  generalize step s0 (.crash g) = s1 at h0
  suffices ∀ s1 : St, (s1.sup g = .gone ∧ (s1.others g = 0 → s1.cur ≠ some g) ∧ g < s1.next) →
      ((runs step s1 l').sup g = .gone ∧ ((runs step s1 l').others g = 0 → (runs step s1 l').cur ≠ some g) ∧ g < (runs step s1 l').next) from
    ⟨(this s1 h0).1, (this s1 h0).2.1⟩
  clear e s
  induction l' with
  | nil => exact fun _ h => h
  | cons a l' ih =>
    intro s h
    refine ih _ ?_
    obtain ⟨h1, h2, h3⟩ := h
    cases a <;> simp only [step, dropped] <;> (repeat' split) <;> grind [set]

/-- The supervisor fails while a connection is there, which ends later. -/
example : (runs step init [.start, .poll 0, .clone 0, .crash 0]).cur = some 0 ∧ (runs step init [.start, .poll 0, .clone 0, .crash 0, .release 0, .release 0]).cur = none :=
  ⟨rfl, rfl⟩

/-- C83: `Node::stop` is final: in any schedule, from the moment when the runtime has dropped the supervisor process of the stopped node it does not come back, and when the others that
share the state of that node have ended as well nothing of it is left. -/
theorem C83_stopped (l l' l'' : List Act) (g : Nat) (hg : (runs step init l).cur = some g) :
    let s := runs step init (l ++ .stop :: l' ++ .reap g :: l'')
    s.sup g = .gone ∧ (s.others g = 0 → Finished s g) := by
  intro s
  have hs : s.sup g = .gone := by
    have hi := inv_runs l
    have hlt := hi.cur g hg
    have hne : (runs step init l).sup g ≠ .none := by
      have := runs_inv (step := step) (P := fun s : St => ∀ h, h < s.next → s.sup h ≠ .none) ?_ (s := init) (by simp [init]) l
      · exact this g hlt
      · intro s a h
        cases a <;> simp only [step, dropped] <;> (repeat' split) <;> grind [set]
    have e : s = runs step (step (runs step (step (runs step init l) .stop) l') (.reap g)) l'' := by simp [s, runs, List.foldl_append]
    rw [e]
    generalize runs step init l = s0 at hg hlt hne
    have h0 : (step s0 .stop).sup g ≠ .none ∧ (step s0 .stop).killed g = true ∧ g < (step s0 .stop).next := by
      simp only [step, hg]; exact ⟨hne, by simp [set], hlt⟩
    have h1 := runs_inv (step := step) (P := fun s : St => s.sup g ≠ .none ∧ s.killed g = true ∧ g < s.next) (by
      intro s a h
      cases a <;> simp only [step, dropped] <;> (repeat' split) <;> grind [set]) h0 l'
    generalize runs step (step s0 .stop) l' = s1 at h1
    have h2 : (step s1 (.reap g)).sup g = .gone ∧ g < (step s1 (.reap g)).next := by
      obtain ⟨a1, a2, a3⟩ := h1
      cases hsg : s1.sup g <;> simp only [step, dropped, hsg, a2] <;> (repeat' split) <;> simp_all [set]
    exact (runs_inv (step := step) (P := fun s : St => s.sup g = .gone ∧ g < s.next) (by
      intro s a h
      cases a <;> simp only [step, dropped] <;> (repeat' split) <;> grind [set]) h2 l'').1
  exact ⟨hs, fun h => ⟨hs, h⟩⟩

example : (runs step init [.start, .poll 0]).cur = some 0 ∧
    Finished (runs step init ([.start, .poll 0] ++ .stop :: [.start] ++ .reap 0 :: [.release 0])) 0 := ⟨rfl, rfl, rfl⟩

/-- C83 is false of the code. The first node is started and stopped, and the node is started again; then the processes of the first node end,
or one accepted connection of it ends a long time afterwards: the new node is not registered any more, though nobody stopped it, its
supervisor process never failed and is still there. -/
theorem C83_violated :
    ∀ l ∈ [[Act.start, .poll 0, .stop, .start, .poll 1, .reap 0, .release 0],
        [.start, .poll 0, .clone 0, .stop, .reap 0, .release 0, .start, .poll 1, .clone 1, .release 0]],
      (runs step init l).cur = none ∧ (runs step init (l.take (l.length - 1))).cur = some 1 ∧
      (runs step init l).sup 1 = .holds ∧ (runs step init l).killed 1 = false ∧ l.getLast? = some (.release 0) := by
  intro l hl
  simp only [List.mem_cons, List.not_mem_nil, or_false] at hl
  rcases hl with rfl | rfl <;> exact ⟨rfl, rfl, rfl, rfl, rfl⟩

end Verif.Race.Restart
