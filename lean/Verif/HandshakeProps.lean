import Verif.Handshake
/-!
# Property C101: nodes that connect to each other get connected and agree on it
-/
namespace Verif.Handshake

/-! ## Specification -/

/-- The actions that the system takes by itself: no new attempt, no failure. -/
def internal : Act → Bool
  | .connect _ => false
  | .fail _ _ => false
  | _ => true

/-- Nothing is under way: no internal action does anything any more. -/
def Settled (s : St) : Prop := ∀ a, internal a = true → step s a = s

/-- Both nodes are connected, over the same TCP connection, with a live process at both ends. -/
def Together (s : St) : Prop := ∃ c, ∀ x, s.reg x = .connected c ∧ s.at_ x c = .accepted

/-- Neither node has or attempts a connection, and no process of one is left. -/
def Apart (s : St) : Prop := ∀ x, s.reg x = .idle ∧ ∀ c, live s x c = false

/-! ## Invariant -/

structure Inv (s : St) : Prop where
  fresh : ∀ x c, s.made ≤ c → s.at_ x c = .absent
  maker : ∀ c, c < s.made → s.at_ (s.by_ c) c ≠ .absent
  acc : ∀ x c, s.at_ x c = .accepted → s.reg x = .connected c
  con : ∀ x c, s.reg x = .connected c → s.at_ x c = .accepted
  pen : ∀ x c, s.reg x = .pending c → s.at_ x c = .shaking ∧ c < s.made

theorem inv_start : Inv start := by constructor <;> simp [start]

theorem inv_die {s : St} (h : Inv s) (x : Side) (c : Nat) (hc : c < s.made) : Inv (die s x c) := by
  obtain ⟨h1, h2, h3, h4, h5⟩ := h
  constructor <;> intro y <;> simp only [die, setEnd, setReg] <;> grind

theorem inv_accept {s : St} (h : Inv s) (x : Side) (c : Nat) (hc : c < s.made) : Inv (nodeAccept s x c) := by
  obtain ⟨h1, h2, h3, h4, h5⟩ := h
  unfold nodeAccept
  cases hr : s.reg x with
  | connected d => exact inv_die ⟨h1, h2, h3, h4, h5⟩ x c hc
  | idle => constructor <;> intro y <;> simp only [setEnd, setReg] <;> grind
  | pending d =>
    have := h5 x d hr
    by_cases hdc : d = c
    · simp only [hdc, if_true]; constructor <;> intro y <;> simp only [setEnd, setReg] <;> grind
    · simp only [hdc, if_false]; constructor <;> intro y <;> simp only [setEnd, setReg] <;> grind

theorem inv_step {s : St} (h : Inv s) (a : Act) : Inv (step s a) := by
  cases a with
  | connect x =>
    obtain ⟨h1, h2, h3, h4, h5⟩ := h
    simp only [step]
    split
    · constructor <;> intro y <;> simp only <;> grind
    · exact ⟨h1, h2, h3, h4, h5⟩
  | reach c =>
    simp only [step]
    split
    · obtain ⟨h1, h2, h3, h4, h5⟩ := h
      constructor <;> intro y <;> simp only [setEnd] <;> grind
    · exact h
  | accept x c =>
    simp only [step]
    split
    · exact inv_accept h x c (by grind)
    · exact h
  | notice x c =>
    simp only [step]
    split
    · exact inv_die h x c (by grind)
    · exact h
  | fail x c =>
    simp only [step]
    split
    · exact inv_die h x c (by grind)
    · exact h

theorem inv_run {s : St} (h : Inv s) (l : List Act) : Inv (run s l) := by
  induction l generalizing s with
  | nil => exact h
  | cons a l ih => exact ih (inv_step h a)

/-! ## Settled states -/

theorem ne_of_end {s t : St} {x : Side} {c : Nat} (h : t.at_ x c ≠ s.at_ x c) : t ≠ s := fun e => h (by rw [e])

theorem die_end (s : St) (x : Side) (c : Nat) : (die s x c).at_ x c = .dead := by
  simp only [die]; split <;> simp [setEnd, setReg]

theorem nodeAccept_end (s : St) (x : Side) (c : Nat) : (nodeAccept s x c).at_ x c ≠ .shaking := by
  unfold nodeAccept
  split
  · simp [setEnd, setReg]
  · split <;> simp [setEnd, setReg]
  · rw [die_end]; simp

/-- In a settled state both ends of every connection have come to the same conclusion. -/
theorem settled_ends {s : St} (h : Inv s) (hs : Settled s) (c : Nat) (hc : c < s.made) :
    (∀ x, s.at_ x c = .accepted) ∨ ∀ x, s.at_ x c = .dead := by
  have habs : ∀ x, s.at_ x c ≠ .absent := by
    intro x hx
    by_cases hm : x = s.by_ c
    · exact h.maker c hc (hm ▸ hx)
    · have hx' : (!s.by_ c) = x := by cases x <;> cases hb : s.by_ c <;> simp_all
      have := hs (.reach c) rfl
      rw [step, if_pos ⟨hc, hx' ▸ hx⟩] at this
      refine ne_of_end (x := x) (c := c) ?_ this
      simp [setEnd, hx', hx]
  have hsha : ∀ x, s.at_ x c ≠ .shaking := by
    intro x hx
    have := hs (.accept x c) rfl
    rw [step, if_pos ⟨hc, hx, habs _⟩] at this
    exact ne_of_end (x := x) (c := c) (by rw [hx]; exact nodeAccept_end s x c) this
  have hno : ∀ x, s.at_ x c = .accepted → s.at_ (!x) c ≠ .dead := by
    intro x hx hd
    have := hs (.notice x c) rfl
    rw [step, if_pos ⟨hc, by simp [live, hx], hd⟩] at this
    exact ne_of_end (x := x) (c := c) (by rw [hx, die_end]; simp) this
  have key : ∀ x, s.at_ x c = .accepted ∨ s.at_ x c = .dead := by
    intro x; have h1 := habs x; have h2 := hsha x; cases hx : s.at_ x c <;> simp_all
  rcases key true with ht | ht
  · left
    intro x
    cases x with
    | true => exact ht
    | false => exact (key false).resolve_right (hno true ht)
  · right
    intro x
    cases x with
    | true => exact ht
    | false => exact (key false).resolve_left fun hf => hno false hf ht

/-- **C101**, agreement: whatever attempts the two nodes make, whatever fails and however the steps are interleaved, once nothing is under way any more
the nodes are connected with each other, both over the same TCP connection, or neither of them has a connection with the other. -/
theorem C101_agree (l : List Act) (hs : Settled (run start l)) : Together (run start l) ∨ Apart (run start l) := by
  have h := inv_run inv_start l
  generalize run start l = s at h hs
  by_cases hc : ∃ x c, s.reg x = .connected c
  · left
    obtain ⟨x, c, hr⟩ := hc
    have ha := h.con x c hr
    have hlt : c < s.made := by
      false_or_by_contra
      rename_i hn
      rw [h.fresh x c (by omega)] at ha; simp at ha
    rcases settled_ends h hs c hlt with hall | hall
    · exact ⟨c, fun y => ⟨h.acc y c (hall y), hall y⟩⟩
    · rw [hall x] at ha; simp at ha
  · right
    have hl : ∀ x c, live s x c = false := by
      intro x c
      by_cases hlt : c < s.made
      · rcases settled_ends h hs c hlt with hall | hall
        · exact absurd ⟨x, c, h.acc x c (hall x)⟩ hc
        · simp [live, hall x]
      · simp [live, h.fresh x c (by omega)]
    intro x
    refine ⟨?_, hl x⟩
    cases hr : s.reg x with
    | idle => rfl
    | pending c => have := (h.pen x c hr).1; have h2 := hl x c; simp [live, this] at h2
    | connected c => exact absurd ⟨x, c, hr⟩ hc

/-! ## Settling -/

/-- How much can still happen at one end. -/
def weight : End → Nat
  | .absent => 3
  | .shaking => 2
  | .accepted => 1
  | .dead => 0

/-- The sum of the weights of the ends of the first `n` connections. -/
def total (f : Side → Nat → End) : Nat → Nat
  | 0 => 0
  | n + 1 => total f n + weight (f true n) + weight (f false n)

theorem total_le (f g : Side → Nat → End) (h : ∀ x c, weight (g x c) ≤ weight (f x c)) : ∀ n, total g n ≤ total f n := by
  intro n
  induction n with
  | zero => exact Nat.le_refl _
  | succ n ih => have h1 := h true n; have h2 := h false n; simp only [total]; omega

theorem total_lt (f g : Side → Nat → End) (h : ∀ x c, weight (g x c) ≤ weight (f x c)) (x : Side) (c : Nat)
    (hlt : weight (g x c) < weight (f x c)) : ∀ n, c < n → total g n < total f n := by
  intro n
  induction n with
  | zero => intro hc; omega
  | succ n ih =>
    intro hc
    have h1 := h true n
    have h2 := h false n
    have h3 := total_le f g h n
    simp only [total]
    by_cases hcn : c = n
    · subst hcn; cases x <;> omega
    · have := ih (by omega); omega

/-- What the internal actions do to the ends: none gets younger. -/
theorem ends_internal (s : St) (a : Act) (ha : internal a = true) :
    (step s a).made = s.made ∧ (∀ x c, weight ((step s a).at_ x c) ≤ weight (s.at_ x c)) ∧
    (step s a = s ∨ ∃ x c, c < s.made ∧ weight ((step s a).at_ x c) < weight (s.at_ x c)) := by
  have hdie : ∀ x c, (die s x c).made = s.made ∧ (∀ y d, weight ((die s x c).at_ y d) ≤ weight (s.at_ y d)) := by
    intro x c
    have : (die s x c).at_ = fun y d => if y = x ∧ d = c then .dead else s.at_ y d := by
      simp only [die]; split <;> rfl
    refine ⟨by simp only [die]; split <;> rfl, ?_⟩
    intro y d
    rw [this]
    simp only
    split
    · simp [weight]
    · exact Nat.le_refl _
  cases a with
  | connect x => simp [internal] at ha
  | fail x c => simp [internal] at ha
  | reach c =>
    simp only [step]
    split
    · next hc =>
      refine ⟨rfl, ?_, .inr ⟨!s.by_ c, c, hc.1, by simp [setEnd, hc.2, weight]⟩⟩
      intro y d
      simp only [setEnd]
      split
      · next hyd => rw [hyd.1, hyd.2, hc.2]; simp [weight]
      · exact Nat.le_refl _
    · exact ⟨rfl, fun _ _ => Nat.le_refl _, .inl rfl⟩
  | notice x c =>
    simp only [step]
    split
    · next hc =>
      refine ⟨(hdie x c).1, (hdie x c).2, .inr ⟨x, c, hc.1, ?_⟩⟩
      rw [die_end]
      have := hc.2.1
      cases hx : s.at_ x c <;> simp_all [live, weight]
    · exact ⟨rfl, fun _ _ => Nat.le_refl _, .inl rfl⟩
  | accept x c =>
    simp only [step]
    split
    · next hc =>
      have hlt : weight ((nodeAccept s x c).at_ x c) < weight (s.at_ x c) := by
        rw [hc.2.1]
        have h1 := nodeAccept_end s x c
        have h2 : (nodeAccept s x c).at_ x c ≠ .absent := by
          unfold nodeAccept
          split
          · simp [setEnd, setReg]
          · split <;> simp [setEnd, setReg]
          · rw [die_end]; simp
        cases hx : (nodeAccept s x c).at_ x c <;> simp_all [weight]
      refine ⟨?_, ?_, .inr ⟨x, c, hc.1, hlt⟩⟩
      · unfold nodeAccept
        split
        · rfl
        · split <;> rfl
        · exact (hdie x c).1
      · intro y d
        by_cases hyd : y = x ∧ d = c
        · rw [hyd.1, hyd.2]; exact Nat.le_of_lt hlt
        · unfold nodeAccept
          split
          · simp [setEnd, setReg, hyd]
          · split
            · simp [setEnd, setReg, hyd]
            · simp only [setEnd, setReg, hyd, if_false]
              split
              · simp [weight]
              · exact Nat.le_refl _
          · exact (hdie x c).2 y d
    · exact ⟨rfl, fun _ _ => Nat.le_refl _, .inl rfl⟩

/-- Every action of the list is internal and does something. -/
def Busy : St → List Act → Prop
  | _, [] => True
  | s, a :: l => internal a = true ∧ step s a ≠ s ∧ Busy (step s a) l

theorem total_bound (f : Side → Nat → End) : ∀ n, total f n ≤ 6 * n := by
  have hw : ∀ e, weight e ≤ 3 := by intro e; cases e <;> simp [weight]
  intro n
  induction n with
  | zero => exact Nat.le_refl _
  | succ n ih => have h1 := hw (f true n); have h2 := hw (f false n); simp only [total]; omega

theorem busy_total : ∀ (l : List Act) (s : St), Busy s l → l.length ≤ total s.at_ s.made := by
  intro l
  induction l with
  | nil => intro s _; exact Nat.zero_le _
  | cons a l ih =>
    intro s ⟨hi, hne, hb⟩
    obtain ⟨h1, h2, h3⟩ := ends_internal s a hi
    rcases h3 with h3 | ⟨x, c, hc, hlt⟩
    · exact absurd h3 hne
    · have := ih _ hb
      have h4 := total_lt s.at_ (step s a).at_ h2 x c hlt s.made hc
      rw [h1] at this
      simp only [List.length_cons]; omega

/-- **C101**: if no new attempts are made, everything settles: after at most six actions for each attempt nothing is under way any more. -/
theorem C101_settles (l : List Act) :
    (∀ l', Busy (run start l) l' → l'.length ≤ 6 * (run start l).made) ∧
    ∃ l', (∀ a ∈ l', internal a = true) ∧ Settled (run start (l ++ l')) := by
  refine ⟨fun l' h => Nat.le_trans (busy_total l' _ h) (total_bound _ _), ?_⟩
  have key : ∀ n (s : St), total s.at_ s.made ≤ n → ∃ l', (∀ a ∈ l', internal a = true) ∧ Settled (run s l') := by
    intro n
    induction n with
    | zero =>
      intro s hs
      refine ⟨[], by simp, ?_⟩
      intro a ha
      obtain ⟨h1, h2, h3⟩ := ends_internal s a ha
      rcases h3 with h3 | ⟨x, c, hc, hlt⟩
      · exact h3
      · have := total_lt s.at_ (step s a).at_ h2 x c hlt s.made hc; omega
    | succ n ih =>
      intro s hs
      by_cases hset : Settled s
      · exact ⟨[], by simp, hset⟩
      · have : ∃ a, internal a = true ∧ step s a ≠ s := by
          false_or_by_contra
          rename_i hno
          exact hset fun a ha => by
            false_or_by_contra
            rename_i hne
            exact hno ⟨a, ha, hne⟩
        obtain ⟨a, ha, hne⟩ := this
        obtain ⟨h1, h2, h3⟩ := ends_internal s a ha
        rcases h3 with h3 | ⟨x, c, hc, hlt⟩
        · exact absurd h3 hne
        · have h4 := total_lt s.at_ (step s a).at_ h2 x c hlt s.made hc
          obtain ⟨l', h5, h6⟩ := ih (step s a) (by rw [h1]; omega)
          refine ⟨a :: l', ?_, h6⟩
          intro b hb
          rcases List.mem_cons.1 hb with rfl | hb
          · exact ha
          · exact h5 b hb
  obtain ⟨l', h1, h2⟩ := key _ (run start l) (Nat.le_refl _)
  refine ⟨l', h1, ?_⟩
  rw [run, List.foldl_append]
  exact h2

/-! ## One node connects -/

/-- Attempt `k` of node `x` is on its way, all earlier ones are over. -/
structure Solo (s : St) (x : Side) (k : Nat) : Prop where
  made : s.made = k + 1
  maker : s.by_ k = x
  old : ∀ y c, c < k → s.at_ y c = .dead
  new : ∀ y c, k < c → s.at_ y c = .absent
  mine : (s.at_ x k = .shaking ∧ s.reg x = .pending k) ∨ (s.at_ x k = .accepted ∧ s.reg x = .connected k)
  theirs : ((s.at_ (!x) k = .absent ∨ s.at_ (!x) k = .shaking) ∧ s.reg (!x) = .idle) ∨
    (s.at_ (!x) k = .accepted ∧ s.reg (!x) = .connected k)

theorem solo_step {s : St} {x : Side} {k : Nat} (h : Solo s x k) (a : Act) (ha : internal a = true ∨ a = .connect x) : Solo (step s a) x k := by
  have nd : ∀ y, s.at_ y k ≠ .dead := by
    intro y
    by_cases hy : y = x
    · subst hy; rcases h.mine with h | h <;> simp [h.1]
    · have : y = !x := by cases x <;> cases y <;> simp_all
      subst this
      rcases h.theirs with ⟨h | h, -⟩ | ⟨h, -⟩ <;> simp [h]
  cases a with
  | fail y c => simp [internal] at ha
  | connect y =>
    simp only [internal, Bool.false_eq_true, false_or, Act.connect.injEq] at ha
    subst ha
    have : s.reg y ≠ .idle := by rcases h.mine with h | h <;> simp [h.2]
    simp only [step, this, if_false]; exact h
  | notice y c =>
    simp only [step]
    split
    · next hc =>
      exfalso
      have := h.made
      by_cases hk : c = k
      · subst hk; exact nd _ hc.2.2
      · have h2 := h.old y c (by omega); simp [live, h2] at hc
    · exact h
  | reach c =>
    simp only [step]
    split
    · next hc =>
      have hm := h.made
      by_cases hk : c = k
      · subst hk
        rw [h.maker] at hc ⊢
        have hne : x ≠ !x := by cases x <;> simp
        refine ⟨hm, h.maker, ?_, ?_, ?_, ?_⟩
        · intro y d hd; simp only [setEnd]; rw [if_neg (by omega)]; exact h.old y d hd
        · intro y d hd; simp only [setEnd]; rw [if_neg (by omega)]; exact h.new y d hd
        · simpa [setEnd, hne] using h.mine
        · rcases h.theirs with ⟨h1, h2⟩ | ⟨h1, h2⟩
          · left; simp [setEnd, h2]
          · rw [hc.2] at h1; simp at h1
      · have := h.old (!s.by_ c) c (by omega); rw [hc.2] at this; simp at this
    · exact h
  | accept y c =>
    simp only [step]
    split
    · next hc =>
      have hm := h.made
      have hk : c = k := by
        false_or_by_contra
        have := h.old y c (by omega); rw [hc.2.1] at this; simp at this
      subst hk
      have hne : x ≠ !x := by cases x <;> simp
      have hne' : (!x) ≠ x := by cases x <;> simp
      by_cases hy : y = x
      · subst hy
        have hr : s.reg y = .pending c := by
          rcases h.mine with h | h
          · exact h.2
          · rw [hc.2.1] at h; simp at h
        simp only [nodeAccept, hr, if_true]
        refine ⟨hm, h.maker, ?_, ?_, ?_, ?_⟩
        · intro z d hd; simp only [setEnd, setReg]; rw [if_neg (by omega)]; exact h.old z d hd
        · intro z d hd; simp only [setEnd, setReg]; rw [if_neg (by omega)]; exact h.new z d hd
        · right; simp [setEnd, setReg]
        · simpa [setEnd, setReg, hne'] using h.theirs
      · have : y = !x := by cases x <;> cases y <;> simp_all
        subst this
        have hr : s.reg (!x) = .idle := by
          rcases h.theirs with h | h
          · exact h.2
          · rw [hc.2.1] at h; simp at h
        simp only [nodeAccept, hr]
        refine ⟨hm, h.maker, ?_, ?_, ?_, ?_⟩
        · intro z d hd; simp only [setEnd, setReg]; rw [if_neg (by omega)]; exact h.old z d hd
        · intro z d hd; simp only [setEnd, setReg]; rw [if_neg (by omega)]; exact h.new z d hd
        · simpa [setEnd, setReg, hne] using h.mine
        · right; simp [setEnd, setReg]
    · exact h

theorem solo_run {s : St} {x : Side} {k : Nat} (h : Solo s x k) (l : List Act) (ha : ∀ a ∈ l, internal a = true ∨ a = .connect x) :
    Solo (run s l) x k := by
  induction l generalizing s with
  | nil => exact h
  | cons a l ih => exact ih (solo_step h a (ha a (by simp))) (fun b hb => ha b (by simp [hb]))

/-- **C101**: if only one of the nodes connects (as often as it likes), after any history that has settled without a connection, and nothing
fails, then the nodes are connected as soon as nothing is under way any more. The part missing is that both connect, see
`C101_simultaneous_violated`. -/
theorem C101_one_side_partial (l l' : List Act) (x : Side) (h1 : Settled (run start l)) (h2 : ¬ Together (run start l))
    (h3 : ∀ a ∈ l', internal a = true ∨ a = .connect x) (h4 : Settled (run start (l ++ .connect x :: l'))) :
    Together (run start (l ++ .connect x :: l')) := by
  have hinv := inv_run inv_start l
  have hap : Apart (run start l) := (C101_agree l h1).resolve_left h2
  have hinv' := inv_run inv_start (l ++ .connect x :: l')
  have hsolo : Solo (step (run start l) (.connect x)) x (run start l).made := by
    generalize run start l = s at h1 hinv hap
    have hdead : ∀ y c, c < s.made → s.at_ y c = .dead := by
      intro y c hc
      rcases settled_ends hinv h1 c hc with h | h
      · have := (hap y).2 c; simp [live, h y] at this
      · exact h y
    have hne' : (!x) ≠ x := by cases x <;> simp
    simp only [step, (hap x).1, if_true]
    refine ⟨rfl, by simp, ?_, ?_, ?_, ?_⟩
    · intro y c hc; simp only; rw [if_neg (by omega)]; exact hdead y c hc
    · intro y c hc; simp only; rw [if_neg (by omega)]; exact hinv.fresh y c (by omega)
    · left; simp
    · left; simp [hne', hinv.fresh (!x) s.made (Nat.le_refl _), (hap (!x)).1]
  have hrun : run start (l ++ .connect x :: l') = run (step (run start l) (.connect x)) l' := by
    rw [run, List.foldl_append]; rfl
  rw [hrun] at h4 hinv' ⊢
  have hs := solo_run hsolo l' h3
  generalize run (step (run start l) (.connect x)) l' = t at h4 hinv' hs
  rcases settled_ends hinv' h4 (run start l).made (by rw [hs.made]; omega) with h | h
  · exact ⟨_, fun y => ⟨hinv'.acc y _ (h y), h y⟩⟩
  · have := h x
    rcases hs.mine with h5 | h5 <;> (rw [this] at h5; simp at h5)

/-- **C101**: when both nodes connect, the first connection that is accepted by both ends before either of them has accepted another one is kept:
whatever comes next, as long as nothing fails, they stay connected over it. -/
theorem C101_stays (l l' : List Act) (c : Nat) (h : ∀ x, (run start l).reg x = .connected c)
    (hl : ∀ a ∈ l', ∀ x, a ≠ .fail x c) : ∀ x, (run start (l ++ l')).reg x = .connected c := by
  have hinv := inv_run inv_start l
  have key : ∀ (l' : List Act) (s : St), Inv s → (∀ x, s.reg x = .connected c) → (∀ a ∈ l', ∀ x, a ≠ .fail x c) →
      ∀ x, (run s l').reg x = .connected c := by
    intro l'
    induction l' with
    | nil => intro s _ h _; exact h
    | cons a l' ih =>
      intro s hi h hl
      refine ih (step s a) (inv_step hi a) ?_ (fun b hb => hl b (by simp [hb]))
      have hacc : ∀ x, s.at_ x c = .accepted := fun x => hi.con x c (h x)
      have hdie : ∀ x d, d ≠ c → ∀ y, (die s x d).reg y = .connected c := by
        intro x d hd y
        simp only [die, setEnd, h x, reduceCtorEq, Reg.connected.injEq, false_or]
        rw [if_neg (fun e => hd e.symm)]; exact h y
      intro y
      cases a with
      | connect x => simp [step, h]
      | reach d => simp only [step]; split <;> simp [setEnd, h]
      | accept x d =>
        simp only [step]
        split
        · next hc =>
          have : d ≠ c := by rintro rfl; rw [hacc x] at hc; simp at hc
          simp only [nodeAccept, h x]; exact hdie x d this y
        · exact h y
      | notice x d =>
        simp only [step]
        split
        · next hc =>
          have : d ≠ c := by rintro rfl; rw [hacc (!x)] at hc; simp at hc
          exact hdie x d this y
        · exact h y
      | fail x d =>
        simp only [step]
        split
        · have : d ≠ c := by rintro rfl; exact hl (.fail x d) (by simp) x rfl
          exact hdie x d this y
        · exact h y
  have := key l' (run start l) hinv h hl
  rw [run, List.foldl_append]
  exact this

/-- Both nodes connect at the same time: each accepts the connection that it made itself and refuses the other one. -/
def crossing : List Act :=
  [.connect true, .connect false, .reach 0, .reach 1, .accept true 0, .accept false 1, .accept true 1, .accept false 0,
   .notice true 0, .notice false 1]

/-- **C101** is violated: both nodes called `Node::connect`, nothing failed, nothing is under way any more, and they are not connected. -/
theorem C101_simultaneous_violated : ∃ l, .connect true ∈ l ∧ .connect false ∈ l ∧ (∀ x c, .fail x c ∉ l) ∧
    Settled (run start l) ∧ Apart (run start l) := by
  have h1 : ∀ x c, (run start crossing).at_ x c = if c < 2 then .dead else .absent := by
    intro x c
    by_cases h0 : c = 0
    · subst h0; cases x <;> decide
    · by_cases h1 : c = 1
      · subst h1; cases x <;> decide
      · have := (inv_run inv_start crossing).fresh x c (by show 2 ≤ c; omega)
        rw [this, if_neg (by omega)]
  have hm : (run start crossing).made = 2 := rfl
  refine ⟨crossing, by simp [crossing], by simp [crossing], by simp [crossing], ?_, ?_⟩
  · generalize run start crossing = s at h1 hm
    intro a ha
    cases a with
    | connect x => simp [internal] at ha
    | fail x c => simp [internal] at ha
    | reach c =>
      simp only [step, h1, hm]
      by_cases hc : c < 2
      · simp [hc]
      · simp [hc]
    | accept x c => simp only [step, h1, hm]; split <;> simp_all
    | notice x c => simp only [step, live, h1, hm]; split <;> simp_all
  · intro x
    refine ⟨by cases x <;> rfl, ?_⟩
    intro c
    rw [live, h1]
    split <;> simp

/-- The hypotheses of the theorems above can be met: `true` connects and the handshake runs to its end. -/
example : (run start [.connect true, .reach 0, .accept false 0, .accept true 0]).reg true = .connected 0 ∧
    (run start [.connect true, .reach 0, .accept false 0, .accept true 0]).reg false = .connected 0 := by decide
example : Settled start ∧ ¬ Together start := by
  refine ⟨?_, ?_⟩
  · intro a ha; cases a <;> simp [internal, step, start] at ha ⊢
  · rintro ⟨c, h⟩; have := (h true).1; simp [start] at this
/-- Both connect, and this time they agree. -/
example : (run start [.connect true, .connect false, .reach 0, .reach 1, .accept true 0, .accept false 0]).reg true = .connected 0 ∧
    (run start [.connect true, .connect false, .reach 0, .reach 1, .accept true 0, .accept false 0]).reg false = .connected 0 := by decide

end Verif.Handshake
