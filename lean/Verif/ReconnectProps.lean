import Verif.Reconnect
import Verif.HandshakeProps
/-!
# Property C133: messages between two nodes across connections
-/
namespace Verif.Handshake
variable {M : Type}

/-! ## Specification -/

/-- When node `y` accepts connection `c`, node `x` has not accepted it, or has not accepted another one since. -/
def Fresh (p : Net M) (x : Side) (c : Nat) : Prop := c ∉ p.accs x ∨ (p.accs x).head? = some c

/-- In this schedule the node `!x` never accepts a connection that `x` has already replaced by another one. -/
def NoneLate (x : Side) (l : List (NAct M)) : Prop :=
  ∀ l1 a l2 c, l = l1 ++ .conn a :: l2 → accepts (nrun nstart l1 : Net M).hs (!x) a = some c → Fresh (nrun nstart l1 : Net M) x c

/-! ## Lemmas: connections -/

theorem accepts_some {s : St} {x : Side} {a : Act} {c : Nat} (h : accepts s x a = some c) :
    s.at_ x c = .shaking ∧ (step s a).at_ x c = .accepted := by
  cases a with
  | accept y d =>
    simp only [accepts] at h
    split at h
    · rename_i hc
      cases h
      obtain ⟨rfl, h1, h2⟩ := hc
      refine ⟨?_, h1⟩
      simp only [step] at h1
      split at h1
      · rename_i hs; exact hs.2.1
      · exact absurd h1 h2
    · cases h
  | _ => cases h

theorem accepts_none {s : St} {x : Side} {a : Act} (h : accepts s x a = none) (c : Nat) (hc : (step s a).at_ x c = .accepted) :
    s.at_ x c = .accepted := by
  cases a with
  | accept y d =>
    simp only [accepts] at h
    by_cases hx : y = x ∧ d = c
    · obtain ⟨rfl, rfl⟩ := hx
      split at h
      · cases h
      · rename_i hn; exact Classical.byContradiction fun hh => hn ⟨rfl, hc, hh⟩
    · simp only [step, nodeAccept, die, setEnd, setReg] at hc
      clear h
      grind
  | _ => simp only [step, die, setEnd, setReg, live] at hc; clear h; grind

theorem accepts_other {s : St} {x : Side} {a : Act} {c : Nat} (hi : Inv s) (h : accepts s x a = some c) (d : Nat)
    (hd : (step s a).at_ x d = .accepted) : d = c := by
  have := accepts_some h
  have h2 := inv_step hi a
  have e1 := h2.acc x d hd
  have e2 := h2.acc x c this.2
  rw [e1] at e2
  exact Reg.connected.inj e2

/-- An end that has been accepted or is dead does not come back. -/
theorem past_step {s : St} {x : Side} {c : Nat} (hi : Inv s) (a : Act) (h : s.at_ x c = .accepted ∨ s.at_ x c = .dead) :
    (step s a).at_ x c = .accepted ∨ (step s a).at_ x c = .dead := by
  have hf := hi.fresh x c
  cases a <;> simp only [step, nodeAccept, die, setEnd, setReg, live] <;> grind

/-! ## Invariants -/

/-- `c` was accepted later than `d`. -/
def Newer (l : List Nat) (c d : Nat) : Prop := ∃ l1 l2, l = l1 ++ c :: l2 ∧ d ∈ l2

theorem Newer.cons {l : List Nat} {c d : Nat} (h : Newer l c d) (e : Nat) : Newer (e :: l) c d := by
  obtain ⟨l1, l2, rfl, h⟩ := h; exact ⟨e :: l1, l2, rfl, h⟩

theorem Newer.head {l : List Nat} {c d : Nat} (h : d ∈ l) : Newer (c :: l) c d := ⟨[], l, rfl, h⟩

theorem Newer.asymm {l : List Nat} (hn : l.Nodup) {c d : Nat} (h : Newer l c d) (h' : Newer l d c) : False := by
  induction l with
  | nil => obtain ⟨l1, l2, e, -⟩ := h; simp at e
  | cons a l ih =>
    obtain ⟨l1, l2, e, h⟩ := h
    obtain ⟨l3, l4, e', h'⟩ := h'
    obtain ⟨ha, hn⟩ := List.nodup_cons.1 hn
    cases l1 with
    | nil =>
      cases e
      cases l3 with
      | nil => cases e'; exact ha h
      | cons b l3 => cases e'; exact ha (by simp [h'])
    | cons b l1 =>
      cases e
      cases l3 with
      | nil => cases e'; exact ha (by simp [h])
      | cons b l3 =>
        have e' := (List.cons.inj e').2
        exact ih hn ⟨l1, l2, rfl, h⟩ ⟨l3, l4, e', h'⟩

theorem Newer.mem {l : List Nat} {c d : Nat} (h : Newer l c d) : c ∈ l ∧ d ∈ l := by
  obtain ⟨l1, l2, rfl, h⟩ := h; simp [h]

structure AccInv (p : Net M) : Prop where
  inv : Inv p.hs
  past : ∀ x c, c ∈ p.accs x ∨ p.ready x c = true → p.hs.at_ x c = .accepted ∨ p.hs.at_ x c = .dead
  nodup : ∀ x, (p.accs x).Nodup
  head : ∀ x c, p.hs.at_ x c = .accepted → (p.accs x).head? = some c
  flushed : ∀ x c, p.hs.at_ x c = .accepted → p.ready x c = true → p.pend x = []

theorem accInv_step {p : Net M} (h : AccInv p) (a : NAct M) : AccInv (nstep p a) := by
  cases a with
  | conn a =>
    obtain ⟨h1, h2, h3, h4, h5⟩ := h
    refine ⟨inv_step h1 a, ?_, ?_, ?_, ?_⟩
    · intro x c hc
      simp only [nstep] at hc ⊢
      cases ha : accepts p.hs x a with
      | none => rw [ha] at hc; exact past_step h1 a (h2 x c hc)
      | some d =>
        rw [ha] at hc
        simp only [Option.toList, List.singleton_append, List.mem_cons] at hc
        rcases hc with (rfl | hc) | hc
        · exact .inl (accepts_some ha).2
        · exact past_step h1 a (h2 x c (.inl hc))
        · exact past_step h1 a (h2 x c (.inr hc))
    · intro x
      simp only [nstep]
      cases ha : accepts p.hs x a with
      | none => exact h3 x
      | some c =>
        refine List.nodup_cons.2 ⟨?_, h3 x⟩
        intro hc
        have := h2 x c (.inl hc)
        rw [(accepts_some ha).1] at this
        simp at this
    · intro x c hc
      simp only [nstep] at hc ⊢
      cases ha : accepts p.hs x a with
      | none => exact h4 x c (accepts_none ha c hc)
      | some d => rw [accepts_other h1 ha c hc]; rfl
    · intro x c hc hr
      simp only [nstep, dropped] at hc hr ⊢
      split
      · rfl
      · refine h5 x c ?_ hr
        cases ha : accepts p.hs x a with
        | none => exact accepts_none ha c hc
        | some d =>
          have := accepts_other h1 ha c hc
          subst this
          have h' := h2 x c (.inr hr)
          rw [(accepts_some ha).1] at h'
          simp at h'
  | workers x c =>
    simp only [nstep]
    split
    · rename_i hc
      refine ⟨h.inv, ?_, h.nodup, h.head, ?_⟩
      · intro y d hd
        simp only [put2] at hd
        by_cases hy : y = x ∧ d = c
        · rw [hy.1, hy.2]; exact .inl hc.1
        · rw [if_neg hy] at hd; exact h.past y d hd
      · intro y d hd hr
        simp only [put, put2] at hd hr ⊢
        split
        · rfl
        · rename_i hy
          rw [if_neg (by simp [hy])] at hr
          exact h.flushed y d hd hr
    · exact h
  | send x m =>
    have key : ∀ c, p.hs.reg x = .connected c → p.ready x c = false →
        ∀ y d, p.hs.at_ y d = .accepted → p.ready y d = true → put p.pend x (p.pend x ++ [((p.sent x).length, m)]) y = [] := by
      intro c hc hr y d hd hr'
      simp only [put]
      split
      · rename_i hy
        subst hy
        have := h.inv.acc y d hd
        rw [hc] at this
        cases this
        rw [hr] at hr'; cases hr'
      · exact h.flushed y d hd hr'
    simp only [nstep]
    split
    · exact ⟨h.inv, h.past, h.nodup, h.head, h.flushed⟩
    · rename_i c hc
      refine ⟨h.inv, h.past, h.nodup, h.head, ?_⟩
      intro y d hd hr'
      simp only [put]
      split
      · rename_i hy
        subst hy
        have := h.inv.acc y d hd
        rw [hc] at this
        cases this
      · exact h.flushed y d hd hr'
    · rename_i c hc
      split
      · exact ⟨h.inv, h.past, h.nodup, h.head, h.flushed⟩
      · rename_i hr
        exact ⟨h.inv, h.past, h.nodup, h.head, key c hc (by simpa using hr)⟩
  | take y c =>
    simp only [nstep]
    split
    · exact h
    · split <;> exact ⟨h.inv, h.past, h.nodup, h.head, h.flushed⟩

/-- What node `x` has sent, and where it is. -/
structure SeqInv (p : Net M) (x : Side) : Prop where
  sorted : ((p.given x).map (·.2) ++ p.pend x).Pairwise fun i j => i.1 < j.1
  real : ∀ e, e ∈ p.given x ∨ e.2 ∈ p.pend x → (p.sent x)[e.2.1]? = some e.2.2
  split : ∀ c, ((p.got (!x)).filter fun e => e.1 = c) ++ (p.line x c).map (fun i => (c, i)) = (p.given x).filter fun e => e.1 = c
  tags : ∀ e ∈ p.given x, e.1 ∈ p.accs x
  order : (p.given x).Pairwise fun e f => e.1 = f.1 ∨ Newer (p.accs x) f.1 e.1

theorem real_lt {p : Net M} {x : Side} (h : SeqInv p x) {i : Item M} (hi : i ∈ (p.given x).map (·.2) ++ p.pend x) : i.1 < (p.sent x).length := by
  have : (p.sent x)[i.1]? = some i.2 := by
    rcases List.mem_append.1 hi with hi | hi
    · obtain ⟨e, he, rfl⟩ := List.mem_map.1 hi
      exact h.real e (.inl he)
    · exact h.real (0, i) (.inr hi)
  exact (List.getElem?_eq_some_iff.1 this).1

/-- Frames are given to the sender of the connection that was accepted last. -/
theorem give {p : Net M} {x : Side} {c : Nat} (h : SeqInv p x) (hc : (p.accs x).head? = some c) (is : List (Item M)) :
    (∀ e ∈ p.given x ++ is.map fun i => (c, i), e.1 ∈ p.accs x) ∧
    (p.given x ++ is.map fun i => (c, i)).Pairwise fun e f => e.1 = f.1 ∨ Newer (p.accs x) f.1 e.1 := by
  obtain ⟨l, hl⟩ : ∃ l, p.accs x = c :: l := by
    cases ha : p.accs x with
    | nil => rw [ha] at hc; cases hc
    | cons a l => rw [ha] at hc; cases hc; exact ⟨l, rfl⟩
  refine ⟨?_, List.pairwise_append.2 ⟨h.order, ?_, ?_⟩⟩
  · intro e he
    rcases List.mem_append.1 he with he | he
    · exact h.tags e he
    · obtain ⟨i, -, rfl⟩ := List.mem_map.1 he
      rw [hl]; simp
  · rw [List.pairwise_map]
    induction is with
    | nil => exact .nil
    | cons i is ih => exact .cons (fun _ _ => .inl rfl) ih
  · intro e he f hf
    obtain ⟨i, -, rfl⟩ := List.mem_map.1 hf
    have := h.tags e he
    rw [hl] at this ⊢
    rcases List.mem_cons.1 this with h | h
    · exact .inl h
    · exact .inr (.head h)

theorem filter_tag (c d : Nat) (is : List (Item M)) : (is.map fun i => (c, i)).filter (fun e => e.1 = d) = if d = c then is.map fun i => (c, i) else [] := by
  induction is with
  | nil => simp
  | cons i is ih =>
    rw [List.map_cons, List.filter_cons, ih]
    by_cases h : d = c
    · subst h; simp
    · have h' : ¬ c = d := fun e => h e.symm
      simp [h, h']

theorem seqInv_step {p : Net M} (ha : AccInv p) {x : Side} (h : SeqInv p x) (a : NAct M) : SeqInv (nstep p a) x := by
  cases a with
  | conn a =>
    have hm : ∀ d, d ∈ p.accs x → d ∈ (nstep p (.conn a)).accs x := fun d hd => List.mem_append_right _ hd
    have hn : ∀ c d, Newer (p.accs x) c d → Newer ((nstep p (.conn a)).accs x) c d := by
      intro c d hcd
      simp only [nstep]
      cases accepts p.hs x a with
      | none => exact hcd
      | some e => exact hcd.cons e
    have hp : (nstep p (.conn a)).pend x = [] ∨ (nstep p (.conn a)).pend x = p.pend x := by
      simp only [nstep, dropped]; split <;> simp
    refine ⟨?_, ?_, h.split, fun e he => hm _ (h.tags e he), h.order.imp fun hx => hx.imp id (hn _ _)⟩
    · rcases hp with hp | hp
      · rw [hp]
        exact (List.pairwise_append.1 h.sorted).1.sublist (by simp [nstep])
      · rw [hp]; exact h.sorted
    · intro e he
      rcases hp with hp | hp <;> rw [hp] at he
      · exact h.real e (.inl (he.resolve_right (by simp)))
      · exact h.real e he
  | workers z c =>
    simp only [nstep]
    split
    · rename_i hc
      by_cases hz : z = x
      · subst hz
        obtain ⟨g1, g2⟩ := give h (ha.head _ _ hc.1) (p.pend z)
        refine ⟨?_, ?_, ?_, ?_, ?_⟩
        · simpa [put, Function.comp_def] using h.sorted
        · intro e he
          simp only [put, if_true] at he
          rcases he with he | he
          · rcases List.mem_append.1 he with he | he
            · exact h.real e (.inl he)
            · obtain ⟨i, hi, rfl⟩ := List.mem_map.1 he
              exact h.real (c, i) (.inr hi)
          · cases he
        · intro d
          simp only [put, put2, if_true, true_and, List.filter_append, filter_tag, ← h.split d]
          split <;> simp_all
        · simpa [put] using g1
        · simpa [put] using g2
      · have hz' : ¬ x = z := fun h => hz h.symm
        refine ⟨?_, ?_, ?_, ?_, ?_⟩ <;> simp only [put, put2, hz', false_and, if_false]
        · exact h.sorted
        · exact h.real
        · exact h.split
        · exact h.tags
        · exact h.order
    · exact h
  | send z m =>
    by_cases hz : z = x
    · subst hz
      have hnew : ∀ (e : Item M), (p.sent z)[e.1]? = some e.2 → (p.sent z ++ [m])[e.1]? = some e.2 := by
        intro e he
        have := (List.getElem?_eq_some_iff.1 he).1
        rw [List.getElem?_append_left this]; exact he
      have h2f : ∀ c, p.hs.at_ z c = .accepted → p.ready z c = true → p.pend z = [] := ha.flushed z
      have hsort : ((p.given z).map (·.2) ++ p.pend z ++ [((p.sent z).length, m)]).Pairwise fun i j => i.1 < j.1 := by
        refine List.pairwise_append.2 ⟨h.sorted, List.pairwise_singleton _ _, ?_⟩
        intro i hi j hj
        rw [List.mem_singleton] at hj; subst hj
        exact real_lt h hi
      have hpend : SeqInv { p with sent := put p.sent z (p.sent z ++ [m]), pend := put p.pend z (p.pend z ++ [((p.sent z).length, m)]) } z := by
        refine ⟨?_, ?_, h.split, h.tags, h.order⟩
        · simpa [put] using hsort
        · intro e he
          simp only [put, if_true] at he ⊢
          rcases he with he | he
          · exact hnew _ (h.real e (.inl he))
          · rcases List.mem_append.1 he with he | he
            · exact hnew _ (h.real e (.inr he))
            · rw [List.mem_singleton] at he; rw [he]; simp
      simp only [nstep]
      split
      · refine ⟨h.sorted, ?_, h.split, h.tags, h.order⟩
        intro e he
        simp only [put, if_true]
        exact hnew _ (h.real e he)
      · exact hpend
      · rename_i c hc
        split
        · obtain ⟨g1, g2⟩ := give h (ha.head _ _ (ha.inv.con _ _ hc)) [((p.sent z).length, m)]
          have hf := h2f _ (ha.inv.con _ _ hc) (by assumption)
          refine ⟨?_, ?_, ?_, ?_, ?_⟩
          · simpa [put, hf] using hsort
          · intro e he
            simp only [put, if_true] at he ⊢
            rcases he with he | he
            · rcases List.mem_append.1 he with he | he
              · exact hnew _ (h.real e (.inl he))
              · rw [List.mem_singleton] at he; rw [he]; simp
            · exact hnew _ (h.real e (.inr he))
          · intro d
            have e := filter_tag c d [((p.sent z).length, m)]
            simp only [List.map_cons, List.map_nil] at e
            simp only [put, put2, if_true, true_and, List.filter_append, e, ← h.split d]
            split <;> simp_all
          · simpa [put] using g1
          · simpa [put] using g2
        · exact hpend
    · have hz' : ¬ x = z := fun h => hz h.symm
      have e : ∀ q : Net M, q.given x = p.given x → q.pend x = p.pend x → q.sent x = p.sent x → q.got (!x) = p.got (!x) → (∀ c, q.line x c = p.line x c) → q.accs x = p.accs x → SeqInv q x := by
        intro q e1 e2 e3 e4 e5 e6
        exact ⟨by rw [e1, e2]; exact h.sorted, by rw [e1, e2, e3]; exact h.real, fun c => by rw [e1, e4, e5]; exact h.split c, by rw [e1, e6]; exact h.tags, by rw [e1, e6]; exact h.order⟩
      simp only [nstep]
      split
      · exact e _ rfl rfl (by simp [put, hz']) rfl (fun _ => rfl) rfl
      · exact e _ rfl (by simp [put, hz']) (by simp [put, hz']) rfl (fun _ => rfl) rfl
      · split
        · exact e _ (by simp [put, hz']) rfl (by simp [put, hz']) rfl (fun _ => by simp [put2, hz']) rfl
        · exact e _ rfl (by simp [put, hz']) (by simp [put, hz']) rfl (fun _ => rfl) rfl
  | take y c =>
    simp only [nstep]
    split
    · exact h
    · rename_i i l hl
      split
      · by_cases hy : y = !x
        · subst hy
          rw [Bool.not_not] at hl
          refine ⟨h.sorted, h.real, ?_, h.tags, h.order⟩
          intro d
          have := h.split d
          simp only [put, put2, if_true, Bool.not_not, true_and, List.filter_append]
          by_cases hd : d = c
          · subst hd
            rw [hl] at this
            simpa using this
          · have hd' : ¬ c = d := fun h => hd h.symm
            simpa [hd, hd'] using this
        · have hx : ¬ x = !y := by intro e; apply hy; simp [e]
          have hy' : ¬ (!x) = y := fun h => hy h.symm
          refine ⟨h.sorted, h.real, ?_, h.tags, h.order⟩
          intro d
          simp only [put, put2, hx, hy', if_false, false_and]
          exact h.split d
      · exact h

/-- What node `y = !x` has got. -/
structure GotInv (p : Net M) (x : Side) : Prop where
  tags : ∀ e ∈ p.got (!x), e.1 ∈ p.accs (!x)
  once : (p.got (!x)).Pairwise fun e f => e.2.1 ≠ f.2.1

theorem got_given {p : Net M} {x : Side} (h : SeqInv p x) {e : Nat × Item M} (he : e ∈ p.got (!x)) : e ∈ p.given x := by
  have : e ∈ (p.got (!x)).filter (fun f => f.1 = e.1) := by simp [he]
  have : e ∈ (p.given x).filter (fun f => f.1 = e.1) := by rw [← h.split e.1]; exact List.mem_append_left _ this
  exact (List.mem_filter.1 this).1

theorem line_given {p : Net M} {x : Side} (h : SeqInv p x) {c : Nat} {i : Item M} (hi : i ∈ p.line x c) : (c, i) ∈ p.given x := by
  have : (c, i) ∈ (p.given x).filter (fun f => f.1 = c) := by
    rw [← h.split c]; exact List.mem_append_right _ (List.mem_map.2 ⟨i, hi, rfl⟩)
  exact (List.mem_filter.1 this).1

theorem given_sorted {p : Net M} {x : Side} (h : SeqInv p x) : (p.given x).Pairwise fun e f => e.2.1 < f.2.1 := by
  have := (List.pairwise_append.1 h.sorted).1
  rw [List.pairwise_map] at this
  exact this

/-- The frames that were taken from a connection come before those that are still on it. -/
theorem got_line {p : Net M} {x : Side} (h : SeqInv p x) {c : Nat} {i j : Item M} (hg : (c, j) ∈ p.got (!x)) (hi : i ∈ p.line x c) : j.1 < i.1 := by
  have hs := (given_sorted h).filter (fun f => f.1 = c)
  rw [← h.split c] at hs
  exact (List.pairwise_append.1 hs).2.2 (c, j) (by simp [hg]) (c, i) (List.mem_map.2 ⟨i, hi, rfl⟩)

theorem given_unique {p : Net M} {x : Side} (h : SeqInv p x) {e f : Nat × Item M} (he : e ∈ p.given x) (hf : f ∈ p.given x) (hn : e.2.1 = f.2.1) : e = f := by
  have hs := given_sorted h
  generalize p.given x = l at he hf hs
  induction l with
  | nil => cases he
  | cons a l ih =>
    cases hs with
    | cons h1 h2 =>
      rcases List.mem_cons.1 he with he' | he' <;> rcases List.mem_cons.1 hf with hf' | hf'
      · rw [he', hf']
      · have := h1 _ hf'; rw [← he'] at this; omega
      · have := h1 _ he'; rw [← hf'] at this; omega
      · exact ih he' hf' h2

theorem gotInv_step {p : Net M} (ha : AccInv p) {x : Side} (hs : SeqInv p x) (h : GotInv p x) (a : NAct M) : GotInv (nstep p a) x := by
  cases a with
  | conn a => exact ⟨fun e he => List.mem_append_right _ (h.tags e he), h.once⟩
  | workers z c => simp only [nstep]; split <;> exact ⟨h.tags, h.once⟩
  | send z m =>
    simp only [nstep]
    split
    · exact ⟨h.tags, h.once⟩
    · exact ⟨h.tags, h.once⟩
    · split <;> exact ⟨h.tags, h.once⟩
  | take y c =>
    simp only [nstep]
    split
    · exact h
    · rename_i i l hl
      split
      · rename_i hc
        by_cases hy : (!x) = y
        · subst hy
          rw [Bool.not_not] at hl
          have hi : i ∈ p.line x c := by rw [hl]; simp
          refine ⟨?_, ?_⟩
          · intro e he
            simp only [put, if_true] at he
            rcases List.mem_append.1 he with he | he
            · exact h.tags e he
            · rw [List.mem_singleton] at he; subst he
              exact List.mem_of_mem_head? (ha.head _ _ hc.1)
          · simp only [put, if_true]
            refine List.pairwise_append.2 ⟨h.once, List.pairwise_singleton _ _, ?_⟩
            intro e he f hf
            rw [List.mem_singleton] at hf; subst hf
            intro hn
            have := given_unique hs (got_given hs he) (line_given hs hi) hn
            subst this
            exact Nat.lt_irrefl _ (got_line hs he hi)
        · refine ⟨?_, ?_⟩ <;> simp only [put, hy, if_false]
          · exact h.tags
          · exact h.once
      · exact h

structure NInv (p : Net M) : Prop where
  acc : AccInv p
  seq : ∀ x, SeqInv p x
  got : ∀ x, GotInv p x

theorem ninv_run (l : List (NAct M)) : NInv (nrun nstart l) := by
  have h0 : NInv (nstart : Net M) := by
    refine ⟨⟨inv_start, ?_, ?_, ?_, ?_⟩, fun x => ⟨?_, ?_, ?_, ?_, ?_⟩, fun x => ⟨?_, ?_⟩⟩ <;> simp [nstart, start]
  have : ∀ (p : Net M), NInv p → NInv (nrun p l) := by
    induction l with
    | nil => exact fun p h => h
    | cons a l ih =>
      intro p h
      exact ih _ ⟨accInv_step h.acc a, fun x => seqInv_step h.acc (h.seq x) a, fun x => gotInv_step h.acc (h.seq x) (h.got x) a⟩
  exact this _ h0

theorem nrun_snoc (p : Net M) (l : List (NAct M)) (a : NAct M) : nrun p (l ++ [a]) = nstep (nrun p l) a := by
  simp [nrun, List.foldl_append]

/-- With `NoneLate`: what has been got came from connections that the sender accepted before the present one. -/
structure OrdInv (p : Net M) (x : Side) : Prop where
  sorted : (p.got (!x)).Pairwise fun e f => e.2.1 < f.2.1
  older : ∀ e ∈ p.got (!x), ∀ c, (p.accs (!x)).head? = some c → e.1 ≠ c → c ∈ p.accs x → Newer (p.accs x) c e.1

theorem ordInv_step {p : Net M} (hp : NInv p) {x : Side} (h : OrdInv p x) (a : NAct M)
    (hf : ∀ a' c, a = .conn a' → accepts p.hs (!x) a' = some c → Fresh p x c) : OrdInv (nstep p a) x := by
  have hs := hp.seq x
  have hg := hp.got x
  cases a with
  | conn a =>
    refine ⟨h.sorted, ?_⟩
    intro e he c hc hne hx
    have hgiv := hs.tags e (got_given hs he)
    simp only [nstep] at he hc hx ⊢
    -- the other node
    have h1 : c ∈ p.accs x → Newer (p.accs x) c e.1 := by
      cases hb : accepts p.hs (!x) a with
      | none => rw [hb] at hc; exact h.older e he c hc hne
      | some d =>
        rw [hb] at hc
        cases hc
        intro hcx
        rcases hf a c rfl hb with hf | hf
        · exact absurd hcx hf
        · cases hl : p.accs x with
          | nil => rw [hl] at hf; cases hf
          | cons b l =>
            rw [hl] at hf hgiv; cases hf
            rcases List.mem_cons.1 hgiv with hh | hh
            · exact absurd hh hne
            · exact .head hh
    cases hb : accepts p.hs x a with
    | none => rw [hb] at hx; exact h1 hx
    | some d =>
      rw [hb] at hx
      simp only [Option.toList, List.singleton_append] at hx ⊢
      rcases List.mem_cons.1 hx with rfl | hx
      · exact .head hgiv
      · exact (h1 hx).cons d
  | workers z c => simp only [nstep]; split <;> exact ⟨h.sorted, h.older⟩
  | send z m =>
    simp only [nstep]
    split
    · exact ⟨h.sorted, h.older⟩
    · exact ⟨h.sorted, h.older⟩
    · split <;> exact ⟨h.sorted, h.older⟩
  | take y c =>
    simp only [nstep]
    split
    · exact h
    · rename_i i l hl
      split
      · rename_i hc
        by_cases hy : (!x) = y
        · subst hy
          rw [Bool.not_not] at hl
          have hi : i ∈ p.line x c := by rw [hl]; simp
          have hhead := hp.acc.head _ _ hc.1
          refine ⟨?_, ?_⟩
          · simp only [put, if_true]
            refine List.pairwise_append.2 ⟨h.sorted, List.pairwise_singleton _ _, ?_⟩
            intro e he f hf'
            rw [List.mem_singleton] at hf'; subst hf'
            show e.2.1 < i.1
            by_cases hec : e.1 = c
            · exact got_line hs (c := c) (j := e.2) (by rw [← hec]; exact he) hi
            · have hgi := line_given hs hi
              have hnew := h.older e he c hhead hec (hs.tags _ hgi)
              have hge := got_given hs he
              have hord := hs.order.and (given_sorted hs)
              rcases Nat.lt_trichotomy e.2.1 i.1 with hlt | heq | hgt
              · exact hlt
              · have := given_unique hs hge hgi heq
                rw [this] at hec; exact absurd rfl hec
              · exfalso
                have key : ∀ (g : List (Nat × Item M)), g.Pairwise (fun e f => (e.1 = f.1 ∨ Newer (p.accs x) f.1 e.1) ∧ e.2.1 < f.2.1) →
                    e ∈ g → (c, i) ∈ g → Newer (p.accs x) e.1 c := by
                  intro g hpw
                  induction hpw with
                  | nil => intro h; cases h
                  | cons h1 _ ih =>
                    intro h2 h3
                    rcases List.mem_cons.1 h2 with h2' | h2' <;> rcases List.mem_cons.1 h3 with h3' | h3'
                    · rw [← h3'] at h2'; rw [h2'] at hec; exact absurd rfl hec
                    · have := (h1 _ h3').2; rw [← h2'] at this; simp only at this; omega
                    · have := (h1 _ h2').1
                      rw [← h3'] at this
                      rcases this with h | h
                      · exact absurd h.symm hec
                      · exact h
                    · exact ih h2' h3'
                exact hnew.asymm (hp.acc.nodup x) (key _ hord hge hgi)
          · intro e he d hd hne hx
            simp only [put, if_true] at he
            rcases List.mem_append.1 he with he | he
            · exact h.older e he d hd hne hx
            · rw [List.mem_singleton] at he; subst he
              rw [hhead] at hd; cases hd
              exact absurd rfl hne
        · refine ⟨?_, ?_⟩ <;> simp only [put, hy, if_false]
          · exact h.sorted
          · exact h.older
      · exact h

theorem ordInv_run (x : Side) (l : List (NAct M)) (hl : NoneLate x l) : OrdInv (nrun nstart l) x := by
  have key : ∀ n, ∀ l' l'' : List (NAct M), l = l' ++ l'' → l'.length = n → OrdInv (nrun nstart l') x := by
    intro n
    induction n with
    | zero =>
      intro l' l'' _ hn
      cases List.length_eq_zero_iff.1 hn
      exact ⟨.nil, by simp [nstart, nrun]⟩
    | succ n ih =>
      intro l' l'' he hn
      obtain ⟨l0, a, rfl⟩ : ∃ l0 a, l' = l0 ++ [a] := by
        rcases List.eq_nil_or_concat l' with rfl | ⟨l0, a, rfl⟩
        · simp at hn
        · exact ⟨l0, a, by simp⟩
      rw [nrun_snoc]
      refine ordInv_step (ninv_run l0) (ih l0 (a :: l'') (by simpa using he) (by simpa using hn)) a ?_
      rintro a' c rfl hc
      exact hl l0 a' l'' c (by simpa using he) hc
  exact key _ l [] (by simp) rfl

/-- A list of numbered things that are in `s` at these numbers, in the order of the numbers, is a part of `s`. -/
theorem sublist_of_sorted {A : Type} (s : List A) (g : List (Nat × A)) (hs : g.Pairwise fun e f => e.1 < f.1) (hr : ∀ e ∈ g, s[e.1]? = some e.2) :
    (g.map (·.2)).Sublist s := by
  have gen : ∀ (s : List A) (k : Nat) (g : List (Nat × A)), g.Pairwise (fun e f => e.1 < f.1) → (∀ e ∈ g, k ≤ e.1 ∧ s[e.1 - k]? = some e.2) →
      (g.map (·.2)).Sublist s := by
    intro s
    induction s with
    | nil =>
      intro k g _ h
      cases g with
      | nil => exact .slnil
      | cons e g => have := (h e (by simp)).2; simp at this
    | cons a s ih =>
      intro k g hp h
      cases g with
      | nil => exact List.nil_sublist _
      | cons e g =>
        cases hp with
        | cons h1 h2 =>
          have he := h e (by simp)
          by_cases hk : e.1 = k
          · rw [hk, Nat.sub_self] at he
            have : e.2 = a := by simpa using he.2.symm
            rw [List.map_cons, this]
            refine .cons_cons a (ih (k + 1) g h2 ?_)
            intro f hf
            have := h1 f hf
            have h3 := (h f (List.mem_cons_of_mem _ hf)).2
            refine ⟨by omega, ?_⟩
            rw [show f.1 - k = (f.1 - (k + 1)) + 1 by omega, List.getElem?_cons_succ] at h3
            exact h3
          · refine .cons a (ih (k + 1) (e :: g) (.cons h1 h2) ?_)
            intro f hf
            have h3 := h f hf
            have h4 : e.1 ≤ f.1 := by
              rcases List.mem_cons.1 hf with rfl | hf
              · exact Nat.le_refl _
              · exact Nat.le_of_lt (h1 f hf)
            refine ⟨by omega, ?_⟩
            have h5 := h3.2
            rw [show f.1 - k = (f.1 - (k + 1)) + 1 by omega, List.getElem?_cons_succ] at h5
            exact h5
  exact gen s 0 g hs (by simpa using hr)

/-! ## C133 -/

/-- **C133**, all schedules: nothing is got that was not sent, and nothing twice. -/
theorem C133_once (l : List (NAct M)) (x : Side) :
    let p := nrun nstart l
    (∀ c n m, (c, n, m) ∈ p.got (!x) → (p.sent x)[n]? = some m) ∧ ((p.got (!x)).map fun e => e.2.1).Nodup := by
  intro p
  have h := ninv_run l
  refine ⟨fun c n m he => (h.seq x).real _ (.inl (got_given (h.seq x) he)), ?_⟩
  rw [List.Nodup, List.pairwise_map]
  exact (h.got x).once

/-- **C133**, all schedules: over each connection, what is got are the first of the messages that were given to it, in the order in which they were sent and without gaps; and
all of them once the other end has taken what there is. -/
theorem C133_connection (l : List (NAct M)) (x : Side) (c : Nat) :
    let p := nrun nstart l
    let over := fun (g : List (Nat × Item M)) => (g.filter fun e => e.1 = c).map fun e => e.2.2
    over (p.got (!x)) ++ (p.line x c).map (·.2) = over (p.given x) ∧ ((p.given x).map fun e => e.2.2).Sublist (p.sent x) := by
  intro p over
  have h := (ninv_run l).seq x
  refine ⟨?_, ?_⟩
  · have := congrArg (List.map fun e : Nat × Item M => e.2.2) (h.split c)
    simpa [over, Function.comp_def] using this
  · have := sublist_of_sorted (p.sent x) ((p.given x).map (·.2)) (List.pairwise_append.1 h.sorted).1 (by
      intro e he
      obtain ⟨f, hf, rfl⟩ := List.mem_map.1 he
      exact h.real f (.inl hf))
    simpa [Function.comp_def] using this

/-- **C133**, what holds: whatever connections come and go, all that is got is got in the order in which it was sent, as long as no node accepts a connection that the
other one has already replaced by another one. -/
theorem C133_in_order_partial (l : List (NAct M)) (x : Side) (hl : NoneLate x l) :
    let p := nrun nstart l
    ((p.got (!x)).map fun e => e.2.2).Sublist (p.sent x) := by
  intro p
  have h := (ninv_run l).seq x
  have ho := ordInv_run x l hl
  have hs := ho.sorted
  have := sublist_of_sorted (p.sent x) ((p.got (!x)).map (·.2)) (by rw [List.pairwise_map]; exact hs) (by
    intro e he
    obtain ⟨f, hf, rfl⟩ := List.mem_map.1 he
    exact h.real f (.inl (got_given h hf)))
  simpa [Function.comp_def] using this

/-! ## Examples -/

/-- `NoneLate`, as a check. -/
def timely (x : Side) : Net M → List (NAct M) → Bool
  | _, [] => true
  | p, .conn a :: l => (match accepts p.hs (!x) a with
      | some c => !(p.accs x).contains c || (p.accs x).head? == some c
      | none => true) && timely x (nstep p (.conn a)) l
  | p, a :: l => timely x (nstep p a) l

theorem noneLate_of_timely {x : Side} {l : List (NAct M)} (h : timely x nstart l = true) : NoneLate x l := by
  intro l1
  unfold Fresh
  suffices ∀ (p : Net M) l, timely x p l = true → ∀ a l2 c, l = l1 ++ .conn a :: l2 → accepts (nrun p l1).hs (!x) a = some c →
      c ∉ (nrun p l1).accs x ∨ ((nrun p l1).accs x).head? = some c from fun a l2 c => this nstart l h a l2 c
  clear h l
  induction l1 with
  | nil =>
    rintro p _ h a l2 c rfl hc
    have hc : accepts p.hs (!x) a = some c := hc
    simp only [List.nil_append, timely, hc, Bool.and_eq_true, Bool.or_eq_true] at h
    rcases h.1 with h | h
    · left; show c ∉ p.accs x; simpa using h
    · right; exact eq_of_beq h
  | cons b l1 ih =>
    rintro p _ h a l2 c rfl hc
    refine ih (nstep p b) (l1 ++ .conn a :: l2) ?_ a l2 c rfl hc
    cases b with
    | conn b => simp only [List.cons_append, timely, Bool.and_eq_true] at h; exact h.2
    | _ => exact h

/-- Node `true` connects, sends, loses the connection, and connects again; each connection is accepted by `false` in time. -/
def twice : List (NAct Nat) :=
  [.conn (.connect true), .send true 1, .conn (.reach 0), .conn (.accept false 0), .conn (.accept true 0), .workers false 0, .workers true 0, .send true 2, .send true 3,
   .take false 0, .take false 0, .conn (.fail true 0), .send true 4, .conn (.notice false 0),
   .conn (.connect true), .send true 5, .conn (.reach 1), .conn (.accept true 1), .workers true 1, .conn (.accept false 1), .workers false 1, .send true 6, .take false 1, .take false 1]

/-- 3 was on its way when the connection was lost, 4 was sent without one. -/
example : ((nrun nstart twice).got false).map (fun e => e.2.2) = [1, 2, 5, 6] ∧ (nrun nstart twice).sent true = [1, 2, 3, 4, 5, 6] := by decide

example := C133_in_order_partial twice true (noneLate_of_timely (by decide))

/-- Node `false` gets round to the first connection only when `true` has given it up, and the second one has been used and lost. -/
def late : List (NAct Nat) :=
  [.conn (.connect true), .send true 1, .conn (.reach 0), .conn (.accept true 0), .workers true 0, .conn (.fail true 0),
   .conn (.connect true), .send true 2, .conn (.reach 1), .conn (.accept true 1), .workers true 1, .conn (.accept false 1), .workers false 1, .take false 1, .conn (.fail false 1),
   .conn (.accept false 0), .workers false 0, .take false 0]

/-- **C133** is violated: a message overtakes one that was sent before it. -/
theorem C133_overtaken_violated : ∃ l : List (NAct Nat), (nrun nstart l).sent true = [1, 2] ∧ ((nrun nstart l).got false).map (fun e => e.2.2) = [2, 1] :=
  ⟨late, by decide, by decide⟩

end Verif.Handshake
