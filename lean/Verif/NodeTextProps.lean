import Verif.NodeText
/-!
# Nodes as text (C105), builders of child specifications (C107)
-/
namespace Verif.NodeText

/-! ## C105 -/

/-- What a string stands for: `local`, or `name@address`, where the name has no `@`. -/
inductive Denotes {A : Type} (parse : List Char → Option A) : List Char → Node A → Prop
  | loc : Denotes parse ['l', 'o', 'c', 'a', 'l'] .loc
  | remote {name text : List Char} {a : A} : '@' ∉ name → parse text = some a → Denotes parse (name ++ '@' :: text) (.remote name a)

theorem splitAt_eq (s n t : List Char) : splitAt s = some (n, t) ↔ '@' ∉ n ∧ s = n ++ '@' :: t := by
  induction s generalizing n with
  | nil => simp [splitAt]
  | cons c s ih =>
    unfold splitAt
    by_cases hc : c = '@'
    · subst hc
      rw [if_pos rfl]
      constructor
      · intro h; cases h; simp
      · rintro ⟨h1, h2⟩
        cases n with
        | nil => simp at h2; subst h2; rfl
        | cons d n => simp at h1 h2; exact absurd h2.1 h1.1
    · rw [if_neg hc]
      constructor
      · intro h
        obtain ⟨⟨x, y⟩, hx, he⟩ := Option.map_eq_some_iff.1 h
        cases he
        obtain ⟨h1, h2⟩ := (ih x).1 hx
        exact ⟨by simp [h1]; exact fun h => hc h.symm, by rw [h2]; rfl⟩
      · rintro ⟨h1, h2⟩
        cases n with
        | nil => simp at h2; exact absurd h2.1 hc
        | cons d n =>
          simp at h2
          obtain ⟨rfl, h2⟩ := h2
          rw [(ih n).2 ⟨by simp at h1; exact h1.2, h2⟩]; rfl

theorem splitAt_none (s : List Char) : splitAt s = none ↔ '@' ∉ s := by
  induction s with
  | nil => simp [splitAt]
  | cons c s ih =>
    unfold splitAt
    by_cases hc : c = '@'
    · simp [hc]
    · simp [hc, ih, Ne.symm hc]

/-- **C105**: a string is converted to the node that it denotes; if it denotes none, the conversion panics, with the message for what is wrong. -/
theorem C105_conversion {A : Type} (parse : List Char → Option A) (s : List Char) :
    (∀ n, Node.ofStr parse s = .node n ↔ Denotes parse s n) ∧
    (Node.ofStr parse s = .missingAt ↔ s ≠ "local".toList ∧ '@' ∉ s) ∧
    (Node.ofStr parse s = .malformedAddress ↔ ∃ name text, '@' ∉ name ∧ s = name ++ '@' :: text ∧ parse text = none) := by
  have hl : "local".toList = ['l', 'o', 'c', 'a', 'l'] := rfl
  unfold Node.ofStr
  by_cases h : s = "local".toList
  · rw [if_pos h]
    subst h
    refine ⟨?_, by simp, ?_⟩
    · intro n
      constructor
      · intro h; cases h; exact .loc
      · intro h
        generalize hs : "local".toList = s at h
        cases h with
        | loc => rfl
        | remote hn hp =>
          have : '@' ∈ "local".toList := by rw [hs]; simp
          exact absurd this (by decide)
    · constructor
      · intro h; cases h
      · rintro ⟨n, t, -, h2, -⟩
        have : '@' ∈ "local".toList := by rw [h2]; simp
        exact absurd this (by decide)
  · rw [if_neg h]
    cases hs : splitAt s with
    | none =>
      have hn := (splitAt_none s).1 hs
      refine ⟨?_, by simp only [true_iff]; exact ⟨h, hn⟩, ?_⟩
      · intro n
        constructor
        · intro h; cases h
        · intro hd
          cases hd with
          | loc => exact absurd hl h
          | remote => simp at hn
      · constructor
        · intro h; cases h
        · rintro ⟨n, t, -, rfl, -⟩; simp at hn
    | some x =>
      obtain ⟨n, t⟩ := x
      obtain ⟨h1, h2⟩ := (splitAt_eq s n t).1 hs
      have hat : '@' ∈ s := by rw [h2]; simp
      have uniq : ∀ n' t', '@' ∉ n' → s = n' ++ '@' :: t' → n' = n ∧ t' = t := by
        intro n' t' a b
        have := (splitAt_eq s n' t').2 ⟨a, b⟩
        rw [hs] at this; simp at this; exact ⟨this.1.symm, this.2.symm⟩
      have key : ∀ m, Denotes parse s m ↔ ∃ a, parse t = some a ∧ m = .remote n a := by
        intro m
        constructor
        · intro hd
          generalize hs' : s = s' at hd
          cases hd with
          | loc => exact absurd (hs'.trans hl.symm) h
          | remote hn hp => obtain ⟨rfl, rfl⟩ := uniq _ _ hn hs'; exact ⟨_, hp, rfl⟩
        · rintro ⟨a, ha, rfl⟩
          rw [h2]; exact .remote h1 ha
      cases hp : parse t with
      | none =>
        refine ⟨?_, by simp [hat, hp], ?_⟩
        · intro m; rw [key]; simp [hp]
        · simp only [hp, true_iff]; exact ⟨n, t, h1, h2, hp⟩
      | some a =>
        refine ⟨?_, by simp [hat, hp], ?_⟩
        · intro m; rw [key]; simp [hp]; exact eq_comm
        · constructor
          · intro h; simp [hp] at h
          · rintro ⟨n', t', a1, a2, a3⟩
            obtain ⟨rfl, rfl⟩ := uniq _ _ a1 a2
            rw [hp] at a3; cases a3

/-- **C105**: a string denotes at most one node. -/
theorem C105_one_node {A : Type} (parse : List Char → Option A) (s : List Char) (n m : Node A) (hn : Denotes parse s n) (hm : Denotes parse s m) :
    n = m := by
  have h1 := ((C105_conversion parse s).1 n).2 hn
  have h2 := ((C105_conversion parse s).1 m).2 hm
  rw [h1] at h2; cases h2; rfl

/-- **C105**: comparing a node with a string always answers (also for strings whose conversion would panic), and it says yes exactly if the string denotes
the node: the comparison agrees with the conversion. -/
theorem C105_comparison {A : Type} [DecidableEq A] (parse : List Char → Option A) (s : List Char) (n : Node A) :
    n.eqStr parse s = true ↔ Denotes parse s n := by
  have hl : "local".toList = ['l', 'o', 'c', 'a', 'l'] := rfl
  cases n with
  | loc =>
    simp only [Node.eqStr, decide_eq_true_eq]
    constructor
    · rintro rfl; exact .loc
    · intro h; cases h; rfl
  | remote name a =>
    simp only [Node.eqStr]
    constructor
    · intro h
      split at h
      · cases h
      · rename_i n t hs
        obtain ⟨h1, h2⟩ := (splitAt_eq s n t).1 hs
        split at h
        · cases h
        · rename_i hn
          split at h
          · cases h
          · rename_i b hp
            simp at h hn
            subst h hn h2
            exact .remote h1 hp
    · intro h
      cases h with
      | remote h1 h2 =>
        rw [(splitAt_eq _ _ _).2 ⟨h1, rfl⟩]
        simp [h2]

/-- **C105**: comparing a node with a name and an address. -/
theorem C105_pair {A : Type} [DecidableEq A] (n : Node A) (name : List Char) (a : A) : n.eqPair name a = true ↔ n = .remote name a := by
  cases n <;> simp [Node.eqPair]

/-- **C105**, every node has a name: a node whose name has no `@` is denoted by `name@address` (for any text of the address that the standard library
parses to it). Missing: names with `@`, see `C105_name_with_at_violated`. -/
theorem C105_every_node_partial {A : Type} (parse : List Char → Option A) (name text : List Char) (a : A) (hn : '@' ∉ name) (ha : parse text = some a) :
    Denotes parse (name ++ '@' :: text) (.remote name a) := .remote hn ha

/-- **C105** is violated by names with an `@` (`Node::start` accepts them): no string denotes such a node. -/
theorem C105_name_with_at_violated {A : Type} (parse : List Char → Option A) (name : List Char) (a : A) (h : '@' ∈ name) :
    ∀ s, ¬ Denotes parse s (.remote name a) := by
  intro s hd
  cases hd with
  | remote hn _ => exact hn h

/-- A stand-in for the parser of addresses. -/
def samplePort (s : List Char) : Option Nat := if s = "80".toList then some 80 else none

example : Node.ofStr samplePort "b@80".toList = .node (.remote ['b'] 80) ∧ (Node.remote ['b'] 80).eqStr samplePort "b@80".toList = true ∧
    Node.ofStr samplePort "b@x".toList = .malformedAddress ∧ Node.ofStr samplePort "b".toList = .missingAt ∧
    Node.ofStr samplePort "a@b@80".toList = .malformedAddress := ⟨rfl, rfl, rfl, rfl, rfl⟩

/-! ## C107 -/

/-- The builder calls that set the same field as `x`. -/
def sameField {F S : Type} : Setting F S → Setting F S → Bool
  | .id _, .id _ | .start _, .start _ | .restart _, .restart _ | .shutdown _, .shutdown _ | .childType _, .childType _
  | .significant _, .significant _ => true
  | _, _ => false

/-- The value of the field that `x` sets is the one that `x` gives it. -/
def holds {F S : Type} (c : Spec F S) : Setting F S → Prop
  | .id i => c.id = i
  | .start f => c.start = some f
  | .restart r => c.restart = r
  | .shutdown s => c.shutdown = some s
  | .childType b => c.supervisor = b
  | .significant b => c.significant = b

theorem set_holds {F S : Type} (c d : Spec F S) (x : Setting F S) (h : c.set x = some d) : holds d x := by
  cases x <;> simp only [Spec.set, Option.some.injEq] at h <;> try (subst h; rfl)
  split at h
  · cases h
  · cases h; rfl

theorem set_keeps {F S : Type} (c d : Spec F S) (x y : Setting F S) (h : c.set x = some d) (hxy : sameField x y = false) : holds c y → holds d y := by
  cases x <;> simp only [Spec.set, Option.some.injEq] at h
  case significant b =>
    split at h
    · cases h
    · cases h; cases y <;> simp [sameField, holds] at *
  all_goals (subst h; cases y <;> simp [sameField, holds] at *)

/-- **C107**: every builder call sets its own field, and the last one counts: if `x` was called, and after it no call for the same field, then the
specification has the value of `x`. -/
theorem C107_last_counts {F S : Type} (c d : Spec F S) (l l' : List (Setting F S)) (x : Setting F S) (h : c.sets (l ++ x :: l') = some d)
    (hx : ∀ y ∈ l', sameField y x = false) : holds d x := by
  have keep : ∀ (l' : List (Setting F S)) (c : Spec F S), (∀ y ∈ l', sameField y x = false) → c.sets l' = some d → holds c x → holds d x := by
    intro l'
    induction l' with
    | nil => intro c _ h hc; cases h; exact hc
    | cons y l' ih =>
      intro c hy h hc
      simp only [Spec.sets] at h
      obtain ⟨e, h1, h2⟩ := Option.bind_eq_some_iff.1 h
      exact ih e (fun z hz => hy z (List.mem_cons_of_mem _ hz)) h2 (set_keeps _ _ _ _ h1 (hy y (List.mem_cons_self ..)) hc)
  induction l generalizing c with
  | nil =>
    simp only [List.nil_append, Spec.sets] at h
    obtain ⟨e, h1, h2⟩ := Option.bind_eq_some_iff.1 h
    exact keep l' e hx h2 (set_holds _ _ _ h1)
  | cons y l ih =>
    simp only [List.cons_append, Spec.sets] at h
    obtain ⟨e, -, h2⟩ := Option.bind_eq_some_iff.1 h
    exact ih e h2

/-- **C107**: a field that no builder call sets has its default: permanent, worker, not significant, no start routine, default shutdown. -/
theorem C107_defaults {F S : Type} (id : List Char) (d : Spec F S) (l : List (Setting F S)) (h : (Spec.new id).sets l = some d) :
    ((∀ i, Setting.id i ∉ l) → d.id = id) ∧ ((∀ f, Setting.start f ∉ l) → d.start = none) ∧
    ((∀ r, Setting.restart r ∉ l) → d.restart = .permanent) ∧ ((∀ s, Setting.shutdown s ∉ l) → d.shutdown = none) ∧
    ((∀ b, Setting.childType b ∉ l) → d.supervisor = false) ∧ ((∀ b, Setting.significant b ∉ l) → d.significant = false) := by
  have key : ∀ (l : List (Setting F S)) (c : Spec F S), c.sets l = some d →
      ((∀ i, Setting.id i ∉ l) → d.id = c.id) ∧ ((∀ f, Setting.start f ∉ l) → d.start = c.start) ∧
      ((∀ r, Setting.restart r ∉ l) → d.restart = c.restart) ∧ ((∀ s, Setting.shutdown s ∉ l) → d.shutdown = c.shutdown) ∧
      ((∀ b, Setting.childType b ∉ l) → d.supervisor = c.supervisor) ∧ ((∀ b, Setting.significant b ∉ l) → d.significant = c.significant) := by
    intro l
    induction l with
    | nil => intro c h; cases h; simp
    | cons y l ih =>
      intro c h
      simp only [Spec.sets] at h
      obtain ⟨e, h1, h2⟩ := Option.bind_eq_some_iff.1 h
      obtain ⟨i1, i2, i3, i4, i5, i6⟩ := ih e h2
      cases y <;> simp only [Spec.set, Option.some.injEq] at h1
      case significant b =>
        split at h1
        · cases h1
        · cases h1; simp at *; refine ⟨i1, i2, i3, i4, i5, ?_⟩; grind
      all_goals (subst h1; simp at *; grind)
  exact key l _ h

/-- **C107**, in part: as long as `restart` is not called after `significant`, only temporary and transient children are significant. What is missing:
`C107_significant_violated`. -/
theorem C107_significant_partial {F S : Type} (id : List Char) (d : Spec F S) (l : List (Setting F S)) (h : (Spec.new id).sets l = some d)
    (hl : ∀ l1 l2 r, l = l1 ++ .significant true :: l2 → Setting.restart r ∉ l2) (hs : d.significant = true) : d.restart ≠ .permanent := by
  have key : ∀ (l : List (Setting F S)) (c : Spec F S), c.sets l = some d →
      (∀ l1 l2 r, l = l1 ++ .significant true :: l2 → Setting.restart r ∉ l2) →
      (c.significant = true → (∀ r, Setting.restart r ∉ l) ∧ c.restart ≠ .permanent) → d.significant = true → d.restart ≠ .permanent := by
    intro l
    induction l with
    | nil => intro c h _ hc hd; cases h; exact (hc hd).2
    | cons y l ih =>
      intro c h hl hc
      simp only [Spec.sets] at h
      obtain ⟨e, h1, h2⟩ := Option.bind_eq_some_iff.1 h
      refine ih e h2 (fun l1 l2 r he => hl (y :: l1) l2 r (by rw [he]; rfl)) ?_
      intro he
      cases y <;> simp only [Spec.set, Option.some.injEq] at h1
      case significant b =>
        split at h1
        · cases h1
        · rename_i hb
          cases h1
          simp at he; subst he
          refine ⟨fun r => hl [] l r rfl, ?_⟩
          simp at hb ⊢
          intro hp
          rw [hp] at hb; simp at hb
      case restart r =>
        subst h1
        exact absurd (List.mem_cons_self ..) ((hc he).1 r)
      all_goals (subst h1; have := hc he; refine ⟨fun r => ?_, this.2⟩; have := this.1 r; simp at this; exact this)
  exact key l _ h hl (by simp [Spec.new]) hs

/-- **C107** is violated: "only transient and temporary child processes can be marked as significant", but `restart` does not look at the mark. -/
theorem C107_significant_violated : ∃ d : Spec Unit Unit,
    (Spec.new []).sets [.restart .transient, .significant true, .restart .permanent] = some d ∧ d.significant = true ∧ d.restart = .permanent :=
  ⟨_, rfl, rfl, rfl⟩

example : ∃ d : Spec Unit Unit, (Spec.new "a".toList).sets [.start (), .restart .transient, .significant true, .shutdown ()] = some d ∧
    d.restart = .transient ∧ d.significant = true ∧ d.start = some () := ⟨_, rfl, rfl, rfl, rfl⟩
example : (Spec.new (F := Unit) (S := Unit) []).sets [.significant true] = none := rfl

end Verif.NodeText
