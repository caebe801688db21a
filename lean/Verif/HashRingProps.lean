import Verif.HashRing
/-!
# Properties C12–C17: the hash ring

Specification: a ring is just two finite maps from hash to node, `nodes` and `pins` (overrides), with the obvious map
updates. A key with hash `h` is owned by the stored hash that follows `h` clockwise (`Owner`).
-/
namespace Verif.HashRing
variable {T : Type}

/-- The specification state: what the ring denotes. -/
structure Spec (T : Type) where
  nodes : Nat → Option T
  pins : Nat → Option T

/-- Map with the pairs of `l` inserted left to right (later ones win). -/
def putAll (m : Nat → Option T) (l : List (Nat × T)) : Nat → Option T :=
  l.foldl (fun m x => fun k => if k = x.1 then some x.2 else m k) m

/-- Specification of every operation, with the value it returns. `clear` empties `nodes` only (see C16). -/
def Spec.step (s : Spec T) : Op T → Spec T × Option T
  | .addNode h t => ({ s with nodes := fun k => if k = h then some t else s.nodes k }, s.nodes h)
  | .removeNode h => ({ s with nodes := fun k => if k = h then none else s.nodes k }, s.nodes h)
  | .addNodes l => ({ s with nodes := putAll s.nodes l }, none)
  | .setNodes l => ({ s with nodes := putAll (fun _ => none) l }, none)
  | .addOverride h t => ({ s with pins := fun k => if k = h then some t else s.pins k }, s.pins h)
  | .addOverrides l => ({ s with pins := putAll s.pins l }, none)
  | .setOverrides l => ({ s with pins := putAll (fun _ => none) l }, none)
  | .removeOverride h => ({ s with pins := fun k => if k = h then none else s.pins k }, s.pins h)
  | .clear => ({ s with nodes := fun _ => none }, none)

def Spec.run (s : Spec T) : List (Op T) → Spec T × List (Option T)
  | [] => (s, [])
  | op :: ops => (((s.step op).1.run ops).1, (s.step op).2 :: ((s.step op).1.run ops).2)

def Spec.empty : Spec T := ⟨fun _ => none, fun _ => none⟩

/-- `t` is the node responsible for hash `h`: the stored hash `k` is the least one that is `≥ h`, or, if every stored
hash is `< h`, the least stored hash. -/
def Owner (nodes : Nat → Option T) (h : Nat) (t : T) : Prop :=
  ∃ k, nodes k = some t ∧
    ((h ≤ k ∧ ∀ k', nodes k' ≠ none → h ≤ k' → k ≤ k') ∨
     ((∀ k', nodes k' ≠ none → k' < h) ∧ ∀ k', nodes k' ≠ none → k ≤ k'))

/-- What a ring denotes. -/
def Ring.abs (r : Ring T) : Spec T := ⟨look r.ring, r.overrides⟩

theorem step_refines (r : Ring T) (hs : Sorted r.ring) (op : Op T) :
    Sorted (r.step op).1.ring ∧ (r.step op).1.abs = (r.abs.step op).1 ∧ (r.step op).2 = (r.abs.step op).2 := by
  cases op with
  | addNode h t =>
    have h1 := insertNode_spec r.ring hs h t
    refine ⟨h1.1, ?_, h1.2.1⟩
    simp only [Ring.step, Ring.addNode, Ring.abs, Spec.step, Spec.mk.injEq, and_true]
    funext x; exact h1.2.2 x
  | removeNode h =>
    have h1 := removeNode_spec r hs h
    refine ⟨h1.1, ?_, h1.2.1⟩
    simp only [Ring.step, Ring.abs, Spec.step, h1.2.2.1, Spec.mk.injEq, and_true]
    funext x; exact h1.2.2.2 x
  | addNodes l =>
    have h1 := foldl_insert_spec l r.ring hs
    exact ⟨h1.1, by simp only [Ring.step, Ring.addNodes, Ring.abs, Spec.step, h1.2]; rfl, rfl⟩
  | setNodes l =>
    have h1 := foldl_insert_spec l [] (by simp [Sorted])
    exact ⟨h1.1, by simp only [Ring.step, Ring.setNodes, Ring.abs, Spec.step, h1.2]; rfl, rfl⟩
  | addOverride h t => exact ⟨hs, rfl, rfl⟩
  | addOverrides l => exact ⟨hs, rfl, rfl⟩
  | setOverrides l => exact ⟨hs, rfl, rfl⟩
  | removeOverride h => exact ⟨hs, rfl, rfl⟩
  | clear => exact ⟨by simp [Ring.step, Ring.clear, Sorted], rfl, rfl⟩

theorem run_refines (r : Ring T) (hs : Sorted r.ring) (ops : List (Op T)) :
    Sorted (r.run ops).1.ring ∧ (r.run ops).1.abs = (r.abs.run ops).1 ∧ (r.run ops).2 = (r.abs.run ops).2 := by
  induction ops generalizing r with
  | nil => exact ⟨hs, rfl, rfl⟩
  | cons op ops ih =>
    have h1 := step_refines r hs op
    have h2 := ih _ h1.1
    simp only [Ring.run, Spec.run]
    rw [← h1.2.1, ← h1.2.2]
    exact ⟨h2.1, h2.2.1, by rw [h2.2.2]⟩

/-- Uniqueness of the representation: sorted vectors with the same contents are equal. -/
theorem sorted_ext {l l' : List (Nat × T)} (hs : Sorted l) (hs' : Sorted l') (h : look l = look l') : l = l' := by
  induction l generalizing l' with
  | nil =>
    cases l' with
    | nil => rfl
    | cons x l' =>
      have := congrFun h x.1
      rw [look_nil, look_cons, if_pos rfl] at this
      cases this
  | cons x l ih =>
    cases l' with
    | nil =>
      have := congrFun h x.1
      rw [look_nil, look_cons, if_pos rfl] at this
      cases this
    | cons y l' =>
      unfold Sorted at hs hs'
      rw [List.pairwise_cons] at hs hs'
      have hx := congrFun h x.1
      have hy := congrFun h y.1
      rw [look_cons, look_cons, if_pos rfl] at hx
      rw [look_cons, look_cons, if_pos rfl] at hy
      have hxy : x.1 = y.1 := by
        by_cases he : y.1 = x.1
        · exact he.symm
        · rw [if_neg he] at hx
          rw [if_neg (Ne.symm he)] at hy
          have h1 := hs'.1 _ (look_some_mem hx.symm)
          have h2 := hs.1 _ (look_some_mem hy)
          simp only at h1 h2
          omega
      rw [if_pos hxy.symm] at hx
      have hxy' : x = y := Prod.ext hxy (Option.some.inj hx)
      subst hxy'
      congr 1
      apply ih hs.2 hs'.2
      funext k
      have hk := congrFun h k
      rw [look_cons, look_cons] at hk
      by_cases hxk : x.1 = k
      · subst hxk
        have a : look l x.1 = none := by
          rw [look_none_iff]; intro z hz; have := hs.1 z hz; omega
        have b : look l' x.1 = none := by
          rw [look_none_iff]; intro z hz; have := hs'.1 z hz; omega
        rw [a, b]
      · simpa [hxk] using hk

theorem findNode_owner (r : Ring T) (hs : Sorted r.ring) (h : Nat) (hp : r.overrides h = none) :
    (∀ t, r.findNode h = some t ↔ Owner (look r.ring) h t) ∧ (r.findNode h = none ↔ ∀ k, look r.ring k = none) := by
  have hex : (∃ t, r.findNode h = some t ∧ Owner (look r.ring) h t) ∨
      (r.findNode h = none ∧ ∀ k, look r.ring k = none) := by
    unfold Ring.findNode
    rw [hp]
    by_cases h0 : r.ring.length = 0
    · right
      have : r.ring = [] := List.length_eq_zero_iff.mp h0
      simp [this, look_nil]
    · left
      dsimp only
      rw [if_neg h0]
      have hb := bsearch_spec r.ring hs h
      have present : ∀ k', look r.ring k' ≠ none → ∃ j, j < r.ring.length ∧ keyAt r.ring j = k' := by
        intro k' hk'
        cases hl : look r.ring k' with
        | none => exact absurd hl hk'
        | some t' =>
          obtain ⟨j, hj, hjk⟩ := mem_keyAt (look_some_mem hl)
          exact ⟨j, hj, hjk⟩
      have mono : ∀ i j, i ≤ j → j < r.ring.length → keyAt r.ring i ≤ keyAt r.ring j := by
        intro i j hij hj
        by_cases he : i = j
        · subst he; omega
        · have := sorted_lt hs (i := i) (j := j) (by omega) hj; omega
      cases hcase : bsearch r.ring h with
      | found i =>
        rw [hcase] at hb
        obtain ⟨hi, hk⟩ := hb
        dsimp only
        rw [if_neg (by omega)]
        have hlk := look_getElem hs hi
        refine ⟨(r.ring[i]).2, by simp [hi], keyAt r.ring i, hlk, Or.inl ⟨by omega, ?_⟩⟩
        intro k' _ hk'
        omega
      | insert i =>
        rw [hcase] at hb
        obtain ⟨hi, hlo, hhi⟩ := hb
        dsimp only
        by_cases hlen : i = r.ring.length
        · rw [if_pos hlen]
          have h0' : 0 < r.ring.length := by omega
          have hlk := look_getElem hs h0'
          refine ⟨(r.ring[0]).2, by simp [h0'], keyAt r.ring 0, hlk, Or.inr ⟨?_, ?_⟩⟩
          · intro k' hk'
            obtain ⟨j, hj, rfl⟩ := present k' hk'
            exact hlo j (by omega)
          · intro k' hk'
            obtain ⟨j, hj, rfl⟩ := present k' hk'
            exact mono 0 j (by omega) hj
        · rw [if_neg hlen]
          have hi' : i < r.ring.length := by omega
          have hlk := look_getElem hs hi'
          refine ⟨(r.ring[i]).2, by simp [hi'], keyAt r.ring i, hlk, Or.inl ⟨?_, ?_⟩⟩
          · have := hhi i (Nat.le_refl _) hi'; omega
          · intro k' hk' hle
            obtain ⟨j, hj, rfl⟩ := present k' hk'
            by_cases hji : j < i
            · have := hlo j hji; omega
            · exact mono i j (by omega) hj
  have huniq : ∀ t t', Owner (look r.ring) h t → Owner (look r.ring) h t' → t = t' := by
    intro t t' ⟨k, hk, hc⟩ ⟨k', hk', hc'⟩
    have hn : look r.ring k ≠ none := by rw [hk]; simp
    have hn' : look r.ring k' ≠ none := by rw [hk']; simp
    have hkk : k = k' := by
      rcases hc with ⟨a, b⟩ | ⟨a, b⟩ <;> rcases hc' with ⟨a', b'⟩ | ⟨a', b'⟩
      · have := b k' hn' a'; have := b' k hn a; omega
      · have := a' k hn; omega
      · have := a k' hn'; omega
      · have := b k' hn'; have := b' k hn; omega
    subst hkk
    rw [hk] at hk'
    exact Option.some.inj hk'
  rcases hex with ⟨t, ht, ho⟩ | ⟨hn, ha⟩
  · refine ⟨?_, ?_⟩
    · intro t'
      rw [ht]
      constructor
      · intro he; rw [← Option.some.inj he]; exact ho
      · intro ho'; rw [huniq t t' ho ho']
    · rw [ht]
      constructor
      · intro he; cases he
      · intro ha; obtain ⟨k, hk, _⟩ := ho; rw [ha k] at hk; cases hk
  · refine ⟨?_, ?_⟩
    · intro t'
      rw [hn]
      constructor
      · intro he; cases he
      · intro ⟨k, hk, _⟩; rw [ha k] at hk; cases hk
    · exact ⟨fun _ => ha, fun _ => hn⟩

/-- C12. After any history, an unpinned key is served by its clockwise successor among the nodes the history left in
the ring, and by nobody exactly when the ring is empty. -/
theorem C12_find_successor (ops : List (Op T)) (h : Nat)
    (hp : ((Spec.empty.run ops).1 : Spec T).pins h = none) :
    (∀ t, ((Ring.new.run ops).1 : Ring T).findNode h = some t ↔ Owner (Spec.empty.run ops).1.nodes h t) ∧
    (((Ring.new.run ops).1 : Ring T).findNode h = none ↔ ∀ k, (Spec.empty.run ops).1.nodes k = none) := by
  have hr := run_refines (Ring.new : Ring T) (by simp [Ring.new, Sorted]) ops
  have hnew : (Ring.new : Ring T).abs = Spec.empty := rfl
  rw [hnew] at hr
  rw [← hr.2.1] at hp ⊢
  exact findNode_owner _ hr.1 h hp

/-- Example history used for non-vacuity: three nodes, one removed. -/
def sampleOps : List (Op String) :=
  [.addNode 30 "c", .addNode 10 "a", .addNode 20 "b", .addNode 10 "a2", .removeNode 30, .addOverride 15 "pin"]

example : ((Spec.empty.run sampleOps).1 : Spec String).pins 12 = none ∧
    ((Ring.new.run sampleOps).1 : Ring String).findNode 12 = some "b" ∧
    ((Ring.new.run sampleOps).1 : Ring String).findNode 25 = some "a2" := by
  refine ⟨by decide, ?_, ?_⟩ <;>
    simp [sampleOps, Ring.run, Ring.new, Ring.step, Ring.addNode, Ring.removeNode, Ring.addOverride, insertNode,
      insertAt, bsearch, bsLoop, keyAt, Ring.findNode, upd]

/-- C13. Adding a node under a fresh or existing hash moves a key only to the added node. -/
theorem C13_add_minimal_disruption (ops : List (Op T)) (h : Nat) (t : T) (key : Nat) :
    let r := ((Ring.new.run ops).1 : Ring T)
    (r.addNode h t).1.findNode key = r.findNode key ∨ (r.addNode h t).1.findNode key = some t := by
  intro r
  have hr := run_refines (Ring.new : Ring T) (by simp [Ring.new, Sorted]) ops
  have hs : Sorted r.ring := hr.1
  have h1 := insertNode_spec r.ring hs h t
  cases hp : r.overrides key with
  | some p =>
    left
    simp [Ring.findNode, Ring.addNode, hp]
  | none =>
    have f1 := findNode_owner r hs key hp
    have f2 := findNode_owner (r.addNode h t).1 h1.1 key hp
    have hlook : ∀ x, look (r.addNode h t).1.ring x = if x = h then some t else look r.ring x := h1.2.2
    cases hn : (r.addNode h t).1.findNode key with
    | none =>
      have := (f2.2.mp hn) h
      rw [hlook, if_pos rfl] at this
      cases this
    | some t' =>
      obtain ⟨k, hk, hc⟩ := (f2.1 t').mp hn
      by_cases hkh : k = h
      · right
        subst hkh
        rw [hlook, if_pos rfl] at hk
        exact hk.symm
      · left
        symm
        rw [f1.1 t']
        rw [hlook, if_neg hkh] at hk
        have mon : ∀ k', look r.ring k' ≠ none → look (r.addNode h t).1.ring k' ≠ none := by
          intro k' hk'
          rw [hlook]
          split
          · simp
          · exact hk'
        refine ⟨k, hk, ?_⟩
        rcases hc with ⟨a, b⟩ | ⟨a, b⟩
        · exact Or.inl ⟨a, fun k' hk' => b k' (mon k' hk')⟩
        · exact Or.inr ⟨fun k' hk' => a k' (mon k' hk'), fun k' hk' => b k' (mon k' hk')⟩

example : (((Ring.new.run sampleOps).1 : Ring String).addNode 12 "n").1.findNode 11 = some "n" := by
  simp [sampleOps, Ring.run, Ring.new, Ring.step, Ring.addNode, Ring.removeNode, Ring.addOverride, insertNode,
      insertAt, bsearch, bsLoop, keyAt, Ring.findNode, upd]

/-- C13. Removing a node changes the owner only of keys which that very node owned: a key whose successor hash is not
the removed one keeps its node. -/
theorem C13_remove_minimal_disruption (ops : List (Op T)) (h : Nat) (key : Nat) (t : T) :
    let r := ((Ring.new.run ops).1 : Ring T)
    r.findNode key = some t → r.overrides key = none →
    (∃ k, k ≠ h ∧ look r.ring k = some t ∧
      ((key ≤ k ∧ ∀ k', look r.ring k' ≠ none → key ≤ k' → k ≤ k') ∨
       ((∀ k', look r.ring k' ≠ none → k' < key) ∧ ∀ k', look r.ring k' ≠ none → k ≤ k'))) →
    (r.removeNode h).1.findNode key = some t := by
  intro r _ hp ⟨k, hkh, hk, hc⟩
  have hr := run_refines (Ring.new : Ring T) (by simp [Ring.new, Sorted]) ops
  have hs : Sorted r.ring := hr.1
  have h1 := removeNode_spec r hs h
  have f2 := findNode_owner (r.removeNode h).1 h1.1 key (by rw [h1.2.2.1]; exact hp)
  rw [f2.1 t]
  have hlook := h1.2.2.2
  have mon : ∀ k', look (r.removeNode h).1.ring k' ≠ none → look r.ring k' ≠ none := by
    intro k' hk'
    rw [hlook] at hk'
    split at hk'
    · exact absurd rfl hk'
    · exact hk'
  refine ⟨k, by rw [hlook, if_neg hkh]; exact hk, ?_⟩
  rcases hc with ⟨a, b⟩ | ⟨a, b⟩
  · exact Or.inl ⟨a, fun k' hk' => b k' (mon k' hk')⟩
  · exact Or.inr ⟨fun k' hk' => a k' (mon k' hk'), fun k' hk' => b k' (mon k' hk')⟩

/-- C13. If the owner changes when `h` is removed, the old owner was the node stored under `h`. -/
theorem C13_remove_only_own_keys (ops : List (Op T)) (h : Nat) (key : Nat) :
    let r := ((Ring.new.run ops).1 : Ring T)
    (r.removeNode h).1.findNode key ≠ r.findNode key → r.findNode key = look r.ring h ∧ look r.ring h ≠ none := by
  intro r hne
  have hr := run_refines (Ring.new : Ring T) (by simp [Ring.new, Sorted]) ops
  have hs : Sorted r.ring := hr.1
  have h1 := removeNode_spec r hs h
  cases hp : r.overrides key with
  | some p =>
    exfalso; apply hne
    simp [Ring.findNode, h1.2.2.1, hp]
  | none =>
    have f1 := findNode_owner r hs key hp
    cases hf : r.findNode key with
    | none =>
      exfalso; apply hne
      have f2 := findNode_owner (r.removeNode h).1 h1.1 key (by rw [h1.2.2.1]; exact hp)
      rw [hf, f2.2]
      intro k
      rw [h1.2.2.2]
      split
      · rfl
      · exact f1.2.mp hf k
    | some t =>
      obtain ⟨k, hk, hc⟩ := (f1.1 t).mp hf
      by_cases hkh : k = h
      · subst hkh
        exact ⟨hk.symm, by rw [hk]; simp⟩
      · exfalso; apply hne
        rw [hf]
        exact C13_remove_minimal_disruption ops h key t hf hp ⟨k, hkh, hk, hc⟩

example : (((Ring.new.run sampleOps).1 : Ring String).removeNode 20).1.findNode 12 = some "a2" := by
  simp [sampleOps, Ring.run, Ring.new, Ring.step, Ring.addNode, Ring.removeNode, Ring.addOverride, insertNode,
      insertAt, bsearch, bsLoop, keyAt, Ring.findNode, upd]

/-- C14. A pinned key is served by its pin, whatever nodes the ring holds; a key without a pin does not depend on the
pins at all. -/
theorem C14_override_precedence (ops : List (Op T)) (h : Nat) :
    (∀ t, ((Spec.empty.run ops).1 : Spec T).pins h = some t → ((Ring.new.run ops).1 : Ring T).findNode h = some t) ∧
    (((Spec.empty.run ops).1 : Spec T).pins h = none → ∀ pins', pins' h = none →
      ({ ((Ring.new.run ops).1 : Ring T) with overrides := pins' }).findNode h
        = ((Ring.new.run ops).1 : Ring T).findNode h) := by
  have hr := run_refines (Ring.new : Ring T) (by simp [Ring.new, Sorted]) ops
  have hnew : (Ring.new : Ring T).abs = Spec.empty := rfl
  rw [hnew] at hr
  rw [← hr.2.1]
  constructor
  · intro t ht
    have : (Ring.new.run ops).1.overrides h = some t := ht
    simp [Ring.findNode, this]
  · intro ht pins' hp'
    have : (Ring.new.run ops).1.overrides h = none := ht
    simp [Ring.findNode, this, hp']

example : ((Spec.empty.run sampleOps).1 : Spec String).pins 15 = some "pin" := by decide

/-- C15. Every history of ring operations behaves exactly like the two maps: same returned values, same contents, and
the vector stays strictly ascending (each hash stored once). -/
theorem C15_behaves_like_map (ops : List (Op T)) :
    ((Ring.new.run ops).1 : Ring T).ring.Pairwise (fun a b => a.1 < b.1) ∧
    (∀ k t, (k, t) ∈ ((Ring.new.run ops).1 : Ring T).ring ↔ (Spec.empty.run ops).1.nodes k = some t) ∧
    ((Ring.new.run ops).1 : Ring T).overrides = (Spec.empty.run ops).1.pins ∧
    ((Ring.new.run ops).2 : List (Option T)) = (Spec.empty.run ops).2 := by
  have hr := run_refines (Ring.new : Ring T) (by simp [Ring.new, Sorted]) ops
  have hnew : (Ring.new : Ring T).abs = Spec.empty := rfl
  rw [hnew] at hr
  refine ⟨hr.1, ?_, by rw [← hr.2.1]; rfl, hr.2.2⟩
  intro k t
  rw [← hr.2.1]
  exact ⟨fun hm => look_mem hr.1 (k, t) hm, fun hl => look_some_mem hl⟩

example : ((Ring.new.run sampleOps).2 : List (Option String)) = [none, none, none, some "a", some "c", none] := by
  simp [sampleOps, Ring.run, Ring.new, Ring.step, Ring.addNode, Ring.removeNode, Ring.addOverride, insertNode,
      insertAt, bsearch, bsLoop, keyAt, upd]

/-- C16 (violated). The documented effect of `clear` ("clears all of the nodes and overrides") fails: an override
survives and is still returned. -/
theorem C16_clear_violated :
    ¬ ∀ (ops : List (Op String)) (h : Nat), ((Ring.new.run ops).1 : Ring String).clear.findNode h = none := by
  intro hc
  have := hc [.addOverride 1 "x"] 1
  simp [Ring.run, Ring.step, Ring.addOverride, Ring.new, Ring.clear, Ring.findNode, upd] at this

/-- C16 (what holds). After `clear` no node is left, so every key without an override is served by nobody. Missing:
overrides are not cleared. -/
theorem C16_clear_partial (ops : List (Op T)) (h : Nat)
    (hp : ((Ring.new.run ops).1 : Ring T).overrides h = none) :
    ((Ring.new.run ops).1 : Ring T).clear.ring = [] ∧ ((Ring.new.run ops).1 : Ring T).clear.findNode h = none := by
  simp [Ring.clear, Ring.findNode, hp]

example : ((Ring.new.run sampleOps).1 : Ring String).overrides 12 = none := by
  simp [sampleOps, Ring.run, Ring.new, Ring.step, Ring.addNode, Ring.removeNode, Ring.addOverride, upd]
  split <;> simp

theorem putAll_perm {l l' : List (Nat × T)} (hp : l.Perm l') (m : Nat → Option T)
    (hd : l.Pairwise fun a b => a.1 ≠ b.1) : putAll m l = putAll m l' := by
  induction hp generalizing m with
  | nil => rfl
  | cons x _ ih =>
    rw [List.pairwise_cons] at hd
    exact ih _ hd.2
  | swap x y l =>
    simp only [putAll, List.foldl_cons]
    congr 1
    funext k
    rw [List.pairwise_cons] at hd
    have := hd.1 x (by simp)
    by_cases h1 : k = x.1
    · rw [if_pos h1, if_neg (by omega), if_pos h1]
    · rw [if_neg h1, if_neg h1]
  | trans p1 _ ih1 ih2 =>
    rw [ih1 m hd]
    exact ih2 m (p1.pairwise hd (fun h => Ne.symm h))

/-- C17. Bulk insertion of nodes with pairwise different hashes gives the same ring in whatever order they are listed,
hence identical answers for every key. -/
theorem C17_order_independent (ops : List (Op T)) (l l' : List (Nat × T)) (hp : l.Perm l')
    (hd : l.Pairwise fun a b => a.1 ≠ b.1) :
    ((Ring.new.run ops).1 : Ring T).addNodes l = ((Ring.new.run ops).1 : Ring T).addNodes l' ∧
    ((Ring.new.run ops).1 : Ring T).setNodes l = ((Ring.new.run ops).1 : Ring T).setNodes l' := by
  have hr := run_refines (Ring.new : Ring T) (by simp [Ring.new, Sorted]) ops
  have key : ∀ m : List (Nat × T), Sorted m →
      l.foldl (fun l x => (insertNode l x.1 x.2).1) m = l'.foldl (fun l x => (insertNode l x.1 x.2).1) m := by
    intro m hm
    have h1 := foldl_insert_spec l m hm
    have h2 := foldl_insert_spec l' m hm
    apply sorted_ext h1.1 h2.1
    rw [h1.2, h2.2]
    exact putAll_perm hp (look m) hd
  constructor
  · simp only [Ring.addNodes]; rw [key _ hr.1]
  · simp only [Ring.setNodes]; rw [key [] (by simp [Sorted])]

/-- C17. Adding nodes in bulk equals adding them one at a time. -/
theorem C17_bulk_eq_single (r : Ring T) (l : List (Nat × T)) :
    r.addNodes l = (r.run (l.map fun x => .addNode x.1 x.2)).1 := by
  induction l generalizing r with
  | nil => rfl
  | cons x l ih =>
    rw [List.map_cons, Ring.run]
    dsimp only
    rw [← ih]
    rfl

/-- C17. Two histories that end with the same contents answer every key identically. -/
theorem C17_history_independent (ops ops' : List (Op T))
    (h : (Spec.empty.run ops).1 = ((Spec.empty.run ops').1 : Spec T)) :
    (Ring.new.run ops).1 = ((Ring.new.run ops').1 : Ring T) := by
  have hr := run_refines (Ring.new : Ring T) (by simp [Ring.new, Sorted]) ops
  have hr' := run_refines (Ring.new : Ring T) (by simp [Ring.new, Sorted]) ops'
  have hnew : (Ring.new : Ring T).abs = Spec.empty := rfl
  rw [hnew] at hr hr'
  rw [← hr.2.1, ← hr'.2.1] at h
  simp only [Ring.abs, Spec.mk.injEq] at h
  have h1 := sorted_ext hr.1 hr'.1 h.1
  cases h2 : (Ring.new.run ops).1
  cases h3 : (Ring.new.run ops').1
  rw [h2, h3] at h h1
  simp only at h h1
  rw [h1, h.2]

example : ([(3, "c"), (1, "a")] : List (Nat × String)).Perm [(1, "a"), (3, "c")] ∧
    ([(3, "c"), (1, "a")] : List (Nat × String)).Pairwise (fun a b => a.1 ≠ b.1) := by
  refine ⟨List.Perm.swap .., by decide⟩

end Verif.HashRing
