/-!
# Consistent hash ring model (`hydra/src/hash_ring.rs`)

`hash : K → Nat` stands for `BuildHasher::hash_one` (a `u64`; only its order matters). The ring vector is a list of
`(hash, node)` pairs. Writers hold `ring_lock` and publish a whole new vector (`ArcSwap::store`), so every operation
is modelled as one atomic step.
-/
namespace Verif.HashRing

variable {T : Type}

/-- Result of `slice::binary_search_by`. -/
inductive Search
  | found (i : Nat)
  | insert (i : Nat)
  deriving DecidableEq, Repr

/-- Hash of the entry at index `i` (`get_unchecked`; all indices used below are in range, `bsLoop_lt`). -/
def keyAt (l : List (Nat × T)) (i : Nat) : Nat := ((l[i]?).map Prod.fst).getD 0

/-- The loop of Rust's `binary_search_by` (core::slice): halve `size`, move `base` unless the middle is greater. -/
def bsLoop (l : List (Nat × T)) (key base size : Nat) : Nat :=
  if size ≤ 1 then base
  else
    let half := size / 2
    let mid := base + half
    let base' := if keyAt l mid > key then base else mid
    bsLoop l key base' (size - half)
termination_by size
decreasing_by omega

/-- `new_ring.binary_search_by(|node| node.key.cmp(&key))`. -/
def bsearch (l : List (Nat × T)) (key : Nat) : Search :=
  if l.length = 0 then .insert 0
  else
    let base := bsLoop l key 0 l.length
    if keyAt l base = key then .found base
    else .insert (base + if keyAt l base < key then 1 else 0)

/-- `HashRing`, hash_ring.rs:33-38 (without the lock and the hasher). -/
structure Ring (T : Type) where
  ring : List (Nat × T)
  overrides : Nat → Option T

/-- `HashRing::new`, hash_ring.rs:45-52. -/
def Ring.new : Ring T := { ring := [], overrides := fun _ => none }

/-- `Vec::insert`. -/
def insertAt (l : List (Nat × T)) (i : Nat) (x : Nat × T) : List (Nat × T) := l.take i ++ x :: l.drop i

/-- One insertion into the vector as done by add_node (hash_ring.rs:60-76), add_nodes (103-110) and set_nodes
(126-133): new vector and the replaced node. -/
def insertNode (l : List (Nat × T)) (h : Nat) (node : T) : List (Nat × T) × Option T :=
  match bsearch l h with
  | .found i => (l.set i (h, node), (l[i]?).map Prod.snd)
  | .insert i => (insertAt l i (h, node), none)

/-- `HashRing::add_node`, hash_ring.rs:55-77; `h` is the hash of the key. -/
def Ring.addNode (r : Ring T) (h : Nat) (node : T) : Ring T × Option T :=
  let p := insertNode r.ring h node
  ({ r with ring := p.1 }, p.2)

/-- `HashRing::remove_node`, hash_ring.rs:80-96. -/
def Ring.removeNode (r : Ring T) (h : Nat) : Ring T × Option T :=
  match bsearch r.ring h with
  | .found i => ({ r with ring := r.ring.eraseIdx i }, (r.ring[i]?).map Prod.snd)
  | .insert _ => (r, none)

/-- `HashRing::add_nodes`, hash_ring.rs:99-114. -/
def Ring.addNodes (r : Ring T) (nodes : List (Nat × T)) : Ring T :=
  { r with ring := nodes.foldl (fun l x => (insertNode l x.1 x.2).1) r.ring }

/-- `HashRing::set_nodes`, hash_ring.rs:117-137. -/
def Ring.setNodes (r : Ring T) (nodes : List (Nat × T)) : Ring T :=
  { r with ring := nodes.foldl (fun l x => (insertNode l x.1 x.2).1) [] }

/-- `HashRing::map_node`/`find_node`, hash_ring.rs:140-173. -/
def Ring.findNode (r : Ring T) (h : Nat) : Option T :=
  match r.overrides h with
  | some t => some t
  | none =>
      if r.ring.length = 0 then none
      else
        let index := match bsearch r.ring h with
          | .found i => i
          | .insert i => i
        if index = r.ring.length then (r.ring[0]?).map Prod.snd
        else (r.ring[index]?).map Prod.snd

/-- `DashMap::insert`. -/
def upd (m : Nat → Option T) (k : Nat) (v : Option T) : Nat → Option T := fun x => if x = k then v else m x

/-- `HashRing::add_override`, hash_ring.rs:176-178. -/
def Ring.addOverride (r : Ring T) (h : Nat) (node : T) : Ring T × Option T :=
  ({ r with overrides := upd r.overrides h (some node) }, r.overrides h)

/-- `HashRing::add_overrides`, hash_ring.rs:181-185. -/
def Ring.addOverrides (r : Ring T) (os : List (Nat × T)) : Ring T :=
  { r with overrides := os.foldl (fun m x => upd m x.1 (some x.2)) r.overrides }

/-- `HashRing::set_overrides`, hash_ring.rs:188-194. -/
def Ring.setOverrides (r : Ring T) (os : List (Nat × T)) : Ring T :=
  { r with overrides := os.foldl (fun m x => upd m x.1 (some x.2)) (fun _ => none) }

/-- `HashRing::remove_override`, hash_ring.rs:197-201. -/
def Ring.removeOverride (r : Ring T) (h : Nat) : Ring T × Option T :=
  ({ r with overrides := upd r.overrides h none }, r.overrides h)

/-- `HashRing::clear`, hash_ring.rs:204-208: only the ring vector is replaced. -/
def Ring.clear (r : Ring T) : Ring T := { r with ring := [] }

/-- All state-changing operations (keys already hashed). -/
inductive Op (T : Type)
  | addNode (h : Nat) (t : T)
  | removeNode (h : Nat)
  | addNodes (l : List (Nat × T))
  | setNodes (l : List (Nat × T))
  | addOverride (h : Nat) (t : T)
  | addOverrides (l : List (Nat × T))
  | setOverrides (l : List (Nat × T))
  | removeOverride (h : Nat)
  | clear

/-- One operation: new ring and what the call returns. -/
def Ring.step (r : Ring T) : Op T → Ring T × Option T
  | .addNode h t => r.addNode h t
  | .removeNode h => r.removeNode h
  | .addNodes l => (r.addNodes l, none)
  | .setNodes l => (r.setNodes l, none)
  | .addOverride h t => r.addOverride h t
  | .addOverrides l => (r.addOverrides l, none)
  | .setOverrides l => (r.setOverrides l, none)
  | .removeOverride h => r.removeOverride h
  | .clear => (r.clear, none)

/-- A whole history: final ring and the list of returned values. -/
def Ring.run (r : Ring T) : List (Op T) → Ring T × List (Option T)
  | [] => (r, [])
  | op :: ops =>
      let p := r.step op
      let q := p.1.run ops
      (q.1, p.2 :: q.2)

/-! ## Lemmas: binary search is correct on strictly sorted vectors -/

/-- Strictly ascending hashes. -/
def Sorted (l : List (Nat × T)) : Prop := l.Pairwise fun a b => a.1 < b.1

theorem bsLoop_lt (l : List (Nat × T)) (key base size : Nat) (hs : 0 < size) (h : base + size ≤ l.length) :
    base ≤ bsLoop l key base size ∧ bsLoop l key base size < base + size := by
  induction size using Nat.strongRecOn generalizing base with
  | _ size ih =>
    rw [bsLoop]
    split
    · omega
    · dsimp only
      split
      · have := ih (size - size / 2) (by omega) base (by omega) (by omega); omega
      · have := ih (size - size / 2) (by omega) (base + size / 2) (by omega) (by omega); omega

theorem keyAt_eq {l : List (Nat × T)} {i : Nat} (h : i < l.length) : keyAt l i = (l[i]'h).1 := by
  simp [keyAt, h]

theorem sorted_lt {l : List (Nat × T)} (hs : Sorted l) {i j : Nat} (hij : i < j) (hj : j < l.length) :
    keyAt l i < keyAt l j := by
  rw [keyAt_eq (by omega), keyAt_eq hj]
  exact List.pairwise_iff_getElem.mp hs i j (by omega) hj hij

/-- Loop invariant: everything after the window is greater; `base` is 0 or not greater than the key. -/
theorem bsLoop_spec (l : List (Nat × T)) (hs : Sorted l) (key base size : Nat) (hpos : 0 < size)
    (h : base + size ≤ l.length)
    (hhi : ∀ j, base + size ≤ j → j < l.length → key < keyAt l j)
    (hlo : base = 0 ∨ keyAt l base ≤ key) :
    (∀ j, bsLoop l key base size < j → j < l.length → key < keyAt l j) ∧
    (bsLoop l key base size = 0 ∨ keyAt l (bsLoop l key base size) ≤ key) := by
  induction size using Nat.strongRecOn generalizing base with
  | _ size ih =>
    rw [bsLoop]
    split
    · rename_i h1
      exact ⟨fun j hj hl => hhi j (by omega) hl, hlo⟩
    · dsimp only
      split
      · rename_i hgt
        refine ih (size - size / 2) (by omega) base (by omega) (by omega) ?_ hlo
        intro j hj hl
        by_cases hjm : j = base + size / 2
        · subst hjm; exact hgt
        · have := sorted_lt hs (i := base + size / 2) (j := j) (by omega) hl
          omega
      · rename_i hle
        refine ih (size - size / 2) (by omega) (base + size / 2) (by omega) (by omega) ?_ (Or.inr (by omega))
        intro j hj hl
        exact hhi j (by omega) hl

/-- Correctness of the binary search. -/
theorem bsearch_spec (l : List (Nat × T)) (hs : Sorted l) (key : Nat) :
    match bsearch l key with
    | .found i => i < l.length ∧ keyAt l i = key
    | .insert i => i ≤ l.length ∧ (∀ j, j < i → keyAt l j < key) ∧ (∀ j, i ≤ j → j < l.length → key < keyAt l j) := by
  unfold bsearch
  by_cases h0 : l.length = 0
  · rw [if_pos h0]
    simp [h0]
  · rw [if_neg h0]
    have hlt := bsLoop_lt l key 0 l.length (by omega) (by omega)
    have hsp := bsLoop_spec l hs key 0 l.length (by omega) (by omega) (by intros; omega) (Or.inl rfl)
    generalize bsLoop l key 0 l.length = b at *
    dsimp only
    split
    · rename_i i heq
      split at heq
      · simp only [Search.found.injEq] at heq; subst heq
        exact ⟨by omega, by assumption⟩
      · cases heq
    · rename_i i heq
      split at heq
      · cases heq
      · rename_i hne
        simp only [Search.insert.injEq] at heq
        by_cases hl : keyAt l b < key
        · rw [if_pos hl] at heq
          subst heq
          refine ⟨by omega, ?_, ?_⟩
          · intro j hj
            by_cases hjb : j = b
            · subst hjb; exact hl
            · have := sorted_lt hs (i := j) (j := b) (by omega) (by omega); omega
          · intro j hj hjl; exact hsp.1 j (by omega) hjl
        · rw [if_neg hl] at heq
          have hb0 : b = 0 := by
            rcases hsp.2 with h | h
            · exact h
            · omega
          subst heq hb0
          refine ⟨by omega, by intros; omega, ?_⟩
          intro j hj hjl
          by_cases hj0 : j = 0
          · subst hj0; omega
          · exact hsp.1 j (by omega) hjl

/-! ## Abstraction: the vector as a map from hash to node -/

/-- The node stored under hash `h`. -/
def look (l : List (Nat × T)) (h : Nat) : Option T := (l.find? fun x => x.1 == h).map Prod.snd

theorem look_nil (h : Nat) : look ([] : List (Nat × T)) h = none := rfl

theorem look_cons (x : Nat × T) (l : List (Nat × T)) (h : Nat) :
    look (x :: l) h = if x.1 = h then some x.2 else look l h := by
  unfold look
  by_cases hx : x.1 = h
  · simp [hx]
  · simp [hx]

theorem look_append (a b : List (Nat × T)) (h : Nat) :
    look (a ++ b) h = (look a h).or (look b h) := by
  induction a with
  | nil => simp [look_nil]
  | cons x a ih =>
    rw [List.cons_append, look_cons, look_cons, ih]
    split <;> simp

theorem look_none_iff (l : List (Nat × T)) (h : Nat) : look l h = none ↔ ∀ x ∈ l, x.1 ≠ h := by
  simp [look]

theorem look_mem {l : List (Nat × T)} (hs : Sorted l) (x : Nat × T) (hx : x ∈ l) : look l x.1 = some x.2 := by
  induction l with
  | nil => simp at hx
  | cons y l ih =>
    rw [look_cons]
    unfold Sorted at hs
    rw [List.pairwise_cons] at hs
    rcases List.mem_cons.mp hx with rfl | hx'
    · simp
    · have := hs.1 x hx'
      rw [if_neg (by omega)]
      exact ih hs.2 hx'

theorem look_some_mem {l : List (Nat × T)} {h : Nat} {t : T} (hl : look l h = some t) : (h, t) ∈ l := by
  unfold look at hl
  simp only [Option.map_eq_some_iff] at hl
  obtain ⟨⟨a, b⟩, h1, h2⟩ := hl
  have h3 := List.find?_some h1
  have h4 := List.mem_of_find?_eq_some h1
  simp only [beq_iff_eq] at h3
  simp only at h2
  subst h3 h2
  exact h4

theorem look_getElem {l : List (Nat × T)} (hs : Sorted l) {i : Nat} (h : i < l.length) :
    look l (keyAt l i) = some (l[i]).2 := by
  rw [keyAt_eq h]; exact look_mem hs _ (List.getElem_mem h)

theorem mem_keyAt {l : List (Nat × T)} {x : Nat × T} (hx : x ∈ l) : ∃ i, i < l.length ∧ keyAt l i = x.1 := by
  obtain ⟨i, hi, rfl⟩ := List.getElem_of_mem hx
  exact ⟨i, hi, keyAt_eq hi⟩

theorem take_keys {l : List (Nat × T)} {i key : Nat} (h : ∀ j, j < i → j < l.length → keyAt l j < key) :
    ∀ x ∈ l.take i, x.1 < key := by
  intro x hx
  obtain ⟨j, hj, rfl⟩ := List.getElem_of_mem hx
  simp only [List.length_take] at hj
  have := h j (by omega) (by omega)
  rw [keyAt_eq (by omega)] at this
  simpa using this

theorem drop_keys {l : List (Nat × T)} {i key : Nat} (h : ∀ j, i ≤ j → j < l.length → key < keyAt l j) :
    ∀ x ∈ l.drop i, key < x.1 := by
  intro x hx
  obtain ⟨j, hj, rfl⟩ := List.getElem_of_mem hx
  simp only [List.length_drop] at hj
  have := h (i + j) (by omega) (by omega)
  rw [keyAt_eq (by omega)] at this
  simpa using this

/-- Splitting a strictly sorted vector at a found index. -/
theorem split_found {l : List (Nat × T)} (hs : Sorted l) {i key : Nat} (hi : i < l.length) (hk : keyAt l i = key) :
    ∃ t, l = l.take i ++ (key, t) :: l.drop (i + 1) ∧ l[i]? = some (key, t) ∧
      (∀ x ∈ l.take i, x.1 < key) ∧ (∀ x ∈ l.drop (i + 1), key < x.1) := by
  have hki := keyAt_eq hi
  have hget : l[i] = (key, (l[i]).2) := by rw [← hk, hki]
  refine ⟨(l[i]).2, ?_, ?_, ?_, ?_⟩
  · rw [← hget]; simp
  · rw [← hget]; simp
  · apply take_keys; intro j hj hl
    have := sorted_lt hs hj hi; omega
  · apply drop_keys; intro j hj hl
    have := sorted_lt hs (i := i) (j := j) (by omega) hl; omega

theorem sorted_mid {a b : List (Nat × T)} {key : Nat} {t : T}
    (ha : Sorted a) (hb : Sorted b) (h1 : ∀ x ∈ a, x.1 < key) (h2 : ∀ x ∈ b, key < x.1) :
    Sorted (a ++ (key, t) :: b) := by
  unfold Sorted at *
  rw [List.pairwise_append, List.pairwise_cons]
  refine ⟨ha, ⟨h2, hb⟩, ?_⟩
  intro x hx y hy
  rcases List.mem_cons.mp hy with rfl | hy
  · exact h1 x hx
  · have := h1 x hx; have := h2 y hy; omega

theorem look_mid {a b : List (Nat × T)} {key : Nat} {t : T} (h1 : ∀ x ∈ a, x.1 < key) (h : Nat) :
    look (a ++ (key, t) :: b) h = if h = key then some t else look (a ++ b) h := by
  rw [look_append, look_append, look_cons]
  by_cases hk : h = key
  · subst hk
    have : look a h = none := by
      rw [look_none_iff]; intro x hx; have := h1 x hx; omega
    simp [this]
  · simp [hk, Ne.symm hk]

theorem insertNode_spec (l : List (Nat × T)) (hs : Sorted l) (h : Nat) (t : T) :
    Sorted (insertNode l h t).1 ∧ (insertNode l h t).2 = look l h ∧
    ∀ x, look (insertNode l h t).1 x = if x = h then some t else look l x := by
  have hb := bsearch_spec l hs h
  unfold insertNode
  cases hcase : bsearch l h with
  | found i =>
    rw [hcase] at hb
    obtain ⟨hi, hk⟩ := hb
    obtain ⟨t0, hl, hget, h1, h2⟩ := split_found hs hi hk
    have hset : l.set i (h, t) = l.take i ++ (h, t) :: l.drop (i + 1) := by
      rw [List.set_eq_take_append_cons_drop, if_pos hi]
    have hst : Sorted (l.take i) := List.Pairwise.sublist (List.take_sublist i l) hs
    have hsd : Sorted (l.drop (i + 1)) := List.Pairwise.sublist (List.drop_sublist (i + 1) l) hs
    dsimp only
    rw [hset, hget]
    refine ⟨sorted_mid hst hsd h1 h2, ?_, ?_⟩
    · conv => rhs; rw [hl]
      rw [look_mid h1]; simp
    · intro x
      rw [look_mid h1]
      split
      · rfl
      · rename_i hx
        conv => rhs; rw [hl]
        rw [look_mid h1, if_neg hx]
  | insert i =>
    rw [hcase] at hb
    obtain ⟨hi, hlo, hhi⟩ := hb
    have h1 := take_keys (l := l) (i := i) (key := h) (fun j hj _ => hlo j hj)
    have h2 := drop_keys (l := l) (i := i) (key := h) hhi
    have hst : Sorted (l.take i) := List.Pairwise.sublist (List.take_sublist i l) hs
    have hsd : Sorted (l.drop i) := List.Pairwise.sublist (List.drop_sublist i l) hs
    dsimp only [insertAt]
    refine ⟨sorted_mid hst hsd h1 h2, ?_, ?_⟩
    · symm
      rw [look_none_iff]
      intro x hx
      rw [← List.take_append_drop i l] at hx
      rcases List.mem_append.mp hx with hx | hx
      · have := h1 x hx; omega
      · have := h2 x hx; omega
    · intro x
      rw [look_mid h1, List.take_append_drop]

theorem removeNode_spec (r : Ring T) (hs : Sorted r.ring) (h : Nat) :
    Sorted (r.removeNode h).1.ring ∧ (r.removeNode h).2 = look r.ring h ∧
    (r.removeNode h).1.overrides = r.overrides ∧
    ∀ x, look (r.removeNode h).1.ring x = if x = h then none else look r.ring x := by
  have hb := bsearch_spec r.ring hs h
  unfold Ring.removeNode
  cases hcase : bsearch r.ring h with
  | found i =>
    rw [hcase] at hb
    obtain ⟨hi, hk⟩ := hb
    obtain ⟨t0, hl, hget, h1, h2⟩ := split_found hs hi hk
    have hset : r.ring.eraseIdx i = r.ring.take i ++ r.ring.drop (i + 1) := List.eraseIdx_eq_take_drop_succ ..
    dsimp only
    rw [hset, hget]
    refine ⟨?_, ?_, rfl, ?_⟩
    · rw [← hset]; exact List.Pairwise.sublist (List.eraseIdx_sublist ..) hs
    · conv => rhs; rw [hl]
      rw [look_mid h1]; simp
    · intro x
      conv => rhs; rw [hl]
      rw [look_mid h1]
      by_cases hx : x = h
      · rw [if_pos hx, look_none_iff]
        subst hx
        intro y hy
        rcases List.mem_append.mp hy with hy | hy
        · have := h1 y hy; omega
        · have := h2 y hy; omega
      · rw [if_neg hx, if_neg hx]
  | insert i =>
    rw [hcase] at hb
    obtain ⟨hi, hlo, hhi⟩ := hb
    have hnone : look r.ring h = none := by
      rw [look_none_iff]
      intro x hx
      obtain ⟨j, hj, hjk⟩ := mem_keyAt hx
      by_cases hji : j < i
      · have := hlo j hji; omega
      · have := hhi j (by omega) hj; omega
    dsimp only
    refine ⟨hs, hnone.symm, rfl, ?_⟩
    intro x
    by_cases hx : x = h
    · rw [if_pos hx, hx, hnone]
    · rw [if_neg hx]

theorem foldl_insert_spec (nodes l : List (Nat × T)) (hs : Sorted l) :
    Sorted (nodes.foldl (fun l x => (insertNode l x.1 x.2).1) l) ∧
    look (nodes.foldl (fun l x => (insertNode l x.1 x.2).1) l)
      = nodes.foldl (fun m x => upd m x.1 (some x.2)) (look l) := by
  induction nodes generalizing l with
  | nil => exact ⟨hs, rfl⟩
  | cons x nodes ih =>
    have h1 := insertNode_spec l hs x.1 x.2
    have h2 := ih _ h1.1
    refine ⟨h2.1, ?_⟩
    simp only [List.foldl_cons]
    rw [h2.2]
    congr 1
    funext y
    rw [h1.2.2 y, upd]

end Verif.HashRing
