import Verif.Mailbox
/-!
# Specification of a mailbox, and the refinement of the model to it

The logical contents of a mailbox is one list of messages in arrival order: the stashed items followed by what the
channel holds, where a monitor notification counts as a message only if its monitor is still installed, and internal
bookkeeping items (`update`, `aliasOff`) do not count.
-/
namespace Verif.Mailbox
variable {B V T : Type}

/-- Messages (as opposed to bookkeeping items). -/
def Settled : Item B V → Prop
  | .remote _ | .locl _ | .system _ => True
  | _ => False

/-- What the channel holds, as messages, given the references with an installed monitor. -/
def visible : List Ref → List (Item B V) → List (Item B V)
  | _, [] => []
  | refs, .remote b :: rest => .remote b :: visible refs rest
  | refs, .locl v :: rest => .locl v :: visible refs rest
  | refs, .system s :: rest => .system s :: visible refs rest
  | refs, .down d r e :: rest =>
      if r ∈ refs then .system (.processDown d r e) :: visible (refs.filter (· != r)) rest
      else visible refs rest
  | refs, .nodeDown n r :: rest =>
      if r ∈ refs then .system (.nodeDown n r) :: visible (refs.filter (· != r)) rest
      else visible refs rest
  | refs, .update _ _ :: rest => visible refs rest
  | refs, .aliasOff _ :: rest => visible refs rest

/-- Logical contents, oldest first. -/
def contents (b : Box B V) : List (Item B V) := b.items ++ visible (b.mons.map Prod.fst) b.chan

/-- How a message reads as type `T`; `none`: it is of another type. -/
def asMsg (τ : RecvType B V T) : Item B V → Option (Msg T)
  | .remote b => (τ.deser b).map .user
  | .locl v => (τ.cast v).map .user
  | .system s => some (.system s)
  | _ => none

/-- A serialized message that has been looked at as type `T` is stored deserialized. -/
def norm (τ : RecvType B V T) : Item B V → Item B V
  | .remote b => match τ.deser b with
      | some t => .locl (τ.box t)
      | none => .remote b
  | it => it

/-- Specification of a selective receive on a list of messages: the first one that the filter accepts, and what stays.
A strict receive stops at a message of another type. -/
def pick (τ : RecvType B V T) (filter : Msg T → Bool) (strict : Bool) : List (Item B V) → Poll T × List (Item B V)
  | [] => (.pending, [])
  | it :: rest =>
      match asMsg τ it with
      | some m =>
          if filter m then (.got m, rest)
          else ((pick τ filter strict rest).1, norm τ it :: (pick τ filter strict rest).2)
      | none =>
          if strict then (.panicked, it :: rest)
          else ((pick τ filter strict rest).1, norm τ it :: (pick τ filter strict rest).2)

/-- Mailbox invariant: only messages are stashed. -/
def WF (b : Box B V) : Prop := ∀ it ∈ b.items, Settled it

theorem processItem_settled (τ : RecvType B V T) (mons : List (Ref × PMon)) (als : List Nat) (it : Item B V)
    (h : Settled it) :
    processItem τ mons als it =
      ((match asMsg τ it with | some m => .msg m | none => .foreign), norm τ it, mons, als) := by
  cases it <;> simp only [Settled] at h
  · rename_i b; simp only [processItem, asMsg, norm]; cases τ.deser b <;> rfl
  · rename_i v; simp only [processItem, asMsg, norm]; cases τ.cast v <;> rfl
  · rfl

theorem norm_settled (τ : RecvType B V T) (it : Item B V) (h : Settled it) : Settled (norm τ it) := by
  cases it <;> simp only [Settled] at h
  · rename_i b; simp only [norm]; cases τ.deser b <;> simp [Settled]
  · simp [norm, Settled]
  · simp [norm, Settled]

theorem asMsg_norm (τ : RecvType B V T) (it : Item B V) : asMsg τ (norm τ it) = asMsg τ it := by
  cases it with
  | remote b =>
    simp only [norm, asMsg]
    cases h : τ.deser b with
    | some t => simp [asMsg, τ.cast_box]
    | none => simp [asMsg, h]
  | _ => rfl

theorem norm_norm (τ : RecvType B V T) (it : Item B V) : norm τ (norm τ it) = norm τ it := by
  cases it with
  | remote b =>
    simp only [norm]
    cases h : τ.deser b with
    | some t => simp [norm]
    | none => simp [norm, h]
  | _ => rfl

theorem scanItems_pick (τ : RecvType B V T) (filter : Msg T → Bool) (strict : Bool)
    (mons : List (Ref × PMon)) (als : List Nat) (done l : List (Item B V)) (h : ∀ it ∈ l, Settled it) :
    scanItems τ filter strict mons als done l
      = ((pick τ filter strict l).1, done ++ (pick τ filter strict l).2, mons, als) := by
  induction l generalizing done with
  | nil => simp [scanItems, pick]
  | cons it rest ih =>
    have hr : ∀ x ∈ rest, Settled x := fun x hx => h x (by simp [hx])
    rw [scanItems, processItem_settled τ mons als it (h it (by simp)), pick]
    cases hm : asMsg τ it with
    | some m =>
      by_cases hf : filter m
      · simp [hf]
      · simp [hf, ih _ hr]
    | none =>
      by_cases hs : strict
      · have : norm τ it = it := by
          cases it <;> try rfl
          rename_i b
          simp only [asMsg, Option.map_eq_none_iff] at hm
          simp [norm, hm]
        simp [hs, this]
      · have hs' : strict = false := by simpa using hs
        subst hs'
        simp [ih _ hr]

theorem mem_map_fst_iff (mons : List (Ref × PMon)) (r : Ref) : r ∈ mons.map Prod.fst ↔ hasMon mons r = true := by
  simp [hasMon]

theorem map_fst_dropMon (mons : List (Ref × PMon)) (r : Ref) :
    (dropMon mons r).map Prod.fst = (mons.map Prod.fst).filter (· != r) := by
  simp [dropMon, List.filter_map, Function.comp_def]

theorem map_fst_update (mons : List (Ref × PMon)) (r : Ref) (p : Pid) :
    (mons.map fun x => if x.1 = r then (x.1, PMon.forProcess (some p)) else x).map Prod.fst
      = mons.map Prod.fst := by
  rw [List.map_map]
  apply List.map_congr_left
  intro x _
  simp only [Function.comp]
  split <;> rfl

/-- One channel item: either it is a message (then `visible` starts with it) or it disappears. -/
theorem processItem_visible (τ : RecvType B V T) (mons : List (Ref × PMon)) (als : List Nat) (it : Item B V)
    (rest : List (Item B V)) :
    (∃ s mons' als', Settled s ∧ visible (mons.map Prod.fst) (it :: rest) = s :: visible (mons'.map Prod.fst) rest ∧
        processItem τ mons als it =
          ((match asMsg τ s with | some m => .msg m | none => .foreign), norm τ s, mons', als')) ∨
    (∃ it' mons' als', visible (mons.map Prod.fst) (it :: rest) = visible (mons'.map Prod.fst) rest ∧
        processItem τ mons als it = (.skip, it', mons', als')) := by
  cases it with
  | remote b =>
    left; exact ⟨.remote b, mons, als, trivial, rfl, processItem_settled τ mons als _ trivial⟩
  | locl v =>
    left; exact ⟨.locl v, mons, als, trivial, rfl, processItem_settled τ mons als _ trivial⟩
  | system s =>
    left; exact ⟨.system s, mons, als, trivial, rfl, processItem_settled τ mons als _ trivial⟩
  | down d r e =>
    by_cases hm : hasMon mons r = true
    · left
      refine ⟨.system (.processDown d r e), dropMon mons r, als, trivial, ?_, ?_⟩
      · rw [visible, if_pos ((mem_map_fst_iff mons r).mpr hm), map_fst_dropMon]
      · simp [processItem, hm, asMsg, norm]
    · right
      refine ⟨.down d r e, mons, als, ?_, ?_⟩
      · rw [visible, if_neg (fun h => hm ((mem_map_fst_iff mons r).mp h))]
      · simp [processItem, hm]
  | nodeDown n r =>
    by_cases hm : hasMon mons r = true
    · left
      refine ⟨.system (.nodeDown n r), dropMon mons r, als, trivial, ?_, ?_⟩
      · rw [visible, if_pos ((mem_map_fst_iff mons r).mpr hm), map_fst_dropMon]
      · simp [processItem, hm, asMsg, norm]
    · right
      refine ⟨.nodeDown n r, mons, als, ?_, ?_⟩
      · rw [visible, if_neg (fun h => hm ((mem_map_fst_iff mons r).mp h))]
      · simp [processItem, hm]
  | update r p =>
    right
    exact ⟨_, _, _, by rw [map_fst_update]; rfl, rfl⟩
  | aliasOff id =>
    right
    exact ⟨_, _, _, rfl, rfl⟩

theorem scanChan_pick (τ : RecvType B V T) (filter : Msg T → Bool) (strict : Bool)
    (items : List (Item B V)) (mons : List (Ref × PMon)) (als : List Nat) (chan : List (Item B V))
    (h : ∀ it ∈ items, Settled it) :
    (scanChan τ filter strict items mons als chan).1
        = (pick τ filter strict (visible (mons.map Prod.fst) chan)).1 ∧
    ((scanChan τ filter strict items mons als chan).1 ≠ .panicked →
      contents (scanChan τ filter strict items mons als chan).2
        = items ++ (pick τ filter strict (visible (mons.map Prod.fst) chan)).2) ∧
    WF (scanChan τ filter strict items mons als chan).2 ∧
    ((scanChan τ filter strict items mons als chan).1 = .pending →
      (scanChan τ filter strict items mons als chan).2.chan = []) := by
  induction chan generalizing items mons als with
  | nil => simpa [scanChan, pick, visible, contents, WF] using h
  | cons it rest ih =>
    rcases processItem_visible τ mons als it rest with ⟨s, mons', als', hset, hv, hp⟩ | ⟨it', mons', als', hv, hp⟩
    · rw [scanChan, hp, hv, pick]
      have hitems : ∀ x ∈ items ++ [norm τ s], Settled x := by
        intro x hx
        rcases List.mem_append.mp hx with hx | hx
        · exact h x hx
        · simp only [List.mem_singleton] at hx; subst hx; exact norm_settled τ s hset
      cases hm : asMsg τ s with
      | some m =>
        by_cases hf : filter m
        · simp only [hf, if_true]
          refine ⟨by trivial, ?_, h, ?_⟩
          · intro _; rfl
          · intro hc; cases hc
        · have := ih (items ++ [norm τ s]) mons' als' hitems
          simp only [hf, Bool.false_eq_true, if_false]
          exact ⟨this.1, fun hne => by rw [this.2.1 hne]; simp, this.2.2.1, this.2.2.2⟩
      | none =>
        by_cases hs : strict
        · simp only [hs, if_true]
          refine ⟨by trivial, ?_, h, ?_⟩
          · intro hc; exact absurd rfl hc
          · intro hc; cases hc
        · have := ih (items ++ [norm τ s]) mons' als' hitems
          simp only [hs, Bool.false_eq_true, if_false] at this ⊢
          exact ⟨this.1, fun hne => by rw [this.2.1 hne]; simp, this.2.2.1, this.2.2.2⟩
    · rw [scanChan, hp, hv]
      exact ih items mons' als' h

theorem pick_append (τ : RecvType B V T) (filter : Msg T → Bool) (strict : Bool) (a b : List (Item B V)) :
    pick τ filter strict (a ++ b) =
      match (pick τ filter strict a).1 with
      | .pending => ((pick τ filter strict b).1, (pick τ filter strict a).2 ++ (pick τ filter strict b).2)
      | r => (r, (pick τ filter strict a).2 ++ b) := by
  induction a with
  | nil => simp [pick]
  | cons it rest ih =>
    rw [List.cons_append, pick, pick]
    cases hm : asMsg τ it with
    | some m =>
      by_cases hf : filter m
      · simp [hf]
      · simp only [hf, Bool.false_eq_true, if_false]
        rw [ih]
        cases (pick τ filter strict rest).1 <;> simp
    | none =>
      by_cases hs : strict
      · simp [hs]
      · simp only [hs, Bool.false_eq_true, if_false] at ih ⊢
        rw [ih]
        cases (pick τ filter false rest).1 <;> simp

theorem pick_settled (τ : RecvType B V T) (filter : Msg T → Bool) (strict : Bool) (l : List (Item B V))
    (h : ∀ it ∈ l, Settled it) : ∀ it ∈ (pick τ filter strict l).2, Settled it := by
  induction l with
  | nil => simp [pick]
  | cons x rest ih =>
    have hr : ∀ it ∈ rest, Settled it := fun it hx => h it (by simp [hx])
    have hx := h x (by simp)
    have hcons : ∀ it ∈ norm τ x :: (pick τ filter strict rest).2, Settled it := by
      intro it hit
      rcases List.mem_cons.mp hit with rfl | hit
      · exact norm_settled τ x hx
      · exact ih hr it hit
    rw [pick]
    cases hm : asMsg τ x with
    | some m =>
      by_cases hf : filter m
      · simpa [hf] using hr
      · simpa [hf] using hcons
    | none =>
      by_cases hs : strict
      · simp only [hs, if_true]; exact h
      · simp only [hs, if_false, Bool.false_eq_true] at hcons ⊢; exact hcons

/-- Refinement: the first poll of `select` acts on the logical contents exactly as `pick`. -/
theorem select_pick (τ : RecvType B V T) (filter : Msg T → Bool) (strict : Bool) (b : Box B V) (h : WF b) :
    (select τ filter strict b).1 = (pick τ filter strict (contents b)).1 ∧
    ((select τ filter strict b).1 ≠ .panicked →
      contents (select τ filter strict b).2 = (pick τ filter strict (contents b)).2) ∧
    WF (select τ filter strict b).2 ∧
    ((select τ filter strict b).1 = .pending → (select τ filter strict b).2.chan = []) := by
  unfold select
  rw [scanItems_pick τ filter strict b.mons b.aliases [] b.items h]
  simp only [List.nil_append, contents, pick_append]
  have hset := pick_settled τ filter strict b.items h
  cases hp : (pick τ filter strict b.items).1 with
  | pending =>
    have := scanChan_pick τ filter strict (pick τ filter strict b.items).2 b.mons b.aliases b.chan hset
    exact ⟨this.1, this.2.1, this.2.2.1, this.2.2.2⟩
  | got m =>
    refine ⟨rfl, ?_, hset, ?_⟩
    · intro _; rfl
    · intro hc; cases hc
  | panicked =>
    refine ⟨rfl, ?_, hset, ?_⟩
    · intro hc; exact absurd rfl hc
    · intro hc; cases hc

/-- What later arrivals add to the logical contents depends only on which monitors are left. -/
def leftRefs : List Ref → List (Item B V) → List Ref
  | refs, [] => refs
  | refs, .down _ r _ :: rest => if r ∈ refs then leftRefs (refs.filter (· != r)) rest else leftRefs refs rest
  | refs, .nodeDown _ r :: rest => if r ∈ refs then leftRefs (refs.filter (· != r)) rest else leftRefs refs rest
  | refs, _ :: rest => leftRefs refs rest

theorem visible_append' (refs : List Ref) (a b : List (Item B V)) :
    visible refs (a ++ b) = visible refs a ++ visible (leftRefs refs a) b := by
  induction a generalizing refs with
  | nil => rfl
  | cons it rest ih =>
    cases it <;> simp only [List.cons_append, visible, leftRefs, ih]
    all_goals split <;> simp [ih]

/-- Monitors left once everything in the channel has been processed. -/
def finalRefs (b : Box B V) : List Ref := leftRefs (b.mons.map Prod.fst) b.chan

theorem contents_deliver (b : Box B V) (l : List (Item B V)) :
    contents { b with chan := b.chan ++ l } = contents b ++ visible (finalRefs b) l := by
  simp [contents, visible_append', finalRefs]

theorem processItem_left (τ : RecvType B V T) (mons : List (Ref × PMon)) (als : List Nat) (it : Item B V)
    (rest : List (Item B V)) :
    leftRefs (((processItem τ mons als it).2.2.1).map Prod.fst) rest
      = leftRefs (mons.map Prod.fst) (it :: rest) := by
  cases it with
  | remote b => simp only [processItem, leftRefs]; cases τ.deser b <;> rfl
  | locl v => simp only [processItem, leftRefs]; cases τ.cast v <;> rfl
  | system s => rfl
  | down d r e =>
    rw [leftRefs]
    by_cases hm : hasMon mons r = true
    · rw [if_pos ((mem_map_fst_iff mons r).mpr hm), ← map_fst_dropMon]; simp [processItem, hm]
    · rw [if_neg (fun h => hm ((mem_map_fst_iff mons r).mp h))]; simp [processItem, hm]
  | nodeDown n r =>
    rw [leftRefs]
    by_cases hm : hasMon mons r = true
    · rw [if_pos ((mem_map_fst_iff mons r).mpr hm), ← map_fst_dropMon]; simp [processItem, hm]
    · rw [if_neg (fun h => hm ((mem_map_fst_iff mons r).mp h))]; simp [processItem, hm]
  | update r p => simp only [processItem, leftRefs, map_fst_update]
  | aliasOff id => rfl

theorem scanChan_final (τ : RecvType B V T) (filter : Msg T → Bool) (strict : Bool)
    (items : List (Item B V)) (mons : List (Ref × PMon)) (als : List Nat) (chan : List (Item B V)) :
    finalRefs (scanChan τ filter strict items mons als chan).2 = leftRefs (mons.map Prod.fst) chan := by
  induction chan generalizing items mons als with
  | nil => rfl
  | cons it rest ih =>
    rw [← processItem_left τ mons als it rest, scanChan]
    split
    · split
      · rename_i heq _; rw [heq]; rfl
      · rename_i heq _; rw [heq]; exact ih ..
    · rename_i heq; rw [heq]; exact ih ..
    · split
      · rename_i heq _; rw [heq]; rfl
      · rename_i heq _; rw [heq]; exact ih ..

theorem select_final (τ : RecvType B V T) (filter : Msg T → Bool) (strict : Bool) (b : Box B V) (h : WF b) :
    finalRefs (select τ filter strict b).2 = finalRefs b := by
  unfold select
  rw [scanItems_pick τ filter strict b.mons b.aliases [] b.items h]
  cases hp : (pick τ filter strict b.items).1 with
  | pending => exact scanChan_final ..
  | got m => rfl
  | panicked => rfl

/-! ### `remove` -/

/-- Specification of `remove` on a list of messages: drop every accepted one; a strict remove meets another type: panic. -/
def dropAll (τ : RecvType B V T) (filter : Msg T → Bool) (strict : Bool) : List (Item B V) → Option (List (Item B V))
  | [] => some []
  | it :: rest =>
      match asMsg τ it with
      | some m => (dropAll τ filter strict rest).map fun r => if filter m then r else norm τ it :: r
      | none => if strict then none else (dropAll τ filter strict rest).map fun r => norm τ it :: r

theorem removeItems_eq (τ : RecvType B V T) (filter : Msg T → Bool) (strict : Bool)
    (mons : List (Ref × PMon)) (als : List Nat) (l : List (Item B V)) (h : ∀ it ∈ l, Settled it) :
    removeItems τ filter strict mons als l = (dropAll τ filter strict l).map fun r => (r, mons, als) := by
  induction l with
  | nil => rfl
  | cons it rest ih =>
    have hr : ∀ x ∈ rest, Settled x := fun x hx => h x (by simp [hx])
    rw [removeItems, processItem_settled τ mons als it (h it (by simp)), dropAll]
    cases hm : asMsg τ it with
    | some m =>
      simp only [ih hr, Option.map_map, Function.comp_def]
    | none =>
      by_cases hs : strict
      · simp [hs]
      · simp only [hs, Bool.false_eq_true, if_false, Option.map_map, Function.comp_def] at ih ⊢
        rw [ih hr, Option.map_map]; rfl

theorem dropAll_settled (τ : RecvType B V T) (filter : Msg T → Bool) (strict : Bool) (l l' : List (Item B V))
    (h : ∀ it ∈ l, Settled it) (hd : dropAll τ filter strict l = some l') : ∀ it ∈ l', Settled it := by
  induction l generalizing l' with
  | nil => simp only [dropAll, Option.some.injEq] at hd; subst hd; simp
  | cons x rest ih =>
    have hr : ∀ it ∈ rest, Settled it := fun it hx => h it (by simp [hx])
    have hx := norm_settled τ x (h x (by simp))
    rw [dropAll] at hd
    cases hm : asMsg τ x with
    | some m =>
      rw [hm] at hd
      simp only [Option.map_eq_some_iff] at hd
      obtain ⟨r, h1, rfl⟩ := hd
      intro it hit
      split at hit
      · exact ih r hr h1 it hit
      · rcases List.mem_cons.mp hit with rfl | hit
        · exact hx
        · exact ih r hr h1 it hit
    | none =>
      rw [hm] at hd
      simp only at hd
      split at hd
      · cases hd
      · simp only [Option.map_eq_some_iff] at hd
        obtain ⟨r, h1, rfl⟩ := hd
        intro it hit
        rcases List.mem_cons.mp hit with rfl | hit
        · exact hx
        · exact ih r hr h1 it hit

theorem dropAll_append (τ : RecvType B V T) (filter : Msg T → Bool) (strict : Bool) (a b : List (Item B V)) :
    dropAll τ filter strict (a ++ b) =
      (dropAll τ filter strict a).bind fun x => (dropAll τ filter strict b).map fun y => x ++ y := by
  induction a with
  | nil => simp [dropAll]
  | cons it rest ih =>
    rw [List.cons_append, dropAll, dropAll]
    cases hm : asMsg τ it with
    | some m =>
      simp only [ih]
      cases dropAll τ filter strict rest <;> cases dropAll τ filter strict b <;> simp
      split <;> simp
    | none =>
      by_cases hs : strict
      · simp [hs]
      · simp only [hs, Bool.false_eq_true, if_false] at ih ⊢
        rw [ih]
        cases dropAll τ filter false rest <;> cases dropAll τ filter false b <;> simp

theorem removeChan_eq (τ : RecvType B V T) (filter : Msg T → Bool) (strict : Bool)
    (items : List (Item B V)) (mons : List (Ref × PMon)) (als : List Nat) (chan : List (Item B V))
    (h : ∀ it ∈ items, Settled it) :
    match removeChan τ filter strict items mons als chan with
    | none => dropAll τ filter strict (visible (mons.map Prod.fst) chan) = none
    | some b' => b'.chan = [] ∧ WF b' ∧
        ∃ r, dropAll τ filter strict (visible (mons.map Prod.fst) chan) = some r ∧ b'.items = items ++ r := by
  induction chan generalizing items mons als with
  | nil => exact ⟨rfl, h, [], rfl, by simp⟩
  | cons it rest ih =>
    rcases processItem_visible τ mons als it rest with ⟨s, mons', als', hset, hv, hp⟩ | ⟨it', mons', als', hv, hp⟩
    · rw [removeChan, hp, hv, dropAll]
      have hitems : ∀ x ∈ items ++ [norm τ s], Settled x := by
        intro x hx
        rcases List.mem_append.mp hx with hx | hx
        · exact h x hx
        · simp only [List.mem_singleton] at hx; subst hx; exact norm_settled τ s hset
      cases hm : asMsg τ s with
      | some m =>
        simp only
        by_cases hf : filter m
        · simp only [hf, if_true]
          have := ih items mons' als' h
          split at this
          · rename_i heq; try rw [heq]
            simp [this]
          · rename_i b' heq
            try rw [heq]
            obtain ⟨h1, h2, r, h3, h4⟩ := this
            exact ⟨h1, h2, r, by simp [h3], h4⟩
        · simp only [hf, Bool.false_eq_true, if_false]
          have := ih (items ++ [norm τ s]) mons' als' hitems
          split at this
          · rename_i heq; try rw [heq]
            simp [this]
          · rename_i b' heq
            try rw [heq]
            obtain ⟨h1, h2, r, h3, h4⟩ := this
            exact ⟨h1, h2, norm τ s :: r, by simp [h3], by simp [h4]⟩
      | none =>
        simp only
        by_cases hs : strict
        · simp [hs]
        · simp only [hs, Bool.false_eq_true, if_false] at ih ⊢
          have := ih (items ++ [norm τ s]) mons' als' hitems
          split at this
          · rename_i heq; try rw [heq]
            simp [this]
          · rename_i b' heq
            try rw [heq]
            obtain ⟨h1, h2, r, h3, h4⟩ := this
            exact ⟨h1, h2, norm τ s :: r, by simp [h3], by simp [h4]⟩
    · rw [removeChan, hp, hv]
      exact ih items mons' als' h

theorem remove_eq (τ : RecvType B V T) (filter : Msg T → Bool) (strict : Bool) (b : Box B V) (h : WF b) :
    match remove τ filter strict b with
    | none => dropAll τ filter strict (contents b) = none
    | some b' => WF b' ∧ b'.chan = [] ∧ dropAll τ filter strict (contents b) = some (contents b') := by
  unfold remove
  rw [removeItems_eq τ filter strict b.mons b.aliases b.items h, contents, dropAll_append]
  cases hd : dropAll τ filter strict b.items with
  | none => simp
  | some r =>
    simp only [Option.map_some]
    have := removeChan_eq τ filter strict r b.mons b.aliases b.chan
      (dropAll_settled τ filter strict _ _ h hd)
    split at this
    · rename_i heq; try rw [heq]
      simp [this]
    · rename_i b' heq
      try rw [heq]
      obtain ⟨h1, h2, r2, h3, h4⟩ := this
      refine ⟨h2, h1, ?_⟩
      simp [h3, contents, h1, h4, visible]

end Verif.Mailbox
