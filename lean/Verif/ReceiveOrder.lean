import Verif.CallOrderProps
/-!
# Which of two messages is received first: lemmas (C118)
-/
namespace Verif.World
open Verif.Mailbox
variable {B V T R : Type}

/-- In the list there is an item that reads as `x`, and none before it reads as `y`. -/
def Ahead (τ : RecvType B V T) (x y : T → Bool) : List (Item B V) → Prop
  | [] => False
  | it :: l => readsAs τ x it = true ∨ readsAs τ y it = false ∧ Ahead τ x y l

theorem ahead_append {τ : RecvType B V T} {x y : T → Bool} {l : List (Item B V)} (h : Ahead τ x y l) (l' : List (Item B V)) : Ahead τ x y (l ++ l') := by
  induction l with
  | nil => exact h.elim
  | cons it l ih => exact h.imp id fun h => ⟨h.1, ih h.2⟩

theorem ahead_after {τ : RecvType B V T} {x y : T → Bool} {d l : List (Item B V)} (hd : ∀ it ∈ d, readsAs τ y it = false) (h : Ahead τ x y l) :
    Ahead τ x y (d ++ l) := by
  induction d with
  | nil => exact h
  | cons it d ih => exact .inr ⟨hd it (by simp), ih fun i hi => hd i (by simp [hi])⟩

/-- How a receive of another type, or of the same, looks at items that read as `x`: they are messages that `Hit` holds of, or foreign, and stay
readable as `x`; and it does not make an item readable as `y`. -/
structure Looks {T' : Type} (τ : RecvType B V T) (x y : T → Bool) (τ' : RecvType B V T') (Hit : Msg T' → Prop) : Prop where
  keep : ∀ mons als it, readsAs τ x it = true → readsAs τ x (processItem τ' mons als it).2.1 = true
  sees : ∀ mons als it, readsAs τ x it = true → (∃ m, (processItem τ' mons als it).1 = .msg m ∧ Hit m) ∨ (processItem τ' mons als it).1 = .foreign
  conv : ∀ mons als it, readsAs τ y it = false → readsAs τ y (processItem τ' mons als it).2.1 = false

theorem looks_same {τ : RecvType B V T} (x y : T → Bool) (hc : CoherentWith τ τ) : Looks τ x y τ (fun m => ∃ t, m = .user t ∧ x t = true) where
  keep := by
    intro mons als it h
    cases it <;> simp only [readsAs] at h <;> try exact Bool.noConfusion h
    · rename_i b
      obtain ⟨t, ht, hx⟩ := Option.any_eq_true _ _ |>.1 h
      simp [processItem, ht, readsAs, τ.cast_box, hx]
    · rename_i v
      obtain ⟨t, ht, hx⟩ := Option.any_eq_true _ _ |>.1 h
      simp [processItem, ht, readsAs, hx]
  sees := by
    intro mons als it h
    left
    cases it <;> simp only [readsAs] at h <;> try exact Bool.noConfusion h
    · rename_i b
      obtain ⟨t, ht, hx⟩ := Option.any_eq_true _ _ |>.1 h
      exact ⟨.user t, by simp [processItem, ht], t, rfl, hx⟩
    · rename_i v
      obtain ⟨t, ht, hx⟩ := Option.any_eq_true _ _ |>.1 h
      exact ⟨.user t, by simp [processItem, ht], t, rfl, hx⟩
  conv := by
    intro mons als it h
    cases hz : readsAs τ y (processItem τ mons als it).2.1 with
    | false => rfl
    | true => rw [readsAs_conv hc y mons als it hz] at h; exact h

theorem looks_blind {T' : Type} {τ : RecvType B V T} (x y : T → Bool) {τ' : RecvType B V T'} (hc : CoherentWith τ τ')
    (hb : ∀ it, readsAs τ x it = true → asMsg τ' it = none) : Looks τ x y τ' (fun _ => False) where
  keep := by
    intro mons als it h
    have := hb it h
    cases it <;> simp only [readsAs] at h <;> try exact Bool.noConfusion h
    · rename_i b
      cases hd : τ'.deser b with
      | none => simpa [processItem, hd, readsAs] using h
      | some t => simp [asMsg, hd] at this
    · rename_i v
      cases hd : τ'.cast v with
      | none => simpa [processItem, hd, readsAs] using h
      | some t => simp [asMsg, hd] at this
  sees := by
    intro mons als it h
    right
    have := hb it h
    cases it <;> simp only [readsAs] at h <;> try exact Bool.noConfusion h
    · rename_i b
      cases hd : τ'.deser b with
      | none => simp [processItem, hd]
      | some t => simp [asMsg, hd] at this
    · rename_i v
      cases hd : τ'.cast v with
      | none => simp [processItem, hd]
      | some t => simp [asMsg, hd] at this
  conv := by
    intro mons als it h
    cases hz : readsAs τ y (processItem τ' mons als it).2.1 with
    | false => rfl
    | true => rw [readsAs_conv hc y mons als it hz] at h; exact h

section scans
variable {T' : Type} {τ : RecvType B V T} {x y : T → Bool} {τ' : RecvType B V T'} {Hit : Msg T' → Prop}

theorem scanItems_prefix (f : Msg T' → Bool) (s : Bool) (l : List (Item B V)) : ∀ mons als done, done <+: (scanItems τ' f s mons als done l).2.1 := by
  induction l with
  | nil => intro mons als done; exact List.prefix_refl _
  | cons it rest ih =>
    intro mons als done
    rw [scanItems]
    generalize processItem τ' mons als it = z
    obtain ⟨res, it', mons', als'⟩ := z
    have hrec := ih mons' als' (done ++ [it'])
    have hp : done <+: done ++ [it'] := List.prefix_append ..
    cases res with
    | msg m => dsimp only; split; · exact List.prefix_append ..
               · exact hp.trans hrec
    | skip => exact hp.trans hrec
    | foreign => dsimp only; split; · exact List.prefix_append ..
                 · exact hp.trans hrec

theorem scanChan_prefix (f : Msg T' → Bool) (s : Bool) (l : List (Item B V)) : ∀ items mons als, items <+: (scanChan τ' f s items mons als l).2.items := by
  induction l with
  | nil => intro items mons als; exact List.prefix_refl _
  | cons it rest ih =>
    intro items mons als
    rw [scanChan]
    generalize processItem τ' mons als it = z
    obtain ⟨res, it', mons', als'⟩ := z
    have hrec := ih (items ++ [it']) mons' als'
    have hp : items <+: items ++ [it'] := List.prefix_append ..
    cases res with
    | msg m => dsimp only; split; · exact List.prefix_refl _
               · exact hp.trans hrec
    | skip => exact ih items mons' als'
    | foreign => dsimp only; split; · exact List.prefix_refl _
                 · exact hp.trans hrec

theorem ahead_prefix {l l' : List (Item B V)} (h : Ahead τ x y l) (hp : l <+: l') : Ahead τ x y l' := by
  obtain ⟨z, rfl⟩ := hp; exact ahead_append h z

/-- The outcome of a scan. -/
def ScanEnds (Hit : Msg T' → Prop) (res : Poll T') (rest : Prop) : Prop := (∃ m, res = .got m ∧ Hit m) ∨ res = .panicked ∨ rest

theorem scanItems_ahead (hl : Looks τ x y τ' Hit) (f : Msg T' → Bool) (s : Bool) (ch : List (Item B V)) (l : List (Item B V)) : ∀ mons als done,
    (∀ it ∈ done, readsAs τ y it = false) → Ahead τ x y (l ++ ch) →
    ScanEnds Hit (scanItems τ' f s mons als done l).1 (Ahead τ x y ((scanItems τ' f s mons als done l).2.1 ++ ch)) := by
  induction l with
  | nil => intro mons als done hd ha; exact .inr (.inr (ahead_after hd ha))
  | cons it rest ih =>
    intro mons als done hd ha
    have hkeep := hl.keep mons als it
    have hsees := hl.sees mons als it
    have hconv := hl.conv mons als it
    have hpre := fun mons als d => scanItems_prefix (τ' := τ') f s rest mons als d
    rw [scanItems]
    generalize processItem τ' mons als it = z at *
    obtain ⟨res, it', mons', als'⟩ := z
    dsimp only at *
    rcases ha with hx | ⟨hy, ha⟩
    · have hk := hkeep hx
      have hA : Ahead τ x y (done ++ [it']) := ahead_after hd (.inl hk)
      have hgo : Ahead τ x y ((scanItems τ' f s mons' als' (done ++ [it']) rest).2.1 ++ ch) :=
        ahead_append (ahead_prefix hA (hpre mons' als' (done ++ [it']))) _
      rcases hsees hx with ⟨m, rfl, hm⟩ | rfl
      · dsimp only
        split
        · exact .inl ⟨m, rfl, hm⟩
        · exact .inr (.inr hgo)
      · dsimp only
        split
        · exact .inr (.inl rfl)
        · exact .inr (.inr hgo)
    · have hy' := hconv hy
      have hd' : ∀ i ∈ done ++ [it'], readsAs τ y i = false := by
        intro i hi
        rcases List.mem_append.1 hi with h | h
        · exact hd i h
        · simp at h; subst h; exact hy'
      have hrec := ih mons' als' (done ++ [it']) hd' ha
      cases res with
      | msg m =>
        dsimp only
        split
        · exact .inr (.inr (by rw [List.append_assoc]; exact ahead_after hd ha))
        · exact hrec
      | skip => exact hrec
      | foreign =>
        dsimp only
        split
        · exact .inr (.inl rfl)
        · exact hrec

theorem scanChan_ahead (hl : Looks τ x y τ' Hit) (f : Msg T' → Bool) (s : Bool) (l : List (Item B V)) : ∀ items mons als,
    (∀ it ∈ items, readsAs τ y it = false) → Ahead τ x y l →
    ScanEnds Hit (scanChan τ' f s items mons als l).1
      (Ahead τ x y ((scanChan τ' f s items mons als l).2.items ++ (scanChan τ' f s items mons als l).2.chan)) := by
  induction l with
  | nil => intro items mons als hd ha; exact ha.elim
  | cons it rest ih =>
    intro items mons als hd ha
    have hkeep := hl.keep mons als it
    have hsees := hl.sees mons als it
    have hconv := hl.conv mons als it
    have hpre := fun mons als d => scanChan_prefix (τ' := τ') f s rest d mons als
    rw [scanChan]
    generalize processItem τ' mons als it = z at *
    obtain ⟨res, it', mons', als'⟩ := z
    dsimp only at *
    rcases ha with hx | ⟨hy, ha⟩
    · have hk := hkeep hx
      have hA : Ahead τ x y (items ++ [it']) := ahead_after hd (.inl hk)
      have hgo := ahead_append (ahead_prefix hA (hpre mons' als' (items ++ [it']))) (scanChan τ' f s (items ++ [it']) mons' als' rest).2.chan
      rcases hsees hx with ⟨m, rfl, hm⟩ | rfl
      · dsimp only
        split
        · exact .inl ⟨m, rfl, hm⟩
        · exact .inr (.inr hgo)
      · dsimp only
        split
        · exact .inr (.inl rfl)
        · exact .inr (.inr hgo)
    · have hy' := hconv hy
      have hd' : ∀ i ∈ items ++ [it'], readsAs τ y i = false := by
        intro i hi
        rcases List.mem_append.1 hi with h | h
        · exact hd i h
        · simp at h; subst h; exact hy'
      have hrec := ih (items ++ [it']) mons' als' hd' ha
      cases res with
      | msg m =>
        dsimp only
        split
        · exact .inr (.inr (ahead_after hd ha))
        · exact hrec
      | skip => exact ih items mons' als' hd ha
      | foreign =>
        dsimp only
        split
        · exact .inr (.inl rfl)
        · exact hrec

/-- A list with an item of `x` ahead: either the item is in the first part, or the first part has no item of `y`. -/
theorem ahead_split {a b : List (Item B V)} (h : Ahead τ x y (a ++ b)) : Ahead τ x y a ∨ (∀ it ∈ a, readsAs τ y it = false) ∧ Ahead τ x y b := by
  induction a with
  | nil => exact .inr ⟨by simp, h⟩
  | cons it a ih =>
    rcases h with h | ⟨hy, h⟩
    · exact .inl (.inl h)
    · rcases ih h with h | ⟨h1, h2⟩
      · exact .inl (.inr ⟨hy, h⟩)
      · refine .inr ⟨?_, h2⟩
        intro i hi
        rcases List.mem_cons.1 hi with rfl | hi
        · exact hy
        · exact h1 i hi

theorem resume_ahead (hl : Looks τ x y τ' Hit) (f : Msg T' → Bool) (s : Bool) (b : Box B V) (h : Ahead τ x y (b.items ++ b.chan)) :
    ScanEnds Hit (resume τ' f s b).1 (Ahead τ x y ((resume τ' f s b).2.items ++ (resume τ' f s b).2.chan)) := by
  unfold resume
  rcases ahead_split h with h | ⟨h1, h2⟩
  · exact .inr (.inr (ahead_append (ahead_prefix h (scanChan_prefix ..)) _))
  · exact scanChan_ahead hl f s _ _ _ _ h1 h2

theorem select_ahead (hl : Looks τ x y τ' Hit) (f : Msg T' → Bool) (s : Bool) (b : Box B V) (h : Ahead τ x y (b.items ++ b.chan)) :
    ScanEnds Hit (Mailbox.select τ' f s b).1 (Ahead τ x y ((Mailbox.select τ' f s b).2.items ++ (Mailbox.select τ' f s b).2.chan)) := by
  have h1 := scanItems_ahead hl f s b.chan b.items b.mons b.aliases [] (by simp) h
  unfold Mailbox.select
  generalize scanItems τ' f s b.mons b.aliases [] b.items = z at *
  obtain ⟨res, items, mons, als⟩ := z
  dsimp only at h1
  cases res with
  | pending =>
    dsimp only
    have h1 : Ahead τ x y (items ++ b.chan) := by
      rcases h1 with ⟨m, hm, -⟩ | hm | h1
      · cases hm
      · cases hm
      · exact h1
    rcases ahead_split h1 with h | ⟨h1, h2⟩
    · exact .inr (.inr (ahead_append (ahead_prefix h (scanChan_prefix ..)) _))
    · exact scanChan_ahead hl f s _ _ _ _ h1 h2
  | got m => exact h1
  | panicked => exact h1

/-! `remove` that does not accept the items of `x`. -/

theorem removeItems_ahead (hl : Looks τ x y τ' Hit) (f : Msg T' → Bool) (hf : ∀ m, Hit m → f m = false) (s : Bool) (ch : List (Item B V))
    (l : List (Item B V)) : ∀ mons als z, removeItems τ' f s mons als l = some z → Ahead τ x y (l ++ ch) → Ahead τ x y (z.1 ++ ch) := by
  induction l with
  | nil => intro mons als z hz ha; simp [removeItems] at hz; subst hz; exact ha
  | cons it rest ih =>
    intro mons als z hz ha
    have hkeep := hl.keep mons als it
    have hsees := hl.sees mons als it
    have hconv := hl.conv mons als it
    rw [removeItems] at hz
    generalize processItem τ' mons als it = p at *
    obtain ⟨res, it', mons', als'⟩ := p
    dsimp only at *
    have tail : ∀ r, removeItems τ' f s mons' als' rest = some r → (readsAs τ x it = true → Ahead τ x y (it' :: r.1 ++ ch)) ∧
        (readsAs τ y it = false → Ahead τ x y (rest ++ ch) → Ahead τ x y (r.1 ++ ch) ∧ Ahead τ x y (it' :: r.1 ++ ch)) := by
      intro r hr
      refine ⟨fun hx => .inl (hkeep hx), fun hy ha => ?_⟩
      have := ih mons' als' r hr ha
      exact ⟨this, .inr ⟨hconv hy, this⟩⟩
    cases res with
    | msg m =>
      dsimp only at hz
      cases hr : removeItems τ' f s mons' als' rest with
      | none => simp [hr] at hz
      | some r =>
        simp only [hr, Option.map_some, Option.some.injEq] at hz
        subst hz
        obtain ⟨t1, t2⟩ := tail r hr
        rcases ha with hx | ⟨hy, ha⟩
        · rcases hsees hx with ⟨m', hm', hh⟩ | hm'
          · cases hm'; simpa [hf m hh] using t1 hx
          · cases hm'
        · dsimp only; split
          · exact (t2 hy ha).1
          · exact (t2 hy ha).2
    | skip =>
      dsimp only at hz
      cases hr : removeItems τ' f s mons' als' rest with
      | none => simp [hr] at hz
      | some r =>
        simp only [hr, Option.map_some, Option.some.injEq] at hz
        subst hz
        obtain ⟨t1, t2⟩ := tail r hr
        rcases ha with hx | ⟨hy, ha⟩
        · exact t1 hx
        · exact (t2 hy ha).2
    | foreign =>
      dsimp only at hz
      split at hz
      · cases hz
      cases hr : removeItems τ' f s mons' als' rest with
      | none => simp [hr] at hz
      | some r =>
        simp only [hr, Option.map_some, Option.some.injEq] at hz
        subst hz
        obtain ⟨t1, t2⟩ := tail r hr
        rcases ha with hx | ⟨hy, ha⟩
        · exact t1 hx
        · exact (t2 hy ha).2

theorem removeChan_prefix (f : Msg T' → Bool) (s : Bool) (l : List (Item B V)) : ∀ items mons als b, removeChan τ' f s items mons als l = some b →
    items <+: b.items := by
  induction l with
  | nil => intro items mons als b hb; simp [removeChan] at hb; subst hb; exact List.prefix_refl _
  | cons it rest ih =>
    intro items mons als b hb
    rw [removeChan] at hb
    generalize processItem τ' mons als it = z at *
    obtain ⟨res, it', mons', als'⟩ := z
    have hp : items <+: items ++ [it'] := List.prefix_append ..
    cases res with
    | msg m =>
      dsimp only at hb; split at hb
      · exact ih _ _ _ _ hb
      · exact hp.trans (ih _ _ _ _ hb)
    | skip => exact ih _ _ _ _ hb
    | foreign =>
      dsimp only at hb; split at hb
      · cases hb
      · exact hp.trans (ih _ _ _ _ hb)

theorem removeChan_ahead (hl : Looks τ x y τ' Hit) (f : Msg T' → Bool) (hf : ∀ m, Hit m → f m = false) (s : Bool)
    (l : List (Item B V)) : ∀ items mons als b, removeChan τ' f s items mons als l = some b → (∀ it ∈ items, readsAs τ y it = false) → Ahead τ x y l →
      Ahead τ x y b.items := by
  induction l with
  | nil => intro items mons als b hb hd ha; exact ha.elim
  | cons it rest ih =>
    intro items mons als b hb hd ha
    have hkeep := hl.keep mons als it
    have hsees := hl.sees mons als it
    have hconv := hl.conv mons als it
    rw [removeChan] at hb
    generalize processItem τ' mons als it = p at *
    obtain ⟨res, it', mons', als'⟩ := p
    dsimp only at *
    have hd' : readsAs τ y it = false → ∀ i ∈ items ++ [it'], readsAs τ y i = false := by
      intro hy i hi
      rcases List.mem_append.1 hi with h | h
      · exact hd i h
      · simp at h; subst h; exact hconv hy
    have hA : readsAs τ x it = true → Ahead τ x y (items ++ [it']) := fun hx => ahead_after hd (.inl (hkeep hx))
    cases res with
    | msg m =>
      dsimp only at hb
      rcases ha with hx | ⟨hy, ha⟩
      · rcases hsees hx with ⟨m', hm', hh⟩ | hm'
        · cases hm'
          simp only [hf m hh, if_false, Bool.false_eq_true] at hb
          exact ahead_prefix (hA hx) (removeChan_prefix _ _ _ _ _ _ _ hb)
        · cases hm'
      · split at hb
        · exact ih _ _ _ _ hb hd ha
        · exact ih _ _ _ _ hb (hd' hy) ha
    | skip =>
      rcases ha with hx | ⟨hy, ha⟩
      · rcases hsees hx with ⟨m', hm', -⟩ | hm' <;> cases hm'
      · exact ih _ _ _ _ hb hd ha
    | foreign =>
      dsimp only at hb
      split at hb
      · cases hb
      rcases ha with hx | ⟨hy, ha⟩
      · exact ahead_prefix (hA hx) (removeChan_prefix _ _ _ _ _ _ _ hb)
      · exact ih _ _ _ _ hb (hd' hy) ha

theorem remove_ahead (hl : Looks τ x y τ' Hit) (f : Msg T' → Bool) (hf : ∀ m, Hit m → f m = false) (s : Bool) (b b' : Box B V)
    (hb : Mailbox.remove τ' f s b = some b') (h : Ahead τ x y (b.items ++ b.chan)) : Ahead τ x y (b'.items ++ b'.chan) := by
  unfold Mailbox.remove at hb
  cases hr : removeItems τ' f s b.mons b.aliases b.items with
  | none => simp [hr] at hb
  | some z =>
    obtain ⟨items, mons, als⟩ := z
    simp only [hr] at hb
    have h1 := removeItems_ahead hl f hf s b.chan _ _ _ _ hr h
    dsimp only at h1
    rcases ahead_split h1 with h | ⟨h1, h2⟩
    · exact ahead_append (ahead_prefix h (removeChan_prefix _ _ _ _ _ _ _ hb)) _
    · exact ahead_append (removeChan_ahead hl f hf s _ _ _ _ _ hb h1 h2) _

end scans

/-! ## A receive that accepts the items of `x` -/

section accept
variable {τ : RecvType B V T} {x y : T → Bool}

/-- The message is one of `p`. -/
def msgIs (p : T → Bool) : Msg T → Prop
  | .user t => p t = true
  | .system _ => False

theorem reads_msg {p : T → Bool} {mons als} {it : Item B V} (h : readsAs τ p it = true) : ∃ t, (processItem τ mons als it).1 = .msg (.user t) ∧ p t = true := by
  cases it <;> simp only [readsAs] at h <;> try exact Bool.noConfusion h
  all_goals
    obtain ⟨t, ht, hx⟩ := Option.any_eq_true _ _ |>.1 h
    exact ⟨t, by simp [processItem, ht], hx⟩

theorem not_msg {p : T → Bool} {mons als} {it : Item B V} (h : readsAs τ p it = false) {m : Msg T} (hm : (processItem τ mons als it).1 = .msg m) : ¬ msgIs p m := by
  intro hp
  cases m with
  | system s => exact hp
  | user t => rw [readsAs_msg hm hp] at h; cases h

variable (hdis : ∀ t, x t = true → y t = false) (f : Msg T → Bool) (hf : ∀ t, x t = true → f (.user t) = true) (s : Bool)
include hdis hf

theorem scanItems_first (ch : List (Item B V)) (l : List (Item B V)) : ∀ mons als done, Ahead τ x y (l ++ ch) →
    ((scanItems τ f s mons als done l).1 = .pending → Ahead τ x y ch) ∧ ∀ m, (scanItems τ f s mons als done l).1 = .got m → ¬ msgIs y m := by
  induction l with
  | nil => intro mons als done ha; exact ⟨fun _ => ha, by intro m h; cases h⟩
  | cons it rest ih =>
    intro mons als done ha
    have hx := reads_msg (τ := τ) (p := x) (mons := mons) (als := als) (it := it)
    have hy := fun h => @not_msg B V T τ y mons als it h
    rw [scanItems]
    generalize processItem τ mons als it = z at *
    obtain ⟨res, it', mons', als'⟩ := z
    dsimp only at *
    rcases ha with ha | ⟨hy', ha⟩
    · obtain ⟨t, rfl, ht⟩ := hx ha
      simp only [hf t ht, if_true]
      refine ⟨by simp, ?_⟩
      rintro m h hm
      cases h
      simp [msgIs, hdis t ht] at hm
    · have hrec := ih mons' als' (done ++ [it']) ha
      cases res with
      | msg m =>
        dsimp only; split
        · refine ⟨by simp, ?_⟩
          rintro m' h
          cases h
          exact hy hy' rfl
        · exact hrec
      | skip => exact hrec
      | foreign =>
        dsimp only; split
        · exact ⟨by simp, by simp⟩
        · exact hrec

theorem scanChan_first (l : List (Item B V)) : ∀ items mons als, Ahead τ x y l →
    (scanChan τ f s items mons als l).1 ≠ .pending ∧ ∀ m, (scanChan τ f s items mons als l).1 = .got m → ¬ msgIs y m := by
  induction l with
  | nil => intro items mons als ha; exact ha.elim
  | cons it rest ih =>
    intro items mons als ha
    have hx := reads_msg (τ := τ) (p := x) (mons := mons) (als := als) (it := it)
    have hy := fun h => @not_msg B V T τ y mons als it h
    rw [scanChan]
    generalize processItem τ mons als it = z at *
    obtain ⟨res, it', mons', als'⟩ := z
    dsimp only at *
    rcases ha with ha | ⟨hy', ha⟩
    · obtain ⟨t, rfl, ht⟩ := hx ha
      simp only [hf t ht, if_true]
      refine ⟨by simp, ?_⟩
      rintro m h hm
      cases h
      simp [msgIs, hdis t ht] at hm
    · have hrec := ih (items ++ [it']) mons' als' ha
      cases res with
      | msg m =>
        dsimp only; split
        · refine ⟨by simp, ?_⟩
          rintro m' h
          cases h
          exact hy hy' rfl
        · exact hrec
      | skip => exact ih items mons' als' ha
      | foreign =>
        dsimp only; split
        · exact ⟨by simp, by simp⟩
        · exact hrec

theorem select_first (b : Box B V) (h : Ahead τ x y (b.items ++ b.chan)) :
    (Mailbox.select τ f s b).1 ≠ .pending ∧ ∀ m, (Mailbox.select τ f s b).1 = .got m → ¬ msgIs y m := by
  have h1 := scanItems_first (τ := τ) hdis f hf s b.chan b.items b.mons b.aliases [] h
  unfold Mailbox.select
  generalize scanItems τ f s b.mons b.aliases [] b.items = z at *
  obtain ⟨res, items, mons, als⟩ := z
  dsimp only at h1
  cases res with
  | pending => exact scanChan_first (τ := τ) hdis f hf s _ _ _ _ (h1.1 rfl)
  | got m => exact ⟨by simp, h1.2⟩
  | panicked => exact ⟨by simp, h1.2⟩

theorem resume_first (b : Box B V) (h : Ahead τ x y b.chan) :
    (Mailbox.resume τ f s b).1 ≠ .pending ∧ ∀ m, (Mailbox.resume τ f s b).1 = .got m → ¬ msgIs y m :=
  scanChan_first (τ := τ) hdis f hf s _ _ _ _ h

end accept


/-! ## In the world -/

/-- The part of a mailbox that a receive looks at: all of it, or only the channel (a receive that has already looked at the rest). -/
def line (all : Bool) (b : Box B V) : List (Item B V) := (if all then b.items else []) ++ b.chan

/-- The process `P` has ended, or an item of `x` is ahead in its mailbox. -/
structure Lead (τ : RecvType B V T) (x y : T → Bool) (P : Nat) (all : Bool) (w : World B V) : Prop where
  lt : P < w.nextPid
  ahead : ∀ p, w.procs P = some p → p.ended = true ∨ Ahead τ x y (line all p.box)

/-- What an atom other than a receive does to the mailbox and to the end of a process. -/
theorem box_grows (w : World B V) (a : Atom B V) (P : Nat) (hlt : P < w.nextPid) (ha : ∀ o k, a ≠ .rbox P o k) (p : Proc B V) (hp : (act w a).procs P = some p) :
    ∃ q, w.procs P = some q ∧ (q.ended = true → p.ended = true) ∧ p.box.items = q.box.items ∧ ∃ l, p.box.chan = q.box.chan ++ l := by
  have e1 : pmap (·.box) (act w a) P = some p.box := by simp [pmap, hp]
  have e2 : pmap (fun p => (p.reason, p.aborted, p.ended)) (act w a) P = some (p.reason, p.aborted, p.ended) := by simp [pmap, hp]
  rw [box_act] at e1
  rw [fate_act] at e2
  cases hq : w.procs P with
  | none =>
    cases a <;> simp [pmap, hq] at e1
    omega
  | some q =>
    refine ⟨q, rfl, ?_, ?_⟩
    · intro he
      cases a <;> simp only [pmap, hq, Option.map_some] at e2
      all_goals first
        | (simp at e2; rw [← e2.2.2]; exact he)
        | (split at e2
           · simp at e2 <;> first
             | (rw [← e2.2.2]; exact he)
             | exact e2.2.2
             | omega
           · simp at e2; rw [← e2.2.2]; exact he)
    · cases a <;> simp only [pmap, hq, Option.map_some] at e1
      case rbox i o k =>
        split at e1
        · subst_vars; exact absurd rfl (ha o k)
        · simp at e1; rw [← e1]; exact ⟨rfl, [], (List.append_nil _).symm⟩
      all_goals first
        | (simp at e1; rw [← e1]; exact ⟨rfl, [], (List.append_nil _).symm⟩)
        | (split at e1
           · first
             | omega
             | (simp at e1; done)
             | (simp at e1; rw [← e1]; exact ⟨rfl, [], (List.append_nil _).symm⟩)
             | (simp at e1; rw [← e1]; exact ⟨rfl, [_], rfl⟩)
           · simp at e1; rw [← e1]; exact ⟨rfl, [], (List.append_nil _).symm⟩)

theorem lead_act {τ : RecvType B V T} {x y : T → Bool} {P : Nat} {all : Bool} {w : World B V} (h : Lead τ x y P all w) (a : Atom B V)
    (ha : ∀ o k, a ≠ .rbox P o k) : Lead τ x y P all (act w a) := by
  refine ⟨?_, ?_⟩
  · have := h.lt
    rw [nextPid_act]; split <;> omega
  · intro p hp
    obtain ⟨q, hq, he, hi, l, hc⟩ := box_grows w a P h.lt ha p hp
    refine (h.ahead q hq).imp he fun hA => ?_
    have : line all p.box = line all q.box ++ l := by simp [line, hi, hc]
    rw [this]; exact ahead_append hA l

theorem lead_step {τ : RecvType B V T} {x y : T → Bool} {P : Nat} {all : Bool} {w : World B V} (h : Lead τ x y P all w) (ser : V → B) (o : Op B V)
    (ho : ∀ ro k, o ≠ .recv P ro k) : Lead τ x y P all (step ser w o).1 := by
  refine (step_acts ser w o).inv (I := Lead τ x y P all) h ?_
  intro w' a ha h'
  refine lead_act h' a ?_
  rintro ro k rfl
  exact ho ro k ha

/-- The receives that leave the items of `x` alone unless they return them: receives of the same type, `remove`s that do not
accept them, and receives of types as which they cannot be read. -/
inductive Tame (τ : RecvType B V T) (x : T → Bool) : RecvOp B V → RecvKind → Prop
  | same (f s kind) : kind ≠ .remove → Tame τ x ⟨T, τ, f, s⟩ kind
  | keep (f s) : (∀ t, x t = true → f (.user t) = false) → Tame τ x ⟨T, τ, f, s⟩ .remove
  | other (o kind) : (∀ it, readsAs τ x it = true → asMsg o.τ it = none) → Tame τ x o kind

/-- What the receive does to a mailbox with an item of `x` ahead. -/
theorem recv_lead_gen {τ : RecvType B V T} {x y : T → Bool} {P : Nat} {w : World B V} (h : Lead τ x y P true w) (ser : V → B)
    (hr : running w P = true) (o : RecvOp B V) (kind : RecvKind) {Hit : Msg o.T → Prop} (hl : Looks τ x y o.τ Hit)
    (hrm : kind = .remove → ∀ m, Hit m → o.filter m = false) :
    (∃ m, received w P o kind = some m ∧ Hit m) ∨ Lead τ x y P true (step ser w (.recv P o kind)).1 := by
  rw [step_recv hr]
  obtain ⟨q, hq⟩ : ∃ q, w.procs P = some q := by
    cases hj : w.procs P with
    | none => simp [running, hj] at hr
    | some q => exact ⟨q, rfl⟩
  have hend : q.ended = false := by simpa [running, hq] using hr
  have hA : Ahead τ x y (q.box.items ++ q.box.chan) := by simpa [line] using (h.ahead q hq).resolve_left (by simp [hend])
  have keepL : ∀ b : Box B V, Ahead τ x y (b.items ++ b.chan) → Lead τ x y P true (modBox w P fun _ => b) := by
    intro b hb
    refine ⟨by simpa [modBox, modProc] using h.lt, ?_⟩
    intro p hp
    simp [modBox, modProc, upd_at, hq] at hp
    subst hp
    exact .inr (by simpa [line] using hb)
  have crashL : ∀ (w' : World B V) m, w'.nextPid = w.nextPid → Lead τ x y P true (crash w' P m) := by
    intro w' m hw'
    refine ⟨by simpa [crash, modProc, hw'] using h.lt, ?_⟩
    intro p hp
    simp only [crash, modProc, upd_at, if_true] at hp
    cases hz : w'.procs P with
    | none => simp [hz] at hp
    | some z => simp [hz] at hp; subst hp; exact .inl rfl
  simp only [received, recv, hq]
  cases kind with
  | select =>
    have := select_ahead hl o.filter o.strict q.box hA
    dsimp only
    generalize Mailbox.select o.τ o.filter o.strict q.box = z at *
    obtain ⟨res, b⟩ := z
    dsimp only at this
    cases res with
    | got m =>
      rcases this with ⟨m', hm', hh⟩ | hm' | this
      · cases hm'; exact .inl ⟨m, rfl, hh⟩
      · cases hm'
      · exact .inr (keepL b this)
    | pending =>
      rcases this with ⟨m', hm', hh⟩ | hm' | this
      · cases hm'
      · cases hm'
      · exact .inr (keepL b this)
    | panicked => exact .inr (crashL _ _ (by simp [modBox, modProc]))
  | resume =>
    have := resume_ahead hl o.filter o.strict q.box hA
    dsimp only
    generalize Mailbox.resume o.τ o.filter o.strict q.box = z at *
    obtain ⟨res, b⟩ := z
    dsimp only at this
    cases res with
    | got m =>
      rcases this with ⟨m', hm', hh⟩ | hm' | this
      · cases hm'; exact .inl ⟨m, rfl, hh⟩
      · cases hm'
      · exact .inr (keepL b this)
    | pending =>
      rcases this with ⟨m', hm', hh⟩ | hm' | this
      · cases hm'
      · cases hm'
      · exact .inr (keepL b this)
    | panicked => exact .inr (crashL _ _ (by simp [modBox, modProc]))
  | remove =>
    right
    dsimp only
    cases hb : Mailbox.remove o.τ o.filter o.strict q.box with
    | none => exact crashL _ _ rfl
    | some b' => exact keepL b' (remove_ahead hl o.filter (hrm rfl) o.strict q.box b' hb hA)

/-- The receive of a message of `x` (of type `τ`) by `P`. -/
def Takes (τ : RecvType B V T) (x : T → Bool) (P : Nat) (w : World B V) (o : Op B V) : Prop :=
  ∃ f s kind t, o = .recv P ⟨T, τ, f, s⟩ kind ∧ running w P = true ∧ received w P ⟨T, τ, f, s⟩ kind = some (.user t) ∧ x t = true

theorem recv_lead {τ : RecvType B V T} {x y : T → Bool} {P : Nat} {w : World B V} (h : Lead τ x y P true w) (ser : V → B)
    (o : RecvOp B V) (kind : RecvKind) (hc : CoherentWith τ o.τ) (ht : Tame τ x o kind) :
    Takes τ x P w (.recv P o kind) ∨ Lead τ x y P true (step ser w (.recv P o kind)).1 := by
  cases hr : running w P with
  | false =>
    right
    have : (step ser w (.recv P o kind)).1 = w := by simp [step, Op.caller, hr]
    rw [this]; exact h
  | true =>
    cases ht with
    | same f s _ hk =>
      rcases recv_lead_gen h ser hr ⟨T, τ, f, s⟩ kind (looks_same x y hc) (fun hk' => absurd hk' hk) with ⟨m, hm, t, rfl, ht⟩ | h
      · exact .inl ⟨f, s, kind, t, rfl, hr, hm, ht⟩
      · exact .inr h
    | keep f s hf =>
      rcases recv_lead_gen h ser hr ⟨T, τ, f, s⟩ .remove (looks_same x y hc) (by rintro - m ⟨t, rfl, ht⟩; exact hf t ht) with ⟨m, hm, t, rfl, ht⟩ | h
      · exact .inl ⟨f, s, .remove, t, rfl, hr, hm, ht⟩
      · exact .inr h
    | other _ _ hb =>
      rcases recv_lead_gen h ser hr o kind (looks_blind x y hc hb) (fun _ m hm => hm.elim) with ⟨m, -, hm⟩ | h
      · exact hm.elim
      · exact .inr h

/-! ## The arrival of the first message -/

/-- Like `acts_sentBy`, and receives are only those of the operation itself. -/
theorem acts_sentBy_recv (ser : V → B) (w : World B V) (o : Op B V) :
    Acts (fun a => (∀ j x, a = .put j x → isUser x = true → SentBy ser o x) ∧ ∀ i ro k, a = .rbox i ro k → o = .recv i ro k) w (step ser w o).1 := by
  by_cases hs : ∃ me ds v, o = .send me ds v
  · obtain ⟨me, ds, v, rfl⟩ := hs
    simp only [step, Op.caller]
    split
    · simp only [Op.exec]
      refine acts_send ?_ ser w ds v ?_ ?_ ?_ ?_ ?_
      · refine ⟨?_, ?_, ?_⟩ <;> intros <;> simp
      · intros; exact ⟨fun _ _ h => (by cases h), fun _ _ _ h => (by cases h)⟩
      · intros; exact ⟨fun _ _ h => (by cases h), fun _ _ _ h => (by cases h)⟩
      · intros; exact ⟨fun _ _ h => (by cases h), fun _ _ _ h => (by cases h)⟩
      · intro i; exact ⟨fun _ _ h _ => (by cases h; exact .serial ..), fun _ _ _ h => (by cases h)⟩
      · intro i; exact ⟨fun _ _ h _ => (by cases h; exact .local ..), fun _ _ _ h => (by cases h)⟩
    · exact .refl _
  · refine (step_acts ser w o).mono ?_
    refine fun a ha => ⟨?_, ?_⟩
    · rintro j it rfl hu
      cases it <;> simp [isUser] at hu
      · rcases ha with ⟨me, ds, v, rfl⟩ | ⟨rp, n, ts, rfl⟩
        · exact absurd ⟨_, _, _, rfl⟩ hs
        · exact .frame ..
      · obtain ⟨me, ds, rfl⟩ := ha; exact .local ..
    · rintro i ro k rfl; exact ha

/-- The operation puts a message of `x` into the mailbox of `P`. -/
def Lands (ser : V → B) (τ : RecvType B V T) (x : T → Bool) (P : Nat) (w : World B V) (o : Op B V) : Prop :=
  ∃ l it, (step ser w o).1.sent = w.sent ++ l ∧ (P, it) ∈ l ∧ readsAs τ x it = true

/-- No message of `y` was ever put into the mailbox of `P`, and there is none. -/
structure NoneSent (τ : RecvType B V T) (y : T → Bool) (P : Nat) (w : World B V) : Prop where
  sent : sentTo τ y P w = 0
  taken : Taken τ y P w 0
  lt : ∀ p, w.procs P = some p → P < w.nextPid

theorem NoneSent.box {τ : RecvType B V T} {y : T → Bool} {P : Nat} {w : World B V} (h : NoneSent τ y P w) {p : Proc B V} (hp : w.procs P = some p) :
    ∀ it ∈ p.box.items ++ p.box.chan, readsAs τ y it = false := by
  have h1 := h.taken.box p.box (by simp [pmap, hp])
  rw [h.sent] at h1
  simp only [boxCnt, cnt] at h1
  intro it hit
  have : List.countP (readsAs τ y) (p.box.items ++ p.box.chan) = 0 := by rw [List.countP_append]; omega
  cases hb : readsAs τ y it with
  | false => rfl
  | true => exact absurd hb (List.countP_eq_zero.1 this it hit)

theorem noneSent_act {τ : RecvType B V T} {y : T → Bool} {P : Nat} {w : World B V} (h : NoneSent τ y P w) (a : Atom B V)
    (hc : ∀ o k, a = .rbox P o k → CoherentWith τ o.τ) (hput : ∀ it, a = .put P it → readsAs τ y it = false) : NoneSent τ y P (act w a) := by
  refine ⟨?_, taken_act h.taken a hc, ?_⟩
  · have hs := sent_act w a
    have h0 := h.sent
    have more : ∀ i it, (act w a).sent = w.sent ++ [(i, it)] → (i = P → readsAs τ y it = false) → sentTo τ y P (act w a) = 0 := by
      intro i it he hr
      simp only [sentTo] at h0
      simp only [sentTo, he, List.countP_append, List.countP_cons, List.countP_nil, h0]
      by_cases hi : i = P
      · simp [hr hi]
      · simp [hi]
    have same : (act w a).sent = w.sent → sentTo τ y P (act w a) = 0 := by
      intro he; simpa [sentTo, he] using h0
    cases a <;> simp only [] at hs <;> try exact same hs
    all_goals (split at hs <;> try exact same hs)
    · refine more _ _ hs ?_
      rintro rfl; exact hput _ rfl
    · exact more _ _ hs fun _ => rfl
    · exact more _ _ hs fun _ => rfl
  · intro p hp
    by_cases hlt : P < w.nextPid
    · have := nextPid_act w a
      rw [this]; split <;> omega
    · have hq : w.procs P = none := by
        cases hq : w.procs P with
        | none => rfl
        | some q => exact absurd (h.lt q hq) hlt
      have e1 : pmap (·.box) (act w a) P = some p.box := by simp [pmap, hp]
      rw [box_act] at e1
      rw [nextPid_act]
      cases a <;> simp [pmap, hq] at e1
      show P < w.nextPid + 1; omega

theorem noneSent_step {τ : RecvType B V T} {y : T → Bool} {P : Nat} {w : World B V} (h : NoneSent τ y P w) (ser : V → B) (o : Op B V)
    (hc : ∀ a ro k, o = .recv a ro k → CoherentWith τ ro.τ) (hy : ¬ Sends ser τ y o) : NoneSent τ y P (step ser w o).1 := by
  have hw := acts_sentBy_recv ser w o
  refine hw.inv (I := NoneSent τ y P) h ?_
  rintro w' a ⟨h1, h2⟩ h'
  refine noneSent_act h' a (fun ro k ha => hc P ro k (h2 P ro k ha)) ?_
  intro it ha
  cases hr : readsAs τ y it with
  | false => rfl
  | true =>
    obtain ⟨t, ht, hp⟩ := (readsAs_iff τ y it).1 hr
    exact absurd ⟨it, t, h1 _ _ ha (readsAs_user hr), ht, hp⟩ hy

theorem noneSent_init (τ : RecvType B V T) (y : T → Bool) (P : Nat) : NoneSent τ y P (init : World B V) :=
  ⟨rfl, ⟨Nat.zero_le _, by intro b hb; simp [pmap, init] at hb⟩, by intro p hp; simp [init] at hp⟩

theorem noneSent_run {τ : RecvType B V T} {y : T → Bool} {P : Nat} (ser : V → B) (os : List (Op B V)) : ∀ {w : World B V}, NoneSent τ y P w → Coherent τ os →
    (∀ o ∈ os, ¬ Sends ser τ y o) → NoneSent τ y P (run ser w os) := by
  induction os with
  | nil => intro w h _ _; exact h
  | cons o os ih =>
    intro w h hc hy
    rw [run_cons]
    refine ih (noneSent_step h ser o ?_ (hy o (by simp))) (fun a ro k hm => hc a ro k (.tail _ hm)) (fun o' ho' => hy o' (by simp [ho']))
    rintro a ro k rfl; exact hc a ro k List.mem_cons_self

/-- When the first message arrives, it is ahead. -/
theorem lands_lead {τ : RecvType B V T} {x y : T → Bool} {P : Nat} {w : World B V} (h : NoneSent τ y P w) (ser : V → B) (o : Op B V)
    (ho : ∀ ro k, o ≠ .recv P ro k) (hy : ¬ Sends ser τ y o) (hl : Lands ser τ x P w o) :
    ∀ all, Lead τ x y P all (step ser w o).1 := by
  have key : ∀ w', Acts (fun a => (∀ j x, a = .put j x → isUser x = true → SentBy ser o x) ∧ ∀ i ro k, a = .rbox i ro k → o = .recv i ro k) w w' →
      NoneSent τ y P w' ∧ ∃ l, w'.sent = w.sent ++ l ∧ ((∀ it, (P, it) ∈ l → readsAs τ x it = false) ∨ ∀ all, Lead τ x y P all w') := by
    intro w' hw
    induction hw with
    | refl => exact ⟨h, [], by simp, .inl (by simp)⟩
    | @tail w1 a _ hq ih =>
      obtain ⟨hcl, l, hs, hcase⟩ := ih
      have hnr : ∀ ro k, a ≠ .rbox P ro k := fun ro k ha => ho ro k (hq.2 P ro k ha)
      have hput : ∀ it, a = .put P it → readsAs τ y it = false := by
        intro it ha
        cases hr : readsAs τ y it with
        | false => rfl
        | true =>
          obtain ⟨t, ht, hp⟩ := (readsAs_iff τ y it).1 hr
          exact absurd ⟨it, t, hq.1 _ _ ha (readsAs_user hr), ht, hp⟩ hy
      refine ⟨noneSent_act hcl a (fun ro k ha => absurd ha (hnr ro k)) hput, ?_⟩
      have hsa := sent_act w1 a
      have app : ∀ i it, (act w1 a).sent = w1.sent ++ [(i, it)] → readsAs τ x it = false →
          ∃ l, (act w1 a).sent = w.sent ++ l ∧ ((∀ it, (P, it) ∈ l → readsAs τ x it = false) ∨ ∀ all, Lead τ x y P all (act w1 a)) := by
        intro i it he hr
        refine ⟨l ++ [(i, it)], by rw [he, hs]; simp, ?_⟩
        rcases hcase with hc | hc
        · left
          intro it' hm
          rcases List.mem_append.1 hm with hm | hm
          · exact hc it' hm
          · simp at hm; obtain ⟨-, rfl⟩ := hm; exact hr
        · exact .inr fun all => lead_act (hc all) a hnr
      have same : (act w1 a).sent = w1.sent →
          ∃ l, (act w1 a).sent = w.sent ++ l ∧ ((∀ it, (P, it) ∈ l → readsAs τ x it = false) ∨ ∀ all, Lead τ x y P all (act w1 a)) := by
        intro he
        refine ⟨l, by rw [he, hs], ?_⟩
        rcases hcase with hc | hc
        · exact .inl hc
        · exact .inr fun all => lead_act (hc all) a hnr
      cases a <;> simp only [] at hsa <;> try exact same hsa
      all_goals (split at hsa <;> try exact same hsa)
      · rename_i i it hsome
        by_cases hi : i = P ∧ readsAs τ x it = true
        · obtain ⟨rfl, hx⟩ := hi
          refine ⟨l ++ [(i, it)], by rw [hsa, hs]; simp, .inr fun all => ?_⟩
          cases hp : w1.procs i with
          | none => simp [hp] at hsome
          | some q =>
            have hbox := hcl.box hp
            refine ⟨by rw [nextPid_act]; exact hcl.lt q hp, ?_⟩
            intro p hp'
            right
            have e1 : pmap (·.box) (act w1 (.put i it)) i = some p.box := by simp [pmap, hp']
            rw [box_act] at e1
            simp [pmap, hp] at e1
            have : line all p.box = line all q.box ++ [it] := by rw [← e1]; simp [line, deliver]
            rw [this]
            refine ahead_after ?_ (.inl hx)
            intro i' hi'
            refine hbox i' ?_
            simp only [line] at hi'
            cases all
            · simp at hi'; simp [hi']
            · simpa using hi'
        · by_cases hi' : i = P
          · exact app i it hsa (by
              cases hr : readsAs τ x it with
              | false => rfl
              | true => exact absurd ⟨hi', hr⟩ hi)
          · refine ⟨l ++ [(i, it)], by rw [hsa, hs]; simp, ?_⟩
            rcases hcase with hc | hc
            · left
              intro it' hm
              rcases List.mem_append.1 hm with hm | hm
              · exact hc it' hm
              · simp at hm; exact absurd hm.1.symm hi'
            · exact .inr fun all => lead_act (hc all) _ hnr
      · exact app _ _ hsa rfl
      · exact app _ _ hsa rfl
  obtain ⟨-, l, hs, hcase⟩ := key _ (acts_sentBy_recv ser w o)
  obtain ⟨l', it, hs', hm, hx⟩ := hl
  have : l = l' := by rw [hs] at hs'; exact List.append_cancel_left hs'
  subst this
  rcases hcase with hc | hc
  · rw [hc it hm] at hx; cases hx
  · exact hc

/-- A receive puts nothing into a mailbox. -/
theorem recv_lands {ser : V → B} {τ : RecvType B V T} {x : T → Bool} {P i : Nat} {w : World B V} {ro : RecvOp B V} {k : RecvKind} :
    ¬ Lands ser τ x P w (.recv i ro k) := by
  rintro ⟨l, it, hs, hm, hx⟩
  have : (step ser w (.recv i ro k)).1.sent = w.sent := by
    cases hr : running w i with
    | false => simp [step, Op.caller, hr]
    | true =>
      rw [step_recv hr]
      cases hp : w.procs i with
      | none => simp [running, hp] at hr
      | some q => rcases recv_eq w i ro k q hp with h | ⟨m, h⟩ <;> rw [h] <;> simp [modBox, modProc, crash]
  rw [this] at hs
  have : l = [] := by simpa using hs
  subst this
  simp at hm

end Verif.World
