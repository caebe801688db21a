import Verif.HonestProps
import Verif.ReceiveOrderProps
/-!
# How long a message can wait in the mailbox: lemmas (C128)
-/
namespace Verif.World
open Verif.Mailbox
variable {B V T R : Type}

/-- In the list there is an item that reads as `x`, and at most `k` items are before it. -/
def Within (τ : RecvType B V T) (x : T → Bool) : Nat → List (Item B V) → Prop
  | _, [] => False
  | k, it :: l => readsAs τ x it = true ∨ 0 < k ∧ Within τ x (k - 1) l

/-- The definition in words. -/
theorem within_iff {τ : RecvType B V T} {x : T → Bool} (k : Nat) (l : List (Item B V)) :
    Within τ x k l ↔ ∃ a it b, l = a ++ it :: b ∧ a.length ≤ k ∧ readsAs τ x it = true := by
  induction l generalizing k with
  | nil => simp [Within]
  | cons z l ih =>
    simp only [Within, ih]
    constructor
    · rintro (h | ⟨hk, a, it, b, rfl, hl, hr⟩)
      · exact ⟨[], z, l, rfl, Nat.zero_le _, h⟩
      · exact ⟨z :: a, it, b, rfl, by simp; omega, hr⟩
    · rintro ⟨a, it, b, he, hl, hr⟩
      cases a with
      | nil => simp at he; obtain ⟨rfl, rfl⟩ := he; exact .inl hr
      | cons y a =>
        simp at he hl
        obtain ⟨rfl, rfl⟩ := he
        exact .inr ⟨by omega, a, it, b, rfl, by omega, hr⟩

section lists
variable {τ : RecvType B V T} {x : T → Bool}

theorem within_mono {k k' : Nat} {l : List (Item B V)} (h : Within τ x k l) (hk : k ≤ k') : Within τ x k' l := by
  rw [within_iff] at *
  obtain ⟨a, it, b, rfl, hl, hr⟩ := h
  exact ⟨a, it, b, rfl, by omega, hr⟩

theorem within_append {k : Nat} {l : List (Item B V)} (h : Within τ x k l) (l' : List (Item B V)) : Within τ x k (l ++ l') := by
  rw [within_iff] at *
  obtain ⟨a, it, b, rfl, hl, hr⟩ := h
  exact ⟨a, it, b ++ l', by simp, hl, hr⟩

theorem within_prefix {k : Nat} {l l' : List (Item B V)} (h : Within τ x k l) (hp : l <+: l') : Within τ x k l' := by
  obtain ⟨z, rfl⟩ := hp; exact within_append h z

theorem within_after {k : Nat} {l : List (Item B V)} (d : List (Item B V)) (h : Within τ x k l) : Within τ x (d.length + k) (d ++ l) := by
  rw [within_iff] at *
  obtain ⟨a, it, b, rfl, hl, hr⟩ := h
  exact ⟨d ++ a, it, b, by simp, by simp; omega, hr⟩

theorem within_split {k : Nat} {a b : List (Item B V)} (h : Within τ x k (a ++ b)) : Within τ x k a ∨ a.length ≤ k ∧ Within τ x (k - a.length) b := by
  induction a generalizing k with
  | nil => exact .inr ⟨by simp, by simpa using h⟩
  | cons it a ih =>
    rcases h with h | ⟨hk, h⟩
    · exact .inl (.inl h)
    · rcases ih h with h | ⟨h1, h2⟩
      · exact .inl (.inr ⟨hk, h⟩)
      · refine .inr ⟨by simp; omega, ?_⟩
        have : k - (it :: a).length = k - 1 - a.length := by simp; omega
        rw [this]; exact h2

theorem within_ahead {k : Nat} {l : List (Item B V)} (h : Within τ x k l) : Ahead τ x (fun _ => false) l := by
  induction l generalizing k with
  | nil => exact h
  | cons it l ih =>
    rcases h with h | ⟨-, h⟩
    · exact .inl h
    · refine .inr ⟨?_, ih h⟩
      cases it <;> simp [readsAs]

theorem ahead_within {y : T → Bool} {l : List (Item B V)} (h : Ahead τ x y l) : Within τ x l.length l := by
  induction l with
  | nil => exact h
  | cons it l ih =>
    rcases h with h | ⟨-, h⟩
    · exact .inl h
    · exact .inr ⟨by simp, by simpa using ih h⟩

end lists

section scans
variable {T' : Type} {τ : RecvType B V T} {x : T → Bool} {τ' : RecvType B V T'} {Hit : Msg T' → Prop}

theorem scanItems_within (hl : Looks τ x (fun _ => false) τ' Hit) (f : Msg T' → Bool) (s : Bool) (ch : List (Item B V)) (l : List (Item B V)) : ∀ k mons als done,
    Within τ x k (l ++ ch) →
    ScanEnds Hit (scanItems τ' f s mons als done l).1 (Within τ x (done.length + k) ((scanItems τ' f s mons als done l).2.1 ++ ch)) := by
  induction l with
  | nil => intro k mons als done ha; exact .inr (.inr (within_after done ha))
  | cons it rest ih =>
    intro k mons als done ha
    have hkeep := hl.keep mons als it
    have hsees := hl.sees mons als it
    have hpre := fun mons als d => scanItems_prefix (τ' := τ') f s rest mons als d
    rw [scanItems]
    generalize processItem τ' mons als it = z at *
    obtain ⟨res, it', mons', als'⟩ := z
    dsimp only at *
    rcases ha with hx | ⟨hk0, ha⟩
    · have hk := hkeep hx
      have hA : Within τ x (done.length + k) (done ++ [it']) := within_after done (.inl hk)
      have hgo : Within τ x (done.length + k) ((scanItems τ' f s mons' als' (done ++ [it']) rest).2.1 ++ ch) :=
        within_append (within_prefix hA (hpre mons' als' (done ++ [it']))) _
      rcases hsees hx with ⟨m, rfl, hm⟩ | rfl
      · dsimp only
        split
        · exact .inl ⟨m, rfl, hm⟩
        · exact .inr (.inr hgo)
      · dsimp only
        split
        · exact .inr (.inl rfl)
        · exact .inr (.inr hgo)
    · have hrec := ih (k - 1) mons' als' (done ++ [it']) ha
      have e : (done ++ [it']).length + (k - 1) = done.length + k := by simp; omega
      rw [e] at hrec
      cases res with
      | msg m =>
        dsimp only
        split
        · exact .inr (.inr (by rw [List.append_assoc]; exact within_mono (within_after done ha) (by omega)))
        · exact hrec
      | skip => exact hrec
      | foreign =>
        dsimp only
        split
        · exact .inr (.inl rfl)
        · exact hrec

theorem scanChan_within (hl : Looks τ x (fun _ => false) τ' Hit) (f : Msg T' → Bool) (s : Bool) (l : List (Item B V)) : ∀ k items mons als,
    Within τ x k l →
    ScanEnds Hit (scanChan τ' f s items mons als l).1
      (Within τ x (items.length + k) ((scanChan τ' f s items mons als l).2.items ++ (scanChan τ' f s items mons als l).2.chan)) := by
  induction l with
  | nil => intro k items mons als ha; exact ha.elim
  | cons it rest ih =>
    intro k items mons als ha
    have hkeep := hl.keep mons als it
    have hsees := hl.sees mons als it
    have hpre := fun mons als d => scanChan_prefix (τ' := τ') f s rest d mons als
    rw [scanChan]
    generalize processItem τ' mons als it = z at *
    obtain ⟨res, it', mons', als'⟩ := z
    dsimp only at *
    rcases ha with hx | ⟨hk0, ha⟩
    · have hk := hkeep hx
      have hA : Within τ x (items.length + k) (items ++ [it']) := within_after items (.inl hk)
      have hgo := within_append (within_prefix hA (hpre mons' als' (items ++ [it']))) (scanChan τ' f s (items ++ [it']) mons' als' rest).2.chan
      rcases hsees hx with ⟨m, rfl, hm⟩ | rfl
      · dsimp only
        split
        · exact .inl ⟨m, rfl, hm⟩
        · exact .inr (.inr hgo)
      · dsimp only
        split
        · exact .inr (.inl rfl)
        · exact .inr (.inr hgo)
    · have hrec := ih (k - 1) (items ++ [it']) mons' als' ha
      have e : (items ++ [it']).length + (k - 1) = items.length + k := by simp; omega
      rw [e] at hrec
      cases res with
      | msg m =>
        dsimp only
        split
        · exact .inr (.inr (within_mono (within_after items ha) (by omega)))
        · exact hrec
      | skip =>
        rcases ih (k - 1) items mons' als' ha with h | h | h
        · exact .inl h
        · exact .inr (.inl h)
        · exact .inr (.inr (within_mono h (by omega)))
      | foreign =>
        dsimp only
        split
        · exact .inr (.inl rfl)
        · exact hrec

theorem resume_within (hl : Looks τ x (fun _ => false) τ' Hit) (f : Msg T' → Bool) (s : Bool) (b : Box B V) (k : Nat) (h : Within τ x k (b.items ++ b.chan)) :
    ScanEnds Hit (resume τ' f s b).1 (Within τ x k ((resume τ' f s b).2.items ++ (resume τ' f s b).2.chan)) := by
  unfold resume
  rcases within_split h with h | ⟨h1, h2⟩
  · exact .inr (.inr (within_append (within_prefix h (scanChan_prefix ..)) _))
  · have := scanChan_within hl f s _ _ b.items b.mons b.aliases h2
    rwa [show b.items.length + (k - b.items.length) = k by omega] at this

theorem select_within (hl : Looks τ x (fun _ => false) τ' Hit) (f : Msg T' → Bool) (s : Bool) (b : Box B V) (k : Nat) (h : Within τ x k (b.items ++ b.chan)) :
    ScanEnds Hit (Mailbox.select τ' f s b).1 (Within τ x k ((Mailbox.select τ' f s b).2.items ++ (Mailbox.select τ' f s b).2.chan)) := by
  have h1 := scanItems_within hl f s b.chan b.items k b.mons b.aliases [] h
  unfold Mailbox.select
  generalize scanItems τ' f s b.mons b.aliases [] b.items = z at *
  obtain ⟨res, items, mons, als⟩ := z
  dsimp only at h1
  simp only [List.length_nil, Nat.zero_add] at h1
  cases res with
  | pending =>
    dsimp only
    have h1 : Within τ x k (items ++ b.chan) := by
      rcases h1 with ⟨m, hm, -⟩ | hm | h1
      · cases hm
      · cases hm
      · exact h1
    rcases within_split h1 with h | ⟨h1, h2⟩
    · exact .inr (.inr (within_append (within_prefix h (scanChan_prefix ..)) _))
    · have := scanChan_within hl f s _ _ items mons als h2
      rwa [show items.length + (k - items.length) = k by omega] at this
  | got m => exact h1
  | panicked => exact h1

theorem removeItems_within (hl : Looks τ x (fun _ => false) τ' Hit) (f : Msg T' → Bool) (hf : ∀ m, Hit m → f m = false) (s : Bool) (ch : List (Item B V))
    (l : List (Item B V)) : ∀ k mons als z, removeItems τ' f s mons als l = some z → Within τ x k (l ++ ch) → Within τ x k (z.1 ++ ch) := by
  induction l with
  | nil => intro k mons als z hz ha; simp [removeItems] at hz; subst hz; exact ha
  | cons it rest ih =>
    intro k mons als z hz ha
    have hkeep := hl.keep mons als it
    have hsees := hl.sees mons als it
    rw [removeItems] at hz
    generalize processItem τ' mons als it = p at *
    obtain ⟨res, it', mons', als'⟩ := p
    dsimp only at *
    have tail : ∀ r, removeItems τ' f s mons' als' rest = some r → (readsAs τ x it = true → Within τ x k (it' :: r.1 ++ ch)) ∧
        (0 < k → Within τ x (k - 1) (rest ++ ch) → Within τ x k (r.1 ++ ch) ∧ Within τ x k (it' :: r.1 ++ ch)) := by
      intro r hr
      refine ⟨fun hx => .inl (hkeep hx), fun hy ha => ?_⟩
      have := ih (k - 1) mons' als' r hr ha
      exact ⟨within_mono this (by omega), .inr ⟨hy, this⟩⟩
    cases res with
    | msg m =>
      dsimp only at hz
      cases hr : removeItems τ' f s mons' als' rest with
      | none => simp [hr] at hz
      | some r =>
        simp only [hr, Option.map_some, Option.some.injEq] at hz
        subst hz
        obtain ⟨t1, t2⟩ := tail r hr
        rcases ha with hx | ⟨hy, ha⟩
        · rcases hsees hx with ⟨m', hm', hh⟩ | hm'
          · cases hm'; simpa [hf m hh] using t1 hx
          · cases hm'
        · dsimp only; split
          · exact (t2 hy ha).1
          · exact (t2 hy ha).2
    | skip =>
      dsimp only at hz
      cases hr : removeItems τ' f s mons' als' rest with
      | none => simp [hr] at hz
      | some r =>
        simp only [hr, Option.map_some, Option.some.injEq] at hz
        subst hz
        obtain ⟨t1, t2⟩ := tail r hr
        rcases ha with hx | ⟨hy, ha⟩
        · exact t1 hx
        · exact (t2 hy ha).2
    | foreign =>
      dsimp only at hz
      split at hz
      · cases hz
      cases hr : removeItems τ' f s mons' als' rest with
      | none => simp [hr] at hz
      | some r =>
        simp only [hr, Option.map_some, Option.some.injEq] at hz
        subst hz
        obtain ⟨t1, t2⟩ := tail r hr
        rcases ha with hx | ⟨hy, ha⟩
        · exact t1 hx
        · exact (t2 hy ha).2

theorem removeChan_within (hl : Looks τ x (fun _ => false) τ' Hit) (f : Msg T' → Bool) (hf : ∀ m, Hit m → f m = false) (s : Bool)
    (l : List (Item B V)) : ∀ k items mons als b, removeChan τ' f s items mons als l = some b → Within τ x k l → Within τ x (items.length + k) b.items := by
  induction l with
  | nil => intro k items mons als b hb ha; exact ha.elim
  | cons it rest ih =>
    intro k items mons als b hb ha
    have hkeep := hl.keep mons als it
    have hsees := hl.sees mons als it
    rw [removeChan] at hb
    generalize processItem τ' mons als it = p at *
    obtain ⟨res, it', mons', als'⟩ := p
    dsimp only at *
    have hA : readsAs τ x it = true → Within τ x (items.length + k) (items ++ [it']) := fun hx => within_after items (.inl (hkeep hx))
    have e : 0 < k → (items ++ [it']).length + (k - 1) = items.length + k := by intro; simp; omega
    cases res with
    | msg m =>
      dsimp only at hb
      rcases ha with hx | ⟨hy, ha⟩
      · rcases hsees hx with ⟨m', hm', hh⟩ | hm'
        · cases hm'
          simp only [hf m hh, if_false, Bool.false_eq_true] at hb
          exact within_prefix (hA hx) (removeChan_prefix _ _ _ _ _ _ _ hb)
        · cases hm'
      · split at hb
        · exact within_mono (ih _ _ _ _ _ hb ha) (by omega)
        · have := ih _ _ _ _ _ hb ha; rwa [e hy] at this
    | skip =>
      rcases ha with hx | ⟨hy, ha⟩
      · rcases hsees hx with ⟨m', hm', -⟩ | hm' <;> cases hm'
      · exact within_mono (ih _ _ _ _ _ hb ha) (by omega)
    | foreign =>
      dsimp only at hb
      split at hb
      · cases hb
      rcases ha with hx | ⟨hy, ha⟩
      · exact within_prefix (hA hx) (removeChan_prefix _ _ _ _ _ _ _ hb)
      · have := ih _ _ _ _ _ hb ha; rwa [e hy] at this

theorem remove_within (hl : Looks τ x (fun _ => false) τ' Hit) (f : Msg T' → Bool) (hf : ∀ m, Hit m → f m = false) (s : Bool) (b b' : Box B V) (k : Nat)
    (hb : Mailbox.remove τ' f s b = some b') (h : Within τ x k (b.items ++ b.chan)) : Within τ x k (b'.items ++ b'.chan) := by
  unfold Mailbox.remove at hb
  cases hr : removeItems τ' f s b.mons b.aliases b.items with
  | none => simp [hr] at hb
  | some z =>
    obtain ⟨items, mons, als⟩ := z
    simp only [hr] at hb
    have h1 := removeItems_within hl f hf s b.chan _ k _ _ _ hr h
    dsimp only at h1
    rcases within_split h1 with h | ⟨h1, h2⟩
    · exact within_append (within_prefix h (removeChan_prefix _ _ _ _ _ _ _ hb)) _
    · have := removeChan_within hl f hf s _ _ _ _ _ _ hb h2
      rw [show items.length + (k - items.length) = k by omega] at this
      exact within_append this _

end scans

/-! ## A receive that accepts the items of `x` -/

/-- One item fewer is before the item of `x`. -/
def Closer (τ : RecvType B V T) (x : T → Bool) (k : Nat) (l : List (Item B V)) : Prop := 0 < k ∧ Within τ x (k - 1) l

section accept
variable {τ : RecvType B V T} {x : T → Bool} (f : Msg T → Bool) (hf : ∀ t, x t = true → f (.user t) = true) (s : Bool)
include hf

theorem scanItems_closer (ch : List (Item B V)) (l : List (Item B V)) : ∀ k mons als done, Within τ x k (l ++ ch) → ∀ m,
    (scanItems τ f s mons als done l).1 = .got m → msgIs x m ∨ Closer τ x (done.length + k) ((scanItems τ f s mons als done l).2.1 ++ ch) := by
  induction l with
  | nil => intro k mons als done ha m h; cases h
  | cons it rest ih =>
    intro k mons als done ha m hm
    have hx := reads_msg (τ := τ) (p := x) (mons := mons) (als := als) (it := it)
    rw [scanItems] at hm ⊢
    generalize processItem τ mons als it = z at *
    obtain ⟨res, it', mons', als'⟩ := z
    dsimp only at *
    rcases ha with ha | ⟨hk, ha⟩
    · obtain ⟨t, rfl, ht⟩ := hx ha
      simp only [hf t ht, if_true] at hm
      cases hm
      exact .inl ht
    · have hrec := ih (k - 1) mons' als' (done ++ [it']) ha m
      have e : (done ++ [it']).length + (k - 1) = done.length + k := by simp; omega
      rw [e] at hrec
      cases res with
      | msg m' =>
        dsimp only at hm ⊢
        split at hm
        · rename_i hfm
          simp only [hfm, if_true]
          refine .inr ⟨by omega, ?_⟩
          rw [List.append_assoc, show done.length + k - 1 = done.length + (k - 1) by omega]
          exact within_after done ha
        · rename_i hfm
          simp only [hfm, if_false, Bool.false_eq_true]
          exact hrec hm
      | skip => exact hrec hm
      | foreign =>
        dsimp only at hm ⊢
        split at hm
        · cases hm
        · rename_i hs
          rw [if_neg hs]
          exact hrec hm

theorem scanChan_closer (l : List (Item B V)) : ∀ k items mons als, Within τ x k l → ∀ m,
    (scanChan τ f s items mons als l).1 = .got m → msgIs x m ∨
      Closer τ x (items.length + k) ((scanChan τ f s items mons als l).2.items ++ (scanChan τ f s items mons als l).2.chan) := by
  induction l with
  | nil => intro k items mons als ha; exact ha.elim
  | cons it rest ih =>
    intro k items mons als ha m hm
    have hx := reads_msg (τ := τ) (p := x) (mons := mons) (als := als) (it := it)
    rw [scanChan] at hm ⊢
    generalize processItem τ mons als it = z at *
    obtain ⟨res, it', mons', als'⟩ := z
    dsimp only at *
    rcases ha with ha | ⟨hk, ha⟩
    · obtain ⟨t, rfl, ht⟩ := hx ha
      simp only [hf t ht, if_true] at hm
      cases hm
      exact .inl ht
    · have hrec := ih (k - 1) (items ++ [it']) mons' als' ha m
      have e : (items ++ [it']).length + (k - 1) = items.length + k := by simp; omega
      rw [e] at hrec
      cases res with
      | msg m' =>
        dsimp only at hm ⊢
        split at hm
        · rename_i hfm
          simp only [hfm, if_true]
          refine .inr ⟨by omega, ?_⟩
          rw [show items.length + k - 1 = items.length + (k - 1) by omega]
          exact within_after items ha
        · rename_i hfm
          simp only [hfm, if_false, Bool.false_eq_true]
          exact hrec hm
      | skip =>
        rcases ih (k - 1) items mons' als' ha m hm with h | ⟨h0, h⟩
        · exact .inl h
        · exact .inr ⟨by omega, within_mono h (by omega)⟩
      | foreign =>
        dsimp only at hm ⊢
        split at hm
        · cases hm
        · rename_i hs
          rw [if_neg hs]
          exact hrec hm

theorem scanItems_passed (ch : List (Item B V)) (l : List (Item B V)) : ∀ k mons als done, Within τ x k (l ++ ch) →
    (scanItems τ f s mons als done l).1 = .pending →
      (scanItems τ f s mons als done l).2.1.length = done.length + l.length ∧ l.length ≤ k ∧ Within τ x (k - l.length) ch := by
  induction l with
  | nil => intro k mons als done ha _; exact ⟨rfl, Nat.zero_le _, by simpa using ha⟩
  | cons it rest ih =>
    intro k mons als done ha hm
    have hx := reads_msg (τ := τ) (p := x) (mons := mons) (als := als) (it := it)
    rw [scanItems] at hm ⊢
    generalize processItem τ mons als it = z at *
    obtain ⟨res, it', mons', als'⟩ := z
    dsimp only at *
    rcases ha with ha | ⟨hk, ha⟩
    · obtain ⟨t, rfl, ht⟩ := hx ha
      simp only [hf t ht, if_true] at hm
      cases hm
    · have hrec : (scanItems τ f s mons' als' (done ++ [it']) rest).1 = .pending →
          (scanItems τ f s mons' als' (done ++ [it']) rest).2.1.length = done.length + (it :: rest).length ∧ (it :: rest).length ≤ k ∧
            Within τ x (k - (it :: rest).length) ch := by
        intro h
        obtain ⟨h1, h2, h3⟩ := ih (k - 1) mons' als' (done ++ [it']) ha h
        refine ⟨by rw [h1]; simp; omega, by simp; omega, ?_⟩
        have : k - (it :: rest).length = k - 1 - rest.length := by simp; omega
        rw [this]; exact h3
      cases res with
      | msg m' =>
        dsimp only at hm ⊢
        split at hm
        · cases hm
        · rename_i hfm
          simp only [hfm, if_false, Bool.false_eq_true]
          exact hrec hm
      | skip => exact hrec hm
      | foreign =>
        dsimp only at hm ⊢
        split at hm
        · cases hm
        · rename_i hs
          rw [if_neg hs]
          exact hrec hm

theorem select_closer (b : Box B V) (k : Nat) (h : Within τ x k (b.items ++ b.chan)) (m : Msg T)
    (hm : (Mailbox.select τ f s b).1 = .got m) :
    msgIs x m ∨ Closer τ x k ((Mailbox.select τ f s b).2.items ++ (Mailbox.select τ f s b).2.chan) := by
  have h1 := scanItems_closer (τ := τ) f hf s b.chan b.items k b.mons b.aliases [] h m
  have h2 := scanItems_passed (τ := τ) f hf s b.chan b.items k b.mons b.aliases [] h
  unfold Mailbox.select at hm ⊢
  generalize scanItems τ f s b.mons b.aliases [] b.items = z at *
  obtain ⟨res, items, mons, als⟩ := z
  dsimp only at h1 h2
  simp only [List.length_nil, Nat.zero_add] at h1 h2
  cases res with
  | pending =>
    dsimp only at hm ⊢
    obtain ⟨e, h2, h3⟩ := h2 rfl
    have := scanChan_closer (τ := τ) f hf s _ _ items mons als h3 m hm
    rwa [show items.length + (k - b.items.length) = k by omega] at this
  | got m' => exact h1 hm
  | panicked => cases hm

theorem resume_closer (b : Box B V) (k : Nat) (h : b.items.length ≤ k ∧ Within τ x (k - b.items.length) b.chan) (m : Msg T)
    (hm : (Mailbox.resume τ f s b).1 = .got m) :
    msgIs x m ∨ Closer τ x k ((Mailbox.resume τ f s b).2.items ++ (Mailbox.resume τ f s b).2.chan) := by
  have := scanChan_closer (τ := τ) f hf s _ _ b.items b.mons b.aliases h.2 m hm
  rwa [show b.items.length + (k - b.items.length) = k by omega] at this

end accept

/-! ## In the world -/

/-- The process `P` has ended, or a message of `x` is in its mailbox and at most `k` others are before it. -/
structure Queued (τ : RecvType B V T) (x : T → Bool) (P k : Nat) (w : World B V) : Prop where
  lt : P < w.nextPid
  within : ∀ p, w.procs P = some p → p.ended = true ∨ Within τ x k (p.box.items ++ p.box.chan)

section world
variable {τ : RecvType B V T} {x : T → Bool} {P k : Nat} {w : World B V}

theorem Queued.lead (h : Queued τ x P k w) : Lead τ x (fun _ => false) P true w :=
  ⟨h.lt, fun p hp => (h.within p hp).imp id fun h => by simpa [line] using within_ahead h⟩

theorem queued_act (h : Queued τ x P k w) (a : Atom B V) (ha : ∀ o k, a ≠ .rbox P o k) : Queued τ x P k (act w a) := by
  refine ⟨?_, ?_⟩
  · have := h.lt
    rw [nextPid_act]; split <;> omega
  · intro p hp
    obtain ⟨q, hq, he, hi, l, hc⟩ := box_grows w a P h.lt ha p hp
    refine (h.within q hq).imp he fun hA => ?_
    rw [hi, hc, ← List.append_assoc]
    exact within_append hA l

theorem queued_step (h : Queued τ x P k w) (ser : V → B) (o : Op B V) (ho : ∀ ro k, o ≠ .recv P ro k) : Queued τ x P k (step ser w o).1 := by
  refine (step_acts ser w o).inv (I := Queued τ x P k) h ?_
  intro w' a ha h'
  refine queued_act h' a ?_
  rintro ro k rfl
  exact ho ro k ha

theorem queued_box (h : Queued τ x P k w) {q : Proc B V} (hq : w.procs P = some q) {k' : Nat} (b : Box B V) (hb : Within τ x k' (b.items ++ b.chan)) :
    Queued τ x P k' (modBox w P fun _ => b) := by
  refine ⟨by simpa [modBox, modProc] using h.lt, ?_⟩
  intro p hp
  simp [modBox, modProc, upd_at, hq] at hp
  subst hp
  exact .inr hb

theorem queued_crash (h : Queued τ x P k w) (w' : World B V) (k' m) (hw : w'.nextPid = w.nextPid) : Queued τ x P k' (crash w' P m) := by
  refine ⟨by simpa [crash, modProc, hw] using h.lt, ?_⟩
  intro p hp
  simp only [crash, modProc, upd_at, if_true] at hp
  cases hz : w'.procs P with
  | none => simp [hz] at hp
  | some z => simp [hz] at hp; subst hp; exact .inl rfl

/-- What a receive does. -/
theorem recv_queued_gen (h : Queued τ x P k w) (ser : V → B) (hr : running w P = true) (o : RecvOp B V) (kind : RecvKind) {Hit : Msg o.T → Prop}
    (hl : Looks τ x (fun _ => false) o.τ Hit) (hrm : kind = .remove → ∀ m, Hit m → o.filter m = false) :
    (∃ m, received w P o kind = some m ∧ Hit m) ∨ Queued τ x P k (step ser w (.recv P o kind)).1 := by
  rw [step_recv hr]
  obtain ⟨q, hq⟩ : ∃ q, w.procs P = some q := by
    cases hj : w.procs P with
    | none => simp [running, hj] at hr
    | some q => exact ⟨q, rfl⟩
  have hend : q.ended = false := by simpa [running, hq] using hr
  have hA : Within τ x k (q.box.items ++ q.box.chan) := (h.within q hq).resolve_left (by simp [hend])
  simp only [received, recv, hq]
  cases kind with
  | select =>
    have := select_within hl o.filter o.strict q.box k hA
    dsimp only
    generalize Mailbox.select o.τ o.filter o.strict q.box = z at *
    obtain ⟨res, b⟩ := z
    dsimp only at this
    cases res with
    | got m =>
      rcases this with ⟨m', hm', hh⟩ | hm' | this
      · cases hm'; exact .inl ⟨m, rfl, hh⟩
      · cases hm'
      · exact .inr (queued_box h hq b this)
    | pending =>
      rcases this with ⟨m', hm', hh⟩ | hm' | this
      · cases hm'
      · cases hm'
      · exact .inr (queued_box h hq b this)
    | panicked => exact .inr (queued_crash h _ _ _ (by simp [modBox, modProc]))
  | resume =>
    have := resume_within hl o.filter o.strict q.box k hA
    dsimp only
    generalize Mailbox.resume o.τ o.filter o.strict q.box = z at *
    obtain ⟨res, b⟩ := z
    dsimp only at this
    cases res with
    | got m =>
      rcases this with ⟨m', hm', hh⟩ | hm' | this
      · cases hm'; exact .inl ⟨m, rfl, hh⟩
      · cases hm'
      · exact .inr (queued_box h hq b this)
    | pending =>
      rcases this with ⟨m', hm', hh⟩ | hm' | this
      · cases hm'
      · cases hm'
      · exact .inr (queued_box h hq b this)
    | panicked => exact .inr (queued_crash h _ _ _ (by simp [modBox, modProc]))
  | remove =>
    right
    dsimp only
    cases hb : Mailbox.remove o.τ o.filter o.strict q.box with
    | none => exact queued_crash h _ _ _ rfl
    | some b' => exact queued_box h hq b' (remove_within hl o.filter (hrm rfl) o.strict q.box b' k hb hA)

theorem recv_queued (h : Queued τ x P k w) (ser : V → B) (o : RecvOp B V) (kind : RecvKind) (hc : CoherentWith τ o.τ) (ht : Tame τ x o kind) :
    Takes τ x P w (.recv P o kind) ∨ Queued τ x P k (step ser w (.recv P o kind)).1 := by
  cases hr : running w P with
  | false =>
    right
    have : (step ser w (.recv P o kind)).1 = w := by simp [step, Op.caller, hr]
    rw [this]; exact h
  | true =>
    cases ht with
    | same f s _ hk =>
      rcases recv_queued_gen h ser hr ⟨T, τ, f, s⟩ kind (looks_same x _ hc) (fun hk' => absurd hk' hk) with ⟨m, hm, t, rfl, ht⟩ | h
      · exact .inl ⟨f, s, kind, t, rfl, hr, hm, ht⟩
      · exact .inr h
    | keep f s hf =>
      rcases recv_queued_gen h ser hr ⟨T, τ, f, s⟩ .remove (looks_same x _ hc) (by rintro - m ⟨t, rfl, ht⟩; exact hf t ht) with ⟨m, hm, t, rfl, ht⟩ | h
      · exact .inl ⟨f, s, .remove, t, rfl, hr, hm, ht⟩
      · exact .inr h
    | other _ _ hb =>
      rcases recv_queued_gen h ser hr o kind (looks_blind x _ hc hb) (fun _ m hm => hm.elim) with ⟨m, -, hm⟩ | h
      · exact hm.elim
      · exact .inr h

/-- A receive that accepts the message takes it or one that is before it. -/
theorem recv_closer (h : Queued τ x P k w) (ser : V → B) (hr : running w P = true) (f : Msg T → Bool) (hf : ∀ t, x t = true → f (.user t) = true) (s : Bool)
    (m : Msg T) (hm : received w P ⟨T, τ, f, s⟩ .select = some m) :
    msgIs x m ∨ 0 < k ∧ Queued τ x P (k - 1) (step ser w (.recv P ⟨T, τ, f, s⟩ .select)).1 := by
  rw [step_recv hr]
  obtain ⟨q, hq⟩ : ∃ q, w.procs P = some q := by
    cases hj : w.procs P with
    | none => simp [running, hj] at hr
    | some q => exact ⟨q, rfl⟩
  have hend : q.ended = false := by simpa [running, hq] using hr
  have hA : Within τ x k (q.box.items ++ q.box.chan) := (h.within q hq).resolve_left (by simp [hend])
  simp only [received, recv, hq] at hm ⊢
  have := select_closer (τ := τ) f hf s q.box k hA
  generalize Mailbox.select τ f s q.box = z at *
  obtain ⟨res, b⟩ := z
  dsimp only at this hm ⊢
  cases res with
  | got m' =>
    dsimp only at hm ⊢
    simp only [Option.some.injEq] at hm
    subst hm
    exact (this m' rfl).imp id fun h' => ⟨h'.1, queued_box h hq b h'.2⟩
  | pending => cases hm
  | panicked => cases hm

/-- A message in a mailbox of at most `k + 1` messages. -/
theorem queued_of_length {p : Proc B V} (hlt : P < w.nextPid) (hp : w.procs P = some p) {it : Item B V} (hit : it ∈ p.box.items ++ p.box.chan) (hx : readsAs τ x it = true)
    (hlen : p.box.items.length + p.box.chan.length ≤ k + 1) : Queued τ x P k w := by
  refine ⟨hlt, ?_⟩
  intro q hq
  rw [hp] at hq; cases hq
  right
  obtain ⟨a, b, e⟩ := List.append_of_mem hit
  rw [within_iff]
  refine ⟨a, it, b, e, ?_, hx⟩
  have := congrArg List.length e
  simp at this
  omega

/-- A receive that accepts the message, while it is in the mailbox. -/
theorem wait_queued {ser : V → B} {f : Msg T → Bool} (hf : ∀ t, x t = true → f (.user t) = true) {s : Bool} {c : Msg T → Prog B V R}
    {os : List (Op B V)} {r : R} (h : Exec ser P w (.wait .select ⟨T, τ, f, s⟩ none c) os r) (hq : Queued τ x P k w) :
    ∃ os1 m os2, GotAt ser P ⟨T, τ, f, s⟩ c w os r os1 .select m os2 ∧
      (msgIs x m ∨ 0 < k ∧ Queued τ x P (k - 1) (step ser (run ser w os1) (.recv P ⟨T, τ, f, s⟩ .select)).1) := by
  generalize hp : (Prog.wait .select (⟨T, τ, f, s⟩ : RecvOp B V) none c : Prog B V R) = p at h
  induction h with
  | @env w' _ o' _ _ ho _ ih =>
    subst hp
    have hne : ∀ ro k, o' ≠ Op.recv P ro k := by rintro ro k rfl; exact ho.1 rfl
    obtain ⟨os1, m, os2, h1, h2⟩ := ih (queued_step hq ser _ hne) rfl
    exact ⟨_, m, os2, h1.cons, by rw [run_cons]; exact h2⟩
  | @got w' kind' _ _ _ _ m _ hr hm hx _ =>
    cases hp
    exact ⟨[], _, _, ⟨rfl, hr, hm, hx⟩, recv_closer hq ser hr f hf s _ hm⟩
  | @pending w' kind' _ _ _ _ _ hr hm hx _ =>
    cases hp
    have := poll_ahead (y := fun _ => false) (fun _ _ => rfl) hf (s := s) hr (.inl ⟨rfl, hq.lead⟩) ser
    rw [hm] at this
    have hlt : P < (step ser w' (.recv P ⟨T, τ, f, s⟩ .select)).1.nextPid :=
      (step_acts ser w' (.recv P ⟨T, τ, f, s⟩ .select)).inv (I := fun w => P < w.nextPid) hq.lt (by intro w1 a _ h; rw [nextPid_act]; split <;> omega)
    exact (dead_waits hx hlt this).elim
  | elapsed => cases hp
  | _ => cases hp

end world

/-- Over any history: the message is taken, or it is still in the mailbox and nothing got before it. -/
theorem walk_queued {τ : RecvType B V T} {x : T → Bool} {P k : Nat} (ser : V → B) (os : List (Op B V)) : ∀ {w : World B V}, Queued τ x P k w →
    Coherent τ os → (∀ ro kind, .recv P ro kind ∈ os → Tame τ x ro kind) →
    Queued τ x P k (run ser w os) ∨ ∃ b1 o b2, os = b1 ++ o :: b2 ∧ Takes τ x P (run ser w b1) o := by
  induction os with
  | nil => intro w h _ _; exact .inl h
  | cons o os ih =>
    intro w h hc ht
    have next : Queued τ x P k (step ser w o).1 ∨ Takes τ x P w o := by
      by_cases hr : ∃ ro k, o = .recv P ro k
      · obtain ⟨ro, k, rfl⟩ := hr
        exact (recv_queued h ser ro k (hc P ro k List.mem_cons_self) (ht ro k List.mem_cons_self)).symm
      · exact .inl (queued_step h ser o fun ro k he => hr ⟨ro, k, he⟩)
    rcases next with h' | h'
    · rcases ih h' (fun a ro k hm => hc a ro k (.tail _ hm)) (fun ro k hm => ht ro k (.tail _ hm)) with h | ⟨b1, o', b2, rfl, h⟩
      · exact .inl (by rw [run_cons]; exact h)
      · exact .inr ⟨o :: b1, o', b2, rfl, by rw [run_cons]; exact h⟩
    · exact .inr ⟨[], o, os, rfl, h'⟩

/-- Receives of types as which the message cannot be read do not take it. -/
theorem walk_queued_deaf {τ : RecvType B V T} {x : T → Bool} {P k : Nat} (ser : V → B) (os : List (Op B V)) : ∀ {w : World B V}, Queued τ x P k w →
    Coherent τ os → (∀ ro kind, .recv P ro kind ∈ os → ∀ it, readsAs τ x it = true → asMsg ro.τ it = none) → Queued τ x P k (run ser w os) := by
  induction os with
  | nil => intro w h _ _; exact h
  | cons o os ih =>
    intro w h hc ht
    rw [run_cons]
    refine ih ?_ (fun a ro k hm => hc a ro k (.tail _ hm)) (fun ro k hm => ht ro k (.tail _ hm))
    by_cases hr : ∃ ro k, o = .recv P ro k
    · obtain ⟨ro, kk, rfl⟩ := hr
      cases hrun : running w P with
      | false =>
        have : (step ser w (.recv P ro kk)).1 = w := by simp [step, Op.caller, hrun]
        rw [this]; exact h
      | true =>
        rcases recv_queued_gen h ser hrun ro kk (looks_blind x _ (hc P ro kk List.mem_cons_self) (ht ro kk List.mem_cons_self)) (fun _ m hm => hm.elim) with ⟨_, -, hf⟩ | h
        · exact hf.elim
        · exact h
    · exact queued_step h ser o fun ro k he => hr ⟨ro, k, he⟩

end Verif.World
