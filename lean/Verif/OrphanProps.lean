import Verif.SupNoticeProps
/-!
# A server does not outlive its parent (C140)

gen_server.rs:440-446: the exit message of the parent ends the loop of the server. With C137 (no death is missed) and the order of the mailbox.
-/
namespace Verif.World
open Verif.Mailbox
variable {B V M S R : Type}

/-! ## Specification -/

/-- The operation does not cut `me` off from the end of `t`: it does not unlink `t`, it does not stop trapping exits, and if it is a receive of `me`, its filter rejects the exit messages of `t`. -/
def Leaves (me t : Nat) (o : Op B V) : Prop := ¬ GivesUp me t o ∧ ∀ ro k, o = .recv me ro k → ∀ r, ro.filter (.system (.exit (.loc t) r)) = false

/-- The callbacks of a server leave the end of its parent `t` to its loop, as long as its state is one of `I` (and they keep it so); `t` has existed. -/
structure LeavesParent (ser : V → B) (srv : Server B V M S) (me t : Nat) (I : S → Prop) : Prop where
  cast : ∀ σ m w os r, Reachable ser w → t < w.nextPid → I σ → Exec ser me w (srv.cast σ m) os r → I r.1 ∧ ∀ o ∈ os, Leaves me t o
  call : ∀ σ m frm w os r, Reachable ser w → t < w.nextPid → I σ → Exec ser me w (srv.call σ m frm) os r → I r.1 ∧ ∀ o ∈ os, Leaves me t o
  info : ∀ σ m w os r, Reachable ser w → t < w.nextPid → I σ → Exec ser me w (srv.info σ m) os r → I r.1 ∧ ∀ o ∈ os, Leaves me t o

/-- An exit message of `t`. -/
def exitFrom (t : Nat) : Item B V → Bool
  | .system (.exit p _) => p == .loc t
  | _ => false

/-- How many items are before the first one with `x`. -/
def before (x : Item B V → Bool) : List (Item B V) → Nat
  | [] => 0
  | it :: l => if x it then 0 else before x l + 1

/-- An exit message of `t` waits in the mailbox of `me`, behind at most `k` items. -/
def HeardWithin (me t k : Nat) (w : World B V) : Prop :=
  ∃ p, w.procs me = some p ∧ (p.box.items ++ p.box.chan).any (exitFrom t) = true ∧ before (exitFrom t) (p.box.items ++ p.box.chan) ≤ k

/-! ## One mailbox -/

section
variable {x : Item B V → Bool}

theorem before_swap {it it' : Item B V} (h : x it' = x it) (a l : List (Item B V)) : before x (a ++ it' :: l) = before x (a ++ it :: l) := by
  induction a with
  | nil => simp [before, h]
  | cons b a ih => simp [before, ih]

theorem before_drop {it : Item B V} (h : x it = false) (a l : List (Item B V)) : before x (a ++ l) ≤ before x (a ++ it :: l) := by
  induction a with
  | nil => simp [before, h]
  | cons b a ih => simp only [List.cons_append, before]; split <;> omega

theorem before_less {it : Item B V} (h : x it = false) (a l : List (Item B V)) (ha : a.any x = false) : before x (a ++ it :: l) = before x (a ++ l) + 1 := by
  induction a with
  | nil => simp [before, h]
  | cons b a ih =>
    simp only [List.any_cons, Bool.or_eq_false_iff] at ha
    simp [before, ha.1, ih ha.2]

theorem before_append {a : List (Item B V)} (l : List (Item B V)) (h : a.any x = true) : before x (a ++ l) = before x a := by
  induction a with
  | nil => cases h
  | cons b a ih =>
    simp only [List.cons_append, before]
    cases hb : x b with
    | true => rfl
    | false => simp only [List.any_cons, hb, Bool.false_or] at h; simp [ih h]

end

theorem exitFrom_item {T : Type} (t : Nat) (τ : RecvType B V T) (mons als) (it : Item B V) :
    exitFrom t (processItem τ mons als it).2.1 = exitFrom t it := by
  cases it <;> simp only [processItem] <;> first | rfl | (split <;> rfl)

theorem exitFrom_msg {T : Type} {t : Nat} {τ : RecvType B V T} {mons als} {it : Item B V} {m : Msg T} (h : (processItem τ mons als it).1 = .msg m)
    (hx : exitFrom t it = true) : ∃ r, m = .system (.exit (.loc t) r) := by
  cases it with
  | system s =>
    cases s <;> simp only [exitFrom, beq_iff_eq] at hx <;> first | (subst hx; simp only [processItem, PRes.msg.injEq] at h; exact ⟨_, h.symm⟩) | cases hx
  | _ => cases hx

theorem exitFrom_pass {T : Type} {t : Nat} {τ : RecvType B V T} {f : Msg T → Bool} (hf : ∀ r, f (.system (.exit (.loc t) r)) = false) {mons als} {it : Item B V} {m : Msg T}
    (h : (processItem τ mons als it).1 = .msg m) (hm : f m = true) : exitFrom t it = false := by
  cases hx : exitFrom t it with
  | false => rfl
  | true => obtain ⟨r, rfl⟩ := exitFrom_msg h hx; rw [hf] at hm; cases hm

theorem exitFrom_skip {T : Type} {t : Nat} {τ : RecvType B V T} {mons als} {it : Item B V} (h : (processItem τ mons als it).1 = .skip) : exitFrom t it = false := by
  cases it with
  | system s => cases h
  | _ => rfl

theorem exitFrom_foreign {T : Type} {t : Nat} {τ : RecvType B V T} {mons als} {it : Item B V} (h : (processItem τ mons als it).1 = .foreign) : exitFrom t it = false := by
  cases it with
  | system s => cases h
  | _ => rfl

/-! A receive that rejects the exit messages of `t`. -/

section reject
variable {T : Type} {t : Nat} {τ : RecvType B V T} {f : Msg T → Bool} (hf : ∀ r, f (.system (.exit (.loc t) r)) = false) (s : Bool)
include hf

theorem scanItems_before (l : List (Item B V)) : ∀ mons als done,
    before (exitFrom t) ((scanItems τ f s mons als done l).2.1 ++ c) ≤ before (exitFrom t) (done ++ l ++ c) := by
  induction l with
  | nil => intro mons als done; simp [scanItems]
  | cons it rest ih =>
    intro mons als done
    have h1 := exitFrom_item t τ mons als it
    have h2 := @exitFrom_pass B V T t τ f hf mons als it
    rw [scanItems]
    generalize processItem τ mons als it = z at *
    obtain ⟨res, it', mons', als'⟩ := z
    dsimp only at h1 h2
    have hrec := ih mons' als' (done ++ [it'])
    have e : before (exitFrom t) (done ++ [it'] ++ rest ++ c) = before (exitFrom t) (done ++ it :: rest ++ c) := by
      have := before_swap h1 done (rest ++ c); simpa using this
    rw [e] at hrec
    cases res with
    | msg m =>
      dsimp only
      split
      · rename_i hm
        have := before_drop (h2 rfl hm) done (rest ++ c); simpa using this
      · exact hrec
    | skip => exact hrec
    | foreign =>
      dsimp only
      split
      · have := Nat.le_of_eq (before_swap h1 done (rest ++ c)); simpa using this
      · exact hrec

theorem scanChan_bef (l : List (Item B V)) : ∀ items mons als,
    before (exitFrom t) ((scanChan τ f s items mons als l).2.items ++ (scanChan τ f s items mons als l).2.chan) ≤ before (exitFrom t) (items ++ l) := by
  induction l with
  | nil => intro items mons als; simp [scanChan]
  | cons it rest ih =>
    intro items mons als
    have h1 := exitFrom_item t τ mons als it
    have h2 := @exitFrom_pass B V T t τ f hf mons als it
    have h3 := @exitFrom_skip B V T t τ mons als it
    have h4 := @exitFrom_foreign B V T t τ mons als it
    rw [scanChan]
    generalize processItem τ mons als it = z at *
    obtain ⟨res, it', mons', als'⟩ := z
    dsimp only at h1 h2 h3 h4
    have hrec := ih (items ++ [it']) mons' als'
    have e : before (exitFrom t) (items ++ [it'] ++ rest) = before (exitFrom t) (items ++ it :: rest) := by
      have := before_swap h1 items rest; simpa using this
    rw [e] at hrec
    cases res with
    | msg m =>
      dsimp only
      split
      · rename_i hm; exact before_drop (h2 rfl hm) items rest
      · exact hrec
    | skip => exact Nat.le_trans (ih _ _ _) (before_drop (h3 rfl) items rest)
    | foreign =>
      dsimp only
      split
      · exact before_drop (h4 rfl) items rest
      · exact hrec

theorem select_before (b : Box B V) :
    before (exitFrom t) ((Mailbox.select τ f s b).2.items ++ (Mailbox.select τ f s b).2.chan) ≤ before (exitFrom t) (b.items ++ b.chan) := by
  have h1 := scanItems_before (τ := τ) (c := b.chan) hf s b.items b.mons b.aliases []
  unfold Mailbox.select
  generalize scanItems τ f s b.mons b.aliases [] b.items = z at *
  obtain ⟨res, items, mons, als⟩ := z
  dsimp only [List.nil_append] at h1
  cases res with
  | pending => exact Nat.le_trans (scanChan_bef hf s _ _ _ _) h1
  | got m => exact h1
  | panicked => exact h1

theorem removeItems_before (l : List (Item B V)) : ∀ mons als z pre, removeItems τ f s mons als l = some z →
    before (exitFrom t) (pre ++ z.1 ++ c) ≤ before (exitFrom t) (pre ++ l ++ c) := by
  induction l with
  | nil => intro mons als z pre h; simp [removeItems] at h; subst h; exact Nat.le_refl _
  | cons it rest ih =>
    intro mons als z pre h
    have h1 := exitFrom_item t τ mons als it
    have h2 := @exitFrom_pass B V T t τ f hf mons als it
    rw [removeItems] at h
    generalize processItem τ mons als it = y at *
    obtain ⟨res, it', mons', als'⟩ := y
    dsimp only at h1 h2
    have keep : ∀ r, removeItems τ f s mons' als' rest = some r → before (exitFrom t) (pre ++ (it' :: r.1) ++ c) ≤ before (exitFrom t) (pre ++ it :: rest ++ c) := by
      intro r hr
      have hrec := ih _ _ r (pre ++ [it']) hr
      have e : before (exitFrom t) (pre ++ [it'] ++ rest ++ c) = before (exitFrom t) (pre ++ it :: rest ++ c) := by
        have := before_swap h1 pre (rest ++ c); simpa using this
      rw [e] at hrec
      simpa using hrec
    cases res with
    | msg m =>
      simp only [Option.map_eq_some_iff] at h
      obtain ⟨r, hr, rfl⟩ := h
      dsimp only
      split
      · rename_i hm
        refine Nat.le_trans (ih _ _ r pre hr) ?_
        have := before_drop (h2 rfl hm) pre (rest ++ c); simpa using this
      · exact keep r hr
    | skip =>
      simp only [Option.map_eq_some_iff] at h
      obtain ⟨r, hr, rfl⟩ := h
      exact keep r hr
    | foreign =>
      dsimp only at h
      split at h
      · cases h
      · simp only [Option.map_eq_some_iff] at h
        obtain ⟨r, hr, rfl⟩ := h
        exact keep r hr

theorem removeChan_before (l : List (Item B V)) : ∀ items mons als b, removeChan τ f s items mons als l = some b →
    before (exitFrom t) (b.items ++ b.chan) ≤ before (exitFrom t) (items ++ l) := by
  induction l with
  | nil => intro items mons als b h; simp [removeChan] at h; subst h; simp
  | cons it rest ih =>
    intro items mons als b h
    have h1 := exitFrom_item t τ mons als it
    have h2 := @exitFrom_pass B V T t τ f hf mons als it
    have h3 := @exitFrom_skip B V T t τ mons als it
    rw [removeChan] at h
    generalize processItem τ mons als it = y at *
    obtain ⟨res, it', mons', als'⟩ := y
    dsimp only at h1 h2 h3
    have e : before (exitFrom t) (items ++ [it'] ++ rest) = before (exitFrom t) (items ++ it :: rest) := by
      have := before_swap h1 items rest; simpa using this
    cases res with
    | msg m =>
      dsimp only at h
      split at h
      · rename_i hm; exact Nat.le_trans (ih _ _ _ _ h) (before_drop (h2 rfl hm) items rest)
      · have := ih _ _ _ _ h; rw [e] at this; exact this
    | skip => exact Nat.le_trans (ih _ _ _ _ h) (before_drop (h3 rfl) items rest)
    | foreign =>
      dsimp only at h
      split at h
      · cases h
      · have := ih _ _ _ _ h; rw [e] at this; exact this

theorem remove_before (b b' : Box B V) (h : Mailbox.remove τ f s b = some b') : before (exitFrom t) (b'.items ++ b'.chan) ≤ before (exitFrom t) (b.items ++ b.chan) := by
  unfold Mailbox.remove at h
  split at h
  · cases h
  · rename_i items mons als hri
    refine Nat.le_trans (removeChan_before hf s _ _ _ _ _ h) ?_
    have := removeItems_before (c := b.chan) hf s _ _ _ _ [] hri
    simpa using this

end reject

/-! The receive of the loop. -/

theorem scanItems_shifts {T : Type} {t : Nat} {τ : RecvType B V T} (s : Bool) {c : List (Item B V)} {m : Msg T} (hm : ∀ r, m ≠ .system (.exit (.loc t) r)) (l : List (Item B V)) :
    ∀ mons als done, done.any (exitFrom t) = false →
    ((scanItems τ (fun _ => true) s mons als done l).1 = .got m →
      before (exitFrom t) ((scanItems τ (fun _ => true) s mons als done l).2.1 ++ c) + 1 ≤ before (exitFrom t) (done ++ l ++ c)) ∧
    ((scanItems τ (fun _ => true) s mons als done l).1 = .pending →
      before (exitFrom t) ((scanItems τ (fun _ => true) s mons als done l).2.1 ++ c) = before (exitFrom t) (done ++ l ++ c) ∧
      (scanItems τ (fun _ => true) s mons als done l).2.1.any (exitFrom t) = false) := by
  induction l with
  | nil => intro mons als done hd; simp [scanItems, hd]
  | cons it rest ih =>
    intro mons als done hd
    have h1 := exitFrom_item t τ mons als it
    have h2 := @exitFrom_msg B V T t τ mons als it
    have h3 := @exitFrom_skip B V T t τ mons als it
    have h4 := @exitFrom_foreign B V T t τ mons als it
    rw [scanItems]
    generalize processItem τ mons als it = z at *
    obtain ⟨res, it', mons', als'⟩ := z
    dsimp only at h1 h2 h3 h4
    have e : before (exitFrom t) (done ++ [it'] ++ rest ++ c) = before (exitFrom t) (done ++ it :: rest ++ c) := by
      have := before_swap h1 done (rest ++ c); simpa using this
    cases res with
    | msg m' =>
      simp only [if_true]
      refine ⟨fun he => ?_, fun he => by cases he⟩
      cases he
      have hx : exitFrom t it = false := by
        cases hx : exitFrom t it with
        | false => rfl
        | true => obtain ⟨r, rfl⟩ := h2 rfl hx; exact absurd rfl (hm r)
      have := before_less hx done (rest ++ c) hd
      simp only [List.append_assoc, List.cons_append] at this ⊢
      omega
    | skip =>
      have hrec := ih mons' als' (done ++ [it']) (by simp [hd, h1, h3 rfl])
      rw [e] at hrec; exact hrec
    | foreign =>
      dsimp only
      split
      · exact ⟨fun he => (by cases he), fun he => (by cases he)⟩
      · have hrec := ih mons' als' (done ++ [it']) (by simp [hd, h1, h4 rfl])
        rw [e] at hrec; exact hrec

theorem scanChan_shifts {T : Type} {t : Nat} {τ : RecvType B V T} (s : Bool) {m : Msg T} (hm : ∀ r, m ≠ .system (.exit (.loc t) r)) (l : List (Item B V)) :
    ∀ items mons als, items.any (exitFrom t) = false → (scanChan τ (fun _ => true) s items mons als l).1 = .got m →
    before (exitFrom t) ((scanChan τ (fun _ => true) s items mons als l).2.items ++ (scanChan τ (fun _ => true) s items mons als l).2.chan) + 1 ≤ before (exitFrom t) (items ++ l) := by
  induction l with
  | nil => intro items mons als hd h; cases h
  | cons it rest ih =>
    intro items mons als hd h
    have h1 := exitFrom_item t τ mons als it
    have h2 := @exitFrom_msg B V T t τ mons als it
    have h3 := @exitFrom_skip B V T t τ mons als it
    have h4 := @exitFrom_foreign B V T t τ mons als it
    rw [scanChan] at h ⊢
    generalize processItem τ mons als it = z at *
    obtain ⟨res, it', mons', als'⟩ := z
    dsimp only at h1 h2 h3 h4
    cases res with
    | msg m' =>
      simp only [if_true] at h ⊢
      cases h
      have hx : exitFrom t it = false := by
        cases hx : exitFrom t it with
        | false => rfl
        | true => obtain ⟨r, rfl⟩ := h2 rfl hx; exact absurd rfl (hm r)
      have := before_less hx items rest hd
      omega
    | skip => exact Nat.le_trans (ih _ _ _ hd h) (before_drop (h3 rfl) items rest)
    | foreign =>
      dsimp only at h ⊢
      split at h
      · cases h
      · rename_i hs
        rw [if_neg hs]
        have hrec := ih (items ++ [it']) mons' als' (by simp [hd, h1, h4 rfl]) h
        have e : before (exitFrom t) (items ++ [it'] ++ rest) = before (exitFrom t) (items ++ it :: rest) := by
          have := before_swap h1 items rest; simpa using this
        rw [e] at hrec; exact hrec

theorem select_shifts {T : Type} {t : Nat} {τ : RecvType B V T} (s : Bool) {m : Msg T} (hm : ∀ r, m ≠ .system (.exit (.loc t) r)) (b : Box B V)
    (h : (Mailbox.select τ (fun _ => true) s b).1 = .got m) :
    before (exitFrom t) ((Mailbox.select τ (fun _ => true) s b).2.items ++ (Mailbox.select τ (fun _ => true) s b).2.chan) + 1 ≤ before (exitFrom t) (b.items ++ b.chan) := by
  have h1 := scanItems_shifts (τ := τ) (c := b.chan) s hm b.items b.mons b.aliases [] rfl
  unfold Mailbox.select at *
  generalize scanItems τ (fun _ => true) s b.mons b.aliases [] b.items = z at *
  obtain ⟨res, items, mons, als⟩ := z
  dsimp only [List.nil_append] at h1 h ⊢
  cases res with
  | pending =>
    obtain ⟨e, hd⟩ := h1.2 rfl
    rw [← e]
    exact scanChan_shifts s hm _ _ _ _ hd h
  | got m' => cases h; exact h1.1 rfl
  | panicked => cases h

/-! ## Steps -/

theorem heardWithin_mono {me t k k' : Nat} {w : World B V} (h : HeardWithin me t k w) (hk : k ≤ k') : HeardWithin me t k' w := by
  obtain ⟨p, h1, h2, h3⟩ := h
  exact ⟨p, h1, h2, by omega⟩

theorem any_exitFrom {t : Nat} {l : List (Item B V)} : l.any (exitFrom t) = true ↔ ∃ r, Item.system (.exit (.loc t) r) ∈ l := by
  rw [List.any_eq_true]
  constructor
  · rintro ⟨it, hm, hx⟩
    cases it with
    | system s =>
      cases s <;> simp only [exitFrom, beq_iff_eq] at hx <;> first | (subst hx; exact ⟨_, hm⟩) | cases hx
    | _ => cases hx
  · rintro ⟨r, hm⟩; exact ⟨_, hm, by simp [exitFrom]⟩

theorem heard_within {me t : Nat} {w : World B V} (h : Heard me t w) : ∃ k, HeardWithin me t k w := by
  obtain ⟨p, r, hp, hm⟩ := h
  exact ⟨_, p, hp, any_exitFrom.2 ⟨r, hm⟩, Nat.le_refl _⟩

theorem within_heard {me t k : Nat} {w : World B V} (h : HeardWithin me t k w) : Heard me t w := by
  obtain ⟨p, hp, hx, -⟩ := h
  obtain ⟨r, hm⟩ := any_exitFrom.1 hx
  exact ⟨p, r, hp, hm⟩

theorem within_step {me t k : Nat} {w : World B V} (hlt : me < w.nextPid) (h : HeardWithin me t k w) (ser : V → B) (o : Op B V) (ho : ∀ ro k, o ≠ .recv me ro k) :
    HeardWithin me t k (step ser w o).1 ∨ running (step ser w o).1 me = false := by
  have := (step_acts ser w o).inv (I := fun w => me < w.nextPid ∧ (HeardWithin me t k w ∨ w.procs me = none)) ⟨hlt, .inl h⟩ ?_
  · refine this.2.imp id fun h => by simp [running, h]
  · rintro w' x hx ⟨h1, h2⟩
    refine ⟨by rw [nextPid_act]; split <;> omega, ?_⟩
    cases hp : (act w' x).procs me with
    | none => exact .inr rfl
    | some p =>
      obtain ⟨q, hq, -, hi, l, hc⟩ := box_grows w' x me h1 (by rintro ro k rfl; exact ho ro k hx) p hp
      rcases h2 with ⟨q', hq', hm, hb⟩ | h2
      · rw [hq] at hq'; cases hq'
        refine .inl ⟨p, hp, ?_, ?_⟩
        · rw [hi, hc, ← List.append_assoc, List.any_append, hm]; rfl
        · rw [hi, hc, ← List.append_assoc, before_append _ hm]; exact hb
      · rw [hq] at h2; cases h2

/-- A receive that leaves the exit messages of `t`. -/
theorem within_recv {me t k : Nat} {w : World B V} (h : HeardWithin me t k w) (ser : V → B) (o : RecvOp B V) (kd : RecvKind)
    (hf : ∀ r, o.filter (.system (.exit (.loc t) r)) = false) :
    HeardWithin me t k (step ser w (.recv me o kd)).1 ∨ running (step ser w (.recv me o kd)).1 me = false := by
  cases hr : running w me with
  | false =>
    have : (step ser w (.recv me o kd)).1 = w := by simp [step, Op.caller, hr]
    rw [this]; exact .inl h
  | true =>
    have hh := heard_recv (within_heard h) ser o kd (by
      rintro - (⟨r, hr⟩ | ⟨-, r, hr⟩)
      · have := (received_item w me o kd _ hr).1; rw [hf] at this; cases this
      · rw [hf] at hr; cases hr)
    refine hh.imp_left fun hh => ?_
    obtain ⟨p', r, hp', hm⟩ := hh
    refine ⟨p', hp', any_exitFrom.2 ⟨r, hm⟩, ?_⟩
    obtain ⟨p, hp, -, hb⟩ := h
    refine Nat.le_trans ?_ hb
    have hbox : ∀ b : Box B V, before (exitFrom t) (b.items ++ b.chan) ≤ before (exitFrom t) (p.box.items ++ p.box.chan) →
        (modBox w me fun _ => b).procs me = some p' → before (exitFrom t) (p'.box.items ++ p'.box.chan) ≤ before (exitFrom t) (p.box.items ++ p.box.chan) := by
      intro b hb he
      simp [modBox, modProc, upd_at, hp] at he
      subst he; exact hb
    have hcr : ∀ (b : Box B V) m, before (exitFrom t) (b.items ++ b.chan) ≤ before (exitFrom t) (p.box.items ++ p.box.chan) →
        (crash (modBox w me fun _ => b) me m).procs me = some p' → before (exitFrom t) (p'.box.items ++ p'.box.chan) ≤ before (exitFrom t) (p.box.items ++ p.box.chan) := by
      intro b m hb he
      simp [crash, modBox, modProc, upd_at, hp] at he
      subst he; exact hb
    rw [step_recv hr] at hp'
    simp only [recv, hp] at hp'
    cases kd with
    | select =>
      have hh := select_before hf o.strict p.box (τ := o.τ)
      dsimp only at hp'
      generalize Mailbox.select o.τ o.filter o.strict p.box = z at *
      obtain ⟨res, b⟩ := z
      cases res with
      | panicked => exact hcr b _ hh hp'
      | _ => exact hbox b hh hp'
    | resume =>
      have hh := scanChan_bef hf o.strict p.box.chan p.box.items p.box.mons p.box.aliases (τ := o.τ)
      dsimp only [Mailbox.resume] at hp'
      generalize scanChan o.τ o.filter o.strict p.box.items p.box.mons p.box.aliases p.box.chan = z at *
      obtain ⟨res, b⟩ := z
      cases res with
      | panicked => exact hcr b _ hh hp'
      | _ => exact hbox b hh hp'
    | remove =>
      dsimp only at hp'
      cases hb : Mailbox.remove o.τ o.filter o.strict p.box with
      | none =>
        rw [hb] at hp'
        simp [crash, modProc, upd_at, hp] at hp'
        subst hp'; exact Nat.le_refl _
      | some b => rw [hb] at hp'; exact hbox b (remove_before hf _ _ _ hb) hp'

/-- The receive of the loop: unless it takes an exit message of `t`, there is one item less before it. -/
theorem within_take {me t k : Nat} {w : World B V} (h : HeardWithin me t k w) (ser : V → B) {T : Type} (τ : RecvType B V T) (kd : RecvKind) (hrun : running w me = true)
    (hk : kd = .select ∨ kd = .resume ∧ Unstashed me w) {m : Msg T} (hr : received w me (anyMsg τ) kd = some m) (hm : ∀ r, m ≠ .system (.exit (.loc t) r)) :
    ∃ k', k = k' + 1 ∧ HeardWithin me t k' (step ser w (.recv me (anyMsg τ) kd)).1 := by
  have hh := heard_recv (within_heard h) ser (anyMsg τ) kd (by
      rintro - (⟨r, hr'⟩ | ⟨rfl, -⟩)
      · change received _ _ _ _ = _ at hr'; rw [hr] at hr'; cases hr'; exact hm r rfl
      · rcases hk with h | ⟨h, -⟩ <;> cases h)
  obtain ⟨p, hp, -, hb⟩ := h
  have hend : p.ended = false := by simpa [running, hp] using hrun
  have key : ∀ b : Box B V, (step ser w (.recv me (anyMsg τ) kd)).1 = modBox w me (fun _ => b) →
      before (exitFrom t) (b.items ++ b.chan) + 1 ≤ before (exitFrom t) (p.box.items ++ p.box.chan) →
      ∃ k', k = k' + 1 ∧ HeardWithin me t k' (step ser w (.recv me (anyMsg τ) kd)).1 := by
    intro b he hlt
    refine ⟨k - 1, by omega, ?_⟩
    have hrun' : running (step ser w (.recv me (anyMsg τ) kd)).1 me = true := by
      rw [he]; simp [running, modBox, modProc, upd_at, hp, hend]
    rcases hh with ⟨p', r, hp', hm'⟩ | hh
    · refine ⟨p', hp', any_exitFrom.2 ⟨r, hm'⟩, ?_⟩
      rw [he] at hp'
      simp [modBox, modProc, upd_at, hp] at hp'
      subst hp'
      change before _ (b.items ++ b.chan) ≤ _
      omega
    · rw [hh] at hrun'; cases hrun'
  have hs := step_recv hrun ser (anyMsg τ) kd
  simp only [received, hp, anyMsg] at hr
  rcases hk with rfl | ⟨rfl, hu⟩
  · dsimp only at hr
    have hh := select_shifts (τ := τ) true hm p.box (by
      generalize Mailbox.select τ (fun _ => true) true p.box = z at *
      obtain ⟨res, b⟩ := z
      cases res <;> first | cases hr; rfl | cases hr)
    refine key (Mailbox.select τ (fun _ => true) true p.box).2 ?_ hh
    rw [hs]
    simp only [recv, hp, anyMsg]
    generalize Mailbox.select τ (fun _ => true) true p.box = z at *
    obtain ⟨res, b⟩ := z
    cases res <;> first | rfl | cases hr
  · have hi : p.box.items = [] := (hu p hp).resolve_left (by simp [hend])
    dsimp only [Mailbox.resume] at hr
    have hh := scanChan_shifts (τ := τ) true hm p.box.chan p.box.items p.box.mons p.box.aliases (by rw [hi]; rfl) (by
      generalize scanChan τ (fun _ => true) true p.box.items p.box.mons p.box.aliases p.box.chan = z at *
      obtain ⟨res, b⟩ := z
      cases res <;> first | cases hr; rfl | cases hr)
    refine key (scanChan τ (fun _ => true) true p.box.items p.box.mons p.box.aliases p.box.chan).2 ?_ hh
    rw [hs]
    simp only [recv, hp, anyMsg, Mailbox.resume]
    generalize scanChan τ (fun _ => true) true p.box.items p.box.mons p.box.aliases p.box.chan = z at *
    obtain ⟨res, b⟩ := z
    cases res <;> first | rfl | cases hr

/-! ## C140 -/

theorem always_true (ser : V → B) (w : World B V) (os : List (Op B V)) : Always ser (fun _ _ => True) w os := by
  induction os generalizing w with
  | nil => trivial
  | cons o os ih => exact ⟨trivial, ih _⟩

theorem calls_for {parent : Pid} {msgs : List (Msg (GMsg M))} (h : ∀ m ∈ msgs, stopReason parent m = none) : (msgs.filterMap (callbackFor parent)).length = msgs.length := by
  induction msgs with
  | nil => rfl
  | cons m ms ih =>
    have hc : callbackFor parent m ≠ none := by
      intro hcb
      have := h m List.mem_cons_self
      cases m with
      | user g => cases g <;> simp [stopReason, callbackFor] at this hcb
      | system s =>
        cases s <;> simp [stopReason, callbackFor] at this hcb
        exact this hcb
    obtain ⟨c, hc⟩ := Option.ne_none_iff_exists'.1 hc
    simp [List.filterMap_cons, hc, ih fun m hm => h m (.tail _ hm)]

theorem leaves_others {me t : Nat} {o : Op B V} (h : Others me o) : Leaves me t o := by
  have := others_spare (t := t) h
  exact ⟨this.1, fun ro k he => absurd he (this.2 ro k)⟩

theorem leaves_knows {ser : V → B} {me t : Nat} (hat : me ≠ t) {w : World B V} {os : List (Op B V)} (h : ∀ o ∈ os, Leaves me t o) (hk : Knows ser me t w) :
    Knows ser me t (run ser w os) := by
  induction os generalizing w with
  | nil => exact hk
  | cons o os ih =>
    have ho := h o List.mem_cons_self
    refine ih (fun o ho => h o (.tail _ ho)) (hk.step hat o ho.1 ?_)
    rintro ro k rfl - - (⟨r, hr⟩ | ⟨-, r, hr⟩)
    · have := (received_item w me ro k _ hr).1; rw [ho.2 ro k rfl] at this; cases this
    · rw [ho.2 ro k rfl] at hr; cases hr

/-- What is known in a history that began with an exit message of the parent behind `k` items. -/
def Nearing (ser : V → B) (me t k : Nat) (w : World B V) : Prop :=
  Reachable ser w ∧ me < w.nextPid ∧ (HeardWithin me t k w ∨ running w me = false)

theorem nearing_step {ser : V → B} {me t k : Nat} {w : World B V} (h : Nearing ser me t k w) {o : Op B V} (ho : Leaves me t o) : Nearing ser me t k (step ser w o).1 := by
  obtain ⟨hre, hlt, h⟩ := h
  have hmono := (acts_mono_counters (step_acts ser w o)).1
  refine ⟨reach_step hre o, by omega, ?_⟩
  rcases h with h | h
  · by_cases hr : ∃ ro kd, o = .recv me ro kd
    · obtain ⟨ro, kd, rfl⟩ := hr
      exact within_recv h ser ro kd (ho.2 ro kd rfl)
    · exact within_step hlt h ser o fun ro kd he => hr ⟨ro, kd, he⟩
  · exact .inr (halted_step hlt h ser o)

theorem nearing_run {ser : V → B} {me t k : Nat} {w : World B V} {os : List (Op B V)} (h : Nearing ser me t k w) (ho : ∀ o ∈ os, Leaves me t o) :
    Nearing ser me t k (run ser w os) := by
  induction os generalizing w with
  | nil => exact h
  | cons o os ih => exact ih (nearing_step h (ho o List.mem_cons_self)) fun o h => ho o (.tail _ h)

theorem callback_leaves {ser : V → B} {srv : Server B V M S} {me t : Nat} {I : S → Prop} (hl : LeavesParent ser srv me t I) {parent : Pid} {m : Msg (GMsg M)} {w : World B V}
    {os : List (Op B V)} {c : Record M S} (hre : Reachable ser w) (hlt : t < w.nextPid) (hI : I c.before) (h : RanFor ser me srv parent m w os c) : I c.after ∧ ∀ o ∈ os, Leaves me t o := by
  obtain ⟨hcb, hr⟩ := h
  unfold Ran at hr
  split at hr
  · obtain ⟨u, hx, -⟩ := hr; exact hl.cast _ _ _ _ _ hre hlt hI hx
  · exact hl.call _ _ _ _ _ _ hre hlt hI hr
  · obtain ⟨u, hx, -⟩ := hr; exact hl.info _ _ _ _ _ hre hlt hI hx
  · rename_i r he
    rw [he] at hcb
    cases m with
    | user g => cases g <;> cases hcb
    | system s =>
      cases s <;> simp only [callbackFor] at hcb
      · split at hcb <;> cases hcb
      all_goals cases hcb

theorem replyOp_leaves {τ : RecvType B V (GMsg M)} {me t : Nat} {c : Record M S} {o : Op B V} (h : replyOf τ me c = some o) : Leaves me t o := by
  unfold replyOf at h
  split at h
  · cases h
    refine ⟨?_, fun ro k he => ?_⟩
    · rintro (h | h) <;> cases h
    · cases he
  · cases h

/-- The loop, for a process that knows of the end of its parent. -/
theorem loop_knows {ser : V → B} {me t : Nat} {srv : Server B V M S} {τ : RecvType B V (GMsg M)} {n : Nat} {σ : S} {w : World B V} {os : List (Op B V)} {l : Log M S}
    (hre : Reachable ser w) (hat : me ≠ t) (hkw : Knows ser me t w) {I : S → Prop} (hl : LeavesParent ser srv me t I) (hI : I σ)
    (h : Exec ser me w (serverLoop srv τ me (.loc t) n σ) os l) (hend : l.ended = none) : Knows ser me t (run ser w os) := by
  have loop := (loop_rule (Ok := fun _ _ => True) (I := fun w σ _ => I σ ∧ Knows ser me t w)
    (K := fun m w σ _ => I σ ∧ ((∀ r, m ≠ .system (.exit (.loc t) r)) → Knows ser me t w)) (J := fun _ _ _ => True)
    (fun w o σ l _ ho _ hi => ⟨hi.1, hi.2.others hat [o] (by simpa using ho)⟩)
    (fun w kind p σ l _ hrun hp hc hi => by
      refine ⟨hi.1, hi.2.step hat _ (by rintro (h | h) <;> cases h) ?_⟩
      rintro ro k he - hx hte
      cases he
      exact (Verif.Sup.poll_empty hc hp hrun hx hi.2.told).elim)
    (fun w kind m σ l _ hrun hm _ _ hi => by
      refine ⟨hi.1, fun hne => hi.2.step hat _ (by rintro (h | h) <;> cases h) ?_⟩
      rintro ro k he - - (⟨r, hr⟩ | ⟨rfl, -⟩)
      · cases he; change received _ _ _ _ = _ at hr; rw [hm] at hr; cases hr; exact hne _ rfl
      · cases he
        cases hp : w.procs me with
        | none => simp [received, hp] at hm
        | some p => simp [received, hp] at hm)
    (fun w m os c l hre' _ hi hran => by
      have hne : ∀ r, m ≠ .system (.exit (.loc t) r) := by
        rintro r rfl
        have := hran.1
        simp [callbackFor] at this
      cases c.result with
      | ok y =>
        obtain ⟨h1, h2⟩ := callback_leaves hl hre' (hi.2 hne).other hi.1 hran
        exact ⟨h1, leaves_knows hat h2 (hi.2 hne)⟩
      | error r => trivial)
    (fun _ _ _ _ _ _ _ _ => trivial)
    (fun w c o σ l _ _ ho hi => ⟨hi.1, leaves_knows (os := [o]) hat (by simpa using replyOp_leaves ho) hi.2⟩)
    hre (always_true ser w os) ⟨hI, hkw⟩ h (done := [])).1 hend
  exact loop.2

/-- **C140**, the end of the parent is not missed: a server that traps exits and is linked to its parent `t`, and whose callbacks leave the end of the parent to the loop, goes on only
while the parent exists, or while the exit message of the parent waits in its mailbox (`C140_soon`) - or until it is itself killed. -/
theorem C140_not_outlived (ser : V → B) (me t : Nat) (srv : Server B V M S) (τ : RecvType B V (GMsg M)) (n : Nat) (σ : S) (w : World B V) (os : List (Op B V)) (l : Log M S)
    (hre : Reachable ser w) (hat : me ≠ t) (hw : Watches me t w) {I : S → Prop} (hl : LeavesParent ser srv me t I) (hI : I σ)
    (h : Exec ser me w (serverLoop srv τ me (.loc t) n σ) os l) (hend : l.ended = none) :
    exists? (run ser w os) t = true ∨ Heard me t (run ser w os) ∨ running (run ser w os) me = false := by
  have hkw : Knows ser me t w := by
    refine ⟨hre, ?_, lt_of_running hre hw.2.2, .inl hw⟩
    obtain ⟨⟨p, hp, -⟩, -⟩ := hw
    exact lt_of_running hre (by simp [exists?, hp])
  rcases (loop_knows hre hat hkw hl hI h hend).told with h | h | h
  · exact .inl h.2.2
  · exact .inr (.inl h.2)
  · exact .inr (.inr h)

/-- **C140**, and soon: when an exit message of the parent `t` is in the mailbox of the server, behind at most `k` items, then the server runs at most `k` more callbacks besides
`terminate`, and its loop does not go on for more than `k` rounds. -/
theorem C140_soon (ser : V → B) (me t k : Nat) (srv : Server B V M S) (τ : RecvType B V (GMsg M)) (n : Nat) (σ : S) (w : World B V) (os : List (Op B V)) (l : Log M S)
    (hre : Reachable ser w) (ht : t < w.nextPid) (hw : HeardWithin me t k w) {I : S → Prop} (hl : LeavesParent ser srv me t I) (hI : I σ)
    (h : Exec ser me w (serverLoop srv τ me (.loc t) n σ) os l) :
    (l.ended = none → n ≤ k) ∧ ∃ calls last, l.calls = calls ++ last ∧ calls.length ≤ k ∧ ∀ c ∈ last, last = [c] ∧ ∃ r, c.what = .terminate r ∧ l.ended = some r := by
  have hlt : me < w.nextPid := by
    obtain ⟨p, hp, -⟩ := hw
    exact lt_of_running hre (by simp [exists?, hp])
  have loop := loop_rule' (Ok := fun _ _ => True) (I := fun w σ l => l.length ≤ k ∧ I σ ∧ t < w.nextPid ∧ Nearing ser me t (k - l.length) w)
    (K := fun m w σ l => l.length ≤ k ∧ I σ ∧ t < w.nextPid ∧ ((∀ r, m ≠ .system (.exit (.loc t) r)) → l.length + 1 ≤ k ∧ Nearing ser me t (k - (l.length + 1)) w)) (J := fun _ _ l => l.length ≤ k)
    (fun w o σ l _ ho _ hi => ⟨hi.1, hi.2.1, Nat.lt_of_lt_of_le hi.2.2.1 (acts_mono_counters (step_acts ser w o)).1, nearing_step hi.2.2.2 (leaves_others ho)⟩)
    (fun w kind p σ l _ hrun hp hc hi => by
      exfalso
      rcases hi.2.2.2.2.2 with ⟨q, hq, hx, -⟩ | hx
      · rw [hp] at hq; cases hq
        obtain ⟨r, hr⟩ := any_exitFrom.1 hx
        have : Item.system (.exit (.loc t) r) ∈ contents p.box := by
          simp only [contents]
          rcases List.mem_append.1 hr with hm | hm
          · exact List.mem_append_left _ hm
          · exact List.mem_append_right _ (Verif.Sup.vis_sys hm _)
        rw [hc] at this; cases this
      · rw [hrun] at hx; cases hx)
    (fun w kind m σ l hre hrun hkd hm _ _ hi => by
      refine ⟨hi.1, hi.2.1, Nat.lt_of_lt_of_le hi.2.2.1 (acts_mono_counters (step_acts ser w _)).1, fun hne => ?_⟩
      rcases hi.2.2.2.2.2 with hx | hx
      · obtain ⟨k', he, hx'⟩ := within_take hx ser τ kind hrun hkd hm hne
        have hmono := (acts_mono_counters (step_acts ser w (.recv me (anyMsg τ) kind))).1
        have := hi.2.2.2.2.1
        refine ⟨by omega, reach_step hre _, by omega, .inl ?_⟩
        have e : k - (l.length + 1) = k' := by omega
        rw [e]; exact hx'
      · rw [hrun] at hx; cases hx)
    (fun w m os c l hre' _ hi hran => by
      have hne : ∀ r, m ≠ .system (.exit (.loc t) r) := by
        rintro r rfl
        have := hran.1
        simp [callbackFor] at this
      have := hi.2.2.2 hne
      obtain ⟨h1, h2⟩ := callback_leaves hl hre' hi.2.2.1 hi.2.1 hran
      cases c.result with
      | ok y => exact ⟨by simpa using this.1, h1, Nat.lt_of_lt_of_le hi.2.2.1 (nextPid_run ser _ _), by simpa using nearing_run this.2 h2⟩
      | error r => simpa using this.1)
    (fun _ _ _ _ _ _ hi _ => hi.1)
    (fun w c o σ l _ _ ho hi => ⟨hi.1, hi.2.1, Nat.lt_of_lt_of_le hi.2.2.1 (acts_mono_counters (step_acts ser w o)).1, nearing_step hi.2.2.2 (replyOp_leaves ho)⟩)
    hre (always_true ser w os) ⟨Nat.zero_le _, hI, ht, hre, hlt, .inl hw⟩ h (done := [])
  obtain ⟨msgs, -, hlen, hwhat, -, hends, -⟩ := C58_serve ser me srv τ (.loc t) n σ w os l hre h
  cases he : l.ended with
  | none =>
    have h1 := (loop.1 he).1
    rw [he] at hends hwhat
    have hlen' : l.calls.length = msgs.length := by
      have e := congrArg List.length hwhat
      simp only [List.length_map, List.length_append, Option.map_none, Option.toList_none, List.length_nil, Nat.add_zero] at e
      rw [e]
      exact calls_for hends.1
    have := hlen he
    simp only [List.nil_append] at h1
    exact ⟨fun _ => by omega, l.calls, [], by simp, h1, by simp⟩
  | some r =>
    obtain ⟨-, -, -, σ1, calls, -, hc, hj, -⟩ := loop.2 r he
    refine ⟨by simp, calls, _, by simpa using hc, hj, ?_⟩
    intro c hc
    simp only [List.mem_singleton] at hc
    subst hc
    exact ⟨rfl, r, rfl, rfl⟩

/-- **C140**, a server that does not trap exits: when its parent, to which it is linked, dies for a reason other than `normal`, the server is killed at once, with the same reason. -/
theorem C140_killed (ser : V → B) (os : List (Op B V)) (me t : Nat) (p q : Proc B V) :
    let w := run ser init os
    let w' := (step ser w (.drop t)).1
    let r := p.reason.getD .normal
    w.procs t = some p → (p.ended = true ∨ p.aborted = true) → me ≠ t → w.procs me = some q → q.trap = false → Pid.loc me ∈ w.links t → isNormal r = false →
    ∃ q', w'.procs me = some q' ∧ q'.reason = some r ∧ q'.aborted = true := by
  intro w w' r hp hd hne hq htr hl hr
  obtain ⟨q', -, h1, -, -, h2, -⟩ := C29_death_signals ser os t me p q hp hd hne hq
  rw [if_pos ⟨hl, htr, hr⟩] at h2
  simp only [Prod.mk.injEq] at h2
  exact ⟨q', h1, h2.1, h2.2⟩

/-- The one way to outlive the parent: a server that does not trap exits, and whose parent ends normally (as in Erlang/OTP, a link is no bond then). -/
theorem C140_left_alone : ∃ os : List (Op Nat Nat),
    os = [.boot, .spawn 1 true false, .finish 1, .drop 1] ∧ exists? (run id init os) 1 = false ∧ alive (run id init os) 2 = true := ⟨_, rfl, rfl, rfl⟩

/-! ## Examples -/

/-- Process 1 has started the server 2 with a link; the server traps exits. -/
def parented : List (Op Nat (GMsg Nat)) := [.boot, .spawn 1 true false, .setTrap 2 true]

theorem parented_watches : Watches 2 1 (run noSer init parented) := ⟨⟨_, rfl, rfl⟩, by decide, rfl⟩

theorem adder_spares_parent (me t : Nat) : LeavesParent noSer adder me t fun _ => True := by
  refine ⟨?_, ?_, ?_⟩
  · intro σ m w os r _ _ _ h; refine ⟨trivial, fun o ho => ?_⟩; exact leaves_others ((exec_ret_inv h).2 o ho)
  · intro σ m frm w os r _ _ _ h
    refine ⟨trivial, fun o ho => ?_⟩
    have h' : ∃ x, Exec noSer me w (.ret x) os r := by
      simp only [adder] at h; split at h <;> exact ⟨_, h⟩
    obtain ⟨x, h'⟩ := h'
    exact leaves_others ((exec_ret_inv h').2 o ho)
  · intro σ m w os r _ _ _ h; refine ⟨trivial, fun o ho => ?_⟩; exact leaves_others ((exec_ret_inv h).2 o ho)

/-- The parent sends a cast and crashes; the server has not got to the exit message yet. -/
theorem leftExec : Exec noSer 2 (run noSer init parented) (serverLoop adder natServer 2 (.loc 1) 1 0)
    [.send 1 (.one (.pid (.loc 2))) (.cast 5), .recv 2 anyNat .select, .exit 1 (.loc 1) (.custom "crash"), .drop 1] ⟨[⟨.cast 5, 0, 5, .ok none⟩], none, 5⟩ := by
  refine .env ⟨by simp [Op.caller], by simp⟩ (.got (m := .user (.cast 5)) rfl rfl ?_)
  refine .env ⟨by simp [Op.caller], by simp⟩ (.env ⟨by simp [Op.caller], by simp⟩ ?_)
  exact .ret _ _

example := C140_not_outlived noSer 2 1 adder natServer 1 0 _ _ _ ⟨parented, rfl⟩ (by decide) parented_watches (adder_spares_parent 2 1) trivial leftExec rfl
example : exists? (run noSer (run noSer init parented) [.send 1 (.one (.pid (.loc 2))) (.cast 5), .recv 2 anyNat .select, .exit 1 (.loc 1) (.custom "crash"), .drop 1]) 1 = false := rfl

/-- The parent sends a cast and crashes, before the server has received anything: one more callback, and `terminate`. -/
def crashed : List (Op Nat (GMsg Nat)) := parented ++ [.send 1 (.one (.pid (.loc 2))) (.cast 5), .exit 1 (.loc 1) (.custom "crash"), .drop 1]

theorem crashed_within : HeardWithin 2 1 1 (run noSer init crashed) := ⟨_, rfl, by decide, by decide⟩

theorem soonExec : Exec noSer 2 (run noSer init crashed) (serverLoop adder natServer 2 (.loc 1) 10 0)
    [.recv 2 anyNat .select, .recv 2 anyNat .select, .exit 2 (.loc 2) (.custom "crash"), .finish 2]
    ⟨[⟨.cast 5, 0, 5, .ok none⟩, ⟨.terminate (.custom "crash"), 5, 5, .ok none⟩], some (.custom "crash"), 5⟩ := by
  refine .got (m := .user (.cast 5)) rfl rfl (.got (m := .system (.exit (.loc 1) (.custom "crash"))) rfl rfl (.op rfl (.op rfl ?_)))
  exact .ret _ _

example := C140_soon noSer 2 1 1 adder natServer 10 0 _ _ _ ⟨crashed, rfl⟩ (by decide) crashed_within (adder_spares_parent 2 1) trivial soonExec
example := C140_killed id ([.boot, .spawn 1 true false, .exit 1 (.loc 1) (.custom "crash")] : List (Op Nat Nat)) 2 1 _ _ rfl (by decide) (by decide) rfl rfl (by decide) rfl

end Verif.World
