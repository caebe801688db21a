import Verif.AppProps
import Verif.LinkProps
import Verif.ReceiveOrder
import Verif.AliasProps
/-!
# No death is missed (C137)

A process that traps exits and is linked to a local process learns of its death, whatever else happens: the exit message stays in its
mailbox until one of its own receives takes it. The only ways not to be told are its own.
-/
namespace Verif.World
open Verif.Mailbox
variable {B V : Type}

/-! ## Specification -/

/-- An exit message (`Message::System(SystemMessage::Exit(..))`) from `t` waits in the mailbox of `a`. -/
def Heard (a t : Nat) (w : World B V) : Prop :=
  ∃ p r, w.procs a = some p ∧ .system (.exit (.loc t) r) ∈ p.box.items ++ p.box.chan

/-- `a` traps exits, `t` exists and is linked to `a`. -/
def Watches (a t : Nat) (w : World B V) : Prop :=
  (∃ p, w.procs a = some p ∧ p.trap = true) ∧ Pid.loc a ∈ w.links t ∧ exists? w t = true

/-- This receive of `a` takes an exit message from `t` out of the mailbox: it returns one, or it is a `remove` whose filter accepts one. -/
def TakesExit (a t : Nat) (w : World B V) (o : RecvOp B V) (k : RecvKind) : Prop :=
  (∃ r, received w a o k = some (.system (.exit (.loc t) r))) ∨ (k = .remove ∧ ∃ r, o.filter (.system (.exit (.loc t) r)) = true)

/-- The ways in which `a` itself can give up being told of the death of `t`. -/
def GivesUp (a t : Nat) (o : Op B V) : Prop := o = .unlink a (.loc t) ∨ o = .setTrap a false

/-! ## The mailbox: a system message stays until it is taken -/

theorem scanItems_has {T : Type} (τ : RecvType B V T) (f : Msg T → Bool) (s : Bool) (sy : Sys) (l : List (Item B V)) :
    ∀ mons als done, (.system sy ∈ done ∨ .system sy ∈ l) → (scanItems τ f s mons als done l).1 ≠ .got (.system sy) →
      .system sy ∈ (scanItems τ f s mons als done l).2.1 := by
  induction l with
  | nil => intro mons als done h _; simpa [scanItems] using h
  | cons it rest ih =>
    intro mons als done h hg
    have hsys : it = .system sy → processItem τ mons als it = (.msg (.system sy), .system sy, mons, als) := by rintro rfl; rfl
    rw [scanItems] at hg ⊢
    have hit : it = .system sy ∨ .system sy ∈ done ∨ .system sy ∈ rest := by
      rcases h with h | h
      · exact .inr (.inl h)
      · rcases List.mem_cons.1 h with h | h
        · exact .inl h.symm
        · exact .inr (.inr h)
    generalize processItem τ mons als it = z at *
    obtain ⟨res, it', mons', als'⟩ := z
    cases res with
    | msg m =>
      dsimp only at hg ⊢
      split at hg
      · rename_i hf
        rw [if_pos hf]
        rcases hit with h | h | h
        · have := hsys h; cases this; exact absurd rfl hg
        · exact List.mem_append_left _ h
        · exact List.mem_append_right _ h
      · rename_i hf
        rw [if_neg hf]
        refine ih _ _ _ ?_ hg
        rcases hit with h | h | h
        · have := hsys h; cases this; exact .inl (by simp)
        · exact .inl (List.mem_append_left _ h)
        · exact .inr h
    | skip =>
      refine ih _ _ _ ?_ hg
      rcases hit with h | h | h
      · have := hsys h; cases this
      · exact .inl (List.mem_append_left _ h)
      · exact .inr h
    | foreign =>
      dsimp only at hg ⊢
      split at hg
      · rename_i hf
        rw [if_pos hf]
        rcases hit with h | h | h
        · have := hsys h; cases this
        · exact List.mem_append_left _ h
        · exact List.mem_append_right _ (List.mem_cons_of_mem _ h)
      · rename_i hf
        rw [if_neg hf]
        refine ih _ _ _ ?_ hg
        rcases hit with h | h | h
        · have := hsys h; cases this
        · exact .inl (List.mem_append_left _ h)
        · exact .inr h

theorem scanChan_has {T : Type} (τ : RecvType B V T) (f : Msg T → Bool) (s : Bool) (sy : Sys) (l : List (Item B V)) :
    ∀ items mons als, (.system sy ∈ items ∨ .system sy ∈ l) → (scanChan τ f s items mons als l).1 ≠ .got (.system sy) →
      (scanChan τ f s items mons als l).1 ≠ .panicked →
      .system sy ∈ (scanChan τ f s items mons als l).2.items ++ (scanChan τ f s items mons als l).2.chan := by
  induction l with
  | nil => intro items mons als h _ _; simpa [scanChan] using h
  | cons it rest ih =>
    intro items mons als h hg hp
    have hsys : it = .system sy → processItem τ mons als it = (.msg (.system sy), .system sy, mons, als) := by rintro rfl; rfl
    rw [scanChan] at hg hp ⊢
    have hit : it = .system sy ∨ .system sy ∈ items ∨ .system sy ∈ rest := by
      rcases h with h | h
      · exact .inr (.inl h)
      · rcases List.mem_cons.1 h with h | h
        · exact .inl h.symm
        · exact .inr (.inr h)
    generalize processItem τ mons als it = z at *
    obtain ⟨res, it', mons', als'⟩ := z
    cases res with
    | msg m =>
      dsimp only at hg hp ⊢
      split at hg
      · rename_i hf
        rw [if_pos hf]
        rcases hit with h | h | h
        · have := hsys h; cases this; exact absurd rfl hg
        · exact List.mem_append_left _ h
        · exact List.mem_append_right _ h
      · rename_i hf
        rw [if_neg hf] at hp ⊢
        refine ih _ _ _ ?_ hg hp
        rcases hit with h | h | h
        · have := hsys h; cases this; exact .inl (by simp)
        · exact .inl (List.mem_append_left _ h)
        · exact .inr h
    | skip =>
      refine ih _ _ _ ?_ hg hp
      rcases hit with h | h | h
      · have := hsys h; cases this
      · exact .inl h
      · exact .inr h
    | foreign =>
      dsimp only at hg hp ⊢
      split at hg
      · rename_i hf
        rw [if_pos hf] at hp
        exact absurd rfl hp
      · rename_i hf
        rw [if_neg hf] at hp ⊢
        refine ih _ _ _ ?_ hg hp
        rcases hit with h | h | h
        · have := hsys h; cases this
        · exact .inl (List.mem_append_left _ h)
        · exact .inr h

theorem select_has {T : Type} (τ : RecvType B V T) (f : Msg T → Bool) (s : Bool) (sy : Sys) (b : Box B V) (h : .system sy ∈ b.items ++ b.chan)
    (hg : (Mailbox.select τ f s b).1 ≠ .got (.system sy)) (hp : (Mailbox.select τ f s b).1 ≠ .panicked) :
    .system sy ∈ (Mailbox.select τ f s b).2.items ++ (Mailbox.select τ f s b).2.chan := by
  have h1 := scanItems_has τ f s sy b.items b.mons b.aliases []
  unfold Mailbox.select at *
  generalize scanItems τ f s b.mons b.aliases [] b.items = z at *
  obtain ⟨res, items, mons, als⟩ := z
  dsimp only at h1
  cases res with
  | pending =>
    refine scanChan_has τ f s sy _ _ _ _ ?_ hg hp
    rcases List.mem_append.1 h with h | h
    · exact .inl (h1 (.inr h) (by simp))
    · exact .inr h
  | got m =>
    dsimp only at *
    rcases List.mem_append.1 h with h | h
    · exact List.mem_append_left _ (h1 (.inr h) hg)
    · exact List.mem_append_right _ h
  | panicked => exact absurd rfl hp

theorem removeItems_has {T : Type} (τ : RecvType B V T) (f : Msg T → Bool) (s : Bool) (sy : Sys) (hf : f (.system sy) = false) (l : List (Item B V)) :
    ∀ mons als z, removeItems τ f s mons als l = some z → .system sy ∈ l → .system sy ∈ z.1 := by
  induction l with
  | nil => intro mons als z _ h; cases h
  | cons it rest ih =>
    intro mons als z h hm
    have hsys : it = .system sy → processItem τ mons als it = (.msg (.system sy), .system sy, mons, als) := by rintro rfl; rfl
    rw [removeItems] at h
    generalize processItem τ mons als it = y at *
    obtain ⟨res, it', mons', als'⟩ := y
    have hm' : it = .system sy ∨ .system sy ∈ rest := by
      rcases List.mem_cons.1 hm with h | h
      · exact .inl h.symm
      · exact .inr h
    cases res with
    | msg m =>
      simp only [Option.map_eq_some_iff] at h
      obtain ⟨r, hr, rfl⟩ := h
      dsimp only
      rcases hm' with hm | hm
      · have := hsys hm; cases this
        rw [hf]; simp
      · have := ih _ _ _ hr hm
        split
        · exact this
        · exact List.mem_cons_of_mem _ this
    | skip =>
      simp only [Option.map_eq_some_iff] at h
      obtain ⟨r, hr, rfl⟩ := h
      rcases hm' with hm | hm
      · have := hsys hm; cases this
      · exact List.mem_cons_of_mem _ (ih _ _ _ hr hm)
    | foreign =>
      dsimp only at h
      split at h
      · cases h
      · simp only [Option.map_eq_some_iff] at h
        obtain ⟨r, hr, rfl⟩ := h
        rcases hm' with hm | hm
        · have := hsys hm; cases this
        · exact List.mem_cons_of_mem _ (ih _ _ _ hr hm)

theorem removeChan_has {T : Type} (τ : RecvType B V T) (f : Msg T → Bool) (s : Bool) (sy : Sys) (hf : f (.system sy) = false) (l : List (Item B V)) :
    ∀ items mons als b, removeChan τ f s items mons als l = some b → (.system sy ∈ items ∨ .system sy ∈ l) → .system sy ∈ b.items ++ b.chan := by
  induction l with
  | nil => intro items mons als b h hm; simp [removeChan] at h; subst h; simpa using hm
  | cons it rest ih =>
    intro items mons als b h hm
    have hsys : it = .system sy → processItem τ mons als it = (.msg (.system sy), .system sy, mons, als) := by rintro rfl; rfl
    rw [removeChan] at h
    generalize processItem τ mons als it = y at *
    obtain ⟨res, it', mons', als'⟩ := y
    have hm' : it = .system sy ∨ .system sy ∈ items ∨ .system sy ∈ rest := by
      rcases hm with h | h
      · exact .inr (.inl h)
      · rcases List.mem_cons.1 h with h | h
        · exact .inl h.symm
        · exact .inr (.inr h)
    cases res with
    | msg m =>
      refine ih _ _ _ _ h ?_
      rcases hm' with hm | hm | hm
      · have := hsys hm; cases this
        rw [hf]; exact .inl (by simp)
      · left; split
        · exact hm
        · exact List.mem_append_left _ hm
      · exact .inr hm
    | skip =>
      refine ih _ _ _ _ h ?_
      rcases hm' with hm | hm | hm
      · have := hsys hm; cases this
      · exact .inl hm
      · exact .inr hm
    | foreign =>
      dsimp only at h
      split at h
      · cases h
      · refine ih _ _ _ _ h ?_
        rcases hm' with hm | hm | hm
        · have := hsys hm; cases this
        · exact .inl (List.mem_append_left _ hm)
        · exact .inr hm

theorem remove_has {T : Type} (τ : RecvType B V T) (f : Msg T → Bool) (s : Bool) (sy : Sys) (hf : f (.system sy) = false) (b b' : Box B V)
    (h : Mailbox.remove τ f s b = some b') (hm : .system sy ∈ b.items ++ b.chan) : .system sy ∈ b'.items ++ b'.chan := by
  unfold Mailbox.remove at h
  split at h
  · cases h
  · rename_i items mons als hri
    refine removeChan_has τ f s sy hf _ _ _ _ _ h ?_
    rcases List.mem_append.1 hm with hm | hm
    · exact .inl (removeItems_has τ f s sy hf _ _ _ _ hri hm)
    · exact .inr hm

/-! ## Steps -/

/-- A receive that does not take it leaves the message where it is, or crashes the process. -/
theorem heard_recv {a t : Nat} {w : World B V} (h : Heard a t w) (ser : V → B) (o : RecvOp B V) (k : RecvKind) (ht : running w a = true → ¬ TakesExit a t w o k) :
    Heard a t (step ser w (.recv a o k)).1 ∨ running (step ser w (.recv a o k)).1 a = false := by
  cases hr : running w a with
  | false =>
    have : (step ser w (.recv a o k)).1 = w := by simp [step, Op.caller, hr]
    rw [this]; exact .inl h
  | true =>
    have ht := ht hr
    rw [step_recv hr]
    obtain ⟨p, r, hp, hm⟩ := h
    have hcrash : ∀ w' : World B V, (∃ q, w'.procs a = some q) → ∀ m, running (crash w' a m) a = false := by
      rintro w' ⟨q, hq⟩ m
      simp [running, crash, modProc, upd_at, hq]
    have hbox : ∀ b : Box B V, .system (.exit (.loc t) r) ∈ b.items ++ b.chan → Heard a t (modBox w a fun _ => b) := by
      intro b hb
      refine ⟨{ p with box := b }, r, ?_, hb⟩
      simp [modBox, modProc, upd_at, hp]
    have hex : ∀ b : Box B V, ∃ q, (modBox w a fun _ => b).procs a = some q := by
      intro b; simp [modBox, modProc, upd_at, hp]
    simp only [TakesExit, received, hp] at ht
    simp only [recv, hp]
    cases k with
    | select =>
      have hh := select_has o.τ o.filter o.strict (.exit (.loc t) r) p.box hm
      dsimp only at ht ⊢
      generalize Mailbox.select o.τ o.filter o.strict p.box = z at *
      obtain ⟨res, b⟩ := z
      dsimp only at *
      cases res with
      | got m =>
        refine .inl (hbox b (hh ?_ (by simp)))
        intro he; cases he
        exact ht (.inl ⟨r, rfl⟩)
      | pending => exact .inl (hbox b (hh (by simp) (by simp)))
      | panicked => exact .inr (hcrash _ (hex b) _)
    | resume =>
      have hh := scanChan_has o.τ o.filter o.strict (.exit (.loc t) r) p.box.chan p.box.items p.box.mons p.box.aliases (List.mem_append.1 hm)
      dsimp only [Mailbox.resume] at ht ⊢
      generalize scanChan o.τ o.filter o.strict p.box.items p.box.mons p.box.aliases p.box.chan = z at *
      obtain ⟨res, b⟩ := z
      dsimp only at *
      cases res with
      | got m =>
        refine .inl (hbox b (hh ?_ (by simp)))
        intro he; cases he
        exact ht (.inl ⟨r, rfl⟩)
      | pending => exact .inl (hbox b (hh (by simp) (by simp)))
      | panicked => exact .inr (hcrash _ (hex b) _)
    | remove =>
      dsimp only
      have hf : o.filter (.system (.exit (.loc t) r)) = false := by
        cases hf : o.filter (.system (.exit (.loc t) r)) with
        | false => rfl
        | true => exact absurd (.inr ⟨rfl, r, hf⟩) ht
      cases hb : Mailbox.remove o.τ o.filter o.strict p.box with
      | none => exact .inr (hcrash _ ⟨p, hp⟩ _)
      | some b => exact .inl (hbox b (remove_has _ _ _ _ hf _ _ hb hm))

/-- Anything but a receive of `a` leaves it there while `a` exists. -/
theorem heard_step {a t : Nat} {w : World B V} (hlt : a < w.nextPid) (h : Heard a t w) (ser : V → B) (o : Op B V) (ho : ∀ ro k, o ≠ .recv a ro k) :
    Heard a t (step ser w o).1 ∨ running (step ser w o).1 a = false := by
  have := (step_acts ser w o).inv (I := fun w => a < w.nextPid ∧ (Heard a t w ∨ w.procs a = none)) ⟨hlt, .inl h⟩ ?_
  · refine this.2.imp id fun h => by simp [running, h]
  · rintro w' x hx ⟨h1, h2⟩
    refine ⟨by rw [nextPid_act]; split <;> omega, ?_⟩
    cases hp : (act w' x).procs a with
    | none => exact .inr rfl
    | some p =>
      obtain ⟨q, hq, -, hi, l, hc⟩ := box_grows w' x a h1 (by rintro ro k rfl; exact ho ro k hx) p hp
      rcases h2 with ⟨q', r, hq', hm⟩ | h2
      · rw [hq] at hq'; cases hq'
        refine .inl ⟨p, r, hp, ?_⟩
        rw [hi, hc]
        rcases List.mem_append.1 hm with hm | hm
        · exact List.mem_append_left _ hm
        · exact List.mem_append_right _ (List.mem_append_left _ hm)
      · rw [hq] at h2; cases h2

/-- A process that is not running stays so. -/
theorem halted_step {a : Nat} {w : World B V} (hlt : a < w.nextPid) (h : running w a = false) (ser : V → B) (o : Op B V) :
    running (step ser w o).1 a = false := by
  have := (step_acts ser w o).inv (I := fun w => a < w.nextPid ∧ running w a = false) ⟨hlt, h⟩ ?_
  · exact this.2
  · rintro w' x hx ⟨h1, h2⟩
    refine ⟨by rw [nextPid_act]; split <;> omega, ?_⟩
    have hf := fate_act w' x a
    have he := ex_act w' x a
    unfold running at h2 ⊢
    cases hp : (act w' x).procs a with
    | none => rfl
    | some p =>
      dsimp only
      cases hq : w'.procs a with
      | none => rw [hp, hq] at he; cases x <;> simp at he; omega
      | some q =>
        rw [hq] at h2
        simp only [pmap, hp, hq, Option.map_some] at hf
        simp only [Bool.not_eq_false'] at h2 ⊢
        cases x <;> simp only [] at hf
        all_goals first
          | (simp at hf; rw [hf.2.2]; exact h2)
          | (split at hf
             · simp at hf <;> first
               | (rw [hf.2.2]; exact h2)
               | exact hf.2.2
               | omega
             · simp at hf; rw [hf.2.2]; exact h2)

/-- As long as `t` lives and `a` does not give it up, `a` goes on watching. -/
theorem watching_step {a t : Nat} {w : World B V} (hr : NodeLinksRemote w) (hlt : a < w.nextPid) (h : Watches a t w) (ser : V → B) (o : Op B V) (ho : ¬ GivesUp a t o)
    (hda : o ≠ .drop a) (hdt : o ≠ .drop t) : Watches a t (step ser w o).1 := by
  have := (step_acts ser w o).inv (I := fun w => a < w.nextPid ∧ Watches a t w) ⟨hlt, h⟩ ?_
  · exact this.2
  · rintro w' x hx ⟨h1, ⟨p, hp, htr⟩, h3, h4⟩
    refine ⟨by rw [nextPid_act]; split <;> omega, ?_, ?_, ?_⟩
    · have ht := trap_act w' x a
      have hpm : pmap (·.trap) w' a = some true := by simp [pmap, hp, htr]
      have : pmap (·.trap) (act w' x) a = some true := by
        rw [ht]
        cases x <;> simp only [] <;> try exact hpm
        · rename_i i b
          split
          · rename_i e
            subst e
            cases b with
            | true => simp [hp]
            | false => exact absurd (.inr hx) ho
          · exact hpm
        · rw [if_neg (by omega)]; exact hpm
        · split
          · rename_i e; subst e; exact absurd hx hda
          · exact hpm
      unfold pmap at this
      cases hq : (act w' x).procs a with
      | none => rw [hq] at this; cases this
      | some q => rw [hq] at this; exact ⟨q, rfl, by simpa using this⟩
    · rw [links_act]
      cases x <;> simp only [upd_at] <;> try exact h3
      · split
        · subst_vars; split
          · exact h3
          · exact List.mem_append_left _ h3
        · exact h3
      · rename_i i p
        split
        · subst_vars
          refine List.mem_filter.2 ⟨h3, ?_⟩
          simp only [ne_eq, decide_eq_true_eq]
          rintro rfl
          rcases hx with ⟨j, hj, h | h⟩ | ⟨_, _, _, -, h⟩ | ⟨n, h, -⟩
          · cases hj; exact hda h
          · cases hj; exact ho (.inl h)
          · cases h
          · have := hr _ _ _ h; cases this
        · exact h3
      · split
        · rename_i e; subst e; exact absurd hx hdt
        · exact h3
    · have he := ex_act w' x t
      unfold exists? at h4 ⊢
      rw [he]
      cases x <;> simp only [] <;> try exact h4
      · simp [h4]
      · rename_i i
        have : t ≠ i := by rintro rfl; exact hdt hx
        simp [h4, this]

/-- The death itself. -/
theorem watching_drop {a t : Nat} {w : World B V} (hat : a ≠ t) (hn : (w.links t).Nodup) (h : Watches a t w) (ser : V → B) :
    Watches a t (step ser w (.drop t)).1 ∨ (exists? (step ser w (.drop t)).1 t = false ∧ Heard a t (step ser w (.drop t)).1) := by
  have hs : (step ser w (.drop t)).1 = if doomed w t then dropProc w t else w := by simp [step, Op.caller, Op.exec]
  rw [hs]
  split
  · right
    obtain ⟨⟨q, hq, htr⟩, hl, he⟩ := h
    obtain ⟨p, hp⟩ := Option.isSome_iff_exists.1 he
    obtain ⟨h1, h2, -⟩ := drop_eff w t p hp hn
    refine ⟨by simp [exists?, h1], ?_⟩
    have := h2 a hat
    rw [hq] at this
    refine ⟨_, p.reason.getD .normal, this, ?_⟩
    simp [afterDeath, hl, signalled, htr, deliver]
  · exact .inl h

/-! ## C137 -/

/-- What `a` knows of `t`. -/
def Notified (a t : Nat) (w : World B V) : Prop :=
  Watches a t w ∨ (exists? w t = false ∧ Heard a t w) ∨ running w a = false

theorem lt_of_running {ser : V → B} {w : World B V} (hre : Reachable ser w) {a : Nat} (h : exists? w a = true) : a < w.nextPid := by
  obtain ⟨os, rfl⟩ := hre
  apply Classical.byContradiction
  intro hn
  have := run_bounded ser os a (by omega)
  simp [exists?, this] at h

theorem notified_step {ser : V → B} {a t : Nat} {w : World B V} (hre : Reachable ser w) (hlt : a < w.nextPid) (htl : t < w.nextPid) (hat : a ≠ t) (h : Notified a t w) (o : Op B V)
    (ho : ¬ GivesUp a t o)
    (hk : ∀ ro k, o = .recv a ro k → running w a = true → exists? w t = false → ¬ TakesExit a t w ro k) : Notified a t (step ser w o).1 := by
  obtain ⟨os, rfl⟩ := hre
  have hst : ∀ w : World B V, t < w.nextPid → exists? w t = false → exists? (step ser w o).1 t = false := by
    intro w htl he
    have := (step_acts ser w o).inv (I := fun w => t < w.nextPid ∧ exists? w t = false) ⟨htl, he⟩ ?_
    · exact this.2
    · rintro w' x - ⟨h1, h2⟩
      refine ⟨by rw [nextPid_act]; split <;> omega, ?_⟩
      unfold exists? at h2 ⊢
      rw [ex_act]
      cases x <;> simp_all
      omega
  by_cases hda : o = .drop a
  · subst hda
    have hs : (step ser (run ser init os) (.drop a)).1 = if doomed (run ser init os) a then dropProc (run ser init os) a else run ser init os := by
      simp [step, Op.caller, Op.exec]
    rw [hs]
    split
    · rename_i hd
      right; right
      unfold doomed at hd
      cases hp : (run ser init os).procs a with
      | none => rw [hp] at hd; cases hd
      | some p =>
        have := (drop_eff _ a p hp (run_linksNodup ser os a)).1
        simp [running, this]
    · exact h
  · rcases h with h | ⟨he, h⟩ | h
    · by_cases hdt : o = .drop t
      · subst hdt
        rcases watching_drop hat (run_linksNodup ser os t) h ser with h | h
        · exact .inl h
        · exact .inr (.inl h)
      · exact .inl (watching_step (run_nodeLinksRemote ser os) hlt h ser o ho hda hdt)
    · have : Heard a t (step ser (run ser init os) o).1 ∨ running (step ser (run ser init os) o).1 a = false := by
        by_cases hr : ∃ ro k, o = .recv a ro k
        · obtain ⟨ro, k, rfl⟩ := hr
          exact heard_recv h ser ro k fun hr => hk ro k rfl hr he
        · exact heard_step hlt h ser o fun ro k h => hr ⟨ro, k, h⟩
      rcases this with h | h
      · exact .inr (.inl ⟨hst _ htl he, h⟩)
      · exact .inr (.inr h)
    · exact .inr (.inr (halted_step hlt h ser o))

/-- C137. Process `a` traps exits and is linked to `t`. Whatever happens then, as long as `a` neither unlinks `t` nor stops trapping exits: `a`
still watches the living `t`; or `t` is dead and its exit message waits in the mailbox of `a`; or `a` itself no longer runs; or a receive of
`a` took an exit message of `t` out of the mailbox when `t` was already dead. -/
theorem C137_told (ser : V → B) (os os' : List (Op B V)) (a t : Nat) (hat : a ≠ t) :
    let w := run ser init os
    let w' := run ser w os'
    Watches a t w → (∀ o ∈ os', ¬ GivesUp a t o) →
    Watches a t w' ∨ (exists? w' t = false ∧ Heard a t w') ∨ running w' a = false ∨
    ∃ os1 ro k os2, os' = os1 ++ .recv a ro k :: os2 ∧ running (run ser w os1) a = true ∧ exists? (run ser w os1) t = false ∧
      TakesExit a t (run ser w os1) ro k := by
  intro w w' hw hos
  have gen : ∀ os' (w : World B V), Reachable ser w → a < w.nextPid → t < w.nextPid → Notified a t w → (∀ o ∈ os', ¬ GivesUp a t o) →
      Notified a t (run ser w os') ∨ ∃ os1 ro k os2, os' = os1 ++ .recv a ro k :: os2 ∧ running (run ser w os1) a = true ∧
        exists? (run ser w os1) t = false ∧ TakesExit a t (run ser w os1) ro k := by
    intro os'
    induction os' with
    | nil => intro w _ _ _ h _; exact .inl h
    | cons o os' ih =>
      intro w hre ha ht h hos
      by_cases hk : ∃ ro k, o = .recv a ro k ∧ running w a = true ∧ exists? w t = false ∧ TakesExit a t w ro k
      · obtain ⟨ro, k, rfl, h1, h2, h3⟩ := hk
        exact .inr ⟨[], ro, k, os', rfl, h1, h2, h3⟩
      · have hmono := (acts_mono_counters (step_acts ser w o)).1
        rcases ih (step ser w o).1 (reach_step hre o) (by omega) (by omega)
          (notified_step hre ha ht hat h o (hos o List.mem_cons_self) fun ro k h1 h2 h3 h4 => hk ⟨ro, k, h1, h2, h3, h4⟩)
          (fun o ho => hos o (.tail _ ho)) with h | ⟨os1, ro, k, os2, rfl, h1, h2, h3⟩
        · exact .inl h
        · exact .inr ⟨o :: os1, ro, k, os2, rfl, h1, h2, h3⟩
  have ha : a < w.nextPid := by obtain ⟨⟨p, hp, -⟩, -⟩ := hw; exact lt_of_running ⟨os, rfl⟩ (by simp [exists?, w, hp])
  have ht : t < w.nextPid := lt_of_running ⟨os, rfl⟩ hw.2.2
  rcases gen os' w ⟨os, rfl⟩ ha ht (.inl hw) hos with (h | h | h) | h
  · exact .inl h
  · exact .inr (.inl h)
  · exact .inr (.inr (.inl h))
  · exact .inr (.inr (.inr h))

theorem setTrap_state (ser : V → B) (w : World B V) (a : Nat) (b : Bool) (h : running w a = true) :
    ∃ p, (step ser w (.setTrap a b)).1.procs a = some p ∧ p.trap = b := by
  unfold running at h
  cases hp : w.procs a with
  | none => rw [hp] at h; cases h
  | some p =>
    have : running w a = true := by rw [running, hp]; rw [hp] at h; exact h
    exact ⟨{ p with trap := b }, by simp [step, Op.caller, this, Op.exec, modProc, upd_at, hp], rfl⟩

/-- C137, where it begins: a running process that traps exits watches whom it spawns with `spawn_link`. -/
theorem C137_spawned (ser : V → B) (os : List (Op B V)) (a : Nat) (m : Bool) :
    let w := run ser init os
    running w a = true → (∃ p, w.procs a = some p ∧ p.trap = true) →
    ∃ t r, (step ser w (.spawn a true m)).2 = .spawned t r ∧ a ≠ t ∧ Watches a t (step ser w (.spawn a true m)).1 := by
  intro w hr ⟨p, hp, htr⟩
  have hlt : a < w.nextPid := lt_of_running ⟨os, rfl⟩ (by simp [exists?, w, hp])
  have hs : step ser w (.spawn a true m) = ((World.spawn w a true m).1, .spawned (World.spawn w a true m).2.1 (World.spawn w a true m).2.2) := by
    simp only [step, Op.caller, hr, if_true, Op.exec]
  rw [hs]
  have hne : a ≠ w.nextPid := by omega
  refine ⟨w.nextPid, (World.spawn w a true m).2.2, ?_, hne, ?_, ?_, ?_⟩
  · cases m <;> rfl
  · cases m <;> simp [World.spawn, spawnRaw, addLink, addMon, newRef, modBox, modProc, upd_at, hne, hp, htr]
  · cases m <;> simp [World.spawn, spawnRaw, addLink, addMon, newRef, modBox, modProc, upd_at, hne.symm] <;> (by_cases hm : Pid.loc a ∈ w.links w.nextPid) <;> simp [hm]
  · cases m <;> simp [World.spawn, spawnRaw, addLink, addMon, newRef, modBox, modProc, upd_at, hne.symm, exists?]

/-! ## Programs that wait for the exit -/

theorem others_spare {me t : Nat} {o : Op B V} (h : Others me o) : ¬ GivesUp me t o ∧ ∀ ro k, o ≠ .recv me ro k := by
  refine ⟨?_, ?_⟩
  · rintro (rfl | rfl) <;> exact h.1 rfl
  · rintro ro k rfl; exact h.1 rfl

/-- What is known of a world during the execution of a program. -/
structure Knows (ser : V → B) (a t : Nat) (w : World B V) : Prop where
  reach : Reachable ser w
  me : a < w.nextPid
  other : t < w.nextPid
  told : Notified a t w

theorem Knows.step {ser : V → B} {a t : Nat} {w : World B V} (h : Knows ser a t w) (hat : a ≠ t) (o : Op B V) (ho : ¬ GivesUp a t o)
    (hk : ∀ ro k, o = .recv a ro k → running w a = true → exists? w t = false → ¬ TakesExit a t w ro k) : Knows ser a t (step ser w o).1 := by
  have hmono := (acts_mono_counters (step_acts ser w o)).1
  have h1 := h.me
  have h2 := h.other
  exact ⟨reach_step h.reach o, by omega, by omega, notified_step h.reach h1 h2 hat h.told o ho hk⟩

theorem Knows.others {ser : V → B} {a t : Nat} {w : World B V} (h : Knows ser a t w) (hat : a ≠ t) (os : List (Op B V))
    (hos : ∀ o ∈ os, Others a o) : Knows ser a t (run ser w os) := by
  induction os generalizing w with
  | nil => exact h
  | cons o os ih =>
    have ho := others_spare (t := t) (hos o List.mem_cons_self)
    exact ih (h.step hat o ho.1 fun ro k he => absurd he (ho.2 ro k)) fun o ho => hos o (.tail _ ho)

/-- A wait without a time limit. -/
theorem wait_knows {R : Type} {ser : V → B} {o : RecvOp B V} {me t : Nat} (hat : me ≠ t) {w : World B V} {k : Msg o.T → Prog B V R} {os : List (Op B V)}
    {r : R} (hkw : Knows ser me t w) (kind : RecvKind) (hkd : kind ≠ .remove) (h : Exec ser me w (.wait kind o none k) os r) :
    ∃ os1 kind m os2, os = os1 ++ .recv me o kind :: os2 ∧ kind ≠ .remove ∧ received (run ser w os1) me o kind = some m ∧
      Exec ser me (step ser (run ser w os1) (.recv me o kind)).1 (k m) os2 r ∧ Knows ser me t (run ser w os1) ∧
      ((∀ r, m ≠ .system (.exit (.loc t) r)) → Knows ser me t (step ser (run ser w os1) (.recv me o kind)).1) := by
  generalize hp : (Prog.wait kind o none k : Prog B V R) = p at h
  induction h generalizing kind with
  | env ho hx ih =>
    subst hp
    have hs := others_spare (t := t) ho
    obtain ⟨os1, kind, m, os2, rfl, h0, h1, h2, h3, h4⟩ := ih (hkw.step hat _ hs.1 fun ro k he => absurd he (hs.2 ro k)) kind hkd rfl
    exact ⟨_ :: os1, kind, m, os2, rfl, h0, h1, h2, h3, h4⟩
  | got hr hm hx ih =>
    cases hp
    refine ⟨[], _, _, _, rfl, hkd, hm, hx, hkw, fun hne => ?_⟩
    refine hkw.step hat _ (by rintro (h | h) <;> cases h) ?_
    rintro ro k' he - - (⟨r', hr'⟩ | ⟨rfl, -⟩)
    · cases he; change received _ _ _ _ = _ at hr'; rw [hm] at hr'; cases hr'; exact hne _ rfl
    · cases he; exact hkd rfl
  | pending hr hm hx ih =>
    cases hp
    obtain ⟨os1, kind', m, os2, rfl, h0, h1, h2, h3, h4⟩ := ih (by
      refine hkw.step hat _ (by rintro (h | h) <;> cases h) ?_
      rintro ro k' he - - (⟨r', hr'⟩ | ⟨rfl, -⟩)
      · cases he; rw [hm] at hr'; cases hr'
      · cases he; exact hkd rfl) .resume (by simp) rfl
    exact ⟨_ :: os1, kind', m, os2, rfl, h0, h1, h2, h3, h4⟩
  | elapsed => cases hp
  | _ => cases hp

theorem exits_knows {R : Type} {ser : V → B} {me t : Nat} (hat : me ≠ t) (xs : List (Pid × ExitReason)) {k : Prog B V R} {w : World B V}
    {os : List (Op B V)} {r : R} (hkw : Knows ser me t w) (h : Exec ser me w (exitsProg me xs k) os r) :
    ∃ mid os2, os = mid ++ os2 ∧ Knows ser me t (run ser w mid) ∧ Exec ser me (run ser w mid) k os2 r := by
  induction xs generalizing w os with
  | nil => exact ⟨[], os, rfl, hkw, h⟩
  | cons x xs ih =>
    rw [exitsProg] at h
    obtain ⟨os1, os2, rfl, h1, -, h2⟩ := exec_op_inv h
    obtain ⟨mid, os3, rfl, h3, h4⟩ := ih ((hkw.others hat os1 h1).step hat _ (by rintro (h | h) <;> cases h) (by intro _ _ h; cases h)) h2
    refine ⟨os1 ++ .exit me x.1 x.2 :: mid, os3, by simp, ?_, ?_⟩
    · rw [run_append]; exact h3
    · rw [run_append]; exact h4

theorem runLoop_knows {ser : V → B} {τ : RecvType B V Unit} {me t : Nat} (hat : me ≠ t) {spid : Option Pid} {n : Nat} {w : World B V}
    {os : List (Op B V)} {ms : List (Msg Unit)} (hkw : Knows ser me t w)
    (h : Exec ser me w (runLoop τ me (.loc t) spid n) os (ms, false)) : Knows ser me t (run ser w os) := by
  induction n generalizing w os ms with
  | zero =>
    rw [runLoop] at h
    obtain ⟨-, h1⟩ := exec_ret_inv h
    exact hkw.others hat os h1
  | succ n ih =>
    rw [runLoop] at h
    obtain ⟨pre, kind, m, os2, rfl, -, hm, hx, -, hk⟩ := wait_knows hat hkw .select (by simp) h
    by_cases he : ∃ r, m = .system (.exit (.loc t) r)
    · obtain ⟨r, rfl⟩ := he
      simp only [runReact, if_true, exitsProg] at hx
      obtain ⟨he, -⟩ := exec_ret_inv hx
      cases he
    · have hk := hk fun r hr => he ⟨r, hr⟩
      obtain ⟨mid, os3, rfl, h1, h2⟩ := exits_knows hat _ hk hx
      have hd : (runReact (.loc t) spid m).2 = false := by
        cases m with
        | user x => rfl
        | system s =>
          cases s with
          | exit p r =>
            simp only [runReact]
            rw [if_neg (fun hp => he ⟨r, by rw [hp]⟩)]
            split <;> rfl
          | _ => rfl
      rw [hd] at h2
      simp only [Bool.false_eq_true, if_false] at h2
      obtain ⟨os4, os5, l, rfl, h4, h5⟩ := exec_bind_inv h2
      obtain ⟨he, h6⟩ := exec_ret_inv h5
      obtain ⟨ms', done'⟩ := l
      cases he
      have := (ih h1 h4).others hat os5 h6
      rw [run_append]
      change Knows ser me t (run ser _ (mid ++ (os4 ++ os5)))
      rw [run_append, run_append]
      exact this

/-- C137, `Application::run`: `start` returned the local process `t`, linked to the process of `run`, which traps exits. Then however long the
loop goes on, it has not missed the end of `t`: `t` still exists, or its exit message waits in the mailbox (or the process of `run` was itself
killed). Together with `C87_run`: the loop ends when `t` ends, and not before. -/
theorem C137_run (ser : V → B) (τ : RecvType B V Unit) (me t : Nat) (graceful : Bool) (n : Nat) (w : World B V) (os : List (Op B V))
    (spid : Option Pid) (ms : List (Msg Unit)) (hre : Reachable ser w) (hat : me ≠ t) (hw : Watches me t w)
    (h : Exec ser me w (runMain τ me graceful n (.loc t)) os (.looped (.loc t) spid ms false)) :
    exists? (run ser w os) t = true ∨ Heard me t (run ser w os) ∨ running (run ser w os) me = false := by
  have hkw : Knows ser me t w := by
    refine ⟨hre, ?_, lt_of_running hre hw.2.2, .inl hw⟩
    obtain ⟨⟨p, hp, -⟩, -⟩ := hw
    exact lt_of_running hre (by simp [exists?, hp])
  have fin : ∀ w, Knows ser me t w → exists? w t = true ∨ Heard me t w ∨ running w me = false := by
    intro w h
    rcases h.told with h | h | h
    · exact .inl h.2.2
    · exact .inr (.inl h.2)
    · exact .inr (.inr h)
  have loop : ∀ (w : World B V) (sp : Option Pid) (os : List (Op B V)), Knows ser me t w →
      Exec ser me w ((runLoop τ me (.loc t) sp n).bind fun l => .ret (RunEnd.looped (.loc t) sp l.1 l.2)) os (RunEnd.looped (.loc t) spid ms false) →
      Knows ser me t (run ser w os) := by
    intro w sp os hk h
    obtain ⟨os4, os5, l, rfl, h4, h5⟩ := exec_bind_inv h
    obtain ⟨he, h6⟩ := exec_ret_inv h5
    obtain ⟨ms', done⟩ := l
    cases he
    rw [run_append]
    exact (runLoop_knows hat hk h4).others hat os5 h6
  apply fin
  cases graceful with
  | false =>
    simp only [runMain, if_neg (show ¬ (false = true) by simp)] at h
    exact loop _ _ _ hkw h
  | true =>
    simp only [runMain, if_true] at h
    obtain ⟨osE, osF, rfl, h4, hrun, h5⟩ := exec_op_inv h
    have hk := (hkw.others hat osE h4).step hat (.spawn me true false) (by rintro (h | h) <;> cases h) (by intro _ _ h; cases h)
    rw [run_append]
    change Knows ser me t (run ser (step ser (run ser w osE) (.spawn me true false)).1 osF)
    generalize step ser (run ser w osE) (.spawn me true false) = z at *
    obtain ⟨w', x⟩ := z
    cases x <;> exact loop _ _ _ hk h5

/-! ## Examples -/

/-- The main process (2) of the application dies while the signal handler (3) lives; `run` has received nothing yet. -/
theorem noticeExec : Exec id 1 (run id init [.boot, .setTrap 1 true, .spawn 1 true false]) (runMain unitMsgs 1 true 0 (.loc 2))
    [.spawn 1 true false, .exit 2 (.loc 2) (.custom "oops"), .drop 2] (.looped (.loc 2) (some (.loc 3)) [] false) := by
  refine .op rfl (.env ⟨by simp [Op.caller], by simp⟩ (.env ⟨by simp [Op.caller], by simp⟩ (.ret _ _)))

theorem noticeWatch : Watches 1 2 (run id init [.boot, .setTrap 1 true, .spawn 1 true false] : World Nat Nat) :=
  ⟨⟨_, rfl, rfl⟩, by decide, rfl⟩

example := C137_run id unitMsgs 1 2 true 0 _ _ _ _ ⟨_, rfl⟩ (by decide) noticeWatch noticeExec
example : exists? (run id (run id init [.boot, .setTrap 1 true, .spawn 1 true false]) [.spawn 1 true false, .exit 2 (.loc 2) (.custom "oops"), .drop 2] : World Nat Nat) 2 = false := rfl
example := C137_told id [.boot, .setTrap 1 true, .spawn 1 true false] ([.unlink 2 (.loc 1), .exit 2 (.loc 2) (.custom "oops"), .drop 2] : List (Op Nat Nat)) 1 2 (by decide)
  noticeWatch (by simp [GivesUp])
example := C137_spawned id ([.boot, .setTrap 1 true] : List (Op Nat Nat)) 1 true rfl ⟨_, rfl, rfl⟩

end Verif.World
