import Verif.MonitorProps
/-!
# Where received messages come from

Every item of a mailbox was put there by a delivery (`sent`), and every delivery of a user message was made by a send
operation of this node or by a Send frame of another one.
-/
namespace Verif.World
open Verif.Mailbox
variable {B V : Type}

/-- How a delivered item may look later in the mailbox: unchanged, or rewritten in place by a receive that passed over it
(process_receiver.rs:175-241). -/
inductive Came : Item B V → Item B V → Prop
  | same (it) : Came it it
  | decoded {T : Type} (τ : RecvType B V T) (b : B) (t : T) : τ.deser b = some t → Came (.remote b) (.locl (τ.box t))
  | down (d r e) : Came (.down d r e) (.system (.processDown d r e))
  | nodeDown (n r) : Came (.nodeDown n r) (.system (.nodeDown n r))

theorem came_item {T : Type} (τ : RecvType B V T) (mons : List (Ref × PMon)) (als : List Nat) (it0 it : Item B V) (h : Came it0 it) :
    Came it0 (processItem τ mons als it).2.1 := by
  cases it <;> simp only [processItem]
  · cases h
    split
    · exact .decoded τ _ _ (by assumption)
    · exact .same _
  · split <;> exact h
  · exact h
  · cases h
    split
    · exact .down ..
    · exact .same _
  · cases h
    split
    · exact .nodeDown ..
    · exact .same _
  · exact h
  · exact h

/-- Every item in a mailbox was delivered to it. -/
def Delivered (w : World B V) : Prop :=
  ∀ j b, pmap (·.box) w j = some b → BoxOk (fun _ _ => True) (fun it => ∃ it0, (j, it0) ∈ w.sent ∧ Came it0 it) b

theorem sent_mono_act (w : World B V) (a : Atom B V) (x : Nat × Item B V) (h : x ∈ w.sent) : x ∈ (act w a).sent := by
  rw [sent_act]
  cases a <;> simp only [] <;> (try exact h) <;> split <;> simp [h]

theorem delivered_act (w : World B V) (a : Atom B V) (h : Delivered w) : Delivered (act w a) := by
  intro j b hb
  by_cases hj : (w.procs j).isSome = true
  · let K : Item B V → Prop := fun it => ∃ it0, (j, it0) ∈ (act w a).sent ∧ Came it0 it
    have hK : KeepsItem (B := B) (V := V) (fun _ _ => True) K := by
      rintro T τ mons als it - ⟨it0, h1, h2⟩
      exact ⟨trivial, it0, h1, came_item τ mons als it0 it h2⟩
    refine boxOk_act hK w a j ?_ (fun _ => trivial) ?_ ?_ (fun _ _ _ _ _ => trivial) (fun _ _ _ _ _ => trivial)
      (fun _ _ _ _ => trivial) ?_ b hb
    · intro b hb
      obtain ⟨-, h2, h3⟩ := h j b hb
      refine ⟨trivial, ?_, ?_⟩
      · intro it hit; obtain ⟨it0, g1, g2⟩ := h2 it hit; exact ⟨it0, sent_mono_act w a _ g1, g2⟩
      · intro it hit; obtain ⟨it0, g1, g2⟩ := h3 it hit; exact ⟨it0, sent_mono_act w a _ g1, g2⟩
    · rintro it rfl hs
      refine ⟨it, ?_, .same _⟩
      rw [sent_act]; simp [hs]
    · rintro id rfl
      refine ⟨_, ?_, .same _⟩
      rw [sent_act]; simp [hj]
    · rintro d m e al rfl
      refine ⟨_, ?_, .same _⟩
      rw [sent_act]; simp [hj]
  · have hnone : pmap (·.box) w j = none := by
      unfold pmap; cases hw : w.procs j with
      | none => rfl
      | some p => rw [hw] at hj; simp at hj
    have : b = ⟨[], [], [], []⟩ := by
      rw [box_act, hnone] at hb
      cases a <;> simp at hb
      exact hb.2.symm
    subst this
    exact ⟨trivial, by simp, by simp⟩

theorem run_delivered (ser : V → B) (w : World B V) (os : List (Op B V)) (h : Delivered w) : Delivered (run ser w os) :=
  run_inv ser Delivered delivered_act os w h

theorem init_delivered : Delivered (init : World B V) := by intro j b hb; simp [pmap, init] at hb

/-! ## What a receive returns -/

theorem scanItems_got {T : Type} (τ : RecvType B V T) (f : Msg T → Bool) (s : Bool) (l : List (Item B V)) :
    ∀ mons als done m, (scanItems τ f s mons als done l).1 = .got m →
      f m = true ∧ ∃ it ∈ l, ∃ mons als, (processItem τ mons als it).1 = .msg m := by
  induction l with
  | nil => intro mons als done m h; simp [scanItems] at h
  | cons it rest ih =>
    intro mons als done m h
    rw [scanItems] at h
    have step : ∀ mons als done, (scanItems τ f s mons als done rest).1 = .got m →
        f m = true ∧ ∃ it' ∈ it :: rest, ∃ mons als, (processItem τ mons als it').1 = .msg m := by
      intro mons als done h
      obtain ⟨g0, it', g1, g2⟩ := ih _ _ _ _ h
      exact ⟨g0, it', .tail _ g1, g2⟩
    have hz : ∀ z, processItem τ mons als it = z → (processItem τ mons als it).1 = z.1 := by rintro z rfl; rfl
    generalize hz' : processItem τ mons als it = z at h
    have := hz z hz'
    obtain ⟨res, it', mons', als'⟩ := z
    cases res with
    | msg m' =>
      dsimp only at *
      split at h
      · rename_i hf
        simp at h; subst h
        exact ⟨hf, it, List.mem_cons_self, mons, als, this⟩
      · exact step _ _ _ h
    | skip => exact step _ _ _ h
    | foreign =>
      dsimp only at *
      split at h
      · simp at h
      · exact step _ _ _ h

theorem scanChan_got {T : Type} (τ : RecvType B V T) (f : Msg T → Bool) (s : Bool) (l : List (Item B V)) :
    ∀ items mons als m, (scanChan τ f s items mons als l).1 = .got m →
      f m = true ∧ ∃ it ∈ l, ∃ mons als, (processItem τ mons als it).1 = .msg m := by
  induction l with
  | nil => intro items mons als m h; simp [scanChan] at h
  | cons it rest ih =>
    intro items mons als m h
    rw [scanChan] at h
    have step : ∀ items mons als, (scanChan τ f s items mons als rest).1 = .got m →
        f m = true ∧ ∃ it' ∈ it :: rest, ∃ mons als, (processItem τ mons als it').1 = .msg m := by
      intro items mons als h
      obtain ⟨g0, it', g1, g2⟩ := ih _ _ _ _ h
      exact ⟨g0, it', .tail _ g1, g2⟩
    have hz : ∀ z, processItem τ mons als it = z → (processItem τ mons als it).1 = z.1 := by rintro z rfl; rfl
    generalize hz' : processItem τ mons als it = z at h
    have := hz z hz'
    obtain ⟨res, it', mons', als'⟩ := z
    cases res with
    | msg m' =>
      dsimp only at *
      split at h
      · rename_i hf
        simp at h; subst h
        exact ⟨hf, it, List.mem_cons_self, mons, als, this⟩
      · exact step _ _ _ h
    | skip => exact step _ _ _ h
    | foreign =>
      dsimp only at *
      split at h
      · simp at h
      · exact step _ _ _ h

/-- A received message passes the filter and is what the receive makes of some item of the mailbox. -/
theorem received_item (w : World B V) (a : Nat) (o : RecvOp B V) (k : RecvKind) (m : Msg o.T) (h : received w a o k = some m) :
    o.filter m = true ∧ ∃ p, w.procs a = some p ∧ ∃ it, (it ∈ p.box.items ∨ it ∈ p.box.chan) ∧
      ∃ mons als, (processItem o.τ mons als it).1 = .msg m := by
  unfold received at h
  cases hp : w.procs a with
  | none => rw [hp] at h; simp at h
  | some p =>
    rw [hp] at h
    dsimp only at h
    have h' : (match k with
      | .select => (Mailbox.select o.τ o.filter o.strict p.box).1
      | .resume => (Mailbox.resume o.τ o.filter o.strict p.box).1
      | .remove => .pending) = .got m := by
      split at h
      · rename_i m' hm; simp at h; subst h; exact hm
      · simp at h
    cases k with
    | remove => simp at h'
    | resume =>
      obtain ⟨g0, it, g1, g2⟩ := scanChan_got _ _ _ _ _ _ _ _ h'
      exact ⟨g0, p, rfl, it, .inr g1, g2⟩
    | select =>
      have g := scanItems_got o.τ o.filter o.strict p.box.items p.box.mons p.box.aliases []
      simp only [select] at h'
      generalize scanItems o.τ o.filter o.strict p.box.mons p.box.aliases [] p.box.items = z at *
      obtain ⟨res, items, mons, als⟩ := z
      cases res with
      | pending =>
        obtain ⟨g0, it, g1, g2⟩ := scanChan_got _ _ _ _ _ _ _ _ h'
        exact ⟨g0, p, rfl, it, .inr g1, g2⟩
      | got m' =>
        obtain ⟨g0, it, g1, g2⟩ := g m' rfl
        simp at h'; subst h'
        exact ⟨g0, p, rfl, it, .inl g1, g2⟩
      | panicked => simp at h'

/-- Nobody delivers an already converted Down or NodeDown message. -/
def NoConverted (w : World B V) : Prop := ∀ j s, (j, Item.system s) ∈ w.sent → ∃ p e, s = .exit p e

theorem noConverted_act (w : World B V) (o : Op B V) (w' : World B V) (a : Atom B V) (ha : AtomOf w o a) (h : NoConverted w') :
    NoConverted (act w' a) := by
  intro j s hs
  rw [sent_act] at hs
  cases a <;> simp only [] at hs <;> try exact h j s hs
  · rename_i i it
    split at hs
    · rcases List.mem_append.1 hs with hs | hs
      · exact h j s hs
      · simp at hs
        obtain ⟨rfl, rfl⟩ := hs
        cases s with
        | exit p e => exact ⟨_, _, rfl⟩
        | _ => simp [AtomOf] at ha
    · exact h j s hs
  · split at hs
    · rcases List.mem_append.1 hs with hs | hs
      · exact h j s hs
      · simp at hs
    · exact h j s hs
  · split at hs
    · rcases List.mem_append.1 hs with hs | hs
      · exact h j s hs
      · simp at hs
    · exact h j s hs

theorem run_noConverted (ser : V → B) (os : List (Op B V)) : NoConverted (run ser (init : World B V) os) :=
  run_inv' ser NoConverted (fun _ => True) (fun w o _ _ w' a _ ha h => noConverted_act w o w' a ha h) os (fun _ _ => trivial) init
    (by intro j s h; simp [init] at h)

/-- A Down that a process receives was sent to it. -/
theorem received_down (w : World B V) (hd : Delivered w) (hn : NoConverted w) (a : Nat) (o : RecvOp B V) (k : RecvKind)
    (d : Dest) (r : Ref) (e : ExitReason) (h : received w a o k = some (.system (.processDown d r e))) :
    (a, .down d r e) ∈ w.sent := by
  obtain ⟨-, p, hp, it, hit, mons, als, hm⟩ := received_item w a o k _ h
  have hb := hd a p.box (by simp [pmap, hp])
  have : ∃ it0, (a, it0) ∈ w.sent ∧ Came it0 it := hit.elim (hb.2.1 it) (hb.2.2 it)
  obtain ⟨it0, h1, h2⟩ := this
  cases it <;> simp only [processItem] at hm
  · split at hm <;> simp at hm
  · split at hm <;> simp at hm
  · simp at hm; subst hm
    cases h2 with
    | same => obtain ⟨_, _, h⟩ := hn a _ h1; simp at h
    | down => exact h1
  · split at hm
    · simp at hm; obtain ⟨rfl, rfl, rfl⟩ := hm
      cases h2; exact h1
    · simp at hm
  · split at hm <;> simp at hm
  · simp at hm
  · simp at hm

/-- A user message that a process receives was delivered to it as a local value that casts to it, or as bytes that decode to
it, possibly by a receive of another type that passed over it before. -/
theorem received_user (w : World B V) (hd : Delivered w) (a : Nat) (o : RecvOp B V) (k : RecvKind)
    (t : o.T) (h : received w a o k = some (.user t)) :
    (∃ v, (a, .locl v) ∈ w.sent ∧ o.τ.cast v = some t) ∨ (∃ b, (a, .remote b) ∈ w.sent ∧ o.τ.deser b = some t) ∨
    ∃ b, (a, .remote b) ∈ w.sent ∧ ∃ (T' : Type) (τ' : RecvType B V T') (t' : T'), τ'.deser b = some t' ∧ o.τ.cast (τ'.box t') = some t := by
  obtain ⟨-, p, hp, it, hit, mons, als, hm⟩ := received_item w a o k _ h
  have hb := hd a p.box (by simp [pmap, hp])
  have : ∃ it0, (a, it0) ∈ w.sent ∧ Came it0 it := hit.elim (hb.2.1 it) (hb.2.2 it)
  obtain ⟨it0, h1, h2⟩ := this
  cases it <;> simp only [processItem] at hm
  · rename_i b
    cases h2
    split at hm
    · rename_i t' ht
      simp at hm; subst hm
      exact .inr (.inl ⟨b, h1, ht⟩)
    · simp at hm
  · rename_i v
    split at hm
    · rename_i t' ht
      simp at hm; subst hm
      cases h2 with
      | same => exact .inl ⟨v, h1, ht⟩
      | decoded τ' b t' hb' => exact .inr (.inr ⟨b, h1, _, τ', t', hb', ht⟩)
    · simp at hm
  · simp at hm
  · split at hm <;> simp at hm
  · split at hm <;> simp at hm
  · simp at hm
  · simp at hm

/-! ## Who made a delivery -/

/-- The operations that deliver the user item `it`: a send of a value (delivered as it is or serialized), or a Send frame. -/
inductive SentBy (ser : V → B) : Op B V → Item B V → Prop
  | local (me ds v) : SentBy ser (.send me ds v) (.locl v)
  | serial (me ds v) : SentBy ser (.send me ds v) (.remote (ser v))
  | frame (rp n ts b) : SentBy ser (.frame rp n (.send ts b)) (.remote b)

theorem sent_user_step (ser : V → B) (w : World B V) (o : Op B V) (i : Nat) (it : Item B V) (hit : isUser it = true)
    (h : (i, it) ∈ (step ser w o).1.sent) : (i, it) ∈ w.sent ∨ SentBy ser o it := by
  by_cases hs : ∃ me ds v, o = .send me ds v
  · obtain ⟨me, ds, v, rfl⟩ := hs
    let Q : Atom B V → Prop := fun a => ∀ j x, a = .put j x → x = .locl v ∨ x = .remote (ser v)
    let Q' : Atom B V → Prop := fun a => Q a ∧ ∀ j d m e al, a ≠ .mkMonDown j d m e al
    have hQ : Acts Q' w (step ser w (.send me ds v)).1 := by
      simp only [step, Op.caller]
      split
      · simp only [Op.exec]
        refine acts_send ?_ ser w ds v ?_ ?_ ?_ ?_ ?_
        · refine ⟨?_, ?_, ?_⟩ <;> intros <;> exact ⟨by simp [Q], by simp⟩
        · intros; exact ⟨by simp [Q], by simp⟩
        · intros; exact ⟨by simp [Q], by simp⟩
        · intros; exact ⟨by simp [Q], by simp⟩
        · intro i; refine ⟨?_, by simp⟩; rintro _ _ h; cases h; exact .inr rfl
        · intro i; refine ⟨?_, by simp⟩; rintro _ _ h; cases h; exact .inl rfl
      · exact .refl _
    have : ∀ w', Acts Q' w w' → (i, it) ∈ w'.sent → (i, it) ∈ w.sent ∨ SentBy ser (.send me ds v) it := by
      intro w' hw
      induction hw with
      | refl => exact .inl
      | @tail w1 a _ hq ih =>
        intro hm
        rw [sent_act] at hm
        cases a <;> simp only [] at hm <;> try exact ih hm
        · split at hm
          · rcases List.mem_append.1 hm with hm | hm
            · exact ih hm
            · simp at hm
              obtain ⟨rfl, rfl⟩ := hm
              rcases hq.1 _ _ rfl with rfl | rfl
              · exact .inr (.local ..)
              · exact .inr (.serial ..)
          · exact ih hm
        · split at hm
          · rcases List.mem_append.1 hm with hm | hm
            · exact ih hm
            · simp at hm; obtain ⟨rfl, rfl⟩ := hm; simp [isUser] at hit
          · exact ih hm
        · exact absurd rfl (hq.2 _ _ _ _ _)
    exact this _ hQ h
  · have : ∀ w', Acts (AtomOf w o) w w' → (i, it) ∈ w'.sent → (i, it) ∈ w.sent ∨ SentBy ser o it := by
      intro w' hw
      induction hw with
      | refl => exact .inl
      | @tail w1 a _ hq ih =>
        intro hm
        rw [sent_act] at hm
        cases a <;> simp only [] at hm <;> try exact ih hm
        · split at hm
          · rcases List.mem_append.1 hm with hm | hm
            · exact ih hm
            · simp at hm
              obtain ⟨rfl, rfl⟩ := hm
              cases it <;> simp [isUser] at hit
              · rcases hq with ⟨me, ds, v, rfl⟩ | ⟨rp, n, ts, rfl⟩
                · exact absurd ⟨_, _, _, rfl⟩ hs
                · exact .inr (.frame ..)
              · obtain ⟨me, ds, rfl⟩ := hq; exact .inr (.local ..)
          · exact ih hm
        · split at hm
          · rcases List.mem_append.1 hm with hm | hm
            · exact ih hm
            · simp at hm; obtain ⟨rfl, rfl⟩ := hm; simp [isUser] at hit
          · exact ih hm
        · split at hm
          · rcases List.mem_append.1 hm with hm | hm
            · exact ih hm
            · simp at hm; obtain ⟨rfl, rfl⟩ := hm; simp [isUser] at hit
          · exact ih hm
    exact this _ (step_acts ser w o) h

theorem sent_user (ser : V → B) (os : List (Op B V)) (w : World B V) (i : Nat) (it : Item B V) (hit : isUser it = true)
    (h : (i, it) ∈ (run ser w os).sent) : (i, it) ∈ w.sent ∨ ∃ o ∈ os, SentBy ser o it := by
  induction os generalizing w with
  | nil => exact .inl h
  | cons o os ih =>
    rcases ih (step ser w o).1 h with h | ⟨o', h1, h2⟩
    · rcases sent_user_step ser w o i it hit h with h | h
      · exact .inl h
      · exact .inr ⟨o, List.mem_cons_self, h⟩
    · exact .inr ⟨o', .tail _ h1, h2⟩

end Verif.World
