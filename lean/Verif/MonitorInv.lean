import Verif.LinkProps
/-!
# Invariants about one monitor reference
-/
namespace Verif.World
open Verif.Mailbox
variable {B V : Type}

/-! ## What a receive does to the monitors and the items of a mailbox -/

section box
variable {T : Type}

/-- One step of `processItem` at type `τ` keeps `P` (of the monitor map) and `K` (of the items). -/
def KeepsAt (τ : RecvType B V T) (P : List (Ref × PMon) → List Nat → Prop) (K : Item B V → Prop) : Prop :=
  ∀ mons als it, P mons als → K it →
    P (processItem τ mons als it).2.2.1 (processItem τ mons als it).2.2.2 ∧ K (processItem τ mons als it).2.1

/-- The same at every type. -/
def KeepsItem (P : List (Ref × PMon) → List Nat → Prop) (K : Item B V → Prop) : Prop :=
  ∀ (T : Type) (τ : RecvType B V T), KeepsAt τ P K

variable {P : List (Ref × PMon) → List Nat → Prop} {K : Item B V → Prop}

theorem scanItems_keeps (τ : RecvType B V T) (hk : KeepsAt τ P K) (f : Msg T → Bool) (s : Bool) (l : List (Item B V)) :
    ∀ mons als done, P mons als → (∀ it ∈ done, K it) → (∀ it ∈ l, K it) →
      P (scanItems τ f s mons als done l).2.2.1 (scanItems τ f s mons als done l).2.2.2 ∧ ∀ it ∈ (scanItems τ f s mons als done l).2.1, K it := by
  induction l with
  | nil => intro mons als done h1 h2 _; exact ⟨h1, h2⟩
  | cons it rest ih =>
    intro mons als done h1 h2 h3
    have h3' : ∀ x ∈ rest, K x := fun x hx => h3 x (.tail _ hx)
    obtain ⟨g1, g2⟩ := hk mons als it h1 (h3 it List.mem_cons_self)
    have hdone : ∀ x ∈ done ++ [(processItem τ mons als it).2.1], K x := by
      intro x hx; rcases List.mem_append.1 hx with hx | hx
      · exact h2 x hx
      · simp at hx; rw [hx]; exact g2
    have hdr : ∀ x ∈ done ++ rest, K x := by
      intro x hx; rcases List.mem_append.1 hx with hx | hx
      · exact h2 x hx
      · exact h3' x hx
    have hdr' : ∀ x ∈ done ++ (processItem τ mons als it).2.1 :: rest, K x := by
      intro x hx; rcases List.mem_append.1 hx with hx | hx
      · exact h2 x hx
      · rcases List.mem_cons.1 hx with rfl | hx
        · exact g2
        · exact h3' x hx
    rw [scanItems]
    generalize processItem τ mons als it = z at *
    obtain ⟨res, it', mons', als'⟩ := z
    cases res with
    | msg m =>
      dsimp only at *
      split
      · exact ⟨g1, hdr⟩
      · exact ih _ _ _ g1 hdone h3'
    | skip => exact ih _ _ _ g1 hdone h3'
    | foreign =>
      dsimp only at *
      split
      · exact ⟨g1, hdr'⟩
      · exact ih _ _ _ g1 hdone h3'

theorem scanChan_keeps (τ : RecvType B V T) (hk : KeepsAt τ P K) (f : Msg T → Bool) (s : Bool) (l : List (Item B V)) :
    ∀ items mons als, P mons als → (∀ it ∈ items, K it) → (∀ it ∈ l, K it) →
      P (scanChan τ f s items mons als l).2.mons (scanChan τ f s items mons als l).2.aliases ∧ (∀ it ∈ (scanChan τ f s items mons als l).2.items, K it) ∧
      ∀ it ∈ (scanChan τ f s items mons als l).2.chan, K it := by
  induction l with
  | nil => intro items mons als h1 h2 _; exact ⟨h1, h2, by simp [scanChan]⟩
  | cons it rest ih =>
    intro items mons als h1 h2 h3
    have h3' : ∀ x ∈ rest, K x := fun x hx => h3 x (.tail _ hx)
    obtain ⟨g1, g2⟩ := hk mons als it h1 (h3 it List.mem_cons_self)
    have hdone : ∀ x ∈ items ++ [(processItem τ mons als it).2.1], K x := by
      intro x hx; rcases List.mem_append.1 hx with hx | hx
      · exact h2 x hx
      · simp at hx; rw [hx]; exact g2
    rw [scanChan]
    generalize processItem τ mons als it = z at *
    obtain ⟨res, it', mons', als'⟩ := z
    cases res with
    | msg m =>
      dsimp only at *
      split
      · exact ⟨g1, h2, h3'⟩
      · exact ih _ _ _ g1 hdone h3'
    | skip => exact ih _ _ _ g1 h2 h3'
    | foreign =>
      dsimp only at *
      split
      · exact ⟨g1, h2, h3'⟩
      · exact ih _ _ _ g1 hdone h3'

theorem removeItems_keeps (τ : RecvType B V T) (hk : KeepsAt τ P K) (f : Msg T → Bool) (s : Bool) (l : List (Item B V)) :
    ∀ mons als, P mons als → (∀ it ∈ l, K it) → ∀ z, removeItems τ f s mons als l = some z →
      P z.2.1 z.2.2 ∧ ∀ it ∈ z.1, K it := by
  induction l with
  | nil => intro mons als h1 _ z hz; simp [removeItems] at hz; subst hz; exact ⟨h1, by simp⟩
  | cons it rest ih =>
    intro mons als h1 h3 z hz
    have h3' : ∀ x ∈ rest, K x := fun x hx => h3 x (.tail _ hx)
    obtain ⟨g1, g2⟩ := hk mons als it h1 (h3 it List.mem_cons_self)
    rw [removeItems] at hz
    generalize processItem τ mons als it = y at *
    obtain ⟨res, it', mons', als'⟩ := y
    have key : ∀ (g : List (Item B V) × List (Ref × PMon) × List Nat → List (Item B V)),
        (∀ r, (∀ x ∈ r.1, K x) → ∀ x ∈ g r, K x) →
        (removeItems τ f s mons' als' rest).map (fun r => (g r, r.2)) = some z → P z.2.1 z.2.2 ∧ ∀ it ∈ z.1, K it := by
      intro g hg hz
      cases hr : removeItems τ f s mons' als' rest with
      | none => rw [hr] at hz; simp at hz
      | some r =>
        rw [hr] at hz; simp at hz; subst hz
        obtain ⟨e1, e2⟩ := ih _ _ g1 h3' r hr
        exact ⟨e1, hg r e2⟩
    have hcons : ∀ r : List (Item B V) × List (Ref × PMon) × List Nat, (∀ x ∈ r.1, K x) → ∀ x ∈ it' :: r.1, K x := by
      intro r hr x hx
      rcases List.mem_cons.1 hx with rfl | hx
      · exact g2
      · exact hr x hx
    cases res with
    | msg m =>
      refine key (fun r => if f m then r.1 else it' :: r.1) ?_ hz
      intro r hr; split
      · exact hr
      · exact hcons r hr
    | skip => exact key (fun r => it' :: r.1) hcons hz
    | foreign =>
      dsimp only at hz
      split at hz
      · simp at hz
      · exact key (fun r => it' :: r.1) hcons hz

theorem removeChan_keeps (τ : RecvType B V T) (hk : KeepsAt τ P K) (f : Msg T → Bool) (s : Bool) (l : List (Item B V)) :
    ∀ items mons als, P mons als → (∀ it ∈ items, K it) → (∀ it ∈ l, K it) → ∀ z, removeChan τ f s items mons als l = some z →
      P z.mons z.aliases ∧ (∀ it ∈ z.items, K it) ∧ ∀ it ∈ z.chan, K it := by
  induction l with
  | nil => intro items mons als h1 h2 _ z hz; simp [removeChan] at hz; subst hz; exact ⟨h1, h2, by simp⟩
  | cons it rest ih =>
    intro items mons als h1 h2 h3 z hz
    have h3' : ∀ x ∈ rest, K x := fun x hx => h3 x (.tail _ hx)
    obtain ⟨g1, g2⟩ := hk mons als it h1 (h3 it List.mem_cons_self)
    have hdone : ∀ x ∈ items ++ [(processItem τ mons als it).2.1], K x := by
      intro x hx; rcases List.mem_append.1 hx with hx | hx
      · exact h2 x hx
      · simp at hx; rw [hx]; exact g2
    rw [removeChan] at hz
    generalize processItem τ mons als it = y at *
    obtain ⟨res, it', mons', als'⟩ := y
    cases res with
    | msg m =>
      refine ih _ _ _ g1 ?_ h3' z hz
      split
      · exact h2
      · exact hdone
    | skip => exact ih _ _ _ g1 h2 h3' z hz
    | foreign =>
      dsimp only at hz
      split at hz
      · simp at hz
      · exact ih _ _ _ g1 hdone h3' z hz

/-- `P` of the monitors and `K` of all items of a mailbox. -/
def BoxOk (P : List (Ref × PMon) → List Nat → Prop) (K : Item B V → Prop) (b : Box B V) : Prop :=
  P b.mons b.aliases ∧ (∀ it ∈ b.items, K it) ∧ ∀ it ∈ b.chan, K it

theorem recvBox_keeps (o : RecvOp B V) (hk : KeepsAt o.τ P K) (k : RecvKind) (b : Box B V) (h : BoxOk P K b) :
    BoxOk P K (recvBox o k b) := by
  obtain ⟨h1, h2, h3⟩ := h
  cases k with
  | resume => exact scanChan_keeps o.τ hk o.filter o.strict b.chan _ _ _ h1 h2 h3
  | select =>
    simp only [recvBox, select]
    obtain ⟨g1, g2⟩ := scanItems_keeps o.τ hk o.filter o.strict b.items b.mons b.aliases [] h1 (by simp) h2
    generalize scanItems o.τ o.filter o.strict b.mons b.aliases [] b.items = z at *
    obtain ⟨res, items, mons, als⟩ := z
    cases res with
    | pending => exact scanChan_keeps o.τ hk o.filter o.strict b.chan _ _ _ g1 g2 h3
    | got m => exact ⟨g1, g2, h3⟩
    | panicked => exact ⟨g1, g2, h3⟩
  | remove =>
    simp only [recvBox, remove]
    cases hr : removeItems o.τ o.filter o.strict b.mons b.aliases b.items with
    | none => exact ⟨h1, h2, h3⟩
    | some z =>
      obtain ⟨g1, g2⟩ := removeItems_keeps o.τ hk o.filter o.strict b.items b.mons b.aliases h1 h2 z hr
      obtain ⟨items, mons, als⟩ := z
      dsimp only
      cases hc : removeChan o.τ o.filter o.strict items mons als b.chan with
      | none => exact ⟨h1, h2, h3⟩
      | some y => exact removeChan_keeps o.τ hk o.filter o.strict b.chan _ _ _ g1 g2 h3 y hc

end box

/-! ## Items and monitor maps that do not mention a reference -/

/-- The item is a not yet received Down or NodeDown for `r`. -/
def reports (r : Ref) : Item B V → Bool
  | .down _ r' _ => r' == r
  | .nodeDown _ r' => r' == r
  | _ => false

/-- The item is an already converted Down or NodeDown message for `r`. -/
def converted (r : Ref) : Item B V → Bool
  | .system (.processDown _ r' _) => r' == r
  | .system (.nodeDown _ r') => r' == r
  | _ => false

theorem hasMon_dropMon (mons : List (Ref × PMon)) (r r' : Ref) :
    hasMon (dropMon mons r') r = (hasMon mons r && decide (r ≠ r')) := by
  unfold hasMon dropMon
  induction mons with
  | nil => simp
  | cons x xs ih =>
    simp only [List.filter_cons]
    have ih' : (List.filter (fun x => x.1 != r') xs).any (fun x => x.1 == r) = ((xs.any fun x => x.1 == r) && decide (r ≠ r')) := ih
    by_cases h1 : x.1 = r'
    · rw [if_neg (by simp [h1]), ih', List.any_cons]
      by_cases h2 : x.1 = r
      · have : r = r' := h2.symm.trans h1
        simp [this]
      · rw [beq_false_of_ne h2]; simp
    · rw [if_pos (by simp [h1]), List.any_cons, List.any_cons, ih']
      by_cases h2 : x.1 = r
      · have : r ≠ r' := fun h => h1 (h2.trans h)
        simp [this, h2]
      · rw [beq_false_of_ne h2]; simp

theorem hasMon_update (mons : List (Ref × PMon)) (r r' : Ref) (m : PMon) :
    hasMon (mons.map fun x => if x.1 = r' then (x.1, m) else x) r = hasMon mons r := by
  unfold hasMon
  induction mons with
  | nil => simp
  | cons x xs ih =>
    simp only [List.map_cons, List.any_cons, ih]
    congr 1
    split <;> rfl

/-- Receiving never adds a monitor and never makes a report. -/
theorem keeps_unused (r : Ref) :
    KeepsItem (B := B) (V := V) (fun m _ => hasMon m r = false) (fun it => reports r it = false) := by
  intro T τ mons als it h1 h2
  cases it <;> simp only [processItem]
  · split <;> exact ⟨h1, by simp_all [reports]⟩
  · split <;> exact ⟨h1, by simp_all [reports]⟩
  · exact ⟨h1, h2⟩
  · split
    · exact ⟨by rw [hasMon_dropMon, h1]; rfl, rfl⟩
    · exact ⟨h1, h2⟩
  · split
    · exact ⟨by rw [hasMon_dropMon, h1]; rfl, rfl⟩
    · exact ⟨h1, h2⟩
  · exact ⟨by rw [hasMon_update]; exact h1, h2⟩
  · exact ⟨h1, h2⟩

/-- Without a report for it a monitor stays in the process. -/
theorem keeps_held (r : Ref) :
    KeepsItem (B := B) (V := V) (fun m _ => hasMon m r = true) (fun it => reports r it = false) := by
  intro T τ mons als it h1 h2
  cases it <;> simp only [processItem]
  · split <;> exact ⟨h1, by simp_all [reports]⟩
  · split <;> exact ⟨h1, by simp_all [reports]⟩
  · exact ⟨h1, h2⟩
  · simp only [reports, beq_eq_false_iff_ne, ne_eq] at h2
    split
    · exact ⟨by rw [hasMon_dropMon, h1]; simp [Ne.symm h2], rfl⟩
    · exact ⟨h1, by simpa [reports] using h2⟩
  · simp only [reports, beq_eq_false_iff_ne, ne_eq] at h2
    split
    · exact ⟨by rw [hasMon_dropMon, h1]; simp [Ne.symm h2], rfl⟩
    · exact ⟨h1, by simpa [reports] using h2⟩
  · exact ⟨by rw [hasMon_update]; exact h1, h2⟩
  · exact ⟨h1, h2⟩

/-- Without the monitor no report is converted. -/
theorem keeps_removed (r : Ref) :
    KeepsItem (B := B) (V := V) (fun m _ => hasMon m r = false) (fun it => converted r it = false) := by
  intro T τ mons als it h1 h2
  cases it <;> simp only [processItem]
  · split <;> exact ⟨h1, by simp_all [converted]⟩
  · split <;> exact ⟨h1, by simp_all [converted]⟩
  · exact ⟨h1, h2⟩
  · rename_i d r' e
    split
    · rename_i hm
      refine ⟨by rw [hasMon_dropMon, h1]; rfl, ?_⟩
      simp only [converted, beq_eq_false_iff_ne, ne_eq]; rintro rfl; rw [h1] at hm; simp at hm
    · exact ⟨h1, h2⟩
  · split
    · rename_i hm
      refine ⟨by rw [hasMon_dropMon, h1]; rfl, ?_⟩
      simp only [converted, beq_eq_false_iff_ne, ne_eq]; rintro rfl; rw [h1] at hm; simp at hm
    · exact ⟨h1, h2⟩
  · exact ⟨by rw [hasMon_update]; exact h1, h2⟩
  · exact ⟨h1, h2⟩

theorem hasMon_setMon (b : Box B V) (r r' : Ref) (m : PMon) :
    hasMon (setMon b r' m).mons r = (hasMon b.mons r || decide (r = r')) := by
  simp only [setMon]
  have : hasMon (dropMon b.mons r' ++ [(r', m)]) r = (hasMon (dropMon b.mons r') r || (r' == r)) := by simp [hasMon]
  rw [this, hasMon_dropMon]
  by_cases h : r = r'
  · subst h; simp
  · simp [h, Ne.symm h]

/-! ## References above the counter are unused -/

/-- The Down messages for a reference among the deliveries. -/
def downsOf (r : Ref) (l : List (Nat × Item B V)) : List (Nat × Item B V) :=
  l.filter fun x => match x.2 with | .down _ r' _ => r' == r | _ => false

/-- No table, mailbox or message mentions the reference. -/
structure Unused (r : Ref) (w : World B V) : Prop where
  mons : ∀ i, ∀ x ∈ w.mons i, x.1 ≠ r
  nodes : ∀ n, ∀ x ∈ w.nodeMons n, x.1 ≠ r
  sent : downsOf r w.sent = []
  box : ∀ j b, pmap (·.box) w j = some b → BoxOk (fun m _ => hasMon m r = false) (fun it => reports r it = false) b

theorem downsOf_append (r : Ref) (l l' : List (Nat × Item B V)) : downsOf r (l ++ l') = downsOf r l ++ downsOf r l' := by
  simp [downsOf]

theorem boxOk_deliver {P : List (Ref × PMon) → List Nat → Prop} {K : Item B V → Prop} (b : Box B V) (it : Item B V) (h : BoxOk P K b)
    (hit : K it) : BoxOk P K (deliver b it) := by
  refine ⟨h.1, h.2.1, ?_⟩
  intro x hx
  simp only [deliver, List.mem_append, List.mem_singleton] at hx
  rcases hx with hx | rfl
  · exact h.2.2 x hx
  · exact hit

theorem boxOk_mons {P : List (Ref × PMon) → List Nat → Prop} {K : Item B V → Prop} (b b' : Box B V) (h : BoxOk P K b)
    (h1 : b'.items = b.items) (h2 : b'.chan = b.chan) (h3 : P b'.mons b'.aliases) : BoxOk P K b' :=
  ⟨h3, by rw [h1]; exact h.2.1, by rw [h2]; exact h.2.2⟩

/-- How mailboxes satisfying `BoxOk` evolve: enough is to know the delivered items and the added monitors. -/
theorem boxOk_act_at {P : List (Ref × PMon) → List Nat → Prop} {K : Item B V → Prop} (w : World B V) (a : Atom B V) (j : Nat)
    (hk : ∀ o k, a = .rbox j o k → KeepsAt o.τ P K)
    (h : ∀ b, pmap (·.box) w j = some b → BoxOk P K b)
    (hnew : j = w.nextPid → P [] [])
    (hput : ∀ it, a = .put j it → (w.procs j).isSome → K it)
    (hoff : ∀ id, a = .shot j id → K (.aliasOff id))
    (hal : ∀ m als als', P m als → (∃ x, a = .dropAl j x ∧ als' = als.filter (· ≠ x)) ∨ (∃ y, a = .mkAlias j y ∧ als' = als ++ [w.nextRef]) → P m als')
    (hdrop : ∀ r m als, a = .dropMon j r → P m als → P (dropMon m r) als)
    (hset : ∀ b : Box B V, ∀ m, (∃ i d al, a = .mkMon j i d al) ∨ (∃ d e al, a = .mkMonDown j d m e al) ∨ (∃ n nm al, a = .mkMonRem j n m nm al) →
      P b.mons b.aliases → P (setMon b (.loc w.nextRef) m).mons b.aliases)
    (hdown : ∀ d m e al, a = .mkMonDown j d m e al → K (.down d (.loc w.nextRef) e))
    (b : Box B V) (hb : pmap (·.box) (act w a) j = some b) : BoxOk P K b := by
  rw [box_act] at hb
  have hput' : ∀ it, a = .put j it → ∀ b0, pmap (·.box) w j = some b0 → K it := by
    intro it ha b0 hb0
    refine hput it ha ?_
    unfold pmap at hb0
    cases hw : w.procs j with
    | none => rw [hw] at hb0; simp at hb0
    | some => rfl
  cases a <;> simp only [] at hb <;> try exact h b hb
  all_goals
    split at hb
    rotate_left
    · exact h b hb
  all_goals
    subst_vars
  · cases hw : pmap (fun x => x.box) w _ with
    | none => rw [hw] at hb; simp at hb
    | some b0 => rw [hw] at hb; simp at hb; subst hb; exact boxOk_deliver _ _ (h _ hw) (hput' _ rfl _ hw)
  · simp at hb; subst hb; exact ⟨hnew rfl, by simp, by simp⟩
  · simp at hb
  · cases hw : pmap (fun x => x.box) w _ with
    | none => rw [hw] at hb; simp at hb
    | some b0 => rw [hw] at hb; simp at hb; subst hb; exact recvBox_keeps _ (hk _ _ rfl) _ _ (h _ hw)
  · cases hw : pmap (fun x => x.box) w _ with
    | none => rw [hw] at hb; simp at hb
    | some b0 => rw [hw] at hb; simp at hb; subst hb; exact boxOk_mons _ _ (h _ hw) rfl rfl (hdrop _ _ _ rfl (h _ hw).1)
  · cases hw : pmap (fun x => x.box) w _ with
    | none => rw [hw] at hb; simp at hb
    | some b0 =>
      rw [hw] at hb; simp at hb; subst hb
      exact boxOk_mons _ _ (h _ hw) rfl rfl (hal _ _ _ (h _ hw).1 (.inl ⟨_, rfl, by simp⟩))
  · cases hw : pmap (fun x => x.box) w _ with
    | none => rw [hw] at hb; simp at hb
    | some b0 => rw [hw] at hb; simp at hb; subst hb; exact boxOk_deliver _ _ (h _ hw) (hoff _ rfl)
  · cases hw : pmap (fun x => x.box) w _ with
    | none => rw [hw] at hb; simp at hb
    | some b0 =>
      rw [hw] at hb; simp at hb; subst hb
      exact boxOk_mons _ _ (h _ hw) rfl rfl (hal _ _ _ (h _ hw).1 (.inr ⟨_, rfl, rfl⟩))
  · cases hw : pmap (fun x => x.box) w _ with
    | none => rw [hw] at hb; simp at hb
    | some b0 =>
      rw [hw] at hb; simp at hb; subst hb
      exact boxOk_mons _ _ (h _ hw) rfl rfl (hset b0 _ (.inl ⟨_, _, _, rfl⟩) (h _ hw).1)
  · cases hw : pmap (fun x => x.box) w _ with
    | none => rw [hw] at hb; simp at hb
    | some b0 =>
      rw [hw] at hb; simp at hb; subst hb
      refine boxOk_deliver _ _ ?_ (hdown _ _ _ _ rfl)
      exact boxOk_mons _ _ (h _ hw) rfl rfl (hset b0 _ (.inr (.inl ⟨_, _, _, rfl⟩)) (h _ hw).1)
  · cases hw : pmap (fun x => x.box) w _ with
    | none => rw [hw] at hb; simp at hb
    | some b0 =>
      rw [hw] at hb; simp at hb; subst hb
      exact boxOk_mons _ _ (h _ hw) rfl rfl (hset b0 _ (.inr (.inr ⟨_, _, _, rfl⟩)) (h _ hw).1)

theorem boxOk_act {P : List (Ref × PMon) → List Nat → Prop} {K : Item B V → Prop} (hk : KeepsItem P K) (w : World B V) (a : Atom B V) (j : Nat)
    (h : ∀ b, pmap (·.box) w j = some b → BoxOk P K b)
    (hnew : j = w.nextPid → P [] [])
    (hput : ∀ it, a = .put j it → (w.procs j).isSome → K it)
    (hoff : ∀ id, a = .shot j id → K (.aliasOff id))
    (hal : ∀ m als als', P m als → (∃ x, a = .dropAl j x ∧ als' = als.filter (· ≠ x)) ∨ (∃ y, a = .mkAlias j y ∧ als' = als ++ [w.nextRef]) → P m als')
    (hdrop : ∀ r m als, a = .dropMon j r → P m als → P (dropMon m r) als)
    (hset : ∀ b : Box B V, ∀ m, (∃ i d al, a = .mkMon j i d al) ∨ (∃ d e al, a = .mkMonDown j d m e al) ∨ (∃ n nm al, a = .mkMonRem j n m nm al) →
      P b.mons b.aliases → P (setMon b (.loc w.nextRef) m).mons b.aliases)
    (hdown : ∀ d m e al, a = .mkMonDown j d m e al → K (.down d (.loc w.nextRef) e))
    (b : Box B V) (hb : pmap (·.box) (act w a) j = some b) : BoxOk P K b :=
  boxOk_act_at w a j (fun o _ _ => hk _ o.τ) h hnew hput hoff hal hdrop hset hdown b hb

theorem filter_append_single_mem {A : Type} (l : List A) (p : A → Bool) (y x : A) (h : x ∈ l.filter p ++ [y]) : x ∈ l ∨ x = y := by
  rcases List.mem_append.1 h with h | h
  · exact .inl (List.mem_filter.1 h).1
  · exact .inr (by simpa using h)

/-- A reference nobody mentions stays so until it is handed out. -/
theorem unused_act (r : Nat) (w : World B V) (o : Op B V) (hw : Unused (.loc r) w) (w' : World B V) (a : Atom B V)
    (ha : AtomOf w o a) (h : Unused (.loc r) w') (hr : (act w' a).nextRef ≠ w'.nextRef → w'.nextRef ≠ r) : Unused (.loc r) (act w' a) := by
  have hne : (act w' a).nextRef ≠ w'.nextRef → Ref.loc w'.nextRef ≠ Ref.loc r := by simpa using hr
  refine ⟨?_, ?_, ?_, ?_⟩
  · intro i x hx
    rw [mons_act] at hx
    cases a <;> simp only [upd_at] at hx <;> try exact h.mons i x hx
    · split at hx
      · rcases filter_append_single_mem _ _ _ _ hx with hx | rfl
        · exact h.mons _ x hx
        · rintro rfl; simp [AtomOf, Ref.isLocal] at ha
      · exact h.mons i x hx
    · split at hx
      · exact h.mons _ x (List.mem_filter.1 hx).1
      · exact h.mons i x hx
    · split at hx
      · simp at hx
      · exact h.mons i x hx
    · split at hx
      · rcases filter_append_single_mem _ _ _ _ hx with hx | rfl
        · exact h.mons _ x hx
        · exact hne (by rw [nextRef_act]; simp)
      · exact h.mons i x hx
  · intro n x hx
    rw [nodeMons_act] at hx
    cases a <;> simp only [upd_at] at hx <;> try exact h.nodes n x hx
    · split at hx
      · rcases filter_append_single_mem _ _ _ _ hx with hx | rfl
        · exact h.nodes _ x hx
        · exact hne (by rw [nextRef_act]; simp)
      · exact h.nodes n x hx
    · split at hx
      · rcases filter_append_single_mem _ _ _ _ hx with hx | rfl
        · exact h.nodes _ x hx
        · rintro rfl; simp [AtomOf, Ref.isLocal] at ha
      · exact h.nodes n x hx
    · split at hx
      · exact h.nodes _ x (List.mem_filter.1 hx).1
      · exact h.nodes n x hx
    · split at hx
      · simp at hx
      · exact h.nodes n x hx
  · rw [sent_act]
    cases a <;> simp only [] <;> try exact h.sent
    · rename_i i it
      split
      · rw [downsOf_append, h.sent]
        cases it <;> simp [downsOf]
        rintro rfl
        rcases ha with ⟨t, p, dd, _, _, hm, _⟩ | ⟨n, hm, _⟩
        · exact hw.mons _ _ hm rfl
        · exact hw.nodes _ _ hm rfl
      · exact h.sent
    · split
      · rw [downsOf_append, h.sent]; simp [downsOf]
      · exact h.sent
    · split
      · rw [downsOf_append, h.sent]
        simp [downsOf, hr (by rw [nextRef_act]; simp)]
      · exact h.sent
  · intro j b hb
    refine boxOk_act (keeps_unused (.loc r)) w' a j (h.box j) (fun _ => rfl) ?_ (fun _ _ => rfl) (fun _ _ _ h _ => h) ?_ ?_ ?_ b hb
    · rintro it rfl -
      cases it <;> simp [reports]
      · rintro rfl
        rcases ha with ⟨t, p, dd, _, _, hm, _⟩ | ⟨n, hm, _⟩
        · exact hw.mons _ _ hm rfl
        · exact hw.nodes _ _ hm rfl
      · rintro rfl; exact hw.nodes _ _ ha.1 rfl
    · intro r' m _ _ hm; rw [hasMon_dropMon, hm]; rfl
    · intro b m hc hm
      have : w'.nextRef ≠ r := by
        rcases hc with ⟨i, d, al, rfl⟩ | ⟨d, e, al, rfl⟩ | ⟨n, nm, al, rfl⟩ <;> exact hr (by rw [nextRef_act]; simp)
      rw [hasMon_setMon, hm]; simpa using Ne.symm this
    · rintro d m e al rfl; simpa [reports] using hr (by rw [nextRef_act]; simp)

/-- All references at or above the counter are unused. -/
def Fresh (w : World B V) : Prop := ∀ r, w.nextRef ≤ r → Unused (.loc r) w

theorem run_fresh (ser : V → B) (os : List (Op B V)) : Fresh (run ser init os) := by
  refine run_inv' ser Fresh (fun _ => True) ?_ os (fun _ _ => trivial) init ?_
  · intro w o _ hw w' a hacts ha h r hr
    have hm := acts_mono_counters hacts
    have hle := (acts_mono_counters (Acts.one (Q := fun _ => True) (w := w') (a := a) trivial)).2
    exact unused_act r w o (hw r (by omega)) w' a ha (h r (by omega)) (by omega)
  · intro r _
    exact ⟨by simp [init], by simp [init], by simp [init, downsOf], by simp [init, pmap]⟩

end Verif.World
