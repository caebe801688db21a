import Verif.CallProps
/-!
# A message is received at most once (C117)
-/
namespace Verif.World
open Verif.Mailbox
variable {B V T : Type}

/-! ## Specification -/

/-- The operations that send a message to a single destination: a send to one destination, or a Send frame with one target. -/
inductive Single : Op B V → Prop
  | send (me d v) : Single (.send me (.one d) v)
  | frame (rp n t b) : Single (.frame rp n (.send [t] b))

/-- The operation sends a message that is read, at type `τ`, as one of `p`. -/
def Sends (ser : V → B) (τ : RecvType B V T) (p : T → Bool) (o : Op B V) : Prop := ∃ it x, SentBy ser o it ∧ Reads τ it x ∧ p x = true

/-- The operation at position `k` of the history is a receive, by whatever process, of type `τ`, that returns a message of `p`. -/
def ReceivesAt (ser : V → B) (τ : RecvType B V T) (p : T → Bool) (os : List (Op B V)) (k : Nat) : Prop :=
  ∃ a j f s kind x b, os = a ++ .recv j ⟨T, τ, f, s⟩ kind :: b ∧ a.length = k ∧ running (run ser init a) j = true ∧
    received (run ser init a) j ⟨T, τ, f, s⟩ kind = some (.user x) ∧ p x = true

/-! ## Counting in a mailbox -/

/-- The item is read as one of `p`. -/
def readsAs (τ : RecvType B V T) (p : T → Bool) : Item B V → Bool
  | .locl v => (τ.cast v).any p
  | .remote b => (τ.deser b).any p
  | _ => false

theorem readsAs_iff (τ : RecvType B V T) (p : T → Bool) (it : Item B V) : readsAs τ p it = true ↔ ∃ x, Reads τ it x ∧ p x = true := by
  cases it <;> simp [readsAs, Reads, Option.any_eq_true]

theorem readsAs_user {τ : RecvType B V T} {p : T → Bool} {it : Item B V} (h : readsAs τ p it = true) : isUser it = true := by
  cases it <;> simp_all [readsAs, isUser]

/-- Conversion in place does not make an item read as `p`. -/
theorem readsAs_conv {T' : Type} {τ : RecvType B V T} {τ' : RecvType B V T'} (hc : CoherentWith τ τ') (p : T → Bool) (mons : List (Ref × PMon))
    (als : List Nat) (it : Item B V) (h : readsAs τ p (processItem τ' mons als it).2.1 = true) : readsAs τ p it = true := by
  rw [readsAs_iff] at h ⊢
  obtain ⟨x, hx, hp⟩ := h
  cases it <;> simp only [processItem] at hx
  · rename_i b
    split at hx
    · rename_i t' ht; exact ⟨x, hc b t' x ht hx, hp⟩
    · exact ⟨x, hx, hp⟩
  · split at hx <;> exact ⟨x, hx, hp⟩
  · exact hx.elim
  · split at hx <;> exact hx.elim
  · split at hx <;> exact hx.elim
  · exact hx.elim
  · exact hx.elim

theorem readsAs_msg {τ : RecvType B V T} {p : T → Bool} {mons : List (Ref × PMon)} {als : List Nat} {it : Item B V} {x : T}
    (h : (processItem τ mons als it).1 = .msg (.user x)) (hp : p x = true) : readsAs τ p it = true := by
  rw [readsAs_iff]
  refine ⟨x, ?_, hp⟩
  cases it <;> simp only [processItem] at h
  · split at h
    · rename_i ht; simp at h; subst h; exact ht
    · simp at h
  · split at h
    · rename_i ht; simp at h; subst h; exact ht
    · simp at h
  · simp at h
  · split at h <;> simp at h
  · split at h <;> simp at h
  · simp at h
  · simp at h

/-- How many items of the list read as `p`. -/
def cnt (τ : RecvType B V T) (p : T → Bool) (l : List (Item B V)) : Nat := l.countP (readsAs τ p)

/-- One for a received message, if it is one of `p` (at the same type). -/
def hit (p : T → Bool) : Poll T → Nat
  | .got (.user x) => if p x then 1 else 0
  | _ => 0

theorem cnt_append (τ : RecvType B V T) (p : T → Bool) (a b : List (Item B V)) : cnt τ p (a ++ b) = cnt τ p a + cnt τ p b := by
  simp [cnt, List.countP_append]

theorem cnt_cons (τ : RecvType B V T) (p : T → Bool) (it : Item B V) (b : List (Item B V)) : cnt τ p (it :: b) = cnt τ p [it] + cnt τ p b := by
  rw [← cnt_append]; rfl

theorem cnt_conv {T' : Type} {τ : RecvType B V T} {τ' : RecvType B V T'} (hc : CoherentWith τ τ') (p : T → Bool) (mons : List (Ref × PMon))
    (als : List Nat) (it : Item B V) : cnt τ p [(processItem τ' mons als it).2.1] ≤ cnt τ p [it] := by
  have := readsAs_conv hc p mons als it
  simp only [cnt, List.countP_cons, List.countP_nil]
  split
  · rename_i h; simp [this h]
  · omega

/-- The message returned by a scan, as a number. -/
structure Counts {T' : Type} (τ : RecvType B V T) (p : T → Bool) (τ' : RecvType B V T') (f : Poll T' → Nat) : Prop where
  coh : CoherentWith τ τ'
  none : f .pending = 0 ∧ f .panicked = 0
  got : ∀ mons als it m, (processItem τ' mons als it).1 = .msg m → f (.got m) ≤ cnt τ p [it]

theorem counts_hit (τ : RecvType B V T) (p : T → Bool) (hc : CoherentWith τ τ) : Counts τ p τ (hit p) where
  coh := hc
  none := ⟨rfl, rfl⟩
  got := by
    intro mons als it m h
    cases m with
    | system s => exact Nat.zero_le _
    | user x =>
      simp only [hit]
      split
      · rename_i hp; simp [cnt, readsAs_msg h hp]
      · omega

theorem counts_zero {T' : Type} {τ : RecvType B V T} {τ' : RecvType B V T'} (p : T → Bool) (hc : CoherentWith τ τ') : Counts τ p τ' (fun _ => 0) where
  coh := hc
  none := ⟨rfl, rfl⟩
  got := by intros; exact Nat.zero_le _

theorem scanItems_cnt {T' : Type} {τ : RecvType B V T} {p : T → Bool} {τ' : RecvType B V T'} {g : Poll T' → Nat} (hg : Counts τ p τ' g)
    (f : Msg T' → Bool) (s : Bool) (l : List (Item B V)) : ∀ mons als done,
    g (scanItems τ' f s mons als done l).1 + cnt τ p (scanItems τ' f s mons als done l).2.1 ≤ cnt τ p done + cnt τ p l := by
  induction l with
  | nil => intro mons als done; simp [scanItems, hg.none.1, cnt]
  | cons it rest ih =>
    intro mons als done
    have hconv := cnt_conv hg.coh p mons als it
    have hgot := hg.got mons als it
    rw [scanItems, cnt_cons τ p it rest]
    generalize hz : processItem τ' mons als it = z at *
    obtain ⟨res, it', mons', als'⟩ := z
    have hrec := ih mons' als' (done ++ [it'])
    rw [cnt_append] at hrec
    cases res with
    | msg m =>
      have := hgot m rfl
      dsimp only at *
      split
      · simp only [cnt_append]; omega
      · omega
    | skip => dsimp only at *; omega
    | foreign =>
      dsimp only at *
      split
      · simp only [hg.none.2, cnt_append]; rw [cnt_cons τ p it' rest]; omega
      · omega

theorem scanChan_cnt {T' : Type} {τ : RecvType B V T} {p : T → Bool} {τ' : RecvType B V T'} {g : Poll T' → Nat} (hg : Counts τ p τ' g)
    (f : Msg T' → Bool) (s : Bool) (l : List (Item B V)) : ∀ items mons als,
    g (scanChan τ' f s items mons als l).1 + cnt τ p (scanChan τ' f s items mons als l).2.items + cnt τ p (scanChan τ' f s items mons als l).2.chan ≤
      cnt τ p items + cnt τ p l := by
  induction l with
  | nil => intro items mons als; simp [scanChan, hg.none.1, cnt]
  | cons it rest ih =>
    intro items mons als
    have hconv := cnt_conv hg.coh p mons als it
    have hgot := hg.got mons als it
    rw [scanChan, cnt_cons τ p it rest]
    generalize hz : processItem τ' mons als it = z at *
    obtain ⟨res, it', mons', als'⟩ := z
    have hrec := ih (items ++ [it']) mons' als'
    have hrec' := ih items mons' als'
    rw [cnt_append] at hrec
    cases res with
    | msg m =>
      have := hgot m rfl
      dsimp only at *
      split
      · dsimp only; omega
      · omega
    | skip => dsimp only at *; omega
    | foreign =>
      dsimp only at *
      split
      · simp only [hg.none.2]; omega
      · omega

/-- The items of a mailbox that read as `p`. -/
def boxCnt (τ : RecvType B V T) (p : T → Bool) (b : Box B V) : Nat := cnt τ p b.items + cnt τ p b.chan

theorem resume_cnt {T' : Type} {τ : RecvType B V T} {p : T → Bool} {τ' : RecvType B V T'} {g : Poll T' → Nat} (hg : Counts τ p τ' g)
    (f : Msg T' → Bool) (s : Bool) (b : Box B V) : g (resume τ' f s b).1 + boxCnt τ p (resume τ' f s b).2 ≤ boxCnt τ p b := by
  have := scanChan_cnt hg f s b.chan b.items b.mons b.aliases
  unfold resume boxCnt
  omega

theorem select_cnt {T' : Type} {τ : RecvType B V T} {p : T → Bool} {τ' : RecvType B V T'} {g : Poll T' → Nat} (hg : Counts τ p τ' g)
    (f : Msg T' → Bool) (s : Bool) (b : Box B V) : g (Mailbox.select τ' f s b).1 + boxCnt τ p (Mailbox.select τ' f s b).2 ≤ boxCnt τ p b := by
  have h1 := scanItems_cnt hg f s b.items b.mons b.aliases []
  unfold Mailbox.select boxCnt
  generalize scanItems τ' f s b.mons b.aliases [] b.items = z at *
  obtain ⟨res, items, mons, als⟩ := z
  have h0 : cnt τ p ([] : List (Item B V)) = 0 := rfl
  cases res with
  | pending =>
    have := scanChan_cnt hg f s b.chan items mons als
    dsimp only at *; omega
  | got m => dsimp only at *; omega
  | panicked => dsimp only at *; omega

theorem removeItems_cnt {T' : Type} {τ : RecvType B V T} {τ' : RecvType B V T'} (hc : CoherentWith τ τ') (p : T → Bool)
    (f : Msg T' → Bool) (s : Bool) (l : List (Item B V)) : ∀ mons als z, removeItems τ' f s mons als l = some z → cnt τ p z.1 ≤ cnt τ p l := by
  induction l with
  | nil => intro mons als z h; simp [removeItems] at h; subst h; exact Nat.le_refl _
  | cons it rest ih =>
    intro mons als z h
    have hconv := cnt_conv hc p mons als it
    rw [removeItems] at h
    rw [cnt_cons τ p it rest]
    generalize hz : processItem τ' mons als it = y at *
    obtain ⟨res, it', mons', als'⟩ := y
    cases res with
    | msg m =>
      simp only [Option.map_eq_some_iff] at h
      obtain ⟨r, hr, rfl⟩ := h
      have := ih _ _ _ hr
      dsimp only at *
      split
      · omega
      · rw [cnt_cons τ p it']; omega
    | skip =>
      simp only [Option.map_eq_some_iff] at h
      obtain ⟨r, hr, rfl⟩ := h
      have := ih _ _ _ hr
      dsimp only at *
      rw [cnt_cons τ p it']; omega
    | foreign =>
      dsimp only at h
      split at h
      · simp at h
      · simp only [Option.map_eq_some_iff] at h
        obtain ⟨r, hr, rfl⟩ := h
        have := ih _ _ _ hr
        dsimp only at *
        rw [cnt_cons τ p it']; omega

theorem removeChan_cnt {T' : Type} {τ : RecvType B V T} {τ' : RecvType B V T'} (hc : CoherentWith τ τ') (p : T → Bool)
    (f : Msg T' → Bool) (s : Bool) (l : List (Item B V)) : ∀ items mons als z, removeChan τ' f s items mons als l = some z →
    boxCnt τ p z ≤ cnt τ p items + cnt τ p l := by
  induction l with
  | nil => intro items mons als z h; simp [removeChan] at h; subst h; exact Nat.le_refl _
  | cons it rest ih =>
    intro items mons als z h
    have hconv := cnt_conv hc p mons als it
    rw [removeChan] at h
    rw [cnt_cons τ p it rest]
    generalize hz : processItem τ' mons als it = y at *
    obtain ⟨res, it', mons', als'⟩ := y
    have h2 : cnt τ p (items ++ [it']) = cnt τ p items + cnt τ p [it'] := cnt_append ..
    cases res with
    | msg m =>
      have := ih _ _ _ _ h
      dsimp only at *
      split at this <;> omega
    | skip => have := ih _ _ _ _ h; dsimp only at *; omega
    | foreign =>
      dsimp only at h
      split at h
      · simp at h
      · have := ih _ _ _ _ h
        dsimp only at *; omega

theorem recvBox_cnt (τ : RecvType B V T) (p : T → Bool) (o : RecvOp B V) (hc : CoherentWith τ o.τ) (k : RecvKind) (b : Box B V) :
    boxCnt τ p (recvBox o k b) ≤ boxCnt τ p b := by
  cases k with
  | select => have := select_cnt (counts_zero p hc) o.filter o.strict b; simpa [recvBox] using this
  | resume => have := resume_cnt (counts_zero p hc) o.filter o.strict b; simpa [recvBox] using this
  | remove =>
    simp only [recvBox]
    cases h : Mailbox.remove o.τ o.filter o.strict b with
    | none => exact Nat.le_refl _
    | some b' =>
      simp only [Option.getD_some]
      unfold Mailbox.remove at h
      split at h
      · simp at h
      · rename_i items mons als hri
        have h1 := removeItems_cnt hc p _ _ _ _ _ _ hri
        have h2 := removeChan_cnt hc p _ _ _ _ _ _ _ h
        unfold boxCnt at *
        dsimp only at *; omega

/-! ## Counting in a history -/

/-- How many items that read as `p` were delivered, to `j` or to anybody. -/
def sentTo (τ : RecvType B V T) (p : T → Bool) (j : Nat) (w : World B V) : Nat := w.sent.countP fun x => x.1 == j && readsAs τ p x.2
def sentAll (τ : RecvType B V T) (p : T → Bool) (w : World B V) : Nat := w.sent.countP fun x => readsAs τ p x.2

/-- `n` messages of `p` were received by `j` so far. -/
structure Taken (τ : RecvType B V T) (p : T → Bool) (j : Nat) (w : World B V) (n : Nat) : Prop where
  all : n ≤ sentTo τ p j w
  box : ∀ b, pmap (·.box) w j = some b → n + boxCnt τ p b ≤ sentTo τ p j w

theorem taken_act {τ : RecvType B V T} {p : T → Bool} {j : Nat} {w : World B V} {n : Nat} (h : Taken τ p j w n) (a : Atom B V)
    (hc : ∀ o k, a = .rbox j o k → CoherentWith τ o.τ) : Taken τ p j (act w a) n := by
  have key : ∀ (it : Item B V), sentTo τ p j { w with sent := w.sent ++ [(j, it)] } = sentTo τ p j w + cnt τ p [it] := by
    intro it; simp [sentTo, cnt, List.countP_append, List.countP_cons]
  have key' : ∀ (i : Nat) (it : Item B V), sentTo τ p j w ≤ sentTo τ p j { w with sent := w.sent ++ [(i, it)] } := by
    intro i it; simp [sentTo, List.countP_append]
  have same : ∀ w' : World B V, w'.sent = w.sent → sentTo τ p j w' = sentTo τ p j w := by intro w' h; simp [sentTo, h]
  have same' : ∀ (w' : World B V) i it, w'.sent = w.sent ++ [(i, it)] → sentTo τ p j w' = sentTo τ p j { w with sent := w.sent ++ [(i, it)] } := by
    intro w' i it h; simp [sentTo, h]
  have mono : sentTo τ p j w ≤ sentTo τ p j (act w a) := by
    have hs := sent_act w a
    cases a <;> simp only [] at hs <;> first
      | exact Nat.le_of_eq (same _ hs).symm
      | (split at hs
         · rw [same' _ _ _ hs]; exact key' _ _
         · exact Nat.le_of_eq (same _ hs).symm)
  refine ⟨Nat.le_trans h.all mono, ?_⟩
  intro b hb
  have hbox := box_act w a j
  rw [hb] at hbox
  have hdel : ∀ (b0 : Box B V) it, boxCnt τ p (deliver b0 it) = boxCnt τ p b0 + cnt τ p [it] := by
    intro b0 it; simp [boxCnt, deliver, cnt_append, Nat.add_assoc]
  have deliv : ∀ (it : Item B V) (f : Box B V → Box B V), (act w a).sent = (if (w.procs j).isSome then w.sent ++ [(j, it)] else w.sent) →
      some b = (pmap (·.box) w j).map (fun b => deliver (f b) it) → (∀ b, boxCnt τ p (f b) = boxCnt τ p b) →
      n + boxCnt τ p b ≤ sentTo τ p j (act w a) := by
    intro it f hs hb hf
    cases hp : w.procs j with
    | none => simp [pmap, hp] at hb
    | some q =>
      rw [hp] at hs
      simp only [Option.isSome_some, if_true] at hs
      rw [same' _ _ _ hs, key]
      simp only [pmap, hp, Option.map_some, Option.some.injEq] at hb
      subst hb
      have := h.box q.box (by simp [pmap, hp])
      rw [hdel, hf]
      omega
  have keep : ∀ b0, pmap (·.box) w j = some b0 → boxCnt τ p b ≤ boxCnt τ p b0 → n + boxCnt τ p b ≤ sentTo τ p j (act w a) := by
    intro b0 hb0 hle; have := h.box b0 hb0; omega
  have hs := sent_act w a
  have fix : ∀ (f : Box B V → Box B V), some b = (pmap (·.box) w j).map f → (∀ b, boxCnt τ p (f b) ≤ boxCnt τ p b) →
      n + boxCnt τ p b ≤ sentTo τ p j (act w a) := by
    intro f hb hf
    cases hp : pmap (·.box) w j with
    | none => rw [hp] at hb; simp at hb
    | some b0 =>
      rw [hp] at hb
      simp only [Option.map_some, Option.some.injEq] at hb
      subst hb
      exact keep b0 hp (hf b0)
  cases a
  case spawn =>
    simp only [] at hbox
    split at hbox
    · simp at hbox; subst hbox
      have := h.all
      simp only [boxCnt, cnt, List.countP_nil]; omega
    · exact keep b hbox.symm (Nat.le_refl _)
  case remove => simp only [] at hbox; split at hbox; · simp at hbox
                 · exact keep b hbox.symm (Nat.le_refl _)
  case put i it =>
    simp only [] at hbox hs
    split at hbox
    · subst i; exact deliv it id hs hbox (fun _ => rfl)
    · exact keep b hbox.symm (Nat.le_refl _)
  case shot i x =>
    simp only [] at hbox hs
    split at hbox
    · subst i; exact deliv _ id hs hbox (fun _ => rfl)
    · exact keep b hbox.symm (Nat.le_refl _)
  case mkMonDown me d m e al =>
    simp only [] at hbox hs
    split at hbox
    · subst me; exact deliv _ (fun b => setMon b (.loc w.nextRef) m) hs hbox (fun _ => rfl)
    · exact keep b hbox.symm (Nat.le_refl _)
  case rbox i o k =>
    simp only [] at hbox
    split at hbox
    · subst i; exact fix _ hbox (fun b => recvBox_cnt τ p o (hc o k rfl) k b)
    · exact keep b hbox.symm (Nat.le_refl _)
  all_goals (simp only [] at hbox)
  all_goals first
    | exact keep b hbox.symm (Nat.le_refl _)
    | (split at hbox
       · exact fix _ hbox (fun _ => Nat.le_refl _)
       · exact keep b hbox.symm (Nat.le_refl _))

theorem taken_acts {τ : RecvType B V T} {p : T → Bool} {j : Nat} {w w' : World B V} {n : Nat} {Q : Atom B V → Prop} (h : Taken τ p j w n)
    (hq : ∀ o k, Q (.rbox j o k) → CoherentWith τ o.τ) (hw : Acts Q w w') : Taken τ p j w' n := by
  induction hw with
  | refl => exact h
  | tail hw ha ih => exact taken_act ih _ (by rintro o k rfl; exact hq o k ha)

theorem taken_step {τ : RecvType B V T} {p : T → Bool} {j : Nat} {w : World B V} {n : Nat} (h : Taken τ p j w n) (ser : V → B) (o : Op B V)
    (hc : ∀ a ro k, o = .recv a ro k → CoherentWith τ ro.τ) : Taken τ p j (step ser w o).1 n :=
  taken_acts h (fun ro k ha => hc j ro k ha) (step_acts ser w o)

theorem taken_run {τ : RecvType B V T} {p : T → Bool} {j : Nat} (ser : V → B) (os : List (Op B V)) : ∀ {w : World B V} {n : Nat},
    Taken τ p j w n → Coherent τ os → Taken τ p j (run ser w os) n := by
  induction os with
  | nil => intro w n h _; exact h
  | cons o os ih =>
    intro w n h hc
    rw [run_cons]
    refine ih (taken_step h ser o ?_) (fun a ro k hm => hc a ro k (.tail _ hm))
    rintro a ro k rfl; exact hc a ro k List.mem_cons_self

/-- A receive that returns a message of `p`. -/
theorem taken_recv {τ : RecvType B V T} {p : T → Bool} {j : Nat} {w : World B V} {n : Nat} (h : Taken τ p j w n) (ser : V → B) {f : Msg T → Bool}
    {s : Bool} {kind : RecvKind} {x : T} (hc : CoherentWith τ τ) (hr : running w j = true)
    (hrec : received w j ⟨T, τ, f, s⟩ kind = some (.user x)) (hp : p x = true) :
    Taken τ p j (step ser w (.recv j ⟨T, τ, f, s⟩ kind)).1 (n + 1) := by
  obtain ⟨q, hq⟩ : ∃ q, w.procs j = some q := by
    cases hj : w.procs j with
    | none => simp [running, hj] at hr
    | some q => exact ⟨q, rfl⟩
  have hbox := h.box q.box (by simp [pmap, hq])
  have hstep : (step ser w (.recv j ⟨T, τ, f, s⟩ kind)).1 = recv w j ⟨T, τ, f, s⟩ kind := by simp [step, Op.caller, hr, Op.exec]
  have hcount : 1 + boxCnt τ p (recvBox ⟨T, τ, f, s⟩ kind q.box) ≤ boxCnt τ p q.box := by
    unfold received at hrec
    rw [hq] at hrec
    dsimp only at hrec
    cases kind with
    | remove => simp at hrec
    | select =>
      have := select_cnt (counts_hit τ p hc) f s q.box
      dsimp only at hrec
      split at hrec
      · rename_i m hm
        simp at hrec; subst hrec
        rw [hm] at this
        simpa [hit, hp, recvBox] using this
      · simp at hrec
    | resume =>
      have := resume_cnt (counts_hit τ p hc) f s q.box
      dsimp only at hrec
      split at hrec
      · rename_i m hm
        simp at hrec; subst hrec
        rw [hm] at this
        simpa [hit, hp, recvBox] using this
      · simp at hrec
  have hs : (recv w j ⟨T, τ, f, s⟩ kind).sent = w.sent ∧ pmap (·.box) (recv w j ⟨T, τ, f, s⟩ kind) j = some (recvBox ⟨T, τ, f, s⟩ kind q.box) := by
    rcases recv_eq w j ⟨T, τ, f, s⟩ kind q hq with h | ⟨m, h⟩ <;> rw [h] <;>
      simp [modBox, modProc, crash, pmap, hq, upd]
  have hsame : sentTo τ p j (recv w j ⟨T, τ, f, s⟩ kind) = sentTo τ p j w := by simp [sentTo, hs.1]
  rw [hstep]
  refine ⟨by rw [hsame]; omega, ?_⟩
  intro b hb
  rw [hs.2] at hb
  simp at hb; subst hb
  rw [hsame]; omega

/-! ## How many are sent -/

/-- The user items that an operation delivers are those it sends. -/
theorem acts_sentBy (ser : V → B) (w : World B V) (o : Op B V) :
    Acts (fun a => ∀ j x, a = .put j x → isUser x = true → SentBy ser o x) w (step ser w o).1 := by
  by_cases hs : ∃ me ds v, o = .send me ds v
  · obtain ⟨me, ds, v, rfl⟩ := hs
    simp only [step, Op.caller]
    split
    · simp only [Op.exec]
      refine acts_send ?_ ser w ds v ?_ ?_ ?_ ?_ ?_
      · refine ⟨?_, ?_, ?_⟩ <;> intros <;> simp
      · rintro _ _ _ _ _ h; cases h
      · rintro _ _ _ h; cases h
      · rintro _ _ _ _ h; cases h
      · rintro i j x h -; cases h; exact .serial ..
      · rintro i j x h -; cases h; exact .local ..
    · exact .refl _
  · refine (step_acts ser w o).mono ?_
    rintro a ha j it rfl hu
    cases it <;> simp [isUser] at hu
    · rcases ha with ⟨me, ds, v, rfl⟩ | ⟨rp, n, ts, rfl⟩
      · exact absurd ⟨_, _, _, rfl⟩ hs
      · exact .frame ..
    · obtain ⟨me, ds, rfl⟩ := ha; exact .local ..

theorem sentAll_step (ser : V → B) {τ : RecvType B V T} {p : T → Bool} (w : World B V) (o : Op B V) (h : ¬ Sends ser τ p o) :
    sentAll τ p (step ser w o).1 ≤ sentAll τ p w := by
  have : ∀ w', Acts (fun a => ∀ j x, a = .put j x → isUser x = true → SentBy ser o x) w w' → sentAll τ p w' ≤ sentAll τ p w := by
    intro w' hw
    induction hw with
    | refl => exact Nat.le_refl _
    | @tail w1 a _ hq ih =>
      have hs := sent_act w1 a
      have more : ∀ i it, (act w1 a).sent = w1.sent ++ [(i, it)] → readsAs τ p it = false → sentAll τ p (act w1 a) ≤ sentAll τ p w := by
        intro i it he hr
        simp only [sentAll, he, List.countP_append, List.countP_cons, List.countP_nil, hr]
        simpa [sentAll] using ih
      have same : (act w1 a).sent = w1.sent → sentAll τ p (act w1 a) ≤ sentAll τ p w := by
        intro he; simp only [sentAll, he]; exact ih
      cases a <;> simp only [] at hs <;> try exact same hs
      all_goals (split at hs <;> try exact same hs)
      · rename_i i it _
        refine more _ _ hs ?_
        cases hr : readsAs τ p it with
        | false => rfl
        | true =>
          obtain ⟨x, hx, hp⟩ := (readsAs_iff τ p it).1 hr
          exact absurd ⟨it, x, hq _ _ rfl (readsAs_user hr), hx, hp⟩ h
      · exact more _ _ hs rfl
      · exact more _ _ hs rfl
  exact this _ (acts_sentBy ser w o)

theorem sentAll_put (τ : RecvType B V T) (p : T → Bool) (w : World B V) (i : Nat) (it : Item B V) :
    sentAll τ p (put w i it) ≤ sentAll τ p w + cnt τ p [it] := by
  have := (delivers_put w i it).sent
  simp only [sentAll, this, List.countP_append]
  split
  · simp [cnt, List.countP_cons]
  · simp

theorem sentAll_putAlias (τ : RecvType B V T) (p : T → Bool) (w : World B V) (r : Ref) (it : Item B V) :
    sentAll τ p (putAlias w r it) ≤ sentAll τ p w + cnt τ p [it] := by
  unfold putAlias
  split
  · omega
  · exact sentAll_put ..
  · refine Nat.le_trans (sentAll_put ..) ?_
    have h1 := sentAll_put τ p (delAlias w r) ‹_› (.aliasOff r.id)
    have h2 : sentAll τ p (delAlias w r) = sentAll τ p w := rfl
    have h3 : cnt τ p [(.aliasOff r.id : Item B V)] = 0 := rfl
    omega

theorem sentAll_local (τ : RecvType B V T) (p : T → Bool) (w : World B V) (d : Dest) (it : Item B V) :
    sentAll τ p (sendLocal w d it) ≤ sentAll τ p w + 1 := by
  have h1 : cnt τ p [it] ≤ 1 := by simp only [cnt]; exact List.countP_le_length
  unfold sendLocal
  split
  · have := sentAll_put τ p w ‹Pid›.id it; omega
  · split
    · have := sentAll_put τ p w ‹Nat› it; omega
    · omega
  · have := sentAll_putAlias τ p w ‹Ref› it; omega

theorem sentAll_single (ser : V → B) (τ : RecvType B V T) (p : T → Bool) (w : World B V) (o : Op B V) (h : Single o) :
    sentAll τ p (step ser w o).1 ≤ sentAll τ p w + 1 := by
  cases h with
  | send me d v =>
    simp only [step, Op.caller]
    split
    · simp only [Op.exec]
      cases hd : destLocal d with
      | true => simp only [send, sendOpt, hd, if_true]; exact sentAll_local ..
      | false =>
        obtain ⟨k, t, -, -, hD, -⟩ := C38_remote_one ser w d v hd
        simp only [sentAll, hD.sent]; simp
    · exact Nat.le_succ _
  | frame rp n t b =>
    simp only [step, Op.caller]
    split
    · simp only [Op.exec, recvFrame, forwardSend_cons, forwardSend]; exact sentAll_local ..
    · exact Nat.le_succ _

theorem sentAll_run (ser : V → B) {τ : RecvType B V T} {p : T → Bool} (os : List (Op B V)) : ∀ (w : World B V), (∀ o ∈ os, ¬ Sends ser τ p o) →
    sentAll τ p (run ser w os) ≤ sentAll τ p w := by
  induction os with
  | nil => intro w _; exact Nat.le_refl _
  | cons o os ih =>
    intro w h
    rw [run_cons]
    exact Nat.le_trans (ih _ (fun o ho => h o (.tail _ ho))) (sentAll_step ser w o (h o List.mem_cons_self))

theorem sentTo_two (τ : RecvType B V T) (p : T → Bool) (w : World B V) {i j : Nat} (h : i ≠ j) : sentTo τ p i w + sentTo τ p j w ≤ sentAll τ p w := by
  unfold sentTo sentAll
  induction w.sent with
  | nil => simp
  | cons x l ih =>
    simp only [List.countP_cons]
    cases hr : readsAs τ p x.2
    · simpa using ih
    · by_cases h1 : x.1 = i
      · have h2 : x.1 ≠ j := fun h2 => h (h1 ▸ h2)
        simp [h1, h]; omega
      · by_cases h2 : x.1 = j
        · have h' := Ne.symm h
          simp [h2, h']; omega
        · simp [h1, h2]; omega

theorem sentTo_le (τ : RecvType B V T) (p : T → Bool) (w : World B V) (i : Nat) : sentTo τ p i w ≤ sentAll τ p w := by
  unfold sentTo sentAll
  exact List.countP_mono_left (fun x _ hx => by simp at hx; exact hx.2)

/-! ## C117 -/

/-- C117. If only one operation `o` of a history sends messages of `p`, and it sends its message to a single destination, then at most
one receive in the history, by whatever process, returns such a message. -/
theorem C117_at_most_once (ser : V → B) (τ : RecvType B V T) (p : T → Bool) (a b : List (Op B V)) (o : Op B V)
    (hc : Coherent τ (a ++ o :: b)) (ho : Single o) (hab : ∀ o' ∈ a ++ b, ¬ Sends ser τ p o') (k k' : Nat)
    (h : ReceivesAt ser τ p (a ++ o :: b) k) (h' : ReceivesAt ser τ p (a ++ o :: b) k') : k = k' := by
  have hall : sentAll τ p (run ser init (a ++ o :: b)) ≤ 1 := by
    rw [run_append, run_cons]
    have h1 := sentAll_run ser (τ := τ) (p := p) b (step ser (run ser init a) o).1 (fun o' ho' => hab o' (by simp [ho']))
    have h2 := sentAll_single ser τ p (run ser init a) o ho
    have h3 := sentAll_run ser (τ := τ) (p := p) a init (fun o' ho' => hab o' (by simp [ho']))
    have h4 : sentAll τ p (init : World B V) = 0 := rfl
    omega
  generalize a ++ o :: b = os at *
  have start : ∀ j, Taken τ p j (init : World B V) 0 := fun j => ⟨Nat.zero_le _, by intro b hb; simp [pmap, init] at hb⟩
  have coh : ∀ {x y : List (Op B V)}, os = x ++ y → Coherent τ x ∧ Coherent τ y := by
    rintro x y rfl
    exact ⟨fun a ro k hm => hc a ro k (List.mem_append_left _ hm), fun a ro k hm => hc a ro k (List.mem_append_right _ hm)⟩
  have once : ∀ k, ReceivesAt ser τ p os k → ∃ j, 1 ≤ sentTo τ p j (run ser init os) ∧
      ∀ k' j', k < k' → (∃ a f s kind x b, os = a ++ .recv j' ⟨T, τ, f, s⟩ kind :: b ∧ a.length = k' ∧ running (run ser init a) j' = true ∧
        received (run ser init a) j' ⟨T, τ, f, s⟩ kind = some (.user x) ∧ p x = true) → 2 ≤ sentAll τ p (run ser init os) := by
    rintro k ⟨a, j, f, s, kind, x, b, he, hk, hr, hrec, hp⟩
    have hcc : CoherentWith τ τ := hc j ⟨T, τ, f, s⟩ kind (by rw [he]; simp)
    have t1 := taken_recv (taken_run ser a (start j) (coh he).1) ser hcc hr hrec hp
    have hb : Coherent τ b := fun a ro k hm => (coh he).2 a ro k (.tail _ hm)
    have t2 := taken_run ser b t1 hb
    have e : run ser (step ser (run ser init a) (.recv j ⟨T, τ, f, s⟩ kind)).1 b = run ser init os := by rw [he, run_append, run_cons]
    rw [e] at t2
    refine ⟨j, by have := t2.all; omega, ?_⟩
    rintro k' j' hlt ⟨a', f', s', kind', x', b', he', hk', hr', hrec', hp'⟩
    have hb' : Coherent τ b' := fun a ro k hm => (coh he').2 a ro k (.tail _ hm)
    have e' : run ser (step ser (run ser init a') (.recv j' ⟨T, τ, f', s'⟩ kind')).1 b' = run ser init os := by rw [he', run_append, run_cons]
    by_cases hj : j = j'
    · subst hj
      -- the second after the first
      have hpre : a ++ [.recv j ⟨T, τ, f, s⟩ kind] <+: a' := by
        refine List.prefix_of_prefix_length_le (l₃ := os) ⟨b, by rw [he]; simp⟩ ⟨_, he'.symm⟩ (by simp; omega)
      obtain ⟨c, rfl⟩ := hpre
      have hcoh : Coherent τ c := fun a ro k hm => (coh he').1 a ro k (List.mem_append_right _ hm)
      have u := taken_run ser c t1 hcoh
      have e2 : run ser (step ser (run ser init a) (.recv j ⟨T, τ, f, s⟩ kind)).1 c = run ser init (a ++ [.recv j ⟨T, τ, f, s⟩ kind] ++ c) := by
        rw [run_append, run_append]; rfl
      rw [e2] at u
      have u2 := taken_run ser b' (taken_recv u ser hcc hr' hrec' hp') hb'
      rw [e'] at u2
      have := u2.all
      have := sentTo_le τ p (run ser init os) j
      omega
    · have u := taken_run ser b' (taken_recv (taken_run ser a' (start j') (coh he').1) ser hcc hr' hrec' hp') hb'
      rw [e'] at u
      have h1 := t2.all
      have h2 := u.all
      have := sentTo_two τ p (run ser init os) hj
      omega
  rcases Nat.lt_trichotomy k k' with hlt | rfl | hlt
  · obtain ⟨j, -, hx⟩ := once k h
    obtain ⟨a', j', rest⟩ := h'
    have := hx k' j' hlt ⟨a', rest⟩
    omega
  · rfl
  · obtain ⟨j, -, hx⟩ := once k' h'
    obtain ⟨a', j', rest⟩ := h
    have := hx k j' hlt ⟨a', rest⟩
    omega

end Verif.World
