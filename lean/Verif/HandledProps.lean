import Verif.BypassProps
/-!
# What a server handles is what was put into its mailbox (C134)
-/
namespace Verif.World
open Verif.Mailbox
variable {B V T M S R : Type}

/-! ## Specification -/

/-- The message of `x` that the item carries, for a receiver of `τ`: the value itself, or the decoded bytes. -/
def reading (τ : RecvType B V T) (x : T → Bool) : Item B V → Option T
  | .locl v => (τ.cast v).filter x
  | .remote b => (τ.deser b).filter x
  | _ => none

/-- The messages of `x` among the items, in order. -/
def readings (τ : RecvType B V T) (x : T → Bool) (l : List (Item B V)) : List T := l.filterMap (reading τ x)

/-- Everything that was put into the mailbox of `P` so far, in order. -/
def arrivals (P : Nat) (w : World B V) : List (Item B V) := w.sent.filterMap fun e => if e.1 = P then some e.2 else none

/-- The messages of `x` that were put into the mailbox of `P` so far, in order. -/
def delivered (τ : RecvType B V T) (x : T → Bool) (P : Nat) (w : World B V) : List T := readings τ x (arrivals P w)

/-- The messages of `x` that are in the mailbox of `P`, in order. -/
def waiting (τ : RecvType B V T) (x : T → Bool) (P : Nat) (w : World B V) : List T :=
  match w.procs P with
  | some p => readings τ x (p.box.items ++ p.box.chan)
  | none => []

/-- The request that a callback was run for. -/
def requestOf (c : Record M S) : Option (GMsg M) :=
  match c.what with
  | .cast m => some (.cast m)
  | .call m frm => some (.call frm m)
  | _ => none

/-- The requests of `x` that the server handled, in order. -/
def handled (x : GMsg M → Bool) (l : Log M S) : List (GMsg M) := l.calls.filterMap fun c => (requestOf c).filter x

/-- A receive that does not take messages of `x` and does not make them unreadable: it is for a type as which they cannot be read, or for the same type
with a filter that rejects them (as the receive of a `call` to another server does). -/
inductive Spares (τ : RecvType B V T) (x : T → Bool) : RecvOp B V → Prop
  | other (o) : (∀ it, readsAs τ x it = true → asMsg o.τ it = none) → Spares τ x o
  | same (f s) : (∀ t, x t = true → f (.user t) = false) → Spares τ x ⟨T, τ, f, s⟩

/-- The callbacks of the server leave the requests of `x` to its loop. -/
structure SparesRequests (ser : V → B) (srv : Server B V M S) (τ : RecvType B V (GMsg M)) (x : GMsg M → Bool) (s : Nat) : Prop where
  cast : ∀ σ m w os r, Exec ser s w (srv.cast σ m) os r → ∀ o k, .recv s o k ∈ os → Spares τ x o
  call : ∀ σ m frm w os r, Exec ser s w (srv.call σ m frm) os r → ∀ o k, .recv s o k ∈ os → Spares τ x o
  info : ∀ σ m w os r, Exec ser s w (srv.info σ m) os r → ∀ o k, .recv s o k ∈ os → Spares τ x o

/-! ## One mailbox -/

theorem reading_readsAs {τ : RecvType B V T} {x : T → Bool} {it : Item B V} {t : T} (h : reading τ x it = some t) : readsAs τ x it = true := by
  cases it <;> simp [reading, Option.filter_eq_some_iff] at h <;> simp [readsAs, h]

/-- What a receive of type `τ'` with the filter `f` does to single items. -/
structure Sifts {T' : Type} (τ : RecvType B V T) (x : T → Bool) (τ' : RecvType B V T') (f : Msg T' → Bool) : Prop where
  conv : ∀ mons als it, reading τ x (processItem τ' mons als it).2.1 = reading τ x it
  pass : ∀ mons als it m, (processItem τ' mons als it).1 = .msg m → f m = true → reading τ x it = none
  skip : ∀ mons als it, (processItem τ' mons als it).1 = .skip → reading τ x it = none

theorem skip_reading {T' : Type} (τ : RecvType B V T) (x : T → Bool) (τ' : RecvType B V T') (mons als) (it : Item B V) (h : (processItem τ' mons als it).1 = .skip) :
    reading τ x it = none := by
  cases it <;> simp only [processItem] at h <;> first | rfl | (split at h <;> cases h)

theorem conv_same (τ : RecvType B V T) (x : T → Bool) (mons als) (it : Item B V) : reading τ x (processItem τ mons als it).2.1 = reading τ x it := by
  cases it <;> simp only [processItem]
  · split
    · rename_i t h; simp [reading, τ.cast_box, h]
    · rfl
  · split <;> rfl
  · split <;> rfl
  · split <;> rfl

theorem sifts_of {τ : RecvType B V T} {x : T → Bool} {o : RecvOp B V} (hc : CoherentWith τ o.τ) (h : Spares τ x o) : Sifts τ x o.τ o.filter := by
  refine ⟨?_, ?_, skip_reading τ x o.τ⟩
  · cases h with
    | same f s _ => exact conv_same τ x
    | other _ h =>
      intro mons als it
      cases it <;> simp only [processItem]
      · rename_i b
        split
        · rename_i t' ht
          have h1 : reading τ x (.remote b) = none := by
            cases hr : reading τ x (.remote b) with
            | none => rfl
            | some t => have := h _ (reading_readsAs hr); simp [asMsg, ht] at this
          rw [h1]
          cases hr : reading τ x (.locl (o.τ.box t')) with
          | none => rfl
          | some t =>
            simp only [reading, Option.filter_eq_some_iff] at hr h1
            have := hc b t' t ht hr.1
            simp [this, hr.2] at h1
        · rfl
      · split <;> rfl
      · split <;> rfl
      · split <;> rfl
  · intro mons als it m hm hf
    cases hr : reading τ x it with
    | none => rfl
    | some t =>
      exfalso
      cases h with
      | other _ h =>
        have := h _ (reading_readsAs hr)
        cases it <;> simp only [processItem] at hm <;> simp [reading] at hr
        · simp [asMsg] at this; rw [this] at hm; cases hm
        · simp [asMsg] at this; rw [this] at hm; cases hm
      | same f s h =>
        cases it <;> simp only [processItem] at hm <;> simp [reading, Option.filter_eq_some_iff] at hr
        · rw [hr.1] at hm; cases hm; simp [h t hr.2] at hf
        · rw [hr.1] at hm; cases hm; simp [h t hr.2] at hf

theorem readings_append (τ : RecvType B V T) (x : T → Bool) (a b : List (Item B V)) : readings τ x (a ++ b) = readings τ x a ++ readings τ x b := by
  simp [readings]

theorem readings_cons (τ : RecvType B V T) (x : T → Bool) (it : Item B V) (b : List (Item B V)) :
    readings τ x (it :: b) = (reading τ x it).toList ++ readings τ x b := by
  simp only [readings, List.filterMap_cons]
  cases reading τ x it <;> rfl

section spare
variable {T' : Type} {τ : RecvType B V T} {x : T → Bool} {τ' : RecvType B V T'} {f : Msg T' → Bool} (hs : Sifts τ x τ' f) (s : Bool)
include hs

theorem scanItems_spare (l : List (Item B V)) : ∀ mons als done,
    readings τ x (scanItems τ' f s mons als done l).2.1 = readings τ x done ++ readings τ x l := by
  induction l with
  | nil => intro mons als done; simp [scanItems, readings]
  | cons it rest ih =>
    intro mons als done
    have h1 := hs.conv mons als it
    have h2 := hs.pass mons als it
    rw [scanItems, readings_cons]
    generalize processItem τ' mons als it = z at *
    obtain ⟨res, it', mons', als'⟩ := z
    have hrec := ih mons' als' (done ++ [it'])
    simp only [readings_append, readings_cons] at hrec
    dsimp only at *
    rw [h1] at hrec
    cases res with
    | msg m =>
      dsimp only
      split
      · rename_i hf; simp [readings_append, h2 m rfl hf]
      · rw [hrec]; simp [readings]
    | skip => dsimp only; rw [hrec]; simp [readings]
    | foreign =>
      dsimp only
      split
      · simp [readings_append, readings_cons, h1]
      · rw [hrec]; simp [readings]

theorem scanChan_spare (l : List (Item B V)) : ∀ items mons als, (scanChan τ' f s items mons als l).1 ≠ .panicked →
    readings τ x ((scanChan τ' f s items mons als l).2.items ++ (scanChan τ' f s items mons als l).2.chan) = readings τ x items ++ readings τ x l := by
  induction l with
  | nil => intro items mons als _; simp [scanChan, readings]
  | cons it rest ih =>
    intro items mons als hne
    have h1 := hs.conv mons als it
    have h2 := hs.pass mons als it
    have h3 := hs.skip mons als it
    rw [scanChan] at hne ⊢
    rw [readings_cons]
    generalize processItem τ' mons als it = z at *
    obtain ⟨res, it', mons', als'⟩ := z
    have hrec := ih (items ++ [it']) mons' als'
    simp only [readings_append, readings_cons] at hrec
    dsimp only at *
    rw [h1] at hrec
    cases res with
    | msg m =>
      dsimp only at *
      split
      · rename_i hf; simp [readings_append, h2 m rfl hf]
      · rename_i hf; rw [if_neg hf] at hne; rw [readings_append, hrec hne]; simp [readings]
    | skip => dsimp only at *; rw [ih _ _ _ hne, h3 rfl]; rfl
    | foreign =>
      dsimp only at *
      split
      · rename_i hf; rw [if_pos hf] at hne; exact absurd rfl hne
      · rename_i hf; rw [if_neg hf] at hne; rw [readings_append, hrec hne]; simp [readings]

theorem select_spare (b : Box B V) (hne : (Mailbox.select τ' f s b).1 ≠ .panicked) :
    readings τ x ((Mailbox.select τ' f s b).2.items ++ (Mailbox.select τ' f s b).2.chan) = readings τ x (b.items ++ b.chan) := by
  have h1 := scanItems_spare hs s b.items b.mons b.aliases []
  unfold Mailbox.select at *
  generalize scanItems τ' f s b.mons b.aliases [] b.items = z at *
  obtain ⟨res, items, mons, als⟩ := z
  dsimp only at h1
  cases res with
  | pending => rw [scanChan_spare hs s _ _ _ _ hne, h1]; simp [readings]
  | got m => dsimp only; rw [readings_append, h1]; simp [readings]
  | panicked => exact absurd rfl hne

theorem resume_spare (b : Box B V) (hne : (Mailbox.resume τ' f s b).1 ≠ .panicked) :
    readings τ x ((Mailbox.resume τ' f s b).2.items ++ (Mailbox.resume τ' f s b).2.chan) = readings τ x (b.items ++ b.chan) := by
  unfold Mailbox.resume at *
  rw [scanChan_spare hs s _ _ _ _ hne, readings_append]

theorem removeItems_spare (l : List (Item B V)) : ∀ mons als z, removeItems τ' f s mons als l = some z → readings τ x z.1 = readings τ x l := by
  induction l with
  | nil => intro mons als z h; simp [removeItems] at h; subst h; rfl
  | cons it rest ih =>
    intro mons als z h
    have h1 := hs.conv mons als it
    have h2 := hs.pass mons als it
    rw [removeItems] at h
    rw [readings_cons]
    generalize processItem τ' mons als it = y at *
    obtain ⟨res, it', mons', als'⟩ := y
    cases res with
    | msg m =>
      simp only [Option.map_eq_some_iff] at h
      obtain ⟨r, hr, rfl⟩ := h
      have := ih _ _ _ hr
      dsimp only at *
      split
      · rename_i hf; rw [this, h2 m rfl hf]; rfl
      · rw [readings_cons, h1, this]
    | skip =>
      simp only [Option.map_eq_some_iff] at h
      obtain ⟨r, hr, rfl⟩ := h
      dsimp only at *
      rw [readings_cons, h1, ih _ _ _ hr]
    | foreign =>
      dsimp only at h
      split at h
      · simp at h
      · simp only [Option.map_eq_some_iff] at h
        obtain ⟨r, hr, rfl⟩ := h
        dsimp only at *
        rw [readings_cons, h1, ih _ _ _ hr]

theorem removeChan_spare (l : List (Item B V)) : ∀ items mons als z, removeChan τ' f s items mons als l = some z →
    readings τ x (z.items ++ z.chan) = readings τ x items ++ readings τ x l := by
  induction l with
  | nil => intro items mons als z h; simp [removeChan] at h; subst h; simp [readings]
  | cons it rest ih =>
    intro items mons als z h
    have h1 := hs.conv mons als it
    have h2 := hs.pass mons als it
    have h3 := hs.skip mons als it
    rw [removeChan] at h
    rw [readings_cons]
    generalize processItem τ' mons als it = y at *
    obtain ⟨res, it', mons', als'⟩ := y
    have one : readings τ x [it'] = (reading τ x it).toList := by
      rw [readings_cons]; dsimp only at h1; rw [h1]; simp [readings]
    cases res with
    | msg m =>
      dsimp only at *
      rw [ih _ _ _ _ h]
      split
      · rename_i hf; rw [h2 m rfl hf]; rfl
      · rw [readings_append, one, List.append_assoc]
    | skip => dsimp only at *; rw [ih _ _ _ _ h, h3 rfl]; rfl
    | foreign =>
      dsimp only at h
      split at h
      · simp at h
      · rw [ih _ _ _ _ h, readings_append, one, List.append_assoc]

theorem remove_spare (b b' : Box B V) (h : Mailbox.remove τ' f s b = some b') : readings τ x (b'.items ++ b'.chan) = readings τ x (b.items ++ b.chan) := by
  unfold Mailbox.remove at h
  split at h
  · simp at h
  · rename_i items mons als hri
    rw [removeChan_spare hs s _ _ _ _ _ h, readings_append, removeItems_spare hs s _ _ _ _ hri]

end spare

/-! ## The receive of the loop -/

/-- What a received message takes from the messages of `x`. -/
def takenOf (x : T → Bool) : Msg T → List T
  | .user t => (some t |>.filter x).toList
  | .system _ => []

theorem taken_reading {τ : RecvType B V T} {x : T → Bool} {mons als} {it : Item B V} {m : Msg T} (h : (processItem τ mons als it).1 = .msg m) :
    (reading τ x it).toList = takenOf x m := by
  cases it <;> simp only [processItem] at h
  · split at h
    · rename_i t ht; cases h; simp [reading, ht, takenOf]
    · cases h
  · split at h
    · rename_i t ht; cases h; simp [reading, ht, takenOf]
    · cases h
  · cases h; rfl
  · split at h <;> cases h; rfl
  · split at h <;> cases h; rfl
  · cases h
  · cases h

theorem foreign_reading {τ : RecvType B V T} (x : T → Bool) {mons als} {it : Item B V} (h : (processItem τ mons als it).1 = .foreign) :
    reading τ x it = none := by
  cases it <;> simp only [processItem] at h <;> first | rfl | skip
  · split at h
    · cases h
    · rename_i ht; simp [reading, ht]
  · split at h
    · cases h
    · rename_i ht; simp [reading, ht]

/-- What a poll with a receive of the loop did to the messages of `x`: it took the first one, or it took something else, or it found none. -/
def Took (x : T → Bool) (old new : List T) : Poll T → Prop
  | .got m => old = takenOf x m ++ new
  | .pending => old = [] ∧ new = []
  | .panicked => True

section accept
variable {τ : RecvType B V T} {x : T → Bool} (s : Bool)

theorem scanItems_took (l : List (Item B V)) : ∀ mons als done, readings τ x done = [] →
    Took x (readings τ x l) (readings τ x (scanItems τ (fun _ => true) s mons als done l).2.1) (scanItems τ (fun _ => true) s mons als done l).1 := by
  induction l with
  | nil => intro mons als done hd; exact ⟨rfl, hd⟩
  | cons it rest ih =>
    intro mons als done hd
    have h1 := conv_same τ x mons als it
    have h2 := @taken_reading B V T τ x mons als it
    have h3 := skip_reading τ x τ mons als it
    have h4 := @foreign_reading B V T τ x mons als it
    rw [scanItems, readings_cons]
    generalize processItem τ mons als it = z at *
    obtain ⟨res, it', mons', als'⟩ := z
    have hrec := ih mons' als' (done ++ [it'])
    rw [readings_append, hd, readings_cons] at hrec
    dsimp only at *
    rw [h1] at hrec
    cases res with
    | msg m => simp only [if_true, Took, readings_append, hd, h2 rfl]; rfl
    | skip => rw [h3 rfl] at hrec ⊢; exact hrec rfl
    | foreign =>
      dsimp only; split
      · trivial
      · rw [h4 rfl] at hrec ⊢; exact hrec rfl

theorem scanChan_took (l : List (Item B V)) : ∀ items mons als, readings τ x items = [] →
    Took x (readings τ x l) (readings τ x ((scanChan τ (fun _ => true) s items mons als l).2.items ++ (scanChan τ (fun _ => true) s items mons als l).2.chan))
      (scanChan τ (fun _ => true) s items mons als l).1 := by
  induction l with
  | nil => intro items mons als hd; exact ⟨rfl, by simpa [scanChan] using hd⟩
  | cons it rest ih =>
    intro items mons als hd
    have h1 := conv_same τ x mons als it
    have h2 := @taken_reading B V T τ x mons als it
    have h3 := skip_reading τ x τ mons als it
    have h4 := @foreign_reading B V T τ x mons als it
    rw [scanChan, readings_cons]
    generalize processItem τ mons als it = z at *
    obtain ⟨res, it', mons', als'⟩ := z
    have hrec := ih (items ++ [it']) mons' als'
    rw [readings_append, hd, readings_cons] at hrec
    dsimp only at *
    rw [h1] at hrec
    cases res with
    | msg m => simp only [if_true, Took, readings_append, hd, h2 rfl]; rfl
    | skip => rw [h3 rfl]; exact ih _ _ _ hd
    | foreign =>
      dsimp only; split
      · trivial
      · rw [h4 rfl] at hrec ⊢; exact hrec rfl

theorem select_took (b : Box B V) :
    Took x (readings τ x (b.items ++ b.chan)) (readings τ x ((Mailbox.select τ (fun _ => true) s b).2.items ++ (Mailbox.select τ (fun _ => true) s b).2.chan))
      (Mailbox.select τ (fun _ => true) s b).1 := by
  have h1 := scanItems_took (τ := τ) (x := x) s b.items b.mons b.aliases [] rfl
  unfold Mailbox.select
  generalize scanItems τ (fun _ => true) s b.mons b.aliases [] b.items = z at *
  obtain ⟨res, items, mons, als⟩ := z
  dsimp only at h1
  rw [readings_append]
  cases res with
  | pending => rw [h1.1, List.nil_append]; exact scanChan_took s _ _ _ _ h1.2
  | got m => simp only [Took] at h1 ⊢; rw [readings_append, h1, List.append_assoc]
  | panicked => trivial

theorem resume_took (b : Box B V) (h : readings τ x b.items = []) :
    Took x (readings τ x (b.items ++ b.chan)) (readings τ x ((Mailbox.resume τ (fun _ => true) s b).2.items ++ (Mailbox.resume τ (fun _ => true) s b).2.chan))
      (Mailbox.resume τ (fun _ => true) s b).1 := by
  rw [readings_append, h, List.nil_append]
  exact scanChan_took s _ _ _ _ h

end accept

/-! ## In the world -/

/-- What an atom other than a receive of `P` adds to the mailbox of `P`. -/
theorem arrivals_act (w : World B V) (a : Atom B V) (P : Nat) (ha : ∀ o k, a ≠ .rbox P o k) : ∃ l, arrivals P (act w a) = arrivals P w ++ l ∧
    ∀ q p, w.procs P = some q → P < w.nextPid → (act w a).procs P = some p → p.box.items = q.box.items ∧ p.box.chan = q.box.chan ++ l := by
  have hs := sent_act w a
  have hb := box_act w a P
  have same : (act w a).sent = w.sent → (P < w.nextPid → pmap (·.box) (act w a) P = none ∨ (pmap (·.box) (act w a) P).map (fun b => (b.items, b.chan)) = (pmap (·.box) w P).map (fun b => (b.items, b.chan))) →
      ∃ l, arrivals P (act w a) = arrivals P w ++ l ∧
    ∀ q p, w.procs P = some q → P < w.nextPid → (act w a).procs P = some p → p.box.items = q.box.items ∧ p.box.chan = q.box.chan ++ l := by
    intro h1 h2
    refine ⟨[], by simp [arrivals, h1], ?_⟩
    intro q p hq hlt hp
    rcases h2 hlt with h | h <;> simp [pmap, hp, hq] at h
    simpa using h
  have more : ∀ i it, (act w a).sent = (if (w.procs i).isSome then w.sent ++ [(i, it)] else w.sent) →
      (pmap (·.box) (act w a) P).map (fun b => (b.items, b.chan)) = (pmap (·.box) w P).map (fun b => (b.items, b.chan ++ if P = i then [it] else [])) →
      ∃ l, arrivals P (act w a) = arrivals P w ++ l ∧
    ∀ q p, w.procs P = some q → P < w.nextPid → (act w a).procs P = some p → p.box.items = q.box.items ∧ p.box.chan = q.box.chan ++ l := by
    intro i it h1 h2
    cases hq : w.procs P with
    | none =>
      refine ⟨[], ?_, by simp⟩
      by_cases hi : i = P
      · subst hi; rw [hq] at h1; simp at h1; simp [arrivals, h1]
      · split at h1 <;> simp [arrivals, h1, hi]
    | some q =>
      refine ⟨if P = i then [it] else [], ?_, ?_⟩
      · by_cases hi : i = P
        · subst hi; rw [hq] at h1; simp at h1; simp [arrivals, h1]
        · rw [if_neg fun h => hi h.symm]
          split at h1 <;> simp [arrivals, h1, hi]
      · intro q' p hq' _ hp
        simp [pmap, hq, hp] at h2
        cases hq'
        exact h2
  cases a <;> simp only [] at hs hb
  case put i it =>
    refine more i it hs ?_
    rw [hb]; split <;> simp [Option.map_map, Function.comp_def, deliver]
  case shot i it =>
    refine more i _ hs ?_
    rw [hb]; split <;> simp [Option.map_map, Function.comp_def, deliver]
  case mkMonDown me d m r al =>
    refine more me _ hs ?_
    rw [hb]; split <;> simp [Option.map_map, Function.comp_def, deliver, setMon]
  case spawn =>
    refine same hs fun hlt => .inr ?_
    rw [hb, if_neg (by omega)]
  case rbox i o k =>
    refine same hs fun _ => .inr ?_
    rw [hb, if_neg]
    rintro rfl; exact ha o k rfl
  case remove i =>
    refine same hs fun _ => ?_
    rw [hb]; split
    · exact .inl rfl
    · exact .inr rfl
  all_goals
    refine same hs fun _ => .inr ?_
    rw [hb] <;> (try split) <;> simp [Option.map_map, Function.comp_def, setMon]

/-- `h` are the first messages of `x` that were put into the mailbox of `P`, and as long as `P` runs the others are in its mailbox, in order. -/
structure Backlog (τ : RecvType B V T) (x : T → Bool) (P : Nat) (w : World B V) (h : List T) : Prop where
  fresh : P < w.nextPid ∨ arrivals P w = [] ∧ h = [] ∧ w.procs P = none
  ex : ∃ rest, delivered τ x P w = h ++ rest ∧ ∀ p, w.procs P = some p → p.ended = true ∨ readings τ x (p.box.items ++ p.box.chan) = rest

theorem backlog_act {τ : RecvType B V T} {x : T → Bool} {P : Nat} {w : World B V} {h : List T} (hb : Backlog τ x P w h) (a : Atom B V)
    (ha : ∀ o k, a ≠ .rbox P o k) : Backlog τ x P (act w a) h := by
  obtain ⟨l, h1, h2⟩ := arrivals_act w a P ha
  obtain ⟨rest, h3, h4⟩ := hb.ex
  have hmono : w.nextPid ≤ (act w a).nextPid := by rw [nextPid_act]; split <;> omega
  have hd : delivered τ x P (act w a) = h ++ (rest ++ readings τ x l) := by
    rw [delivered, h1, readings_append, ← delivered, h3, List.append_assoc]
  rcases hb.fresh with hlt | ⟨f1, rfl, f3⟩
  · refine ⟨.inl (by omega), rest ++ readings τ x l, hd, ?_⟩
    intro p hp
    obtain ⟨q, hq, he, -⟩ := box_grows w a P hlt ha p hp
    obtain ⟨e1, e2⟩ := h2 q p hq hlt hp
    refine (h4 q hq).imp he fun hr => ?_
    rw [e1, e2, ← List.append_assoc, readings_append, hr]
  · have hs := sent_act w a
    have hbx := box_act w a P
    have harr : arrivals P (act w a) = [] := by
      have : ∀ i it, (act w a).sent = (if (w.procs i).isSome then w.sent ++ [(i, it)] else w.sent) → arrivals P (act w a) = [] := by
        intro i it h
        by_cases hi : i = P
        · subst hi; rw [f3] at h; simp at h; simpa [arrivals, h] using f1
        · split at h <;> simpa [arrivals, h, hi] using f1
      cases a <;> simp only [] at hs <;> first
        | exact this _ _ hs
        | simpa [arrivals, hs] using f1
    have hdel : delivered τ x P (act w a) = [] := by rw [delivered, harr]; rfl
    cases hp : (act w a).procs P with
    | none => exact ⟨.inr ⟨harr, rfl, hp⟩, [], by simp [hdel], by simp [hp]⟩
    | some p =>
      have e1 : pmap (·.box) (act w a) P = some p.box := by simp [pmap, hp]
      rw [hbx] at e1
      cases a <;> simp [pmap, f3] at e1
      obtain ⟨e0, e1⟩ := e1
      refine ⟨.inl ?_, [], by simp [hdel], ?_⟩
      · rw [nextPid_act]; dsimp only; omega
      · intro q hq
        rw [hp] at hq; cases hq
        right; rw [← e1]; rfl

theorem backlog_step {τ : RecvType B V T} {x : T → Bool} {P : Nat} {w : World B V} {h : List T} (hb : Backlog τ x P w h) (ser : V → B) (o : Op B V)
    (ho : ∀ ro k, o ≠ .recv P ro k) : Backlog τ x P (step ser w o).1 h := by
  refine (step_acts ser w o).inv (I := fun w => Backlog τ x P w h) hb ?_
  intro w' a ha h'
  refine backlog_act h' a ?_
  rintro ro k rfl
  exact ho ro k ha

theorem backlog_keep {τ : RecvType B V T} {x : T → Bool} {P : Nat} {w : World B V} {h h' : List T} (hb : Backlog τ x P w h) {q : Proc B V} (hq : w.procs P = some q)
    (hend : q.ended = false) (b : Box B V)
    (hr : ∃ t, h' = h ++ t ∧ readings τ x (q.box.items ++ q.box.chan) = t ++ readings τ x (b.items ++ b.chan)) : Backlog τ x P (modBox w P fun _ => b) h' := by
  obtain ⟨rest, h3, h4⟩ := hb.ex
  obtain ⟨t, rfl, hr⟩ := hr
  refine ⟨?_, readings τ x (b.items ++ b.chan), ?_, ?_⟩
  · rcases hb.fresh with h | ⟨-, -, h⟩
    · exact .inl (by simpa [modBox, modProc] using h)
    · rw [h] at hq; cases hq
  · have : delivered τ x P (modBox w P fun _ => b) = delivered τ x P w := rfl
    rw [this, h3, List.append_assoc, ← hr, (h4 q hq).resolve_left (by simp [hend])]
  · intro p hp
    simp [modBox, modProc, upd_at, hq] at hp
    subst hp
    exact .inr rfl

theorem backlog_crash {τ : RecvType B V T} {x : T → Bool} {P : Nat} {w w' : World B V} {h : List T} (hb : Backlog τ x P w h) (hP : (w.procs P).isSome) (m : _)
    (hn : w'.nextPid = w.nextPid) (hs : w'.sent = w.sent) : Backlog τ x P (crash w' P m) h := by
  obtain ⟨rest, h3, -⟩ := hb.ex
  refine ⟨?_, rest, ?_, ?_⟩
  · rcases hb.fresh with h | ⟨-, -, h⟩
    · exact .inl (by simpa [crash, modProc, hn] using h)
    · rw [h] at hP; cases hP
  · have : delivered τ x P (crash w' P m) = delivered τ x P w := by simp [delivered, arrivals, crash, modProc, hs]
    rw [this, h3]
  · intro p hp
    simp only [crash, modProc, upd_at, if_true] at hp
    cases hz : w'.procs P with
    | none => simp [hz] at hp
    | some z => simp [hz] at hp; subst hp; exact .inl rfl

/-- A receive that spares the messages of `x`. -/
theorem backlog_spare {τ : RecvType B V T} {x : T → Bool} {P : Nat} {w : World B V} {h : List T} (hb : Backlog τ x P w h) (ser : V → B) (o : RecvOp B V)
    (kind : RecvKind) (hc : CoherentWith τ o.τ) (hsp : Spares τ x o) : Backlog τ x P (step ser w (.recv P o kind)).1 h := by
  cases hr : running w P with
  | false =>
    have : (step ser w (.recv P o kind)).1 = w := by simp [step, Op.caller, hr]
    rw [this]; exact hb
  | true =>
    rw [step_recv hr]
    have hs := sifts_of hc hsp
    obtain ⟨q, hq⟩ : ∃ q, w.procs P = some q := by
      cases hj : w.procs P with
      | none => simp [running, hj] at hr
      | some q => exact ⟨q, rfl⟩
    have hend : q.ended = false := by simpa [running, hq] using hr
    simp only [recv, hq]
    cases kind with
    | select =>
      have := select_spare hs o.strict q.box
      dsimp only
      generalize Mailbox.select o.τ o.filter o.strict q.box = z at *
      obtain ⟨res, b⟩ := z
      dsimp only at this
      cases res with
      | got m => exact backlog_keep hb hq hend b ⟨[], by simp, by simp [this (by simp)]⟩
      | pending => exact backlog_keep hb hq hend b ⟨[], by simp, by simp [this (by simp)]⟩
      | panicked => exact backlog_crash hb (by simp [hq]) _ (by simp [modBox, modProc]) (by simp [modBox, modProc])
    | resume =>
      have := resume_spare hs o.strict q.box
      dsimp only
      generalize Mailbox.resume o.τ o.filter o.strict q.box = z at *
      obtain ⟨res, b⟩ := z
      dsimp only at this
      cases res with
      | got m => exact backlog_keep hb hq hend b ⟨[], by simp, by simp [this (by simp)]⟩
      | pending => exact backlog_keep hb hq hend b ⟨[], by simp, by simp [this (by simp)]⟩
      | panicked => exact backlog_crash hb (by simp [hq]) _ (by simp [modBox, modProc]) (by simp [modBox, modProc])
    | remove =>
      dsimp only
      cases hb' : Mailbox.remove o.τ o.filter o.strict q.box with
      | none => exact backlog_crash hb (by simp [hq]) _ rfl rfl
      | some b' => exact backlog_keep hb hq hend b' ⟨[], by simp, by simp [remove_spare hs o.strict q.box b' hb']⟩

/-- A whole history whose receives by `P` spare the messages of `x`. -/
theorem backlog_run {τ : RecvType B V T} {x : T → Bool} {P : Nat} (ser : V → B) (os : List (Op B V)) : ∀ {w : World B V} {h : List T}, Backlog τ x P w h →
    Coherent τ os → (∀ ro k, .recv P ro k ∈ os → Spares τ x ro) → Backlog τ x P (run ser w os) h := by
  induction os with
  | nil => intro w h hb _ _; exact hb
  | cons o os ih =>
    intro w h hb hc hsp
    rw [run_cons]
    refine ih ?_ (fun a ro k hm => hc a ro k (.tail _ hm)) (fun ro k hm => hsp ro k (.tail _ hm))
    by_cases hr : ∃ ro k, o = .recv P ro k
    · obtain ⟨ro, k, rfl⟩ := hr
      exact backlog_spare hb ser ro k (hc P ro k List.mem_cons_self) (hsp ro k List.mem_cons_self)
    · exact backlog_step hb ser o fun ro k he => hr ⟨ro, k, he⟩

theorem backlog_init (τ : RecvType B V T) (x : T → Bool) (P : Nat) : Backlog τ x P (init : World B V) [] :=
  ⟨.inr ⟨rfl, rfl, rfl⟩, [], rfl, by intro p hp; simp [init] at hp⟩

/-- No message of `x` is among the items that a receive has already looked at. -/
def Looked (τ : RecvType B V T) (x : T → Bool) (P : Nat) (w : World B V) : Prop :=
  P < w.nextPid ∧ ∀ p, w.procs P = some p → p.ended = true ∨ readings τ x p.box.items = []

theorem looked_step {τ : RecvType B V T} {x : T → Bool} {P : Nat} {w : World B V} (h : Looked τ x P w) (ser : V → B) (o : Op B V)
    (ho : ∀ ro k, o ≠ .recv P ro k) : Looked τ x P (step ser w o).1 := by
  refine (step_acts ser w o).inv (I := Looked τ x P) h ?_
  rintro w' a ha ⟨h1, h2⟩
  refine ⟨by rw [nextPid_act]; split <;> omega, ?_⟩
  intro p hp
  obtain ⟨q, hq, he, hi, -⟩ := box_grows w' a P h1 (by rintro ro k rfl; exact ho ro k ha) p hp
  rw [hi]
  exact (h2 q hq).imp_left he

/-- A poll of the loop's receive. -/
theorem backlog_poll {τ : RecvType B V T} {x : T → Bool} {P : Nat} {w : World B V} {h : List T} (hb : Backlog τ x P w h) (ser : V → B) (hr : running w P = true)
    (kind : RecvKind) (hk : kind = .select ∨ kind = .resume ∧ Looked τ x P w) :
    (∀ m, received w P (anyMsg τ) kind = some m → Backlog τ x P (step ser w (.recv P (anyMsg τ) kind)).1 (h ++ takenOf x m)) ∧
    (received w P (anyMsg τ) kind = none → Backlog τ x P (step ser w (.recv P (anyMsg τ) kind)).1 h ∧ Looked τ x P (step ser w (.recv P (anyMsg τ) kind)).1) := by
  rw [step_recv hr]
  obtain ⟨q, hq⟩ : ∃ q, w.procs P = some q := by
    cases hj : w.procs P with
    | none => simp [running, hj] at hr
    | some q => exact ⟨q, rfl⟩
  have hend : q.ended = false := by simpa [running, hq] using hr
  have hlt : P < w.nextPid := by
    rcases hb.fresh with h | ⟨-, -, h⟩
    · exact h
    · rw [h] at hq; cases hq
  have crashL : ∀ (w' : World B V) m, w'.nextPid = w.nextPid → Looked τ x P (crash w' P m) := by
    intro w' m hw'
    refine ⟨by simpa [crash, modProc, hw'] using hlt, ?_⟩
    intro p hp
    simp only [crash, modProc, upd_at, if_true] at hp
    cases hz : w'.procs P with
    | none => simp [hz] at hp
    | some z => simp [hz] at hp; subst hp; exact .inl rfl
  have keepL : ∀ b : Box B V, readings τ x (b.items ++ b.chan) = [] → Looked τ x P (modBox w P fun _ => b) := by
    intro b hb
    refine ⟨by simpa [modBox, modProc] using hlt, ?_⟩
    intro p hp
    simp [modBox, modProc, upd_at, hq] at hp
    subst hp
    rw [readings_append] at hb
    exact .inr (List.append_eq_nil_iff.1 hb).1
  rcases hk with rfl | ⟨rfl, hl⟩
  · have ht := select_took (τ := τ) (x := x) true q.box
    simp only [received, recv, hq, anyMsg]
    generalize Mailbox.select τ (fun _ => true) true q.box = z at *
    obtain ⟨res, b⟩ := z
    dsimp only at *
    cases res with
    | got m =>
      refine ⟨?_, by simp⟩
      rintro m' hm
      cases hm
      exact backlog_keep hb hq hend b ⟨_, rfl, ht⟩
    | pending =>
      refine ⟨by simp, fun _ => ⟨?_, keepL b ht.2⟩⟩
      exact backlog_keep hb hq hend b ⟨[], by simp, by rw [ht.1, ht.2]; rfl⟩
    | panicked =>
      exact ⟨by simp, fun _ => ⟨backlog_crash hb (by simp [hq]) _ (by simp [modBox, modProc]) (by simp [modBox, modProc]), crashL _ _ (by simp [modBox, modProc])⟩⟩
  · have ht := resume_took (τ := τ) (x := x) true q.box ((hl.2 q hq).resolve_left (by simp [hend]))
    simp only [received, recv, hq, anyMsg]
    generalize Mailbox.resume τ (fun _ => true) true q.box = z at *
    obtain ⟨res, b⟩ := z
    dsimp only at *
    cases res with
    | got m =>
      refine ⟨?_, by simp⟩
      rintro m' hm
      cases hm
      exact backlog_keep hb hq hend b ⟨_, rfl, ht⟩
    | pending =>
      refine ⟨by simp, fun _ => ⟨?_, keepL b ht.2⟩⟩
      exact backlog_keep hb hq hend b ⟨[], by simp, by rw [ht.1, ht.2]; rfl⟩
    | panicked =>
      exact ⟨by simp, fun _ => ⟨backlog_crash hb (by simp [hq]) _ (by simp [modBox, modProc]) (by simp [modBox, modProc]), crashL _ _ (by simp [modBox, modProc])⟩⟩

/-- The loop's wait for a message. -/
theorem backlog_wait {ser : V → B} {τ : RecvType B V T} {x : T → Bool} {P : Nat} {w : World B V} {h : List T} {k : Msg T → Prog B V R} {os : List (Op B V)} {r : R}
    (hb : Backlog τ x P w h) (hx : Exec ser P w (.wait .select (anyMsg τ) none k) os r) :
    ∃ os1 kind m os2, GotAt ser P (anyMsg τ) k w os r os1 kind m os2 ∧
      Backlog τ x P (step ser (run ser w os1) (.recv P (anyMsg τ) kind)).1 (h ++ takenOf x m) := by
  have gen : ∀ kind (_ : kind = .select ∨ kind = .resume ∧ Looked τ x P w), Exec ser P w (.wait kind (anyMsg τ) none k) os r →
      ∃ os1 kind m os2, GotAt ser P (anyMsg τ) k w os r os1 kind m os2 ∧
        Backlog τ x P (step ser (run ser w os1) (.recv P (anyMsg τ) kind)).1 (h ++ takenOf x m) := by
    clear hx
    intro kind hk hx
    generalize hp : (Prog.wait kind (anyMsg τ) none k : Prog B V R) = p at hx
    induction hx generalizing kind with
    | @env w' _ o' _ _ ho _ ih =>
      subst hp
      have hne : ∀ ro k, o' ≠ Op.recv P ro k := by rintro ro k rfl; exact ho.1 rfl
      obtain ⟨os1, kind', m, os2, h1, h2⟩ := ih (backlog_step hb ser _ hne) kind (hk.imp id fun h => ⟨h.1, looked_step h.2 ser _ hne⟩) rfl
      exact ⟨_, kind', m, os2, h1.cons, by rw [run_cons]; exact h2⟩
    | @got w' kind' _ _ _ _ m _ hr hm hx _ =>
      cases hp
      exact ⟨[], _, _, _, ⟨rfl, hr, hm, hx⟩, (backlog_poll hb ser hr _ hk).1 _ hm⟩
    | @pending w' kind' _ _ _ _ _ hr hm hx ih =>
      cases hp
      obtain ⟨h1, h2⟩ := (backlog_poll hb ser hr _ hk).2 hm
      obtain ⟨os1, kind', m, os2, h3, h4⟩ := ih h1 .resume (.inr ⟨rfl, h2⟩) rfl
      exact ⟨_, kind', m, os2, h3.cons, by rw [run_cons]; exact h4⟩
    | elapsed => cases hp
    | _ => cases hp
  exact gen .select (.inl rfl) hx

/-! ## The loop -/

/-- What the loop of a server does with its mailbox. -/
theorem backlog_loop {ser : V → B} {srv : Server B V M S} {τ : RecvType B V (GMsg M)} {s : Nat} {parent : Pid} {x : GMsg M → Bool}
    (hreq : ∀ g, x g = true → Request g) (hsp : SparesRequests ser srv τ x s) (n : Nat) :
    ∀ (w : World B V) σ os l h, Exec ser s w (serverLoop srv τ s parent n σ) os l → Coherent τ os → Backlog τ x s w h →
      (∃ os1 os2, os = os1 ++ os2 ∧ Backlog τ x s (run ser w os1) (h ++ handled x l)) ∧
      ((∀ c ∈ l.calls, ∀ r, c.what ≠ .terminate r) → Backlog τ x s (run ser w os) (h ++ handled x l)) := by
  induction n with
  | zero =>
    intro w σ os l h hx hc hb
    obtain ⟨rfl, ho⟩ := exec_ret_inv hx
    have := backlog_run ser os hb hc (fun ro k hm => absurd rfl (ho _ hm).1)
    simp only [handled, List.filterMap_nil, List.append_nil]
    exact ⟨⟨os, [], by simp, this⟩, fun _ => this⟩
  | succ n ih =>
    intro w σ os l h hx hc hb
    obtain ⟨kk, hk⟩ : ∃ k, serverLoop srv τ s parent (n + 1) σ = .wait .select (anyMsg τ) none k := ⟨_, rfl⟩
    rw [hk] at hx
    obtain ⟨os1, kind, m, os2, hg, hb1⟩ := backlog_wait hb hx
    have hall : ∀ cs : List (Record M S), (∀ c ∈ cs, ∃ r, c.what = .terminate r) → cs.filterMap (fun c => (requestOf c).filter x) = [] := by
      intro cs hcs
      rw [List.filterMap_eq_nil_iff]
      intro c hm
      obtain ⟨r, hr⟩ := hcs c hm
      simp [requestOf, hr]
    rcases round_tail (Q := Spares τ x) hk hg.rest hsp.cast hsp.call hsp.info with ⟨hne, hterm⟩ | ⟨c0, rest, hl0, hcb, hrest⟩
    · refine ⟨⟨[], os, rfl, ?_⟩, fun hno => ?_⟩
      · simp only [handled, hall _ hterm, List.append_nil]; exact hb
      · obtain ⟨c, hm⟩ := List.exists_mem_of_ne_nil _ hne
        obtain ⟨r, hr⟩ := hterm c hm
        exact absurd hr (hno c hm r)
    · have htake : takenOf x m = ((requestOf c0).filter x).toList := by
        have sys : ∀ z : Msg M, c0.what = .info z → ((requestOf c0).filter x).toList = [] := by intro z hz; simp [requestOf, hz]
        cases m with
        | user g =>
          cases g <;> simp [callbackFor] at hcb <;> simp only [requestOf, ← hcb, takenOf]
          · rename_i t z
            have : x (.callReply t z) = false := by
              cases hb : x (.callReply t z) with
              | false => rfl
              | true => exact (hreq _ hb).elim
            simp [this]
        | system e =>
          cases e with
          | exit p r => simp only [callbackFor] at hcb; split at hcb <;> simp at hcb; rw [sys _ hcb.symm]; rfl
          | _ => simp [callbackFor] at hcb; rw [sys _ hcb.symm]; rfl
      have hl : handled x l = takenOf x m ++ rest.filterMap (fun c => (requestOf c).filter x) := by
        rw [htake, handled, hl0, List.filterMap_cons]
        cases (requestOf c0).filter x <;> rfl
      have eos : ∀ z, run ser w (os1 ++ .recv s (anyMsg τ) kind :: z) = run ser (step ser (run ser w os1) (.recv s (anyMsg τ) kind)).1 z := by
        intro z; rw [run_append, run_cons]
      rcases hrest with ⟨hne, hterm⟩ | ⟨b1, b2, l', hos2, hqb, hx', hl'⟩
      · refine ⟨⟨os1 ++ [.recv s (anyMsg τ) kind], os2, by rw [hg.eq]; simp, ?_⟩, fun hno => ?_⟩
        · rw [eos, hl, hall _ hterm, List.append_nil]; exact hb1
        · obtain ⟨c, hm⟩ := List.exists_mem_of_ne_nil _ hne
          obtain ⟨r, hr⟩ := hterm c hm
          exact absurd hr (hno c (by rw [hl0]; exact List.mem_cons_of_mem _ hm) r)
      · have heq := hg.eq
        rw [hos2] at heq
        have hb2 := backlog_run ser b1 hb1 (fun i ro k hm => hc i ro k (by rw [heq]; simp [hm])) hqb
        obtain ⟨⟨z1, z2, hz, hB⟩, hE⟩ := ih _ _ _ l' _ hx' (fun i ro k hm => hc i ro k (by rw [heq]; simp [hm])) hb2
        rw [List.append_assoc, handled, hl', ← hl, ← run_append, ← eos] at hB
        rw [List.append_assoc, handled, hl', ← hl, ← run_append, ← eos, ← heq] at hE
        refine ⟨⟨_, z2, ?_, hB⟩, fun hno => hE fun c hm => hno c ?_⟩
        · rw [heq, hz]; simp
        · rw [hl0]; exact List.mem_cons_of_mem _ hm

theorem arrivals_prefix (ser : V → B) (P : Nat) (os : List (Op B V)) : ∀ w : World B V, arrivals P w <+: arrivals P (run ser w os) := by
  have one : ∀ (w : World B V) (a : Atom B V), arrivals P w <+: arrivals P (act w a) := by
    intro w a
    have hs := sent_act w a
    have : w.sent <+: (act w a).sent := by
      cases a <;> simp only [] at hs <;> rw [hs] <;> first
        | exact List.prefix_rfl
        | (split
           · exact List.prefix_append ..
           · exact List.prefix_rfl)
    exact this.filterMap _
  induction os with
  | nil => intro w; exact List.prefix_rfl
  | cons o os ih =>
    intro w
    rw [run_cons]
    refine List.IsPrefix.trans ?_ (ih _)
    exact (step_acts ser w o).inv (I := fun w' => arrivals P w <+: arrivals P w') List.prefix_rfl fun w' a _ h => h.trans (one w' a)

theorem delivered_prefix (ser : V → B) (τ : RecvType B V T) (x : T → Bool) (P : Nat) (os : List (Op B V)) (w : World B V) :
    delivered τ x P w <+: delivered τ x P (run ser w os) := (arrivals_prefix ser P os w).filterMap _

/-! ## C134 -/

/-- C134. The requests that a server handled so far are the first ones of those put into its mailbox: it handles them in the order in which they came, and it
leaves none out and handles none twice, however they are interleaved with other messages and whatever the callbacks do with other messages. -/
theorem C134_handled (ser : V → B) (srv : Server B V M S) (τ : RecvType B V (GMsg M)) (s : Nat) (parent : Pid) (G hs os : List (Op B V)) (σ : S)
    (n : Nat) (l : Log M S) (x : GMsg M → Bool) (hreq : ∀ g, x g = true → Request g) (hsp : SparesRequests ser srv τ x s) (hcoh : Coherent τ G)
    (hbefore : ∀ o k, .recv s o k ∈ hs → Spares τ x o) (hs' : Serves ser srv τ s parent G hs os σ n l) :
    handled x l <+: delivered τ x s (run ser init (hs ++ os)) := by
  obtain ⟨z, hz⟩ := hs'.part
  have h0 := backlog_run ser hs (backlog_init τ x s) (fun i ro k hm => hcoh i ro k (by rw [← hz]; simp [hm])) hbefore
  obtain ⟨⟨os1, os2, he, hb⟩, -⟩ := backlog_loop hreq hsp n _ _ _ _ _ hs'.loop (fun i ro k hm => hcoh i ro k (by rw [← hz]; simp [hm])) h0
  obtain ⟨rest, h1, -⟩ := hb.ex
  rw [List.nil_append] at h1
  rw [run_append, he, run_append]
  refine List.IsPrefix.trans ?_ (delivered_prefix ser τ x s os2 _)
  rw [h1]
  exact List.prefix_append ..

/-- C134. As long as the server runs, every request that was put into its mailbox was handled or is still in the mailbox, in the same order: the requests put into the mailbox
are those handled, followed by those that are waiting. -/
theorem C134_accounted (ser : V → B) (srv : Server B V M S) (τ : RecvType B V (GMsg M)) (s : Nat) (parent : Pid) (G hs os : List (Op B V)) (σ : S)
    (n : Nat) (l : Log M S) (x : GMsg M → Bool) (hreq : ∀ g, x g = true → Request g) (hsp : SparesRequests ser srv τ x s) (hcoh : Coherent τ G)
    (hbefore : ∀ o k, .recv s o k ∈ hs → Spares τ x o) (hs' : Serves ser srv τ s parent G hs os σ n l)
    (hlive : ∀ c ∈ l.calls, ∀ r, c.what ≠ .terminate r) (hrun : running (run ser init (hs ++ os)) s = true) :
    delivered τ x s (run ser init (hs ++ os)) = handled x l ++ waiting τ x s (run ser init (hs ++ os)) := by
  obtain ⟨z, hz⟩ := hs'.part
  have h0 := backlog_run ser hs (backlog_init τ x s) (fun i ro k hm => hcoh i ro k (by rw [← hz]; simp [hm])) hbefore
  obtain ⟨-, hb⟩ := backlog_loop hreq hsp n _ _ _ _ _ hs'.loop (fun i ro k hm => hcoh i ro k (by rw [← hz]; simp [hm])) h0
  have hb := hb hlive
  rw [← run_append, List.nil_append] at hb
  obtain ⟨rest, h1, h2⟩ := hb.ex
  rw [h1]
  unfold running at hrun
  unfold waiting
  cases hp : (run ser init (hs ++ os)).procs s with
  | none => rw [hp] at hrun; simp at hrun
  | some p =>
    rw [hp] at hrun
    have := (h2 p hp).resolve_left (by simpa using hrun)
    dsimp only; rw [this]

/-- What a request does to the state, if the callbacks compute `δ`. -/
def stepState (δ : S → Invoke M → S × Except ExitReason (Option M)) (σ : S) : GMsg M → S
  | .cast m => (δ σ (.cast m)).1
  | .call frm m => (δ σ (.call m frm)).1
  | _ => σ

/-- All requests. -/
def anyRequest : GMsg M → Bool
  | .cast _ | .call _ _ => true
  | _ => false

theorem state_fold {δ : S → Invoke M → S × Except ExitReason (Option M)} (hinfo : ∀ σ m, (δ σ (.info m)).1 = σ) (σ' : S) (cs : List (Record M S)) :
    ∀ σ, Sequential δ σ cs → Threads σ cs σ' → (∀ c ∈ cs, ∀ r, c.what ≠ .terminate r) →
      σ' = (cs.filterMap fun c => (requestOf c).filter anyRequest).foldl (stepState δ) σ := by
  induction cs with
  | nil => intro σ _ ht _; exact ht.symm
  | cons c cs ih =>
    intro σ hs ht hno
    obtain ⟨-, h2, -, h4⟩ := hs
    have := ih _ h4 ht.2 (fun c hm => hno c (List.mem_cons_of_mem _ hm))
    rw [this, List.filterMap_cons]
    generalize cs.filterMap (fun c => (requestOf c).filter anyRequest) = z
    cases hw : c.what with
    | cast m => simp only [requestOf, hw, h2]; rfl
    | call m frm => simp only [requestOf, hw, h2]; rfl
    | info m => simp [requestOf, hw, h2, hinfo]
    | terminate r => exact absurd hw (hno c List.mem_cons_self r)

/-- C134. The state of a server is a function of the requests put into its mailbox: if the callbacks compute a function of the state and the request, and other messages leave the
state alone, then a server that has no request waiting has the state that this function gives for all requests put into its mailbox, one after the other in the order in which
they were put there. -/
theorem C134_state (ser : V → B) (srv : Server B V M S) (τ : RecvType B V (GMsg M)) (s : Nat) (parent : Pid) (G hs os : List (Op B V)) (σ : S)
    (n : Nat) (l : Log M S) (δ : S → Invoke M → S × Except ExitReason (Option M)) (hd : Computes ser srv s δ) (hinfo : ∀ σ m, (δ σ (.info m)).1 = σ)
    (hsp : SparesRequests ser srv τ anyRequest s) (hcoh : Coherent τ G)
    (hbefore : ∀ o k, .recv s o k ∈ hs → Spares τ anyRequest o) (hs' : Serves ser srv τ s parent G hs os σ n l)
    (hlive : ∀ c ∈ l.calls, ∀ r, c.what ≠ .terminate r) (hrun : running (run ser init (hs ++ os)) s = true)
    (hidle : waiting τ anyRequest s (run ser init (hs ++ os)) = []) :
    l.state = (delivered τ anyRequest s (run ser init (hs ++ os))).foldl (stepState δ) σ := by
  have h1 := C134_accounted ser srv τ s parent G hs os σ n l anyRequest (by intro g hg; cases g <;> simp_all [anyRequest, Request]) hsp hcoh hbefore hs' hlive hrun
  rw [hidle, List.append_nil] at h1
  rw [h1]
  have h2 := C116_sequential ser srv τ s parent G hs os σ n l hs' δ hd
  obtain ⟨-, -, -, -, h3, -⟩ := C58_serve ser s srv τ parent n σ _ os l ⟨hs, rfl⟩ hs'.loop
  exact state_fold hinfo _ _ _ h2 h3 hlive

/-! ## Examples -/

theorem spares_of_leaves {ser : V → B} {srv : Server B V M S} {τ : RecvType B V (GMsg M)} {x : GMsg M → Bool} {s : Nat} (h : LeavesRequests ser srv τ x s) :
    SparesRequests ser srv τ x s :=
  ⟨fun σ m w os r hx o k hm => .other o fun it hi => h.cast σ m w os r hx o k hm it hi, fun σ m frm w os r hx o k hm => .other o fun it hi => h.call σ m frm w os r hx o k hm it hi,
    fun σ m w os r hx o k hm => .other o fun it hi => h.info σ m w os r hx o k hm it hi⟩

theorem queue_before (x : GMsg Nat → Bool) : ∀ o k, .recv 2 o k ∈ queueStart → Spares natServer x o := by
  intro o k h
  simp [queueStart, callMon, monOp, destLocal, Pid.isLocal, request, castMsg, twoProcs] at h

/-- Two requests were handled, the third waits. -/
example : delivered natServer anyRequest 2 (run noSer init (queueStart ++ queueServe)) = [.cast 5, .call ⟨.loc 1, .loc 1, false⟩ 7, .cast 6] ∧
    handled anyRequest queueLog = [.cast 5, .call ⟨.loc 1, .loc 1, false⟩ 7] ∧ waiting natServer anyRequest 2 (run noSer init (queueStart ++ queueServe)) = [.cast 6] := ⟨rfl, rfl, rfl⟩

example := C134_handled noSer adder natServer 2 (.loc 1) _ _ _ _ _ _ anyRequest (by intro g hg; cases g <;> simp_all [anyRequest, Request])
  (spares_of_leaves (adder_leaves _)) queue_coherent (queue_before _) queue_serves

example := C134_accounted noSer adder natServer 2 (.loc 1) _ _ _ _ _ _ anyRequest (by intro g hg; cases g <;> simp_all [anyRequest, Request])
  (spares_of_leaves (adder_leaves _)) queue_coherent (queue_before _) queue_serves (by intro c hc r; simp [queueLog] at hc; rcases hc with rfl | rfl <;> simp) rfl

/-- Process 2 serves the third request, too. -/
def idleServe : List (Op Nat (GMsg Nat)) := queueServe ++ [.recv 2 anyNat .select]

def idleLog : Log Nat Nat := ⟨[⟨.cast 5, 0, 5, .ok none⟩, ⟨.call 7 ⟨.loc 1, .loc 1, false⟩, 5, 5, .ok (some 12)⟩, ⟨.cast 6, 5, 11, .ok none⟩], none, 11⟩

theorem idle_serves : Serves noSer adder natServer 2 (.loc 1) (queueStart ++ idleServe) queueStart idleServe 0 3 idleLog := by
  refine ⟨List.prefix_rfl, ?_⟩
  refine .got (m := .user (.cast 5)) rfl rfl (.env ⟨by simp [Op.caller, castMsg], by simp [castMsg]⟩
    (.got (m := .user (.call ⟨.loc 1, .loc 1, false⟩ 7)) rfl rfl (.op rfl (.got (m := .user (.cast 6)) rfl rfl (.ret _ _)))))

theorem idle_coherent : Coherent natServer (queueStart ++ idleServe) := by
  intro a o k h
  refine queue_coherent a o k ?_
  simp only [idleServe, queueServe, List.mem_append, List.mem_cons, List.not_mem_nil, or_false] at h ⊢
  rcases h with h | h | h
  · simp [h]
  · exact .inr h
  · exact .inr (.inl h)

example : idleLog.state = ([GMsg.cast 5, .call ⟨.loc 1, .loc 1, false⟩ 7, .cast 6]).foldl (stepState adds) 0 :=
  C134_state noSer adder natServer 2 (.loc 1) _ _ _ _ _ _ adds adder_computes (fun _ _ => rfl)
    (spares_of_leaves (adder_leaves _)) idle_coherent (queue_before _) idle_serves (by intro c hc r; simp [idleLog] at hc; rcases hc with rfl | rfl | rfl <;> simp) rfl rfl

end Verif.World
