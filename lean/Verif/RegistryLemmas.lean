import Verif.Registry
import Verif.ServerProps
/-! # Lemmas about registries -/
namespace Verif.World
open Verif.Mailbox
variable {B V M S R : Type}

/-! ## Notices of deaths -/

/-- The mailbox of `me` contains an exit signal from `p`. -/
def Notice (w : World B V) (me : Nat) (p : Pid) : Prop :=
  ∃ q r, w.procs me = some q ∧ (Item.system (.exit p r) ∈ q.box.items ∨ Item.system (.exit p r) ∈ q.box.chan)

/-- Process `i` exists and its death will be signalled to `me`. -/
def Linked (w : World B V) (me i : Nat) : Prop := exists? w i = true ∧ Pid.loc me ∈ w.links i

/-- Process `me` exists and traps exits. -/
def Traps (w : World B V) (me : Nat) : Prop := pmap (·.trap) w me = some true

theorem exists_box {w : World B V} {i : Nat} (h : exists? w i = true) : ∃ p, w.procs i = some p := by
  unfold exists? at h
  cases hp : w.procs i with
  | none => rw [hp] at h; simp at h
  | some p => exact ⟨p, rfl⟩

theorem mem_visible_exit (p : Pid) (r : ExitReason) (l : List (Item B V)) : ∀ refs, (Item.system (.exit p r) ∈ visible refs l ↔ Item.system (.exit p r) ∈ l) := by
  induction l with
  | nil => simp [visible]
  | cons it l ih =>
    intro refs
    cases it <;> simp only [visible, List.mem_cons, ih] <;> (try split) <;> simp [ih]

theorem notice_iff (w : World B V) (me : Nat) (p : Pid) :
    Notice w me p ↔ ∃ q r, w.procs me = some q ∧ Item.system (.exit p r) ∈ contents q.box := by
  unfold Notice contents
  simp only [List.mem_append, mem_visible_exit]

/-- An operation leaves the exit signals in a mailbox alone, unless it is a receive of its owner or the owner's end. -/
theorem notice_step (ser : V → B) {w : World B V} {me : Nat} {p : Pid} {o : Op B V} (h1 : o ≠ .drop me)
    (h2 : ∀ ro k, o ≠ .recv me ro k) (hlt : me < w.nextPid) (h : Notice w me p) : Notice (step ser w o).1 me p := by
  have key : ∀ w', Acts (AtomOf w o) w w' → (me < w'.nextPid ∧ Notice w' me p) := by
    intro w' hw
    induction hw with
    | refl => exact ⟨hlt, h⟩
    | @tail w1 a hw ha ih =>
      obtain ⟨hl, q, r, hq, hm⟩ := ih
      have hc := acts_mono_counters (Acts.one (Q := fun _ => True) (w := w1) (a := a) trivial)
      refine ⟨by omega, ?_⟩
      have hb := box_act w1 a me
      have hb0 : pmap (·.box) w1 me = some q.box := by simp [pmap, hq]
      have fin : ∀ b, pmap (·.box) (act w1 a) me = some b → (Item.system (.exit p r) ∈ b.items ∨ Item.system (.exit p r) ∈ b.chan) →
          Notice (act w1 a) me p := by
        intro b hb hm
        simp only [pmap] at hb
        cases hp : (act w1 a).procs me with
        | none => rw [hp] at hb; simp at hb
        | some q' => rw [hp] at hb; simp at hb; subst hb; exact ⟨q', r, hp, hm⟩
      have same : pmap (·.box) (act w1 a) me = pmap (·.box) w1 me → Notice (act w1 a) me p := fun e => fin q.box (e.trans hb0) hm
      have deliv : ∀ it, pmap (·.box) (act w1 a) me = (pmap (·.box) w1 me).map (deliver · it) → Notice (act w1 a) me p := by
        intro it e
        rw [hb0] at e
        exact fin _ e (hm.imp id fun h => List.mem_append_left _ h)
      cases a <;> simp only [] at hb <;> try exact same hb
      all_goals
        split at hb
        rotate_left
        · exact same hb
      all_goals rename_i heq
      · exact deliv _ hb
      · omega
      · subst heq; exact absurd ha h1
      · subst heq; exact absurd ha (h2 _ _)
      · rw [hb0] at hb; exact fin _ hb hm
      · rw [hb0] at hb; exact fin _ hb hm
      · exact deliv _ hb
      · rw [hb0] at hb; exact fin _ hb hm
      · rw [hb0] at hb; exact fin _ hb hm
      · rw [hb0] at hb; exact fin _ hb (hm.imp id fun h => List.mem_append_left _ h)
      · rw [hb0] at hb; exact fin _ hb hm
  exact (key _ (step_acts ser w o)).2

/-- A link stays until its owner dies or `me` unlinks. -/
theorem linked_step (ser : V → B) {w : World B V} (hre : Reachable ser w) {me i : Nat} {o : Op B V} (h1 : o ≠ .drop i) (h2 : o ≠ .drop me)
    (h3 : o ≠ .unlink me (.loc i)) (h : Linked w me i) : Linked (step ser w o).1 me i := by
  have hr : NodeLinksRemote w := by obtain ⟨os, rfl⟩ := hre; exact run_nodeLinksRemote ser os
  have hb := reach_bounded hre i
  have hlt : i < w.nextPid := by
    rcases Nat.lt_or_ge i w.nextPid with h' | h'
    · exact h'
    · have := hb h'; obtain ⟨q, hq⟩ := exists_box h.1; rw [this] at hq; cases hq
  have key : ∀ w', Acts (AtomOf w o) w w' → Linked w' me i := by
    intro w' hw
    induction hw with
    | refl => exact h
    | @tail w1 a hw ha ih =>
      obtain ⟨e1, e2⟩ := ih
      refine ⟨?_, ?_⟩
      · unfold exists? at *
        rw [ex_act]
        cases a <;> simp only [e1] <;> simp
        rintro rfl; exact h1 ha
      · rw [links_act]
        cases a <;> simp only [upd_at] <;> try exact e2
        · split
          · subst_vars; split
            · exact e2
            · exact List.mem_append_left _ e2
          · exact e2
        · split
          · subst_vars
            refine List.mem_filter.2 ⟨e2, ?_⟩
            simp only [ne_eq, decide_eq_true_eq]
            rintro rfl
            rcases ha with ⟨j, hj, h' | h'⟩ | h' | ⟨n, h'⟩
            · cases hj; exact h2 h'
            · cases hj; exact h3 h'
            · simp [Pid.isLocal] at h'
            · have := hr _ _ _ h'.1; simp [Pid.isLocal] at this
          · exact e2
        · split
          · rename_i hai; rw [← hai] at ha; exact absurd ha h1
          · exact e2
  exact key _ (step_acts ser w o)

theorem traps_step (ser : V → B) {w : World B V} {me : Nat} (hlt : me < w.nextPid) {o : Op B V} (h1 : o ≠ .drop me) (h2 : o ≠ .setTrap me false)
    (h : Traps w me) : Traps (step ser w o).1 me := by
  have key : ∀ w', Acts (AtomOf w o) w w' → me < w'.nextPid ∧ Traps w' me := by
    intro w' hw
    induction hw with
    | refl => exact ⟨hlt, h⟩
    | @tail w1 a hw ha ih =>
      obtain ⟨hl, e⟩ := ih
      have hc := acts_mono_counters (Acts.one (Q := fun _ => True) (w := w1) (a := a) trivial)
      refine ⟨by omega, ?_⟩
      unfold Traps at *
      rw [trap_act]
      cases a <;> simp only [] <;> try exact e
      · split
        · rename_i b heq
          rw [← heq] at ha
          cases b with
          | false => exact absurd ha h2
          | true =>
            simp only [pmap] at e
            cases hq : w1.procs me with
            | none => rw [hq] at e; cases e
            | some q => rfl
        · exact e
      · split
        · omega
        · exact e
      · split
        · rename_i heq; rw [← heq] at ha; exact absurd ha h1
        · exact e
  exact (key _ (step_acts ser w o)).2

/-- The death of process `i` is, or will be, known to `me`. -/
def Watched (w : World B V) (me i : Nat) : Prop := Linked w me i ∨ Notice w me (.loc i)

theorem lt_of_exists {ser : V → B} {w : World B V} (hre : Reachable ser w) {i : Nat} (h : exists? w i = true) : i < w.nextPid := by
  rcases Nat.lt_or_ge i w.nextPid with h' | h'
  · exact h'
  · have := reach_bounded hre i h'; obtain ⟨q, hq⟩ := exists_box h; rw [this] at hq; cases hq

theorem traps_exists {w : World B V} {me : Nat} (h : Traps w me) : ∃ q, w.procs me = some q ∧ q.trap = true := by
  unfold Traps pmap at h
  cases hq : w.procs me with
  | none => rw [hq] at h; cases h
  | some q => rw [hq] at h; simp at h; exact ⟨q, rfl, h⟩

theorem traps_lt {ser : V → B} {w : World B V} (hre : Reachable ser w) {me : Nat} (h : Traps w me) : me < w.nextPid := by
  obtain ⟨q, hq, -⟩ := traps_exists h
  exact lt_of_exists hre (by simp [exists?, hq])

theorem watched_step (ser : V → B) {w : World B V} (hre : Reachable ser w) {me i : Nat} (hne : i ≠ me) {o : Op B V} (ht : Traps w me) (h1 : o ≠ .drop me)
    (h2 : ∀ ro k, o ≠ .recv me ro k) (h3 : o ≠ .unlink me (.loc i)) (h : Watched w me i) : Watched (step ser w o).1 me i := by
  have hlt := traps_lt hre ht
  rcases h with h | h
  · by_cases hd : o = .drop i
    · subst hd
      by_cases hdm : doomed w i = true
      · obtain ⟨p, hp⟩ := exists_box h.1
        have hd' : p.ended = true ∨ p.aborted = true := by simpa [doomed, hp] using hdm
        rw [step_drop ser w i p hp hd']
        right
        obtain ⟨q, hq, htr⟩ := traps_exists ht
        have he := (drop_eff w i p hp (reach_nodup hre i)).2.1 me (Ne.symm hne)
        rw [hq] at he
        refine ⟨_, p.reason.getD .normal, he, .inr ?_⟩
        simp [afterDeath, h.2, signalled, htr, deliver]
      · left
        have : (step ser w (.drop i)).1 = w := by simp [step, Op.caller, Op.exec, hdm]
        rw [this]; exact h
    · exact .inl (linked_step ser hre hd h1 h3 h)
  · exact .inr (notice_step ser h1 h2 hlt h)

/-! ## The table -/

/-- What a key resolves to. -/
def tab (name : String) (w : World B V) (k : RKey) : Option Pid := (w.tables name).bind (aget · k)

theorem tables_step (ser : V → B) (w : World B V) (o : Op B V) (h : ∀ m t, o ≠ .table m t) : (step ser w o).1.tables = w.tables := by
  refine (step_acts ser w o).inv (I := fun w' => w'.tables = w.tables) rfl ?_
  intro w' a ha hw
  rw [tables_act]
  cases a <;> simp only [] <;> try exact hw
  obtain ⟨m, hm⟩ := ha
  exact absurd hm (h _ _)

theorem tables_table (ser : V → B) (w : World B V) (m : Nat) (t : TOp) (hr : running w m = true) :
    (step ser w (.table m t)).1.tables = (tableOp w.tables t).1 ∧ (step ser w (.table m t)).2 = .table (tableOp w.tables t).2 := by
  simp [step, Op.caller, Op.exec, hr]

theorem tables_idle (ser : V → B) (w : World B V) (m : Nat) (t : TOp) (hr : running w m = false) :
    (step ser w (.table m t)).1 = w := by
  simp [step, Op.caller, hr]

theorem aget_adel {K A : Type} [DecidableEq K] (l : List (K × A)) (k k' : K) : aget (adel l k) k' = if k' = k then none else aget l k' := by
  induction l with
  | nil => simp [aget, adel]
  | cons x l ih =>
    obtain ⟨a, v⟩ := x
    simp only [aget, adel] at ih ⊢
    grind [List.filter_cons, List.find?_cons]

theorem aget_aset {K A : Type} [DecidableEq K] (l : List (K × A)) (k k' : K) (v : A) : aget (aset l k v) k' = if k' = k then some v else aget l k' := by
  have h := aget_adel l k k'
  simp only [aget, aset, List.find?_append] at h ⊢
  by_cases hk : k' = k
  · subst hk
    simp only [if_true] at h ⊢
    have : List.find? (fun x => decide (x.1 = k')) (adel l k') = none := by simpa using h
    rw [this]; simp
  · simp only [if_neg hk] at h ⊢
    cases hf : List.find? (fun x => decide (x.1 = k')) (adel l k) with
    | none => rw [hf] at h; simp [Ne.symm hk]; simpa using h
    | some y => rw [hf] at h; simpa using h

/-- The accesses to a table that the functions for clients make. -/
def _root_.Verif.TOp.client (name : String) : TOp → Prop
  | .insert n _ _ | .removeIf n _ _ | .take n => n ≠ name
  | _ => True

/-- It is not the removal of a key. -/
def _root_.Verif.TOp.isRemove (name : String) : TOp → Prop
  | .remove n _ => n = name
  | _ => False

theorem tab_client (ser : V → B) (name : String) (w : World B V) (m : Nat) (t : TOp) (h : t.client name) (k : RKey) (p : Pid)
    (hp : tab name (step ser w (.table m t)).1 k = some p) : tab name w k = some p := by
  cases hr : running w m with
  | false => rwa [tables_idle ser w m t hr] at hp
  | true =>
    unfold tab at hp ⊢
    rw [(tables_table ser w m t hr).1] at hp
    cases t with
    | remove n k' =>
      simp only [tableOp] at hp
      split at hp
      · rename_i hn; subst hn
        cases hw : w.tables name with
        | none => rw [hw] at hp; simp at hp
        | some e => rw [hw] at hp; simp [aget_adel] at hp ⊢; exact hp.2
      · exact hp
    | insert n k' p' => simp only [tableOp] at hp; rwa [if_neg (Ne.symm (show n ≠ name from h))] at hp
    | removeIf n k' p' => simp only [tableOp] at hp; rwa [if_neg (Ne.symm (show n ≠ name from h))] at hp
    | take n => simp only [tableOp] at hp; rwa [if_neg (Ne.symm (show n ≠ name from h))] at hp
    | _ => exact hp

theorem tab_quiet (ser : V → B) (name : String) (w : World B V) (m : Nat) (t : TOp) (h : t.client name) (hq : ¬ t.isRemove name) (k : RKey) :
    tab name (step ser w (.table m t)).1 k = tab name w k := by
  cases hr : running w m with
  | false => rw [tables_idle ser w m t hr]
  | true =>
    unfold tab
    rw [(tables_table ser w m t hr).1]
    cases t with
    | remove n k' => simp only [tableOp]; rw [if_neg (Ne.symm (show n ≠ name from hq))]
    | insert n k' p' => simp only [tableOp]; rw [if_neg (Ne.symm (show n ≠ name from h))]
    | removeIf n k' p' => simp only [tableOp]; rw [if_neg (Ne.symm (show n ≠ name from h))]
    | take n => simp only [tableOp]; rw [if_neg (Ne.symm (show n ≠ name from h))]
    | _ => rfl

end Verif.World
