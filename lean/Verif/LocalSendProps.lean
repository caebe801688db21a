import Verif.LocalSend
import Verif.SendProps
/-!
# Property C106: values that cannot be serialized
-/
namespace Verif.World
open Verif.Mailbox
variable {B V : Type}

theorem trySendOpt_some (ser : V → Option B) (w : World B V) (d : Dest) (v : V) (b : B) (h : ser v = some b) :
    trySendOpt ser w d v = (sendOpt (fun _ => b) w d v, true) := by
  unfold trySendOpt sendOpt
  split
  · rfl
  · rw [h]; cases d <;> rfl

theorem tryLoop_some (ser : V → Option B) (v : V) (b : B) (h : ser v = some b) (ds : List Dest) : ∀ (w : World B V) first groups,
    tryLoop ser v w first groups ds =
      ((sendLoop (fun _ => b) v w first groups ds).1, some (sendLoop (fun _ => b) v w first groups ds).2) := by
  induction ds with
  | nil => intros; rfl
  | cons d ds ih =>
    intro w first groups
    unfold tryLoop sendLoop
    simp only [h]
    split
    · exact ih ..
    · split
      · exact ih ..
      · cases d <;> exact ih ..

/-- **C106**: a value that can be serialized is sent as `World.send` says (the other properties about sending are about that), and the call returns. -/
theorem C106_serializable (ser : V → Option B) (w : World B V) (ds : Dests) (v : V) (b : B) (h : ser v = some b) :
    trySend ser w ds v = (send (fun _ => b) w ds v, true) := by
  cases ds with
  | one d => exact trySendOpt_some ser w d v b h
  | many l =>
    simp only [trySend, send]
    rw [tryLoop_some ser v b h]
    simp only
    generalize sendLoop (fun _ => b) v w none [] l = s
    obtain ⟨w', first, groups⟩ := s
    cases first with
    | none => simp [h]
    | some d => simp [h, trySendOpt_some ser w' d v b h]

/-- **C106**: a value that cannot be serialized can be sent to one process of this node, however it is addressed: the call returns, and
has the effect that `World.send` describes (which does not depend on the serialization). -/
theorem C106_one_local (ser : V → Option B) (ser' : V → B) (w : World B V) (d : Dest) (v : V) (hd : destLocal d = true) :
    trySend ser w (.one d) v = (send ser' w (.one d) v, true) := by
  simp [trySend, trySendOpt, send, sendOpt, hd]

/-- How the loop goes for a value that cannot be serialized. -/
theorem tryLoop_none (ser : V → Option B) (v : V) (h : ser v = none) (ds : List Dest) : ∀ (w : World B V) first,
    (tryLoop ser v w first [] ds).1.procs = w.procs ∧ (tryLoop ser v w first [] ds).1.aliases = w.aliases ∧
    (tryLoop ser v w first [] ds).1.sent = w.sent ∧ (tryLoop ser v w first [] ds).1.out = w.out ∧
    (tryLoop ser v w first [] ds).1.pending = w.pending ∧
    (tryLoop ser v w first [] ds).2 =
      (if (∀ d ∈ ds, destLocal d = true) ∧ ds.length + first.toList.length ≤ 1 then some (first.or ds.head?, []) else none) ∧
    ((∀ d ∈ ds, destLocal d = true) → (tryLoop ser v w first [] ds).1 = w) := by
  induction ds with
  | nil => intro w first; cases first <;> simp [tryLoop]
  | cons d ds ih =>
    intro w first
    unfold tryLoop
    simp only [h]
    split
    · rename_i hd
      simp only [Bool.and_eq_true, Option.isNone_iff_eq_none] at hd
      obtain ⟨hd, rfl⟩ := hd
      obtain ⟨a1, a2, a3, a4, a5, a6, a7⟩ := ih w (some d)
      refine ⟨a1, a2, a3, a4, a5, ?_, fun hh => a7 fun x hx => hh x (List.mem_cons_of_mem _ hx)⟩
      rw [a6]; simp [hd]
    · rename_i hn
      split
      · rename_i hd
        have : first ≠ none := by simpa [hd] using hn
        refine ⟨rfl, rfl, rfl, rfl, rfl, ?_, fun _ => rfl⟩
        rw [if_neg]
        rintro ⟨-, hl⟩
        cases first with
        | none => simp at this
        | some e => simp at hl
      · rename_i hd
        have hc : ¬ ((∀ x ∈ d :: ds, destLocal x = true) ∧ (d :: ds).length + first.toList.length ≤ 1) := by
          rintro ⟨hx, -⟩; exact hd (hx d (List.mem_cons_self ..))
        rw [if_neg hc]
        have hc' : (∀ x ∈ d :: ds, destLocal x = true) → False := fun hx => hd (hx d (List.mem_cons_self ..))
        cases d with
        | pid p => exact ⟨rfl, rfl, rfl, rfl, rfl, rfl, fun hx => (hc' hx).elim⟩
        | alias r => exact ⟨rfl, rfl, rfl, rfl, rfl, rfl, fun hx => (hc' hx).elim⟩
        | named n node =>
          refine ⟨nodeRegister_procs_false w node, ?_, ?_, ?_, ?_, rfl, fun hx => (hc' hx).elim⟩ <;> simp

/-- **C106**: sending a value that cannot be serialized either returns, and then is a send to at most one process, of this node, or it panics, and
then nobody has got anything: no mailbox has changed, nothing has been put into any, no frame has been sent or queued, no alias has been used up. -/
theorem C106_all_or_nothing (ser : V → Option B) (w : World B V) (ds : Dests) (v : V) (h : ser v = none) (w' : World B V)
    (hp : trySend ser w ds v = (w', false)) :
    w'.procs = w.procs ∧ w'.sent = w.sent ∧ w'.out = w.out ∧ w'.pending = w.pending ∧ w'.aliases = w.aliases := by
  cases ds with
  | one d =>
    simp only [trySend, trySendOpt, h] at hp
    split at hp
    · cases hp
    · cases hp; simp
  | many l =>
    obtain ⟨a1, a2, a3, a4, a5, a6, a7⟩ := tryLoop_none ser v h l w none
    simp only [trySend] at hp
    generalize tryLoop ser v w none [] l = s at hp a1 a2 a3 a4 a5 a6 a7
    obtain ⟨w1, o⟩ := s
    cases o with
    | none => simp only at hp a1 a2 a3 a4 a5; cases hp; exact ⟨a1, a3, a4, a5, a2⟩
    | some x =>
      obtain ⟨first, groups⟩ := x
      simp only at hp a6
      split at a6
      · rename_i hc
        cases a6
        cases l with
        | nil => simp at hp
        | cons d l => simp [trySendOpt, hc.1 d] at hp
      · cases a6

/-- The destinations that are processes of this node, and are at most one. -/
def atMostOneLocal : Dests → Prop
  | .one d => destLocal d = true
  | .many l => l.length ≤ 1 ∧ ∀ d ∈ l, destLocal d = true

/-- **C106**: the call returns exactly if it is a send to at most one process, which is of this node; then its effect is that of
`World.send`. In part: that it does not return for several processes *of this node*, see `C106_two_local_violated`. -/
theorem C106_returns_partial (ser : V → Option B) (ser' : V → B) (w : World B V) (ds : Dests) (v : V) (h : ser v = none) :
    ((trySend ser w ds v).2 = true ↔ atMostOneLocal ds) ∧ (atMostOneLocal ds → (trySend ser w ds v).1 = send ser' w ds v) := by
  cases ds with
  | one d =>
    simp only [trySend, trySendOpt, h, atMostOneLocal, send, sendOpt]
    by_cases hd : destLocal d <;> simp [hd]
  | many l =>
    obtain ⟨-, -, -, -, -, a6, a7⟩ := tryLoop_none ser v h l w none
    simp only [trySend, atMostOneLocal]
    generalize tryLoop ser v w none [] l = s at a6 a7 ⊢
    obtain ⟨w1, o⟩ := s
    have a6 : o = _ := a6
    have a7 : _ → w1 = w := a7
    cases o with
    | none =>
      simp only
      by_cases hc : (∀ d ∈ l, destLocal d = true) ∧ l.length + (none : Option Dest).toList.length ≤ 1
      · rw [if_pos hc] at a6; cases a6
      · refine ⟨⟨fun h => by simp at h, fun ⟨x, y⟩ => (hc ⟨y, x⟩).elim⟩, fun ⟨x, y⟩ => (hc ⟨y, x⟩).elim⟩
    | some x =>
      by_cases hc : (∀ d ∈ l, destLocal d = true) ∧ l.length + (none : Option Dest).toList.length ≤ 1
      · rw [if_pos hc] at a6
        cases a6
        have a7 : w1 = w := a7 hc.1
        rw [a7]
        cases l with
        | nil => simp [send, sendLoop]
        | cons d l =>
          have hl : l = [] := by cases l with | nil => rfl | cons => simp at hc
          subst hl
          have hd := hc.1 d (List.mem_cons_self ..)
          simp [trySendOpt, hd, send, sendLoop, sendOpt]
      · rw [if_neg hc] at a6; cases a6

/-- **C106** is violated for lists: the documentation says that a `Local` can be sent to local processes, but a send to two of them panics, and
neither gets it (all but the first are sent the serialized value, process_kernel.rs:52-53). -/
theorem C106_two_local_violated (ser : V → Option B) (w : World B V) (d e : Dest) (v : V) (h : ser v = none) (hd : destLocal d = true)
    (he : destLocal e = true) : (trySend ser w (.many [d, e]) v).2 = false ∧ (trySend ser w (.many [d, e]) v).1 = w := by
  simp [trySend, tryLoop, hd, he, h]

/-! Two processes; a value that cannot be serialized reaches one of them, but not both at once. -/
example : (trySend (fun _ : Nat => (none : Option Nat)) (run id init [.boot, .boot]) (.one (.pid (.loc 1))) 5).1.sent = [(1, .locl 5)] := by rfl
example : (trySend (fun _ : Nat => (none : Option Nat)) (run id init [.boot, .boot]) (.many [.pid (.loc 1), .pid (.loc 2)]) 5).1.sent = [] := by rfl
example : (trySend (fun _ : Nat => (none : Option Nat)) (run id init [.boot, .boot]) (.many [.pid (.loc 1), .pid (.rem 3 1)]) 5).2 = false := by rfl

end Verif.World
