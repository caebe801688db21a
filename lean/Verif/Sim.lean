import Verif.Server
/-!
# Running programs

`sim` runs a program along a list of choices; the result is an execution (`sim_exec`). Only used for concrete examples.
-/
namespace Verif.World
open Verif.Mailbox
variable {B V R : Type}

/-- Who moves next: the process itself, somebody else, or the clock (a time limit is up). -/
inductive Choice (B V : Type) : Type 1
  | mine
  | env (o : Op B V)
  | elapsed

/-- The operation is a drop of `me`. -/
def isDropOf (me : Nat) : Op B V → Bool
  | .drop i => i == me
  | _ => false

/-- Runs a program along choices: the history and the result. -/
def sim (ser : V → B) (me : Nat) : World B V → Prog B V R → List (Choice B V) → Option (List (Op B V) × R)
  | _, .ret r, [] => some ([], r)
  | w, p, .env o :: cs =>
    if o.caller ≠ some me && !isDropOf me o then (sim ser me (step ser w o).1 p cs).map fun x => (o :: x.1, x.2) else none
  | w, .op o k, .mine :: cs =>
    if running w me then (sim ser me (step ser w o).1 (k (step ser w o).2) cs).map fun x => (o :: x.1, x.2) else none
  | w, .wait kind o t k, .mine :: cs =>
    if running w me then
      match received w me o kind with
      | some m => (sim ser me (step ser w (.recv me o kind)).1 (k m) cs).map fun x => (.recv me o kind :: x.1, x.2)
      | none => (sim ser me (step ser w (.recv me o kind)).1 (.wait .resume o t k) cs).map fun x => (.recv me o kind :: x.1, x.2)
    else none
  | w, .wait .resume _ (some p) _, .elapsed :: cs => sim ser me w p cs
  | _, _, _ => none

theorem sim_exec (ser : V → B) (me : Nat) (cs : List (Choice B V)) : ∀ (w : World B V) (p : Prog B V R) (x : List (Op B V) × R),
    sim ser me w p cs = some x → Exec ser me w p x.1 x.2 := by
  induction cs with
  | nil =>
    intro w p x h
    cases p with
    | ret r => simp only [sim, Option.some.injEq] at h; subst h; exact .ret _ _
    | op o k => simp [sim] at h
    | wait kind o t k => simp [sim] at h
  | cons c cs ih =>
    intro w p x h
    cases c with
    | env o =>
      simp only [sim] at h
      split at h
      · rename_i hc
        simp only [Option.map_eq_some_iff] at h
        obtain ⟨y, hy, rfl⟩ := h
        simp only [ne_eq, decide_not, Bool.and_eq_true, Bool.not_eq_true', decide_eq_false_iff_not] at hc
        refine .env ⟨hc.1, ?_⟩ (ih _ _ y hy)
        rintro rfl
        simp [isDropOf] at hc
      · simp at h
    | mine =>
      cases p with
      | ret r => simp [sim] at h
      | op o k =>
        simp only [sim] at h
        split at h
        · rename_i hr
          simp only [Option.map_eq_some_iff] at h
          obtain ⟨y, hy, rfl⟩ := h
          exact .op hr (ih _ _ y hy)
        · simp at h
      | wait kind o t k =>
        simp only [sim] at h
        split at h
        · rename_i hr
          split at h
          · rename_i m hm
            simp only [Option.map_eq_some_iff] at h
            obtain ⟨y, hy, rfl⟩ := h
            exact .got hr hm (ih _ _ y hy)
          · rename_i hm
            simp only [Option.map_eq_some_iff] at h
            obtain ⟨y, hy, rfl⟩ := h
            exact .pending hr hm (ih _ _ y hy)
        · simp at h
    | elapsed =>
      cases p with
      | ret r => simp [sim] at h
      | op o k => simp [sim] at h
      | wait kind o t k =>
        cases kind <;> cases t <;> simp only [sim] at h <;> first | exact .elapsed (ih _ _ x h) | simp at h

/-- The entries of a table, with their places. -/
def placed {A : Type} : Nat → List (Option A) → List (Nat × A)
  | _, [] => []
  | k, some g :: l => (k, g) :: placed (k + 1) l
  | k, none :: l => placed (k + 1) l

theorem mem_placed {A : Type} (l : List (Option A)) : ∀ (j k : Nat) (g : A), l[k]? = some (some g) → (j + k, g) ∈ placed j l := by
  induction l with
  | nil => intro j k g h; simp at h
  | cons x l ih =>
    intro j k g h
    cases k with
    | zero => simp at h; subst h; simp [placed]
    | succ k =>
      simp at h
      have := ih (j + 1) k g h
      rw [show j + 1 + k = j + (k + 1) by omega] at this
      cases x <;> simp [placed, this]

end Verif.World
