import Verif.LinkProps
/-!
# C109: an exit with reason `normal` is the process's own doing

A process that others are told about as having exited normally has returned from its function, or has asked itself to exit with `normal`: nobody
else can make it look as if it had finished.
-/
namespace Verif.World
open Verif.Mailbox
variable {B V : Type}

/-- The process itself ended normally: its function returned, or it called `Process::exit` for itself with reason `normal`. -/
def EndsNormally (i : Nat) (o : Op B V) : Prop := o = .finish i ∨ o = .exit i (.loc i) .normal

/-- If process `i` has ended or was told to stop, then with another reason than `normal`. -/
def NotNormal (i : Nat) (w : World B V) : Prop :=
  ∀ p, w.procs i = some p → p.reason ≠ some .normal ∧ (p.reason = none → p.aborted = false ∧ p.ended = false)

theorem notNormal_run (ser : V → B) (os : List (Op B V)) (i : Nat) (w : World B V) (h : NotNormal i w) (hn : ∀ o ∈ os, ¬ EndsNormally i o) :
    NotNormal i (run ser w os) := by
  have conv : ∀ w : World B V, NotNormal i w ↔ ∀ f, pmap (fun p => (p.reason, p.aborted, p.ended)) w i = some f →
      f.1 ≠ some .normal ∧ (f.1 = none → f.2.1 = false ∧ f.2.2 = false) := by
    intro w
    constructor
    · intro h f hf
      simp only [pmap] at hf
      rw [Option.map_eq_some_iff] at hf
      obtain ⟨q, hq, rfl⟩ := hf
      exact h q hq
    · intro h p hp
      exact h (p.reason, p.aborted, p.ended) (by simp [pmap, hp])
  rw [conv] at h ⊢
  refine run_inv' ser (fun w => ∀ f, pmap (fun p => (p.reason, p.aborted, p.ended)) w i = some f →
      f.1 ≠ some .normal ∧ (f.1 = none → f.2.1 = false ∧ f.2.2 = false)) (fun o => ¬ EndsNormally i o) ?_ os hn w h
  intro w o ho _ w' a _ ha h f hf
  rw [fate_act] at hf
  cases a <;> simp only [] at hf <;> try exact h f hf
  all_goals
    split at hf
    rotate_left
    · exact h f hf
  all_goals rename_i hi
  all_goals (try subst hi)
  · cases hq : w'.procs i with
    | none => rw [hq] at hf; simp at hf
    | some q =>
      rw [hq] at hf; simp at hf; subst hf
      refine ⟨fun he => ho (.inr ?_), by simp⟩
      simp at he; subst he
      exact ha.2 rfl
  all_goals (try exact absurd (Or.inl (show o = .finish i from ha)) ho)
  all_goals (try (simp at hf; done))
  all_goals (try (simp at hf; subst hf; simp; done))
  all_goals
    rw [Option.map_eq_some_iff] at hf
    obtain ⟨q, hq, rfl⟩ := hf
    simp

/-- **C109**: whatever happens, if process `i` has ended or was told to stop, and the reason that its links and monitors will get is `normal`, then it
returned from its function or asked itself to exit so. -/
theorem C109_normal_is_own (ser : V → B) (os : List (Op B V)) (i : Nat) (p : Proc B V) (hp : (run ser init os).procs i = some p)
    (hd : p.ended = true ∨ p.aborted = true) (hr : p.reason.getD .normal = .normal) : ∃ o ∈ os, EndsNormally i o := by
  apply Classical.byContradiction
  intro hn
  obtain ⟨h1, h2⟩ := notNormal_run ser os i init (by simp [NotNormal, init]) (fun o ho he => hn ⟨o, ho, he⟩) p hp
  cases h : p.reason with
  | none => obtain ⟨h3, h4⟩ := h2 h; simp_all
  | some r => rw [h] at hr; simp at hr; subst hr; exact h1 h

/-- **C109**, as monitors see it: if the death of `t` puts a `Down` with reason `normal` into a mailbox, then `t` itself ended normally before. -/
theorem C109_down_is_own (ser : V → B) (os : List (Op B V)) (t j : Nat) (d : Dest) (r : Ref) (p : Proc B V)
    (hp : (run ser init os).procs t = some p) (hd : p.ended = true ∨ p.aborted = true)
    (h : (j, Item.down d r .normal) ∈ (step ser (run ser init os) (.drop t)).1.sent) (hn : (j, Item.down d r .normal) ∉ (run ser init os).sent) :
    ∃ o ∈ os, EndsNormally t o := by
  refine C109_normal_is_own ser os t p hp hd ?_
  have key := Acts.inv (I := fun x => (j, Item.down d r .normal) ∈ x.sent → p.reason.getD .normal = .normal)
    (step_acts ser (run ser init os) (.drop t)) (fun h => absurd h hn) ?_
  · exact key h
  · intro w' a ha ih hm
    rw [sent_act] at hm
    cases a <;> simp only [] at hm <;> try exact ih hm
    all_goals
      split at hm
      rotate_left
      · exact ih hm
    all_goals
      rw [List.mem_append, List.mem_singleton] at hm
      rcases hm with hm | hm
      · exact ih hm
    · cases hm
      rcases ha with ⟨t', q, dd, ht, hq, -, -, he⟩ | ⟨n, -, ⟨_, ht⟩ | ⟨_, _, _, ht, -⟩⟩
      · cases ht; rw [hp] at hq; cases hq; exact he.symm
      · cases ht
      · cases ht
    · cases hm
    · cases ha

/-- The hypotheses are met: process 1 monitors process 2, which returns. -/
example : ∃ p, (run id init ([.boot, .boot, .monitor 1 (.pid (.loc 2)), .finish 2] : List (Op Nat Nat))).procs 2 = some p ∧
    p.ended = true ∧ p.reason.getD .normal = .normal := ⟨_, rfl, rfl, rfl⟩

/-- An exit signal with reason `normal` from another process does not end a process (it is not an own doing). -/
example : alive (run id init ([.boot, .boot, .exit 1 (.loc 2) .normal] : List (Op Nat Nat))) 2 = true := rfl

end Verif.World
