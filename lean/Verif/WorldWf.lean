import Verif.ClientLemmas
import Verif.MailboxProps
/-!
# Every mailbox of every reachable world stashes only messages
-/
namespace Verif.World
open Verif.Mailbox
variable {B V : Type}

theorem recvBox_wf (o : RecvOp B V) (k : RecvKind) (b : Box B V) (h : WF b) : WF (recvBox o k b) := by
  cases k with
  | select => exact (select_pick o.τ o.filter o.strict b h).2.2.1
  | resume => exact (scanChan_pick o.τ o.filter o.strict b.items b.mons b.aliases b.chan h).2.2.1
  | remove =>
    have hr := remove_eq o.τ o.filter o.strict b h
    simp only [recvBox]
    split at hr
    · rename_i heq; rw [heq]; exact h
    · rename_i b' heq; rw [heq]; exact hr.1

def BoxesWf (w : World B V) : Prop := ∀ j b, pmap (·.box) w j = some b → WF b

theorem boxesWf_act (w : World B V) (a : Atom B V) (h : BoxesWf w) : BoxesWf (act w a) := by
  intro j b hb
  have key : ∀ (f : Box B V → Box B V), (∀ b, WF b → WF (f b)) → (pmap (·.box) w j).map f = some b → WF b := by
    intro f hf hb
    cases hp : pmap (·.box) w j with
    | none => rw [hp] at hb; simp at hb
    | some b0 => rw [hp] at hb; simp at hb; subst hb; exact hf _ (h j b0 hp)
  rw [box_act] at hb
  cases a <;> simp only [] at hb <;> try exact h j b hb
  all_goals
    split at hb
    rotate_left
    · exact h j b hb
  · refine key _ ?_ hb; intro b hb; exact hb
  · simp at hb; subst hb; simp [WF]
  · simp at hb
  · exact key _ (fun b hb => recvBox_wf _ _ b hb) hb
  · refine key _ ?_ hb; intro b hb; exact hb
  · refine key _ ?_ hb; intro b hb; exact hb
  · refine key _ ?_ hb; intro b hb; exact hb
  · refine key _ ?_ hb; intro b hb; exact hb
  · refine key _ ?_ hb; intro b hb; exact hb
  · refine key _ ?_ hb; intro b hb; exact hb
  · refine key _ ?_ hb; intro b hb; exact hb

theorem reach_wf {ser : V → B} {w : World B V} (h : Reachable ser w) (j : Nat) (p : Proc B V) (hp : w.procs j = some p) : WF p.box := by
  obtain ⟨os, rfl⟩ := h
  have := run_inv ser BoxesWf boxesWf_act os init (by intro j b hb; simp [pmap, init] at hb)
  exact this j p.box (by simp [pmap, hp])

/-- The mailbox of `a` contains (stashed or in the channel) a message that reads as one accepted by `f`. -/
def HasMsg {T : Type} (τ : RecvType B V T) (f : Msg T → Bool) (w : World B V) (a : Nat) : Prop :=
  ∃ p it m, w.procs a = some p ∧ it ∈ contents p.box ∧ asMsg τ it = some m ∧ f m = true

end Verif.World
