import Verif.CallOrderProps
/-!
# Programs that send no replies
-/
namespace Verif.World
open Verif.Mailbox
variable {B V M R : Type}

theorem silent_ret {τ : RecvType B V (GMsg M)} {s : Nat} {ser : V → B} (r : R) : Silent ser τ s (.ret r : Prog B V R) :=
  fun _ _ _ h o ho hc => absurd hc ((exec_ret_inv h).2 o ho).1

theorem silent_bind {τ : RecvType B V (GMsg M)} {s : Nat} {ser : V → B} {R' : Type} {p : Prog B V R} {k : R → Prog B V R'} (hp : Silent ser τ s p)
    (hk : ∀ r, Silent ser τ s (k r)) : Silent ser τ s (p.bind k) := by
  intro w os r h o ho hc t y hr
  obtain ⟨os1, os2, r', rfl, h1, h2⟩ := exec_bind_inv h
  rcases List.mem_append.1 ho with hm | hm
  · exact hp _ _ _ h1 o hm hc t y hr
  · exact hk _ _ _ _ h2 o hm hc t y hr

theorem silent_op {τ : RecvType B V (GMsg M)} {s : Nat} {ser : V → B} {x : Op B V} {k : Res → Prog B V R} (hx : ∀ t y, ¬ Replies ser τ (.loc t) y x)
    (hk : ∀ r, Silent ser τ s (k r)) : Silent ser τ s (.op x k) := by
  intro w os r h o ho hc t y hr
  obtain ⟨os1, os2, rfl, h1, -, h2⟩ := exec_op_inv h
  rcases List.mem_append.1 ho with hm | hm
  · exact (h1 o hm).1 hc
  · rcases List.mem_cons.1 hm with rfl | hm
    · exact hx t y hr
    · exact hk _ _ _ _ h2 o hm hc t y hr

theorem silent_wait {τ : RecvType B V (GMsg M)} {s : Nat} {ser : V → B} {kind : RecvKind} {x : RecvOp B V} {p : Option (Prog B V R)} {k : Msg x.T → Prog B V R}
    (hp : ∀ p', p = some p' → Silent ser τ s p') (hk : ∀ r, Silent ser τ s (k r)) : Silent ser τ s (.wait kind x p k) := by
  intro w os r h o ho hc t y hr
  obtain ⟨os1, os2, rfl, h1, h2⟩ := exec_wait_inv h
  rcases List.mem_append.1 ho with hm | hm
  · rcases h1 o hm with h | ⟨k, rfl⟩
    · exact h.1 hc
    · obtain ⟨it, hs, -⟩ := hr; cases hs
  · rcases h2 with ⟨kind, m, os3, -, rfl, -, h3⟩ | ⟨p', rfl, h3⟩
    · rcases List.mem_cons.1 hm with rfl | hm
      · obtain ⟨it, hs, -⟩ := hr; cases hs
      · exact hk _ _ _ _ h3 o hm hc t y hr
    · exact hp _ rfl _ _ _ h3 o hm hc t y hr

theorem silent_shutdown {u : RecvType B V Unit} {τ : RecvType B V (GMsg M)} {s : Nat} {ser : V → B} (p : Pid) (mode : ShutdownMode) : Silent ser τ s (shutdownProg u s p mode) := by
  have hf : Silent ser τ s (unlinkFlush u s p) := by
    refine silent_op ?_ fun _ => silent_op ?_ fun _ => silent_ret _ <;> (rintro t y ⟨it, hs, -⟩; cases hs)
  have hb : ∀ m, Silent ser τ s (brutalKill u s p m) := by
    intro m
    refine silent_op ?_ fun _ => silent_wait (by simp) fun _ => hf
    rintro t y ⟨it, hs, -⟩; cases hs
  refine silent_op (by rintro t y ⟨it, hs, -⟩; cases hs) fun r => ?_
  cases mode with
  | brutalKill => exact hb _
  | duration =>
    refine silent_op (by rintro t y ⟨it, hs, -⟩; cases hs) fun _ => silent_wait ?_ fun _ => hf
    intro p' h; cases h; exact hb _
  | infinity =>
    exact silent_op (by rintro t y ⟨it, hs, -⟩; cases hs) fun _ => silent_wait (by simp) fun _ => hf

end Verif.World
