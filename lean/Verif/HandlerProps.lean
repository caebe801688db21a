import Verif.SilentLemmas
/-!
# The whole of `handle_call` happens during the call (C124)
-/
namespace Verif.World
open Verif.Mailbox
variable {B V M S R : Type}

/-! ## Specification -/

/-- In the history `G`, the server `s` handled this request: right after `A` its `handle_call` began in state `σ`; its steps, and those of others meanwhile, are
`E`; it returned the reply `x` and the state `σ'`. -/
structure HandledIn (ser : V → B) (srv : Server B V M S) (s : Nat) (G A E : List (Op B V)) (σ : S) (m : M) (frm : From) (σ' : S) (x : M) : Prop where
  part : A ++ E <+: G
  run : Exec ser s (run ser init A) (srv.call σ m frm) E (σ', .ok (some x))

/-- What the call says about its caller. -/
def callFrom (me : Nat) (d : Dest) (t : Nat) : From := ⟨.loc me, .loc t, !destLocal d⟩

/-! ## Lemmas -/

theorem call_handled {ser : V → B} {srv : Server B V M S} {τ : RecvType B V (GMsg M)} {s : Nat} {parent : Pid} {G hs os : List (Op B V)} {σ : S}
    {n : Nat} {l : Log M S} {pre ops : List (Op B V)} {me : Nat} {d : Dest} {m x : M} {t : Nat} (hr : Returns ser srv τ s)
    (hcoh : Coherent τ G) (hfor : NoForgery ser τ G) (hf : Faithful ser τ) (hs' : Serves ser srv τ s parent G hs os σ n l)
    (hc : Called ser τ G pre ops me d m x t) (hu : Unforged ser τ s G hs os pre ops me t) :
    ∃ A E e C σ1 σ2, G = A ++ (E ++ (e ++ replyOp τ s (callFrom me d t) x :: C)) ∧ HandledIn ser srv s G A E σ1 m (callFrom me d t) σ2 x ∧ pre.length < A.length ∧
      (A ++ (E ++ e)).length < (pre ++ ops).length ∧ (∀ o ∈ e, Others s o) ∧ hs <+: A ∧ A ++ E <+: hs ++ os := by
  obtain ⟨a, o, b, cs, c, n', l', rfl, h1, h2, h3, h4, h5, h6, a1, a2, e, rfl, h7, h8, h9, rfl⟩ := call_inside hr hcoh hfor hf hs' hc hu
  obtain ⟨z, hz⟩ := hs'.part
  have hG : G = (hs ++ a1) ++ (a2 ++ (e ++ replyOp τ s (callFrom me d t) x :: (b ++ z))) := by rw [← hz]; simp [callFrom]
  refine ⟨hs ++ a1, a2, e, b ++ z, c.before, c.after, hG, ⟨⟨e ++ replyOp τ s (callFrom me d t) x :: (b ++ z), by rw [hG]; simp⟩, ?_⟩, h7, ?_, h8, ⟨a1, rfl⟩,
    ⟨e ++ replyOp τ s (callFrom me d t) x :: b, by simp [callFrom]⟩⟩
  · rw [h5.2] at h9; exact h9
  · simp only [List.length_append] at h2 ⊢; omega

/-- The reply of one call is not sent while the request of another is handled. -/
theorem handled_apart {ser : V → B} {srv : Server B V M S} {τ : RecvType B V (GMsg M)} {s : Nat} (hr : Returns ser srv τ s) {G A E e C A' E' e' C' : List (Op B V)}
    {σ σ' : S} {m x x' : M} {frm frm' : From} {t' : Nat} (ht : frm'.tag = .loc t') (h : G = A ++ (E ++ (e ++ replyOp τ s frm x :: C)))
    (h' : G = A' ++ (E' ++ (e' ++ replyOp τ s frm' x' :: C'))) (hE : HandledIn ser srv s G A E σ m frm σ' x) (he : ∀ o ∈ e, Others s o)
    (hlt : (A' ++ (E' ++ e')).length < (A ++ (E ++ e)).length) : (A' ++ (E' ++ e')).length < A.length := by
  rcases Nat.lt_or_ge (A' ++ (E' ++ e')).length A.length with hl | hge
  · exact hl
  exfalso
  have h1 : G[(A' ++ (E' ++ e')).length]? = some (replyOp τ s frm' x') := by
    rw [h']
    have : A' ++ (E' ++ (e' ++ replyOp τ s frm' x' :: C')) = (A' ++ (E' ++ e')) ++ replyOp τ s frm' x' :: C' := by simp
    rw [this, List.getElem?_append_right (Nat.le_refl _)]; simp
  rw [h, List.getElem?_append_right hge] at h1
  have : E ++ (e ++ replyOp τ s frm x :: C) = (E ++ e) ++ replyOp τ s frm x :: C := by simp
  rw [this, List.getElem?_append_left (by simp at hlt hge ⊢; omega)] at h1
  have hm := List.mem_of_getElem? h1
  have hcal : (replyOp τ s frm' x').caller = some s := rfl
  rcases List.mem_append.1 hm with hm | hm
  · refine hr.call _ _ _ _ _ _ hE.run _ hm hcal t' x' ⟨.locl (τ.box (.callReply frm'.tag x')), .local _ _ _, ?_⟩
    show τ.cast _ = _
    rw [τ.cast_box, ht]
  · exact (he _ hm).1 hcal

/-! ## Theorems -/

/-- **C124**: if a call returns, then the server ran `handle_call` for it, which returned that reply; it began after the call had begun, and it had returned
before the call returned. -/
theorem C124_within (ser : V → B) (srv : Server B V M S) (τ : RecvType B V (GMsg M)) (s : Nat) (parent : Pid) (G hs os : List (Op B V)) (σ : S)
    (n : Nat) (l : Log M S) (pre ops : List (Op B V)) (me : Nat) (d : Dest) (m x : M) (t : Nat) (hr : Returns ser srv τ s)
    (hcoh : Coherent τ G) (hfor : NoForgery ser τ G) (hf : Faithful ser τ) (hs' : Serves ser srv τ s parent G hs os σ n l)
    (hc : Called ser τ G pre ops me d m x t) (hu : Unforged ser τ s G hs os pre ops me t) :
    ∃ A E σ1 σ2, HandledIn ser srv s G A E σ1 m (callFrom me d t) σ2 x ∧ pre.length < A.length ∧ (A ++ E).length < (pre ++ ops).length := by
  obtain ⟨A, E, e, C, σ1, σ2, -, h, h1, h2, -⟩ := call_handled hr hcoh hfor hf hs' hc hu
  refine ⟨A, E, σ1, σ2, h, h1, ?_⟩
  simp only [List.length_append] at h2 ⊢; omega

/-- **C124**: the requests of two calls are handled one after the other, even if the calls overlap. -/
theorem C124_one_at_a_time (ser : V → B) (srv : Server B V M S) (τ : RecvType B V (GMsg M)) (s : Nat) (parent : Pid) (G hs os : List (Op B V)) (σ : S)
    (n : Nat) (l : Log M S) (pre ops : List (Op B V)) (me : Nat) (d : Dest) (m x : M) (t : Nat) (pre' ops' : List (Op B V)) (me' : Nat) (d' : Dest)
    (m' x' : M) (t' : Nat) (hr : Returns ser srv τ s) (hcoh : Coherent τ G) (hfor : NoForgery ser τ G) (hf : Faithful ser τ)
    (hs' : Serves ser srv τ s parent G hs os σ n l)
    (hc : Called ser τ G pre ops me d m x t) (hu : Unforged ser τ s G hs os pre ops me t)
    (hc' : Called ser τ G pre' ops' me' d' m' x' t') (hu' : Unforged ser τ s G hs os pre' ops' me' t') (hne : t ≠ t') :
    ∃ A E σ1 σ2 A' E' σ1' σ2', HandledIn ser srv s G A E σ1 m (callFrom me d t) σ2 x ∧ HandledIn ser srv s G A' E' σ1' m' (callFrom me' d' t') σ2' x' ∧
      pre.length < A.length ∧ (A ++ E).length < (pre ++ ops).length ∧ pre'.length < A'.length ∧ (A' ++ E').length < (pre' ++ ops').length ∧
      ((A ++ E).length < A'.length ∨ (A' ++ E').length < A.length) := by
  obtain ⟨A, E, e, C, σ1, σ2, hG, h, h1, h2, h3, -⟩ := call_handled hr hcoh hfor hf hs' hc hu
  obtain ⟨A', E', e', C', σ1', σ2', hG', h', h1', h2', h3', -⟩ := call_handled hr hcoh hfor hf hs' hc' hu'
  refine ⟨A, E, σ1, σ2, A', E', σ1', σ2', h, h', h1, ?_, h1', ?_, ?_⟩
  · simp only [List.length_append] at h2 ⊢; omega
  · simp only [List.length_append] at h2' ⊢; omega
  rcases Nat.lt_trichotomy (A' ++ (E' ++ e')).length (A ++ (E ++ e)).length with hlt | heq | hlt
  · have := handled_apart hr (t' := t') rfl hG hG' h h3 hlt
    simp only [List.length_append] at this ⊢; omega
  · exfalso
    have e1 : A ++ (E ++ (e ++ replyOp τ s (callFrom me d t) x :: C)) = (A ++ (E ++ e)) ++ replyOp τ s (callFrom me d t) x :: C := by simp
    have e2 : A' ++ (E' ++ (e' ++ replyOp τ s (callFrom me' d' t') x' :: C')) = (A' ++ (E' ++ e')) ++ replyOp τ s (callFrom me' d' t') x' :: C' := by simp
    rw [e1] at hG
    rw [e2, hG] at hG'
    have := (List.append_inj hG' heq.symm).2
    simp only [List.cons.injEq] at this
    have hb := this.1
    simp only [replyOp, Op.send.injEq] at hb
    have hbox := congrArg τ.cast hb.2.2
    rw [τ.cast_box, τ.cast_box] at hbox
    simp only [Option.some.injEq, GMsg.callReply.injEq, callFrom, Ref.loc.injEq] at hbox
    exact hne hbox.1
  · have := handled_apart hr (t' := t) rfl hG' hG h' h3' hlt
    simp only [List.length_append] at this ⊢; omega

/-! ## A concrete case: two calls and a cast -/

example := C124_within _ _ _ _ _ _ _ _ _ _ _ _ _ _ _ _ _ _ adder_returns order_coherent order_noForgery natServer_faithful order_serves order_called1
  order_unforged1
example := C124_one_at_a_time _ _ _ _ _ _ _ _ _ _ _ _ _ _ _ _ _ _ _ _ _ _ _ _ _ adder_returns order_coherent order_noForgery natServer_faithful order_serves
  order_called1 order_unforged1 order_called2 order_unforged2 (by decide)

end Verif.World
