import Verif.CallLemmas
import Verif.NodeDownProps
/-!
# Calls (C56, C57)
-/
namespace Verif.World
open Verif.Mailbox
variable {B V M : Type}

/-! ## Specification -/

/-- The item is a user message that reads as `x`. -/
def Reads {T : Type} (τ : RecvType B V T) : Item B V → T → Prop
  | .locl v, x => τ.cast v = some x
  | .remote b, x => τ.deser b = some x
  | _, _ => False

/-- Rust's types: bytes that were decoded as type `τ'`, boxed, and can be downcast to `τ`, decode as `τ` with the same result
(a downcast succeeds only to the very type that was boxed). -/
def CoherentWith {T T' : Type} (τ : RecvType B V T) (τ' : RecvType B V T') : Prop :=
  ∀ b t' x, τ'.deser b = some t' → τ.cast (τ'.box t') = some x → τ.deser b = some x

/-- All receives of a history are for types that are coherent with `τ`. -/
def Coherent {T : Type} (τ : RecvType B V T) (os : List (Op B V)) : Prop := ∀ a o k, .recv a o k ∈ os → CoherentWith τ o.τ

/-- A reply `m` to the call with this tag. -/
def IsReply (τ : RecvType B V (GMsg M)) (tag : Ref) (m : M) (it : Item B V) : Prop := Reads τ it (.callReply tag m)

/-- The operation delivers a reply `m` for `tag` (to whomever). -/
def Replies (ser : V → B) (τ : RecvType B V (GMsg M)) (tag : Ref) (m : M) (o : Op B V) : Prop :=
  ∃ it, SentBy ser o it ∧ IsReply τ tag m it

/-- References are not forged: a reply for a reference of this node is only ever sent after the reference was made. -/
def NoForgery (ser : V → B) (τ : RecvType B V (GMsg M)) (os : List (Op B V)) : Prop :=
  ∀ os1 o os2 n m, os = os1 ++ o :: os2 → Replies ser τ (.loc n) m o → n < (run ser init os1).nextRef

/-- How a call monitors its server. -/
def callMon (me : Nat) (d : Dest) : Op B V := monOp me d (if destLocal d then none else some true)

/-- The request of a call. -/
def request (τ : RecvType B V (GMsg M)) (me : Nat) (d : Dest) (tag : Ref) (message : M) : Op B V :=
  .send me (.one d) (τ.box (.call ⟨.loc me, tag, !destLocal d⟩ message))

/-! ## The executions of a call -/

theorem callMon_eq (me : Nat) (d : Dest) :
    (if destLocal d then .monitor me d else .monitorAlias me d true : Op B V) = callMon me d := by
  unfold callMon; split <;> rfl

theorem call_inv {τ : RecvType B V (GMsg M)} {ser : V → B} {me : Nat} {w : World B V} {d : Dest} {message : M}
    {ops : List (Op B V)} {res : Except CallError M} (h : Exec ser me w (callProg τ me d message) ops res) :
    ∃ os1 os2 os4 os5, ops = os1 ++ callMon me d :: (os2 ++ request τ me d (.loc (run ser w os1).nextRef) message :: os4) ++ os5 ∧
      running (run ser w os1) me = true ∧ (∀ o ∈ os1, Others me o) ∧ (∀ o ∈ os2, Others me o) ∧
      Waits ser me ⟨GMsg M, τ, isAnswer (.loc (run ser w os1).nextRef), false⟩
        (run ser (step ser (run ser w os1) (callMon me d)).1 (os2 ++ [request τ me d (.loc (run ser w os1).nextRef) message])) os4 ∧
      ((∃ k m os6, received (run ser (step ser (run ser w os1) (callMon me d)).1
            (os2 ++ request τ me d (.loc (run ser w os1).nextRef) message :: os4)) me
            ⟨GMsg M, τ, isAnswer (.loc (run ser w os1).nextRef), false⟩ k = some m ∧
          os5 = .recv me ⟨GMsg M, τ, isAnswer (.loc (run ser w os1).nextRef), false⟩ k :: os6 ∧
          ((∃ x, m = .user (.callReply (.loc (run ser w os1).nextRef) x) ∧ res = .ok x) ∨
           ∃ d' e, m = .system (.processDown d' (.loc (run ser w os1).nextRef) e) ∧ res = .error (.serverDown e))) ∨
       (res = .error .timeout ∧ ∃ os6 os7 os8, os5 = os6 ++ .demonitor me (.loc (run ser w os1).nextRef) :: (os7 ++
            .recv me ⟨GMsg M, τ, isReply (.loc (run ser w os1).nextRef), false⟩ .remove :: os8) ∧
          (∀ o ∈ os6, Others me o) ∧ (∀ o ∈ os7, Others me o) ∧ (∀ o ∈ os8, Others me o) ∧
          running (run ser w (os1 ++ callMon me d :: (os2 ++ request τ me d (.loc (run ser w os1).nextRef) message :: os4) ++ os6)) me = true ∧
          running (run ser w (os1 ++ callMon me d :: (os2 ++ request τ me d (.loc (run ser w os1).nextRef) message :: os4) ++ os6 ++
            .demonitor me (.loc (run ser w os1).nextRef) :: os7)) me = true)) := by
  unfold callProg at h
  rw [callMon_eq] at h
  obtain ⟨os1, os', rfl, h1, hrun, h⟩ := exec_op_inv h
  have href : (step ser (run ser w os1) (callMon me d)).2 = .ref (.loc (run ser w os1).nextRef) :=
    congrArg Prod.snd (step_monOp ser (run ser w os1) me d _ hrun)
  rw [href] at h
  dsimp only at h
  generalize hn : (run ser w os1).nextRef = n at *
  obtain ⟨os2, os3, rfl, h2, -, h⟩ := exec_op_inv h
  obtain ⟨os4, os5, rfl, h4, h⟩ := exec_wait_inv' h (by simp)
  have hw0 : ∀ os : List (Op B V), run ser (step ser (run ser (step ser (run ser w os1) (callMon me d)).1 os2)
      (.send me (.one d) (τ.box (.call ⟨.loc me, .loc n, !destLocal d⟩ message)))).1 os =
      run ser (step ser (run ser w os1) (callMon me d)).1 (os2 ++ request τ me d (.loc n) message :: os) := by
    intro os; rw [run_append, run_cons]; rfl
  refine ⟨os1, os2, os4, os5, by simp [hn, request], hrun, h1, h2, ?_, ?_⟩
  · rw [hn]
    have := hw0 []
    rw [← this]; exact h4
  · rw [hn]
    rcases h with ⟨k, m, os6, hm, rfl, -, hx⟩ | ⟨p, hp, hx⟩
    · left
      refine ⟨k, m, os6, by rw [← hw0]; exact hm, rfl, ?_⟩
      have hf := (received_item _ me _ k m hm).1
      dsimp only at hf
      unfold isAnswer at hf
      split at hf
      · simp at hf; subst hf
        obtain ⟨_, _, -, -, -, hx⟩ := exec_op_inv hx
        exact .inl ⟨_, rfl, (exec_ret_inv hx).1⟩
      · simp at hf; subst hf
        exact .inr ⟨_, _, rfl, (exec_ret_inv hx).1⟩
      · simp at hf
    · right
      simp at hp; subst hp
      obtain ⟨os6, os', rfl, h6, hr6, hx⟩ := exec_op_inv hx
      obtain ⟨os7, os8, rfl, h7, hr7, hx⟩ := exec_op_inv hx
      obtain ⟨hres, h8⟩ := exec_ret_inv hx
      rw [hw0] at hr6 hr7
      refine ⟨hres, os6, os7, os8, rfl, h6, h7, h8, ?_, ?_⟩
      · rw [run_append, run_append, run_cons]; exact hr6
      · rw [run_append, run_append, run_append, run_cons, run_cons]; exact hr7

/-! ## C56 -/

theorem run_nextRef_le (ser : V → B) (w : World B V) (os : List (Op B V)) : w.nextRef ≤ (run ser w os).nextRef := by
  induction os generalizing w with
  | nil => exact Nat.le_refl _
  | cons o os ih => exact Nat.le_trans (step_mono_counters ser w o).2 (ih _)

/-- Like `sent_user`, with the place in the history. -/
theorem sent_user_at (ser : V → B) (os : List (Op B V)) (w : World B V) (i : Nat) (it : Item B V) (hit : isUser it = true)
    (h : (i, it) ∈ (run ser w os).sent) :
    (i, it) ∈ w.sent ∨ ∃ os1 o os2, os = os1 ++ o :: os2 ∧ SentBy ser o it := by
  rcases sent_user ser os w i it hit h with h | ⟨o, ho, hs⟩
  · exact .inl h
  · obtain ⟨a, b, rfl⟩ := List.append_of_mem ho
    exact .inr ⟨a, o, b, rfl, hs⟩

/-- Every item of a mailbox that reads as `x` was delivered as an item that reads as `x`. -/
def Readable {T : Type} (τ : RecvType B V T) (w : World B V) : Prop :=
  ∀ j b, pmap (·.box) w j = some b →
    BoxOk (fun _ _ => True) (fun it => ∀ x, Reads τ it x → ∃ it0, (j, it0) ∈ w.sent ∧ isUser it0 = true ∧ Reads τ it0 x) b

theorem keepsAt_reads {T T' : Type} {τ : RecvType B V T} {τ' : RecvType B V T'} (hc : CoherentWith τ τ') (R : T → Prop) :
    KeepsAt τ' (fun _ _ => True) (fun it : Item B V => ∀ x, Reads τ it x → R x) := by
  rintro mons als it - hit
  refine ⟨trivial, ?_⟩
  cases it <;> simp only [processItem]
  · rename_i b
    split
    · rename_i t' ht
      intro m hm
      exact hit m (hc b t' _ ht hm)
    · exact hit
  · split <;> exact hit
  · exact hit
  · split <;> exact fun m hm => hm.elim
  · split <;> exact fun m hm => hm.elim
  · exact hit
  · exact hit

theorem readable_run {T : Type} {τ : RecvType B V T} (ser : V → B) (os : List (Op B V)) (hc : Coherent τ os) : Readable τ (run ser init os) := by
  refine run_inv' ser (Readable τ) (fun o => ∀ a ro k, o = .recv a ro k → CoherentWith τ ro.τ) ?_ os ?_ init ?_
  · intro w o ho _ w' a _ ha h j b hb
    by_cases hj : (w'.procs j).isSome = true
    · refine boxOk_act_at w' a j ?_ ?_ (fun _ => trivial) ?_ ?_ (fun _ _ _ _ _ => trivial) (fun _ _ _ _ _ => trivial)
        (fun _ _ _ _ => trivial) ?_ b hb
      · rintro ro k rfl
        exact keepsAt_reads (ho _ ro k ha) _
      · intro b hb
        obtain ⟨-, h2, h3⟩ := h j b hb
        refine ⟨trivial, ?_, ?_⟩
        · intro it hit x hx; obtain ⟨it0, g1, g2⟩ := h2 it hit x hx; exact ⟨it0, sent_mono_act w' a _ g1, g2⟩
        · intro it hit x hx; obtain ⟨it0, g1, g2⟩ := h3 it hit x hx; exact ⟨it0, sent_mono_act w' a _ g1, g2⟩
      · rintro it rfl hs x hx
        refine ⟨it, ?_, ?_, hx⟩
        · rw [sent_act]; simp [hs]
        · cases it <;> first | rfl | exact hx.elim
      · rintro id rfl x hx; exact hx.elim
      · rintro d m e al rfl x hx; exact hx.elim
    · have hnone : pmap (·.box) w' j = none := by
        unfold pmap; cases hw : w'.procs j with
        | none => rfl
        | some p => rw [hw] at hj; simp at hj
      have : b = ⟨[], [], [], []⟩ := by
        rw [box_act, hnone] at hb
        cases a <;> simp at hb
        exact hb.2.symm
      subst this
      exact ⟨trivial, by simp, by simp⟩
  · rintro o ho a ro k rfl; exact hc a ro k ho
  · intro j b hb; simp [pmap, init] at hb

theorem received_reads {T : Type} {τ : RecvType B V T} {w : World B V} (hr : Readable τ w) {a : Nat}
    {f : Msg T → Bool} {s : Bool} {k : RecvKind} {x : T} (h : received w a ⟨T, τ, f, s⟩ k = some (.user x)) :
    ∃ it, (a, it) ∈ w.sent ∧ isUser it = true ∧ Reads τ it x := by
  obtain ⟨-, p, hp, it, hit, mons, als, hm⟩ := received_item w a ⟨T, τ, f, s⟩ k _ h
  have hb := hr a p.box (by simp [pmap, hp])
  have hK := hit.elim (hb.2.1 it) (hb.2.2 it)
  refine hK x ?_
  cases it <;> simp only [processItem] at hm
  · split at hm
    · rename_i t' ht
      simp at hm; subst hm; exact ht
    · simp at hm
  · split at hm
    · rename_i t' ht
      simp at hm; subst hm; exact ht
    · simp at hm
  · simp at hm
  · split at hm <;> simp at hm
  · split at hm <;> simp at hm
  · simp at hm
  · simp at hm

/-- C56. If a call returns `x`, then `x` was the content of a reply to this very call, delivered to the caller: its tag is a
reference `n` that did not exist before the call, that only the request of this call carried away, and (no forged
references) the reply was sent after the call had made it, by a send of some process or a frame of another node. -/
theorem C56_reply (τ : RecvType B V (GMsg M)) (ser : V → B) (os0 ops : List (Op B V)) (me : Nat) (d : Dest)
    (message x : M) (hc : Coherent τ (os0 ++ ops)) (hf : NoForgery ser τ (os0 ++ ops))
    (h : Exec ser me (run ser init os0) (callProg τ me d message) ops (.ok x)) :
    ∃ os1 os2 os3 os4 o n, ops = os1 ++ callMon me d :: (os2 ++ o :: os3) ++ os4 ∧ n = (run ser init (os0 ++ os1)).nextRef ∧
      (∀ o ∈ os1, Others me o) ∧ request τ me d (.loc n) message ∈ os2 ++ o :: os3 ∧ Replies ser τ (.loc n) x o ∧
      ∃ it, SentBy ser o it ∧ IsReply τ (.loc n) x it ∧ (me, it) ∈ (run ser (run ser init os0) ops).sent := by
  obtain ⟨os1, os2, os4, os5, rfl, hrun, h1, h2, hw, hcase⟩ := call_inv h
  rcases hcase with ⟨k, m, os6, hrec, rfl, hm⟩ | ⟨hres, -⟩
  · rcases hm with ⟨y, rfl, hy⟩ | ⟨_, _, -, hy⟩
    · cases hy
      have hw1 : run ser init (os0 ++ os1) = run ser (run ser init os0) os1 := run_append ..
      generalize hnn : (run ser (run ser init os0) os1).nextRef = n at *
      have heq : run ser (step ser (run ser (run ser init os0) os1) (callMon me d)).1 (os2 ++ request τ me d (.loc n) message :: os4) =
          run ser init ((os0 ++ os1) ++ callMon me d :: (os2 ++ request τ me d (.loc n) message :: os4)) := by
        rw [run_append ser init (os0 ++ os1), hw1, run_cons]
      have hread : Readable τ (run ser init ((os0 ++ os1) ++ callMon me d :: (os2 ++ request τ me d (.loc n) message :: os4))) := by
        refine readable_run ser _ (fun a o k hm => hc a o k ?_)
        have : os0 ++ (os1 ++ callMon me d :: (os2 ++ request τ me d (.loc n) message :: os4) ++
              (Op.recv me ⟨GMsg M, τ, isAnswer (.loc n), false⟩ k :: os6)) =
              ((os0 ++ os1) ++ callMon me d :: (os2 ++ request τ me d (.loc n) message :: os4)) ++
              (Op.recv me ⟨GMsg M, τ, isAnswer (.loc n), false⟩ k :: os6) := by simp
        simp only [List.mem_append, List.mem_cons] at hm ⊢
        rcases hm with (hm | hm) | hm | hm | hm | hm <;> simp [hm]
      rw [← heq] at hread
      obtain ⟨it, hit, hu, hreads⟩ := received_reads hread hrec
      have hit' := hit
      rw [heq] at hit'
      rcases sent_user_at ser _ init me it hu hit' with h0 | ⟨a, o, b, hab, hsb⟩
      · simp [init] at h0
      · -- the reply comes after the reference was made
        have hlt : n < (run ser init a).nextRef := by
          refine hf a o (b ++ (Op.recv me ⟨GMsg M, τ, isAnswer (.loc n), false⟩ k :: os6)) n x ?_ ⟨it, hsb, hreads⟩
          have : os0 ++ (os1 ++ callMon me d :: (os2 ++ request τ me d (.loc n) message :: os4) ++
              (Op.recv me ⟨GMsg M, τ, isAnswer (.loc n), false⟩ k :: os6)) =
              ((os0 ++ os1) ++ callMon me d :: (os2 ++ request τ me d (.loc n) message :: os4)) ++
              (Op.recv me ⟨GMsg M, τ, isAnswer (.loc n), false⟩ k :: os6) := by simp
          rw [this, hab]; simp
        have hlen : (os0 ++ os1).length < a.length := by
          rcases Nat.lt_or_ge (os0 ++ os1).length a.length with h | h
          · exact h
          · exfalso
            have hpre : a <+: os0 ++ os1 := by
              have hp1 : a <+: (os0 ++ os1) ++ callMon me d :: (os2 ++ request τ me d (.loc n) message :: os4) := by rw [hab]; exact List.prefix_append ..
              exact List.prefix_of_prefix_length_le hp1 (List.prefix_append ..) h
            obtain ⟨c, hcc⟩ := hpre
            have : (run ser init a).nextRef ≤ (run ser init (os0 ++ os1)).nextRef := by
              rw [← hcc, run_append ser init a]; exact run_nextRef_le ..
            rw [hw1, hnn] at this
            omega
        -- so it is one of the operations after the monitor
        have hsplit : ∃ c, os2 ++ request τ me d (.loc n) message :: os4 = c ++ o :: b := by
          have hp2 : os0 ++ os1 <+: a := by
            have hp1 : a <+: (os0 ++ os1) ++ callMon me d :: (os2 ++ request τ me d (.loc n) message :: os4) := by rw [hab]; exact List.prefix_append ..
            exact List.prefix_of_prefix_length_le (List.prefix_append ..) hp1 (Nat.le_of_lt hlen)
          obtain ⟨c, hcc⟩ := hp2
          cases c with
          | nil => simp at hcc; rw [hcc] at hlen; simp at hlen
          | cons c0 cs =>
            refine ⟨cs, ?_⟩
            rw [← hcc, List.append_assoc (os0 ++ os1)] at hab
            have := List.append_cancel_left hab
            simp at this
            simpa using this.2
        obtain ⟨c, hcc⟩ := hsplit
        refine ⟨os1, c, b, Op.recv me ⟨GMsg M, τ, isAnswer (.loc n), false⟩ k :: os6, o, n, by rw [hcc], by rw [hw1, hnn], h1, ?_,
          ⟨it, hsb, hreads⟩, it, hsb, hreads, ?_⟩
        · rw [← hcc]; simp
        · have hmono : ∀ (os : List (Op B V)) (w : World B V) x, x ∈ w.sent → x ∈ (run ser w os).sent := by
            intro os w x hx
            exact run_inv ser (fun w => x ∈ w.sent) (fun w a => sent_mono_act w a x) os w hx
          rw [run_append, run_append]
          exact hmono _ _ _ (by rw [run_cons]; exact hit)
    · cases hy
  · cases hres

/-- C56. The tags of two calls, made at different moments of one history by any processes, are different, so the reply to one
is never taken for the reply to the other. -/
theorem C56_tags_distinct (ser : V → B) (os os' : List (Op B V)) (me : Nat) (d : Dest)
    (hrun : running (run ser (init : World B V) os) me = true) (hle : os ++ [callMon me d] <+: os') :
    (run ser init os).nextRef ≠ (run ser init os').nextRef := by
  obtain ⟨c, rfl⟩ := hle
  rw [run_append, run_append, run_cons]
  have h1 : (run ser init os).nextRef < (step ser (run ser init os) (callMon me d)).1.nextRef := by
    have h2 : (step ser (run ser init os) (callMon me d)).2 = .ref (.loc (run ser init os).nextRef) :=
      congrArg Prod.snd (step_monOp ser _ me d _ hrun)
    have := refs_lt ser [callMon me d] (run ser init os) (run ser init os).nextRef (by simp [results, h2, refsOf])
    simpa [run] using this
  have h3 := run_nextRef_le ser (run ser (step ser (run ser init os) (callMon me d)).1 []) c
  have h4 : run ser (step ser (run ser init os) (callMon me d)).1 [] = (step ser (run ser init os) (callMon me d)).1 := rfl
  rw [h4] at h3
  rw [h4]
  omega

/-- C56. When a call to a local server reports that the server is down, it is: it has died during the call with that reason (or
there was none, `noproc`). -/
theorem C56_server_down (τ : RecvType B V (GMsg M)) (ser : V → B) (os0 ops : List (Op B V)) (me : Nat) (d : Dest)
    (hd : LocalServer me d) (message : M) (e : ExitReason)
    (h : Exec ser me (run ser init os0) (callProg τ me d message) ops (.error (.serverDown e))) :
    ServerDied ser (run ser init os0) ops d e := by
  obtain ⟨os1, os2, os4, os5, rfl, hrun, h1, h2, hw, hcase⟩ := call_inv h
  rcases hcase with ⟨k, m, os6, hrec, rfl, hm⟩ | ⟨hres, -⟩
  · rcases hm with ⟨y, rfl, hy⟩ | ⟨d', e', rfl, hy⟩
    · cases hy
    · cases hy
      refine serverDied_of ser _ ⟨os0, rfl⟩ me d _ hd os1 _ _ hrun ?_ _ k d' e hrec
      intro o ho
      rcases List.mem_append.1 ho with ho | ho
      · exact others_ok me o _ (h2 o ho)
      · rcases List.mem_cons.1 ho with rfl | ho
        · exact ⟨by simp [request], by simp [request]⟩
        · exact waiting_ok me _ o _ (hw.waiting o ho)
  · cases hres


/-! ## C57 -/

/-- No reply to the call with this tag is in the mailbox of `me`. -/
def NoStale (τ : RecvType B V (GMsg M)) (me : Nat) (tag : Ref) (w : World B V) : Prop :=
  ∀ p, w.procs me = some p → ∀ it ∈ p.box.items ++ p.box.chan, ∀ m, ¬ IsReply τ tag m it

/-- If the operation carries a reply for `n`, then it sends it to the alias `n` and nowhere else, as `GenServer::reply` does
for a caller on another node. -/
def AnswersAlias (ser : V → B) (τ : RecvType B V (GMsg M)) (n : Nat) (o : Op B V) : Prop :=
  ∀ m, Replies ser τ (.loc n) m o →
    (∃ me v, o = .send me (.one (.alias (.loc n))) v) ∨ ∃ rp N b, o = .frame rp N (.send [.alias n] b)

/-- The user items that a step delivers. -/
theorem step_puts (ser : V → B) (w : World B V) (o : Op B V) :
    Acts (fun a => (∀ j it, a = .put j it → isUser it = true → SentBy ser o it) ∧ ∀ j ro k, a = .rbox j ro k → o = .recv j ro k) w
      (step ser w o).1 := by
  by_cases hs : ∃ me ds v, o = .send me ds v
  · obtain ⟨me, ds, v, rfl⟩ := hs
    simp only [step, Op.caller]
    split
    · simp only [Op.exec]
      refine acts_send ?_ ser w ds v ?_ ?_ ?_ ?_ ?_
      · refine ⟨?_, ?_, ?_⟩ <;> intros <;> simp_all
      · simp
      · simp
      · simp
      · refine fun i => ⟨fun j it h => ?_, by simp⟩; cases h; exact fun _ => .serial ..
      · refine fun i => ⟨fun j it h => ?_, by simp⟩; cases h; exact fun _ => .local ..
    · exact .refl _
  · refine (step_acts ser w o).mono ?_
    intro a ha
    refine ⟨?_, by rintro j ro k rfl; exact ha⟩
    rintro j it rfl hit
    cases it <;> simp [isUser] at hit
    · rcases ha with ⟨me, ds, v, rfl⟩ | ⟨rp, n, ts, rfl⟩
      · exact absurd ⟨_, _, _, rfl⟩ hs
      · exact .frame ..
    · obtain ⟨me, ds, rfl⟩ := ha; exact absurd ⟨_, _, _, rfl⟩ hs

theorem noStale_step {τ : RecvType B V (GMsg M)} (ser : V → B) (me n : Nat) (w : World B V) (o : Op B V)
    (hc : ∀ a ro k, o = .recv a ro k → CoherentWith τ ro.τ) (ha : AnswersAlias ser τ n o) (hal : w.aliases n = none) (h : NoStale τ me (.loc n) w) : NoStale τ me (.loc n) (step ser w o).1 := by
  by_cases hr : ∃ m, Replies ser τ (.loc n) m o
  · obtain ⟨m, hr⟩ := hr
    have : (step ser w o).1 = w := by
      rcases ha m hr with ⟨a, v, rfl⟩ | ⟨rp, N, b, rfl⟩
      · simp only [step, Op.caller]
        split
        · simp [Op.exec, send, sendOpt, destLocal, Ref.isLocal, sendLocal, putAlias, Ref.id, hal]
        · rfl
      · simp [step, Op.caller, Op.exec, recvFrame, forwardSend, putAlias, Ref.id, hal]
    rw [this]; exact h
  · have hb : ∀ w' : World B V, NoStale τ me (.loc n) w' ↔
        ∀ b, pmap (·.box) w' me = some b → BoxOk (fun _ _ => True) (fun it : Item B V => ∀ m, ¬ IsReply τ (.loc n) m it) b := by
      intro w'
      constructor
      · intro h b hb
        unfold pmap at hb
        cases hp : w'.procs me with
        | none => rw [hp] at hb; simp at hb
        | some p =>
          rw [hp] at hb; simp at hb; subst hb
          exact ⟨trivial, fun x hx => h p hp x (by simp [hx]), fun x hx => h p hp x (by simp [hx])⟩
      · intro h p hp it hit
        have := h p.box (by simp [pmap, hp])
        rcases List.mem_append.1 hit with hit | hit
        · exact this.2.1 it hit
        · exact this.2.2 it hit
    rw [hb] at h ⊢
    have hboth : Acts (fun a => (∀ j it, a = .put j it → isUser it = true → SentBy ser o it) ∧ ∀ j ro k, a = .rbox j ro k → o = .recv j ro k) w
        (step ser w o).1 := step_puts ser w o
    refine hboth.inv (I := fun w' => ∀ b, pmap (·.box) w' me = some b →
      BoxOk (fun _ _ => True) (fun it : Item B V => ∀ m, ¬ IsReply τ (.loc n) m it) b) h ?_
    intro w' a ha' h'
    refine boxOk_act_at w' a me ?_ h' (fun _ => trivial) ?_ ?_ (fun _ _ _ _ _ => trivial) (fun _ _ _ _ _ => trivial)
      (fun _ _ _ _ => trivial) ?_
    · rintro ro k rfl
      have hk := keepsAt_reads (hc _ ro k (ha'.2 _ _ _ rfl)) (fun x => ∀ m, x ≠ GMsg.callReply (Ref.loc n) m)
      intro mons als it h1 h2
      obtain ⟨-, h4⟩ := hk mons als it h1 (by rintro x hx m rfl; exact h2 m hx)
      exact ⟨trivial, fun m hm => h4 _ hm m rfl⟩
    · rintro it rfl - m hm
      by_cases hu : isUser it = true
      · exact hr ⟨m, it, ha'.1 _ _ rfl hu, hm⟩
      · cases it <;> simp [isUser] at hu <;> exact hm
    · intro id _ m hm; exact hm
    · intro _ _ _ _ _ m hm; exact hm

theorem noStale_run {τ : RecvType B V (GMsg M)} (ser : V → B) (me n : Nat) (os : List (Op B V)) :
    ∀ w, Coherent τ os → (∀ o ∈ os, AnswersAlias ser τ n o) → n < w.nextRef → w.aliases n = none → NoStale τ me (.loc n) w →
    NoStale τ me (.loc n) (run ser w os) := by
  induction os with
  | nil => intro w _ _ _ _ h; exact h
  | cons o os ih =>
    intro w hc ha hlt hal h
    refine ih _ (fun a ro k hm => hc a ro k (.tail _ hm)) (fun x hx => ha x (.tail _ hx)) (Nat.lt_of_lt_of_le hlt (step_mono_counters ser w o).2)
      (alias_gone_run ser n w [o] hlt hal) (noStale_step ser me n w o (by rintro a ro k rfl; exact hc a ro k List.mem_cons_self) (ha o List.mem_cons_self) hal h)

/-- Right after the removal there is no reply left. -/
theorem noStale_remove (τ : RecvType B V (GMsg M)) (ser : V → B) (w : World B V) (hr : Reachable ser w) (me : Nat) (tag : Ref)
    (hrun : running w me = true) : NoStale τ me tag (step ser w (.recv me ⟨GMsg M, τ, isReply tag, false⟩ .remove)).1 := by
  intro p hp it hit m hm
  cases hq : w.procs me with
  | none => simp [running, hq] at hrun
  | some q =>
    have hwf := reach_wf hr me q hq
    obtain ⟨b', h1, h2, h3⟩ := C22_remove_exact τ (isReply tag) q.box hwf
    have h4 := remove_eq τ (isReply tag) false q.box hwf
    rw [h1] at h4
    have hstep : (step ser w (.recv me ⟨GMsg M, τ, isReply tag, false⟩ .remove)).1.procs me = some { q with box := b' } := by
      simp [step, Op.caller, hrun, Op.exec, recv, hq, h1, modBox, modProc, upd]
    rw [hstep] at hp
    simp at hp; subst hp
    have hmem : it ∈ contents b' := by
      simp only [contents, h4.2.1, visible, List.append_nil]
      simpa [h4.2.1] using hit
    rw [h3] at hmem
    have := (List.mem_filter.1 hmem).2
    cases it <;> simp only [IsReply, Reads] at hm <;> simp [asMsg, hm, isReply] at this

theorem names_setMon (r : Ref) (m : PMon) (mons : List (Ref × PMon)) :
    ((dropMon mons r ++ [(r, m)]).find? fun x => x.1 == r).map Prod.snd = some m := by
  have : (dropMon mons r).find? (fun x => x.1 == r) = none := by
    rw [List.find?_eq_none]
    intro x hx
    simp [dropMon] at hx
    simp [hx.2]
  rw [List.find?_append, this]
  simp

theorem keeping_mk {n me : Nat} {w : World B V} {N : Node} {pid : Pid} {nm : NMon} {al : Option Bool} (hn : n = w.nextRef)
    (hnm : ∀ i, nm ≠ .node i) (hu : Unused (.loc n) w) (hb : Bounded w) (hex : exists? w me = true) :
    Keeping n me (act w (.mkMonRem me N (.forProcess (some pid)) nm al)) := by
  subst hn
  have hlow : me < w.nextPid := by
    rcases Nat.lt_or_ge me w.nextPid with h | h
    · exact h
    · simp [exists?, hb me h] at hex
  refine ⟨?_, ?_, ?_, ?_, ?_⟩
  · rw [nextRef_act]; simp
  · rw [nextPid_act]; exact hlow
  · unfold exists?; rw [ex_act]; exact hex
  · intro M i hm
    rw [nodeMons_act] at hm
    simp only [upd_at] at hm
    split at hm
    · rcases List.mem_append.1 hm with hm | hm
      · exact hu.nodes _ _ (List.mem_filter.1 hm).1 rfl
      · simp at hm; exact hnm i hm.symm
    · exact hu.nodes _ _ hm rfl
  · intro b hb'
    rw [box_act] at hb'
    simp only [if_true] at hb'
    cases hw : pmap (fun x => x.box) w me with
    | none => rw [hw] at hb'; simp at hb'
    | some b0 =>
      rw [hw] at hb'; simp at hb'; subst hb'
      obtain ⟨h1, h2, h3⟩ := hu.box me b0 hw
      refine ⟨⟨pid, ?_⟩, ?_, ?_⟩
      · exact names_setMon _ _ _
      · intro x hx N' he; subst he; exact absurd (h2 _ hx) (by simp [reports])
      · intro x hx N' he; subst he; exact absurd (h3 _ hx) (by simp [reports])

theorem keeping_mkDown {n me : Nat} {w : World B V} {d : Dest} {pid : Pid} {e : ExitReason} {al : Option Bool} (hn : n = w.nextRef)
    (hu : Unused (.loc n) w) (hb : Bounded w) (hex : exists? w me = true) :
    Keeping n me (act w (.mkMonDown me d (.forProcess (some pid)) e al)) := by
  subst hn
  have hlow : me < w.nextPid := by
    rcases Nat.lt_or_ge me w.nextPid with h | h
    · exact h
    · simp [exists?, hb me h] at hex
  refine ⟨?_, ?_, ?_, ?_, ?_⟩
  · rw [nextRef_act]; simp
  · rw [nextPid_act]; exact hlow
  · unfold exists?; rw [ex_act]; exact hex
  · intro M i hm
    rw [nodeMons_act] at hm
    exact hu.nodes _ _ hm rfl
  · intro b hb'
    rw [box_act] at hb'
    simp only [if_true] at hb'
    cases hw : pmap (fun x => x.box) w me with
    | none => rw [hw] at hb'; simp at hb'
    | some b0 =>
      rw [hw] at hb'; simp at hb'; subst hb'
      obtain ⟨h1, h2, h3⟩ := hu.box me b0 hw
      refine ⟨⟨pid, names_setMon _ _ _⟩, ?_, ?_⟩
      · intro x hx N' he; subst he; exact absurd (h2 _ hx) (by simp [reports])
      · intro x hx N' he
        rcases List.mem_append.1 hx with hx | hx
        · subst he; exact absurd (h3 _ hx) (by simp [reports])
        · simp at hx; subst hx; cases he

/-- A call to a process of another node keeps a monitor entry that names the process. -/
theorem keeping_callMon (ser : V → B) (os : List (Op B V)) (me i k : Nat) (hrun : running (run ser init os) me = true) :
    Keeping (run ser init os).nextRef me (step ser (run ser init os) (callMon me (.pid (.rem i k)))).1 := by
  generalize hw : run ser init os = w at *
  have hf : Unused (.loc w.nextRef) w := by rw [← hw]; exact run_fresh ser os _ (Nat.le_refl _)
  have hb : Bounded w := by rw [← hw]; exact run_bounded ser os
  have hex : exists? w me = true := by
    unfold running at hrun; unfold exists?; cases h : w.procs me <;> simp_all
  have hconn : ∀ (w' : World B V), Keeping w.nextRef me w' → ∀ N c f, Keeping w.nextRef me (sendFrame (nodeRegister w' N c).1 f (nodeRegister w' N c).2) := by
    intro w' h N c f
    have ho : Others me (.workers N 0 0 : Op B V) := ⟨by simp [Op.caller], by simp⟩
    have h1 := (acts_nodeRegister (nodesOk_op w' (.workers N 0 0)) w' N c).inv (I := Keeping w.nextRef me) h
      (fun _ _ ha h' => keeping_act ho h ha h')
    rw [sendFrame_act]
    exact ⟨h1.1, h1.2, h1.3, h1.4, h1.5⟩
  simp only [callMon, monOp, destLocal, Pid.isLocal, Bool.false_eq_true, if_false]
  simp only [step, Op.caller, hrun, if_true, Op.exec, monitorAlias_eq, monitorInstall]
  have hl : lookupNode (modBox (freshRef w me (some true)) me (setMon · (.loc w.nextRef) (.forProcess (some (.rem i k))))) k = lookupNode w k := by
    have : ∀ w2 : World B V, w2.nodeRegs = w.nodeRegs → lookupNode w2 k = lookupNode w k := by
      intro w2 h; unfold lookupNode; rw [h]
    apply this; simp
  rw [hl]
  cases lookupNode w k with
  | some N => exact hconn _ (keeping_mk (N := N) (pid := .rem i k) (nm := .process me (.pid (.rem i k))) rfl (by simp) hf hb hex) N true _
  | none => exact keeping_mkDown (d := .pid (.rem i k)) (pid := .rem i k) rfl hf hb hex

/-- Sending does not change the monitors of the sender. -/
theorem keeping_step_send (ser : V → B) {n me : Nat} {w : World B V} (h : Keeping n me w) (a : Nat) (ds : Dests) (v : V) :
    Keeping n me (step ser w (.send a ds v)).1 := by
  have ho : Others me (.send (me + 1) ds v : Op B V) := ⟨by simp [Op.caller], by simp⟩
  simp only [step, Op.caller]
  split
  · have : Acts (AtomOf w (.send (me + 1) ds v)) w (send ser w ds v) :=
      acts_send (nodesOk_op _ _) ser w ds v (fun _ _ _ => ⟨_, _, _, rfl⟩) (fun _ => trivial) (fun _ _ => trivial) (fun _ => .inl ⟨_, _, _, rfl⟩) (fun _ => ⟨_, _, rfl⟩)
    exact this.inv (I := Keeping n me) h (fun _ _ ha h' => keeping_act ho h ha h')
  · exact h

/-- C57, servers on another node that are addressed by pid: when a call has timed out, its tag `n` is an alias no longer, and
as long as replies to the call go where `GenServer::reply` sends them (to the alias, in the history since the removal), no
reply to the call is in the mailbox of the caller, now or at any later time. Missing: servers of this node and servers that
are addressed by name (`C57_late_reply_violated`, `C57_named_late_reply_violated`). -/
theorem C57_no_stale_reply_partial (τ : RecvType B V (GMsg M)) (ser : V → B) (os0 ops later : List (Op B V)) (me i k : Nat)
    (message : M) (h : Exec ser me (run ser init os0) (callProg τ me (.pid (.rem i k)) message) ops (.error .timeout)) :
    ∃ os1 os2 os3 n, ops = os1 ++ callMon me (.pid (.rem i k)) :: (os2 ++ .recv me ⟨GMsg M, τ, isReply (.loc n), false⟩ .remove :: os3) ∧
      n = (run ser init (os0 ++ os1)).nextRef ∧ request τ me (.pid (.rem i k)) (.loc n) message ∈ os2 ∧ (∀ o ∈ os3, Others me o) ∧
      (run ser (run ser (run ser init os0) ops) later).aliases n = none ∧
      (Coherent τ (os3 ++ later) → (∀ o ∈ os3 ++ later, AnswersAlias ser τ n o) → NoStale τ me (.loc n) (run ser (run ser (run ser init os0) ops) later)) := by
  obtain ⟨os1, os2, os4, os5, rfl, hrun, h1, h2, hw, hcase⟩ := call_inv h
  have hw1 : run ser init (os0 ++ os1) = run ser (run ser init os0) os1 := run_append ..
  rw [← hw1] at hcase hw hrun
  rw [← hw1] at h
  rw [← hw1]
  have hkeep := keeping_callMon ser (os0 ++ os1) me i k hrun
  generalize hd : Dest.pid (.rem i k) = d at *
  generalize hnn : (run ser init (os0 ++ os1)).nextRef = n at *
  have hfilter : ∀ d e, isAnswer (M := M) (.loc n) (.system (.processDown d (.loc n) e)) = true := by simp [isAnswer]
  rcases hcase with ⟨_, _, _, -, -, ⟨_, -, hx⟩ | ⟨_, _, hm, hx⟩⟩ | ⟨-, os6, os7, os8, rfl, h6, h7, h8, hr6, hr7⟩
  · cases hx
  · cases hx
  · have hr0 : Reachable ser (run ser (init : World B V) (os0 ++ os1)) := ⟨_, rfl⟩
    generalize hw2 : (step ser (run ser init (os0 ++ os1)) (callMon me d)).1 = w2 at *
    have hr2 : Reachable ser w2 := by rw [← hw2]; exact reach_step hr0 _
    have hk3 : Keeping n me (run ser w2 (os2 ++ [request τ me d (.loc n) message])) := by
      rw [run_append]
      have hk := keeping_run_others ser os2 w2 h2 hkeep
      have := keeping_step_send ser (w := run ser w2 os2) hk me (.one d) (τ.box (.call ⟨.loc me, .loc n, !destLocal d⟩ message))
      exact this
    have hk4 := keeping_waits ser hfilter rfl os4 _ hw hk3
    have hk6 := keeping_run_others ser os6 _ h6 hk4
    have e6 : run ser (run ser init os0) (os1 ++ callMon me d :: (os2 ++ request τ me d (.loc n) message :: os4) ++ os6) =
        run ser (run ser (run ser w2 (os2 ++ [request τ me d (.loc n) message])) os4) os6 := by
      rw [List.append_assoc, run_append, ← hw1, List.cons_append, run_cons, hw2, ← run_append, ← run_append]; simp
    generalize hw6 : run ser (run ser (run ser w2 (os2 ++ [request τ me d (.loc n) message])) os4) os6 = w6 at *
    have hr6' : Reachable ser w6 := by rw [← hw6]; exact reach_run (reach_run (reach_run hr2 _) _) _
    rw [e6] at hr6
    have hal := demonitor_alias ser hk6 hr6
    have hlt7 : n < (step ser w6 (.demonitor me (.loc n))).1.nextRef := Nat.lt_of_lt_of_le hk6.lt (step_mono_counters ser w6 _).2
    have e7 : run ser (run ser init os0) (os1 ++ callMon me d :: (os2 ++ request τ me d (.loc n) message :: os4) ++ os6 ++
        .demonitor me (.loc n) :: os7) = run ser (step ser w6 (.demonitor me (.loc n))).1 os7 := by
      rw [run_append, e6, run_cons]
    rw [e7] at hr7
    generalize hw7 : run ser (step ser w6 (.demonitor me (.loc n))).1 os7 = w7 at *
    have hr7' : Reachable ser w7 := by rw [← hw7]; exact reach_run (reach_step hr6' _) _
    have hal7 : w7.aliases n = none := by rw [← hw7]; exact alias_gone_run ser n _ os7 hlt7 hal
    have hlt7' : n < w7.nextRef := by rw [← hw7]; exact Nat.lt_of_lt_of_le hlt7 (run_nextRef_le ..)
    have hst := noStale_remove τ ser w7 hr7' me (.loc n) hr7
    have hal8 := alias_gone_run ser n w7 [.recv me ⟨GMsg M, τ, isReply (.loc n), false⟩ .remove] hlt7' hal7
    have hlt8 : n < (step ser w7 (.recv me ⟨GMsg M, τ, isReply (.loc n), false⟩ .remove)).1.nextRef := Nat.lt_of_lt_of_le hlt7' (step_mono_counters ser w7 _).2
    have eend : run ser (run ser (run ser init os0) (os1 ++ callMon me d :: (os2 ++ request τ me d (.loc n) message :: os4) ++
        (os6 ++ .demonitor me (.loc n) :: (os7 ++ .recv me ⟨GMsg M, τ, isReply (.loc n), false⟩ .remove :: os8)))) later =
        run ser (step ser w7 (.recv me ⟨GMsg M, τ, isReply (.loc n), false⟩ .remove)).1 (os8 ++ later) := by
      have hl : os1 ++ callMon me d :: (os2 ++ request τ me d (.loc n) message :: os4) ++
          (os6 ++ .demonitor me (.loc n) :: (os7 ++ .recv me ⟨GMsg M, τ, isReply (.loc n), false⟩ .remove :: os8)) =
          (os1 ++ callMon me d :: (os2 ++ request τ me d (.loc n) message :: os4) ++ os6 ++ .demonitor me (.loc n) :: os7) ++
            .recv me ⟨GMsg M, τ, isReply (.loc n), false⟩ .remove :: os8 := by simp
      rw [hl, run_append ser (run ser init os0), e7, run_cons, run_append ser _ os8]
    refine ⟨os1, os2 ++ request τ me d (.loc n) message :: os4 ++ (os6 ++ .demonitor me (.loc n) :: os7), os8, n, by simp, hnn.symm, by simp, h8, ?_, ?_⟩
    · rw [eend]; exact alias_gone_run ser n _ _ hlt8 hal8
    · intro hc ha
      rw [eend]; exact noStale_run ser me n _ _ hc ha hlt8 hal8 hst

/-- C57, all servers: the reply that arrived before the timed-out call removes stale replies is removed; right then the
mailbox holds no reply to the call. Missing: replies that arrive later. -/
theorem C57_removed_partial (τ : RecvType B V (GMsg M)) (ser : V → B) (os0 ops : List (Op B V)) (me : Nat) (d : Dest)
    (message : M) (h : Exec ser me (run ser init os0) (callProg τ me d message) ops (.error .timeout)) :
    ∃ os1 os2 os3 n, ops = os1 ++ callMon me d :: (os2 ++ os3) ∧ n = (run ser init (os0 ++ os1)).nextRef ∧
      request τ me d (.loc n) message ∈ os2 ∧ (∀ o ∈ os3, Others me o) ∧
      NoStale τ me (.loc n) (run ser (run ser init os0) (os1 ++ callMon me d :: os2)) := by
  obtain ⟨os1, os2, os4, os5, rfl, hrun, h1, h2, hw, hcase⟩ := call_inv h
  rcases hcase with ⟨_, _, _, -, -, ⟨_, -, hx⟩ | ⟨_, _, hm, hx⟩⟩ | ⟨-, os6, os7, os8, rfl, h6, h7, h8, hr6, hr7⟩
  · cases hx
  · cases hx
  · have hw1 : run ser init (os0 ++ os1) = run ser (run ser init os0) os1 := run_append ..
    generalize hnn : (run ser (run ser init os0) os1).nextRef = n at *
    refine ⟨os1, os2 ++ request τ me d (.loc n) message :: os4 ++ (os6 ++ .demonitor me (.loc n) :: (os7 ++
      [.recv me ⟨GMsg M, τ, isReply (.loc n), false⟩ .remove])), os8, n, by simp, by rw [hw1, hnn], by simp, h8, ?_⟩
    have := noStale_remove τ ser _ (reach_run ⟨os0, rfl⟩ _) me (.loc n) hr7
    have hl : os1 ++ callMon me d :: (os2 ++ request τ me d (.loc n) message :: os4 ++ (os6 ++ .demonitor me (.loc n) :: (os7 ++
          [.recv me ⟨GMsg M, τ, isReply (.loc n), false⟩ .remove]))) =
          (os1 ++ callMon me d :: (os2 ++ request τ me d (.loc n) message :: os4) ++ os6 ++ .demonitor me (.loc n) :: os7) ++
            [.recv me ⟨GMsg M, τ, isReply (.loc n), false⟩ .remove] := by simp
    rw [hl, run_append, run_cons]
    exact this

/-! ## Calls that happen, and what is false of the code -/

/-- What happens when process 1 calls process 2, which answers 8. -/
def callOps : List (Op Nat (GMsg Nat)) :=
  [.monitor 1 (.pid (.loc 2)), .send 1 (.one (.pid (.loc 2))) (.call ⟨.loc 1, .loc 1, false⟩ 7),
   .recv 1 ⟨GMsg Nat, natServer, isAnswer (.loc 1), false⟩ .select, replyOp natServer 2 ⟨.loc 1, .loc 1, false⟩ 8,
   .recv 1 ⟨GMsg Nat, natServer, isAnswer (.loc 1), false⟩ .resume, .demonitor 1 (.loc 1)]

theorem callExec : Exec noSer 1 (run noSer init twoProcs) (callProg natServer 1 (.pid (.loc 2)) 7) callOps (.ok 8) := by
  refine .op rfl (.op rfl (.pending rfl rfl (.env ⟨by simp [Op.caller, replyOp], by simp [replyOp]⟩
    (.got (m := .user (.callReply (.loc 1) 8)) rfl rfl ?_))))
  exact .op rfl (.ret _ _)

/-- The same, but the time is up before the answer. -/
def lateOps : List (Op Nat (GMsg Nat)) :=
  [.monitor 1 (.pid (.loc 2)), .send 1 (.one (.pid (.loc 2))) (.call ⟨.loc 1, .loc 1, false⟩ 7),
   .recv 1 ⟨GMsg Nat, natServer, isAnswer (.loc 1), false⟩ .select, .demonitor 1 (.loc 1),
   .recv 1 ⟨GMsg Nat, natServer, isReply (.loc 1), false⟩ .remove]

theorem lateExec : Exec noSer 1 (run noSer init twoProcs) (callProg natServer 1 (.pid (.loc 2)) 7) lateOps (.error .timeout) :=
  .op rfl (.op rfl (.pending rfl rfl (.elapsed (.op rfl (.op rfl (.ret _ _))))))

/-- C57 is false of the code for servers of the same node: the server answers after the call has timed out, exactly as
`GenServer::reply` does it, and the reply stays in the caller's mailbox. -/
theorem C57_late_reply_violated :
    ∃ (ops : List (Op Nat (GMsg Nat))) (frm : From),
      Exec noSer 1 (run noSer init twoProcs) (callProg natServer 1 (.pid (.loc 2)) 7) ops (.error .timeout) ∧
      .send 1 (.one (.pid (.loc 2))) (.call frm 7) ∈ ops ∧
      ¬ NoStale natServer 1 frm.tag (run noSer (run noSer (run noSer init twoProcs) ops) [replyOp natServer 2 frm 8]) := by
  refine ⟨lateOps, ⟨.loc 1, .loc 1, false⟩, lateExec, by simp [lateOps], ?_⟩
  have : ∃ p, (run noSer (run noSer (run noSer init twoProcs) lateOps) [replyOp natServer 2 ⟨.loc 1, .loc 1, false⟩ 8]).procs 1 = some p ∧
      p.box.chan = [.locl (.callReply (.loc 1) 8)] := ⟨_, rfl, rfl⟩
  obtain ⟨p, h1, h2⟩ := this
  intro h
  exact h p h1 (.locl (.callReply (.loc 1) 8)) (by simp [h2]) 8 rfl

/-- The receives of `callOps` are all for `natServer`. -/
theorem natServer_coherent : Coherent natServer (twoProcs ++ callOps) := by
  intro a o k h b t' x h1
  simp only [twoProcs, callOps, replyOp, List.cons_append, List.nil_append, List.mem_cons, List.not_mem_nil, or_false, reduceCtorEq, false_or] at h
  rcases h with h | h <;> cases h <;> cases h1

theorem noForgery_of {ser : V → B} {τ : RecvType B V (GMsg M)} {os : List (Op B V)}
    (h : ∀ k (hk : k < os.length) n m, Replies ser τ (.loc n) m os[k] → n < (run ser init (os.take k)).nextRef) : NoForgery ser τ os := by
  rintro os1 o os2 n m rfl hr
  have := h os1.length (by simp) n m (by simpa using hr)
  simpa using this

theorem callOps_noForgery : NoForgery noSer natServer (twoProcs ++ callOps) := by
  refine noForgery_of ?_
  rintro k hk n m ⟨it, hs, hr⟩
  match k, hk, hs with
  | 3, _, .local _ _ _ => cases hr
  | 3, _, .serial _ _ _ => cases hr
  | 5, _, .local _ _ _ => cases hr; decide
  | 5, _, .serial _ _ _ => cases hr
  | 6, _, h => nomatch h
  | 7, _, h => nomatch h
  | k + 8, hk, _ => exact absurd hk (by simp [twoProcs, callOps])

example : Replies noSer natServer (.loc 1) 8 (replyOp natServer 2 ⟨.loc 1, .loc 1, false⟩ 8) :=
  ⟨_, .local .., rfl⟩
example := C56_reply natServer noSer twoProcs callOps 1 _ 7 8 natServer_coherent callOps_noForgery callExec
example : callMon 1 (.pid (.loc 2)) ∈ callOps := by simp [callOps, callMon, monOp, destLocal, Pid.isLocal]

/-- Server messages that are their own serialization. -/
def wire : RecvType (GMsg Nat) (GMsg Nat) (GMsg Nat) := ⟨some, some, id, fun _ => rfl⟩
/-- Process 1 of a node that is connected to another one. -/
def connected : List (Op (GMsg Nat) (GMsg Nat)) :=
  [.boot, .nodeStart 1 "a" (addr 1), .connect 1 (.rem "b" (addr 2)), .workers (.rem "b" (addr 2)) 3 3]

/-- What happens when process 1 calls a server on the other node and the time is up. -/
def remoteOps (d : Dest) : List (Op (GMsg Nat) (GMsg Nat)) :=
  [.monitorAlias 1 d true, .send 1 (.one d) (.call ⟨.loc 1, .loc 1, true⟩ 7),
   .recv 1 ⟨GMsg Nat, wire, isAnswer (.loc 1), false⟩ .select, .demonitor 1 (.loc 1),
   .recv 1 ⟨GMsg Nat, wire, isReply (.loc 1), false⟩ .remove]

theorem remoteExec : Exec id 1 (run id init connected) (callProg wire 1 (.pid (.rem 7 1)) 7) (remoteOps (.pid (.rem 7 1))) (.error .timeout) :=
  .op rfl (.op rfl (.pending rfl rfl (.elapsed (.op rfl (.op rfl (.ret _ _))))))

/-- A late reply from the other node, as `GenServer::reply` sends it. -/
def lateFrame : Op (GMsg Nat) (GMsg Nat) := .frame 2 (.rem "b" (addr 2)) (.send [.alias 1] (.callReply (.loc 1) 8))

example : Replies id wire (.loc 1) 8 lateFrame := ⟨_, .frame .., rfl⟩
example : AnswersAlias id wire 1 lateFrame := fun _ _ => .inr ⟨_, _, _, rfl⟩
example : Coherent wire (remoteOps (.pid (.rem 7 1)) ++ [lateFrame]) := by
  intro a o k h
  simp only [remoteOps, lateFrame, List.cons_append, List.nil_append, List.mem_cons, List.not_mem_nil, or_false, reduceCtorEq, false_or] at h
  rcases h with h | h <;> cases h <;> intro b t x h1 h2 <;> cases h1 <;> exact h2
example := C57_no_stale_reply_partial wire id connected _ [lateFrame] 1 7 1 7 remoteExec
example := C57_removed_partial natServer noSer twoProcs _ 1 _ 7 lateExec

theorem remoteNamedExec : Exec id 1 (run id init connected) (callProg wire 1 (.named "s" (.rem "b" (addr 2))) 7)
    (remoteOps (.named "s" (.rem "b" (addr 2)))) (.error .timeout) :=
  .op rfl (.op rfl (.pending rfl rfl (.elapsed (.op rfl (.op rfl (.ret _ _))))))

/-- C57. What the partial theorem assumes of the replies is what `GenServer::reply` does: on the node of the server, the reply to a request
whose tag is a reference `n` of a node `k` and that came with an alias goes to that alias of that node and nowhere else; on the node of the caller it
answers the alias. -/
theorem C57_reply_to_alias (τ : RecvType B V (GMsg M)) (ser : V → B) (srv k n : Nat) (who : Pid) (m : M) :
    (∃ v, replyOp τ srv ⟨who, .rem n k, true⟩ m = .send srv (.one (.alias (.rem n k))) v ∧ τ.cast v = some (.callReply (.rem n k) m)) ∧
    AnswersAlias ser τ n (replyOp τ srv ⟨who, .loc n, true⟩ m : Op B V) :=
  ⟨⟨_, rfl, τ.cast_box _⟩, fun _ _ => .inl ⟨_, _, rfl⟩⟩

/-- C57. The reply to a request that came without an alias (from a process of the same node) goes to the caller. -/
theorem C57_reply_to_caller (τ : RecvType B V (GMsg M)) (srv : Nat) (who : Pid) (r : Ref) (m : M) :
    ∃ v, (replyOp τ srv ⟨who, r, false⟩ m : Op B V) = .send srv (.one (.pid who)) v ∧ τ.cast v = some (.callReply r m) :=
  ⟨_, rfl, τ.cast_box _⟩

/-- C57 is false of the code for servers of other nodes that are addressed by name: `demonitor` returns early when it does not
know the target yet (process.rs:360-362) and leaves the alias, so a late reply is delivered. -/
theorem C57_named_late_reply_violated :
    ∃ (d : Dest) (ops : List (Op (GMsg Nat) (GMsg Nat))),
      Exec id 1 (run id init connected) (callProg wire 1 d 7) ops (.error .timeout) ∧ destLocal d = false ∧
      .send 1 (.one d) (.call ⟨.loc 1, .loc 1, true⟩ 7) ∈ ops ∧
      ¬ NoStale wire 1 (.loc 1) (run id (run id (run id init connected) ops) [lateFrame]) := by
  refine ⟨.named "s" (.rem "b" (addr 2)), _, remoteNamedExec, rfl, by simp [remoteOps], ?_⟩
  have : ∃ p, (run id (run id (run id init connected) (remoteOps (.named "s" (.rem "b" (addr 2))))) [lateFrame]).procs 1 = some p ∧
      p.box.chan = [.aliasOff 1, .remote (.callReply (.loc 1) 8)] := ⟨_, rfl, rfl⟩
  obtain ⟨p, h1, h2⟩ := this
  intro h
  exact h p h1 (.remote (.callReply (.loc 1) 8)) (by simp [h2]) 8 rfl

end Verif.World
