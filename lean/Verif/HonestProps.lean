import Verif.RegistryClientProps
import Verif.WsServerProps
/-!
# Nobody forges calls, if every process minds its own business (C127)

`C116`, `C124` and `C125` assume that the references of calls are not misused anywhere on the node (`NoForgery`, `Unforged`). Here this is derived from what
each process does by itself: it sends requests only by `GenServer::call`, and it replies only to requests that it has received. The type of these messages is
private (gen_server.rs:24), so a program has no other way to send one, except for a reply (`GenServer::reply` is public).
-/
namespace Verif.World
open Verif.Mailbox
variable {B V M S R R' : Type}

/-! ## Specification -/

/-- After `a`, `o` is the request of a call that its process has begun just before by monitoring its destination; `t` is the reference made then. -/
def ByCall (ser : V → B) (τ : RecvType B V (GMsg M)) (a : List (Op B V)) (o : Op B V) (t : Nat) : Prop :=
  ∃ me d a1 a2 y, a = a1 ++ callMon me d :: a2 ∧ running (run ser init a1) me = true ∧ t = (run ser init a1).nextRef ∧ (∀ x ∈ a2, Others me x) ∧
    o = request τ me d (.loc t) y

/-- In the history `a`, the process `q` has received a request from `frm`. -/
def GotRequest (ser : V → B) (τ : RecvType B V (GMsg M)) (q : Nat) (a : List (Op B V)) (frm : From) : Prop :=
  ∃ a1 a2 f st k x, a = a1 ++ .recv q ⟨GMsg M, τ, f, st⟩ k :: a2 ∧ received (run ser init a1) q ⟨GMsg M, τ, f, st⟩ k = some (.user (.call frm x))

/-- After `a`, `o` is a reply to a request from `frm` that its process has received. -/
def ByReply (ser : V → B) (τ : RecvType B V (GMsg M)) (a : List (Op B V)) (o : Op B V) (frm : From) : Prop :=
  ∃ q y, GotRequest ser τ q a frm ∧ o = replyOp τ q frm y

/-- In the history `a`, the reference `t` was made by a call to another node. -/
def CalledAway (ser : V → B) (a : List (Op B V)) (t : Nat) : Prop :=
  ∃ me d a1 a2, a = a1 ++ callMon me d :: a2 ∧ running (run ser init a1) me = true ∧ t = (run ser init a1).nextRef ∧ destLocal d = false

/-- The message is a request or a reply. -/
def GMsg.talks : GMsg M → Prop
  | .call _ _ => True
  | .callReply _ _ => True
  | _ => False

/-- Somebody on this node who is sent the value would take it for a request or a reply. -/
def Talks (ser : V → B) (τ : RecvType B V (GMsg M)) (v : V) : Prop :=
  ∃ g, g.talks ∧ (Reads τ (.locl v) g ∨ Reads τ (.remote (ser v)) g)

/-- What a process does is honest: if it sends a value that would be taken for a request or a reply (`P`), this is the request of a call or a reply to a request
that it has received. -/
def HonestOp (ser : V → B) (τ : RecvType B V (GMsg M)) (P : V → Prop) (a : List (Op B V)) (o : Op B V) : Prop :=
  ∀ me ds v, o = .send me ds v → P v → (∃ t, ByCall ser τ a o t) ∨ ∃ frm, ByReply ser τ a o frm

/-- Other nodes send no requests in the name of a call of this node, and replies only to calls to other nodes. -/
structure HonestFrame (ser : V → B) (τ : RecvType B V (GMsg M)) (a : List (Op B V)) (b : B) : Prop where
  calls : ∀ frm y t, τ.deser b = some (.call frm y) → frm.tag ≠ .loc t
  replies : ∀ y t, τ.deser b = some (.callReply (.loc t) y) → CalledAway ser a t

/-- Everything that happens in the history `G` is honest. -/
structure Honest (ser : V → B) (τ : RecvType B V (GMsg M)) (G : List (Op B V)) : Prop where
  ops : ∀ a o b, G = a ++ o :: b → HonestOp ser τ (Talks ser τ) a o
  frames : ∀ a rp n ts bytes b, G = a ++ .frame rp n (.send ts bytes) :: b → HonestFrame ser τ a bytes

/-- Throughout the history `G`, the destination `d` is the process `s` of this node, or nobody. -/
structure Means (ser : V → B) (G : List (Op B V)) (d : Dest) (s : Nat) : Prop where
  here : destLocal d = true
  is : ∀ a b i, G = a ++ b → targetOf (run ser init a) d = some i → i = s

/-- The process `s` replies to calls only in the part `os` of the history `G`. -/
def RepliesOnlyIn (ser : V → B) (τ : RecvType B V (GMsg M)) (s : Nat) (G hs os : List (Op B V)) : Prop :=
  ∀ a o b t y, G = a ++ o :: b → o.caller = some s → Replies ser τ (.loc t) y o → hs.length ≤ a.length ∧ a.length < hs.length + os.length

/-- Whatever the others do, the program `p` of the process `me` does only what is honest after the history `a`, even if it is cut off. -/
def HonestFrom (ser : V → B) (τ : RecvType B V (GMsg M)) (P : V → Prop) (me : Nat) (a : List (Op B V)) (p : Prog B V R) : Prop :=
  ∀ os1 o os2, Cut ser me (run ser init a) p (os1 ++ o :: os2) → o.caller = some me → HonestOp ser τ P (a ++ os1) o

/-- In the history `G`, the process `q` runs the program `p`, perhaps not to its end, and does nothing else. -/
def RunsIn (ser : V → B) (q : Nat) (p : Prog B V R) (G : List (Op B V)) : Prop :=
  ∃ pre os post, G = pre ++ (os ++ post) ∧ (∀ o ∈ pre, o.caller ≠ some q) ∧ (∀ o ∈ post, o.caller ≠ some q) ∧ Cut ser q (run ser init pre) p os

/-- Every process runs a program that is honest whenever it is started. -/
def HonestPrograms (ser : V → B) (τ : RecvType B V (GMsg M)) (P : V → Prop) (G : List (Op B V)) : Prop :=
  ∀ q, (∃ o ∈ G, o.caller = some q) → ∃ (R : Type) (p : Prog B V R), RunsIn ser q p G ∧ ∀ a, HonestFrom ser τ P q a p

/-- The callbacks of a server are honest; `handle_call` may use the `From` of the request. -/
structure HonestServer (ser : V → B) (τ : RecvType B V (GMsg M)) (P : V → Prop) (srv : Server B V M S) (s : Nat) : Prop where
  cast : ∀ a σ m, HonestFrom ser τ P s a (srv.cast σ m)
  call : ∀ a σ m frm, GotRequest ser τ s a frm → HonestFrom ser τ P s a (srv.call σ m frm)
  info : ∀ a σ m, HonestFrom ser τ P s a (srv.info σ m)
  terminate : ∀ a σ r, HonestFrom ser τ P s a (srv.terminate σ r)

variable {P : V → Prop}

/-! ## Lemmas: histories -/

/-- Where a delivery happened. -/
theorem sent_first (ser : V → B) (i : Nat) (it : Item B V) : ∀ (os : List (Op B V)) (w : World B V), (i, it) ∈ (run ser w os).sent →
    (i, it) ∈ w.sent ∨ ∃ a o b, os = a ++ o :: b ∧ (i, it) ∉ (run ser w a).sent ∧ (i, it) ∈ (step ser (run ser w a) o).1.sent
  | [], _, h => .inl h
  | o :: os, w, h => by
      rcases sent_first ser i it os (step ser w o).1 h with h1 | ⟨a, o', b, rfl, h1, h2⟩
      · by_cases hw : (i, it) ∈ w.sent
        · exact .inl hw
        · exact .inr ⟨[], o, os, rfl, hw, h1⟩
      · exact .inr ⟨o :: a, o', b, rfl, h1, h2⟩

/-- A process that received a request was sent it: by an operation that delivers it to that process. -/
theorem request_sent {ser : V → B} {τ : RecvType B V (GMsg M)} {q : Nat} {a : List (Op B V)} {frm : From} (hc : Coherent τ a) (h : GotRequest ser τ q a frm) :
    ∃ a1 o a2 it x, a = a1 ++ o :: a2 ∧ SentBy ser o it ∧ Reads τ it (.call frm x) ∧ isUser it = true ∧
      (q, it) ∉ (run ser init a1).sent ∧ (q, it) ∈ (step ser (run ser init a1) o).1.sent := by
  obtain ⟨a1, a2, f, st, k, x, rfl, hr⟩ := h
  have hread : Readable τ (run ser init a1) := readable_run ser _ fun i o k hm => hc i o k (List.mem_append_left _ hm)
  obtain ⟨it, hit, hu, hrd⟩ := received_reads hread hr
  rcases sent_first ser q it a1 init hit with h0 | ⟨b1, o, b2, rfl, h1, h2⟩
  · simp [init] at h0
  · refine ⟨b1, o, b2 ++ .recv q ⟨GMsg M, τ, f, st⟩ k :: a2, it, x, by simp, ?_, hrd, hu, h1, h2⟩
    rcases sent_user_step ser _ o q it hu h2 with h3 | h3
    · exact absurd h3 h1
    · exact h3

theorem callMon_after {ser : V → B} {a a2 : List (Op B V)} {me : Nat} {d : Dest} (hr : running (run ser init a) me = true) :
    (run ser (init : World B V) a).nextRef < (run ser init (a ++ callMon me d :: a2)).nextRef := by
  have := C56_tags_distinct ser a (a ++ callMon me d :: a2) me d hr ⟨a2, by simp⟩
  have h2 : (run ser (init : World B V) a).nextRef ≤ (run ser init (a ++ callMon me d :: a2)).nextRef := by
    rw [run_append ser init a]; exact run_nextRef_le ..
  omega

/-- A reference is made by one call. -/
theorem callMon_unique {ser : V → B} {G a a' b b' : List (Op B V)} {me me' : Nat} {d d' : Dest} (h : G = a ++ callMon me d :: b)
    (h' : G = a' ++ callMon me' d' :: b') (hr : running (run ser init a) me = true) (hr' : running (run ser init a') me' = true)
    (heq : (run ser init a).nextRef = (run ser init a').nextRef) : a = a' ∧ me = me' ∧ d = d' ∧ b = b' := by
  have key : ∀ {a a' b b' : List (Op B V)} {me me' : Nat} {d d' : Dest}, G = a ++ callMon me d :: b → G = a' ++ callMon me' d' :: b' →
      running (run ser init a) me = true → a.length < a'.length → (run ser init a).nextRef < (run ser init a').nextRef := by
    intro a a' b b' me me' d d' h h' hr hlt
    have h1 : a ++ [callMon me d] <+: a' := List.prefix_of_prefix_length_le (l₃ := G) ⟨b, by rw [h]; simp⟩ ⟨_, h'.symm⟩ (by simp; omega)
    obtain ⟨Y, rfl⟩ := h1
    have := callMon_after (a2 := Y) (d := d) hr
    simpa using this
  rcases Nat.lt_trichotomy a.length a'.length with hlt | he | hlt
  · have := key h h' hr hlt; omega
  · obtain ⟨rfl, h5⟩ := List.append_inj (h.symm.trans h') he
    simp only [List.cons.injEq] at h5
    obtain ⟨h6, rfl⟩ := h5
    refine ⟨rfl, ?_⟩
    unfold callMon at h6
    by_cases h1 : destLocal d = true <;> by_cases h2 : destLocal d' = true <;> simp [h1, h2, monOp] at h6 <;> simp [h6]
  · have := key h' h hr' hlt; omega

theorem talks_of {ser : V → B} {τ : RecvType B V (GMsg M)} {me : Nat} {ds : Dests} {v : V} {it : Item B V} {g : GMsg M} (hs : SentBy ser (.send me ds v) it)
    (hr : Reads τ it g) (hg : g.talks) : Talks ser τ v := by
  cases hs with
  | «local» => exact ⟨g, hg, .inl hr⟩
  | serial => exact ⟨g, hg, .inr hr⟩

/-- What is sent reads as a request only if it is honest. -/
theorem Honest.byCall {ser : V → B} {τ : RecvType B V (GMsg M)} {G a b : List (Op B V)} {o : Op B V} {it : Item B V} {frm : From} {y : M} {t : Nat}
    (hf : Faithful ser τ) (hh : Honest ser τ G) (hG : G = a ++ o :: b) (hs : SentBy ser o it) (hr : Reads τ it (.call frm y)) (ht : frm.tag = .loc t) :
    ByCall ser τ a o t := by
  by_cases hsend : ∃ me ds v, o = .send me ds v
  · obtain ⟨me, ds, v, rfl⟩ := hsend
    rcases hh.ops a _ b hG me ds v rfl (talks_of hs hr trivial) with ⟨t', me', d, a1, a2, y', h1, h2, h3, h4, h5⟩ | ⟨frm', q, y', h1, h2⟩
    · rw [h5] at hs
      have := sentBy_read hf hs hr
      cases this; cases ht
      exact ⟨me', d, a1, a2, _, h1, h2, h3, h4, h5⟩
    · rw [h2] at hs
      have := sentBy_read hf hs hr
      cases this
  · cases hs with
    | frame rp n ts bytes => exact absurd ht ((hh.frames a rp n ts bytes b hG).calls frm y t hr)
    | _ => exact absurd ⟨_, _, _, rfl⟩ hsend

theorem Honest.byReply {ser : V → B} {τ : RecvType B V (GMsg M)} {G a b : List (Op B V)} {o : Op B V} {y : M} {t : Nat}
    (hf : Faithful ser τ) (hh : Honest ser τ G) (hG : G = a ++ o :: b) (hr : Replies ser τ (.loc t) y o) :
    (∃ q frm y', GotRequest ser τ q a frm ∧ frm.tag = .loc t ∧ o = replyOp τ q frm y') ∨ CalledAway ser a t := by
  obtain ⟨it, hs, hr⟩ := hr
  by_cases hsend : ∃ me ds v, o = .send me ds v
  · obtain ⟨me, ds, v, rfl⟩ := hsend
    rcases hh.ops a _ b hG me ds v rfl (talks_of hs hr trivial) with ⟨t', me', d, a1, a2, y', h1, h2, h3, h4, h5⟩ | ⟨frm', q, y', h1, h2⟩
    · rw [h5] at hs
      have := sentBy_read hf hs hr
      cases this
    · rw [h2] at hs
      have := sentBy_read hf hs hr
      injection this with h3 h4
      exact .inl ⟨q, frm', y', h1, h3.symm, h2⟩
  · cases hs with
    | frame rp n ts bytes => exact .inr ((hh.frames a rp n ts bytes b hG).replies y t hr)
    | _ => exact absurd ⟨_, _, _, rfl⟩ hsend

theorem coherent_part {τ : RecvType B V (GMsg M)} {a b : List (Op B V)} (h : Coherent τ (a ++ b)) : Coherent τ a :=
  fun i o k hm => h i o k (List.mem_append_left _ hm)

/-- A request for `t` was sent before it is answered, by the call that made `t`. -/
theorem Honest.origin {ser : V → B} {τ : RecvType B V (GMsg M)} {G a b : List (Op B V)} {q : Nat} {frm : From} {t : Nat} (hf : Faithful ser τ) (hcoh : Coherent τ G)
    (hh : Honest ser τ G) (hG : G = a ++ b) (hg : GotRequest ser τ q a frm) (ht : frm.tag = .loc t) :
    ∃ a1 o a2 it, a = a1 ++ o :: a2 ∧ ByCall ser τ a1 o t ∧ isUser it = true ∧ (q, it) ∉ (run ser init a1).sent ∧ (q, it) ∈ (step ser (run ser init a1) o).1.sent := by
  subst hG
  obtain ⟨a1, o, a2, it, x, rfl, h1, h2, h3, h4, h5⟩ := request_sent (coherent_part hcoh) hg
  exact ⟨a1, o, a2, it, rfl, hh.byCall hf (b := a2 ++ b) (by simp) h1 h2 ht, h3, h4, h5⟩

/-- A request goes to the process that its destination means. -/
theorem request_to {ser : V → B} {τ : RecvType B V (GMsg M)} {w : World B V} {me : Nat} {d : Dest} {tag : Ref} {y : M} {q : Nat} {it : Item B V} (hd : destLocal d = true)
    (hu : isUser it = true) (h1 : (q, it) ∉ w.sent) (h2 : (q, it) ∈ (step ser w (request τ me d tag y)).1.sent) : targetOf w d = some q := by
  simp only [request, step, Op.caller] at h2
  split at h2
  · simp only [Op.exec] at h2
    obtain ⟨D, hD, hn, -⟩ := C38_send_one ser w d (τ.box (.call ⟨.loc me, tag, !destLocal d⟩ y)) hd
    rw [hD.sent] at h2
    rcases List.mem_append.1 h2 with h2 | h2
    · exact absurd h2 h1
    · have := hn q
      by_cases ht : targetOf w d = some q
      · exact ht
      · rw [if_neg ht, userCount, List.length_eq_zero_iff, List.filter_eq_nil_iff] at this
        exact absurd (this _ h2) (by simp [hu])
  · exact absurd h2 h1

/-! ## Lemmas: programs -/

theorem cut_ret_inv {ser : V → B} {me : Nat} {w : World B V} {r : R} {os : List (Op B V)} (h : Cut ser me w (.ret r : Prog B V R) os) : ∀ o ∈ os, Others me o := by
  generalize hp : (Prog.ret r : Prog B V R) = p at h
  induction h with
  | here => simp
  | env ho _ ih => intro x hx; rcases List.mem_cons.1 hx with rfl | hx; exact ho; exact ih hp x hx
  | _ => cases hp

theorem cut_wait_inv {ser : V → B} {me : Nat} {w : World B V} {kind : RecvKind} {o : RecvOp B V} {t : Option (Prog B V R)}
    {k : Msg o.T → Prog B V R} {os : List (Op B V)} (h : Cut ser me w (.wait kind o t k) os) :
    ∃ os1 os2, os = os1 ++ os2 ∧ (∀ x ∈ os1, Waiting me o x) ∧
      (os2 = [] ∨ (∃ kind m os3, received (run ser w os1) me o kind = some m ∧ os2 = .recv me o kind :: os3 ∧
          Cut ser me (step ser (run ser w os1) (.recv me o kind)).1 (k m) os3) ∨
       ∃ p, t = some p ∧ Cut ser me (run ser w os1) p os2) := by
  generalize hp : (Prog.wait kind o t k : Prog B V R) = p at h
  induction h generalizing kind with
  | here => exact ⟨[], [], rfl, by simp, .inl rfl⟩
  | @env w p o' os ho _ ih =>
    obtain ⟨os1, os2, h1, h2, h3⟩ := ih hp
    refine ⟨o' :: os1, os2, by rw [h1]; rfl, ?_, h3⟩
    intro x hm; rcases List.mem_cons.1 hm with rfl | hm
    · exact .inl ho
    · exact h2 x hm
  | got hr hm hx _ => cases hp; exact ⟨[], _, rfl, by simp, .inr (.inl ⟨_, _, _, hm, rfl, hx⟩)⟩
  | @pending w kind' o' t' k' os hr hn _ ih =>
    cases hp
    obtain ⟨os1, os2, h1, h2, h3⟩ := ih rfl
    refine ⟨.recv me _ kind' :: os1, os2, by rw [h1]; rfl, ?_, h3⟩
    intro x hm; rcases List.mem_cons.1 hm with rfl | hm
    · exact .inr ⟨_, rfl⟩
    · exact h2 x hm
  | elapsed hx _ => cases hp; exact ⟨[], _, rfl, by simp, .inr (.inr ⟨_, rfl, hx⟩)⟩
  | _ => cases hp

theorem cut_bind_inv {ser : V → B} {me : Nat} {w : World B V} {p : Prog B V R} {k : R → Prog B V R'} {os : List (Op B V)}
    (h : Cut ser me w (p.bind k) os) :
    Cut ser me w p os ∨ ∃ os1 os2 x, os = os1 ++ os2 ∧ Exec ser me w p os1 x ∧ Cut ser me (run ser w os1) (k x) os2 := by
  generalize hq : p.bind k = q at h
  induction h generalizing p with
  | here => exact .inl (.here _ _)
  | env ho hx ih =>
    rcases ih hq with h | ⟨os1, os2, x, rfl, h1, h2⟩
    · exact .inl (.env ho h)
    · exact .inr ⟨_ :: os1, os2, x, rfl, .env ho h1, h2⟩
  | op hr hx ih =>
    cases p with
    | ret x => exact .inr ⟨[], _, x, rfl, .ret _ _, by rw [bind_ret] at hq; rw [hq]; exact .op hr hx⟩
    | op o c =>
      rw [bind_op, Prog.op.injEq] at hq
      obtain ⟨rfl, rfl⟩ := hq
      rcases ih rfl with h | ⟨os1, os2, x, rfl, h1, h2⟩
      · exact .inl (.op hr h)
      · exact .inr ⟨_ :: os1, os2, x, rfl, .op hr h1, h2⟩
    | wait kind o t c => rw [bind_wait] at hq; cases hq
  | got hr hm hx ih =>
    cases p with
    | ret x => exact .inr ⟨[], _, x, rfl, .ret _ _, by rw [bind_ret] at hq; rw [hq]; exact .got hr hm hx⟩
    | op o c => rw [bind_op] at hq; cases hq
    | wait kind o t c =>
      rw [bind_wait, Prog.wait.injEq] at hq
      obtain ⟨rfl, rfl, -, hk⟩ := hq
      simp at hk; subst hk
      rcases ih rfl with h | ⟨os1, os2, x, rfl, h1, h2⟩
      · exact .inl (.got hr hm h)
      · exact .inr ⟨_ :: os1, os2, x, rfl, .got hr hm h1, h2⟩
  | pending hr hm hx ih =>
    cases p with
    | ret x => exact .inr ⟨[], _, x, rfl, .ret _ _, by rw [bind_ret] at hq; rw [hq]; exact .pending hr hm hx⟩
    | op o c => rw [bind_op] at hq; cases hq
    | wait kind o t c =>
      rw [bind_wait, Prog.wait.injEq] at hq
      obtain ⟨rfl, rfl, ht, hk⟩ := hq
      simp at hk; subst hk
      rcases ih (p := .wait .resume o t c) (by rw [bind_wait, ht]) with h | ⟨os1, os2, x, rfl, h1, h2⟩
      · exact .inl (.pending hr hm h)
      · exact .inr ⟨_ :: os1, os2, x, rfl, .pending hr hm h1, h2⟩
  | elapsed hx ih =>
    cases p with
    | ret x => exact .inr ⟨[], _, x, rfl, .ret _ _, by rw [bind_ret] at hq; rw [hq]; exact .elapsed hx⟩
    | op o c => rw [bind_op] at hq; cases hq
    | wait kind o t c =>
      rw [bind_wait, Prog.wait.injEq] at hq
      obtain ⟨rfl, rfl, ht, -⟩ := hq
      cases t with
      | none => simp at ht
      | some p0 =>
        simp at ht
        rcases ih ht with h | ⟨os1, os2, x, rfl, h1, h2⟩
        · exact .inl (.elapsed h)
        · exact .inr ⟨os1, os2, x, rfl, .elapsed h1, h2⟩

theorem exec_cut {ser : V → B} {me : Nat} {w : World B V} {p : Prog B V R} {os : List (Op B V)} {r : R} (h : Exec ser me w p os r) : Cut ser me w p os := by
  induction h with
  | ret => exact .here _ _
  | env ho _ ih => exact .env ho ih
  | op hr _ ih => exact .op hr ih
  | got hr hm _ ih => exact .got hr hm ih
  | pending hr hm _ ih => exact .pending hr hm ih
  | elapsed _ ih => exact .elapsed ih

/-! ## Honest programs -/

/-- An operation that sends nothing that would be taken for a request or a reply. -/
def SendsNone (P : V → Prop) (o : Op B V) : Prop := ∀ me ds v, o = .send me ds v → ¬ P v

theorem SendsNone.honest {ser : V → B} {τ : RecvType B V (GMsg M)} {o : Op B V} (h : SendsNone P o) (a : List (Op B V)) : HonestOp ser τ P a o :=
  fun me ds v ho hP => absurd hP (h me ds v ho)

/-- What is sent of the server's type is taken for what it is. -/
def Telling (τ : RecvType B V (GMsg M)) (P : V → Prop) : Prop := ∀ g, P (τ.box g) → g.talks

theorem talks_telling {ser : V → B} {τ : RecvType B V (GMsg M)} (hf : Faithful ser τ) : Telling τ (Talks ser τ) := by
  rintro g ⟨g', h, hr | hr⟩
  · cases sentBy_read hf (.local 0 (.many []) _) hr; exact h
  · cases sentBy_read hf (.serial 0 (.many []) _) hr; exact h

theorem Telling.cast {τ : RecvType B V (GMsg M)} (h : Telling τ P) {me : Nat} {ds : Dests} {m : M} : SendsNone P (.send me ds (τ.box (.cast m)) : Op B V) := by
  intro _ _ _ e hP; cases e; exact h _ hP

theorem HonestOp.weaken {ser : V → B} {τ : RecvType B V (GMsg M)} {P' : V → Prop} {a : List (Op B V)} {o : Op B V} (h : HonestOp ser τ P a o)
    (hP : ∀ v, P' v → P v) : HonestOp ser τ P' a o := fun me ds v ho hv => h me ds v ho (hP v hv)

theorem honest_ret {ser : V → B} {τ : RecvType B V (GMsg M)} {me : Nat} {a : List (Op B V)} (r : R) : HonestFrom ser τ P me a (.ret r : Prog B V R) :=
  fun _ o _ h hc => absurd hc (cut_ret_inv h o (by simp)).1

theorem honest_op {ser : V → B} {τ : RecvType B V (GMsg M)} {me : Nat} {a : List (Op B V)} {o : Op B V} {k : Res → Prog B V R}
    (ho : ∀ e, (∀ x ∈ e, Others me x) → running (run ser init (a ++ e)) me = true → HonestOp ser τ P (a ++ e) o)
    (hk : ∀ e, (∀ x ∈ e, Others me x) → running (run ser init (a ++ e)) me = true →
      HonestFrom ser τ P me (a ++ (e ++ [o])) (k (step ser (run ser init (a ++ e)) o).2)) : HonestFrom ser τ P me a (.op o k) := by
  intro os1 x os2 h hc
  rcases cut_op_inv h with h | ⟨e, z, he, h1, hr, hx⟩
  · exact absurd hc (h x (by simp)).1
  · rw [← run_append] at hr hx
    obtain ⟨b, rfl, hb⟩ := append_past he.symm (fun hm => (h1 x hm).1 hc)
    cases b with
    | nil => simp at hb; rw [← hb.1, List.append_nil]; exact ho e h1 hr
    | cons y b =>
      simp at hb
      obtain ⟨rfl, rfl⟩ := hb
      have e1 : run ser init (a ++ (e ++ [o])) = (step ser (run ser init (a ++ e)) o).1 := by rw [← List.append_assoc, run_append ser init (a ++ e)]; rfl
      have := hk e h1 hr b x os2 (by rw [e1]; exact hx) hc
      simpa using this

theorem honest_wait {ser : V → B} {τ : RecvType B V (GMsg M)} {me : Nat} {a : List (Op B V)} {kind : RecvKind} {o : RecvOp B V} {t : Option (Prog B V R)}
    {k : Msg o.T → Prog B V R}
    (hk : ∀ e kind' m, (∀ x ∈ e, Waiting me o x) → received (run ser init (a ++ e)) me o kind' = some m → HonestFrom ser τ P me (a ++ (e ++ [.recv me o kind'])) (k m))
    (ht : ∀ e p, (∀ x ∈ e, Waiting me o x) → t = some p → HonestFrom ser τ P me (a ++ e) p) : HonestFrom ser τ P me a (.wait kind o t k) := by
  intro os1 x os2 h hc
  have hrecv : ∀ kind' (a : List (Op B V)), HonestOp ser τ P a (.recv me o kind') := fun kind' a => (show SendsNone P _ by intro _ _ _ h; cases h).honest a
  obtain ⟨e, z, he, h1, hx⟩ := cut_wait_inv h
  by_cases hm : x ∈ e
  · rcases h1 x hm with h | ⟨k', rfl⟩
    · exact absurd hc h.1
    · exact hrecv _ _
  · obtain ⟨b, rfl, hb⟩ := append_past he.symm hm
    rcases hx with rfl | ⟨kind', m, os3, hr, rfl, hx⟩ | ⟨p, hp, hx⟩
    · simp at hb
    · cases b with
      | nil => simp at hb; rw [← hb.1]; exact hrecv _ _
      | cons y b =>
        simp at hb
        obtain ⟨rfl, rfl⟩ := hb
        rw [← run_append] at hr hx
        have e1 : run ser init (a ++ (e ++ [.recv me o kind'])) = (step ser (run ser init (a ++ e)) (.recv me o kind')).1 := by
          rw [← List.append_assoc, run_append ser init (a ++ e)]; rfl
        have := hk e kind' m h1 hr b x os2 (by rw [e1]; exact hx) hc
        simpa using this
    · rw [← run_append] at hx
      rw [hb] at hx
      have := ht e p h1 hp b x os2 hx hc
      simpa using this

theorem honest_bind {ser : V → B} {τ : RecvType B V (GMsg M)} {me : Nat} {a : List (Op B V)} {p : Prog B V R} {k : R → Prog B V R'}
    (hp : HonestFrom ser τ P me a p) (hk : ∀ os r, Exec ser me (run ser init a) p os r → HonestFrom ser τ P me (a ++ os) (k r)) :
    HonestFrom ser τ P me a (p.bind k) := by
  intro os1 x os2 h hc
  rcases cut_bind_inv h with h | ⟨e, z, r, he, h1, hx⟩
  · exact hp _ _ _ h hc
  · by_cases hl : os1.length < e.length
    · -- `x` is part of the first program
      have : ∃ e', e = os1 ++ x :: e' := by
        have h2 : os1 ++ [x] <+: e := List.prefix_of_prefix_length_le (l₃ := os1 ++ x :: os2) ⟨os2, by simp⟩ ⟨z, he.symm⟩ (by simp; omega)
        obtain ⟨e', rfl⟩ := h2
        exact ⟨e', by simp⟩
      obtain ⟨e', rfl⟩ := this
      exact hp _ _ _ (exec_cut h1) hc
    · have h2 : e <+: os1 := List.prefix_of_prefix_length_le (l₃ := os1 ++ x :: os2) ⟨z, he.symm⟩ ⟨_, rfl⟩ (by omega)
      obtain ⟨b, rfl⟩ := h2
      rw [List.append_assoc] at he
      have hz := List.append_cancel_left he
      subst hz
      rw [← run_append] at hx
      have := hk e r h1 b x os2 hx hc
      simpa using this

/-- A request of a call is honest. -/
theorem request_honest {ser : V → B} {τ : RecvType B V (GMsg M)} {me : Nat} {d : Dest} {a a2 : List (Op B V)} {y : M}
    (hr : running (run ser init a) me = true) (ha : ∀ x ∈ a2, Others me x) :
    HonestOp ser τ P (a ++ callMon me d :: a2) (request τ me d (.loc (run ser init a).nextRef) y) :=
  fun _ _ _ _ _ => .inl ⟨_, me, d, a, a2, y, rfl, hr, rfl, ha, rfl⟩

theorem GotRequest.more {ser : V → B} {τ : RecvType B V (GMsg M)} {q : Nat} {a b : List (Op B V)} {frm : From} (h : GotRequest ser τ q a frm) : GotRequest ser τ q (a ++ b) frm := by
  obtain ⟨a1, a2, f, st, k, x, rfl, hr⟩ := h
  exact ⟨a1, a2 ++ b, f, st, k, x, by simp, hr⟩

/-- A reply to a request that was received is honest. -/
theorem reply_honest {ser : V → B} {τ : RecvType B V (GMsg M)} {s : Nat} {a : List (Op B V)} {frm : From} {y : M} (hg : GotRequest ser τ s a frm) :
    HonestOp ser τ P a (replyOp τ s frm y) := fun _ _ _ _ _ => .inr ⟨frm, s, y, hg, rfl⟩

theorem callMon_none (me : Nat) (d : Dest) : SendsNone P (callMon me d : Op B V) := by
  intro _ _ _ hs; unfold callMon at hs; split at hs <;> cases hs

theorem honest_plain {ser : V → B} {τ : RecvType B V (GMsg M)} {me : Nat} {a : List (Op B V)} {o : Op B V} {k : Res → Prog B V R} (ho : SendsNone P o)
    (hk : ∀ a r, HonestFrom ser τ P me a (k r)) : HonestFrom ser τ P me a (.op o k) :=
  honest_op (fun _ _ _ => ho.honest _) fun _ _ _ => hk _ _

theorem honest_finish {ser : V → B} {τ : RecvType B V (GMsg M)} {srv : Server B V M S} {s : Nat} (hh : HonestServer ser τ P srv s) (a : List (Op B V)) (σ : S)
    (r : ExitReason) (done : List (Record M S)) : HonestFrom ser τ P s a (finishServer srv s σ r done) :=
  honest_bind (hh.terminate a σ r) fun _ _ _ => honest_plain (by intro _ _ _ h; cases h) fun _ _ =>
    honest_plain (by intro _ _ _ h; cases h) fun _ _ => honest_ret _

theorem honest_after {ser : V → B} {τ : RecvType B V (GMsg M)} {srv : Server B V M S} {s : Nat} (hh : HonestServer ser τ P srv s) (a : List (Op B V)) (c : Record M S)
    (k : Prog B V (Log M S)) (hk : HonestFrom ser τ P s a k) : HonestFrom ser τ P s a (afterCallback srv s c k) := by
  unfold afterCallback
  split
  · exact honest_bind hk fun _ _ _ => honest_ret _
  · exact honest_finish hh _ _ _ _

/-! ## Theorems -/

/-- **C127**: in a node where every process minds its own business, no reference is forged. -/
theorem C127_no_forgery (ser : V → B) (τ : RecvType B V (GMsg M)) (G : List (Op B V)) (hf : Faithful ser τ) (hcoh : Coherent τ G) (hh : Honest ser τ G) : NoForgery ser τ G := by
  intro a o b t y hG hr
  rcases hh.byReply hf hG hr with ⟨q, frm, y', hg, ht, -⟩ | ⟨me, d, a1, a2, rfl, hrun, rfl, -⟩
  · obtain ⟨a1, o', a2, it, rfl, ⟨me, d, b1, b2, y'', rfl, hrun, rfl, -⟩, -⟩ := hh.origin hf hcoh (b := o :: b) hG hg ht
    have := callMon_after (a2 := b2 ++ o' :: a2) (d := d) hrun
    simpa using this
  · exact callMon_after hrun

theorem unforged_core {ser : V → B} {τ : RecvType B V (GMsg M)} {s : Nat} {G hs os pre ops A p2 r1 : List (Op B V)} {me : Nat} {d : Dest} {m : M} {t : Nat}
    (hf : Faithful ser τ) (hcoh : Coherent τ G) (hh : Honest ser τ G) (hd : Means ser G d s) (hs' : RepliesOnlyIn ser τ s G hs os)
    (hG2 : G = A ++ callMon me d :: (p2 ++ request τ me d (.loc t) m :: r1)) (hrun : running (run ser init A) me = true) (ht : t = (run ser init A).nextRef)
    (hp2 : ∀ o ∈ p2, Others me o) (hA : pre.length ≤ A.length) (hops : A.length + (p2.length + 1) < pre.length + ops.length) :
    Unforged ser τ s G hs os pre ops me t := by
  -- what is known about a call with this reference
  have one : ∀ {a o b}, G = a ++ o :: b → ByCall ser τ a o t → ∃ a2 y, a = A ++ callMon me d :: a2 ∧ (∀ x ∈ a2, Others me x) ∧ o = request τ me d (.loc t) y := by
    rintro a o b hG ⟨me', d', a1, a2, y, rfl, hr, ht', ha2, rfl⟩
    have hG' : G = a1 ++ callMon me' d' :: (a2 ++ request τ me' d' (.loc t) y :: b) := by rw [hG]; simp
    obtain ⟨h1, h2, h3, -⟩ := callMon_unique hG' hG2 hr hrun (by rw [← ht, ← ht'])
    subst h1 h2 h3
    exact ⟨a2, y, rfl, ha2, rfl⟩
  refine ⟨?_, ?_⟩
  · intro a o b it frm y hG hsb hrd htag
    obtain ⟨a2, y', rfl, ha2, rfl⟩ := one hG (hh.byCall hf hG hsb hrd htag)
    refine ⟨rfl, by simp; omega, ?_⟩
    have h3 : a2 ++ request τ me d (.loc t) y' :: b = p2 ++ request τ me d (.loc t) m :: r1 := by
      rw [hG2] at hG
      have := List.append_cancel_left (hG.trans (List.append_assoc ..))
      simpa using this.symm
    obtain ⟨z, hz, hz2⟩ := append_past h3.symm (fun hm => (hp2 _ hm).1 rfl)
    cases z with
    | nil =>
      rw [List.append_nil] at hz
      subst hz
      simp
      omega
    | cons z0 z =>
      simp at hz2
      refine absurd rfl (ha2 (request τ me d (.loc t) m) (by rw [hz, hz2.1]; simp)).1
  · intro a o b y hG hrep
    rcases hh.byReply hf hG hrep with ⟨q, frm, y', hg, htag, rfl⟩ | ⟨me', d', a1, a2, rfl, hr, ht', hd'⟩
    · obtain ⟨a1, o', a2, it, rfl, hby, hu, hn1, hn2⟩ := hh.origin hf hcoh hG hg htag
      obtain ⟨a3, y'', -, -, rfl⟩ := one (b := a2 ++ replyOp τ q frm y' :: b) (by rw [hG]; simp) hby
      have hq := hd.is a1 _ q (by rw [hG, List.append_assoc]) (request_to hd.here hu hn1 hn2)
      subst hq
      exact ⟨rfl, hs' _ _ b t y hG rfl hrep⟩
    · have hG' : G = a1 ++ callMon me' d' :: (a2 ++ o :: b) := by rw [hG]; simp
      obtain ⟨-, -, h3, -⟩ := callMon_unique hG' hG2 hr hrun (by rw [← ht, ← ht'])
      rw [h3, hd.here] at hd'; cases hd'

theorem callMon_caller (me : Nat) (d : Dest) : (callMon me d : Op B V).caller = some me := by unfold callMon; split <;> rfl

/-- In every execution of the program, each monitoring of `d` is the beginning of a call. -/
def Follows (ser : V → B) (τ : RecvType B V (GMsg M)) (me : Nat) (d : Dest) (p : Prog B V R) : Prop :=
  ∀ w os1 os2 r, Exec ser me w p (os1 ++ callMon me d :: os2) r → running (run ser w os1) me = true ∧
    ∃ p2 y p3, os2 = p2 ++ request τ me d (.loc (run ser w os1).nextRef) y :: p3 ∧ ∀ o ∈ p2, Others me o

theorem follows_ret {ser : V → B} {τ : RecvType B V (GMsg M)} {me : Nat} {d : Dest} (r : R) : Follows ser τ me d (.ret r : Prog B V R) :=
  fun _ _ _ _ h => absurd (callMon_caller me d) ((exec_ret_inv h).2 _ (by simp)).1

theorem follows_op {ser : V → B} {τ : RecvType B V (GMsg M)} {me : Nat} {d : Dest} {o : Op B V} {k : Res → Prog B V R} (ho : o ≠ callMon me d)
    (hk : ∀ x, Follows ser τ me d (k x)) : Follows ser τ me d (.op o k) := by
  intro w os1 os2 r h
  obtain ⟨e, z, he, h1, -, hx⟩ := exec_op_inv h
  obtain ⟨b, rfl, hb⟩ := append_past he.symm (fun hm => (h1 _ hm).1 (callMon_caller me d))
  cases b with
  | nil => simp at hb; exact absurd hb.1 ho
  | cons y b =>
    simp at hb
    obtain ⟨rfl, rfl⟩ := hb
    have := hk _ _ _ _ _ hx
    rw [run_append, run_cons]
    exact this

theorem follows_bind {ser : V → B} {τ : RecvType B V (GMsg M)} {me : Nat} {d : Dest} {p : Prog B V R} {k : R → Prog B V R'} (hp : Follows ser τ me d p)
    (hk : ∀ x, Follows ser τ me d (k x)) : Follows ser τ me d (p.bind k) := by
  intro w os1 os2 r h
  obtain ⟨e, z, x, he, h1, hx⟩ := exec_bind_inv h
  by_cases hl : os1.length < e.length
  · have h2 : os1 ++ [callMon me d] <+: e := List.prefix_of_prefix_length_le (l₃ := os1 ++ callMon me d :: os2) ⟨os2, by simp⟩ ⟨z, he.symm⟩ (by simp; omega)
    obtain ⟨e', rfl⟩ := h2
    rw [List.append_assoc, List.append_assoc] at he
    have he := List.append_cancel_left he
    simp at he
    subst he
    obtain ⟨h3, p2, y, p3, rfl, h4⟩ := hp w os1 e' x (by simpa using h1)
    exact ⟨h3, p2, y, p3 ++ z, by simp, h4⟩
  · have h2 : e <+: os1 := List.prefix_of_prefix_length_le (l₃ := os1 ++ callMon me d :: os2) ⟨z, he.symm⟩ ⟨_, rfl⟩ (by omega)
    obtain ⟨b, rfl⟩ := h2
    rw [List.append_assoc] at he
    have hz := List.append_cancel_left he
    subst hz
    rw [run_append]
    exact hk _ _ _ _ _ hx

theorem follows_wait {ser : V → B} {τ : RecvType B V (GMsg M)} {me : Nat} {d : Dest} {kind : RecvKind} {o : RecvOp B V} {t : Option (Prog B V R)}
    {k : Msg o.T → Prog B V R} (ht : ∀ p, t = some p → Follows ser τ me d p) (hk : ∀ x, Follows ser τ me d (k x)) : Follows ser τ me d (.wait kind o t k) := by
  intro w os1 os2 r h
  have hcal : (callMon me d : Op B V).caller = some me := callMon_caller me d
  have hno : ∀ kind', callMon me d ≠ (.recv me o kind' : Op B V) := by intro kind' h; unfold callMon at h; split at h <;> cases h
  obtain ⟨e, z, he, h1, hx⟩ := exec_wait_inv h
  obtain ⟨b, rfl, hb⟩ := append_past he.symm (fun hm => by rcases h1 _ hm with h | ⟨_, h⟩; exact h.1 hcal; exact hno _ h)
  rcases hx with ⟨kind', m, os3, -, rfl, -, hx⟩ | ⟨p, hp, hx⟩
  · cases b with
    | nil => simp at hb; exact absurd hb.1.symm (hno _)
    | cons y b =>
      simp at hb
      obtain ⟨rfl, rfl⟩ := hb
      rw [run_append, run_cons]
      exact hk _ _ _ _ _ hx
  · rw [run_append]
    rw [hb] at hx
    exact ht p hp _ _ _ _ hx

theorem follows_call {ser : V → B} {τ : RecvType B V (GMsg M)} {me : Nat} {d : Dest} {m : M} : Follows ser τ me d (callProg τ me d m) := by
  intro w os1 os2 r h
  have hcal : (callMon me d : Op B V).caller = some me := callMon_caller me d
  have hno : ∀ o : Op B V, (∀ me' d', o ≠ .monitor me' d') → (∀ me' d' b, o ≠ .monitorAlias me' d' b) → o ≠ callMon me d := by
    rintro o h1 h2 rfl
    unfold callMon at h1 h2
    split at h1
    · exact h1 _ _ rfl
    · rename_i hd; rw [if_neg hd] at h2; exact h2 _ _ _ rfl
  unfold callProg at h
  rw [callMon_eq] at h
  obtain ⟨e, z, he, h1, hrun, hx⟩ := exec_op_inv h
  have href : (step ser (run ser w e) (callMon me d)).2 = .ref (.loc (run ser w e).nextRef) :=
    congrArg Prod.snd (step_monOp ser (run ser w e) me d _ hrun)
  rw [href] at hx
  obtain ⟨b, rfl, hb⟩ := append_past he.symm (fun hm => (h1 _ hm).1 hcal)
  cases b with
  | nil =>
    simp at hb
    subst hb
    obtain ⟨p2, p3, rfl, h2, -, -⟩ := exec_op_inv hx
    rw [List.append_nil]
    exact ⟨hrun, p2, m, p3, rfl, h2⟩
  | cons y b =>
    simp at hb
    obtain ⟨rfl, rfl⟩ := hb
    rw [run_append, run_cons]
    refine (?_ : Follows ser τ me d _) _ _ _ _ hx
    dsimp only
    refine follows_op (hno _ (by simp) (by simp)) fun _ => follows_wait ?_ ?_
    · intro p hp
      cases hp
      exact follows_op (hno _ (by simp) (by simp)) fun _ => follows_op (hno _ (by simp) (by simp)) fun _ => follows_ret _
    · intro r
      dsimp only at r
      match r with
      | .user (.callReply _ reply) => exact follows_op (hno _ (by simp) (by simp)) fun _ => follows_ret _
      | .system (.processDown _ _ reason) => exact follows_ret _
      | .user (.cast _) => exact follows_ret _
      | .user (.call _ _) => exact follows_ret _
      | .user (.stop _) => exact follows_ret _
      | .system (.exit _ _) => exact follows_ret _
      | .system (.nodeDown _ _) => exact follows_ret _

theorem follows_ask {ser : V → B} {τ : RecvType B V (GMsg RMsg)} {me : Nat} {d : Dest} (q : RAsk) : Follows ser τ me d (q.prog τ me d) := by
  have hno : ∀ o : Op B V, (∀ me' d', o ≠ .monitor me' d') → (∀ me' d' b, o ≠ .monitorAlias me' d' b) → o ≠ callMon me d := by
    rintro o h1 h2 rfl
    unfold callMon at h1 h2
    split at h1
    · exact h1 _ _ rfl
    · rename_i hd; rw [if_neg hd] at h2; exact h2 _ _ _ rfl
  have ask : ∀ {X : Type} (m : RMsg) (f : RMsg → Option (Except RError X)), Follows ser τ me d ((callProg τ me d m).bind (answered f me)) := by
    intro X m f
    refine follows_bind follows_call fun x => ?_
    unfold answered
    split
    · exact follows_ret _
    · split
      · exact follows_ret _
      · exact follows_op (hno _ (by simp) (by simp)) fun _ => follows_op (hno _ (by simp) (by simp)) fun _ => follows_ret _
  have tbl : ∀ {X : Type} (o : TOp) (g : Res → X), Follows ser τ me d (.op (.table me o) fun r => .ret (g r) : Prog B V X) :=
    fun o g => follows_op (hno _ (by simp) (by simp)) fun _ => follows_ret _
  cases q with
  | lookup k =>
    unfold RAsk.prog rLookup; dsimp only; split
    · exact follows_bind (tbl _ _) fun _ => follows_ret _
    · exact ask _ _
  | lookupOrStart k =>
    unfold RAsk.prog rLookupOrStart; dsimp only; split
    · refine follows_bind (tbl _ _) fun x => ?_
      cases x with
      | none => exact ask _ _
      | some p => exact follows_ret _
    · exact ask _ _
  | start k =>
    unfold RAsk.prog rStart; dsimp only; split
    · refine follows_bind (tbl _ _) fun x => ?_
      cases x with
      | none => exact ask _ _
      | some p => exact follows_ret _
    · exact ask _ _
  | stop k =>
    unfold RAsk.prog rStop; dsimp only; split
    · refine follows_bind (tbl _ _) fun x => ?_
      cases x with
      | none => exact follows_ret _
      | some p => exact ask _ _
    · exact ask _ _
  | count =>
    unfold RAsk.prog rCount; dsimp only; split
    · exact follows_bind (tbl _ _) fun _ => follows_ret _
    · exact ask _ _
  | list =>
    unfold RAsk.prog rList; dsimp only; split
    · exact follows_bind (tbl _ _) fun _ => follows_ret _
    · exact ask _ _
  | remove k =>
    unfold RAsk.prog rRemove; dsimp only; split
    · refine follows_bind (tbl _ _) fun x => ?_
      cases x with
      | none => exact follows_ret _
      | some p => exact follows_op (hno _ (by simp) (by simp)) fun _ => follows_ret _
    · exact ask _ _

/-- **C127**: in a node where every process minds its own business, nobody but the caller sends requests with the reference of a call, and nobody but the server
called answers it. -/
theorem C127_unforged (ser : V → B) (τ : RecvType B V (GMsg M)) (s : Nat) (G hs os pre ops : List (Op B V)) (me : Nat) (d : Dest) (m x : M) (t : Nat)
    (hf : Faithful ser τ) (hcoh : Coherent τ G) (hh : Honest ser τ G) (hc : Called ser τ G pre ops me d m x t) (hd : Means ser G d s) (hs' : RepliesOnlyIn ser τ s G hs os) :
    Unforged ser τ s G hs os pre ops me t := by
  obtain ⟨r1, hG1⟩ := hc.part
  obtain ⟨q1, q2, hq, hqo, ht⟩ := hc.tag
  have hx := hc.call
  rw [hq] at hx
  obtain ⟨hrun, p2, y, p3, hq2, hp2⟩ := follows_call _ _ _ _ hx
  rw [← run_append] at hrun hq2
  rw [← ht] at hq2
  refine unforged_core hf hcoh hh hd hs' (A := pre ++ q1) (p2 := p2) (m := y) (r1 := p3 ++ r1) ?_ hrun ht hp2 (by simp) ?_
  · rw [← hG1, hq, hq2]; simp
  · rw [hq, hq2]; simp; omega

/-- **C127**: the same for the functions of `Registry`; so C125 and C126 hold in a node where every process minds its own business. -/
theorem C127_registry (ser : V → B) (τ : RecvType B V (GMsg RMsg)) (s : Nat) (G hs os pre ops : List (Op B V)) (me : Nat) (d : Dest) (q : RAsk)
    (r : Except RError q.Out) (hf : Faithful ser τ) (hcoh : Coherent τ G) (hh : Honest ser τ G) (hd : Means ser G d s) (hs' : RepliesOnlyIn ser τ s G hs os)
    (hp : pre ++ ops <+: G) (hx : Exec ser me (run ser init pre) (q.prog τ me d) ops r) : RAsked ser τ s G hs os pre ops me d q r := by
  refine ⟨hp, hx, ?_⟩
  intro q1 q2 t hq ht
  obtain ⟨r1, hG1⟩ := hp
  rw [hq] at hx
  obtain ⟨hrun, p2, y, p3, hq2, hp2⟩ := follows_ask q _ _ _ _ hx
  rw [← run_append] at hrun hq2
  rw [← ht] at hq2
  refine unforged_core hf hcoh hh hd hs' (A := pre ++ q1) (p2 := p2) (m := y) (r1 := p3 ++ r1) ?_ hrun ht hp2 (by simp) ?_
  · rw [← hG1, hq, hq2]; simp
  · rw [hq, hq2]; simp; omega

/-- **C127**: a call to a local server that returns was handled by it exactly once, as C116 says; here this needs only that every process minds its own business. -/
theorem C127_answered (ser : V → B) (srv : Server B V M S) (τ : RecvType B V (GMsg M)) (s : Nat) (parent : Pid) (G hs os : List (Op B V)) (σ : S)
    (n : Nat) (l : Log M S) (pre ops : List (Op B V)) (me : Nat) (d : Dest) (m x : M) (t : Nat) (hr : Returns ser srv τ s)
    (hcoh : Coherent τ G) (hf : Faithful ser τ) (hh : Honest ser τ G) (hs' : Serves ser srv τ s parent G hs os σ n l) (ho : RepliesOnlyIn ser τ s G hs os)
    (hd : Means ser G d s) (hc : Called ser τ G pre ops me d m x t) :
    ∃ cs1 c cs2, l.calls = cs1 ++ c :: cs2 ∧ Handled c me d m x t ∧ ∀ c' ∈ cs1 ++ cs2, ¬ ForCall t c' :=
  C116_answered ser srv τ s parent G hs os σ n l pre ops me d m x t hr hcoh (C127_no_forgery ser τ G hf hcoh hh) hf hs' hc
    (C127_unforged ser τ s G hs os pre ops me d m x t hf hcoh hh hc hd ho)

/-- **C127**: if one call had returned before another one began, the server handled the first before the second, as C116 says; here this needs only that every
process minds its own business. -/
theorem C127_order (ser : V → B) (srv : Server B V M S) (τ : RecvType B V (GMsg M)) (s : Nat) (parent : Pid) (G hs os : List (Op B V)) (σ : S)
    (n : Nat) (l : Log M S) (pre ops : List (Op B V)) (me : Nat) (d : Dest) (m x : M) (t : Nat)
    (pre' ops' : List (Op B V)) (me' : Nat) (d' : Dest) (m' x' : M) (t' : Nat) (hr : Returns ser srv τ s)
    (hcoh : Coherent τ G) (hf : Faithful ser τ) (hh : Honest ser τ G) (hs' : Serves ser srv τ s parent G hs os σ n l) (ho : RepliesOnlyIn ser τ s G hs os)
    (hd : Means ser G d s) (hd' : Means ser G d' s) (hc : Called ser τ G pre ops me d m x t) (hc' : Called ser τ G pre' ops' me' d' m' x' t')
    (hbefore : pre ++ ops <+: pre') :
    ∃ cs1 c cs2 c' cs3, l.calls = cs1 ++ c :: (cs2 ++ c' :: cs3) ∧ Handled c me d m x t ∧ Handled c' me' d' m' x' t' :=
  C116_order ser srv τ s parent G hs os σ n l pre ops me d m x t pre' ops' me' d' m' x' t' hr hcoh (C127_no_forgery ser τ G hf hcoh hh) hf hs' hc
    (C127_unforged ser τ s G hs os pre ops me d m x t hf hcoh hh hc hd ho) hc' (C127_unforged ser τ s G hs os pre' ops' me' d' m' x' t' hf hcoh hh hc' hd' ho) hbefore

/-- **C127**: the history of a node is honest if every process runs an honest program and the frames from other nodes are honest. -/
theorem C127_programs (ser : V → B) (τ : RecvType B V (GMsg M)) (G : List (Op B V)) (hp : HonestPrograms ser τ (Talks ser τ) G)
    (hfr : ∀ a rp n ts bytes b, G = a ++ .frame rp n (.send ts bytes) :: b → HonestFrame ser τ a bytes) : Honest ser τ G := by
  refine ⟨?_, hfr⟩
  rintro a o b hG me ds v rfl
  refine (?_ : HonestOp ser τ (Talks ser τ) a (.send me ds v)) me ds v rfl
  generalize hq : me = q
  generalize ho : (Op.send me ds v : Op B V) = o at hG
  have hc : o.caller = some q := by rw [← ho, ← hq]; rfl
  rw [show (Op.send q ds v : Op B V) = o from by rw [← ho, ← hq]]
  obtain ⟨R, p, ⟨pre, os, post, h1, h2, h3, h4⟩, h5⟩ := hp q ⟨o, by rw [hG]; simp, hc⟩
  rw [hG] at h1
  obtain ⟨a', rfl, h6⟩ := append_past h1.symm (fun hm => h2 o hm hc)
  obtain ⟨b', rfl, -⟩ := append_before h6 (fun hm => h3 o hm hc)
  exact h5 pre a' o b' h4 hc

/-- **C127**: `GenServer::call` is honest, whatever it is used for and wherever it is cut off. -/
theorem C127_call (ser : V → B) (τ : RecvType B V (GMsg M)) (P : V → Prop) (me : Nat) (d : Dest) (m : M) (a : List (Op B V)) :
    HonestFrom ser τ P me a (callProg τ me d m) := by
  unfold callProg
  rw [callMon_eq]
  refine honest_op (fun _ _ _ => (callMon_none me d).honest _) ?_
  intro e he hrun
  have href : (step ser (run ser init (a ++ e)) (callMon me d)).2 = .ref (.loc (run ser init (a ++ e)).nextRef) :=
    congrArg Prod.snd (step_monOp ser _ me d _ hrun)
  rw [href]
  refine honest_op ?_ ?_
  · intro e' he' _
    have := request_honest (P := P) (τ := τ) (d := d) (y := m) hrun he'
    simp only [List.append_assoc, List.cons_append, List.nil_append] at this ⊢
    exact this
  · intro e' he' _
    refine honest_wait ?_ ?_
    · intro e2 k' r he2 _
      dsimp only at r
      match r with
      | .user (.callReply _ reply) => exact honest_plain (by intro _ _ _ h; cases h) fun _ _ => honest_ret _
      | .system (.processDown _ _ reason) => exact honest_ret _
      | .user (.cast _) => exact honest_ret _
      | .user (.call _ _) => exact honest_ret _
      | .user (.stop _) => exact honest_ret _
      | .system (.exit _ _) => exact honest_ret _
      | .system (.nodeDown _ _) => exact honest_ret _
    · intro e2 p he2 hp
      cases hp
      exact honest_plain (by intro _ _ _ h; cases h) fun _ _ => honest_plain (by intro _ _ _ h; cases h) fun _ _ => honest_ret _

/-- **C127**: the loop of a server with honest callbacks is honest. -/
theorem C127_server (ser : V → B) (τ : RecvType B V (GMsg M)) (P : V → Prop) (srv : Server B V M S) (s : Nat) (hh : HonestServer ser τ P srv s) (parent : Pid)
    (n : Nat) (σ : S) (a : List (Op B V)) : HonestFrom ser τ P s a (serverLoop srv τ s parent n σ) := by
  induction n generalizing σ a with
  | zero => exact honest_ret _
  | succ n ih =>
    rw [serverLoop_succ]
    refine honest_wait ?_ (by intro e p he hp; cases hp)
    intro e kind m he hrec
    have after : ∀ c a, HonestFrom ser τ P s a (afterCallback srv s c (serverLoop srv τ s parent n c.after)) := fun c a => honest_after hh a c _ (ih _ _)
    match m, hrec with
    | .user (.cast x), _ => exact honest_bind (hh.cast _ _ _) fun _ q _ => after ⟨.cast x, σ, q.1, noReply q.2⟩ _
    | .user (.callReply _ x), _ => exact honest_bind (hh.info _ _ _) fun _ q _ => after ⟨.info (.user x), σ, q.1, noReply q.2⟩ _
    | .user (.stop r), _ => exact honest_finish hh _ _ _ _
    | .system (.exit p r), _ =>
      simp only [roundOf]
      split
      · exact honest_finish hh _ _ _ _
      · exact honest_bind (hh.info _ _ _) fun _ q _ => after ⟨.info (.system (.exit p r)), σ, q.1, noReply q.2⟩ _
    | .system (.processDown d r e), _ => exact honest_bind (hh.info _ _ _) fun _ q _ => after ⟨.info (.system (.processDown d r e)), σ, q.1, noReply q.2⟩ _
    | .system (.nodeDown d r), _ => exact honest_bind (hh.info _ _ _) fun _ q _ => after ⟨.info (.system (.nodeDown d r)), σ, q.1, noReply q.2⟩ _
    | .user (.call frm x), hrec =>
      have hg : GotRequest ser τ s (a ++ (e ++ [.recv s ⟨GMsg M, τ, fun _ => true, true⟩ kind])) frm := ⟨a ++ e, [], _, _, kind, x, by simp, hrec⟩
      refine honest_bind (hh.call _ _ _ _ hg) ?_
      intro os q _
      split
      · refine honest_op ?_ ?_
        · intro e' _ _
          exact reply_honest (GotRequest.more (GotRequest.more hg))
        · intro e' _ _
          exact after ⟨.call x frm, σ, q.1, q.2⟩ _
      · exact after ⟨.call x frm, σ, q.1, q.2⟩ _

/-- **C127**: programs are honest if they are put together from honest ones. -/
theorem C127_compose (ser : V → B) (τ : RecvType B V (GMsg M)) (P : V → Prop) (me : Nat) (a : List (Op B V)) (p : Prog B V R) (k : R → Prog B V R')
    (hp : HonestFrom ser τ P me a p) (hk : ∀ a r, HonestFrom ser τ P me a (k r)) : HonestFrom ser τ P me a (p.bind k) :=
  honest_bind hp fun _ _ _ => hk _ _

/-- **C127**: a server whose process first runs a program that sends no replies, then its loop, replies to calls only in its loop. -/
theorem C127_only_in_loop (ser : V → B) (τ : RecvType B V (GMsg M)) (srv : Server B V M S) (s : Nat) (parent : Pid) (n : Nat) (G pre b os post : List (Op B V))
    (p : Prog B V S) (σ : S) (l : Log M S) (hG : G = pre ++ (b ++ (os ++ post))) (hpre : ∀ o ∈ pre, o.caller ≠ some s) (hpost : ∀ o ∈ post, o.caller ≠ some s)
    (hp : Silent ser τ s p) (hb : Exec ser s (run ser init pre) p b σ) (hl : Exec ser s (run ser init (pre ++ b)) (serverLoop srv τ s parent n σ) os l) :
    RepliesOnlyIn ser τ s G (pre ++ b) os := by
  intro a o c t y hGa hc hrep
  rw [hG] at hGa
  obtain ⟨a1, rfl, h1⟩ := append_past hGa (fun hm => hpre o hm hc)
  obtain ⟨a2, rfl, h2⟩ := append_past h1 (fun hm => hp _ _ _ hb o hm hc t y hrep)
  obtain ⟨c', rfl, -⟩ := append_before h2 (fun hm => hpost o hm hc)
  simp
  omega

/-! ## The registry -/

/-- The program is honest whenever it is started. -/
def Decent (ser : V → B) (τ : RecvType B V (GMsg M)) (P : V → Prop) (s : Nat) (p : Prog B V R) : Prop := ∀ a, HonestFrom ser τ P s a p

theorem decent_ret {ser : V → B} {τ : RecvType B V (GMsg M)} {s : Nat} (r : R) : Decent ser τ P s (.ret r : Prog B V R) := fun _ => honest_ret _

theorem decent_bind {ser : V → B} {τ : RecvType B V (GMsg M)} {s : Nat} {p : Prog B V R} {k : R → Prog B V R'} (hp : Decent ser τ P s p)
    (hk : ∀ r, Decent ser τ P s (k r)) : Decent ser τ P s (p.bind k) := fun a => honest_bind (hp a) fun _ _ _ => hk _ _

theorem decent_op {ser : V → B} {τ : RecvType B V (GMsg M)} {s : Nat} {o : Op B V} {k : Res → Prog B V R} (ho : SendsNone P o)
    (hk : ∀ r, Decent ser τ P s (k r)) : Decent ser τ P s (.op o k) := fun _ => honest_plain ho fun _ _ => hk _ _

theorem decent_wait {ser : V → B} {τ : RecvType B V (GMsg M)} {s : Nat} {kind : RecvKind} {o : RecvOp B V} {t : Option (Prog B V R)} {k : Msg o.T → Prog B V R}
    (ht : ∀ p, t = some p → Decent ser τ P s p) (hk : ∀ r, Decent ser τ P s (k r)) : Decent ser τ P s (.wait kind o t k) :=
  fun _ => honest_wait (fun _ _ _ _ _ => hk _ _) fun _ p _ hp => ht p hp _

theorem decent_table {τ : RecvType B V (GMsg RMsg)} {s : Nat} {ser : V → B} {m : Nat} {x : TOp} {k : Res → Prog B V R}
    (hk : ∀ r, Decent ser τ P s (k r)) : Decent ser τ P s (.op (.table m x) k) :=
  decent_op (by intro _ _ _ h; cases h) hk

theorem decent_killAll {τ : RecvType B V (GMsg RMsg)} {s : Nat} {ser : V → B} {k : Prog B V R} (hk : Decent ser τ P s k) : ∀ ps, Decent ser τ P s (killAll s ps k)
  | [] => hk
  | _ :: ps => decent_op (by intro _ _ _ h; cases h) fun _ => decent_op (by intro _ _ _ h; cases h) fun _ => decent_killAll hk ps

theorem decent_drop {c : RegConf B V} {τ : RecvType B V (GMsg RMsg)} {s : Nat} {ser : V → B} {σ : Lookup} {k : Prog B V R} (hk : Decent ser τ P s k) :
    Decent ser τ P s (registryDrop c s σ k) := decent_table fun _ => decent_killAll hk _

theorem decent_panics {c : RegConf B V} {τ : RecvType B V (GMsg RMsg)} {s : Nat} {ser : V → B} {σ : Lookup} {dead : R} :
    Decent ser τ P s (registryPanics c s σ dead) :=
  decent_drop (decent_op (by intro _ _ _ h; cases h) fun _ => decent_op (by intro _ _ _ h; cases h) fun _ => decent_ret _)

theorem decent_start {c : RegConf B V} {τ : RecvType B V (GMsg RMsg)} {s : Nat} {ser : V → B} (hst : ∀ f k, c.start = some f → Decent ser τ P s (f k))
    (σ : Lookup) (k : RKey) : Decent ser τ P s (startByKey c s σ k) := by
  refine decent_bind (decent_table fun _ => decent_ret _) fun r => ?_
  cases r with
  | some p => exact decent_ret _
  | none =>
    cases hc : c.start with
    | none => exact decent_panics
    | some f =>
      refine decent_bind (hst f k hc) fun r => ?_
      cases r with
      | ok p => exact decent_table fun _ => decent_ret _
      | error e => exact decent_ret _

theorem decent_shutdownWith {u : RecvType B V Unit} {τ : RecvType B V (GMsg RMsg)} {s : Nat} {ser : V → B} (p : Pid) (m : Ref) (mode : ShutdownMode) :
    Decent ser τ P s (shutdownWith u s p m mode) := by
  have hf : Decent ser τ P s (unlinkFlush u s p) := by
    exact decent_op (by intro _ _ _ h; cases h) fun _ => decent_op (by intro _ _ _ h; cases h) fun _ => decent_ret _
  have hb : ∀ m, Decent ser τ P s (brutalKill u s p m) := by
    intro m
    exact decent_op (by intro _ _ _ h; cases h) fun _ => decent_wait (by simp) fun _ => hf
  cases mode with
  | brutalKill => exact hb _
  | duration =>
    refine decent_op (by intro _ _ _ h; cases h) fun _ => decent_wait ?_ fun _ => hf
    intro p' h; cases h; exact hb _
  | infinity =>
    exact decent_op (by intro _ _ _ h; cases h) fun _ => decent_wait (by simp) fun _ => hf

theorem decent_exitChildren {τ : RecvType B V (GMsg RMsg)} {s : Nat} {ser : V → B} (e : Entries) (k : List (Pid × Ref) → Prog B V R)
    (hk : ∀ ms, Decent ser τ P s (k ms)) : ∀ σ ms, Decent ser τ P s (exitChildren s e σ ms k)
  | [], ms => hk ms
  | (p, key) :: σ, ms => by
    unfold exitChildren
    split
    · exact decent_op (by intro _ _ _ h; cases h) fun _ => decent_op (by intro _ _ _ h; cases h) fun _ => decent_exitChildren e k hk σ _
    · exact decent_exitChildren e k hk σ _

theorem decent_awaitChildren {u : RecvType B V Unit} {τ : RecvType B V (GMsg RMsg)} {s : Nat} {ser : V → B} (mode : ShutdownMode) (k : Prog B V R)
    (hk : Decent ser τ P s k) : ∀ ms, Decent ser τ P s (awaitChildren u s mode ms k)
  | [] => hk
  | (p, m) :: ms => decent_bind (decent_shutdownWith p m mode) fun _ => decent_awaitChildren mode k hk ms

theorem decent_terminateChildren {c : RegConf B V} {u : RecvType B V Unit} {τ : RecvType B V (GMsg RMsg)} {s : Nat} {ser : V → B} (σ : Lookup) :
    Decent ser τ P s (terminateChildren c u s σ) := by
  unfold terminateChildren
  split
  · exact decent_ret _
  · refine decent_table fun r => ?_
    split
    · exact decent_exitChildren _ _ (fun ms => decent_awaitChildren _ _ (decent_ret _) ms) _ _
    · exact decent_ret _

/-- **C127**: the functions of `Registry` are honest. -/
theorem C127_ask (ser : V → B) (τ : RecvType B V (GMsg RMsg)) (P : V → Prop) (hP : Telling τ P) (me : Nat) (d : Dest) (q : RAsk) (a : List (Op B V)) :
    HonestFrom ser τ P me a (q.prog τ me d) := by
  refine (?_ : Decent ser τ P me (q.prog τ me d)) a
  have call : ∀ m, Decent ser τ P me (callProg τ me d m) := fun m a => C127_call ser τ P me d m a
  have ask : ∀ {X : Type} (m : RMsg) (f : RMsg → Option (Except RError X)), Decent ser τ P me ((callProg τ me d m).bind (answered f me)) := by
    intro X m f
    refine decent_bind (call m) fun x => ?_
    unfold answered
    split
    · exact decent_ret _
    · split
      · exact decent_ret _
      · exact decent_op (by intro _ _ _ h; cases h) fun _ => decent_op (by intro _ _ _ h; cases h) fun _ => decent_ret _
  have tbl : ∀ {X : Type} (o : TOp) (g : Res → X), Decent ser τ P me (.op (.table me o) fun r => .ret (g r) : Prog B V X) :=
    fun o g => decent_op (by intro _ _ _ h; cases h) fun _ => decent_ret _
  cases q with
  | lookup k =>
    unfold RAsk.prog rLookup; dsimp only; split
    · exact decent_bind (tbl _ _) fun _ => decent_ret _
    · exact ask _ _
  | lookupOrStart k =>
    unfold RAsk.prog rLookupOrStart; dsimp only; split
    · refine decent_bind (tbl _ _) fun x => ?_
      cases x with
      | none => exact ask _ _
      | some p => exact decent_ret _
    · exact ask _ _
  | start k =>
    unfold RAsk.prog rStart; dsimp only; split
    · refine decent_bind (tbl _ _) fun x => ?_
      cases x with
      | none => exact ask _ _
      | some p => exact decent_ret _
    · exact ask _ _
  | stop k =>
    unfold RAsk.prog rStop; dsimp only; split
    · refine decent_bind (tbl _ _) fun x => ?_
      cases x with
      | none => exact decent_ret _
      | some p => exact ask _ _
    · exact ask _ _
  | count =>
    unfold RAsk.prog rCount; dsimp only; split
    · exact decent_bind (tbl _ _) fun _ => decent_ret _
    · exact ask _ _
  | list =>
    unfold RAsk.prog rList; dsimp only; split
    · exact decent_bind (tbl _ _) fun _ => decent_ret _
    · exact ask _ _
  | remove k =>
    unfold RAsk.prog rRemove; dsimp only; split
    · refine decent_bind (tbl _ _) fun x => ?_
      cases x with
      | none => exact decent_ret _
      | some p =>
        exact decent_op hP.cast fun _ => decent_ret _
    · exact ask _ _

/-- **C127**: a registry is honest if its start routine is. -/
theorem C127_registry_server (ser : V → B) (τ : RecvType B V (GMsg RMsg)) (P : V → Prop) (c : RegConf B V) (u : RecvType B V Unit) (s : Nat)
    (hst : ∀ f k, c.start = some f → ∀ a, HonestFrom ser τ P s a (f k)) : HonestServer ser τ P (registryServer c u s) s := by
  have hu : ∀ {R : Type} {p : Pid} {k : Res → Prog B V R}, (∀ r, Decent ser τ P s (k r)) → Decent ser τ P s (.op (.unlink s p) k) :=
    fun hk => decent_op (by intro _ _ _ h; cases h) hk
  have hst : ∀ f k, c.start = some f → Decent ser τ P s (f k) := hst
  refine ⟨fun a σ m => ?_, fun a σ m frm _ => ?_, fun a σ m => ?_, fun a σ r => ?_⟩
  · refine (?_ : Decent ser τ P s (registryCast c s σ m)) a
    cases m with
    | removeLookup p => exact hu fun _ => decent_ret _
    | _ => exact decent_panics
  · refine (?_ : Decent ser τ P s (registryCall c s σ m)) a
    have hl : ∀ k, Decent ser τ P s (lookupProg s c.name k) := fun k => decent_table fun _ => decent_ret _
    cases m with
    | lookup k => exact decent_bind (hl k) fun _ => decent_ret _
    | lookupOrStart k =>
      refine decent_bind (decent_bind (hl k) fun r => ?_) fun _ => decent_ret _
      cases r with
      | some p => exact decent_ret _
      | none => exact decent_start hst _ _
    | start k => exact decent_bind (decent_start hst _ _) fun _ => decent_ret _
    | stop k =>
      refine decent_bind (decent_bind (hl k) fun r => ?_) fun _ => decent_ret _
      cases r with
      | none => exact decent_ret _
      | some p =>
        exact hu fun _ => decent_op (by intro _ _ _ h; cases h) fun _ => decent_bind (decent_table fun _ => decent_ret _) fun _ => decent_ret _
    | count => exact decent_bind (decent_table fun _ => decent_ret _) fun _ => decent_ret _
    | list => exact decent_bind (decent_table fun _ => decent_ret _) fun _ => decent_ret _
    | remove k =>
      refine decent_bind (decent_bind (decent_table fun _ => decent_ret _) fun r => ?_) fun _ => decent_ret _
      cases r with
      | none => exact decent_ret _
      | some p => exact hu fun _ => decent_ret _
    | _ => exact decent_panics
  · refine (?_ : Decent ser τ P s (registryInfo c s σ m)) a
    unfold registryInfo
    split
    · refine decent_bind ?_ fun _ => decent_ret _
      unfold removePid
      split
      · exact decent_ret _
      · exact decent_table fun _ => decent_ret _
    · exact decent_ret _
  · exact (decent_bind (decent_terminateChildren σ) fun _ => decent_drop (decent_ret _) : Decent ser τ P s _) a

/-- **C127**: the functions of a registry, used by any number of processes of a node where every process minds its own business, act one after another, as C125 says. -/
theorem C127_linearizable (ser : V → B) (c : RegConf B V) (u : RecvType B V Unit) (τ : RecvType B V (GMsg RMsg)) (s : Nat) (parent : Pid) (G hs os : List (Op B V))
    (σ : Lookup) (n : Nat) (l : Log RMsg Lookup) (hf : Faithful ser τ) (hcoh : Coherent τ G) (hh : Honest ser τ G)
    (hsv : RegServes ser c u τ s parent G hs os σ n l) (ho : RepliesOnlyIn ser τ s G hs os) (I : Type) (use : I → RUse B V)
    (hp : ∀ a, (use a).pre ++ (use a).ops <+: G) (hx : ∀ a, Exec ser (use a).me (run ser init (use a).pre) ((use a).q.prog τ (use a).me (use a).d) (use a).ops (use a).r)
    (hm : ∀ a, Means ser G (use a).d s)
    (hd : ∀ a name, localName (use a).d = some name → name = c.name) (hr : ∀ a e, (use a).r ≠ .error (.callError e)) (hme : ∀ a, (use a).me ≠ s)
    (hone : ∀ a b, a ≠ b → (use a).me ≠ (use b).me ∨ (use a).Before (use b) ∨ (use b).Before (use a)) :
    ∃ at_ : I → Nat, (∀ a, ActsAt ser c.name G (at_ a) (use a).pre (use a).ops (use a).q (use a).r) ∧ (∀ a b, a ≠ b → at_ a ≠ at_ b) ∧
      ∀ a b, (use a).Before (use b) → at_ a < at_ b :=
  C125_linearizable ser c u τ s parent G hs os σ n l hf hcoh (C127_no_forgery ser τ G hf hcoh hh) hsv I use
    (fun a => C127_registry ser τ s G hs os _ _ _ _ _ _ hf hcoh hh (hm a) ho (hp a) (hx a)) hd hr hme hone

/-! ## A sample: three processes, of which two call the third -/

/-- Process 1 starts the others and calls the server. -/
def orderProg1 : Prog Nat (GMsg Nat) (Except CallError Nat) :=
  .op (.spawn 1 false false) fun _ => .op (.spawn 1 false false) fun _ => callProg natServer 1 (.pid (.loc 2)) 7

/-- Process 3 sends a cast to the server and calls it. -/
def orderProg3 : Prog Nat (GMsg Nat) (Except CallError Nat) :=
  .op (.send 3 (.one (.pid (.loc 2))) (.cast 5)) fun _ => callProg natServer 3 (.pid (.loc 2)) 4

theorem adder_honest (P : GMsg Nat → Prop) : HonestServer noSer natServer P adder 2 := by
  refine ⟨fun _ _ _ => honest_ret _, ?_, fun _ _ _ => honest_ret _, fun _ _ _ => honest_ret _⟩
  intro a σ m frm _
  show HonestFrom _ _ _ _ _ (if m = 0 then _ else _)
  split <;> exact honest_ret _

theorem order_runs1 : RunsIn noSer 1 orderProg1 (orderStart ++ orderServe) := by
  have oth : ∀ {o : Op Nat (GMsg Nat)}, o.caller = some 2 ∨ o.caller = some 3 → (∀ i, o ≠ .drop i) → Others 1 o := by
    intro o h1 h2
    refine ⟨?_, h2 1⟩
    rcases h1 with h | h <;> simp [h]
  refine ⟨[.boot], (orderStart ++ orderServe).drop 1, [], rfl, by simp [Op.caller], by simp, ?_⟩
  refine .op rfl (.op rfl (.env (oth (.inl rfl) (by intro i h; cases h)) ?_))
  have h := exec_cut (exec_more (os' := (orderStart ++ orderServe).drop 11) orderExec1 ?_)
  · exact h
  · intro o ho
    have hc : o.caller ≠ some 1 := by
      intro hc
      have := List.mem_map_of_mem (f := Op.caller) ho
      rw [hc] at this
      revert this
      have : ((orderStart ++ orderServe).drop 11).map Op.caller = [some 3, some 2, some 3, some 3, some 3, some 2, some 2, some 3, some 3] := rfl
      rw [this]; decide
    refine ⟨hc, ?_⟩
    intro hd
    have := List.mem_map_of_mem (f := Op.caller) ho
    rw [hd] at this
    revert this
    have : ((orderStart ++ orderServe).drop 11).map Op.caller = [some 3, some 2, some 3, some 3, some 3, some 2, some 2, some 3, some 3] := rfl
    rw [this]; show none ∈ _ → _; decide

theorem order_runs2 : RunsIn noSer 2 (serverLoop adder natServer 2 (.loc 1) 3 0) (orderStart ++ orderServe) :=
  ⟨orderStart, orderServe, [], by simp, by
    intro o ho hc
    have := List.mem_map_of_mem (f := Op.caller) ho
    rw [hc] at this
    revert this
    have : orderStart.map Op.caller = [none, some 1, some 1] := rfl
    rw [this]; decide, by simp, exec_cut orderExec⟩

theorem order_runs3 : RunsIn noSer 3 orderProg3 (orderStart ++ orderServe) := by
  refine ⟨(orderStart ++ orderServe).take 11, (orderStart ++ orderServe).drop 11, [], by simp, ?_, by simp, ?_⟩
  · intro o ho hc
    have := List.mem_map_of_mem (f := Op.caller) ho
    rw [hc] at this
    revert this
    have : ((orderStart ++ orderServe).take 11).map Op.caller =
      [none, some 1, some 1, some 2, some 1, some 1, some 1, some 2, some 2, some 1, some 1] := rfl
    rw [this]; decide
  · exact .op rfl (.env ⟨by simp [Op.caller], by simp⟩ (exec_cut orderExec2))

theorem order_programs : HonestPrograms noSer natServer (Talks noSer natServer) (orderStart ++ orderServe) := by
  rintro q ⟨o, ho, hc⟩
  have hq : some q ∈ (orderStart ++ orderServe).map Op.caller := by rw [← hc]; exact List.mem_map_of_mem ho
  have : (orderStart ++ orderServe).map Op.caller = [none, some 1, some 1, some 2, some 1, some 1, some 1, some 2, some 2, some 1, some 1] ++
    [some 3, some 2, some 3, some 3, some 3, some 2, some 2, some 3, some 3] := rfl
  rw [this] at hq
  have : q = 1 ∨ q = 2 ∨ q = 3 := by simp at hq; omega
  rcases this with rfl | rfl | rfl
  · refine ⟨_, _, order_runs1, fun a => ?_⟩
    exact honest_plain (by intro _ _ _ h; cases h) fun _ _ => honest_plain (by intro _ _ _ h; cases h) fun _ _ =>
      C127_call _ _ _ _ _ _ _
  · exact ⟨_, _, order_runs2, fun a => C127_server _ _ _ _ _ (adder_honest _) _ _ _ _⟩
  · refine ⟨_, _, order_runs3, fun a => ?_⟩
    exact honest_plain (Telling.cast (talks_telling natServer_faithful)) fun _ _ => C127_call _ _ _ _ _ _ _

theorem order_honest : Honest noSer natServer (orderStart ++ orderServe) := by
  refine C127_programs _ _ _ order_programs ?_
  intro a rp n ts bytes b h
  have := congrArg (List.map Op.caller) h
  have hm : (Op.frame rp n (.send ts bytes) : Op Nat (GMsg Nat)) ∈ orderStart ++ orderServe := by rw [h]; simp
  exfalso
  have hno : ∀ o ∈ orderStart ++ orderServe, ∀ rp n ts bytes, o ≠ .frame rp n (.send ts bytes) := by
    intro o ho rp n ts bytes
    simp only [orderStart, orderServe, orderCall1, orderCall2, callMon, monOp, destLocal, Pid.isLocal, request, twoProcs, replyOp, List.cons_append, List.nil_append,
      List.mem_cons, List.not_mem_nil, or_false, if_true] at ho
    rcases ho with h | h | h | h | h | h | h | h | h | h | h | h | h | h | h | h | h | h | h | h <;> rw [h] <;> simp
  exact hno _ hm _ _ _ _ rfl

theorem order_means : Means noSer (orderStart ++ orderServe) (.pid (.loc 2)) 2 := by
  refine ⟨rfl, ?_⟩
  intro a b i _ h
  simp only [targetOf] at h
  split at h
  · exact (Option.some.inj h).symm
  · cases h

theorem order_only : RepliesOnlyIn noSer natServer 2 (orderStart ++ orderServe) orderStart orderServe := by
  have := C127_only_in_loop noSer natServer adder 2 (.loc 1) 3 (orderStart ++ orderServe) orderStart [] orderServe [] (.ret 0) 0 orderLog (by simp) (by
    intro o ho hc
    have := List.mem_map_of_mem (f := Op.caller) ho
    rw [hc] at this
    revert this
    have : orderStart.map Op.caller = [none, some 1, some 1] := rfl
    rw [this]; decide) (by simp) (silent_ret _) (.ret _ _) (by rw [List.append_nil]; exact orderExec)
  rwa [List.append_nil] at this

example : ∃ cs1 c cs2, orderLog.calls = cs1 ++ c :: cs2 ∧ Handled c 1 (.pid (.loc 2)) 7 7 1 ∧ ∀ c' ∈ cs1 ++ cs2, ¬ ForCall 1 c' :=
  C127_answered _ _ _ _ _ _ _ _ _ _ _ _ _ _ _ _ _ _ adder_returns order_coherent natServer_faithful order_honest order_serves order_only order_means order_called1

example := C127_order _ _ _ _ _ _ _ _ _ _ _ _ _ _ _ _ _ _ _ _ _ _ _ _ _ adder_returns order_coherent natServer_faithful order_honest order_serves order_only
  order_means order_means order_called1 order_called2 ⟨_, rfl⟩

end Verif.World
