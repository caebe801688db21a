import Verif.TwoNodeMixProps
import Verif.TwoNodeCastProps
import Verif.HonestProps
/-!
# Nobody forges calls between two nodes, if every process of both minds its own business (C131)

`C119`, `C120` and `C121` assume that the references of calls are not misused on the two nodes (`UnforgedAcross`, `NoGuess`, `Unforged`, `NoForgery`). Here this is
derived from what each process of the two nodes does by itself (`HonestOp`, HonestProps.lean). What comes from third nodes, or came before the connection, has to be
honest, too.
-/
namespace Verif.World
open Verif.Mailbox
variable {B V M S R : Type}

/-! ## Specification -/

/-- `d` is a destination on the node `N`, which is known here as `id`. -/
def On (N : Node) (id : Nat) : Dest → Prop
  | .pid p => p.node = id
  | .named _ n => n = N
  | .alias r => r.node = id

/-- The destination, as its own node sees it. -/
def there (d : Dest) : Dest := (Dest.target d).dest

/-- Somebody on this node or on the other one (where messages are read with `τ'`) who is sent the value would take it for a request or a reply. -/
def TalksAcross (ser : V → B) (τ τ' : RecvType B V (GMsg M)) (v : V) : Prop :=
  Talks ser τ v ∨ ∃ g, g.talks ∧ τ'.deser (ser v) = some g

/-- What happens on a node in the history `G` is honest, as far as it does not come from the other node `N`, known as `id`, by the connection that began after `past`:
what its processes do, and the Send frames that come from third nodes or before the connection. The latter carry no requests in the name of a call of this node, and
in the name of a call of the other one only if that call (`theirs`) was before the connection; and they are replies only to calls to other nodes, if these calls
were made during the connection, not to `N`. -/
structure HonestSide (ser : V → B) (τ τ' : RecvType B V (GMsg M)) (N : Node) (id : Nat) (past G : List (Op B V)) (theirs : Nat → Prop) : Prop where
  ops : ∀ a o b, G = a ++ o :: b → HonestOp ser τ (TalksAcross ser τ τ') a o
  calls : ∀ a rp n ts bytes b frm y, G = a ++ .frame rp n (.send ts bytes) :: b → n ≠ N ∨ a.length < past.length → τ.deser bytes = some (.call frm y) →
    (∀ t, frm.tag ≠ .loc t) ∧ ∀ t, frm.tag = .rem t id → theirs t
  replies : ∀ a rp n ts bytes b t y, G = a ++ .frame rp n (.send ts bytes) :: b → n ≠ N ∨ a.length < past.length →
    τ.deser bytes = some (.callReply (.loc t) y) → ∃ me d a1 a2, a = a1 ++ callMon me d :: a2 ∧ running (run ser init a1) me = true ∧
      t = (run ser init a1).nextRef ∧ destLocal d = false ∧ (past.length ≤ a1.length → ¬ On N id d)

/-- Both nodes are honest. -/
structure HonestDuo (ser : Sers V B) (c : Conn) (τL τR : RecvType B V (GMsg M)) (d : Duo B V) (GL GR : List (Op B V)) (l : List (DOp B V)) : Prop where
  left : HonestSide ser.L τL τR c.nR c.idR GL (GL ++ leftOps ser c d l) (CalledAway ser.R GR)
  right : HonestSide ser.R τR τL c.nL c.idL GR (GR ++ rightOps ser c d l) (CalledAway ser.L GL)

/-- The process `s` of the right node replies to calls of the left one only in the part `os` of the history `G`. -/
def AnswersOnlyIn (ser : Sers V B) (τL : RecvType B V (GMsg M)) (s : Nat) (G hs os : List (Op B V)) : Prop :=
  ∀ a o b, G = a ++ o :: b → o.caller = some s → AnswersLeft ser τL o → hs.length ≤ a.length ∧ a.length < hs.length + os.length

/-- A call to a server of the right node that has returned: by a process of its own node, or by one of the left node. -/
inductive MixCall (B V M : Type) where
  | here (pre ops : List (Op B V)) (me : Nat) (dest : Dest) (m x : M) (t : Nat)
  | away (u v : List (DOp B V)) (me : Nat) (dest : Dest) (m x : M) (t : Nat)

/-- The reference that the call made for itself, and the node of the caller. -/
def MixCall.ref : MixCall B V M → Bool × Nat
  | .here _ _ _ _ _ _ t => (true, t)
  | .away _ _ _ _ _ _ t => (false, t)

/-- The call was made and returned, in the schedule `l` after the histories `GL` and `GR`, and its destination is the process `s` of the right node. -/
def MixCall.Made (ser : Sers V B) (c : Conn) (τL τR : RecvType B V (GMsg M)) (s : Nat) (d : Duo B V) (GR : List (Op B V)) (l : List (DOp B V)) : MixCall B V M → Prop
  | .here pre ops me dest m x t => Called ser.R τR (GR ++ rightOps ser c d l) pre ops me dest m x t ∧ Means ser.R (GR ++ rightOps ser c d l) dest s
  | .away u v me dest m x t => CalledFrom ser c τL d l u v me dest m x t ∧ On c.nR c.idR dest ∧ Means ser.R (GR ++ rightOps ser c d l) (there dest) s

/-- The first call had returned before the second one began. -/
def MixCall.Before (ser : Sers V B) (c : Conn) (d : Duo B V) (GR : List (Op B V)) : MixCall B V M → MixCall B V M → Prop
  | .here pre ops _ _ _ _ _, .here pre' _ _ _ _ _ _ => pre ++ ops <+: pre'
  | .here pre ops _ _ _ _ _, .away u' _ _ _ _ _ _ => pre ++ ops <+: GR ++ rightOps ser c d u'
  | .away u v _ _ _ _ _, .here pre' _ _ _ _ _ _ => GR ++ rightOps ser c d (u ++ v) <+: pre'
  | .away u v _ _ _ _ _, .away u' _ _ _ _ _ _ => u ++ v <+: u'

/-- The record of the call: the server handled this very request with `handle_call`, which returned what the call did. -/
def MixCall.Handles (c : Conn) (lr rl : Carry M) (r : Record M S) : MixCall B V M → Prop
  | .here _ _ me dest m x t => Handled r me dest m x t
  | .away _ _ me dest m x t => HandledFrom c lr rl r me dest m x t

/-- The record is that of a request with the reference of the call. -/
def MixCall.For (c : Conn) (r : Record M S) : MixCall B V M → Prop
  | .here _ _ _ _ _ _ t => ForCall t r
  | .away _ _ _ _ _ _ t => ForCallFrom c t r

/-- Two honest nodes with the server `srv` at process `s` of the right one: all that C131 needs. `parent`, `σ` and `n` are what the loop of the server began with, `log` is
what it did. -/
structure Talk (ser : Sers V B) (c : Conn) (srv : Server B V M S) (τL τR : RecvType B V (GMsg M)) (lr rl : Carry M) (s : Nat) (parent : Pid) (d : Duo B V)
    (GL GR : List (Op B V)) (l : List (DOp B V)) (hs os : List (Op B V)) (σ : S) (n : Nat) (log : Log M S) : Prop where
  begins : Begins ser c d
  pastL : d.L = run ser.L init GL
  pastR : d.R = run ser.R init GR
  legal : ∀ s ∈ l, Legal c s
  speaks : Speaks ser c τL τR lr rl
  speaks' : Speaks ser.swap c.swap τR τL rl lr
  faithL : Faithful ser.L τL
  faithR : Faithful ser.R τR
  cohL : Coherent τL (GL ++ leftOps ser c d l)
  cohR : Coherent τR (GR ++ rightOps ser c d l)
  honest : HonestDuo ser c τL τR d GL GR l
  serves : Serves ser.R srv τR s parent (GR ++ rightOps ser c d l) hs os σ n log
  mutes : Mutes ser.R srv s (AnswersLeft ser τL)
  returns : Returns ser.R srv τR s
  onlyL : AnswersOnlyIn ser τL s (GR ++ rightOps ser c d l) hs os
  onlyR : RepliesOnlyIn ser.R τR s (GR ++ rightOps ser c d l) hs os

/-! ## Lemmas -/

theorem CalledAway.more {ser : V → B} {a b : List (Op B V)} {t : Nat} (h : CalledAway ser a t) : CalledAway ser (a ++ b) t := by
  obtain ⟨me, d, a1, a2, rfl, h⟩ := h
  exact ⟨me, d, a1, a2 ++ b, by simp, h⟩

theorem CalledAway.lt {ser : V → B} {a : List (Op B V)} {t : Nat} (h : CalledAway ser a t) : t < (run ser (init : World B V) a).nextRef := by
  obtain ⟨me, d, a1, a2, rfl, hr, rfl, -⟩ := h
  exact callMon_after hr

theorem HonestSide.prefix {ser : V → B} {τ τ' : RecvType B V (GMsg M)} {N : Node} {id : Nat} {past G G' : List (Op B V)} {theirs : Nat → Prop}
    (h : HonestSide ser τ τ' N id past G theirs) (hp : G' <+: G) : HonestSide ser τ τ' N id past G' theirs := by
  obtain ⟨r, rfl⟩ := hp
  refine ⟨?_, ?_, ?_⟩
  · rintro a o b rfl; exact h.ops a o (b ++ r) (by simp)
  · rintro a rp n ts bytes b frm y rfl; exact h.calls a rp n ts bytes (b ++ r) frm y (by simp)
  · rintro a rp n ts bytes b t y rfl; exact h.replies a rp n ts bytes (b ++ r) t y (by simp)

theorem HonestDuo.prefix {ser : Sers V B} {c : Conn} {τL τR : RecvType B V (GMsg M)} {d : Duo B V} {GL GR : List (Op B V)} {l w : List (DOp B V)}
    (h : HonestDuo ser c τL τR d GL GR l) (hp : w <+: l) : HonestDuo ser c τL τR d GL GR w := by
  obtain ⟨r, rfl⟩ := hp
  exact ⟨h.left.prefix ⟨leftOps ser c (drun ser c d w) r, by rw [leftOps_append]; simp⟩, h.right.prefix ⟨rightOps ser c (drun ser c d w) r, by rw [rightOps_append]; simp⟩⟩

theorem rightOps_swap (ser : Sers V B) (c : Conn) (l : List (DOp B V)) (d : Duo B V) :
    rightOps ser.swap c.swap d.swap (l.map DOp.swap) = leftOps ser c d l := by
  have := leftOps_swap ser.swap c.swap (l.map DOp.swap) d.swap
  rw [map_swap_swap] at this
  exact this.symm

theorem HonestDuo.swap {ser : Sers V B} {c : Conn} {τL τR : RecvType B V (GMsg M)} {d : Duo B V} {GL GR : List (Op B V)} {l : List (DOp B V)}
    (h : HonestDuo ser c τL τR d GL GR l) : HonestDuo ser.swap c.swap τR τL d.swap GR GL (l.map DOp.swap) :=
  ⟨by rw [leftOps_swap]; exact h.right, by rw [rightOps_swap]; exact h.left⟩

/-- What a send of a side that talks to the other one is. -/
theorem sends_what {ser : V → B} {τ τ' : RecvType B V (GMsg M)} {a : List (Op B V)} {me : Nat} {ds : Dests} {v : V} {g : GMsg M}
    (h : HonestOp ser τ (TalksAcross ser τ τ') a (.send me ds v)) (hg : g.talks) (hr : τ'.deser (ser v) = some g) :
    (∃ d t y, ByCall ser τ a (request τ me d (.loc t) y) t ∧ (.send me ds v : Op B V) = request τ me d (.loc t) y) ∨
      ∃ frm y, GotRequest ser τ me a frm ∧ (.send me ds v : Op B V) = replyOp τ me frm y := by
  rcases h me ds v rfl (.inr ⟨g, hg, hr⟩) with ⟨t, me', d, a1, a2, y, h1, h2, h3, h4, h5⟩ | ⟨frm, q, y, h1, h2⟩
  · have e := congrArg Op.caller h5
    simp only [Op.caller, request, Option.some.injEq] at e
    subst e
    exact .inl ⟨d, t, y, ⟨me, d, a1, a2, y, h1, h2, h3, h4, rfl⟩, h5⟩
  · have e := congrArg Op.caller h2
    simp only [Op.caller, replyOp, Option.some.injEq] at e
    subst e
    exact .inr ⟨frm, y, h1, h2⟩

/-- Who sent a request that is read on right and has a reference of left. -/
theorem request_right {ser : Sers V B} {c : Conn} {τL τR : RecvType B V (GMsg M)} {lr rl : Carry M} {d : Duo B V} {GL GR : List (Op B V)} {l : List (DOp B V)}
    (hb : Begins ser c d) (hleg : ∀ s ∈ l, Legal c s) (hsp : Speaks ser c τL τR lr rl) (hf : Faithful ser.R τR) (hh : HonestDuo ser c τL τR d GL GR l)
    {A C : List (Op B V)} {o : Op B V} {it : Item B V} {frm : From} {y : M} {t : Nat} (hG : GR ++ rightOps ser c d l = A ++ o :: C)
    (hs : SentBy ser.R o it) (hr : Reads τR it (.call frm y)) (ht : frm.tag = .rem t c.idL) :
    CalledAway ser.L GL t ∨ ∃ u rp v w1 w2 me dest y', l = u ++ .toR rp :: v ∧ A = GR ++ rightOps ser c d u ∧
      o = .frame rp c.nL (.send [Dest.target dest] (ser.L (τL.box (.call ⟨.loc me, .loc t, !destLocal dest⟩ y')))) ∧
      u = w1 ++ .left (request τL me dest (.loc t) y') :: w2 ∧ ByCall ser.L τL (GL ++ leftOps ser c d w1) (request τL me dest (.loc t) y') t ∧ destLocal dest = false := by
  by_cases hsend : ∃ me ds v, o = .send me ds v
  · -- a send of right: its reference would be one of right
    obtain ⟨me, ds, v, rfl⟩ := hsend
    rcases hh.right.ops A _ C hG me ds v rfl (.inl (talks_of hs hr trivial)) with ⟨t', me', d', a1, a2, y', -, -, -, -, h5⟩ | ⟨frm', q, y', -, h2⟩
    · rw [h5] at hs
      have := sentBy_read hf hs hr
      cases this; cases ht
    · rw [h2] at hs
      have := sentBy_read hf hs hr
      cases this
  · cases hs with
    | «local» => exact absurd ⟨_, _, _, rfl⟩ hsend
    | serial => exact absurd ⟨_, _, _, rfl⟩ hsend
    | frame rp n ts bytes =>
      by_cases hpast : A.length < GR.length
      · exact .inl ((hh.right.calls A rp n ts bytes C frm y hG (.inr hpast) hr).2 t ht)
      have hpre : GR <+: A := List.prefix_of_prefix_length_le (l₃ := GR ++ rightOps ser c d l) ⟨_, rfl⟩ ⟨_, hG.symm⟩ (by omega)
      obtain ⟨A', rfl⟩ := hpre
      have hG' : rightOps ser c d l = A' ++ .frame rp n (.send ts bytes) :: C := List.append_cancel_left (hG.trans (List.append_assoc ..))
      obtain ⟨u, s, v, rfl, h1, h2, -⟩ := rightOps_at ser c l d A' _ C hG'
      rcases rightOp_cases h1 with rfl | ⟨rp', f, rfl, h3, h4, h5⟩
      · have hn : n ≠ c.nL := by
          rintro rfl
          exact (hleg _ (List.mem_append_right _ List.mem_cons_self)).2 rp _ rfl
        exact .inl ((hh.right.calls _ rp n ts bytes C frm y hG (.inl hn) hr).2 t ht)
      · injection h3 with e1 e2 e3
        subst e1 e2 e3
        obtain ⟨w1, me, ds, x, w2, rfl, -, rfl, hone⟩ := next_from hb (fun s hs => hleg s (by simp [hs])) h4
        have hr : τR.deser (ser.L x) = some (.call frm y) := hr
        have hop := (hh.prefix (w := w1 ++ [.left (.send me ds x)]) ⟨w2 ++ .toR rp :: v, by simp⟩).left.ops (GL ++ leftOps ser c d w1) (.send me ds x) []
          (by rw [leftOps_append]; simp [leftOps, leftOp])
        right
        rcases sends_what hop (g := .call frm y) trivial hr with ⟨dest, t', y', hby, he⟩ | ⟨frm', y', -, he⟩
        · simp only [request, Op.send.injEq] at he
          obtain ⟨-, rfl, rfl⟩ := he
          obtain ⟨hd, rfl⟩ := hone dest rfl
          have hthere := hsp.there _ _ hr
          simp only [Carry.gmsg, GMsg.call.injEq] at hthere
          rw [hthere.1, hsp.ref] at ht
          cases ht
          exact ⟨_, rp, v, w1, w2, me, dest, y', rfl, by rw [h2], rfl, rfl, hby, hd⟩
        · simp only [replyOp, Op.send.injEq] at he
          obtain ⟨-, -, rfl⟩ := he
          have hthere := hsp.there _ _ hr
          simp [Carry.gmsg] at hthere

/-- A frame with one target goes to the process that this means. -/
theorem frame_to {ser : V → B} {w : World B V} {rp : Nat} {n : Node} {t : Target} {b : B} {q : Nat} {it : Item B V}
    (hu : isUser it = true) (h1 : (q, it) ∉ w.sent) (h2 : (q, it) ∈ (step ser w (.frame rp n (.send [t] b))).1.sent) : targetOf w t.dest = some q := by
  simp only [step, Op.caller] at h2
  split at h2
  · simp only [Op.exec, recvFrame, forwardSend_cons, forwardSend] at h2
    obtain ⟨D, hD, hn, -⟩ := sendLocal_spec w t.dest (.remote b : Item B V) (by cases t <;> rfl) rfl
    rw [hD.sent] at h2
    rcases List.mem_append.1 h2 with h2 | h2
    · exact absurd h2 h1
    · have := hn q
      by_cases ht : targetOf w t.dest = some q
      · exact ht
      · rw [if_neg ht, userCount, List.length_eq_zero_iff, List.filter_eq_nil_iff] at this
        exact absurd (this _ h2) (by simp [hu])
  · exact absurd h2 h1

/-- Who asked for a request with a reference of left that a process of right has received, and whom. -/
theorem got_from_left {ser : Sers V B} {c : Conn} {τL τR : RecvType B V (GMsg M)} {lr rl : Carry M} {d : Duo B V} {GL GR : List (Op B V)} {w : List (DOp B V)}
    (hb : Begins ser c d) (hleg : ∀ s ∈ w, Legal c s) (hsp : Speaks ser c τL τR lr rl) (hf : Faithful ser.R τR) (hh : HonestDuo ser c τL τR d GL GR w)
    (hcoh : Coherent τR (GR ++ rightOps ser c d w)) {q : Nat} {frm : From} {t : Nat} (hg : GotRequest ser.R τR q (GR ++ rightOps ser c d w) frm)
    (ht : frm.tag = .rem t c.idL) :
    CalledAway ser.L GL t ∨ ∃ w1 w2 me dest y A Z, w = w1 ++ .left (request τL me dest (.loc t) y) :: w2 ∧
      ByCall ser.L τL (GL ++ leftOps ser c d w1) (request τL me dest (.loc t) y) t ∧ destLocal dest = false ∧
      GR ++ rightOps ser c d w = A ++ Z ∧ targetOf (run ser.R init A) (there dest) = some q := by
  obtain ⟨a1, o, a2, it, x, hG, h1, h2, h3, h4, h5⟩ := request_sent hcoh hg
  rcases request_right hb hleg hsp hf hh hG h1 h2 ht with h | ⟨u, rp, v, w1, w2, me, dest, y, rfl, hA, rfl, rfl, hby, hd⟩
  · exact .inl h
  · refine .inr ⟨w1, w2 ++ .toR rp :: v, me, dest, y, a1, _, by simp, hby, hd, hG, ?_⟩
    exact frame_to h3 h4 h5

/-- What a send of right that left reads as a request or a reply is. -/
theorem answer_right {ser : Sers V B} {c : Conn} {τL τR : RecvType B V (GMsg M)} {lr rl : Carry M} {d : Duo B V} {GL GR : List (Op B V)} {l a b : List (DOp B V)}
    (hsp : Speaks ser c τL τR lr rl) (hh : HonestDuo ser c τL τR d GL GR l) {me : Nat} {ds : Dests} {x : V} {g : GMsg M}
    (hl : l = a ++ .right (.send me ds x) :: b) (hg : g.talks) (hr : τL.deser (ser.R x) = some g) :
    (∃ frm y, g = .call frm y ∧ ∀ i, frm.tag ≠ .loc i) ∨
      ∃ frm y, GotRequest ser.R τR me (GR ++ rightOps ser c d a) frm ∧ (.send me ds x : Op B V) = replyOp τR me frm y ∧ g = .callReply (rl.ref frm.tag) (rl.msg y) := by
  have hop := (hh.prefix (w := a ++ [.right (.send me ds x)]) ⟨b, by rw [hl]; simp⟩).right.ops (GR ++ rightOps ser c d a) (.send me ds x) []
    (by rw [rightOps_append]; simp [rightOps, rightOp])
  rcases sends_what hop hg hr with ⟨dest, t, y, hby, he⟩ | ⟨frm, y, hgot, he⟩
  · left
    simp only [request, Op.send.injEq] at he
    obtain ⟨-, rfl, rfl⟩ := he
    refine ⟨_, _, hsp.back _ _ hr, ?_⟩
    intro i h
    have := hsp.own _ _ h
    cases this
  · right
    refine ⟨frm, y, hgot, he, ?_⟩
    simp only [replyOp, Op.send.injEq] at he
    obtain ⟨-, -, rfl⟩ := he
    exact hsp.back _ _ hr

/-- A reply of right to a call of left answers a call to another node. -/
theorem answer_called {ser : Sers V B} {c : Conn} {τL τR : RecvType B V (GMsg M)} {lr rl : Carry M} {d : Duo B V} {GL GR : List (Op B V)} {l a b : List (DOp B V)}
    (hb : Begins ser c d) (hleg : ∀ s ∈ l, Legal c s) (hsp : Speaks ser c τL τR lr rl) (hf : Faithful ser.R τR) (hh : HonestDuo ser c τL τR d GL GR l)
    (hcoh : Coherent τR (GR ++ rightOps ser c d l)) {me : Nat} {ds : Dests} {x : V} {n : Nat} {y : M}
    (hl : l = a ++ .right (.send me ds x) :: b) (hr : τL.deser (ser.R x) = some (.callReply (.loc n) y)) :
    CalledAway ser.L (GL ++ leftOps ser c d a) n ∧ ∃ frm, GotRequest ser.R τR me (GR ++ rightOps ser c d a) frm ∧ frm.tag = .rem n c.idL := by
  rcases answer_right hsp hh hl (g := .callReply (.loc n) y) trivial hr with ⟨_, _, h, -⟩ | ⟨frm, y', hg, -, he⟩
  · cases h
  simp only [GMsg.callReply.injEq] at he
  have ht := hsp.own _ _ he.1.symm
  have hpre : a <+: l := ⟨_, hl.symm⟩
  refine ⟨?_, frm, hg, ht⟩
  rcases got_from_left hb (fun s hs => hleg s (hpre.subset hs)) hsp hf (hh.prefix hpre) (coherent_part (b := rightOps ser c (drun ser c d a) (.right (.send me ds x) :: b))
    (by rw [List.append_assoc, ← rightOps_append, ← hl]; exact hcoh)) hg ht with h | ⟨w1, w2, me', dest, y', A, Z, rfl, ⟨me'', d'', a1, a2, y'', h1, h2, h3, h4, h5⟩, h6, -, -⟩
  · exact h.more
  · simp only [request, Op.send.injEq, Dests.one.injEq] at h5
    obtain ⟨rfl, rfl, -⟩ := h5
    rw [leftOps_append, ← List.append_assoc]
    exact CalledAway.more ⟨me', dest, a1, a2, h1, h2, h3, h6⟩

theorem legal_prefix {c : Conn} {w l : List (DOp B V)} (h : ∀ s ∈ l, Legal c s) (hp : w <+: l) : ∀ s ∈ w, Legal c s := fun s hs => h s (hp.subset hs)

/-- Where a reply to a call of this node comes from. -/
theorem Honest.replyFrom {ser : V → B} {τ : RecvType B V (GMsg M)} {G a b : List (Op B V)} {o : Op B V} {y : M} {t : Nat}
    (hf : Faithful ser τ) (hh : Honest ser τ G) (hG : G = a ++ o :: b) (hr : Replies ser τ (.loc t) y o) :
    (∃ q frm y', GotRequest ser τ q a frm ∧ frm.tag = .loc t ∧ o = replyOp τ q frm y') ∨
      ∃ rp n ts bytes, o = .frame rp n (.send ts bytes) ∧ τ.deser bytes = some (.callReply (.loc t) y) := by
  have hr' := hr
  obtain ⟨it, hs, hr⟩ := hr
  by_cases hsend : ∃ me ds v, o = .send me ds v
  · obtain ⟨me, ds, v, rfl⟩ := hsend
    rcases hh.ops a _ b hG me ds v rfl (talks_of hs hr trivial) with ⟨t', me', d, a1, a2, y', h1, h2, h3, h4, h5⟩ | ⟨frm', q, y', h1, h2⟩
    · rw [h5] at hs
      have := sentBy_read hf hs hr
      cases this
    · rw [h2] at hs
      have := sentBy_read hf hs hr
      injection this with h3 h4
      exact .inl ⟨q, frm', y', h1, h3.symm, h2⟩
  · cases hs with
    | frame rp n ts bytes => exact .inr ⟨rp, n, ts, bytes, rfl, hr⟩
    | _ => exact absurd ⟨_, _, _, rfl⟩ hsend

/-! ## C131 -/

/-- **C131**: if both nodes are honest, then what the one gets from the other is honest; so what C127 says of calls within a node holds on each of them. -/
theorem C131_left (ser : Sers V B) (c : Conn) (τL τR : RecvType B V (GMsg M)) (lr rl : Carry M) (d : Duo B V) (GL GR : List (Op B V)) (l : List (DOp B V))
    (hb : Begins ser c d) (hleg : ∀ s ∈ l, Legal c s) (hsp : Speaks ser c τL τR lr rl) (hf : Faithful ser.R τR)
    (hcoh : Coherent τR (GR ++ rightOps ser c d l)) (hh : HonestDuo ser c τL τR d GL GR l) : Honest ser.L τL (GL ++ leftOps ser c d l) := by
  refine ⟨fun a o b hG => (hh.left.ops a o b hG).weaken fun v hv => .inl hv, ?_⟩
  intro a rp n ts bytes b hG
  by_cases hother : n ≠ c.nR ∨ a.length < GL.length
  · refine ⟨fun frm y t hr => (hh.left.calls a rp n ts bytes b frm y hG hother hr).1 t, ?_⟩
    intro y t hr
    obtain ⟨me, d', a1, a2, h1, h2, h3, h4, -⟩ := hh.left.replies a rp n ts bytes b t y hG hother hr
    exact ⟨me, d', a1, a2, h1, h2, h3, h4⟩
  · have hn : n = c.nR := Decidable.byContradiction fun h => hother (.inl h)
    have hpast : ¬ a.length < GL.length := fun h => hother (.inr h)
    subst hn
    have hpre : GL <+: a := List.prefix_of_prefix_length_le (l₃ := GL ++ leftOps ser c d l) ⟨_, rfl⟩ ⟨_, hG.symm⟩ (by omega)
    obtain ⟨A', rfl⟩ := hpre
    have hG' : leftOps ser c d l = A' ++ .frame rp c.nR (.send ts bytes) :: b := List.append_cancel_left (hG.trans (List.append_assoc ..))
    obtain ⟨u, s, v, rfl, h1, h2, -⟩ := leftOps_at ser c l d A' _ b hG'
    rcases leftOp_cases h1 with rfl | ⟨rp', f, rfl, h3, h4, h5⟩
    · exact absurd rfl ((hleg _ (List.mem_append_right _ List.mem_cons_self)).2 rp _)
    · injection h3 with e1 e2 e3
      subst e1 e3
      obtain ⟨w1, me, ds, x, w2, rfl, -, rfl, -⟩ := next_from' hb (fun s hs => hleg s (by simp [hs])) h4
      have hl : w1 ++ .right (.send me ds x) :: w2 ++ .toL rp :: v = w1 ++ .right (.send me ds x) :: (w2 ++ .toL rp :: v) := by simp
      refine ⟨?_, ?_⟩
      · intro frm y t hr
        rcases answer_right hsp hh hl (g := .call frm y) trivial hr with ⟨frm', y', h, h'⟩ | ⟨_, _, _, _, h⟩
        · cases h; exact h' t
        · cases h
      · intro y t hr
        have := (answer_called hb hleg hsp hf hh hcoh hl hr).1
        rw [h2, leftOps_append, ← List.append_assoc]
        exact this.more

/-- **C131**: the same on the other node. -/
theorem C131_right (ser : Sers V B) (c : Conn) (τL τR : RecvType B V (GMsg M)) (lr rl : Carry M) (d : Duo B V) (GL GR : List (Op B V)) (l : List (DOp B V))
    (hb : Begins ser c d) (hleg : ∀ s ∈ l, Legal c s) (hsp : Speaks ser.swap c.swap τR τL rl lr) (hf : Faithful ser.L τL)
    (hcoh : Coherent τL (GL ++ leftOps ser c d l)) (hh : HonestDuo ser c τL τR d GL GR l) : Honest ser.R τR (GR ++ rightOps ser c d l) := by
  have := C131_left ser.swap c.swap τR τL rl lr d.swap GR GL (l.map DOp.swap) hb.swap
    (by intro s hs; obtain ⟨s', hs', rfl⟩ := List.mem_map.1 hs; exact legal_swap (hleg s' hs')) hsp hf (by rw [rightOps_swap]; exact hcoh) hh.swap
  rw [leftOps_swap] at this
  exact this

/-- **C131**: the other node replies only to calls that were made. -/
theorem C131_no_guess (ser : Sers V B) (c : Conn) (τL τR : RecvType B V (GMsg M)) (lr rl : Carry M) (d : Duo B V) (GL GR : List (Op B V)) (l : List (DOp B V))
    (hb : Begins ser c d) (hL : d.L = run ser.L init GL) (hleg : ∀ s ∈ l, Legal c s) (hsp : Speaks ser c τL τR lr rl) (hf : Faithful ser.R τR)
    (hcoh : Coherent τR (GR ++ rightOps ser c d l)) (hh : HonestDuo ser c τL τR d GL GR l) : NoGuess ser c τL d l := by
  intro a me ds x b n y hl hr
  have := (answer_called hb hleg hsp hf hh hcoh hl hr).1.lt
  rwa [run_append, ← hL, ← left_run] at this

/-- **C131**: if both nodes are honest, the reference of a call to the other node is not misused on any of them. -/
theorem C131_unforged (ser : Sers V B) (c : Conn) (τL τR : RecvType B V (GMsg M)) (lr rl : Carry M) (s : Nat) (d : Duo B V) (GL GR : List (Op B V)) (l : List (DOp B V))
    (hs os : List (Op B V)) (u v : List (DOp B V)) (me : Nat) (dest : Dest) (m x : M) (t : Nat) (hb : Begins ser c d) (hL : d.L = run ser.L init GL)
    (hleg : ∀ s ∈ l, Legal c s) (hsp : Speaks ser c τL τR lr rl) (hfL : Faithful ser.L τL) (hfR : Faithful ser.R τR)
    (hcohL : Coherent τL (GL ++ leftOps ser c d l)) (hcohR : Coherent τR (GR ++ rightOps ser c d l)) (hh : HonestDuo ser c τL τR d GL GR l)
    (hon : On c.nR c.idR dest) (hd : Means ser.R (GR ++ rightOps ser c d l) (there dest) s)
    (ho : AnswersOnlyIn ser τL s (GR ++ rightOps ser c d l) hs os) (hc : CalledFrom ser c τL d l u v me dest m x t) :
    UnforgedAcross ser c τL τR s d GL GR l hs os u v me t := by
  have hleft := C131_left ser c τL τR lr rl d GL GR l hb hleg hsp hfR hcohR hh
  have hdl : destLocal dest = false := by
    have hid : c.idR ≠ 0 := hb.cinv.left.id_ne
    have hne : c.nR ≠ .loc := hb.readyL.ne
    cases dest with
    | pid p => cases p with
      | loc i => exact absurd hon.symm hid
      | rem i k => rfl
    | named n k => cases k with
      | loc => exact absurd hon.symm hne
      | rem _ _ => rfl
    | «alias» r => cases r with
      | loc i => exact absurd hon.symm hid
      | rem i k => rfl
  -- the call
  obtain ⟨r1, hl1⟩ := hc.part
  obtain ⟨q1, q2, hq, hqo, ht⟩ := hc.tag
  have hx := hc.call
  rw [hq] at hx
  obtain ⟨hrun, p2, y0, p3, hq2, hp2⟩ := follows_call _ _ _ _ hx
  have hw : (drun ser c d u).L = run ser.L init (GL ++ leftOps ser c d u) := by rw [left_run, hL, ← run_append]
  rw [hw, ← run_append] at hrun ht
  rw [hw, ← run_append, ← ht] at hq2
  have hGL : GL ++ leftOps ser c d l = (GL ++ leftOps ser c d u ++ q1) ++ callMon me dest :: (p2 ++ request τL me dest (.loc t) y0 :: (p3 ++ leftOps ser c (drun ser c d (u ++ v)) r1)) := by
    rw [← hl1, leftOps_append, leftOps_append, hq, hq2]; simp
  have hold : ∀ {t'}, CalledAway ser.L GL t' → t' ≠ t := by
    rintro t' h rfl
    have h1 := h.lt
    have h2 : (run ser.L (init : World B V) GL).nextRef ≤ (run ser.L init (GL ++ leftOps ser c d u ++ q1)).nextRef := by
      rw [List.append_assoc, run_append ser.L init GL]; exact run_nextRef_le ..
    omega
  have one : ∀ {a o b}, GL ++ leftOps ser c d l = a ++ o :: b → ByCall ser.L τL a o t →
      ∃ a2 y, a = (GL ++ leftOps ser c d u ++ q1) ++ callMon me dest :: a2 ∧ (∀ x ∈ a2, Others me x) ∧ o = request τL me dest (.loc t) y := by
    rintro a o b hG ⟨me', d', a1, a2, y, rfl, hr, ht', ha2, rfl⟩
    have hG' : GL ++ leftOps ser c d l = a1 ++ callMon me' d' :: (a2 ++ request τL me' d' (.loc t) y :: b) := by rw [hG]; simp
    obtain ⟨h1, h2, h3, -⟩ := callMon_unique hG' hGL hr hrun (by rw [← ht, ← ht'])
    subst h1 h2 h3
    exact ⟨a2, y, rfl, ha2, rfl⟩
  have hnf := C127_no_forgery ser.L τL _ hfL hcohL hleft
  -- the operations of left, in its history
  have atL : ∀ {a o b}, l = a ++ .left o :: b → GL ++ leftOps ser c d l = (GL ++ leftOps ser c d a) ++ o :: leftOps ser c (drun ser c d (a ++ [.left o])) b := by
    intro a o b h
    have e : l = (a ++ [.left o]) ++ b := by rw [h]; simp
    rw [e, leftOps_append, leftOps_append, show leftOps ser c (drun ser c d a) [.left o] = [o] from rfl]
    simp
  have atR : ∀ {a o b}, l = a ++ .right o :: b → GR ++ rightOps ser c d l = (GR ++ rightOps ser c d a) ++ o :: rightOps ser c (drun ser c d (a ++ [.right o])) b := by
    intro a o b h
    have e : l = (a ++ [.right o]) ++ b := by rw [h]; simp
    rw [e, rightOps_append, rightOps_append, show rightOps ser c (drun ser c d a) [.right o] = [o] from rfl]
    simp
  refine ⟨?_, ?_, ?_, ?_, ?_, ?_⟩
  · -- pastL
    intro o hm y hr
    obtain ⟨a, b, rfl⟩ := List.append_of_mem hm
    have h1 := hnf a o (b ++ leftOps ser c d l) t y (by simp) hr
    have h2 : (run ser.L (init : World B V) a).nextRef ≤ (run ser.L init (a ++ o :: b ++ leftOps ser c d u ++ q1)).nextRef := by
      rw [show a ++ o :: b ++ leftOps ser c d u ++ q1 = a ++ (o :: b ++ leftOps ser c d u ++ q1) by simp, run_append ser.L init a]; exact run_nextRef_le ..
    omega
  · -- pastR
    intro o hm it frm y hsb hr htag
    obtain ⟨a, b, rfl⟩ := List.append_of_mem hm
    rcases request_right hb hleg hsp hfR hh (A := a) (o := o) (C := b ++ rightOps ser c d l) (by simp) hsb hr htag with h | ⟨u', rp, v', w1, w2, me', dest', y', -, hA, -⟩
    · exact hold h rfl
    · have := congrArg List.length hA
      simp at this
  · -- requestL
    intro a me' ds z b frm y hl hr htag
    have hop := hh.left.ops _ _ _ (atL hl)
    rcases sends_what hop (g := .call frm y) trivial hr with ⟨dest', t', y', hby, he⟩ | ⟨frm', y', -, he⟩
    · have he' := he
      simp only [request, Op.send.injEq] at he'
      obtain ⟨-, rfl, rfl⟩ := he'
      have hthere := hsp.there _ _ hr
      simp only [Carry.gmsg, GMsg.call.injEq] at hthere
      rw [hthere.1, hsp.ref] at htag
      cases htag
      have hG := atL hl
      rw [he] at hG
      obtain ⟨a2, y2, ha, ha2, hreq⟩ := one hG hby
      simp only [request, Op.send.injEq, Dests.one.injEq] at hreq
      obtain ⟨rfl, rfl, -⟩ := hreq
      refine ⟨rfl, ?_⟩
      -- where it is in the schedule
      have hlen1 : (leftOps ser c d u).length ≤ (leftOps ser c d a).length := by
        have := congrArg List.length ha
        simp at this; omega
      have hz : a2.length = p2.length := by
        rw [ha, hGL] at hG
        have h3 := List.append_cancel_left (hG.trans (List.append_assoc (GL ++ leftOps ser c d u ++ q1) ..))
        simp only [List.cons_append, List.cons.injEq, true_and] at h3
        obtain ⟨z', hz, hz2⟩ := append_past h3 (fun hm => (hp2 _ hm).1 rfl)
        cases z' with
        | nil => rw [List.append_nil] at hz; rw [hz]
        | cons z0 z' =>
          simp at hz2
          exact absurd rfl (ha2 (request τL me' dest' (.loc t) y0) (by rw [hz, hz2.1]; simp)).1
      have hlen2 : (leftOps ser c d a).length < (leftOps ser c d (u ++ v)).length := by
        have e1 := congrArg List.length ha
        rw [leftOps_append, hq, hq2]
        simp at e1 ⊢; omega
      refine ⟨?_, ?_⟩
      · refine Nat.le_of_not_lt fun hlt => ?_
        have hp : a ++ [.left (.send me' (.one dest') (τL.box (.call ⟨.loc me', .loc t, !destLocal dest'⟩ y')))] <+: u :=
          List.prefix_of_prefix_length_le (l₃ := l) ⟨b, by rw [hl]; simp⟩ ⟨v ++ r1, by rw [← hl1]; simp⟩ (by simp; omega)
        obtain ⟨z', rfl⟩ := hp
        rw [leftOps_append, leftOps_append] at hlen1
        simp [leftOps, leftOp] at hlen1
        omega
      · have hp : ¬ (u ++ v).length ≤ a.length := by
          intro hle
          have : u ++ v <+: a := List.prefix_of_prefix_length_le (l₃ := l) hc.part ⟨_, hl.symm⟩ hle
          obtain ⟨z', rfl⟩ := this
          rw [leftOps_append (a := u ++ v)] at hlen2
          simp at hlen2
          omega
        simp at hp; omega
    · simp only [replyOp, Op.send.injEq] at he
      obtain ⟨-, -, rfl⟩ := he
      have hthere := hsp.there _ _ hr
      simp [Carry.gmsg] at hthere
  · -- requestR
    intro o hm it frm y hsb hr htag
    obtain ⟨a, b, hl⟩ := List.append_of_mem hm
    rcases request_right hb hleg hsp hfR hh (atR hl) hsb hr htag with h | ⟨u', rp, v', w1, w2, me', dest', y', -, -, rfl, -⟩
    · exact hold h rfl
    · exact (hleg _ hm).2 _ _ rfl
  · -- replyL
    rintro o hm y ⟨it, hsb, hr⟩
    obtain ⟨a, b, hl⟩ := List.append_of_mem hm
    have hG := atL hl
    rcases hleft.replyFrom hfL hG ⟨it, hsb, hr⟩ with ⟨q, frm, y', hg, htag, rfl⟩ | ⟨rp, n, ts, bytes, rfl, hr⟩
    · obtain ⟨a1, o', a2, it', ha, hby, hu, hn1, hn2⟩ := hleft.origin hfL hcohL hG hg htag
      obtain ⟨a3, y'', -, -, rfl⟩ := one (b := a2 ++ replyOp τL q frm y' :: leftOps ser c (drun ser c d (a ++ [.left (replyOp τL q frm y')])) b)
        (by rw [hG, ha]; simp) hby
      -- the request left this node
      refine absurd hn2 ?_
      simp only [request, step, Op.caller]
      split
      · simp only [Op.exec, send, sendOpt, hdl]
        intro h
        refine hn1 ?_
        revert h
        simp only [Bool.false_eq_true, if_false]
        cases dest with
        | pid p => rw [sendFrame_sent_eq]; exact id
        | named nm k => rw [sendFrame_sent_eq, nodeRegister_sent_eq]; exact id
        | «alias» r => rw [sendFrame_sent_eq]; exact id
      · exact hn1
    · have hn : n ≠ c.nR := by rintro rfl; exact (hleg _ hm).2 rp _ rfl
      obtain ⟨me', d', a1, a2, h1, h2, h3, h4, h5⟩ := hh.left.replies _ rp n ts bytes _ t y hG (.inl hn) hr
      have hG' : GL ++ leftOps ser c d l = a1 ++ callMon me' d' :: (a2 ++ .frame rp n (.send ts bytes) :: leftOps ser c (drun ser c d (a ++ [.left (.frame rp n (.send ts bytes))])) b) := by
        rw [hG, h1]; simp
      obtain ⟨e1, -, e3, -⟩ := callMon_unique hG' hGL h2 hrun (by rw [← ht, ← h3])
      subst e3
      exact h5 (by rw [e1]; simp) hon
  · -- replyR
    intro a me' ds z b y hl hr
    obtain ⟨-, frm, hg, htag⟩ := answer_called hb hleg hsp hfR hh hcohR hl hr
    have hpre : a <+: l := ⟨_, hl.symm⟩
    have hme : me' = s := by
      rcases got_from_left hb (legal_prefix hleg hpre) hsp hfR (hh.prefix hpre) (coherent_part (b := rightOps ser c (drun ser c d a) (.right (.send me' ds z) :: b))
        (by rw [List.append_assoc, ← rightOps_append, ← hl]; exact hcohR)) hg htag with h | ⟨w1, w2, me2, dest', y', A, Z, rfl, hby, -, hA, hto⟩
      · exact absurd rfl (hold h)
      · obtain ⟨a2, y2, -, -, hreq⟩ := one (atL (a := w1) (o := request τL me2 dest' (.loc t) y') (b := w2 ++ .right (.send me' ds z) :: b) (by rw [hl]; simp)) hby
        simp only [request, Op.send.injEq, Dests.one.injEq] at hreq
        obtain ⟨-, rfl, -⟩ := hreq
        refine hd.is A (Z ++ rightOps ser c (drun ser c d (w1 ++ .left (request τL me2 dest' (.loc t) y') :: w2)) (.right (.send me' ds z) :: b)) me' ?_ hto
        rw [hl, rightOps_append, ← List.append_assoc, hA, List.append_assoc]
    subst hme
    exact ⟨rfl, ho _ _ _ (atR hl) rfl ⟨_, _, _, _, _, rfl, hr⟩⟩

/-- **C131**: a call to the server, from its own node or the other one, that returned was handled by it exactly once, and what `handle_call` returned was its result. -/
theorem C131_once (ser : Sers V B) (c : Conn) (srv : Server B V M S) (τL τR : RecvType B V (GMsg M)) (lr rl : Carry M) (s : Nat) (parent : Pid) (d : Duo B V)
    (GL GR : List (Op B V)) (l : List (DOp B V)) (hs os : List (Op B V)) (σ : S) (n : Nat) (log : Log M S)
    (h : Talk ser c srv τL τR lr rl s parent d GL GR l hs os σ n log) (k : MixCall B V M) (hk : k.Made ser c τL τR s d GR l) :
    ∃ cs1 r cs2, log.calls = cs1 ++ r :: cs2 ∧ k.Handles c lr rl r ∧ ∀ r' ∈ cs1 ++ cs2, ¬ k.For c r' := by
  have hright := C131_right ser c τL τR lr rl d GL GR l h.begins h.legal h.speaks' h.faithL h.cohL h.honest
  have hnf := C127_no_forgery ser.R τR _ h.faithR h.cohR hright
  cases k with
  | here pre ops me dest m x t =>
    exact C116_answered ser.R srv τR s parent _ hs os σ n log pre ops me dest m x t h.returns h.cohR hnf h.faithR h.serves hk.1
      (C127_unforged ser.R τR s _ hs os pre ops me dest m x t h.faithR h.cohR hright hk.1 hk.2 h.onlyR)
  | away u v me dest m x t =>
    exact C119_answered ser c srv τL τR lr rl s parent d GL GR l hs os σ n log u v me dest m x t h.begins h.pastL h.pastR h.legal h.speaks h.mutes h.cohL h.cohR h.serves hk.1
      (C131_unforged ser c τL τR lr rl s d GL GR l hs os u v me dest m x t h.begins h.pastL h.legal h.speaks h.faithL h.faithR h.cohL h.cohR h.honest hk.2.1 hk.2.2 h.onlyL hk.1)

/-- **C131**: if one call had returned before another one began, each from either node, the server handled the first before the second. -/
theorem C131_order (ser : Sers V B) (c : Conn) (srv : Server B V M S) (τL τR : RecvType B V (GMsg M)) (lr rl : Carry M) (s : Nat) (parent : Pid) (d : Duo B V)
    (GL GR : List (Op B V)) (l : List (DOp B V)) (hs os : List (Op B V)) (σ : S) (n : Nat) (log : Log M S)
    (h : Talk ser c srv τL τR lr rl s parent d GL GR l hs os σ n log) (k k' : MixCall B V M) (hk : k.Made ser c τL τR s d GR l) (hk' : k'.Made ser c τL τR s d GR l)
    (hbefore : k.Before ser c d GR k') :
    ∃ cs1 r cs2 r' cs3, log.calls = cs1 ++ r :: (cs2 ++ r' :: cs3) ∧ k.Handles c lr rl r ∧ k'.Handles c lr rl r' := by
  have hright := C131_right ser c τL τR lr rl d GL GR l h.begins h.legal h.speaks' h.faithL h.cohL h.honest
  have hnf := C127_no_forgery ser.R τR _ h.faithR h.cohR hright
  have hng := C131_no_guess ser c τL τR lr rl d GL GR l h.begins h.pastL h.legal h.speaks h.faithR h.cohR h.honest
  have hu : ∀ {pre ops me dest m x t}, (MixCall.here pre ops me dest m x t : MixCall B V M).Made ser c τL τR s d GR l →
      Unforged ser.R τR s (GR ++ rightOps ser c d l) hs os pre ops me t :=
    fun hk => C127_unforged ser.R τR s _ hs os _ _ _ _ _ _ _ h.faithR h.cohR hright hk.1 hk.2 h.onlyR
  have hua : ∀ {u v me dest m x t}, (MixCall.away u v me dest m x t : MixCall B V M).Made ser c τL τR s d GR l →
      UnforgedAcross ser c τL τR s d GL GR l hs os u v me t :=
    fun hk => C131_unforged ser c τL τR lr rl s d GL GR l hs os _ _ _ _ _ _ _ h.begins h.pastL h.legal h.speaks h.faithL h.faithR h.cohL h.cohR h.honest hk.2.1 hk.2.2 h.onlyL hk.1
  cases k with
  | here pre ops me dest m x t =>
    cases k' with
    | here pre' ops' me' dest' m' x' t' =>
      exact C116_order ser.R srv τR s parent _ hs os σ n log _ _ _ _ _ _ _ _ _ _ _ _ _ _ h.returns h.cohR hnf h.faithR h.serves hk.1 (hu hk) hk'.1 (hu hk') hbefore
    | away u' v' me' dest' m' x' t' =>
      exact C121_local_then_remote ser c srv τL τR lr rl s parent d GL GR l hs os σ n log _ _ _ _ _ _ _ _ _ _ _ _ _ _ h.begins h.pastL h.pastR h.legal h.speaks h.faithR h.mutes
        h.returns h.cohL h.cohR h.serves hng hnf hk.1 (hu hk) hk'.1 (hua hk') hbefore
  | away u v me dest m x t =>
    cases k' with
    | here pre' ops' me' dest' m' x' t' =>
      exact C121_remote_then_local ser c srv τL τR lr rl s parent d GL GR l hs os σ n log _ _ _ _ _ _ _ _ _ _ _ _ _ _ h.begins h.pastL h.pastR h.legal h.speaks h.faithR h.mutes
        h.returns h.cohL h.cohR h.serves hnf hk.1 (hua hk) hk'.1 (hu hk') hbefore
    | away u' v' me' dest' m' x' t' =>
      exact C119_order ser c srv τL τR lr rl s parent d GL GR l hs os σ n log _ _ _ _ _ _ _ _ _ _ _ _ _ _ h.begins h.pastL h.pastR h.legal h.speaks h.mutes
        h.cohL h.cohR h.serves hng hk.1 (hua hk) hk'.1 (hua hk') hbefore

theorem MixCall.for_of_handles {c : Conn} {lr rl : Carry M} {r : Record M S} {k : MixCall B V M} (h : k.Handles c lr rl r) : k.For c r := by
  cases k with
  | here => exact ⟨_, _, h.1, rfl⟩
  | away => exact ⟨_, _, h.1, rfl⟩

theorem MixCall.ref_of_for {c : Conn} {r : Record M S} {k k' : MixCall B V M} (h : k.For c r) (h' : k'.For c r) : k.ref = k'.ref := by
  cases k <;> cases k' <;> obtain ⟨m, frm, h1, h2⟩ := h <;> obtain ⟨m', frm', h3, h4⟩ := h' <;> rw [h1] at h3 <;> cases h3 <;> rw [h2] at h4 <;> cases h4 <;> rfl

/-- **C131**: a server is one state machine for the callers of both nodes. For any family of calls to it that returned, from its own node and from the other one, there is
one order in which the server handled them: each call has its place in the log of the server, where `handle_call` got its request and returned its result, two
calls have the same place only if they are the same one, and a call that had returned before another one began comes before it, whatever the nodes of the
two. If the callbacks compute a function of the state, the log is a run of this function, one invocation after the other. -/
theorem C131_linearizable (ser : Sers V B) (c : Conn) (srv : Server B V M S) (τL τR : RecvType B V (GMsg M)) (lr rl : Carry M) (s : Nat) (parent : Pid) (d : Duo B V)
    (GL GR : List (Op B V)) (l : List (DOp B V)) (hs os : List (Op B V)) (σ : S) (n : Nat) (log : Log M S)
    (h : Talk ser c srv τL τR lr rl s parent d GL GR l hs os σ n log) {I : Type} (K : I → MixCall B V M) (hk : ∀ i, (K i).Made ser c τL τR s d GR l) :
    (∃ pos : I → Nat, (∀ i, ∃ r, log.calls[pos i]? = some r ∧ (K i).Handles c lr rl r) ∧ (∀ i j, pos i = pos j → (K i).ref = (K j).ref) ∧
      ∀ i j, (K i).Before ser c d GR (K j) → pos i < pos j) ∧
    ∀ δ, Computes ser.R srv s δ → Sequential δ σ log.calls := by
  refine ⟨?_, fun δ hδ => C116_sequential ser.R srv τR s parent _ hs os σ n log h.serves δ hδ⟩
  have one : ∀ i, ∃ p : Nat, (∃ r, log.calls[p]? = some r ∧ (K i).Handles c lr rl r) ∧ ∀ (q : Nat) (r : Record M S), log.calls[q]? = some r → (K i).For c r → q = p := by
    intro i
    obtain ⟨cs1, r, cs2, hl, hh, hno⟩ := C131_once ser c srv τL τR lr rl s parent d GL GR l hs os σ n log h (K i) (hk i)
    refine ⟨cs1.length, ⟨r, by rw [hl]; simp, hh⟩, ?_⟩
    intro q r' hq hf
    rw [hl] at hq
    rcases Nat.lt_trichotomy q cs1.length with hlt | rfl | hgt
    · rw [List.getElem?_append_left hlt] at hq
      exact absurd hf (hno _ (List.mem_append_left _ (List.mem_of_getElem? hq)))
    · rfl
    · rw [List.getElem?_append_right (by omega), show q - cs1.length = (q - cs1.length - 1) + 1 by omega, List.getElem?_cons_succ] at hq
      exact absurd hf (hno _ (List.mem_append_right _ (List.mem_of_getElem? hq)))
  obtain ⟨pos, hpos⟩ := Classical.axiomOfChoice one
  refine ⟨pos, fun i => (hpos i).1, ?_, ?_⟩
  · intro i j he
    obtain ⟨r, h1, h2⟩ := (hpos i).1
    obtain ⟨r', h3, h4⟩ := (hpos j).1
    rw [he, h3] at h1
    cases h1
    exact MixCall.ref_of_for (MixCall.for_of_handles h2) (MixCall.for_of_handles h4)
  · intro i j hb
    obtain ⟨cs1, r, cs2, r', cs3, hl, h1, h2⟩ := C131_order ser c srv τL τR lr rl s parent d GL GR l hs os σ n log h (K i) (K j) (hk i) (hk j) hb
    have e1 := (hpos i).2 cs1.length r (by rw [hl]; simp) (MixCall.for_of_handles h1)
    have e2 := (hpos j).2 (cs1.length + 1 + cs2.length) r' (by
      rw [hl, List.getElem?_append_right (by omega), show cs1.length + 1 + cs2.length - cs1.length = cs2.length + 1 by omega, List.getElem?_cons_succ,
        List.getElem?_append_right (by omega)]; simp) (MixCall.for_of_handles h2)
    omega

/-- **C131**: read your writes: a cast of the other node before a call of it to the server is handled before the call, as C120 says; here this needs only that both nodes are
honest. -/
theorem C131_cast_then_call (ser : Sers V B) (c : Conn) (srv : Server B V M S) (τL τR : RecvType B V (GMsg M)) (lr rl : Carry M) (s : Nat) (parent : Pid) (d : Duo B V)
    (GL GR : List (Op B V)) (l : List (DOp B V)) (hs os : List (Op B V)) (σ : S) (n : Nat) (log : Log M S)
    (h : Talk ser c srv τL τR lr rl s parent d GL GR l hs os σ n log) (u v : List (DOp B V)) (me : Nat) (dest : Dest) (m x : M) (t : Nat) (w : List (DOp B V)) (q : Nat) (m' : M)
    (hk : (MixCall.away u v me dest m x t : MixCall B V M).Made ser c τL τR s d GR l)
    (hcast : CastFrom ser c τL d l w q s m') (hread : τR.deser (ser.L (τL.box (.cast m'))) = some (.cast (lr.msg m')))
    (hlr : LeavesRequests ser.R srv τR (castOf (lr.msg m')) s)
    (hserver : running (run ser.R init hs) s = true) (hafter : hs.length ≤ (GR ++ rightOps ser c d w).length) (hbefore : w.length < u.length) :
    ∃ cs1 r' cs2 r cs3, log.calls = cs1 ++ r' :: (cs2 ++ r :: cs3) ∧ r'.what = .cast (lr.msg m') ∧ HandledFrom c lr rl r me dest m x t :=
  C120_cast_then_call ser c srv τL τR lr rl s parent d GL GR l hs os σ n log u v me dest m x t w q m' h.begins h.pastL h.pastR h.legal h.speaks h.mutes h.cohL h.cohR h.serves hk.1
    (C131_unforged ser c τL τR lr rl s d GL GR l hs os u v me dest m x t h.begins h.pastL h.legal h.speaks h.faithL h.faithR h.cohL h.cohR h.honest hk.2.1 hk.2.2 h.onlyL hk.1)
    hcast hread hlr hserver hafter hbefore

/-- **C131**: what the processes of a node do is honest if each runs an honest program. -/
theorem C131_programs (ser : V → B) (τ τ' : RecvType B V (GMsg M)) (G : List (Op B V)) (hp : HonestPrograms ser τ (TalksAcross ser τ τ') G) :
    ∀ a o b, G = a ++ o :: b → HonestOp ser τ (TalksAcross ser τ τ') a o := by
  rintro a o b hG me ds v rfl
  refine (?_ : HonestOp ser τ (TalksAcross ser τ τ') a (.send me ds v)) me ds v rfl
  generalize hq : me = q
  generalize ho : (Op.send me ds v : Op B V) = o at hG
  have hc : o.caller = some q := by rw [← ho, ← hq]; rfl
  rw [show (Op.send q ds v : Op B V) = o from by rw [← ho, ← hq]]
  obtain ⟨R, p, ⟨pre, os, post, h1, h2, h3, h4⟩, h5⟩ := hp q ⟨o, by rw [hG]; simp, hc⟩
  rw [hG] at h1
  obtain ⟨a', rfl, h6⟩ := append_past h1.symm (fun hm => h2 o hm hc)
  obtain ⟨b', rfl, -⟩ := append_before h6 (fun hm => h3 o hm hc)
  exact h5 pre a' o b' h4 hc

/-- **C131**: what talks across is told by its contents; so `GenServer::cast` and what a client sends that is not a request or a reply is honest (`HonestFrom`). -/
theorem C131_telling (ser : Sers V B) (c : Conn) (τL τR : RecvType B V (GMsg M)) (lr rl : Carry M) (hf : Faithful ser.L τL) (hsp : Speaks ser c τL τR lr rl) :
    Telling τL (TalksAcross ser.L τL τR) := by
  rintro g (hg | ⟨g', hg', hr⟩)
  · exact talks_telling hf g hg
  · have := hsp.there g g' hr
    subst this
    cases g <;> first | trivial | exact absurd hg' (by simp [Carry.gmsg, GMsg.talks])

/-- **C131**: a server process that answers the other node only by its loop: what comes before it does not answer, and its process does nothing after it. -/
theorem C131_only_in_loop (ser : Sers V B) (τL τR : RecvType B V (GMsg M)) (srv : Server B V M S) (s : Nat) (parent : Pid) (n : Nat) (G pre b os post : List (Op B V))
    (p : Prog B V S) (σ : S) (l : Log M S) (hG : G = pre ++ (b ++ (os ++ post))) (hpre : ∀ o ∈ pre, o.caller ≠ some s) (hpost : ∀ o ∈ post, o.caller ≠ some s)
    (hp : Mute ser.R s (AnswersLeft ser τL) p) (hb : Exec ser.R s (run ser.R init pre) p b σ)
    (hl : Exec ser.R s (run ser.R init (pre ++ b)) (serverLoop srv τR s parent n σ) os l) : AnswersOnlyIn ser τL s G (pre ++ b) os := by
  intro a o c hGa hc hrep
  rw [hG] at hGa
  obtain ⟨a1, rfl, h1⟩ := append_past hGa (fun hm => hpre o hm hc)
  obtain ⟨a2, rfl, h2⟩ := append_past h1 (fun hm => hp _ _ _ hb o hm hc hrep)
  obtain ⟨c', rfl, -⟩ := append_before h2 (fun hm => hpost o hm hc)
  simp
  omega

/-! ## Example: the two nodes of TwoNodeMixProps.lean -/

def sendOf : Op Wire (GMsg Nat) → Option (GMsg Nat)
  | .send _ _ v => some v
  | _ => none

def sendFrameOf : Op Wire (GMsg Nat) → Option Node
  | .frame _ n (.send _ _) => some n
  | _ => none

theorem mix_speaks' : Speaks mixSer.swap duoC.swap mixR mixL flips flips := by
  refine ⟨fun g g' h => by cases h; rfl, fun g g' h => by cases h; rfl, fun _ => rfl, fun _ => rfl, ?_⟩
  intro r i h
  cases r with
  | loc j => cases h
  | rem j n =>
    simp only [flipRef] at h
    split at h
    · rename_i h1; cases h; subst h1; rfl
    · cases h

theorem mix_faithfulL : Faithful mixSer.L mixL := by intro g g' h; cases h; rfl

theorem mix_sendsR {a b : List (Op Wire (GMsg Nat))} {o : Op Wire (GMsg Nat)} {g} (h : mixStartR ++ mixRight = a ++ o :: b) (hs : sendOf o = some g) :
    a.length ∈ [10, 13, 20, 23, 26] ∧ (mixStartR ++ mixRight)[a.length]? = some o := by
  have := mem_placed ((mixStartR ++ mixRight).map sendOf) 0 a.length g (by rw [h]; simp [hs])
  rw [Nat.zero_add] at this
  refine ⟨?_, by rw [h]; simp⟩
  have := List.mem_map_of_mem (f := Prod.fst) this
  exact this

theorem mix_sendsL {a b : List (Op Wire (GMsg Nat))} {o : Op Wire (GMsg Nat)} {g} (h : mixStartL ++ mixCalls = a ++ o :: b) (hs : sendOf o = some g) :
    a.length = 7 ∧ (mixStartL ++ mixCalls)[a.length]? = some o := by
  have := mem_placed ((mixStartL ++ mixCalls).map sendOf) 0 a.length g (by rw [h]; simp [hs])
  rw [Nat.zero_add] at this
  refine ⟨?_, by rw [h]; simp⟩
  have := List.mem_map_of_mem (f := Prod.fst) this
  exact List.mem_singleton.1 this

theorem mix_framesR {a b : List (Op Wire (GMsg Nat))} {rp n ts bytes} (h : mixStartR ++ mixRight = a ++ .frame rp n (.send ts bytes) :: b) :
    a.length = 18 ∧ n = .rem "a" (addr 1) := by
  have := mem_placed ((mixStartR ++ mixRight).map sendFrameOf) 0 a.length n (by rw [h]; simp [sendFrameOf])
  rw [Nat.zero_add] at this
  have := List.mem_singleton.1 (show (a.length, n) ∈ [(18, Node.rem "a" (addr 1))] from this)
  exact ⟨congrArg Prod.fst this, congrArg Prod.snd this⟩

theorem mix_framesL {a b : List (Op Wire (GMsg Nat))} {rp n ts bytes} (h : mixStartL ++ mixCalls = a ++ .frame rp n (.send ts bytes) :: b) :
    a.length = 9 ∧ n = .rem "b" (addr 2) := by
  have := mem_placed ((mixStartL ++ mixCalls).map sendFrameOf) 0 a.length n (by rw [h]; simp [sendFrameOf])
  rw [Nat.zero_add] at this
  have := List.mem_singleton.1 (show (a.length, n) ∈ [(9, Node.rem "b" (addr 2))] from this)
  exact ⟨congrArg Prod.fst this, congrArg Prod.snd this⟩

/-- What the processes of "b" do is honest. -/
theorem mix_opsR : ∀ a o b, mixStartR ++ mixRight = a ++ o :: b → HonestOp mixSer.R mixR (TalksAcross mixSer.R mixR mixL) a o := by
  rintro a o b h me ds v rfl -
  have ha : a = (mixStartR ++ mixRight).take a.length := by rw [h]; simp
  obtain ⟨h1, h2⟩ := mix_sendsR h (g := v) rfl
  simp only [List.mem_cons, List.not_mem_nil, or_false] at h1
  rcases h1 with hk | hk | hk | hk | hk <;> rw [hk] at h2 ha <;> cases h2 <;> rw [ha]
  · exact .inl ⟨1, 6, here, (mixStartR ++ mixRight).take 9, [], 7, rfl, rfl, rfl, by simp, rfl⟩
  · exact .inr ⟨⟨.loc 6, .loc 1, false⟩, 1, 7, ⟨(mixStartR ++ mixRight).take 12, [], fun _ => true, true, .resume, 7, rfl, rfl⟩, rfl⟩
  · exact .inr ⟨⟨.rem 1 1, .rem 1 1, true⟩, 1, 11, ⟨(mixStartR ++ mixRight).take 19, [], fun _ => true, true, .resume, 4, rfl, rfl⟩, rfl⟩
  · exact .inl ⟨2, 6, here, (mixStartR ++ mixRight).take 22, [], 5, rfl, rfl, rfl, by simp, rfl⟩
  · exact .inr ⟨⟨.loc 6, .loc 2, false⟩, 1, 16, ⟨(mixStartR ++ mixRight).take 25, [], fun _ => true, true, .resume, 5, rfl, rfl⟩, rfl⟩

theorem mix_opsL : ∀ a o b, mixStartL ++ mixCalls = a ++ o :: b → HonestOp mixSer.L mixL (TalksAcross mixSer.L mixL mixR) a o := by
  rintro a o b h me ds v rfl -
  have ha : a = (mixStartL ++ mixCalls).take a.length := by rw [h]; simp
  obtain ⟨hk, h2⟩ := mix_sendsL h (g := v) rfl
  rw [hk] at h2 ha
  cases h2
  rw [ha]
  exact .inl ⟨1, 1, theServer, (mixStartL ++ mixCalls).take 6, [], 4, rfl, rfl, rfl, by simp, rfl⟩

theorem mix_honest : HonestDuo mixSer duoC mixL mixR mixDuo mixStartL mixStartR mixTalk := by
  refine ⟨⟨?_, ?_, ?_⟩, ⟨?_, ?_, ?_⟩⟩
  · rw [mix_left]; exact mix_opsL
  · intro a rp n ts bytes b frm y h hor
    rw [mix_left] at h
    obtain ⟨h1, h2⟩ := mix_framesL h
    rcases hor with h3 | h3
    · exact absurd h2 h3
    · rw [h1] at h3; exact absurd h3 (by decide)
  · intro a rp n ts bytes b frm y h hor
    rw [mix_left] at h
    obtain ⟨h1, h2⟩ := mix_framesL h
    rcases hor with h3 | h3
    · exact absurd h2 h3
    · rw [h1] at h3; exact absurd h3 (by decide)
  · rw [mix_right]; exact mix_opsR
  · intro a rp n ts bytes b frm y h hor
    rw [mix_right] at h
    obtain ⟨h1, h2⟩ := mix_framesR h
    rcases hor with h3 | h3
    · exact absurd h2 h3
    · rw [h1] at h3; exact absurd h3 (by decide)
  · intro a rp n ts bytes b frm y h hor
    rw [mix_right] at h
    obtain ⟨h1, h2⟩ := mix_framesR h
    rcases hor with h3 | h3
    · exact absurd h2 h3
    · rw [h1] at h3; exact absurd h3 (by decide)

theorem mix_talks : Talk mixSer duoC mixTally mixL mixR flips flips 1 (.loc 1) mixDuo mixStartL mixStartR mixTalk mixStartR (rightOps mixSer duoC mixDuo mixTalk) 0 3 mixLog where
  begins := mix_begins
  pastL := rfl
  pastR := rfl
  legal := mix_legal
  speaks := mix_speaks
  speaks' := mix_speaks'
  faithL := mix_faithfulL
  faithR := mix_faithful
  cohL := mix_coherentL
  cohR := mix_right ▸ mix_coherentR
  honest := mix_honest
  serves := mix_serves
  mutes := mix_mutes
  returns := mix_returns
  onlyL := by
    rintro a o b h hc ⟨me, ds, v, n, y, rfl, -⟩
    rw [mix_right] at h ⊢
    obtain ⟨h1, -⟩ := mix_sendsR h (g := v) rfl
    simp only [List.mem_cons, List.not_mem_nil, or_false] at h1
    rcases h1 with hk | hk | hk | hk | hk <;> rw [hk] <;> decide
  onlyR := by
    intro a o b t y h hc hr
    rw [mix_right] at h ⊢
    obtain ⟨it, hs, hr⟩ := hr
    have key : a.length ∈ [10, 13, 18, 20, 23, 26] := by
      cases hs with
      | frame rp n ts bytes => rw [(mix_framesR h).1]; simp
      | «local» me ds v => have := (mix_sendsR h (g := v) rfl).1; simp only [List.mem_cons, List.not_mem_nil, or_false] at this ⊢; omega
      | serial me ds v => have := (mix_sendsR h (g := v) rfl).1; simp only [List.mem_cons, List.not_mem_nil, or_false] at this ⊢; omega
    simp only [List.mem_cons, List.not_mem_nil, or_false] at key
    rcases key with hk | hk | hk | hk | hk | hk <;> rw [hk] <;> decide

theorem mix_means : Means mixSer.R (mixStartR ++ rightOps mixSer duoC mixDuo mixTalk) here 1 := by
  refine ⟨rfl, ?_⟩
  intro a b i _ h
  simp only [targetOf] at h
  split at h
  · exact (Option.some.inj h).symm
  · cases h

/-- The calls of the sample: one of "b", one of "a", and again one of "b". -/
def mixKs : Fin 3 → MixCall Wire (GMsg Nat) Nat
  | 0 => .here (mixStartR ++ [.recv 1 mixAny .select]) (mixHere 1 7 7) 6 here 7 7 1
  | 1 => .away mixU (mixThere 1 4 11) 1 theServer 4 11 1
  | 2 => .here (mixStartR ++ .recv 1 mixAny .select :: mixHere 1 7 7 ++ .recv 1 mixAny .select :: mixServes ++ [.recv 1 mixAny .select]) (mixHere 2 5 16) 6 here 5 16 2

theorem mixKs_made : ∀ i, (mixKs i).Made mixSer duoC mixL mixR 1 mixDuo mixStartR mixTalk
  | 0 => ⟨mix_right ▸ mix_called1, mix_means⟩
  | 1 => ⟨mix_called, rfl, mix_means⟩
  | 2 => ⟨mix_right ▸ mix_called2, mix_means⟩

example : (mixKs 0).Before mixSer duoC mixDuo mixStartR (mixKs 1) ∧ (mixKs 1).Before mixSer duoC mixDuo mixStartR (mixKs 2) :=
  ⟨⟨[.recv 1 mixAny .select], rfl⟩, ⟨[.recv 1 mixAny .select], rfl⟩⟩

example := C131_linearizable _ _ _ _ _ _ _ _ _ _ _ _ _ _ _ _ _ _ mix_talks mixKs mixKs_made

/-! ### A cast and a call of "a" -/

abbrev wireU : List (DOp Wire (GMsg Nat)) := [.right (.recv 1 mixAny .select), .left (castMsg mixL 1 theServer 5)]
abbrev wireCall : List (DOp Wire (GMsg Nat)) :=
  [.left (callMon 1 theServer), .left (request mixL 1 theServer (.loc 1) 7), .left (.recv 1 (mixAwaitsL 1) .select), .toR 5,
   .right (.recv 1 mixAny .resume), .right (.recv 1 mixAny .select), .toR 5, .toR 5,
   .right (.recv 1 mixAny .resume), .right (replyOp mixR 1 ⟨.rem 1 1, .rem 1 1, true⟩ 12), .toL 5, .left (.recv 1 (mixAwaitsL 1) .resume),
   .left (.demonitor 1 (.loc 1))]
abbrev wireTalk : List (DOp Wire (GMsg Nat)) := wireU ++ wireCall
abbrev wireLog : Log Nat Nat :=
  ⟨[⟨.cast 5, 0, 5, .ok none⟩, ⟨.call 7 ⟨.rem 1 1, .rem 1 1, true⟩, 5, 12, .ok (some 12)⟩], none, 12⟩
abbrev wireLeft : List (Op Wire (GMsg Nat)) :=
  [castMsg mixL 1 theServer 5, callMon 1 theServer, request mixL 1 theServer (.loc 1) 7, .recv 1 (mixAwaitsL 1) .select,
   .frame 5 (.rem "b" (addr 2)) (.send [.alias 1] (false, .callReply (.rem 1 1) 12)), .recv 1 (mixAwaitsL 1) .resume, .demonitor 1 (.loc 1)]
abbrev wireRight : List (Op Wire (GMsg Nat)) :=
  [.recv 1 mixAny .select, .frame 5 (.rem "a" (addr 1)) (.send [.pid 1] (true, .cast 5)), .recv 1 mixAny .resume, .recv 1 mixAny .select,
   .frame 5 (.rem "a" (addr 1)) (.monitor true (some 1) none (some 1) 1),
   .frame 5 (.rem "a" (addr 1)) (.send [.pid 1] (true, .call ⟨.loc 1, .loc 1, true⟩ 7)), .recv 1 mixAny .resume,
   replyOp mixR 1 ⟨.rem 1 1, .rem 1 1, true⟩ 12]

theorem wire_left : leftOps mixSer duoC mixDuo wireTalk = wireLeft := rfl
theorem wire_right : rightOps mixSer duoC mixDuo wireTalk = wireRight := rfl

theorem wire_called : CalledFrom mixSer duoC mixL mixDuo wireTalk wireU wireCall 1 theServer 7 12 1 := by
  refine ⟨⟨[], rfl⟩, ?_, [], _, rfl, by simp, rfl⟩
  rw [show leftOps mixSer duoC (drun mixSer duoC mixDuo wireU) wireCall = wireLeft.drop 1 from rfl]
  refine .op rfl (.op rfl (.pending rfl rfl (.env ⟨by simp [Op.caller], by simp⟩ (.got (m := .user (.callReply (.loc 1) 12)) rfl rfl ?_))))
  exact .op rfl (.ret _ _)

theorem wire_serves : Serves mixSer.R mixTally mixR 1 (.loc 1) (mixStartR ++ rightOps mixSer duoC mixDuo wireTalk) mixStartR
    (rightOps mixSer duoC mixDuo wireTalk) 0 2 wireLog := by
  refine ⟨List.prefix_rfl, ?_⟩
  rw [wire_right]
  refine .pending rfl rfl (.env ⟨by simp [Op.caller], by simp⟩ (.got (m := .user (.cast 5)) rfl rfl ?_))
  refine .pending rfl rfl (.env ⟨by simp [Op.caller], by simp⟩ (.env ⟨by simp [Op.caller], by simp⟩
    (.got (m := .user (.call ⟨.rem 1 1, .rem 1 1, true⟩ 7)) rfl rfl (.op rfl ?_))))
  exact .ret _ _

theorem wire_sendsR {a b : List (Op Wire (GMsg Nat))} {o : Op Wire (GMsg Nat)} {g} (h : mixStartR ++ wireRight = a ++ o :: b) (hs : sendOf o = some g) :
    a.length = 15 ∧ (mixStartR ++ wireRight)[a.length]? = some o := by
  have := mem_placed ((mixStartR ++ wireRight).map sendOf) 0 a.length g (by rw [h]; simp [hs])
  rw [Nat.zero_add] at this
  refine ⟨?_, by rw [h]; simp⟩
  have := List.mem_map_of_mem (f := Prod.fst) this
  exact List.mem_singleton.1 this

theorem wire_sendsL {a b : List (Op Wire (GMsg Nat))} {o : Op Wire (GMsg Nat)} {g} (h : mixStartL ++ wireLeft = a ++ o :: b) (hs : sendOf o = some g) :
    a.length ∈ [6, 8] ∧ (mixStartL ++ wireLeft)[a.length]? = some o := by
  have := mem_placed ((mixStartL ++ wireLeft).map sendOf) 0 a.length g (by rw [h]; simp [hs])
  rw [Nat.zero_add] at this
  refine ⟨?_, by rw [h]; simp⟩
  have := List.mem_map_of_mem (f := Prod.fst) this
  exact this

theorem wire_framesR {a b : List (Op Wire (GMsg Nat))} {rp n ts bytes} (h : mixStartR ++ wireRight = a ++ .frame rp n (.send ts bytes) :: b) :
    (a.length = 9 ∨ a.length = 13) ∧ n = .rem "a" (addr 1) := by
  have := mem_placed ((mixStartR ++ wireRight).map sendFrameOf) 0 a.length n (by rw [h]; simp [sendFrameOf])
  rw [Nat.zero_add] at this
  have h1 : (a.length, n) ∈ [(9, Node.rem "a" (addr 1)), (13, Node.rem "a" (addr 1))] := this
  simp only [List.mem_cons, Prod.mk.injEq, List.not_mem_nil, or_false] at h1
  rcases h1 with h1 | h1
  · exact ⟨.inl h1.1, h1.2⟩
  · exact ⟨.inr h1.1, h1.2⟩

theorem wire_framesL {a b : List (Op Wire (GMsg Nat))} {rp n ts bytes} (h : mixStartL ++ wireLeft = a ++ .frame rp n (.send ts bytes) :: b) :
    a.length = 10 ∧ n = .rem "b" (addr 2) := by
  have := mem_placed ((mixStartL ++ wireLeft).map sendFrameOf) 0 a.length n (by rw [h]; simp [sendFrameOf])
  rw [Nat.zero_add] at this
  have := List.mem_singleton.1 (show (a.length, n) ∈ [(10, Node.rem "b" (addr 2))] from this)
  exact ⟨congrArg Prod.fst this, congrArg Prod.snd this⟩

theorem wire_opsR : ∀ a o b, mixStartR ++ wireRight = a ++ o :: b → HonestOp mixSer.R mixR (TalksAcross mixSer.R mixR mixL) a o := by
  rintro a o b h me ds v rfl -
  have ha : a = (mixStartR ++ wireRight).take a.length := by rw [h]; simp
  obtain ⟨hk, h2⟩ := wire_sendsR h (g := v) rfl
  rw [hk] at h2 ha
  cases h2
  rw [ha]
  exact .inr ⟨⟨.rem 1 1, .rem 1 1, true⟩, 1, 12, ⟨(mixStartR ++ wireRight).take 14, [], fun _ => true, true, .resume, 7, rfl, rfl⟩, rfl⟩

theorem wire_opsL : ∀ a o b, mixStartL ++ wireLeft = a ++ o :: b → HonestOp mixSer.L mixL (TalksAcross mixSer.L mixL mixR) a o := by
  rintro a o b h me ds v rfl hv
  have ha : a = (mixStartL ++ wireLeft).take a.length := by rw [h]; simp
  obtain ⟨hk, h2⟩ := wire_sendsL h (g := v) rfl
  simp only [List.mem_cons, List.not_mem_nil, or_false] at hk
  rcases hk with hk | hk <;> rw [hk] at h2 ha <;> cases h2
  · exact (C131_telling mixSer duoC mixL mixR flips flips mix_faithfulL mix_speaks (.cast 5) hv).elim
  · rw [ha]
    exact .inl ⟨1, 1, theServer, (mixStartL ++ wireLeft).take 7, [], 7, rfl, rfl, rfl, by simp, rfl⟩

theorem wire_honest : HonestDuo mixSer duoC mixL mixR mixDuo mixStartL mixStartR wireTalk := by
  refine ⟨⟨?_, ?_, ?_⟩, ⟨?_, ?_, ?_⟩⟩
  · rw [wire_left]; exact wire_opsL
  · intro a rp n ts bytes b frm y h hor
    rw [wire_left] at h
    obtain ⟨h1, h2⟩ := wire_framesL h
    rcases hor with h3 | h3
    · exact absurd h2 h3
    · rw [h1] at h3; exact absurd h3 (by decide)
  · intro a rp n ts bytes b frm y h hor
    rw [wire_left] at h
    obtain ⟨h1, h2⟩ := wire_framesL h
    rcases hor with h3 | h3
    · exact absurd h2 h3
    · rw [h1] at h3; exact absurd h3 (by decide)
  · rw [wire_right]; exact wire_opsR
  · intro a rp n ts bytes b frm y h hor
    rw [wire_right] at h
    obtain ⟨h1, h2⟩ := wire_framesR h
    rcases hor with h3 | h3
    · exact absurd h2 h3
    · simp only [List.length_cons, List.length_nil] at h3; omega
  · intro a rp n ts bytes b frm y h hor
    rw [wire_right] at h
    obtain ⟨h1, h2⟩ := wire_framesR h
    rcases hor with h3 | h3
    · exact absurd h2 h3
    · simp only [List.length_cons, List.length_nil] at h3; omega

theorem wire_coherentR : Coherent mixR (mixStartR ++ wireRight) := by
  intro a o k h b t' x h1
  simp only [replyOp, List.cons_append, List.nil_append, List.mem_cons, List.not_mem_nil, or_false, reduceCtorEq, false_or] at h
  rcases h with h | h | h | h <;> cases h <;> (intro h; cases h; exact h1)

theorem wire_coherentL : Coherent mixL (mixStartL ++ wireLeft) := by
  intro a o k h b t' x h1
  simp only [castMsg, callMon, monOp, theServer, destLocal, Pid.isLocal, request, List.cons_append, List.nil_append, List.mem_cons, List.not_mem_nil, or_false,
    reduceCtorEq, false_or] at h
  rcases h with h | h | h <;> cases h <;> (intro h; cases h; exact h1)

theorem wire_legal : ∀ s ∈ wireTalk, Legal duoC s := by
  intro s hs
  simp only [wireTalk, wireU, wireCall, List.cons_append, List.nil_append, List.mem_cons, List.not_mem_nil, or_false] at hs
  rcases hs with h | h | h | h | h | h | h | h | h | h | h | h | h | h | h <;> subst h <;>
    simp [Legal, Undisturbed, callMon, monOp, destLocal, Pid.isLocal, request, replyOp, castMsg]

theorem wire_talks : Talk mixSer duoC mixTally mixL mixR flips flips 1 (.loc 1) mixDuo mixStartL mixStartR wireTalk mixStartR (rightOps mixSer duoC mixDuo wireTalk) 0 2 wireLog where
  begins := mix_begins
  pastL := rfl
  pastR := rfl
  legal := wire_legal
  speaks := mix_speaks
  speaks' := mix_speaks'
  faithL := mix_faithfulL
  faithR := mix_faithful
  cohL := wire_left ▸ wire_coherentL
  cohR := wire_right ▸ wire_coherentR
  honest := wire_honest
  serves := wire_serves
  mutes := mix_mutes
  returns := mix_returns
  onlyL := by
    rintro a o b h hc ⟨me, ds, v, n, y, rfl, -⟩
    rw [wire_right] at h ⊢
    obtain ⟨hk, -⟩ := wire_sendsR h (g := v) rfl
    rw [hk]; decide
  onlyR := by
    intro a o b t y h hc hr
    rw [wire_right] at h ⊢
    obtain ⟨it, hs, hr⟩ := hr
    have key : a.length ∈ [9, 13, 15] := by
      simp only [List.mem_cons, List.not_mem_nil, or_false]
      cases hs with
      | frame rp n ts bytes => have := (wire_framesR h).1; omega
      | «local» me ds v => have := (wire_sendsR h (g := v) rfl).1; omega
      | serial me ds v => have := (wire_sendsR h (g := v) rfl).1; omega
    simp only [List.mem_cons, List.not_mem_nil, or_false] at key
    rcases key with hk | hk | hk <;> rw [hk] <;> decide

theorem wire_means : Means mixSer.R (mixStartR ++ rightOps mixSer duoC mixDuo wireTalk) here 1 := by
  refine ⟨rfl, ?_⟩
  intro a b i _ h
  simp only [targetOf] at h
  split at h
  · exact (Option.some.inj h).symm
  · cases h

theorem wire_leaves : LeavesRequests mixSer.R mixTally mixR (castOf 5) 1 := by
  have deaf : ∀ {R : Type} (r : R), Deaf mixSer.R mixR (castOf 5) 1 (.ret r : Prog Wire (GMsg Nat) R) := by
    intro R r w os r' h o k hm
    exact absurd rfl ((exec_ret_inv h).2 _ hm).1
  exact ⟨fun _ _ => deaf _, fun _ _ _ => deaf _, fun _ _ => deaf _⟩

example : ∃ cs1 r' cs2 r cs3, wireLog.calls = cs1 ++ r' :: (cs2 ++ r :: cs3) ∧ r'.what = .cast 5 ∧ HandledFrom duoC flips flips r 1 theServer 7 12 1 :=
  C131_cast_then_call _ _ _ _ _ _ _ _ _ _ _ _ _ _ _ _ _ _ wire_talks wireU wireCall 1 theServer 7 12 1 [.right (.recv 1 mixAny .select)] 1 5
    ⟨wire_called, rfl, wire_means⟩ ⟨⟨wireCall, rfl⟩, rfl⟩ rfl wire_leaves rfl (by decide +kernel) (by decide)

end Verif.World
