import Verif.TwoNodeHistory
import Verif.CallOrderProps
import Verif.IdentProps
/-!
# Calls to a server on another node (C119)

A process of the left node calls a server of the right node: the request and the reply each cross the connection.
-/
namespace Verif.World
open Verif.Mailbox
variable {B V M S R : Type}

/-! ## Specification -/

/-- How the names in a message, and its content, change when it is read on the other node: a pid or a reference of the sender's node is one of another node there. -/
structure Carry (M : Type) where
  pid : Pid → Pid
  ref : Ref → Ref
  msg : M → M

def Carry.gmsg (k : Carry M) : GMsg M → GMsg M
  | .cast m => .cast (k.msg m)
  | .call frm m => .call ⟨k.pid frm.pid, k.ref frm.tag, frm.alias⟩ (k.msg m)
  | .callReply r m => .callReply (k.ref r) (k.msg m)
  | .stop e => .stop e

/-- What the two nodes read is what the other one has written, with the names changed. -/
structure Speaks (ser : Sers V B) (c : Conn) (τL τR : RecvType B V (GMsg M)) (lr rl : Carry M) : Prop where
  there : ∀ g g', τR.deser (ser.L (τL.box g)) = some g' → g' = lr.gmsg g
  back : ∀ g g', τL.deser (ser.R (τR.box g)) = some g' → g' = rl.gmsg g
  pid : ∀ i, lr.pid (.loc i) = .rem i c.idL
  ref : ∀ i, lr.ref (.loc i) = .rem i c.idL
  own : ∀ r i, rl.ref r = .loc i → r = .rem i c.idL

/-- During `v`, after `u`, the process `me` of the left node calls `dest` with `m`; that returns `x`. `t` is the reference
that the call made for itself. -/
structure CalledFrom (ser : Sers V B) (c : Conn) (τL : RecvType B V (GMsg M)) (d : Duo B V) (l u v : List (DOp B V)) (me : Nat) (dest : Dest)
    (m x : M) (t : Nat) : Prop where
  part : u ++ v <+: l
  call : Exec ser.L me (drun ser c d u).L (callProg τL me dest m) (leftOps ser c (drun ser c d u) v) (.ok x)
  tag : ∃ os1 os2, leftOps ser c (drun ser c d u) v = os1 ++ callMon me dest :: os2 ∧ (∀ o ∈ os1, Others me o) ∧
    t = (run ser.L (drun ser c d u).L os1).nextRef

/-- A send of something that left reads as a reply to a call of one of its processes. -/
def AnswersLeft (ser : Sers V B) (τL : RecvType B V (GMsg M)) (o : Op B V) : Prop :=
  ∃ me ds v n y, o = .send me ds v ∧ τL.deser (ser.R v) = some (.callReply (.loc n) y)

/-- Nobody misuses the reference of a call: requests that carry it are sent only by the caller, in the call, and replies to it only by the
server `s` while its loop runs (`os`, after `hs`). `GL` and `GR` are the histories of the two nodes before the connection. -/
structure UnforgedAcross (ser : Sers V B) (c : Conn) (τL τR : RecvType B V (GMsg M)) (s : Nat) (d : Duo B V) (GL GR : List (Op B V))
    (l : List (DOp B V)) (hs os : List (Op B V)) (u v : List (DOp B V)) (me t : Nat) : Prop where
  pastL : ∀ o ∈ GL, ∀ y, ¬ Replies ser.L τL (.loc t) y o
  pastR : ∀ o ∈ GR, ∀ it frm y, SentBy ser.R o it → Reads τR it (.call frm y) → frm.tag ≠ .rem t c.idL
  requestL : ∀ a me' ds x b frm y, l = a ++ .left (.send me' ds x) :: b → τR.deser (ser.L x) = some (.call frm y) → frm.tag = .rem t c.idL →
    me' = me ∧ u.length ≤ a.length ∧ a.length < u.length + v.length
  requestR : ∀ o, .right o ∈ l → ∀ it frm y, SentBy ser.R o it → Reads τR it (.call frm y) → frm.tag ≠ .rem t c.idL
  replyL : ∀ o, .left o ∈ l → ∀ y, ¬ Replies ser.L τL (.loc t) y o
  replyR : ∀ a me' ds x b y, l = a ++ .right (.send me' ds x) :: b → τL.deser (ser.R x) = some (.callReply (.loc t) y) →
    me' = s ∧ hs.length ≤ (GR ++ rightOps ser c d a).length ∧ (GR ++ rightOps ser c d a).length < hs.length + os.length

/-- The other node sends no reply to a call whose reference does not yet exist. -/
def NoGuess (ser : Sers V B) (c : Conn) (τL : RecvType B V (GMsg M)) (d : Duo B V) (l : List (DOp B V)) : Prop :=
  ∀ a me ds x b n y, l = a ++ .right (.send me ds x) :: b → τL.deser (ser.R x) = some (.callReply (.loc n) y) → n < (drun ser c d a).L.nextRef

/-- The record of the call: the server handled this very request with `handle_call`, which returned what was read as `x`. -/
def HandledFrom (c : Conn) (lr rl : Carry M) (r : Record M S) (me : Nat) (dest : Dest) (m x : M) (t : Nat) : Prop :=
  r.what = .call (lr.msg m) ⟨.rem me c.idL, .rem t c.idL, !destLocal dest⟩ ∧ ∃ y, r.result = .ok (some y) ∧ x = rl.msg y

/-- The record is that of a request with the reference `t` of the left node. -/
def ForCallFrom (c : Conn) (t : Nat) (r : Record M S) : Prop := ∃ m frm, r.what = .call m frm ∧ frm.tag = .rem t c.idL

/-! ## Lemmas -/

/-- A call that returned got a reply. -/
theorem call_got {τ : RecvType B V (GMsg M)} {ser : V → B} {G ops : List (Op B V)} {me : Nat} {d : Dest} {m x : M} (hc : Coherent τ (G ++ ops))
    (h : Exec ser me (run ser init G) (callProg τ me d m) ops (.ok x)) {t : Nat}
    (ht : ∃ os1 os2, ops = os1 ++ callMon me d :: os2 ∧ (∀ o ∈ os1, Others me o) ∧ t = (run ser (run ser init G) os1).nextRef) :
    ∃ A o C it, G ++ ops = A ++ o :: C ∧ SentBy ser o it ∧ Reads τ it (.callReply (.loc t) x) := by
  obtain ⟨os1, os2, os4, os5, he, hrun, ho1, ho2, -, hcase⟩ := call_inv h
  obtain ⟨p1, p2, hp, hpo, ht⟩ := ht
  have hcal : (callMon me d : Op B V).caller = some me := by unfold callMon; split <;> rfl
  have hpe : p1 = os1 := by
    have h1 : callMon me d ∉ p1 := fun hm => (hpo _ hm).1 hcal
    have h2 : callMon me d ∉ os1 := fun hm => (ho1 _ hm).1 hcal
    rw [hp, List.append_assoc] at he
    obtain ⟨a', hh1, hh2⟩ := append_past (l1 := p1) (l2 := callMon me d :: p2) he h1
    cases a' with
    | nil => simp at hh1; exact hh1.symm
    | cons z a' => simp at hh2; exact absurd (by rw [hh1, hh2.1]; simp) h2
  subst hpe
  rw [← ht] at he hcase
  rcases hcase with ⟨k, msg, os6, hrec, rfl, hres⟩ | ⟨hres, -⟩
  rotate_left
  · cases hres
  rcases hres with ⟨y, rfl, hy⟩ | ⟨_, _, _, hy⟩
  rotate_left
  · cases hy
  cases hy
  have heq : run ser (step ser (run ser (run ser init G) p1) (callMon me d)).1 (os2 ++ request τ me d (.loc t) m :: os4) =
      run ser init (G ++ (p1 ++ callMon me d :: (os2 ++ request τ me d (.loc t) m :: os4))) := by
    rw [run_append ser init G, run_append ser _ p1, run_cons]
  have hpre : ops = (p1 ++ callMon me d :: (os2 ++ request τ me d (.loc t) m :: os4)) ++
      (Op.recv me ⟨GMsg M, τ, isAnswer (.loc t), false⟩ k :: os6) := he
  have hread : Readable τ (run ser init (G ++ (p1 ++ callMon me d :: (os2 ++ request τ me d (.loc t) m :: os4)))) := by
    refine readable_run ser _ (fun a o k hm => hc a o k ?_)
    rw [hpre, ← List.append_assoc]
    exact List.mem_append_left _ hm
  rw [← heq] at hread
  obtain ⟨it, hit, hu, hreads⟩ := received_reads hread hrec
  rw [heq] at hit
  rcases sent_user_at ser _ init me it hu hit with h0 | ⟨a, o, b, hab, hsb⟩
  · simp [init] at h0
  · exact ⟨a, o, b ++ (Op.recv me ⟨GMsg M, τ, isAnswer (.loc t), false⟩ k :: os6), it, by rw [hpre, ← List.append_assoc, hab]; simp, hsb, hreads⟩

/-- In a history that is a prefix of another, an operation has its place there. -/
theorem place {A : Type _} {G hs os g : List A} {o : A} {r : List A} (hp : hs ++ os <+: G) (hG : G = g ++ o :: r) (h1 : hs.length ≤ g.length)
    (h2 : g.length < hs.length + os.length) : ∃ a b, os = a ++ o :: b ∧ hs ++ a = g := by
  obtain ⟨r2, hG2⟩ := hp
  have hEq : hs ++ (os ++ r2) = g ++ o :: r := by rw [← hG, ← hG2]; simp
  have hpre : hs <+: g := by
    refine List.prefix_of_prefix_length_le (l₃ := hs ++ (os ++ r2)) (List.prefix_append ..) ?_ h1
    rw [hEq]; exact List.prefix_append ..
  obtain ⟨a, ha⟩ := hpre
  rw [← ha, List.append_assoc] at hEq
  have hEq := List.append_cancel_left hEq
  have hlen : a.length < os.length := by
    rw [← ha] at h2; simp at h2; omega
  have hpre2 : a ++ [o] <+: os := by
    refine List.prefix_of_prefix_length_le (l₃ := os ++ r2) ?_ (List.prefix_append ..) (by simp; omega)
    rw [hEq]; exact ⟨r, by simp⟩
  obtain ⟨b, hb⟩ := hpre2
  exact ⟨a, b, by rw [← hb]; simp, ha⟩

/-- Two steps of a schedule at which left has executed equally many operations before are the same. -/
theorem same_step {ser : Sers V B} {c : Conn} {d : Duo B V} {l a b a' b' : List (DOp B V)} {x x' : DOp B V} (h : l = a ++ x :: b)
    (h' : l = a' ++ x' :: b') (hx : leftOp c (drun ser c d a) x ≠ []) (hx' : leftOp c (drun ser c d a') x' ≠ [])
    (hlen : (leftOps ser c d a).length = (leftOps ser c d a').length) : a = a' ∧ x = x' ∧ b = b' := by
  have key : ∀ {a b a' b' : List (DOp B V)} {x x' : DOp B V}, l = a ++ x :: b → l = a' ++ x' :: b' → leftOp c (drun ser c d a) x ≠ [] →
      a.length < a'.length → (leftOps ser c d a).length < (leftOps ser c d a').length := by
    intro a b a' b' x x' h h' hx hlt
    have hp : a ++ [x] <+: a' := by
      refine List.prefix_of_prefix_length_le (l₃ := l) ⟨b, by rw [h]; simp⟩ ⟨x' :: b', by rw [h']⟩ (by simp; omega)
    obtain ⟨z, rfl⟩ := hp
    rw [leftOps_append, leftOps_append]
    have : 0 < (leftOp c (drun ser c d a) x).length := List.length_pos_iff.2 hx
    simp [leftOps]; omega
  have e : a.length = a'.length := by
    rcases Nat.lt_trichotomy a.length a'.length with hlt | he | hlt
    · have := key h h' hx hlt; omega
    · exact he
    · have := key h' h hx' hlt; omega
  obtain ⟨h1, h2⟩ := List.append_inj (h.symm.trans h') e
  simp at h2
  exact ⟨h1, h2.1, h2.2⟩

/-- Where in the schedule the request of a call is. -/
theorem request_step {ser : Sers V B} {c : Conn} {τL τR : RecvType B V (GMsg M)} {s : Nat} {d : Duo B V} {GL GR : List (Op B V)} {l : List (DOp B V)}
    {hs os : List (Op B V)} {u v : List (DOp B V)} {me : Nat} {dest : Dest} {m x : M} {t : Nat} (hc : CalledFrom ser c τL d l u v me dest m x t)
    (hu : UnforgedAcross ser c τL τR s d GL GR l hs os u v me t) :
    ∃ A C, l = A ++ .left (request τL me dest (.loc t) m) :: C ∧ u.length ≤ A.length ∧ ∀ a me' ds z b frm y, l = a ++ .left (.send me' ds z) :: b →
      τR.deser (ser.L z) = some (.call frm y) → frm.tag = .rem t c.idL → a = A ∧ (.send me' ds z : Op B V) = request τL me dest (.loc t) m ∧ b = C := by
  obtain ⟨r1, hl⟩ := hc.part
  obtain ⟨p1, p2, p3, he, hp1, hp2, hp3⟩ := call_sends hc.call
  obtain ⟨q1, q2, hq, hqo, ht⟩ := hc.tag
  have hcal : (callMon me dest : Op B V).caller = some me := by unfold callMon; split <;> rfl
  have hpq : q1 = p1 := by
    have h1 : callMon me dest ∉ q1 := fun hm => (hqo _ hm).1 hcal
    have h2 : callMon me dest ∉ p1 := fun hm => (hp1 _ hm).1 hcal
    rw [hq] at he
    obtain ⟨a', hh1, hh2⟩ := append_past he h1
    cases a' with
    | nil => simp at hh1; exact hh1.symm
    | cons z a' => simp at hh2; exact absurd (by rw [hh1, hh2.1]; simp) h2
  subst hpq
  rw [← ht] at he
  have he' : leftOps ser c (drun ser c d u) v = (q1 ++ callMon me dest :: p2) ++ request τL me dest (.loc t) m :: p3 := by rw [he]; simp
  obtain ⟨a0, s0, b0, hv, hs0, ha0, -⟩ := leftOps_at ser c v _ _ _ _ he'
  have hs0' : s0 = .left (request τL me dest (.loc t) m) := by
    rcases leftOp_cases hs0 with h | ⟨_, _, _, h, _⟩
    · exact h
    · simp [request] at h
  subst hs0'
  have hlA : l = (u ++ a0) ++ .left (request τL me dest (.loc t) m) :: (b0 ++ r1) := by rw [← hl, hv]; simp
  refine ⟨_, _, hlA, by simp, ?_⟩
  intro a me' ds z b frm y hla hz htag
  obtain ⟨rfl, g2, g3⟩ := hu.requestL a me' ds z b frm y hla hz htag
  obtain ⟨a1, b1, hv1, rfl⟩ := place (hc.part) hla g2 g3
  -- its place among the operations of the call
  have hpos : leftOps ser c (drun ser c d u) v = leftOps ser c (drun ser c d u) a1 ++ .send me' ds z :: leftOps ser c (drun ser c d (u ++ (a1 ++ [.left (.send me' ds z)]))) b1 := by
    have e1 : v = a1 ++ (.left (.send me' ds z) :: b1) := hv1
    rw [show leftOps ser c (drun ser c d u) v = leftOps ser c (drun ser c d u) (a1 ++ (.left (.send me' ds z) :: b1)) from by rw [← e1]]
    rw [leftOps_append]
    show _ ++ ([_] ++ leftOps ser c _ b1) = _
    rw [drun_append, drun_snoc]; rfl
  have hlen : (leftOps ser c (drun ser c d u) a1).length = (leftOps ser c (drun ser c d u) a0).length := by
    rw [← ha0]
    have hn1 : (Op.send me' ds z : Op B V) ∉ q1 ++ callMon me' dest :: p2 := by
      intro hm
      simp only [List.mem_append, List.mem_cons] at hm
      rcases hm with hm | hm | hm
      · exact (hp1 _ hm).1 rfl
      · unfold callMon monOp at hm
        split at hm <;> cases hm
      · exact (hp2 _ hm).1 rfl
    have hn3 : (Op.send me' ds z : Op B V) ∉ p3 := fun hm => hp3 _ hm rfl _ (.local ..)
    rw [he'] at hpos
    obtain ⟨k, hk1, hk2⟩ := append_past hpos hn1
    cases k with
    | nil => rw [hk1]; simp
    | cons k0 k =>
      simp only [List.cons_append, List.cons.injEq] at hk2
      exact absurd (by rw [hk2.2]; simp) hn3
  have hlen' : (leftOps ser c d (u ++ a1)).length = (leftOps ser c d (u ++ a0)).length := by
    rw [leftOps_append, leftOps_append]; simp [hlen]
  have := same_step hla hlA (by simp [leftOp]) (by simp [leftOp]) hlen'
  exact ⟨this.1, by injection this.2.1, this.2.2⟩

/-- Where a message of right that a process of right received comes from. -/
theorem right_from {ser : Sers V B} {c : Conn} {d : Duo B V} {GR : List (Op B V)} {l : List (DOp B V)} (hb : Begins ser c d)
    (hl : ∀ s ∈ l, Legal c s) {A C : List (Op B V)} {o : Op B V} {it : Item B V} (hG : GR ++ rightOps ser c d l = A ++ o :: C)
    (hs : SentBy ser.R o it) :
    o ∈ GR ∨ .right o ∈ l ∨ ∃ u rp v ts me ds x w w', l = u ++ .toR rp :: v ∧ A = GR ++ rightOps ser c d u ∧ o = .frame rp c.nL (.send ts (ser.L x)) ∧
      it = .remote (ser.L x) ∧ u = w ++ .left (.send me ds x) :: w' ∧ (∀ y, ds = .one y → destLocal y = false ∧ ts = [Dest.target y]) ∧
      (drun ser c d u).nextR c = some (.send ts (ser.L x)) := by
  have : o ∈ GR ∨ ∃ A', A = GR ++ A' ∧ rightOps ser c d l = A' ++ o :: C := by
    by_cases ho : o ∈ GR
    · exact .inl ho
    · exact .inr (append_past hG ho)
  rcases this with h | ⟨A', rfl, h⟩
  · exact .inl h
  · obtain ⟨u, s, v, rfl, h1, h2, -⟩ := rightOps_at ser c l d A' o C h
    rcases rightOp_cases h1 with rfl | ⟨rp, f, rfl, rfl, h3, h4⟩
    · exact .inr (.inl (by simp))
    · cases hs with
      | frame _ _ ts b =>
        obtain ⟨w, me, ds, x, w', hw, -, rfl, hone⟩ := next_from hb (fun s hs => hl s (by simp [hs])) h3
        exact .inr (.inr ⟨u, rp, v, ts, me, ds, x, w, w', rfl, by rw [h2], rfl, rfl, hw, hone, h3⟩)

theorem left_from {ser : Sers V B} {c : Conn} {d : Duo B V} {GL : List (Op B V)} {l : List (DOp B V)} (hb : Begins ser c d)
    (hl : ∀ s ∈ l, Legal c s) {A C : List (Op B V)} {o : Op B V} {it : Item B V} (hG : GL ++ leftOps ser c d l = A ++ o :: C)
    (hs : SentBy ser.L o it) :
    o ∈ GL ∨ .left o ∈ l ∨ ∃ u rp v ts me ds x w w', l = u ++ .toL rp :: v ∧ A = GL ++ leftOps ser c d u ∧ o = .frame rp c.nR (.send ts (ser.R x)) ∧
      it = .remote (ser.R x) ∧ u = w ++ .right (.send me ds x) :: w' ∧ ∀ y, ds = .one y → destLocal y = false ∧ ts = [Dest.target y] := by
  have : o ∈ GL ∨ ∃ A', A = GL ++ A' ∧ leftOps ser c d l = A' ++ o :: C := by
    by_cases ho : o ∈ GL
    · exact .inl ho
    · exact .inr (append_past hG ho)
  rcases this with h | ⟨A', rfl, h⟩
  · exact .inl h
  · obtain ⟨u, s, v, rfl, h1, h2, -⟩ := leftOps_at ser c l d A' o C h
    rcases leftOp_cases h1 with rfl | ⟨rp, f, rfl, rfl, h3, h4⟩
    · exact .inr (.inl (by simp))
    · cases hs with
      | frame _ _ ts b =>
        obtain ⟨w, me, ds, x, w', hw, -, rfl, hone⟩ := next_from' hb (fun s hs => hl s (by simp [hs])) h3
        exact .inr (.inr ⟨u, rp, v, ts, me, ds, x, w, w', rfl, by rw [h2], rfl, rfl, hw, hone⟩)

/-- Where in the histories, and in the log, a call from left was answered. -/
theorem call_located_from {ser : Sers V B} {c : Conn} {srv : Server B V M S} {τL τR : RecvType B V (GMsg M)} {lr rl : Carry M} {s : Nat} {parent : Pid}
    {d : Duo B V} {GL GR : List (Op B V)} {l : List (DOp B V)} {hs os : List (Op B V)} {σ : S} {n : Nat} {log : Log M S} {u v : List (DOp B V)}
    {me : Nat} {dest : Dest} {m x : M} {t : Nat} (hb : Begins ser c d) (hL : d.L = run ser.L init GL) (_hR : d.R = run ser.R init GR)
    (hleg : ∀ s ∈ l, Legal c s) (hsp : Speaks ser c τL τR lr rl) (hr : Mutes ser.R srv s (AnswersLeft ser τL))
    (hcohL : Coherent τL (GL ++ leftOps ser c d l)) (hcohR : Coherent τR (GR ++ rightOps ser c d l))
    (hs' : Serves ser.R srv τR s parent (GR ++ rightOps ser c d l) hs os σ n log)
    (hc : CalledFrom ser c τL d l u v me dest m x t) (hu : UnforgedAcross ser c τL τR s d GL GR l hs os u v me t) :
    ∃ a1 o b1 a b cs r n' log', l = a1 ++ .right o :: b1 ∧ a1.length < (u ++ v).length ∧ os = a ++ o :: b ∧ hs ++ a = GR ++ rightOps ser c d a1 ∧
      Exec ser.R s (run ser.R (run ser.R init hs) (a ++ [o])) (serverLoop srv τR s parent n' r.after) b log' ∧ log.calls = cs ++ r :: log'.calls ∧
      HandledFrom c lr rl r me dest m x t ∧
      ∃ u3 rp3 v3 ts3 p kind q, l = u3 ++ .toR rp3 :: v3 ∧
        (drun ser c d u3).nextR c = some (.send ts3 (ser.L (τL.box (.call ⟨.loc me, .loc t, !destLocal dest⟩ m)))) ∧ p <+: os ∧
        hs ++ p = (GR ++ rightOps ser c d u3) ++ q ∧ q ≠ [] ∧ (received (run ser.R init (hs ++ p)) s (anyMsg τR) kind).isSome = true ∧
        ∃ frm y, τR.deser (ser.L (τL.box (.call ⟨.loc me, .loc t, !destLocal dest⟩ m))) = some (.call frm y) ∧ frm.tag = .rem t c.idL := by
  obtain ⟨r1, hl1⟩ := hc.part
  -- the reply on left
  have hw : (drun ser c d u).L = run ser.L init (GL ++ leftOps ser c d u) := by rw [left_run, hL, ← run_append]
  have hcoh1 : Coherent τL ((GL ++ leftOps ser c d u) ++ leftOps ser c (drun ser c d u) v) := by
    intro a o k hm
    refine hcohL a o k ?_
    rw [← hl1, leftOps_append, leftOps_append]
    simp only [List.mem_append] at hm ⊢
    rcases hm with (hm | hm) | hm <;> simp [hm]
  have hcall := hc.call
  have htag := hc.tag
  rw [hw] at hcall htag
  obtain ⟨A, o1, C, it1, hA, hsb1, hrd1⟩ := call_got hcoh1 hcall htag
  rw [List.append_assoc, ← leftOps_append] at hA
  have hleg1 : ∀ s ∈ u ++ v, Legal c s := fun s hs => hleg s (by rw [← hl1]; exact List.mem_append_left _ hs)
  rcases left_from hb hleg1 hA hsb1 with h | h | ⟨u1, rp, v1, ts, me', ds, z, w1, w2, huv, -, -, rfl, hu1, -⟩
  · exact absurd ⟨it1, hsb1, hrd1⟩ (hu.pastL _ h x)
  · exact absurd ⟨it1, hsb1, hrd1⟩ (hu.replyL _ (by rw [← hl1]; exact List.mem_append_left _ h) x)
  -- who sent it
  have hl2 : l = w1 ++ .right (.send me' ds z) :: (w2 ++ .toL rp :: v1 ++ r1) := by rw [← hl1, huv, hu1]; simp
  have hlt1 : w1.length < (u ++ v).length := by rw [huv, hu1]; simp
  have hrd1 : τL.deser (ser.R z) = some (.callReply (.loc t) x) := hrd1
  obtain ⟨rfl, g2, g3⟩ := hu.replyR _ _ _ _ _ _ hl2 hrd1
  have hGo : GR ++ rightOps ser c d l = (GR ++ rightOps ser c d w1) ++ .send me' ds z ::
      rightOps ser c (drun ser c d (w1 ++ [.right (.send me' ds z)])) (w2 ++ .toL rp :: v1 ++ r1) := by
    have e : l = (w1 ++ [.right (.send me' ds z)]) ++ (w2 ++ .toL rp :: v1 ++ r1) := by rw [hl2]; simp
    rw [e, rightOps_append, rightOps_append, show rightOps ser c (drun ser c d w1) [.right (.send me' ds z)] = [.send me' ds z] from rfl]
    simp
  obtain ⟨a, b, hos, hab⟩ := place hs'.part hGo g2 g3
  subst hos
  obtain ⟨cs, r, n', log', m', frm, x', h1, h2, h3, h4, h5, -, a1, kind, a2, h6, h7, a3, e, h9, h10, h11⟩ :=
    loop_answered hr n _ σ a (.send me' ds z) b log hs'.loop rfl ⟨_, _, _, _, _, rfl, hrd1⟩
  have hz : z = τR.box (.callReply frm.tag x') := by
    simp only [replyOp, Op.send.injEq] at h5; exact h5.2.2
  have hback := hsp.back _ _ (hz ▸ hrd1)
  simp only [Carry.gmsg, GMsg.callReply.injEq] at hback
  have hft : frm.tag = .rem t c.idL := hsp.own _ _ hback.1.symm
  -- the request on right
  obtain ⟨r2, hG2⟩ := hs'.part
  have hread : Readable τR (run ser.R init (hs ++ a1)) := by
    refine readable_run ser.R _ (fun z o k hm => hcohR z o k ?_)
    rw [← hG2, h6]
    rcases List.mem_append.1 hm with h | h <;> simp [h]
  rw [run_append] at hread
  obtain ⟨it2, hit2, hu2, hrd2⟩ := received_reads hread h7
  rw [← run_append] at hit2
  rcases sent_user_at ser.R _ init me' it2 hu2 hit2 with h0 | ⟨z1, o2, z2, hzz, hsb2⟩
  · simp [init] at h0
  have hG3 : GR ++ rightOps ser c d l = z1 ++ o2 :: (z2 ++ .recv me' (anyMsg τR) kind :: a2 ++ .send me' ds z :: b ++ r2) := by
    rw [← hG2, h6]
    have : hs ++ (a1 ++ Op.recv me' (anyMsg τR) kind :: a2 ++ .send me' ds z :: b) ++ r2 = (hs ++ a1) ++ (Op.recv me' (anyMsg τR) kind :: a2 ++ .send me' ds z :: b ++ r2) := by simp
    rw [this, hzz]; simp
  rcases right_from hb hleg hG3 hsb2 with h | h | ⟨u3, rp3, v3, ts3, me3, ds3, x3, w3, w3', hl3, hz1, -, rfl, hu3, -, hnext⟩
  · exact absurd hft (hu.pastR _ h _ _ _ hsb2 hrd2)
  · exact absurd hft (hu.requestR _ h _ _ _ hsb2 hrd2)
  obtain ⟨Aq, Cq, -, -, hreq⟩ := request_step hc hu
  obtain ⟨-, hsend, -⟩ := hreq w3 me3 ds3 x3 (w3' ++ .toR rp3 :: v3) frm m' (by rw [hl3, hu3]; simp) hrd2 hft
  simp only [request, Op.send.injEq] at hsend
  obtain ⟨rfl, rfl, rfl⟩ := hsend
  have hthere := hsp.there _ _ hrd2
  simp only [Carry.gmsg, GMsg.call.injEq] at hthere
  obtain ⟨rfl, rfl⟩ := hthere
  refine ⟨w1, _, _, a, b, cs, r, n', log', hl2, hlt1, rfl, hab, h1, h2, ⟨?_, x', h4, hback.2⟩, ?_⟩
  · rw [h3, hsp.pid, hsp.ref]
  · refine ⟨u3, rp3, v3, ts3, a1, kind, o2 :: z2, hl3, hnext, ⟨.recv me' (anyMsg τR) kind :: a2 ++ .send me' ds z :: b, by rw [h6]; simp⟩, by rw [hzz, hz1], by simp, ?_, _, _, hrd2, hft⟩
    rw [run_append]; simp [h7]

/-- A received message was sent. -/
theorem receives_sent {ser : V → B} {T : Type} {τ : RecvType B V T} {p : T → Bool} {G : List (Op B V)} {k : Nat} (hc : Coherent τ G)
    (h : ReceivesAt ser τ p G k) : ∃ o ∈ G, Sends ser τ p o := by
  obtain ⟨a, j, f, s, kind, x, b, rfl, -, -, hrec, hp⟩ := h
  have hread : Readable τ (run ser init a) := readable_run ser _ (fun z o k hm => hc z o k (by simp [hm]))
  obtain ⟨it, hit, hu, hrd⟩ := received_reads hread hrec
  rcases sent_user_at ser _ init j it hu hit with h0 | ⟨z1, o, z2, rfl, hsb⟩
  · simp [init] at h0
  · exact ⟨o, by simp, it, x, hsb, hrd, hp⟩

/-- If at most one operation of the history may send such a message, and that one to one destination, it is received at most once. -/
theorem once_of_count {ser : V → B} {T : Type} {τ : RecvType B V T} {p : T → Bool} {G : List (Op B V)} {mk : Op B V → Bool} {k k' : Nat} (hc : Coherent τ G)
    (hmk : ∀ o ∈ G, Sends ser τ p o → Single o ∧ mk o = true) (hcount : G.countP mk ≤ 1)
    (h : ReceivesAt ser τ p G k) (h' : ReceivesAt ser τ p G k') : k = k' := by
  obtain ⟨o, ho, hs⟩ := receives_sent hc h
  obtain ⟨A, C, rfl⟩ := List.append_of_mem ho
  refine C117_at_most_once ser τ p A C o hc (hmk o ho hs).1 ?_ k k' h h'
  intro o' ho' hs'
  have h1 := (hmk o ho hs).2
  have h2 := (hmk o' (by rcases List.mem_append.1 ho' with h | h <;> simp [h]) hs').2
  have h3 : 0 < (A ++ C).countP mk := List.countP_pos_iff.2 ⟨o', ho', h2⟩
  simp only [List.countP_append, List.countP_cons, h1] at hcount h3
  simp at hcount
  omega

/-- The operation is a Send frame with a marked message. -/
def framesMarked (P : B → Bool) : Op B V → Bool
  | .frame _ _ f => marks P f
  | _ => false

/-- The marked frames of the history are those right has got from the connection. -/
theorem framesMarked_count {ser : Sers V B} {c : Conn} {P : B → Bool} (l : List (DOp B V)) : ∀ {d : Duo B V},
    (∀ o, .right o ∈ l → framesMarked P o = false) → (rightOps ser c d l).countP (framesMarked P) = (gotRight ser c d l).countP (marks P) := by
  induction l with
  | nil => intro d _; rfl
  | cons s l ih =>
    intro d h
    simp only [rightOps, gotRight, List.countP_append]
    rw [ih (fun o ho => h o (by simp [ho]))]
    congr 1
    cases s with
    | left o => rfl
    | toL rp => rfl
    | right o => simp [rightOp, getsRight, h o (by simp)]
    | toR rp =>
      simp only [rightOp, getsRight]
      split
      · split
        · simp only [List.countP_cons, List.countP_nil, framesMarked]; rfl
        · rfl
      · rfl

/-- At most one request with the reference of a call is handled. -/
theorem handled_once_from {ser : Sers V B} {c : Conn} {srv : Server B V M S} {τL τR : RecvType B V (GMsg M)} {s : Nat} {parent : Pid}
    {d : Duo B V} {GL GR : List (Op B V)} {l : List (DOp B V)} {hs os : List (Op B V)} {σ : S} {n : Nat} {log : Log M S} {u v : List (DOp B V)}
    {me : Nat} {dest : Dest} {m x : M} {t : Nat} (hb : Begins ser c d) (hleg : ∀ s ∈ l, Legal c s) (hcohR : Coherent τR (GR ++ rightOps ser c d l))
    (hs' : Serves ser.R srv τR s parent (GR ++ rightOps ser c d l) hs os σ n log)
    (hc : CalledFrom ser c τL d l u v me dest m x t) (hu : UnforgedAcross ser c τL τR s d GL GR l hs os u v me t) {cs1 cs2 : List (Record M S)} {r : Record M S}
    (hl : log.calls = cs1 ++ r :: cs2) (hf : ForCallFrom c t r) : ∀ r' ∈ cs2, ¬ ForCallFrom c t r' := by
  rintro c' hc' ⟨m', frm', hw', ht'⟩
  obtain ⟨m1, frm, hw, ht⟩ := hf
  obtain ⟨r2, hG2⟩ := hs'.part
  obtain ⟨Aq, Cq, hlA, -, hreq⟩ := request_step hc hu
  obtain ⟨a, kind, b1, b2, rfl, k1, k2, k3⟩ := loop_call n _ _ _ _ _ _ _ _ _ hs'.loop hl hw
  rcases k3 with k3 | ⟨n', l', hx, hl'⟩
  · obtain ⟨r, hr⟩ := k3 c' hc'
    rw [hr] at hw'; cases hw'
  · obtain ⟨e1, e2, he⟩ := List.append_of_mem hc'
    obtain ⟨a', kind', d1, d2, rfl, j1, j2, -⟩ := loop_call n' _ _ _ _ e1 c' e2 _ _ hx (by rw [hl', he]) hw'
    rw [← run_append] at k1 k2
    rw [← run_append, ← run_append] at j1 j2
    have j1' : running (run ser.R init (hs ++ (a ++ .recv s (anyMsg τR) kind :: b1) ++ a')) s = true := by simpa using j1
    have j2' : received (run ser.R init (hs ++ (a ++ .recv s (anyMsg τR) kind :: b1) ++ a')) s (anyMsg τR) kind' = some (.user (.call frm' m')) := by simpa using j2
    let p : GMsg M → Bool := fun g => match g with | .call frm _ => frm.tag == .rem t c.idL | _ => false
    have hp : ∀ g, p g = true → ∃ frm y, g = .call frm y ∧ frm.tag = .rem t c.idL := by
      intro g hg
      cases g with
      | call f y => exact ⟨f, y, rfl, by simpa [p] using hg⟩
      | _ => simp [p] at hg
    have hR : ReceivesAt ser.R τR p (GR ++ rightOps ser c d l) (hs ++ a).length :=
      ⟨hs ++ a, s, _, _, kind, _, b1 ++ (a' ++ .recv s (anyMsg τR) kind' :: (d1 ++ d2)) ++ r2, by rw [← hG2]; simp [anyMsg], rfl, k1, k2, by simp [p, ht]⟩
    have hR' : ReceivesAt ser.R τR p (GR ++ rightOps ser c d l) (hs ++ (a ++ .recv s (anyMsg τR) kind :: b1) ++ a').length :=
      ⟨hs ++ (a ++ .recv s (anyMsg τR) kind :: b1) ++ a', s, _, _, kind', _, d1 ++ d2 ++ r2, by rw [← hG2]; simp [anyMsg], rfl, j1', j2', by simp [p, ht']⟩
    let P : B → Bool := fun b => (τR.deser b).any p
    have hP : ∀ b, P b = true → ∃ frm y, τR.deser b = some (.call frm y) ∧ frm.tag = .rem t c.idL := by
      intro b hb
      simp only [P, Option.any_eq_true] at hb
      obtain ⟨g, hg, hpg⟩ := hb
      obtain ⟨frm, y, rfl, htag⟩ := hp g hpg
      exact ⟨frm, y, hg, htag⟩
    -- none of the marked frames is from elsewhere
    have hpast : ∀ o ∈ GR, framesMarked P o = false := by
      intro o ho
      cases hm : framesMarked P o with
      | false => rfl
      | true =>
        unfold framesMarked at hm
        split at hm
        · rename_i rp nn f
          unfold marks at hm
          split at hm
          · rename_i ts b
            obtain ⟨frm, y, hd, htag⟩ := hP _ hm
            exact absurd htag (hu.pastR _ ho _ _ _ (.frame ..) hd)
          · cases hm
        · cases hm
    have hothers : ∀ o, .right o ∈ l → framesMarked P o = false := by
      intro o ho
      cases hm : framesMarked P o with
      | false => rfl
      | true =>
        unfold framesMarked at hm
        split at hm
        · rename_i rp nn f
          unfold marks at hm
          split at hm
          · rename_i ts b
            obtain ⟨frm, y, hd, htag⟩ := hP _ hm
            exact absurd htag (hu.requestR _ ho _ _ _ (.frame ..) hd)
          · cases hm
        · cases hm
    -- there is one send
    have hone : ∀ me ds v, .left (.send me ds v) ∈ l → P (ser.L v) = true → ∃ x, ds = .one x := by
      intro me' ds v' hm hv
      obtain ⟨g1, g2, hg⟩ := List.append_of_mem hm
      obtain ⟨frm, y, hd, htag⟩ := hP _ hv
      obtain ⟨-, hsend, -⟩ := hreq _ _ _ _ _ _ _ hg hd htag
      simp only [request, Op.send.injEq] at hsend
      exact ⟨_, hsend.2.1⟩
    have hsends : l.countP (sendsMarked ser P) ≤ 1 := by
      have hz : ∀ z ∈ Aq ++ Cq, sendsMarked ser P z = false := by
        intro z hz
        cases hm : sendsMarked ser P z with
        | false => rfl
        | true =>
          unfold sendsMarked at hm
          split at hm
          · rename_i me' ds v'
            obtain ⟨frm, y, hd, htag⟩ := hP _ hm
            rcases List.mem_append.1 hz with h | h
            · obtain ⟨g1, g2, rfl⟩ := List.append_of_mem h
              obtain ⟨he1, -, -⟩ := hreq g1 me' ds v' (g2 ++ .left (request τL me dest (.loc t) m) :: Cq) frm y (by rw [hlA]; simp) hd htag
              have := congrArg List.length he1
              simp at this
            · obtain ⟨g1, g2, rfl⟩ := List.append_of_mem h
              obtain ⟨he1, -, -⟩ := hreq (Aq ++ .left (request τL me dest (.loc t) m) :: g1) me' ds v' g2 frm y (by rw [hlA]; simp) hd htag
              have := congrArg List.length he1
              simp at this
          · cases hm
      have hA0 : Aq.countP (sendsMarked ser P) = 0 := List.countP_eq_zero.2 (fun z h => by simp [hz z (by simp [h])])
      have hC0 : Cq.countP (sendsMarked ser P) = 0 := List.countP_eq_zero.2 (fun z h => by simp [hz z (by simp [h])])
      rw [hlA, List.countP_append, List.countP_cons, hA0, hC0]
      split <;> omega
    have hcount : (GR ++ rightOps ser c d l).countP (framesMarked P) ≤ 1 := by
      have h0 : GR.countP (framesMarked P) = 0 := List.countP_eq_zero.2 (fun z h => by simp [hpast z h])
      rw [List.countP_append, h0, framesMarked_count l hothers]
      obtain ⟨hn1, hn2⟩ := hb.line
      have hg := got_line (g := []) l hb.cinv hleg (by rw [hn1, hn2]; rfl)
      have hc1 := line_count l hb.cinv hleg hone
      rw [← hg, hn1] at hc1
      simp only [List.countP_append, List.nil_append, List.countP_nil] at hc1
      omega
    have := once_of_count (mk := framesMarked P) hcohR ?_ hcount hR hR'
    · simp at this
    · rintro o ho ⟨it, g, hsb, hrd, hpg⟩
      obtain ⟨frm, y, rfl, htag⟩ := hp g hpg
      obtain ⟨A, C, hG⟩ := List.append_of_mem ho
      rcases right_from hb hleg hG hsb with h | h | ⟨u3, rp3, v3, ts3, me3, ds3, x3, w3, w3', hl3, -, rfl, rfl, hu3, hts, -⟩
      · exact absurd htag (hu.pastR _ h _ _ _ hsb hrd)
      · exact absurd htag (hu.requestR _ h _ _ _ hsb hrd)
      obtain ⟨z, rfl⟩ := hone me3 ds3 x3 (by rw [hl3, hu3]; simp) (by
        have hrd : τR.deser (ser.L x3) = some (.call frm y) := hrd
        simp [P, hrd, p, htag])
      obtain ⟨-, rfl⟩ := hts z rfl
      refine ⟨.frame .., ?_⟩
      have hrd : τR.deser (ser.L x3) = some (.call frm y) := hrd
      simp [framesMarked, marks, P, hrd, p, htag]

/-! ## Theorems -/

/-- C119. A call to a server of another node that returned `x` was handled by the server exactly once: the log of the server has a
`handle_call` of this very request, whose result arrived as `x`, and no other record of a request with the reference of the call. -/
theorem C119_answered (ser : Sers V B) (c : Conn) (srv : Server B V M S) (τL τR : RecvType B V (GMsg M)) (lr rl : Carry M) (s : Nat) (parent : Pid)
    (d : Duo B V) (GL GR : List (Op B V)) (l : List (DOp B V)) (hs os : List (Op B V)) (σ : S) (n : Nat) (log : Log M S) (u v : List (DOp B V))
    (me : Nat) (dest : Dest) (m x : M) (t : Nat) (hb : Begins ser c d) (hL : d.L = run ser.L init GL) (hR : d.R = run ser.R init GR)
    (hleg : ∀ s ∈ l, Legal c s) (hsp : Speaks ser c τL τR lr rl) (hr : Mutes ser.R srv s (AnswersLeft ser τL))
    (hcohL : Coherent τL (GL ++ leftOps ser c d l)) (hcohR : Coherent τR (GR ++ rightOps ser c d l))
    (hs' : Serves ser.R srv τR s parent (GR ++ rightOps ser c d l) hs os σ n log)
    (hc : CalledFrom ser c τL d l u v me dest m x t) (hu : UnforgedAcross ser c τL τR s d GL GR l hs os u v me t) :
    ∃ cs1 r cs2, log.calls = cs1 ++ r :: cs2 ∧ HandledFrom c lr rl r me dest m x t ∧ ∀ r' ∈ cs1 ++ cs2, ¬ ForCallFrom c t r' := by
  obtain ⟨a1, o, b1, a, b, cs, r, n', log', -, -, -, -, -, h2, h3, -⟩ := call_located_from hb hL hR hleg hsp hr hcohL hcohR hs' hc hu
  have hfc : ForCallFrom c t r := ⟨_, _, h3.1, rfl⟩
  refine ⟨cs, r, log'.calls, h2, h3, ?_⟩
  intro c' hc' hfc'
  rcases List.mem_append.1 hc' with h | h
  · obtain ⟨e1, e2, rfl⟩ := List.append_of_mem h
    exact handled_once_from hb hleg hcohR hs' hc hu (cs1 := e1) (r := c') (cs2 := e2 ++ r :: log'.calls) (by rw [h2]; simp) hfc' r (by simp) hfc
  · exact handled_once_from hb hleg hcohR hs' hc hu h2 hfc c' h hfc'

/-- C119. If one call had returned before another one began, by whatever processes of the calling node, then the server on the other node
handled the first before the second. -/
theorem C119_order (ser : Sers V B) (c : Conn) (srv : Server B V M S) (τL τR : RecvType B V (GMsg M)) (lr rl : Carry M) (s : Nat) (parent : Pid)
    (d : Duo B V) (GL GR : List (Op B V)) (l : List (DOp B V)) (hs os : List (Op B V)) (σ : S) (n : Nat) (log : Log M S) (u v : List (DOp B V))
    (me : Nat) (dest : Dest) (m x : M) (t : Nat) (u' v' : List (DOp B V)) (me' : Nat) (dest' : Dest) (m' x' : M) (t' : Nat)
    (hb : Begins ser c d) (hL : d.L = run ser.L init GL) (hR : d.R = run ser.R init GR)
    (hleg : ∀ s ∈ l, Legal c s) (hsp : Speaks ser c τL τR lr rl) (hr : Mutes ser.R srv s (AnswersLeft ser τL))
    (hcohL : Coherent τL (GL ++ leftOps ser c d l)) (hcohR : Coherent τR (GR ++ rightOps ser c d l))
    (hs' : Serves ser.R srv τR s parent (GR ++ rightOps ser c d l) hs os σ n log) (hfor : NoGuess ser c τL d l)
    (hc : CalledFrom ser c τL d l u v me dest m x t) (hu : UnforgedAcross ser c τL τR s d GL GR l hs os u v me t)
    (hc' : CalledFrom ser c τL d l u' v' me' dest' m' x' t') (hu' : UnforgedAcross ser c τL τR s d GL GR l hs os u' v' me' t')
    (hbefore : u ++ v <+: u') :
    ∃ cs1 r cs2 r' cs3, log.calls = cs1 ++ r :: (cs2 ++ r' :: cs3) ∧ HandledFrom c lr rl r me dest m x t ∧
      HandledFrom c lr rl r' me' dest' m' x' t' := by
  obtain ⟨a1, o, b1, a, b, cs, r, n1, log1, hla, hlt, rfl, hab, hx, h2, h3, -⟩ := call_located_from hb hL hR hleg hsp hr hcohL hcohR hs' hc hu
  obtain ⟨q, hq⟩ := hbefore
  have hS : Serves ser.R srv τR s parent (GR ++ rightOps ser c d l) (hs ++ (a ++ [o])) b r.after n1 log1 := by
    refine ⟨?_, by rw [run_append]; exact hx⟩
    obtain ⟨r, hr⟩ := hs'.part
    exact ⟨r, by rw [← hr]; simp⟩
  have hU : UnforgedAcross ser c τL τR s d GL GR l (hs ++ (a ++ [o])) b u' v' me' t' := by
    refine ⟨hu'.pastL, hu'.pastR, hu'.requestL, hu'.requestR, hu'.replyL, ?_⟩
    intro a2 me2 ds2 x2 b2 y hl2 hy
    obtain ⟨g1, g2, g3⟩ := hu'.replyR a2 me2 ds2 x2 b2 y hl2 hy
    refine ⟨g1, ?_, by simp at g3 ⊢; omega⟩
    have hlt2 := hfor a2 me2 ds2 x2 b2 t' y hl2 hy
    -- the second call had begun
    have hlen : u'.length < a2.length := by
      rcases Nat.lt_or_ge u'.length a2.length with h | h
      · exact h
      · obtain ⟨r1, hr1⟩ := hc'.part
        have hp : a2 <+: u' := by
          refine List.prefix_of_prefix_length_le (l₃ := l) (by rw [hl2]; exact List.prefix_append ..) ?_ h
          rw [← hr1]; exact ⟨v' ++ r1, by simp⟩
        obtain ⟨z, hz⟩ := hp
        obtain ⟨p1, p2, -, -, ht'⟩ := hc'.tag
        have h1 : (drun ser c d a2).L.nextRef ≤ (drun ser c d u').L.nextRef := by
          rw [← hz, drun_append, left_run ser c z]; exact run_nextRef_le ..
        have h2 : (drun ser c d u').L.nextRef ≤ (run ser.L (drun ser c d u').L p1).nextRef := run_nextRef_le ..
        omega
    -- hence the reply is later than that to the first call
    have hp : a1 ++ [.right o] <+: a2 := by
      refine List.prefix_of_prefix_length_le (l₃ := l) ⟨b1, by rw [hla]; simp⟩ (by rw [hl2]; exact List.prefix_append ..) ?_
      have := congrArg List.length hq
      simp at this hlt ⊢; omega
    obtain ⟨z, hz⟩ := hp
    have hab := congrArg List.length hab
    rw [← hz, rightOps_append, rightOps_append]
    simp [rightOps, rightOp] at hab ⊢
    omega
  obtain ⟨a2, o', b2, a', b', cs', r', n2, log2, -, -, -, -, -, k2, k3, -⟩ := call_located_from hb hL hR hleg hsp hr hcohL hcohR hS hc' hU
  exact ⟨cs, r, cs', r', log2.calls, by rw [h2, k2], h3, k3⟩

/-- C119. The names: the identifiers that a node serializes and another one deserializes behave as `Speaks` asks, if the right node knows the
left one under `idL`: a pid or reference of the left is one of node `idL` on the right, and what the left reads as a reference of its own
is on the right a reference of node `idL`. -/
theorem C119_names (serR : V → B) (wL wR : World B V) (c : Conn) (a b : Ident) (hL : identity wL = some a) (hR : identity wR = some b) (hab : a ≠ b)
    (hr : Reachable serR wR) (hn : c.nL = .rem a.1 a.2) (hid : wR.nodeMap c.nL = some c.idL) :
    (∀ i, (deserPid wR (serPid wL (.loc i))).2 = .rem i c.idL) ∧ (∀ i, (deserRef wR (serRef wL (.loc i))).2 = .rem i c.idL) ∧
    ∀ r i, (deserRef wL (serRef wR r)).2 = .loc i → r = .rem i c.idL := by
  have hi := reach_nodeInv hr
  obtain ⟨a1, a2⟩ := a
  obtain ⟨b1, b2⟩ := b
  have hne : ¬ (b1 = a1 ∧ b2 = a2) := by rintro ⟨rfl, rfl⟩; exact hab rfl
  have hreg : (nodeRegister wR (.rem a1 a2) false).2 = c.idL := by
    rw [hn] at hid; simp [nodeRegister, hid]
  refine ⟨?_, ?_, ?_⟩
  · intro i; simp [serPid, lookupLocal_eq, hL, deserPid, hR, hne, hreg]
  · intro i; simp [serRef, lookupLocal_eq, hL, deserRef, hR, hne, hreg]
  · intro r i h
    have own : ∀ j x y, (deserRef wL (.withNode j x y)).2 = .loc i → j = i ∧ x = a1 ∧ y = a2 := by
      intro j x y h
      simp only [deserRef, lookupLocal_eq, hL] at h
      split at h
      · rename_i hc; cases h; exact ⟨rfl, hc.1.symm, hc.2.symm⟩
      · cases h
    cases r with
    | loc j =>
      simp only [serRef, lookupLocal_eq, hR] at h
      obtain ⟨-, h1, h2⟩ := own _ _ _ h
      exact absurd ⟨h1, h2⟩ hne
    | rem j n =>
      simp only [serRef, lookupRemote_eq] at h
      cases hg : wR.nodeRegs n with
      | none => simp [nodeOf, hg, deserRef] at h
      | some g =>
        simp only [nodeOf, hg, Option.map_some] at h
        obtain ⟨rfl, h1, h2⟩ := own _ _ _ h
        have hb := hi.back n g hg
        by_cases h0 : n = LOCAL_NODE_ID
        · subst h0
          have hg' : wR.nodeRegs LOCAL_NODE_ID = some g := hg
          simp only [identity, hg', Option.map_some, Option.some.injEq, Prod.mk.injEq] at hR
          exact absurd ⟨hR.1.symm.trans h1, hR.2.symm.trans h2⟩ hne
        · have hm : wR.nodeMap (.rem g.name g.addr) = some n := hb.2 h0
          rw [h1, h2] at hm
          rw [hn, hm] at hid
          cases hid; rfl

/-! ## Examples -/

/-- Two nodes whose values are messages of a server. The node "a" is 1 on "b", and "b" is 1 on "a". -/
abbrev talkL : List (Op (GMsg Nat) (GMsg Nat)) :=
  [.boot, .nodeStart 1 "a" (addr 1), .connect 1 (.rem "b" (addr 2)), .boot, .boot, .workers (.rem "b" (addr 2)) 4 5]
abbrev talkR : List (Op (GMsg Nat) (GMsg Nat)) :=
  [.boot, .nodeStart 1 "b" (addr 2), .boot, .accept 3 (.rem "a" (addr 1)), .boot, .boot, .workers (.rem "a" (addr 1)) 4 5]

/-- Names of the node itself are names of node 1 on the other one, and conversely. -/
def flipRef : Ref → Ref
  | .loc i => .rem i 1
  | .rem i n => if n = 1 then .loc i else .rem i n
def flipPid : Pid → Pid
  | .loc i => .rem i 1
  | .rem i n => if n = 1 then .loc i else .rem i n
abbrev flips : Carry Nat := ⟨flipPid, flipRef, id⟩
abbrev talkSer : Sers (GMsg Nat) (GMsg Nat) := ⟨flips.gmsg, flips.gmsg⟩
abbrev gserver : RecvType (GMsg Nat) (GMsg Nat) (GMsg Nat) := ⟨some, some, id, fun _ => rfl⟩
abbrev talk : Duo (GMsg Nat) (GMsg Nat) := ⟨run flips.gmsg init talkL, run flips.gmsg init talkR, 0, 0⟩

/-- The server adds up. -/
def tally : Server (GMsg Nat) (GMsg Nat) Nat Nat where
  init s := .ret (s, .ok ())
  cast s n := .ret (s + n, .ok ())
  call s n _ := .ret (s + n, .ok (some (s + n)))
  info s _ := .ret (s, .ok ())
  terminate s _ := .ret s

abbrev anyG : RecvOp (GMsg Nat) (GMsg Nat) := anyMsg gserver
abbrev awaits (t : Nat) : RecvOp (GMsg Nat) (GMsg Nat) := ⟨GMsg Nat, gserver, isAnswer (.loc t), false⟩
abbrev theServer : Dest := .pid (.rem 1 1)

/-- A call of process 1 of "a", with the messages on the connection and what the server does. -/
abbrev talkCall (t m x : Nat) : List (DOp (GMsg Nat) (GMsg Nat)) :=
  [.left (callMon 1 theServer), .left (request gserver 1 theServer (.loc t) m), .left (.recv 1 (awaits t) .select), .toR 5, .toR 5,
   .right (.recv 1 anyG .resume), .right (replyOp gserver 1 ⟨.rem 1 1, .rem t 1, true⟩ x), .toL 5, .left (.recv 1 (awaits t) .resume),
   .left (.demonitor 1 (.loc t))]

abbrev talks : List (DOp (GMsg Nat) (GMsg Nat)) :=
  .right (.recv 1 anyG .select) :: talkCall 1 7 7 ++ .right (.recv 1 anyG .select) :: talkCall 2 4 11

abbrev talkLog : Log Nat Nat :=
  ⟨[⟨.call 7 ⟨.rem 1 1, .rem 1 1, true⟩, 0, 7, .ok (some 7)⟩, ⟨.call 4 ⟨.rem 1 1, .rem 2 1, true⟩, 7, 11, .ok (some 11)⟩], none, 11⟩

theorem talk_begins : Begins talkSer duoC talk := by
  refine ⟨⟨talkL, rfl⟩, ⟨talkR, rfl⟩, ⟨by decide, rfl, ⟨_, rfl, by decide, .inr rfl⟩, ?_, ?_, rfl, rfl, ?_, ?_, ?_, ?_⟩,
    ⟨by decide, rfl, ⟨_, rfl, by decide, .inr rfl⟩, ?_, ?_, rfl, rfl, ?_, ?_, ?_, ?_⟩, rfl, rfl⟩
  · intro k g hk hg
    have := regs_lt talkL hg
    have e : (run flips.gmsg init talkL : World _ _).nextNode = 2 := rfl
    rw [e] at this
    have : k = 0 := by simp only [duoC] at hk; omega
    subst this
    cases hg; decide
  · intro g hg; cases hg; decide
  · intro i x hx; cases hx
  · intro i x hx; cases hx
  · intro i x hx; cases hx
  · intro i x hx; cases hx
  · intro k g hk hg
    have := regs_lt talkR hg
    have e : (run flips.gmsg init talkR : World _ _).nextNode = 2 := rfl
    rw [e] at this
    have : k = 0 := by simp only [duoC] at hk; omega
    subst this
    cases hg; decide
  · intro g hg; cases hg; decide
  · intro i x hx; cases hx
  · intro i x hx; cases hx
  · intro i x hx; cases hx
  · intro i x hx; cases hx

theorem talk_speaks : Speaks talkSer duoC gserver gserver flips flips := by
  refine ⟨fun g g' h => by cases h; rfl, fun g g' h => by cases h; rfl, fun _ => rfl, fun _ => rfl, ?_⟩
  intro r i h
  cases r with
  | loc j => cases h
  | rem j n =>
    simp only [flipRef] at h
    split at h
    · rename_i h1; cases h; subst h1; rfl
    · cases h

theorem tally_mutes : Mutes talkSer.R tally 1 (AnswersLeft talkSer gserver) := by
  have silent : ∀ {R : Type} (r : R), Mute talkSer.R 1 (AnswersLeft talkSer gserver) (.ret r : Prog (GMsg Nat) (GMsg Nat) R) := by
    intro R r w os r' h o ho hc
    exact absurd hc ((exec_ret_inv h).2 o ho).1
  refine ⟨fun _ _ => silent _, fun _ _ _ => silent _, fun _ _ => silent _, fun _ _ => silent _, ?_⟩
  rintro o ⟨me, ds, v, n, y, rfl, -⟩
  exact ⟨_, .local ..⟩

abbrev calls (t m x : Nat) : List (Op (GMsg Nat) (GMsg Nat)) :=
  [callMon 1 theServer, request gserver 1 theServer (.loc t) m, .recv 1 (awaits t) .select,
   .frame 5 (.rem "b" (addr 2)) (.send [.alias t] (.callReply (.loc t) x)), .recv 1 (awaits t) .resume, .demonitor 1 (.loc t)]

abbrev talkU : List (DOp (GMsg Nat) (GMsg Nat)) := [.right (.recv 1 anyG .select)]
abbrev talkU' : List (DOp (GMsg Nat) (GMsg Nat)) := .right (.recv 1 anyG .select) :: talkCall 1 7 7 ++ [.right (.recv 1 anyG .select)]

theorem talk_left1 : leftOps talkSer duoC (drun talkSer duoC talk talkU) (talkCall 1 7 7) = calls 1 7 7 := rfl
theorem talk_left2 : leftOps talkSer duoC (drun talkSer duoC talk talkU') (talkCall 2 4 11) = calls 2 4 11 := rfl

theorem talk_called1 : CalledFrom talkSer duoC gserver talk talks talkU (talkCall 1 7 7) 1 theServer 7 7 1 := by
  refine ⟨⟨_, rfl⟩, ?_, [], _, rfl, by simp, rfl⟩
  rw [talk_left1]
  refine .op rfl (.op rfl (.pending rfl rfl (.env ⟨by simp [Op.caller], by simp⟩ (.got (m := .user (.callReply (.loc 1) 7)) rfl rfl ?_))))
  exact .op rfl (.ret _ _)


theorem talk_called2 : CalledFrom talkSer duoC gserver talk talks talkU' (talkCall 2 4 11) 1 theServer 4 11 2 := by
  refine ⟨⟨[], rfl⟩, ?_, [], _, rfl, by simp, rfl⟩
  rw [talk_left2]
  refine .op rfl (.op rfl (.pending rfl rfl (.env ⟨by simp [Op.caller], by simp⟩ (.got (m := .user (.callReply (.loc 2) 11)) rfl rfl ?_))))
  exact .op rfl (.ret _ _)

/-- What "b" executes. -/
abbrev serves : List (Op (GMsg Nat) (GMsg Nat)) :=
  [.recv 1 anyG .select, .frame 5 (.rem "a" (addr 1)) (.monitor true (some 1) none (some 1) 1),
   .frame 5 (.rem "a" (addr 1)) (.send [.pid 1] (.call ⟨.rem 1 1, .rem 1 1, true⟩ 7)), .recv 1 anyG .resume,
   replyOp gserver 1 ⟨.rem 1 1, .rem 1 1, true⟩ 7,
   .recv 1 anyG .select, .frame 5 (.rem "a" (addr 1)) (.monitor true (some 1) none (some 1) 2),
   .frame 5 (.rem "a" (addr 1)) (.send [.pid 1] (.call ⟨.rem 1 1, .rem 2 1, true⟩ 4)), .recv 1 anyG .resume,
   replyOp gserver 1 ⟨.rem 1 1, .rem 2 1, true⟩ 11]

theorem talk_right : rightOps talkSer duoC talk talks = serves := rfl

theorem talk_serves : Serves talkSer.R tally gserver 1 (.loc 1) (talkR ++ rightOps talkSer duoC talk talks) talkR
    (rightOps talkSer duoC talk talks) 0 2 talkLog := by
  refine ⟨List.prefix_rfl, ?_⟩
  rw [talk_right]
  refine .pending rfl rfl (.env ⟨by simp [Op.caller], by simp⟩ (.env ⟨by simp [Op.caller], by simp⟩
    (.got (m := .user (.call ⟨.rem 1 1, .rem 1 1, true⟩ 7)) rfl rfl (.op rfl ?_))))
  refine .pending rfl rfl (.env ⟨by simp [Op.caller], by simp⟩ (.env ⟨by simp [Op.caller], by simp⟩
    (.got (m := .user (.call ⟨.rem 1 1, .rem 2 1, true⟩ 4)) rfl rfl (.op rfl ?_))))
  exact .ret _ _


/-- What is sent in the schedule, and by which side (`true`: the left one). -/
def sentIn : DOp (GMsg Nat) (GMsg Nat) → Option (Bool × GMsg Nat)
  | .left (.send _ _ v) => some (true, v)
  | .right (.send _ _ v) => some (false, v)
  | _ => none

def talkSends : List (Option (Bool × GMsg Nat)) :=
  [none, none, some (true, .call ⟨.loc 1, .loc 1, true⟩ 7), none, none, none, none, some (false, .callReply (.rem 1 1) 7), none, none, none,
   none, none, some (true, .call ⟨.loc 1, .loc 2, true⟩ 4), none, none, none, none, some (false, .callReply (.rem 2 1) 11), none, none, none]

theorem talk_sends : talks.map sentIn = talkSends := rfl

theorem talkSends_at {k : Nat} {g : Bool × GMsg Nat} (h : talkSends[k]? = some (some g)) :
    (k = 2 ∧ g = (true, .call ⟨.loc 1, .loc 1, true⟩ 7)) ∨ (k = 7 ∧ g = (false, .callReply (.rem 1 1) 7)) ∨
    (k = 13 ∧ g = (true, .call ⟨.loc 1, .loc 2, true⟩ 4)) ∨ (k = 18 ∧ g = (false, .callReply (.rem 2 1) 11)) := by
  have hk : k < 22 := by
    rcases Nat.lt_or_ge k 22 with h' | h'
    · exact h'
    · rw [List.getElem?_eq_none (by simpa [talkSends] using h')] at h; cases h
  rcases (by omega : k = 0 ∨ k = 1 ∨ k = 2 ∨ k = 3 ∨ k = 4 ∨ k = 5 ∨ k = 6 ∨ k = 7 ∨ k = 8 ∨ k = 9 ∨ k = 10 ∨ k = 11 ∨ k = 12 ∨ k = 13 ∨ k = 14 ∨ k = 15 ∨ k = 16 ∨ k = 17 ∨ k = 18 ∨ k = 19 ∨ k = 20 ∨ k = 21) with
    rfl | rfl | rfl | rfl | rfl | rfl | rfl | rfl | rfl | rfl | rfl | rfl | rfl | rfl | rfl | rfl | rfl | rfl | rfl | rfl | rfl | rfl
  all_goals simp [talkSends] at h
  all_goals (subst h; simp)

theorem talk_at {a b : List (DOp (GMsg Nat) (GMsg Nat))} {s} (h : talks = a ++ s :: b) {g} (hs : sentIn s = some g) :
    talkSends[a.length]? = some (some g) ∧ talks[a.length]? = some s := by
  refine ⟨?_, by rw [h]; simp⟩
  rw [← talk_sends, h]
  simp [hs]

def isFrameIn : DOp (GMsg Nat) (GMsg Nat) → Bool
  | .left (.frame ..) => true
  | .right (.frame ..) => true
  | _ => false

theorem talk_noFrames {s} (h : s ∈ talks) : isFrameIn s = false := by
  have e : talks.map isFrameIn = List.replicate 22 false := rfl
  have := List.mem_map_of_mem (f := isFrameIn) h
  rw [e] at this
  exact (List.mem_replicate.1 this).2

/-- What left sends, as right reads it, and conversely. -/
theorem talk_leftIn {o : Op (GMsg Nat) (GMsg Nat)} (h : .left o ∈ talks) {it g} (hs : SentBy talkSer.L o it) (hr : Reads gserver it g) :
    ∃ f x, g = .call f x := by
  obtain ⟨a, b, h'⟩ := List.append_of_mem h
  cases hs with
  | frame rp n ts b => cases talk_noFrames h
  | «local» me ds v =>
    obtain ⟨h1, -⟩ := talk_at h' (g := (true, v)) rfl
    cases hr
    rcases talkSends_at h1 with ⟨-, h2⟩ | ⟨-, h2⟩ | ⟨-, h2⟩ | ⟨-, h2⟩ <;> cases h2 <;> exact ⟨_, _, rfl⟩
  | serial me ds v =>
    obtain ⟨h1, -⟩ := talk_at h' (g := (true, v)) rfl
    cases hr
    rcases talkSends_at h1 with ⟨-, h2⟩ | ⟨-, h2⟩ | ⟨-, h2⟩ | ⟨-, h2⟩ <;> cases h2 <;> exact ⟨_, _, rfl⟩

theorem talk_rightIn {o : Op (GMsg Nat) (GMsg Nat)} (h : .right o ∈ talks) {it g} (hs : SentBy talkSer.R o it) (hr : Reads gserver it g) :
    ∃ r x, g = .callReply r x := by
  obtain ⟨a, b, h'⟩ := List.append_of_mem h
  cases hs with
  | frame rp n ts b => cases talk_noFrames h
  | «local» me ds v =>
    obtain ⟨h1, -⟩ := talk_at h' (g := (false, v)) rfl
    cases hr
    rcases talkSends_at h1 with ⟨-, h2⟩ | ⟨-, h2⟩ | ⟨-, h2⟩ | ⟨-, h2⟩ <;> cases h2 <;> exact ⟨_, _, rfl⟩
  | serial me ds v =>
    obtain ⟨h1, -⟩ := talk_at h' (g := (false, v)) rfl
    cases hr
    rcases talkSends_at h1 with ⟨-, h2⟩ | ⟨-, h2⟩ | ⟨-, h2⟩ | ⟨-, h2⟩ <;> cases h2 <;> exact ⟨_, _, rfl⟩

theorem talk_past {G : List (Op (GMsg Nat) (GMsg Nat))} (hG : G = talkL ∨ G = talkR) {o} (h : o ∈ G) {it} : ¬ SentBy talkSer.L o it := by
  intro hs
  rcases hG with rfl | rfl <;> cases hs <;> simp at h

theorem talk_unforged1 : UnforgedAcross talkSer duoC gserver gserver 1 talk talkL talkR talks talkR (rightOps talkSer duoC talk talks) talkU
    (talkCall 1 7 7) 1 1 := by
  refine ⟨?_, ?_, ?_, ?_, ?_, ?_⟩
  · rintro o ho y ⟨it, hs, -⟩
    exact talk_past (.inl rfl) ho hs
  · intro o ho it frm y hs _
    exact absurd hs (talk_past (.inr rfl) ho)
  · intro a me' ds x b frm y h hd ht
    obtain ⟨h1, h2⟩ := talk_at h (g := (true, x)) rfl
    rcases talkSends_at h1 with ⟨hk, hg⟩ | ⟨-, hg⟩ | ⟨-, hg⟩ | ⟨-, hg⟩ <;> cases hg <;> cases hd <;> try cases ht
    rw [hk] at h2 ⊢
    cases h2
    exact ⟨rfl, by decide, by decide⟩
  · intro o ho it frm y hs hr
    obtain ⟨_, _, h⟩ := talk_rightIn ho hs hr
    cases h
  · rintro o ho y ⟨it, hs, hr⟩
    obtain ⟨_, _, h⟩ := talk_leftIn ho hs hr
    cases h
  · intro a me' ds x b y h hd
    obtain ⟨h1, h2⟩ := talk_at h (g := (false, x)) rfl
    have ha : a = talks.take a.length := by rw [h]; simp
    rcases talkSends_at h1 with ⟨-, hg⟩ | ⟨hk, hg⟩ | ⟨-, hg⟩ | ⟨-, hg⟩ <;> cases hg <;> cases hd
    rw [hk] at h2
    cases h2
    rw [ha, hk]
    exact ⟨rfl, by decide +kernel, by decide +kernel⟩

theorem talk_unforged2 : UnforgedAcross talkSer duoC gserver gserver 1 talk talkL talkR talks talkR (rightOps talkSer duoC talk talks) talkU'
    (talkCall 2 4 11) 1 2 := by
  refine ⟨?_, ?_, ?_, ?_, ?_, ?_⟩
  · rintro o ho y ⟨it, hs, -⟩
    exact talk_past (.inl rfl) ho hs
  · intro o ho it frm y hs _
    exact absurd hs (talk_past (.inr rfl) ho)
  · intro a me' ds x b frm y h hd ht
    obtain ⟨h1, h2⟩ := talk_at h (g := (true, x)) rfl
    rcases talkSends_at h1 with ⟨-, hg⟩ | ⟨-, hg⟩ | ⟨hk, hg⟩ | ⟨-, hg⟩ <;> cases hg <;> cases hd <;> try cases ht
    rw [hk] at h2 ⊢
    cases h2
    exact ⟨rfl, by decide, by decide⟩
  · intro o ho it frm y hs hr
    obtain ⟨_, _, h⟩ := talk_rightIn ho hs hr
    cases h
  · rintro o ho y ⟨it, hs, hr⟩
    obtain ⟨_, _, h⟩ := talk_leftIn ho hs hr
    cases h
  · intro a me' ds x b y h hd
    obtain ⟨h1, h2⟩ := talk_at h (g := (false, x)) rfl
    have ha : a = talks.take a.length := by rw [h]; simp
    rcases talkSends_at h1 with ⟨-, hg⟩ | ⟨-, hg⟩ | ⟨-, hg⟩ | ⟨hk, hg⟩ <;> cases hg <;> cases hd
    rw [hk] at h2
    cases h2
    rw [ha, hk]
    exact ⟨rfl, by decide +kernel, by decide +kernel⟩

theorem talk_noGuess : NoGuess talkSer duoC gserver talk talks := by
  intro a me ds x b n y h hd
  obtain ⟨h1, -⟩ := talk_at h (g := (false, x)) rfl
  have ha : a = talks.take a.length := by rw [h]; simp
  rcases talkSends_at h1 with ⟨-, hg⟩ | ⟨hk, hg⟩ | ⟨-, hg⟩ | ⟨hk, hg⟩ <;> cases hg <;> cases hd <;> (rw [ha, hk]; decide +kernel)

theorem talk_coherentR : Coherent gserver (talkR ++ rightOps talkSer duoC talk talks) := by
  intro a o k h b t' x h1
  rw [talk_right] at h
  simp only [replyOp, List.cons_append, List.nil_append, List.mem_cons, List.not_mem_nil, or_false, reduceCtorEq, false_or] at h
  rcases h with h | h | h | h <;> cases h <;> (cases h1; exact id)

theorem talk_left : leftOps talkSer duoC talk talks = calls 1 7 7 ++ calls 2 4 11 := rfl

theorem talk_coherentL : Coherent gserver (talkL ++ leftOps talkSer duoC talk talks) := by
  intro a o k h b t' x h1
  rw [talk_left] at h
  simp only [callMon, monOp, theServer, destLocal, Pid.isLocal, request, List.cons_append, List.nil_append, List.mem_cons, List.not_mem_nil, or_false,
    reduceCtorEq, false_or] at h
  rcases h with h | h | h | h | h | h <;> cases h <;> (cases h1; exact id)

theorem talk_legal : ∀ s ∈ talks, Legal duoC s := by
  intro s hs
  simp only [talks, talkCall, List.cons_append, List.nil_append, List.mem_cons, List.not_mem_nil, or_false] at hs
  rcases hs with h | h | h | h | h | h | h | h | h | h | h | h | h | h | h | h | h | h | h | h | h | h <;> subst h <;>
    simp [Legal, Undisturbed, callMon, monOp, destLocal, Pid.isLocal, request, replyOp]

example := C119_answered _ _ _ _ _ _ _ _ _ _ _ _ _ _ _ _ _ _ _ _ _ _ _ _ _ talk_begins rfl rfl talk_legal talk_speaks tally_mutes talk_coherentL talk_coherentR
  talk_serves talk_called1 talk_unforged1
example := C119_order _ _ _ _ _ _ _ _ _ _ _ _ _ _ _ _ _ _ _ _ _ _ _ _ _ _ _ _ _ _ _ _ talk_begins rfl rfl talk_legal talk_speaks tally_mutes talk_coherentL
  talk_coherentR talk_serves talk_noGuess talk_called1 talk_unforged1 talk_called2 talk_unforged2 ⟨_, rfl⟩
example := C119_names flips.gmsg talk.L talk.R duoC ("a", addr 1) ("b", addr 2) rfl rfl (by decide) ⟨talkR, rfl⟩ rfl rfl

end Verif.World
