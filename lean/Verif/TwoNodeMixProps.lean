import Verif.Sim
import Verif.TwoNodeCallProps
/-!
# Calls from two nodes (C121)

A server is called by processes of its own node and by processes of another one. Specification: `Called`, `Unforged` and `Handled` (CallOrderProps.lean) for
the calls of its own node (the right one), `CalledFrom`, `UnforgedAcross` and `HandledFrom` (TwoNodeCallProps.lean) for those of the other.
-/
namespace Verif.World
open Verif.Mailbox
variable {B V M S R : Type}

/-! ## Theorems -/

/-- C121. If a call of the server's own node had returned before a call of the other node began, then the server handled it first. -/
theorem C121_local_then_remote (ser : Sers V B) (c : Conn) (srv : Server B V M S) (τL τR : RecvType B V (GMsg M)) (lr rl : Carry M) (s : Nat) (parent : Pid)
    (d : Duo B V) (GL GR : List (Op B V)) (l : List (DOp B V)) (hs os : List (Op B V)) (σ : S) (n : Nat) (log : Log M S)
    (pre ops : List (Op B V)) (me : Nat) (dest : Dest) (m x : M) (t : Nat) (u' v' : List (DOp B V)) (me' : Nat) (dest' : Dest) (m' x' : M) (t' : Nat)
    (hb : Begins ser c d) (hL : d.L = run ser.L init GL) (hR : d.R = run ser.R init GR)
    (hleg : ∀ s ∈ l, Legal c s) (hsp : Speaks ser c τL τR lr rl) (hf : Faithful ser.R τR)
    (hr : Mutes ser.R srv s (AnswersLeft ser τL)) (hrl : Returns ser.R srv τR s)
    (hcohL : Coherent τL (GL ++ leftOps ser c d l)) (hcohR : Coherent τR (GR ++ rightOps ser c d l))
    (hs' : Serves ser.R srv τR s parent (GR ++ rightOps ser c d l) hs os σ n log) (hfor : NoGuess ser c τL d l)
    (hforR : NoForgery ser.R τR (GR ++ rightOps ser c d l))
    (hc : Called ser.R τR (GR ++ rightOps ser c d l) pre ops me dest m x t) (hu : Unforged ser.R τR s (GR ++ rightOps ser c d l) hs os pre ops me t)
    (hc' : CalledFrom ser c τL d l u' v' me' dest' m' x' t') (hu' : UnforgedAcross ser c τL τR s d GL GR l hs os u' v' me' t')
    (hbefore : pre ++ ops <+: GR ++ rightOps ser c d u') :
    ∃ cs1 r cs2 r' cs3, log.calls = cs1 ++ r :: (cs2 ++ r' :: cs3) ∧ Handled r me dest m x t ∧ HandledFrom c lr rl r' me' dest' m' x' t' := by
  obtain ⟨a, o, b, cs, r, n1, log1, rfl, -, hlt, hx, h2, h3, -⟩ := call_located hrl hcohR hforR hf hs' hc hu
  have hS : Serves ser.R srv τR s parent (GR ++ rightOps ser c d l) (hs ++ (a ++ [o])) b r.after n1 log1 := by
    refine ⟨?_, by rw [run_append]; exact hx⟩
    obtain ⟨r, hr⟩ := hs'.part
    exact ⟨r, by rw [← hr]; simp⟩
  have hU : UnforgedAcross ser c τL τR s d GL GR l (hs ++ (a ++ [o])) b u' v' me' t' := by
    refine ⟨hu'.pastL, hu'.pastR, hu'.requestL, hu'.requestR, hu'.replyL, ?_⟩
    intro a2 me2 ds2 x2 b2 y hl2 hy
    obtain ⟨g1, g2, g3⟩ := hu'.replyR a2 me2 ds2 x2 b2 y hl2 hy
    refine ⟨g1, ?_, by simp at g3 ⊢; omega⟩
    have hlt2 := hfor a2 me2 ds2 x2 b2 t' y hl2 hy
    obtain ⟨r1, hr1⟩ := hc'.part
    -- the second call had begun
    have hp : u' <+: a2 := by
      rcases Nat.lt_or_ge u'.length a2.length with h | h
      · refine List.prefix_of_prefix_length_le (l₃ := l) ?_ (by rw [hl2]; exact List.prefix_append ..) (by omega)
        rw [← hr1]; exact ⟨v' ++ r1, by simp⟩
      · exfalso
        have hp : a2 <+: u' := by
          refine List.prefix_of_prefix_length_le (l₃ := l) (by rw [hl2]; exact List.prefix_append ..) ?_ h
          rw [← hr1]; exact ⟨v' ++ r1, by simp⟩
        obtain ⟨z, hz⟩ := hp
        obtain ⟨p1, p2, -, -, ht'⟩ := hc'.tag
        have h1 : (drun ser c d a2).L.nextRef ≤ (drun ser c d u').L.nextRef := by
          rw [← hz, drun_append, left_run ser c z]; exact run_nextRef_le ..
        have h2 : (drun ser c d u').L.nextRef ≤ (run ser.L (drun ser c d u').L p1).nextRef := run_nextRef_le ..
        omega
    obtain ⟨z, rfl⟩ := hp
    have := hbefore.length_le
    rw [rightOps_append]
    simp at this hlt ⊢
    omega
  obtain ⟨a2, o', b2, a', b', cs', r', n2, log2, -, -, -, -, -, k2, k3, -⟩ := call_located_from hb hL hR hleg hsp hr hcohL hcohR hS hc' hU
  exact ⟨cs, r, cs', r', log2.calls, by rw [h2, k2], h3, k3⟩

/-- C121. If a call of the other node had returned before a call of the server's own node began, then the server handled it first. -/
theorem C121_remote_then_local (ser : Sers V B) (c : Conn) (srv : Server B V M S) (τL τR : RecvType B V (GMsg M)) (lr rl : Carry M) (s : Nat) (parent : Pid)
    (d : Duo B V) (GL GR : List (Op B V)) (l : List (DOp B V)) (hs os : List (Op B V)) (σ : S) (n : Nat) (log : Log M S)
    (u v : List (DOp B V)) (me : Nat) (dest : Dest) (m x : M) (t : Nat) (pre' ops' : List (Op B V)) (me' : Nat) (dest' : Dest) (m' x' : M) (t' : Nat)
    (hb : Begins ser c d) (hL : d.L = run ser.L init GL) (hR : d.R = run ser.R init GR)
    (hleg : ∀ s ∈ l, Legal c s) (hsp : Speaks ser c τL τR lr rl) (hf : Faithful ser.R τR)
    (hr : Mutes ser.R srv s (AnswersLeft ser τL)) (hrl : Returns ser.R srv τR s)
    (hcohL : Coherent τL (GL ++ leftOps ser c d l)) (hcohR : Coherent τR (GR ++ rightOps ser c d l))
    (hs' : Serves ser.R srv τR s parent (GR ++ rightOps ser c d l) hs os σ n log)
    (hforR : NoForgery ser.R τR (GR ++ rightOps ser c d l))
    (hc : CalledFrom ser c τL d l u v me dest m x t) (hu : UnforgedAcross ser c τL τR s d GL GR l hs os u v me t)
    (hc' : Called ser.R τR (GR ++ rightOps ser c d l) pre' ops' me' dest' m' x' t')
    (hu' : Unforged ser.R τR s (GR ++ rightOps ser c d l) hs os pre' ops' me' t')
    (hbefore : GR ++ rightOps ser c d (u ++ v) <+: pre') :
    ∃ cs1 r cs2 r' cs3, log.calls = cs1 ++ r :: (cs2 ++ r' :: cs3) ∧ HandledFrom c lr rl r me dest m x t ∧ Handled r' me' dest' m' x' t' := by
  obtain ⟨a1, o, b1, a, b, cs, r, n1, log1, hla, hlt, rfl, hab, hx, h2, h3, -⟩ := call_located_from hb hL hR hleg hsp hr hcohL hcohR hs' hc hu
  have hS : Serves ser.R srv τR s parent (GR ++ rightOps ser c d l) (hs ++ (a ++ [o])) b r.after n1 log1 := by
    refine ⟨?_, by rw [run_append]; exact hx⟩
    obtain ⟨r, hr⟩ := hs'.part
    exact ⟨r, by rw [← hr]; simp⟩
  have hlen0 : (hs ++ (a ++ [o])).length ≤ pre'.length := by
    have hp : a1 ++ [.right o] <+: u ++ v :=
      List.prefix_of_prefix_length_le (l₃ := l) ⟨b1, by rw [hla]; simp⟩ hc.part (by simp at hlt ⊢; omega)
    obtain ⟨z, hz⟩ := hp
    have hle := hbefore.length_le
    rw [← hz, rightOps_append, rightOps_append] at hle
    have hab := congrArg List.length hab
    simp [rightOps, rightOp] at hle hab ⊢
    omega
  have hU : Unforged ser.R τR s (GR ++ rightOps ser c d l) (hs ++ (a ++ [o])) b pre' ops' me' t' := by
    refine ⟨hu'.request, ?_⟩
    intro a' o' b' y hG hrep
    obtain ⟨g1, g2, g3⟩ := hu'.reply a' o' b' y hG hrep
    refine ⟨g1, ?_, by simp at g3 ⊢; omega⟩
    have hlt2 : t' < (run ser.R init a').nextRef := hforR a' o' b' t' y hG hrep
    obtain ⟨p1, p2, hops, -, ht'⟩ := hc'.tag
    obtain ⟨r1, hr1⟩ := hc'.part
    rcases Nat.lt_or_ge (pre' ++ p1).length a'.length with h | h
    · simp at h hlen0 ⊢; omega
    · exfalso
      have hp : a' <+: pre' ++ p1 := by
        refine List.prefix_of_prefix_length_le (l₃ := GR ++ rightOps ser c d l) (by rw [hG]; exact List.prefix_append ..) ?_ h
        rw [← hr1, hops]; exact ⟨callMon me' dest' :: p2 ++ r1, by simp⟩
      obtain ⟨z, hz⟩ := hp
      have : (run ser.R init a').nextRef ≤ (run ser.R init (pre' ++ p1)).nextRef := by
        rw [← hz, run_append ser.R init a']; exact run_nextRef_le ..
      omega
  obtain ⟨a', o', b', cs', r', n2, log2, -, -, -, -, k2, k3, -⟩ := call_located hrl hcohR hforR hf hS hc' hU
  exact ⟨cs, r, cs', r', log2.calls, by rw [h2, k2], h3, k3⟩

/-! ## Example -/

/-- What is written carries who has written it. -/
abbrev Wire := Bool × GMsg Nat
abbrev mixSer : Sers (GMsg Nat) Wire := ⟨fun g => (true, g), fun g => (false, g)⟩
abbrev mixL : RecvType Wire (GMsg Nat) (GMsg Nat) := ⟨fun b => if b.1 then some b.2 else some (flips.gmsg b.2), some, id, fun _ => rfl⟩
abbrev mixR : RecvType Wire (GMsg Nat) (GMsg Nat) := ⟨fun b => if b.1 then some (flips.gmsg b.2) else some b.2, some, id, fun _ => rfl⟩

abbrev mixStartL : List (Op Wire (GMsg Nat)) :=
  [.boot, .nodeStart 1 "a" (addr 1), .connect 1 (.rem "b" (addr 2)), .boot, .boot, .workers (.rem "b" (addr 2)) 4 5]
abbrev mixStartR : List (Op Wire (GMsg Nat)) :=
  [.boot, .nodeStart 1 "b" (addr 2), .boot, .accept 3 (.rem "a" (addr 1)), .boot, .boot, .workers (.rem "a" (addr 1)) 4 5, .boot]
abbrev mixDuo : Duo Wire (GMsg Nat) := ⟨run mixSer.L init mixStartL, run mixSer.R init mixStartR, 0, 0⟩

/-- The server adds up. -/
def mixTally : Server Wire (GMsg Nat) Nat Nat where
  init s := .ret (s, .ok ())
  cast s n := .ret (s + n, .ok ())
  call s n _ := .ret (s + n, .ok (some (s + n)))
  info s _ := .ret (s, .ok ())
  terminate s _ := .ret s

abbrev mixAny : RecvOp Wire (GMsg Nat) := anyMsg mixR
abbrev mixAwaitsL (t : Nat) : RecvOp Wire (GMsg Nat) := ⟨GMsg Nat, mixL, isAnswer (.loc t), false⟩
abbrev mixAwaitsR (t : Nat) : RecvOp Wire (GMsg Nat) := ⟨GMsg Nat, mixR, isAnswer (.loc t), false⟩
abbrev here : Dest := .pid (.loc 1)

/-- Process 6 of "b" calls the server. -/
abbrev mixHere (t m x : Nat) : List (Op Wire (GMsg Nat)) :=
  [callMon 6 here, request mixR 6 here (.loc t) m, .recv 6 (mixAwaitsR t) .select, .recv 1 mixAny .resume,
   replyOp mixR 1 ⟨.loc 6, .loc t, false⟩ x, .recv 6 (mixAwaitsR t) .resume, .demonitor 6 (.loc t)]

/-- Process 1 of "a" calls the server. -/
abbrev mixThere (t m x : Nat) : List (DOp Wire (GMsg Nat)) :=
  [.left (callMon 1 theServer), .left (request mixL 1 theServer (.loc t) m), .left (.recv 1 (mixAwaitsL t) .select), .toR 5, .toR 5,
   .right (.recv 1 mixAny .resume), .right (replyOp mixR 1 ⟨.rem 1 1, .rem t 1, true⟩ x), .toL 5, .left (.recv 1 (mixAwaitsL t) .resume),
   .left (.demonitor 1 (.loc t))]

abbrev mixU : List (DOp Wire (GMsg Nat)) := .right (.recv 1 mixAny .select) :: (mixHere 1 7 7).map .right ++ [.right (.recv 1 mixAny .select)]
abbrev mixTalk : List (DOp Wire (GMsg Nat)) := mixU ++ mixThere 1 4 11 ++ .right (.recv 1 mixAny .select) :: (mixHere 2 5 16).map .right

abbrev mixLog : Log Nat Nat :=
  ⟨[⟨.call 7 ⟨.loc 6, .loc 1, false⟩, 0, 7, .ok (some 7)⟩, ⟨.call 4 ⟨.rem 1 1, .rem 1 1, true⟩, 7, 11, .ok (some 11)⟩,
    ⟨.call 5 ⟨.loc 6, .loc 2, false⟩, 11, 16, .ok (some 16)⟩], none, 16⟩

/-- What "b" executes during the call of "a". -/
abbrev mixServes : List (Op Wire (GMsg Nat)) :=
  [.frame 5 (.rem "a" (addr 1)) (.monitor true (some 1) none (some 1) 1),
   .frame 5 (.rem "a" (addr 1)) (.send [.pid 1] (true, .call ⟨.loc 1, .loc 1, true⟩ 4)), .recv 1 mixAny .resume,
   replyOp mixR 1 ⟨.rem 1 1, .rem 1 1, true⟩ 11]

abbrev mixRight : List (Op Wire (GMsg Nat)) :=
  .recv 1 mixAny .select :: mixHere 1 7 7 ++ .recv 1 mixAny .select :: mixServes ++ .recv 1 mixAny .select :: mixHere 2 5 16

theorem mix_right : rightOps mixSer duoC mixDuo mixTalk = mixRight := rfl
theorem mix_rightU : rightOps mixSer duoC mixDuo mixU = .recv 1 mixAny .select :: mixHere 1 7 7 ++ [.recv 1 mixAny .select] := rfl
theorem mix_rightUV : rightOps mixSer duoC mixDuo (mixU ++ mixThere 1 4 11) =
  .recv 1 mixAny .select :: mixHere 1 7 7 ++ .recv 1 mixAny .select :: mixServes := rfl

abbrev mixCalls : List (Op Wire (GMsg Nat)) :=
  [callMon 1 theServer, request mixL 1 theServer (.loc 1) 4, .recv 1 (mixAwaitsL 1) .select,
   .frame 5 (.rem "b" (addr 2)) (.send [.alias 1] (false, .callReply (.rem 1 1) 11)), .recv 1 (mixAwaitsL 1) .resume, .demonitor 1 (.loc 1)]

theorem mix_left : leftOps mixSer duoC mixDuo mixTalk = mixCalls := rfl

theorem mix_called : CalledFrom mixSer duoC mixL mixDuo mixTalk mixU (mixThere 1 4 11) 1 theServer 4 11 1 := by
  refine ⟨⟨_, rfl⟩, ?_, [], _, rfl, by simp, rfl⟩
  rw [show leftOps mixSer duoC (drun mixSer duoC mixDuo mixU) (mixThere 1 4 11) = mixCalls from rfl]
  refine .op rfl (.op rfl (.pending rfl rfl (.env ⟨by simp [Op.caller], by simp⟩ (.got (m := .user (.callReply (.loc 1) 11)) rfl rfl ?_))))
  exact .op rfl (.ret _ _)

theorem mix_called1 : Called mixSer.R mixR (mixStartR ++ mixRight) (mixStartR ++ [.recv 1 mixAny .select]) (mixHere 1 7 7) 6 here 7 7 1 := by
  refine ⟨⟨_, rfl⟩, ?_, [], _, rfl, by simp, rfl⟩
  refine .op rfl (.op rfl (.pending rfl rfl (.env ⟨by simp [Op.caller], by simp⟩ (.env ⟨by simp [Op.caller, replyOp], by simp [replyOp]⟩
    (.got (m := .user (.callReply (.loc 1) 7)) rfl rfl ?_)))))
  exact .op rfl (.ret _ _)

theorem mix_called2 : Called mixSer.R mixR (mixStartR ++ mixRight)
    (mixStartR ++ .recv 1 mixAny .select :: mixHere 1 7 7 ++ .recv 1 mixAny .select :: mixServes ++ [.recv 1 mixAny .select]) (mixHere 2 5 16) 6 here 5 16 2 := by
  refine ⟨⟨[], rfl⟩, ?_, [], _, rfl, by simp, rfl⟩
  refine .op rfl (.op rfl (.pending rfl rfl (.env ⟨by simp [Op.caller], by simp⟩ (.env ⟨by simp [Op.caller, replyOp], by simp [replyOp]⟩
    (.got (m := .user (.callReply (.loc 2) 16)) rfl rfl ?_)))))
  exact .op rfl (.ret _ _)

theorem mix_serves : Serves mixSer.R mixTally mixR 1 (.loc 1) (mixStartR ++ rightOps mixSer duoC mixDuo mixTalk) mixStartR
    (rightOps mixSer duoC mixDuo mixTalk) 0 3 mixLog := by
  refine ⟨List.prefix_rfl, ?_⟩
  rw [mix_right]
  have oth : ∀ {o : Op Wire (GMsg Nat)}, o.caller = some 5 ∨ o.caller = some 6 → (∀ i, o ≠ .drop i) → Others 1 o := by
    intro o h1 h2
    refine ⟨?_, h2 1⟩
    rcases h1 with h | h <;> simp [h]
  refine .pending rfl rfl (.env (oth (.inr rfl) (by intro i h; cases h)) (.env (oth (.inr rfl) (by intro i h; cases h))
    (.env (oth (.inr rfl) (by intro i h; cases h)) (.got (m := .user (.call ⟨.loc 6, .loc 1, false⟩ 7)) rfl rfl (.op rfl ?_)))))
  refine .env (oth (.inr rfl) (by intro i h; cases h)) (.env (oth (.inr rfl) (by intro i h; cases h)) ?_)
  refine .pending rfl rfl (.env (oth (.inl rfl) (by intro i h; cases h)) (.env (oth (.inl rfl) (by intro i h; cases h))
    (.got (m := .user (.call ⟨.rem 1 1, .rem 1 1, true⟩ 4)) rfl rfl (.op rfl ?_))))
  refine .pending rfl rfl (.env (oth (.inr rfl) (by intro i h; cases h)) (.env (oth (.inr rfl) (by intro i h; cases h))
    (.env (oth (.inr rfl) (by intro i h; cases h)) (.got (m := .user (.call ⟨.loc 6, .loc 2, false⟩ 5)) rfl rfl (.op rfl ?_)))))
  refine .env (oth (.inr rfl) (by intro i h; cases h)) (.env (oth (.inr rfl) (by intro i h; cases h)) ?_)
  exact .ret _ _

theorem mix_begins : Begins mixSer duoC mixDuo := by
  refine ⟨⟨mixStartL, rfl⟩, ⟨mixStartR, rfl⟩, ⟨by decide, rfl, ⟨_, rfl, by decide, .inr rfl⟩, ?_, ?_, rfl, rfl, ?_, ?_, ?_, ?_⟩,
    ⟨by decide, rfl, ⟨_, rfl, by decide, .inr rfl⟩, ?_, ?_, rfl, rfl, ?_, ?_, ?_, ?_⟩, rfl, rfl⟩
  · intro k g hk hg
    have := regs_lt mixStartL hg
    have e : (run mixSer.L init mixStartL : World _ _).nextNode = 2 := rfl
    rw [e] at this
    have : k = 0 := by simp only [duoC] at hk; omega
    subst this
    cases hg; decide
  · intro g hg; cases hg; decide
  · intro i x hx; cases hx
  · intro i x hx; cases hx
  · intro i x hx; cases hx
  · intro i x hx; cases hx
  · intro k g hk hg
    have := regs_lt mixStartR hg
    have e : (run mixSer.R init mixStartR : World _ _).nextNode = 2 := rfl
    rw [e] at this
    have : k = 0 := by simp only [duoC] at hk; omega
    subst this
    cases hg; decide
  · intro g hg; cases hg; decide
  · intro i x hx; cases hx
  · intro i x hx; cases hx
  · intro i x hx; cases hx
  · intro i x hx; cases hx

theorem mix_speaks : Speaks mixSer duoC mixL mixR flips flips := by
  refine ⟨fun g g' h => by cases h; rfl, fun g g' h => by cases h; rfl, fun _ => rfl, fun _ => rfl, ?_⟩
  intro r i h
  cases r with
  | loc j => cases h
  | rem j n =>
    simp only [flipRef] at h
    split at h
    · rename_i h1; cases h; subst h1; rfl
    · cases h

theorem mix_faithful : Faithful mixSer.R mixR := by intro g g' h; cases h; rfl

theorem mix_mutes : Mutes mixSer.R mixTally 1 (AnswersLeft mixSer mixL) := by
  have silent : ∀ {R : Type} (r : R), Mute mixSer.R 1 (AnswersLeft mixSer mixL) (.ret r : Prog Wire (GMsg Nat) R) := by
    intro R r w os r' h o ho hc
    exact absurd hc ((exec_ret_inv h).2 o ho).1
  refine ⟨fun _ _ => silent _, fun _ _ _ => silent _, fun _ _ => silent _, fun _ _ => silent _, ?_⟩
  rintro o ⟨me, ds, v, n, y, rfl, -⟩
  exact ⟨_, .local ..⟩

theorem mix_returns : Returns mixSer.R mixTally mixR 1 := by
  have silent : ∀ {R : Type} (r : R), Silent mixSer.R mixR 1 (.ret r : Prog Wire (GMsg Nat) R) := by
    intro R r w os r' h o ho hc
    exact absurd hc ((exec_ret_inv h).2 o ho).1
  exact ⟨fun _ _ => silent _, fun _ _ _ => silent _, fun _ _ => silent _, fun _ _ => silent _⟩

/-- What is sent to, or by, processes of right, as it is read there. -/
def mixReads : Op Wire (GMsg Nat) → Option (GMsg Nat)
  | .send _ _ v => some v
  | .frame _ _ (.send _ b) => mixR.deser b
  | _ => none

theorem mixReads_eq {o : Op Wire (GMsg Nat)} {it g} (h : SentBy mixSer.R o it) (hr : Reads mixR it g) : mixReads o = some g := by
  cases h <;> exact hr

theorem mix_at {a b : List (Op Wire (GMsg Nat))} {o it g} (h : mixStartR ++ mixRight = a ++ o :: b) (hs : SentBy mixSer.R o it) (hr : Reads mixR it g) :
    ((a.length, g) ∈ [(10, GMsg.call ⟨.loc 6, .loc 1, false⟩ 7), (13, .callReply (.loc 1) 7), (18, .call ⟨.rem 1 1, .rem 1 1, true⟩ 4),
      (20, .callReply (.rem 1 1) 11), (23, .call ⟨.loc 6, .loc 2, false⟩ 5), (26, .callReply (.loc 2) 16)]) ∧
      (mixStartR ++ mixRight)[a.length]? = some o := by
  have := mem_placed ((mixStartR ++ mixRight).map mixReads) 0 a.length g (by rw [h]; simp [mixReads_eq hs hr])
  rw [Nat.zero_add] at this
  exact ⟨this, by rw [h]; simp⟩

theorem mix_noForgery : NoForgery mixSer.R mixR (mixStartR ++ mixRight) := by
  rintro os1 o os2 n m h ⟨it, hs, hr⟩
  have hlen : os1 = (mixStartR ++ mixRight).take os1.length := by rw [h]; simp
  obtain ⟨h1, -⟩ := mix_at h hs hr
  simp only [List.mem_cons, Prod.mk.injEq, List.not_mem_nil, or_false] at h1
  rcases h1 with ⟨-, hg⟩ | ⟨hk, hg⟩ | ⟨-, hg⟩ | ⟨-, hg⟩ | ⟨-, hg⟩ | ⟨hk, hg⟩ <;> cases hg <;> (rw [hlen, hk]; decide +kernel)

theorem mix_unforged1 : Unforged mixSer.R mixR 1 (mixStartR ++ mixRight) mixStartR mixRight (mixStartR ++ [.recv 1 mixAny .select]) (mixHere 1 7 7) 6 1 := by
  refine ⟨?_, ?_⟩
  · intro a o b it frm y h hs hr ht
    obtain ⟨h1, ho⟩ := mix_at h hs hr
    simp only [List.mem_cons, Prod.mk.injEq, List.not_mem_nil, or_false] at h1
    rcases h1 with ⟨hk, hg⟩ | ⟨-, hg⟩ | ⟨-, hg⟩ | ⟨-, hg⟩ | ⟨-, hg⟩ | ⟨-, hg⟩ <;> cases hg <;> try cases ht
    rw [hk] at ho ⊢
    cases ho
    exact ⟨rfl, by decide, by decide⟩
  · rintro a o b y h ⟨it, hs, hr⟩
    obtain ⟨h1, ho⟩ := mix_at h hs hr
    simp only [List.mem_cons, Prod.mk.injEq, List.not_mem_nil, or_false] at h1
    rcases h1 with ⟨-, hg⟩ | ⟨hk, hg⟩ | ⟨-, hg⟩ | ⟨-, hg⟩ | ⟨-, hg⟩ | ⟨-, hg⟩ <;> cases hg
    rw [hk] at ho ⊢
    cases ho
    exact ⟨rfl, by decide, by decide⟩

theorem mix_unforged2 : Unforged mixSer.R mixR 1 (mixStartR ++ mixRight) mixStartR mixRight
    (mixStartR ++ .recv 1 mixAny .select :: mixHere 1 7 7 ++ .recv 1 mixAny .select :: mixServes ++ [.recv 1 mixAny .select]) (mixHere 2 5 16) 6 2 := by
  refine ⟨?_, ?_⟩
  · intro a o b it frm y h hs hr ht
    obtain ⟨h1, ho⟩ := mix_at h hs hr
    simp only [List.mem_cons, Prod.mk.injEq, List.not_mem_nil, or_false] at h1
    rcases h1 with ⟨-, hg⟩ | ⟨-, hg⟩ | ⟨-, hg⟩ | ⟨-, hg⟩ | ⟨hk, hg⟩ | ⟨-, hg⟩ <;> cases hg <;> try cases ht
    rw [hk] at ho ⊢
    cases ho
    exact ⟨rfl, by decide, by decide⟩
  · rintro a o b y h ⟨it, hs, hr⟩
    obtain ⟨h1, ho⟩ := mix_at h hs hr
    simp only [List.mem_cons, Prod.mk.injEq, List.not_mem_nil, or_false] at h1
    rcases h1 with ⟨-, hg⟩ | ⟨-, hg⟩ | ⟨-, hg⟩ | ⟨-, hg⟩ | ⟨-, hg⟩ | ⟨hk, hg⟩ <;> cases hg
    rw [hk] at ho ⊢
    cases ho
    exact ⟨rfl, by decide, by decide⟩

/-- What is sent in the schedule, and by which side (`true`: the left one). -/
def mixSent : DOp Wire (GMsg Nat) → Option (Bool × GMsg Nat)
  | .left (.send _ _ v) => some (true, v)
  | .right (.send _ _ v) => some (false, v)
  | _ => none

def mixFrame : DOp Wire (GMsg Nat) → Bool
  | .left (.frame ..) => true
  | .right (.frame ..) => true
  | _ => false

theorem mix_step {a b : List (DOp Wire (GMsg Nat))} {s} (h : mixTalk = a ++ s :: b) {g} (hs : mixSent s = some g) :
    ((a.length, g) ∈ [(2, (false, GMsg.call ⟨.loc 6, .loc 1, false⟩ 7)), (5, (false, .callReply (.loc 1) 7)), (10, (true, .call ⟨.loc 1, .loc 1, true⟩ 4)),
      (15, (false, .callReply (.rem 1 1) 11)), (21, (false, .call ⟨.loc 6, .loc 2, false⟩ 5)), (24, (false, .callReply (.loc 2) 16))]) ∧
      mixTalk[a.length]? = some s := by
  have := mem_placed (mixTalk.map mixSent) 0 a.length g (by rw [h]; simp [hs])
  rw [Nat.zero_add] at this
  exact ⟨this, by rw [h]; simp⟩

theorem mix_noFrames {s} (h : s ∈ mixTalk) : mixFrame s = false := by
  have e : mixTalk.map mixFrame = List.replicate 27 false := rfl
  have := List.mem_map_of_mem (f := mixFrame) h
  rw [e] at this
  exact (List.mem_replicate.1 this).2

theorem mix_leftIn {o : Op Wire (GMsg Nat)} (h : .left o ∈ mixTalk) {it g} (hs : SentBy mixSer.L o it) (hr : Reads mixL it g) : ∃ f x, g = .call f x := by
  obtain ⟨a, b, h'⟩ := List.append_of_mem h
  have key : ∀ me ds v, o = .send me ds v → v = g → ∃ f x, g = .call f x := by
    rintro me ds v rfl rfl
    obtain ⟨h1, -⟩ := mix_step h' (g := (true, v)) rfl
    simp only [List.mem_cons, Prod.mk.injEq, List.not_mem_nil, or_false, false_and, and_false, false_or, true_and, Bool.true_eq_false] at h1
    exact ⟨_, _, h1.2⟩
  cases hs with
  | frame rp n ts b => cases mix_noFrames h
  | «local» me ds v => exact key me ds v rfl (by cases hr; rfl)
  | serial me ds v => exact key me ds v rfl (by cases hr; rfl)

theorem mix_rightIn {o : Op Wire (GMsg Nat)} (h : .right o ∈ mixTalk) {it g} (hs : SentBy mixSer.R o it) (hr : Reads mixR it g) :
    ∀ f x, g = .call f x → ∃ i, f.tag = .loc i := by
  obtain ⟨a, b, h'⟩ := List.append_of_mem h
  have key : ∀ me ds v, o = .send me ds v → v = g → ∀ f x, g = .call f x → ∃ i, f.tag = .loc i := by
    rintro me ds v rfl rfl
    obtain ⟨h1, -⟩ := mix_step h' (g := (false, v)) rfl
    simp only [List.mem_cons, Prod.mk.injEq, List.not_mem_nil, or_false] at h1
    rcases h1 with ⟨-, -, rfl⟩ | ⟨-, -, rfl⟩ | ⟨-, h, -⟩ | ⟨-, -, rfl⟩ | ⟨-, -, rfl⟩ | ⟨-, -, rfl⟩
    · intro f x h; cases h; exact ⟨_, rfl⟩
    · intro f x h; cases h
    · cases h
    · intro f x h; cases h
    · intro f x h; cases h; exact ⟨_, rfl⟩
    · intro f x h; cases h
  cases hs with
  | frame rp n ts b => cases mix_noFrames h
  | «local» me ds v => exact key me ds v rfl (by cases hr; rfl)
  | serial me ds v => exact key me ds v rfl (by cases hr; rfl)

theorem mix_unforged : UnforgedAcross mixSer duoC mixL mixR 1 mixDuo mixStartL mixStartR mixTalk mixStartR (rightOps mixSer duoC mixDuo mixTalk) mixU
    (mixThere 1 4 11) 1 1 := by
  refine ⟨?_, ?_, ?_, ?_, ?_, ?_⟩
  · rintro o ho y ⟨it, hs, -⟩
    cases hs <;> simp at ho
  · intro o ho it frm y hs _
    cases hs <;> simp at ho
  · intro a me' ds x b frm y h hd ht
    obtain ⟨h1, h2⟩ := mix_step h (g := (true, x)) rfl
    simp only [List.mem_cons, Prod.mk.injEq, List.not_mem_nil, or_false] at h1
    rcases h1 with ⟨-, hg, -⟩ | ⟨-, hg, -⟩ | ⟨hk, -, rfl⟩ | ⟨-, hg, -⟩ | ⟨-, hg, -⟩ | ⟨-, hg, -⟩ <;> try cases hg
    rw [hk] at h2 ⊢
    cases h2
    exact ⟨rfl, by decide, by decide⟩
  · intro o ho it frm y hs hr ht
    obtain ⟨_, h⟩ := mix_rightIn ho hs hr _ _ rfl
    rw [ht] at h; cases h
  · rintro o ho y ⟨it, hs, hr⟩
    obtain ⟨_, _, h⟩ := mix_leftIn ho hs hr
    cases h
  · intro a me' ds x b y h hd
    obtain ⟨h1, h2⟩ := mix_step h (g := (false, x)) rfl
    have ha : a = mixTalk.take a.length := by rw [h]; simp
    simp only [List.mem_cons, Prod.mk.injEq, List.not_mem_nil, or_false] at h1
    rcases h1 with ⟨-, -, rfl⟩ | ⟨-, -, rfl⟩ | ⟨-, hg, -⟩ | ⟨hk, -, rfl⟩ | ⟨-, -, rfl⟩ | ⟨-, -, rfl⟩ <;> first | cases hd | cases hg
    rw [hk] at h2
    cases h2
    rw [ha, hk]
    exact ⟨rfl, by decide +kernel, by decide +kernel⟩

theorem mix_noGuess : NoGuess mixSer duoC mixL mixDuo mixTalk := by
  intro a me ds x b n y h hd
  obtain ⟨h1, -⟩ := mix_step h (g := (false, x)) rfl
  have ha : a = mixTalk.take a.length := by rw [h]; simp
  simp only [List.mem_cons, Prod.mk.injEq, List.not_mem_nil, or_false] at h1
  rcases h1 with ⟨-, -, rfl⟩ | ⟨-, -, rfl⟩ | ⟨-, hg, -⟩ | ⟨hk, -, rfl⟩ | ⟨-, -, rfl⟩ | ⟨-, -, rfl⟩ <;> first | cases hg | cases hd
  rw [ha, hk]; decide +kernel

theorem mix_coherentR : Coherent mixR (mixStartR ++ mixRight) := by
  intro a o k h b t' x h1
  simp only [replyOp, callMon, monOp, destLocal, Pid.isLocal, request, List.cons_append, List.nil_append, List.append_assoc, List.mem_cons,
    List.not_mem_nil, or_false, reduceCtorEq, false_or, if_true] at h
  rcases h with h | h | h | h | h | h | h | h | h | h <;> cases h <;> (intro h; cases h; exact h1)

theorem mix_coherentL : Coherent mixL (mixStartL ++ leftOps mixSer duoC mixDuo mixTalk) := by
  intro a o k h b t' x h1
  rw [mix_left] at h
  simp only [callMon, monOp, theServer, destLocal, Pid.isLocal, request, List.cons_append, List.nil_append, List.mem_cons, List.not_mem_nil, or_false,
    reduceCtorEq, false_or] at h
  rcases h with h | h | h <;> cases h <;> (intro h; cases h; exact h1)

theorem mix_legal : ∀ s ∈ mixTalk, Legal duoC s := by
  intro s hs
  simp only [mixTalk, mixU, mixThere, mixHere, List.map_cons, List.map_nil, List.cons_append, List.nil_append, List.mem_cons, List.not_mem_nil, or_false] at hs
  rcases hs with h | h | h | h | h | h | h | h | h | h | h | h | h | h | h | h | h | h | h | h | h | h | h | h | h | h | h <;> subst h <;>
    simp [Legal, Undisturbed, callMon, monOp, destLocal, Pid.isLocal, request, replyOp]

example := C121_local_then_remote _ _ _ _ _ _ _ _ _ _ _ _ _ _ _ _ _ _ _ _ _ _ _ _ _ _ _ _ _ _ _ _ mix_begins rfl rfl mix_legal mix_speaks mix_faithful mix_mutes
  mix_returns mix_coherentL (mix_right ▸ mix_coherentR) mix_serves mix_noGuess (mix_right ▸ mix_noForgery) (mix_right ▸ mix_called1)
  (mix_right ▸ mix_unforged1) mix_called mix_unforged (mix_rightU ▸ ⟨[.recv 1 mixAny .select], rfl⟩)
example := C121_remote_then_local _ _ _ _ _ _ _ _ _ _ _ _ _ _ _ _ _ _ _ _ _ _ _ _ _ _ _ _ _ _ _ _ mix_begins rfl rfl mix_legal mix_speaks mix_faithful mix_mutes
  mix_returns mix_coherentL (mix_right ▸ mix_coherentR) mix_serves (mix_right ▸ mix_noForgery) mix_called mix_unforged (mix_right ▸ mix_called2)
  (mix_right ▸ mix_unforged2) (mix_rightUV ▸ ⟨[.recv 1 mixAny .select], rfl⟩)

end Verif.World
