import Verif.Bypass
/-!
# A message waits only for those before it (C128)

Specification: `Queued` (a message is in the mailbox and at most `k` others are before it), `Takes`, `Tame`, `Lands` (ReceiveOrder.lean), `HandlesOne`,
`LeavesRequests` (ReceiveOrderProps.lean); `Receives` here.
-/
namespace Verif.World
open Verif.Mailbox
variable {B V T M S R : Type}

/-! ## Specification -/

/-- A part of a history in which `P` makes receives that accept every message (`Process::receive`, or `Process::receiver().receive()`) and gets the messages `ms`, one after
the other; before, between and after them anything may happen, except that other receives of `P` leave the messages of `x` alone. -/
inductive Receives (ser : V → B) (τ : RecvType B V T) (x : T → Bool) (P : Nat) : World B V → List (Op B V) → List (Msg T) → Prop
  | nil (w) : Receives ser τ x P w [] []
  | other {w o os ms} : (∀ ro kind, o = .recv P ro kind → Tame τ x ro kind ∧ ¬ Takes τ x P w o) → Receives ser τ x P (step ser w o).1 os ms → Receives ser τ x P w (o :: os) ms
  | turn {w ops m os ms} (strict) : Exec ser P w (receiveProg τ (fun _ => true) strict) ops m → Receives ser τ x P (run ser w ops) os ms →
      Receives ser τ x P w (ops ++ os) (m :: ms)

/-- The number of messages in the mailbox of a process. -/
def mailboxLength (w : World B V) (P : Nat) : Nat := match w.procs P with
  | some p => p.box.items.length + p.box.chan.length
  | none => 0

/-! ## C128 -/

/-- C128. A message that was just put into the mailbox is there, and if the mailbox has at most `k + 1` messages, at most `k` are before it. -/
theorem C128_arrives (ser : V → B) (τ : RecvType B V T) (x : T → Bool) (P k : Nat) (pre : List (Op B V)) (o : Op B V)
    (hl : Lands ser τ x P (run ser init pre) o) (hlen : mailboxLength (step ser (run ser init pre) o).1 P ≤ k + 1) :
    Queued τ x P k (step ser (run ser init pre) o).1 := by
  have hnone : NoneSent τ (fun _ => false) P (run ser init pre) := by
    have hf : ∀ it : Item B V, readsAs τ (fun _ => false) it = false := by intro it; cases it <;> simp [readsAs]
    refine ⟨?_, ⟨Nat.zero_le _, ?_⟩, ?_⟩
    · simp [sentTo, hf]
    · intro b hb
      have hz : readsAs τ (fun _ => false) = fun (_ : Item B V) => false := funext hf
      simp [boxCnt, cnt, hz]
    · intro p hp
      rcases Nat.lt_or_ge P (run ser init pre).nextPid with h | h
      · exact h
      · have := reach_bounded (ser := ser) ⟨pre, rfl⟩ P h
        rw [hp] at this; cases this
  have hne : ∀ ro k, o ≠ .recv P ro k := by rintro ro k rfl; exact recv_lands hl
  have hL := lands_lead hnone ser o hne (by rintro ⟨it, t, -, -, h⟩; cases h) hl true
  refine ⟨hL.lt, ?_⟩
  intro p hp
  refine (hL.ahead p hp).imp id fun h => ?_
  have h := ahead_within h
  simp only [mailboxLength, hp] at hlen
  simp only [line, if_true] at h
  rw [within_iff] at *
  obtain ⟨a, it, b, e, -, hr⟩ := h
  refine ⟨a, it, b, e, ?_, hr⟩
  have := congrArg List.length e
  simp at this
  omega

/-- C128. Whatever happens, a message in the mailbox is received, or it is still there and no message got before it. -/
theorem C128_no_overtaking (ser : V → B) (τ : RecvType B V T) (x : T → Bool) (P k : Nat) (w : World B V) (os : List (Op B V)) (hq : Queued τ x P k w)
    (hc : Coherent τ os) (ht : ∀ ro kind, .recv P ro kind ∈ os → Tame τ x ro kind) :
    Queued τ x P k (run ser w os) ∨ ∃ b1 o b2, os = b1 ++ o :: b2 ∧ Takes τ x P (run ser w b1) o :=
  walk_queued ser os hq hc ht

/-- C128. A message with at most `k` messages before it is among the next `k + 1` messages that the process receives with receives that accept every message. -/
theorem C128_turns (ser : V → B) (τ : RecvType B V T) (x : T → Bool) (P k : Nat) (w : World B V) (os : List (Op B V)) (ms : List (Msg T))
    (h : Receives ser τ x P w os ms) (hq : Queued τ x P k w) (hc : Coherent τ os) (hk : k < ms.length) : ∃ m ∈ ms.take (k + 1), msgIs x m := by
  induction h generalizing k with
  | nil => simp at hk
  | @other w o os ms ho _ ih =>
    refine ih k ?_ (coherent_tail hc) hk
    by_cases hr : ∃ ro kind, o = .recv P ro kind
    · obtain ⟨ro, kind, rfl⟩ := hr
      obtain ⟨h1, h2⟩ := ho ro kind rfl
      exact (recv_queued hq ser ro kind (hc P ro kind List.mem_cons_self) h1).resolve_left h2
    · exact queued_step hq ser o fun ro kind he => hr ⟨ro, kind, he⟩
  | @turn w ops m os ms strict hx _ ih =>
    obtain ⟨os1, m', os2, hg, hcase⟩ := wait_queued (f := fun _ => true) (fun _ _ => rfl) hx hq
    obtain ⟨hm, hoth⟩ := exec_ret_inv hg.rest
    subst hm
    rcases hcase with h | ⟨hk0, h⟩
    · exact ⟨m, by simp, h⟩
    · have hq' : Queued τ x P (k - 1) (run ser w ops) := by
        have e : run ser w ops = run ser (step ser (run ser w os1) (.recv P ⟨T, τ, fun _ => true, strict⟩ .select)).1 os2 := by rw [hg.eq, run_append, run_cons]
        rw [e]
        exact walk_queued_deaf ser os2 h (fun a ro kk hm => hc a ro kk (by rw [hg.eq]; simp [hm])) (fun ro kk hm => absurd rfl (hoth _ hm).1)
      simp at hk
      obtain ⟨m', hm', hx'⟩ := ih (k - 1) hq' (fun a ro kk hm => hc a ro kk (by simp [hm])) (by omega)
      refine ⟨m', ?_, hx'⟩
      have : k + 1 = (k - 1 + 1) + 1 := by omega
      rw [this, List.take_succ_cons]
      exact List.mem_cons_of_mem _ hm'

theorem alternates_ran {ser : V → B} {me : Nat} {srv : Server B V M S} {τ : RecvType B V (GMsg M)} {w : World B V} {os : List (Op B V)}
    {ms : List (Msg (GMsg M))} {cs : List (Record M S)} (h : Alternates ser me srv τ w os ms cs) {c : Record M S} (hc : c ∈ cs) : ∃ w' os', Ran ser me srv w' os' c := by
  induction h with
  | none => simp at hc
  | next _ hr _ ih =>
    rcases List.mem_cons.1 hc with rfl | hc
    · exact ⟨_, _, hr⟩
    · exact ih hc
  | last hr => simp at hc; subst hc; exact ⟨_, _, hr⟩

theorem loop_queued {ser : V → B} {srv : Server B V M S} {τ : RecvType B V (GMsg M)} {s : Nat} {parent : Pid} {x : GMsg M → Bool}
    (hreq : ∀ g, x g = true → Request g) (hlr : LeavesRequests ser srv τ x s) (n : Nat) :
    ∀ (w : World B V) σ os l k, Exec ser s w (serverLoop srv τ s parent n σ) os l → Coherent τ os → Queued τ x s k w → k < l.calls.length →
      (∃ c ∈ l.calls.take (k + 1), ∃ r, c.what = .terminate r) ∨ ∃ c ∈ l.calls.take (k + 1), HandlesOne x c := by
  induction n with
  | zero =>
    intro w σ os l k h _ _ hl
    have := (exec_ret_inv h).1
    rw [this] at hl; simp at hl
  | succ n ih =>
    intro w σ os l k h hcoh hq hl
    obtain ⟨kk, hk⟩ : ∃ k, serverLoop srv τ s parent (n + 1) σ = .wait .select (anyMsg τ) none k := ⟨_, rfl⟩
    rw [hk] at h
    obtain ⟨os1, m, os2, he, hcase⟩ := wait_queued (f := fun _ => true) (s := true) (fun _ _ => rfl) h hq
    have htail := round_tail (Q := fun o => ∀ it, readsAs τ x it = true → asMsg o.τ it = none) hk he.rest
      (fun σ m w os r h o k hm it hi => hlr.cast σ m w os r h o k hm it hi)
      (fun σ m frm w os r h o k hm it hi => hlr.call σ m frm w os r h o k hm it hi)
      (fun σ m w os r h o k hm it hi => hlr.info σ m w os r h o k hm it hi)
    rcases htail with ⟨-, hall⟩ | ⟨c0, rest, hl0, hcb, hrest⟩
    · left
      cases hc : l.calls with
      | nil => rw [hc] at hl; simp at hl
      | cons c cs => exact ⟨c, by simp, hall c (by rw [hc]; simp)⟩
    rw [hl0]
    rcases hcase with hx | ⟨hk0, hq'⟩
    · exact .inr ⟨c0, by simp, msg_handles hreq hcb hx⟩
    have ek : k + 1 = (k - 1 + 1) + 1 := by omega
    rw [hl0] at hl
    simp at hl
    rcases hrest with ⟨-, hrest⟩ | ⟨b1, b2, l', hos2, hqb, hx, hl'⟩
    · left
      cases rest with
      | nil => simp at hl; omega
      | cons c cs => exact ⟨c, by rw [ek, List.take_succ_cons, List.take_succ_cons]; simp, hrest c (by simp)⟩
    have heq := he.eq
    rw [hos2] at heq
    have hq2 := walk_queued_deaf ser b1 hq' (fun i ro k hm => hcoh i ro k (by rw [heq]; simp [hm])) (fun ro k hm => hqb ro k hm)
    have := ih _ _ _ l' (k - 1) hx (fun i ro k hm => hcoh i ro k (by rw [heq]; simp [hm])) hq2 (by rw [hl']; omega)
    rw [hl'] at this
    rw [ek, List.take_succ_cons]
    exact this.imp (fun ⟨c, h1, h2⟩ => ⟨c, List.mem_cons_of_mem _ h1, h2⟩) (fun ⟨c, h1, h2⟩ => ⟨c, List.mem_cons_of_mem _ h1, h2⟩)

/-- C128. No request starves: if a request is in the mailbox of a server with at most `k` messages before it when the server begins a round of its loop, then it is handled
by one of the next `k + 1` callbacks, however many messages arrive meanwhile and whatever the callbacks do, unless the server terminates before that. -/
theorem C128_server (ser : V → B) (srv : Server B V M S) (τ : RecvType B V (GMsg M)) (s : Nat) (parent : Pid) (G hs os : List (Op B V)) (σ : S)
    (n : Nat) (l : Log M S) (x : GMsg M → Bool) (k : Nat) (hreq : ∀ g, x g = true → Request g) (hlr : LeavesRequests ser srv τ x s) (hcoh : Coherent τ G)
    (hs' : Serves ser srv τ s parent G hs os σ n l) (hq : Queued τ x s k (run ser init hs)) (hk : k < l.calls.length)
    (hlive : ∀ c ∈ l.calls.take (k + 1), ∀ r, c.what ≠ .terminate r) : ∃ c ∈ l.calls.take (k + 1), HandlesOne x c := by
  obtain ⟨z, hz⟩ := hs'.part
  have hcoh' : Coherent τ os := fun i ro k hm => hcoh i ro k (by rw [← hz]; simp [hm])
  rcases loop_queued hreq hlr n _ _ _ _ k hs'.loop hcoh' hq hk with ⟨c, h1, r, h2⟩ | h
  · exact absurd h2 (hlive c h1 r)
  · exact h

/-- The requests of the call with the reference `t`. -/
def callOf (t : Ref) : GMsg M → Bool
  | .call frm _ => decide (frm.tag = t)
  | _ => false

/-- C128. If `handle_call` always returns a reply, a call whose request is in the mailbox with at most `k` messages before it is answered within the next `k + 1` callbacks:
the reply that `handle_call` returned for it is sent. -/
theorem C128_answered (ser : V → B) (srv : Server B V M S) (τ : RecvType B V (GMsg M)) (s : Nat) (parent : Pid) (G hs os : List (Op B V)) (σ : S)
    (n : Nat) (l : Log M S) (t : Ref) (k : Nat) (hlr : LeavesRequests ser srv τ (callOf t) s) (hcoh : Coherent τ G)
    (hrep : ∀ σ m frm w os r, Exec ser s w (srv.call σ m frm) os r → ∃ σ' y, r = (σ', .ok (some y)))
    (hs' : Serves ser srv τ s parent G hs os σ n l) (hq : Queued τ (callOf t) s k (run ser init hs)) (hk : k < l.calls.length)
    (hlive : ∀ c ∈ l.calls.take (k + 1), ∀ r, c.what ≠ .terminate r) :
    ∃ c ∈ l.calls.take (k + 1), ∃ m frm y, c.what = .call m frm ∧ frm.tag = t ∧ c.result = .ok (some y) ∧ replyOp τ s frm y ∈ os := by
  obtain ⟨c, hc, hh⟩ := C128_server ser srv τ s parent G hs os σ n l (callOf t) k (by intro g hg; cases g <;> simp_all [callOf, Request]) hlr hcoh hs' hq hk hlive
  obtain ⟨msgs, halt, -, -, -, -, -, hsent⟩ := C58_serve ser s srv τ parent n σ _ os l ⟨hs, rfl⟩ hs'.loop
  have hmem := List.mem_of_mem_take hc
  unfold HandlesOne at hh
  split at hh
  · simp [callOf] at hh
  · rename_i m frm hw
    simp [callOf] at hh
    have hres : ∃ y, c.result = .ok (some y) := by
      obtain ⟨w', os', hran⟩ := alternates_ran halt hmem
      simp only [Ran, hw] at hran
      obtain ⟨σ', y, he⟩ := hrep _ _ _ _ _ _ hran
      simp at he
      exact ⟨y, he.2⟩
    obtain ⟨y, hy⟩ := hres
    exact ⟨c, hc, m, frm, y, hw, hh, hy, hsent c hmem m frm y hw hy⟩
  · exact hh.elim

/-! ## Examples -/

/-- Process 1 casts to process 2 and then calls it. -/
def queueStart : List (Op Nat (GMsg Nat)) :=
  twoProcs ++ [castMsg natServer 1 (.pid (.loc 2)) 5, callMon 1 (.pid (.loc 2)), request natServer 1 (.pid (.loc 2)) (.loc 1) 7]

/-- Process 2 serves both; another cast arrives meanwhile. -/
def queueServe : List (Op Nat (GMsg Nat)) :=
  [.recv 2 anyNat .select, castMsg natServer 1 (.pid (.loc 2)) 6, .recv 2 anyNat .select, replyOp natServer 2 ⟨.loc 1, .loc 1, false⟩ 12]

def queueLog : Log Nat Nat := ⟨[⟨.cast 5, 0, 5, .ok none⟩, ⟨.call 7 ⟨.loc 1, .loc 1, false⟩, 5, 5, .ok (some 12)⟩], none, 5⟩

theorem queue_serves : Serves noSer adder natServer 2 (.loc 1) (queueStart ++ queueServe) queueStart queueServe 0 2 queueLog := by
  refine ⟨List.prefix_rfl, ?_⟩
  refine .got (m := .user (.cast 5)) rfl rfl (.env ⟨by simp [Op.caller, castMsg], by simp [castMsg]⟩
    (.got (m := .user (.call ⟨.loc 1, .loc 1, false⟩ 7)) rfl rfl (.op rfl (.ret _ _))))

theorem queue_coherent : Coherent natServer (queueStart ++ queueServe) := by
  intro a o k h b t' x h1
  simp only [queueStart, queueServe, callMon, monOp, destLocal, Pid.isLocal, request, castMsg, twoProcs, replyOp, List.cons_append, List.nil_append,
    List.mem_cons, List.not_mem_nil, or_false, reduceCtorEq, false_or, if_true, anyNat] at h
  rcases h with h | h <;> cases h <;> cases h1

theorem queue_queued : Queued natServer (callOf (.loc 1)) 2 1 (run noSer init queueStart) := by
  have := C128_arrives noSer natServer (callOf (.loc 1)) 2 1 (twoProcs ++ [castMsg natServer 1 (.pid (.loc 2)) 5, callMon 1 (.pid (.loc 2))])
    (request natServer 1 (.pid (.loc 2)) (.loc 1) 7) ⟨[(2, .locl (.call ⟨.loc 1, .loc 1, false⟩ 7))], .locl (.call ⟨.loc 1, .loc 1, false⟩ 7), rfl, by simp, rfl⟩ (by decide)
  exact this

/-- The call waits only for the cast before it. -/
example := C128_server noSer adder natServer 2 (.loc 1) _ _ _ _ _ _ (callOf (.loc 1)) 1 (by intro g hg; cases g <;> simp_all [callOf, Request]) (adder_leaves _) queue_coherent
  queue_serves queue_queued (by decide) (by intro c hc r; simp [queueLog] at hc; rcases hc with rfl | rfl <;> simp)

/-- A server that answers every call. -/
def obliging : Server Nat (GMsg Nat) Nat Nat := { adder with call := fun s n _ => .ret (s, .ok (some (s + n))) }

theorem obliging_leaves (x : GMsg Nat → Bool) : LeavesRequests noSer obliging natServer x 2 := by
  have deaf : ∀ {R : Type} (r : R), Deaf noSer natServer x 2 (.ret r : Prog Nat (GMsg Nat) R) := by
    intro R r w os r' h o k ho
    exact absurd rfl ((exec_ret_inv h).2 _ ho).1
  exact ⟨fun _ _ => deaf _, fun _ _ _ => deaf _, fun _ _ => deaf _⟩

example := C128_answered noSer obliging natServer 2 (.loc 1) (queueStart ++ queueServe) queueStart queueServe 0 2 queueLog (.loc 1) 1 (obliging_leaves _) queue_coherent
  (fun σ m frm w os r h => ⟨_, _, (exec_ret_inv h).1⟩)
  ⟨List.prefix_rfl, .got (m := .user (.cast 5)) rfl rfl (.env ⟨by simp [Op.caller, castMsg], by simp [castMsg]⟩
    (.got (m := .user (.call ⟨.loc 1, .loc 1, false⟩ 7)) rfl rfl (.op rfl (.ret _ _))))⟩
  queue_queued (by decide) (by intro c hc r; simp [queueLog] at hc; rcases hc with rfl | rfl <;> simp)

/-- Two receives of process 2, with a cast in between. -/
theorem queue_turns : Receives noSer natServer (callOf (.loc 1)) 2 (run noSer init queueStart)
    ([.recv 2 anyNat .select] ++ castMsg natServer 1 (.pid (.loc 2)) 6 :: ([.recv 2 anyNat .select] ++ []))
    [.user (.cast 5), .user (.call ⟨.loc 1, .loc 1, false⟩ 7)] := by
  refine .turn true (.got (m := .user (.cast 5)) rfl rfl (.ret _ _)) (.other (by intro ro kind h; cases h) (.turn true (.got (m := .user (.call ⟨.loc 1, .loc 1, false⟩ 7)) rfl rfl (.ret _ _)) (.nil _)))

example : ∃ m ∈ [Msg.user (GMsg.cast 5), .user (.call ⟨.loc 1, .loc 1, false⟩ 7)].take (1 + 1), msgIs (callOf (.loc 1)) m :=
  C128_turns noSer natServer (callOf (.loc 1)) 2 1 _ _ _ queue_turns queue_queued (by
    intro a o k h
    refine queue_coherent a o k ?_
    simp only [queueStart, queueServe, List.mem_append, List.mem_cons, List.not_mem_nil, or_false] at h ⊢
    rcases h with h | h | h <;> simp [h]) (by simp)

end Verif.World
