import Verif.Auth
import Verif.HelloProps
/-!
# What the handshake guarantees on an open network (C139)
-/
namespace Verif.Auth
open Verif.Codec Verif.Hello

/-! ## Specification -/

/-- The key that a cookie stands for. -/
def keyOf (E : Env) (c : Option String) : List UInt8 := normKey E.hash (cookieKey c)

/-- What is authenticated of a name and an address. -/
def text (E : Env) (n : String) (a : SockAddr) : List UInt8 := strBytes n ++ addrText E.v6 a

/-- The challenges that an attacker can send, who knows the keys `K` and has seen these hellos: those it has seen, those that it computes with keys it knows, and whatever is no
keyed hash at all. -/
def Producible (E : Env) (K : List UInt8 → Prop) (seen : List HelloMsg) (c : List UInt8) : Prop :=
  (∃ m ∈ seen, m.challenge = c) ∨ (∃ k m, K k ∧ c = E.core k m) ∨ ∀ k m, c ≠ E.core k m

/-- The bytes that handshake `s` has read when it looks for a frame in this step. -/
def looksAt (st : St) (s : Nat) : Act → Option (List UInt8)
  | .greet t => match st.sess[s]? with
    | some ⟨_, _, .fresh buf⟩ => if t = s then some buf else none
    | _ => none
  | .deliver t bs => match st.sess[s]? with
    | some ⟨_, _, .reading buf⟩ => if t = s then some (buf ++ bs) else none
    | _ => none
  | _ => none

/-- A schedule in which the attacker sends only what it can: whatever hello a handshake reads, its challenge is `Producible`. -/
def Legal (E : Env) (hosts : Nat → Host) (K : List UInt8 → Prop) : St → List Act → Prop
  | _, [] => True
  | st, a :: as => (∀ s buf n ad c rest, looksAt st s a = some buf → decode buf = (.frame (.hello n ad c), rest) → Producible E K st.sent c) ∧
      Legal E hosts K (step E hosts st a) as

/-- In the schedule `as` from `st`, node `h` sends its hello in some handshake while its cookie is `c`. -/
def Greeted (E : Env) (hosts : Nat → Host) (st : St) (as : List Act) (h : Nat) (c : Option String) : Prop :=
  ∃ as1 s as2 want buf, as = as1 ++ .greet s :: as2 ∧ (run E hosts st as1).sess[s]? = some ⟨h, want, .fresh buf⟩ ∧ (run E hosts st as1).cookie h = c

/-- Handshake `s` of node `h`, for `want`, ended well in this state: the other end is taken for the node `n` at `a`. -/
def Up (st : St) (s h : Nat) (want : Option (String × SockAddr)) (n : String) (a : SockAddr) (rest : List UInt8) : Prop :=
  st.sess[s]? = some ⟨h, want, .up n a rest⟩

/-- The bytes delivered to handshake `s`. -/
def deliveredTo (s : Nat) : List Act → List UInt8
  | [] => []
  | .deliver t bs :: as => if t = s then bs ++ deliveredTo s as else deliveredTo s as
  | _ :: as => deliveredTo s as

/-! ## Lemmas -/

theorem run_cons (E : Env) (hosts : Nat → Host) (st : St) (a : Act) (as : List Act) : run E hosts st (a :: as) = run E hosts (step E hosts st a) as := rfl

theorem run_append (E : Env) (hosts : Nat → Host) (st : St) (as bs : List Act) : run E hosts st (as ++ bs) = run E hosts (run E hosts st as) bs := by
  simp [run]

theorem sess_setPhase (st : St) (s t : Nat) (p : Phase) :
    (setPhase st s p).sess[t]? = if t = s then (st.sess[t]?).map fun x => { x with phase := p } else st.sess[t]? := by
  simp only [setPhase, List.getElem?_modify]
  by_cases h : s = t
  · subst h; simp
  · have h' : ¬ t = s := fun e => h e.symm
    simp [h, h']

theorem accepts_some {E : Env} {cookie : Option String} {want : Option (String × SockAddr)} {f : Frame} {n : String} {a : SockAddr}
    (h : accepts E cookie want f = some (n, a)) : ∃ c, f = .hello n a c ∧ (HelloMsg.validate E cookie ⟨n, a, c⟩).1 = true ∧ ∀ w, want = some w → w = (n, a) := by
  cases f with
  | hello n' a' c =>
    simp only [accepts, Option.ite_none_right_eq_some, Bool.and_eq_true, Option.some.injEq, Prod.mk.injEq] at h
    obtain ⟨⟨hv, hw⟩, rfl, rfl⟩ := h
    refine ⟨c, rfl, hv, ?_⟩
    rintro ⟨w1, w2⟩ rfl
    simpa using hw
  | _ => simp [accepts] at h

theorem readHello_up {E : Env} {cookie : Option String} {want : Option (String × SockAddr)} {buf rest : List UInt8} {n : String} {a : SockAddr}
    (h : readHello E cookie want buf = .up n a rest) : ∃ c, decode buf = (.frame (.hello n a c), rest) ∧ (HelloMsg.validate E cookie ⟨n, a, c⟩).1 = true ∧
      ∀ w, want = some w → w = (n, a) := by
  unfold readHello at h
  split at h
  · cases h
  · cases h
  · rename_i f r hd
    split at h
    · rename_i n' a' ha
      cases h
      obtain ⟨c, rfl, h1, h2⟩ := accepts_some ha
      exact ⟨c, hd, h1, h2⟩
    · cases h

/-- A step that ends a handshake well: what was read. -/
theorem step_up {E : Env} {hosts : Nat → Host} {st : St} {act : Act} {s h : Nat} {want : Option (String × SockAddr)} {n : String} {a : SockAddr} {rest : List UInt8}
    (hu : Up (step E hosts st act) s h want n a rest) (hn : ∀ rest', ¬ Up st s h want n a rest') :
    ∃ buf c, looksAt st s act = some buf ∧ decode buf = (.frame (.hello n a c), rest) ∧ (HelloMsg.validate E (st.cookie h) ⟨n, a, c⟩).1 = true ∧
      ∀ w, want = some w → w = (n, a) := by
  have hnot : ∀ {p}, st.sess[s]? = some ⟨h, want, p⟩ → ∀ r, p ≠ .up n a r := by
    rintro p h1 r rfl; exact hn r h1
  unfold Up at hu
  cases act with
  | setCookie i c => exact absurd hu (hn rest)
  | begin i w =>
    simp only [step, List.getElem?_append] at hu
    split at hu
    · exact absurd hu (hn rest)
    · rename_i hlt
      rcases hk : s - st.sess.length with _ | k
      · rw [hk] at hu; simp at hu
      · rw [hk] at hu; simp at hu
  | greet t =>
    simp only [step] at hu
    split at hu
    · rename_i i w buf ht
      change (setPhase st t _).sess[s]? = _ at hu
      rw [sess_setPhase] at hu
      split at hu
      · rename_i hst
        subst hst
        rw [ht] at hu
        simp only [Option.map_some, Option.some.injEq, Sess.mk.injEq] at hu
        obtain ⟨rfl, rfl, hr⟩ := hu
        obtain ⟨c, h1, h2, h3⟩ := readHello_up hr
        exact ⟨buf, c, by simp [looksAt, ht], h1, h2, h3⟩
      · exact absurd hu (hn rest)
    · exact absurd hu (hn rest)
  | deliver t bs =>
    simp only [step] at hu
    split at hu
    · rename_i x ht
      obtain ⟨i, w, p⟩ := x
      rw [sess_setPhase] at hu
      split at hu
      · rename_i hst
        subst hst
        rw [ht] at hu
        simp only [Option.map_some, Option.some.injEq, Sess.mk.injEq] at hu
        obtain ⟨rfl, rfl, hr⟩ := hu
        cases p with
        | reading buf =>
          obtain ⟨c, h1, h2, h3⟩ := readHello_up hr
          exact ⟨buf ++ bs, c, by simp [looksAt, ht], h1, h2, h3⟩
        | up n' a' buf =>
          simp only [arrive, Phase.up.injEq] at hr
          obtain ⟨rfl, rfl, -⟩ := hr
          exact absurd rfl (hnot ht buf)
        | fresh buf => cases hr
        | failed => cases hr
      · exact absurd hu (hn rest)
    · exact absurd hu (hn rest)
  | broken t =>
    simp only [step] at hu
    rw [sess_setPhase] at hu
    split at hu
    · cases hs : st.sess[s]? <;> rw [hs] at hu <;> simp at hu
    · exact absurd hu (hn rest)

theorem sent_by (E : Env) (hosts : Nat → Host) (as : List Act) : ∀ (st : St), ∀ m ∈ (run E hosts st as).sent,
    m ∈ st.sent ∨ ∃ h c, Greeted E hosts st as h c ∧ m = HelloMsg.new E c (hosts h).name (hosts h).addr := by
  induction as with
  | nil => intro st m h; exact .inl h
  | cons a as ih =>
    intro st m h
    rw [run_cons] at h
    rcases ih _ m h with h | ⟨h', c, ⟨as1, s, as2, want, buf, rfl, h1, h2⟩, h3⟩
    · cases a with
      | greet s =>
        simp only [step] at h
        split at h
        · rename_i i w buf ht
          rcases List.mem_append.1 h with h | h
          · exact .inl h
          · simp only [List.mem_singleton] at h
            exact .inr ⟨i, _, ⟨[], s, as, w, buf, rfl, ht, rfl⟩, h⟩
        · exact .inl h
      | setCookie i c => exact .inl h
      | begin i w => exact .inl h
      | deliver s bs =>
        simp only [step] at h
        split at h <;> exact .inl h
      | broken s => exact .inl h
    · exact .inr ⟨h', c, ⟨a :: as1, s, as2, want, buf, rfl, h1, h2⟩, h3⟩

theorem legal_append {E : Env} {hosts : Nat → Host} {K : List UInt8 → Prop} (as bs : List Act) : ∀ {st : St},
    Legal E hosts K st (as ++ bs) ↔ Legal E hosts K st as ∧ Legal E hosts K (run E hosts st as) bs := by
  induction as with
  | nil => intro st; simp [Legal, run]
  | cons a as ih => intro st; simp only [List.cons_append, Legal, ih, run_cons, and_assoc]

/-! ## C139 -/

/-- **C139**, what a good handshake means, with an ideal MAC and an attacker who controls the network: if a handshake of node `h` ends well, as one with the node `n` at `a`, then
the attacker knows the key of `h`'s cookie, or some node has sent its hello before, while its cookie stood for the same key; and this node's name and address are `n` and `a`, up to
their concatenation. Missing: that the node is at the other end of the connection (`C139_replay_violated`), that it is another node (`C139_reflection_violated`), and that name and
address are the same (`C07_binding_violated`). -/
theorem C139_agreement_partial (E : Env) (hE : Ideal E) (hosts : Nat → Host) (K : List UInt8 → Prop) (cookie : Nat → Option String) (as : List Act) (act : Act)
    (s h : Nat) (want : Option (String × SockAddr)) (n : String) (a : SockAddr) (rest : List UInt8)
    (hl : Legal E hosts K (init cookie) (as ++ [act])) (hn : ∀ rest', ¬ Up (run E hosts (init cookie) as) s h want n a rest')
    (hu : Up (run E hosts (init cookie) (as ++ [act])) s h want n a rest) :
    K (keyOf E ((run E hosts (init cookie) as).cookie h)) ∨
    ∃ h' c', Greeted E hosts (init cookie) as h' c' ∧ keyOf E c' = keyOf E ((run E hosts (init cookie) as).cookie h) ∧
      text E (hosts h').name (hosts h').addr = text E n a := by
  rw [run_append] at hu
  obtain ⟨buf, c, h1, h2, h3, -⟩ := step_up hu hn
  have hp := ((legal_append as [act]).1 hl).2.1 s buf n a c rest h1 h2
  simp only [HelloMsg.validate, hmac, beq_iff_eq] at h3
  rcases hp with ⟨m, hm, rfl⟩ | ⟨k, m, hk, rfl⟩ | hno
  · rcases sent_by E hosts as _ m hm with hm | ⟨h', c', hg, rfl⟩
    · simp [init] at hm
    · obtain ⟨e1, e2⟩ := hE.inj _ _ _ _ h3
      exact .inr ⟨h', c', hg, e1.symm, e2.symm⟩
  · obtain ⟨e1, -⟩ := hE.inj _ _ _ _ h3
    exact .inl (by unfold keyOf; rw [e1]; exact hk)
  · exact absurd h3.symm (hno _ _)

/-- **C139**, a connector gets the node it was started for or none. -/
theorem C139_connector (E : Env) (hosts : Nat → Host) (cookie : Nat → Option String) (as : List Act) (s h : Nat) (w : String × SockAddr) (n : String) (a : SockAddr)
    (rest : List UInt8) (hu : Up (run E hosts (init cookie) as) s h (some w) n a rest) : w = (n, a) := by
  have gen : ∀ (as : List Act) (st : St), (∀ rest, Up st s h (some w) n a rest → w = (n, a)) → ∀ rest, Up (run E hosts st as) s h (some w) n a rest → w = (n, a) := by
    intro as
    induction as with
    | nil => intro st h0; exact h0
    | cons act as ih =>
      intro st h0
      rw [run_cons]
      refine ih _ fun rest hu => ?_
      by_cases hn : ∃ rest', Up st s h (some w) n a rest'
      · obtain ⟨r, hr⟩ := hn; exact h0 r hr
      · obtain ⟨buf, c, -, -, -, h4⟩ := step_up hu fun r hr => hn ⟨r, hr⟩
        exact h4 w rfl
  exact gen as _ (by intro r hr; simp [Up, init] at hr) rest hu

/-- **C139**, strangers: if no other node has sent its hello with a cookie that stands for the same key, and the attacker does not know the key, then a handshake can end well only
with the node's own name and address, up to their concatenation (and so it can: `C139_reflection_violated`). -/
theorem C139_strangers_partial (E : Env) (hE : Ideal E) (hosts : Nat → Host) (K : List UInt8 → Prop) (cookie : Nat → Option String) (as : List Act) (act : Act)
    (s h : Nat) (want : Option (String × SockAddr)) (n : String) (a : SockAddr) (rest : List UInt8)
    (hl : Legal E hosts K (init cookie) (as ++ [act])) (hn : ∀ rest', ¬ Up (run E hosts (init cookie) as) s h want n a rest')
    (hK : ¬ K (keyOf E ((run E hosts (init cookie) as).cookie h)))
    (hs : ∀ h' c', h' ≠ h → Greeted E hosts (init cookie) as h' c' → keyOf E c' ≠ keyOf E ((run E hosts (init cookie) as).cookie h))
    (hu : Up (run E hosts (init cookie) (as ++ [act])) s h want n a rest) : text E n a = text E (hosts h).name (hosts h).addr := by
  rcases C139_agreement_partial E hE hosts K cookie as act s h want n a rest hl hn hu with hk | ⟨h', c', hg, he, ht⟩
  · exact absurd hk hK
  · by_cases hh : h' = h
    · subst hh; exact ht.symm
    · exact absurd he (hs h' c' hh hg)

/-- **C139**, what was found out does not change: a handshake that has ended well stays with the same node, and its decoder gets exactly the bytes that arrive, until the connection is
lost; a handshake that has failed does not end well later. -/
theorem C139_settled (E : Env) (hosts : Nat → Host) (st : St) (as : List Act) (s h : Nat) (want : Option (String × SockAddr)) :
    (∀ n a rest, Up st s h want n a rest → Up (run E hosts st as) s h want n a (rest ++ deliveredTo s as) ∨ (run E hosts st as).sess[s]? = some ⟨h, want, .failed⟩) ∧
    (st.sess[s]? = some ⟨h, want, .failed⟩ → (run E hosts st as).sess[s]? = some ⟨h, want, .failed⟩) := by
  have key : ∀ (act : Act) (st : St) (p : Phase), (∀ b, p ≠ .fresh b) → st.sess[s]? = some ⟨h, want, p⟩ →
      (step E hosts st act).sess[s]? = some ⟨h, want, if act = .broken s then .failed else arrive E (st.cookie h) want p (deliveredTo s [act])⟩ ∨
        (act ≠ .broken s ∧ deliveredTo s [act] = [] ∧ (step E hosts st act).sess[s]? = some ⟨h, want, p⟩) := by
    intro act st p hp h1
    cases act with
    | setCookie i c => exact .inr ⟨(by simp), rfl, h1⟩
    | begin i w =>
      refine .inr ⟨(by simp), rfl, ?_⟩
      simp only [step]
      rw [List.getElem?_append_left (List.getElem?_eq_some_iff.1 h1).1]; exact h1
    | greet t =>
      refine .inr ⟨(by simp), rfl, ?_⟩
      simp only [step]
      split
      · rename_i heq
        change (setPhase st t _).sess[s]? = _
        rw [sess_setPhase]
        split
        · rename_i hst
          subst hst
          rw [h1] at heq
          cases heq
          exact absurd rfl (hp _)
        · exact h1
      · exact h1
    | deliver t bs =>
      by_cases ht : t = s
      · subst ht
        refine .inl ?_
        simp only [step, h1]
        rw [sess_setPhase, if_pos rfl, h1, if_neg (by simp)]
        simp [deliveredTo]
      · refine .inr ⟨(by simp), by simp [deliveredTo, ht], ?_⟩
        simp only [step]
        split
        · rw [sess_setPhase, if_neg (fun e => ht e.symm)]; exact h1
        · exact h1
    | broken t =>
      by_cases ht : t = s
      · subst ht
        refine .inl ?_
        simp only [step]
        rw [sess_setPhase, if_pos rfl, h1]; simp
      · refine .inr ⟨(by simpa using ht), rfl, ?_⟩
        simp only [step]
        rw [sess_setPhase, if_neg (fun e => ht e.symm)]; exact h1
  have hf : ∀ (as : List Act) (st : St), st.sess[s]? = some ⟨h, want, .failed⟩ → (run E hosts st as).sess[s]? = some ⟨h, want, .failed⟩ := by
    intro as
    induction as with
    | nil => intro st h1; exact h1
    | cons act as ih =>
      intro st h1
      rw [run_cons]
      refine ih _ ?_
      rcases key act st _ (by simp) h1 with h2 | ⟨-, -, h2⟩
      · rw [h2]; split <;> rfl
      · exact h2
  refine ⟨?_, hf as st⟩
  induction as generalizing st with
  | nil => intro n a rest hu; left; rw [deliveredTo, List.append_nil]; exact hu
  | cons act as ih =>
    intro n a rest hu
    rw [run_cons]
    have hd : deliveredTo s (act :: as) = deliveredTo s [act] ++ deliveredTo s as := by
      cases act <;> simp [deliveredTo]
      split <;> simp
    rcases key act st _ (by simp) hu with h2 | ⟨-, hz, h2⟩
    · split at h2
      · exact .inr (hf as _ h2)
      · rw [hd, ← List.append_assoc]
        exact ih _ n a _ h2
    · rw [hd, hz]
      exact ih _ n a _ h2

/-! ## An honest network -/

/-- How far a handshake is that has read `pre` of the stream `encode f ++ …`, whose first frame is acceptable. -/
def progress (f : Frame) (n : String) (a : SockAddr) (pre : List UInt8) : Phase :=
  if pre.length < (encode f []).length then .reading pre else .up n a (pre.drop (encode f []).length)

theorem readHello_progress {E : Env} {cookie : Option String} {want : Option (String × SockAddr)} {f : Frame} {n : String} {a : SockAddr}
    (hs : (encFrame f).length < 2 ^ 32) (ha : accepts E cookie want f = some (n, a)) {pre suf extra : List UInt8} (hp : pre ++ suf = encode f [] ++ extra) :
    readHello E cookie want pre = progress f n a pre := by
  unfold progress
  by_cases hl : pre.length < (encode f []).length
  · rw [if_pos hl]
    obtain ⟨t, ht⟩ : ∃ t, encode f [] = pre ++ t := by
      rcases List.append_eq_append_iff.1 hp with ⟨t, h1, -⟩ | ⟨t, h1, -⟩
      · exact ⟨t, h1⟩
      · rw [h1, List.length_append] at hl; omega
    have htne : t ≠ [] := by
      rintro rfl
      rw [List.append_nil] at ht
      rw [ht] at hl; omega
    unfold readHello
    rw [decode_prefix f hs pre t ht.symm htne]
  · rw [if_neg hl]
    obtain ⟨t, rfl⟩ : ∃ t, pre = encode f [] ++ t := by
      rcases List.append_eq_append_iff.1 hp with ⟨t, h1, -⟩ | ⟨t, h1, -⟩
      · have := congrArg List.length h1
        rw [List.length_append] at this
        have ht : t = [] := List.length_eq_zero_iff.1 (by omega)
        exact ⟨[], by rw [h1, ht]; simp⟩
      · exact ⟨t, h1⟩
    unfold readHello
    rw [decode_encode_append f t hs]
    simp only [ha, List.drop_left]

theorem arrive_progress {E : Env} {cookie : Option String} {want : Option (String × SockAddr)} {f : Frame} {n : String} {a : SockAddr}
    (hs : (encFrame f).length < 2 ^ 32) (ha : accepts E cookie want f = some (n, a)) {pre bs suf extra : List UInt8} (hp : pre ++ bs ++ suf = encode f [] ++ extra) :
    arrive E cookie want (progress f n a pre) bs = progress f n a (pre ++ bs) := by
  by_cases hl : pre.length < (encode f []).length
  · have e : progress f n a pre = .reading pre := if_pos hl
    rw [e]
    exact readHello_progress hs ha hp
  · have e : progress f n a pre = .up n a (pre.drop (encode f []).length) := if_neg hl
    have e2 : progress f n a (pre ++ bs) = .up n a ((pre ++ bs).drop (encode f []).length) := if_neg (by rw [List.length_append]; omega)
    rw [e, e2, List.drop_append_of_le_length (by omega)]
    rfl

/-- **C139**, a handshake with a peer that holds the same cookie succeeds: whatever else happens on the node and in the network, in whatever pieces and however early the bytes
arrive, if those delivered to the handshake are the hello of a node `n` at `a` whose cookie stands for the same key, followed by `extra`, and `n` at `a` is the expected node, then
the handshake ends with `n` at `a`, and exactly `extra` is left for the decoder of the frames that follow. -/
theorem C139_same_cookie (E : Env) (hosts : Nat → Host) (st : St) (as : List Act) (s h : Nat) (want : Option (String × SockAddr)) (n : String) (a : SockAddr)
    (peer : Option String) (extra : List UInt8)
    (hs : (encFrame (.hello n a (HelloMsg.new E peer n a).challenge)).length < 2 ^ 32)
    (h0 : st.sess[s]? = some ⟨h, want, .fresh []⟩) (hw : want = none ∨ want = some (n, a)) (hk : keyOf E peer = keyOf E (st.cookie h))
    (hc : ∀ c, .setCookie h c ∉ as) (hb : .broken s ∉ as) (hg : .greet s ∈ as)
    (hd : deliveredTo s as = encode (.hello n a (HelloMsg.new E peer n a).challenge) [] ++ extra) :
    Up (run E hosts st as) s h want n a extra := by
  generalize hf : Frame.hello n a (HelloMsg.new E peer n a).challenge = f at *
  have ha : ∀ st' : St, st'.cookie h = st.cookie h → accepts E (st'.cookie h) want f = some (n, a) := by
    intro st' he
    subst hf
    unfold keyOf at hk
    have hv : (HelloMsg.validate E (st'.cookie h) ⟨n, a, (HelloMsg.new E peer n a).challenge⟩).1 = true := by
      simp [HelloMsg.validate, HelloMsg.new, hmac, he, hk]
    rcases hw with rfl | rfl <;> simp [accepts, hv]
  have gen : ∀ (as : List Act) (st' : St) (pre suf : List UInt8) (g : Bool), st'.cookie h = st.cookie h →
      st'.sess[s]? = some ⟨h, want, if g then progress f n a pre else .fresh pre⟩ → (∀ c, .setCookie h c ∉ as) → .broken s ∉ as → (g = true ∨ .greet s ∈ as) →
      pre ++ deliveredTo s as ++ suf = encode f [] ++ extra → (run E hosts st' as).sess[s]? = some ⟨h, want, progress f n a (pre ++ deliveredTo s as)⟩ := by
    intro as
    induction as with
    | nil =>
      intro st' pre suf g _ h1 _ _ hg _
      have hgt : g = true := by simpa using hg
      rw [hgt] at h1
      simpa [deliveredTo, run] using h1
    | cons act as ih =>
      intro st' pre suf g hck h1 hc hb hg hp
      rw [run_cons]
      have hc' : ∀ c, .setCookie h c ∉ as := fun c hm => hc c (.tail _ hm)
      have hb' : Act.broken s ∉ as := fun hm => hb (.tail _ hm)
      cases act with
      | setCookie i c =>
        have hi : h ≠ i := by rintro rfl; exact hc c List.mem_cons_self
        exact ih _ pre suf g (by simpa [step, hi] using hck) h1 hc' hb' (by simpa using hg) hp
      | begin i w =>
        refine ih _ pre suf g hck ?_ hc' hb' (by simpa using hg) hp
        simp only [step]
        rw [List.getElem?_append_left (List.getElem?_eq_some_iff.1 h1).1]; exact h1
      | broken t =>
        have ht : s ≠ t := by rintro rfl; exact hb List.mem_cons_self
        refine ih _ pre suf g hck ?_ hc' hb' (by simpa using hg) hp
        simp only [step]
        rw [sess_setPhase, if_neg ht]; exact h1
      | greet t =>
        by_cases ht : t = s
        · subst ht
          cases g with
          | true =>
            refine ih _ pre suf true ?_ ?_ hc' hb' (.inl rfl) hp
            · simp only [step]; split <;> exact hck
            · have : ∀ p, progress f n a pre ≠ .fresh p := by intro p; unfold progress; split <;> simp
              simp only [step, h1, if_true]
              split
              · rename_i heq
                simp only [Option.some.injEq, Sess.mk.injEq] at heq
                exact absurd heq.2.2 (this _)
              · exact h1
          | false =>
            simp only [Bool.false_eq_true, if_false] at h1
            refine ih _ pre suf true ?_ ?_ hc' hb' (.inl rfl) hp
            · simp only [step, h1]; exact hck
            · simp only [step, h1, if_true]
              change (setPhase st' t _).sess[t]? = _
              rw [sess_setPhase, if_pos rfl, h1, readHello_progress hs (ha st' hck) (suf := deliveredTo t as ++ suf) (by simpa [deliveredTo] using hp)]
              rfl
        · refine ih _ pre suf g ?_ ?_ hc' hb' (hg.imp id fun hm => ?_) hp
          · simp only [step]; split <;> exact hck
          · simp only [step]
            split
            · change (setPhase st' t _).sess[s]? = _
              rw [sess_setPhase, if_neg (fun e => ht e.symm)]; exact h1
            · exact h1
          · rcases List.mem_cons.1 hm with h | h
            · cases h; exact absurd rfl ht
            · exact h
      | deliver t bs =>
        have hg' : g = true ∨ Act.greet s ∈ as := hg.imp id fun hm => by simpa using hm
        by_cases ht : t = s
        · subst ht
          have hdl : deliveredTo t (.deliver t bs :: as) = bs ++ deliveredTo t as := by simp [deliveredTo]
          rw [hdl] at hp ⊢
          rw [← List.append_assoc]
          refine ih _ (pre ++ bs) suf g ?_ ?_ hc' hb' hg' (by simpa using hp)
          · simp only [step, h1]; exact hck
          · simp only [step, h1]
            rw [sess_setPhase, if_pos rfl, h1]
            cases g with
            | true =>
              simp only [if_true, Option.map_some]
              rw [arrive_progress hs (ha st' hck) (suf := deliveredTo t as ++ suf) (by simpa using hp)]
            | false => rfl
        · have hdl : deliveredTo s (.deliver t bs :: as) = deliveredTo s as := by simp [deliveredTo, ht]
          rw [hdl] at hp ⊢
          refine ih _ pre suf g ?_ ?_ hc' hb' hg' hp
          · simp only [step]; split <;> exact hck
          · simp only [step]
            split
            · rw [sess_setPhase, if_neg (fun e => ht e.symm)]; exact h1
            · exact h1
  have := gen as st [] [] false rfl h0 hc hb (.inr hg) (by simpa using hd)
  unfold Up
  rw [this, List.nil_append, hd]
  unfold progress
  rw [if_neg (by simp), List.drop_left]

/-- What handshake `s` of node `h` has made of the bytes delivered to it. -/
def FirstFrame (E : Env) (hosts : Nat → Host) (st : St) (s h : Nat) (want : Option (String × SockAddr)) (as : List Act) : Phase → Prop
  | .fresh buf => buf = deliveredTo s as
  | .reading buf => buf = deliveredTo s as
  | .up n a rest => ∃ d1 d2 r c as1 as2, deliveredTo s as = d1 ++ d2 ∧ decode d1 = (.frame (.hello n a c), r) ∧ rest = r ++ d2 ∧ as = as1 ++ as2 ∧
      (HelloMsg.validate E ((run E hosts st as1).cookie h) ⟨n, a, c⟩).1 = true ∧ ∀ w, want = some w → w = (n, a)
  | .failed => True

theorem deliveredTo_append (s : Nat) (as bs : List Act) : deliveredTo s (as ++ bs) = deliveredTo s as ++ deliveredTo s bs := by
  induction as with
  | nil => rfl
  | cons a as ih => cases a <;> simp [deliveredTo, ih]; split <;> simp

theorem firstFrame_read {E : Env} {hosts : Nat → Host} {st : St} {s h : Nat} {want : Option (String × SockAddr)} {as : List Act} {a : Act} {buf : List UInt8}
    (hb : buf = deliveredTo s (as ++ [a])) : FirstFrame E hosts st s h want (as ++ [a]) (readHello E ((run E hosts st as).cookie h) want buf) := by
  unfold readHello
  split
  · exact hb
  · trivial
  · rename_i f r hd
    split
    · rename_i n ad ha
      obtain ⟨c, rfl, h1, h2⟩ := accepts_some ha
      exact ⟨buf, [], r, c, as, [a], by simp [hb], hd, by simp, rfl, h1, h2⟩
    · trivial

theorem firstFrame_step {E : Env} {hosts : Nat → Host} {st : St} {s h : Nat} {want : Option (String × SockAddr)} {as : List Act} {p : Phase} (a : Act)
    (h0 : (run E hosts st as).sess[s]? = some ⟨h, want, p⟩) (hi : FirstFrame E hosts st s h want as p) :
    ∃ p', (run E hosts st (as ++ [a])).sess[s]? = some ⟨h, want, p'⟩ ∧ FirstFrame E hosts st s h want (as ++ [a]) p' := by
  have keep : deliveredTo s [a] = [] → FirstFrame E hosts st s h want (as ++ [a]) p := by
    intro hd
    have hda : deliveredTo s (as ++ [a]) = deliveredTo s as := by rw [deliveredTo_append, hd, List.append_nil]
    cases p with
    | fresh buf => exact hi.trans hda.symm
    | reading buf => exact hi.trans hda.symm
    | up n ad rest =>
      obtain ⟨d1, d2, r, c, as1, as2, e1, e2, e3, e4, e5⟩ := hi
      exact ⟨d1, d2, r, c, as1, as2 ++ [a], hda.trans e1, e2, e3, by simp [e4], e5⟩
    | failed => trivial
  rw [run_append, run_cons]
  change ∃ p', (step E hosts _ a).sess[s]? = _ ∧ _
  have hcell := h0
  generalize hst : run E hosts st as = st' at h0 hcell
  cases a with
  | setCookie i c => exact ⟨p, h0, keep rfl⟩
  | begin i w =>
    refine ⟨p, ?_, keep rfl⟩
    simp only [step]
    rw [List.getElem?_append_left (List.getElem?_eq_some_iff.1 h0).1]; exact h0
  | broken t =>
    by_cases ht : s = t
    · subst ht
      exact ⟨.failed, by simp only [step]; rw [sess_setPhase, if_pos rfl, h0]; rfl, trivial⟩
    · exact ⟨p, by simp only [step]; rw [sess_setPhase, if_neg ht]; exact h0, keep rfl⟩
  | greet t =>
    by_cases ht : s = t
    · subst ht
      simp only [step, h0]
      cases p with
      | fresh buf =>
        refine ⟨_, ?_, firstFrame_read (buf := buf) ?_⟩
        · change (setPhase st' s _).sess[s]? = _
          rw [sess_setPhase, if_pos rfl, h0, hst]; rfl
        · exact keep rfl
      | reading buf => exact ⟨_, h0, keep rfl⟩
      | up n ad rest => exact ⟨_, h0, keep rfl⟩
      | failed => exact ⟨_, h0, keep rfl⟩
    · refine ⟨p, ?_, keep rfl⟩
      simp only [step]
      split
      · change (setPhase st' t _).sess[s]? = _
        rw [sess_setPhase, if_neg ht]; exact h0
      · exact h0
  | deliver t bs =>
    by_cases ht : s = t
    · subst ht
      have hd : deliveredTo s (as ++ [.deliver s bs]) = deliveredTo s as ++ bs := by rw [deliveredTo_append]; simp [deliveredTo]
      simp only [step, h0]
      refine ⟨arrive E (st'.cookie h) want p bs, by rw [sess_setPhase, if_pos rfl, h0]; rfl, ?_⟩
      cases p with
      | fresh buf => exact (congrArg (· ++ bs) hi).trans hd.symm
      | reading buf =>
        simp only [arrive]
        rw [← hst]
        exact firstFrame_read ((congrArg (· ++ bs) hi).trans hd.symm)
      | up n ad rest =>
        obtain ⟨d1, d2, r, c, as1, as2, e1, e2, e3, e4, e5⟩ := hi
        exact ⟨d1, d2 ++ bs, r, c, as1, as2 ++ [.deliver s bs], by rw [hd, e1, List.append_assoc], e2, by rw [e3, List.append_assoc], by simp [e4], e5⟩
      | failed => trivial
    · refine ⟨p, ?_, keep (by simp only [deliveredTo]; rw [if_neg (fun e => ht e.symm)])⟩
      simp only [step]
      split
      · rw [sess_setPhase, if_neg ht]; exact h0
      · exact h0

/-- **C139**, what a good handshake has read: the first frame that it was sent, from the first byte on, is the hello of the node it is taken for; it was valid for the node's cookie of that
moment; and what came after this frame, to the byte, is what is left for the decoder. -/
theorem C139_first_frame (E : Env) (hosts : Nat → Host) (st : St) (as : List Act) (s h : Nat) (want : Option (String × SockAddr)) (n : String) (a : SockAddr) (rest : List UInt8)
    (h0 : st.sess[s]? = some ⟨h, want, .fresh []⟩) (hu : Up (run E hosts st as) s h want n a rest) :
    ∃ d1 d2 r c as1 as2, deliveredTo s as = d1 ++ d2 ∧ decode d1 = (.frame (.hello n a c), r) ∧ rest = r ++ d2 ∧ as = as1 ++ as2 ∧
      (HelloMsg.validate E ((run E hosts st as1).cookie h) ⟨n, a, c⟩).1 = true ∧ ∀ w, want = some w → w = (n, a) := by
  have gen : ∀ (bs as : List Act) (p : Phase), (run E hosts st as).sess[s]? = some ⟨h, want, p⟩ → FirstFrame E hosts st s h want as p →
      ∃ p', (run E hosts st (as ++ bs)).sess[s]? = some ⟨h, want, p'⟩ ∧ FirstFrame E hosts st s h want (as ++ bs) p' := by
    intro bs
    induction bs with
    | nil => intro as p h1 h2; exact ⟨p, by simpa using h1, by simpa using h2⟩
    | cons b bs ih =>
      intro as p h1 h2
      obtain ⟨p', h3, h4⟩ := firstFrame_step b h1 h2
      obtain ⟨p'', h5, h6⟩ := ih _ _ h3 h4
      exact ⟨p'', by simpa using h5, by simpa using h6⟩
  obtain ⟨p', h1, h2⟩ := gen as [] _ h0 rfl
  rw [List.nil_append] at h1 h2
  unfold Up at hu
  rw [hu] at h1
  cases h1
  exact h2

/-! ## What is missing -/

/-- The hello of node `h`, as it is written to the network. -/
def helloBytes (E : Env) (hosts : Nat → Host) (h : Nat) (c : Option String) : List UInt8 :=
  encode (.hello (hosts h).name (hosts h).addr (HelloMsg.new E c (hosts h).name (hosts h).addr).challenge) []

/-- The attacker connects, waits for the hello of the node and sends it back. -/
def reflection (E : Env) (hosts : Nat → Host) (c : Option String) (extra : List UInt8) : List Act := [.begin 0 none, .greet 0, .deliver 0 (helloBytes E hosts 0 c ++ extra)]

/-- **C139** fails: whatever its cookie, a node accepts a connection from somebody who knows no key at all and sends back what it gets: the node's own hello. From then on it decodes
and carries out whatever frames (`extra`) this peer sends. -/
theorem C139_reflection_violated (E : Env) (hosts : Nat → Host) (cookie : Nat → Option String) (extra : List UInt8)
    (hs : (encFrame (.hello (hosts 0).name (hosts 0).addr (HelloMsg.new E (cookie 0) (hosts 0).name (hosts 0).addr).challenge)).length < 2 ^ 32) :
    Legal E hosts (fun _ => False) (init cookie) (reflection E hosts (cookie 0) extra) ∧
    Up (run E hosts (init cookie) (reflection E hosts (cookie 0) extra)) 0 0 none (hosts 0).name (hosts 0).addr extra := by
  have h0 : readHello E (cookie 0) none [] = .reading [] := rfl
  constructor
  · simp only [reflection, Legal, and_true]
    refine ⟨?_, ?_, ?_⟩
    · intro s buf n ad c rest h; simp [looksAt] at h
    · intro s buf n ad c rest h hd
      simp only [looksAt] at h
      split at h
      · rename_i hx
        split at h
        · cases h
          rename_i hs'
          subst hs'
          simp [step, init] at hx
          rw [hx.2.2] at hd
          simp [decode] at hd
        · cases h
      · cases h
    · intro s buf n ad c rest h hd
      simp only [looksAt] at h
      split at h
      · rename_i hx
        split at h
        · cases h
          rename_i hs'
          subst hs'
          simp [step, init, setPhase, h0] at hx
          rw [hx.2.2, List.nil_append, helloBytes, decode_encode_append _ _ hs] at hd
          simp only [Prod.mk.injEq, Decoded.frame.injEq, Frame.hello.injEq] at hd
          refine .inl ⟨HelloMsg.new E (cookie 0) (hosts 0).name (hosts 0).addr, ?_, hd.1.2.2⟩
          simp [step, init, setPhase]
        · cases h
      · cases h
  · refine C139_same_cookie E hosts (step E hosts (init cookie) (.begin 0 none)) [.greet 0, .deliver 0 (helloBytes E hosts 0 (cookie 0) ++ extra)] 0 0 none _ _ (cookie 0) extra hs rfl (.inl rfl)
      rfl (by simp) (by simp) (by simp) (by simp [deliveredTo, helloBytes])

/-- Two nodes, 0 and 1. The attacker gets a hello of 1 and breaks off; later node 0 connects to 1, and the attacker answers. -/
def replay (E : Env) (hosts : Nat → Host) (c : Option String) : List Act :=
  [.begin 1 none, .greet 0, .broken 0, .begin 0 (some ((hosts 1).name, (hosts 1).addr)), .greet 1, .deliver 1 (helloBytes E hosts 1 c)]

/-- **C139** fails: a node that is connected to `n` at `a` need not be connected to the node of this name and address. Here the attacker, who knows no key, has a hello of node 1 from
an earlier connection; the only handshake that node 1 took part in has failed, and node 0 is connected to "node 1". -/
theorem C139_replay_violated (E : Env) (hosts : Nat → Host) (cookie : Nat → Option String) (hk : cookie 1 = cookie 0)
    (hs : (encFrame (.hello (hosts 1).name (hosts 1).addr (HelloMsg.new E (cookie 1) (hosts 1).name (hosts 1).addr).challenge)).length < 2 ^ 32) :
    Legal E hosts (fun _ => False) (init cookie) (replay E hosts (cookie 1)) ∧
    (run E hosts (init cookie) (replay E hosts (cookie 1))).sess =
      [⟨1, none, .failed⟩, ⟨0, some ((hosts 1).name, (hosts 1).addr), .up (hosts 1).name (hosts 1).addr []⟩] := by
  have h0 : ∀ c w, readHello E c w [] = .reading [] := fun _ _ => rfl
  constructor
  · simp only [replay, Legal, and_true]
    refine ⟨?_, ?_, ?_, ?_, ?_, ?_⟩
    · intro s buf n ad c rest h; simp [looksAt] at h
    · intro s buf n ad c rest h hd
      simp only [looksAt] at h
      split at h
      · rename_i hx
        split at h
        · cases h
          rename_i hs'
          subst hs'
          simp [step, init] at hx
          rw [hx.2.2] at hd
          simp [decode] at hd
        · cases h
      · cases h
    · intro s buf n ad c rest h; simp [looksAt] at h
    · intro s buf n ad c rest h; simp [looksAt] at h
    · intro s buf n ad c rest h hd
      simp only [looksAt] at h
      split at h
      · rename_i hx
        split at h
        · cases h
          rename_i hs'
          subst hs'
          simp [step, init, setPhase, h0, List.modify] at hx
          rw [hx.2.2] at hd
          simp [decode] at hd
        · cases h
      · cases h
    · intro s buf n ad c rest h hd
      simp only [looksAt] at h
      split at h
      · rename_i hx
        split at h
        · cases h
          rename_i hs'
          subst hs'
          simp [step, init, setPhase, h0, List.modify] at hx
          have e : helloBytes E hosts 1 (cookie 1) = helloBytes E hosts 1 (cookie 1) ++ [] := by simp
          rw [hx.2.2, List.nil_append, e, helloBytes, decode_encode_append _ _ hs] at hd
          simp only [Prod.mk.injEq, Decoded.frame.injEq, Frame.hello.injEq] at hd
          refine .inl ⟨HelloMsg.new E (cookie 1) (hosts 1).name (hosts 1).addr, ?_, hd.1.2.2⟩
          simp [step, init, setPhase, List.modify]
        · cases h
      · cases h
  · have hu := C139_same_cookie E hosts (run E hosts (init cookie) [.begin 1 none, .greet 0, .broken 0, .begin 0 (some ((hosts 1).name, (hosts 1).addr))])
      [.greet 1, .deliver 1 (helloBytes E hosts 1 (cookie 1))] 1 0 (some ((hosts 1).name, (hosts 1).addr)) (hosts 1).name (hosts 1).addr (cookie 1) [] hs
      (by simp [run, step, init, setPhase, h0, List.modify]) (.inr rfl) (by simp [run, step, init, setPhase, hk, List.modify]) (by simp) (by simp) (by simp) (by simp [deliveredTo, helloBytes])
    rw [← run_append] at hu
    have e : (run E hosts (init cookie) (replay E hosts (cookie 1))).sess.length = 2 := by simp [replay, run, step, init, setPhase, h0, List.modify]
    have e0 : (run E hosts (init cookie) (replay E hosts (cookie 1))).sess[0]? = some ⟨1, none, .failed⟩ := by simp [replay, run, step, init, setPhase, h0, List.modify]
    have e1 : (run E hosts (init cookie) (replay E hosts (cookie 1))).sess[1]? = some ⟨0, some ((hosts 1).name, (hosts 1).addr), .up (hosts 1).name (hosts 1).addr []⟩ := hu
    generalize (run E hosts (init cookie) (replay E hosts (cookie 1))).sess = l at e e0 e1
    match l, e with
    | [x, y], _ => simp at e0 e1; rw [e0, e1]

/-! ## Examples -/

def twoHosts : Nat → Host := fun h => if h = 0 then ⟨"a", .v4 ⟨[127, 0, 0, 1], rfl⟩ 1⟩ else ⟨"b", .v4 ⟨[127, 0, 0, 1], rfl⟩ 2⟩

/-- Both ends of a connection from 0 to 1, whose bytes the network cuts into pieces; the accepting end gets the first bytes before it has written its own hello. -/
def honest : List Act :=
  let ha := helloBytes toyEnv twoHosts 0 (some "secret")
  let hb := helloBytes toyEnv twoHosts 1 (some "secret")
  [.begin 0 (some ("b", .v4 ⟨[127, 0, 0, 1], rfl⟩ 2)), .greet 0, .begin 1 none, .deliver 1 (ha.take 7), .greet 1, .deliver 0 (hb.take 3), .deliver 1 (ha.drop 7),
   .deliver 0 (hb.drop 3 ++ encode .ping [])]

/-- Both ends are up; the connecting one has a ping left to decode. -/
example : (run toyEnv twoHosts (init fun _ => some "secret") honest).sess =
    [⟨0, some ("b", .v4 ⟨[127, 0, 0, 1], rfl⟩ 2), .up "b" (.v4 ⟨[127, 0, 0, 1], rfl⟩ 2) (encode .ping [])⟩,
     ⟨1, none, .up "a" (.v4 ⟨[127, 0, 0, 1], rfl⟩ 1) []⟩] := by
  decide +kernel

/-- `C139_agreement_partial` applies to the reflection: it is node 0 itself that has sent the hello. -/
example : ∃ h' c', Greeted toyEnv twoHosts (init fun _ => some "secret") [.begin 0 none, .greet 0] h' c' ∧ keyOf toyEnv c' = keyOf toyEnv (some "secret") ∧
    text toyEnv (twoHosts h').name (twoHosts h').addr = text toyEnv "a" (.v4 ⟨[127, 0, 0, 1], rfl⟩ 1) := by
  rcases C139_agreement_partial toyEnv toyEnv_ideal twoHosts (fun _ => False) (fun _ => some "secret") [.begin 0 none, .greet 0] _ 0 0 none "a" (.v4 ⟨[127, 0, 0, 1], rfl⟩ 1) _
    (C139_reflection_violated toyEnv twoHosts (fun _ => some "secret") (encode .ping []) (by decide +kernel)).1 (by intro r h; unfold Up at h; revert h; simp [run, step, init, setPhase, readHello, decode])
    (C139_reflection_violated toyEnv twoHosts (fun _ => some "secret") (encode .ping []) (by decide +kernel)).2 with h | h
  · exact h.elim
  · exact h

example := C139_connector toyEnv twoHosts (fun _ => some "secret") honest 0 0 ("b", .v4 ⟨[127, 0, 0, 1], rfl⟩ 2) "b" (.v4 ⟨[127, 0, 0, 1], rfl⟩ 2) (encode .ping []) (by unfold Up; decide +kernel)
/-- Both directions of `C139_settled`. -/
example := (C139_settled toyEnv twoHosts (run toyEnv twoHosts (init fun _ => some "secret") honest) [.deliver 0 (encode .pong []), .broken 1] 0 0 (some ("b", .v4 ⟨[127, 0, 0, 1], rfl⟩ 2))).1
  "b" (.v4 ⟨[127, 0, 0, 1], rfl⟩ 2) (encode .ping []) (by unfold Up; decide +kernel)
/-- The accepting end of `honest`. -/
example := C139_first_frame toyEnv twoHosts ⟨fun _ => some "secret", [⟨1, none, .fresh []⟩], []⟩ [.deliver 0 (helloBytes toyEnv twoHosts 0 (some "secret") ++ encode .ping []), .greet 0] 0 1 none
  "a" (.v4 ⟨[127, 0, 0, 1], rfl⟩ 1) (encode .ping []) rfl (by unfold Up; decide +kernel)
example := C139_replay_violated toyEnv twoHosts (fun _ => some "secret") rfl (by decide +kernel)

end Verif.Auth
