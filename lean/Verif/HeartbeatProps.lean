import Verif.Heartbeat
/-!
# C53: heartbeats
-/
namespace Verif.Heartbeat
open Verif.Codec (Frame)

/-- A frame that the receiver handles without a panic. -/
def Fine (panics : Frame → Bool) (f : Frame) : Prop := panics f = false ∧ ∀ n a c, f ≠ .hello n a c

/-- The `j`-th event. -/
def Arrives (arr : Nat → Option (Nat × Event)) (j t : Nat) (f : Frame) : Prop := arr j = some (t, .frame f)

/-- One round in which a fine frame arrives in time. -/
theorem recv_fine {timeout : Nat} {arr : Nat → Option (Nat × Event)} {panics : Frame → Bool} {late cost : Nat → Nat} {k : Nat} {r : Receiver}
    (hd : r.down = none) {t : Nat} {f : Frame} (ha : Arrives arr r.next t f) (hf : Fine panics f) (ht : t ≤ r.since + timeout + late k) :
    let r' := recvRound timeout arr panics late cost k r
    r'.down = none ∧ r'.next = r.next + 1 ∧ t ≤ r'.since ∧ r'.got = r.got ++ [f] ∧ r'.pongs = (if f = .ping then r.pongs + 1 else r.pongs) := by
  simp only [recvRound, hd, Arrives] at ha ⊢
  rw [ha]
  dsimp only
  rw [if_pos ht]
  have hs : t ≤ (if t ≤ r.since + timeout then max r.since t + late k else r.since + timeout + late k) + cost k := by
    split <;> omega
  cases f <;> simp_all [Fine]

/-- C53. If every frame arrives within the heartbeat timeout after the one before (the first within the timeout after the start), and none makes the receiver panic,
then the connection is never dropped, however long it lasts and whatever delays the receiver itself has: after `n` rounds it has
handled exactly the first `n` frames, in order, and answered each `Ping` with a `Pong`. -/
theorem C53_live (timeout : Nat) (arr : Nat → Option (Nat × Event)) (panics : Frame → Bool) (late cost : Nat → Nat) (t₀ : Nat)
    (time : Nat → Nat) (frame : Nat → Frame) (ha : ∀ j, Arrives arr j (time j) (frame j)) (hf : ∀ j, Fine panics (frame j))
    (h0 : time 0 ≤ t₀ + timeout) (hg : ∀ j, time (j + 1) ≤ time j + timeout) (n : Nat) :
    let r := recvRounds timeout arr panics late cost t₀ n
    r.down = none ∧ r.got = (List.range n).map frame ∧ r.pongs = ((List.range n).filter fun j => frame j = .ping).length := by
  have key : ∀ n, let r := recvRounds timeout arr panics late cost t₀ n
      r.down = none ∧ r.next = n ∧ time n ≤ r.since + timeout ∧ r.got = (List.range n).map frame ∧
        r.pongs = ((List.range n).filter fun j => frame j = .ping).length := by
    intro n
    induction n with
    | zero => exact ⟨rfl, rfl, h0, rfl, rfl⟩
    | succ n ih =>
      obtain ⟨h1, h2, h3, h4, h5⟩ := ih
      have := recv_fine (timeout := timeout) (late := late) (cost := cost) (k := n) h1 (by rw [h2]; exact ha n) (hf n) (by omega)
      obtain ⟨g1, g2, g3, g4, g5⟩ := this
      refine ⟨g1, by rw [show (recvRounds timeout arr panics late cost t₀ (n + 1)).next = _ from g2, h2], ?_, ?_, ?_⟩
      · have := hg n
        have hh : time n ≤ (recvRounds timeout arr panics late cost t₀ (n + 1)).since := g3
        omega
      · rw [show (recvRounds timeout arr panics late cost t₀ (n + 1)).got = _ from g4, h4, List.range_succ, List.map_append]; rfl
      · rw [show (recvRounds timeout arr panics late cost t₀ (n + 1)).pongs = _ from g5, h5, List.range_succ, List.filter_append]
        by_cases hp : frame n = .ping <;> simp [hp]
  obtain ⟨h1, _, _, h4, h5⟩ := key n
  exact ⟨h1, h4, h5⟩

/-- C53. If nothing arrives for the heartbeat timeout, the receiver is down after that round: at the end of the timeout, but for the delay of the runtime; and it stays down. -/
theorem C53_silent (timeout : Nat) (arr : Nat → Option (Nat × Event)) (panics : Frame → Bool) (late cost : Nat → Nat) (t₀ n : Nat)
    (hup : (recvRounds timeout arr panics late cost t₀ n).down = none)
    (hs : ∀ t e, arr (recvRounds timeout arr panics late cost t₀ n).next = some (t, e) → (recvRounds timeout arr panics late cost t₀ n).since + timeout + late n < t)
    (m : Nat) :
    (recvRounds timeout arr panics late cost t₀ (n + 1 + m)).down = some ((recvRounds timeout arr panics late cost t₀ n).since + timeout + late n) := by
  induction m with
  | zero =>
    show (recvRound timeout arr panics late cost n (recvRounds timeout arr panics late cost t₀ n)).down = _
    generalize recvRounds timeout arr panics late cost t₀ n = r at *
    simp only [recvRound, hup]
    split
    · rename_i t e he
      rw [if_neg (by have := hs t e he; omega)]
    · rfl
  | succ m ih =>
    show (recvRound timeout arr panics late cost (n + 1 + m) (recvRounds timeout arr panics late cost t₀ (n + 1 + m))).down = _
    generalize recvRounds timeout arr panics late cost t₀ (n + 1 + m) = r at *
    simp only [recvRound, ih]

/-- C53. If the stream ends or breaks, the receiver is down after that round, at the latest (but for the delay of the runtime) when the heartbeat timeout is over; it
handles no further frame and stays down. -/
theorem C53_broken (timeout : Nat) (arr : Nat → Option (Nat × Event)) (panics : Frame → Bool) (late cost : Nat → Nat) (t₀ n t : Nat)
    (hup : (recvRounds timeout arr panics late cost t₀ n).down = none)
    (hb : arr (recvRounds timeout arr panics late cost t₀ n).next = some (t, .broken)) (m : Nat) :
    ∃ d, (recvRounds timeout arr panics late cost t₀ (n + 1 + m)).down = some d ∧
      d ≤ (recvRounds timeout arr panics late cost t₀ n).since + timeout + late n ∧
      (recvRounds timeout arr panics late cost t₀ (n + 1 + m)).got = (recvRounds timeout arr panics late cost t₀ n).got := by
  induction m with
  | zero =>
    show ∃ d, (recvRound timeout arr panics late cost n (recvRounds timeout arr panics late cost t₀ n)).down = some d ∧ _ ∧
      (recvRound timeout arr panics late cost n (recvRounds timeout arr panics late cost t₀ n)).got = _
    generalize recvRounds timeout arr panics late cost t₀ n = r at *
    simp only [recvRound, hup, hb]
    by_cases h1 : t ≤ r.since + timeout + late n
    · rw [if_pos h1]
      refine ⟨_, rfl, ?_, rfl⟩
      split <;> omega
    · rw [if_neg h1]
      exact ⟨_, rfl, Nat.le_refl _, rfl⟩
  | succ m ih =>
    obtain ⟨d, h1, h2, h3⟩ := ih
    refine ⟨d, ?_, h2, ?_⟩
    · show (recvRound timeout arr panics late cost (n + 1 + m) (recvRounds timeout arr panics late cost t₀ (n + 1 + m))).down = _
      simp only [recvRound, h1]
    · show (recvRound timeout arr panics late cost (n + 1 + m) (recvRounds timeout arr panics late cost t₀ (n + 1 + m))).got = _
      simp only [recvRound, h1]; exact h3

example : (recvRounds 10 (fun j => some (if j = 0 then (3, .frame .ping) else (5, .broken))) (fun _ => false) (fun _ => 0) (fun _ => 0) 0 1).down = none ∧
    (recvRounds 10 (fun j => some (if j = 0 then (3, .frame .ping) else (5, .broken))) (fun _ => false) (fun _ => 0) (fun _ => 0) 0 2).down = some 5 := by
  decide

/-- C53. A second `Hello`, or any other frame that makes the receiver panic, ends the connection like a broken stream: the receiver is down after that round, the frame has no
effect and asks for no `Pong`, no further frame is handled, and it stays down. -/
theorem C53_refused (timeout : Nat) (arr : Nat → Option (Nat × Event)) (panics : Frame → Bool) (late cost : Nat → Nat) (t₀ n t : Nat) (f : Frame)
    (hup : (recvRounds timeout arr panics late cost t₀ n).down = none)
    (hb : Arrives arr (recvRounds timeout arr panics late cost t₀ n).next t f) (hf : ¬ Fine panics f) (m : Nat) :
    ∃ d, (recvRounds timeout arr panics late cost t₀ (n + 1 + m)).down = some d ∧
      d ≤ (recvRounds timeout arr panics late cost t₀ n).since + timeout + late n ∧
      (recvRounds timeout arr panics late cost t₀ (n + 1 + m)).got = (recvRounds timeout arr panics late cost t₀ n).got ∧
      (recvRounds timeout arr panics late cost t₀ (n + 1 + m)).pongs = (recvRounds timeout arr panics late cost t₀ n).pongs := by
  induction m with
  | zero =>
    show ∃ d, (recvRound timeout arr panics late cost n (recvRounds timeout arr panics late cost t₀ n)).down = some d ∧ _ ∧
      (recvRound timeout arr panics late cost n (recvRounds timeout arr panics late cost t₀ n)).got = _ ∧
      (recvRound timeout arr panics late cost n (recvRounds timeout arr panics late cost t₀ n)).pongs = _
    generalize recvRounds timeout arr panics late cost t₀ n = r at *
    unfold Arrives at hb
    simp only [recvRound, hup, hb]
    by_cases h1 : t ≤ r.since + timeout + late n
    · rw [if_pos h1]
      have hp : panics f = true ∨ ∃ a b c, f = .hello a b c := by
        apply Classical.byContradiction
        intro hn
        simp only [not_or] at hn
        exact hf ⟨by simpa using hn.1, fun a b c h => hn.2 ⟨a, b, c, h⟩⟩
      have ht : (if t ≤ r.since + timeout then max r.since t + late n else r.since + timeout + late n) ≤ r.since + timeout + late n := by
        split <;> omega
      rcases hp with hp | ⟨a, b, c, rfl⟩
      · cases f <;> dsimp only <;> first | exact ⟨_, rfl, ht, rfl, rfl⟩ | (rw [if_pos hp]; exact ⟨_, rfl, ht, rfl, rfl⟩)
      · exact ⟨_, rfl, ht, rfl, rfl⟩
    · rw [if_neg h1]
      exact ⟨_, rfl, Nat.le_refl _, rfl, rfl⟩
  | succ m ih =>
    obtain ⟨d, h1, h2, h3, h4⟩ := ih
    refine ⟨d, ?_, h2, ?_, ?_⟩
    · show (recvRound timeout arr panics late cost (n + 1 + m) (recvRounds timeout arr panics late cost t₀ (n + 1 + m))).down = _
      simp only [recvRound, h1]
    · show (recvRound timeout arr panics late cost (n + 1 + m) (recvRounds timeout arr panics late cost t₀ (n + 1 + m))).got = _
      simp only [recvRound, h1]; exact h3
    · show (recvRound timeout arr panics late cost (n + 1 + m) (recvRounds timeout arr panics late cost t₀ (n + 1 + m))).pongs = _
      simp only [recvRound, h1]; exact h4

/-- A `Ping`, then a second `Pong` that the receiver is taken to panic on. -/
example : (recvRounds 10 (fun j => some (if j = 0 then (3, .frame .ping) else (5, .frame .pong))) (fun f => decide (f = .pong)) (fun _ => 0) (fun _ => 0) 0 1).down = none ∧
    (recvRounds 10 (fun j => some (if j = 0 then (3, .frame .ping) else (5, .frame .pong))) (fun f => decide (f = .pong)) (fun _ => 0) (fun _ => 0) 0 3).down = some 5 := by
  decide

/-- C53. The receiver goes down only for a reason: the end of the stream or an error, a frame that makes it panic, or a whole timeout without a frame. -/
theorem C53_down_only (timeout : Nat) (arr : Nat → Option (Nat × Event)) (panics : Frame → Bool) (late cost : Nat → Nat) (t₀ n : Nat)
    (hup : (recvRounds timeout arr panics late cost t₀ n).down = none) (hd : (recvRounds timeout arr panics late cost t₀ (n + 1)).down ≠ none) :
    let r := recvRounds timeout arr panics late cost t₀ n
    (∃ t, arr r.next = some (t, .broken)) ∨ (∃ t f, Arrives arr r.next t f ∧ ¬ Fine panics f) ∨
    (∀ t e, arr r.next = some (t, e) → r.since + timeout < t) := by
  intro r
  false_or_by_contra
  rename_i hn
  simp only [not_or] at hn
  obtain ⟨h1, h2, h3⟩ := hn
  refine h3 fun t e he => ?_
  false_or_by_contra
  rename_i hlt
  cases e with
  | broken => exact h1 ⟨t, he⟩
  | frame f =>
    have hf : Fine panics f := by
      false_or_by_contra; rename_i hf; exact h2 ⟨t, f, he, hf⟩
    exact hd (recv_fine (timeout := timeout) (late := late) (cost := cost) (k := n) hup he hf (by show t ≤ r.since + _ + _; omega)).1

/-- C53. An idle sender writes a `Ping` at the end of the interval: a round in which no message is there writes exactly one frame, a `Ping`, at the end of the heartbeat interval,
but for the delay of the runtime and the duration of the write. -/
theorem C53_ping (interval : Nat) (inbox : Nat → Option (Nat × List Frame)) (late cost : Nat → Nat) (k : Nat) (s : Sender)
    (hs : ∀ t fs, inbox s.next = some (t, fs) → s.since + interval + late k < t) :
    (sendRound interval inbox late cost k s).log = s.log ++ [(s.since + interval + late k + cost k, .ping)] ∧
    (sendRound interval inbox late cost k s).next = s.next := by
  simp only [sendRound]
  split
  · rename_i t fs he
    rw [if_neg (by have := hs t fs he; omega)]
    exact ⟨rfl, rfl⟩
  · exact ⟨rfl, rfl⟩

/-- What the sender writes besides pings is what it was given, in order. -/
def handedOver (inbox : Nat → Option (Nat × List Frame)) (n : Nat) : List Frame := ((List.range n).filterMap inbox).flatMap (·.2)

/-- C53. Pings are added to the frames that the sender was given, in order, and nothing else is: without pings the log has the frames of the messages received so far. -/
theorem C53_transparent (interval : Nat) (inbox : Nat → Option (Nat × List Frame)) (late cost : Nat → Nat) (t₀ n : Nat)
    (hnp : ∀ j t fs, inbox j = some (t, fs) → Frame.ping ∉ fs) :
    let s := sendRounds interval inbox late cost t₀ n
    (s.log.map (·.2)).filter (· ≠ .ping) = handedOver inbox s.next := by
  induction n with
  | zero => rfl
  | succ n ih =>
    show ((sendRound interval inbox late cost n (sendRounds interval inbox late cost t₀ n)).log.map (·.2)).filter (· ≠ .ping) =
      handedOver inbox (sendRound interval inbox late cost n (sendRounds interval inbox late cost t₀ n)).next
    generalize sendRounds interval inbox late cost t₀ n = s at *
    dsimp only at ih
    simp only [sendRound]
    split
    · rename_i t fs he
      split
      · have hfil : List.filter (fun f => decide (f ≠ Frame.ping)) fs = fs := by
          rw [List.filter_eq_self]
          intro f hf
          have := hnp _ _ _ he
          simp; rintro rfl; exact this hf
        simp only [List.map_append, List.map_map, List.filter_append, ih]
        rw [show ((fun x : Nat × Frame => x.2) ∘ fun f => ((if t ≤ s.since + interval then max s.since t + late n else s.since + interval + late n) + cost n, f)) = id from rfl,
          List.map_id, hfil]
        simp [handedOver, List.range_succ, List.filterMap_append, he]
      · simp only [List.map_append, List.filter_append, ih]; simp
    · simp only [List.map_append, List.filter_append, ih]; simp

/-- The frame that the sender writes as number `j` is `f`, and the write is complete at `t`. -/
def Written (interval : Nat) (inbox : Nat → Option (Nat × List Frame)) (late cost : Nat → Nat) (t₀ j t : Nat) (f : Frame) : Prop :=
  ∃ n, (sendRounds interval inbox late cost t₀ n).log[j]? = some (t, f)

/-- The delays of the sender are at most `slack` in every round. -/
def Slack (late cost : Nat → Nat) (slack : Nat) : Prop := ∀ k, late k + cost k ≤ slack

/-- The messages of the sender have frames, except that the first may be empty if `extra` is at least the longest round `g`: the first is the `SendFrames` of
`node_register_workers`, node_registry.rs:154-157, which is empty if no frame was pending. -/
def NonEmpty (inbox : Nat → Option (Nat × List Frame)) (g extra : Nat) : Prop := ∀ j t fs, inbox j = some (t, fs) → fs ≠ [] ∨ (j = 0 ∧ g ≤ extra)

/-- The times at which the frames were written. -/
def times (s : Sender) : List Nat := s.log.map (·.1)

/-- Every element is at most `gap` above the one before; the first at most `gap` above `t₀`. -/
def Paced (gap : Nat) : Nat → List Nat → Prop
  | _, [] => True
  | t₀, t :: l => t ≤ t₀ + gap ∧ Paced gap t l

theorem paced_append {gap t₀ : Nat} {l l' : List Nat} : Paced gap t₀ (l ++ l') ↔ Paced gap t₀ l ∧ Paced gap (l.getLastD t₀) l' := by
  induction l generalizing t₀ with
  | nil => simp [Paced]
  | cons a l ih =>
    simp only [List.cons_append, Paced, ih, and_assoc]
    rw [List.getLastD_cons]

theorem paced_replicate {gap t₀ t n : Nat} (h : t ≤ t₀ + gap) : Paced gap t₀ (List.replicate n t) := by
  induction n generalizing t₀ with
  | zero => trivial
  | succ n ih => exact ⟨h, ih (by omega)⟩

theorem paced_getElem {gap t₀ : Nat} {l : List Nat} (h : Paced gap t₀ l) {j t t' : Nat} (h1 : l[j]? = some t) (h2 : l[j + 1]? = some t') : t' ≤ t + gap := by
  induction l generalizing t₀ j with
  | nil => simp at h1
  | cons a l ih =>
    cases j with
    | zero =>
      simp at h1 h2; subst h1
      cases l with
      | nil => simp at h2
      | cons b l => simp at h2; subst h2; exact h.2.1
    | succ j => exact ih h.2 (by simpa using h1) (by simpa using h2)

/-- What one round adds. -/
theorem round_cases (interval : Nat) (inbox : Nat → Option (Nat × List Frame)) (late cost : Nat → Nat) (k : Nat) (s : Sender) :
    ∃ fs : List Frame, ∃ t, (sendRound interval inbox late cost k s).log = s.log ++ fs.map (fun f => (t, f)) ∧
      (sendRound interval inbox late cost k s).since = t ∧ t ≤ s.since + interval + (late k + cost k) ∧
      (((sendRound interval inbox late cost k s).next = s.next ∧ fs = [.ping]) ∨
       ((sendRound interval inbox late cost k s).next = s.next + 1 ∧ ∃ x, inbox s.next = some (x, fs))) := by
  simp only [sendRound]
  split
  · rename_i t fs he
    split
    · refine ⟨fs, _, rfl, rfl, ?_, .inr ⟨rfl, t, he⟩⟩
      split <;> omega
    · exact ⟨[.ping], _, rfl, rfl, by omega, .inl ⟨rfl, rfl⟩⟩
  · exact ⟨[.ping], _, rfl, rfl, by omega, .inl ⟨rfl, rfl⟩⟩

theorem getLastD_replicate {a t n : Nat} (h : n ≠ 0) : (List.replicate n t).getLastD a = t := by
  cases n with
  | zero => exact absurd rfl h
  | succ n => rw [List.replicate_succ', List.getLastD_concat]

theorem getLastD_append' {l l' : List Nat} {a : Nat} : (l ++ l').getLastD a = l'.getLastD (l.getLastD a) := by
  induction l generalizing a with
  | nil => rfl
  | cons b l ih =>
    rw [List.cons_append]
    rw [List.getLastD_cons, List.getLastD_cons]
    exact ih

theorem map_times (fs : List Frame) (t : Nat) : fs.map ((fun x : Nat × Frame => x.1) ∘ fun f => (t, f)) = List.replicate fs.length t := by
  induction fs with
  | nil => rfl
  | cons f fs ih => simp only [List.map_cons, ih]; rfl

/-- The invariant of the sender: it waits since its last write, or, if an empty message came, at most `extra` longer. -/
theorem sender_inv {interval slack extra : Nat} {inbox : Nat → Option (Nat × List Frame)} {late cost : Nat → Nat} (hsl : Slack late cost slack)
    (hne : NonEmpty inbox (interval + slack) extra) (t₀ n : Nat) :
    let s := sendRounds interval inbox late cost t₀ n
    Paced (interval + slack + extra) t₀ (times s) ∧ s.since ≤ (times s).getLastD t₀ + extra ∧ (s.next = 0 → s.since = (times s).getLastD t₀) ∧
    n ≤ s.log.length + min s.next 1 := by
  induction n with
  | zero => simp [sendRounds, times, Paced]
  | succ n ih =>
    obtain ⟨h1, h2, h3, h4⟩ := ih
    obtain ⟨fs, t, e1, e2, e3, e4⟩ := round_cases interval inbox late cost n (sendRounds interval inbox late cost t₀ n)
    simp only [sendRounds]
    have hk := hsl n
    have ht : times (sendRound interval inbox late cost n (sendRounds interval inbox late cost t₀ n)) =
        times (sendRounds interval inbox late cost t₀ n) ++ List.replicate fs.length t := by
      simp only [times, e1, List.map_append, List.map_map]
      rw [map_times]
    rw [ht, e2, e1]
    by_cases hfs : fs = []
    · subst hfs
      rcases e4 with ⟨_, e⟩ | ⟨e4, x, hx⟩
      · simp at e
      · rcases hne _ _ _ hx with h | ⟨h, hge⟩
        · exact absurd rfl h
        · have h3 := h3 h
          simp only [List.length_nil, List.replicate_zero, List.append_nil, List.map_nil]
          refine ⟨h1, by omega, by omega, ?_⟩
          omega
    · have hlen : fs.length ≠ 0 := by simpa using hfs
      rw [getLastD_append', getLastD_replicate hlen, paced_append]
      refine ⟨⟨h1, paced_replicate (by omega)⟩, by omega, fun _ => rfl, ?_⟩
      simp only [List.length_append, List.length_map]
      rcases e4 with ⟨e4, _⟩ | ⟨e4, _⟩ <;> omega

/-- The log only grows. -/
theorem log_grows (interval : Nat) (inbox : Nat → Option (Nat × List Frame)) (late cost : Nat → Nat) (t₀ n m : Nat) :
    ∃ l, (sendRounds interval inbox late cost t₀ (n + m)).log = (sendRounds interval inbox late cost t₀ n).log ++ l := by
  induction m with
  | zero => exact ⟨[], by simp⟩
  | succ m ih =>
    obtain ⟨l, hl⟩ := ih
    obtain ⟨fs, t, e1, _⟩ := round_cases interval inbox late cost (n + m) (sendRounds interval inbox late cost t₀ (n + m))
    exact ⟨l ++ fs.map fun f => (t, f), by rw [← Nat.add_assoc]; simp only [sendRounds]; rw [e1, hl, List.append_assoc]⟩

theorem log_stable {interval : Nat} {inbox : Nat → Option (Nat × List Frame)} {late cost : Nat → Nat} {t₀ n m j : Nat} {e : Nat × Frame} (hnm : n ≤ m)
    (h : (sendRounds interval inbox late cost t₀ n).log[j]? = some e) : (sendRounds interval inbox late cost t₀ m).log[j]? = some e := by
  obtain ⟨l, hl⟩ := log_grows interval inbox late cost t₀ n (m - n)
  rw [show n + (m - n) = m from by omega] at hl
  rw [hl]
  have : j < (sendRounds interval inbox late cost t₀ n).log.length := by
    false_or_by_contra; rename_i hh
    rw [List.getElem?_eq_none (by omega)] at h; simp at h
  rw [List.getElem?_append_left this]; exact h

/-- C53. The sender never stops writing: there is a frame number `j` for every `j`, and only one. -/
theorem C53_keeps_writing {interval slack extra : Nat} {inbox : Nat → Option (Nat × List Frame)} {late cost : Nat → Nat} (hsl : Slack late cost slack)
    (hne : NonEmpty inbox (interval + slack) extra) (t₀ j : Nat) :
    ∃ t f, Written interval inbox late cost t₀ j t f ∧ ∀ t' f', Written interval inbox late cost t₀ j t' f' → t' = t ∧ f' = f := by
  obtain ⟨_, _, _, h⟩ := sender_inv hsl hne t₀ (j + 2)
  have hlen : j < (sendRounds interval inbox late cost t₀ (j + 2)).log.length := by
    omega
  refine ⟨(sendRounds interval inbox late cost t₀ (j + 2)).log[j].1, (sendRounds interval inbox late cost t₀ (j + 2)).log[j].2,
    ⟨j + 2, List.getElem?_eq_getElem hlen⟩, ?_⟩
  rintro t' f' ⟨n, hn⟩
  have h1 := log_stable (m := max n (j + 2)) (by omega) hn
  have h2 := log_stable (m := max n (j + 2)) (by omega) (List.getElem?_eq_getElem hlen)
  rw [h1] at h2
  simp at h2
  rw [← h2]; exact ⟨rfl, rfl⟩

/-- C53. Frames are written at most one heartbeat interval apart, plus the delays of the sender itself, for every sequence of messages; if the first message is empty,
which is so when no frame was pending as the connection came up, once an interval longer. -/
theorem C53_paced {interval slack extra : Nat} {inbox : Nat → Option (Nat × List Frame)} {late cost : Nat → Nat} (hsl : Slack late cost slack)
    (hne : NonEmpty inbox (interval + slack) extra) (t₀ : Nat) :
    (∀ t f, Written interval inbox late cost t₀ 0 t f → t ≤ t₀ + (interval + slack + extra)) ∧
    (∀ j t f t' f', Written interval inbox late cost t₀ j t f → Written interval inbox late cost t₀ (j + 1) t' f' → t' ≤ t + (interval + slack + extra)) := by
  constructor
  · rintro t f ⟨n, hn⟩
    obtain ⟨h, _⟩ := sender_inv hsl hne t₀ n
    have : (times (sendRounds interval inbox late cost t₀ n))[0]? = some t := by simp [times, hn]
    cases hl : times (sendRounds interval inbox late cost t₀ n) with
    | nil => simp [hl] at this
    | cons a l => rw [hl] at this h; simp at this; subst this; exact h.1
  · rintro j t f t' f' ⟨n, hn⟩ ⟨m, hm⟩
    have h1 := log_stable (m := max n m) (by omega) hn
    have h2 := log_stable (m := max n m) (by omega) hm
    obtain ⟨h, _⟩ := sender_inv hsl hne t₀ (max n m)
    exact paced_getElem h (j := j) (by simp [times, h1]) (by simp [times, h2])

/-- C53, both ends together. If the interval, the delays of the sender and the jitter of the network together are at most the heartbeat timeout of the peer, then the peer never
drops the connection, whatever is sent or not sent over it and for ever. `delay j` is the transit time of frame number `j`. -/
theorem C53_end_to_end {interval slack extra timeout dmin dmax : Nat} {inbox : Nat → Option (Nat × List Frame)} {late cost : Nat → Nat} (hsl : Slack late cost slack)
    (hne : NonEmpty inbox (interval + slack) extra) (t₀ r₀ : Nat) (delay : Nat → Nat) (hdel : ∀ j, dmin ≤ delay j ∧ delay j ≤ dmax)
    (panics : Frame → Bool) (late' cost' : Nat → Nat) (arr : Nat → Option (Nat × Event))
    (harr : ∀ j t f, Written interval inbox late cost t₀ j t f → arr j = some (t + delay j, .frame f))
    (hfine : ∀ j t f, Written interval inbox late cost t₀ j t f → Fine panics f)
    (hto : interval + slack + extra + (dmax - dmin) ≤ timeout) (hstart : t₀ + (interval + slack + extra) + dmax ≤ r₀ + timeout) (n : Nat) :
    (recvRounds timeout arr panics late' cost' r₀ n).down = none := by
  have hw := fun j => C53_keeps_writing hsl hne t₀ j
  obtain ⟨hp0, hp⟩ := C53_paced hsl hne t₀
  let time : Nat → Nat := fun j => (hw j).choose
  let frame : Nat → Frame := fun j => (hw j).choose_spec.choose
  have hwr : ∀ j, Written interval inbox late cost t₀ j (time j) (frame j) := fun j => (hw j).choose_spec.choose_spec.1
  refine (C53_live timeout arr panics late' cost' r₀ (fun j => time j + delay j) frame (fun j => harr j _ _ (hwr j)) (fun j => hfine j _ _ (hwr j)) ?_ ?_ n).1
  · have := hp0 _ _ (hwr 0); have := hdel 0; omega
  · intro j
    have := hp j _ _ _ _ (hwr j) (hwr (j + 1)); have := hdel j; have := hdel (j + 1); omega

/-- The hypotheses are met with the default options (interval 5 s, timeout 45 s, node_options.rs:22-24, in ms) by a sender that has an empty first message and one frame to send. -/
def sampleInbox : Nat → Option (Nat × List Frame)
  | 0 => some (10, [])
  | 1 => some (7000, [.exit 1 2 .normal])
  | _ => none
example : NonEmpty sampleInbox (5000 + 100) 5100 ∧ Slack (fun _ => 60) (fun _ => 40) 100 ∧ 5000 + 100 + 5100 + (500 - 1) ≤ 45000 := by
  refine ⟨?_, by simp [Slack], by omega⟩
  intro j t fs h
  match j, h with
  | 0, _ => exact .inr ⟨rfl, by omega⟩
  | 1, h => simp [sampleInbox] at h; left; rw [← h.2]; simp
example : (sendRounds 5000 sampleInbox (fun _ => 60) (fun _ => 40) 0 4).log =
    [(5210, .ping), (7100, .exit 1 2 .normal), (12200, .ping)] := by decide
/-- The gap after an empty message: 5210 is more than one interval with the delays. -/
example : ¬ (5210 ≤ 5000 + 100) := by decide
/-- A receiver that hears a ping in time and then nothing. -/
example : (recvRounds 45 (fun j => if j = 0 then some (40, .frame .ping) else none) (fun _ => false) (fun _ => 1) (fun _ => 2) 0 1).down = none ∧
    (recvRounds 45 (fun j => if j = 0 then some (40, .frame .ping) else none) (fun _ => false) (fun _ => 1) (fun _ => 2) 0 1).pongs = 1 ∧
    (recvRounds 45 (fun j => if j = 0 then some (40, .frame .ping) else none) (fun _ => false) (fun _ => 1) (fun _ => 2) 0 5).down = some 89 := by decide

/-- C53. A message that is in the mailbox when the sender is polled goes first: the round writes exactly its frames, in order and all before the next round, and no `Ping`. -/
theorem C53_no_ping_if_ready (interval : Nat) (inbox : Nat → Option (Nat × List Frame)) (late cost : Nat → Nat) (t₀ n t : Nat) (fs : List Frame) :
    let s := sendRounds interval inbox late cost t₀ n
    let s' := sendRounds interval inbox late cost t₀ (n + 1)
    inbox s.next = some (t, fs) → t ≤ s.since + interval + late n →
    s'.next = s.next + 1 ∧ s'.log.map (·.2) = s.log.map (·.2) ++ fs ∧ (∃ l, s'.log = s.log ++ l ∧ ∀ x ∈ l, t ≤ x.1 ∧ x.1 = s'.since) := by
  intro s s' h ht
  have hs : s' = sendRound interval inbox late cost n s := rfl
  rw [hs]
  simp only [sendRound, h]
  rw [if_pos ht]
  refine ⟨rfl, by simp [Function.comp_def], _, rfl, ?_⟩
  intro x hx
  simp only [List.mem_map] at hx
  obtain ⟨f, _, rfl⟩ := hx
  refine ⟨?_, rfl⟩
  dsimp only
  split <;> omega

/-- Met at the boundary: the message arrives just when the sender is polled at the end of the interval. -/
example : (sendRounds 5 (fun j => if j = 0 then some (5, [.pong]) else none) (fun _ => 0) (fun _ => 0) 0 1).log = [(5, .pong)] := by decide

end Verif.Heartbeat
