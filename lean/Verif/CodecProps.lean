import Verif.CodecLemmas
/-!
# Properties C01–C06: the wire codec

Specification vocabulary used below:
* `encode f dst`  — buffer after `Codec::encode(f, &mut dst)`;
* `decode src`    — outcome of `Codec::decode(&mut src)` and the buffer afterwards;
* `readStream [] chunks` — what a framed reader yields when the socket delivers `chunks` one after the other:
  the frames, the unread rest, and whether decoding failed;
* a frame is *sendable* when its body is shorter than 4 GiB, so that its length fits the `u32` prefix.
-/
namespace Verif.Codec

/-- The body of the frame fits the 32-bit length prefix. -/
def Sendable (f : Frame) : Prop := (encFrame f).length < 2 ^ 32

/-- Spec: value of a 4-byte little-endian length field. -/
def u32le (a b c d : UInt8) : Nat := a.toNat + 256 * b.toNat + 65536 * c.toNat + 16777216 * d.toNat

/-- A sample frame used for the non-vacuity examples. -/
def sampleFrame : Frame :=
  .linkDown [1, 2, 3] 77 .kill

theorem sampleFrame_sendable : Sendable sampleFrame := by
  unfold Sendable sampleFrame; decide

/-- C01. Encoding then decoding returns the same frame and consumes exactly what was produced,
whatever follows in the buffer. -/
theorem C01_frame_roundtrip (f : Frame) (rest : List UInt8) (h : Sendable f) :
    decode (encode f [] ++ rest) = (.frame f, rest) :=
  decode_encode_append f rest h

example : decode (encode sampleFrame [] ++ [7, 7]) = (.frame sampleFrame, [7, 7]) :=
  C01_frame_roundtrip _ _ sampleFrame_sendable

/-- C01. Two different frames never have the same encoding. -/
theorem C01_encode_injective (f g : Frame) (hf : Sendable f) (hg : Sendable g)
    (h : encode f [] = encode g []) : f = g := by
  have h1 := C01_frame_roundtrip f [] hf
  have h2 := C01_frame_roundtrip g [] hg
  rw [h, h2] at h1
  simp only [Prod.mk.injEq, Decoded.frame.injEq, and_true] at h1
  exact h1.symm

example : Sendable Frame.ping ∧ Sendable sampleFrame ∧ Frame.ping ≠ sampleFrame :=
  ⟨by unfold Sendable; decide, sampleFrame_sendable, by decide⟩

/-- C02. However the concatenation of the encodings is cut into chunks, the reader yields exactly the frames
that were written, in order, with nothing left over and no error. -/
theorem C02_any_chunking (fs : List Frame) (h : ∀ f ∈ fs, Sendable f) (chunks : List (List UInt8))
    (hc : chunks.flatten = (fs.map fun f => encode f []).flatten) :
    readStream [] chunks = (fs, [], false) :=
  readStream_correct chunks [] fs h (by simpa using hc) (by simp [decode])

/-- The same when the writer put all frames into one write buffer one after the other. -/
theorem C02_any_chunking_one_buffer (fs : List Frame) (h : ∀ f ∈ fs, Sendable f) (chunks : List (List UInt8))
    (hc : chunks.flatten = fs.foldl (fun buf f => encode f buf) []) :
    readStream [] chunks = (fs, [], false) := by
  have hfold : ∀ (l : List Frame) (b : List UInt8),
      l.foldl (fun buf f => encode f buf) b = b ++ (l.map fun f => encode f []).flatten := by
    intro l
    induction l with
    | nil => simp
    | cons f l ih => intro b; rw [List.foldl_cons, ih]; simp [encode_eq]
  exact C02_any_chunking fs h chunks (by rw [hc, hfold]; simp)

example : readStream [] ((([Frame.ping, sampleFrame].map fun f => encode f []).flatten).map fun b => [b])
    = ([Frame.ping, sampleFrame], [], false) :=
  C02_any_chunking _ (by
    intro f hf
    simp at hf
    rcases hf with rfl | rfl
    · unfold Sendable; decide
    · exact sampleFrame_sendable) _ (by
    generalize (([Frame.ping, sampleFrame].map fun f => encode f []).flatten) = l
    induction l with
    | nil => rfl
    | cons a l ih => simp [ih])

/-- C03. A proper prefix of an encoded frame yields "need more data" and is left in the buffer. -/
theorem C03_prefix_incomplete (f : Frame) (h : Sendable f) (pre suf : List UInt8)
    (hp : encode f [] = pre ++ suf) (hs : suf ≠ []) : decode pre = (.incomplete, pre) :=
  decode_prefix f h pre suf hp.symm hs

/-- C03. Any number of complete frames followed by a proper prefix of another one: the complete ones come out,
the prefix stays. -/
theorem C03_complete_then_prefix (fs : List Frame) (g : Frame) (h : ∀ f ∈ fs, Sendable f) (hg : Sendable g)
    (pre suf : List UInt8) (hp : encode g [] = pre ++ suf) (hs : suf ≠ []) :
    drain ((fs.map fun f => encode f []).flatten ++ pre) = (fs, pre, false) := by
  rw [drain_encoded fs h, drain_incomplete (C03_prefix_incomplete g hg pre suf hp hs)]
  simp

example : encode Frame.ping [] = [4, 0, 0, 0, 1] ++ [0, 0, 0] ∧ ([0, 0, 0] : List UInt8) ≠ [] := by
  refine ⟨?_, by decide⟩; decide

/-- C04. Encoding keeps the existing bytes and appends a 4-byte little-endian length and a body of exactly that
length, which decodes to the frame. -/
theorem C04_encode_appends (f : Frame) (dst : List UInt8) (h : Sendable f) :
    ∃ a b c d body, encode f dst = dst ++ [a, b, c, d] ++ body ∧ u32le a b c d = body.length ∧
      decFrame body = .ok (f, []) := by
  have hk : ∃ k, k = (encFrame f).length % 2 ^ 32 := ⟨_, rfl⟩
  obtain ⟨k, hk⟩ := hk
  refine ⟨UInt8.ofNat (k % 256), UInt8.ofNat (k / 256 % 256), UInt8.ofNat (k / 256 / 256 % 256),
    UInt8.ofNat (k / 256 / 256 / 256 % 256), encFrame f, ?_, ?_, ?_⟩
  · rw [encode_eq, ← hk]
    simp only [leBytes, List.append_assoc]
  · unfold Sendable at h
    rw [Nat.mod_eq_of_lt h] at hk
    subst hk
    simp [u32le]
    omega
  · have := RT_frame f [] (by unfold Sendable at h; omega)
    simpa using this

example : Sendable sampleFrame := sampleFrame_sendable

/-- C05. Total behaviour of the decoder on arbitrary bytes: a frame consumes exactly the four marker bytes and the
declared number of bytes, all of which are present; in the other two outcomes nothing is consumed. -/
theorem C05_decode_total (src : List UInt8) :
    (∃ a b c d tail f, src = a :: b :: c :: d :: tail ∧ u32le a b c d ≤ tail.length ∧
        decode src = (.frame f, tail.drop (u32le a b c d))) ∨
    decode src = (.incomplete, src) ∨ decode src = (.failed, src) := by
  match src with
  | [] => right; left; rfl
  | [_] => right; left; rfl
  | [_, _] => right; left; rfl
  | [_, _, _] => right; left; rfl
  | a :: b :: c :: d :: tail =>
    have hv : leVal ((a :: b :: c :: d :: tail).take 4) = u32le a b c d := by
      simp [leVal, u32le]; omega
    unfold decode
    rw [if_neg (by simp)]
    dsimp only
    rw [hv]
    split
    · right; left; rfl
    · rename_i hlen
      simp only [List.length_cons] at hlen
      simp only [List.drop_succ_cons, List.drop_zero]
      split
      · rename_i f rest heq
        left
        refine ⟨a, b, c, d, tail, f, rfl, by omega, ?_⟩
        rw [show 4 + u32le a b c d = u32le a b c d + 1 + 1 + 1 + 1 by omega]
        simp only [List.drop_succ_cons]
      · right; left; rfl
      · right; right; rfl

/-- C05. A decoded frame is always the unique frame whose encoding the buffer contained: the decoder never invents
a frame. -/
theorem C05_decode_canonical (src rest : List UInt8) (f : Frame) (h : decode src = (.frame f, rest)) :
    ∃ a b c d tail, src = [a, b, c, d] ++ encFrame f ++ tail := by
  match src with
  | [] => simp [decode] at h
  | [_] => simp [decode] at h
  | [_, _] => simp [decode] at h
  | [_, _, _] => simp [decode] at h
  | a :: b :: c :: d :: tl =>
    unfold decode at h
    rw [if_neg (by simp)] at h
    dsimp only at h
    split at h
    · simp at h
    · simp only [List.drop_succ_cons, List.drop_zero] at h
      cases hd : decFrame tl with
      | ok r =>
        obtain ⟨g, t⟩ := r
        rw [hd] at h
        simp only [Prod.mk.injEq, Decoded.frame.injEq] at h
        obtain ⟨rfl, _⟩ := h
        exact ⟨a, b, c, d, t, by rw [EX_frame _ _ _ hd]; rfl⟩
      | error e => cases e <;> rw [hd] at h <;> simp at h

/-- C05. Reading an arbitrary byte stream in arbitrary chunks terminates, and never keeps more bytes than were
received. -/
theorem C05_stream_bounded (chunks : List (List UInt8)) (buf : List UInt8) :
    (readStream buf chunks).2.1.length ≤ buf.length + chunks.flatten.length := by
  have hdrain : ∀ (n : Nat) (b : List UInt8), b.length ≤ n → (drain b).2.1.length ≤ b.length := by
    intro n
    induction n with
    | zero =>
      intro b hb
      have : b = [] := List.length_eq_zero_iff.mp (by omega)
      subst this
      rw [drain_incomplete (rest := []) (by simp [decode])]
      simp
    | succ n ih =>
      intro b hb
      match hd : decode b with
      | (.frame f, rest) =>
        rw [drain_frame hd]
        have := decode_frame_length hd
        have := ih rest (by omega)
        simp only; omega
      | (.incomplete, rest) =>
        have h2 := C05_decode_total b
        rw [hd] at h2
        simp at h2
        rw [drain_incomplete hd, h2]
        simp
      | (.failed, rest) =>
        have h2 := C05_decode_total b
        rw [hd] at h2
        simp at h2
        rw [drain]
        split
        · rename_i h'; rw [hd] at h'; simp at h'
        · rename_i h'; rw [hd] at h'; simp at h'
        · rename_i r' h'
          rw [hd] at h'
          simp only [Prod.mk.injEq, true_and] at h'
          simp [← h', h2]
  induction chunks generalizing buf with
  | nil => simp [readStream]
  | cons c cs ih =>
    rw [readStream]
    have h1 := hdrain _ (buf ++ c) (Nat.le_refl _)
    split
    · rename_i fs rest hd
      rw [hd] at h1
      simp only [List.length_append, List.flatten_cons] at h1 ⊢
      omega
    · rename_i fs rest hd
      rw [hd] at h1
      have := ih rest
      simp only [List.length_append, List.flatten_cons] at h1 ⊢
      omega

/-- C05. A malformed record after complete frames ends the stream: the frames before it come out, and nothing after it, whatever arrives later. -/
theorem C05_bad_record_ends_stream (fs : List Frame) (h : ∀ f ∈ fs, Sendable f) (bad buf c : List UInt8) (later : List (List UInt8)) (hb : (decode bad).1 = .failed)
    (hc : buf ++ c = (fs.map fun f => encode f []).flatten ++ bad) : readStream buf (c :: later) = (fs, bad, true) := by
  have hd : decode bad = (.failed, bad) := by
    rcases C05_decode_total bad with ⟨_, _, _, _, _, _, _, _, h⟩ | h | h
    · rw [h] at hb; cases hb
    · rw [h] at hb; cases hb
    · exact h
  have hb' : drain bad = ([], bad, true) := by
    rw [drain]
    split
    · rename_i e; rw [hd] at e; cases e
    · rename_i e; rw [hd] at e; cases e
    · rename_i e; rw [hd] at e; cases e; rfl
  have : drain (buf ++ c) = (fs, bad, true) := by rw [hc, drain_encoded fs h, hb']; simp
  rw [readStream, this]

/-- C05. And only a malformed record does: when the stream has failed, the decoder refuses what is left in the buffer. -/
theorem C05_error_is_genuine (chunks : List (List UInt8)) (buf : List UInt8) (h : (readStream buf chunks).2.2 = true) :
    (decode (readStream buf chunks).2.1).1 = .failed := by
  have hdrain : ∀ (n : Nat) (b : List UInt8), b.length ≤ n → (drain b).2.2 = true → (decode (drain b).2.1).1 = .failed := by
    intro n
    induction n with
    | zero =>
      intro b hb hf
      have : b = [] := List.length_eq_zero_iff.1 (by omega)
      subst this
      rw [drain_incomplete (rest := []) (by simp [decode])] at hf; cases hf
    | succ n ih =>
      intro b hb hf
      rcases hd : decode b with ⟨res, rest⟩
      cases res with
      | frame f =>
        rw [drain_frame hd] at hf ⊢
        have := decode_frame_length hd
        exact ih rest (by omega) hf
      | incomplete => rw [drain_incomplete hd] at hf; cases hf
      | failed =>
        have hr : rest = b := by
          rcases C05_decode_total b with ⟨_, _, _, _, _, _, _, _, h⟩ | h | h <;> rw [h] at hd <;> cases hd
          rfl
        subst hr
        have : drain rest = ([], rest, true) := by
          rw [drain]
          split <;> rename_i e <;> rw [hd] at e <;> cases e
          rfl
        rw [this]; simp [hd]
  induction chunks generalizing buf with
  | nil => cases h
  | cons c cs ih =>
    have key := hdrain _ (buf ++ c) (Nat.le_refl _)
    rw [readStream] at h ⊢
    rcases hd : drain (buf ++ c) with ⟨fs, rest, b⟩
    rw [hd] at key
    cases b with
    | true => exact key rfl
    | false => rw [hd] at h; exact ih rest h

/-- A record whose body begins with a number that is no kind of frame. -/
example : (decode [4, 0, 0, 0, 77, 0, 0, 0]).1 = .failed := by decide

example : readStream [] (([4, 0, 0, 0] ++ encTag 1 ++ [4, 0, 0, 0, 77, 0, 0, 0]) :: [[4, 0, 0, 0] ++ encTag 1]) = ([.ping], [4, 0, 0, 0, 77, 0, 0, 0], true) := by
  refine C05_bad_record_ends_stream [.ping] ?_ [4, 0, 0, 0, 77, 0, 0, 0] [] _ _ (by decide) (by decide)
  intro f hf; simp at hf; subst hf; simp [Sendable]; decide

/-- C06 (violated). The full claim "the frame decoded for one record does not depend on the bytes that follow it" is
false: the decoder reads past the declared length. The record declares 4 bytes and contains only the discriminant
of an `Exit` frame; the ids and the reason are read from whatever follows. -/
theorem C06_record_isolated_violated :
    ¬ (∀ (a b c d : UInt8) (body rest rest' : List UInt8), u32le a b c d = body.length →
        (decode ([a, b, c, d] ++ body ++ rest)).1 = (decode ([a, b, c, d] ++ body ++ rest')).1) := by
  intro h
  have := h 4 0 0 0 (encTag 9) (encU64 5 ++ (encU64 6 ++ encReason .kill)) (encU64 7 ++ (encU64 6 ++ encReason .kill))
    (by decide)
  exact absurd this (by decide)

/-- C06 (what holds). If a record decodes to a frame on its own, it decodes to the same frame whatever follows, and
exactly the record is consumed. Missing from the full claim: records whose own bytes do not contain a whole frame. -/
theorem C06_record_isolated_partial (a b c d : UInt8) (body rest : List UInt8) (f : Frame)
    (hl : u32le a b c d = body.length)
    (h : (decode ([a, b, c, d] ++ body)).1 = .frame f) :
    decode ([a, b, c, d] ++ body ++ rest) = (.frame f, rest) := by
  have hv : ∀ t : List UInt8, leVal (([a, b, c, d] ++ t).take 4) = u32le a b c d := by
    intro t; simp [leVal, u32le]; omega
  have hb : ∃ t, decFrame body = .ok (f, t) := by
    unfold decode at h
    rw [if_neg (by simp)] at h
    dsimp only at h
    rw [hv, hl, if_neg (by simp; omega)] at h
    simp only [List.cons_append, List.nil_append, List.drop_succ_cons, List.drop_zero] at h
    cases hd : decFrame body with
    | ok r =>
      obtain ⟨g, t⟩ := r
      rw [hd] at h
      simp only [Decoded.frame.injEq] at h
      exact ⟨t, by rw [h]⟩
    | error e => cases e <;> rw [hd] at h <;> simp at h
  obtain ⟨t, ht⟩ := hb
  have hbody := EX_frame _ _ _ ht
  have hlen : body.length < 2 ^ 32 := by
    rw [← hl]
    have h1 := a.toNat_lt; have h2 := b.toNat_lt; have h3 := c.toNat_lt; have h4 := d.toNat_lt
    simp only [u32le]; omega
  have hfull : decFrame (body ++ rest) = .ok (f, t ++ rest) := by
    rw [hbody, List.append_assoc]
    apply RT_frame
    have : (encFrame f).length ≤ body.length := by rw [hbody]; simp
    omega
  unfold decode
  rw [List.append_assoc, if_neg (by simp)]
  dsimp only
  rw [hv, hl, if_neg (by simp only [List.length_append, List.length_cons, List.length_nil]; omega)]
  simp only [List.cons_append, List.nil_append, List.drop_succ_cons, List.drop_zero, hfull]
  rw [show 4 + body.length = body.length + 1 + 1 + 1 + 1 by omega]
  simp only [List.drop_succ_cons, List.drop_left]

example : u32le 4 0 0 0 = (encTag 1).length ∧ (decode ([4, 0, 0, 0] ++ encTag 1)).1 = .frame .ping := by
  decide

end Verif.Codec
