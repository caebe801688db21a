/-
# Wire codec model

Models `hydra/src/frame/*.rs` and the parts of `bincode` 2 (fixed integers, little endian) it uses.

Byte buffers (`BytesMut`) are `List UInt8`. `BytesMut::reserve` (capacity only) is not modelled, nor is
the allocation made by bincode for a vector before its elements are read (an attacker-chosen length can
make that allocation fail in the real program).
-/
namespace Verif.Codec

/-- Decoder errors. `needMore` is `DecodeError::UnexpectedEnd`, `bad` every other `DecodeError`. -/
inductive DErr
  | needMore
  | bad
  deriving DecidableEq, Repr

/-- A bincode decoder: reads a prefix of the bytes, returns the value and the remaining bytes. -/
abbrev Dec (α : Type) := List UInt8 → Except DErr (α × List UInt8)

/-- Sequencing of decoders (the `?` operator in derived `Decode` impls). -/
def Dec.bind {α β : Type} (d : Dec α) (f : α → Dec β) : Dec β := fun bs =>
  match d bs with
  | .ok (a, rest) => f a rest
  | .error e => .error e

/-- A decoder that reads nothing. -/
def Dec.pure {α : Type} (a : α) : Dec α := fun bs => .ok (a, bs)

/-- A decoder that always fails with a non-recoverable error. -/
def Dec.fail {α : Type} : Dec α := fun _ => .error .bad

/-! ## Primitive values (bincode 2, `config::standard().with_fixed_int_encoding().with_little_endian()`,
frame/mod.rs:42-45) -/

/-- `k` little-endian bytes of `n` (`to_le_bytes`). -/
def leBytes : Nat → Nat → List UInt8
  | 0, _ => []
  | k + 1, n => UInt8.ofNat (n % 256) :: leBytes k (n / 256)

/-- Value of little-endian bytes (`from_le_bytes`). -/
def leVal : List UInt8 → Nat
  | [] => 0
  | b :: bs => b.toNat + 256 * leVal bs

/-- Reading exactly `k` raw bytes; `UnexpectedEnd` when fewer are present. -/
def take (k : Nat) : Dec (List UInt8) := fun bs =>
  if k ≤ bs.length then .ok (bs.take k, bs.drop k) else .error .needMore

/-- Fixed-width unsigned integer of `k` bytes. -/
def decUInt (k : Nat) : Dec Nat := (take k).bind fun b => .pure (leVal b)

def encU8 (n : UInt8) : List UInt8 := [n]
def decU8 : Dec UInt8 := (take 1).bind fun b => .pure (b.headD 0)

def encU16 (n : UInt16) : List UInt8 := leBytes 2 n.toNat
def decU16 : Dec UInt16 := (decUInt 2).bind fun n => .pure (UInt16.ofNat n)

def encU64 (n : UInt64) : List UInt8 := leBytes 8 n.toNat
def decU64 : Dec UInt64 := (decUInt 8).bind fun n => .pure (UInt64.ofNat n)

/-- Discriminant of a derived enum: a `u32`. -/
def encTag (n : Nat) : List UInt8 := leBytes 4 n
def decTag : Dec Nat := decUInt 4

/-- `bool`: one byte, anything but 0/1 is `InvalidBooleanValue`. -/
def encBool (b : Bool) : List UInt8 := [if b then 1 else 0]
def decBool : Dec Bool := decU8.bind fun b =>
  if b = 0 then .pure false else if b = 1 then .pure true else .fail

/-- `Option<T>`: one tag byte 0/1. -/
def encOpt {α : Type} (e : α → List UInt8) : Option α → List UInt8
  | none => [0]
  | some a => 1 :: e a
def decOpt {α : Type} (d : Dec α) : Dec (Option α) := decU8.bind fun b =>
  if b = 0 then .pure none
  else if b = 1 then d.bind fun a => .pure (some a)
  else .fail

/-- Collection length: a `u64`. -/
def encLen (n : Nat) : List UInt8 := leBytes 8 n
def decLen : Dec Nat := decUInt 8

/-- `n` consecutive elements. -/
def decMany {α : Type} (d : Dec α) : Nat → Dec (List α)
  | 0 => .pure []
  | n + 1 => d.bind fun a => (decMany d n).bind fun as => .pure (a :: as)

/-- `Vec<T>`: length then elements. -/
def encVec {α : Type} (e : α → List UInt8) (l : List α) : List UInt8 :=
  encLen l.length ++ (l.map e).flatten
def decVec {α : Type} (d : Dec α) : Dec (List α) := decLen.bind fun n => decMany d n

/-- `Vec<u8>`: length then raw bytes (bincode's specialised path). -/
def encBytes (l : List UInt8) : List UInt8 := encLen l.length ++ l
def decBytes : Dec (List UInt8) := decLen.bind fun n => take n

/-- The UTF-8 bytes of a string. -/
def strBytes (s : String) : List UInt8 := s.toByteArray.data.toList

/-- `String::from_utf8`. -/
def strOfBytes (l : List UInt8) : Option String :=
  if h : (ByteArray.mk l.toArray).validateUTF8 = true then
    some (String.ofByteArray (ByteArray.mk l.toArray) (ByteArray.validateUTF8_eq_true_iff.mp h))
  else none

/-- `String`: as `Vec<u8>`, invalid UTF-8 is `DecodeError::Utf8`. -/
def encStr (s : String) : List UInt8 := encBytes (strBytes s)
def decStr : Dec String := decBytes.bind fun b =>
  match strOfBytes b with
  | some s => .pure s
  | none => .fail

/-- `NonZeroU64`: as `u64`, zero is `NonZeroTypeIsZero`. -/
abbrev NZ := { n : UInt64 // n ≠ 0 }
def encNZ (n : NZ) : List UInt8 := encU64 n.val
def decNZ : Dec NZ := decU64.bind fun n => if h : n ≠ 0 then .pure ⟨n, h⟩ else .fail

/-! ## Frame payload types -/

/-- `ExitReason`, exit_reason.rs:9-19. -/
inductive ExitReason
  | normal
  | kill
  | ignore
  | custom (s : String)
  deriving DecidableEq, Repr

def encReason : ExitReason → List UInt8
  | .normal => encTag 0
  | .kill => encTag 1
  | .ignore => encTag 2
  | .custom s => encTag 3 ++ encStr s
def decReason : Dec ExitReason := decTag.bind fun t =>
  if t = 0 then .pure .normal
  else if t = 1 then .pure .kill
  else if t = 2 then .pure .ignore
  else if t = 3 then decStr.bind fun s => .pure (.custom s)
  else .fail

/-- `std::net::SocketAddr` as bincode sees it: octets and port (the flow info and scope id of a V6
address are not encoded by bincode and are not modelled). -/
inductive SockAddr
  | v4 (octets : { l : List UInt8 // l.length = 4 }) (port : UInt16)
  | v6 (octets : { l : List UInt8 // l.length = 16 }) (port : UInt16)
  deriving DecidableEq

def encAddr : SockAddr → List UInt8
  | .v4 o p => encTag 0 ++ (o.val ++ encU16 p)
  | .v6 o p => encTag 1 ++ (o.val ++ encU16 p)

/-- A fixed size array `[u8; k]`: no length prefix. -/
def decArr (k : Nat) : Dec { l : List UInt8 // l.length = k } := (take k).bind fun b =>
  if h : b.length = k then .pure ⟨b, h⟩ else .fail

def decAddr : Dec SockAddr := decTag.bind fun t =>
  if t = 0 then (decArr 4).bind fun o => decU16.bind fun p => .pure (.v4 o p)
  else if t = 1 then (decArr 16).bind fun o => decU16.bind fun p => .pure (.v6 o p)
  else .fail

/-- `SendTarget`, frame/send.rs:11-16. -/
inductive SendTarget
  | pid (id : NZ)
  | named (name : String)
  | alias (id : NZ)
  deriving DecidableEq

def encTarget : SendTarget → List UInt8
  | .pid i => encTag 0 ++ encNZ i
  | .named s => encTag 1 ++ encStr s
  | .alias i => encTag 2 ++ encNZ i
def decTarget : Dec SendTarget := decTag.bind fun t =>
  if t = 0 then decNZ.bind fun i => .pure (.pid i)
  else if t = 1 then decStr.bind fun s => .pure (.named s)
  else if t = 2 then decNZ.bind fun i => .pure (.alias i)
  else .fail

/-- `Frame`, frame/mod.rs:50-63 with the payload structs of frame/{hello,send,monitor,monitor_down,
monitor_update,link,link_down,exit}.rs inlined (field order as declared). -/
inductive Frame
  | hello (name : String) (addr : SockAddr) (challenge : List UInt8)
  | ping
  | pong
  | send (targets : List SendTarget) (message : List UInt8)
  | monitor (install : Bool) (processId : Option UInt64) (processName : Option String)
      (fromId : Option UInt64) (referenceId : UInt64)
  | monitorDown (monitors : List UInt64) (reason : ExitReason)
  | monitorUpdate (processId fromId referenceId : UInt64)
  | link (install : Bool) (processId fromId : UInt64)
  | linkDown (links : List UInt64) (fromId : UInt64) (reason : ExitReason)
  | exit (processId fromId : UInt64) (reason : ExitReason)
  deriving DecidableEq

/-- The derived `Encode` of `Frame` and of the payload structs. -/
def encFrame : Frame → List UInt8
  | .hello n a c => encTag 0 ++ (encStr n ++ (encAddr a ++ encBytes c))
  | .ping => encTag 1
  | .pong => encTag 2
  | .send ts m => encTag 3 ++ (encVec encTarget ts ++ encBytes m)
  | .monitor i p n f r =>
      encTag 4 ++ (encBool i ++ (encOpt encU64 p ++ (encOpt encStr n ++ (encOpt encU64 f ++ encU64 r))))
  | .monitorDown ms r => encTag 5 ++ (encVec encU64 ms ++ encReason r)
  | .monitorUpdate p f r => encTag 6 ++ (encU64 p ++ (encU64 f ++ encU64 r))
  | .link i p f => encTag 7 ++ (encBool i ++ (encU64 p ++ encU64 f))
  | .linkDown ls f r => encTag 8 ++ (encVec encU64 ls ++ (encU64 f ++ encReason r))
  | .exit p f r => encTag 9 ++ (encU64 p ++ (encU64 f ++ encReason r))

def decHello : Dec Frame :=
  decStr.bind fun n => decAddr.bind fun a => decBytes.bind fun c => .pure (.hello n a c)
def decSend : Dec Frame :=
  (decVec decTarget).bind fun ts => decBytes.bind fun m => .pure (.send ts m)
def decMonitor : Dec Frame :=
  decBool.bind fun i => (decOpt decU64).bind fun p => (decOpt decStr).bind fun n =>
    (decOpt decU64).bind fun f => decU64.bind fun r => .pure (.monitor i p n f r)
def decMonitorDown : Dec Frame :=
  (decVec decU64).bind fun ms => decReason.bind fun r => .pure (.monitorDown ms r)
def decMonitorUpdate : Dec Frame :=
  decU64.bind fun p => decU64.bind fun f => decU64.bind fun r => .pure (.monitorUpdate p f r)
def decLink : Dec Frame :=
  decBool.bind fun i => decU64.bind fun p => decU64.bind fun f => .pure (.link i p f)
def decLinkDown : Dec Frame :=
  (decVec decU64).bind fun ls => decU64.bind fun f => decReason.bind fun r => .pure (.linkDown ls f r)
def decExit : Dec Frame :=
  decU64.bind fun p => decU64.bind fun f => decReason.bind fun r => .pure (.exit p f r)

/-- The derived `Decode` of `Frame`; an unknown discriminant is `UnexpectedVariant`. -/
def decFrame : Dec Frame := decTag.bind fun t =>
  if t = 0 then decHello
  else if t = 1 then .pure .ping
  else if t = 2 then .pure .pong
  else if t = 3 then decSend
  else if t = 4 then decMonitor
  else if t = 5 then decMonitorDown
  else if t = 6 then decMonitorUpdate
  else if t = 7 then decLink
  else if t = 8 then decLinkDown
  else if t = 9 then decExit
  else .fail

/-! ## The framing codec -/

/-- `Codec::encode`, frame/mod.rs:139-150: remember the end of the buffer, write a zero length, write the
body, patch the length (`size as u32` wraps modulo 2^32). -/
def encode (f : Frame) (dst : List UInt8) : List UInt8 :=
  let marker := dst.length
  let dst1 := dst ++ leBytes 4 0
  let body := encFrame f
  let dst2 := dst1 ++ body
  dst2.take marker ++ leBytes 4 (body.length % 2 ^ 32) ++ dst2.drop (marker + 4)

/-- Outcome of `Codec::decode`: `Ok(Some(frame))`, `Ok(None)` or `Err`. -/
inductive Decoded
  | frame (f : Frame)
  | incomplete
  | failed
  deriving DecidableEq

/-- `Codec::decode`, frame/mod.rs:157-186: outcome and the buffer afterwards. The body is decoded from
*everything* after the marker (`&src[4..]`), and `4 + length` bytes are consumed on success. -/
def decode (src : List UInt8) : Decoded × List UInt8 :=
  if src.length < 4 then (.incomplete, src)
  else
    let length := leVal (src.take 4)
    if src.length < 4 + length then (.incomplete, src)
    else
      match decFrame (src.drop 4) with
      | .ok (f, _) => (.frame f, src.drop (4 + length))
      | .error .needMore => (.incomplete, src)
      | .error .bad => (.failed, src)

/-- `decode` consumes at least the marker when it yields a frame (needed for `drain` to terminate). -/
theorem decode_frame_length {src rest : List UInt8} {f : Frame}
    (h : decode src = (.frame f, rest)) : rest.length + 4 ≤ src.length := by
  unfold decode at h
  split at h
  · simp at h
  · dsimp only at h
    split at h
    · simp at h
    · split at h
      · simp only [Prod.mk.injEq] at h
        obtain ⟨_, rfl⟩ := h
        simp; omega
      · simp at h
      · simp at h

/-- `tokio_util::codec::FramedRead` over one filled buffer: decode frames until the decoder asks for more
data or fails. Result: frames, remaining buffer, and whether the decoder failed. -/
def drain (buf : List UInt8) : List Frame × List UInt8 × Bool :=
  match h : decode buf with
  | (.frame f, rest) =>
      let r := drain rest
      (f :: r.1, r.2.1, r.2.2)
  | (.incomplete, rest) => ([], rest, false)
  | (.failed, rest) => ([], rest, true)
termination_by buf.length
decreasing_by have := decode_frame_length h; omega

/-- A whole connection: chunks are appended to the buffer as they are read from the socket, and after each
read all complete frames are taken; a decoding error ends the stream. -/
def readStream : List UInt8 → List (List UInt8) → List Frame × List UInt8 × Bool
  | buf, [] => ([], buf, false)
  | buf, c :: cs =>
      match drain (buf ++ c) with
      | (fs, rest, true) => (fs, rest, true)
      | (fs, rest, false) =>
          let r := readStream rest cs
          (fs ++ r.1, r.2.1, r.2.2)

end Verif.Codec
