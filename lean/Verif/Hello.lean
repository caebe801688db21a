import Verif.CodecLemmas
/-!
# Handshake authentication model (`hydra/src/frame/hello.rs`)

HMAC-SHA256 is `hmac core hash key msg = core (normKey hash key) msg`: the crate pads the key with zero bytes to
the 64-byte block, and hashes keys longer than a block first. `core` (the keyed hash proper) and `hash` are
parameters; an *ideal* MAC is one whose `core` is injective. `SocketAddr::to_string` is concrete for V4 and a
parameter (`v6`) for V6.
-/
namespace Verif.Hello
open Verif.Codec

/-- HMAC key normalisation (RFC 2104, `hmac::Hmac::new_from_slice`): never fails, any length accepted. -/
def normKey (hash : List UInt8 → List UInt8) (key : List UInt8) : List UInt8 :=
  let k := if key.length ≤ 64 then key else hash key
  k ++ List.replicate (64 - k.length) 0

/-- HMAC over the concatenation of all `update` calls. -/
def hmac (core : List UInt8 → List UInt8 → List UInt8) (hash : List UInt8 → List UInt8)
    (key msg : List UInt8) : List UInt8 := core (normKey hash key) msg

/-- Decimal digits of a number (`Display` of `u8`/`u16`). -/
def dec (n : Nat) : List UInt8 := (Nat.toDigits 10 n).map fun c => UInt8.ofNat c.toNat

/-- `SocketAddr::to_string().as_bytes()`: `a.b.c.d:port` for V4. -/
def addrText (v6 : List UInt8 → UInt16 → List UInt8) : SockAddr → List UInt8
  | .v4 o p =>
      (List.intercalate [46] (o.val.map fun b => dec b.toNat)) ++ [58] ++ dec p.toNat
  | .v6 o p => v6 o.val p

/-- The environment: crypto primitives and address formatting. -/
structure Env where
  core : List UInt8 → List UInt8 → List UInt8
  hash : List UInt8 → List UInt8
  v6 : List UInt8 → UInt16 → List UInt8

/-- The HMAC key for a configured cookie: `cookie.map(as_bytes).unwrap_or(&[0])`, hello.rs:30-34, 51-55. -/
def cookieKey : Option String → List UInt8
  | some c => strBytes c
  | none => [0]

/-- The `Hello` frame, hello.rs:19-24. -/
structure HelloMsg where
  name : String
  addr : SockAddr
  challenge : List UInt8

/-- `Hello::new`, hello.rs:28-46, on a node whose cookie is `cookie`. -/
def HelloMsg.new (E : Env) (cookie : Option String) (name : String) (addr : SockAddr) : HelloMsg :=
  { name, addr,
    challenge := hmac E.core E.hash (cookieKey cookie) (strBytes name ++ addrText E.v6 addr) }

/-- `Hello::validate`, hello.rs:49-67: result and the message afterwards (`mem::take` empties the challenge). -/
def HelloMsg.validate (E : Env) (cookie : Option String) (h : HelloMsg) : Bool × HelloMsg :=
  let wanted := hmac E.core E.hash (cookieKey cookie) (strBytes h.name ++ addrText E.v6 h.addr)
  (wanted == h.challenge, { h with challenge := [] })

end Verif.Hello
