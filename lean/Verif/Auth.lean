import Verif.Hello
/-!
# The handshake on an open network (node_remote.rs:320-439)

Any number of nodes, with any number of handshakes each, at both ends (`node_remote_accepter`, `node_remote_connector`). A network that is in the hands of an attacker:
it carries the bytes that the nodes write, and delivers to every handshake whatever bytes it likes, in whatever pieces. What it can make up is in `AuthProps`.

Simplifications: an error or a timeout of the socket is the action `broken`, which may happen at any time; the two panics after a hello that is not valid or not of the
expected node, and that after another frame, are `failed`; the local node process and the registrations are in `Handshake` and `World`.
-/
namespace Verif.Auth
open Verif.Codec Verif.Hello

/-- What a node says of itself: `supervisor.name`, `supervisor.options.broadcast_address`, node_remote.rs:332-335. -/
structure Host where
  name : String
  addr : SockAddr

/-- How far a handshake has come. -/
inductive Phase
  | fresh (buf : List UInt8)                                      -- before `writer.send(hello)`, with the bytes that have arrived
  | reading (buf : List UInt8)                                    -- in `reader.next()`, with the bytes read so far
  | up (name : String) (addr : SockAddr) (buf : List UInt8)       -- `node_remote_supervisor` runs with this hello; the bytes that its receiver will decode
  | failed
  deriving DecidableEq

/-- A handshake of node `host`; `want` is the node that a connector was started for, and `none` for an accepter. -/
structure Sess where
  host : Nat
  want : Option (String × SockAddr)
  phase : Phase
  deriving DecidableEq

/-- `cookie h` is the cookie of node `h` (`node_get_cookie`); `sent` are the hellos that were written to the network. -/
structure St where
  cookie : Nat → Option String
  sess : List Sess
  sent : List HelloMsg

inductive Act
  | setCookie (h : Nat) (c : Option String)
  | begin (h : Nat) (want : Option (String × SockAddr))
  | greet (s : Nat)
  | deliver (s : Nat) (bs : List UInt8)
  | broken (s : Nat)
  deriving DecidableEq

/-- What a handshake of a node with this cookie makes of the first frame, node_remote.rs:350-358 and :420-438: the accepter validates the hello; the connector compares the name
and the address with those of the node it was started for (node.rs:227-234), and validates. -/
def accepts (E : Env) (cookie : Option String) (want : Option (String × SockAddr)) : Frame → Option (String × SockAddr)
  | .hello n a c =>
    if (HelloMsg.validate E cookie ⟨n, a, c⟩).1 && (match want with | none => true | some (n', a') => decide (n' = n) && decide (a' = a)) then some (n, a) else none
  | _ => none

/-- `reader.next()`, when these bytes have arrived: the next frame, and the rest, which stays in the reader that is handed to `node_remote_supervisor`. -/
def readHello (E : Env) (cookie : Option String) (want : Option (String × SockAddr)) (buf : List UInt8) : Phase :=
  match decode buf with
  | (.incomplete, _) => .reading buf
  | (.failed, _) => .failed
  | (.frame f, rest) => match accepts E cookie want f with
    | some (n, a) => .up n a rest
    | none => .failed

/-- The arrival of bytes at a handshake. -/
def arrive (E : Env) (cookie : Option String) (want : Option (String × SockAddr)) : Phase → List UInt8 → Phase
  | .reading buf, bs => readHello E cookie want (buf ++ bs)
  | .up n a buf, bs => .up n a (buf ++ bs)
  | .fresh buf, bs => .fresh (buf ++ bs)
  | .failed, _ => .failed

def setPhase (st : St) (s : Nat) (p : Phase) : St := { st with sess := st.sess.modify s fun x => { x with phase := p } }

def step (E : Env) (hosts : Nat → Host) (st : St) : Act → St
  | .setCookie h c => { st with cookie := fun i => if i = h then c else st.cookie i }
  | .begin h want => { st with sess := st.sess ++ [⟨h, want, .fresh []⟩] }
  | .greet s => match st.sess[s]? with
    | some ⟨h, want, .fresh buf⟩ =>
      { setPhase st s (readHello E (st.cookie h) want buf) with sent := st.sent ++ [HelloMsg.new E (st.cookie h) (hosts h).name (hosts h).addr] }
    | _ => st
  | .deliver s bs => match st.sess[s]? with
    | some x => setPhase st s (arrive E (st.cookie x.host) x.want x.phase bs)
    | none => st
  | .broken s => setPhase st s .failed

def run (E : Env) (hosts : Nat → Host) (st : St) (as : List Act) : St := as.foldl (step E hosts) st

/-- No handshake has begun. -/
def init (cookie : Nat → Option String) : St := ⟨cookie, [], []⟩

end Verif.Auth
