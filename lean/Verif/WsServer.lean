import Verif.Server
/-!
# The websocket server process (hydra-websockets/src/websocket_server.rs)

`WebsocketServer` is a `GenServer` whose `init` binds the socket and starts a linked process that accepts connections. It overrides `init` and
`terminate`; the other callbacks are the defaults of `GenServer`.
-/
namespace Verif.World
open Verif.Mailbox
variable {B V : Type}

/-- How `TcpListener::bind` failed, as far as the code looks at it (websocket_server.rs:88-93). -/
inductive BindError
  | addrInUse | addrNotAvailable | wouldBlock | other

/-- The reason `init` returns when the address cannot be bound, websocket_server.rs:87-96. -/
def BindError.reason : BindError → ExitReason
  | .addrInUse => .custom "address_in_use"
  | .addrNotAvailable => .custom "address_not_available"
  | .wouldBlock => .custom "would_block"
  | .other => .custom "unknown"

/-- `GenServer for WebsocketServer`, websocket_server.rs:75-111, with the default callbacks of gen_server.rs:301-346 (`unimplemented!()` panics). The state
is the field `server`; `bound` is the outcome of `TcpListener::bind`. The waiting inside `bind` is not modelled (others may act before any operation). -/
def wsServer (me : Nat) (bound : Except BindError Unit) : Server B V Unit (Option Pid) where
  init σ := .op (.setTrap me true) fun _ => match bound with
    | .error e => .ret (σ, .error e.reason)
    | .ok _ => .op (.spawn me true false) fun r => match r with
        | .spawned a _ => .ret (some (.loc a), .ok ())
        | _ => .ret (σ, .ok ())
  cast σ _ := .op (.panic me "not implemented") fun _ => .ret (σ, .ok ())
  call σ _ _ := .op (.panic me "not implemented") fun _ => .ret (σ, .ok none)
  info σ _ := .ret (σ, .ok ())
  terminate σ _ := match σ with
    | some p => .op (.exit me p .kill) fun _ => .ret none
    | none => .ret none

/-- The life of a started server process from `init` on, gen_server.rs:378-452 (the registration of a name is not there: `child_spec` gives none,
websocket_server.rs:61-73). Cut off after `n` messages. -/
def wsLife (me : Nat) (bound : Except BindError Unit) (τ : RecvType B V (GMsg Unit)) (parent : Pid) (n : Nat) : Prog B V (Option (Log Unit (Option Pid))) :=
  ((wsServer me bound).init none).bind fun q => match q.2 with
    | .ok _ => (serverLoop (wsServer me bound) τ me parent n q.1).bind fun l => .ret (some l)
    | .error r => (exitSelf me r).bind fun _ => .ret none

/-- What the accepting process does with the runtime, `server_process`, websocket_server.rs:215-270: it spawns a process per connection (without
link) and panics when there is no valid certificate (:226-238). -/
def AcceptOp (a : Nat) (o : Op B V) : Prop := o = .spawn a false false ∨ ∃ msg, o = .panic a msg

end Verif.World
