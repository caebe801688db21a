/-!
# How a websocket connection is accepted (hydra-websockets/src/websocket_server.rs:114-272)

The accepting process of a `WebsocketServer` starts a process per connection, which performs the TLS handshake (if the server was built with TLS) and
the websocket handshake, both under `handshake_timeout`, and then starts the process that runs the handler. Time is counted in ticks. `H`:
handlers, `Q`: upgrade requests, `A`: addresses.
-/
namespace Verif.WsAccept

/-- What a call of the user's `WebsocketHandler::accept` does, websocket_handler.rs:38-42. -/
inductive Verdict (H : Type)
  | accept (h : H) | refuse | panic

/-- The part of `WebsocketServerConfig` that matters, websocket_server_config.rs:6-19, and whether the feature `native-tls` is on. -/
structure Config (H Q A : Type) where
  timeout : Option Nat
  tls : Bool
  accept : A → Q → Verdict H

/-- Where the process of a connection is. -/
inductive Phase (H : Type)
  /-- In `tls.accept`, websocket_server.rs:187-190: since when, until when. -/
  | tls (since : Nat) (until_ : Option Nat)
  /-- In `accept_hdr_async_with_config`, :138-147, before the request is complete. -/
  | request (until_ : Option Nat)
  /-- The callback, :121-129, has returned: the answer is being written (`ok`: that the connection is upgraded). `handler`: the variable of :119. -/
  | answer (until_ : Option Nat) (ok : Bool) (handler : Option H)
  /-- The handler was started, :173. -/
  | started (h : H)
  /-- The process returned without starting a handler, :151-166, :199-212. -/
  | over
  /-- The process panicked, in the callback or at :168-170. -/
  | panicked

structure Conn (H A : Type) where
  address : A
  phase : Phase H

/-- `now`: the clock. -/
structure St (H A : Type) where
  now : Nat
  conns : Nat → Option (Conn H A)

def start {H A : Type} : St H A := ⟨0, fun _ => none⟩

/-- `incoming`: the listener returns a connection (of a new number), websocket_server.rs:245-259; `failed`: it returns an error, :260-267. `tick`: time passes. `secured`,
`insecure`: the TLS handshake is complete, fails. `request`, `garbage`: a complete upgrade request has arrived, something that is none has (or the connection was lost). `written`, `lost`: the
answer is written, could not be. -/
inductive Act (Q A : Type)
  | incoming (c : Nat) (a : A) | failed | tick
  | secured (c : Nat) | insecure (c : Nat)
  | request (c : Nat) (q : Q) | garbage (c : Nat)
  | written (c : Nat) | lost (c : Nat)

variable {H Q A : Type}

def setPhase (s : St H A) (c : Nat) (p : Phase H) : St H A :=
  { s with conns := fun j => if j = c then (s.conns j).map ({ · with phase := p }) else s.conns j }

/-- Is the timer set for `u` up at time `now`? `Process::timeout` (process.rs:266-273) polls the future before the timer, so what completes at `u` is in time. -/
def late (u : Option Nat) (now : Nat) : Bool :=
  match u with
  | some t => t < now
  | none => false

/-- What a timer does to the process, websocket_server.rs:162-166, :208-212. -/
def expire (now : Nat) : Phase H → Phase H
  | .tls since u => if late u now then .over else .tls since u
  | .request u => if late u now then .over else .request u
  | .answer u ok h => if late u now then .over else .answer u ok h
  | p => p

/-- The entry of the process of a new connection: `server_accept_tls`, websocket_server.rs:185-190, or `server_accept`, :119-147. -/
def enter (cfg : Config H Q A) (now : Nat) : Phase H :=
  if cfg.tls then .tls now (cfg.timeout.map (now + ·)) else .request (cfg.timeout.map (now + ·))

/-- After the TLS handshake: what is left of the timeout, websocket_server.rs:192-194, is the timeout of `server_accept`, :197 with :136-145. -/
def secured (cfg : Config H Q A) (now since : Nat) : Phase H :=
  .request ((cfg.timeout.map fun t => t - min (now - since) t).map (now + ·))

/-- The callback, websocket_server.rs:121-129: it stores the handler in the variable if `accept` returns one. -/
def callback (cfg : Config H Q A) (a : A) (q : Q) (u : Option Nat) : Phase H :=
  match cfg.accept a q with
  | .accept h => .answer u true (some h)
  | .refuse => .answer u false none
  | .panic => .panicked

/-- The answer is written: the handshake returns the stream (or `Err`, after the answer to a request that was refused), websocket_server.rs:149-173. -/
def finish (ok : Bool) (h : Option H) : Phase H :=
  if ok then
    match h with
    | some h => .started h
    | none => .panicked
  else .over

/-- Simplification: the scheduler's delays are not modelled (what happens is handled in the tick in which it happens), nor the rounding of timers. That `accept_hdr_async_with_config` calls the callback exactly once, when
the request is complete, and returns `Ok` only after the answer to a request the callback accepted is written, is what tokio-tungstenite documents. -/
def step (cfg : Config H Q A) (s : St H A) : Act Q A → St H A
  | .incoming c a =>
    match s.conns c with
    | none => { s with conns := fun j => if j = c then some ⟨a, enter cfg s.now⟩ else s.conns j }
    | some _ => s
  | .failed => s
  | .tick => { now := s.now + 1, conns := fun j => (s.conns j).map fun x => { x with phase := expire (s.now + 1) x.phase } }
  | .secured c =>
    match s.conns c with
    | some ⟨_, .tls since _⟩ => setPhase s c (secured cfg s.now since)
    | _ => s
  | .insecure c =>
    match s.conns c with
    | some ⟨_, .tls _ _⟩ => setPhase s c .over
    | _ => s
  | .request c q =>
    match s.conns c with
    | some ⟨a, .request u⟩ => setPhase s c (callback cfg a q u)
    | _ => s
  | .garbage c =>
    match s.conns c with
    | some ⟨_, .request _⟩ => setPhase s c .over
    | _ => s
  | .written c =>
    match s.conns c with
    | some ⟨_, .answer _ ok h⟩ => setPhase s c (finish ok h)
    | _ => s
  | .lost c =>
    match s.conns c with
    | some ⟨_, .answer _ _ _⟩ => setPhase s c .over
    | _ => s

def run (cfg : Config H Q A) (s : St H A) (l : List (Act Q A)) : St H A := l.foldl (step cfg) s

end Verif.WsAccept
