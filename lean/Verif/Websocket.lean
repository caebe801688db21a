import Verif.Types
/-!
# The websocket handler process

hydra-websockets/src/websocket_handler.rs:87-234, as a machine that takes one input for every `await`: what the awaited future yields, or that the task is dropped there.
`Process::exit(Process::current(), _)` does not return control to the runtime: it marks the task as aborted, and the task goes on until an `await` is not ready at once
(`World.exit` and `World.drop` have the effect on the tables). So the input after it may be `drop`, or, if the future is ready, its result.
-/
namespace Verif.Websocket

/-- What a websocket message is, as far as the handler looks at it; `other` stands for text, binary, pong and raw frames. -/
inductive WsMsg
  | ping (data : List UInt8)
  | pong (data : List UInt8)
  | close
  | other (data : List UInt8)
  deriving DecidableEq

/-- `WebsocketCommand`, websocket_command.rs:7-10. -/
inductive Cmd
  | send (m : WsMsg)
  | close (code : Nat) (reason : String)
  deriving DecidableEq

/-- The result of a callback: `Ok(commands)`, `Err(reason)`, or a panic. -/
inductive Res
  | ok (cs : Option (List Cmd))
  | err (r : ExitReason)
  | panic
  deriving DecidableEq

/-- `WebsocketHandler`, websocket_handler.rs:27-83, with state `S` and messages `M`. What a callback does besides changing its state is not modelled; `terminate` is taken
to return. -/
structure Handler (S M : Type) where
  init : S → S × Res
  handle : S → WsMsg → S × Res
  info : S → M → S × Res
  terminate : S → ExitReason → S

/-- An error of the websocket, as far as `error_to_reason` looks at it. -/
inductive WsError
  | closed | io | tls | utf8 | attack | other
  deriving DecidableEq

/-- `error_to_reason`, websocket_handler.rs:225-234. -/
def reason : WsError → ExitReason
  | .closed => .custom "connection_closed"
  | .io => .custom "io_error"
  | .tls => .custom "tls_error"
  | .utf8 => .custom "utf8_error"
  | .attack => .custom "attack_attempt"
  | .other => .custom "unknown"

/-- What happens, in order. -/
inductive Ev (M : Type)
  | init
  | info (m : M)
  | handle (m : WsMsg)
  | terminate (r : ExitReason)
  | wrote (m : WsMsg)            -- handed to the socket for a `Send` command
  | closed (code : Nat) (reason : String)   -- the close frame of a `Close` command
  | ponged (data : List UInt8)
  | failed (e : WsError)         -- a write failed
  | exit (r : ExitReason)        -- `Process::exit(Process::current(), r)`
  deriving DecidableEq

/-- What comes after the commands of a callback. -/
inductive After
  | loop       -- the next round
  | stop       -- the peer's close frame was handled: websocket_handler.rs:207-211
  deriving DecidableEq

/-- What comes after `terminate(r)` and `Process::exit(current, r)`. -/
inductive Then
  | leave                                            -- `return`
  | close (c : Option (Nat × String)) (a : After)   -- websocket_handler.rs:114 falls through to :118
  | after (a : After)                                -- websocket_handler.rs:127 falls through to the end of the function
  deriving DecidableEq

/-- The `await` the process is at, or how it ended. -/
inductive PC (M : Type)
  | init
  | send (cs : List Cmd) (a : After)
  | close (c : Nat × String) (a : After)
  | terminate (r : ExitReason) (t : Then)
  | select
  | pong (data : List UInt8)
  | handle (m : WsMsg)
  | info (m : M)
  | returned
  | panicked
  | dropped
  deriving DecidableEq

/-- The result of the future that is awaited. -/
inductive In (M : Type)
  | drop (n : Nat)                -- the task is dropped; a `send_all` has sent `n` messages
  | go                            -- the callback, or the write, is complete
  | fail (n : Nat) (e : WsError)  -- the write failed, after `n` messages of a `send_all`
  | msg (m : M)                   -- a message of the mailbox
  | frame (m : WsMsg)             -- a message of the websocket
  | broken (e : WsError)          -- the websocket yields an error
  | eof                           -- the websocket yields `None`

structure St (S M : Type) where
  pc : PC M
  σ : S
  /-- The close frame has been sent: tungstenite then refuses further messages. -/
  shut : Bool
  log : List (Ev M)
  /-- The command lists that the callbacks have returned so far (history). -/
  given : List (List Cmd)

variable {S M : Type}

/-- The messages before the first `Close`: the `filter_map` of websocket_handler.rs:98-110. -/
def sends : List Cmd → List WsMsg
  | [] => []
  | .send m :: cs => m :: sends cs
  | .close _ _ :: _ => []

/-- `close_command` after the iteration. -/
def closing : List Cmd → Option (Nat × String)
  | [] => none
  | .send _ :: cs => closing cs
  | .close c r :: _ => some (c, r)

def emit (s : St S M) (es : List (Ev M)) : St S M := { s with log := s.log ++ es }
def goto (s : St S M) (pc : PC M) : St S M := { s with pc := pc }

/-- The end of `websocket_process_commands`, and what follows it. -/
def finish (s : St S M) : After → St S M
  | .loop => goto s .select
  | .stop => goto s (.terminate (.custom "connection_closed") .leave)

/-- websocket_handler.rs:118 on. -/
def closeStep (s : St S M) (c : Option (Nat × String)) (a : After) : St S M := match c with
  | some c => goto s (.close c a)
  | none => finish s a

/-- What is done with the result of `websocket_info` and `websocket_handle`: websocket_handler.rs:156-167, :194-205. -/
def result (s : St S M) (σ : S) (r : Res) (a : After) : St S M :=
  match r with
  | .panic => { s with σ := σ, pc := .panicked }
  | .err r => { s with σ := σ, pc := .terminate r .leave }
  | .ok none => finish { s with σ := σ } a
  | .ok (some cs) => { s with σ := σ, pc := .send cs a, given := s.given ++ [cs] }

def afterOf (m : WsMsg) : After := if m = .close then .stop else .loop

/-- One `await`. An input that does not fit leaves the machine as it is. -/
def step (h : Handler S M) (s : St S M) (i : In M) : St S M :=
  match s.pc, i with
  | .returned, _ | .panicked, _ | .dropped, _ => s
  | .send cs _, .drop n => goto (emit s (((sends cs).take (if s.shut then 0 else n)).map .wrote)) .dropped
  | _, .drop _ => goto s .dropped
  -- websocket_handler.rs:142-151
  | .init, .go =>
    match h.init s.σ with
    | (σ, .err r) => { emit s [.init, .exit r] with σ := σ, pc := .returned }
    | (σ, r) => result (emit s [.init]) σ r .loop
  -- websocket_handler.rs:113-117
  | .send cs a, .go =>
    if s.shut ∧ sends cs ≠ [] then s else closeStep (emit s ((sends cs).map .wrote)) (closing cs) a
  | .send cs a, .fail n e =>
    if n ≤ (sends cs).length ∧ (s.shut → n = 0) then
      -- `close_command` is set only if the iteration came to the `Close`: the flush at the end failed
      goto (emit s (((sends cs).take n).map .wrote ++ [.failed e])) (.terminate (reason e) (.close (if n = (sends cs).length then closing cs else none) a))
    else s
  -- websocket_handler.rs:119-133
  | .close (c, r) a, .go => if s.shut then s else finish { emit s [.closed c r, .exit .normal] with shut := true } a
  | .close _ a, .fail _ e => goto (emit s [.failed e]) (.terminate (reason e) (.after a))
  | .terminate r t, .go =>
    let s := { emit s [.terminate r, .exit r] with σ := h.terminate s.σ r }
    match t with
    | .leave => goto s .returned
    | .close c a => closeStep s c a
    | .after a => finish s a
  -- websocket_handler.rs:154-155, :170-192, :213-217
  | .select, .msg m => goto s (.info m)
  | .select, .frame (.ping d) => goto s (.pong d)
  | .select, .frame m => goto s (.handle m)
  | .select, .broken e => goto s (.terminate (reason e) .leave)
  | .select, .eof => goto s .panicked
  | .pong d, .go => if s.shut then s else goto (emit s [.ponged d]) (.handle (.ping d))
  | .pong _, .fail _ e => goto (emit s [.failed e]) (.terminate (reason e) .leave)
  | .handle m, .go =>
    let (σ, r) := h.handle s.σ m
    result (emit s [.handle m]) σ r (afterOf m)
  | .info m, .go =>
    let (σ, r) := h.info s.σ m
    result (emit s [.info m]) σ r .loop
  | _, _ => s

/-- `start_websocket_handler`. -/
def start (σ : S) : St S M := ⟨.init, σ, false, [], []⟩

def run (h : Handler S M) (s : St S M) (l : List (In M)) : St S M := l.foldl (step h) s

end Verif.Websocket
