import Verif.CallLemmas
/-!
# The server process of a GenServer (gen_server.rs:350-464)

The callbacks of a server are arbitrary programs (`Prog`) of the server's process: they may send, monitor, call other
servers, receive from the mailbox themselves and so on. `serverLoop` is the loop of gen_server.rs:399-452, cut off after a
number of rounds (every theorem is about all numbers of rounds); it records the callbacks it invokes. A callback that
panics or never returns has no complete execution and therefore ends the recorded history.
-/
namespace Verif.World
open Verif.Mailbox
variable {B V M S R R' : Type}

/-- Sequential composition of programs. -/
def Prog.bind : Prog B V R → (R → Prog B V R') → Prog B V R'
  | .ret r, k => k r
  | .op o c, k => .op o fun x => (c x).bind k
  | .wait kind o t c, k => .wait kind o (match t with | some p => some (p.bind k) | none => none) fun m => (c m).bind k

/-- The callbacks of `GenServer`, gen_server.rs:115-348. `handle_call` may return a reply. -/
structure Server (B V M S : Type) where
  init : S → Prog B V (S × Except ExitReason Unit)
  cast : S → M → Prog B V (S × Except ExitReason Unit)
  call : S → M → From → Prog B V (S × Except ExitReason (Option M))
  info : S → Msg M → Prog B V (S × Except ExitReason Unit)
  terminate : S → ExitReason → Prog B V S

/-- An invoked callback with its arguments. -/
inductive Invoke (M : Type)
  | cast (m : M)
  | call (m : M) (frm : From)
  | info (m : Msg M)
  | terminate (r : ExitReason)

/-- A record of the loop: the callback, the server state it was given and left, and what it returned (for `handle_call` with
the reply, if any). -/
structure Record (M S : Type) where
  what : Invoke M
  before : S
  after : S
  result : Except ExitReason (Option M)

/-- The result of a callback that does not reply. -/
def noReply {M : Type} : Except ExitReason Unit → Except ExitReason (Option M)
  | .ok _ => .ok none
  | .error r => .error r

/-- How a history of the loop ends: still running, or ended with a reason. -/
structure Log (M S : Type) where
  calls : List (Record M S)
  ended : Option ExitReason
  state : S

/-- `terminate(reason)` followed by `Process::exit(Process::current(), reason)` and the return of the task,
gen_server.rs:405-407, :419-421, :427-429, :433-435, :439-441, :445-447. -/
def finishServer (srv : Server B V M S) (me : Nat) (σ : S) (r : ExitReason) (done : List (Record M S)) : Prog B V (Log M S) :=
  (srv.terminate σ r).bind fun σ' =>
    .op (.exit me (.loc me) r) fun _ => .op (.finish me) fun _ =>
      .ret ⟨done ++ [⟨.terminate r, σ, σ', .ok none⟩], some r, σ'⟩

/-- What the loop does after a callback returned `res`. -/
def afterCallback (srv : Server B V M S) (me : Nat) (rec : Record M S) (k : Prog B V (Log M S)) : Prog B V (Log M S) :=
  match rec.result with
  | .ok _ => k.bind fun l => .ret { l with calls := rec :: l.calls }
  | .error r => finishServer srv me rec.after r [rec]

/-- The loop, gen_server.rs:399-452. The receive is strict (`Process::receive`). -/
def serverLoop (srv : Server B V M S) (τ : RecvType B V (GMsg M)) (me : Nat) (parent : Pid) : Nat → S → Prog B V (Log M S)
  | 0, σ => .ret ⟨[], none, σ⟩
  | n + 1, σ => .wait .select ⟨GMsg M, τ, fun _ => true, true⟩ none fun m =>
      match m with
      | .user (.cast x) => (srv.cast σ x).bind fun q =>
          afterCallback srv me ⟨.cast x, σ, q.1, noReply q.2⟩ (serverLoop srv τ me parent n q.1)
      | .user (.call frm x) => (srv.call σ x frm).bind fun q =>
          match q.2 with
          | .ok (some reply) => .op (replyOp τ me frm reply) fun _ =>
              afterCallback srv me ⟨.call x frm, σ, q.1, q.2⟩ (serverLoop srv τ me parent n q.1)
          | _ => afterCallback srv me ⟨.call x frm, σ, q.1, q.2⟩ (serverLoop srv τ me parent n q.1)
      | .user (.callReply _ x) => (srv.info σ (.user x)).bind fun q =>
          afterCallback srv me ⟨.info (.user x), σ, q.1, noReply q.2⟩ (serverLoop srv τ me parent n q.1)
      | .user (.stop r) => finishServer srv me σ r []
      | .system (.exit p r) =>
          if p = parent then finishServer srv me σ r []
          else (srv.info σ (.system (.exit p r))).bind fun q =>
            afterCallback srv me ⟨.info (.system (.exit p r)), σ, q.1, noReply q.2⟩ (serverLoop srv τ me parent n q.1)
      | .system s => (srv.info σ (.system s)).bind fun q =>
          afterCallback srv me ⟨.info (.system s), σ, q.1, noReply q.2⟩ (serverLoop srv τ me parent n q.1)

/-! ## Starting (gen_server.rs:357-397, :455-463) -/

/-- The beginning of an execution of a program that is cut off: `tokio` drops the future when the time is up
(`Process::timeout`) or the task was aborted. The cut may come anywhere; in reality it comes at an await point. -/
inductive Cut (ser : V → B) (me : Nat) : World B V → Prog B V R → List (Op B V) → Prop
  | here (w p) : Cut ser me w p []
  | env {w p o os} : Others me o → Cut ser me (step ser w o).1 p os → Cut ser me w p (o :: os)
  | op {w o k os} : running w me = true → Cut ser me (step ser w o).1 (k (step ser w o).2) os → Cut ser me w (.op o k) (o :: os)
  | got {w kind o t k os m} : running w me = true → received w me o kind = some m →
      Cut ser me (step ser w (.recv me o kind)).1 (k m) os → Cut ser me w (.wait kind o t k) (.recv me o kind :: os)
  | pending {w kind o t k os} : running w me = true → received w me o kind = none →
      Cut ser me (step ser w (.recv me o kind)).1 (.wait .resume o t k) os → Cut ser me w (.wait kind o t k) (.recv me o kind :: os)
  | elapsed {w o p k os} : Cut ser me w p os → Cut ser me w (.wait .resume o (some p) k) os

/-- Registration of the name, gen_server.rs:365-369; `false` if it failed, for whatever reason. -/
def registerProg (me : Nat) : Option String → Prog B V Bool
  | none => .ret true
  | some n => .op (.register me (.loc me) n) fun r => match r with
      | .reg (.ok _) => .ret true
      | _ => .ret false

/-- How the start of a server ends. -/
inductive BootEnd (S : Type)
  | alreadyStarted
  | started (σ : S)
  | failed (r : ExitReason)
  | timedOut
  | died

/-- What is sent through the oneshot channel, gen_server.rs:372, :385, :388, :393 (`none`: its sender was dropped). -/
def BootEnd.notify : BootEnd S → Option (Except ExitReason Unit)
  | .alreadyStarted => some (.error (.custom "already_started"))
  | .started _ => some (.ok ())
  | .failed r => some (.error r)
  | .timedOut => some (.error (.custom "timeout"))
  | .died => none

/-- What `start` returns, gen_server.rs:461-463. -/
def startResult (pid : Pid) (e : BootEnd S) : Except ExitReason Pid :=
  match e.notify with
  | none => .error (.custom "unknown")
  | some (.ok _) => .ok pid
  | some (.error r) => .error r

/-- `return Process::exit(Process::current(), reason)`, gen_server.rs:390, :395. -/
def exitSelf (me : Nat) (r : ExitReason) : Prog B V Unit := .op (.exit me (.loc me) r) fun _ => .op (.finish me) fun _ => .ret ()

/-- The first part of the server process `me`, gen_server.rs:359-397, from its first step: the history, whether `init` was
invoked, and how it ends. `limited`: a timeout was given. `died`: the process was dropped, because `init` panicked or
because somebody else made it exit. -/
inductive Boots (ser : V → B) (me : Nat) (srv : Server B V M S) (name : Option String) (limited : Bool) (σ : S) :
    World B V → List (Op B V) → Bool → BootEnd S → Prop
  | taken {w os os'} : Exec ser me w (registerProg me name) os false →
      Exec ser me (run ser w os) (.op (.finish me) fun _ => .ret ()) os' () →
      Boots ser me srv name limited σ w (os ++ os') false .alreadyStarted
  | started {w os os' σ'} : Exec ser me w (registerProg me name) os true → Exec ser me (run ser w os) (srv.init σ) os' (σ', .ok ()) →
      Boots ser me srv name limited σ w (os ++ os') true (.started σ')
  | failed {w os os' os'' σ' r} : Exec ser me w (registerProg me name) os true → Exec ser me (run ser w os) (srv.init σ) os' (σ', .error r) →
      Exec ser me (run ser w (os ++ os')) (exitSelf me r) os'' () →
      Boots ser me srv name limited σ w (os ++ os' ++ os'') true (.failed r)
  | timedOut {w os os' os''} : limited = true → Exec ser me w (registerProg me name) os true → Cut ser me (run ser w os) (srv.init σ) os' →
      Exec ser me (run ser w (os ++ os')) (exitSelf me (.custom "timeout")) os'' () →
      Boots ser me srv name limited σ w (os ++ os' ++ os'') true .timedOut
  | diedEarly {w os} : Cut ser me w (registerProg me name) os → doomed (run ser w os) me = true →
      Boots ser me srv name limited σ w (os ++ [.drop me]) false .died
  | died {w os os'} : Exec ser me w (registerProg me name) os true → Cut ser me (run ser w os) (srv.init σ) os' →
      doomed (run ser w (os ++ os')) me = true → Boots ser me srv name limited σ w (os ++ os' ++ [.drop me]) true .died

end Verif.World
