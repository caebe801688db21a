import Verif.Server
/-!
# `Registry` (registry.rs)

A `Registry` is a GenServer whose state is the map `lookup` from processes to keys, and which keeps the map from keys to processes in a
table of the node (`World.tables`) that other processes read, and remove from, directly. Its callbacks are programs of its process
(`registryServer`); the table is changed by others between any two of their steps.

The value is dropped right after the process has made itself exit (gen_server.rs:407, :421, ...); here right before, in `terminate`: the
exit only marks the process, so that nobody can tell the difference.
-/
namespace Verif.World
open Verif.Mailbox
variable {B V : Type}

/-- `RegistryError`, registry.rs:79-92. -/
inductive RError
  | callError (e : CallError)
  | startError (r : ExitReason)
  | startNotSupported
  | alreadyStarted (p : Pid)
  | notFound
  deriving DecidableEq

/-- `RegistryMessage`, registry.rs:55-77. -/
inductive RMsg
  | lookup (k : RKey)
  | lookupSuccess (p : Option Pid)
  | lookupOrStart (k : RKey)
  | lookupOrStartSuccess (p : Pid)
  | lookupOrStartError (e : RError)
  | start (k : RKey)
  | startSuccess (p : Pid)
  | startError (e : RError)
  | stop (k : RKey)
  | stopSuccess
  | stopError (e : RError)
  | count
  | countSuccess (n : Nat)
  | list
  | listSuccess (l : Entries)
  | remove (k : RKey)
  | removeSuccess (p : Option Pid)
  | removeLookup (p : Pid)
  deriving DecidableEq

/-- The constant fields of `Registry`, registry.rs:98-110: its name, the start routine (any program that returns a process or a reason)
and how the processes are shut down. -/
structure RegConf (B V : Type) : Type 1 where
  name : String
  start : Option (RKey → Prog B V (Except ExitReason Pid))
  mode : ShutdownMode

/-- The field `lookup: BTreeMap<Pid, RegistryKey>`, registry.rs:109. -/
abbrev Lookup := List (Pid × RKey)

/-- `lookup_process`, registry.rs:618-622, by process `me`. -/
def lookupProg (me : Nat) (name : String) (k : RKey) : Prog B V (Option Pid) :=
  .op (.table me (.lookup name k)) fun r => .ret (match r with | .table (.found p) => p | _ => none)

/-- `remove_process` (the function), registry.rs:625-629. -/
def removeProg (me : Nat) (name : String) (k : RKey) : Prog B V (Option Pid) :=
  .op (.table me (.remove name k)) fun r => .ret (match r with | .table (.found p) => p | _ => none)

/-- `count_processes`, registry.rs:632-637. -/
def countProg (me : Nat) (name : String) : Prog B V Nat :=
  .op (.table me (.count name)) fun r => .ret (match r with | .table (.number n) => n | _ => 0)

/-- `list_processes`, registry.rs:640-650. -/
def listProg (me : Nat) (name : String) : Prog B V Entries :=
  .op (.table me (.list name)) fun r => .ret (match r with | .table (.entries e) => e.getD [] | _ => [])

/-- The loop of `Drop for Registry`, registry.rs:474-477: `unlink` and `exit(.., Kill)` for every process of `lookup`. -/
def killAll (me : Nat) {R : Type} : List Pid → Prog B V R → Prog B V R
  | [], k => k
  | p :: ps, k => .op (.unlink me p) fun _ => .op (.exit me p .kill) fun _ => killAll me ps k

/-- `Drop for Registry`, registry.rs:470-479, followed by `k`. -/
def registryDrop (c : RegConf B V) (me : Nat) (σ : Lookup) {R : Type} (k : Prog B V R) : Prog B V R :=
  .op (.table me (.take c.name)) fun _ => killAll me (σ.map Prod.fst) k

/-- A panic in a callback: unwinding drops the registry, then the panic ends the process (process.rs:486-488). Nothing runs after it; `dead`
is never reached (`panics_never`). -/
def registryPanics (c : RegConf B V) (me : Nat) (σ : Lookup) {R : Type} (dead : R) : Prog B V R :=
  registryDrop c me σ (.op (.panic me "panic") fun _ => .op (.finish me) fun _ => .ret dead)

/-- `start_by_key`, registry.rs:358-383. `self.start.as_ref().unwrap()` panics if there is no start routine. -/
def startByKey (c : RegConf B V) (me : Nat) (σ : Lookup) (key : RKey) : Prog B V (Lookup × Except RError Pid) :=
  (lookupProg me c.name key).bind fun
    | some p => .ret (σ, .error (.alreadyStarted p))
    | none =>
      match c.start with
      | none => registryPanics c me σ (σ, .error .notFound)
      | some f => (f key).bind fun
        | .ok pid => .op (.table me (.insert c.name key pid)) fun _ => .ret (aset σ pid key, .ok pid)
        | .error r => .ret (σ, .error (.startError r))

/-- `lookup_or_start_by_key`, registry.rs:349-355. -/
def lookupOrStartByKey (c : RegConf B V) (me : Nat) (σ : Lookup) (key : RKey) : Prog B V (Lookup × Except RError Pid) :=
  (lookupProg me c.name key).bind fun
    | some p => .ret (σ, .ok p)
    | none => startByKey c me σ key

/-- `stop_by_key`, registry.rs:420-433. -/
def stopByKey (c : RegConf B V) (me : Nat) (σ : Lookup) (key : RKey) : Prog B V (Lookup × Except RError Unit) :=
  (lookupProg me c.name key).bind fun
    | none => .ret (σ, .error .notFound)
    | some p => .op (.unlink me p) fun _ => .op (.exit me p (.custom "shutdown")) fun _ =>
        (removeProg me c.name key).bind fun _ => .ret (adel σ p, .ok ())

/-- `remove_by_key`, registry.rs:441-449. -/
def removeByKey (c : RegConf B V) (me : Nat) (σ : Lookup) (key : RKey) : Prog B V (Lookup × Option Pid) :=
  (removeProg me c.name key).bind fun
    | none => .ret (σ, none)
    | some p => .op (.unlink me p) fun _ => .ret (adel σ p, some p)

/-- `Registry::remove_process`, registry.rs:452-468. -/
def removePid (c : RegConf B V) (me : Nat) (σ : Lookup) (pid : Pid) : Prog B V Lookup :=
  match aget σ pid with
  | none => .ret σ
  | some key => .op (.table me (.removeIf c.name key pid)) fun _ => .ret (adel σ pid)

/-- The first loop of `terminate_children`, registry.rs:398-404: monitors and exits the processes whose key is in the table that was
taken out. -/
def exitChildren (me : Nat) (e : Entries) {R : Type} : Lookup → List (Pid × Ref) → (List (Pid × Ref) → Prog B V R) → Prog B V R
  | [], ms, k => k ms
  | (p, key) :: σ, ms, k =>
    if (aget e key).isSome then
      .op (.monitor me (.pid p)) fun res =>
        let m := match res with | .ref r => r | _ => .loc 0
        .op (.exit me p (.custom "shutdown")) fun _ => exitChildren me e σ (ms ++ [(p, m)]) k
    else exitChildren me e σ ms k

/-- `shutdown_timeout` (shutdown.rs:68-90) and `shutdown_infinity` (:93-107) with a monitor that was made before. -/
def shutdownWith (u : RecvType B V Unit) (me : Nat) (pid : Pid) (monitor : Ref) (mode : ShutdownMode) : Prog B V (Except ExitReason Unit) :=
  match mode with
  | .brutalKill => brutalKill u me pid monitor
  | .duration =>
      .op (.exit me pid (.custom "shutdown")) fun _ =>
        .wait .select ⟨Unit, u, isDown monitor, false⟩ (some (brutalKill u me pid monitor)) fun _ => unlinkFlush u me pid
  | .infinity =>
      .op (.exit me pid (.custom "shutdown")) fun _ =>
        .wait .select ⟨Unit, u, isDown monitor, false⟩ none fun _ => unlinkFlush u me pid

/-- The second loop, registry.rs:406-412. -/
def awaitChildren (u : RecvType B V Unit) (me : Nat) (mode : ShutdownMode) {R : Type} : List (Pid × Ref) → Prog B V R → Prog B V R
  | [], k => k
  | (p, m) :: ms, k => (shutdownWith u me p m mode).bind fun _ => awaitChildren u me mode ms k

/-- `terminate_children`, registry.rs:386-417. -/
def terminateChildren (c : RegConf B V) (u : RecvType B V Unit) (me : Nat) (σ : Lookup) : Prog B V Lookup :=
  match c.mode with
  | .brutalKill => .ret σ
  | mode => .op (.table me (.take c.name)) fun
    | .table (.entries (some e)) => exitChildren me e σ [] fun ms => awaitChildren u me mode ms (.ret [])
    | _ => .ret σ

/-- `handle_call`, registry.rs:508-548. The last case is `unreachable!()`. -/
def registryCall (c : RegConf B V) (me : Nat) (σ : Lookup) : RMsg → Prog B V (Lookup × Except ExitReason (Option RMsg))
  | .lookup k => (lookupProg me c.name k).bind fun p => .ret (σ, .ok (some (.lookupSuccess p)))
  | .lookupOrStart k => (lookupOrStartByKey c me σ k).bind fun q =>
      .ret (q.1, .ok (some (match q.2 with | .ok p => .lookupOrStartSuccess p | .error e => .lookupOrStartError e)))
  | .start k => (startByKey c me σ k).bind fun q =>
      .ret (q.1, .ok (some (match q.2 with | .ok p => .startSuccess p | .error e => .startError e)))
  | .stop k => (stopByKey c me σ k).bind fun q =>
      .ret (q.1, .ok (some (match q.2 with | .ok _ => .stopSuccess | .error e => .stopError e)))
  | .count => (countProg me c.name).bind fun n => .ret (σ, .ok (some (.countSuccess n)))
  | .list => (listProg me c.name).bind fun l => .ret (σ, .ok (some (.listSuccess l)))
  | .remove k => (removeByKey c me σ k).bind fun q => .ret (q.1, .ok (some (.removeSuccess q.2)))
  | _ => registryPanics c me σ (σ, .ok none)

/-- `handle_cast`, registry.rs:493-506. The last case is `unreachable!()`. -/
def registryCast (c : RegConf B V) (me : Nat) (σ : Lookup) : RMsg → Prog B V (Lookup × Except ExitReason Unit)
  | .removeLookup p => .op (.unlink me p) fun _ => .ret (adel σ p, .ok ())
  | _ => registryPanics c me σ (σ, .ok ())

/-- `handle_info`, registry.rs:550-559. -/
def registryInfo (c : RegConf B V) (me : Nat) (σ : Lookup) : Msg RMsg → Prog B V (Lookup × Except ExitReason Unit)
  | .system (.exit p _) => (removePid c me σ p).bind fun σ' => .ret (σ', .ok ())
  | _ => .ret (σ, .ok ())

/-- `impl GenServer for Registry`, registry.rs:481-561, for the process `me`. -/
def registryServer (c : RegConf B V) (u : RecvType B V Unit) (me : Nat) : Server B V RMsg Lookup where
  init σ := .op (.setTrap me true) fun _ => .ret (σ, .ok ())
  cast := registryCast c me
  call σ m _ := registryCall c me σ m
  info := registryInfo c me
  terminate σ _ := (terminateChildren c u me σ).bind fun σ' => registryDrop c me σ' (.ret [])

/-! ## The client side, registry.rs:145-315 -/

/-- The name of a local registry: the destination for which the table is read directly, registry.rs:158, :181, ... -/
def localName : Dest → Option String
  | .named n .loc => some n
  | _ => none

/-- What the caller makes of the answer to its call. An answer of the wrong kind is `unreachable!()`: the client panics. -/
def answered {R : Type} (f : RMsg → Option (Except RError R)) (me : Nat) (res : Except CallError RMsg) : Prog B V (Except RError R) :=
  match res with
  | .error e => .ret (.error (.callError e))
  | .ok m => match f m with
    | some r => .ret r
    | none => .op (.panic me "unreachable") fun _ => .op (.finish me) fun _ => .ret (.error .notFound)

/-- `Registry::lookup`, registry.rs:148-166. -/
def rLookup (τ : RecvType B V (GMsg RMsg)) (me : Nat) (registry : Dest) (k : RKey) : Prog B V (Except RError (Option Pid)) :=
  match localName registry with
  | some n => (lookupProg me n k).bind fun p => .ret (.ok p)
  | none => (callProg τ me registry (.lookup k)).bind
      (answered (fun | .lookupSuccess p => some (.ok p) | _ => none) me)

/-- `Registry::lookup_or_start`, registry.rs:171-191. -/
def rLookupOrStart (τ : RecvType B V (GMsg RMsg)) (me : Nat) (registry : Dest) (k : RKey) : Prog B V (Except RError Pid) :=
  let ask := (callProg τ me registry (.lookupOrStart k)).bind
    (answered (fun | .lookupOrStartSuccess p => some (.ok p) | .lookupOrStartError e => some (.error e) | _ => none) me)
  match localName registry with
  | some n => (lookupProg me n k).bind fun
    | some p => .ret (.ok p)
    | none => ask
  | none => ask

/-- `Registry::start_process`, registry.rs:196-216. -/
def rStart (τ : RecvType B V (GMsg RMsg)) (me : Nat) (registry : Dest) (k : RKey) : Prog B V (Except RError Pid) :=
  let ask := (callProg τ me registry (.start k)).bind
    (answered (fun | .startSuccess p => some (.ok p) | .startError e => some (.error e) | _ => none) me)
  match localName registry with
  | some n => (lookupProg me n k).bind fun
    | some p => .ret (.error (.alreadyStarted p))
    | none => ask
  | none => ask

/-- `Registry::stop_process`, registry.rs:223-243. -/
def rStop (τ : RecvType B V (GMsg RMsg)) (me : Nat) (registry : Dest) (k : RKey) : Prog B V (Except RError Unit) :=
  let ask := (callProg τ me registry (.stop k)).bind
    (answered (fun | .stopSuccess => some (.ok ()) | .stopError e => some (.error e) | _ => none) me)
  match localName registry with
  | some n => (lookupProg me n k).bind fun
    | some _ => ask
    | none => .ret (.error .notFound)
  | none => ask

/-- `Registry::count`, registry.rs:246-262. -/
def rCount (τ : RecvType B V (GMsg RMsg)) (me : Nat) (registry : Dest) : Prog B V (Except RError Nat) :=
  match localName registry with
  | some n => (countProg me n).bind fun x => .ret (.ok x)
  | none => (callProg τ me registry .count).bind (answered (fun | .countSuccess n => some (.ok n) | _ => none) me)

/-- `Registry::list`, registry.rs:267-283. -/
def rList (τ : RecvType B V (GMsg RMsg)) (me : Nat) (registry : Dest) : Prog B V (Except RError Entries) :=
  match localName registry with
  | some n => (listProg me n).bind fun x => .ret (.ok x)
  | none => (callProg τ me registry .list).bind (answered (fun | .listSuccess n => some (.ok n) | _ => none) me)

/-- `Registry::remove`, registry.rs:288-313. -/
def rRemove (τ : RecvType B V (GMsg RMsg)) (me : Nat) (registry : Dest) (k : RKey) : Prog B V (Except RError (Option Pid)) :=
  match localName registry with
  | some n => (removeProg me n k).bind fun
    | none => .ret (.ok none)
    | some p => .op (.send me (.one (.named n .loc)) (τ.box (.cast (.removeLookup p)))) fun _ => .ret (.ok (some p))
  | none => (callProg τ me registry (.remove k)).bind (answered (fun | .removeSuccess p => some (.ok p) | _ => none) me)

/-! ## The start of a registry, registry.rs:317-335, gen_server.rs:357-397 -/

/-- The first part of the process of a registry: `name` is the one it registers (`options.name`, or else the registry's own, registry.rs:319-321).
If the registration fails, the registry is dropped and the process ends (gen_server.rs:371-375). -/
def registryBoot (c : RegConf B V) (me : Nat) (name : String) : Prog B V Bool :=
  (registerProg me (some name)).bind fun
    | true => .op (.setTrap me true) fun _ => .ret true
    | false => registryDrop c me [] (.op (.finish me) fun _ => .ret false)

end Verif.World
