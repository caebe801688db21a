import Verif.Types
/-!
# The locks behind the API

Everything hydra shares between processes is kept in `DashMap`s: tables that consist of shards, each behind a read-write lock. A function takes
these locks, sometimes one while it holds another (`entry`, `alter`, a guard that lives on), and threads that run different functions at the same
time may wait for each other. This file gives, for every function that touches a shared table, the *script* of the locks it takes and releases, and
the semantics of threads that execute scripts.

What a function does depends on the contents of the tables. The scripts have parameters for all such outcomes; nothing is assumed about them, so that the
theorems hold for every content. Keys are numbers; `sh` gives the shard of a key (`DashMap::determine_map`) and `n` the number of shards.

Not here: `NODE_COOKIE` (a mutex that is held to copy or to set a string, node_registry.rs:543-550), the atomic counters, the channels (`flume`, unbounded: a
send does not wait), the `RefCell`s of a process (used by its own task only) and the locks of tokio. Aborting a task (`handle.abort()`) schedules it; its
value is dropped by the runtime, not by the caller, so that `Drop for Process` never runs inside another function.
-/
namespace Verif.Locks

/-- The shared tables. `entries r` is the inner table of registry `r`. -/
inductive Table
  | nodeMap         -- `NODE_MAP`, node_registry.rs:58
  | nodeRegs        -- `NODE_REGISTRATIONS`, node_registry.rs:55
  | names           -- `PROCESS_NAMES`, process_registry.rs:25
  | procs           -- `PROCESS_REGISTRY`, process_registry.rs:23
  | pending         -- `NODE_PENDING_MESSAGES`, node_registry.rs:68
  | nodeLinks       -- `NODE_LINKS`, node_registry.rs:65
  | nodeMons        -- `NODE_MONITORS`, node_registry.rs:61
  | links           -- `LINKS`, link.rs:25
  | monitors        -- `MONITORS`, monitor.rs:33
  | aliases         -- `ALIASES`, alias.rs:10
  | timers          -- `PROCESS_TIMERS`, process_registry.rs:27
  | registry        -- `REGISTRY`, registry.rs:34
  | entries (r : Nat)
  deriving DecidableEq

/-- The lock of one shard. -/
structure Lock where
  table : Table
  shard : Nat
  deriving DecidableEq

inductive Mode
  | read
  | write
  deriving DecidableEq

inductive LAct
  | acq (l : Lock) (m : Mode)
  | rel (l : Lock)
  deriving DecidableEq

abbrev Script := List LAct

/-! ## Threads -/

/-- A thread: the locks it holds and what it has still to do. If that begins with `acq` it may be waiting for the lock. -/
structure Thread where
  held : List (Lock × Mode)
  todo : Script

/-- Some thread holds the lock. -/
def busy (ts : List Thread) (l : Lock) : Prop := ∃ t ∈ ts, ∃ m, (l, m) ∈ t.held

/-- Some thread has the lock for writing. -/
def writing (ts : List Thread) (l : Lock) : Prop := ∃ t ∈ ts, (l, Mode.write) ∈ t.held

/-- Some thread waits for the lock to write. -/
def queued (ts : List Thread) (l : Lock) : Prop := ∃ t ∈ ts, ∃ k, t.todo = .acq l .write :: k

/-- When a lock can be taken. A reader may have to wait for a writer that waits itself, as in the locks of `dashmap` (a lock that lets readers pass would only
allow more). -/
def free (ts : List Thread) (l : Lock) : Mode → Prop
  | .write => ¬ busy ts l
  | .read => ¬ writing ts l ∧ ¬ queued ts l

/-- One step of the thread at position `i`. -/
inductive Step : List Thread → List Thread → Prop
  | acq {a b : List Thread} {t : Thread} {l : Lock} {m : Mode} {k : Script} : t.todo = .acq l m :: k → free (a ++ t :: b) l m →
      Step (a ++ t :: b) (a ++ ⟨(l, m) :: t.held, k⟩ :: b)
  | rel {a b : List Thread} {t : Thread} {l : Lock} {k : Script} : t.todo = .rel l :: k →
      Step (a ++ t :: b) (a ++ ⟨t.held.filter (fun x => x.1 ≠ l), k⟩ :: b)

inductive Steps : List Thread → List Thread → Prop
  | refl {ts} : Steps ts ts
  | tail {ts ts' ts''} : Steps ts ts' → Step ts' ts'' → Steps ts ts''

/-- Threads that begin with their scripts, without locks. -/
def begin_ (ps : List Script) : List Thread := ps.map fun p => ⟨[], p⟩

/-! ## The scripts of the functions -/

section
variable (sh : Table → Nat → Nat) (n : Nat)

/-- An access that is over when the call returns: `get(..).map(..)`, `insert`, `remove`, `contains_key`, `entry(..).or_default().insert(..)`. -/
def touch (t : Table) (m : Mode) (key : Nat) : Script := [.acq ⟨t, sh t key⟩ m, .rel ⟨t, sh t key⟩]

/-- An access during which other things are done: `alter`, a guard, an entry. -/
def hold (t : Table) (m : Mode) (key : Nat) (body : Script) : Script := .acq ⟨t, sh t key⟩ m :: body ++ [.rel ⟨t, sh t key⟩]

/-- `clear`, `len`: one shard after the other. -/
def sweep (t : Table) (m : Mode) : Script := (List.range n).flatMap fun i => [.acq ⟨t, i⟩ m, .rel ⟨t, i⟩]

/-- The steps of `iter()` after the first shard: the next shard is locked before the one before it is released. -/
def iterFrom (t : Table) : Nat → Nat → Script
  | i, 0 => [.rel ⟨t, i⟩]
  | i, k + 1 => .acq ⟨t, i + 1⟩ .read :: .rel ⟨t, i⟩ :: iterFrom t (i + 1) k

/-- `iter()`, to its end. -/
def iter (t : Table) : Script :=
  match n with
  | 0 => []
  | k + 1 => .acq ⟨t, 0⟩ .read :: iterFrom t 0 k

/-! ### process_registry.rs, alias.rs -/

/-- `process_exists_lock`, process_registry.rs:32-38: the guard is gone when the callback runs (see C43, C89). -/
def processExists (pid : Nat) (callback : Script) : Script := touch sh .procs .read pid ++ callback
/-- `process_drop`, :41-45, `process_insert`, :62-64, `process_exit`, :148-189, `process_exit_signal_linked`, :192-209, `process_set_flags`, :217-222,
`process_set_exit_reason`, :225-230. -/
def procWrite (pid : Nat) : Script := touch sh .procs .write pid
/-- `process_sender`, :48-52, `process_alive`, :72-81, `process_flags`, :212-214, `process_info`, :275-285. -/
def procRead (pid : Nat) : Script := touch sh .procs .read pid
/-- `process_name_lookup`, :55-59. -/
def nameLookup (name : Nat) : Script := touch sh .names .read name
/-- `process_register`, :84-133: the entry of the name is kept while the process is changed; `vacant`: the name is free. -/
def processRegister (name pid : Nat) (vacant : Bool) : Script := hold sh .names .write name (if vacant then procWrite sh pid else [])
/-- `process_unregister`, :136-145. -/
def processUnregister (name : Nat) (pid : Option Nat) : Script := touch sh .names .write name ++ (pid.elim [] (procWrite sh))
/-- `alias_create`, `alias_destroy`, `alias_retrieve`, alias.rs:22-59. -/
def aliasWrite (r : Nat) : Script := touch sh .aliases .write r

/-! ### node_registry.rs -/

/-- What `node_send_frame` finds: a sender, no sender but a connection under way, a node that is only known, or nothing. -/
inductive Found
  | sender (pid : Nat)
  | underWay (node : Nat)
  | known
  | missing

/-- `node_send_frame`, node_registry.rs:163-182. -/
def nodeSendFrame (id : Nat) : Found → Script
  | .sender pid => hold sh .nodeRegs .read id (procRead sh pid)
  | .underWay node => hold sh .nodeRegs .read id (touch sh .pending .write node)
  | .known | .missing => touch sh .nodeRegs .read id

/-- `node_lookup_local`, :408-412, `node_lookup_remote`, :415-419, `node_local_process`, :130-134. -/
def nodeLookup (id : Nat) : Script := touch sh .nodeRegs .read id

/-- `node_local_start`, :82-102. `sup` is the new process. -/
def nodeLocalStart (localKey sup : Nat) (vacant : Bool) : Script :=
  hold sh .nodeMap .write localKey (if vacant then procWrite sh sup ++ touch sh .nodeRegs .write 0 else [])

/-- `node_local_stop`, :105-120. -/
def nodeLocalStop (localKey : Nat) (started : Bool) (sup : Option Nat) : Script :=
  touch sh .nodeMap .write localKey ++
    if started then sweep n .nodeMap .write ++ hold sh .nodeRegs .read 0 (sup.elim [] (procWrite sh)) ++ sweep n .nodeRegs .write ++ sweep n .pending .write
    else []

/-- `node_local_panic`, :123-127. -/
def nodeLocalPanic : Script := sweep n .nodeMap .write ++ sweep n .nodeRegs .write ++ sweep n .pending .write

/-- `node_register_workers`, :137-160. `id`: the node is registered. -/
def nodeRegisterWorkers (node sender : Nat) (id : Option Nat) : Script :=
  hold sh .nodeMap .read node (id.elim [] fun id => hold sh .nodeRegs .write id (touch sh .pending .write node ++ procRead sh sender))

/-- `node_accept`, :185-230. `id`: the node is registered; `old`: the supervisor that is killed. -/
def nodeAccept (node : Nat) (id : Option Nat) (fresh : Nat) (old : Option Nat) : Script :=
  hold sh .nodeMap .write node (match id with
    | none => touch sh .nodeRegs .write fresh
    | some id => hold sh .nodeRegs .write id (old.elim [] (procWrite sh)))

/-- `node_register`, :233-279. `spawned`: the connector. -/
def nodeRegister (node : Nat) (connect : Bool) (id : Option Nat) (fresh : Nat) (spawned : Option Nat) : Script :=
  hold sh .nodeMap .write node (match id with
    | some id => if connect then hold sh .nodeRegs .write id (spawned.elim [] (procWrite sh)) else []
    | none => (spawned.elim [] (procWrite sh)) ++ touch sh .nodeRegs .write fresh)

/-- An entry of `NODE_MONITORS` in `node_remote_supervisor_down`, :312-336: it is for a process that is told, or for a cleanup; `own`: the reference is local. -/
structure LostMon where
  pid : Nat
  cleanup : Bool
  ref : Nat
  own : Bool

/-- `node_remote_supervisor_down`, :282-342. `id`: the node is registered; `mine`: its supervisor is not another one; `links`: the local ends of the links. -/
def supervisorDown (node : Nat) (id : Option Nat) (mine : Bool) (links : List Nat) (mons : List LostMon) : Script :=
  hold sh .nodeMap .read node (id.elim [] fun id => hold sh .nodeRegs .write id (if mine then
    touch sh .nodeLinks .write node ++ links.flatMap (fun p => touch sh .links .write p ++ procWrite sh p) ++
    touch sh .nodeMons .write node ++
    mons.flatMap (fun m => (if m.cleanup then touch sh .monitors .write m.pid else procRead sh m.pid) ++ if m.own then aliasWrite sh m.ref else []) ++
    touch sh .pending .write node
    else []))

/-- `node_list`, :345-356. -/
def nodeList : Script := iter n .nodeMap
/-- `node_list_filtered`, :359-370. -/
def nodeListFiltered : Script := iter n .nodeRegs

/-- `node_disconnect`, :373-388. -/
def nodeDisconnect (node : Nat) (id : Option Nat) (sup : Option Nat) : Script :=
  hold sh .nodeMap .read node (id.elim [] fun id => hold sh .nodeRegs .write id (touch sh .pending .write node ++ sup.elim [] (procWrite sh)))

/-- `node_forget`, :391-405. -/
def nodeForget (node : Nat) (id : Option Nat) (registered : Bool) (sup : Option Nat) : Script :=
  touch sh .nodeMap .write node ++ id.elim [] fun id => touch sh .nodeRegs .write id ++
    if registered then touch sh .pending .write node ++ sup.elim [] (procWrite sh) else []

/-- `node_monitor_create` and the other functions that only change `NODE_MONITORS`, :422-461, :490-495. -/
def nodeMonWrite (node : Nat) : Script := touch sh .nodeMons .write node
/-- `node_process_link_create` and the other functions that only change `NODE_LINKS`, :464-487, :498-503. -/
def nodeLinkWrite (node : Nat) : Script := touch sh .nodeLinks .write node
/-- `node_process_monitor_down`, :506-526. -/
def nodeMonitorDown (node ref : Nat) (pid : Option Nat) : Script := nodeMonWrite sh node ++ aliasWrite sh ref ++ pid.elim [] (procRead sh)
/-- `node_process_link_down`, :529-540. -/
def nodeLinkDown (node pid : Nat) (found : Bool) : Script := nodeLinkWrite sh node ++ if found then procWrite sh pid else []

/-! ### link.rs -/

/-- What is needed to know of a remote node: the outcome of `node_lookup_remote`, `node_register` and `node_send_frame`. -/
structure Remote where
  id : Nat
  node : Option Nat
  reg : Option Nat
  fresh : Nat
  spawned : Option Nat
  found : Found

/-- `link_create`, link.rs:28-42. -/
def linkCreate (process : Nat) (ignoreErrors : Bool) (ex : Bool) : Script :=
  if ignoreErrors then touch sh .links .write process else processExists sh process (if ex then touch sh .links .write process else [])

/-- `link_install`, link.rs:45-71; `remote` is `none` for a local process. -/
def linkInstall (process me : Nat) (remote : Option Remote) (ex : Bool) : Script :=
  linkCreate sh me false true ++ match remote with
    | none => linkCreate sh process false ex ++ (if ex then [] else procWrite sh me)
    | some r => nodeLookup sh r.id ++ match r.node with
      | some node => nodeLinkWrite sh node ++ nodeRegister sh node true r.reg r.fresh r.spawned ++ nodeSendFrame sh r.id r.found
      | none => procWrite sh me

/-- `link_destroy`, link.rs:74-89. -/
def linkDestroy (process : Nat) (remote : Option Remote) : Script :=
  match remote with
  | none => touch sh .links .write process
  | some r => nodeSendFrame sh r.id r.found ++ nodeLookup sh r.id ++ r.node.elim [] (nodeLinkWrite sh)

/-- `link_process_down`, link.rs:92-124. -/
def linkProcessDown (me : Nat) (locals : List Nat) (remotes : List Remote) : Script :=
  touch sh .links .write me ++ locals.flatMap (fun p => touch sh .links .write p ++ procWrite sh p) ++
    remotes.flatMap fun r => nodeLookup sh r.id ++ r.node.elim [] (nodeLinkWrite sh) ++ nodeSendFrame sh r.id r.found

/-! ### monitor.rs -/

/-- `monitor_create`, monitor.rs:37-42. -/
def monitorCreate (process : Nat) : Script := touch sh .monitors .write process

/-- `monitor_destroy`, monitor.rs:45-60. -/
def monitorDestroy (process : Nat) (remote : Option Remote) : Script :=
  match remote with
  | none => touch sh .monitors .write process
  | some r => nodeSendFrame sh r.id r.found ++ nodeLookup sh r.id ++ r.node.elim [] (nodeMonWrite sh)

/-- A monitor of a process that ends, monitor.rs:63-93. -/
inductive OwnMon
  | ofLocal (pid : Nat)
  | ofRemote (r : Remote)
  | ofNode (node : Nat)
  | unknown

/-- `monitor_destroy_all`, monitor.rs:63-93. -/
def monitorDestroyAll (ms : List (Nat × OwnMon)) : Script := ms.flatMap fun m =>
  match m.2 with
  | .ofLocal p => touch sh .monitors .write p ++ aliasWrite sh m.1
  | .ofRemote r => nodeSendFrame sh r.id r.found ++ aliasWrite sh m.1
  | .ofNode node => nodeMonWrite sh node ++ aliasWrite sh m.1
  | .unknown => []

/-- The target of `monitor_install`, monitor.rs:96-209. -/
inductive Target
  | pid (p : Nat) (ex : Bool)
  | remotePid (r : Remote)
  | name (nm : Nat) (p : Option Nat) (ex : Bool)
  | remoteName (node : Nat) (r : Remote)

/-- `monitor_install`, monitor.rs:96-209. -/
def monitorInstall (ref : Nat) : Target → Script
  | .pid p ex => processExists sh p (if ex then monitorCreate sh p else aliasWrite sh ref)
  | .remotePid r => nodeLookup sh r.id ++ match r.node with
    | some node => nodeMonWrite sh node ++ nodeRegister sh node true r.reg r.fresh r.spawned ++ nodeSendFrame sh r.id r.found
    | none => aliasWrite sh ref
  | .name nm p ex => nameLookup sh nm ++ match p with
    | none => aliasWrite sh ref
    | some p => processExists sh p (if ex then monitorCreate sh p else aliasWrite sh ref)
  | .remoteName node r => nodeMonWrite sh node ++ nodeRegister sh node true r.reg r.fresh r.spawned ++ nodeSendFrame sh r.id r.found

/-- `monitor_process_down`, monitor.rs:212-252; `own`: the reference is local. -/
def monitorProcessDown (me : Nat) (locals : List (Nat × Nat)) (remotes : List Remote) : Script :=
  touch sh .monitors .write me ++ locals.flatMap (fun x => procRead sh x.1 ++ aliasWrite sh x.2) ++
    remotes.flatMap fun r => nodeLookup sh r.id ++ r.node.elim [] (nodeMonWrite sh) ++ nodeSendFrame sh r.id r.found

/-! ### process_kernel.rs, node_kernel.rs, pid.rs, reference.rs -/

/-- The serialization of a value with the given pids and references: one lookup for each (pid.rs:76-94, reference.rs:92-110). -/
def serialize (ids : List Nat) : Script := ids.flatMap (nodeLookup sh)

/-- The deserialization of a pid or a reference, pid.rs:96-119, reference.rs:112-135: `other` is the node it belongs to if it is another one. -/
structure WireId where
  other : Option Nat
  reg : Option Nat
  fresh : Nat

/-- The deserialization of a value. -/
def deserialize (ids : List WireId) : Script := ids.flatMap fun x =>
  nodeLookup sh 0 ++ x.other.elim [] fun node => nodeRegister sh node false x.reg x.fresh none

/-- A destination of `process_send`, process_kernel.rs:23-133. -/
inductive To
  | pid (p : Nat)
  | name (nm : Nat) (p : Option Nat)
  | alias (r : Nat)
  | remotePid (r : Remote)
  | remoteName (node : Nat) (r : Remote)
  | remoteAlias (r : Remote)

/-- Delivery to one destination, process_kernel.rs:88-133, node_kernel.rs:49-84; `ids`: what is in the message. -/
def sendOne (ids : List Nat) : To → Script
  | .pid p => procRead sh p
  | .name nm p => nameLookup sh nm ++ p.elim [] (procRead sh)
  | .alias r => aliasWrite sh r
  | .remotePid r | .remoteAlias r => serialize sh ids ++ nodeSendFrame sh r.id r.found
  | .remoteName node r => serialize sh ids ++ nodeRegister sh node false r.reg r.fresh none ++ nodeSendFrame sh r.id r.found

/-- `process_send`, process_kernel.rs:23-83, to many: the loop, the local process that comes last, the frames. -/
def sendMany (ids : List Nat) (tos : List To) (last : Option To) (frames : List Remote) : Script :=
  tos.flatMap (fun t => serialize sh ids ++ match t with
    | .pid p => procRead sh p
    | .name nm p => nameLookup sh nm ++ p.elim [] (procRead sh)
    | .alias r => aliasWrite sh r
    | .remotePid _ | .remoteAlias _ => []
    | .remoteName node r => nodeRegister sh node false r.reg r.fresh none) ++
  last.elim [] (sendOne sh ids) ++ frames.flatMap fun r => nodeSendFrame sh r.id r.found

/-- `node_forward_send`, node_kernel.rs:20-46. -/
def forwardSend (tos : List To) : Script := tos.flatMap fun t => match t with
  | .pid p => procRead sh p
  | .name nm p => nameLookup sh nm ++ p.elim [] (procRead sh)
  | .alias r => aliasWrite sh r
  | _ => []

/-! ### registry.rs -/

/-- `lookup_process`, registry.rs:618-622, `count_processes` and `list_processes`, :632-650: the registry is found or not. -/
def registryLookup (r key : Nat) (found : Bool) : Script := hold sh .registry .read r (if found then touch sh (.entries r) .read key else [])
def registryCount (r : Nat) (found : Bool) : Script := hold sh .registry .read r (if found then sweep n (.entries r) .read else [])
def registryList (r : Nat) (found : Bool) : Script := hold sh .registry .read r (if found then iter n (.entries r) else [])
/-- `remove_process`, registry.rs:625-629, the `alter` of :463-466 and `register_process`, :653-658. -/
def registryChange (r key : Nat) (found : Bool) : Script := hold sh .registry .write r (if found then touch sh (.entries r) .write key else [])
/-- `REGISTRY.remove`, registry.rs:392, :472. -/
def registryTake (r : Nat) : Script := touch sh .registry .write r

/-! ### process.rs, node.rs, node_remote.rs, node_local.rs -/

/-- What a thread may call: the functions of the API, and what the runtime and the processes of the nodes do. -/
inductive Call
  | alias (r : Nat)                                   -- `Process::alias`, `unalias`, process.rs:105-127
  | whereis (nm : Nat)                                -- process.rs:135-137
  | send (ids : List Nat) (to : To)                   -- `Process::send`, process.rs:155-157
  | sendMany (ids : List Nat) (tos : List To) (last : Option To) (frames : List Remote)
  | timer (r : Nat)                                   -- `send_after`, `cancel_timer`, `read_timer`, process.rs:168-200
  | receive (ids : List WireId) (r : Nat)             -- taking a message, process_receiver.rs
  | spawn (me pid : Nat) (link mon : Bool)            -- `spawn_internal`, process.rs:446-495
  | panicked (pid : Nat)                              -- process.rs:486-488
  | alive (pid : Nat)                                 -- process.rs:256-258; also `flags`, :378-380
  | register (name pid : Nat) (vacant : Bool)         -- process.rs:276-278
  | unregister (name : Nat) (pid : Option Nat)        -- process.rs:281-283
  | registered                                        -- process.rs:287-289
  | list                                              -- process.rs:293-295
  | link (pid me : Nat) (remote : Option Remote) (ex : Bool)     -- process.rs:298-306
  | unlink (pid : Nat) (remote : Option Remote)       -- process.rs:309-317
  | monitor (ref : Nat) (alias : Bool) (t : Target)   -- `monitor`, `monitor_alias`, process.rs:320-353
  | demonitor (ref pid : Nat) (remote : Option Remote) -- process.rs:356-374
  | setFlags (pid : Nat)                              -- process.rs:383-385
  | exit (pid : Nat) (remote : Option Remote)         -- process.rs:388-396
  | info (pid : Nat) (found : Bool)                   -- process.rs:400-414
  | dropped (me : Nat) (name : Option Nat) (links : List Nat) (rlinks : List Remote) (mons : List (Nat × Nat)) (rmons : List Remote)
      (own : List (Nat × OwnMon)) (aliases : List Nat)           -- `Drop for Process`, process.rs:417-434
  | nodeMonitor (node : Nat) (r : Remote)             -- `Node::monitor`, node.rs:143-166
  | nodeDemonitor (node : Nat)                        -- `Node::demonitor`, node.rs:169-181
  | nodeStart (localKey sup : Nat) (vacant : Bool)
  | nodeStop (localKey : Nat) (started : Bool) (sup : Option Nat)
  | nodePanic
  | nodeAlive (localKey : Nat)
  | nodeList
  | nodeListFiltered
  | connect (node : Nat) (r : Remote)
  | disconnect (node : Nat) (id sup : Option Nat)
  | forget (node : Nat) (id : Option Nat) (registered : Bool) (sup : Option Nat)
  | accept (node : Nat) (id : Option Nat) (fresh : Nat) (old : Option Nat)
  | workers (node sender : Nat) (id : Option Nat)
  | supervisorDown (node : Nat) (id : Option Nat) (mine : Bool) (links : List Nat) (mons : List LostMon)
  | frameSend (tos : List To)                         -- the frames, node_remote.rs:148-276
  | framePing (sup : Nat)
  | frameMonitor (node : Nat) (r : Remote) (pid : Nat) (t : Target) (install : Bool)
  | frameMonitorDown (node : Nat) (refs : List (Nat × Option Nat))
  | frameMonitorUpdate (node : Nat) (r : Remote) (pid : Nat)
  | frameLink (node : Nat) (r : Remote) (pid : Nat) (install ex : Bool)
  | frameLinkDown (node : Nat) (r : Remote) (pids : List (Nat × Bool))
  | frameExit (node : Nat) (r : Remote) (pid : Nat)
  | regLookup (r key : Nat) (found : Bool)
  | regCount (r : Nat) (found : Bool)
  | regList (r : Nat) (found : Bool)
  | regChange (r key : Nat) (found : Bool)
  | regTake (r : Nat)

/-- `node_register(supervisor.node, false)` at the begin of a frame, node_remote.rs:156, :213, ... -/
def ownNode (node : Nat) (r : Remote) : Script := nodeRegister sh node false r.reg r.fresh none

/-- The script of a call. -/
def script : Call → Script
  | .alias r => aliasWrite sh r
  | .whereis nm => nameLookup sh nm
  | .send ids to => sendOne sh ids to
  | .sendMany ids tos last frames => sendMany sh ids tos last frames
  | .timer r => touch sh .timers .write r
  | .receive ids r => deserialize sh ids ++ aliasWrite sh r
  | .spawn me pid link mon => (if link then linkCreate sh pid true true ++ linkCreate sh me true true else []) ++
      (if mon then monitorCreate sh pid else []) ++ procWrite sh pid
  | .panicked pid => procWrite sh pid
  | .alive pid => procRead sh pid
  | .register name pid vacant => processRegister sh name pid vacant
  | .unregister name pid => processUnregister sh name pid
  | .registered => iter n .names
  | .list => iter n .procs
  | .link pid me remote ex => linkInstall sh pid me remote ex
  | .unlink pid remote => linkDestroy sh pid remote
  | .monitor ref alias t => (if alias then aliasWrite sh ref else []) ++ monitorInstall sh ref t
  | .demonitor ref pid remote => monitorDestroy sh pid remote ++ aliasWrite sh ref
  | .setFlags pid => procWrite sh pid
  | .exit pid remote => match remote with
    | none => procWrite sh pid
    | some r => nodeSendFrame sh r.id r.found
  | .info pid found => procRead sh pid ++ if found then touch sh .links .read pid ++ touch sh .monitors .read pid else []
  | .dropped me name links rlinks mons rmons own aliases =>
      procWrite sh me ++ name.elim [] (touch sh .names .write) ++ linkProcessDown sh me links rlinks ++ monitorProcessDown sh me mons rmons ++
      monitorDestroyAll sh own ++ aliases.flatMap (aliasWrite sh)
  | .nodeMonitor node r => nodeMonWrite sh node ++ nodeRegister sh node true r.reg r.fresh r.spawned
  | .nodeDemonitor node => nodeMonWrite sh node
  | .nodeStart localKey sup vacant => nodeLocalStart sh localKey sup vacant
  | .nodeStop localKey started sup => nodeLocalStop sh n localKey started sup
  | .nodePanic => nodeLocalPanic n
  | .nodeAlive localKey => touch sh .nodeMap .read localKey
  | .nodeList => nodeList n
  | .nodeListFiltered => nodeListFiltered n
  | .connect node r => nodeRegister sh node true r.reg r.fresh r.spawned
  | .disconnect node id sup => nodeDisconnect sh node id sup
  | .forget node id registered sup => nodeForget sh node id registered sup
  | .accept node id fresh old => nodeAccept sh node id fresh old
  | .workers node sender id => nodeRegisterWorkers sh node sender id
  | .supervisorDown node id mine links mons => supervisorDown sh node id mine links mons
  | .frameSend tos => forwardSend sh tos
  | .framePing sup => procRead sh sup
  | .frameMonitor node r pid t install => ownNode sh node r ++
      if install then match t with
        | .pid p ex => processExists sh p (if ex then monitorCreate sh p ++ nodeMonWrite sh node else nodeSendFrame sh r.id r.found)
        | .name nm (some p) _ => nameLookup sh nm ++ monitorCreate sh p ++ nodeSendFrame sh r.id r.found ++ nodeMonWrite sh node
        | .name nm none _ => nameLookup sh nm ++ nodeSendFrame sh r.id r.found
        | _ => []
      else monitorDestroy sh pid none ++ nodeMonWrite sh node
  | .frameMonitorDown node refs => refs.flatMap fun x => nodeMonitorDown sh node x.1 x.2
  | .frameMonitorUpdate node r pid => ownNode sh node r ++ procRead sh pid
  | .frameLink node r pid install ex => ownNode sh node r ++
      if install then linkCreate sh pid false ex ++ (if ex then nodeLinkWrite sh node else nodeSendFrame sh r.id r.found)
      else linkDestroy sh pid none ++ nodeLinkWrite sh node
  | .frameLinkDown node r pids => ownNode sh node r ++ pids.flatMap fun x => nodeLinkDown sh node x.1 x.2
  | .frameExit node r pid => ownNode sh node r ++ procWrite sh pid
  | .regLookup r key found => registryLookup sh r key found
  | .regCount r found => registryCount sh n r found
  | .regList r found => registryList sh n r found
  | .regChange r key found => registryChange sh r key found
  | .regTake r => registryTake sh r

/-- A thread that makes these calls one after the other. -/
def program (cs : List Call) : Script := cs.flatMap (script sh n)

end

end Verif.Locks
