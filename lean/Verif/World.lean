import Verif.Mailbox
import Verif.Tables
/-!
# The runtime of one node: processes, names, links, monitors, aliases, exit signals, sends, node tables

Every static table of the code is a field of `World`; every API function is one atomic step (the races between the
table accesses inside one function are modelled separately in `Race.lean`). `DashMap`s are functions `K → Option V`
(or to lists, where an absent entry and an empty collection behave alike), `BTreeMap`/`BTreeSet` are lists without
duplicate keys (iteration is in insertion order instead of key order; no theorem depends on the order).
The fields `sent`, `asked` and `out` are history variables: everything that was put in a mailbox, everything that was
passed to `node_send_frame`, and everything that was handed to the sender process of a connection.
-/
namespace Verif.World
open Verif.Mailbox

/-- Frames between nodes, frame/*.rs, with unbounded ids (`Codec.Frame` has the wire format). -/
inductive Target
  | pid (id : Nat)
  | named (n : String)
  | alias (id : Nat)
  deriving DecidableEq

inductive NFrame (B : Type)
  | ping
  | pong
  | send (targets : List Target) (msg : B)
  | monitor (install : Bool) (process : Option Nat) (name : Option String) (frm : Option Nat) (ref : Nat)
  | monitorDown (refs : List Nat) (reason : ExitReason)
  | monitorUpdate (process frm ref : Nat)
  | link (install : Bool) (process frm : Nat)
  | linkDown (links : List Nat) (frm : Nat) (reason : ExitReason)
  | exit (process frm : Nat) (reason : ExitReason)

/-- `NodeState`, node_state.rs:6-15. -/
inductive NState
  | current | known | connected | pending
  deriving DecidableEq

/-- `NodeRegistration`, node_registration.rs:7-20 (process ids are local). -/
structure NReg where
  sup : Option Nat
  sender : Option Nat
  recv : Option Nat
  state : NState
  name : String
  addr : Codec.SockAddr

/-- `NodeMonitor`, node_registry.rs:43-50. -/
inductive NMon
  | node (id : Nat)
  | process (id : Nat) (dest : Dest)
  | cleanup (id : Nat)

/-- `ProcessRegistration` (process_registration.rs:8-20) together with the task-local `Process` (process.rs:68-82).
`aborted`: `handle.abort()` was called; `ended`: the task function returned or panicked. -/
structure Proc (B V : Type) where
  name : Option String
  trap : Bool
  reason : Option ExitReason
  aborted : Bool
  ended : Bool
  box : Box B V

structure World (B V : Type) where
  /-- `ID`, process.rs:443 -/
  nextPid : Nat
  /-- `REF`, reference.rs:35 -/
  nextRef : Nat
  /-- `NODE_ID`, node_registry.rs:74 -/
  nextNode : Nat
  /-- `PROCESS_REGISTRY` and the live `Process` objects -/
  procs : Nat → Option (Proc B V)
  /-- `PROCESS_NAMES` -/
  names : String → Option Nat
  /-- `LINKS` -/
  links : Nat → List Pid
  /-- `MONITORS` -/
  mons : Nat → List (Ref × Pid × Option Dest)
  /-- `ALIASES`: owner and `reply` -/
  aliases : Nat → Option (Nat × Bool)
  /-- `NODE_REGISTRATIONS` -/
  nodeRegs : Nat → Option NReg
  /-- `NODE_MAP` -/
  nodeMap : Node → Option Nat
  /-- `NODE_MONITORS` -/
  nodeMons : Node → List (Ref × NMon)
  /-- `NODE_LINKS` -/
  nodeLinks : Node → List (Pid × Nat)
  /-- `NODE_PENDING_MESSAGES` -/
  pending : Node → List (NFrame B)
  /-- `REGISTRY`, registry.rs:34 -/
  tables : Tables
  /-- history: every item put in a mailbox, with the receiver -/
  sent : List (Nat × Item B V)
  /-- history: every frame passed to `node_send_frame`, with the node id -/
  asked : List (Nat × NFrame B)
  /-- history: every frame handed to a connection's sender process (`SendFrame`/`SendFrames`), with that process -/
  out : List (Nat × NFrame B)

variable {B V : Type}

def upd {K A : Type} [DecidableEq K] (f : K → A) (k : K) (v : A) : K → A := fun j => if j = k then v else f j

/-- A fresh runtime. Process, reference and node ids start at 1 (process.rs:443, reference.rs:35, node_registry.rs:74). -/
def init : World B V :=
  { nextPid := 1, nextRef := 1, nextNode := 1, procs := fun _ => none, names := fun _ => none, links := fun _ => [],
    mons := fun _ => [], aliases := fun _ => none, nodeRegs := fun _ => none, nodeMap := fun _ => none,
    nodeMons := fun _ => [], nodeLinks := fun _ => [], pending := fun _ => [], tables := fun _ => none, sent := [], asked := [], out := [] }

/-! ## Processes (process_registry.rs) -/

/-- A process exists in the registry, `process_exists_lock`, process_registry.rs:32-38. -/
def exists? (w : World B V) (i : Nat) : Bool := (w.procs i).isSome

/-- Changes a process in place (`PROCESS_REGISTRY.alter`, or a `PROCESS.with` on the task-local part). -/
def modProc (w : World B V) (i : Nat) (f : Proc B V → Proc B V) : World B V :=
  { w with procs := upd w.procs i ((w.procs i).map f) }

/-- `process_sender(pid).map(|s| s.send(item))`, process_registry.rs:48-52: nothing happens if there is no process. -/
def put (w : World B V) (i : Nat) (it : Item B V) : World B V :=
  match w.procs i with
  | none => w
  | some p => { w with procs := upd w.procs i (some { p with box := deliver p.box it }), sent := w.sent ++ [(i, it)] }

/-- `process.exit_reason = Some(..); process.handle.abort()`. -/
def terminate (w : World B V) (i : Nat) (r : ExitReason) : World B V :=
  modProc w i fun p => { p with reason := some r, aborted := true }

/-- `process_exit`, process_registry.rs:148-189. -/
def processExit (w : World B V) (i : Nat) (frm : Pid) (r : ExitReason) : World B V :=
  match w.procs i with
  | none => w
  | some p =>
    match r with
    | .normal | .ignore =>
        if Pid.loc i = frm then terminate w i r
        else if p.trap then put w i (.system (.exit frm r))
        else w
    | .kill => terminate w i r
    | .custom _ =>
        if Pid.loc i = frm ∨ p.trap = false then terminate w i r
        else put w i (.system (.exit frm r))

/-- `process_exit_signal_linked`, process_registry.rs:192-209. -/
def exitLinked (w : World B V) (i : Nat) (frm : Pid) (r : ExitReason) : World B V :=
  match w.procs i with
  | none => w
  | some p =>
      if p.trap then put w i (.system (.exit frm r))
      else if isNormal r then w
      else terminate w i r

/-- `process_alive`, process_registry.rs:72-81 (for a local pid). -/
def alive (w : World B V) (i : Nat) : Bool :=
  match w.procs i with
  | none => false
  | some p => p.reason.isNone

/-- Why `register` fails. -/
inductive RegErr
  | remotePid | nameTaken | noProcess | alreadyNamed
  deriving DecidableEq

/-- `process_register`, process_registry.rs:84-133. -/
def register (w : World B V) (pid : Pid) (name : String) : World B V × Except RegErr Unit :=
  match pid with
  | .rem _ _ => (w, .error .remotePid)
  | .loc i =>
    match w.names name with
    | some j => if j = i then (w, .ok ()) else (w, .error .nameTaken)
    | none =>
      match w.procs i with
      | none => (w, .error .noProcess)
      | some p =>
        match p.name with
        | some _ => (w, .error .alreadyNamed)
        | none =>
          ({ modProc w i (fun p => { p with name := some name }) with names := upd w.names name (some i) }, .ok ())

/-- A panic in process `me`: the exit reason is set and its task ends (`AsyncCatchUnwind`, process.rs:486-488). -/
def crash (w : World B V) (me : Nat) (msg : String) : World B V :=
  modProc w me fun p => { p with reason := some (.custom msg), ended := true }

/-- `process_unregister`, process_registry.rs:136-145, called by `me` (which panics if the name is free). -/
def unregister (w : World B V) (me : Nat) (name : String) : World B V :=
  match w.names name with
  | none => crash w me "not registered"
  | some i => { modProc w i (fun p => { p with name := none }) with names := upd w.names name none }

/-- `process_insert(next_id, ProcessRegistration::new(..))` with a new `Process`, process.rs:453-492, :91-100. -/
def newProc : Proc B V :=
  { name := none, trap := false, reason := none, aborted := false, ended := false, box := ⟨[], [], [], []⟩ }

/-- `Process::spawn` without link or monitor. -/
def spawnRaw (w : World B V) : World B V × Nat :=
  ({ w with nextPid := w.nextPid + 1, procs := upd w.procs w.nextPid (some newProc) }, w.nextPid)

/-- `Reference::new`, reference.rs:34-38. -/
def newRef (w : World B V) : World B V × Ref := ({ w with nextRef := w.nextRef + 1 }, .loc w.nextRef)

/-- Changes the task-local mailbox part of a process. -/
def modBox (w : World B V) (i : Nat) (f : Box B V → Box B V) : World B V :=
  modProc w i fun p => { p with box := f p.box }

/-- `process.monitors.borrow_mut().insert(reference, m)`. -/
def setMon (b : Box B V) (r : Ref) (m : PMon) : Box B V := { b with mons := dropMon b.mons r ++ [(r, m)] }

/-! ## Links, monitors and aliases: table primitives -/

/-- `LINKS.entry(i).or_default().insert(p)`, link.rs:30, :36. -/
def addLink (w : World B V) (i : Nat) (p : Pid) : World B V :=
  { w with links := upd w.links i (if p ∈ w.links i then w.links i else w.links i ++ [p]) }

/-- `LINKS.alter(i, |v| v.remove(p))`, link.rs:76-79. -/
def delLink (w : World B V) (i : Nat) (p : Pid) : World B V :=
  { w with links := upd w.links i ((w.links i).filter (· ≠ p)) }

/-- `monitor_create`, monitor.rs:37-42. -/
def addMon (w : World B V) (i : Nat) (r : Ref) (frm : Pid) (d : Option Dest) : World B V :=
  { w with mons := upd w.mons i ((w.mons i).filter (fun x => x.1 ≠ r) ++ [(r, frm, d)]) }

/-- `MONITORS.alter(i, |v| v.remove(r))`, monitor.rs:47-50. -/
def delMon (w : World B V) (i : Nat) (r : Ref) : World B V :=
  { w with mons := upd w.mons i ((w.mons i).filter (fun x => x.1 ≠ r)) }

/-- `alias_create`, alias.rs:23-25. -/
def addAlias (w : World B V) (owner : Nat) (r : Ref) (reply : Bool) : World B V :=
  { w with aliases := upd w.aliases r.id (some (owner, reply)) }

/-- `alias_destroy`, alias.rs:28-30. -/
def delAlias (w : World B V) (r : Ref) : World B V := { w with aliases := upd w.aliases r.id none }

/-- `alias_retrieve` and the following `alias.sender.send(item)`, alias.rs:39-59, process_kernel.rs:95-98: a one-shot
alias is removed and the owner is told before the message is sent. -/
def putAlias (w : World B V) (r : Ref) (it : Item B V) : World B V :=
  match w.aliases r.id with
  | none => w
  | some (owner, false) => put w owner it
  | some (owner, true) => put (put (delAlias w r) owner (.aliasOff r.id)) owner it

/-! ## Node tables (node_registry.rs) -/

/-- `node_lookup_remote`, node_registry.rs:413-417. -/
def lookupNode (w : World B V) (id : Nat) : Option Node := (w.nodeRegs id).map fun g => .rem g.name g.addr

/-- `node_send_frame`, node_registry.rs:163-182. -/
def sendFrame (w : World B V) (f : NFrame B) (id : Nat) : World B V :=
  let w := { w with asked := w.asked ++ [(id, f)] }
  match w.nodeRegs id with
  | none => w
  | some g =>
    match g.sender with
    | some s => { w with out := w.out ++ [(s, f)] }
    | none =>
      if g.state = .known then w
      else { w with pending := upd w.pending (.rem g.name g.addr) (w.pending (.rem g.name g.addr) ++ [f]) }

/-- `node_register`, node_registry.rs:233-279 (the caller never passes `Node::Local`, for which the code panics). -/
def nodeRegister (w : World B V) (node : Node) (connect : Bool) : World B V × Nat :=
  match node with
  | .loc => (w, LOCAL_NODE_ID)
  | .rem name addr =>
    match w.nodeMap node with
    | some id =>
      if connect then
        match w.nodeRegs id with
        | none => (w, id)
        | some g =>
          match g.sup with
          | some _ => (w, id)
          | none =>
            let s := spawnRaw w
            ({ s.1 with nodeRegs := upd s.1.nodeRegs id (some { g with sup := some s.2, state := .pending }) }, id)
      else (w, id)
    | none =>
      let id := w.nextNode
      let w := { w with nextNode := w.nextNode + 1 }
      if connect then
        let s := spawnRaw w
        ({ s.1 with
            nodeRegs := upd s.1.nodeRegs id (some ⟨some s.2, none, none, .pending, name, addr⟩),
            nodeMap := upd s.1.nodeMap node (some id) }, id)
      else
        ({ w with
            nodeRegs := upd w.nodeRegs id (some ⟨none, none, none, .known, name, addr⟩),
            nodeMap := upd w.nodeMap node (some id) }, id)

/-- What reading an identifier (Pid or Reference) of `node` from the wire does to the node tables, pid.rs:103-114 and
reference.rs:119-130: on a distributed node the owner is registered unless it is the node itself. -/
def learn (w : World B V) (node : Node) : World B V :=
  match w.nodeRegs LOCAL_NODE_ID with
  | none => w
  | some g => if node = .rem g.name g.addr then w else (nodeRegister w node false).1

/-- `NODE_MONITORS.entry(node).or_default().insert(r, m)`, node_registry.rs:421-442. -/
def addNodeMon (w : World B V) (n : Node) (r : Ref) (m : NMon) : World B V :=
  { w with nodeMons := upd w.nodeMons n ((w.nodeMons n).filter (fun x => x.1 ≠ r) ++ [(r, m)]) }

/-- `node_process_monitor_destroy` / `node_monitor_destroy`, node_registry.rs:445-450, :492-497. -/
def delNodeMon (w : World B V) (n : Node) (r : Ref) : World B V :=
  { w with nodeMons := upd w.nodeMons n ((w.nodeMons n).filter (fun x => x.1 ≠ r)) }

/-- `node_process_link_create`, node_registry.rs:484-489. -/
def addNodeLink (w : World B V) (n : Node) (p : Pid) (i : Nat) : World B V :=
  { w with nodeLinks := upd w.nodeLinks n (if (p, i) ∈ w.nodeLinks n then w.nodeLinks n else w.nodeLinks n ++ [(p, i)]) }

/-- `node_process_link_destroy` / `node_link_destroy`, node_registry.rs:463-468, :500-505. -/
def delNodeLink (w : World B V) (n : Node) (p : Pid) (i : Nat) : World B V :=
  { w with nodeLinks := upd w.nodeLinks n ((w.nodeLinks n).filter (· ≠ (p, i))) }

/-! ## Linking (link.rs) -/

/-- `link_install`, link.rs:45-71, called by the running process `me` (so the first `link_create` succeeds). -/
def linkInstall (w : World B V) (pid : Pid) (me : Nat) : World B V :=
  let w := addLink w me pid
  match pid with
  | .loc i =>
      if exists? w i then addLink w i (.loc me)
      else exitLinked w me pid (.custom "noproc")
  | .rem i nid =>
      match lookupNode w nid with
      | some node =>
          let w := addNodeLink w node pid me
          let g := nodeRegister w node true
          sendFrame g.1 (.link true i me) g.2
      | none => exitLinked w me pid (.custom "noconnection")

/-- `Process::link`, process.rs:298-306. -/
def link (w : World B V) (me : Nat) (pid : Pid) : World B V :=
  if pid = .loc me then w else linkInstall w pid me

/-- `link_destroy(process, from)`, link.rs:74-89. -/
def linkDestroy (w : World B V) (process : Pid) (frm : Pid) : World B V :=
  match process with
  | .loc i => delLink w i frm
  | .rem i nid =>
      let w := sendFrame w (.link false i frm.id) nid
      match lookupNode w nid with
      | some node => delNodeLink w node process frm.id
      | none => w

/-- `Process::unlink`, process.rs:309-317. -/
def unlink (w : World B V) (me : Nat) (pid : Pid) : World B V :=
  if pid = .loc me then w else linkDestroy w pid (.loc me)

/-- Groups values by key, one entry per key (`BTreeMap::entry(key).or_insert(..).push(..)`). -/
def pushGroup {A : Type} (k : Nat) (a : A) : List (Nat × List A) → List (Nat × List A)
  | [] => [(k, [a])]
  | (k', l) :: gs => if k' = k then (k', l ++ [a]) :: gs else (k', l) :: pushGroup k a gs

def group {A : Type} : List (Nat × A) → List (Nat × List A) :=
  List.foldl (fun gs x => pushGroup x.1 x.2 gs) []

/-- The local part of the loop of `link_process_down`, link.rs:99-106. -/
def linkDownLocal (me : Nat) (r : ExitReason) (w : World B V) : List Pid → World B V
  | [] => w
  | .loc i :: ps => linkDownLocal me r (exitLinked (delLink w i (.loc me)) i (.loc me) r) ps
  | .rem _ _ :: ps => linkDownLocal me r w ps

/-- Links to processes of other nodes, with the node as key. -/
def remotePids (l : List Pid) : List (Nat × Pid) :=
  l.filterMap fun p => match p with | .loc _ => none | .rem _ n => some (n, p)

/-- The sending part of `link_process_down`, link.rs:117-123. -/
def linkDownRemote (me : Nat) (r : ExitReason) (w : World B V) : List (Nat × List Pid) → World B V
  | [] => w
  | (nid, ps) :: gs =>
      let w1 := match lookupNode w nid with
        | some node => ps.foldl (fun w p => delNodeLink w node p me) w
        | none => w
      linkDownRemote me r (sendFrame w1 (.linkDown (ps.map Pid.id) me r) nid) gs

/-- `link_process_down`, link.rs:92-124. -/
def linkProcessDown (w : World B V) (me : Nat) (r : ExitReason) : World B V :=
  let ls := w.links me
  let w := { w with links := upd w.links me [] }
  linkDownRemote me r (linkDownLocal me r w ls) (group (remotePids ls))

/-! ## Monitoring (monitor.rs) -/

/-- `send_process_down` of `monitor_install`, monitor.rs:99-112. -/
def sendDown (w : World B V) (me : Nat) (d : Dest) (r : Ref) (reason : ExitReason) : World B V :=
  delAlias (put w me (.down d r reason)) r

/-- `monitor_install`, monitor.rs:96-209, called by the running process `me`. -/
def monitorInstall (w : World B V) (d : Dest) (r : Ref) (me : Nat) : World B V :=
  match d with
  | .pid (.loc i) =>
      if i = me then crash w me "Can not monitor yourself!"
      else
        let w := modBox w me (setMon · r (.forProcess (some (.loc i))))
        if exists? w i then addMon w i r (.loc me) (some d)
        else sendDown w me d r (.custom "noproc")
  | .pid (.rem i nid) =>
      let w := modBox w me (setMon · r (.forProcess (some (.rem i nid))))
      match lookupNode w nid with
      | some node =>
          let w := addNodeMon w node r (.process me d)
          let g := nodeRegister w node true
          sendFrame g.1 (.monitor true (some i) none (some me) r.id) g.2
      | none => sendDown w me d r (.custom "noconnection")
  | .named name .loc =>
      match w.names name with
      | none =>
          let w := modBox w me (setMon · r (.forProcess none))
          sendDown w me d r (.custom "noproc")
      | some i =>
          let w := modBox w me (setMon · r (.forProcess (some (.loc i))))
          if exists? w i then addMon w i r (.loc me) (some d)
          else sendDown w me d r (.custom "noproc")
  | .named name (.rem nn na) =>
      let w := modBox w me (setMon · r (.forProcess none))
      let w := addNodeMon w (.rem nn na) r (.process me d)
      let g := nodeRegister w (.rem nn na) true
      sendFrame g.1 (.monitor true none (some name) (some me) r.id) g.2
  | .alias _ => crash w me "Can not monitor an alias!"

/-- `Process::monitor`, process.rs:320-329. -/
def monitor (w : World B V) (me : Nat) (d : Dest) : World B V × Ref :=
  let a := newRef w
  (monitorInstall a.1 d a.2 me, a.2)

/-- `Process::monitor_alias`, process.rs:339-351. -/
def monitorAlias (w : World B V) (me : Nat) (d : Dest) (reply : Bool) : World B V × Ref :=
  let a := newRef w
  (monitorInstall (addAlias a.1 me a.2 reply) d a.2 me, a.2)

/-- `monitor_destroy`, monitor.rs:45-60. -/
def monitorDestroy (w : World B V) (process : Pid) (r : Ref) : World B V :=
  match process with
  | .loc i => delMon w i r
  | .rem i _ =>
      let w := sendFrame w (.monitor false (some i) none none r.id) r.node
      match lookupNode w r.node with
      | some node => delNodeMon w node r
      | none => w

/-- The entry of a process-local monitor map. -/
def getMon (b : Box B V) (r : Ref) : Option PMon := (b.mons.find? fun x => x.1 == r).map Prod.snd

/-- `Process::demonitor`, process.rs:356-374. -/
def demonitor (w : World B V) (me : Nat) (r : Ref) : World B V :=
  match w.procs me with
  | none => w
  | some p =>
    match getMon p.box r with
    | none => w
    | some m =>
      let w := modBox w me fun b => { b with mons := dropMon b.mons r }
      match m with
      | .forNode _ => crash w me "Invalid process monitor reference!"
      | .forProcess none => w
      | .forProcess (some pid) => delAlias (monitorDestroy w pid r) r

/-- The loop of `monitor_process_down`, monitor.rs:222-243, local part. -/
def monDownLocal (r : ExitReason) (w : World B V) : List (Ref × Pid × Option Dest) → World B V
  | [] => w
  | (ref, frm, d) :: ms =>
      let w1 := match frm with
        | .loc i => put w i (.down (d.getD (.pid frm)) ref r)
        | .rem _ _ => w
      monDownLocal r (if ref.isLocal then delAlias w1 ref else w1) ms

/-- References of monitors held by processes of other nodes. -/
def remoteRefs (l : List (Ref × Pid × Option Dest)) : List (Nat × Ref) :=
  l.filterMap fun x => match x.2.1 with | .loc _ => none | .rem _ n => some (n, x.1)

/-- The sending part of `monitor_process_down`, monitor.rs:245-251. -/
def monDownRemote (r : ExitReason) (w : World B V) : List (Nat × List Ref) → World B V
  | [] => w
  | (nid, refs) :: gs =>
      let w1 := match lookupNode w nid with
        | some node => refs.foldl (fun w ref => delNodeMon w node ref) w
        | none => w
      monDownRemote r (sendFrame w1 (.monitorDown (refs.map Ref.id) r) nid) gs

/-- `monitor_process_down`, monitor.rs:212-252. The `dest.unwrap()` of line 227 is a default here; `C32_dest_known`
shows that it never fails. -/
def monitorProcessDown (w : World B V) (me : Nat) (r : ExitReason) : World B V :=
  let ms := w.mons me
  let w := { w with mons := upd w.mons me [] }
  monDownRemote r (monDownLocal r w ms) (group (remoteRefs ms))

/-- `monitor_destroy_all`, monitor.rs:63-93. -/
def monitorDestroyAll (w : World B V) : List (Ref × PMon) → World B V
  | [] => w
  | (_, .forProcess none) :: ms => monitorDestroyAll w ms
  | (r, .forProcess (some pid)) :: ms =>
      let w1 := match pid with
        | .loc i => delMon w i r
        | .rem i _ => sendFrame w (.monitor false (some i) none none r.id) r.node
      monitorDestroyAll (if r.isLocal then delAlias w1 r else w1) ms
  | (r, .forNode n) :: ms =>
      let w1 := delNodeMon w n r
      monitorDestroyAll (if r.isLocal then delAlias w1 r else w1) ms

/-- `alias_destroy_all`, alias.rs:33-37. -/
def aliasDestroyAll (w : World B V) : List Nat → World B V
  | [] => w
  | a :: as => aliasDestroyAll { w with aliases := upd w.aliases a none } as

/-- `process_drop` and `process_name_remove`, process.rs:418-424. -/
def removeProc (w : World B V) (i : Nat) : World B V :=
  match w.procs i with
  | none => w
  | some p =>
    let w := { w with procs := upd w.procs i none }
    match p.name with
    | some n => { w with names := upd w.names n none }
    | none => w

/-- `Drop for Process`, process.rs:417-434. -/
def dropProc (w : World B V) (me : Nat) : World B V :=
  match w.procs me with
  | none => w
  | some p =>
    let w := removeProc w me
    let r := p.reason.getD .normal
    let w := linkProcessDown w me r
    let w := monitorProcessDown w me r
    let w := monitorDestroyAll w p.box.mons
    aliasDestroyAll w p.box.aliases

/-! ## Spawning, aliases -/

/-- `spawn_internal`, process.rs:446-495, called by `me`. -/
def spawn (w : World B V) (me : Nat) (lnk mon : Bool) : World B V × Nat × Option Ref :=
  let pid := w.nextPid
  let w := (spawnRaw w).1
  let w := if lnk then addLink (addLink w pid (.loc me)) me (.loc pid) else w
  if mon then
    let a := newRef w
    let w := modBox a.1 me (setMon · a.2 (.forProcess (some (.loc pid))))
    (addMon w pid a.2 (.loc me) (some (.pid (.loc pid))), pid, some a.2)
  else (w, pid, none)

/-- `Process::alias`, process.rs:105-116. -/
def alias (w : World B V) (me : Nat) (reply : Bool) : World B V × Ref :=
  let a := newRef w
  (addAlias (modBox a.1 me fun b => { b with aliases := b.aliases ++ [a.2.id] }) me a.2 reply, a.2)

/-- `Process::unalias`, process.rs:121-125. -/
def unalias (w : World B V) (me : Nat) (r : Ref) : World B V × Bool :=
  let w := modBox w me fun b => { b with aliases := b.aliases.filter (· ≠ r.id) }
  (delAlias w r, (w.aliases r.id).isSome)

/-! ## Sending (process_kernel.rs, node_kernel.rs) -/

/-- `Dest::is_local`, dest.rs:32-38. -/
def destLocal : Dest → Bool
  | .pid p => p.isLocal
  | .named _ n => match n with | .loc => true | .rem _ _ => false
  | .alias r => r.isLocal

/-- Delivery of one item to a local destination, process_kernel.rs:89-99 and the local branches of :104-127. -/
def sendLocal (w : World B V) (d : Dest) (it : Item B V) : World B V :=
  match d with
  | .pid p => put w p.id it
  | .named n _ => match w.names n with | some i => put w i it | none => w
  | .alias r => putAlias w r it

/-- `process_send_optimal`, process_kernel.rs:103-128, node_kernel.rs:56-83. -/
def sendOpt (ser : V → B) (w : World B V) (d : Dest) (v : V) : World B V :=
  if destLocal d then sendLocal w d (.locl v)
  else match d with
    | .pid p => sendFrame w (.send [.pid p.id] (ser v)) p.node
    | .named n node => let g := nodeRegister w node false; sendFrame g.1 (.send [.named n] (ser v)) g.2
    | .alias r => sendFrame w (.send [.alias r.id] (ser v)) r.node

/-- The loop of a send to several destinations, process_kernel.rs:46-68. -/
def sendLoop (ser : V → B) (v : V) (w : World B V) (first : Option Dest) (groups : List (Nat × List Target)) :
    List Dest → World B V × Option Dest × List (Nat × List Target)
  | [] => (w, first, groups)
  | d :: ds =>
      if destLocal d && first.isNone then sendLoop ser v w (some d) groups ds
      else if destLocal d then sendLoop ser v (sendLocal w d (.remote (ser v))) first groups ds
      else match d with
        | .pid p => sendLoop ser v w first (pushGroup p.node (.pid p.id) groups) ds
        | .named n node =>
            let g := nodeRegister w node false
            sendLoop ser v g.1 first (pushGroup g.2 (.named n) groups) ds
        | .alias r => sendLoop ser v w first (pushGroup r.node (.alias r.id) groups) ds

/-- `Dests`, dest.rs:22-28. -/
inductive Dests
  | one (d : Dest)
  | many (ds : List Dest)

/-- `process_send`, process_kernel.rs:23-82. `ser` is `serialize_value`. -/
def send (ser : V → B) (w : World B V) (ds : Dests) (v : V) : World B V :=
  match ds with
  | .one d => sendOpt ser w d v
  | .many l =>
      let s := sendLoop ser v w none [] l
      let w := match s.2.1 with | some d => sendOpt ser s.1 d v | none => s.1
      s.2.2.foldl (fun w g => sendFrame w (.send g.2 (ser v)) g.1) w

/-- `Process::exit`, process.rs:388-396, node_kernel.rs:49-53. -/
def exit (w : World B V) (me : Nat) (pid : Pid) (r : ExitReason) : World B V :=
  match pid with
  | .loc i => processExit w i (.loc me) r
  | .rem i nid => sendFrame w (.exit i me r) nid

/-! ## Node operations (node.rs, node_registry.rs) -/

/-- `Process::exit(supervisor, ExitReason::Kill)`. -/
def killOpt (w : World B V) (me : Nat) (s : Option Nat) : World B V :=
  match s with | some i => processExit w i (.loc me) .kill | none => w

/-- `node_local_start`, node_registry.rs:82-102, called by `me`. -/
def nodeStart (w : World B V) (me : Nat) (name : String) (addr : Codec.SockAddr) : World B V :=
  match w.nodeMap .loc with
  | some _ => crash w me "Local node already started!"
  | none =>
      let s := spawnRaw w
      { s.1 with
        nodeRegs := upd s.1.nodeRegs LOCAL_NODE_ID (some ⟨some s.2, none, none, .current, name, addr⟩),
        nodeMap := upd s.1.nodeMap .loc (some LOCAL_NODE_ID) }

/-- `node_local_panic`, node_registry.rs:123-127. -/
def nodePanic (w : World B V) : World B V :=
  { w with nodeMap := fun _ => none, nodeRegs := fun _ => none, pending := fun _ => [] }

/-- `node_local_stop`, node_registry.rs:105-120. -/
def nodeStop (w : World B V) (me : Nat) : World B V :=
  match w.nodeMap .loc with
  | none => crash w me "Local node not started!"
  | some _ => nodePanic (match w.nodeRegs LOCAL_NODE_ID with | some g => killOpt w me g.sup | none => w)

/-- `node_register_workers`, node_registry.rs:137-160. -/
def registerWorkers (w : World B V) (node : Node) (sender recv : Nat) : World B V :=
  match w.nodeMap node with
  | none => w
  | some id =>
    match w.nodeRegs id with
    | none => w
    | some g =>
      { w with
        nodeRegs := upd w.nodeRegs id (some { g with sender := some sender, recv := some recv }),
        pending := upd w.pending node [],
        out := w.out ++ (w.pending node).map fun f => (sender, f) }

/-- `node_accept`, node_registry.rs:185-230, called by the supervisor process `sup` itself. -/
def nodeAccept (w : World B V) (node : Node) (sup : Nat) : World B V × Bool :=
  match node with
  | .loc => (crash w sup "Can't accept a local node!", false)
  | .rem name addr =>
    match w.nodeMap node with
    | none =>
      ({ w with
          nextNode := w.nextNode + 1,
          nodeRegs := upd w.nodeRegs w.nextNode (some ⟨some sup, none, none, .connected, name, addr⟩),
          nodeMap := upd w.nodeMap node (some w.nextNode) }, true)
    | some id =>
      match w.nodeRegs id with
      | none => (w, false)
      | some g =>
        let w1 := if g.state = .pending then
            (match g.sup with | some s => if sup ≠ s then processExit w s (.loc sup) .kill else w | none => w) else w
        let sup0 := if g.state = .pending then none else g.sup
        match sup0 with
        | none => ({ w1 with nodeRegs := upd w1.nodeRegs id (some { g with sup := some sup, state := .connected }) }, true)
        | some _ => (w1, false)

/-- The links part of `node_remote_supervisor_down`, node_registry.rs:300-307. -/
def supDownLinks (w : World B V) : List (Pid × Nat) → World B V
  | [] => w
  | (frm, i) :: ls => supDownLinks (exitLinked (delLink w i frm) i frm (.custom "noconnection")) ls

/-- The monitors part, node_registry.rs:310-335. -/
def supDownMons (node : Node) (w : World B V) : List (Ref × NMon) → World B V
  | [] => w
  | (r, m) :: ms =>
      let w1 := match m with
        | .node i => put w i (.nodeDown node r)
        | .process i d => put w i (.down d r (.custom "noconnection"))
        | .cleanup i => delMon w i r
      supDownMons node (if r.isLocal then delAlias w1 r else w1) ms

/-- `node_remote_supervisor_down`, node_registry.rs:282-342. -/
def supDown (w : World B V) (node : Node) (process : Nat) : World B V :=
  match w.nodeMap node with
  | none => w
  | some id =>
    match w.nodeRegs id with
    | none => w
    | some g =>
      if g.sup.isSome ∧ g.sup ≠ some process then w
      else
        let w := { w with nodeRegs := upd w.nodeRegs id (some { g with sup := none, sender := none, recv := none, state := .known }) }
        let ls := w.nodeLinks node
        let w := supDownLinks { w with nodeLinks := upd w.nodeLinks node [] } ls
        let ms := w.nodeMons node
        let w := supDownMons node { w with nodeMons := upd w.nodeMons node [] } ms
        { w with pending := upd w.pending node [] }

/-- `node_disconnect`, node_registry.rs:373-388. -/
def nodeDisconnect (w : World B V) (me : Nat) (node : Node) : World B V :=
  match w.nodeMap node with
  | none => w
  | some id =>
    match w.nodeRegs id with
    | none => w
    | some g =>
      let w := { w with pending := upd w.pending node [] }
      let w := killOpt w me g.sup
      { w with nodeRegs := upd w.nodeRegs id (some { g with sup := none, state := .known }) }

/-- `node_forget`, node_registry.rs:391-405. -/
def nodeForget (w : World B V) (me : Nat) (node : Node) : World B V :=
  match w.nodeMap node with
  | none => w
  | some id =>
    let w := { w with nodeMap := upd w.nodeMap node none }
    match w.nodeRegs id with
    | none => w
    | some g => killOpt { w with nodeRegs := upd w.nodeRegs id none, pending := upd w.pending node [] } me g.sup

/-- `Node::monitor`, node.rs:143-166. -/
def nodeMonitor (w : World B V) (me : Nat) (node : Node) : World B V × Option Ref :=
  match node with
  | .loc => (crash w me "Can't monitor self!", none)
  | .rem _ _ =>
      let a := newRef w
      let w := modBox a.1 me (setMon · a.2 (.forNode node))
      let w := addNodeMon w node a.2 (.node me)
      ((nodeRegister w node true).1, some a.2)

/-- `Node::demonitor`, node.rs:169-181. -/
def nodeDemonitor (w : World B V) (me : Nat) (r : Ref) : World B V :=
  match w.procs me with
  | none => w
  | some p =>
    match getMon p.box r with
    | none => w
    | some m =>
      let w := modBox w me fun b => { b with mons := dropMon b.mons r }
      match m with
      | .forNode n => delNodeMon w n r
      | .forProcess _ => crash w me "Invalid node monitor reference!"

/-! ## Incoming frames (node_remote.rs:137-278, node_kernel.rs:20-46) -/

/-- `node_forward_send`, node_kernel.rs:20-46. -/
def forwardSend (msg : B) (w : World B V) : List Target → World B V
  | [] => w
  | .pid i :: ts => forwardSend msg (put w i (.remote msg)) ts
  | .named n :: ts => forwardSend msg (match w.names n with | some i => put w i (.remote msg) | none => w) ts
  | .alias a :: ts => forwardSend msg (putAlias w (.loc a) (.remote msg)) ts

/-- `node_process_monitor_down`, node_registry.rs:508-528. -/
def nodeMonDown (w : World B V) (node : Node) (r : Ref) (reason : ExitReason) : World B V :=
  let m := ((w.nodeMons node).find? fun x => x.1 == r).map Prod.snd
  let w := delAlias (delNodeMon w node r) r
  match m with
  | some (.process i d) => put w i (.down d r reason)
  | _ => w

/-- `node_process_link_down`, node_registry.rs:531-542. -/
def nodeLinkDown (w : World B V) (node : Node) (i : Nat) (frm : Pid) (reason : ExitReason) : World B V :=
  let found := decide ((frm, i) ∈ w.nodeLinks node)
  let w := delNodeLink w node frm i
  if found then exitLinked w i frm reason else w

/-- One frame received on the connection with `node` by the receiver process `rp`, node_remote.rs:148-276. Panics crash
`rp`. Simplified: a Ping only asks the connection's supervisor process to answer with a Pong (`Heartbeat.lean`), which
touches none of these tables; a second Hello is a panic and is not a frame here. -/
def recvFrame (w : World B V) (node : Node) (rp : Nat) (f : NFrame B) : World B V :=
  match f with
  | .ping | .pong => w
  | .send ts msg => forwardSend msg w ts
  | .monitor install process name frm refId =>
      let g := nodeRegister w node false
      let w := g.1
      match frm with
      | none => crash w rp "Must have a from_id for remote monitors!"
      | some fid =>
        let frm := Pid.rem fid g.2
        let r := Ref.rem refId g.2
        if install then
          match process, name with
          | some i, _ =>
              if exists? w i then addNodeMon (addMon w i r frm none) node r (.cleanup i)
              else sendFrame w (.monitorDown [refId] (.custom "noproc")) g.2
          | none, some nm =>
              match w.names nm with
              | some i => addNodeMon (sendFrame (addMon w i r frm none) (.monitorUpdate fid i refId) g.2) node r (.cleanup i)
              | none => sendFrame w (.monitorDown [refId] (.custom "noproc")) g.2
          | none, none => crash w rp "Must have either a process id or process name for monitor!"
        else
          match process with
          | some i => delNodeMon (delMon w i r) node r
          | none => crash w rp "unwrap"
  | .monitorDown refs reason => refs.foldl (fun w r => nodeMonDown w node (.loc r) reason) w
  | .monitorUpdate process fid refId =>
      let g := nodeRegister w node false
      put g.1 process (.update (.loc refId) (.rem fid g.2))
  | .link install i fid =>
      let g := nodeRegister w node false
      let w := g.1
      let frm := Pid.rem fid g.2
      if install then
        if exists? w i then addNodeLink (addLink w i frm) node frm i
        else sendFrame w (.linkDown [fid] i (.custom "noproc")) g.2
      else delNodeLink (delLink w i frm) node frm i
  | .linkDown ls fid reason =>
      let g := nodeRegister w node false
      ls.foldl (fun w i => nodeLinkDown w node i (.rem fid g.2) reason) g.1
  | .exit i fid reason =>
      let g := nodeRegister w node false
      processExit g.1 i (.rem fid g.2) reason

/-! ## Receiving -/

/-- A receive operation of any message type. -/
structure RecvOp (B V : Type) : Type 1 where
  T : Type
  τ : RecvType B V T
  filter : Msg T → Bool
  strict : Bool

inductive RecvKind | select | resume | remove

/-- Runs a receive on the mailbox of `me`; a strict type error panics. -/
def recv (w : World B V) (me : Nat) (o : RecvOp B V) (k : RecvKind) : World B V :=
  match w.procs me with
  | none => w
  | some p =>
    match k with
    | .select =>
        let s := Mailbox.select o.τ o.filter o.strict p.box
        let w := modBox w me fun _ => s.2
        match s.1 with | .panicked => crash w me "unsupported message" | _ => w
    | .resume =>
        let s := Mailbox.resume o.τ o.filter o.strict p.box
        let w := modBox w me fun _ => s.2
        match s.1 with | .panicked => crash w me "unsupported message" | _ => w
    | .remove =>
        match Mailbox.remove o.τ o.filter o.strict p.box with
        | some b => modBox w me fun _ => b
        | none => crash w me "unsupported message"

/-! ## Histories -/

/-- Everything that can happen on a node. Operations of a process name it first (`me`). Node operations may come in any
order with any arguments (an over-approximation of what the connection processes do). -/
inductive Op (B V : Type) : Type 1
  | spawn (me : Nat) (link mon : Bool)
  | finish (me : Nat)
  | panic (me : Nat) (msg : String)
  | drop (i : Nat)
  | exit (me : Nat) (pid : Pid) (r : ExitReason)
  | link (me : Nat) (pid : Pid)
  | unlink (me : Nat) (pid : Pid)
  | monitor (me : Nat) (d : Dest)
  | monitorAlias (me : Nat) (d : Dest) (reply : Bool)
  | demonitor (me : Nat) (r : Ref)
  | alias (me : Nat) (reply : Bool)
  | unalias (me : Nat) (r : Ref)
  | send (me : Nat) (ds : Dests) (v : V)
  | register (me : Nat) (pid : Pid) (name : String)
  | unregister (me : Nat) (name : String)
  | setTrap (me : Nat) (b : Bool)
  | recv (me : Nat) (o : RecvOp B V) (k : RecvKind)
  | nodeMonitor (me : Nat) (node : Node)
  | nodeDemonitor (me : Nat) (r : Ref)
  | nodeStart (me : Nat) (name : String) (addr : Codec.SockAddr)
  | nodeStop (me : Nat)
  | nodePanic
  | connect (me : Nat) (node : Node)
  | learn (me : Nat) (node : Node)
  | disconnect (me : Nat) (node : Node)
  | forget (me : Nat) (node : Node)
  | accept (sup : Nat) (node : Node)
  | workers (node : Node) (sender recv : Nat)
  | supDown (node : Node) (process : Nat)
  | frame (rp : Nat) (node : Node) (f : NFrame B)
  | table (me : Nat) (t : TOp)
  | boot

/-- What an operation returns. -/
inductive Res
  | unit
  | spawned (pid : Nat) (r : Option Ref)
  | ref (r : Ref)
  | bool (b : Bool)
  | reg (r : Except RegErr Unit)
  | table (r : TRes)

/-- The task of `me` still runs user code: it exists and has neither returned nor panicked. An aborted task may run up to
its next await point. -/
def running (w : World B V) (me : Nat) : Bool :=
  match w.procs me with
  | none => false
  | some p => !p.ended

/-- The process may be dropped: its task returned, panicked or was aborted. -/
def doomed (w : World B V) (i : Nat) : Bool :=
  match w.procs i with
  | none => false
  | some p => p.ended || p.aborted

/-- Who has to be running for the operation to be made. -/
def Op.caller : Op B V → Option Nat
  | .spawn me _ _ | .finish me | .panic me _ | .exit me _ _ | .link me _ | .unlink me _ | .monitor me _
  | .monitorAlias me _ _ | .demonitor me _ | .alias me _ | .unalias me _ | .send me _ _ | .register me _ _
  | .unregister me _ | .setTrap me _ | .recv me _ _ | .nodeMonitor me _ | .nodeDemonitor me _ | .nodeStart me _ _
  | .nodeStop me | .connect me _ | .learn me _ | .disconnect me _ | .forget me _ | .accept me _ | .frame me _ _ | .table me _ => some me
  | .drop _ | .nodePanic | .workers _ _ _ | .supDown _ _ | .boot => none

/-- The effect of an operation. `boot` spawns a process from outside any process (`Application::run`, application.rs). The checks of
`connect`, `disconnect` and `forget` are those of node.rs:81-89, :92-100 and :105-113. -/
def Op.exec (ser : V → B) (w : World B V) : Op B V → World B V × Res
  | .spawn me l m => let s := World.spawn w me l m; (s.1, .spawned s.2.1 s.2.2)
  | .boot => let s := World.spawnRaw w; (s.1, .spawned s.2 none)
  | .finish me => (modProc w me fun p => { p with ended := true }, .unit)
  | .panic me msg => (crash w me msg, .unit)
  | .drop i => (if doomed w i then dropProc w i else w, .unit)
  | .exit me pid r => (World.exit w me pid r, .unit)
  | .link me pid => (World.link w me pid, .unit)
  | .unlink me pid => (World.unlink w me pid, .unit)
  | .monitor me d => let s := World.monitor w me d; (s.1, .ref s.2)
  | .monitorAlias me d reply => let s := World.monitorAlias w me d reply; (s.1, .ref s.2)
  | .demonitor me r => (World.demonitor w me r, .unit)
  | .alias me reply => let s := World.alias w me reply; (s.1, .ref s.2)
  | .unalias me r => let s := World.unalias w me r; (s.1, .bool s.2)
  | .send _ ds v => (World.send ser w ds v, .unit)
  | .register _ pid name => let s := World.register w pid name; (s.1, .reg s.2)
  | .unregister me name => (World.unregister w me name, .unit)
  | .setTrap me b => (modProc w me fun p => { p with trap := b }, .unit)
  | .recv me o k => (World.recv w me o k, .unit)
  | .nodeMonitor me n => let s := World.nodeMonitor w me n; (s.1, match s.2 with | some r => .ref r | none => .unit)
  | .nodeDemonitor me r => (World.nodeDemonitor w me r, .unit)
  | .nodeStart me name addr => (World.nodeStart w me name addr, .unit)
  | .nodeStop me => (World.nodeStop w me, .unit)
  | .nodePanic => (World.nodePanic w, .unit)
  | .connect me n => (if n = .loc then crash w me "Can't connect to self!" else (nodeRegister w n true).1, .unit)
  | .learn _ n => (World.learn w n, .unit)
  | .disconnect me n => (if n = .loc then crash w me "Can't disconnect from self!" else World.nodeDisconnect w me n, .unit)
  | .forget me n => (if n = .loc then crash w me "Can't forget from self!" else World.nodeForget w me n, .unit)
  | .accept sup n => let s := World.nodeAccept w n sup; (s.1, .bool s.2)
  | .workers n s r => (World.registerWorkers w n s r, .unit)
  | .supDown n p => (World.supDown w n p, .unit)
  | .frame rp n f => (World.recvFrame w n rp f, .unit)
  | .table _ t => ({ w with tables := (tableOp w.tables t).1 }, .table (tableOp w.tables t).2)

/-- One step of a history: a caller that does not run does nothing. -/
def step (ser : V → B) (w : World B V) (o : Op B V) : World B V × Res :=
  match o.caller with
  | none => o.exec ser w
  | some me => if running w me then o.exec ser w else (w, .unit)

def run (ser : V → B) (w : World B V) (os : List (Op B V)) : World B V := os.foldl (fun w o => (step ser w o).1) w

/-- The results of a history, in order. -/
def results (ser : V → B) (w : World B V) : List (Op B V) → List Res
  | [] => []
  | o :: os => (step ser w o).2 :: results ser (step ser w o).1 os

end Verif.World
