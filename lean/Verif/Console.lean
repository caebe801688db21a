import Verif.Info
import Verif.Ident
/-!
# The console (console.rs) and the lists it reads

Modelled: what `handle_call` of the console server answers in a given state (its reads of one table are one atomic step, of several tables too), and the way of
requests and answers to another node. `RuntimeInfo` (runtime_info.rs) holds figures of the operating system and the number of processes; it is left out. That a call
is answered by one execution of `handle_call` is C116 and C119.
-/
namespace Verif.World
open Verif.Codec (SockAddr)
variable {B V : Type}

/-- `process_list`, process_registry.rs:233-238 (`Process::list`, process.rs:291-295). The order of the table is not specified; here it is that of the ids. -/
def processList (w : World B V) : List Pid := ((List.range w.nextPid).filter fun i => (w.procs i).isSome).map .loc

/-- `node_list_filtered`, node_registry.rs:360-371 (`Node::list_by_state`). -/
def nodeListIn (w : World B V) (s : NState) : List Node :=
  (List.range w.nextNode).filterMap fun id =>
    match w.nodeRegs id with
    | some g => if g.state = s then some (.rem g.name g.addr) else none
    | none => none

/-- The requests of `ConsoleServerMessage`, console.rs:22-33. -/
inductive CAsk
  | connect
  | nodes (s : NState)
  | processes
  | infos (ps : List Pid)
  /-- An answer sent as a request. -/
  | answer

/-- The answers of `ConsoleServerMessage`, console.rs:22-33. -/
inductive CAnswer
  | connected (p : Pid)
  | nodes (l : List Node)
  | processes (l : List Pid)
  | infos (l : List (Option Info))

/-- `Process::info`, process.rs:400-414: `none` is the panic for a remote pid. -/
def infoOf (w : World B V) : Pid → Option (Option Info)
  | .loc i => some (info w i)
  | .rem _ _ => none

/-- `pids.into_iter().map(Process::info).collect()`, console.rs:140. -/
def infosOf (w : World B V) : List Pid → Option (List (Option Info))
  | [] => some []
  | p :: ps => match infoOf w p with
    | none => none
    | some x => match infosOf w ps with
      | none => none
      | some xs => some (x :: xs)

/-- `handle_call` of the console, console.rs:128-147, at the process `me`; `none`: it panics. -/
def consoleCall (w : World B V) (me : Nat) : CAsk → Option CAnswer
  | .connect => some (.connected (.loc me))
  | .nodes s => some (.nodes (nodeListIn w s))
  | .processes => some (.processes (processList w))
  | .infos ps => match infosOf w ps with
    | none => none
    | some xs => some (.infos xs)
  | .answer => none

/-- A `Vec<Pid>` is written, pid.rs:76-94. -/
def writePids (w : World B V) (ps : List Pid) : List IdWire := ps.map (serPid w)

/-- A `Vec<Pid>` is read, pid.rs:96-119: one after the other, each may register its node. -/
def readPids (w : World B V) : List IdWire → World B V × List Pid
  | [] => (w, [])
  | x :: xs =>
    let s := deserPid w x
    let r := readPids s.1 xs
    (r.1, s.2 :: r.2)

end Verif.World
