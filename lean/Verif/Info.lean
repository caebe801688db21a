import Verif.World
/-!
# `Process::info`

What `Process::info` reads off the tables. Its three lookups (registration, links, monitors) are one atomic step here.
-/
namespace Verif.World
variable {B V : Type}

/-- `ProcessInfo`, process_info.rs:8-20. -/
structure Info where
  registeredName : Option String
  messageQueueLen : Nat
  trapExit : Bool
  links : List Pid
  monitoredBy : List Pid

/-- `Process::info`, process.rs:400-414: `process_info` (process_registry.rs:275-285; `sender.len()` is the length of the channel), `link_fill_info`
(link.rs:127-133) and `monitor_fill_info` (monitor.rs:255-261). The panic for a remote pid is left out: the argument is the id of a local process. -/
def info (w : World B V) (i : Nat) : Option Info :=
  match w.procs i with
  | none => none
  | some p => some
    { registeredName := p.name
      messageQueueLen := p.box.chan.length
      trapExit := p.trap
      links := w.links i
      monitoredBy := (w.mons i).map fun x => x.2.1 }

end Verif.World
