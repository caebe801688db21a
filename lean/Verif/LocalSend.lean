import Verif.World
/-!
# Sending values whose serialization panics (`Local<T>`, local.rs)

`World.send` takes a total `ser`. Here `ser v = none` says that serializing `v` panics (local.rs:47-56, or the `unwrap` of serialize.rs:7-9).
The functions follow process_kernel.rs:23-128 again, with the panic.
-/
namespace Verif.World
open Verif.Mailbox
variable {B V : Type}

/-- `process_send_optimal`, process_kernel.rs:103-128, node_kernel.rs:56-83; the flag says whether it returned (it panics otherwise). The value is
serialized before anything else happens (node_kernel.rs:61, :72, :79). -/
def trySendOpt (ser : V → Option B) (w : World B V) (d : Dest) (v : V) : World B V × Bool :=
  if destLocal d then (sendLocal w d (.locl v), true)
  else match ser v with
    | none => (w, false)
    | some b => match d with
      | .pid p => (sendFrame w (.send [.pid p.id] b) p.node, true)
      | .named n node => let g := nodeRegister w node false; (sendFrame g.1 (.send [.named n] b) g.2, true)
      | .alias r => (sendFrame w (.send [.alias r.id] b) r.node, true)

/-- The loop of a send to several destinations, process_kernel.rs:46-68; `none`: `get_serialized` (:32-42) panicked. The node of a named destination is
registered before the value is serialized (:57-64). -/
def tryLoop (ser : V → Option B) (v : V) (w : World B V) (first : Option Dest) (groups : List (Nat × List Target)) :
    List Dest → World B V × Option (Option Dest × List (Nat × List Target))
  | [] => (w, some (first, groups))
  | d :: ds =>
      if destLocal d && first.isNone then tryLoop ser v w (some d) groups ds
      else if destLocal d then match ser v with
        | none => (w, none)
        | some b => tryLoop ser v (sendLocal w d (.remote b)) first groups ds
      else match d with
        | .pid p => match ser v with
          | none => (w, none)
          | some _ => tryLoop ser v w first (pushGroup p.node (.pid p.id) groups) ds
        | .named n node =>
            let g := nodeRegister w node false
            match ser v with
            | none => (g.1, none)
            | some _ => tryLoop ser v g.1 first (pushGroup g.2 (.named n) groups) ds
        | .alias r => match ser v with
          | none => (w, none)
          | some _ => tryLoop ser v w first (pushGroup r.node (.alias r.id) groups) ds

/-- `process_send`, process_kernel.rs:23-82; the flag says whether it returned. At the end the frames carry the serialized value that the loop has
computed (there are frames only if it has, so that the case `none` below does not occur). -/
def trySend (ser : V → Option B) (w : World B V) (ds : Dests) (v : V) : World B V × Bool :=
  match ds with
  | .one d => trySendOpt ser w d v
  | .many l => match tryLoop ser v w none [] l with
    | (w, none) => (w, false)
    | (w, some (first, groups)) =>
      let s := match first with | some d => trySendOpt ser w d v | none => (w, true)
      if s.2 then
        (groups.foldl (fun w g => match ser v with | some b => sendFrame w (.send g.2 b) g.1 | none => w) s.1, true)
      else s

end Verif.World
