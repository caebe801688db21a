import Verif.Codec
/-! # Shared identifier types -/
namespace Verif

/-- `ExitReason`, exit_reason.rs:9-19. -/
abbrev ExitReason := Codec.ExitReason

/-- `ExitReason::is_normal`, exit_reason.rs:23-25. -/
def isNormal : ExitReason → Bool
  | .normal => true
  | _ => false

/-- `LOCAL_NODE_ID`, node_registry.rs:36. -/
def LOCAL_NODE_ID : Nat := 0
/-- `INVALID_NODE_ID = u64::MAX`, node_registry.rs:39. -/
def INVALID_NODE_ID : Nat := 2 ^ 64 - 1

/-- `Pid`, pid.rs:24-27. Ids are `NonZeroU64` in the code and `Nat` here (64-bit wrap-around of the id counters is not
modelled: it takes 2^64 spawns). -/
inductive Pid
  | loc (id : Nat)
  | rem (id node : Nat)
  deriving DecidableEq, Repr

/-- `Pid::id`, pid.rs:51-56. -/
def Pid.id : Pid → Nat
  | .loc i => i
  | .rem i _ => i
/-- `Pid::node`, pid.rs:59-64. -/
def Pid.node : Pid → Nat
  | .loc _ => LOCAL_NODE_ID
  | .rem _ n => n
/-- `Pid::is_local`, pid.rs:41-43. -/
def Pid.isLocal : Pid → Bool
  | .loc _ => true
  | .rem _ _ => false

/-- `Reference`, reference.rs:27-30. -/
inductive Ref
  | loc (id : Nat)
  | rem (id node : Nat)
  deriving DecidableEq, Repr

/-- `Reference::id`, reference.rs:61-66. -/
def Ref.id : Ref → Nat
  | .loc i => i
  | .rem i _ => i
/-- `Reference::node`, reference.rs:69-74. -/
def Ref.node : Ref → Nat
  | .loc _ => LOCAL_NODE_ID
  | .rem _ n => n
def Ref.isLocal : Ref → Bool
  | .loc _ => true
  | .rem _ _ => false

/-- `Node`, node.rs:36-39. -/
inductive Node
  | loc
  | rem (name : String) (addr : Codec.SockAddr)
  deriving DecidableEq

/-- `Dest`, dest.rs:12-19. -/
inductive Dest
  | pid (p : Pid)
  | named (name : String) (node : Node)
  | alias (r : Ref)
  deriving DecidableEq

/-- `SystemMessage`, system_message.rs:9-16. -/
inductive Sys
  | exit (p : Pid) (reason : ExitReason)
  | processDown (d : Dest) (r : Ref) (reason : ExitReason)
  | nodeDown (n : Node) (r : Ref)
  deriving DecidableEq

/-- `ProcessMonitor`, process_monitor.rs:5-10. -/
inductive PMon
  | forProcess (p : Option Pid)
  | forNode (n : Node)
  deriving DecidableEq

end Verif
