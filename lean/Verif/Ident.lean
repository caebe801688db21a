import Verif.NodeProps
/-!
# Identifiers on the wire (pid.rs:76-119, reference.rs:92-135, node.rs:286-332, dest.rs:11-19)

The wire forms are modelled as values; their bytes are those of bincode, for which see `Codec`.
-/
namespace Verif.World
open Verif.Codec (SockAddr)
variable {B V : Type}

/-- `node_lookup_local`, node_registry.rs:408-412. -/
def lookupLocal (w : World B V) : Option (String × SockAddr) := (w.nodeRegs LOCAL_NODE_ID).map fun g => (g.name, g.addr)

/-- `node_lookup_remote`, node_registry.rs:415-419. -/
def lookupRemote (w : World B V) (id : Nat) : Option (String × SockAddr) := (w.nodeRegs id).map fun g => (g.name, g.addr)

/-- `PidWire`, pid.rs:17-20, and `ReferenceWire`, reference.rs:20-23. -/
inductive IdWire
  | withNode (id : Nat) (name : String) (addr : SockAddr)
  | unavailable (id : Nat)
  deriving DecidableEq

/-- `Serialize for Pid`, pid.rs:76-94. -/
def serPid (w : World B V) : Pid → IdWire
  | .loc i => match lookupLocal w with
    | some (name, addr) => .withNode i name addr
    | none => .unavailable i
  | .rem i n => match lookupRemote w n with
    | some (name, addr) => .withNode i name addr
    | none => .unavailable i

/-- `Deserialize for Pid`, pid.rs:96-119. -/
def deserPid (w : World B V) : IdWire → World B V × Pid
  | .withNode i name addr => match lookupLocal w with
    | some (name', addr') =>
      if name' = name ∧ addr' = addr then (w, .loc i)
      else let s := nodeRegister w (.rem name addr) false; (s.1, .rem i s.2)
    | none => (w, .rem i INVALID_NODE_ID)
  | .unavailable i => (w, .rem i INVALID_NODE_ID)

/-- `Serialize for Reference`, reference.rs:92-110. -/
def serRef (w : World B V) : Ref → IdWire
  | .loc i => match lookupLocal w with
    | some (name, addr) => .withNode i name addr
    | none => .unavailable i
  | .rem i n => match lookupRemote w n with
    | some (name, addr) => .withNode i name addr
    | none => .unavailable i

/-- `Deserialize for Reference`, reference.rs:112-135. -/
def deserRef (w : World B V) : IdWire → World B V × Ref
  | .withNode i name addr => match lookupLocal w with
    | some (name', addr') =>
      if name' = name ∧ addr' = addr then (w, .loc i)
      else let s := nodeRegister w (.rem name addr) false; (s.1, .rem i s.2)
    | none => (w, .rem i INVALID_NODE_ID)
  | .unavailable i => (w, .rem i INVALID_NODE_ID)

/-- `NodeWire`, node.rs:28-32. -/
structure NodeWire where
  name : String
  addr : Option SockAddr

/-- `Serialize for Node`, node.rs:286-310. -/
def serNode (w : World B V) : Node → NodeWire
  | .loc => match lookupLocal w with
    | some (name, addr) => ⟨name, some addr⟩
    | none => ⟨"nohost", none⟩
  | .rem name addr => ⟨name, some addr⟩

/-- `Deserialize for Node`, node.rs:312-332; `none`: the `unwrap` panics. -/
def deserNode (w : World B V) (m : NodeWire) : Option Node :=
  match lookupLocal w with
  | some (name, addr) =>
    if m.name = name ∧ (m.addr = none ∨ m.addr = some addr) then some .loc
    else match m.addr with
      | some a => some (.rem m.name a)
      | none => none
  | none => some .loc

/-- The derived serialization of `Dest`, dest.rs:11-19. -/
inductive DestWire
  | pid (p : IdWire)
  | named (name : String) (node : NodeWire)
  | alias (r : IdWire)

def serDest (w : World B V) : Dest → DestWire
  | .pid p => .pid (serPid w p)
  | .named name n => .named name (serNode w n)
  | .alias r => .alias (serRef w r)

/-- The derived deserialization of `Dest`, dest.rs:11-19. -/
def deserDest (w : World B V) : DestWire → World B V × Option Dest
  | .pid p => let s := deserPid w p; (s.1, some (.pid s.2))
  | .named name n => (w, (deserNode w n).map (.named name))
  | .alias r => let s := deserRef w r; (s.1, some (.alias s.2))

end Verif.World
