import Verif.Types
/-!
# Small pieces: node options, comparison of destinations, awaiting tasks
-/
namespace Verif.Misc
open Verif.Codec (SockAddr)

/-! ## `NodeOptions` (node_options.rs) -/

/-- `NodeOptions`, node_options.rs:8-14; durations are counted in some unit. -/
structure NodeOptions where
  listenAddress : SockAddr
  broadcastAddress : SockAddr
  handshakeTimeout : Nat
  heartbeatInterval : Nat
  heartbeatTimeout : Nat

/-- `NodeOptions::new`, node_options.rs:18-26, in seconds. -/
def NodeOptions.new : NodeOptions :=
  ⟨.v4 ⟨[127, 0, 0, 1], rfl⟩ 1337, .v4 ⟨[127, 0, 0, 1], rfl⟩ 1337, 5, 5, 45⟩

/-- The builder methods, by name. -/
inductive Setting
  | listenAddress (a : SockAddr)
  | broadcastAddress (a : SockAddr)
  | handshakeTimeout (d : Nat)
  | heartbeatInterval (d : Nat)
  | heartbeatTimeout (d : Nat)

/-- The builder methods, node_options.rs:29-56. -/
def NodeOptions.set (o : NodeOptions) : Setting → NodeOptions
  /- node_options.rs:29-32 -/
  | .listenAddress a => { o with listenAddress := a }
  /- node_options.rs:35-38 -/
  | .broadcastAddress a => { o with broadcastAddress := a }
  /- node_options.rs:41-44 -/
  | .handshakeTimeout d => { o with handshakeTimeout := d }
  /- node_options.rs:47-50 -/
  | .heartbeatInterval d => { o with heartbeatInterval := d }
  /- node_options.rs:53-56: it sets `handshake_timeout` -/
  | .heartbeatTimeout d => { o with handshakeTimeout := d }

/-- A chain of builder calls. -/
def NodeOptions.sets (o : NodeOptions) (l : List Setting) : NodeOptions := l.foldl .set o

/-! ## Comparisons (dest.rs:92-144)

A comparison is evaluated with a bound on the depth of calls (the stack); `none`: the stack overflows. -/

/-- `PartialEq<Pid> for Dest`, dest.rs:92-99. -/
def destEqPid (d : Dest) (p : Pid) : Bool :=
  match d with
  | .pid q => q = p
  | _ => false

/-- `PartialEq<Dest> for Pid`, dest.rs:101-108. -/
def pidEqDest (p : Pid) (d : Dest) : Bool :=
  match d with
  | .pid q => p = q
  | _ => false

/-- `PartialEq<&str> for Dest`, dest.rs:110-117. -/
def destEqStr (d : Dest) (s : String) : Bool :=
  match d with
  | .named n _ => n = s
  | _ => false

/-- `PartialEq<Dest> for &str`, dest.rs:119-126. -/
def strEqDest (s : String) (d : Dest) : Bool :=
  match d with
  | .named n _ => s = n
  | _ => false

/-- `PartialEq<Reference> for Dest`, dest.rs:128-135. -/
def destEqRef (d : Dest) (r : Ref) : Bool :=
  match d with
  | .alias q => q = r
  | _ => false

/-- `PartialEq<Dest> for Reference`, dest.rs:137-144: `reference == other` compares the `&Reference` inside `other` with the
`&Dest` `other`, which is this comparison again. -/
def refEqDest : Nat → Ref → Dest → Option Bool
  | 0, _, _ => none
  | n + 1, _, d =>
    match d with
    | .alias q => refEqDest n q d
    | _ => some false

/-! ## `Task::await_many` (task.rs:75-92) -/

/-- `st t i`: the outcome of task `i` if it has ended by time `t`. -/
abbrev Outcomes (E R : Type) := Nat → Nat → Option (Except E R)

/-- `Task::await_many`, task.rs:75-92, from time `t` with the results so far: at which time it returns what. The tasks are
awaited one after the other; a handle that is awaited yields the outcome of its task at some time after it has ended. -/
inductive Awaits {E R : Type} (st : Outcomes E R) : Nat → List Nat → List R → Nat → Except E (List R) → Prop
  | done (t acc) : Awaits st t [] acc t (.ok acc)
  | push {t t' t'' i is acc x r} : t ≤ t' → st t' i = some (.ok x) → Awaits st t' is (acc ++ [x]) t'' r → Awaits st t (i :: is) acc t'' r
  | fail {t t' i is acc e} : t ≤ t' → st t' i = some (.error e) → Awaits st t (i :: is) acc t' (.error e)

end Verif.Misc
