/-!
# Nodes as text (node.rs), and the builder of child specifications (child_spec.rs)

Strings are lists of characters here. Addresses are any type `A`; `parse` is `str::parse::<SocketAddr>` of the standard library.
-/
namespace Verif.NodeText

/-- `Node`, node.rs:35-39. -/
inductive Node (A : Type)
  | loc
  | remote (name : List Char) (addr : A)
deriving DecidableEq

/-- `str::split_once('@')` of the standard library: what is before and after the first `@`. -/
def splitAt : List Char → Option (List Char × List Char)
  | [] => none
  | c :: s => if c = '@' then some ([], s) else (splitAt s).map fun x => (c :: x.1, x.2)

/-- What became of a conversion: node.rs:212 and :216 panic. -/
inductive Conv (A : Type)
  | node (n : Node A)
  | missingAt
  | malformedAddress

/-- `Node::from::<&str>`, node.rs:206-219. -/
def Node.ofStr {A : Type} (parse : List Char → Option A) (s : List Char) : Conv A :=
  if s = "local".toList then .node .loc
  else match splitAt s with
    | none => .missingAt
    | some (name, addr) => match parse addr with
      | none => .malformedAddress
      | some a => .node (.remote name a)

/-- `Node == &str`, node.rs:245-266 (`String` and the mirrored forms, node.rs:268-284, call it). -/
def Node.eqStr {A : Type} [DecidableEq A] (parse : List Char → Option A) (n : Node A) (other : List Char) : Bool :=
  match n with
  | .loc => other = "local".toList
  | .remote name address => match splitAt other with
    | none => false
    | some (otherName, otherAddress) =>
      if name ≠ otherName then false
      else match parse otherAddress with
        | none => false
        | some a => address = a

/-- `Node == (&str, SocketAddr)`, node.rs:227-243. -/
def Node.eqPair {A : Type} [DecidableEq A] (n : Node A) (name : List Char) (a : A) : Bool :=
  match n with
  | .loc => false
  | .remote n' a' => n' = name && a' = a

/-! ## `ChildSpec` (child_spec.rs) -/

/-- `Restart`, restart.rs. -/
inductive Restart | permanent | temporary | transient
deriving DecidableEq

/-- `ChildSpec`, child_spec.rs:22-37; the start routine `F` and the shutdown mode `S` are any types. -/
structure Spec (F S : Type) where
  id : List Char
  start : Option F
  restart : Restart
  shutdown : Option S
  supervisor : Bool
  significant : Bool

/-- The builder methods, by name. -/
inductive Setting (F S : Type)
  | id (i : List Char)
  | start (f : F)
  | restart (r : Restart)
  | shutdown (s : S)
  | childType (supervisor : Bool)
  | significant (b : Bool)

/-- `ChildSpec::new`, child_spec.rs:41-50. -/
def Spec.new {F S : Type} (id : List Char) : Spec F S := ⟨id, none, .permanent, none, false, false⟩

/-- The builder methods, child_spec.rs:53-107; `none`: it panics. -/
def Spec.set {F S : Type} (c : Spec F S) : Setting F S → Option (Spec F S)
  /- child_spec.rs:53-56 -/
  | .id i => some { c with id := i }
  /- child_spec.rs:61-68 -/
  | .start f => some { c with start := some f }
  /- child_spec.rs:73-76: `significant` is not looked at -/
  | .restart r => some { c with restart := r }
  /- child_spec.rs:81-84 -/
  | .shutdown s => some { c with shutdown := some s }
  /- child_spec.rs:87-90 -/
  | .childType b => some { c with supervisor := b }
  /- child_spec.rs:97-107 -/
  | .significant b =>
    if b && c.restart ≠ .temporary && c.restart ≠ .transient then none else some { c with significant := b }

def Spec.sets {F S : Type} (c : Spec F S) : List (Setting F S) → Option (Spec F S)
  | [] => some c
  | x :: l => (c.set x).bind fun c => c.sets l

end Verif.NodeText
