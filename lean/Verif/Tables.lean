import Verif.Types
/-!
# The table of the registries (registry.rs:34, :618-658)

`REGISTRY` maps the name of a registry to its entries. Every function of registry.rs:618-658, and every direct access to the
table, is one atomic operation: `DashMap` holds the lock of the outer entry during it.
-/
namespace Verif

/-- `RegistryKey`, registry.rs:36-52 (the range of the integers is not modelled). -/
inductive RKey
  | i32 (n : Int)
  | i64 (n : Int)
  | i128 (n : Int)
  | u32 (n : Nat)
  | u64 (n : Nat)
  | u128 (n : Nat)
  | str (s : String)
  deriving DecidableEq

/-- `map.get(key)` of a map kept as a list of pairs without duplicate keys. -/
def aget {K A : Type} [DecidableEq K] (l : List (K × A)) (k : K) : Option A := (l.find? fun x => x.1 = k).map Prod.snd

/-- `map.remove(key)`. -/
def adel {K A : Type} [DecidableEq K] (l : List (K × A)) (k : K) : List (K × A) := l.filter fun x => x.1 ≠ k

/-- `map.insert(key, value)`: replaces the entry of the key. -/
def aset {K A : Type} [DecidableEq K] (l : List (K × A)) (k : K) (v : A) : List (K × A) := adel l k ++ [(k, v)]

/-- The entries of one registry, `DashMap<RegistryKey, Pid>`. -/
abbrev Entries := List (RKey × Pid)

/-- `REGISTRY`, registry.rs:34. -/
abbrev Tables := String → Option Entries

/-- The accesses to `REGISTRY`. -/
inductive TOp
  | lookup (name : String) (k : RKey)
  | remove (name : String) (k : RKey)
  | count (name : String)
  | list (name : String)
  | insert (name : String) (k : RKey) (p : Pid)
  | removeIf (name : String) (k : RKey) (p : Pid)
  | take (name : String)

/-- What they return. -/
inductive TRes
  | found (p : Option Pid)
  | number (n : Nat)
  | entries (e : Option Entries)
  | unit

/-- `lookup_process` (registry.rs:618-622), `remove_process` (:625-629), `count_processes` (:632-637), `list_processes` (:640-650),
`register_process` (:653-658), the `alter` of `Registry::remove_process` (:464-467), and `REGISTRY.remove` (:392, :472). -/
def tableOp (t : Tables) : TOp → Tables × TRes
  | .lookup n k => (t, .found ((t n).bind fun e => aget e k))
  | .remove n k => (fun m => if m = n then (t n).map fun e => adel e k else t m, .found ((t n).bind fun e => aget e k))
  | .count n => (t, .number (((t n).map List.length).getD 0))
  | .list n => (t, .entries (some ((t n).getD [])))
  | .insert n k p => (fun m => if m = n then some (aset ((t n).getD []) k p) else t m, .unit)
  | .removeIf n k p => (fun m => if m = n then (t n).map fun e => if aget e k = some p then adel e k else e else t m, .unit)
  | .take n => (fun m => if m = n then none else t m, .entries (t n))

end Verif
