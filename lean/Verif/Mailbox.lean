import Verif.Types
/-!
# Mailbox model (`hydra/src/process_receiver.rs`, `process_item.rs`, `message.rs`)

`B` are serialized message bytes, `V` boxed values (`Box<dyn Any>`). A receivable type `T` is described by
`RecvType`: how bytes deserialize to it, how a boxed value downcasts to it and how it is boxed.
The filter is a pure predicate (the code takes `Fn`/`FnMut`).

An `async fn select` is split at its only await point (`recv_async().await`, process_receiver.rs:84): `select`
is the first poll, `resume` a later poll. A poll runs until a message is found or the channel is empty.
-/
namespace Verif.Mailbox

variable {B V T : Type}

/-- A type that can be received. `cast_box` is the contract of `Any::downcast`. -/
structure RecvType (B V T : Type) where
  deser : B → Option T
  cast : V → Option T
  box : T → V
  cast_box : ∀ t, cast (box t) = some t

/-- `ProcessItem`, process_item.rs:12-27. -/
inductive Item (B V : Type)
  | remote (b : B)
  | locl (v : V)
  | system (s : Sys)
  | down (d : Dest) (r : Ref) (reason : ExitReason)
  | nodeDown (n : Node) (r : Ref)
  | update (r : Ref) (p : Pid)
  | aliasOff (id : Nat)

/-- `Message<T>`, message.rs:5-10. -/
inductive Msg (T : Type)
  | user (t : T)
  | system (s : Sys)
  deriving DecidableEq

/-- The mailbox part of `Process`, process.rs:69-82: `items` are messages already popped, `chan` the channel.
`mons` is the map `monitors` as a list of pairs, `aliases` the set of alias ids. -/
structure Box (B V : Type) where
  items : List (Item B V)
  chan : List (Item B V)
  mons : List (Ref × PMon)
  aliases : List Nat

/-- Result of `process_item`: `Ok(Some(message))`, `Ok(None)`, `Err(())`. -/
inductive PRes (T : Type)
  | msg (m : Msg T)
  | skip
  | foreign

def hasMon (mons : List (Ref × PMon)) (r : Ref) : Bool := mons.any fun x => x.1 == r
def dropMon (mons : List (Ref × PMon)) (r : Ref) : List (Ref × PMon) := mons.filter fun x => x.1 != r

/-- `process_item`, process_receiver.rs:175-241: result, the item as rewritten in place, and the process-local monitor
map and alias set afterwards. -/
def processItem (τ : RecvType B V T) (mons : List (Ref × PMon)) (als : List Nat) (it : Item B V) :
    PRes T × Item B V × List (Ref × PMon) × List Nat :=
  match it with
  | .remote b =>
      match τ.deser b with
      | some t => (.msg (.user t), .locl (τ.box t), mons, als)
      | none => (.foreign, .remote b, mons, als)
  | .locl v =>
      match τ.cast v with
      | some t => (.msg (.user t), .locl v, mons, als)
      | none => (.foreign, .locl v, mons, als)
  | .system s => (.msg (.system s), .system s, mons, als)
  | .down d r e =>
      if hasMon mons r then
        (.msg (.system (.processDown d r e)), .system (.processDown d r e), dropMon mons r, als)
      else (.skip, .down d r e, mons, als)
  | .nodeDown n r =>
      if hasMon mons r then
        (.msg (.system (.nodeDown n r)), .system (.nodeDown n r), dropMon mons r, als)
      else (.skip, .nodeDown n r, mons, als)
  | .update r p =>
      (.skip, .update r p, mons.map fun x => if x.1 = r then (x.1, .forProcess (some p)) else x, als)
  | .aliasOff id => (.skip, .aliasOff id, mons, als.filter fun a => a != id)

/-- Outcome of one poll of a receive. -/
inductive Poll (T : Type)
  | got (m : Msg T)
  | pending
  | panicked
  deriving DecidableEq

/-- The scan of `items`, process_receiver.rs:45-75. `done` are the items already passed (rewritten in place). -/
def scanItems (τ : RecvType B V T) (filter : Msg T → Bool) (strict : Bool)
    (mons : List (Ref × PMon)) (als : List Nat) (done : List (Item B V)) :
    List (Item B V) → Poll T × List (Item B V) × List (Ref × PMon) × List Nat
  | [] => (.pending, done, mons, als)
  | it :: rest =>
      match processItem τ mons als it with
      | (.msg m, it', mons', als') =>
          if filter m then (.got m, done ++ rest, mons', als')
          else scanItems τ filter strict mons' als' (done ++ [it']) rest
      | (.skip, it', mons', als') => scanItems τ filter strict mons' als' (done ++ [it']) rest
      | (.foreign, it', mons', als') =>
          if strict then (.panicked, done ++ it' :: rest, mons', als')
          else scanItems τ filter strict mons' als' (done ++ [it']) rest

/-- The receive loop, process_receiver.rs:83-106, over the messages present in the channel. -/
def scanChan (τ : RecvType B V T) (filter : Msg T → Bool) (strict : Bool)
    (items : List (Item B V)) (mons : List (Ref × PMon)) (als : List Nat) :
    List (Item B V) → Poll T × Box B V
  | [] => (.pending, ⟨items, [], mons, als⟩)
  | it :: rest =>
      match processItem τ mons als it with
      | (.msg m, it', mons', als') =>
          if filter m then (.got m, ⟨items, rest, mons', als'⟩)
          else scanChan τ filter strict (items ++ [it']) mons' als' rest
      | (.skip, _, mons', als') => scanChan τ filter strict items mons' als' rest
      | (.foreign, it', mons', als') =>
          if strict then (.panicked, ⟨items, rest, mons', als'⟩)
          else scanChan τ filter strict (items ++ [it']) mons' als' rest

/-- A later poll of a pending `select`: only the channel is looked at. -/
def resume (τ : RecvType B V T) (filter : Msg T → Bool) (strict : Bool) (b : Box B V) : Poll T × Box B V :=
  scanChan τ filter strict b.items b.mons b.aliases b.chan

/-- The first poll of `ProcessReceiver::select`, process_receiver.rs:44-107. -/
def select (τ : RecvType B V T) (filter : Msg T → Bool) (strict : Bool) (b : Box B V) : Poll T × Box B V :=
  match scanItems τ filter strict b.mons b.aliases [] b.items with
  | (.pending, items, mons, als) => scanChan τ filter strict items mons als b.chan
  | (r, items, mons, als) => (r, ⟨items, b.chan, mons, als⟩)

/-- `ProcessReceiver::receive`, process_receiver.rs:150-152. -/
def receive (τ : RecvType B V T) (strict : Bool) (b : Box B V) : Poll T × Box B V :=
  select τ (fun _ => true) strict b

/-- `retain_mut` part of `remove`, process_receiver.rs:110-125; `none` is the strict panic. -/
def removeItems (τ : RecvType B V T) (filter : Msg T → Bool) (strict : Bool)
    (mons : List (Ref × PMon)) (als : List Nat) :
    List (Item B V) → Option (List (Item B V) × List (Ref × PMon) × List Nat)
  | [] => some ([], mons, als)
  | it :: rest =>
      match processItem τ mons als it with
      | (.msg m, it', mons', als') =>
          (removeItems τ filter strict mons' als' rest).map fun r =>
            (if filter m then r.1 else it' :: r.1, r.2)
      | (.skip, it', mons', als') =>
          (removeItems τ filter strict mons' als' rest).map fun r => (it' :: r.1, r.2)
      | (.foreign, it', mons', als') =>
          if strict then none
          else (removeItems τ filter strict mons' als' rest).map fun r => (it' :: r.1, r.2)

/-- `drain` part of `remove`, process_receiver.rs:127-146. -/
def removeChan (τ : RecvType B V T) (filter : Msg T → Bool) (strict : Bool)
    (items : List (Item B V)) (mons : List (Ref × PMon)) (als : List Nat) :
    List (Item B V) → Option (Box B V)
  | [] => some ⟨items, [], mons, als⟩
  | it :: rest =>
      match processItem τ mons als it with
      | (.msg m, it', mons', als') =>
          removeChan τ filter strict (if filter m then items else items ++ [it']) mons' als' rest
      | (.skip, _, mons', als') => removeChan τ filter strict items mons' als' rest
      | (.foreign, it', mons', als') =>
          if strict then none else removeChan τ filter strict (items ++ [it']) mons' als' rest

/-- `ProcessReceiver::remove`, process_receiver.rs:110-147. -/
def remove (τ : RecvType B V T) (filter : Msg T → Bool) (strict : Bool) (b : Box B V) : Option (Box B V) :=
  match removeItems τ filter strict b.mons b.aliases b.items with
  | none => none
  | some (items, mons, als) => removeChan τ filter strict items mons als b.chan

/-- Delivery of an item: `sender.send(item)`. -/
def deliver (b : Box B V) (it : Item B V) : Box B V := { b with chan := b.chan ++ [it] }

end Verif.Mailbox
