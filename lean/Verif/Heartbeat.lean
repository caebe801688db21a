import Verif.Codec
/-!
# Heartbeats

The loops of the sender and the receiver of a connection, node_remote.rs:103-278, as functions of what arrives and when. Time is a natural number.
`late k` is the delay with which the runtime polls the task in round `k` after it could go on, `cost k` the time the rest of round `k` takes: both
are arbitrary. `pingora_timeout::timeout` polls the future before the timer, so that a result that is there when the task is polled wins.
-/
namespace Verif.Heartbeat
open Verif.Codec (Frame)

/-! ## The sender -/

/-- `since`: the sender waits since then; `next`: the number of messages it has received; `log`: the frames written to the socket with the
time at which the write was complete. -/
structure Sender where
  since : Nat
  next : Nat
  log : List (Nat × Frame)

/-- One round of `node_remote_sender`, node_remote.rs:106-134. `inbox j` is the `j`-th message: the time at which it is in the mailbox and its frames
(`SendFrame` has one, `SendFrames` any number); `none`: there is no such message. A write that fails ends the process and is not modelled. -/
def sendRound (interval : Nat) (inbox : Nat → Option (Nat × List Frame)) (late cost : Nat → Nat) (k : Nat) (s : Sender) : Sender :=
  let polled := s.since + interval + late k
  match inbox s.next with
  | some (t, fs) =>
    if t ≤ polled then
      let at_ := if t ≤ s.since + interval then max s.since t + late k else polled
      ⟨at_ + cost k, s.next + 1, s.log ++ fs.map fun f => (at_ + cost k, f)⟩
    else ⟨polled + cost k, s.next, s.log ++ [(polled + cost k, .ping)]⟩
  | none => ⟨polled + cost k, s.next, s.log ++ [(polled + cost k, .ping)]⟩

/-- The first `n` rounds. -/
def sendRounds (interval : Nat) (inbox : Nat → Option (Nat × List Frame)) (late cost : Nat → Nat) (t₀ : Nat) : Nat → Sender
  | 0 => ⟨t₀, 0, []⟩
  | n + 1 => sendRound interval inbox late cost n (sendRounds interval inbox late cost t₀ n)

/-! ## The receiver -/

/-- What the reader yields: a frame, or an error of the socket or the codec, or the end of the stream. -/
inductive Event
  | frame (f : Frame)
  | broken
  deriving DecidableEq

/-- `since`: waiting since then; `next`: the number of events it has seen; `down`: the time at which the receiver panicked; `pongs`: the number of times
it told the supervisor to send a `Pong`; `got`: the frames handled. -/
structure Receiver where
  since : Nat
  next : Nat
  down : Option Nat
  pongs : Nat
  got : List Frame

/-- One round of `node_remote_receiver`, node_remote.rs:140-277. `arr j` is the `j`-th event of the reader with its time. What the frames do to the
tables is `World.frame`; `panics f` says whether handling `f` panics (a `Monitor` without `from_id`, node_remote.rs:161-163, for instance). -/
def recvRound (timeout : Nat) (arr : Nat → Option (Nat × Event)) (panics : Frame → Bool) (late cost : Nat → Nat) (k : Nat) (r : Receiver) : Receiver :=
  match r.down with
  | some _ => r
  | none =>
    let polled := r.since + timeout + late k
    match arr r.next with
    | some (t, e) =>
      if t ≤ polled then
        let at_ := if t ≤ r.since + timeout then max r.since t + late k else polled
        match e with
        | .broken => { r with next := r.next + 1, down := some at_ }
        | .frame (.hello _ _ _) => { r with next := r.next + 1, down := some at_ }
        | .frame f =>
          if panics f then { r with next := r.next + 1, down := some at_ }
          else ⟨at_ + cost k, r.next + 1, none, if f = .ping then r.pongs + 1 else r.pongs, r.got ++ [f]⟩
      else { r with down := some polled }
    | none => { r with down := some polled }

def recvRounds (timeout : Nat) (arr : Nat → Option (Nat × Event)) (panics : Frame → Bool) (late cost : Nat → Nat) (t₀ : Nat) : Nat → Receiver
  | 0 => ⟨t₀, 0, none, 0, []⟩
  | n + 1 => recvRound timeout arr panics late cost n (recvRounds timeout arr panics late cost t₀ n)

end Verif.Heartbeat
