import Verif.TwoNodeProps
import Verif.MonitorProps
/-!
# Giving up a monitor of a process of another node (C50)

`Process::demonitor` of a monitor on a remote process builds the right frame and hands it to `node_send_frame` with the node of the
*reference* (monitor.rs:52-57), which is this node, not the node of the monitored process.
-/
namespace Verif.World
open Verif.Mailbox
variable {B V : Type}

/-- Whatever happens to two nodes, each of them executes a history of its own. -/
theorem drun_left (ser : Sers V B) (c : Conn) (d : Duo B V) (l : List (DOp B V)) : ∃ os, (drun ser c d l).L = run ser.L d.L os := by
  induction l generalizing d with
  | nil => exact ⟨[], rfl⟩
  | cons s l ih =>
    obtain ⟨os, h⟩ := ih (dstep ser c d s)
    have : ∃ os', (dstep ser c d s).L = run ser.L d.L os' := by
      cases s with
      | left o => exact ⟨[o], rfl⟩
      | right o => exact ⟨[], rfl⟩
      | toR rp =>
        simp only [dstep]
        split
        · exact ⟨[], rfl⟩
        · split <;> exact ⟨[], rfl⟩
      | toL rp =>
        simp only [dstep]
        split
        · exact ⟨[], rfl⟩
        · split
          · exact ⟨[_], rfl⟩
          · exact ⟨[], rfl⟩
    obtain ⟨os', h'⟩ := this
    refine ⟨os' ++ os, ?_⟩
    rw [show drun ser c d (s :: l) = drun ser c (dstep ser c d s) l from rfl, h, h']
    simp [run]

/-- C50 is false of the code, always: whatever the processes of the two nodes do after the connection is set up, and in
particular however often they call `demonitor` on monitors of processes of the other node, and whichever of them die, no node ever
hands the connection (or queues for it) a frame that removes a monitor. -/
theorem C50_never_told_violated (ser : Sers V B) (c : Conn) (d : Duo B V) (l : List (DOp B V)) (h : Begins ser c d)
    (hl : ∀ s ∈ l, Legal c s) (i : Bool) (p : Option Nat) (nm : Option String) (fr : Option Nat) (n : Nat)
    (hf : NFrame.monitor i p nm fr n ∈ handed c.sL (drun ser c d l).L ++ (drun ser c d l).L.pending c.nR) : i = true :=
  ((minv_run l h.minv hl).mf i p nm fr n hf).1

/-- A monitor, its arrival on the other node, and its removal. -/
def demonSched : List (DOp Nat Nat) :=
  [.right .boot, .left (.monitor 1 (.pid (.rem 6 1))), .toR 5, .left (.demonitor 1 (.loc 1))]

/-- C50 is false of the code: process 1 monitors process 6 of the other node and calls `demonitor`; everything that was sent has
arrived; the other node still has the monitor, and when process 6 ends (which it does last here) it reports that, so a Down is put in the
mailbox of process 1. -/
theorem C50_state_remains_violated :
    let d := drun sameSer duoC duo demonSched
    Begins sameSer duoC duo ∧ (∀ s ∈ demonSched, Legal duoC s) ∧ Quiet duoC d ∧
    d.R.mons 6 = [(.rem 1 1, .rem 1 1, none)] ∧
    (let d' := drun sameSer duoC d [.right (.finish 6), .right (.drop 6), .toL 5]
     toLeft duoC (drun sameSer duoC d [.right (.finish 6), .right (.drop 6)]) = [.monitorDown [1] .normal] ∧ Quiet duoC d' ∧
       d'.L.sent = [(1, .down (.pid (.rem 6 1)) (.loc 1) .normal)]) := by
  refine ⟨duo_begins, ?_, ⟨rfl, rfl⟩, rfl, rfl, ⟨rfl, rfl⟩, rfl⟩
  intro s hs
  simp only [demonSched, List.mem_cons, List.not_mem_nil, or_false] at hs
  rcases hs with rfl | rfl | rfl | rfl
  · exact ⟨trivial, by simp⟩
  · exact ⟨trivial, by simp⟩
  · trivial
  · exact ⟨trivial, by simp⟩

/-- C50, the part that holds: what the calling process sees. Two nodes with a connection; after any history `l1` process `a` of the
left node, which got the reference `n` from a monitor operation, calls `demonitor`; if no selective receive of `a` has already passed over a
Down for `n`, then after any further history `l2` of the two nodes (the monitored process of the right node may die, and its Down
may arrive) no receive of `a` returns a Down for `n`. Missing: the other node is told (`C50_never_told_violated`), and nothing
remains there (`C50_state_remains_violated`). -/
theorem C50_no_down_partial (ser : Sers V B) (c : Conn) (d : Duo B V) (os : List (Op B V)) (l1 l2 : List (DOp B V)) (a n : Nat) (q : Proc B V) :
    let d1 := drun ser c d l1
    let d2 := drun ser c (dstep ser c d1 (.left (.demonitor a (.loc n)))) l2
    d1.L = run ser.L init os → .loc n ∈ refsOf (results ser.L init os) → d1.L.procs a = some q → running d1.L a = true →
    (∀ it ∈ q.box.items ++ q.box.chan, converted (.loc n) it = false) →
    ∀ o k dd e, received d2.L a o k ≠ some (.system (.processDown dd (.loc n) e)) := by
  intro d1 d2 h1 h2 h3 h4 h5 o k dd e
  obtain ⟨os', hos'⟩ := drun_left ser c (dstep ser c d1 (.left (.demonitor a (.loc n)))) l2
  have := C33_no_down_after_demonitor_partial ser.L os os' a n q
  simp only [← h1] at this
  show received (drun ser c (dstep ser c d1 (.left (.demonitor a (.loc n)))) l2).L a o k ≠ _
  rw [hos']
  exact this h2 h3 h4 h5 o k dd e

/-- The history of `C50_state_remains_violated` meets the hypotheses; there the Down does arrive, and is not received. -/
example (o : RecvOp Nat Nat) (k : RecvKind) (dd : Dest) (e : ExitReason) :
    received (drun sameSer duoC (drun sameSer duoC duo demonSched) [.right (.finish 6), .right (.drop 6), .toL 5]).L 1 o k ≠
      some (.system (.processDown dd (.loc 1) e)) :=
  C50_no_down_partial sameSer duoC duo (duoL ++ [.monitor 1 (.pid (.rem 6 1))]) (demonSched.take 3)
    [.right (.finish 6), .right (.drop 6), .toL 5] 1 1 _ rfl (by decide) rfl rfl (by intro it h; cases h) o k dd e

end Verif.World
