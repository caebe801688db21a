import Verif.NodeDownProps
/-!
# Giving up the monitor of a node (C91)
-/
namespace Verif.World
open Verif.Mailbox
variable {B V : Type}

/-- C91, without the messages a selective receive has already set aside (compare C33). After any history `os`, in which `a` got the
reference `n`, `a` calls `Node::demonitor`; if no selective receive of `a` has already passed over a NodeDown for it, then after any
further history no receive of `a`, of whatever type and filter, returns a NodeDown for it - even if the connection was lost before the
call and the NodeDown was already in the mailbox. Missing: `C91_no_nodedown_violated`. -/
theorem C91_no_nodedown_partial (ser : V → B) (os os' : List (Op B V)) (a n : Nat) (q : Proc B V) :
    let w0 := run ser init os
    let w1 := run ser (step ser w0 (.nodeDemonitor a (.loc n))).1 os'
    .loc n ∈ refsOf (results ser init os) → w0.procs a = some q → running w0 a = true →
    (∀ it ∈ q.box.items ++ q.box.chan, converted (.loc n) it = false) →
    ∀ o k N, received w1 a o k ≠ some (.system (.nodeDown N (.loc n))) := by
  intro w0 w1 hr hq hrun hit o k N
  refine got_box (.loc n) w1 a o k ?_ _ (by simp [converted])
  refine removed_run ser n a _ os' ?_ ?_
  · have h1 := refs_lt ser os init n hr
    have h2 := (step_mono_counters ser w0 (.nodeDemonitor a (.loc n))).2
    exact Nat.lt_of_lt_of_le h1 h2
  · intro b hb
    simp only [List.mem_append] at hit
    have hold : hasMon q.box.mons (.loc n) = false → b = q.box → BoxOk (fun m _ => hasMon m (.loc n) = false) (fun it => converted (.loc n) it = false) b := by
      rintro h rfl; exact ⟨h, fun it h => hit it (.inl h), fun it h => hit it (.inr h)⟩
    have hnew : b.items = q.box.items → b.chan = q.box.chan → b.mons = dropMon q.box.mons (.loc n) →
        BoxOk (fun m _ => hasMon m (.loc n) = false) (fun it => converted (.loc n) it = false) b := by
      intro h1 h2 h3
      refine ⟨?_, by rw [h1]; exact fun it h => hit it (.inl h), by rw [h2]; exact fun it h => hit it (.inr h)⟩
      show hasMon _ _ = false
      rw [h3, hasMon_dropMon]; simp
    simp only [step, Op.caller, hrun, if_true, Op.exec, nodeDemonitor, hq] at hb
    cases hg : getMon q.box (.loc n) with
    | none =>
      simp only [hg] at hb
      refine hold ?_ (by simpa [pmap, hq] using hb.symm)
      unfold getMon at hg
      rw [Option.map_eq_none_iff, List.find?_eq_none] at hg
      unfold hasMon
      rw [List.any_eq_false]; exact hg
    | some m =>
      simp only [hg] at hb
      cases m with
      | forNode N => simp [pmap, upd_at, hq] at hb; subst hb; exact hnew rfl rfl rfl
      | forProcess op => simp [pmap, upd_at, hq] at hb; subst hb; exact hnew rfl rfl rfl

/-- C91: nothing of the monitor remains in the node's tables either. -/
theorem C91_entry_gone (ser : V → B) (w : World B V) (a n : Nat) (q : Proc B V) (N : Node) (hq : w.procs a = some q)
    (hrun : running w a = true) (hm : getMon q.box (.loc n) = some (.forNode N)) :
    ∀ x ∈ (step ser w (.nodeDemonitor a (.loc n))).1.nodeMons N, x.1 ≠ .loc n := by
  simp only [step, Op.caller, hrun, if_true, Op.exec, nodeDemonitor, hq, hm, delNodeMon, upd_at, if_true]
  intro x hx
  simpa using (List.mem_filter.1 hx).2

/-- A node monitor whose connection is lost. -/
def nodeLost : List (Op Nat Nat) :=
  [.boot, .nodeStart 1 "a" (addr 1), .nodeMonitor 1 (.rem "b" (addr 2)), .supDown (.rem "b" (addr 2)) 3]

/-- C91 is false of the code for the same reason as C33: a selective receive that passes over the NodeDown makes it an ordinary message. -/
theorem C91_no_nodedown_violated :
    received (run id init (nodeLost ++ [.recv 1 onlyUser .select, .nodeDemonitor 1 (.loc 1)])) 1 anything .select =
      some (.system (.nodeDown (.rem "b" (addr 2)) (.loc 1))) := rfl

/-- Without the selective receive the hypotheses of the partial theorem are met; the NodeDown is in the mailbox. -/
example (o : RecvOp Nat Nat) (k : RecvKind) (N : Node) :
    received (run id init (nodeLost ++ [.nodeDemonitor 1 (.loc 1)])) 1 o k ≠ some (.system (.nodeDown N (.loc 1))) :=
  C91_no_nodedown_partial id nodeLost [] 1 1 _ (by decide) rfl rfl
    (by intro it h; simp [deliver, setMon, newProc] at h; subst h; rfl) o k N

example : ∃ q, (run id init (nodeLost.take 3)).procs 1 = some q ∧ getMon q.box (.loc 1) = some (.forNode (.rem "b" (addr 2))) :=
  ⟨_, rfl, rfl⟩

end Verif.World
