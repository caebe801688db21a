import Verif.NodeDownProps
import Verif.LinkProps
import Verif.ClientLemmas
/-!
# C82: stopping the node and its connections

A connection consists of a supervisor process and the sender and receiver processes it starts with `spawn_link`
(node_remote.rs:303-304). For a connection this node initiated, the supervisor process is the connector process, which has linked itself
to the local node's supervisor (node_remote.rs:370, `Process::link(local)`). For a connection that was accepted the supervisor process is
spawned by the accepter process (node_remote.rs:352) and links itself to itself (node_remote.rs:295), so to nobody.
-/
namespace Verif.World
variable {B V : Type}

/-- The supervisor process of the started local node. -/
def localSupervisor (w : World B V) : Option Nat :=
  match w.nodeMap .loc with
  | none => none
  | some _ => (w.nodeRegs LOCAL_NODE_ID).bind (·.sup)

/-- Stopping the node terminates its supervisor and changes no other process, no link and no mailbox. -/
theorem nodeStop_eff (ser : V → B) (w : World B V) (me L : Nat) (hme : running w me = true) (hL : localSupervisor w = some L) :
    let w' := (step ser w (.nodeStop me)).1
    w'.procs = (terminate w L .kill).procs ∧ w'.links = w.links ∧ w'.sent = w.sent := by
  unfold localSupervisor at hL
  simp only [step, Op.caller, hme, if_true, Op.exec, nodeStop]
  cases hm : w.nodeMap .loc with
  | none => simp [hm] at hL
  | some i =>
    cases hg : w.nodeRegs LOCAL_NODE_ID with
    | none => simp [hm, hg] at hL
    | some g =>
      simp only [hm, hg, Option.bind_some] at hL
      simp only [hL, killOpt, nodePanic, processExit]
      cases hp : w.procs L with
      | none => simp [terminate, modProc, hp]; funext j; by_cases h : j = L <;> simp [upd_at, h, hp]
      | some p => simp [terminate, modProc, hp]

/-- A process that is linked to a process killed with reason kill is killed too once the latter is dropped. -/
theorem killed_through (ser : V → B) (os : List (Op B V)) (a b : Nat) (p q : Proc B V) :
    let w := run ser init os
    let w' := (step ser w (.drop a)).1
    w.procs a = some p → p.aborted = true → p.reason = some .kill → b ≠ a → w.procs b = some q → q.trap = false →
    Pid.loc b ∈ w.links a →
    exists? w' a = false ∧ ∃ q', w'.procs b = some q' ∧ q'.aborted = true ∧ q'.reason = some .kill := by
  intro w w' hp ha hr hb hq ht hl
  obtain ⟨q', D, h1, -, -, h2, -⟩ := C29_death_signals ser os a b p q hp (.inr ha) hb hq
  have hr' : p.reason.getD .normal = .kill := by rw [hr]; rfl
  rw [hr'] at h2
  rw [if_pos ⟨hl, ht, rfl⟩] at h2
  simp only [Prod.mk.injEq] at h2
  refine ⟨?_, q', h1, h2.2, h2.1⟩
  have hd : doomed w a = true := by simp [doomed, hp, ha]
  have he : w' = dropProc w a := by simp [w', step, Op.caller, Op.exec, hd]
  obtain ⟨h3, -⟩ := drop_eff w a p hp (run_linksNodup ser os a)
  rw [he]; simp [exists?, h3]

/-- Dropping processes that are gone or aborted removes them all. -/
theorem drop_all (ser : V → B) (ws : List Nat) : ∀ os : List (Op B V),
    (∀ x ∈ ws, x < (run ser init os).nextPid ∧ ∀ q, (run ser init os).procs x = some q → q.aborted = true) →
    ∀ x ∈ ws, exists? (run ser (run ser init os) (ws.map Op.drop)) x = false := by
  induction ws with
  | nil => intro os _ x hx; simp at hx
  | cons y ws ih =>
    intro os h x hx
    have hrun : run ser init (os ++ [.drop y]) = (step ser (run ser init os) (.drop y)).1 := by simp [run, List.foldl_append]
    show exists? (run ser (step ser (run ser init os) (.drop y)).1 (ws.map Op.drop)) x = false
    rw [← hrun]
    have hmono : (run ser init os).nextPid ≤ (run ser init (os ++ [.drop y])).nextPid := by
      rw [hrun]; exact (step_mono_counters ser (run ser init os) (.drop y)).1
    have hgone : ∀ z, (run ser init os).procs z = none → z < (run ser init os).nextPid →
        (run ser init (os ++ [.drop y])).procs z = none := by
      intro z hz hlt
      rw [hrun]; exact (absent_run ser _ [.drop y] z hlt hz).1
    have hy : (run ser init (os ++ [.drop y])).procs y = none := by
      cases hp : (run ser init os).procs y with
      | none => exact hgone y hp (h y (by simp)).1
      | some p =>
        have ha := (h y (by simp)).2 p hp
        have hd : doomed (run ser init os) y = true := by simp [doomed, hp, ha]
        have he : (step ser (run ser init os) (.drop y)).1 = dropProc (run ser init os) y := by simp [step, Op.caller, Op.exec, hd]
        obtain ⟨h3, -⟩ := drop_eff _ y p hp (run_linksNodup ser os y)
        rw [hrun, he]; exact h3
    by_cases hxy : x = y
    · subst hxy
      have := (absent_run ser _ (ws.map Op.drop) x (Nat.lt_of_lt_of_le (h x (by simp)).1 hmono) hy).1
      simp [exists?, this]
    · have hx' : x ∈ ws := by simpa [hxy] using hx
      refine ih (os ++ [.drop y]) ?_ x hx'
      intro z hz
      obtain ⟨hlt, hq⟩ := h z (by simp [hz])
      refine ⟨Nat.lt_of_lt_of_le hlt hmono, ?_⟩
      intro q' hq'
      cases hp : (run ser init os).procs y with
      | none =>
        have hd : doomed (run ser init os) y = false := by simp [doomed, hp]
        have he : (step ser (run ser init os) (.drop y)).1 = run ser init os := by simp [step, Op.caller, Op.exec, hd]
        rw [hrun, he] at hq'; exact hq q' hq'
      | some p =>
        cases hzq : (run ser init os).procs z with
        | none => rw [hgone z hzq hlt] at hq'; simp at hq'
        | some q =>
          by_cases hzy : z = y
          · subst hzy; rw [hy] at hq'; simp at hq'
          · obtain ⟨q2, D, g1, -, -, g2, -⟩ := C29_death_signals ser os y z p q hp (.inr ((h y (by simp)).2 p hp)) hzy hzq
            rw [← hrun, hq'] at g1
            cases g1
            split at g2 <;> simp only [Prod.mk.injEq] at g2
            · exact g2.2
            · rw [g2.2, hq q hzq]

/-- C82, the part that holds: a connection whose supervisor process `c` is linked to the local node's supervisor `L` - one this node
initiated - is closed by stopping the node. In every reachable state: after `Node::stop` by any running process, when the processes that
were killed are dropped, the supervisor of the connection and all processes `ws` linked to it (its sender and receiver) are gone. Missing:
accepted connections, see `C82_accepted_violated`. -/
theorem C82_initiated_partial (ser : V → B) (os : List (Op B V)) (me L c : Nat) (ws : List Nat) :
    let w := run ser init os
    let w' := run ser w (.nodeStop me :: .drop L :: .drop c :: ws.map .drop)
    running w me = true → localSupervisor w = some L → exists? w L = true →
    c ≠ L → Pid.loc c ∈ w.links L → (∃ q, w.procs c = some q ∧ q.trap = false) →
    (∀ x ∈ ws, x ≠ c ∧ x ≠ L ∧ Pid.loc x ∈ w.links c ∧ ∃ q, w.procs x = some q ∧ q.trap = false) →
    ∀ x ∈ L :: c :: ws, exists? w' x = false := by
  intro w w' hme hL heL hcL hl hc hws
  have hstop := nodeStop_eff ser w me L hme hL
  obtain ⟨qc, hqc, htc⟩ := hc
  obtain ⟨pL, hpL⟩ : ∃ p, w.procs L = some p := by
    unfold exists? at heL; cases h : w.procs L with
    | none => simp [h] at heL
    | some p => exact ⟨p, rfl⟩
  have r1 : run ser init (os ++ [.nodeStop me]) = (step ser w (.nodeStop me)).1 := by simp [run, List.foldl_append, w]
  have r2 : run ser init (os ++ [.nodeStop me] ++ [.drop L]) = (step ser (run ser init (os ++ [.nodeStop me])) (.drop L)).1 := by
    simp [run, List.foldl_append]
  have r3 : run ser init (os ++ [.nodeStop me] ++ [.drop L] ++ [.drop c]) =
      (step ser (run ser init (os ++ [.nodeStop me] ++ [.drop L])) (.drop c)).1 := by
    simp [run, List.foldl_append]
  have hw' : w' = run ser (run ser init (os ++ [.nodeStop me] ++ [.drop L] ++ [.drop c])) (ws.map .drop) := by
    simp [w', w, run, List.foldl_append]
  have hold : ∀ x q, w.procs x = some q → x < w.nextPid := by
    intro x q h
    rcases Nat.lt_or_ge x w.nextPid with h1 | h1
    · exact h1
    · rw [run_bounded ser os x h1] at h; simp at h
  -- after the stop
  obtain ⟨s1, s2, -⟩ := hstop
  rw [← r1] at s1 s2
  have p1 : ∀ x, x ≠ L → (run ser init (os ++ [.nodeStop me])).procs x = w.procs x := by
    intro x hx; rw [s1]; simp [terminate, modProc, hpL, upd_at, hx]
  have pL1 : (run ser init (os ++ [.nodeStop me])).procs L = some { pL with reason := some .kill, aborted := true } := by
    rw [s1]; simp [terminate, modProc, hpL, upd_at]
  -- after the drop of `L`
  obtain ⟨gL, qc2, hqc2, ac2, rc2⟩ := killed_through ser (os ++ [.nodeStop me]) L c _ qc pL1 rfl rfl hcL (by rw [p1 c hcL]; exact hqc) htc
    (by rw [s2]; exact hl)
  rw [← r2] at gL hqc2
  have hdL : doomed (run ser init (os ++ [.nodeStop me])) L = true := by simp [doomed, pL1]
  have eL : (step ser (run ser init (os ++ [.nodeStop me])) (.drop L)).1 = dropProc (run ser init (os ++ [.nodeStop me])) L := by
    simp [step, Op.caller, Op.exec, hdL]
  obtain ⟨-, d2, -, d4, -⟩ := drop_eff _ L _ pL1 (run_linksNodup ser _ L)
  rw [← eL, ← r2] at d2 d4
  have p2 : ∀ x ∈ ws, Pid.loc x ∈ (run ser init (os ++ [.nodeStop me] ++ [.drop L])).links c ∧
      ∃ q, (run ser init (os ++ [.nodeStop me] ++ [.drop L])).procs x = some q ∧ q.trap = false := by
    intro x hx
    obtain ⟨h1, h2, h3, q, hq, ht⟩ := hws x hx
    refine ⟨?_, _, by rw [d2 x h2, p1 x h2, hq]; rfl, ?_⟩
    · rw [d4 c, if_neg hcL]
      split
      · exact List.mem_filter.2 ⟨by rw [s2]; exact h3, by simpa using h2⟩
      · rw [s2]; exact h3
    · simp only [afterDeath, signalled]
      (repeat' split) <;> first | exact ht | simp_all
  -- after the drop of `c`
  have p3 : ∀ x ∈ ws, exists? (run ser init (os ++ [.nodeStop me] ++ [.drop L] ++ [.drop c])) c = false ∧
      ∃ q, (run ser init (os ++ [.nodeStop me] ++ [.drop L] ++ [.drop c])).procs x = some q ∧ q.aborted = true := by
    intro x hx
    obtain ⟨h1, q, hq, ht⟩ := p2 x hx
    obtain ⟨g1, q', g2, g3, -⟩ := killed_through ser (os ++ [.nodeStop me] ++ [.drop L]) c x qc2 q hqc2 ac2 rc2 (hws x hx).1 hq ht h1
    rw [← r3] at g1 g2
    exact ⟨g1, q', g2, g3⟩
  have m1 : w.nextPid ≤ (run ser init (os ++ [.nodeStop me])).nextPid := by
    rw [r1]; exact (step_mono_counters ser w (.nodeStop me)).1
  have m2 : (run ser init (os ++ [.nodeStop me])).nextPid ≤ (run ser init (os ++ [.nodeStop me] ++ [.drop L])).nextPid := by
    rw [r2]; exact (step_mono_counters ser _ (.drop L)).1
  have m3 : (run ser init (os ++ [.nodeStop me] ++ [.drop L])).nextPid ≤
      (run ser init (os ++ [.nodeStop me] ++ [.drop L] ++ [.drop c])).nextPid := by
    rw [r3]; exact (step_mono_counters ser _ (.drop c)).1
  have hlL := hold L pL hpL
  have hlc := hold c qc hqc
  have goneL : exists? w' L = false := by
    have h : (run ser init (os ++ [.nodeStop me] ++ [.drop L])).procs L = none := by simpa [exists?] using gL
    have := (absent_run ser _ (.drop c :: ws.map .drop) L (by omega) h).1
    have he : w' = run ser (run ser init (os ++ [.nodeStop me] ++ [.drop L])) (.drop c :: ws.map .drop) := by
      simp [w', w, run, List.foldl_append]
    rw [he, exists?, this]; rfl
  have gonec : exists? w' c = false := by
    have hd : doomed (run ser init (os ++ [.nodeStop me] ++ [.drop L])) c = true := by
      rw [doomed, hqc2]; simp [ac2]
    have he : (step ser (run ser init (os ++ [.nodeStop me] ++ [.drop L])) (.drop c)).1 =
        dropProc (run ser init (os ++ [.nodeStop me] ++ [.drop L])) c := by
      simp only [step, Op.caller, Op.exec, hd, if_true]
    obtain ⟨h, -⟩ := drop_eff _ c _ hqc2 (run_linksNodup ser _ c)
    rw [← he, ← r3] at h
    have := (absent_run ser _ (ws.map .drop) c (by omega) h).1
    rw [hw', exists?, this]; rfl
  intro x hx
  simp only [List.mem_cons] at hx
  rcases hx with rfl | rfl | hx
  · exact goneL
  · exact gonec
  · rw [hw']
    refine drop_all ser ws _ ?_ x hx
    intro y hy
    obtain ⟨-, -, -, q, hq, -⟩ := hws y hy
    have := hold y q hq
    refine ⟨by omega, ?_⟩
    intro q' hq'
    obtain ⟨-, q2, g1, g2⟩ := p3 y hy
    rw [hq'] at g1; cases g1; exact g2

/-- Process 1 starts the node (supervisor 2, listener 3) and connects to node b (connector 4, workers 5 and 6). -/
def initiatedSample : List (Op Nat Nat) :=
  [.boot, .nodeStart 1 "a" (addr 1), .setTrap 2 true, .spawn 2 true false, .connect 1 (.rem "b" (addr 2)), .link 4 (.loc 2),
   .accept 4 (.rem "b" (addr 2)), .spawn 4 true false, .spawn 4 true false, .workers (.rem "b" (addr 2)) 5 6]

example : running (run id init initiatedSample) 1 = true ∧ localSupervisor (run id init initiatedSample) = some 2 ∧
    Pid.loc 4 ∈ (run id init initiatedSample).links 2 ∧ Pid.loc 5 ∈ (run id init initiatedSample).links 4 ∧
    Pid.loc 6 ∈ (run id init initiatedSample).links 4 ∧
    (∀ x ∈ [4, 5, 6], exists? (run id init initiatedSample) x = true ∧
      ((run id init initiatedSample).procs x).map (·.trap) = some false) := by
  refine ⟨by decide, rfl, by decide, by decide, by decide, ?_⟩
  intro x hx
  simp only [List.mem_cons, List.not_mem_nil, or_false] at hx
  rcases hx with rfl | rfl | rfl <;> decide

/-- Process 1 starts the node (supervisor 2, listener 3); a peer connects: the accepter 4 starts the supervisor 5 of the connection, which
links to itself, is accepted and starts its workers 6 and 7; the accepter ends. -/
def acceptedSample : List (Op Nat Nat) :=
  [.boot, .nodeStart 1 "a" (addr 1), .setTrap 2 true, .spawn 2 true false, .spawn 3 false false, .spawn 4 false false,
   .finish 4, .drop 4, .link 5 (.loc 5), .accept 5 (.rem "b" (addr 2)), .spawn 5 true false, .spawn 5 true false,
   .workers (.rem "b" (addr 2)) 6 7]

/-- C82 is false of the code for an accepted connection: after `Node::stop`, with the node's supervisor and listener gone and nothing left
that is to end, the connection's three processes live on, and its receiver still carries out what the peer sends: here a request to
kill the process that stopped the node. -/
theorem C82_accepted_violated :
    let w := run id init acceptedSample
    let w' := run id w [.nodeStop 1, .drop 2, .drop 3]
    running w 1 = true ∧ localSupervisor w = some 2 ∧ exists? w 2 = true ∧
    w'.nodeMap .loc = none ∧ exists? w' 2 = false ∧ exists? w' 3 = false ∧
    (∀ x ∈ [5, 6, 7], alive w' x = true ∧ doomed w' x = false) ∧
    alive w' 1 = true ∧ alive (run id w' [.frame 7 (.rem "b" (addr 2)) (.exit 1 9 .kill)]) 1 = false := by
  refine ⟨by decide, rfl, by decide, rfl, by decide, by decide, ?_, by decide, ?_⟩
  · intro x hx
    simp only [List.mem_cons, List.not_mem_nil, or_false] at hx
    rcases hx with rfl | rfl | rfl <;> decide
  · decide

end Verif.World
