import Verif.TightProps
/-!
# The life of a node and of its connections (C95, C96, C98, C99)

Observables: `nodeAlive` is `Node::alive` (node_registry.rs:77-79), `listed` is membership in `Node::list` (node_registry.rs:346-358), `listedIn` is
membership in `Node::list_by_state` (node_registry.rs:360-371), `identity` (IdentProps) is the name and address the node has for itself,
`localSupervisor` (NodeStopProps) the process returned by `Node::start`, `connSup` (TightProps) the process that runs a connection.
-/
namespace Verif.World
open Verif.Mailbox
variable {B V : Type}

/-- `Node::alive`, node_registry.rs:77-79. -/
def nodeAlive (w : World B V) : Bool := (w.nodeMap .loc).isSome

/-- The node is in `Node::list()`, node_registry.rs:346-358. -/
def listed (w : World B V) (N : Node) : Prop := N ≠ .loc ∧ (w.nodeMap N).isSome = true

/-- The node is in `Node::list_by_state(s)`, node_registry.rs:360-371. -/
def listedIn (w : World B V) (s : NState) (N : Node) : Prop :=
  ∃ id g, w.nodeRegs id = some g ∧ g.state = s ∧ N = .rem g.name g.addr

/-! ## C95: starting and stopping the node -/

/-- C95. Starting a node that is not distributed makes it distributed: it is alive, has the given name and address, and a fresh process runs it.
No other process, node or mailbox is touched. -/
theorem C95_start (ser : V → B) (os : List (Op B V)) (me : Nat) (name : String) (ad : Codec.SockAddr) :
    let w := run ser init os
    let w' := (step ser w (.nodeStart me name ad)).1
    running w me = true → nodeAlive w = false →
    nodeAlive w' = true ∧ identity w' = some (name, ad) ∧
    (∃ L, localSupervisor w' = some L ∧ exists? w L = false ∧ running w' L = true ∧ (∀ j, j ≠ L → w'.procs j = w.procs j)) ∧
    (∀ N, listed w' N ↔ listed w N) ∧ (∀ N, connSup w' N = if N = .loc then localSupervisor w' else connSup w N) ∧ w'.sent = w.sent := by
  intro w w' hrun hal
  have hm : w.nodeMap .loc = none := by simpa [nodeAlive] using hal
  have hi : NodeInv (nt w) := run_nodeInv ser os
  have hw : w' = { (spawnRaw w).1 with
      nodeRegs := upd w.nodeRegs LOCAL_NODE_ID (some ⟨some w.nextPid, none, none, .current, name, ad⟩),
      nodeMap := upd w.nodeMap .loc (some LOCAL_NODE_ID) } := by
    simp only [w', step, Op.caller, hrun, if_true, Op.exec, nodeStart, hm]; rfl
  have hfr : w.procs w.nextPid = none := run_bounded ser os w.nextPid (Nat.le_refl _)
  rw [hw]
  refine ⟨by simp [nodeAlive, upd_at], by simp [identity, upd_at], ⟨w.nextPid, by simp [localSupervisor, upd_at], by simp [exists?, hfr],
    by simp [running, spawnRaw, upd_at, newProc], ?_⟩, ?_, ?_, rfl⟩
  · intro j hj; simp [spawnRaw, upd_at, hj]
  · intro N
    simp only [listed, upd_at]
    by_cases h : N = .loc <;> simp [h]
  · intro N
    by_cases h : N = .loc
    · subst h; simp [connSup, localSupervisor, upd_at]
    · simp only [connSup, upd_at, h, if_false]
      cases hN : w.nodeMap N with
      | none => rfl
      | some id =>
        have : id ≠ LOCAL_NODE_ID := by
          rcases hi.range N id hN with ⟨h1, -⟩ | ⟨-, h1, -⟩
          · exact absurd h1 h
          · simp [LOCAL_NODE_ID]; omega
        simp [this]

/-- Only the process itself is changed: it has panicked with the message. -/
def OnlyPanics (w w' : World B V) (me : Nat) (msg : String) : Prop := w' = crash w me msg

/-- C95. Starting a distributed node again, and stopping a node that is not distributed, panics the caller and changes nothing else. -/
theorem C95_twice (ser : V → B) (w : World B V) (me : Nat) (name : String) (ad : Codec.SockAddr) (hrun : running w me = true) :
    (nodeAlive w = true → OnlyPanics w (step ser w (.nodeStart me name ad)).1 me "Local node already started!") ∧
    (nodeAlive w = false → OnlyPanics w (step ser w (.nodeStop me)).1 me "Local node not started!") := by
  constructor
  · intro h
    cases hm : w.nodeMap .loc with
    | none => simp [nodeAlive, hm] at h
    | some k => simp [OnlyPanics, step, Op.caller, hrun, Op.exec, nodeStart, hm]
  · intro h
    have hm : w.nodeMap .loc = none := by simpa [nodeAlive] using h
    simp [OnlyPanics, step, Op.caller, hrun, Op.exec, nodeStop, hm]

/-- The node is not distributed, knows no other node and holds no frame back. -/
structure Undistributed (w : World B V) : Prop where
  dead : nodeAlive w = false
  ident : identity w = none
  list : ∀ N, ¬ listed w N
  states : ∀ s N, ¬ listedIn w s N
  queues : ∀ N, w.pending N = []
  conns : ∀ N, connSup w N = none

theorem undistributed_nodePanic (w : World B V) : Undistributed (nodePanic w) :=
  ⟨rfl, rfl, by simp [listed, nodePanic], by simp [listedIn, nodePanic], fun _ => rfl, by simp [connSup, nodePanic]⟩

/-- C95. Stopping a distributed node makes it undistributed again: no other node is known any more, in no state; the process that runs
the node is killed and no other process or mailbox is changed; the node can be started again (`C95_start`). The same holds, without the kill, when
that process ends by itself. -/
theorem C95_stop (ser : V → B) (w : World B V) (me L : Nat) (hrun : running w me = true) (hL : localSupervisor w = some L) :
    (let w' := (step ser w (.nodeStop me)).1
     Undistributed w' ∧ w'.sent = w.sent ∧ (∀ j, j ≠ L → w'.procs j = w.procs j) ∧
     ∀ p, w.procs L = some p → ∃ p', w'.procs L = some p' ∧ p'.reason = some .kill ∧ p'.aborted = true) ∧
    (let w' := (step ser w .nodePanic).1; Undistributed w' ∧ w'.sent = w.sent ∧ w'.procs = w.procs) := by
  obtain ⟨h1, -, h3⟩ := nodeStop_eff ser w me L hrun hL
  refine ⟨⟨?_, h3, ?_, ?_⟩, undistributed_nodePanic w, rfl, rfl⟩
  · simp only [step, Op.caller, hrun, if_true, Op.exec, nodeStop]
    cases hm : w.nodeMap .loc with
    | none => simp [localSupervisor, hm] at hL
    | some k => exact undistributed_nodePanic _
  · intro j hj; rw [h1]; simp [terminate, modProc, upd_at, hj]
  · intro p hp; rw [h1]
    exact ⟨{ p with reason := some .kill, aborted := true }, by simp [terminate, modProc, upd_at, hp], rfl, rfl⟩

example : let w := run id init ([.boot] : List (Op Nat Nat))
    running w 1 = true ∧ nodeAlive w = false ∧
    localSupervisor (step id w (.nodeStart 1 "a" (addr 1))).1 = some 2 := ⟨rfl, rfl, rfl⟩

/-! ## C96: connecting and monitoring begin a connection -/

/-- C96. After `Node::connect` or `Node::monitor` on another node there is a process that runs (or attempts) the connection. If there was one before, no
other is started and the node keeps its state; if not, a fresh process is started and the node is listed as pending. (The process of an
existing connection may itself be about to die; then its end is reported by C47.) -/
theorem C96_connects (ser : V → B) (os : List (Op B V)) (me : Nat) (N : Node) (o : Op B V) :
    let w := run ser init os
    let w' := (step ser w o).1
    N ≠ .loc → running w me = true → (o = .connect me N ∨ o = .nodeMonitor me N) →
    listed w' N ∧
    (∀ s, connSup w N = some s → connSup w' N = some s ∧ (∀ j, exists? w' j = exists? w j) ∧ ∀ st, listedIn w' st N ↔ listedIn w st N) ∧
    (connSup w N = none → ∃ s, connSup w' N = some s ∧ exists? w s = false ∧ running w' s = true ∧
      (∀ j, j ≠ s → exists? w' j = exists? w j) ∧ listedIn w' .pending N) := by
  intro w w' hN hrun ho
  have hi : NodeInv (nt w) := run_nodeInv ser os
  have hb : Bounded w := run_bounded ser os
  -- both are a registration in a world with the same node tables and the same processes up to their mailboxes
  have hw : ∃ v : World B V, w' = (nodeRegister v N true).1 ∧ v.nodeMap = w.nodeMap ∧ v.nodeRegs = w.nodeRegs ∧ v.nextPid = w.nextPid ∧
      (∀ j, exists? v j = exists? w j) := by
    rcases ho with rfl | rfl
    · exact ⟨w, by simp [w', step, Op.caller, hrun, Op.exec, hN], rfl, rfl, rfl, fun _ => rfl⟩
    · cases N with
      | loc => exact absurd rfl hN
      | rem x y =>
        refine ⟨addNodeMon (modBox (newRef w).1 me (setMon · (newRef w).2 (.forNode (.rem x y)))) (.rem x y) (newRef w).2 (.node me),
          by simp only [w', step, Op.caller, hrun, if_true, Op.exec, nodeMonitor], rfl, rfl, rfl, ?_⟩
        intro j
        simp only [exists?, addNodeMon, modBox, modProc, newRef, upd_at]
        split
        · subst_vars; simp
        · rfl
  obtain ⟨v, hw', e1, e2, e3, e4⟩ := hw
  rw [hw']
  clear hw'
  cases hNN : N with
  | loc => exact absurd hNN hN
  | rem x y =>
    simp only [nodeRegister, e1]
    cases hm : w.nodeMap (.rem x y) with
    | none =>
      have hc : connSup w (.rem x y) = none := by simp [connSup, hm]
      simp only [if_true]
      refine ⟨by simp [listed, upd_at], by simp [hc], ?_⟩
      intro _
      refine ⟨w.nextPid, by simp [connSup, upd_at, spawnRaw, e3], by simp [exists?, hb _ (Nat.le_refl _)],
        by simp [running, spawnRaw, upd_at, newProc, e3], ?_, ?_⟩
      · intro j hj
        rw [← e4]; simp [exists?, spawnRaw, upd_at, e3, hj]
      · exact ⟨v.nextNode, _, by simp [spawnRaw, upd_at]; rfl, rfl, rfl⟩
    | some id =>
      obtain ⟨g, hg, hgN⟩ := hi.reg _ _ hm
      have hg : w.nodeRegs id = some g := hg
      have hgN := hgN (by simp)
      have hc : connSup w (.rem x y) = g.sup := by simp [connSup, hm, hg]
      simp only [if_true, e2, hg]
      cases hs : g.sup with
      | some s =>
        refine ⟨by simp [listed, e1, hm], ?_, by simp [hc, hs]⟩
        intro s' hs'
        rw [hc, hs] at hs'
        refine ⟨by simpa [connSup, e1, e2, hm, hg, hs] using hs', e4, ?_⟩
        intro st; simp [listedIn, e2]
      | none =>
        refine ⟨by simp [listed, e1, hm, spawnRaw], by simp [hc, hs], ?_⟩
        intro _
        refine ⟨w.nextPid, by simp [connSup, upd_at, spawnRaw, e3, e1, hm], by simp [exists?, hb _ (Nat.le_refl _)],
          by simp [running, spawnRaw, upd_at, newProc, e3], ?_, ?_⟩
        · intro j hj
          rw [← e4]; simp [exists?, spawnRaw, upd_at, e3, hj]
        · exact ⟨id, { g with sup := some v.nextPid, state := .pending }, by simp [spawnRaw, upd_at], rfl, hgN⟩

example : let w := run id init ([.boot, .nodeStart 1 "a" (addr 1)] : List (Op Nat Nat))
    connSup w (.rem "b" (addr 2)) = none ∧ connSup (step id w (.nodeMonitor 1 (.rem "b" (addr 2)))).1 (.rem "b" (addr 2)) = some 3 := ⟨rfl, rfl⟩

/-! ## C98: the node lists -/

/-- The state of every registered node agrees with whether a process runs its connection; only the local node is current. -/
def StateInv (t : NT B) : Prop :=
  ∀ id g, t.nodeRegs id = some g → (g.state = .current ↔ id = LOCAL_NODE_ID) ∧ (g.state = .known → g.sup = none) ∧
    (g.state ≠ .known → g.sup ≠ none)

/-- No operation disconnects or otherwise ends the local node as if it were a remote one. -/
theorem stateInv_set {t : NT B} (h : StateInv t) (hi : NodeInv t) (n : Node) (hn : n ≠ .loc) (g : NReg) (hs1 : g.state ≠ .current)
    (hs2 : g.state = .known → g.sup = none) (hs3 : g.state ≠ .known → g.sup ≠ none) : StateInv (t.setReg n g) := by
  unfold NT.setReg
  cases hm : t.nodeMap n with
  | none => exact h
  | some k =>
    intro id g' hg'
    simp only [upd_at] at hg'
    split at hg'
    · subst_vars
      cases hg'
      have : id ≠ LOCAL_NODE_ID := by
        rcases hi.range n id hm with ⟨h1, -⟩ | ⟨-, h1, -⟩
        · exact absurd h1 hn
        · simp [LOCAL_NODE_ID]; omega
      exact ⟨⟨fun h => absurd h hs1, fun h => absurd h this⟩, hs2, hs3⟩
    · exact h id g' hg'

theorem stateInv_add {t : NT B} (h : StateInv t) (hi : NodeInv t) (n : Node) (g : NReg) (hs1 : g.state ≠ .current)
    (hs2 : g.state = .known → g.sup = none) (hs3 : g.state ≠ .known → g.sup ≠ none) : StateInv (t.add n g) := by
  intro id g' hg'
  simp only [NT.add, upd_at] at hg'
  split at hg'
  · subst_vars
    cases hg'
    have : t.nextNode ≠ LOCAL_NODE_ID := by have := hi.pos; simp [LOCAL_NODE_ID]; omega
    exact ⟨⟨fun h => absurd h hs1, fun h => absurd h this⟩, hs2, hs3⟩
  · exact h id g' hg'

theorem stateInv_nact {t : NT B} (h : StateInv t) (hi : NodeInv t) (na : NAtom B) (hd : ∀ p, na ≠ .down .loc p) (hc : na ≠ .disc .loc) :
    StateInv (nact t na) := by
  have hreg : ∀ n g, t.reg n = some g → ∃ id, t.nodeMap n = some id ∧ t.nodeRegs id = some g := by
    intro n g hg
    unfold NT.reg at hg
    cases hm : t.nodeMap n with
    | none => rw [hm] at hg; simp at hg
    | some k => rw [hm] at hg; exact ⟨k, rfl, hg⟩
  have hpend : ∀ (t' : NT B), t'.nodeRegs = t.nodeRegs → StateInv t' := by
    intro t' e id g hg; rw [e] at hg; exact h id g hg
  cases na with
  | frame f id =>
    apply hpend
    simp only [nact]
    split
    · rfl
    · split
      · rfl
      · split <;> rfl
  | regSup n s =>
    cases n with
    | loc => exact h
    | rem a b =>
      simp only [nact]
      split
      · exact stateInv_add h hi _ _ (by simp) (by simp) (by simp)
      · split
        · split
          · exact stateInv_set h hi _ (by simp) _ (by simp) (by simp) (by simp)
          · exact h
        · exact h
  | regKnown n =>
    cases n with
    | loc => exact h
    | rem a b =>
      simp only [nact]
      split
      · exact stateInv_add h hi _ _ (by simp) (by simp) (by simp)
      · exact h
  | start s name ad =>
    simp only [nact]
    split
    · exact h
    · intro id g hg
      simp only [upd_at] at hg
      split at hg
      · subst_vars; cases hg; simp
      · exact h id g hg
  | stop => intro id g hg; simp [nact] at hg
  | workers n s r =>
    simp only [nact]
    split
    · exact h
    · rename_i g hg
      obtain ⟨k, h1, h2⟩ := hreg n g hg
      intro id g' hg'
      simp only [NT.setReg, h1, upd_at] at hg'
      split at hg'
      · subst_vars; cases hg'; exact h _ g h2
      · exact h id g' hg'
  | accept n s =>
    cases n with
    | loc => exact h
    | rem a b =>
      simp only [nact]
      split
      · exact stateInv_add h hi _ _ (by simp) (by simp) (by simp)
      · split
        · split
          · exact stateInv_set h hi _ (by simp) _ (by simp) (by simp) (by simp)
          · exact h
        · exact h
  | down n p =>
    simp only [nact]
    split
    · exact h
    · split
      · exact h
      · exact stateInv_set h hi _ (by rintro rfl; exact hd p rfl) _ (by simp) (by simp) (by simp)
  | clrPending n => exact hpend _ rfl
  | disc n =>
    simp only [nact]
    split
    · exact h
    · exact stateInv_set h hi _ (by rintro rfl; exact hc rfl) _ (by simp) (by simp) (by simp)
  | forget n =>
    simp only [nact]
    split
    · exact h
    · split
      · exact hpend _ rfl
      · intro id g hg
        simp only [upd_at] at hg
        split at hg
        · cases hg
        · exact h id g hg

theorem run_stateInv (ser : V → B) (os : List (Op B V)) (hos : ∀ o ∈ os, ∀ p, o ≠ .supDown .loc p) : StateInv (nt (run ser init os)) := by
  refine (run_inv' ser (fun w => NodeInv (nt w) ∧ StateInv (nt w)) (fun o => ∀ p, o ≠ .supDown .loc p) ?_ os hos init ?_).2
  · intro w o ho _ w' a _ ha ⟨h1, h2⟩
    rw [nt_act]
    cases a <;> first | exact ⟨h1, h2⟩ | skip
    rename_i na
    refine ⟨nodeInv_nact h1 _, stateInv_nact h2 h1 na ?_ ?_⟩
    · rintro p rfl; exact ho p ha
    · rintro rfl; exact ha.1 rfl
  · exact ⟨run_nodeInv ser [], by simp [StateInv, nt, init]⟩

/-- C98. After any history (in which the connection processes report only on connections with other nodes): the other nodes that `Node::list` shows are
exactly those that `Node::list_by_state` shows as known, connected or pending, each of them in one state only (except that the local node itself
may also be known under its own address). A known node has no connection process, a connected or pending one has exactly one. Only the
local node is shown as current, with its identity, and exactly while the node is alive. -/
theorem C98_lists (ser : V → B) (os : List (Op B V)) (hos : ∀ o ∈ os, ∀ p, o ≠ .supDown .loc p) :
    let w := run ser init os
    (∀ N, listed w N ↔ ∃ s, s ≠ .current ∧ listedIn w s N) ∧
    (∀ N s s', s ≠ .current → s' ≠ .current → listedIn w s N → listedIn w s' N → s = s') ∧
    (∀ N s, s ≠ .current → listedIn w s N → (s = .known ↔ connSup w N = none)) ∧
    (∀ N, listedIn w .current N ↔ ∃ a, identity w = some a ∧ N = .rem a.1 a.2) ∧
    ((∃ a, identity w = some a) ↔ nodeAlive w = true) := by
  intro w
  have hi : NodeInv (nt w) := run_nodeInv ser os
  have hs : StateInv (nt w) := run_stateInv ser os hos
  have hs' : ∀ id g, w.nodeRegs id = some g → (g.state = .current ↔ id = LOCAL_NODE_ID) ∧ (g.state = .known → g.sup = none) ∧
    (g.state ≠ .known → g.sup ≠ none) := hs
  have hback : ∀ id g, w.nodeRegs id = some g → g.state ≠ .current → w.nodeMap (.rem g.name g.addr) = some id := by
    intro id g hg hc
    exact (hi.back id g hg).2 (fun h => hc ((hs' id g hg).1.2 h))
  refine ⟨?_, ?_, ?_, ?_, ?_⟩
  · intro N
    constructor
    · rintro ⟨hN, hm⟩
      obtain ⟨id, hm⟩ := Option.isSome_iff_exists.1 hm
      obtain ⟨g, hg, hgN⟩ := hi.reg N id hm
      refine ⟨g.state, ?_, id, g, hg, rfl, hgN hN⟩
      intro hc
      have := (hs' id g hg).1.1 hc
      rcases hi.range N id hm with ⟨h1, -⟩ | ⟨-, h1, -⟩
      · exact hN h1
      · simp [LOCAL_NODE_ID] at this; omega
    · rintro ⟨s, hsc, id, g, hg, rfl, rfl⟩
      exact ⟨by simp, by rw [hback id g hg hsc]; rfl⟩
  · rintro N s s' hc hc' ⟨id, g, hg, rfl, rfl⟩ ⟨id', g', hg', rfl, hN⟩
    have h1 := hback id g hg hc
    have h2 := hback id' g' hg' hc'
    rw [← hN, h1] at h2
    cases h2
    rw [hg] at hg'; cases hg'; rfl
  · rintro N s hc ⟨id, g, hg, rfl, rfl⟩
    have h1 := hback id g hg hc
    have : connSup w (.rem g.name g.addr) = g.sup := by simp [connSup, h1, hg]
    rw [this]
    exact ⟨(hs' id g hg).2.1, fun h => Classical.byContradiction fun h' => (hs' id g hg).2.2 h' h⟩
  · intro N
    constructor
    · rintro ⟨id, g, hg, hc, rfl⟩
      have := (hs' id g hg).1.1 hc
      subst this
      exact ⟨(g.name, g.addr), by simp [identity, hg], rfl⟩
    · rintro ⟨a, ha, rfl⟩
      unfold identity at ha
      cases hg : w.nodeRegs LOCAL_NODE_ID with
      | none => rw [hg] at ha; simp at ha
      | some g =>
        rw [hg] at ha; simp at ha; subst ha
        exact ⟨_, g, hg, (hs' _ g hg).1.2 rfl, rfl⟩
  · constructor
    · rintro ⟨a, ha⟩
      unfold identity at ha
      cases hg : w.nodeRegs LOCAL_NODE_ID with
      | none => rw [hg] at ha; simp at ha
      | some g => have := (hi.back _ g hg).1 rfl; unfold nodeAlive; rw [show w.nodeMap .loc = _ from this]; rfl
    · intro h
      obtain ⟨id, hm⟩ := Option.isSome_iff_exists.1 h
      obtain ⟨g, hg, -⟩ := hi.reg _ id hm
      rcases hi.range _ id hm with ⟨-, h1⟩ | ⟨h1, -⟩
      · subst h1
        have hg : w.nodeRegs LOCAL_NODE_ID = some g := hg
        exact ⟨_, by simp [identity, hg]; rfl⟩
      · exact absurd rfl h1

example : let w := run id init lossSample
    listed w (.rem "b" (addr 2)) ∧ listedIn w .pending (.rem "b" (addr 2)) ∧ listedIn w .current (.rem "a" (addr 1)) ∧ nodeAlive w = true :=
  ⟨⟨by simp, rfl⟩, ⟨1, _, rfl, rfl, rfl⟩, ⟨0, _, rfl, rfl, rfl⟩, rfl⟩

/-! ## C99: pids of a forgotten node reach nobody -/

/-- Nothing is registered under the node id, now and never again. -/
theorem unregistered_run (ser : V → B) (os : List (Op B V)) (w : World B V) (k : Nat) (hi : NodeInv (nt w)) (hk0 : k ≠ LOCAL_NODE_ID)
    (hk : k < w.nextNode) (h : w.nodeRegs k = none) : (run ser w os).nodeRegs k = none := by
  have key : ∀ (t : NT B) (na : NAtom B), NodeInv t → k < t.nextNode → t.nodeRegs k = none →
      k < (nact t na).nextNode ∧ (nact t na).nodeRegs k = none := by
    intro t na hi hk h
    have hset : ∀ n g g', t.reg n = some g' → (t.setReg n g).nodeRegs k = none ∧ (t.setReg n g).nextNode = t.nextNode := by
      intro n g g' hg
      unfold NT.reg at hg
      cases hm : t.nodeMap n with
      | none => rw [hm] at hg; simp at hg
      | some id =>
        rw [hm] at hg
        have : k ≠ id := by rintro rfl; simp [h] at hg
        simp [NT.setReg, hm, upd_at, this, h]
    have hadd : ∀ n g, k < (t.add n g).nextNode ∧ (t.add n g).nodeRegs k = none := by
      intro n g
      have : k ≠ t.nextNode := by omega
      simp [NT.add, upd_at, this, h]; omega
    cases na with
    | frame f id =>
      simp only [nact]
      split
      · exact ⟨hk, h⟩
      · split
        · exact ⟨hk, h⟩
        · split <;> exact ⟨hk, h⟩
    | regSup n s =>
      cases n with
      | loc => exact ⟨hk, h⟩
      | rem a b =>
        simp only [nact]
        split
        · exact hadd _ _
        · split
          · rename_i g hg
            split
            · obtain ⟨h1, h2⟩ := hset (.rem a b) { g with sup := some s, state := .pending } g hg
              exact ⟨by rw [h2]; exact hk, h1⟩
            · exact ⟨hk, h⟩
          · exact ⟨hk, h⟩
    | regKnown n =>
      cases n with
      | loc => exact ⟨hk, h⟩
      | rem a b =>
        simp only [nact]
        split
        · exact hadd _ _
        · exact ⟨hk, h⟩
    | start s name ad =>
      simp only [nact]
      split
      · exact ⟨hk, h⟩
      · exact ⟨hk, by simp [upd_at, hk0, h]⟩
    | stop => exact ⟨hk, rfl⟩
    | workers n s r =>
      simp only [nact]
      split
      · exact ⟨hk, h⟩
      · rename_i g hg
        obtain ⟨h1, h2⟩ := hset n { g with sender := some s, recv := some r } g hg
        exact ⟨by rw [h2]; exact hk, h1⟩
    | accept n s =>
      cases n with
      | loc => exact ⟨hk, h⟩
      | rem a b =>
        simp only [nact]
        split
        · exact hadd _ _
        · split
          · rename_i g hg
            split
            · obtain ⟨h1, h2⟩ := hset (.rem a b) { g with sup := some s, state := .connected } g hg
              exact ⟨by rw [h2]; exact hk, h1⟩
            · exact ⟨hk, h⟩
          · exact ⟨hk, h⟩
    | down n p =>
      simp only [nact]
      split
      · exact ⟨hk, h⟩
      · rename_i g hg
        split
        · exact ⟨hk, h⟩
        · obtain ⟨h1, h2⟩ := hset n { g with sup := none, sender := none, recv := none, state := .known } g hg
          exact ⟨by rw [h2]; exact hk, h1⟩
    | clrPending n => exact ⟨hk, h⟩
    | disc n =>
      simp only [nact]
      split
      · exact ⟨hk, h⟩
      · rename_i g hg
        obtain ⟨h1, h2⟩ := hset n { g with sup := none, state := .known } g hg
        exact ⟨by rw [h2]; exact hk, h1⟩
    | forget n =>
      simp only [nact]
      split
      · exact ⟨hk, h⟩
      · split
        · exact ⟨hk, h⟩
        · refine ⟨hk, ?_⟩
          simp only [upd_at]; split
          · rfl
          · exact h
  have := run_inv ser (fun w => NodeInv (nt w) ∧ k < (nt w).nextNode ∧ (nt w).nodeRegs k = none) ?_ os w ⟨hi, hk, h⟩
  · exact this.2.2
  · intro w' a ⟨h1, h2, h3⟩
    rw [nt_act]
    cases a <;> first | exact ⟨h1, h2, h3⟩ | exact ⟨nodeInv_nact h1 _, key _ _ h1 h2 h3⟩

/-- Nothing observable is different: no mailbox, no frame for another node (neither handed to a connection nor kept for one), no process,
no link, monitor or alias. -/
structure NoEffect (w w' : World B V) : Prop where
  procs : w'.procs = w.procs
  sent : w'.sent = w.sent
  out : w'.out = w.out
  pending : w'.pending = w.pending
  links : w'.links = w.links
  mons : w'.mons = w.mons
  nodeMons : w'.nodeMons = w.nodeMons
  nodeLinks : w'.nodeLinks = w.nodeLinks
  nodeRegs : w'.nodeRegs = w.nodeRegs

theorem sendFrame_none (w : World B V) (f : NFrame B) (k : Nat) (h : w.nodeRegs k = none) : NoEffect w (sendFrame w f k) := by
  simp only [sendFrame, h]
  exact ⟨rfl, rfl, rfl, rfl, rfl, rfl, rfl, rfl, rfl⟩

/-- C99. After any history a process forgets the node `N`, which was known with some id: after any further history (reconnecting to the node included), the pids that
were held for processes of that node (they contain the id) reach nobody: messages and exit signals to them have no effect at all, monitoring them reports noconnection
at once and linking to them makes the exit signal noconnection at once. The same after the local node has been stopped, for every node that was known then. -/
theorem C99_forgotten_unreachable (ser : V → B) (os os' : List (Op B V)) (me : Nat) (N : Node) (hN : N ≠ .loc) (k : Nat) (o : Op B V) :
    let w0 := run ser init os
    let w := run ser (step ser w0 o).1 os'
    running w0 me = true → w0.nodeMap N = some k → (o = .forget me N ∨ (o = .nodeStop me ∧ nodeAlive w0 = true)) →
    ∀ a i v r, running w a = true →
      NoEffect w (step ser w (.send a (.one (.pid (.rem i k))) v)).1 ∧
      NoEffect w (step ser w (.exit a (.rem i k) r)).1 ∧
      (step ser w (.monitor a (.pid (.rem i k)))).1.sent = w.sent ++ [(a, .down (.pid (.rem i k)) (.loc w.nextRef) noconn)] ∧
      (∀ p, w.procs a = some p →
        if p.trap = true then (step ser w (.link a (.rem i k))).1.sent = w.sent ++ [(a, .system (.exit (.rem i k) noconn))]
        else pmap (fun p => (p.reason, p.aborted)) (step ser w (.link a (.rem i k))).1 a = some (some noconn, true)) := by
  intro w0 w hme hm ho a i v r ha
  have hi : NodeInv (nt w0) := run_nodeInv ser os
  have hi1 : NodeInv (nt (step ser w0 o).1) := by
    have := run_nodeInv ser (os ++ [o]); simpa [run, List.foldl_append, w0] using this
  have hk : k ≠ LOCAL_NODE_ID ∧ k < w0.nextNode := by
    rcases hi.range N k hm with ⟨h1, -⟩ | ⟨-, h1, h2⟩
    · exact absurd h1 hN
    · exact ⟨by simp [LOCAL_NODE_ID]; omega, h2⟩
  obtain ⟨g, hg, -⟩ := hi.reg N k hm
  have hg : w0.nodeRegs k = some g := hg
  have h1 : (step ser w0 o).1.nodeRegs k = none ∧ (step ser w0 o).1.nextNode = w0.nextNode := by
    rcases ho with rfl | ⟨rfl, hal⟩
    · simp only [step, Op.caller, hme, if_true, Op.exec, if_neg hN, nodeForget, hm, hg]
      cases hs : g.sup with
      | none => simp [killOpt, upd_at]
      | some s => simp [killOpt, upd_at]
    · simp only [step, Op.caller, hme, if_true, Op.exec, nodeStop]
      cases hl : w0.nodeMap .loc with
      | none => simp [nodeAlive, hl] at hal
      | some id =>
        refine ⟨rfl, ?_⟩
        simp only [nodePanic]
        split
        · cases hs : NReg.sup _ <;> simp [killOpt]
        · rfl
  have hreg : w.nodeRegs k = none := unregistered_run ser os' _ k hi1 hk.1 (by rw [h1.2]; exact hk.2) h1.1
  refine ⟨?_, ?_, ?_, ?_⟩
  · simp only [step, Op.caller, ha, if_true, Op.exec, send, sendOpt, destLocal, Pid.isLocal]
    exact sendFrame_none w _ k hreg
  · simp only [step, Op.caller, ha, if_true, Op.exec, exit]
    exact sendFrame_none w _ k hreg
  · simp only [step, Op.caller, ha, if_true, Op.exec, monitor, monitorInstall]
    have : lookupNode (modBox (newRef w).1 a (setMon · (newRef w).2 (.forProcess (some (.rem i k))))) k = none := by
      simp [lookupNode, newRef, hreg]
    rw [this]
    dsimp only
    have hex : exists? w a = true := by unfold running at ha; unfold exists?; cases h : w.procs a <;> simp_all
    simp only [sendDown, delAlias_sent_eq, put_sent']
    have hex' : exists? (modBox (newRef w).1 a (setMon · (newRef w).2 (.forProcess (some (.rem i k))))) a = true := by
      unfold exists? at hex ⊢
      simp [modBox, modProc, newRef, upd_at, hex]
    rw [hex']; rfl
  · intro p hp
    have hstep : (step ser w (.link a (.rem i k))).1 = exitLinked (addLink w a (.rem i k)) a (.rem i k) noconn := by
      simp only [step, Op.caller, ha, if_true, Op.exec, link, linkInstall]
      rw [if_neg (by simp)]
      have : lookupNode (addLink w a (.rem i k)) k = none := by simp [lookupNode, addLink, hreg]
      rw [this]
    rw [hstep]
    have hp' : (addLink w a (.rem i k)).procs a = some p := hp
    simp only [exitLinked, hp']
    split
    · rename_i ht; simp only [put, hp']; rfl
    · simp [pmap, isNormal, noconn, terminate, modProc, upd_at, hp']

example : let w0 := run id init lossSample
    running w0 1 = true ∧ w0.nodeMap (.rem "b" (addr 2)) = some 1 ∧
    running (run id (step id w0 (.forget 1 (.rem "b" (addr 2)))).1 [.connect 1 (.rem "b" (addr 2))]) 1 = true := ⟨rfl, rfl, rfl⟩

/-! ## C97: monitors held by processes of a lost node -/

/-- The monitor `m` of a process of node `N` (id `k`) on the local process `t` is recorded for `N`, so that it is removed with the connection. -/
structure Recorded (N : Node) (k m t : Nat) (w : World B V) : Prop where
  inv : NodeInv (nt w)
  map : w.nodeMap N = some k
  filed : Filed N k w
  boxes : BoxLocal w
  here : (Ref.rem m k, NMon.cleanup t) ∈ w.nodeMons N
  others : ∀ i, i ≠ t → entries (.rem m k) i w = []

/-- What is not supposed to happen between the monitor and the loss of the connection. -/
def Keeps97 (N : Node) (m t : Nat) (o : Op B V) : Prop :=
  (∀ a : Ident, N = .rem a.1 a.2 → Remembers a o) ∧ ¬ Touches N m o ∧ o ≠ .drop t

theorem nodeMap_step (ser : V → B) (w : World B V) (hi : NodeInv (nt w)) (N : Node) (k : Nat) (hN : N ≠ .loc) (hm : w.nodeMap N = some k) (o : Op B V)
    (ho : ∀ a : Ident, N = .rem a.1 a.2 → Remembers a o) : (step ser w o).1.nodeMap N = some k ∧ NodeInv (nt (step ser w o).1) := by
  have hi' : NodeInv (nt (step ser w o).1) :=
    (step_acts ser w o).inv (I := fun w => NodeInv (nt w)) hi fun w' a _ h => by
      rw [nt_act]
      cases a <;> first | exact h | exact nodeInv_nact h _
  refine ⟨?_, hi'⟩
  obtain ⟨g, hg, hgN⟩ := hi.reg N k hm
  have hg : w.nodeRegs k = some g := hg
  have hgN := hgN hN
  have hk : k ≠ LOCAL_NODE_ID := by
    rcases hi.range N k hm with ⟨h1, -⟩ | ⟨-, h1, -⟩
    · exact absurd h1 hN
    · simp [LOCAL_NODE_ID]; omega
  have h1 : nodeOf (step ser w o).1 k = some (g.name, g.addr) :=
    nodeOf_run ser [o] w hi k (g.name, g.addr) (by simp [nodeOf, hg]) (by
      intro o' ho'; simp at ho'; subst ho'; exact ho (g.name, g.addr) hgN)
  unfold nodeOf at h1
  cases hg' : (step ser w o).1.nodeRegs k with
  | none => rw [hg'] at h1; simp at h1
  | some g' =>
    rw [hg'] at h1; simp at h1
    have := (hi'.back k g' hg').2 hk
    rw [h1.1, h1.2, ← hgN] at this
    exact this

theorem recorded_step (ser : V → B) (os : List (Op B V)) (N : Node) (hN : N ≠ .loc) (k m t : Nat) (o : Op B V) :
    let w := run ser init os
    Recorded N k m t w → Keeps97 N m t o → Recorded N k m t (step ser w o).1 := by
  intro w h ho
  obtain ⟨h1, h2⟩ := nodeMap_step ser w h.inv N k hN h.map o ho.1
  have hacts := step_acts ser w o
  refine ⟨h2, h1, filed_acts hN h.inv h.map h.filed hacts, ?_, ?_, ?_⟩
  · have := run_boxLocal ser (os ++ [o]); simpa [run, w, List.foldl_append] using this
  · refine hacts.inv (I := fun w' => (Ref.rem m k, NMon.cleanup t) ∈ w'.nodeMons N) h.here ?_
    intro w' a ha hh
    rw [nodeMons_act]
    cases a <;> simp only [upd_at] <;> try exact hh
    · split
      · exact List.mem_append_left _ (List.mem_filter.2 ⟨by subst_vars; exact hh, by simp⟩)
      · exact hh
    · rename_i M r i
      split
      · subst_vars
        refine List.mem_append_left _ (List.mem_filter.2 ⟨hh, ?_⟩)
        obtain ⟨rp, p, nm, fid, k', rfl, rfl⟩ := ha
        simp only [ne_eq, decide_eq_true_eq]
        intro he; cases he
        exact ho.2.1 (.inr ⟨_, _, _, _, _, rfl⟩)
      · exact hh
    · rename_i M r
      split
      · subst_vars
        refine List.mem_filter.2 ⟨hh, ?_⟩
        simp only [ne_eq, decide_eq_true_eq]
        intro he; subst he
        rcases ha with ⟨rp, p, nm, fid, k', rfl, hr⟩ | ⟨me, p, m', rfl, hp, hx⟩ | ⟨me, p, ho', hp, hx⟩ | ⟨t', frm, d, rfl, -, hx⟩ | ⟨rp, refs, e, -, -, hr⟩
        · cases hr; exact ho.2.1 (.inr ⟨_, _, _, _, _, rfl⟩)
        · have := h.boxes me p hp _ hx; simp [Ref.isLocal] at this
        · have := h.boxes me p hp _ hx; simp [Ref.isLocal] at this
        · by_cases ht : t' = t
          · subst ht; exact ho.2.2 rfl
          · have := h.others t' ht
            unfold entries at this
            rw [List.filter_eq_nil_iff] at this
            exact this _ hx (by simp)
        · simp [Ref.isLocal] at hr
      · exact hh
    · split
      · subst_vars
        obtain ⟨p, rfl⟩ := ha
        exact absurd (.inl ⟨p, rfl⟩) ho.2.1
      · exact hh
  · intro i hi
    rcases entries_acts hN h.inv h.map h.filed h.boxes ho.2.1 hacts i with h3 | ⟨-, h3⟩
    · rw [h3]; exact h.others i hi
    · exact h3

/-- References and links of remote processes are filed under the node that has their node id. -/
structure FiledAll (w : World B V) : Prop where
  mons : ∀ M, ∀ x ∈ w.nodeMons M, x.1.isLocal = false → x.1.node < w.nextNode ∧ ∀ N, N ≠ .loc → w.nodeMap N = some x.1.node → N = M
  links : ∀ M, ∀ x ∈ w.nodeLinks M, x.1.isLocal = false → x.1.node < w.nextNode ∧ ∀ N, N ≠ .loc → w.nodeMap N = some x.1.node → N = M

/-- Node table changes give an id only to a node that had it before, or a new id. -/
theorem nact_map (t : NT B) (hi : NodeInv t) (na : NAtom B) (N : Node) (hN : N ≠ .loc) (id : Nat) (h : (nact t na).nodeMap N = some id) :
    t.nextNode ≤ (nact t na).nextNode ∧ (t.nodeMap N = some id ∨ t.nextNode ≤ id) := by
  have hset : ∀ n g, (t.setReg n g).nodeMap = t.nodeMap ∧ (t.setReg n g).nextNode = t.nextNode := by
    intro n g; unfold NT.setReg; split <;> exact ⟨rfl, rfl⟩
  have hadd : ∀ n g, (t.add n g).nodeMap N = some id → t.nextNode ≤ (t.add n g).nextNode ∧ (t.nodeMap N = some id ∨ t.nextNode ≤ id) := by
    intro n g h
    simp only [NT.add, upd_at] at h ⊢
    refine ⟨Nat.le_succ _, ?_⟩
    split at h
    · cases h; exact .inr (Nat.le_refl _)
    · exact .inl h
  cases na with
  | frame f id =>
    have hfr : (nact t (.frame f id)).nodeMap = t.nodeMap ∧ (nact t (.frame f id)).nextNode = t.nextNode := by
      simp only [nact]
      split
      · exact ⟨rfl, rfl⟩
      · split
        · exact ⟨rfl, rfl⟩
        · split <;> exact ⟨rfl, rfl⟩
    rw [hfr.1] at h; rw [hfr.2]; exact ⟨Nat.le_refl _, .inl h⟩
  | regSup n s =>
    cases n with
    | loc => exact ⟨Nat.le_refl _, .inl h⟩
    | rem a b =>
      simp only [nact] at h ⊢
      cases hm : t.nodeMap (.rem a b) with
      | none => rw [hm] at h; exact hadd _ _ h
      | some k =>
        rw [hm] at h
        dsimp only at h ⊢
        cases hg : t.reg (.rem a b) with
        | none => rw [hg] at h; exact ⟨Nat.le_refl _, .inl h⟩
        | some g =>
          rw [hg] at h; dsimp only at h ⊢
          by_cases hs : g.sup = none
          · rw [if_pos hs] at h ⊢; rw [(hset _ _).1] at h; rw [(hset _ _).2]; exact ⟨Nat.le_refl _, .inl h⟩
          · rw [if_neg hs] at h ⊢; exact ⟨Nat.le_refl _, .inl h⟩
  | regKnown n =>
    cases n with
    | loc => exact ⟨Nat.le_refl _, .inl h⟩
    | rem a b =>
      simp only [nact] at h ⊢
      cases hm : t.nodeMap (.rem a b) with
      | none => rw [hm] at h; exact hadd _ _ h
      | some k => rw [hm] at h; exact ⟨Nat.le_refl _, .inl h⟩
  | start s name ad =>
    simp only [nact] at h ⊢
    cases hm : t.nodeMap .loc with
    | some k => rw [hm] at h; exact ⟨Nat.le_refl _, .inl h⟩
    | none =>
      rw [hm] at h
      simp only [upd_at, hN, if_false] at h
      exact ⟨Nat.le_refl _, .inl h⟩
  | stop => simp [nact] at h
  | workers n s r =>
    simp only [nact] at h ⊢
    cases hg : t.reg n with
    | none => rw [hg] at h; exact ⟨Nat.le_refl _, .inl h⟩
    | some g =>
      rw [hg] at h; dsimp only at h ⊢
      rw [(hset _ _).1] at h; rw [(hset _ _).2]; exact ⟨Nat.le_refl _, .inl h⟩
  | accept n s =>
    cases n with
    | loc => exact ⟨Nat.le_refl _, .inl h⟩
    | rem a b =>
      simp only [nact] at h ⊢
      cases hm : t.nodeMap (.rem a b) with
      | none => rw [hm] at h; exact hadd _ _ h
      | some k =>
        rw [hm] at h
        dsimp only at h ⊢
        cases hg : t.reg (.rem a b) with
        | none => rw [hg] at h; exact ⟨Nat.le_refl _, .inl h⟩
        | some g =>
          rw [hg] at h; dsimp only at h ⊢
          by_cases hs : g.sup = none ∨ g.state = .pending
          · rw [if_pos hs] at h ⊢; rw [(hset _ _).1] at h; rw [(hset _ _).2]; exact ⟨Nat.le_refl _, .inl h⟩
          · rw [if_neg hs] at h ⊢; exact ⟨Nat.le_refl _, .inl h⟩
  | down n p =>
    simp only [nact] at h ⊢
    cases hg : t.reg n with
    | none => rw [hg] at h; exact ⟨Nat.le_refl _, .inl h⟩
    | some g =>
      rw [hg] at h; dsimp only at h ⊢
      split at h
      · rename_i hs; rw [if_pos hs]; exact ⟨Nat.le_refl _, .inl h⟩
      · rename_i hs; rw [if_neg hs]; rw [(hset _ _).1] at h; rw [(hset _ _).2]; exact ⟨Nat.le_refl _, .inl h⟩
  | clrPending n => exact ⟨Nat.le_refl _, .inl h⟩
  | disc n =>
    simp only [nact] at h ⊢
    cases hg : t.reg n with
    | none => rw [hg] at h; exact ⟨Nat.le_refl _, .inl h⟩
    | some g =>
      rw [hg] at h; dsimp only at h ⊢
      rw [(hset _ _).1] at h; rw [(hset _ _).2]; exact ⟨Nat.le_refl _, .inl h⟩
  | forget n =>
    have hu : ∀ j, (upd t.nodeMap n none) N = some j → t.nodeMap N = some j := by
      intro j hj; simp only [upd_at] at hj; split at hj
      · cases hj
      · exact hj
    simp only [nact] at h ⊢
    cases hm : t.nodeMap n with
    | none => rw [hm] at h; exact ⟨Nat.le_refl _, .inl h⟩
    | some k =>
      rw [hm] at h; dsimp only at h ⊢
      cases hg : t.nodeRegs k with
      | none => rw [hg] at h; exact ⟨Nat.le_refl _, .inl (hu _ h)⟩
      | some g => rw [hg] at h; exact ⟨Nat.le_refl _, .inl (hu _ h)⟩

theorem nact_next (t : NT B) (na : NAtom B) : t.nextNode ≤ (nact t na).nextNode := by
  have hset : ∀ n g, (t.setReg n g).nextNode = t.nextNode := by
    intro n g; unfold NT.setReg; split <;> rfl
  have hadd : ∀ n g, t.nextNode ≤ (t.add n g).nextNode := fun n g => Nat.le_succ _
  cases na with
  | regSup n s => cases n <;> simp only [nact] <;> (repeat' split) <;> simp [hset, hadd]
  | regKnown n => cases n <;> simp only [nact] <;> (repeat' split) <;> simp [hadd]
  | accept n s => cases n <;> simp only [nact] <;> (repeat' split) <;> simp [hset, hadd]
  | _ => simp only [nact] <;> (repeat' split) <;> simp [hset]

theorem filedAll_nact {w : World B V} (hi : NodeInv (nt w)) (h : FiledAll w) {w' : World B V} (na : NAtom B) (h1 : nt w' = nact (nt w) na)
    (h2 : w'.nodeMons = w.nodeMons) (h3 : w'.nodeLinks = w.nodeLinks) : FiledAll w' := by
  have e1 : w'.nodeMap = (nact (nt w) na).nodeMap := by rw [← h1]; rfl
  have e2 : w'.nextNode = (nact (nt w) na).nextNode := by rw [← h1]; rfl
  have key : ∀ M id, id < w.nextNode → (∀ N, N ≠ .loc → w.nodeMap N = some id → N = M) →
      id < w'.nextNode ∧ ∀ N, N ≠ .loc → w'.nodeMap N = some id → N = M := by
    intro M id hid hh
    refine ⟨by rw [e2]; exact Nat.lt_of_lt_of_le hid (nact_next (nt w) na), ?_⟩
    intro N hN hm
    rw [e1] at hm
    rcases (nact_map (nt w) hi na N hN id hm).2 with h | h
    · exact hh N hN h
    · exact absurd (show w.nextNode ≤ id from h) (by omega)
  constructor
  · rw [h2]; intro M x hx hl; obtain ⟨a, b⟩ := h.mons M x hx hl; exact key M _ a b
  · rw [h3]; intro M x hx hl; obtain ⟨a, b⟩ := h.links M x hx hl; exact key M _ a b

theorem filedAll_act {w : World B V} {o : Op B V} (h1 : ∀ rp n p nm fid k, o ≠ .frame rp n (.monitor true p nm fid k))
    (h2 : ∀ i p, o ≠ .link i p) (h3 : ∀ rp n i fid, o ≠ .frame rp n (.link true i fid)) {w' : World B V} {a : Atom B V} (ha : AtomOf w o a)
    (hi : NodeInv (nt w')) (h : FiledAll w') : FiledAll (act w' a) := by
  have keep : (∀ na, a ≠ .nodes na) → (∀ M x, x ∈ (act w' a).nodeMons M → x ∈ w'.nodeMons M ∨ x.1.isLocal = true) →
      (∀ M x, x ∈ (act w' a).nodeLinks M → x ∈ w'.nodeLinks M) → FiledAll (act w' a) := by
    intro hn hm hl
    have hnt : nt (act w' a) = nt w' := by
      rw [nt_act]; cases a <;> first | rfl | exact absurd rfl (hn _)
    have e1 : (act w' a).nodeMap = w'.nodeMap := congrArg NT.nodeMap hnt
    have e2 : (act w' a).nextNode = w'.nextNode := congrArg NT.nextNode hnt
    refine ⟨?_, ?_⟩
    · intro M x hx hxl
      rw [e1, e2]
      rcases hm M x hx with hx | hx
      · exact h.mons M x hx hxl
      · rw [hx] at hxl; cases hxl
    · intro M x hx hxl
      rw [e1, e2]; exact h.links M x (hl M x hx) hxl
  by_cases hn : ∃ na, a = .nodes na
  · obtain ⟨na, rfl⟩ := hn
    refine filedAll_nact hi h na (by rw [nt_act]) ?_ ?_
    · rw [nodeMons_act]
    · rw [nodeLinks_act]
  refine keep (fun na e => hn ⟨na, e⟩) ?_ ?_
  · intro M x hx
    rw [nodeMons_act] at hx
    cases a <;> simp only [upd_at] at hx <;> try exact .inl hx
    · split at hx
      · subst_vars
        rcases filter_append_single_mem _ _ _ _ hx with hx | hx
        · exact .inl hx
        · right; subst hx; rfl
      · exact .inl hx
    · obtain ⟨rp, p, nm, fid, k, ho, -⟩ := ha
      exact absurd ho (h1 _ _ _ _ _ _)
    · split at hx
      · subst_vars; exact .inl (List.mem_filter.1 hx).1
      · exact .inl hx
    · split at hx
      · cases hx
      · exact .inl hx
  · intro M x hx
    rw [nodeLinks_act] at hx
    cases a <;> simp only [upd_at] at hx <;> try exact hx
    · obtain ⟨-, ⟨ho, -⟩ | ⟨rp, fid, ho, -⟩⟩ := ha
      · exact absurd ho (h2 _ _)
      · exact absurd ho (h3 _ _ _ _)
    · split at hx
      · subst_vars; exact (List.mem_filter.1 hx).1
      · exact hx
    · split at hx
      · cases hx
      · exact hx

theorem filedAll_nodeRegister {w : World B V} (hi : NodeInv (nt w)) (h : FiledAll w) (M : Node) (c : Bool) :
    FiledAll (nodeRegister w M c).1 ∧ NodeInv (nt (nodeRegister w M c).1) := by
  refine (acts_nodeRegister (nodesOk_op w (.boot)) w M c).inv (I := fun w => FiledAll w ∧ NodeInv (nt w)) ⟨h, hi⟩ ?_
  intro w' a ha hh
  refine ⟨filedAll_act (o := .boot) (by simp) (by simp) (by simp) ha hh.2 hh.1, ?_⟩
  rw [nt_act]
  cases a <;> first | exact hh.2 | exact nodeInv_nact hh.2 _

theorem nodeRegister_map {w : World B V} (M : Node) (c : Bool) (hM : M ≠ .loc) : (nodeRegister w M c).1.nodeMap M = some (nodeRegister w M c).2 := by
  unfold nodeRegister
  cases M with
  | loc => exact absurd rfl hM
  | rem a b =>
    dsimp only
    split
    · rename_i id hm
      split
      · split
        · exact hm
        · split
          · exact hm
          · exact hm
      · exact hm
    · split <;> simp [upd_at]

theorem filedAll_add {w : World B V} (hi : NodeInv (nt w)) (h : FiledAll w) (M : Node) (k : Nat) (hk : M ≠ .loc → w.nodeMap M = some k) (hk0 : M = .loc → k = LOCAL_NODE_ID)
    {w' : World B V} (hnt : nt w' = nt w)
    (hm : ∀ N x, x ∈ w'.nodeMons N → x ∈ w.nodeMons N ∨ (N = M ∧ ∃ m, x.1 = .rem m k))
    (hl : ∀ N x, x ∈ w'.nodeLinks N → x ∈ w.nodeLinks N ∨ (N = M ∧ ∃ m, x.1 = .rem m k)) : FiledAll w' := by
  have e1 : w'.nodeMap = w.nodeMap := congrArg NT.nodeMap hnt
  have e2 : w'.nextNode = w.nextNode := congrArg NT.nextNode hnt
  have new : k < w.nextNode ∧ ∀ N, N ≠ .loc → w.nodeMap N = some k → N = M := by
    by_cases hM : M = .loc
    · have := hi.pos
      rw [hk0 hM]
      refine ⟨this, ?_⟩
      intro N hN hN2
      rcases hi.range N _ hN2 with ⟨h1, -⟩ | ⟨-, h1, -⟩
      · exact absurd h1 hN
      · simp [LOCAL_NODE_ID] at h1
    · refine ⟨?_, fun N hN hN2 => hi.inj _ _ _ hN2 (hk hM)⟩
      rcases hi.range M k (hk hM) with ⟨h1, -⟩ | ⟨-, -, h1⟩
      · exact absurd h1 hM
      · exact h1
  constructor
  · intro N x hx hxl
    rw [e1, e2]
    rcases hm N x hx with hx | ⟨rfl, m, hx⟩
    · exact h.mons N x hx hxl
    · rw [hx]; exact new
  · intro N x hx hxl
    rw [e1, e2]
    rcases hl N x hx with hx | ⟨rfl, m, hx⟩
    · exact h.links N x hx hxl
    · rw [hx]; exact new

theorem filedAll_same {w w' : World B V} (h : FiledAll w) (hnt : nt w' = nt w) (h2 : w'.nodeMons = w.nodeMons) (h3 : w'.nodeLinks = w.nodeLinks) :
    FiledAll w' := by
  have e1 : w'.nodeMap = w.nodeMap := congrArg NT.nodeMap hnt
  have e2 : w'.nextNode = w.nextNode := congrArg NT.nextNode hnt
  exact ⟨by rw [h2, e1, e2]; exact h.mons, by rw [h3, e1, e2]; exact h.links⟩

theorem filedAll_sendFrame {w : World B V} (hi : NodeInv (nt w)) (h : FiledAll w) (f : NFrame B) (id : Nat) :
    FiledAll (sendFrame w f id) ∧ NodeInv (nt (sendFrame w f id)) := by
  rw [sendFrame_act]
  exact ⟨filedAll_nact hi h (.frame f id) (by rw [nt_act]) (by rw [nodeMons_act]) (by rw [nodeLinks_act]), by rw [nt_act]; exact nodeInv_nact hi _⟩

theorem nodeRegister_loc (w : World B V) (M : Node) (h : M = .loc) : (nodeRegister w M false).2 = LOCAL_NODE_ID := by subst h; rfl

theorem filedAll_monitor {w : World B V} (hi : NodeInv (nt w)) (h : FiledAll w) (M : Node) (rp : Nat) (p : Option Nat) (nm : Option String)
    (fid : Option Nat) (k : Nat) : FiledAll (recvFrame w M rp (.monitor true p nm fid k)) := by
  obtain ⟨hg, hgi⟩ := filedAll_nodeRegister hi h M false
  have hadd : ∀ (v : World B V) (i : Nat), FiledAll v → NodeInv (nt v) → v.nodeMap = (nodeRegister w M false).1.nodeMap →
      FiledAll (addNodeMon v M (.rem k (nodeRegister w M false).2) (.cleanup i)) := by
    intro v i hv hvi hvm
    refine filedAll_add hvi hv M (nodeRegister w M false).2 (fun hM => by rw [hvm]; exact nodeRegister_map M false hM)
      (fun hM => nodeRegister_loc w M hM) rfl ?_ (fun N x hx => .inl hx)
    intro N x hx
    simp only [addNodeMon, upd_at] at hx
    split at hx
    · subst_vars
      rcases filter_append_single_mem _ _ _ _ hx with hx | hx
      · exact .inl hx
      · right; subst hx; exact ⟨rfl, _, rfl⟩
    · exact .inl hx
  simp only [recvFrame]
  cases fid with
  | none => exact filedAll_same hg rfl rfl rfl
  | some fid =>
    simp only [if_true]
    cases p with
    | some i =>
      dsimp only
      split
      · exact hadd _ i (filedAll_same hg rfl rfl rfl) hgi rfl
      · exact (filedAll_sendFrame hgi hg _ _).1
    | none =>
      cases nm with
      | none => exact filedAll_same hg rfl rfl rfl
      | some x =>
        dsimp only
        split
        · rename_i i hn
          have hs := filedAll_sendFrame (w := addMon (nodeRegister w M false).1 i (.rem k (nodeRegister w M false).2) (.rem fid (nodeRegister w M false).2) none)
            hgi (filedAll_same hg rfl rfl rfl) (.monitorUpdate fid i k) (nodeRegister w M false).2
          refine hadd _ i hs.1 hs.2 ?_
          simp
        · exact (filedAll_sendFrame hgi hg _ _).1

theorem mem_addNodeLink (w : World B V) (M N : Node) (p : Pid) (i : Nat) (x : Pid × Nat) (h : x ∈ (addNodeLink w M p i).nodeLinks N) :
    x ∈ w.nodeLinks N ∨ (N = M ∧ x = (p, i)) := by
  simp only [addNodeLink, upd_at] at h
  by_cases hN : N = M
  · rw [if_pos hN] at h
    by_cases hm : (p, i) ∈ w.nodeLinks M
    · rw [if_pos hm] at h; exact .inl (hN ▸ h)
    · rw [if_neg hm] at h
      rcases List.mem_append.1 h with h | h
      · exact .inl (hN ▸ h)
      · simp at h; exact .inr ⟨hN, h⟩
  · rw [if_neg hN] at h; exact .inl h

theorem filedAll_linkFrame {w : World B V} (hi : NodeInv (nt w)) (h : FiledAll w) (M : Node) (rp i fid : Nat) :
    FiledAll (recvFrame w M rp (.link true i fid)) := by
  obtain ⟨hg, hgi⟩ := filedAll_nodeRegister hi h M false
  simp only [recvFrame, if_true]
  split
  · refine filedAll_add (w := (nodeRegister w M false).1) hgi hg M (nodeRegister w M false).2 (fun hM => nodeRegister_map M false hM)
      (fun hM => nodeRegister_loc w M hM) rfl (fun N x hx => .inl hx) ?_
    intro N x hx
    rcases mem_addNodeLink _ _ _ _ _ _ hx with hx | ⟨h1, rfl⟩
    · exact .inl hx
    · exact .inr ⟨h1, _, rfl⟩
  · exact (filedAll_sendFrame hgi hg _ _).1

theorem filedAll_link {w : World B V} (hi : NodeInv (nt w)) (h : FiledAll w) (me : Nat) (p : Pid) : FiledAll (link w me p) := by
  unfold link
  split
  · exact h
  · have hex : ∀ (v : World B V) r, FiledAll v → FiledAll (exitLinked v me p r) := by
      intro v r hv
      unfold exitLinked
      split
      · exact hv
      · split
        · unfold put; split
          · exact hv
          · exact filedAll_same hv rfl rfl rfl
        · split
          · exact hv
          · exact filedAll_same hv rfl rfl rfl
    have h0 : FiledAll (addLink w me p) := filedAll_same h rfl rfl rfl
    cases p with
    | loc i =>
      simp only [linkInstall]
      split
      · exact filedAll_same h rfl rfl rfl
      · exact hex _ _ h0
    | rem i k =>
      simp only [linkInstall]
      cases hN : lookupNode (addLink w me (.rem i k)) k with
      | none => exact hex _ _ h0
      | some M =>
        dsimp only
        have hN' : lookupNode w k = some M := hN
        unfold lookupNode at hN'
        cases hg : w.nodeRegs k with
        | none => rw [hg] at hN'; simp at hN'
        | some g =>
          rw [hg] at hN'; simp at hN'
          have hnew : FiledAll (addNodeLink (addLink w me (.rem i k)) M (.rem i k) me) := by
            by_cases hk : k = LOCAL_NODE_ID
            · -- the own id: no other node has it
              have e1 : ∀ N, N ≠ .loc → w.nodeMap N ≠ some k := by
                intro N hN hm
                rcases hi.range N k hm with ⟨h1, -⟩ | ⟨-, h1, -⟩
                · exact hN h1
                · rw [hk] at h1; simp [LOCAL_NODE_ID] at h1
              refine ⟨h.mons, ?_⟩
              intro N x hx hxl
              rcases mem_addNodeLink _ _ _ _ _ _ hx with hx | ⟨-, rfl⟩
              · exact h.links N x hx hxl
              · have := hi.pos
                exact ⟨by show k < w.nextNode; rw [hk]; exact this, fun N' hN' hm => absurd hm (e1 N' hN')⟩
            · have hM := (hi.back k g hg).2 hk
              rw [hN'] at hM
              refine filedAll_add (w := w) hi h M k (fun _ => hM) (fun e => by rw [e] at hN'; simp at hN') rfl (fun N x hx => .inl hx) ?_
              intro N x hx
              rcases mem_addNodeLink _ _ _ _ _ _ hx with hx | ⟨h1, rfl⟩
              · exact .inl hx
              · exact .inr ⟨h1, _, rfl⟩
          obtain ⟨h4, h5⟩ := filedAll_nodeRegister (w := addNodeLink (addLink w me (.rem i k)) M (.rem i k) me) hi hnew M true
          exact (filedAll_sendFrame h5 h4 _ _).1

theorem run_filedAll (ser : V → B) (os : List (Op B V)) : ∀ w : World B V, NodeInv (nt w) → FiledAll w → FiledAll (run ser w os) := by
  induction os with
  | nil => intro w _ h; exact h
  | cons o os ih =>
    intro w hi h
    have hi' : NodeInv (nt (step ser w o).1) :=
      (step_acts ser w o).inv (I := fun w => NodeInv (nt w)) hi fun w' a _ h => by
        rw [nt_act]
        cases a <;> first | exact h | exact nodeInv_nact h _
    refine ih _ hi' ?_
    by_cases h1 : ∃ rp n p nm fid k, o = .frame rp n (.monitor true p nm fid k)
    · obtain ⟨rp, n, p, nm, fid, k, rfl⟩ := h1
      simp only [step, Op.caller, Op.exec]
      split
      · exact filedAll_monitor hi h n rp p nm fid k
      · exact h
    by_cases h2 : ∃ i p, o = .link i p
    · obtain ⟨i, p, rfl⟩ := h2
      simp only [step, Op.caller, Op.exec]
      split
      · exact filedAll_link hi h i p
      · exact h
    by_cases h3 : ∃ rp n i fid, o = .frame rp n (.link true i fid)
    · obtain ⟨rp, n, i, fid, rfl⟩ := h3
      simp only [step, Op.caller, Op.exec]
      split
      · exact filedAll_linkFrame hi h n rp i fid
      · exact h
    refine ((step_acts ser w o).inv (I := fun w => NodeInv (nt w) ∧ FiledAll w) ⟨hi, h⟩ ?_).2
    intro w' a ha hh
    refine ⟨?_, filedAll_act (fun rp n p nm fid k e => h1 ⟨rp, n, p, nm, fid, k, e⟩) (fun i p e => h2 ⟨i, p, e⟩)
      (fun rp n i fid e => h3 ⟨rp, n, i, fid, e⟩) ha hh.1 hh.2⟩
    rw [nt_act]
    cases a <;> first | exact hh.1 | exact nodeInv_nact hh.1 _

/-- In every reachable state the entries of a known node are filed under it. -/
theorem run_filed (ser : V → B) (os : List (Op B V)) (N : Node) (k : Nat) (hN : N ≠ .loc) (hm : (run ser (init : World B V) os).nodeMap N = some k) :
    Filed N k (run ser init os) := by
  have h := run_filedAll ser os init (run_nodeInv ser []) ⟨by simp [init], by simp [init]⟩
  have hk : k ≠ 0 := by
    rcases (run_nodeInv ser os).range N k hm with ⟨h1, -⟩ | ⟨-, h1, -⟩
    · exact absurd h1 hN
    · omega
  constructor
  · intro M x hx hxk
    have hl : x.1.isLocal = false := by
      cases hx1 : x.1 with
      | loc n => rw [hx1] at hxk; simp [Ref.node, LOCAL_NODE_ID] at hxk; omega
      | rem _ _ => rfl
    exact ((h.mons M x hx hl).2 N hN (by rw [hxk]; exact hm)).symm
  · intro M x hx hxk
    have hl : x.1.isLocal = false := by
      cases hx1 : x.1 with
      | loc n => rw [hx1] at hxk; simp [Pid.node, LOCAL_NODE_ID] at hxk; omega
      | rem _ _ => rfl
    exact ((h.links M x hx hl).2 N hN (by rw [hxk]; exact hm)).symm

/-- A process of another node asks to monitor the process `t` of this node, by pid or by the name of `t`. -/
inductive AsksFor (w : World B V) (t m fid : Nat) : NFrame B → Prop
  | pid : exists? w t = true → AsksFor w t m fid (.monitor true (some t) none (some fid) m)
  | name (x : String) : w.names x = some t → AsksFor w t m fid (.monitor true none (some x) (some fid) m)

theorem supDownMons_mons (N : Node) (ms : List (Ref × NMon)) : ∀ (w : World B V) i x, x ∈ (supDownMons N w ms).mons i → x ∈ w.mons i ∧
    ((x.1, NMon.cleanup i) ∉ ms) := by
  induction ms with
  | nil => intro w i x h; exact ⟨h, by simp⟩
  | cons y ms ih =>
    intro w i x h
    obtain ⟨r, m⟩ := y
    have hdel : ∀ w1 : World B V, (if r.isLocal then delAlias w1 r else w1).mons = w1.mons := by intro w1; split <;> simp
    cases m with
    | node j =>
      obtain ⟨h1, h2⟩ := ih _ _ _ h
      rw [hdel] at h1
      exact ⟨by simpa using h1, by simpa using h2⟩
    | process j d =>
      obtain ⟨h1, h2⟩ := ih _ _ _ h
      rw [hdel] at h1
      exact ⟨by simpa using h1, by simpa using h2⟩
    | cleanup j =>
      obtain ⟨h1, h2⟩ := ih _ _ _ h
      rw [hdel] at h1
      simp only [delMon, upd_at] at h1
      split at h1
      · subst_vars
        have := List.mem_filter.1 h1
        simp only [ne_eq, decide_eq_true_eq] at this
        refine ⟨this.1, ?_⟩
        simp only [List.mem_cons, Prod.mk.injEq, NMon.cleanup.injEq, and_true, not_or]
        exact ⟨this.2, h2⟩
      · rename_i hij
        refine ⟨h1, ?_⟩
        simp only [List.mem_cons, Prod.mk.injEq, NMon.cleanup.injEq, not_or]
        exact ⟨fun h => hij h.2, h2⟩

/-- C97. After any history a process of node `N` asks to monitor the local process `t` (by pid or by name), with a reference that is not in use. Then anything happens except that
`t` dies, that the node withdraws or repeats the monitor, that the node is forgotten or the local node stops, and the connection is lost: then the monitor
is gone from every process, so that the death of `t` later causes no work and no frame for it. In between it was in place. -/
theorem C97_remote_monitors_removed (ser : V → B) (os os' : List (Op B V)) (rp t m fid : Nat) (N : Node) (hN : N ≠ .loc) (f : NFrame B) :
    let w0 := run ser init os
    let w1 := (step ser w0 (.frame rp N f)).1
    let w2 := run ser w1 os'
    running w0 rp = true → AsksFor w0 t m fid f →
    ∃ k, lookupNode w1 k = some N ∧
      ((∀ i, ∀ x ∈ w0.mons i, x.1 ≠ .rem m k) →
        (∃ x ∈ w1.mons t, x.1 = .rem m k) ∧
        ((∀ o ∈ os', Keeps97 N m t o) → ∀ p, ConnLost w2 N p →
          ∀ i, ∀ x ∈ (step ser w2 (.supDown N p)).1.mons i, x.1 ≠ .rem m k)) := by
  intro w0 w1 w2 hrp hf
  have hi0 : NodeInv (nt w0) := run_nodeInv ser os
  have hw1r : w1 = run ser init (os ++ [.frame rp N f]) := by simp [w1, w0, run, List.foldl_append]
  have hi1 : NodeInv (nt w1) := by rw [hw1r]; exact run_nodeInv ser _
  have hk0 : (nodeRegister w0 N false).1.procs = w0.procs ∧ (nodeRegister w0 N false).1.mons = w0.mons ∧ (nodeRegister w0 N false).1.names = w0.names := by
    unfold nodeRegister
    cases N with
    | loc => exact ⟨rfl, rfl, rfl⟩
    | rem nm ad => dsimp only; split <;> simp
  generalize hk : (nodeRegister w0 N false).2 = k
  have hmap0 : (nodeRegister w0 N false).1.nodeMap N = some k := by rw [← hk]; exact nodeRegister_map N false hN
  have hrec : w1 = recvFrame w0 N rp f := by simp [w1, step, Op.caller, Op.exec, hrp]
  have hshape : w1.nodeMap N = some k ∧ (Ref.rem m k, NMon.cleanup t) ∈ w1.nodeMons N ∧
      w1.mons = upd w0.mons t ((w0.mons t).filter (fun x => x.1 ≠ .rem m k) ++ [(.rem m k, .rem fid k, none)]) := by
    cases hf with
    | pid hex =>
      have hex' : exists? (nodeRegister w0 N false).1 t = true := by unfold exists? at hex ⊢; rw [hk0.1]; exact hex
      rw [hrec]
      simp only [recvFrame, if_true, hex', hk]
      refine ⟨hmap0, by simp [addNodeMon, upd_at], ?_⟩
      simp only [addNodeMon, addMon, hk0.2.1]
    | name x hx =>
      rw [hrec]
      simp only [recvFrame, if_true, hk0.2.2, hx, hk]
      refine ⟨?_, by simp [addNodeMon, upd_at], ?_⟩
      · simp [addNodeMon, addMon]; exact hmap0
      · simp [addNodeMon, addMon, hk0.2.1]
  obtain ⟨hm1, hh1, hmons⟩ := hshape
  refine ⟨k, ?_, ?_⟩
  · obtain ⟨g, hg, hgN⟩ := hi1.reg N k hm1
    have hg : w1.nodeRegs k = some g := hg
    simp [lookupNode, hg, ← hgN hN]
  intro hfresh
  refine ⟨⟨(.rem m k, .rem fid k, none), by rw [hmons]; simp [upd_at], rfl⟩, ?_⟩
  intro hos p hc
  have hR1 : Recorded N k m t w1 := by
    refine ⟨hi1, hm1, ?_, ?_, hh1, ?_⟩
    · rw [hw1r] at hm1 ⊢; exact run_filed ser _ N k hN hm1
    · rw [hw1r]; exact run_boxLocal ser _
    · intro i hit
      unfold entries
      rw [List.filter_eq_nil_iff]
      intro x hx
      rw [hmons] at hx
      simp only [upd_at, hit, if_false] at hx
      simpa using hfresh i x hx
  have hR2 : ∀ (l : List (Op B V)) (pre : List (Op B V)), (∀ o ∈ l, Keeps97 N m t o) → Recorded N k m t (run ser init pre) →
      Recorded N k m t (run ser (run ser init pre) l) := by
    intro l
    induction l with
    | nil => intro pre _ h; exact h
    | cons o l ih =>
      intro pre ho h
      have h1 := recorded_step ser pre N hN k m t o h (ho o List.mem_cons_self)
      have e : (step ser (run ser init pre) o).1 = run ser init (pre ++ [o]) := by simp [run, List.foldl_append]
      show Recorded N k m t (run ser (step ser (run ser init pre) o).1 l)
      rw [e] at h1 ⊢
      exact ih _ (fun o h => ho o (.tail _ h)) h1
  have hR : Recorded N k m t w2 := by
    have := hR2 os' (os ++ [.frame rp N f]) hos (by rw [← hw1r]; exact hR1)
    rw [← hw1r] at this
    exact this
  intro i x hx hxr
  obtain ⟨id, g, hgm, hg, hs⟩ := hc
  have hcc : ¬ (g.sup.isSome ∧ g.sup ≠ some p) := by rcases hs with hs | hs <;> simp [hs]
  have hsd : (step ser w2 (.supDown N p)).1 = supDown w2 N p := rfl
  rw [hsd] at hx
  unfold supDown at hx
  simp only [hgm, hg, if_neg hcc] at hx
  have k1 : ∀ (w : World B V) ls, (supDownLinks w ls).nodeMons = w.nodeMons := fun w ls => supDownLinks_keep _ (by simp) (by simp) ls w
  have k2 : ∀ (w : World B V) ls, (supDownLinks w ls).mons = w.mons := fun w ls => supDownLinks_keep _ (by simp) (by simp) ls w
  obtain ⟨h1, h2⟩ := supDownMons_mons N _ _ i x hx
  simp only [k1, k2] at h1 h2
  by_cases hit : i = t
  · subst hit
    rw [hxr] at h2
    exact h2 hR.here
  · have := hR.others i hit
    unfold entries at this
    rw [List.filter_eq_nil_iff] at this
    exact this x h1 (by simpa using hxr)

example : let w0 := run id init (lossSample.take 4 ++ [.boot])
    running w0 1 = true ∧ AsksFor w0 4 7 9 (.monitor true (some 4) none (some 9) 7) ∧ (∀ i, ∀ x ∈ w0.mons i, x.1 ≠ .rem 7 1) ∧
    ConnLost (step id w0 (.frame 1 (.rem "b" (addr 2)) (.monitor true (some 4) none (some 9) 7))).1 (.rem "b" (addr 2)) 3 ∧
    ((step id w0 (.frame 1 (.rem "b" (addr 2)) (.monitor true (some 4) none (some 9) 7))).1.mons 4).length = 1 :=
  ⟨rfl, .pid rfl, (fun i x hx => absurd hx (List.not_mem_nil (a := x))), ⟨1, _, rfl, rfl, .inr rfl⟩, rfl⟩

end Verif.World
