import Verif.MonitorProps
/-!
# Properties of the node tables (C45, C46, C52)

The operations of `World` that touch the node tables are `connect` (`Node::connect`, and every link/monitor to a remote
process), `accept` (a connection's supervisor process claims the node), `workers` (its sender and receiver are ready),
`supDown` (the supervisor process was dropped), `disconnect`, `forget`, `nodeStart`, `nodeStop` and `nodePanic`.
-/
namespace Verif.World
open Verif.Mailbox
variable {B V : Type}

/-- Node ids are unique, ids and registrations agree, id 0 is the local node. -/
structure NodeInv (t : NT B) : Prop where
  pos : 0 < t.nextNode
  range : ∀ n id, t.nodeMap n = some id → (n = .loc ∧ id = LOCAL_NODE_ID) ∨ (n ≠ .loc ∧ 0 < id ∧ id < t.nextNode)
  inj : ∀ n m id, t.nodeMap n = some id → t.nodeMap m = some id → n = m
  reg : ∀ n id, t.nodeMap n = some id → ∃ g, t.nodeRegs id = some g ∧ (n ≠ .loc → n = .rem g.name g.addr)
  back : ∀ id g, t.nodeRegs id = some g →
    (id = LOCAL_NODE_ID → t.nodeMap .loc = some id) ∧ (id ≠ LOCAL_NODE_ID → t.nodeMap (.rem g.name g.addr) = some id)

theorem NodeInv.add {t : NT B} (h : NodeInv t) (g : NReg) (hn : t.nodeMap (.rem g.name g.addr) = none) :
    NodeInv (t.add (.rem g.name g.addr) g) := by
  have hfresh : ∀ n id, t.nodeMap n = some id → id < t.nextNode := by
    intro n id hm
    rcases h.range n id hm with ⟨-, h1⟩ | ⟨-, -, h1⟩
    · have := h.pos; rw [h1]; exact this
    · exact h1
  refine ⟨Nat.succ_pos _, ?_, ?_, ?_, ?_⟩
  · intro n id hm
    simp only [NT.add, upd_at] at hm ⊢
    split at hm
    · rename_i e
      have := h.pos
      simp at hm; subst hm e; right; exact ⟨by simp, this, by omega⟩
    · rcases h.range n id hm with h1 | ⟨h1, h2, h3⟩
      · exact .inl h1
      · exact .inr ⟨h1, h2, by omega⟩
  · intro n m id h1 h2
    simp only [NT.add, upd_at] at h1 h2
    split at h1 <;> split at h2
    · simp_all
    · have := hfresh _ _ h2; simp at h1; omega
    · have := hfresh _ _ h1; simp at h2; omega
    · exact h.inj _ _ _ h1 h2
  · intro n id hm
    simp only [NT.add, upd_at] at hm ⊢
    split at hm
    · simp at hm; simp_all
    · have := hfresh _ _ hm
      rw [if_neg (by omega)]
      exact h.reg _ _ hm
  · intro id g' hg
    simp only [NT.add, upd_at] at hg ⊢
    have hpos := h.pos
    split at hg
    · rename_i e; subst e
      simp at hg; subst hg
      simp [LOCAL_NODE_ID]; omega
    · obtain ⟨b1, b2⟩ := h.back _ _ hg
      refine ⟨fun e => by rw [if_neg (by simp)]; exact b1 e, fun e => ?_⟩
      rw [if_neg]
      · exact b2 e
      · intro he; rw [he, hn] at b2; simp at b2; exact e b2

theorem NodeInv.setReg {t : NT B} (h : NodeInv t) (n : Node) (g g' : NReg) (hg : t.reg n = some g)
    (h1 : g'.name = g.name) (h2 : g'.addr = g.addr) : NodeInv (t.setReg n g') := by
  unfold NT.reg at hg
  cases hm : t.nodeMap n with
  | none => rw [hm] at hg; simp at hg
  | some id =>
    rw [hm] at hg; simp only [Option.bind_some] at hg
    simp only [NT.setReg, hm]
    refine ⟨h.pos, h.range, h.inj, ?_, ?_⟩
    · intro m k hk
      simp only [upd_at]
      split
      · rename_i e; subst e
        obtain ⟨g2, e2, e3⟩ := h.reg _ _ hk
        rw [hg] at e2; cases e2
        exact ⟨g', rfl, by rw [h1, h2]; exact e3⟩
      · exact h.reg _ _ hk
    · intro k g2 hk
      simp only [upd_at] at hk
      split at hk
      · rename_i e; subst e; cases hk
        rw [h1, h2]; exact h.back _ _ hg
      · exact h.back _ _ hk

theorem NT.reg_eq {t : NT B} {n : Node} {id : Nat} (h : t.nodeMap n = some id) : t.reg n = t.nodeRegs id := by
  simp [NT.reg, h]

theorem NodeInv.congr {t t' : NT B} (h : NodeInv t) (h1 : t'.nextNode = t.nextNode) (h2 : t'.nodeMap = t.nodeMap)
    (h3 : t'.nodeRegs = t.nodeRegs) : NodeInv t' := by
  refine ⟨h1 ▸ h.pos, ?_, ?_, ?_, ?_⟩
  · rw [h1, h2]; exact h.range
  · rw [h2]; exact h.inj
  · rw [h2, h3]; exact h.reg
  · rw [h2, h3]; exact h.back

theorem nodeInv_nact {t : NT B} (h : NodeInv t) (a : NAtom B) : NodeInv (nact t a) := by
  cases a with
  | frame f id =>
    simp only [nact]
    split
    · exact h.congr rfl rfl rfl
    · split
      · exact h.congr rfl rfl rfl
      · split <;> exact h.congr rfl rfl rfl
  | regSup n s =>
    cases n with
    | loc => exact h
    | rem a b =>
      simp only [nact]
      split
      · rename_i hm; exact h.add ⟨some s, none, none, .pending, a, b⟩ hm
      · split
        · rename_i g hg; split
          · exact h.setReg _ g _ hg rfl rfl
          · exact h
        · exact h
  | regKnown n =>
    cases n with
    | loc => exact h
    | rem a b =>
      simp only [nact]
      split
      · rename_i hm; exact h.add ⟨none, none, none, .known, a, b⟩ hm
      · exact h
  | start s name addr =>
    simp only [nact]
    split
    · exact h
    · rename_i hm
      refine ⟨h.pos, ?_, ?_, ?_, ?_⟩
      · intro n id hn
        simp only [upd_at] at hn
        split at hn
        · simp at hn; exact .inl ⟨by assumption, hn.symm⟩
        · exact h.range _ _ hn
      · intro n m id h1 h2
        simp only [upd_at] at h1 h2
        have hz : ∀ n, n ≠ .loc → t.nodeMap n = some LOCAL_NODE_ID → False := by
          intro n hn hz
          rcases h.range _ _ hz with ⟨e, -⟩ | ⟨-, e, -⟩
          · exact hn e
          · simp [LOCAL_NODE_ID] at e
        split at h1 <;> split at h2
        · simp_all
        · cases h1; exact (hz _ (by assumption) h2).elim
        · cases h2; exact (hz _ (by assumption) h1).elim
        · exact h.inj _ _ _ h1 h2
      · intro n id hn
        simp only [upd_at] at hn ⊢
        split at hn
        · cases hn; simp [*]
        · rcases h.range _ _ hn with ⟨e, -⟩ | ⟨-, e, -⟩
          · contradiction
          · rw [if_neg (by simp [LOCAL_NODE_ID]; omega)]; exact h.reg _ _ hn
      · intro id g hg
        simp only [upd_at] at hg ⊢
        split at hg
        · rename_i e; subst e; simp
        · rename_i e
          have := h.back _ _ hg
          exact ⟨fun e' => absurd e' e, fun e' => by rw [if_neg (by simp)]; exact this.2 e'⟩
  | stop => exact ⟨h.pos, by simp [nact], by simp [nact], by simp [nact], by simp [nact]⟩
  | workers n s r =>
    simp only [nact]
    split
    · exact h
    · rename_i g hg; exact (h.setReg n g { g with sender := some s, recv := some r } hg rfl rfl).congr rfl rfl rfl
  | accept n sup =>
    cases n with
    | loc => exact h
    | rem a b =>
      simp only [nact]
      split
      · rename_i hm; exact h.add ⟨some sup, none, none, .connected, a, b⟩ hm
      · split
        · rename_i g hg; split
          · exact h.setReg _ g _ hg rfl rfl
          · exact h
        · exact h
  | down n p =>
    simp only [nact]
    split
    · exact h
    · split
      · exact h
      · rename_i g hg _; exact h.setReg _ g _ hg rfl rfl
  | clrPending n => exact h.congr rfl rfl rfl
  | disc n =>
    simp only [nact]
    split
    · exact h
    · rename_i g hg; exact h.setReg _ g _ hg rfl rfl
  | forget n =>
    simp only [nact]
    split
    · exact h
    · rename_i id hm
      split
      · rename_i hg
        obtain ⟨g, e, -⟩ := h.reg _ _ hm
        rw [hg] at e; simp at e
      · rename_i g hg
        refine ⟨h.pos, ?_, ?_, ?_, ?_⟩
        · intro m k hk
          simp only [upd_at] at hk
          split at hk
          · simp at hk
          · exact h.range _ _ hk
        · intro m m' k h1 h2
          simp only [upd_at] at h1 h2
          split at h1 <;> split at h2
          · simp at h1
          · simp at h1
          · simp at h2
          · exact h.inj _ _ _ h1 h2
        · intro m k hk
          simp only [upd_at] at hk ⊢
          split at hk
          · simp at hk
          · rename_i hne
            rw [if_neg]
            · exact h.reg _ _ hk
            · rintro rfl; exact hne (h.inj _ _ _ hk hm)
        · intro k g' hk
          simp only [upd_at] at hk ⊢
          split at hk
          · simp at hk
          · rename_i hne
            obtain ⟨b1, b2⟩ := h.back _ _ hk
            refine ⟨fun e => ?_, fun e => ?_⟩
            · rw [if_neg]
              · exact b1 e
              · rintro rfl; rw [b1 e] at hm; exact hne (by simpa using hm)
            · rw [if_neg]
              · exact b2 e
              · rintro rfl; rw [b2 e] at hm; exact hne (by simpa using hm)

theorem run_nodeInv (ser : V → B) (os : List (Op B V)) : NodeInv (nt (run ser init os)) := by
  refine run_inv ser (fun w => NodeInv (nt w)) ?_ os init ?_
  · intro w a h
    rw [nt_act]
    cases a <;> first | exact h | exact nodeInv_nact h _
  · exact ⟨Nat.one_pos, by simp [nt, init], by simp [nt, init], by simp [nt, init], by simp [nt, init]⟩

/-! ## C45 -/

/-- C45. After any history: two known nodes have different ids; every known node's id leads back to that very node (so a
pid with that node id names one node); the local node, if started, has id 0 and no other node has. -/
theorem C45_ids_identify (ser : V → B) (os : List (Op B V)) :
    let w := run ser init os
    (∀ n m id, w.nodeMap n = some id → w.nodeMap m = some id → n = m) ∧
    (∀ a b id, w.nodeMap (.rem a b) = some id → lookupNode w id = some (.rem a b)) ∧
    (∀ id n, id ≠ LOCAL_NODE_ID → lookupNode w id = some n → w.nodeMap n = some id) ∧
    (∀ n, w.nodeMap n = some LOCAL_NODE_ID ↔ n = .loc ∧ w.nodeMap n ≠ none) := by
  intro w
  have h : NodeInv (nt w) := run_nodeInv ser os
  refine ⟨h.inj, ?_, ?_, ?_⟩
  · intro a b id hm
    obtain ⟨g, h1, h2⟩ := h.reg _ _ hm
    have h1 : w.nodeRegs id = some g := h1
    have h2 := h2 (by simp)
    simp [lookupNode, h1, ← h2]
  · intro id n hid hl
    unfold lookupNode at hl
    cases hg : w.nodeRegs id with
    | none => rw [hg] at hl; simp at hl
    | some g =>
      rw [hg] at hl; simp at hl; subst hl
      exact (h.back id g hg).2 hid
  · intro n
    constructor
    · intro hn
      refine ⟨?_, by simp [hn]⟩
      rcases h.range n _ hn with ⟨e, -⟩ | ⟨-, e, -⟩
      · exact e
      · simp [LOCAL_NODE_ID] at e
    · rintro ⟨rfl, hn⟩
      cases hm : w.nodeMap .loc with
      | none => exact absurd hm hn
      | some id =>
        rcases h.range _ _ hm with ⟨-, e⟩ | ⟨e, -⟩
        · rw [e]
        · exact absurd rfl e

/-- The id `id` is spent: it was given to the node `(name, addr)` and belongs to nobody else. -/
def Spent (id : Nat) (name : String) (addr : Codec.SockAddr) (t : NT B) : Prop :=
  id < t.nextNode ∧ ∀ g, t.nodeRegs id = some g → g.name = name ∧ g.addr = addr

theorem spent_add {id : Nat} {name : String} {addr : Codec.SockAddr} {t : NT B} (h : Spent id name addr t) (n : Node) (g : NReg) :
    Spent id name addr (t.add n g) := by
  refine ⟨Nat.lt_succ_of_lt h.1, ?_⟩
  intro g' hg
  simp only [NT.add, upd_at] at hg
  have := h.1
  rw [if_neg (by omega)] at hg
  exact h.2 _ hg

theorem spent_setReg {id : Nat} {name : String} {addr : Codec.SockAddr} {t : NT B} (h : Spent id name addr t) (n : Node) (g g' : NReg)
    (hg : t.reg n = some g) (h1 : g'.name = g.name) (h2 : g'.addr = g.addr) : Spent id name addr (t.setReg n g') := by
  unfold NT.reg at hg
  cases hm : t.nodeMap n with
  | none => rw [hm] at hg; simp at hg
  | some k =>
    rw [hm] at hg; simp only [Option.bind_some] at hg
    simp only [NT.setReg, hm]
    refine ⟨h.1, ?_⟩
    intro g2 hk
    simp only [upd_at] at hk
    split at hk
    · rename_i e; subst e; cases hk; rw [h1, h2]; exact h.2 _ hg
    · exact h.2 _ hk

theorem spent_nact {id : Nat} {name : String} {addr : Codec.SockAddr} (hid : id ≠ LOCAL_NODE_ID) {t : NT B} (h : Spent id name addr t)
    (a : NAtom B) : Spent id name addr (nact t a) := by
  cases a with
  | frame f k =>
    simp only [nact]
    split
    · exact h
    · split
      · exact h
      · split <;> exact h
  | regSup n s =>
    cases n with
    | loc => exact h
    | rem a b =>
      simp only [nact]
      split
      · exact spent_add h _ _
      · split
        · rename_i g hg; split
          · exact spent_setReg h _ g _ hg rfl rfl
          · exact h
        · exact h
  | regKnown n =>
    cases n with
    | loc => exact h
    | rem a b =>
      simp only [nact]
      split
      · exact spent_add h _ _
      · exact h
  | start s name addr =>
    simp only [nact]
    split
    · exact h
    · refine ⟨h.1, ?_⟩
      intro g hg
      simp only [upd_at, if_neg hid] at hg
      exact h.2 _ hg
  | stop => exact ⟨h.1, by simp [nact]⟩
  | workers n s r =>
    simp only [nact]
    split
    · exact h
    · rename_i g hg; exact spent_setReg h n g { g with sender := some s, recv := some r } hg rfl rfl
  | accept n sup =>
    cases n with
    | loc => exact h
    | rem a b =>
      simp only [nact]
      split
      · exact spent_add h _ _
      · split
        · rename_i g hg; split
          · exact spent_setReg h _ g _ hg rfl rfl
          · exact h
        · exact h
  | down n p =>
    simp only [nact]
    split
    · exact h
    · split
      · exact h
      · rename_i g hg _; exact spent_setReg h _ g _ hg rfl rfl
  | clrPending n => exact h
  | disc n =>
    simp only [nact]
    split
    · exact h
    · rename_i g hg; exact spent_setReg h _ g _ hg rfl rfl
  | forget n =>
    simp only [nact]
    split
    · exact h
    · split
      · exact h
      · refine ⟨h.1, ?_⟩
        intro g hg
        simp only [upd_at] at hg
        split at hg
        · simp at hg
        · exact h.2 _ hg

/-- C45. An id once given to a node is never given to another one, even after the node was forgotten or the local node
was stopped and started again: whatever happens later, the id denotes that node or nothing. -/
theorem C45_ids_never_reused (ser : V → B) (os os' : List (Op B V)) (id : Nat) (n m : Node) (hid : id ≠ LOCAL_NODE_ID) :
    let w := run ser init os
    let w' := run ser w os'
    lookupNode w id = some n → lookupNode w' id = some m → m = n := by
  intro w w' h1 h2
  unfold lookupNode at h1 h2
  cases hg : w.nodeRegs id with
  | none => rw [hg] at h1; simp at h1
  | some g =>
    cases hg' : w'.nodeRegs id with
    | none => rw [hg'] at h2; simp at h2
    | some g' =>
      rw [hg] at h1; rw [hg'] at h2
      simp at h1 h2
      have hI : Spent id g.name g.addr (nt w') := by
        refine run_inv ser (fun w => Spent id g.name g.addr (nt w)) ?_ os' w ?_
        · intro w a h
          rw [nt_act]
          cases a <;> first | exact h | exact spent_nact hid h _
        · have hn : NodeInv (nt w) := run_nodeInv ser os
          refine ⟨?_, ?_⟩
          · have := (hn.back id g hg).2 hid
            rcases hn.range _ _ this with ⟨e, -⟩ | ⟨-, -, e⟩
            · simp at e
            · exact e
          · intro g2 h
            have h : w.nodeRegs id = some g2 := h
            rw [hg] at h; cases h; exact ⟨rfl, rfl⟩
      obtain ⟨e1, e2⟩ := hI.2 g' hg'
      rw [← h1, ← h2, e1, e2]

/-- Example addresses: 127.0.0.x, port 1337. -/
def addr (x : UInt8) : Codec.SockAddr := .v4 ⟨[127, 0, 0, x], rfl⟩ 1337

/-- Example: the local node and two remote ones, one of them forgotten and met again. -/
def nodeSample : List (Op Nat Nat) :=
  [.boot, .nodeStart 1 "me" (addr 1), .connect 1 (.rem "a" (addr 2)), .connect 1 (.rem "b" (addr 3)),
   .forget 1 (.rem "a" (addr 2)), .connect 1 (.rem "a" (addr 2))]

example : (run id init nodeSample).nodeMap .loc = some 0 ∧ (run id init nodeSample).nodeMap (.rem "b" (addr 3)) = some 2 ∧
    (run id init nodeSample).nodeMap (.rem "a" (addr 2)) = some 3 ∧
    lookupNode (run id init nodeSample) 3 = some (.rem "a" (addr 2)) ∧ lookupNode (run id init nodeSample) 1 = none := by
  refine ⟨?_, ?_, ?_, ?_, ?_⟩ <;> decide

/-! ## C46 -/

/-- The frames handed to the sender process `s`, in order. -/
def handed (s : Nat) (w : World B V) : List (NFrame B) := (w.out.filter (·.1 = s)).map (·.2)

/-- The frames the runtime asked to be sent to node `id`, in order. -/
def askedFor (id : Nat) (w : World B V) : List (NFrame B) := (w.asked.filter (·.1 = id)).map (·.2)

/-- Nothing in the history ends the connection attempt to `n`, and `s` is (only) its sender process. -/
def Undisturbed (n : Node) (s : Nat) : Op B V → Prop
  | .supDown m _ | .disconnect _ m | .forget _ m => m ≠ n
  | .nodeStop _ | .nodePanic => False
  | .workers m s' _ => m = n ↔ s' = s
  | .nodeStart _ name addr => Node.rem name addr ≠ n
  | _ => True

def NUndisturbed (n : Node) (s : Nat) : NAtom B → Prop
  | .down m _ | .disc m | .forget m | .clrPending m => m ≠ n
  | .stop => False
  | .workers m s' _ => m = n ↔ s' = s
  | .start _ name addr => Node.rem name addr ≠ n
  | _ => True

structure Queueing (n : Node) (id s : Nat) (A H : List (NFrame B)) (t : NT B) : Prop where
  inv : NodeInv t
  map : t.nodeMap n = some id
  reg : ∃ g, t.nodeRegs id = some g ∧ g.state ≠ .known ∧ (g.sender = none ∨ (g.sender = some s ∧ t.pending n = []))
  others : ∀ k g, k ≠ id → t.nodeRegs k = some g → g.sender ≠ some s
  self : ∀ g, t.nodeRegs LOCAL_NODE_ID = some g → Node.rem g.name g.addr ≠ n
  log : ∃ L, (t.asked.filter (·.1 = id)).map (·.2) = A ++ L ∧ (t.out.filter (·.1 = s)).map (·.2) ++ t.pending n = H ++ L

theorem queueing_add {n : Node} {id s : Nat} {A H : List (NFrame B)} {t : NT B} (h : Queueing n id s A H t) (g : NReg)
    (hm : t.nodeMap (.rem g.name g.addr) = none) (hs : g.sender = none) : Queueing n id s A H (t.add (.rem g.name g.addr) g) := by
  have hlt : id < t.nextNode := by
    rcases h.inv.range _ _ h.map with ⟨-, e⟩ | ⟨-, -, e⟩
    · have := h.inv.pos; rw [e]; exact this
    · exact e
  have hne : n ≠ .rem g.name g.addr := by rintro rfl; rw [h.map] at hm; simp at hm
  have hpos := h.inv.pos
  refine ⟨h.inv.add g hm, by simp [NT.add, upd_at, hne, h.map], ?_, ?_, ?_, h.log⟩
  · obtain ⟨g', h1, h2⟩ := h.reg
    exact ⟨g', by simp only [NT.add, upd_at]; rw [if_neg (by omega)]; exact h1, h2⟩
  · intro k g' hk hg
    simp only [NT.add, upd_at] at hg
    split at hg
    · cases hg; simp [hs]
    · exact h.others k g' hk hg
  · intro g' hg
    simp only [NT.add, upd_at] at hg
    rw [if_neg (by simp [LOCAL_NODE_ID]; omega)] at hg
    exact h.self g' hg

theorem queueing_setReg {n : Node} {id s : Nat} {A H : List (NFrame B)} {t : NT B} (h : Queueing n id s A H t) (m : Node) (g g' : NReg)
    (hg : t.reg m = some g) (h1 : g'.name = g.name) (h2 : g'.addr = g.addr)
    (h3 : m = n → g'.state ≠ .known ∧ g'.sender = g.sender) (h4 : m ≠ n → g'.sender ≠ some s) :
    Queueing n id s A H (t.setReg m g') := by
  have hinv := h.inv.setReg m g g' hg h1 h2
  unfold NT.reg at hg
  cases hm : t.nodeMap m with
  | none => rw [hm] at hg; simp at hg
  | some k =>
    rw [hm] at hg; simp only [Option.bind_some] at hg
    simp only [NT.setReg, hm] at hinv ⊢
    have hk : k = id ↔ m = n := by
      constructor
      · rintro rfl; exact h.inv.inj _ _ _ hm h.map
      · rintro rfl; rw [h.map] at hm; cases hm; rfl
    refine ⟨hinv, h.map, ?_, ?_, ?_, h.log⟩
    · obtain ⟨g0, e1, e2, e3⟩ := h.reg
      by_cases e : m = n
      · have e' := hk.2 e
        subst e'
        rw [hg] at e1; cases e1
        obtain ⟨e4, e5⟩ := h3 e
        exact ⟨g', by simp [upd_at], e4, by rw [e5]; exact e3⟩
      · have e' := fun x => e (hk.1 x)
        exact ⟨g0, by simp only [upd_at]; rw [if_neg (fun x => e' x.symm)]; exact e1, e2, e3⟩
    · intro j g2 hj hg2
      simp only [upd_at] at hg2
      split at hg2
      · rename_i e; subst e; cases hg2
        exact h4 (fun e => hj (hk.2 e))
      · exact h.others j g2 hj hg2
    · intro g2 hg2
      simp only [upd_at] at hg2
      split at hg2
      · rename_i e; subst e; cases hg2; rw [h1, h2]; exact h.self g hg
      · exact h.self g2 hg2

theorem Queueing.ne_loc {n : Node} {id s : Nat} {A H : List (NFrame B)} {t : NT B} (h : Queueing n id s A H t) (hn : n ≠ .loc) :
    id ≠ LOCAL_NODE_ID := by
  rcases h.inv.range _ _ h.map with ⟨e, -⟩ | ⟨-, e, -⟩
  · exact absurd e hn
  · simp [LOCAL_NODE_ID]; omega

theorem queueing_nact {n : Node} (hn : n ≠ .loc) {id s : Nat} {A H : List (NFrame B)} {t : NT B} (h : Queueing n id s A H t) (a : NAtom B)
    (ha : NUndisturbed n s a) : Queueing n id s A H (nact t a) := by
  have hinv := nodeInv_nact h.inv a
  cases a with
  | frame f k =>
    obtain ⟨L, hL1, hL2⟩ := h.log
    by_cases hk : k = id
    · subst hk
      obtain ⟨g, e1, e2, e3⟩ := h.reg
      have hname : n = .rem g.name g.addr := by
        obtain ⟨g', x1, x2⟩ := h.inv.reg _ _ h.map
        rw [e1] at x1; cases x1; exact x2 hn
      simp only [nact, e1, if_neg e2] at hinv ⊢
      rcases e3 with e3 | ⟨e3, e4⟩
      · simp only [e3] at hinv ⊢
        refine ⟨hinv, h.map, ⟨g, e1, e2, .inl e3⟩, h.others, h.self, L ++ [f], ?_, ?_⟩
        · simp [hL1]
        · simp only [upd_at, ← hname, if_true, ← List.append_assoc, hL2]
      · simp only [e3] at hinv ⊢
        refine ⟨hinv, h.map, ⟨g, e1, e2, .inr ⟨e3, e4⟩⟩, h.others, h.self, L ++ [f], ?_, ?_⟩
        · simp [hL1]
        · rw [e4] at hL2 ⊢
          simp only [List.append_nil] at hL2 ⊢
          simp [hL2]
    · simp only [nact] at hinv ⊢
      split
      · rename_i e
        refine ⟨by simpa only [e] using hinv, h.map, h.reg, h.others, h.self, L, by simp [hk, hL1], hL2⟩
      · rename_i g hg
        simp only [hg] at hinv
        split
        · rename_i s' hs'
          have hs : s' ≠ s := by rintro rfl; exact h.others k g hk hg hs'
          refine ⟨by simpa only [hs'] using hinv, h.map, h.reg, h.others, h.self, L, by simp [hk, hL1], by simp [hs, hL2]⟩
        · rename_i hs'
          simp only [hs'] at hinv
          split
          · rename_i hkn
            exact ⟨by simpa only [hkn, if_true] using hinv, h.map, h.reg, h.others, h.self, L, by simp [hk, hL1], hL2⟩
          · rename_i hkn
            have hne : n ≠ .rem g.name g.addr := by
              by_cases hz : k = LOCAL_NODE_ID
              · subst hz; exact (h.self g hg).symm
              · intro e
                have := (h.inv.back k g hg).2 hz
                rw [← e, h.map] at this; cases this; exact hk rfl
            refine ⟨by simpa only [hkn, if_false] using hinv, h.map, ?_, h.others, h.self, L, by simp [hk, hL1], ?_⟩
            · obtain ⟨g', e1, e2, e3⟩ := h.reg
              exact ⟨g', e1, e2, by simp only [upd_at, if_neg hne]; exact e3⟩
            · simp only [upd_at, if_neg hne]; exact hL2
  | regSup m x =>
    cases m with
    | loc => exact h
    | rem a b =>
      simp only [nact]
      split
      · rename_i hm; exact queueing_add h ⟨some x, none, none, .pending, a, b⟩ hm rfl
      · rename_i k hm
        split
        · rename_i g hg; split
          · refine queueing_setReg h _ g _ hg rfl rfl (fun _ => ⟨by simp, rfl⟩) (fun e => ?_)
            rw [NT.reg_eq hm] at hg
            exact h.others k g (by rintro rfl; exact e (h.inv.inj _ _ _ hm h.map)) hg
          · exact h
        · exact h
  | regKnown m =>
    cases m with
    | loc => exact h
    | rem a b =>
      simp only [nact]
      split
      · rename_i hm; exact queueing_add h ⟨none, none, none, .known, a, b⟩ hm rfl
      · exact h
  | start x name addr =>
    have hid := h.ne_loc hn
    simp only [nact] at hinv ⊢
    split
    · exact h
    · rename_i hm
      simp only [hm] at hinv
      refine ⟨hinv, by simp [upd_at, hn, h.map], ?_, ?_, ?_, h.log⟩
      · obtain ⟨g', e1, e2⟩ := h.reg
        exact ⟨g', by simp only [upd_at, if_neg hid]; exact e1, e2⟩
      · intro k g hk hg
        simp only [upd_at] at hg
        split at hg
        · cases hg; simp
        · exact h.others k g hk hg
      · intro g hg
        simp only [upd_at, if_true] at hg
        cases hg; exact ha
  | stop => exact ha.elim
  | workers m x r =>
    simp only [nact] at hinv ⊢
    split
    · exact h
    · rename_i g hg
      simp only [hg] at hinv
      by_cases hm : m = n
      · subst hm
        have hx : x = s := ha.1 rfl
        subst hx
        obtain ⟨g0, e1, e2, e3⟩ := h.reg
        have hg' := hg
        rw [NT.reg_eq h.map, e1] at hg'
        cases hg'
        obtain ⟨L, hL1, hL2⟩ := h.log
        simp only [NT.setReg, h.map] at hinv ⊢
        refine ⟨hinv, h.map, ⟨{ g with sender := some x, recv := some r }, by simp [upd_at], e2, .inr ⟨rfl, by simp [upd_at]⟩⟩, ?_, ?_, L,
          hL1, ?_⟩
        · intro k g' hk hg'
          simp only [upd_at, if_neg hk] at hg'
          exact h.others k g' hk hg'
        · intro g' hg'
          simp only [upd_at, if_neg (h.ne_loc hn).symm] at hg'
          exact h.self g' hg'
        · simp only [upd_at, if_true, List.append_nil, List.filter_append, List.map_append]
          rw [← hL2]
          congr 1
          rw [List.filter_eq_self.2 (by simp), List.map_map]
          simp [Function.comp_def]
      · have hx : x ≠ s := fun e => hm (ha.2 e)
        have := queueing_setReg h m g { g with sender := some x, recv := some r } hg rfl rfl (fun e => absurd e hm)
          (fun _ => by simpa using hx)
        have hne : n ≠ m := fun e => hm e.symm
        obtain ⟨L, hL1, hL2⟩ := this.log
        have hp : (t.setReg m { g with sender := some x, recv := some r }).pending = t.pending := by
          unfold NT.setReg; split <;> rfl
        have ho : (t.setReg m { g with sender := some x, recv := some r }).out = t.out := by
          unfold NT.setReg; split <;> rfl
        rw [hp, ho] at hL2
        refine ⟨hinv, this.map, ?_, this.others, this.self, L, hL1, ?_⟩
        · obtain ⟨g', e1, e2, e3⟩ := this.reg
          rw [hp] at e3
          exact ⟨g', e1, e2, by simp only [upd_at, if_neg hne]; exact e3⟩
        · simp only [upd_at, if_neg hne, List.filter_append, List.map_append]
          rw [(List.filter_eq_nil_iff (l := (t.pending m).map fun f => (x, f))).2 (by simp [hx])]
          simpa using hL2
  | accept m sup =>
    cases m with
    | loc => exact h
    | rem a b =>
      simp only [nact]
      split
      · rename_i hm; exact queueing_add h ⟨some sup, none, none, .connected, a, b⟩ hm rfl
      · rename_i k hm
        split
        · rename_i g hg; split
          · refine queueing_setReg h _ g _ hg rfl rfl (fun _ => ⟨by simp, rfl⟩) (fun e => ?_)
            rw [NT.reg_eq hm] at hg
            exact h.others k g (by rintro rfl; exact e (h.inv.inj _ _ _ hm h.map)) hg
          · exact h
        · exact h
  | down m p =>
    simp only [nact]
    split
    · exact h
    · split
      · exact h
      · rename_i g hg _
        exact queueing_setReg h m g _ hg rfl rfl (fun e => absurd e ha) (fun _ => by simp)
  | clrPending m =>
    have ha : m ≠ n := ha
    obtain ⟨L, hL1, hL2⟩ := h.log
    refine ⟨hinv, h.map, ?_, h.others, h.self, L, hL1, ?_⟩
    · obtain ⟨g', e1, e2, e3⟩ := h.reg
      exact ⟨g', e1, e2, by simp only [nact, upd_at, if_neg ha.symm]; exact e3⟩
    · simp only [nact, upd_at, if_neg ha.symm]; exact hL2
  | disc m =>
    have ha : m ≠ n := ha
    simp only [nact]
    split
    · exact h
    · rename_i g hg
      refine queueing_setReg h m g _ hg rfl rfl (fun e => absurd e ha) (fun e => ?_)
      unfold NT.reg at hg
      cases hm : t.nodeMap m with
      | none => rw [hm] at hg; simp at hg
      | some k =>
        rw [hm] at hg; simp only [Option.bind_some] at hg
        exact h.others k g (by rintro rfl; exact e (h.inv.inj _ _ _ hm h.map)) hg
  | forget m =>
    have ha : m ≠ n := ha
    simp only [nact] at hinv ⊢
    split
    · exact h
    · rename_i k hm
      simp only [hm] at hinv
      split
      · rename_i hg
        obtain ⟨g, e, -⟩ := h.inv.reg _ _ hm
        rw [hg] at e; simp at e
      · rename_i g hg
        simp only [hg] at hinv
        have hk : id ≠ k := by rintro rfl; exact ha (h.inv.inj _ _ _ hm h.map)
        refine ⟨hinv, by simp [upd_at, ha.symm, h.map], ?_, ?_, ?_, ?_⟩
        · obtain ⟨g', e1, e2, e3⟩ := h.reg
          exact ⟨g', by simp only [upd_at, if_neg hk]; exact e1, e2, by simp only [upd_at, if_neg ha.symm]; exact e3⟩
        · intro j g' hj hg'
          simp only [upd_at] at hg'
          split at hg'
          · simp at hg'
          · exact h.others j g' hj hg'
        · intro g' hg'
          simp only [upd_at] at hg'
          split at hg'
          · simp at hg'
          · exact h.self g' hg'
        · obtain ⟨L, hL1, hL2⟩ := h.log
          exact ⟨L, hL1, by simp only [upd_at, if_neg ha.symm]; exact hL2⟩

theorem undisturbed_atom {n : Node} {s : Nat} {w : World B V} {o : Op B V} (h : Undisturbed n s o) {na : NAtom B} (ha : AtomOf w o (.nodes na)) :
    NUndisturbed n s na := by
  cases na <;> simp only [AtomOf] at ha <;> simp only [NUndisturbed]
  · obtain ⟨me, rfl⟩ := ha; exact h
  · rcases ha with ⟨me, rfl⟩ | rfl <;> exact h
  · subst ha; exact h
  · subst ha; exact h
  · rcases ha with ⟨p, rfl⟩ | ⟨me, rfl⟩ <;> exact h
  · obtain ⟨-, me, rfl⟩ := ha; exact h
  · obtain ⟨-, me, rfl⟩ := ha; exact h

/-- C46, while a connection attempt lasts. Take any reachable moment at which the connection to `n` is being set up or is
up (its state is not "known"), and any later history in which nobody drops the connection. Let `s` be the process that
is (or becomes) the connection's sender. Then the frames handed to `s` followed by those still queued are exactly those
that were there before followed by all frames sent to the node since, in order: nothing is lost, duplicated or
reordered; and once `s` is installed nothing is left queued.
Missing: the frames sent after a disconnect and reconnect, see `C46_reconnect_loses_frames_violated`. -/
theorem C46_in_order_partial (ser : V → B) (os os' : List (Op B V)) (n : Node) (hn : n ≠ .loc) (id s : Nat) (g : NReg) :
    let w := run ser init os
    let w' := run ser w os'
    w.nodeMap n = some id → w.nodeRegs id = some g → g.state ≠ .known →
    (g.sender = none ∨ (g.sender = some s ∧ w.pending n = [])) →
    (∀ k g', k ≠ id → w.nodeRegs k = some g' → g'.sender ≠ some s) →
    (∀ g', w.nodeRegs LOCAL_NODE_ID = some g' → Node.rem g'.name g'.addr ≠ n) →
    (∀ o ∈ os', Undisturbed n s o) →
    (∃ new, askedFor id w' = askedFor id w ++ new ∧ handed s w' ++ w'.pending n = handed s w ++ w.pending n ++ new) ∧
    (∀ g', w'.nodeRegs id = some g' → g'.sender = some s → w'.pending n = []) := by
  intro w w' hm hg hst hse hot hself hos
  have hq : Queueing n id s (askedFor id w) (handed s w ++ w.pending n) (nt w') := by
    refine run_inv' ser (fun w' => Queueing n id s (askedFor id w) (handed s w ++ w.pending n) (nt w')) (Undisturbed n s) ?_ os' hos w ?_
    · intro w1 o ho _ w2 x _ hx h
      rw [nt_act]
      cases x <;> first | exact h | exact queueing_nact hn h _ (undisturbed_atom ho hx)
    · exact ⟨run_nodeInv ser os, hm, ⟨g, hg, hst, hse⟩, hot, hself, [], by simp [askedFor, nt], by simp [handed, nt]⟩
  refine ⟨hq.log, ?_⟩
  intro g' hg' hs'
  obtain ⟨g2, e1, e2, e3⟩ := hq.reg
  have e1 : w'.nodeRegs id = some g2 := e1
  rw [hg'] at e1; cases e1
  rcases e3 with e3 | e3
  · rw [hs'] at e3; simp at e3
  · exact e3.2

/-- Example: node "a" is being connected; a message is sent before the connection is up and one after. -/
def queueSample : List (Op Nat Nat) :=
  [.boot, .nodeStart 1 "me" (addr 1), .connect 1 (.rem "a" (addr 2))]
def queueSample' : List (Op Nat Nat) :=
  [.send 1 (.one (.pid (.rem 7 1))) 41, .boot, .accept 3 (.rem "a" (addr 2)), .workers (.rem "a" (addr 2)) 4 4,
   .send 1 (.one (.pid (.rem 7 1))) 42]

example : (run id init queueSample).nodeMap (.rem "a" (addr 2)) = some 1 ∧
    ((run id init queueSample).nodeRegs 1).any (fun g => decide (g.state = .pending) && g.sender.isNone) = true ∧
    (∀ o ∈ queueSample', Undisturbed (.rem "a" (addr 2)) 4 o) ∧
    (askedFor 1 (run id (run id init queueSample) queueSample')).length = 2 ∧
    (handed 4 (run id (run id init queueSample) queueSample')).length = 2 := by
  refine ⟨by decide, by decide, ?_, by decide, by decide⟩
  intro o ho
  simp only [queueSample', List.mem_cons, List.not_mem_nil, or_false] at ho
  rcases ho with rfl | rfl | rfl | rfl | rfl <;> simp [Undisturbed]

/-- A node that was connected (sender 4), then disconnected and connected again; its old sender is dead. -/
def reconnectSample : List (Op Nat Nat) :=
  [.boot, .nodeStart 1 "me" (addr 1), .connect 1 (.rem "a" (addr 2)), .boot, .accept 3 (.rem "a" (addr 2)),
   .workers (.rem "a" (addr 2)) 4 4, .disconnect 1 (.rem "a" (addr 2)), .exit 1 (.loc 4) .kill, .drop 4,
   .connect 1 (.rem "a" (addr 2)), .drop 3, .supDown (.rem "a" (addr 2)) 3]
/-- A message is sent while the new connection is being set up (its sender will be 6). -/
def reconnectSample' : List (Op Nat Nat) :=
  [.send 1 (.one (.pid (.rem 7 1))) 42, .boot, .accept 5 (.rem "a" (addr 2)), .workers (.rem "a" (addr 2)) 6 6]

/-- C46 (violated). `node_disconnect` leaves the old sender process in the registration (node_registry.rs:378-387), and
the loss of the old supervisor is ignored once a new connection attempt has begun (:288-293): a frame sent while the new
connection is being set up goes to the dead sender of the old one instead of the queue, so the new connection never gets
it. -/
theorem C46_reconnect_loses_frames_violated :
    let w : World Nat Nat := run id init reconnectSample
    let w' := run id w reconnectSample'
    (w.nodeRegs 1).any (fun g => decide (g.state = .pending)) = true ∧ exists? w 4 = false ∧
    (∀ o ∈ reconnectSample', Undisturbed (.rem "a" (addr 2)) 6 o) ∧
    (askedFor 1 w).length = 0 ∧ (askedFor 1 w').length = 1 ∧
    ((w'.nodeRegs 1).bind NReg.sender) = some 6 ∧ (handed 6 w').length = 0 ∧ (w'.pending (.rem "a" (addr 2))).length = 0 := by
  refine ⟨by decide, by decide, ?_, by decide, by decide, by decide, by decide, by decide⟩
  intro o ho
  simp only [reconnectSample', List.mem_cons, List.not_mem_nil, or_false] at ho
  rcases ho with rfl | rfl | rfl | rfl <;> simp [Undisturbed]

/-! ## C52 -/

/-- Process `s` is the node's accepted connection. -/
def ConnectedBy (n : Node) (s : Nat) (t : NT B) : Prop :=
  ∃ g, t.reg n = some g ∧ g.state = .connected ∧ g.sup = some s

/-- Nothing ends the connection `s` of `n`. -/
def KeepsConn (n : Node) (s : Nat) : Op B V → Prop
  | .supDown m p => m = n → p ≠ s
  | .disconnect _ m | .forget _ m => m ≠ n
  | .nodeStop _ | .nodePanic => False
  | _ => True

def NKeepsConn (n : Node) (s : Nat) : NAtom B → Prop
  | .down m p => m = n → p ≠ s
  | .disc m | .forget m => m ≠ n
  | .stop => False
  | _ => True

theorem NT.reg_add (t : NT B) (h : NodeInv t) (m n : Node) (g : NReg) (hm : t.nodeMap m = none) :
    (t.add m g).reg n = if n = m then some g else t.reg n := by
  unfold NT.reg NT.add
  simp only [upd_at]
  split
  · simp [upd_at]
  · cases hn : t.nodeMap n with
    | none => rfl
    | some id =>
      have : id < t.nextNode := by
        rcases h.range _ _ hn with ⟨-, e⟩ | ⟨-, -, e⟩
        · have := h.pos; rw [e]; exact this
        · exact e
      simp only [Option.bind_some, upd_at]
      rw [if_neg (by omega)]

theorem NT.reg_setReg (t : NT B) (h : NodeInv t) (m n : Node) (g g' : NReg) (hm : t.reg m = some g) :
    (t.setReg m g').reg n = if n = m then some g' else t.reg n := by
  unfold NT.reg at hm
  cases hk : t.nodeMap m with
  | none => rw [hk] at hm; simp at hm
  | some k =>
    unfold NT.reg NT.setReg
    simp only [hk]
    split
    · rename_i e; subst e; simp [hk, upd_at]
    · rename_i e
      cases hn : t.nodeMap n with
      | none => rfl
      | some id =>
        simp only [Option.bind_some, upd_at]
        rw [if_neg]
        rintro rfl; exact e (h.inj _ _ _ hn hk)

theorem connected_nact {n : Node} (hn : n ≠ .loc) {s : Nat} {t : NT B} (hi : NodeInv t) (h : ConnectedBy n s t) (a : NAtom B)
    (ha : NKeepsConn n s a) : ConnectedBy n s (nact t a) := by
  obtain ⟨g, hg, h1, h2⟩ := h
  have hmap : t.nodeMap n ≠ none := by
    intro e; simp [NT.reg, e] at hg
  have keep : ∀ t' : NT B, t'.nodeMap = t.nodeMap → t'.nodeRegs = t.nodeRegs → ConnectedBy n s t' := by
    intro t' e1 e2; exact ⟨g, by simpa only [NT.reg, e1, e2] using hg, h1, h2⟩
  have hadd : ∀ m g', t.nodeMap m = none → ConnectedBy n s (t.add m g') := by
    intro m g' e
    refine ⟨g, ?_, h1, h2⟩
    rw [NT.reg_add t hi m n g' e, if_neg]
    · exact hg
    · rintro rfl; exact hmap e
  have hset : ∀ m g' g2, t.reg m = some g' → (m = n → g2.state = .connected ∧ g2.sup = some s) → ConnectedBy n s (t.setReg m g2) := by
    intro m g' g2 e e'
    by_cases hm : n = m
    · subst hm
      obtain ⟨e1, e2⟩ := e' rfl
      exact ⟨g2, by rw [NT.reg_setReg t hi _ _ g' g2 e, if_pos rfl], e1, e2⟩
    · exact ⟨g, by rw [NT.reg_setReg t hi _ _ g' g2 e, if_neg hm]; exact hg, h1, h2⟩
  cases a with
  | frame f id =>
    simp only [nact]
    split
    · exact keep _ rfl rfl
    · split
      · exact keep _ rfl rfl
      · split <;> exact keep _ rfl rfl
  | regSup m x =>
    cases m with
    | loc => exact keep _ rfl rfl
    | rem a b =>
      simp only [nact]
      split
      · rename_i e; exact hadd _ _ e
      · split
        · rename_i g' hg'
          split
          · rename_i hs
            refine hset _ g' _ hg' ?_
            rintro rfl; rw [hg] at hg'; cases hg'; rw [h2] at hs; simp at hs
          · exact keep _ rfl rfl
        · exact keep _ rfl rfl
  | regKnown m =>
    cases m with
    | loc => exact keep _ rfl rfl
    | rem a b =>
      simp only [nact]
      split
      · rename_i e; exact hadd _ _ e
      · exact keep _ rfl rfl
  | start x name ad =>
    simp only [nact]
    split
    · exact keep _ rfl rfl
    · refine ⟨g, ?_, h1, h2⟩
      unfold NT.reg at hg ⊢
      simp only [upd_at, if_neg hn]
      cases e : t.nodeMap n with
      | none => exact absurd e hmap
      | some id =>
        rw [e] at hg
        simp only [Option.bind_some, upd_at] at hg ⊢
        rw [if_neg]
        · exact hg
        · rintro rfl
          rcases hi.range _ _ e with ⟨e, -⟩ | ⟨-, e, -⟩
          · exact hn e
          · simp [LOCAL_NODE_ID] at e
  | stop => exact ha.elim
  | workers m x r =>
    simp only [nact]
    split
    · exact keep _ rfl rfl
    · rename_i g' hg'
      obtain ⟨g2, e1, e2⟩ := hset m g' { g' with sender := some x, recv := some r } hg' (by
        rintro rfl; rw [hg] at hg'; cases hg'; exact ⟨h1, h2⟩)
      exact ⟨g2, e1, e2⟩
  | accept m x =>
    cases m with
    | loc => exact keep _ rfl rfl
    | rem a b =>
      simp only [nact]
      split
      · rename_i e; exact hadd _ _ e
      · split
        · rename_i g' hg'
          split
          · rename_i hs
            refine hset _ g' _ hg' ?_
            rintro rfl; rw [hg] at hg'; cases hg'; rw [h2, h1] at hs; simp at hs
          · exact keep _ rfl rfl
        · exact keep _ rfl rfl
  | down m p =>
    simp only [nact]
    split
    · exact keep _ rfl rfl
    · rename_i g' hg'
      split
      · exact keep _ rfl rfl
      · rename_i hs
        refine hset m g' _ hg' ?_
        rintro rfl
        rw [hg] at hg'; cases hg'
        exact absurd ⟨by simp [h2], by rw [h2]; simpa [eq_comm] using ha rfl⟩ hs
  | clrPending m => exact keep _ rfl rfl
  | disc m =>
    simp only [nact]
    split
    · exact keep _ rfl rfl
    · rename_i g' hg'; exact hset m g' _ hg' (fun e => absurd e ha)
  | forget m =>
    have ha : m ≠ n := ha
    simp only [nact]
    split
    · exact keep _ rfl rfl
    · rename_i k hk
      have hreg : ∀ t' : NT B, t'.nodeMap = upd t.nodeMap m none → (t'.nodeRegs = t.nodeRegs ∨ t'.nodeRegs = upd t.nodeRegs k none) →
          ConnectedBy n s t' := by
        intro t' e1 e2
        refine ⟨g, ?_, h1, h2⟩
        unfold NT.reg at hg ⊢
        rw [e1]
        simp only [upd_at, if_neg ha.symm]
        cases e : t.nodeMap n with
        | none => exact absurd e hmap
        | some id =>
          rw [e] at hg
          simp only [Option.bind_some] at hg ⊢
          rcases e2 with e2 | e2
          · rw [e2]; exact hg
          · rw [e2]; simp only [upd_at]; rw [if_neg]
            · exact hg
            · rintro rfl; exact ha (hi.inj _ _ _ hk e)
      split
      · exact hreg _ rfl (.inl rfl)
      · exact hreg _ rfl (.inr rfl)

theorem connected_run (ser : V → B) (os : List (Op B V)) (n : Node) (hn : n ≠ .loc) (s : Nat) (w : World B V) (hi : NodeInv (nt w))
    (h : ConnectedBy n s (nt w)) (hos : ∀ o ∈ os, KeepsConn n s o) : NodeInv (nt (run ser w os)) ∧ ConnectedBy n s (nt (run ser w os)) := by
  refine run_inv' ser (fun w => NodeInv (nt w) ∧ ConnectedBy n s (nt w)) (KeepsConn n s) ?_ os hos w ⟨hi, h⟩
  intro w1 o ho _ w2 x _ hx ⟨h1, h2⟩
  rw [nt_act]
  cases x <;> try exact ⟨h1, h2⟩
  rename_i na
  refine ⟨nodeInv_nact h1 _, connected_nact hn h1 h2 _ ?_⟩
  cases na <;> simp only [AtomOf] at hx <;> simp only [NKeepsConn]
  · rcases hx with ⟨me, rfl⟩ | rfl <;> exact ho
  · subst hx; exact ho
  · obtain ⟨-, me, rfl⟩ := hx; exact ho
  · obtain ⟨-, me, rfl⟩ := hx; exact ho

theorem accept_connected (w : World B V) (n : Node) (hn : n ≠ .loc) (s s2 : Nat) (h : ConnectedBy n s (nt w)) :
    nodeAccept w n s2 = (w, false) := by
  obtain ⟨g, hg, h1, h2⟩ := h
  cases n with
  | loc => exact absurd rfl hn
  | rem a b =>
    unfold NT.reg at hg
    simp only [nodeAccept]
    have e : ∃ id, w.nodeMap (.rem a b) = some id ∧ w.nodeRegs id = some g := by
      cases e : w.nodeMap (.rem a b) with
      | none => simp [nt, e] at hg
      | some id => exact ⟨id, rfl, by simpa [nt, e] using hg⟩
    obtain ⟨id, e1, e2⟩ := e
    simp [e1, e2, h1, h2]

/-- C52. Once a connection's supervisor was accepted for a node, every further accept for that node, by whatever process
and after whatever history, is refused and changes nothing, until that connection goes down, the node is disconnected
or forgotten, or the local node stops. -/
theorem C52_one_connection (ser : V → B) (os os' : List (Op B V)) (n : Node) (s s2 : Nat) :
    let w := run ser init os
    let a := step ser w (.accept s n)
    let w' := run ser a.1 os'
    n ≠ .loc → a.2 = .bool true → (∀ o ∈ os', KeepsConn n s o) →
    (step ser w' (.accept s2 n)).1 = w' ∧ (step ser w' (.accept s2 n)).2 ≠ .bool true := by
  intro w a w' hn ha hos
  have hi : NodeInv (nt w) := run_nodeInv ser os
  have hia : NodeInv (nt a.1) := by
    have := run_nodeInv ser (os ++ [.accept s n])
    have hr : run ser init (os ++ [.accept s n]) = a.1 := by simp [run, a, w, List.foldl_append]
    rw [hr] at this; exact this
  have hc : ConnectedBy n s (nt a.1) := by
    have hrun : running w s = true := by
      rcases hr : running w s with _ | _
      · simp [a, step, Op.caller, hr] at ha
      · rfl
    have he : a = ((nodeAccept w n s).1, .bool (nodeAccept w n s).2) := by
      simp only [a, step, Op.caller, hrun, if_true, Op.exec]
    rw [he] at ha ⊢
    simp only [Res.bool.injEq] at ha
    cases n with
    | loc => exact absurd rfl hn
    | rem x y =>
      unfold nodeAccept at ha ⊢
      dsimp only at ha ⊢
      split
      · refine ⟨⟨some s, none, none, .connected, x, y⟩, ?_, rfl, rfl⟩
        simp [NT.reg, nt, upd_at]
      · rename_i id hid
        rw [hid] at ha
        dsimp only at ha
        split
        · rename_i hg; rw [hg] at ha; simp at ha
        · rename_i g hg
          rw [hg] at ha
          dsimp only at ha
          generalize hk : (if g.state = NState.pending then
              (match g.sup with | some s' => if s ≠ s' then processExit w s' (.loc s) .kill else w | none => w) else w) = k at ha ⊢
          have hkn : nt k = nt w := by
            rw [← hk]; split
            · split
              · split
                · exact processExit_nt ..
                · rfl
              · rfl
            · rfl
          have hkm : k.nodeMap = w.nodeMap := congrArg NT.nodeMap hkn
          split
          · refine ⟨{ g with sup := some s, state := .connected }, ?_, rfl, rfl⟩
            simp [NT.reg, nt, upd_at, hkm, hid]
          · rename_i hs; rw [hs] at ha; simp at ha
  obtain ⟨-, h2⟩ := connected_run ser os' n hn s a.1 hia hc hos
  have hacc := accept_connected w' n hn s s2 h2
  simp only [step, Op.caller]
  split
  · simp only [Op.exec, hacc]; simp
  · simp

/-- C52, the other side: a connection is accepted exactly if no other one is there: the node is unknown, or its registration is pending or has no
supervisor. Then the registration is connected and belongs to the accepting process; otherwise it is as before. -/
theorem C52_accepted_iff (ser : V → B) (os : List (Op B V)) (n : Node) (s : Nat) :
    let w := run ser init os
    let a := step ser w (.accept s n)
    n ≠ .loc → running w s = true →
    (a.2 = .bool true ↔ ∀ id g, w.nodeMap n = some id → w.nodeRegs id = some g → g.state = .pending ∨ g.sup = none) ∧
    (a.2 = .bool true → ∃ id g, a.1.nodeMap n = some id ∧ a.1.nodeRegs id = some g ∧ g.state = .connected ∧ g.sup = some s) ∧
    (a.2 = .bool true ∨ a = (w, .bool false)) := by
  intro w a hn hr
  have he : a = ((nodeAccept w n s).1, .bool (nodeAccept w n s).2) := by
    simp only [a, step, Op.caller, hr, if_true, Op.exec]
  have hi : NodeInv (nt w) := run_nodeInv ser os
  rw [he]
  cases n with
  | loc => exact absurd rfl hn
  | rem x y =>
    unfold nodeAccept
    dsimp only
    cases hm : w.nodeMap (.rem x y) with
    | none => simp [upd_at]
    | some id =>
      dsimp only
      cases hg : w.nodeRegs id with
      | none =>
        obtain ⟨g, hg', -⟩ := hi.reg _ _ hm
        have hg'' : w.nodeRegs id = some g := hg'
        rw [hg] at hg''; cases hg''
      | some g =>
        dsimp only
        generalize hk : (if g.state = NState.pending then
            (match g.sup with | some s' => if s ≠ s' then processExit w s' (.loc s) .kill else w | none => w) else w) = k
        have hkn : nt k = nt w := by
          rw [← hk]; split
          · split
            · split
              · exact processExit_nt ..
              · rfl
            · rfl
          · rfl
        have hkm : k.nodeMap = w.nodeMap := congrArg NT.nodeMap hkn
        by_cases hp : g.state = .pending
        · rw [if_pos hp]
          simp only [true_iff]
          refine ⟨?_, fun _ => ⟨id, { g with sup := some s, state := .connected }, by rw [hkm]; exact hm, by simp [upd_at], rfl, rfl⟩, .inl trivial⟩
          intro id' g' h1 h2
          cases h1; rw [hg] at h2; cases h2
          exact .inl hp
        · rw [if_neg hp]
          rw [if_neg hp] at hk; subst hk
          cases hs : g.sup with
          | none =>
            simp only [true_iff]
            refine ⟨?_, fun _ => ⟨id, { g with sup := some s, state := .connected }, hm, by simp [upd_at], rfl, rfl⟩, .inl trivial⟩
            intro id' g' h1 h2
            cases h1; rw [hg] at h2; cases h2
            exact .inr hs
          | some s' =>
            refine ⟨⟨fun h => by simp at h, fun h => ?_⟩, fun h => by simp at h, .inr rfl⟩
            rcases h id g rfl hg with h | h
            · exact absurd h hp
            · rw [hs] at h; cases h

/-- An incoming connection is accepted while ours is being made; a second one is refused. -/
example : let w := run id init (queueSample ++ [.boot, .boot])
    (step id w (.accept 4 (.rem "a" (addr 2)))).2 = .bool true ∧ running w 4 = true ∧
    let w' := (step id w (.accept 4 (.rem "a" (addr 2)))).1
    running w' 5 = true ∧ (step id w' (.accept 5 (.rem "a" (addr 2)))).2 = .bool false := by
  refine ⟨by rfl, by decide, by decide, by rfl⟩

/-- C52. When an incoming connection takes over from a connection attempt of our own, that attempt's process is
killed. -/
theorem C52_pending_attempt_killed (ser : V → B) (w : World B V) (n : Node) (id s s0 : Nat) (g : NReg) (p : Proc B V) :
    n ≠ .loc → running w s = true → w.nodeMap n = some id → w.nodeRegs id = some g → g.state = .pending → g.sup = some s0 → s0 ≠ s →
    w.procs s0 = some p →
    (step ser w (.accept s n)).2 = .bool true ∧
    ((step ser w (.accept s n)).1.procs s0).map (fun p => (p.reason, p.aborted)) = some (some .kill, true) := by
  intro hn hr hm hg hst hs hne hp
  cases n with
  | loc => exact absurd rfl hn
  | rem a b =>
    have hne' : s ≠ s0 := fun e => hne e.symm
    simp [step, Op.caller, hr, Op.exec, nodeAccept, hm, hg, hst, hs, hne', processExit, hp, upd_at]

example : ((step id (run id init (queueSample ++ [.boot])) (.accept 4 (.rem "a" (addr 2)))).2 = .bool true) ∧
    running (run id init (queueSample ++ [.boot])) 4 = true ∧
    ((run id init (queueSample ++ [.boot])).nodeRegs 1).any (fun g => decide (g.state = .pending) && decide (g.sup = some 3)) = true := by
  refine ⟨by rfl, by decide, by decide⟩

end Verif.World
