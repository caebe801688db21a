import Verif.Ident
import Verif.ClientLemmas
/-!
# Identifiers across nodes (C09, C10, C11, C85, C86)
-/
namespace Verif.World
open Verif.Codec (SockAddr)
variable {B V B' V' : Type}

/-! ## Specification -/

/-- A node of the cluster is known to the others by its name and address. -/
abbrev Ident := String × SockAddr

/-- Who this node is, if it is distributed. -/
def identity (w : World B V) : Option Ident := (w.nodeRegs LOCAL_NODE_ID).map fun g => (g.name, g.addr)

/-- Which node the node id `n` stands for in this node. -/
def nodeOf (w : World B V) (n : Nat) : Option Ident := (w.nodeRegs n).map fun g => (g.name, g.addr)

/-- The process that a pid denotes in this node: the node it lives in, and its number there. -/
def denotes (w : World B V) : Pid → Option (Ident × Nat)
  | .loc i => (identity w).map fun a => (a, i)
  | .rem i n => (nodeOf w n).map fun a => (a, i)

/-- What a reference denotes in this node: the node that made it, and its number there. -/
def denotesRef (w : World B V) : Ref → Option (Ident × Nat)
  | .loc i => (identity w).map fun a => (a, i)
  | .rem i n => (nodeOf w n).map fun a => (a, i)

/-- Which node a `Node` denotes. -/
def denotesNode (w : World B V) : Node → Option Ident
  | .loc => identity w
  | .rem name addr => some (name, addr)

/-- What a destination denotes. -/
def denotesDest (w : World B V) : Dest → Option (Sum (Ident × Nat) (Sum (Ident × String) (Ident × Nat)))
  | .pid p => (denotes w p).map .inl
  | .named name n => (denotesNode w n).map fun a => .inr (.inl (a, name))
  | .alias r => (denotesRef w r).map fun x => .inr (.inr x)

/-- The node never forgets `a` and never stops. -/
def Remembers (a : Ident) (o : Op B V) : Prop :=
  (∀ me, o ≠ .forget me (.rem a.1 a.2)) ∧ (∀ me, o ≠ .nodeStop me) ∧ o ≠ .nodePanic

/-! ## Lemmas -/

theorem lookupLocal_eq (w : World B V) : lookupLocal w = identity w := rfl
theorem lookupRemote_eq (w : World B V) (n : Nat) : lookupRemote w n = nodeOf w n := rfl

theorem serPid_eq (w : World B V) (p : Pid) :
    serPid w p = match denotes w p with | some (a, i) => .withNode i a.1 a.2 | none => .unavailable p.id := by
  cases p with
  | loc i =>
    simp only [serPid, lookupLocal_eq, denotes]
    cases identity w <;> rfl
  | rem i n =>
    simp only [serPid, lookupRemote_eq, denotes]
    cases nodeOf w n <;> rfl

theorem nodeRegister_known {w : World B V} (hi : NodeInv (nt w)) (a : Ident) :
    let s := nodeRegister w (.rem a.1 a.2) false
    nodeOf s.1 s.2 = some a ∧ (∀ n b, nodeOf w n = some b → nodeOf s.1 n = some b) ∧ s.2 ≠ LOCAL_NODE_ID ∧ NodeInv (nt s.1) ∧
      identity s.1 = identity w := by
  intro s
  have hI : NodeInv (nt s.1) := (acts_nodeRegister (Q := fun _ => True) ⟨trivial, fun _ _ => trivial, fun _ => trivial⟩ w _ _).inv
    (I := fun w => NodeInv (nt w)) hi (by
      intro w a _ h
      rw [nt_act]
      cases a <;> first | exact h | exact nodeInv_nact h _)
  cases hm : w.nodeMap (.rem a.1 a.2) with
  | some id =>
    have hs : s = (w, id) := by simp [s, nodeRegister, hm]
    obtain ⟨g, h1, h2⟩ := hi.reg _ _ hm
    have h1 : w.nodeRegs id = some g := h1
    have h2 := h2 (by simp)
    rcases hi.range _ _ hm with ⟨h, -⟩ | ⟨-, h3, -⟩
    · cases h
    · refine ⟨?_, ?_, ?_, hI, ?_⟩
      · rw [hs]; simp at h2; simp [nodeOf, h1, ← h2]
      · rw [hs]; exact fun _ _ h => h
      · rw [hs]; simp [LOCAL_NODE_ID]; omega
      · rw [hs]
  | none =>
    have hs : s = ({ w with nextNode := w.nextNode + 1,
                            nodeRegs := upd w.nodeRegs w.nextNode (some ⟨none, none, none, .known, a.1, a.2⟩),
                            nodeMap := upd w.nodeMap (.rem a.1 a.2) (some w.nextNode) }, w.nextNode) := by
      simp [s, nodeRegister, hm]
    have hpos : 0 < w.nextNode := hi.pos
    have hlt : ∀ n g, w.nodeRegs n = some g → n < w.nextNode := by
      intro n g hg
      by_cases h0 : n = LOCAL_NODE_ID
      · rw [h0]; exact hpos
      · have := (hi.back n g hg).2 h0
        rcases hi.range _ _ this with ⟨h, -⟩ | ⟨-, -, h⟩
        · cases h
        · exact h
    refine ⟨?_, ?_, ?_, hI, ?_⟩
    · rw [hs]; simp [nodeOf, upd_at]
    · intro n b h
      rw [hs]
      unfold nodeOf at h ⊢
      cases hg : w.nodeRegs n with
      | none => rw [hg] at h; simp at h
      | some g =>
        have := hlt n g hg
        simp only [upd_at]
        rw [if_neg (by omega)]; exact h
    · rw [hs]; simp [LOCAL_NODE_ID]; omega
    · rw [hs]; simp only [identity, upd_at]; rw [if_neg (by simp [LOCAL_NODE_ID]; omega)]

theorem reach_nodeInv {ser : V → B} {w : World B V} (h : Reachable ser w) : NodeInv (nt w) := by
  obtain ⟨os, rfl⟩ := h; exact run_nodeInv ser os

/-- Reading an identifier changes the tables of the node as the operation `learn` of `World` does. -/
theorem deserPid_learn (w : World B V) (x : IdWire) :
    (deserPid w x).1 = match x with | .withNode _ name addr => learn w (.rem name addr) | .unavailable _ => w := by
  cases x with
  | unavailable i => rfl
  | withNode i name addr =>
    simp only [deserPid, learn, lookupLocal]
    cases w.nodeRegs LOCAL_NODE_ID with
    | none => rfl
    | some g =>
      simp only [Option.map_some, Node.rem.injEq]
      by_cases h : g.name = name ∧ g.addr = addr
      · rw [if_pos h, if_pos ⟨h.1.symm, h.2.symm⟩]
      · rw [if_neg h, if_neg (fun h' => h ⟨h'.1.symm, h'.2.symm⟩)]

theorem deserRef_learn (w : World B V) (x : IdWire) : (deserRef w x).1 = (deserPid w x).1 := by
  cases x with
  | unavailable i => rfl
  | withNode i name addr => simp only [deserPid, deserRef]; split <;> (try split) <;> rfl

/-! ## Spec of reading -/

theorem deserPid_spec {w : World B V} (hi : NodeInv (nt w)) {b : Ident} (hb : identity w = some b) (a : Ident) (i : Nat) :
    let s := deserPid w (.withNode i a.1 a.2)
    denotes s.1 s.2 = some (a, i) ∧ (s.2 = .loc i ↔ a = b) ∧ (∀ p x, denotes w p = some x → denotes s.1 p = some x) ∧
      (∀ n, s.2 = .rem i n → n ≠ LOCAL_NODE_ID) ∧ s.2.id = i := by
  obtain ⟨b1, b2⟩ := b
  obtain ⟨a1, a2⟩ := a
  intro s
  have hs : s = if b1 = a1 ∧ b2 = a2 then (w, .loc i)
      else ((nodeRegister w (.rem a1 a2) false).1, .rem i (nodeRegister w (.rem a1 a2) false).2) := by
    simp only [s, deserPid, lookupLocal_eq, hb]
  obtain ⟨h1, h2, h3, h4, h5⟩ := nodeRegister_known hi (a1, a2)
  by_cases h : b1 = a1 ∧ b2 = a2
  · rw [if_pos h] at hs
    obtain ⟨rfl, rfl⟩ := h
    rw [hs]
    refine ⟨by simp [denotes, hb], by simp, fun _ _ h => h, by simp, rfl⟩
  · rw [if_neg h] at hs
    rw [hs]
    refine ⟨by simp [denotes, h1], ?_, ?_, ?_, rfl⟩
    · constructor
      · intro h'; cases h'
      · intro h'; cases h'; exact absurd ⟨rfl, rfl⟩ h
    · intro p x hp
      cases p with
      | loc j => simp only [denotes] at hp ⊢; rw [h5]; exact hp
      | rem j n =>
        simp only [denotes] at hp ⊢
        cases hn : nodeOf w n with
        | none => rw [hn] at hp; simp at hp
        | some c => rw [h2 _ _ hn]; rw [hn] at hp; exact hp
    · intro n hn
      cases hn
      exact h3

/-- A registration stays while nobody forgets the node or stops the local node. -/
theorem nodeOf_run (ser : V → B) (os : List (Op B V)) (w : World B V) (hi : NodeInv (nt w)) (n : Nat) (a : Ident) (h : nodeOf w n = some a)
    (hos : ∀ o ∈ os, Remembers a o) : nodeOf (run ser w os) n = some a := by
  have key : ∀ (t : NT B) (na : NAtom B), NodeInv t → (∃ g, t.nodeRegs n = some g ∧ (g.name, g.addr) = a) → na ≠ .stop →
      (∀ m, na = .forget m → m ≠ .loc ∧ m ≠ .rem a.1 a.2) → ∃ g, (nact t na).nodeRegs n = some g ∧ (g.name, g.addr) = a := by
    intro t na hi ⟨g, hg, hga⟩ hstop hforget
    have hset : ∀ m g1 g2, t.reg m = some g1 → g2.name = g1.name → g2.addr = g1.addr →
        ∃ g, (t.setReg m g2).nodeRegs n = some g ∧ (g.name, g.addr) = a := by
      intro m g1 g2 h1 h2 h3
      unfold NT.reg at h1
      cases hm : t.nodeMap m with
      | none => rw [hm] at h1; simp at h1
      | some k =>
        rw [hm] at h1; simp only [Option.bind_some] at h1
        simp only [NT.setReg, hm, upd_at]
        by_cases hk : n = k
        · subst hk
          rw [h1] at hg; cases hg
          exact ⟨g2, by simp, by rw [h2, h3]; exact hga⟩
        · exact ⟨g, by simp [hk, hg], hga⟩
    have hadd : ∀ m g2, ∃ g, (t.add m g2).nodeRegs n = some g ∧ (g.name, g.addr) = a := by
      intro m g2
      refine ⟨g, ?_, hga⟩
      simp only [NT.add, upd_at]
      have : n < t.nextNode := by
        by_cases h0 : n = LOCAL_NODE_ID
        · rw [h0]; exact hi.pos
        · have := (hi.back n g hg).2 h0
          rcases hi.range _ _ this with ⟨h, -⟩ | ⟨-, -, h⟩
          · cases h
          · exact h
      rw [if_neg (by omega)]; exact hg
    cases na with
    | frame f k =>
      simp only [nact]
      split
      · exact ⟨g, hg, hga⟩
      · split
        · exact ⟨g, hg, hga⟩
        · split <;> exact ⟨g, hg, hga⟩
    | regSup m s =>
      cases m with
      | loc => exact ⟨g, hg, hga⟩
      | rem x y =>
        simp only [nact]
        split
        · exact hadd _ _
        · split
          · rename_i g1 h1; split
            · exact hset _ g1 _ h1 rfl rfl
            · exact ⟨g, hg, hga⟩
          · exact ⟨g, hg, hga⟩
    | regKnown m =>
      cases m with
      | loc => exact ⟨g, hg, hga⟩
      | rem x y =>
        simp only [nact]
        split
        · exact hadd _ _
        · exact ⟨g, hg, hga⟩
    | start s name addr =>
      simp only [nact]
      split
      · exact ⟨g, hg, hga⟩
      · rename_i hn
        refine ⟨g, ?_, hga⟩
        simp only [upd_at]
        rw [if_neg, hg]
        rintro rfl
        have := (hi.back _ g hg).1 rfl
        rw [hn] at this; cases this
    | stop => exact absurd rfl hstop
    | workers m s r =>
      simp only [nact]
      split
      · exact ⟨g, hg, hga⟩
      · rename_i g1 h1
        exact hset m g1 { g1 with sender := some s, recv := some r } h1 rfl rfl
    | accept m sup =>
      cases m with
      | loc => exact ⟨g, hg, hga⟩
      | rem x y =>
        simp only [nact]
        split
        · exact hadd _ _
        · split
          · rename_i g1 h1; split
            · exact hset _ g1 _ h1 rfl rfl
            · exact ⟨g, hg, hga⟩
          · exact ⟨g, hg, hga⟩
    | down m p =>
      simp only [nact]
      split
      · exact ⟨g, hg, hga⟩
      · split
        · exact ⟨g, hg, hga⟩
        · rename_i g1 h1 _; exact hset _ g1 _ h1 rfl rfl
    | clrPending m => exact ⟨g, hg, hga⟩
    | disc m =>
      simp only [nact]
      split
      · exact ⟨g, hg, hga⟩
      · rename_i g1 h1; exact hset _ g1 _ h1 rfl rfl
    | forget m =>
      obtain ⟨hf1, hf2⟩ := hforget m rfl
      simp only [nact]
      split
      · exact ⟨g, hg, hga⟩
      · rename_i k hk
        split
        · exact ⟨g, hg, hga⟩
        · refine ⟨g, ?_, hga⟩
          simp only [upd_at]
          rw [if_neg, hg]
          rintro rfl
          obtain ⟨g1, h1, h2⟩ := hi.reg _ _ hk
          rw [hg] at h1; cases h1
          refine hf2 ?_
          rw [h2 hf1, ← hga]
  have := run_inv' ser (fun w => NodeInv (nt w) ∧ ∃ g, (nt w).nodeRegs n = some g ∧ (g.name, g.addr) = a) (Remembers a) (by
    intro w o ho _ w' x _ hx ⟨h1, h2⟩
    rw [nt_act]
    cases x with
    | nodes na =>
      refine ⟨nodeInv_nact h1 _, key _ na h1 h2 ?_ ?_⟩
      · rintro rfl
        rcases hx with ⟨me, rfl⟩ | rfl
        · exact ho.2.1 me rfl
        · exact ho.2.2 rfl
      · rintro m rfl
        obtain ⟨h3, me, rfl⟩ := hx
        exact ⟨h3, fun h => ho.1 me (by rw [h])⟩
    | _ => exact ⟨h1, h2⟩) os hos w ⟨hi, by
      unfold nodeOf at h
      cases hg : w.nodeRegs n with
      | none => rw [hg] at h; simp at h
      | some g => rw [hg] at h; exact ⟨g, hg, by simpa using h⟩⟩
  obtain ⟨-, g, h1, h2⟩ := this
  have h1 : (run ser w os).nodeRegs n = some g := h1
  simp [nodeOf, h1, h2]

/-! ## C09 -/

/-- **C09.** A pid that denotes a process, written on one node and read on any distributed node, denotes there the same process;
it is read as a local pid exactly if the process lives on the reading node; and reading it changes the meaning of no other
pid. -/
theorem C09_same_process (serB : V → B) (wA : World B' V') (wB : World B V) (hB : Reachable serB wB)
    (p : Pid) (a b : Ident) (i : Nat) (hp : denotes wA p = some (a, i)) (hb : identity wB = some b) :
    let s := deserPid wB (serPid wA p)
    denotes s.1 s.2 = some (a, i) ∧ (s.2 = .loc i ↔ a = b) ∧ ∀ q x, denotes wB q = some x → denotes s.1 q = some x := by
  rw [serPid_eq, hp]
  exact ⟨(deserPid_spec (reach_nodeInv hB) hb a i).1, (deserPid_spec (reach_nodeInv hB) hb a i).2.1, (deserPid_spec (reach_nodeInv hB) hb a i).2.2.1⟩

/-- **C09.** The meaning of a pid of another node stays the same whatever happens, or it loses its meaning; and it keeps it as long as the
node is not forgotten and the local node not stopped. -/
theorem C09_stable (ser : V → B) (os os' : List (Op B V)) (i n : Nat) (a : Ident) (hn : n ≠ LOCAL_NODE_ID) :
    let w := run ser init os
    let w' := run ser w os'
    denotes w (.rem i n) = some (a, i) →
    (denotes w' (.rem i n) = some (a, i) ∨ denotes w' (.rem i n) = none) ∧
    ((∀ o ∈ os', Remembers a o) → denotes w' (.rem i n) = some (a, i)) := by
  intro w w' h
  have hw : nodeOf w n = some a := by
    simp only [denotes] at h
    cases hn : nodeOf w n with
    | none => rw [hn] at h; simp at h
    | some c => rw [hn] at h; simpa using h
  refine ⟨?_, ?_⟩
  · cases hw' : nodeOf w' n with
    | none => right; simp [denotes, hw']
    | some c =>
      left
      have h1 : lookupNode w n = some (.rem a.1 a.2) := by
        unfold nodeOf at hw; unfold lookupNode
        cases hg : w.nodeRegs n with
        | none => rw [hg] at hw; simp at hw
        | some g => rw [hg] at hw; simp at hw; subst hw; rfl
      have h2 : lookupNode w' n = some (.rem c.1 c.2) := by
        unfold nodeOf at hw'; unfold lookupNode
        cases hg : w'.nodeRegs n with
        | none => rw [hg] at hw'; simp at hw'
        | some g => rw [hg] at hw'; simp at hw'; subst hw'; rfl
      have := C45_ids_never_reused ser os os' n _ _ hn h1 h2
      simp at this
      have : c = a := Prod.ext this.1 this.2
      simp [denotes, hw', this]
  · intro hos
    have := nodeOf_run ser os' w (run_nodeInv ser os) n a hw hos
    simp [denotes, w', this]

/-- **C09.** A local pid sent to another node, kept there over any history that does not forget its node, and sent back at any
later time to its owner is the original local pid again. -/
theorem C09_home (serB : V → B) (wA wA' : World B' V') (wB : World B V) (me : Nat) (osB : List (Op B V)) (i : Nat)
    (a b : Ident) (hA : identity wA = some a) (hA' : identity wA' = some a) (hB : Reachable serB wB) (hb : identity wB = some b)
    (hab : a ≠ b) (hme : running wB me = true) (hos : ∀ o ∈ osB, Remembers a o) :
    let s := deserPid wB (serPid wA (.loc i))
    let wB' := run serB s.1 osB
    (deserPid wA' (serPid wB' s.2)).2 = .loc i := by
  intro s wB'
  have hp : denotes wA (.loc i) = some (a, i) := by simp [denotes, hA]
  have hspec := deserPid_spec (reach_nodeInv hB) hb a i
  have hs : s = deserPid wB (.withNode i a.1 a.2) := by simp only [s]; rw [serPid_eq, hp]
  rw [← hs] at hspec
  obtain ⟨h1, h2, -, h4, h5⟩ := hspec
  cases hpid : s.2 with
  | loc j =>
    rw [hpid] at h5; simp only [Pid.id] at h5; subst h5
    exact absurd (h2.1 hpid) hab
  | rem j n =>
    rw [hpid] at h5 h1; simp only [Pid.id] at h5; subst h5
    have hr : Reachable serB s.1 := by
      have := reach_step hB (.learn me (.rem a.1 a.2))
      have e : (step serB wB (.learn me (.rem a.1 a.2))).1 = s.1 := by
        rw [hs, deserPid_learn]; simp [step, Op.caller, hme, Op.exec]
      rw [e] at this; exact this
    obtain ⟨os, hr⟩ := hr
    have := (C09_stable serB os osB j n a (h4 n hpid) (by rw [← hr]; exact h1)).2 hos
    rw [← hr] at this
    rw [serPid_eq]
    simp only [wB']
    rw [this]
    obtain ⟨a1, a2⟩ := a
    simp [deserPid, lookupLocal_eq, hA']

/-- **C09.** Two pids that denote different processes are read as different pids, whatever the reading node does in between. -/
theorem C09_distinct (serB : V → B) (wA wA' : World B' V') (wB : World B V) (me : Nat) (osB : List (Op B V)) (p q : Pid)
    (x y : Ident × Nat) (b b' : Ident) (hp : denotes wA p = some x) (hq : denotes wA' q = some y) (hxy : x ≠ y)
    (hB : Reachable serB wB) (hb : identity wB = some b) (hme : running wB me = true) :
    let s := deserPid wB (serPid wA p)
    let wB' := run serB s.1 osB
    identity wB' = some b' → (b' = b ∨ x.1 ≠ b) → s.2 ≠ (deserPid wB' (serPid wA' q)).2 := by
  intro s wB' hb' hbb heq
  obtain ⟨a, i⟩ := x
  obtain ⟨c, j⟩ := y
  have hspec := deserPid_spec (reach_nodeInv hB) hb a i
  have hs : s = deserPid wB (.withNode i a.1 a.2) := by simp only [s]; rw [serPid_eq, hp]
  rw [← hs] at hspec
  obtain ⟨h1, h2, -, h4, h5⟩ := hspec
  have hr : Reachable serB s.1 := by
    have := reach_step hB (.learn me (.rem a.1 a.2))
    have e : (step serB wB (.learn me (.rem a.1 a.2))).1 = s.1 := by
      rw [hs, deserPid_learn]; simp [step, Op.caller, hme, Op.exec]
    rw [e] at this; exact this
  have hspec' := deserPid_spec (reach_nodeInv (reach_run hr osB)) hb' c j
  have hs' : deserPid wB' (serPid wA' q) = deserPid wB' (.withNode j c.1 c.2) := by rw [serPid_eq, hq]
  rw [hs'] at heq
  simp only [wB'] at heq
  obtain ⟨k1, k2, k3, k4, k5⟩ := hspec'
  have hij : i = j := by rw [← h5, ← k5, heq]
  subst hij
  apply hxy
  congr 1
  cases hpid : s.2 with
  | loc j =>
    rw [hpid] at h5; simp only [Pid.id] at h5; subst h5
    have e1 := h2.1 hpid
    rw [← heq, hpid] at k2
    have e2 := k2.1 rfl
    rcases hbb with rfl | hbb
    · rw [e1, e2]
    · exact absurd e1 hbb
  | rem j n =>
    rw [hpid] at h5 h1; simp only [Pid.id] at h5; subst h5
    rw [← heq, hpid] at k1
    obtain ⟨os, hr⟩ := hr
    have hsp : Spent n a.1 a.2 (nt (deserPid (run serB s.1 osB) (.withNode j c.1 c.2)).1) := by
      have h0 : Spent n a.1 a.2 (nt s.1) := by
        have hI : NodeInv (nt s.1) := by rw [hr]; exact run_nodeInv serB os
        have hg : nodeOf s.1 n = some a := by
          simp only [denotes] at h1
          cases hn : nodeOf s.1 n with
          | none => rw [hn] at h1; simp at h1
          | some c => rw [hn] at h1; simpa using h1
        unfold nodeOf at hg
        cases hg' : s.1.nodeRegs n with
        | none => rw [hg'] at hg; simp at hg
        | some g =>
          rw [hg'] at hg; simp at hg; subst hg
          refine ⟨?_, ?_⟩
          · have := (hI.back n g hg').2 (h4 n hpid)
            rcases hI.range _ _ this with ⟨e, -⟩ | ⟨-, -, e⟩
            · cases e
            · exact e
          · intro g2 h
            have h : s.1.nodeRegs n = some g2 := h
            rw [hg'] at h; cases h; exact ⟨rfl, rfl⟩
      have h1' : Spent n a.1 a.2 (nt (run serB s.1 osB)) := by
        refine run_inv serB (fun w => Spent n a.1 a.2 (nt w)) ?_ osB s.1 h0
        intro w x h
        rw [nt_act]
        cases x <;> first | exact h | exact spent_nact (h4 n hpid) h _
      rw [deserPid_learn]
      simp only [learn]
      split
      · exact h1'
      · split
        · exact h1'
        · refine (acts_nodeRegister (Q := fun _ => True) ⟨trivial, fun _ _ => trivial, fun _ => trivial⟩
            (run serB s.1 osB) _ _).inv (I := fun w => Spent n a.1 a.2 (nt w)) h1' ?_
          intro w x _ h
          rw [nt_act]
          cases x <;> first | exact h | exact spent_nact (h4 n hpid) h _
    simp only [denotes, nodeOf] at k1
    cases hg : (deserPid (run serB s.1 osB) (.withNode j c.1 c.2)).1.nodeRegs n with
    | none => rw [hg] at k1; simp at k1
    | some g =>
      rw [hg] at k1
      obtain ⟨e1, e2⟩ := hsp.2 g hg
      simp at k1
      rw [← k1, e1, e2]

/-- C09 fails for pids of nodes that are not (any more) known: they lose their node on the wire, so two different processes may
become one pid. -/
theorem C09_unknown_nodes_violated : ∃ (os : List (Op Nat Nat)) (p q : Pid), p ≠ q ∧
    denotes (run id init (os.take 4)) p ≠ none ∧ denotes (run id init (os.take 4)) q ≠ none ∧
    denotes (run id init (os.take 4)) p ≠ denotes (run id init (os.take 4)) q ∧
    serPid (run id init os) p = serPid (run id init os) q :=
  ⟨[.boot, .nodeStart 1 "me" (addr 1), .learn 1 (.rem "a" (addr 2)), .learn 1 (.rem "b" (addr 3)),
    .forget 1 (.rem "a" (addr 2)), .forget 1 (.rem "b" (addr 3))], .rem 5 1, .rem 5 2, by decide, by decide, by decide, by decide, by decide⟩

/-- C09 fails on a node that is not distributed: a local pid that is written and read again (as `Process::send` to several
destinations does with all messages but the first) is not the local pid any more. -/
theorem C09_undistributed_violated (w : World B V) (h : identity w = none) (i : Nat) :
    (deserPid w (serPid w (.loc i))).2 = .rem i INVALID_NODE_ID := by
  rw [serPid_eq]
  simp [denotes, h, deserPid, Pid.id]

/-! ## C10 -/

def Ref.toPid : Ref → Pid
  | .loc i => .loc i
  | .rem i n => .rem i n

theorem denotesRef_eq (w : World B V) (r : Ref) : denotesRef w r = denotes w (Ref.toPid r) := by cases r <;> rfl
theorem serRef_eq (w : World B V) (r : Ref) : serRef w r = serPid w (Ref.toPid r) := by cases r <;> rfl
theorem toPid_inj {r s : Ref} (h : Ref.toPid r = Ref.toPid s) : r = s := by
  cases r <;> cases s <;> simp [Ref.toPid] at h ⊢ <;> exact h
theorem deserRef_eq (w : World B V) (x : IdWire) : (deserRef w x).1 = (deserPid w x).1 ∧ Ref.toPid (deserRef w x).2 = (deserPid w x).2 := by
  cases x with
  | unavailable i => exact ⟨rfl, rfl⟩
  | withNode i name addr => simp only [deserPid, deserRef]; split <;> (try split) <;> exact ⟨rfl, rfl⟩

/-- **C10.** A reference written on one node and read on any distributed node denotes there the same reference; it is read as a local one
exactly if the reading node made it. -/
theorem C10_same_reference (serB : V → B) (wA : World B' V') (wB : World B V) (hB : Reachable serB wB)
    (r : Ref) (a b : Ident) (i : Nat) (hp : denotesRef wA r = some (a, i)) (hb : identity wB = some b) :
    let s := deserRef wB (serRef wA r)
    denotesRef s.1 s.2 = some (a, i) ∧ (s.2 = .loc i ↔ a = b) := by
  intro s
  rw [denotesRef_eq] at hp
  obtain ⟨h1, h2, -⟩ := C09_same_process serB wA wB hB (Ref.toPid r) a b i hp hb
  obtain ⟨e1, e2⟩ := deserRef_eq wB (serRef wA r)
  rw [serRef_eq] at e1 e2
  simp only [s, denotesRef_eq, serRef_eq]
  rw [e1, e2]
  refine ⟨h1, ?_⟩
  rw [← h2, ← e2]
  constructor
  · intro h; rw [h]; rfl
  · intro h; exact toPid_inj h

/-- **C10.** Sent back to its owner at any later time it is the original local reference. -/
theorem C10_home (serB : V → B) (wA wA' : World B' V') (wB : World B V) (me : Nat) (osB : List (Op B V)) (i : Nat)
    (a b : Ident) (hA : identity wA = some a) (hA' : identity wA' = some a) (hB : Reachable serB wB) (hb : identity wB = some b)
    (hab : a ≠ b) (hme : running wB me = true) (hos : ∀ o ∈ osB, Remembers a o) :
    let s := deserRef wB (serRef wA (.loc i))
    let wB' := run serB s.1 osB
    (deserRef wA' (serRef wB' s.2)).2 = .loc i := by
  intro s wB'
  have h := C09_home serB wA wA' wB me osB i a b hA hA' hB hb hab hme hos
  apply toPid_inj
  obtain ⟨e1, e2⟩ := deserRef_eq wB (serRef wA (.loc i))
  rw [(deserRef_eq _ _).2, serRef_eq]
  simp only [wB', s]
  rw [e1, e2]
  exact h

/-! ## C11 -/

/-- **C11.** A pid is read as a local one only if it was written with the identity of this very node; in every state, for every
wire form. -/
theorem C11_foreign_never_local (w : World B V) (x : IdWire) (i : Nat) (h : (deserPid w x).2 = .loc i) :
    ∃ a, identity w = some a ∧ x = .withNode i a.1 a.2 := by
  cases x with
  | unavailable j => simp [deserPid] at h
  | withNode j name addr =>
    simp only [deserPid, lookupLocal_eq] at h
    cases hw : identity w with
    | none => rw [hw] at h; simp at h
    | some a =>
      obtain ⟨a1, a2⟩ := a
      rw [hw] at h
      simp only at h
      split at h
      · rename_i hh; obtain ⟨rfl, rfl⟩ := hh
        simp at h; subst h; exact ⟨_, rfl, rfl⟩
      · simp at h

/-- **C11.** In particular a pid that denotes a process of another node, or no known process, is never read as a local pid. -/
theorem C11_other_owner (wA : World B' V') (w : World B V) (p : Pid) (h : ∀ i a, denotes wA p = some (a, i) → identity w ≠ some a) :
    (deserPid w (serPid wA p)).2.isLocal = false := by
  cases hd : (deserPid w (serPid wA p)).2 with
  | rem i n => rfl
  | loc i =>
    obtain ⟨a, h1, h2⟩ := C11_foreign_never_local w _ i hd
    rw [serPid_eq] at h2
    cases hx : denotes wA p with
    | none => rw [hx] at h2; simp at h2
    | some x =>
      obtain ⟨c, j⟩ := x
      rw [hx] at h2
      simp at h2
      obtain ⟨rfl, e1, e2⟩ := h2
      have : c = a := Prod.ext e1 e2
      subst this
      exact absurd h1 (h j c hx)

/-! ## C85, C86: nodes and destinations -/

/-- **C85** for distributed nodes: a `Node` written on one distributed node and read on another denotes the same node. -/
theorem C85_same_node_partial (wA : World B' V') (wB : World B V) (n : Node) (a b : Ident) (hn : denotesNode wA n = some a)
    (hb : identity wB = some b) :
    ∃ n', deserNode wB (serNode wA n) = some n' ∧ denotesNode wB n' = some a ∧ (n' = .loc ↔ a = b) := by
  obtain ⟨b1, b2⟩ := b
  obtain ⟨a1, a2⟩ := a
  have hs : serNode wA n = ⟨a1, some a2⟩ := by
    cases n with
    | loc => simp only [denotesNode] at hn; simp [serNode, lookupLocal_eq, hn]
    | rem x y => simp only [denotesNode] at hn; simp at hn; simp [serNode, hn]
  rw [hs]
  simp only [deserNode, lookupLocal_eq, hb]
  by_cases h : a1 = b1 ∧ a2 = b2
  · obtain ⟨rfl, rfl⟩ := h
    exact ⟨.loc, by simp, by simp [denotesNode, hb], by simp⟩
  · refine ⟨.rem a1 a2, ?_, rfl, ?_⟩
    · rw [if_neg (by simpa using h)]
    · constructor
      · intro h'; cases h'
      · intro h'; cases h'; exact absurd ⟨rfl, rfl⟩ h

/-- C85 fails on a node that is not distributed: every node is read as the local one. -/
theorem C85_undistributed_violated (w : World B V) (h : identity w = none) (m : NodeWire) : deserNode w m = some .loc := by
  simp [deserNode, lookupLocal_eq, h]

/-- C85 fails for the local node of a sender that is not distributed: reading it panics, unless the reader happens to be named
"nohost", in which case it is taken for the reader. -/
theorem C85_nohost_violated (wA : World B' V') (wB : World B V) (b : Ident) (hA : identity wA = none) (hb : identity wB = some b) :
    deserNode wB (serNode wA .loc) = if b.1 = "nohost" then some .loc else none := by
  obtain ⟨b1, b2⟩ := b
  simp only [serNode, lookupLocal_eq, hA, deserNode, hb]
  by_cases h : b1 = "nohost"
  · simp [h]
  · rw [if_neg (by simp; exact fun h' => h h'.symm), if_neg h]

/-- **C86.** A destination that denotes something, written on one node and read on any distributed node, denotes the same there. -/
theorem C86_same_destination (serB : V → B) (wA : World B' V') (wB : World B V) (hB : Reachable serB wB)
    (d : Dest) (b : Ident) (hb : identity wB = some b) (hd : denotesDest wA d ≠ none) :
    let s := deserDest wB (serDest wA d)
    ∃ d', s.2 = some d' ∧ denotesDest s.1 d' = denotesDest wA d := by
  cases d with
  | pid p =>
    cases hp : denotes wA p with
    | none => simp [denotesDest, hp] at hd
    | some x =>
      obtain ⟨a, i⟩ := x
      have := (C09_same_process serB wA wB hB p a b i hp hb).1
      exact ⟨_, rfl, by simp only [denotesDest, serDest, deserDest]; rw [this, hp]⟩
  | named name n =>
    cases hn : denotesNode wA n with
    | none => simp [denotesDest, hn] at hd
    | some a =>
      obtain ⟨n', h1, h2, -⟩ := C85_same_node_partial wA wB n a b hn hb
      exact ⟨.named name n', by simp [serDest, deserDest, h1], by simp [denotesDest, serDest, deserDest, h2, hn]⟩
  | alias r =>
    cases hp : denotesRef wA r with
    | none => simp [denotesDest, hp] at hd
    | some x =>
      obtain ⟨a, i⟩ := x
      have := (C10_same_reference serB wA wB hB r a b i hp hb).1
      exact ⟨_, rfl, by simp only [denotesDest, serDest, deserDest]; rw [this, hp]⟩

/-! ## Examples -/

/-- Two nodes. -/
def nodeA : World Nat Nat := run id init [.boot, .nodeStart 1 "a" (addr 1)]
def nodeB : World Nat Nat := run id init [.boot, .nodeStart 1 "b" (addr 2), .connect 1 (.rem "c" (addr 3))]

example : denotes nodeA (.loc 7) = some (("a", addr 1), 7) ∧ identity nodeB = some ("b", addr 2) ∧
    (deserPid nodeB (serPid nodeA (.loc 7))).2 = .rem 7 2 ∧
    (deserPid nodeA (serPid (deserPid nodeB (serPid nodeA (.loc 7))).1 (.rem 7 2))).2 = .loc 7 := by
  refine ⟨?_, ?_, ?_, ?_⟩ <;> decide
example := C09_home (B := Nat) (V := Nat) id nodeA nodeA nodeB 1 [.connect 1 (.rem "d" (addr 4))] 7 ("a", addr 1) ("b", addr 2) rfl rfl ⟨_, rfl⟩ rfl
  (by decide) rfl (by simp [Remembers])
example := C09_distinct (B := Nat) (V := Nat) id nodeA nodeA nodeB 1 [.connect 1 (.rem "d" (addr 4))] (.loc 7) (.loc 8) (("a", addr 1), 7)
  (("a", addr 1), 8) ("b", addr 2) ("b", addr 2) rfl rfl (by decide) ⟨_, rfl⟩ rfl rfl rfl (.inl rfl)
example : identity (init : World Nat Nat) = none := rfl

end Verif.World
