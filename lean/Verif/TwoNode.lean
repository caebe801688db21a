import Verif.TwoNodeLemmas
/-!
# Two connected nodes

Two runtimes (`World`) with a connection between them. Whatever the sender process of the connection was handed on one side
arrives on the other side, in that order, one frame at a time and at any later moment (reliable, in-order delivery: TCP with
the codec of `Codec.lean`, node_remote.rs:103-135 and :137-278). Everything else on the two nodes happens in any order.
-/
namespace Verif.World
open Verif.Mailbox
variable {B V : Type}

/-- A connection between the nodes "left" and "right": their names, the node ids they have on the other side, and the process
that is the sender of the connection on each side (node_registration.rs:7-20). -/
structure Conn where
  nL : Node
  nR : Node
  /-- the id of left on right -/
  idL : Nat
  /-- the id of right on left -/
  idR : Nat
  /-- the sender process on left -/
  sL : Nat
  /-- the sender process on right -/
  sR : Nat

/-- Two nodes; `cL` frames of left's sender and `cR` frames of right's sender have arrived. -/
structure Duo (B V : Type) where
  L : World B V
  R : World B V
  cL : Nat
  cR : Nat

/-- How the values are written on each of the two nodes. They differ: pids and references of the node itself are written with the name of
the node (pid.rs:76-94, reference.rs:92-110); what the node knows of other nodes is taken not to change that. -/
structure Sers (V B : Type) where
  L : V → B
  R : V → B

/-- What can happen: an operation on one of the nodes, or a receiver process `rp` gets the next frame of the other side. -/
inductive DOp (B V : Type) : Type 1
  | left (o : Op B V)
  | right (o : Op B V)
  | toR (rp : Nat)
  | toL (rp : Nat)

/-- The next frame to arrive on the right. -/
def Duo.nextR (c : Conn) (d : Duo B V) : Option (NFrame B) := (handed c.sL d.L)[d.cL]?
/-- The next frame to arrive on the left. -/
def Duo.nextL (c : Conn) (d : Duo B V) : Option (NFrame B) := (handed c.sR d.R)[d.cR]?

/-- One step. The sender process writes the frames it is handed in order (node_remote.rs:103-135), and the receiver of the other side
handles them one by one (node_remote.rs:137-278). -/
def dstep (ser : Sers V B) (c : Conn) (d : Duo B V) : DOp B V → Duo B V
  | .left o => { d with L := (step ser.L d.L o).1 }
  | .right o => { d with R := (step ser.R d.R o).1 }
  | .toR rp =>
    match d.nextR c with
    | none => d
    | some f => if running d.R rp then { d with R := (step ser.R d.R (.frame rp c.nL f)).1, cL := d.cL + 1 } else d
  | .toL rp =>
    match d.nextL c with
    | none => d
    | some f => if running d.L rp then { d with L := (step ser.L d.L (.frame rp c.nR f)).1, cR := d.cR + 1 } else d

def drun (ser : Sers V B) (c : Conn) (d : Duo B V) (l : List (DOp B V)) : Duo B V := l.foldl (dstep ser c) d

/-- The connection stays up, and its frames come from the other side only. -/
def Legal (c : Conn) : DOp B V → Prop
  | .left o => Undisturbed c.nR c.sL o ∧ ∀ rp f, o ≠ .frame rp c.nR f
  | .right o => Undisturbed c.nL c.sR o ∧ ∀ rp f, o ≠ .frame rp c.nL f
  | _ => True

/-- The moment on one side at which a connection to a node `N` (with id `id`, and sender `s`) begins: a connection is being set
up or is just set up, nothing was sent on it, and nothing is left of an earlier connection to the node. -/
structure Ready (N : Node) (id s : Nat) (w : World B V) : Prop where
  ne : N ≠ .loc
  map : w.nodeMap N = some id
  reg : ∃ g, w.nodeRegs id = some g ∧ g.state ≠ .known ∧ (g.sender = none ∨ g.sender = some s)
  others : ∀ k g, k ≠ id → w.nodeRegs k = some g → g.sender ≠ some s
  self : ∀ g, w.nodeRegs LOCAL_NODE_ID = some g → Node.rem g.name g.addr ≠ N
  handed : handed s w = []
  pending : w.pending N = []
  mons : ∀ i, ∀ x ∈ w.mons i, x.1.node ≠ id
  nodeMons : ∀ M, ∀ x ∈ w.nodeMons M, x.1.node ≠ id
  links : ∀ i, ∀ p ∈ w.links i, p.node ≠ id
  nodeLinks : ∀ M, ∀ x ∈ w.nodeLinks M, x.1.node ≠ id

/-- Both sides are reachable and at the beginning of the connection. -/
structure Begins (ser : Sers V B) (c : Conn) (d : Duo B V) : Prop where
  left : ∃ os, d.L = run ser.L init os
  right : ∃ os, d.R = run ser.R init os
  readyL : Ready c.nR c.idR c.sL d.L
  readyR : Ready c.nL c.idL c.sR d.R
  none : d.cL = 0 ∧ d.cR = 0

/-- The frames on their way to the right: handed to the sender or still queued on the left, and not arrived. -/
def toRight (c : Conn) (d : Duo B V) : List (NFrame B) := (handed c.sL d.L ++ d.L.pending c.nR).drop d.cL
/-- The frames on their way to the left. -/
def toLeft (c : Conn) (d : Duo B V) : List (NFrame B) := (handed c.sR d.R ++ d.R.pending c.nL).drop d.cR

/-- Nothing is on its way. -/
def Quiet (c : Conn) (d : Duo B V) : Prop := toRight c d = [] ∧ toLeft c d = []

theorem drun_append (ser : Sers V B) (c : Conn) (d : Duo B V) (l l' : List (DOp B V)) :
    drun ser c d (l ++ l') = drun ser c (drun ser c d l) l' := by simp [drun]

theorem drun_snoc (ser : Sers V B) (c : Conn) (d : Duo B V) (l : List (DOp B V)) (s : DOp B V) :
    drun ser c d (l ++ [s]) = dstep ser c (drun ser c d l) s := by simp [drun]

/-! ## One side of the connection -/

/-- All frames of the connection of one side. -/
def onLine (N : Node) (s : Nat) (w : World B V) : List (NFrame B) := handed s w ++ w.pending N

structure Side (ser : V → B) (N : Node) (id s : Nat) (w : World B V) : Prop where
  ne : N ≠ .loc
  reach : ∃ os, w = run ser init os
  q : ∃ base, Queueing N id s base [] (nt w)
  filed : Filed N id w

theorem Side.inv {ser : V → B} {N : Node} {id s : Nat} {w : World B V} (h : Side ser N id s w) : NodeInv (nt w) := by
  obtain ⟨b, q⟩ := h.q; exact q.inv
theorem Side.map {ser : V → B} {N : Node} {id s : Nat} {w : World B V} (h : Side ser N id s w) : w.nodeMap N = some id := by
  obtain ⟨b, q⟩ := h.q; exact q.map
theorem Side.id_ne {ser : V → B} {N : Node} {id s : Nat} {w : World B V} (h : Side ser N id s w) : id ≠ 0 := by
  obtain ⟨b, q⟩ := h.q; exact q.ne_loc h.ne
theorem Side.boxLocal {ser : V → B} {N : Node} {id s : Nat} {w : World B V} (h : Side ser N id s w) : BoxLocal w := by
  obtain ⟨os, rfl⟩ := h.reach; exact run_boxLocal ser os
theorem Side.monsRemote {ser : V → B} {N : Node} {id s : Nat} {w : World B V} (h : Side ser N id s w) : MonsRemote w := by
  obtain ⟨os, rfl⟩ := h.reach; exact run_monsRemote ser os

theorem Side.no_demon {ser : V → B} {N : Node} {id s : Nat} {w : World B V} (h : Side ser N id s w) (o : Op B V)
    {p : Option Nat} {nm : Option String} {fr : Option Nat} {n : Nat} : ¬ FrameOf w o (.monitor false p nm fr n) id := by
  rintro ⟨me, p, r, m, -, hp, hm, -, hk⟩
  have := h.boxLocal me p hp _ hm
  cases r with
  | loc i => exact h.id_ne hk.symm
  | rem i k => simp [Ref.isLocal] at this

theorem out_act (w : World B V) (a : Atom B V) : ∃ new, (act w a).out = w.out ++ new := by
  have h : (act w a).out = (nt (act w a)).out := rfl
  rw [h, nt_act]
  have hs : ∀ (t : NT B) n g, (t.setReg n g).out = t.out := by
    intro t n g; unfold NT.setReg; split <;> rfl
  have h0 : ∃ new, w.out = w.out ++ new := ⟨[], by simp⟩
  cases a <;> try exact h0
  rename_i na
  cases na with
  | frame f id =>
    simp only [nact, nt]
    split
    · exact h0
    · split
      · exact ⟨_, rfl⟩
      · split <;> exact h0
  | regSup n s =>
    cases n <;> simp only [nact] <;> try exact h0
    split
    · exact h0
    · split
      · split
        · rw [hs]; exact h0
        · exact h0
      · exact h0
  | regKnown n =>
    cases n <;> simp only [nact] <;> try exact h0
    split <;> exact h0
  | accept n s =>
    cases n <;> simp only [nact] <;> try exact h0
    split
    · exact h0
    · split
      · split
        · rw [hs]; exact h0
        · exact h0
      · exact h0
  | start s nm ad => simp only [nact]; split <;> exact h0
  | stop => exact h0
  | workers n s r =>
    simp only [nact]
    split
    · exact h0
    · exact ⟨_, rfl⟩
  | down n p =>
    simp only [nact]
    split
    · exact h0
    · split
      · exact h0
      · rw [hs]; exact h0
  | clrPending n => exact h0
  | disc n =>
    simp only [nact]
    split
    · exact h0
    · rw [hs]; exact h0
  | forget n =>
    simp only [nact]
    split
    · exact h0
    · split <;> exact h0

theorem handed_acts {Q : Atom B V → Prop} {w w' : World B V} (h : Acts Q w w') (s : Nat) : ∃ new, handed s w' = handed s w ++ new := by
  induction h with
  | refl => exact ⟨[], by simp⟩
  | @tail w1 a _ _ ih =>
    obtain ⟨n1, h1⟩ := ih
    obtain ⟨n2, h2⟩ := out_act w1 a
    refine ⟨n1 ++ (n2.filter (·.1 = s)).map (·.2), ?_⟩
    rw [← List.append_assoc, ← h1]
    simp [handed, h2]

theorem queueing_wire {N : Node} {id s : Nat} {base : List (NFrame B)} {w : World B V} (h : Queueing N id s base [] (nt w)) :
    askedFor id w = base ++ onLine N s w := by
  obtain ⟨L, h1, h2⟩ := h.log
  have h1 : askedFor id w = base ++ L := h1
  have h2 : onLine N s w = [] ++ L := h2
  rw [h1, h2, List.nil_append]

theorem Side.step {ser : V → B} {N : Node} {id s : Nat} {w : World B V} (h : Side ser N id s w) (o : Op B V) (ho : Undisturbed N s o) :
    Side ser N id s (step ser w o).1 ∧ (∃ new, handed s (step ser w o).1 = handed s w ++ new) ∧
    ∃ new, onLine N s (step ser w o).1 = onLine N s w ++ new ∧ askedFor id (step ser w o).1 = askedFor id w ++ new ∧ ∀ f ∈ new, FrameOf w o f id := by
  obtain ⟨base, q⟩ := h.q
  have ha := step_acts ser w o
  have q' : Queueing N id s base [] (nt (World.step ser w o).1) := by
    refine ha.inv (I := fun w' => Queueing N id s base [] (nt w')) q ?_
    intro w2 x hx hq
    rw [nt_act]
    cases x <;> first | exact hq | exact queueing_nact h.ne hq _ (undisturbed_atom ho hx)
  obtain ⟨new, h1, h2⟩ := askedFor_acts ha id
  refine ⟨⟨h.ne, ?_, ⟨base, q'⟩, filed_acts h.ne q.inv q.map h.filed ha⟩, handed_acts ha s, new, ?_, h1, h2⟩
  · obtain ⟨os, rfl⟩ := h.reach
    exact ⟨os ++ [o], by simp [run]⟩
  · rw [queueing_wire q, queueing_wire q', List.append_assoc] at h1
    exact List.append_cancel_left h1

theorem Ready.side {ser : V → B} {N : Node} {id s : Nat} {w : World B V} (h : Ready N id s w) (hr : ∃ os, w = run ser init os) :
    Side ser N id s w := by
  refine ⟨h.ne, hr, ⟨askedFor id w, ?_⟩, fun M x hx hk => absurd hk (h.nodeMons M x hx), fun M x hx hk => absurd hk (h.nodeLinks M x hx)⟩
  refine ⟨by obtain ⟨os, rfl⟩ := hr; exact run_nodeInv ser os, h.map, ?_, h.others, h.self, [], by simp [askedFor, nt], ?_⟩
  · obtain ⟨g, h1, h2, h3⟩ := h.reg
    refine ⟨g, h1, h2, ?_⟩
    rcases h3 with h3 | h3
    · exact .inl h3
    · exact .inr ⟨h3, h.pending⟩
  · change World.handed s w ++ w.pending N = [] ++ []
    rw [h.handed, h.pending]

/-! ## The two kinds of moves -/

structure CInv (ser : Sers V B) (c : Conn) (d : Duo B V) : Prop where
  left : Side ser.L c.nR c.idR c.sL d.L
  right : Side ser.R c.nL c.idL c.sR d.R
  cL : d.cL ≤ (handed c.sL d.L).length
  cR : d.cR ≤ (handed c.sR d.R).length

theorem Begins.cinv {ser : Sers V B} {c : Conn} {d : Duo B V} (h : Begins ser c d) : CInv ser c d :=
  ⟨h.readyL.side h.left, h.readyR.side h.right, by rw [h.none.1]; omega, by rw [h.none.2]; omega⟩

/-- Left executes `o`; `k` are the frames from the other side that arrive with it. -/
structure LMove (ser : Sers V B) (c : Conn) (d d' : Duo B V) (o : Op B V) (k : List (NFrame B)) : Prop where
  L : d'.L = (step ser.L d.L o).1
  R : d'.R = d.R
  got : toLeft c d = k ++ toLeft c d'
  und : Undisturbed c.nR c.sL o
  new : ∃ new, toRight c d' = toRight c d ++ new ∧ onLine c.nR c.sL d'.L = onLine c.nR c.sL d.L ++ new ∧
    askedFor c.idR d'.L = askedFor c.idR d.L ++ new ∧ ∀ f ∈ new, FrameOf d.L o f c.idR
  from_ : (k = [] ∧ ∀ rp f, o ≠ .frame rp c.nR f) ∨ ∃ rp f, k = [f] ∧ o = .frame rp c.nR f ∧ running d.L rp = true ∧
    f ∈ onLine c.nL c.sR d.R

structure RMove (ser : Sers V B) (c : Conn) (d d' : Duo B V) (o : Op B V) (k : List (NFrame B)) : Prop where
  R : d'.R = (step ser.R d.R o).1
  L : d'.L = d.L
  got : toRight c d = k ++ toRight c d'
  und : Undisturbed c.nL c.sR o
  new : ∃ new, toLeft c d' = toLeft c d ++ new ∧ onLine c.nL c.sR d'.R = onLine c.nL c.sR d.R ++ new ∧
    askedFor c.idL d'.R = askedFor c.idL d.R ++ new ∧ ∀ f ∈ new, FrameOf d.R o f c.idL
  from_ : (k = [] ∧ ∀ rp f, o ≠ .frame rp c.nL f) ∨ ∃ rp f, k = [f] ∧ o = .frame rp c.nL f ∧ running d.R rp = true ∧
    f ∈ onLine c.nR c.sL d.L

theorem drop_wire {A : Type} (h p : List A) (k : Nat) (hk : k ≤ h.length) (h' p' new : List A) (e : h' ++ p' = h ++ p ++ new) :
    (h' ++ p').drop k = (h ++ p).drop k ++ new := by
  rw [e, List.drop_append_of_le_length]
  simp; omega

theorem next_drop {A : Type} (h p : List A) (k : Nat) (f : A) (e : h[k]? = some f) :
    (h ++ p).drop k = f :: (h ++ p).drop (k + 1) ∧ k + 1 ≤ h.length ∧ f ∈ h := by
  obtain ⟨hk, hf⟩ := List.getElem?_eq_some_iff.1 e
  refine ⟨?_, hk, ?_⟩
  · rw [List.drop_eq_getElem_cons (by simp; omega), List.getElem_append_left hk, hf]
  · rw [← hf]; exact List.getElem_mem hk

theorem handed_le {ser : V → B} {N : Node} {id s : Nat} {w : World B V} (h : Side ser N id s w) (o : Op B V) (ho : Undisturbed N s o) :
    (handed s w).length ≤ (handed s (step ser w o).1).length := by
  obtain ⟨-, ⟨new, h⟩, -⟩ := h.step o ho
  rw [h]; simp

/-- Every step is one of the two moves or does nothing. -/
theorem dstep_moves {ser : Sers V B} {c : Conn} {d : Duo B V} (h : CInv ser c d) (s : DOp B V) (hs : Legal c s) :
    CInv ser c (dstep ser c d s) ∧
    ((dstep ser c d s = d ∧ (∀ rp f, s = .toR rp → d.nextR c = some f → running d.R rp = false) ∧
      (∀ rp f, s = .toL rp → d.nextL c = some f → running d.L rp = false)) ∨
     (∃ o k, LMove ser c d (dstep ser c d s) o k ∧
       (s = .left o ∨ ∃ rp f, s = .toL rp ∧ o = .frame rp c.nR f ∧ d.nextL c = some f)) ∨
     (∃ o k, RMove ser c d (dstep ser c d s) o k ∧
       (s = .right o ∨ ∃ rp f, s = .toR rp ∧ o = .frame rp c.nL f ∧ d.nextR c = some f))) := by
  cases s with
  | left o =>
    obtain ⟨h1, h2, new, h3, h4, h5⟩ := h.left.step o hs.1
    refine ⟨⟨h1, h.right, Nat.le_trans h.cL (handed_le h.left o hs.1), h.cR⟩, .inr (.inl ⟨o, [], ⟨rfl, rfl, rfl, hs.1, ⟨new, ?_, h3, h4, h5⟩, ?_⟩, .inl rfl⟩)⟩
    · exact drop_wire _ _ _ h.cL _ _ _ h3
    · exact .inl ⟨rfl, hs.2⟩
  | right o =>
    obtain ⟨h1, h2, new, h3, h4, h5⟩ := h.right.step o hs.1
    refine ⟨⟨h.left, h1, h.cL, Nat.le_trans h.cR (handed_le h.right o hs.1)⟩, .inr (.inr ⟨o, [], ⟨rfl, rfl, rfl, hs.1, ⟨new, ?_, h3, h4, h5⟩, ?_⟩, .inl rfl⟩)⟩
    · exact drop_wire _ _ _ h.cR _ _ _ h3
    · exact .inl ⟨rfl, hs.2⟩
  | toR rp =>
    simp only [dstep]
    cases hf : d.nextR c with
    | none => exact ⟨h, .inl ⟨rfl, by simp, by simp⟩⟩
    | some f =>
      dsimp only
      split
      · rename_i hrun
        obtain ⟨h1, h2, new, h3, h4, h5⟩ := h.right.step (.frame rp c.nL f) trivial
        obtain ⟨g1, g2, g3⟩ := next_drop (handed c.sL d.L) (d.L.pending c.nR) d.cL f hf
        refine ⟨⟨h.left, h1, g2, Nat.le_trans h.cR (handed_le h.right (.frame rp c.nL f) trivial)⟩,
          .inr (.inr ⟨.frame rp c.nL f, [f], ⟨rfl, rfl, g1, trivial, ⟨new, ?_, h3, h4, h5⟩, ?_⟩, .inr ⟨rp, f, rfl, rfl, rfl⟩⟩)⟩
        · exact drop_wire _ _ _ h.cR _ _ _ h3
        · exact .inr ⟨rp, f, rfl, rfl, hrun, List.mem_append_left _ g3⟩
      · rename_i hrun
        exact ⟨h, .inl ⟨rfl, by rintro _ _ ⟨⟩ _; simpa using hrun, by simp⟩⟩
  | toL rp =>
    simp only [dstep]
    cases hf : d.nextL c with
    | none => exact ⟨h, .inl ⟨rfl, by simp, by simp⟩⟩
    | some f =>
      dsimp only
      split
      · rename_i hrun
        obtain ⟨h1, h2, new, h3, h4, h5⟩ := h.left.step (.frame rp c.nR f) trivial
        obtain ⟨g1, g2, g3⟩ := next_drop (handed c.sR d.R) (d.R.pending c.nL) d.cR f hf
        refine ⟨⟨h1, h.right, Nat.le_trans h.cL (handed_le h.left (.frame rp c.nR f) trivial), g2⟩,
          .inr (.inl ⟨.frame rp c.nR f, [f], ⟨rfl, rfl, g1, trivial, ⟨new, ?_, h3, h4, h5⟩, ?_⟩, .inr ⟨rp, f, rfl, rfl, rfl⟩⟩)⟩
        · exact drop_wire _ _ _ h.cL _ _ _ h3
        · exact .inr ⟨rp, f, rfl, rfl, hrun, List.mem_append_left _ g3⟩
      · rename_i hrun
        exact ⟨h, .inl ⟨rfl, by simp, by rintro _ _ ⟨⟩ _; simpa using hrun⟩⟩

theorem cinv_run {ser : Sers V B} {c : Conn} (l : List (DOp B V)) {d : Duo B V} (h : CInv ser c d) (hl : ∀ s ∈ l, Legal c s) :
    CInv ser c (drun ser c d l) := by
  induction l generalizing d with
  | nil => exact h
  | cons s l ih => exact ih (dstep_moves h s (hl s List.mem_cons_self)).1 (fun s hs => hl s (.tail _ hs))

end Verif.World
