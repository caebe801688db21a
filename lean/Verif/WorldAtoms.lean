import Verif.World
/-!
# Decomposition of the operations into atomic table changes

`act` lists the elementary changes of the tables; `exec_acts` shows that every operation is a sequence of them, and
`AtomOf` says which changes an operation can make. Invariants are proved per elementary change.
-/
namespace Verif.World
open Verif.Mailbox
variable {B V : Type}

/-- The elementary changes of the node tables. -/
inductive NAtom (B : Type)
  | frame (f : NFrame B) (id : Nat)
  | regSup (n : Node) (s : Nat)
  | regKnown (n : Node)
  | start (s : Nat) (name : String) (addr : Codec.SockAddr)
  | stop
  | workers (n : Node) (s r : Nat)
  | accept (n : Node) (sup : Nat)
  | down (n : Node) (p : Nat)
  | clrPending (n : Node)
  | disc (n : Node)
  | forget (n : Node)

/-- The node tables of a world. -/
structure NT (B : Type) where
  nextNode : Nat
  nodeRegs : Nat → Option NReg
  nodeMap : Node → Option Nat
  pending : Node → List (NFrame B)
  asked : List (Nat × NFrame B)
  out : List (Nat × NFrame B)

def nt (w : World B V) : NT B := ⟨w.nextNode, w.nodeRegs, w.nodeMap, w.pending, w.asked, w.out⟩

def setNt (w : World B V) (t : NT B) : World B V :=
  { w with nextNode := t.nextNode, nodeRegs := t.nodeRegs, nodeMap := t.nodeMap, pending := t.pending, asked := t.asked,
           out := t.out }

/-- The node's registration. -/
def NT.reg (t : NT B) (n : Node) : Option NReg := (t.nodeMap n).bind t.nodeRegs

/-- Sets the node's registration (if it has an id). -/
def NT.setReg (t : NT B) (n : Node) (g : NReg) : NT B :=
  match t.nodeMap n with
  | some id => { t with nodeRegs := upd t.nodeRegs id (some g) }
  | none => t

/-- Adds a node under a fresh id. -/
def NT.add (t : NT B) (n : Node) (g : NReg) : NT B :=
  { t with nextNode := t.nextNode + 1, nodeRegs := upd t.nodeRegs t.nextNode (some g),
           nodeMap := upd t.nodeMap n (some t.nextNode) }

def nact (t : NT B) : NAtom B → NT B
  | .frame f id =>
    let t := { t with asked := t.asked ++ [(id, f)] }
    match t.nodeRegs id with
    | none => t
    | some g =>
      match g.sender with
      | some s => { t with out := t.out ++ [(s, f)] }
      | none =>
        if g.state = .known then t
        else { t with pending := upd t.pending (.rem g.name g.addr) (t.pending (.rem g.name g.addr) ++ [f]) }
  | .regSup .loc _ | .regKnown .loc | .accept .loc _ => t
  | .regSup (.rem a b) s =>
    match t.nodeMap (.rem a b) with
    | none => t.add (.rem a b) ⟨some s, none, none, .pending, a, b⟩
    | some _ => match t.reg (.rem a b) with
      | some g => if g.sup = none then t.setReg (.rem a b) { g with sup := some s, state := .pending } else t
      | none => t
  | .regKnown (.rem a b) =>
    match t.nodeMap (.rem a b) with
    | none => t.add (.rem a b) ⟨none, none, none, .known, a, b⟩
    | some _ => t
  | .start s name addr =>
    match t.nodeMap .loc with
    | some _ => t
    | none => { t with
        nodeRegs := upd t.nodeRegs LOCAL_NODE_ID (some ⟨some s, none, none, .current, name, addr⟩),
        nodeMap := upd t.nodeMap .loc (some LOCAL_NODE_ID) }
  | .stop => { t with nodeMap := fun _ => none, nodeRegs := fun _ => none, pending := fun _ => [] }
  | .workers n s r =>
    match t.reg n with
    | none => t
    | some g =>
      { t.setReg n { g with sender := some s, recv := some r } with
        pending := upd t.pending n [], out := t.out ++ (t.pending n).map fun f => (s, f) }
  | .accept (.rem a b) sup =>
    match t.nodeMap (.rem a b) with
    | none => t.add (.rem a b) ⟨some sup, none, none, .connected, a, b⟩
    | some _ => match t.reg (.rem a b) with
      | some g => if g.sup = none ∨ g.state = .pending then t.setReg (.rem a b) { g with sup := some sup, state := .connected } else t
      | none => t
  | .down n p =>
    match t.reg n with
    | none => t
    | some g => if g.sup.isSome ∧ g.sup ≠ some p then t
        else t.setReg n { g with sup := none, sender := none, recv := none, state := .known }
  | .clrPending n => { t with pending := upd t.pending n [] }
  | .disc n =>
    match t.reg n with
    | none => t
    | some g => t.setReg n { g with sup := none, state := .known }
  | .forget n =>
    match t.nodeMap n with
    | none => t
    | some id =>
      match t.nodeRegs id with
      | none => { t with nodeMap := upd t.nodeMap n none }
      | some _ => { t with nodeMap := upd t.nodeMap n none, nodeRegs := upd t.nodeRegs id none, pending := upd t.pending n [] }

inductive Atom (B V : Type) : Type 1
  | put (i : Nat) (it : Item B V)
  | term (i : Nat) (r : ExitReason)
  | crash (i : Nat) (msg : String)
  | fin (i : Nat)
  | trap (i : Nat) (b : Bool)
  | name (i : Nat) (n : String)
  | unname (n : String)
  | spawn
  | remove (i : Nat)
  | rbox (i : Nat) (o : RecvOp B V) (k : RecvKind)
  | dropMon (i : Nat) (r : Ref)
  | dropAl (i : Nat) (a : Nat)
  | shot (i : Nat) (a : Nat)
  | addLink (i : Nat) (p : Pid)
  | delLink (i : Nat) (p : Pid)
  | clrLinks (i : Nat)
  | addMonR (i : Nat) (r : Ref) (frm : Pid)
  | delMon (i : Nat) (r : Ref)
  | clrMons (i : Nat)
  | delAlias (a : Nat)
  | mkAlias (me : Nat) (reply : Bool)
  | mkMon (me i : Nat) (d : Dest) (al : Option Bool)
  | mkMonDown (me : Nat) (d : Dest) (m : PMon) (reason : ExitReason) (al : Option Bool)
  | mkMonRem (me : Nat) (n : Node) (m : PMon) (nm : NMon) (al : Option Bool)
  | mkFail (me : Nat) (msg : String) (al : Option Bool)
  | cleanup (n : Node) (r : Ref) (i : Nat)
  | delNodeMon (n : Node) (r : Ref)
  | clrNodeMons (n : Node)
  | addNodeLink (n : Node) (p : Pid) (i : Nat)
  | delNodeLink (n : Node) (p : Pid) (i : Nat)
  | clrNodeLinks (n : Node)
  | nodes (na : NAtom B)
  | tables (t : TOp)

/-- The mailbox after a receive. -/
def recvBox (o : RecvOp B V) (k : RecvKind) (b : Box B V) : Box B V :=
  match k with
  | .select => (Mailbox.select o.τ o.filter o.strict b).2
  | .resume => (Mailbox.resume o.τ o.filter o.strict b).2
  | .remove => (Mailbox.remove o.τ o.filter o.strict b).getD b

/-- `alias_create` of the optional alias of a monitor. -/
def optAlias (w : World B V) (me : Nat) (r : Ref) (al : Option Bool) : World B V :=
  match al with
  | none => w
  | some reply => addAlias w me r reply

/-- A fresh reference with its optional alias. -/
def freshRef (w : World B V) (me : Nat) (al : Option Bool) : World B V :=
  optAlias (newRef w).1 me (.loc w.nextRef) al

def unname (w : World B V) (n : String) : World B V :=
  match w.names n with
  | none => w
  | some i => { modProc w i (fun p => { p with name := none }) with names := upd w.names n none }

def act (w : World B V) : Atom B V → World B V
  | .put i it => put w i it
  | .term i r => terminate w i r
  | .crash i m => crash w i m
  | .fin i => modProc w i fun p => { p with ended := true }
  | .trap i b => modProc w i fun p => { p with trap := b }
  | .name i n => (register w (.loc i) n).1
  | .unname n => unname w n
  | .spawn => (spawnRaw w).1
  | .remove i => removeProc w i
  | .rbox i o k => modBox w i (recvBox o k)
  | .dropMon i r => modBox w i fun b => { b with mons := dropMon b.mons r }
  | .dropAl i a => { modBox w i (fun b => { b with aliases := b.aliases.filter (· ≠ a) }) with aliases := upd w.aliases a none }
  | .shot i a => put { w with aliases := upd w.aliases a none } i (.aliasOff a)
  | .addLink i p => addLink w i p
  | .delLink i p => delLink w i p
  | .clrLinks i => { w with links := upd w.links i [] }
  | .addMonR i r frm => addMon w i r frm none
  | .delMon i r => delMon w i r
  | .clrMons i => { w with mons := upd w.mons i [] }
  | .delAlias a => { w with aliases := upd w.aliases a none }
  | .mkAlias me reply => (alias w me reply).1
  | .mkMon me i d al =>
      addMon (modBox (freshRef w me al) me (setMon · (.loc w.nextRef) (.forProcess (some (.loc i))))) i
        (.loc w.nextRef) (.loc me) (some d)
  | .mkMonDown me d m reason al =>
      sendDown (modBox (freshRef w me al) me (setMon · (.loc w.nextRef) m)) me d (.loc w.nextRef) reason
  | .mkMonRem me n m nm al =>
      addNodeMon (modBox (freshRef w me al) me (setMon · (.loc w.nextRef) m)) n (.loc w.nextRef) nm
  | .mkFail me msg al => crash (freshRef w me al) me msg
  | .cleanup n r i => addNodeMon w n r (.cleanup i)
  | .delNodeMon n r => delNodeMon w n r
  | .clrNodeMons n => { w with nodeMons := upd w.nodeMons n [] }
  | .addNodeLink n p i => addNodeLink w n p i
  | .delNodeLink n p i => delNodeLink w n p i
  | .clrNodeLinks n => { w with nodeLinks := upd w.nodeLinks n [] }
  | .nodes na => setNt w (nact (nt w) na)
  | .tables t => { w with tables := (tableOp w.tables t).1 }

/-- A sequence of elementary changes, all of them in `Q`. -/
inductive Acts (Q : Atom B V → Prop) : World B V → World B V → Prop
  | refl (w) : Acts Q w w
  | tail {w w1 a} : Acts Q w w1 → Q a → Acts Q w (act w1 a)

theorem Acts.trans {Q : Atom B V → Prop} {a b c : World B V} (h1 : Acts Q a b) (h2 : Acts Q b c) : Acts Q a c := by
  induction h2 with
  | refl => exact h1
  | tail _ hq ih => exact .tail ih hq

theorem Acts.one {Q : Atom B V → Prop} {w : World B V} {a : Atom B V} (h : Q a) : Acts Q w (act w a) :=
  .tail (.refl w) h

theorem Acts.inv {Q : Atom B V → Prop} {I : World B V → Prop} {w w' : World B V} (h : Acts Q w w') (h0 : I w)
    (hs : ∀ w a, Q a → I w → I (act w a)) : I w' := by
  induction h with
  | refl => exact h0
  | tail _ hq ih => exact hs _ _ hq ih

theorem Acts.mono {Q Q' : Atom B V → Prop} {w w' : World B V} (h : Acts Q w w') (hq : ∀ a, Q a → Q' a) :
    Acts Q' w w' := by
  induction h with
  | refl => exact .refl _
  | tail _ hq' ih => exact .tail ih (hq _ hq')

/-- The operations that can deliver a terminating signal to process `i` (apart from its own panic). -/
def Op.maySignal (i : Nat) : Op B V → Prop
  | .exit _ pid _ => pid = .loc i
  | .link me _ => me = i
  | .drop _ | .frame _ _ _ | .supDown _ _ | .nodeStop _ | .disconnect _ _ | .forget _ _ | .accept _ _ => True
  | _ => False

/-- Why operation `o`, started in `w`, may ask for frame `f` to be sent to node `id`. -/
def FrameOf (w : World B V) (o : Op B V) (f : NFrame B) (id : Nat) : Prop :=
  match f with
  | .monitor true _ _ _ n => n = w.nextRef ∧ ∃ me d, o = .monitor me d ∨ ∃ reply, o = .monitorAlias me d reply
  | .monitor false _ _ _ n => ∃ me p r m, (o = .demonitor me r ∨ o = .drop me) ∧ w.procs me = some p ∧ (r, m) ∈ p.box.mons ∧
      r.id = n ∧ r.node = id
  | .monitorDown refs e =>
      (∃ t p, o = .drop t ∧ w.procs t = some p ∧ e = p.reason.getD .normal ∧
        ∀ n ∈ refs, ∃ r fid d, (r, .rem fid id, d) ∈ w.mons t ∧ r.id = n) ∨
      (∃ rp N p nm fid n, o = .frame rp N (.monitor true p nm (some fid) n) ∧ refs = [n] ∧ e = .custom "noproc" ∧
        id = (nodeRegister w N false).2 ∧ (∀ j, p = some j → exists? w j = false) ∧ (p = none → ∃ x, nm = some x ∧ w.names x = none))
  | .monitorUpdate i t n => ∃ rp N p nm, o = .frame rp N (.monitor true p nm (some i) n) ∧ id = (nodeRegister w N false).2 ∧
      ∃ x, nm = some x ∧ p = none ∧ w.names x = some t
  | .link true i me => ∃ k, o = .link me (.rem i k)
  | .link false i me => o = .unlink me (.rem i id)
  | .linkDown is me e =>
      (∃ p, o = .drop me ∧ w.procs me = some p ∧ e = p.reason.getD .normal ∧ ∀ i ∈ is, Pid.rem i id ∈ w.links me) ∨
      (∃ rp N i, o = .frame rp N (.link true me i) ∧ is = [i] ∧ e = .custom "noproc" ∧ id = (nodeRegister w N false).2 ∧ exists? w me = false)
  | .exit i me e => o = .exit me (.rem i id) e
  | .send _ _ => ∃ me ds v, o = .send me ds v
  | .ping | .pong => False

/-- The elementary changes that operation `o`, started in `w`, can make. Only the changes some invariant cares about are
restricted. -/
def AtomOf (w : World B V) (o : Op B V) : Atom B V → Prop
  | .put i (.down d r e) =>
      (∃ t p dd, o = .drop t ∧ w.procs t = some p ∧ (r, .loc i, dd) ∈ w.mons t ∧ d = dd.getD (.pid (.loc i)) ∧
        e = p.reason.getD .normal) ∨
      (∃ n, (r, .process i d) ∈ w.nodeMons n ∧
        ((∃ p, o = .supDown n p) ∨ ∃ rp refs e, o = .frame rp n (.monitorDown refs e) ∧ r.id ∈ refs))
  | .put i (.nodeDown n r) => (r, .node i) ∈ w.nodeMons n ∧ ∃ p, o = .supDown n p
  | .put i (.system (.exit p _)) =>
      p.isLocal = false ∨ (∃ j, p = .loc j ∧ ((∃ e, o = .exit j (.loc i) e) ∨ o = .drop j)) ∨ (o = .link i p ∧ ∀ j, p = .loc j → w.procs j = none) ∨
      ∃ n q, o = .supDown n q ∧ (p, i) ∈ w.nodeLinks n
  | .put _ (.system _) | .put _ (.aliasOff _) => False
  | .put i (.update r _) => ∃ rp n fid, o = .frame rp n (.monitorUpdate i fid r.id)
  | .put _ (.locl v) => ∃ me ds, o = .send me ds v
  | .put _ (.remote b) => (∃ me ds v, o = .send me ds v) ∨ ∃ rp n ts, o = .frame rp n (.send ts b)
  | .delMon i r =>
      (∃ me p m, (o = .demonitor me r ∨ o = .drop me) ∧ w.procs me = some p ∧ (r, m) ∈ p.box.mons) ∨
      (∃ n, (r, .cleanup i) ∈ w.nodeMons n ∧ ∃ p, o = .supDown n p) ∨
      (∃ rp N p nm fid n, o = .frame rp N (.monitor false p nm fid n) ∧ r = .rem n (nodeRegister w N false).2)
  | .term i r => o.maySignal i ∧ (isNormal r = true → o = .exit i (.loc i) r)
  | .clrMons i | .remove i | .clrLinks i => o = .drop i
  | .trap i b => o = .setTrap i b
  | .fin i => o = .finish i
  | .crash i _ | .mkAlias i _ | .mkMon i _ _ _ | .mkMonDown i _ _ _ _
  | .mkFail i _ _ => o.caller = some i
  | .rbox i ro k => o = .recv i ro k
  | .mkMonRem i _ _ nm _ => o.caller = some i ∧ (∀ j, nm ≠ .cleanup j)
  | .dropAl i a => ∃ r, o = .unalias i r ∧ r.id = a
  | .dropMon i r => o = .demonitor i r ∨ o = .nodeDemonitor i r
  | .addLink i p =>
      (∃ rp N fid, o = .frame rp N (.link true i fid) ∧ p = .rem fid (nodeRegister w N false).2) ∨ o = .link i p ∨ (∃ j, p = .loc j ∧ o = .link j (.loc i)) ∨
      (∃ m, o = .spawn i true m ∧ p = .loc w.nextPid) ∨ (∃ j m, p = .loc j ∧ o = .spawn j true m ∧ i = w.nextPid)
  | .delLink i p =>
      (∃ j, p = .loc j ∧ (o = .drop j ∨ o = .unlink j (.loc i))) ∨
      (∃ rp N fid, o = .frame rp N (.link false i fid) ∧ p = .rem fid (nodeRegister w N false).2) ∨
      (∃ n, (p, i) ∈ w.nodeLinks n ∧ ∃ q, o = .supDown n q)
  | .addNodeLink n p i => p.isLocal = false ∧
      (o = .link i p ∧ lookupNode w p.node = some n ∨ ∃ rp fid, o = .frame rp n (.link true i fid) ∧ p = .rem fid (nodeRegister w n false).2)
  | .addMonR i r frm => ∃ rp N p nm fid n, o = .frame rp N (.monitor true p nm (some fid) n) ∧ r = .rem n (nodeRegister w N false).2 ∧
      frm = .rem fid (nodeRegister w N false).2 ∧ (∀ j, p = some j → j = i ∧ exists? w i = true) ∧
      (p = none → ∃ x, nm = some x ∧ w.names x = some i)
  | .cleanup n r _ => ∃ rp p nm fid k, o = .frame rp n (.monitor true p nm (some fid) k) ∧ r = .rem k (nodeRegister w n false).2
  | .clrNodeMons n | .clrNodeLinks n => ∃ p, o = .supDown n p
  | .delNodeLink n p i =>
      o = .unlink i p ∨ o = .drop i ∨ (∃ rp ls fid e k, o = .frame rp n (.linkDown ls fid e) ∧ i ∈ ls ∧ p = .rem fid k) ∨
      (∃ rp fid k, o = .frame rp n (.link false i fid) ∧ p = .rem fid k)
  | .delNodeMon n r =>
      (∃ rp p nm fid k, o = .frame rp n (.monitor false p nm fid k) ∧ r = .rem k (nodeRegister w n false).2) ∨
      (∃ me p m, o = .demonitor me r ∧ w.procs me = some p ∧ (r, m) ∈ p.box.mons) ∨
      (∃ me p, (o = .drop me ∨ o = .nodeDemonitor me r) ∧ w.procs me = some p ∧ (r, .forNode n) ∈ p.box.mons) ∨
      (∃ t frm d, o = .drop t ∧ frm.isLocal = false ∧ (r, frm, d) ∈ w.mons t) ∨
      (∃ rp refs e, o = .frame rp n (.monitorDown refs e) ∧ r.id ∈ refs ∧ r.isLocal = true)
  | .unname n => ∃ me, o = .unregister me n
  | .name i n => ∃ me, o = .register me (.loc i) n
  | .nodes (.frame f id) => FrameOf w o f id
  | .nodes (.start _ name addr) => ∃ me, o = .nodeStart me name addr
  | .nodes .stop => (∃ me, o = .nodeStop me) ∨ o = .nodePanic
  | .nodes (.workers n s r) => o = .workers n s r
  | .nodes (.accept n s) => o = .accept s n
  | .nodes (.down n p) => o = .supDown n p
  | .nodes (.clrPending n) => (∃ p, o = .supDown n p) ∨ ∃ me, o = .disconnect me n
  | .nodes (.disc n) => n ≠ .loc ∧ ∃ me, o = .disconnect me n
  | .nodes (.forget n) => n ≠ .loc ∧ ∃ me, o = .forget me n
  | .tables t => ∃ me, o = .table me t
  | _ => True

theorem term_ok {w : World B V} {o : Op B V} {i : Nat} {r : ExitReason} (h : o.maySignal i) (hr : isNormal r = false) : AtomOf w o (.term i r) :=
  ⟨h, fun h' => by rw [hr] at h'; cases h'⟩

/-! ## Each function is a sequence of elementary changes -/

section funs
variable {Q : Atom B V → Prop}

theorem acts_put (w : World B V) (i : Nat) (it : Item B V) (h : Q (.put i it)) : Acts Q w (put w i it) := .one h

theorem acts_processExit (w : World B V) (i : Nat) (frm : Pid) (r : ExitReason)
    (h1 : r ≠ .kill → Q (.put i (.system (.exit frm r)))) (h2 : (isNormal r = true → Pid.loc i = frm) → Q (.term i r)) : Acts Q w (processExit w i frm r) := by
  unfold processExit
  split
  · exact .refl _
  · split <;> (try split) <;> (try split) <;>
      first | exact .refl _ | exact .one (h1 (by simp)) | exact .one (h2 (fun _ => by assumption)) | exact .one (h2 (by simp [isNormal]))

theorem acts_exitLinked (w : World B V) (i : Nat) (frm : Pid) (r : ExitReason)
    (h1 : Q (.put i (.system (.exit frm r)))) (h2 : isNormal r = false → Q (.term i r)) : Acts Q w (exitLinked w i frm r) := by
  unfold exitLinked
  split
  · exact .refl _
  · split
    · exact .one h1
    · split
      · exact .refl _
      · rename_i h; exact .one (h2 (by simpa using h))

theorem acts_delAlias (w : World B V) (r : Ref) (h : Q (.delAlias r.id)) : Acts Q w (delAlias w r) :=
  .one (a := .delAlias r.id) h

theorem acts_ifDelAlias (w w' : World B V) (r : Ref) (h : Q (.delAlias r.id)) (hw : Acts Q w w') :
    Acts Q w (if r.isLocal then delAlias w' r else w') := by
  split
  · exact hw.trans (acts_delAlias _ _ h)
  · exact hw

theorem acts_putAlias (w : World B V) (r : Ref) (it : Item B V)
    (h2 : ∀ i, Q (.shot i r.id)) (h3 : ∀ i, Q (.put i it)) : Acts Q w (putAlias w r it) := by
  unfold putAlias
  split
  · exact .refl _
  · exact .one (h3 _)
  · exact .tail (.tail (.refl _) (h2 _)) (h3 _)

theorem acts_na (na : NAtom B) (w w' : World B V) (hq : Q (.nodes na)) (h : w' = setNt w (nact (nt w) na)) : Acts Q w w' := by
  rw [h]; exact .one hq

theorem processExit_nt (w : World B V) (i : Nat) (frm : Pid) (r : ExitReason) : nt (processExit w i frm r) = nt w := by
  unfold processExit
  have hput : ∀ it, nt (put w i it) = nt w := by intro it; unfold put; split <;> rfl
  split
  · rfl
  · split <;> (try split) <;> (try split) <;> first | rfl | exact hput _

theorem killOpt_nt (w : World B V) (me : Nat) (s : Option Nat) : nt (killOpt w me s) = nt w := by
  unfold killOpt; split
  · exact processExit_nt ..
  · rfl

theorem killOpt_nodeMap (w : World B V) (me : Nat) (s : Option Nat) : (killOpt w me s).nodeMap = w.nodeMap :=
  congrArg NT.nodeMap (killOpt_nt w me s)
theorem killOpt_nodeRegs (w : World B V) (me : Nat) (s : Option Nat) : (killOpt w me s).nodeRegs = w.nodeRegs :=
  congrArg NT.nodeRegs (killOpt_nt w me s)

/-- The changes of the node tables that every operation may make are allowed. -/
def NodesOk (Q : Atom B V → Prop) : Prop :=
  Q .spawn ∧ (∀ n s, Q (.nodes (.regSup n s))) ∧ ∀ n, Q (.nodes (.regKnown n))

theorem sendFrame_act (w : World B V) (f : NFrame B) (id : Nat) : sendFrame w f id = act w (.nodes (.frame f id)) := by
  simp only [act, nact, sendFrame, nt]
  cases w.nodeRegs id with
  | none => rfl
  | some g =>
    dsimp only
    cases g.sender with
    | some s => rfl
    | none => dsimp only; split <;> rfl

theorem acts_sendFrame (w : World B V) (f : NFrame B) (id : Nat) (hq : Q (.nodes (.frame f id))) :
    Acts Q w (sendFrame w f id) := by
  rw [sendFrame_act]
  exact .one hq

theorem acts_nodeRegister (hn : NodesOk Q) (w : World B V) (n : Node) (c : Bool) :
    Acts Q w (nodeRegister w n c).1 := by
  unfold nodeRegister
  split
  · exact .refl _
  · rename_i a b
    split
    · rename_i id hid
      split
      · split
        · exact .refl _
        · rename_i g hg
          split
          · exact .refl _
          · rename_i hs
            refine (Acts.one (a := .spawn) hn.1).trans ?_
            have := Acts.one (Q := Q) (w := act w .spawn) (a := .nodes (.regSup (.rem a b) w.nextPid)) (hn.2.1 _ _)
            simpa [act, nact, nt, spawnRaw, setNt, NT.reg, NT.setReg, hid, hg, hs] using this
      · exact .refl _
    · rename_i hid
      dsimp only
      split
      · refine (Acts.one (a := .spawn) hn.1).trans ?_
        have := Acts.one (Q := Q) (w := act w .spawn) (a := .nodes (.regSup (.rem a b) w.nextPid)) (hn.2.1 _ _)
        simpa [act, nact, nt, spawnRaw, setNt, NT.add, hid] using this
      · have := Acts.one (Q := Q) (w := w) (a := .nodes (.regKnown (.rem a b))) (hn.2.2 _)
        simpa [act, nact, nt, setNt, NT.add, hid] using this

theorem acts_linkDownLocal (me : Nat) (r : ExitReason) (l : List Pid) (w : World B V)
    (h1 : ∀ i, Q (.put i (.system (.exit (.loc me) r)))) (h2 : ∀ i, isNormal r = false → Q (.term i r)) (h3 : ∀ i, Q (.delLink i (.loc me))) :
    Acts Q w (linkDownLocal me r w l) := by
  induction l generalizing w with
  | nil => exact .refl _
  | cons p ps ih =>
    cases p with
    | loc i =>
      exact ((Acts.one (a := .delLink i (.loc me)) (h3 i)).trans (acts_exitLinked _ _ _ _ (h1 i) (h2 i))).trans (ih _)
    | rem i n => exact ih _

theorem acts_foldl {A : Type} (f : World B V → A → World B V) (hf : ∀ w a, Acts Q w (f w a)) (l : List A) (w : World B V) :
    Acts Q w (l.foldl f w) := by
  induction l generalizing w with
  | nil => exact .refl _
  | cons a l ih => exact (hf w a).trans (ih _)

theorem acts_foldl_mem {A : Type} (f : World B V → A → World B V) (l : List A) (hf : ∀ w, ∀ a ∈ l, Acts Q w (f w a))
    (w : World B V) : Acts Q w (l.foldl f w) := by
  induction l generalizing w with
  | nil => exact .refl _
  | cons a l ih => exact (hf w a List.mem_cons_self).trans (ih (fun w b hb => hf w b (.tail _ hb)) _)

theorem acts_linkDownRemote (me : Nat) (r : ExitReason) (gs : List (Nat × List Pid)) (w : World B V)
    (hf : ∀ k ps, (k, ps) ∈ gs → Q (.nodes (.frame (.linkDown (ps.map Pid.id) me r) k)))
    (h : ∀ n p, Q (.delNodeLink n p me)) : Acts Q w (linkDownRemote me r w gs) := by
  induction gs generalizing w with
  | nil => exact .refl _
  | cons g gs ih =>
    obtain ⟨nid, ps⟩ := g
    refine Acts.trans ?_ (ih _ (fun k ps hk => hf k ps (.tail _ hk)))
    refine Acts.trans ?_ (acts_sendFrame _ _ _ (hf _ _ List.mem_cons_self))
    split
    · exact acts_foldl _ (fun w p => .one (a := .delNodeLink _ p me) (h _ _)) _ _
    · exact .refl _

theorem mem_pushGroup' {A : Type} (k : Nat) (a : A) (gs : List (Nat × List A)) (k' : Nat) (l : List A) (x : A)
    (hg : (k', l) ∈ pushGroup k a gs) (hx : x ∈ l) : (k' = k ∧ x = a) ∨ ∃ l', (k', l') ∈ gs ∧ x ∈ l' := by
  induction gs with
  | nil => simp [pushGroup] at hg; obtain ⟨rfl, rfl⟩ := hg; simp at hx; exact .inl ⟨rfl, hx⟩
  | cons y gs ih =>
    obtain ⟨k2, l2⟩ := y
    simp only [pushGroup] at hg
    split at hg
    · rename_i e; subst e
      rcases List.mem_cons.1 hg with h | hg
      · cases h
        rcases List.mem_append.1 hx with hx | hx
        · exact .inr ⟨_, List.mem_cons_self, hx⟩
        · simp at hx; exact .inl ⟨rfl, hx⟩
      · exact .inr ⟨l, .tail _ hg, hx⟩
    · rcases List.mem_cons.1 hg with h | hg
      · cases h; exact .inr ⟨_, List.mem_cons_self, hx⟩
      · rcases ih hg with h | ⟨g', h1, h2⟩
        · exact .inl h
        · exact .inr ⟨g', .tail _ h1, h2⟩

theorem mem_group' {A : Type} (l : List (Nat × A)) (k : Nat) (as : List A) (x : A) (hg : (k, as) ∈ group l) (hx : x ∈ as) :
    (k, x) ∈ l := by
  have : ∀ (l : List (Nat × A)) (gs : List (Nat × List A)) (as : List A), x ∈ as →
      (k, as) ∈ l.foldl (fun gs x => pushGroup x.1 x.2 gs) gs → (k, x) ∈ l ∨ ∃ l', (k, l') ∈ gs ∧ x ∈ l' := by
    intro l
    induction l with
    | nil => intro gs as hx h; exact .inr ⟨as, h, hx⟩
    | cons y l ih =>
      intro gs as hx h
      rcases ih _ _ hx h with h | ⟨g', h1, h2⟩
      · exact .inl (.tail _ h)
      · rcases mem_pushGroup' _ _ _ _ _ _ h1 h2 with ⟨rfl, rfl⟩ | h
        · exact .inl List.mem_cons_self
        · exact .inr h
  rcases this l [] as hx hg with h | ⟨g', h, -⟩
  · exact h
  · simp at h

theorem mem_remotePids (l : List Pid) (k : Nat) (p : Pid) (h : (k, p) ∈ remotePids l) : p ∈ l ∧ ∃ i, p = .rem i k := by
  unfold remotePids at h
  obtain ⟨q, hm, he⟩ := List.mem_filterMap.1 h
  cases q with
  | loc i => simp at he
  | rem i n => simp at he; obtain ⟨rfl, rfl⟩ := he; exact ⟨hm, i, rfl⟩

theorem acts_linkProcessDown (me : Nat) (r : ExitReason) (w : World B V)
    (h0 : Q (.clrLinks me)) (hf : ∀ k is, (∀ i ∈ is, Pid.rem i k ∈ w.links me) → Q (.nodes (.frame (.linkDown is me r) k)))
    (h1 : ∀ i, Q (.put i (.system (.exit (.loc me) r)))) (h2 : ∀ i, isNormal r = false → Q (.term i r)) (h3 : ∀ i, Q (.delLink i (.loc me)))
    (h : ∀ n p, Q (.delNodeLink n p me)) : Acts Q w (linkProcessDown w me r) := by
  unfold linkProcessDown
  exact (Acts.one (a := .clrLinks me) h0).trans
    ((acts_linkDownLocal me r _ _ h1 h2 h3).trans (acts_linkDownRemote me r _ _ (fun k ps hk => hf k _ (by
      intro i hi
      obtain ⟨p, hp, rfl⟩ := List.mem_map.1 hi
      obtain ⟨g1, j, rfl⟩ := mem_remotePids _ _ _ (mem_group' _ _ _ _ hk hp)
      exact g1)) h))

theorem acts_monDownLocal (r : ExitReason) (l : List (Ref × Pid × Option Dest)) (w : World B V)
    (h1 : ∀ ref i dd, (ref, .loc i, dd) ∈ l → Q (.put i (.down (dd.getD (.pid (.loc i))) ref r)))
    (h2 : ∀ a, Q (.delAlias a)) : Acts Q w (monDownLocal r w l) := by
  induction l generalizing w with
  | nil => exact .refl _
  | cons m ms ih =>
    obtain ⟨ref, frm, d⟩ := m
    refine Acts.trans ?_ (ih _ (fun ref i dd hm => h1 ref i dd (List.mem_cons_of_mem _ hm)))
    refine acts_ifDelAlias _ _ _ (h2 _) ?_
    cases frm with
    | loc i => exact acts_put _ _ _ (h1 ref i d (by simp))
    | rem i n => exact .refl _

theorem acts_monDownRemote (r : ExitReason) (gs : List (Nat × List Ref)) (w : World B V)
    (hf : ∀ k rs, (k, rs) ∈ gs → Q (.nodes (.frame (.monitorDown (rs.map Ref.id) r) k)))
    (h : ∀ n g p, g ∈ gs → p ∈ g.2 → Q (.delNodeMon n p)) : Acts Q w (monDownRemote r w gs) := by
  induction gs generalizing w with
  | nil => exact .refl _
  | cons g gs ih =>
    obtain ⟨nid, ps⟩ := g
    refine Acts.trans ?_ (ih _ (fun k rs hk => hf k rs (.tail _ hk)) (fun n g p hg hp => h n g p (.tail _ hg) hp))
    refine Acts.trans ?_ (acts_sendFrame _ _ _ (hf _ _ List.mem_cons_self))
    split
    · rename_i node _
      have : ∀ (l : List Ref) (w : World B V), (∀ p ∈ l, p ∈ ps) → Acts Q w (l.foldl (fun w ref => delNodeMon w node ref) w) := by
        intro l
        induction l with
        | nil => intro w _; exact .refl _
        | cons x l ihl =>
          intro w hl
          exact (Acts.one (a := .delNodeMon node x) (h _ _ _ List.mem_cons_self (hl x List.mem_cons_self))).trans
            (ihl _ fun p hp => hl p (.tail _ hp))
      exact this _ _ (fun _ h => h)
    · exact .refl _

theorem mem_pushGroup {A : Type} (k : Nat) (a : A) (gs : List (Nat × List A)) (g : Nat × List A) (x : A)
    (hg : g ∈ pushGroup k a gs) (hx : x ∈ g.2) : x = a ∨ ∃ g' ∈ gs, x ∈ g'.2 := by
  induction gs with
  | nil => simp [pushGroup] at hg; subst hg; simp at hx; exact .inl hx
  | cons y gs ih =>
    obtain ⟨k', l⟩ := y
    simp only [pushGroup] at hg
    split at hg
    · rcases List.mem_cons.1 hg with rfl | hg
      · rcases List.mem_append.1 hx with hx | hx
        · exact .inr ⟨_, List.mem_cons_self, hx⟩
        · simp at hx; exact .inl hx
      · exact .inr ⟨g, .tail _ hg, hx⟩
    · rcases List.mem_cons.1 hg with rfl | hg
      · exact .inr ⟨_, List.mem_cons_self, hx⟩
      · rcases ih hg with h | ⟨g', h1, h2⟩
        · exact .inl h
        · exact .inr ⟨g', .tail _ h1, h2⟩

theorem mem_group {A : Type} (l : List (Nat × A)) (g : Nat × List A) (x : A) (hg : g ∈ group l) (hx : x ∈ g.2) :
    ∃ k, (k, x) ∈ l := by
  have : ∀ (l : List (Nat × A)) (gs : List (Nat × List A)), g ∈ l.foldl (fun gs x => pushGroup x.1 x.2 gs) gs →
      (∃ k, (k, x) ∈ l) ∨ ∃ g' ∈ gs, x ∈ g'.2 := by
    intro l
    induction l with
    | nil => intro gs h; exact .inr ⟨g, h, hx⟩
    | cons y l ih =>
      intro gs h
      rcases ih _ h with ⟨k, h⟩ | ⟨g', h1, h2⟩
      · exact .inl ⟨k, .tail _ h⟩
      · rcases mem_pushGroup _ _ _ _ _ h1 h2 with rfl | h
        · exact .inl ⟨y.1, List.mem_cons_self⟩
        · exact .inr h
  rcases this l [] hg with h | ⟨g', h, -⟩
  · exact h
  · simp at h

theorem mem_remoteRefs (l : List (Ref × Pid × Option Dest)) (k : Nat) (r : Ref) (h : (k, r) ∈ remoteRefs l) :
    ∃ frm d, frm.isLocal = false ∧ (r, frm, d) ∈ l := by
  unfold remoteRefs at h
  obtain ⟨⟨r', frm, d⟩, hm, he⟩ := List.mem_filterMap.1 h
  cases frm with
  | loc i => simp at he
  | rem i n => simp at he; exact ⟨_, d, rfl, he.2 ▸ hm⟩

theorem mem_remoteRefs' (l : List (Ref × Pid × Option Dest)) (k : Nat) (r : Ref) (h : (k, r) ∈ remoteRefs l) :
    ∃ i d, (r, .rem i k, d) ∈ l := by
  unfold remoteRefs at h
  obtain ⟨⟨r', frm, d⟩, hm, he⟩ := List.mem_filterMap.1 h
  cases frm with
  | loc i => simp at he
  | rem i n => simp at he; obtain ⟨rfl, rfl⟩ := he; exact ⟨i, d, hm⟩

theorem acts_monitorProcessDown (me : Nat) (r : ExitReason) (w : World B V)
    (h0 : Q (.clrMons me))
    (hf : ∀ k ns, (∀ n ∈ ns, ∃ r fid d, (r, .rem fid k, d) ∈ w.mons me ∧ r.id = n) → Q (.nodes (.frame (.monitorDown ns r) k)))
    (h1 : ∀ ref i dd, (ref, .loc i, dd) ∈ w.mons me → Q (.put i (.down (dd.getD (.pid (.loc i))) ref r)))
    (h2 : ∀ a, Q (.delAlias a)) (h : ∀ n p frm d, frm.isLocal = false → (p, frm, d) ∈ w.mons me → Q (.delNodeMon n p)) :
    Acts Q w (monitorProcessDown w me r) := by
  unfold monitorProcessDown
  refine (Acts.one (a := .clrMons me) h0).trans
    ((acts_monDownLocal r _ _ h1 h2).trans (acts_monDownRemote r _ _ ?_ ?_))
  · intro k rs hk
    refine hf k _ ?_
    intro n hn
    obtain ⟨ref, hp, rfl⟩ := List.mem_map.1 hn
    obtain ⟨i, d, hm⟩ := mem_remoteRefs' _ _ _ (mem_group' _ _ _ _ hk hp)
    exact ⟨ref, i, d, hm, rfl⟩
  intro n g p hg hp
  obtain ⟨k, hk⟩ := mem_group _ _ _ hg hp
  obtain ⟨frm, d, e1, e2⟩ := mem_remoteRefs _ _ _ hk
  exact h n p frm d e1 e2

theorem acts_monitorDestroyAll (l : List (Ref × PMon)) (w : World B V)
    (hf : ∀ r m i, (r, m) ∈ l → Q (.nodes (.frame (.monitor false (some i) none none r.id) r.node)))
    (h1 : ∀ r m i, (r, m) ∈ l → Q (.delMon i r)) (h2 : ∀ a, Q (.delAlias a)) (h : ∀ n p, (p, .forNode n) ∈ l → Q (.delNodeMon n p)) :
    Acts Q w (monitorDestroyAll w l) := by
  induction l generalizing w with
  | nil => exact .refl _
  | cons m ms ih =>
    obtain ⟨r, m⟩ := m
    have ih := fun w => ih w (fun r m i hm => hf r m i (List.mem_cons_of_mem _ hm)) (fun r m i hm => h1 r m i (List.mem_cons_of_mem _ hm)) (fun n p hm => h n p (List.mem_cons_of_mem _ hm))
    cases m with
    | forProcess p =>
      cases p with
      | none => exact ih _
      | some pid =>
        refine Acts.trans ?_ (ih _)
        refine acts_ifDelAlias _ _ _ (h2 _) ?_
        cases pid with
        | loc i => exact .one (a := .delMon i r) (h1 r _ i List.mem_cons_self)
        | rem i n => exact acts_sendFrame _ _ _ (hf _ _ _ List.mem_cons_self)
    | forNode n =>
      refine Acts.trans ?_ (ih _)
      exact acts_ifDelAlias _ _ _ (h2 _) (.one (a := .delNodeMon n r) (h _ _ List.mem_cons_self))

theorem acts_aliasDestroyAll (l : List Nat) (w : World B V) (h2 : ∀ a, Q (.delAlias a)) :
    Acts Q w (aliasDestroyAll w l) := by
  induction l generalizing w with
  | nil => exact .refl _
  | cons a l ih => exact (Acts.one (a := .delAlias a) (h2 a)).trans (ih _)

/-- `Drop` in terms of `removeProc`. -/
theorem dropProc_eq (w : World B V) (me : Nat) (p : Proc B V) (hp : w.procs me = some p) :
    dropProc w me = aliasDestroyAll (monitorDestroyAll (monitorProcessDown (linkProcessDown (removeProc w me) me
      (p.reason.getD .normal)) me (p.reason.getD .normal)) p.box.mons) p.box.aliases := by
  simp only [dropProc, hp]

theorem sendFrame_mons (w : World B V) (f : NFrame B) (id : Nat) : (sendFrame w f id).mons = w.mons := by
  unfold sendFrame; dsimp only; split
  · rfl
  · split
    · rfl
    · split <;> rfl
theorem put_mons (w : World B V) (i : Nat) (it : Item B V) : (put w i it).mons = w.mons := by
  unfold put; split <;> rfl
theorem exitLinked_mons (w : World B V) (i : Nat) (p : Pid) (r : ExitReason) : (exitLinked w i p r).mons = w.mons := by
  unfold exitLinked; split
  · rfl
  · split
    · exact put_mons ..
    · split <;> rfl
theorem linkDownLocal_mons (me : Nat) (r : ExitReason) (l : List Pid) (w : World B V) :
    (linkDownLocal me r w l).mons = w.mons := by
  induction l generalizing w with
  | nil => rfl
  | cons p ps ih => cases p with
    | loc i => rw [linkDownLocal, ih, exitLinked_mons]; rfl
    | rem i n => exact ih _
theorem foldl_keep {A X : Type} (g : World B V → X) (f : World B V → A → World B V) (hf : ∀ w a, g (f w a) = g w) (l : List A)
    (w : World B V) : g (l.foldl f w) = g w := by
  induction l generalizing w with
  | nil => rfl
  | cons a l ih => rw [List.foldl_cons, ih, hf]
theorem linkDownRemote_mons (me : Nat) (r : ExitReason) (l : List (Nat × List Pid)) (w : World B V) :
    (linkDownRemote me r w l).mons = w.mons := by
  induction l generalizing w with
  | nil => rfl
  | cons p ps ih =>
    rw [linkDownRemote, ih, sendFrame_mons]
    split
    · exact foldl_keep World.mons (fun w p => delNodeLink w _ p me) (fun _ _ => rfl) _ _
    · rfl
theorem linkProcessDown_mons (w : World B V) (me : Nat) (r : ExitReason) : (linkProcessDown w me r).mons = w.mons := by
  unfold linkProcessDown; rw [linkDownRemote_mons, linkDownLocal_mons]
theorem removeProc_mons (w : World B V) (me : Nat) : (removeProc w me).mons = w.mons := by
  unfold removeProc; split
  · rfl
  · dsimp only; split <;> rfl

theorem removeProc_links (w : World B V) (me : Nat) : (removeProc w me).links = w.links := by
  unfold removeProc; split
  · rfl
  · dsimp only; split <;> rfl

theorem nodesOk_op (w : World B V) (o : Op B V) : NodesOk (AtomOf w o) :=
  ⟨trivial, fun _ _ => trivial, fun _ => trivial⟩

theorem acts_dropProc (w : World B V) (me : Nat) : Acts (AtomOf w (.drop me)) w (dropProc w me) := by
  cases hp : w.procs me with
  | none => unfold dropProc; rw [hp]; exact .refl _
  | some p =>
    rw [dropProc_eq w me p hp]
    refine Acts.trans ?_ (acts_aliasDestroyAll _ _ (fun _ => trivial))
    refine Acts.trans ?_ (acts_monitorDestroyAll _ _ (fun r m i hm => ⟨me, p, r, m, .inr rfl, hp, hm, rfl, rfl⟩) ?_ (fun _ => trivial)
      (fun n r hm => .inr (.inr (.inl ⟨me, p, .inl rfl, hp, hm⟩))))
    · refine Acts.trans ?_ (acts_monitorProcessDown _ _ _ rfl ?_ ?_ (fun _ => trivial) ?_)
      · exact (Acts.one (Q := AtomOf w (.drop me)) (a := .remove me) rfl).trans
          (acts_linkProcessDown _ _ _ rfl (fun k is hi => .inl ⟨p, rfl, hp, rfl, fun i h => by
            have := hi i h; rwa [act, removeProc_links] at this⟩) (fun _ => .inr (.inl ⟨me, rfl, .inr rfl⟩)) (fun _ => term_ok trivial) (fun _ => .inl ⟨me, rfl, .inl rfl⟩)
            (fun _ _ => .inr (.inl rfl)))
      · intro k ns hns
        refine .inl ⟨me, p, rfl, hp, rfl, ?_⟩
        intro n hn
        have := hns n hn
        rwa [linkProcessDown_mons, removeProc_mons] at this
      · intro ref i dd hm
        rw [linkProcessDown_mons, removeProc_mons] at hm
        exact .inl ⟨me, p, dd, rfl, hp, hm, rfl, rfl⟩
      · intro n ref frm d hl hm
        rw [linkProcessDown_mons, removeProc_mons] at hm
        exact .inr (.inr (.inr (.inl ⟨me, frm, d, rfl, hl, hm⟩)))
    · intro r m i hm
      exact .inl ⟨me, p, m, .inr rfl, hp, hm⟩

theorem acts_linkInstall (hn : NodesOk Q) (w : World B V) (pid : Pid) (me : Nat)
    (h1 : Q (.addLink me pid)) (h1' : ∀ i, pid = .loc i → Q (.addLink i (.loc me)))
    (h2 : ∀ r, (∀ i, pid = .loc i → w.procs i = none) → Q (.put me (.system (.exit pid r)))) (h3 : ∀ r, isNormal r = false → Q (.term me r))
    (hf : ∀ i k id, pid = .rem i k → Q (.nodes (.frame (.link true i me) id)))
    (h4 : ∀ n, pid.isLocal = false → lookupNode w pid.node = some n → Q (.addNodeLink n pid me)) : Acts Q w (linkInstall w pid me) := by
  unfold linkInstall
  refine (Acts.one (a := .addLink me pid) h1).trans ?_
  dsimp only [act]
  split
  · split
    · exact .one (a := .addLink _ _) (h1' _ rfl)
    · rename_i hne
      exact acts_exitLinked _ _ _ _ (h2 _ fun i hi => by cases hi; simpa [exists?, addLink] using hne) (h3 _)
  · split
    · rename_i hl
      exact (Acts.one (a := .addNodeLink _ _ _) (h4 _ rfl hl)).trans
        ((acts_nodeRegister hn _ _ _).trans (acts_sendFrame _ _ _ (hf _ _ _ rfl)))
    · exact acts_exitLinked _ _ _ _ (h2 _ fun i hi => by cases hi) (h3 _)

theorem acts_linkDestroy (w : World B V) (pid frm : Pid)
    (hf : ∀ i k, pid = .rem i k → Q (.nodes (.frame (.link false i frm.id) k)))
    (h1 : ∀ i, pid = .loc i → Q (.delLink i frm)) (h4 : ∀ n, Q (.delNodeLink n pid frm.id)) : Acts Q w (linkDestroy w pid frm) := by
  unfold linkDestroy
  split
  · exact .one (a := .delLink _ _) (h1 _ rfl)
  · rename_i i nid
    refine (acts_sendFrame w (.link false i frm.id) nid (hf _ _ rfl)).trans ?_
    dsimp only
    split
    · exact .one (a := .delNodeLink _ _ _) (h4 _)
    · exact .refl _

/-- `monitor` with or without an alias, after the reference was made. -/
theorem acts_monitorInstall (hn : NodesOk Q) (w : World B V) (me : Nat) (d : Dest) (al : Option Bool)
    (hf : ∀ i nm id, Q (.nodes (.frame (.monitor true i nm (some me) w.nextRef) id)))
    (h1 : ∀ i d al, Q (.mkMon me i d al)) (h2 : ∀ d m r al, Q (.mkMonDown me d m r al))
    (h3 : ∀ n m nm al, (∀ j, nm ≠ .cleanup j) → Q (.mkMonRem me n m nm al)) (h4 : ∀ m al, Q (.mkFail me m al)) :
    Acts Q w (monitorInstall (freshRef w me al) d (.loc w.nextRef) me) := by
  unfold monitorInstall
  split
  · split
    · exact .one (a := .mkFail _ _ _) (h4 _ _)
    · dsimp only
      split
      · exact .one (a := .mkMon _ _ _ _) (h1 _ _ _)
      · exact .one (a := .mkMonDown _ _ _ _ _) (h2 _ _ _ _)
  · dsimp only
    split
    · exact (Acts.one (a := .mkMonRem me _ _ (.process me _) _) (h3 _ _ _ _ (by simp))).trans
        ((acts_nodeRegister hn _ _ _).trans (acts_sendFrame _ _ _ (hf _ _ _)))
    · exact .one (a := .mkMonDown _ _ _ _ _) (h2 _ _ _ _)
  · split
    · exact .one (a := .mkMonDown _ _ _ _ _) (h2 _ _ _ _)
    · dsimp only
      split
      · exact .one (a := .mkMon _ _ _ _) (h1 _ _ _)
      · exact .one (a := .mkMonDown _ _ _ _ _) (h2 _ _ _ _)
  · exact (Acts.one (a := .mkMonRem me _ _ (.process me _) _) (h3 _ _ _ _ (by simp))).trans
      ((acts_nodeRegister hn _ _ _).trans (acts_sendFrame _ _ _ (hf _ _ _)))
  · exact .one (a := .mkFail _ _ _) (h4 _ _)

theorem monitor_eq (w : World B V) (me : Nat) (d : Dest) :
    monitor w me d = (monitorInstall (freshRef w me none) d (.loc w.nextRef) me, .loc w.nextRef) := rfl
theorem monitorAlias_eq (w : World B V) (me : Nat) (d : Dest) (reply : Bool) :
    monitorAlias w me d reply = (monitorInstall (freshRef w me (some reply)) d (.loc w.nextRef) me, .loc w.nextRef) := rfl

theorem acts_monitorDestroy (w : World B V) (pid : Pid) (r : Ref)
    (hf : ∀ i, Q (.nodes (.frame (.monitor false (some i) none none r.id) r.node)))
    (h1 : ∀ i, Q (.delMon i r)) (h2 : ∀ n, Q (.delNodeMon n r)) : Acts Q w (monitorDestroy w pid r) := by
  unfold monitorDestroy
  split
  · exact .one (a := .delMon _ _) (h1 _)
  · rename_i i nid
    refine (acts_sendFrame w (.monitor false (some i) none none r.id) r.node (hf _)).trans ?_
    dsimp only
    split
    · exact .one (a := .delNodeMon _ _) (h2 _)
    · exact .refl _

theorem getMon_mem (b : Box B V) (r : Ref) (m : PMon) (h : getMon b r = some m) : (r, m) ∈ b.mons := by
  unfold getMon at h
  cases hf : b.mons.find? fun x => x.1 == r with
  | none => rw [hf] at h; simp at h
  | some x =>
    rw [hf] at h
    have := List.find?_some hf
    have hm := List.mem_of_find?_eq_some hf
    simp at this h
    obtain ⟨a, b⟩ := x
    simp at this h
    subst this h
    exact hm

theorem acts_sendLocal (w : World B V) (d : Dest) (it : Item B V) (h1 : ∀ a, Q (.delAlias a))
    (h2 : ∀ i a, Q (.shot i a)) (h3 : ∀ i, Q (.put i it)) : Acts Q w (sendLocal w d it) := by
  unfold sendLocal
  split
  · exact acts_put _ _ _ (h3 _)
  · split
    · exact acts_put _ _ _ (h3 _)
    · exact .refl _
  · exact acts_putAlias _ _ _ (fun _ => h2 _ _) h3

theorem acts_sendOpt (hn : NodesOk Q) (ser : V → B) (w : World B V) (d : Dest) (v : V)
    (hf : ∀ ts m id, Q (.nodes (.frame (.send ts m) id))) (h1 : ∀ a, Q (.delAlias a))
    (h2 : ∀ i a, Q (.shot i a)) (h3 : ∀ i, Q (.put i (.locl v))) : Acts Q w (sendOpt ser w d v) := by
  unfold sendOpt
  split
  · exact acts_sendLocal _ _ _ h1 h2 (fun _ => h3 _)
  · split
    · exact acts_sendFrame _ _ _ (hf _ _ _)
    · exact (acts_nodeRegister hn _ _ _).trans (acts_sendFrame _ _ _ (hf _ _ _))
    · exact acts_sendFrame _ _ _ (hf _ _ _)

theorem acts_sendLoop (hn : NodesOk Q) (ser : V → B) (v : V) (ds : List Dest) (w : World B V) (first : Option Dest)
    (gs : List (Nat × List Target)) (h1 : ∀ a, Q (.delAlias a))
    (h2 : ∀ i a, Q (.shot i a)) (h3 : ∀ i, Q (.put i (.remote (ser v)))) :
    Acts Q w (sendLoop ser v w first gs ds).1 := by
  induction ds generalizing w first gs with
  | nil => exact .refl _
  | cons d ds ih =>
    unfold sendLoop
    split
    · exact ih _ _ _
    · split
      · exact (acts_sendLocal _ _ _ h1 h2 (fun _ => h3 _)).trans (ih _ _ _)
      · split
        · exact ih _ _ _
        · exact (acts_nodeRegister hn _ _ _).trans (ih _ _ _)
        · exact ih _ _ _

theorem acts_send (hn : NodesOk Q) (ser : V → B) (w : World B V) (ds : Dests) (v : V)
    (hf : ∀ ts m id, Q (.nodes (.frame (.send ts m) id))) (h1 : ∀ a, Q (.delAlias a))
    (h2 : ∀ i a, Q (.shot i a)) (h3 : ∀ i, Q (.put i (.remote (ser v)))) (h4 : ∀ i, Q (.put i (.locl v))) :
    Acts Q w (send ser w ds v) := by
  unfold send
  split
  · exact acts_sendOpt hn _ _ _ _ hf h1 h2 h4
  · rename_i l
    refine Acts.trans ?_ (acts_foldl _ (fun w g => acts_sendFrame _ _ _ (hf _ _ _)) _ _)
    refine (acts_sendLoop hn ser v l w none [] h1 h2 h3).trans ?_
    split
    · exact acts_sendOpt hn _ _ _ _ hf h1 h2 h4
    · exact .refl _

theorem acts_killOpt (w : World B V) (me : Nat) (s : Option Nat) (h3 : ∀ i r, isNormal r = false → Q (.term i r)) : Acts Q w (killOpt w me s) := by
  unfold killOpt
  split
  · exact acts_processExit _ _ _ _ (fun h => absurd rfl h) (fun _ => h3 _ _ rfl)
  · exact .refl _

theorem acts_supDownLinks (l : List (Pid × Nat)) (w : World B V) (h2 : ∀ i p r, (p, i) ∈ l → Q (.put i (.system (.exit p r))))
    (h3 : ∀ i r, isNormal r = false → Q (.term i r)) (h4 : ∀ i p, (p, i) ∈ l → Q (.delLink i p)) : Acts Q w (supDownLinks w l) := by
  induction l generalizing w with
  | nil => exact .refl _
  | cons x l ih =>
    obtain ⟨p, i⟩ := x
    exact ((Acts.one (a := .delLink i p) (h4 _ _ List.mem_cons_self)).trans (acts_exitLinked _ _ _ _ (h2 _ _ _ List.mem_cons_self) (h3 _ _))).trans
      (ih _ (fun i p r hm => h2 i p r (.tail _ hm)) fun i p hm => h4 i p (.tail _ hm))

theorem exitLinked_nodeMons (w : World B V) (i : Nat) (p : Pid) (r : ExitReason) :
    (exitLinked w i p r).nodeMons = w.nodeMons := by
  unfold exitLinked; split
  · rfl
  · split
    · unfold put; split <;> rfl
    · split <;> rfl

theorem supDownLinks_nodeMons (l : List (Pid × Nat)) (w : World B V) : (supDownLinks w l).nodeMons = w.nodeMons := by
  induction l generalizing w with
  | nil => rfl
  | cons x l ih => obtain ⟨p, i⟩ := x; rw [supDownLinks, ih, exitLinked_nodeMons]; rfl

theorem acts_supDownMons (node : Node) (l : List (Ref × NMon)) (w : World B V)
    (h1 : ∀ i r, (r, NMon.node i) ∈ l → Q (.put i (.nodeDown node r)))
    (h2 : ∀ i r d e, (r, NMon.process i d) ∈ l → Q (.put i (.down d r e)))
    (h3 : ∀ i r, (r, NMon.cleanup i) ∈ l → Q (.delMon i r)) (h4 : ∀ a, Q (.delAlias a)) :
    Acts Q w (supDownMons node w l) := by
  induction l generalizing w with
  | nil => exact .refl _
  | cons x l ih =>
    obtain ⟨r, m⟩ := x
    refine Acts.trans ?_ (ih _ (fun i r hm => h1 i r (.tail _ hm)) (fun i r d e hm => h2 i r d e (.tail _ hm))
      (fun i r hm => h3 i r (.tail _ hm)))
    refine acts_ifDelAlias _ _ _ (h4 _) ?_
    cases m with
    | node i => exact acts_put _ _ _ (h1 _ _ List.mem_cons_self)
    | process i d => exact acts_put _ _ _ (h2 _ _ _ _ List.mem_cons_self)
    | cleanup i => exact .one (a := .delMon i r) (h3 _ _ List.mem_cons_self)

theorem acts_supDown (w : World B V) (node : Node) (process : Nat) :
    Acts (AtomOf w (.supDown node process)) w (supDown w node process) := by
  unfold supDown
  split
  · exact .refl _
  · split
    · exact .refl _
    · split
      · exact .refl _
      · rename_i id hid _ g hg hs
        dsimp only
        refine Acts.trans ?_ (acts_na (.clrPending node) _ _ (.inl ⟨_, rfl⟩) rfl)
        refine Acts.trans ?_ (acts_supDownMons node _ _ ?_ ?_ ?_ (fun _ => trivial))
        · refine Acts.trans ?_ (Acts.one (a := .clrNodeMons node) ⟨process, rfl⟩)
          refine Acts.trans ?_ (acts_supDownLinks _ _ (fun _ _ _ hm => .inr (.inr (.inr ⟨node, _, rfl, hm⟩))) (fun _ _ => term_ok trivial)
            (fun _ _ hm => .inr (.inr ⟨node, hm, _, rfl⟩)))
          refine (acts_na (.down node process) w { w with
              nodeRegs := upd w.nodeRegs id (some { g with sup := none, sender := none, recv := none, state := .known }) }
            (Q := AtomOf w (.supDown node process)) rfl ?_).trans (Acts.one (a := .clrNodeLinks node) ⟨_, rfl⟩)
          simp only [nact, nt, NT.reg, NT.setReg, hid, Option.bind_some, hg, if_neg hs, setNt]
        · intro i r hm; rw [supDownLinks_nodeMons] at hm; exact ⟨hm, _, rfl⟩
        · intro i r d e hm; rw [supDownLinks_nodeMons] at hm; exact .inr ⟨node, hm, .inl ⟨process, rfl⟩⟩
        · intro i r hm; rw [supDownLinks_nodeMons] at hm; exact .inr (.inl ⟨node, hm, _, rfl⟩)

theorem acts_forwardSend (msg : B) (ts : List Target) (w : World B V) (h1 : ∀ a, Q (.delAlias a))
    (h2 : ∀ i a, Q (.shot i a)) (h3 : ∀ i, Q (.put i (.remote msg))) : Acts Q w (forwardSend msg w ts) := by
  induction ts generalizing w with
  | nil => exact .refl _
  | cons t ts ih =>
    cases t with
    | pid i => exact (acts_put _ _ _ (h3 _)).trans (ih _)
    | named n =>
      refine Acts.trans ?_ (ih _)
      split
      · exact acts_put _ _ _ (h3 _)
      · exact .refl _
    | «alias» a => exact (acts_putAlias _ _ _ (fun _ => h2 _ _) (fun _ => h3 _)).trans (ih _)

theorem nodeMonDown_nodeMons (w : World B V) (node : Node) (r : Ref) (e : ExitReason) :
    (nodeMonDown w node r e).nodeMons = (delNodeMon w node r).nodeMons := by
  unfold nodeMonDown
  dsimp only
  split
  · unfold put; split <;> rfl
  · rfl

theorem acts_nodeMonDown (w : World B V) (node : Node) (r : Ref) (e : ExitReason)
    (h1 : Q (.delNodeMon node r)) (h2 : Q (.delAlias r.id))
    (h3 : ∀ i d, (r, NMon.process i d) ∈ w.nodeMons node → Q (.put i (.down d r e))) :
    Acts Q w (nodeMonDown w node r e) := by
  unfold nodeMonDown
  refine (Acts.one (a := .delNodeMon node r) h1).trans ((acts_delAlias _ _ h2).trans ?_)
  dsimp only
  split
  · rename_i i d heq
    refine acts_put _ _ _ (h3 i d ?_)
    cases hf : (w.nodeMons node).find? fun x => x.1 == r with
    | none => rw [hf] at heq; simp at heq
    | some x =>
      rw [hf] at heq
      have hk := List.find?_some hf
      have hm := List.mem_of_find?_eq_some hf
      obtain ⟨a, b⟩ := x
      simp at hk heq
      subst hk heq
      exact hm
  · exact .refl _

theorem acts_monitorDownFrame (refs : List Nat) (w : World B V) (node : Node) (e : ExitReason)
    (h1 : ∀ r ∈ refs, Q (.delNodeMon node (.loc r))) (h2 : ∀ a, Q (.delAlias a))
    (h3 : ∀ r ∈ refs, ∀ i d, (Ref.loc r, NMon.process i d) ∈ w.nodeMons node → Q (.put i (.down d (.loc r) e))) :
    Acts Q w (refs.foldl (fun w r => nodeMonDown w node (.loc r) e) w) := by
  induction refs generalizing w with
  | nil => exact .refl _
  | cons r refs ih =>
    refine (acts_nodeMonDown w node (.loc r) e (h1 _ List.mem_cons_self) (h2 _) (fun i d hm => h3 _ List.mem_cons_self _ _ hm)).trans
      (ih _ (fun r hr => h1 r (.tail _ hr)) ?_)
    intro r' hr' i d hm
    rw [nodeMonDown_nodeMons] at hm
    simp only [delNodeMon, upd, if_pos] at hm
    exact h3 r' (.tail _ hr') i d (List.mem_filter.mp hm).1

theorem acts_nodeLinkDown (w : World B V) (node : Node) (i : Nat) (frm : Pid) (e : ExitReason)
    (h1 : Q (.delNodeLink node frm i)) (h2 : ∀ i r, Q (.put i (.system (.exit frm r))))
    (h3 : ∀ i r, isNormal r = false → Q (.term i r)) : Acts Q w (nodeLinkDown w node i frm e) := by
  unfold nodeLinkDown
  refine (Acts.one (a := .delNodeLink node frm i) h1).trans ?_
  dsimp only
  split
  · exact acts_exitLinked _ _ _ _ (h2 _ _) (h3 _ _)
  · exact .refl _

theorem nodeRegister_procs_false (w : World B V) (n : Node) : (nodeRegister w n false).1.procs = w.procs := by
  unfold nodeRegister; split
  · rfl
  · split <;> rfl
theorem nodeRegister_names (w : World B V) (n : Node) : (nodeRegister w n false).1.names = w.names := by
  unfold nodeRegister; split
  · rfl
  · split <;> rfl
theorem nodeRegister_exists (w : World B V) (n : Node) (i : Nat) : exists? (nodeRegister w n false).1 i = exists? w i := by
  unfold exists?; rw [nodeRegister_procs_false]

theorem acts_recvFrame (w : World B V) (node : Node) (rp : Nat) (f : NFrame B) :
    Acts (AtomOf w (.frame rp node f)) w (recvFrame w node rp f) := by
  have hn : NodesOk (AtomOf w (.frame rp node f)) := nodesOk_op _ _
  cases f with
  | ping => exact .refl _
  | pong => exact .refl _
  | send ts msg => exact acts_forwardSend _ _ _ (fun _ => trivial) (fun _ _ => trivial) (fun _ => .inr ⟨_, _, _, rfl⟩)
  | monitor inst process name frm refId =>
    unfold recvFrame
    refine (acts_nodeRegister hn w node false).trans ?_
    dsimp only
    cases frm with
    | none => exact .one (a := .crash _ _) (by rfl)
    | some fid =>
      dsimp only
      cases inst with
      | true =>
        simp only [if_true]
        split
        · rename_i i x
          split
          · rename_i he
            rw [nodeRegister_exists] at he
            exact (Acts.one (a := .addMonR _ _ _) ⟨_, _, _, _, _, _, rfl, rfl, rfl,
              fun j hj => by cases hj; exact ⟨rfl, he⟩, fun hh => by cases hh⟩).trans
              (.one (a := .cleanup _ _ _) ⟨_, _, _, _, _, rfl, rfl⟩)
          · rename_i he
            rw [nodeRegister_exists] at he
            exact acts_sendFrame _ _ _ (.inr ⟨_, _, _, _, _, _, rfl, rfl, rfl, rfl, fun j hj => by cases hj; simpa using he, fun hh => by cases hh⟩)
        · rename_i nm
          split
          · rename_i i he
            rw [nodeRegister_names] at he
            exact ((Acts.one (a := .addMonR _ _ _) ⟨_, _, _, _, _, _, rfl, rfl, rfl, (fun j hj => by cases hj), fun _ => ⟨_, rfl, he⟩⟩).trans
              (acts_sendFrame _ _ _ ⟨_, _, _, _, rfl, rfl, _, rfl, rfl, he⟩)).trans
              (.one (a := .cleanup _ _ _) ⟨_, _, _, _, _, rfl, rfl⟩)
          · rename_i he
            rw [nodeRegister_names] at he
            exact acts_sendFrame _ _ _ (.inr ⟨_, _, _, _, _, _, rfl, rfl, rfl, rfl, (fun j hj => by cases hj), fun _ => ⟨_, rfl, he⟩⟩)
        · exact .one (a := .crash _ _) (by rfl)
      | false =>
        simp only [Bool.false_eq_true, if_false]
        split
        · exact (Acts.one (a := .delMon _ _) (.inr (.inr ⟨_, _, _, _, _, _, rfl, rfl⟩))).trans (.one (a := .delNodeMon _ _) (.inl ⟨_, _, _, _, _, rfl, rfl⟩))
        · exact .one (a := .crash _ _) (by rfl)
  | monitorDown refs e =>
    exact acts_monitorDownFrame refs w node e (fun r hr => .inr (.inr (.inr (.inr ⟨rp, refs, e, rfl, hr, rfl⟩)))) (fun _ => trivial)
      (fun r hr i d hm => .inr ⟨node, hm, .inr ⟨rp, refs, e, rfl, hr⟩⟩)
  | monitorUpdate process fid refId =>
    exact (acts_nodeRegister hn w node false).trans (acts_put _ _ _ ⟨_, _, _, rfl⟩)
  | link inst i fid =>
    unfold recvFrame
    refine (acts_nodeRegister hn w node false).trans ?_
    dsimp only
    cases inst with
    | true =>
      simp only [if_true]
      split
      · exact (Acts.one (a := .addLink _ _) (.inl ⟨_, _, _, rfl, rfl⟩)).trans (.one (a := .addNodeLink _ _ _) ⟨rfl, .inr ⟨_, _, rfl, rfl⟩⟩)
      · rename_i he
        rw [nodeRegister_exists] at he
        exact acts_sendFrame _ _ _ (.inr ⟨_, _, _, rfl, rfl, rfl, rfl, by simpa using he⟩)
    | false =>
      simp only [Bool.false_eq_true, if_false]
      exact (Acts.one (a := .delLink _ _) (.inr (.inl ⟨_, _, _, rfl, rfl⟩))).trans
        (.one (a := .delNodeLink _ _ _) (.inr (.inr (.inr ⟨_, _, _, rfl, rfl⟩))))
  | linkDown ls fid e =>
    exact (acts_nodeRegister hn w node false).trans
      (acts_foldl_mem _ _ (fun w' i hi => acts_nodeLinkDown w' node i _ e (.inr (.inr (.inl ⟨_, _, _, _, _, rfl, hi, rfl⟩)))
        (fun _ _ => .inl rfl) (fun _ _ => term_ok (o := .frame rp node (.linkDown ls fid e)) trivial)) _)
  | exit i fid e =>
    exact (acts_nodeRegister hn w node false).trans (acts_processExit _ _ _ _ (fun _ => .inl rfl) (fun h => ⟨trivial, fun h' => Pid.noConfusion (h h')⟩))

theorem recv_eq (w : World B V) (me : Nat) (o : RecvOp B V) (k : RecvKind) (p : Proc B V) (hp : w.procs me = some p) :
    recv w me o k = modBox w me (recvBox o k) ∨ ∃ m, recv w me o k = crash (modBox w me (recvBox o k)) me m := by
  have hc : ∀ f : Box B V → Box B V, modBox w me (fun _ => f p.box) = modBox w me f := by
    intro f; simp [modBox, modProc, hp]
  unfold recv
  rw [hp]
  cases k with
  | select =>
    dsimp only
    split
    · exact .inr ⟨_, congrArg (crash · me "unsupported message") (hc (recvBox o .select))⟩
    · exact .inl (hc (recvBox o .select))
  | resume =>
    dsimp only
    split
    · exact .inr ⟨_, congrArg (crash · me "unsupported message") (hc (recvBox o .resume))⟩
    · exact .inl (hc (recvBox o .resume))
  | remove =>
    dsimp only
    split
    · rename_i b heq
      left
      rw [← hc (recvBox o .remove)]
      simp [recvBox, heq]
    · rename_i heq
      right
      refine ⟨"unsupported message", ?_⟩
      rw [← hc (recvBox o .remove)]
      simp [recvBox, heq, crash, modBox, modProc, upd, hp]
      funext j; simp only [upd]; split <;> simp

theorem acts_recv (w : World B V) (me : Nat) (o : RecvOp B V) (k : RecvKind) (h1 : Q (.rbox me o k))
    (h2 : ∀ m, Q (.crash me m)) : Acts Q w (recv w me o k) := by
  cases hp : w.procs me with
  | none => unfold recv; rw [hp]; exact .refl _
  | some p =>
    rcases recv_eq w me o k p hp with h | ⟨m, h⟩ <;> rw [h]
    · exact .one (a := .rbox me o k) h1
    · exact (Acts.one (a := .rbox me o k) h1).trans (.one (a := .crash me m) (h2 m))

theorem acts_acceptKill (w : World B V) (g : NReg) (sup : Nat) (h3 : ∀ i r, isNormal r = false → Q (.term i r)) : Acts Q w (if g.state = NState.pending then
      (match g.sup with | some s => if sup ≠ s then processExit w s (.loc sup) .kill else w | none => w) else w) := by
  split
  · split
    · split
      · exact acts_processExit _ _ _ _ (fun h => absurd rfl h) (fun _ => h3 _ _ rfl)
      · exact .refl _
    · exact .refl _
  · exact .refl _

end funs

theorem exec_acts (ser : V → B) (w : World B V) (o : Op B V) : Acts (AtomOf w o) w (o.exec ser w).1 := by
  have hn : NodesOk (AtomOf w o) := nodesOk_op _ _
  cases o with
  | spawn me l m =>
    simp only [Op.exec, World.spawn]
    cases l <;> cases m
    · exact .one (a := .spawn) (by trivial)
    · exact (Acts.one (a := .spawn) (by trivial)).trans (.one (a := .mkMon me _ _ none) (by rfl))
    · exact ((Acts.one (a := .spawn) (by trivial)).trans (.one (a := .addLink _ (.loc me)) (.inr (.inr (.inr (.inr ⟨me, _, rfl, rfl, rfl⟩)))))).trans
        (.one (a := .addLink me _) (.inr (.inr (.inr (.inl ⟨_, rfl, rfl⟩)))))
    · exact (((Acts.one (a := .spawn) (by trivial)).trans (.one (a := .addLink _ (.loc me)) (.inr (.inr (.inr (.inr ⟨me, _, rfl, rfl, rfl⟩)))))).trans
        (.one (a := .addLink me _) (.inr (.inr (.inr (.inl ⟨_, rfl, rfl⟩)))))).trans (.one (a := .mkMon me _ _ none) (by rfl))
  | finish me => exact .one (a := .fin me) (by rfl)
  | panic me msg => exact .one (a := .crash me msg) (by rfl)
  | drop i =>
    simp only [Op.exec]
    split
    · exact acts_dropProc w i
    · exact .refl _
  | exit me pid r =>
    simp only [Op.exec, World.exit]
    split
    · exact acts_processExit _ _ _ _ (fun _ => .inr (.inl ⟨me, rfl, .inl ⟨_, rfl⟩⟩)) (fun h => ⟨rfl, fun h' => by have := h h'; cases this; rfl⟩)
    · exact acts_sendFrame _ _ _ rfl
  | link me pid =>
    simp only [Op.exec, World.link]
    split
    · exact .refl _
    · exact acts_linkInstall hn _ _ _ (.inr (.inl rfl)) (fun i h => .inr (.inr (.inl ⟨me, rfl, by rw [h]⟩)))
        (fun _ hg => .inr (.inr (.inl ⟨rfl, hg⟩))) (fun _ => term_ok rfl) (fun i k id h => ⟨k, by rw [h]⟩) (fun _ h h' => ⟨h, .inl ⟨rfl, h'⟩⟩)
  | unlink me pid =>
    simp only [Op.exec, World.unlink]
    split
    · exact .refl _
    · exact acts_linkDestroy _ _ _ (fun i k h => by rw [h]; rfl) (fun i h => .inl ⟨me, rfl, .inr (by rw [h])⟩) (fun _ => .inl rfl)
  | monitor me d =>
    simp only [Op.exec, monitor_eq]
    exact acts_monitorInstall hn w me d none (fun _ _ _ => ⟨rfl, me, d, .inl rfl⟩) (fun _ _ _ => rfl) (fun _ _ _ _ => rfl) (fun _ _ _ _ h => ⟨rfl, h⟩)
      (fun _ _ => rfl)
  | monitorAlias me d reply =>
    simp only [Op.exec, monitorAlias_eq]
    exact acts_monitorInstall hn w me d (some reply) (fun _ _ _ => ⟨rfl, me, d, .inr ⟨_, rfl⟩⟩) (fun _ _ _ => rfl) (fun _ _ _ _ => rfl)
      (fun _ _ _ _ h => ⟨rfl, h⟩) (fun _ _ => rfl)
  | demonitor me r =>
    simp only [Op.exec, World.demonitor]
    split
    · exact .refl _
    · rename_i p hp
      split
      · exact .refl _
      · rename_i m hm
        refine (Acts.one (a := .dropMon me r) (.inl rfl)).trans ?_
        try dsimp only
        split
        · exact .one (a := .crash me _) (by rfl)
        · exact .refl _
        · exact (acts_monitorDestroy _ _ _ (fun i => ⟨me, p, r, _, .inl rfl, hp, getMon_mem _ _ _ hm, rfl, rfl⟩) (fun i => .inl ⟨me, p, _, .inl rfl, hp, getMon_mem _ _ _ hm⟩)
            (fun _ => .inr (.inl ⟨me, p, _, rfl, hp, getMon_mem _ _ _ hm⟩))).trans (acts_delAlias _ _ (by trivial))
  | «alias» me reply => exact .one (a := .mkAlias me reply) (by rfl)
  | unalias me r =>
    simp only [Op.exec, World.unalias]
    exact .one (a := .dropAl me r.id) ⟨r, rfl, rfl⟩
  | send me ds v =>
    exact acts_send hn _ _ _ _ (fun _ _ _ => ⟨_, _, _, rfl⟩) (fun _ => trivial) (fun _ _ => trivial) (fun _ => .inl ⟨_, _, _, rfl⟩) (fun _ => ⟨_, _, rfl⟩)
  | register me pid name =>
    simp only [Op.exec]
    cases pid with
    | loc i => exact .one (a := .name i name) ⟨me, rfl⟩
    | rem i n => exact .refl _
  | unregister me name =>
    simp only [Op.exec, World.unregister]
    split
    · exact .one (a := .crash me _) (by rfl)
    · rename_i i hi
      have := Acts.one (Q := AtomOf w (.unregister me name)) (w := w) (a := .unname name) ⟨me, rfl⟩
      simpa only [act, unname, hi] using this
  | setTrap me b => exact .one (a := .trap me b) (by rfl)
  | recv me o k => exact acts_recv _ _ _ _ rfl (fun _ => rfl)
  | nodeMonitor me n =>
    simp only [Op.exec, World.nodeMonitor]
    split
    · exact .one (a := .crash me _) (by rfl)
    · exact (Acts.one (a := .mkMonRem me _ (.forNode _) (.node me) none) ⟨rfl, by simp⟩).trans
        (acts_nodeRegister hn _ _ _)
  | nodeDemonitor me r =>
    simp only [Op.exec, World.nodeDemonitor]
    split
    · exact .refl _
    · rename_i p hp
      split
      · exact .refl _
      · rename_i m hm
        refine (Acts.one (a := .dropMon me r) (.inr rfl)).trans ?_
        try dsimp only
        split
        · exact .one (a := .delNodeMon _ _) (.inr (.inr (.inl ⟨me, p, .inr rfl, hp, getMon_mem _ _ _ hm⟩)))
        · exact .one (a := .crash me _) (by rfl)
  | nodeStart me name addr =>
    simp only [Op.exec, World.nodeStart]
    split
    · exact .one (a := .crash me _) (by rfl)
    · rename_i h
      refine (Acts.one (a := .spawn) (by trivial)).trans (acts_na (.start w.nextPid name addr) _ _ ⟨_, rfl⟩ ?_)
      simp [act, spawnRaw, nact, nt, setNt, h]
  | nodeStop me =>
    simp only [Op.exec, World.nodeStop]
    split
    · exact .one (a := .crash me _) (by rfl)
    · refine Acts.trans ?_ (acts_na .stop _ _ (.inl ⟨_, rfl⟩) rfl)
      split
      · exact acts_killOpt _ _ _ (fun _ _ => term_ok trivial)
      · exact .refl _
  | nodePanic => exact acts_na .stop _ _ (.inr rfl) rfl
  | connect me n =>
    simp only [Op.exec]
    split
    · exact .one (a := .crash me _) (by rfl)
    · exact acts_nodeRegister hn _ _ _
  | learn me n =>
    simp only [Op.exec, World.learn]
    split
    · exact .refl _
    · split
      · exact .refl _
      · exact acts_nodeRegister hn _ _ _
  | disconnect me n =>
    simp only [Op.exec]
    split
    · exact .one (a := .crash me _) (by rfl)
    rename_i hloc
    unfold World.nodeDisconnect
    split
    · exact .refl _
    · rename_i id hid
      split
      · exact .refl _
      · rename_i g hg
        refine Acts.trans (Acts.trans ?_ (acts_killOpt { w with pending := upd w.pending n [] } me g.sup
          (fun _ _ => term_ok trivial))) (acts_na (.disc n) _ _ ⟨hloc, _, rfl⟩ ?_)
        · exact acts_na (.clrPending n) _ _ (.inr ⟨_, rfl⟩) rfl
        · rw [killOpt_nt]
          simp only [nact, nt, NT.reg, NT.setReg, hid, Option.bind_some, hg, setNt]
          generalize hk : killOpt { w with pending := upd w.pending n [] } me g.sup = k
          have := killOpt_nt { w with pending := upd w.pending n [] } me g.sup
          rw [hk] at this
          simp only [nt, NT.mk.injEq] at this
          obtain ⟨h1, h2, h3, h4, h5, h6⟩ := this
          cases k; simp_all
  | forget me n =>
    simp only [Op.exec]
    split
    · exact .one (a := .crash me _) (by rfl)
    rename_i hloc
    simp only [World.nodeForget]
    split
    · exact .refl _
    · rename_i id hid
      split
      · rename_i hg
        refine acts_na (.forget n) _ _ ⟨hloc, _, rfl⟩ ?_
        simp [nact, nt, setNt, hid, hg]
      · rename_i g hg
        refine Acts.trans ?_ (acts_killOpt _ me _ (fun _ _ => term_ok trivial))
        refine acts_na (.forget n) _ _ ⟨hloc, _, rfl⟩ ?_
        simp [nact, nt, setNt, hid, hg]
  | accept sup n =>
    simp only [Op.exec, World.nodeAccept]
    split
    · exact .one (a := .crash sup _) (by rfl)
    · rename_i a b
      split
      · rename_i hid
        refine acts_na (.accept (.rem a b) sup) _ _ rfl ?_
        simp [nact, nt, setNt, hid, NT.add]
      · rename_i id hid
        split
        · exact .refl _
        · rename_i g hg
          skip
          split
          · rename_i hs
            have hs' : g.sup = none ∨ g.state = .pending := by
              by_cases h : g.state = .pending
              · exact .inr h
              · rw [if_neg h] at hs; exact .inl hs
            refine (acts_acceptKill w g sup (fun _ _ => term_ok (o := .accept sup (.rem a b)) trivial)).trans ?_
            refine acts_na (.accept (.rem a b) sup) _ _ rfl ?_
            generalize hk : (if g.state = NState.pending then
              (match g.sup with | some s => if sup ≠ s then processExit w s (.loc sup) .kill else w | none => w) else w) = k
            have : nt k = nt w := by
              rw [← hk]; split
              · split
                · split
                  · exact processExit_nt ..
                  · rfl
                · rfl
              · rfl
            rw [this]
            simp only [nact, nt, NT.reg, NT.setReg, hid, Option.bind_some, hg, if_pos hs', setNt]
            simp only [nt, NT.mk.injEq] at this
            obtain ⟨h1, h2, h3, h4, h5, h6⟩ := this
            cases k; simp_all
          · exact acts_acceptKill w _ sup (fun _ _ => term_ok trivial)
  | workers n s r =>
    simp only [Op.exec, World.registerWorkers]
    split
    · exact .refl _
    · rename_i id hid
      split
      · exact .refl _
      · rename_i g hg
        refine acts_na (.workers n s r) _ _ rfl ?_
        simp [nact, nt, setNt, NT.reg, NT.setReg, hid, hg]
  | supDown n p => exact acts_supDown w n p
  | frame rp n f => exact acts_recvFrame w n rp f
  | table me t => exact .one (a := .tables t) ⟨me, rfl⟩
  | boot => exact .one (a := .spawn) (by trivial)

theorem step_acts (ser : V → B) (w : World B V) (o : Op B V) : Acts (AtomOf w o) w (step ser w o).1 := by
  unfold step
  split
  · exact exec_acts ser w o
  · split
    · exact exec_acts ser w o
    · exact .refl _

/-- An invariant of the elementary changes holds after every history. -/
theorem run_inv (ser : V → B) (I : World B V → Prop) (hs : ∀ w a, I w → I (act w a)) (os : List (Op B V))
    (w : World B V) (h : I w) : I (run ser w os) := by
  induction os generalizing w with
  | nil => exact h
  | cons o os ih => exact ih _ ((step_acts ser w o).inv h (fun w a _ => hs w a))

end Verif.World
