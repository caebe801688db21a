import Verif.WorldAtoms
/-! Generated by tools/gen_fields.py: effect of the elementary functions on each field of the world. -/
namespace Verif.World
open Verif.Mailbox
variable {B V : Type}

theorem upd_self {K A : Type} [DecidableEq K] (f : K → A) (k : K) : upd f k (f k) = f := by
  funext j; unfold upd; split <;> simp_all

theorem upd_eq_self {K A : Type} [DecidableEq K] (f : K → A) (k : K) (v : A) (h : f k = v) : upd f k v = f := by
  subst h; exact upd_self f k

theorem upd_at {K A : Type} [DecidableEq K] (f : K → A) (k : K) (v : A) (j : K) : upd f k v j = if j = k then v else f j := rfl

@[simp, grind =] theorem modProc_nextPid_eq (w : World B V) (i : Nat) (f : Proc B V → Proc B V) : (modProc w i f).nextPid = w.nextPid := rfl
@[simp, grind =] theorem modProc_nextRef_eq (w : World B V) (i : Nat) (f : Proc B V → Proc B V) : (modProc w i f).nextRef = w.nextRef := rfl
@[simp, grind =] theorem modProc_nextNode_eq (w : World B V) (i : Nat) (f : Proc B V → Proc B V) : (modProc w i f).nextNode = w.nextNode := rfl
@[simp, grind =] theorem modProc_procs_eq (w : World B V) (i : Nat) (f : Proc B V → Proc B V) : (modProc w i f).procs = upd w.procs i ((w.procs i).map f) := rfl
@[simp, grind =] theorem modProc_names_eq (w : World B V) (i : Nat) (f : Proc B V → Proc B V) : (modProc w i f).names = w.names := rfl
@[simp, grind =] theorem modProc_links_eq (w : World B V) (i : Nat) (f : Proc B V → Proc B V) : (modProc w i f).links = w.links := rfl
@[simp, grind =] theorem modProc_mons_eq (w : World B V) (i : Nat) (f : Proc B V → Proc B V) : (modProc w i f).mons = w.mons := rfl
@[simp, grind =] theorem modProc_aliases_eq (w : World B V) (i : Nat) (f : Proc B V → Proc B V) : (modProc w i f).aliases = w.aliases := rfl
@[simp, grind =] theorem modProc_nodeRegs_eq (w : World B V) (i : Nat) (f : Proc B V → Proc B V) : (modProc w i f).nodeRegs = w.nodeRegs := rfl
@[simp, grind =] theorem modProc_nodeMap_eq (w : World B V) (i : Nat) (f : Proc B V → Proc B V) : (modProc w i f).nodeMap = w.nodeMap := rfl
@[simp, grind =] theorem modProc_nodeMons_eq (w : World B V) (i : Nat) (f : Proc B V → Proc B V) : (modProc w i f).nodeMons = w.nodeMons := rfl
@[simp, grind =] theorem modProc_nodeLinks_eq (w : World B V) (i : Nat) (f : Proc B V → Proc B V) : (modProc w i f).nodeLinks = w.nodeLinks := rfl
@[simp, grind =] theorem modProc_pending_eq (w : World B V) (i : Nat) (f : Proc B V → Proc B V) : (modProc w i f).pending = w.pending := rfl
@[simp, grind =] theorem modProc_tables_eq (w : World B V) (i : Nat) (f : Proc B V → Proc B V) : (modProc w i f).tables = w.tables := rfl
@[simp, grind =] theorem modProc_sent_eq (w : World B V) (i : Nat) (f : Proc B V → Proc B V) : (modProc w i f).sent = w.sent := rfl
@[simp, grind =] theorem modProc_asked_eq (w : World B V) (i : Nat) (f : Proc B V → Proc B V) : (modProc w i f).asked = w.asked := rfl
@[simp, grind =] theorem modProc_out_eq (w : World B V) (i : Nat) (f : Proc B V → Proc B V) : (modProc w i f).out = w.out := rfl

@[simp, grind =] theorem modBox_nextPid_eq (w : World B V) (i : Nat) (f : Box B V → Box B V) : (modBox w i f).nextPid = w.nextPid := rfl
@[simp, grind =] theorem modBox_nextRef_eq (w : World B V) (i : Nat) (f : Box B V → Box B V) : (modBox w i f).nextRef = w.nextRef := rfl
@[simp, grind =] theorem modBox_nextNode_eq (w : World B V) (i : Nat) (f : Box B V → Box B V) : (modBox w i f).nextNode = w.nextNode := rfl
@[simp, grind =] theorem modBox_procs_eq (w : World B V) (i : Nat) (f : Box B V → Box B V) : (modBox w i f).procs = upd w.procs i ((w.procs i).map fun p => { p with box := f p.box }) := rfl
@[simp, grind =] theorem modBox_names_eq (w : World B V) (i : Nat) (f : Box B V → Box B V) : (modBox w i f).names = w.names := rfl
@[simp, grind =] theorem modBox_links_eq (w : World B V) (i : Nat) (f : Box B V → Box B V) : (modBox w i f).links = w.links := rfl
@[simp, grind =] theorem modBox_mons_eq (w : World B V) (i : Nat) (f : Box B V → Box B V) : (modBox w i f).mons = w.mons := rfl
@[simp, grind =] theorem modBox_aliases_eq (w : World B V) (i : Nat) (f : Box B V → Box B V) : (modBox w i f).aliases = w.aliases := rfl
@[simp, grind =] theorem modBox_nodeRegs_eq (w : World B V) (i : Nat) (f : Box B V → Box B V) : (modBox w i f).nodeRegs = w.nodeRegs := rfl
@[simp, grind =] theorem modBox_nodeMap_eq (w : World B V) (i : Nat) (f : Box B V → Box B V) : (modBox w i f).nodeMap = w.nodeMap := rfl
@[simp, grind =] theorem modBox_nodeMons_eq (w : World B V) (i : Nat) (f : Box B V → Box B V) : (modBox w i f).nodeMons = w.nodeMons := rfl
@[simp, grind =] theorem modBox_nodeLinks_eq (w : World B V) (i : Nat) (f : Box B V → Box B V) : (modBox w i f).nodeLinks = w.nodeLinks := rfl
@[simp, grind =] theorem modBox_pending_eq (w : World B V) (i : Nat) (f : Box B V → Box B V) : (modBox w i f).pending = w.pending := rfl
@[simp, grind =] theorem modBox_tables_eq (w : World B V) (i : Nat) (f : Box B V → Box B V) : (modBox w i f).tables = w.tables := rfl
@[simp, grind =] theorem modBox_sent_eq (w : World B V) (i : Nat) (f : Box B V → Box B V) : (modBox w i f).sent = w.sent := rfl
@[simp, grind =] theorem modBox_asked_eq (w : World B V) (i : Nat) (f : Box B V → Box B V) : (modBox w i f).asked = w.asked := rfl
@[simp, grind =] theorem modBox_out_eq (w : World B V) (i : Nat) (f : Box B V → Box B V) : (modBox w i f).out = w.out := rfl

@[simp, grind =] theorem terminate_nextPid_eq (w : World B V) (i : Nat) (r : ExitReason) : (terminate w i r).nextPid = w.nextPid := rfl
@[simp, grind =] theorem terminate_nextRef_eq (w : World B V) (i : Nat) (r : ExitReason) : (terminate w i r).nextRef = w.nextRef := rfl
@[simp, grind =] theorem terminate_nextNode_eq (w : World B V) (i : Nat) (r : ExitReason) : (terminate w i r).nextNode = w.nextNode := rfl
@[simp, grind =] theorem terminate_procs_eq (w : World B V) (i : Nat) (r : ExitReason) : (terminate w i r).procs = upd w.procs i ((w.procs i).map fun p => { p with reason := some r, aborted := true }) := rfl
@[simp, grind =] theorem terminate_names_eq (w : World B V) (i : Nat) (r : ExitReason) : (terminate w i r).names = w.names := rfl
@[simp, grind =] theorem terminate_links_eq (w : World B V) (i : Nat) (r : ExitReason) : (terminate w i r).links = w.links := rfl
@[simp, grind =] theorem terminate_mons_eq (w : World B V) (i : Nat) (r : ExitReason) : (terminate w i r).mons = w.mons := rfl
@[simp, grind =] theorem terminate_aliases_eq (w : World B V) (i : Nat) (r : ExitReason) : (terminate w i r).aliases = w.aliases := rfl
@[simp, grind =] theorem terminate_nodeRegs_eq (w : World B V) (i : Nat) (r : ExitReason) : (terminate w i r).nodeRegs = w.nodeRegs := rfl
@[simp, grind =] theorem terminate_nodeMap_eq (w : World B V) (i : Nat) (r : ExitReason) : (terminate w i r).nodeMap = w.nodeMap := rfl
@[simp, grind =] theorem terminate_nodeMons_eq (w : World B V) (i : Nat) (r : ExitReason) : (terminate w i r).nodeMons = w.nodeMons := rfl
@[simp, grind =] theorem terminate_nodeLinks_eq (w : World B V) (i : Nat) (r : ExitReason) : (terminate w i r).nodeLinks = w.nodeLinks := rfl
@[simp, grind =] theorem terminate_pending_eq (w : World B V) (i : Nat) (r : ExitReason) : (terminate w i r).pending = w.pending := rfl
@[simp, grind =] theorem terminate_tables_eq (w : World B V) (i : Nat) (r : ExitReason) : (terminate w i r).tables = w.tables := rfl
@[simp, grind =] theorem terminate_sent_eq (w : World B V) (i : Nat) (r : ExitReason) : (terminate w i r).sent = w.sent := rfl
@[simp, grind =] theorem terminate_asked_eq (w : World B V) (i : Nat) (r : ExitReason) : (terminate w i r).asked = w.asked := rfl
@[simp, grind =] theorem terminate_out_eq (w : World B V) (i : Nat) (r : ExitReason) : (terminate w i r).out = w.out := rfl

@[simp, grind =] theorem crash_nextPid_eq (w : World B V) (i : Nat) (m : String) : (crash w i m).nextPid = w.nextPid := rfl
@[simp, grind =] theorem crash_nextRef_eq (w : World B V) (i : Nat) (m : String) : (crash w i m).nextRef = w.nextRef := rfl
@[simp, grind =] theorem crash_nextNode_eq (w : World B V) (i : Nat) (m : String) : (crash w i m).nextNode = w.nextNode := rfl
@[simp, grind =] theorem crash_procs_eq (w : World B V) (i : Nat) (m : String) : (crash w i m).procs = upd w.procs i ((w.procs i).map fun p => { p with reason := some (.custom m), ended := true }) := rfl
@[simp, grind =] theorem crash_names_eq (w : World B V) (i : Nat) (m : String) : (crash w i m).names = w.names := rfl
@[simp, grind =] theorem crash_links_eq (w : World B V) (i : Nat) (m : String) : (crash w i m).links = w.links := rfl
@[simp, grind =] theorem crash_mons_eq (w : World B V) (i : Nat) (m : String) : (crash w i m).mons = w.mons := rfl
@[simp, grind =] theorem crash_aliases_eq (w : World B V) (i : Nat) (m : String) : (crash w i m).aliases = w.aliases := rfl
@[simp, grind =] theorem crash_nodeRegs_eq (w : World B V) (i : Nat) (m : String) : (crash w i m).nodeRegs = w.nodeRegs := rfl
@[simp, grind =] theorem crash_nodeMap_eq (w : World B V) (i : Nat) (m : String) : (crash w i m).nodeMap = w.nodeMap := rfl
@[simp, grind =] theorem crash_nodeMons_eq (w : World B V) (i : Nat) (m : String) : (crash w i m).nodeMons = w.nodeMons := rfl
@[simp, grind =] theorem crash_nodeLinks_eq (w : World B V) (i : Nat) (m : String) : (crash w i m).nodeLinks = w.nodeLinks := rfl
@[simp, grind =] theorem crash_pending_eq (w : World B V) (i : Nat) (m : String) : (crash w i m).pending = w.pending := rfl
@[simp, grind =] theorem crash_tables_eq (w : World B V) (i : Nat) (m : String) : (crash w i m).tables = w.tables := rfl
@[simp, grind =] theorem crash_sent_eq (w : World B V) (i : Nat) (m : String) : (crash w i m).sent = w.sent := rfl
@[simp, grind =] theorem crash_asked_eq (w : World B V) (i : Nat) (m : String) : (crash w i m).asked = w.asked := rfl
@[simp, grind =] theorem crash_out_eq (w : World B V) (i : Nat) (m : String) : (crash w i m).out = w.out := rfl

@[simp, grind =] theorem put_nextPid_eq (w : World B V) (i : Nat) (it : Item B V) : (put w i it).nextPid = w.nextPid := by
  unfold put; split
  · first | rfl | (simp_all; try exact (upd_eq_self _ _ _ ‹_›).symm)
  · simp_all
@[simp, grind =] theorem put_nextRef_eq (w : World B V) (i : Nat) (it : Item B V) : (put w i it).nextRef = w.nextRef := by
  unfold put; split
  · first | rfl | (simp_all; try exact (upd_eq_self _ _ _ ‹_›).symm)
  · simp_all
@[simp, grind =] theorem put_nextNode_eq (w : World B V) (i : Nat) (it : Item B V) : (put w i it).nextNode = w.nextNode := by
  unfold put; split
  · first | rfl | (simp_all; try exact (upd_eq_self _ _ _ ‹_›).symm)
  · simp_all
@[simp, grind =] theorem put_procs_eq (w : World B V) (i : Nat) (it : Item B V) : (put w i it).procs = upd w.procs i ((w.procs i).map fun p => { p with box := deliver p.box it }) := by
  unfold put; split
  · first | rfl | (simp_all; try exact (upd_eq_self _ _ _ ‹_›).symm)
  · simp_all
@[simp, grind =] theorem put_names_eq (w : World B V) (i : Nat) (it : Item B V) : (put w i it).names = w.names := by
  unfold put; split
  · first | rfl | (simp_all; try exact (upd_eq_self _ _ _ ‹_›).symm)
  · simp_all
@[simp, grind =] theorem put_links_eq (w : World B V) (i : Nat) (it : Item B V) : (put w i it).links = w.links := by
  unfold put; split
  · first | rfl | (simp_all; try exact (upd_eq_self _ _ _ ‹_›).symm)
  · simp_all
@[simp, grind =] theorem put_mons_eq (w : World B V) (i : Nat) (it : Item B V) : (put w i it).mons = w.mons := by
  unfold put; split
  · first | rfl | (simp_all; try exact (upd_eq_self _ _ _ ‹_›).symm)
  · simp_all
@[simp, grind =] theorem put_aliases_eq (w : World B V) (i : Nat) (it : Item B V) : (put w i it).aliases = w.aliases := by
  unfold put; split
  · first | rfl | (simp_all; try exact (upd_eq_self _ _ _ ‹_›).symm)
  · simp_all
@[simp, grind =] theorem put_nodeRegs_eq (w : World B V) (i : Nat) (it : Item B V) : (put w i it).nodeRegs = w.nodeRegs := by
  unfold put; split
  · first | rfl | (simp_all; try exact (upd_eq_self _ _ _ ‹_›).symm)
  · simp_all
@[simp, grind =] theorem put_nodeMap_eq (w : World B V) (i : Nat) (it : Item B V) : (put w i it).nodeMap = w.nodeMap := by
  unfold put; split
  · first | rfl | (simp_all; try exact (upd_eq_self _ _ _ ‹_›).symm)
  · simp_all
@[simp, grind =] theorem put_nodeMons_eq (w : World B V) (i : Nat) (it : Item B V) : (put w i it).nodeMons = w.nodeMons := by
  unfold put; split
  · first | rfl | (simp_all; try exact (upd_eq_self _ _ _ ‹_›).symm)
  · simp_all
@[simp, grind =] theorem put_nodeLinks_eq (w : World B V) (i : Nat) (it : Item B V) : (put w i it).nodeLinks = w.nodeLinks := by
  unfold put; split
  · first | rfl | (simp_all; try exact (upd_eq_self _ _ _ ‹_›).symm)
  · simp_all
@[simp, grind =] theorem put_pending_eq (w : World B V) (i : Nat) (it : Item B V) : (put w i it).pending = w.pending := by
  unfold put; split
  · first | rfl | (simp_all; try exact (upd_eq_self _ _ _ ‹_›).symm)
  · simp_all
@[simp, grind =] theorem put_tables_eq (w : World B V) (i : Nat) (it : Item B V) : (put w i it).tables = w.tables := by
  unfold put; split
  · first | rfl | (simp_all; try exact (upd_eq_self _ _ _ ‹_›).symm)
  · simp_all
@[simp, grind =] theorem put_sent_eq (w : World B V) (i : Nat) (it : Item B V) : (put w i it).sent = w.sent ++ (if (w.procs i).isSome then [(i, it)] else []) := by
  unfold put; split
  · first | rfl | (simp_all; try exact (upd_eq_self _ _ _ ‹_›).symm)
  · simp_all
@[simp, grind =] theorem put_asked_eq (w : World B V) (i : Nat) (it : Item B V) : (put w i it).asked = w.asked := by
  unfold put; split
  · first | rfl | (simp_all; try exact (upd_eq_self _ _ _ ‹_›).symm)
  · simp_all
@[simp, grind =] theorem put_out_eq (w : World B V) (i : Nat) (it : Item B V) : (put w i it).out = w.out := by
  unfold put; split
  · first | rfl | (simp_all; try exact (upd_eq_self _ _ _ ‹_›).symm)
  · simp_all

@[simp, grind =] theorem addLink_nextPid_eq (w : World B V) (i : Nat) (p : Pid) : (addLink w i p).nextPid = w.nextPid := rfl
@[simp, grind =] theorem addLink_nextRef_eq (w : World B V) (i : Nat) (p : Pid) : (addLink w i p).nextRef = w.nextRef := rfl
@[simp, grind =] theorem addLink_nextNode_eq (w : World B V) (i : Nat) (p : Pid) : (addLink w i p).nextNode = w.nextNode := rfl
@[simp, grind =] theorem addLink_procs_eq (w : World B V) (i : Nat) (p : Pid) : (addLink w i p).procs = w.procs := rfl
@[simp, grind =] theorem addLink_names_eq (w : World B V) (i : Nat) (p : Pid) : (addLink w i p).names = w.names := rfl
@[simp, grind =] theorem addLink_links_eq (w : World B V) (i : Nat) (p : Pid) : (addLink w i p).links = upd w.links i (if p ∈ w.links i then w.links i else w.links i ++ [p]) := rfl
@[simp, grind =] theorem addLink_mons_eq (w : World B V) (i : Nat) (p : Pid) : (addLink w i p).mons = w.mons := rfl
@[simp, grind =] theorem addLink_aliases_eq (w : World B V) (i : Nat) (p : Pid) : (addLink w i p).aliases = w.aliases := rfl
@[simp, grind =] theorem addLink_nodeRegs_eq (w : World B V) (i : Nat) (p : Pid) : (addLink w i p).nodeRegs = w.nodeRegs := rfl
@[simp, grind =] theorem addLink_nodeMap_eq (w : World B V) (i : Nat) (p : Pid) : (addLink w i p).nodeMap = w.nodeMap := rfl
@[simp, grind =] theorem addLink_nodeMons_eq (w : World B V) (i : Nat) (p : Pid) : (addLink w i p).nodeMons = w.nodeMons := rfl
@[simp, grind =] theorem addLink_nodeLinks_eq (w : World B V) (i : Nat) (p : Pid) : (addLink w i p).nodeLinks = w.nodeLinks := rfl
@[simp, grind =] theorem addLink_pending_eq (w : World B V) (i : Nat) (p : Pid) : (addLink w i p).pending = w.pending := rfl
@[simp, grind =] theorem addLink_tables_eq (w : World B V) (i : Nat) (p : Pid) : (addLink w i p).tables = w.tables := rfl
@[simp, grind =] theorem addLink_sent_eq (w : World B V) (i : Nat) (p : Pid) : (addLink w i p).sent = w.sent := rfl
@[simp, grind =] theorem addLink_asked_eq (w : World B V) (i : Nat) (p : Pid) : (addLink w i p).asked = w.asked := rfl
@[simp, grind =] theorem addLink_out_eq (w : World B V) (i : Nat) (p : Pid) : (addLink w i p).out = w.out := rfl

@[simp, grind =] theorem delLink_nextPid_eq (w : World B V) (i : Nat) (p : Pid) : (delLink w i p).nextPid = w.nextPid := rfl
@[simp, grind =] theorem delLink_nextRef_eq (w : World B V) (i : Nat) (p : Pid) : (delLink w i p).nextRef = w.nextRef := rfl
@[simp, grind =] theorem delLink_nextNode_eq (w : World B V) (i : Nat) (p : Pid) : (delLink w i p).nextNode = w.nextNode := rfl
@[simp, grind =] theorem delLink_procs_eq (w : World B V) (i : Nat) (p : Pid) : (delLink w i p).procs = w.procs := rfl
@[simp, grind =] theorem delLink_names_eq (w : World B V) (i : Nat) (p : Pid) : (delLink w i p).names = w.names := rfl
@[simp, grind =] theorem delLink_links_eq (w : World B V) (i : Nat) (p : Pid) : (delLink w i p).links = upd w.links i ((w.links i).filter (· ≠ p)) := rfl
@[simp, grind =] theorem delLink_mons_eq (w : World B V) (i : Nat) (p : Pid) : (delLink w i p).mons = w.mons := rfl
@[simp, grind =] theorem delLink_aliases_eq (w : World B V) (i : Nat) (p : Pid) : (delLink w i p).aliases = w.aliases := rfl
@[simp, grind =] theorem delLink_nodeRegs_eq (w : World B V) (i : Nat) (p : Pid) : (delLink w i p).nodeRegs = w.nodeRegs := rfl
@[simp, grind =] theorem delLink_nodeMap_eq (w : World B V) (i : Nat) (p : Pid) : (delLink w i p).nodeMap = w.nodeMap := rfl
@[simp, grind =] theorem delLink_nodeMons_eq (w : World B V) (i : Nat) (p : Pid) : (delLink w i p).nodeMons = w.nodeMons := rfl
@[simp, grind =] theorem delLink_nodeLinks_eq (w : World B V) (i : Nat) (p : Pid) : (delLink w i p).nodeLinks = w.nodeLinks := rfl
@[simp, grind =] theorem delLink_pending_eq (w : World B V) (i : Nat) (p : Pid) : (delLink w i p).pending = w.pending := rfl
@[simp, grind =] theorem delLink_tables_eq (w : World B V) (i : Nat) (p : Pid) : (delLink w i p).tables = w.tables := rfl
@[simp, grind =] theorem delLink_sent_eq (w : World B V) (i : Nat) (p : Pid) : (delLink w i p).sent = w.sent := rfl
@[simp, grind =] theorem delLink_asked_eq (w : World B V) (i : Nat) (p : Pid) : (delLink w i p).asked = w.asked := rfl
@[simp, grind =] theorem delLink_out_eq (w : World B V) (i : Nat) (p : Pid) : (delLink w i p).out = w.out := rfl

@[simp, grind =] theorem addMon_nextPid_eq (w : World B V) (i : Nat) (r : Ref) (frm : Pid) (d : Option Dest) : (addMon w i r frm d).nextPid = w.nextPid := rfl
@[simp, grind =] theorem addMon_nextRef_eq (w : World B V) (i : Nat) (r : Ref) (frm : Pid) (d : Option Dest) : (addMon w i r frm d).nextRef = w.nextRef := rfl
@[simp, grind =] theorem addMon_nextNode_eq (w : World B V) (i : Nat) (r : Ref) (frm : Pid) (d : Option Dest) : (addMon w i r frm d).nextNode = w.nextNode := rfl
@[simp, grind =] theorem addMon_procs_eq (w : World B V) (i : Nat) (r : Ref) (frm : Pid) (d : Option Dest) : (addMon w i r frm d).procs = w.procs := rfl
@[simp, grind =] theorem addMon_names_eq (w : World B V) (i : Nat) (r : Ref) (frm : Pid) (d : Option Dest) : (addMon w i r frm d).names = w.names := rfl
@[simp, grind =] theorem addMon_links_eq (w : World B V) (i : Nat) (r : Ref) (frm : Pid) (d : Option Dest) : (addMon w i r frm d).links = w.links := rfl
@[simp, grind =] theorem addMon_mons_eq (w : World B V) (i : Nat) (r : Ref) (frm : Pid) (d : Option Dest) : (addMon w i r frm d).mons = upd w.mons i ((w.mons i).filter (fun x => x.1 ≠ r) ++ [(r, frm, d)]) := rfl
@[simp, grind =] theorem addMon_aliases_eq (w : World B V) (i : Nat) (r : Ref) (frm : Pid) (d : Option Dest) : (addMon w i r frm d).aliases = w.aliases := rfl
@[simp, grind =] theorem addMon_nodeRegs_eq (w : World B V) (i : Nat) (r : Ref) (frm : Pid) (d : Option Dest) : (addMon w i r frm d).nodeRegs = w.nodeRegs := rfl
@[simp, grind =] theorem addMon_nodeMap_eq (w : World B V) (i : Nat) (r : Ref) (frm : Pid) (d : Option Dest) : (addMon w i r frm d).nodeMap = w.nodeMap := rfl
@[simp, grind =] theorem addMon_nodeMons_eq (w : World B V) (i : Nat) (r : Ref) (frm : Pid) (d : Option Dest) : (addMon w i r frm d).nodeMons = w.nodeMons := rfl
@[simp, grind =] theorem addMon_nodeLinks_eq (w : World B V) (i : Nat) (r : Ref) (frm : Pid) (d : Option Dest) : (addMon w i r frm d).nodeLinks = w.nodeLinks := rfl
@[simp, grind =] theorem addMon_pending_eq (w : World B V) (i : Nat) (r : Ref) (frm : Pid) (d : Option Dest) : (addMon w i r frm d).pending = w.pending := rfl
@[simp, grind =] theorem addMon_tables_eq (w : World B V) (i : Nat) (r : Ref) (frm : Pid) (d : Option Dest) : (addMon w i r frm d).tables = w.tables := rfl
@[simp, grind =] theorem addMon_sent_eq (w : World B V) (i : Nat) (r : Ref) (frm : Pid) (d : Option Dest) : (addMon w i r frm d).sent = w.sent := rfl
@[simp, grind =] theorem addMon_asked_eq (w : World B V) (i : Nat) (r : Ref) (frm : Pid) (d : Option Dest) : (addMon w i r frm d).asked = w.asked := rfl
@[simp, grind =] theorem addMon_out_eq (w : World B V) (i : Nat) (r : Ref) (frm : Pid) (d : Option Dest) : (addMon w i r frm d).out = w.out := rfl

@[simp, grind =] theorem delMon_nextPid_eq (w : World B V) (i : Nat) (r : Ref) : (delMon w i r).nextPid = w.nextPid := rfl
@[simp, grind =] theorem delMon_nextRef_eq (w : World B V) (i : Nat) (r : Ref) : (delMon w i r).nextRef = w.nextRef := rfl
@[simp, grind =] theorem delMon_nextNode_eq (w : World B V) (i : Nat) (r : Ref) : (delMon w i r).nextNode = w.nextNode := rfl
@[simp, grind =] theorem delMon_procs_eq (w : World B V) (i : Nat) (r : Ref) : (delMon w i r).procs = w.procs := rfl
@[simp, grind =] theorem delMon_names_eq (w : World B V) (i : Nat) (r : Ref) : (delMon w i r).names = w.names := rfl
@[simp, grind =] theorem delMon_links_eq (w : World B V) (i : Nat) (r : Ref) : (delMon w i r).links = w.links := rfl
@[simp, grind =] theorem delMon_mons_eq (w : World B V) (i : Nat) (r : Ref) : (delMon w i r).mons = upd w.mons i ((w.mons i).filter (fun x => x.1 ≠ r)) := rfl
@[simp, grind =] theorem delMon_aliases_eq (w : World B V) (i : Nat) (r : Ref) : (delMon w i r).aliases = w.aliases := rfl
@[simp, grind =] theorem delMon_nodeRegs_eq (w : World B V) (i : Nat) (r : Ref) : (delMon w i r).nodeRegs = w.nodeRegs := rfl
@[simp, grind =] theorem delMon_nodeMap_eq (w : World B V) (i : Nat) (r : Ref) : (delMon w i r).nodeMap = w.nodeMap := rfl
@[simp, grind =] theorem delMon_nodeMons_eq (w : World B V) (i : Nat) (r : Ref) : (delMon w i r).nodeMons = w.nodeMons := rfl
@[simp, grind =] theorem delMon_nodeLinks_eq (w : World B V) (i : Nat) (r : Ref) : (delMon w i r).nodeLinks = w.nodeLinks := rfl
@[simp, grind =] theorem delMon_pending_eq (w : World B V) (i : Nat) (r : Ref) : (delMon w i r).pending = w.pending := rfl
@[simp, grind =] theorem delMon_tables_eq (w : World B V) (i : Nat) (r : Ref) : (delMon w i r).tables = w.tables := rfl
@[simp, grind =] theorem delMon_sent_eq (w : World B V) (i : Nat) (r : Ref) : (delMon w i r).sent = w.sent := rfl
@[simp, grind =] theorem delMon_asked_eq (w : World B V) (i : Nat) (r : Ref) : (delMon w i r).asked = w.asked := rfl
@[simp, grind =] theorem delMon_out_eq (w : World B V) (i : Nat) (r : Ref) : (delMon w i r).out = w.out := rfl

@[simp, grind =] theorem addAlias_nextPid_eq (w : World B V) (i : Nat) (r : Ref) (b : Bool) : (addAlias w i r b).nextPid = w.nextPid := rfl
@[simp, grind =] theorem addAlias_nextRef_eq (w : World B V) (i : Nat) (r : Ref) (b : Bool) : (addAlias w i r b).nextRef = w.nextRef := rfl
@[simp, grind =] theorem addAlias_nextNode_eq (w : World B V) (i : Nat) (r : Ref) (b : Bool) : (addAlias w i r b).nextNode = w.nextNode := rfl
@[simp, grind =] theorem addAlias_procs_eq (w : World B V) (i : Nat) (r : Ref) (b : Bool) : (addAlias w i r b).procs = w.procs := rfl
@[simp, grind =] theorem addAlias_names_eq (w : World B V) (i : Nat) (r : Ref) (b : Bool) : (addAlias w i r b).names = w.names := rfl
@[simp, grind =] theorem addAlias_links_eq (w : World B V) (i : Nat) (r : Ref) (b : Bool) : (addAlias w i r b).links = w.links := rfl
@[simp, grind =] theorem addAlias_mons_eq (w : World B V) (i : Nat) (r : Ref) (b : Bool) : (addAlias w i r b).mons = w.mons := rfl
@[simp, grind =] theorem addAlias_aliases_eq (w : World B V) (i : Nat) (r : Ref) (b : Bool) : (addAlias w i r b).aliases = upd w.aliases r.id (some (i, b)) := rfl
@[simp, grind =] theorem addAlias_nodeRegs_eq (w : World B V) (i : Nat) (r : Ref) (b : Bool) : (addAlias w i r b).nodeRegs = w.nodeRegs := rfl
@[simp, grind =] theorem addAlias_nodeMap_eq (w : World B V) (i : Nat) (r : Ref) (b : Bool) : (addAlias w i r b).nodeMap = w.nodeMap := rfl
@[simp, grind =] theorem addAlias_nodeMons_eq (w : World B V) (i : Nat) (r : Ref) (b : Bool) : (addAlias w i r b).nodeMons = w.nodeMons := rfl
@[simp, grind =] theorem addAlias_nodeLinks_eq (w : World B V) (i : Nat) (r : Ref) (b : Bool) : (addAlias w i r b).nodeLinks = w.nodeLinks := rfl
@[simp, grind =] theorem addAlias_pending_eq (w : World B V) (i : Nat) (r : Ref) (b : Bool) : (addAlias w i r b).pending = w.pending := rfl
@[simp, grind =] theorem addAlias_tables_eq (w : World B V) (i : Nat) (r : Ref) (b : Bool) : (addAlias w i r b).tables = w.tables := rfl
@[simp, grind =] theorem addAlias_sent_eq (w : World B V) (i : Nat) (r : Ref) (b : Bool) : (addAlias w i r b).sent = w.sent := rfl
@[simp, grind =] theorem addAlias_asked_eq (w : World B V) (i : Nat) (r : Ref) (b : Bool) : (addAlias w i r b).asked = w.asked := rfl
@[simp, grind =] theorem addAlias_out_eq (w : World B V) (i : Nat) (r : Ref) (b : Bool) : (addAlias w i r b).out = w.out := rfl

@[simp, grind =] theorem delAlias_nextPid_eq (w : World B V) (r : Ref) : (delAlias w r).nextPid = w.nextPid := rfl
@[simp, grind =] theorem delAlias_nextRef_eq (w : World B V) (r : Ref) : (delAlias w r).nextRef = w.nextRef := rfl
@[simp, grind =] theorem delAlias_nextNode_eq (w : World B V) (r : Ref) : (delAlias w r).nextNode = w.nextNode := rfl
@[simp, grind =] theorem delAlias_procs_eq (w : World B V) (r : Ref) : (delAlias w r).procs = w.procs := rfl
@[simp, grind =] theorem delAlias_names_eq (w : World B V) (r : Ref) : (delAlias w r).names = w.names := rfl
@[simp, grind =] theorem delAlias_links_eq (w : World B V) (r : Ref) : (delAlias w r).links = w.links := rfl
@[simp, grind =] theorem delAlias_mons_eq (w : World B V) (r : Ref) : (delAlias w r).mons = w.mons := rfl
@[simp, grind =] theorem delAlias_aliases_eq (w : World B V) (r : Ref) : (delAlias w r).aliases = upd w.aliases r.id none := rfl
@[simp, grind =] theorem delAlias_nodeRegs_eq (w : World B V) (r : Ref) : (delAlias w r).nodeRegs = w.nodeRegs := rfl
@[simp, grind =] theorem delAlias_nodeMap_eq (w : World B V) (r : Ref) : (delAlias w r).nodeMap = w.nodeMap := rfl
@[simp, grind =] theorem delAlias_nodeMons_eq (w : World B V) (r : Ref) : (delAlias w r).nodeMons = w.nodeMons := rfl
@[simp, grind =] theorem delAlias_nodeLinks_eq (w : World B V) (r : Ref) : (delAlias w r).nodeLinks = w.nodeLinks := rfl
@[simp, grind =] theorem delAlias_pending_eq (w : World B V) (r : Ref) : (delAlias w r).pending = w.pending := rfl
@[simp, grind =] theorem delAlias_tables_eq (w : World B V) (r : Ref) : (delAlias w r).tables = w.tables := rfl
@[simp, grind =] theorem delAlias_sent_eq (w : World B V) (r : Ref) : (delAlias w r).sent = w.sent := rfl
@[simp, grind =] theorem delAlias_asked_eq (w : World B V) (r : Ref) : (delAlias w r).asked = w.asked := rfl
@[simp, grind =] theorem delAlias_out_eq (w : World B V) (r : Ref) : (delAlias w r).out = w.out := rfl

@[simp, grind =] theorem addNodeMon_nextPid_eq (w : World B V) (n : Node) (r : Ref) (m : NMon) : (addNodeMon w n r m).nextPid = w.nextPid := rfl
@[simp, grind =] theorem addNodeMon_nextRef_eq (w : World B V) (n : Node) (r : Ref) (m : NMon) : (addNodeMon w n r m).nextRef = w.nextRef := rfl
@[simp, grind =] theorem addNodeMon_nextNode_eq (w : World B V) (n : Node) (r : Ref) (m : NMon) : (addNodeMon w n r m).nextNode = w.nextNode := rfl
@[simp, grind =] theorem addNodeMon_procs_eq (w : World B V) (n : Node) (r : Ref) (m : NMon) : (addNodeMon w n r m).procs = w.procs := rfl
@[simp, grind =] theorem addNodeMon_names_eq (w : World B V) (n : Node) (r : Ref) (m : NMon) : (addNodeMon w n r m).names = w.names := rfl
@[simp, grind =] theorem addNodeMon_links_eq (w : World B V) (n : Node) (r : Ref) (m : NMon) : (addNodeMon w n r m).links = w.links := rfl
@[simp, grind =] theorem addNodeMon_mons_eq (w : World B V) (n : Node) (r : Ref) (m : NMon) : (addNodeMon w n r m).mons = w.mons := rfl
@[simp, grind =] theorem addNodeMon_aliases_eq (w : World B V) (n : Node) (r : Ref) (m : NMon) : (addNodeMon w n r m).aliases = w.aliases := rfl
@[simp, grind =] theorem addNodeMon_nodeRegs_eq (w : World B V) (n : Node) (r : Ref) (m : NMon) : (addNodeMon w n r m).nodeRegs = w.nodeRegs := rfl
@[simp, grind =] theorem addNodeMon_nodeMap_eq (w : World B V) (n : Node) (r : Ref) (m : NMon) : (addNodeMon w n r m).nodeMap = w.nodeMap := rfl
@[simp, grind =] theorem addNodeMon_nodeMons_eq (w : World B V) (n : Node) (r : Ref) (m : NMon) : (addNodeMon w n r m).nodeMons = upd w.nodeMons n ((w.nodeMons n).filter (fun x => x.1 ≠ r) ++ [(r, m)]) := rfl
@[simp, grind =] theorem addNodeMon_nodeLinks_eq (w : World B V) (n : Node) (r : Ref) (m : NMon) : (addNodeMon w n r m).nodeLinks = w.nodeLinks := rfl
@[simp, grind =] theorem addNodeMon_pending_eq (w : World B V) (n : Node) (r : Ref) (m : NMon) : (addNodeMon w n r m).pending = w.pending := rfl
@[simp, grind =] theorem addNodeMon_tables_eq (w : World B V) (n : Node) (r : Ref) (m : NMon) : (addNodeMon w n r m).tables = w.tables := rfl
@[simp, grind =] theorem addNodeMon_sent_eq (w : World B V) (n : Node) (r : Ref) (m : NMon) : (addNodeMon w n r m).sent = w.sent := rfl
@[simp, grind =] theorem addNodeMon_asked_eq (w : World B V) (n : Node) (r : Ref) (m : NMon) : (addNodeMon w n r m).asked = w.asked := rfl
@[simp, grind =] theorem addNodeMon_out_eq (w : World B V) (n : Node) (r : Ref) (m : NMon) : (addNodeMon w n r m).out = w.out := rfl

@[simp, grind =] theorem delNodeMon_nextPid_eq (w : World B V) (n : Node) (r : Ref) : (delNodeMon w n r).nextPid = w.nextPid := rfl
@[simp, grind =] theorem delNodeMon_nextRef_eq (w : World B V) (n : Node) (r : Ref) : (delNodeMon w n r).nextRef = w.nextRef := rfl
@[simp, grind =] theorem delNodeMon_nextNode_eq (w : World B V) (n : Node) (r : Ref) : (delNodeMon w n r).nextNode = w.nextNode := rfl
@[simp, grind =] theorem delNodeMon_procs_eq (w : World B V) (n : Node) (r : Ref) : (delNodeMon w n r).procs = w.procs := rfl
@[simp, grind =] theorem delNodeMon_names_eq (w : World B V) (n : Node) (r : Ref) : (delNodeMon w n r).names = w.names := rfl
@[simp, grind =] theorem delNodeMon_links_eq (w : World B V) (n : Node) (r : Ref) : (delNodeMon w n r).links = w.links := rfl
@[simp, grind =] theorem delNodeMon_mons_eq (w : World B V) (n : Node) (r : Ref) : (delNodeMon w n r).mons = w.mons := rfl
@[simp, grind =] theorem delNodeMon_aliases_eq (w : World B V) (n : Node) (r : Ref) : (delNodeMon w n r).aliases = w.aliases := rfl
@[simp, grind =] theorem delNodeMon_nodeRegs_eq (w : World B V) (n : Node) (r : Ref) : (delNodeMon w n r).nodeRegs = w.nodeRegs := rfl
@[simp, grind =] theorem delNodeMon_nodeMap_eq (w : World B V) (n : Node) (r : Ref) : (delNodeMon w n r).nodeMap = w.nodeMap := rfl
@[simp, grind =] theorem delNodeMon_nodeMons_eq (w : World B V) (n : Node) (r : Ref) : (delNodeMon w n r).nodeMons = upd w.nodeMons n ((w.nodeMons n).filter (fun x => x.1 ≠ r)) := rfl
@[simp, grind =] theorem delNodeMon_nodeLinks_eq (w : World B V) (n : Node) (r : Ref) : (delNodeMon w n r).nodeLinks = w.nodeLinks := rfl
@[simp, grind =] theorem delNodeMon_pending_eq (w : World B V) (n : Node) (r : Ref) : (delNodeMon w n r).pending = w.pending := rfl
@[simp, grind =] theorem delNodeMon_tables_eq (w : World B V) (n : Node) (r : Ref) : (delNodeMon w n r).tables = w.tables := rfl
@[simp, grind =] theorem delNodeMon_sent_eq (w : World B V) (n : Node) (r : Ref) : (delNodeMon w n r).sent = w.sent := rfl
@[simp, grind =] theorem delNodeMon_asked_eq (w : World B V) (n : Node) (r : Ref) : (delNodeMon w n r).asked = w.asked := rfl
@[simp, grind =] theorem delNodeMon_out_eq (w : World B V) (n : Node) (r : Ref) : (delNodeMon w n r).out = w.out := rfl

@[simp, grind =] theorem addNodeLink_nextPid_eq (w : World B V) (n : Node) (p : Pid) (i : Nat) : (addNodeLink w n p i).nextPid = w.nextPid := rfl
@[simp, grind =] theorem addNodeLink_nextRef_eq (w : World B V) (n : Node) (p : Pid) (i : Nat) : (addNodeLink w n p i).nextRef = w.nextRef := rfl
@[simp, grind =] theorem addNodeLink_nextNode_eq (w : World B V) (n : Node) (p : Pid) (i : Nat) : (addNodeLink w n p i).nextNode = w.nextNode := rfl
@[simp, grind =] theorem addNodeLink_procs_eq (w : World B V) (n : Node) (p : Pid) (i : Nat) : (addNodeLink w n p i).procs = w.procs := rfl
@[simp, grind =] theorem addNodeLink_names_eq (w : World B V) (n : Node) (p : Pid) (i : Nat) : (addNodeLink w n p i).names = w.names := rfl
@[simp, grind =] theorem addNodeLink_links_eq (w : World B V) (n : Node) (p : Pid) (i : Nat) : (addNodeLink w n p i).links = w.links := rfl
@[simp, grind =] theorem addNodeLink_mons_eq (w : World B V) (n : Node) (p : Pid) (i : Nat) : (addNodeLink w n p i).mons = w.mons := rfl
@[simp, grind =] theorem addNodeLink_aliases_eq (w : World B V) (n : Node) (p : Pid) (i : Nat) : (addNodeLink w n p i).aliases = w.aliases := rfl
@[simp, grind =] theorem addNodeLink_nodeRegs_eq (w : World B V) (n : Node) (p : Pid) (i : Nat) : (addNodeLink w n p i).nodeRegs = w.nodeRegs := rfl
@[simp, grind =] theorem addNodeLink_nodeMap_eq (w : World B V) (n : Node) (p : Pid) (i : Nat) : (addNodeLink w n p i).nodeMap = w.nodeMap := rfl
@[simp, grind =] theorem addNodeLink_nodeMons_eq (w : World B V) (n : Node) (p : Pid) (i : Nat) : (addNodeLink w n p i).nodeMons = w.nodeMons := rfl
@[simp, grind =] theorem addNodeLink_nodeLinks_eq (w : World B V) (n : Node) (p : Pid) (i : Nat) : (addNodeLink w n p i).nodeLinks = upd w.nodeLinks n (if (p, i) ∈ w.nodeLinks n then w.nodeLinks n else w.nodeLinks n ++ [(p, i)]) := rfl
@[simp, grind =] theorem addNodeLink_pending_eq (w : World B V) (n : Node) (p : Pid) (i : Nat) : (addNodeLink w n p i).pending = w.pending := rfl
@[simp, grind =] theorem addNodeLink_tables_eq (w : World B V) (n : Node) (p : Pid) (i : Nat) : (addNodeLink w n p i).tables = w.tables := rfl
@[simp, grind =] theorem addNodeLink_sent_eq (w : World B V) (n : Node) (p : Pid) (i : Nat) : (addNodeLink w n p i).sent = w.sent := rfl
@[simp, grind =] theorem addNodeLink_asked_eq (w : World B V) (n : Node) (p : Pid) (i : Nat) : (addNodeLink w n p i).asked = w.asked := rfl
@[simp, grind =] theorem addNodeLink_out_eq (w : World B V) (n : Node) (p : Pid) (i : Nat) : (addNodeLink w n p i).out = w.out := rfl

@[simp, grind =] theorem delNodeLink_nextPid_eq (w : World B V) (n : Node) (p : Pid) (i : Nat) : (delNodeLink w n p i).nextPid = w.nextPid := rfl
@[simp, grind =] theorem delNodeLink_nextRef_eq (w : World B V) (n : Node) (p : Pid) (i : Nat) : (delNodeLink w n p i).nextRef = w.nextRef := rfl
@[simp, grind =] theorem delNodeLink_nextNode_eq (w : World B V) (n : Node) (p : Pid) (i : Nat) : (delNodeLink w n p i).nextNode = w.nextNode := rfl
@[simp, grind =] theorem delNodeLink_procs_eq (w : World B V) (n : Node) (p : Pid) (i : Nat) : (delNodeLink w n p i).procs = w.procs := rfl
@[simp, grind =] theorem delNodeLink_names_eq (w : World B V) (n : Node) (p : Pid) (i : Nat) : (delNodeLink w n p i).names = w.names := rfl
@[simp, grind =] theorem delNodeLink_links_eq (w : World B V) (n : Node) (p : Pid) (i : Nat) : (delNodeLink w n p i).links = w.links := rfl
@[simp, grind =] theorem delNodeLink_mons_eq (w : World B V) (n : Node) (p : Pid) (i : Nat) : (delNodeLink w n p i).mons = w.mons := rfl
@[simp, grind =] theorem delNodeLink_aliases_eq (w : World B V) (n : Node) (p : Pid) (i : Nat) : (delNodeLink w n p i).aliases = w.aliases := rfl
@[simp, grind =] theorem delNodeLink_nodeRegs_eq (w : World B V) (n : Node) (p : Pid) (i : Nat) : (delNodeLink w n p i).nodeRegs = w.nodeRegs := rfl
@[simp, grind =] theorem delNodeLink_nodeMap_eq (w : World B V) (n : Node) (p : Pid) (i : Nat) : (delNodeLink w n p i).nodeMap = w.nodeMap := rfl
@[simp, grind =] theorem delNodeLink_nodeMons_eq (w : World B V) (n : Node) (p : Pid) (i : Nat) : (delNodeLink w n p i).nodeMons = w.nodeMons := rfl
@[simp, grind =] theorem delNodeLink_nodeLinks_eq (w : World B V) (n : Node) (p : Pid) (i : Nat) : (delNodeLink w n p i).nodeLinks = upd w.nodeLinks n ((w.nodeLinks n).filter (· ≠ (p, i))) := rfl
@[simp, grind =] theorem delNodeLink_pending_eq (w : World B V) (n : Node) (p : Pid) (i : Nat) : (delNodeLink w n p i).pending = w.pending := rfl
@[simp, grind =] theorem delNodeLink_tables_eq (w : World B V) (n : Node) (p : Pid) (i : Nat) : (delNodeLink w n p i).tables = w.tables := rfl
@[simp, grind =] theorem delNodeLink_sent_eq (w : World B V) (n : Node) (p : Pid) (i : Nat) : (delNodeLink w n p i).sent = w.sent := rfl
@[simp, grind =] theorem delNodeLink_asked_eq (w : World B V) (n : Node) (p : Pid) (i : Nat) : (delNodeLink w n p i).asked = w.asked := rfl
@[simp, grind =] theorem delNodeLink_out_eq (w : World B V) (n : Node) (p : Pid) (i : Nat) : (delNodeLink w n p i).out = w.out := rfl

@[simp, grind =] theorem optAlias_nextPid_eq (w : World B V) (me : Nat) (r : Ref) (al : Option Bool) : (optAlias w me r al).nextPid = w.nextPid := by cases al <;> rfl
@[simp, grind =] theorem optAlias_nextRef_eq (w : World B V) (me : Nat) (r : Ref) (al : Option Bool) : (optAlias w me r al).nextRef = w.nextRef := by cases al <;> rfl
@[simp, grind =] theorem optAlias_nextNode_eq (w : World B V) (me : Nat) (r : Ref) (al : Option Bool) : (optAlias w me r al).nextNode = w.nextNode := by cases al <;> rfl
@[simp, grind =] theorem optAlias_procs_eq (w : World B V) (me : Nat) (r : Ref) (al : Option Bool) : (optAlias w me r al).procs = w.procs := by cases al <;> rfl
@[simp, grind =] theorem optAlias_names_eq (w : World B V) (me : Nat) (r : Ref) (al : Option Bool) : (optAlias w me r al).names = w.names := by cases al <;> rfl
@[simp, grind =] theorem optAlias_links_eq (w : World B V) (me : Nat) (r : Ref) (al : Option Bool) : (optAlias w me r al).links = w.links := by cases al <;> rfl
@[simp, grind =] theorem optAlias_mons_eq (w : World B V) (me : Nat) (r : Ref) (al : Option Bool) : (optAlias w me r al).mons = w.mons := by cases al <;> rfl
@[simp, grind =] theorem optAlias_aliases_eq (w : World B V) (me : Nat) (r : Ref) (al : Option Bool) : (optAlias w me r al).aliases = match al with | none => w.aliases | some b => upd w.aliases r.id (some (me, b)) := by cases al <;> rfl
@[simp, grind =] theorem optAlias_nodeRegs_eq (w : World B V) (me : Nat) (r : Ref) (al : Option Bool) : (optAlias w me r al).nodeRegs = w.nodeRegs := by cases al <;> rfl
@[simp, grind =] theorem optAlias_nodeMap_eq (w : World B V) (me : Nat) (r : Ref) (al : Option Bool) : (optAlias w me r al).nodeMap = w.nodeMap := by cases al <;> rfl
@[simp, grind =] theorem optAlias_nodeMons_eq (w : World B V) (me : Nat) (r : Ref) (al : Option Bool) : (optAlias w me r al).nodeMons = w.nodeMons := by cases al <;> rfl
@[simp, grind =] theorem optAlias_nodeLinks_eq (w : World B V) (me : Nat) (r : Ref) (al : Option Bool) : (optAlias w me r al).nodeLinks = w.nodeLinks := by cases al <;> rfl
@[simp, grind =] theorem optAlias_pending_eq (w : World B V) (me : Nat) (r : Ref) (al : Option Bool) : (optAlias w me r al).pending = w.pending := by cases al <;> rfl
@[simp, grind =] theorem optAlias_tables_eq (w : World B V) (me : Nat) (r : Ref) (al : Option Bool) : (optAlias w me r al).tables = w.tables := by cases al <;> rfl
@[simp, grind =] theorem optAlias_sent_eq (w : World B V) (me : Nat) (r : Ref) (al : Option Bool) : (optAlias w me r al).sent = w.sent := by cases al <;> rfl
@[simp, grind =] theorem optAlias_asked_eq (w : World B V) (me : Nat) (r : Ref) (al : Option Bool) : (optAlias w me r al).asked = w.asked := by cases al <;> rfl
@[simp, grind =] theorem optAlias_out_eq (w : World B V) (me : Nat) (r : Ref) (al : Option Bool) : (optAlias w me r al).out = w.out := by cases al <;> rfl

@[simp, grind =] theorem freshRef_nextPid_eq (w : World B V) (me : Nat) (al : Option Bool) : (freshRef w me al).nextPid = w.nextPid := by cases al <;> rfl
@[simp, grind =] theorem freshRef_nextRef_eq (w : World B V) (me : Nat) (al : Option Bool) : (freshRef w me al).nextRef = w.nextRef + 1 := by cases al <;> rfl
@[simp, grind =] theorem freshRef_nextNode_eq (w : World B V) (me : Nat) (al : Option Bool) : (freshRef w me al).nextNode = w.nextNode := by cases al <;> rfl
@[simp, grind =] theorem freshRef_procs_eq (w : World B V) (me : Nat) (al : Option Bool) : (freshRef w me al).procs = w.procs := by cases al <;> rfl
@[simp, grind =] theorem freshRef_names_eq (w : World B V) (me : Nat) (al : Option Bool) : (freshRef w me al).names = w.names := by cases al <;> rfl
@[simp, grind =] theorem freshRef_links_eq (w : World B V) (me : Nat) (al : Option Bool) : (freshRef w me al).links = w.links := by cases al <;> rfl
@[simp, grind =] theorem freshRef_mons_eq (w : World B V) (me : Nat) (al : Option Bool) : (freshRef w me al).mons = w.mons := by cases al <;> rfl
@[simp, grind =] theorem freshRef_aliases_eq (w : World B V) (me : Nat) (al : Option Bool) : (freshRef w me al).aliases = match al with | none => w.aliases | some b => upd w.aliases w.nextRef (some (me, b)) := by cases al <;> rfl
@[simp, grind =] theorem freshRef_nodeRegs_eq (w : World B V) (me : Nat) (al : Option Bool) : (freshRef w me al).nodeRegs = w.nodeRegs := by cases al <;> rfl
@[simp, grind =] theorem freshRef_nodeMap_eq (w : World B V) (me : Nat) (al : Option Bool) : (freshRef w me al).nodeMap = w.nodeMap := by cases al <;> rfl
@[simp, grind =] theorem freshRef_nodeMons_eq (w : World B V) (me : Nat) (al : Option Bool) : (freshRef w me al).nodeMons = w.nodeMons := by cases al <;> rfl
@[simp, grind =] theorem freshRef_nodeLinks_eq (w : World B V) (me : Nat) (al : Option Bool) : (freshRef w me al).nodeLinks = w.nodeLinks := by cases al <;> rfl
@[simp, grind =] theorem freshRef_pending_eq (w : World B V) (me : Nat) (al : Option Bool) : (freshRef w me al).pending = w.pending := by cases al <;> rfl
@[simp, grind =] theorem freshRef_tables_eq (w : World B V) (me : Nat) (al : Option Bool) : (freshRef w me al).tables = w.tables := by cases al <;> rfl
@[simp, grind =] theorem freshRef_sent_eq (w : World B V) (me : Nat) (al : Option Bool) : (freshRef w me al).sent = w.sent := by cases al <;> rfl
@[simp, grind =] theorem freshRef_asked_eq (w : World B V) (me : Nat) (al : Option Bool) : (freshRef w me al).asked = w.asked := by cases al <;> rfl
@[simp, grind =] theorem freshRef_out_eq (w : World B V) (me : Nat) (al : Option Bool) : (freshRef w me al).out = w.out := by cases al <;> rfl

@[simp, grind =] theorem sendDown_nextPid_eq (w : World B V) (me : Nat) (d : Dest) (r : Ref) (e : ExitReason) : (sendDown w me d r e).nextPid = w.nextPid := by simp [sendDown]
@[simp, grind =] theorem sendDown_nextRef_eq (w : World B V) (me : Nat) (d : Dest) (r : Ref) (e : ExitReason) : (sendDown w me d r e).nextRef = w.nextRef := by simp [sendDown]
@[simp, grind =] theorem sendDown_nextNode_eq (w : World B V) (me : Nat) (d : Dest) (r : Ref) (e : ExitReason) : (sendDown w me d r e).nextNode = w.nextNode := by simp [sendDown]
@[simp, grind =] theorem sendDown_procs_eq (w : World B V) (me : Nat) (d : Dest) (r : Ref) (e : ExitReason) : (sendDown w me d r e).procs = upd w.procs me ((w.procs me).map fun p => { p with box := deliver p.box (.down d r e) }) := by simp [sendDown]
@[simp, grind =] theorem sendDown_names_eq (w : World B V) (me : Nat) (d : Dest) (r : Ref) (e : ExitReason) : (sendDown w me d r e).names = w.names := by simp [sendDown]
@[simp, grind =] theorem sendDown_links_eq (w : World B V) (me : Nat) (d : Dest) (r : Ref) (e : ExitReason) : (sendDown w me d r e).links = w.links := by simp [sendDown]
@[simp, grind =] theorem sendDown_mons_eq (w : World B V) (me : Nat) (d : Dest) (r : Ref) (e : ExitReason) : (sendDown w me d r e).mons = w.mons := by simp [sendDown]
@[simp, grind =] theorem sendDown_aliases_eq (w : World B V) (me : Nat) (d : Dest) (r : Ref) (e : ExitReason) : (sendDown w me d r e).aliases = upd w.aliases r.id none := by simp [sendDown]
@[simp, grind =] theorem sendDown_nodeRegs_eq (w : World B V) (me : Nat) (d : Dest) (r : Ref) (e : ExitReason) : (sendDown w me d r e).nodeRegs = w.nodeRegs := by simp [sendDown]
@[simp, grind =] theorem sendDown_nodeMap_eq (w : World B V) (me : Nat) (d : Dest) (r : Ref) (e : ExitReason) : (sendDown w me d r e).nodeMap = w.nodeMap := by simp [sendDown]
@[simp, grind =] theorem sendDown_nodeMons_eq (w : World B V) (me : Nat) (d : Dest) (r : Ref) (e : ExitReason) : (sendDown w me d r e).nodeMons = w.nodeMons := by simp [sendDown]
@[simp, grind =] theorem sendDown_nodeLinks_eq (w : World B V) (me : Nat) (d : Dest) (r : Ref) (e : ExitReason) : (sendDown w me d r e).nodeLinks = w.nodeLinks := by simp [sendDown]
@[simp, grind =] theorem sendDown_pending_eq (w : World B V) (me : Nat) (d : Dest) (r : Ref) (e : ExitReason) : (sendDown w me d r e).pending = w.pending := by simp [sendDown]
@[simp, grind =] theorem sendDown_tables_eq (w : World B V) (me : Nat) (d : Dest) (r : Ref) (e : ExitReason) : (sendDown w me d r e).tables = w.tables := by simp [sendDown]
@[simp, grind =] theorem sendDown_sent_eq (w : World B V) (me : Nat) (d : Dest) (r : Ref) (e : ExitReason) : (sendDown w me d r e).sent = w.sent ++ (if (w.procs me).isSome then [(me, .down d r e)] else []) := by simp [sendDown]
@[simp, grind =] theorem sendDown_asked_eq (w : World B V) (me : Nat) (d : Dest) (r : Ref) (e : ExitReason) : (sendDown w me d r e).asked = w.asked := by simp [sendDown]
@[simp, grind =] theorem sendDown_out_eq (w : World B V) (me : Nat) (d : Dest) (r : Ref) (e : ExitReason) : (sendDown w me d r e).out = w.out := by simp [sendDown]

@[simp, grind =] theorem removeProc_nextPid_eq (w : World B V) (i : Nat) : (removeProc w i).nextPid = w.nextPid := by
  unfold removeProc; split
  · first | rfl | exact (upd_eq_self _ _ _ ‹_›).symm | simp_all
  · dsimp only; split <;> simp_all
@[simp, grind =] theorem removeProc_nextRef_eq (w : World B V) (i : Nat) : (removeProc w i).nextRef = w.nextRef := by
  unfold removeProc; split
  · first | rfl | exact (upd_eq_self _ _ _ ‹_›).symm | simp_all
  · dsimp only; split <;> simp_all
@[simp, grind =] theorem removeProc_nextNode_eq (w : World B V) (i : Nat) : (removeProc w i).nextNode = w.nextNode := by
  unfold removeProc; split
  · first | rfl | exact (upd_eq_self _ _ _ ‹_›).symm | simp_all
  · dsimp only; split <;> simp_all
@[simp, grind =] theorem removeProc_procs_eq (w : World B V) (i : Nat) : (removeProc w i).procs = upd w.procs i none := by
  unfold removeProc; split
  · first | rfl | exact (upd_eq_self _ _ _ ‹_›).symm | simp_all
  · dsimp only; split <;> simp_all
@[simp, grind =] theorem removeProc_names_eq (w : World B V) (i : Nat) : (removeProc w i).names = match w.procs i with | none => w.names | some p => (match p.name with | none => w.names | some n => upd w.names n none) := by
  unfold removeProc; split
  · first | rfl | exact (upd_eq_self _ _ _ ‹_›).symm | simp_all
  · dsimp only; split <;> simp_all
@[simp, grind =] theorem removeProc_links_eq (w : World B V) (i : Nat) : (removeProc w i).links = w.links := by
  unfold removeProc; split
  · first | rfl | exact (upd_eq_self _ _ _ ‹_›).symm | simp_all
  · dsimp only; split <;> simp_all
@[simp, grind =] theorem removeProc_mons_eq (w : World B V) (i : Nat) : (removeProc w i).mons = w.mons := by
  unfold removeProc; split
  · first | rfl | exact (upd_eq_self _ _ _ ‹_›).symm | simp_all
  · dsimp only; split <;> simp_all
@[simp, grind =] theorem removeProc_aliases_eq (w : World B V) (i : Nat) : (removeProc w i).aliases = w.aliases := by
  unfold removeProc; split
  · first | rfl | exact (upd_eq_self _ _ _ ‹_›).symm | simp_all
  · dsimp only; split <;> simp_all
@[simp, grind =] theorem removeProc_nodeRegs_eq (w : World B V) (i : Nat) : (removeProc w i).nodeRegs = w.nodeRegs := by
  unfold removeProc; split
  · first | rfl | exact (upd_eq_self _ _ _ ‹_›).symm | simp_all
  · dsimp only; split <;> simp_all
@[simp, grind =] theorem removeProc_nodeMap_eq (w : World B V) (i : Nat) : (removeProc w i).nodeMap = w.nodeMap := by
  unfold removeProc; split
  · first | rfl | exact (upd_eq_self _ _ _ ‹_›).symm | simp_all
  · dsimp only; split <;> simp_all
@[simp, grind =] theorem removeProc_nodeMons_eq (w : World B V) (i : Nat) : (removeProc w i).nodeMons = w.nodeMons := by
  unfold removeProc; split
  · first | rfl | exact (upd_eq_self _ _ _ ‹_›).symm | simp_all
  · dsimp only; split <;> simp_all
@[simp, grind =] theorem removeProc_nodeLinks_eq (w : World B V) (i : Nat) : (removeProc w i).nodeLinks = w.nodeLinks := by
  unfold removeProc; split
  · first | rfl | exact (upd_eq_self _ _ _ ‹_›).symm | simp_all
  · dsimp only; split <;> simp_all
@[simp, grind =] theorem removeProc_pending_eq (w : World B V) (i : Nat) : (removeProc w i).pending = w.pending := by
  unfold removeProc; split
  · first | rfl | exact (upd_eq_self _ _ _ ‹_›).symm | simp_all
  · dsimp only; split <;> simp_all
@[simp, grind =] theorem removeProc_tables_eq (w : World B V) (i : Nat) : (removeProc w i).tables = w.tables := by
  unfold removeProc; split
  · first | rfl | exact (upd_eq_self _ _ _ ‹_›).symm | simp_all
  · dsimp only; split <;> simp_all
@[simp, grind =] theorem removeProc_sent_eq (w : World B V) (i : Nat) : (removeProc w i).sent = w.sent := by
  unfold removeProc; split
  · first | rfl | exact (upd_eq_self _ _ _ ‹_›).symm | simp_all
  · dsimp only; split <;> simp_all
@[simp, grind =] theorem removeProc_asked_eq (w : World B V) (i : Nat) : (removeProc w i).asked = w.asked := by
  unfold removeProc; split
  · first | rfl | exact (upd_eq_self _ _ _ ‹_›).symm | simp_all
  · dsimp only; split <;> simp_all
@[simp, grind =] theorem removeProc_out_eq (w : World B V) (i : Nat) : (removeProc w i).out = w.out := by
  unfold removeProc; split
  · first | rfl | exact (upd_eq_self _ _ _ ‹_›).symm | simp_all
  · dsimp only; split <;> simp_all

@[simp, grind =] theorem unname_nextPid_eq (w : World B V) (n : String) : (unname w n).nextPid = w.nextPid := by
  unfold unname; split
  · first | rfl | exact (upd_eq_self _ _ _ ‹_›).symm | simp_all
  · simp_all
@[simp, grind =] theorem unname_nextRef_eq (w : World B V) (n : String) : (unname w n).nextRef = w.nextRef := by
  unfold unname; split
  · first | rfl | exact (upd_eq_self _ _ _ ‹_›).symm | simp_all
  · simp_all
@[simp, grind =] theorem unname_nextNode_eq (w : World B V) (n : String) : (unname w n).nextNode = w.nextNode := by
  unfold unname; split
  · first | rfl | exact (upd_eq_self _ _ _ ‹_›).symm | simp_all
  · simp_all
@[simp, grind =] theorem unname_procs_eq (w : World B V) (n : String) : (unname w n).procs = match w.names n with | none => w.procs | some i => upd w.procs i ((w.procs i).map fun p => { p with name := none }) := by
  unfold unname; split
  · first | rfl | exact (upd_eq_self _ _ _ ‹_›).symm | simp_all
  · simp_all
@[simp, grind =] theorem unname_names_eq (w : World B V) (n : String) : (unname w n).names = upd w.names n none := by
  unfold unname; split
  · first | rfl | exact (upd_eq_self _ _ _ ‹_›).symm | simp_all
  · simp_all
@[simp, grind =] theorem unname_links_eq (w : World B V) (n : String) : (unname w n).links = w.links := by
  unfold unname; split
  · first | rfl | exact (upd_eq_self _ _ _ ‹_›).symm | simp_all
  · simp_all
@[simp, grind =] theorem unname_mons_eq (w : World B V) (n : String) : (unname w n).mons = w.mons := by
  unfold unname; split
  · first | rfl | exact (upd_eq_self _ _ _ ‹_›).symm | simp_all
  · simp_all
@[simp, grind =] theorem unname_aliases_eq (w : World B V) (n : String) : (unname w n).aliases = w.aliases := by
  unfold unname; split
  · first | rfl | exact (upd_eq_self _ _ _ ‹_›).symm | simp_all
  · simp_all
@[simp, grind =] theorem unname_nodeRegs_eq (w : World B V) (n : String) : (unname w n).nodeRegs = w.nodeRegs := by
  unfold unname; split
  · first | rfl | exact (upd_eq_self _ _ _ ‹_›).symm | simp_all
  · simp_all
@[simp, grind =] theorem unname_nodeMap_eq (w : World B V) (n : String) : (unname w n).nodeMap = w.nodeMap := by
  unfold unname; split
  · first | rfl | exact (upd_eq_self _ _ _ ‹_›).symm | simp_all
  · simp_all
@[simp, grind =] theorem unname_nodeMons_eq (w : World B V) (n : String) : (unname w n).nodeMons = w.nodeMons := by
  unfold unname; split
  · first | rfl | exact (upd_eq_self _ _ _ ‹_›).symm | simp_all
  · simp_all
@[simp, grind =] theorem unname_nodeLinks_eq (w : World B V) (n : String) : (unname w n).nodeLinks = w.nodeLinks := by
  unfold unname; split
  · first | rfl | exact (upd_eq_self _ _ _ ‹_›).symm | simp_all
  · simp_all
@[simp, grind =] theorem unname_pending_eq (w : World B V) (n : String) : (unname w n).pending = w.pending := by
  unfold unname; split
  · first | rfl | exact (upd_eq_self _ _ _ ‹_›).symm | simp_all
  · simp_all
@[simp, grind =] theorem unname_tables_eq (w : World B V) (n : String) : (unname w n).tables = w.tables := by
  unfold unname; split
  · first | rfl | exact (upd_eq_self _ _ _ ‹_›).symm | simp_all
  · simp_all
@[simp, grind =] theorem unname_sent_eq (w : World B V) (n : String) : (unname w n).sent = w.sent := by
  unfold unname; split
  · first | rfl | exact (upd_eq_self _ _ _ ‹_›).symm | simp_all
  · simp_all
@[simp, grind =] theorem unname_asked_eq (w : World B V) (n : String) : (unname w n).asked = w.asked := by
  unfold unname; split
  · first | rfl | exact (upd_eq_self _ _ _ ‹_›).symm | simp_all
  · simp_all
@[simp, grind =] theorem unname_out_eq (w : World B V) (n : String) : (unname w n).out = w.out := by
  unfold unname; split
  · first | rfl | exact (upd_eq_self _ _ _ ‹_›).symm | simp_all
  · simp_all

@[simp, grind =] theorem sendFrame_nextPid_eq (w : World B V) (f : NFrame B) (id : Nat) : (sendFrame w f id).nextPid = w.nextPid := by
  unfold sendFrame; dsimp only; split
  · rfl
  · split
    · rfl
    · split <;> rfl
@[simp, grind =] theorem sendFrame_nextRef_eq (w : World B V) (f : NFrame B) (id : Nat) : (sendFrame w f id).nextRef = w.nextRef := by
  unfold sendFrame; dsimp only; split
  · rfl
  · split
    · rfl
    · split <;> rfl
@[simp, grind =] theorem sendFrame_nextNode_eq (w : World B V) (f : NFrame B) (id : Nat) : (sendFrame w f id).nextNode = w.nextNode := by
  unfold sendFrame; dsimp only; split
  · rfl
  · split
    · rfl
    · split <;> rfl
@[simp, grind =] theorem sendFrame_procs_eq (w : World B V) (f : NFrame B) (id : Nat) : (sendFrame w f id).procs = w.procs := by
  unfold sendFrame; dsimp only; split
  · rfl
  · split
    · rfl
    · split <;> rfl
@[simp, grind =] theorem sendFrame_names_eq (w : World B V) (f : NFrame B) (id : Nat) : (sendFrame w f id).names = w.names := by
  unfold sendFrame; dsimp only; split
  · rfl
  · split
    · rfl
    · split <;> rfl
@[simp, grind =] theorem sendFrame_links_eq (w : World B V) (f : NFrame B) (id : Nat) : (sendFrame w f id).links = w.links := by
  unfold sendFrame; dsimp only; split
  · rfl
  · split
    · rfl
    · split <;> rfl
@[simp, grind =] theorem sendFrame_mons_eq (w : World B V) (f : NFrame B) (id : Nat) : (sendFrame w f id).mons = w.mons := by
  unfold sendFrame; dsimp only; split
  · rfl
  · split
    · rfl
    · split <;> rfl
@[simp, grind =] theorem sendFrame_aliases_eq (w : World B V) (f : NFrame B) (id : Nat) : (sendFrame w f id).aliases = w.aliases := by
  unfold sendFrame; dsimp only; split
  · rfl
  · split
    · rfl
    · split <;> rfl
@[simp, grind =] theorem sendFrame_nodeRegs_eq (w : World B V) (f : NFrame B) (id : Nat) : (sendFrame w f id).nodeRegs = w.nodeRegs := by
  unfold sendFrame; dsimp only; split
  · rfl
  · split
    · rfl
    · split <;> rfl
@[simp, grind =] theorem sendFrame_nodeMap_eq (w : World B V) (f : NFrame B) (id : Nat) : (sendFrame w f id).nodeMap = w.nodeMap := by
  unfold sendFrame; dsimp only; split
  · rfl
  · split
    · rfl
    · split <;> rfl
@[simp, grind =] theorem sendFrame_nodeMons_eq (w : World B V) (f : NFrame B) (id : Nat) : (sendFrame w f id).nodeMons = w.nodeMons := by
  unfold sendFrame; dsimp only; split
  · rfl
  · split
    · rfl
    · split <;> rfl
@[simp, grind =] theorem sendFrame_nodeLinks_eq (w : World B V) (f : NFrame B) (id : Nat) : (sendFrame w f id).nodeLinks = w.nodeLinks := by
  unfold sendFrame; dsimp only; split
  · rfl
  · split
    · rfl
    · split <;> rfl
@[simp, grind =] theorem sendFrame_tables_eq (w : World B V) (f : NFrame B) (id : Nat) : (sendFrame w f id).tables = w.tables := by
  unfold sendFrame; dsimp only; split
  · rfl
  · split
    · rfl
    · split <;> rfl
@[simp, grind =] theorem sendFrame_sent_eq (w : World B V) (f : NFrame B) (id : Nat) : (sendFrame w f id).sent = w.sent := by
  unfold sendFrame; dsimp only; split
  · rfl
  · split
    · rfl
    · split <;> rfl
@[simp, grind =] theorem sendFrame_asked_eq (w : World B V) (f : NFrame B) (id : Nat) : (sendFrame w f id).asked = w.asked ++ [(id, f)] := by
  unfold sendFrame; dsimp only; split
  · rfl
  · split
    · rfl
    · split <;> rfl

@[simp, grind =] theorem exitLinked_nextPid_eq (w : World B V) (i : Nat) (p : Pid) (r : ExitReason) : (exitLinked w i p r).nextPid = w.nextPid := by
  unfold exitLinked; split
  · rfl
  · split
    · simp
    · split <;> rfl
@[simp, grind =] theorem exitLinked_nextRef_eq (w : World B V) (i : Nat) (p : Pid) (r : ExitReason) : (exitLinked w i p r).nextRef = w.nextRef := by
  unfold exitLinked; split
  · rfl
  · split
    · simp
    · split <;> rfl
@[simp, grind =] theorem exitLinked_nextNode_eq (w : World B V) (i : Nat) (p : Pid) (r : ExitReason) : (exitLinked w i p r).nextNode = w.nextNode := by
  unfold exitLinked; split
  · rfl
  · split
    · simp
    · split <;> rfl
@[simp, grind =] theorem exitLinked_names_eq (w : World B V) (i : Nat) (p : Pid) (r : ExitReason) : (exitLinked w i p r).names = w.names := by
  unfold exitLinked; split
  · rfl
  · split
    · simp
    · split <;> rfl
@[simp, grind =] theorem exitLinked_links_eq (w : World B V) (i : Nat) (p : Pid) (r : ExitReason) : (exitLinked w i p r).links = w.links := by
  unfold exitLinked; split
  · rfl
  · split
    · simp
    · split <;> rfl
@[simp, grind =] theorem exitLinked_mons_eq (w : World B V) (i : Nat) (p : Pid) (r : ExitReason) : (exitLinked w i p r).mons = w.mons := by
  unfold exitLinked; split
  · rfl
  · split
    · simp
    · split <;> rfl
@[simp, grind =] theorem exitLinked_aliases_eq (w : World B V) (i : Nat) (p : Pid) (r : ExitReason) : (exitLinked w i p r).aliases = w.aliases := by
  unfold exitLinked; split
  · rfl
  · split
    · simp
    · split <;> rfl
@[simp, grind =] theorem exitLinked_nodeRegs_eq (w : World B V) (i : Nat) (p : Pid) (r : ExitReason) : (exitLinked w i p r).nodeRegs = w.nodeRegs := by
  unfold exitLinked; split
  · rfl
  · split
    · simp
    · split <;> rfl
@[simp, grind =] theorem exitLinked_nodeMap_eq (w : World B V) (i : Nat) (p : Pid) (r : ExitReason) : (exitLinked w i p r).nodeMap = w.nodeMap := by
  unfold exitLinked; split
  · rfl
  · split
    · simp
    · split <;> rfl
@[simp, grind =] theorem exitLinked_nodeMons_eq (w : World B V) (i : Nat) (p : Pid) (r : ExitReason) : (exitLinked w i p r).nodeMons = w.nodeMons := by
  unfold exitLinked; split
  · rfl
  · split
    · simp
    · split <;> rfl
@[simp, grind =] theorem exitLinked_nodeLinks_eq (w : World B V) (i : Nat) (p : Pid) (r : ExitReason) : (exitLinked w i p r).nodeLinks = w.nodeLinks := by
  unfold exitLinked; split
  · rfl
  · split
    · simp
    · split <;> rfl
@[simp, grind =] theorem exitLinked_pending_eq (w : World B V) (i : Nat) (p : Pid) (r : ExitReason) : (exitLinked w i p r).pending = w.pending := by
  unfold exitLinked; split
  · rfl
  · split
    · simp
    · split <;> rfl
@[simp, grind =] theorem exitLinked_tables_eq (w : World B V) (i : Nat) (p : Pid) (r : ExitReason) : (exitLinked w i p r).tables = w.tables := by
  unfold exitLinked; split
  · rfl
  · split
    · simp
    · split <;> rfl
@[simp, grind =] theorem exitLinked_asked_eq (w : World B V) (i : Nat) (p : Pid) (r : ExitReason) : (exitLinked w i p r).asked = w.asked := by
  unfold exitLinked; split
  · rfl
  · split
    · simp
    · split <;> rfl
@[simp, grind =] theorem exitLinked_out_eq (w : World B V) (i : Nat) (p : Pid) (r : ExitReason) : (exitLinked w i p r).out = w.out := by
  unfold exitLinked; split
  · rfl
  · split
    · simp
    · split <;> rfl

@[simp, grind =] theorem processExit_nextPid_eq (w : World B V) (i : Nat) (p : Pid) (r : ExitReason) : (processExit w i p r).nextPid = w.nextPid := by
  unfold processExit; split
  · rfl
  · split <;> (try split) <;> (try split) <;> simp
@[simp, grind =] theorem processExit_nextRef_eq (w : World B V) (i : Nat) (p : Pid) (r : ExitReason) : (processExit w i p r).nextRef = w.nextRef := by
  unfold processExit; split
  · rfl
  · split <;> (try split) <;> (try split) <;> simp
@[simp, grind =] theorem processExit_nextNode_eq (w : World B V) (i : Nat) (p : Pid) (r : ExitReason) : (processExit w i p r).nextNode = w.nextNode := by
  unfold processExit; split
  · rfl
  · split <;> (try split) <;> (try split) <;> simp
@[simp, grind =] theorem processExit_names_eq (w : World B V) (i : Nat) (p : Pid) (r : ExitReason) : (processExit w i p r).names = w.names := by
  unfold processExit; split
  · rfl
  · split <;> (try split) <;> (try split) <;> simp
@[simp, grind =] theorem processExit_links_eq (w : World B V) (i : Nat) (p : Pid) (r : ExitReason) : (processExit w i p r).links = w.links := by
  unfold processExit; split
  · rfl
  · split <;> (try split) <;> (try split) <;> simp
@[simp, grind =] theorem processExit_mons_eq (w : World B V) (i : Nat) (p : Pid) (r : ExitReason) : (processExit w i p r).mons = w.mons := by
  unfold processExit; split
  · rfl
  · split <;> (try split) <;> (try split) <;> simp
@[simp, grind =] theorem processExit_aliases_eq (w : World B V) (i : Nat) (p : Pid) (r : ExitReason) : (processExit w i p r).aliases = w.aliases := by
  unfold processExit; split
  · rfl
  · split <;> (try split) <;> (try split) <;> simp
@[simp, grind =] theorem processExit_nodeRegs_eq (w : World B V) (i : Nat) (p : Pid) (r : ExitReason) : (processExit w i p r).nodeRegs = w.nodeRegs := by
  unfold processExit; split
  · rfl
  · split <;> (try split) <;> (try split) <;> simp
@[simp, grind =] theorem processExit_nodeMap_eq (w : World B V) (i : Nat) (p : Pid) (r : ExitReason) : (processExit w i p r).nodeMap = w.nodeMap := by
  unfold processExit; split
  · rfl
  · split <;> (try split) <;> (try split) <;> simp
@[simp, grind =] theorem processExit_nodeMons_eq (w : World B V) (i : Nat) (p : Pid) (r : ExitReason) : (processExit w i p r).nodeMons = w.nodeMons := by
  unfold processExit; split
  · rfl
  · split <;> (try split) <;> (try split) <;> simp
@[simp, grind =] theorem processExit_nodeLinks_eq (w : World B V) (i : Nat) (p : Pid) (r : ExitReason) : (processExit w i p r).nodeLinks = w.nodeLinks := by
  unfold processExit; split
  · rfl
  · split <;> (try split) <;> (try split) <;> simp
@[simp, grind =] theorem processExit_pending_eq (w : World B V) (i : Nat) (p : Pid) (r : ExitReason) : (processExit w i p r).pending = w.pending := by
  unfold processExit; split
  · rfl
  · split <;> (try split) <;> (try split) <;> simp
@[simp, grind =] theorem processExit_tables_eq (w : World B V) (i : Nat) (p : Pid) (r : ExitReason) : (processExit w i p r).tables = w.tables := by
  unfold processExit; split
  · rfl
  · split <;> (try split) <;> (try split) <;> simp
@[simp, grind =] theorem processExit_asked_eq (w : World B V) (i : Nat) (p : Pid) (r : ExitReason) : (processExit w i p r).asked = w.asked := by
  unfold processExit; split
  · rfl
  · split <;> (try split) <;> (try split) <;> simp
@[simp, grind =] theorem processExit_out_eq (w : World B V) (i : Nat) (p : Pid) (r : ExitReason) : (processExit w i p r).out = w.out := by
  unfold processExit; split
  · rfl
  · split <;> (try split) <;> (try split) <;> simp

@[simp, grind =] theorem nodeRegister_nextRef_eq (w : World B V) (n : Node) (c : Bool) : (nodeRegister w n c).1.nextRef = w.nextRef := by
  unfold nodeRegister; split
  · rfl
  · split
    · split
      · split
        · rfl
        · split <;> rfl
      · rfl
    · dsimp only; split <;> rfl
@[simp, grind =] theorem nodeRegister_names_eq (w : World B V) (n : Node) (c : Bool) : (nodeRegister w n c).1.names = w.names := by
  unfold nodeRegister; split
  · rfl
  · split
    · split
      · split
        · rfl
        · split <;> rfl
      · rfl
    · dsimp only; split <;> rfl
@[simp, grind =] theorem nodeRegister_links_eq (w : World B V) (n : Node) (c : Bool) : (nodeRegister w n c).1.links = w.links := by
  unfold nodeRegister; split
  · rfl
  · split
    · split
      · split
        · rfl
        · split <;> rfl
      · rfl
    · dsimp only; split <;> rfl
@[simp, grind =] theorem nodeRegister_mons_eq (w : World B V) (n : Node) (c : Bool) : (nodeRegister w n c).1.mons = w.mons := by
  unfold nodeRegister; split
  · rfl
  · split
    · split
      · split
        · rfl
        · split <;> rfl
      · rfl
    · dsimp only; split <;> rfl
@[simp, grind =] theorem nodeRegister_aliases_eq (w : World B V) (n : Node) (c : Bool) : (nodeRegister w n c).1.aliases = w.aliases := by
  unfold nodeRegister; split
  · rfl
  · split
    · split
      · split
        · rfl
        · split <;> rfl
      · rfl
    · dsimp only; split <;> rfl
@[simp, grind =] theorem nodeRegister_nodeMons_eq (w : World B V) (n : Node) (c : Bool) : (nodeRegister w n c).1.nodeMons = w.nodeMons := by
  unfold nodeRegister; split
  · rfl
  · split
    · split
      · split
        · rfl
        · split <;> rfl
      · rfl
    · dsimp only; split <;> rfl
@[simp, grind =] theorem nodeRegister_nodeLinks_eq (w : World B V) (n : Node) (c : Bool) : (nodeRegister w n c).1.nodeLinks = w.nodeLinks := by
  unfold nodeRegister; split
  · rfl
  · split
    · split
      · split
        · rfl
        · split <;> rfl
      · rfl
    · dsimp only; split <;> rfl
@[simp, grind =] theorem nodeRegister_pending_eq (w : World B V) (n : Node) (c : Bool) : (nodeRegister w n c).1.pending = w.pending := by
  unfold nodeRegister; split
  · rfl
  · split
    · split
      · split
        · rfl
        · split <;> rfl
      · rfl
    · dsimp only; split <;> rfl
@[simp, grind =] theorem nodeRegister_tables_eq (w : World B V) (n : Node) (c : Bool) : (nodeRegister w n c).1.tables = w.tables := by
  unfold nodeRegister; split
  · rfl
  · split
    · split
      · split
        · rfl
        · split <;> rfl
      · rfl
    · dsimp only; split <;> rfl
@[simp, grind =] theorem nodeRegister_sent_eq (w : World B V) (n : Node) (c : Bool) : (nodeRegister w n c).1.sent = w.sent := by
  unfold nodeRegister; split
  · rfl
  · split
    · split
      · split
        · rfl
        · split <;> rfl
      · rfl
    · dsimp only; split <;> rfl
@[simp, grind =] theorem nodeRegister_asked_eq (w : World B V) (n : Node) (c : Bool) : (nodeRegister w n c).1.asked = w.asked := by
  unfold nodeRegister; split
  · rfl
  · split
    · split
      · split
        · rfl
        · split <;> rfl
      · rfl
    · dsimp only; split <;> rfl
@[simp, grind =] theorem nodeRegister_out_eq (w : World B V) (n : Node) (c : Bool) : (nodeRegister w n c).1.out = w.out := by
  unfold nodeRegister; split
  · rfl
  · split
    · split
      · split
        · rfl
        · split <;> rfl
      · rfl
    · dsimp only; split <;> rfl

end Verif.World
