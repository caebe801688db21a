#!/usr/bin/env python3
"""Generates lean/Verif/WorldFields.lean: which field of the world each elementary function changes, and how."""
F = ['nextPid','nextRef','nextNode','procs','names','links','mons','aliases','nodeRegs','nodeMap','nodeMons','nodeLinks','pending','tables','sent','asked','out']
# name: (binders, args, {field: value}, proof)
P = {
 'modProc': ('(i : Nat) (f : Proc B V → Proc B V)', 'i f', {'procs': 'upd w.procs i ((w.procs i).map f)'}, 'rfl'),
 'modBox': ('(i : Nat) (f : Box B V → Box B V)', 'i f', {'procs': 'upd w.procs i ((w.procs i).map fun p => { p with box := f p.box })'}, 'rfl'),
 'terminate': ('(i : Nat) (r : ExitReason)', 'i r', {'procs': 'upd w.procs i ((w.procs i).map fun p => { p with reason := some r, aborted := true })'}, 'rfl'),
 'crash': ('(i : Nat) (m : String)', 'i m', {'procs': 'upd w.procs i ((w.procs i).map fun p => { p with reason := some (.custom m), ended := true })'}, 'rfl'),
 'put': ('(i : Nat) (it : Item B V)', 'i it', {'procs': 'upd w.procs i ((w.procs i).map fun p => { p with box := deliver p.box it })', 'sent': 'w.sent ++ (if (w.procs i).isSome then [(i, it)] else [])'}, 'by\n  unfold put; split\n  · first | rfl | (simp_all; try exact (upd_eq_self _ _ _ ‹_›).symm)\n  · simp_all'),
 'addLink': ('(i : Nat) (p : Pid)', 'i p', {'links': 'upd w.links i (if p ∈ w.links i then w.links i else w.links i ++ [p])'}, 'rfl'),
 'delLink': ('(i : Nat) (p : Pid)', 'i p', {'links': 'upd w.links i ((w.links i).filter (· ≠ p))'}, 'rfl'),
 'addMon': ('(i : Nat) (r : Ref) (frm : Pid) (d : Option Dest)', 'i r frm d', {'mons': 'upd w.mons i ((w.mons i).filter (fun x => x.1 ≠ r) ++ [(r, frm, d)])'}, 'rfl'),
 'delMon': ('(i : Nat) (r : Ref)', 'i r', {'mons': 'upd w.mons i ((w.mons i).filter (fun x => x.1 ≠ r))'}, 'rfl'),
 'addAlias': ('(i : Nat) (r : Ref) (b : Bool)', 'i r b', {'aliases': 'upd w.aliases r.id (some (i, b))'}, 'rfl'),
 'delAlias': ('(r : Ref)', 'r', {'aliases': 'upd w.aliases r.id none'}, 'rfl'),
 'addNodeMon': ('(n : Node) (r : Ref) (m : NMon)', 'n r m', {'nodeMons': 'upd w.nodeMons n ((w.nodeMons n).filter (fun x => x.1 ≠ r) ++ [(r, m)])'}, 'rfl'),
 'delNodeMon': ('(n : Node) (r : Ref)', 'n r', {'nodeMons': 'upd w.nodeMons n ((w.nodeMons n).filter (fun x => x.1 ≠ r))'}, 'rfl'),
 'addNodeLink': ('(n : Node) (p : Pid) (i : Nat)', 'n p i', {'nodeLinks': 'upd w.nodeLinks n (if (p, i) ∈ w.nodeLinks n then w.nodeLinks n else w.nodeLinks n ++ [(p, i)])'}, 'rfl'),
 'delNodeLink': ('(n : Node) (p : Pid) (i : Nat)', 'n p i', {'nodeLinks': 'upd w.nodeLinks n ((w.nodeLinks n).filter (· ≠ (p, i)))'}, 'rfl'),
 'optAlias': ('(me : Nat) (r : Ref) (al : Option Bool)', 'me r al', {'aliases': 'match al with | none => w.aliases | some b => upd w.aliases r.id (some (me, b))'}, 'by cases al <;> rfl'),
 'freshRef': ('(me : Nat) (al : Option Bool)', 'me al', {'nextRef': 'w.nextRef + 1', 'aliases': 'match al with | none => w.aliases | some b => upd w.aliases w.nextRef (some (me, b))'}, 'by cases al <;> rfl'),
 'sendDown': ('(me : Nat) (d : Dest) (r : Ref) (e : ExitReason)', 'me d r e', {'procs': 'upd w.procs me ((w.procs me).map fun p => { p with box := deliver p.box (.down d r e) })', 'sent': 'w.sent ++ (if (w.procs me).isSome then [(me, .down d r e)] else [])', 'aliases':'upd w.aliases r.id none'}, 'by simp [sendDown]'),
 'removeProc': ('(i : Nat)', 'i', {'procs': 'upd w.procs i none', 'names': 'match w.procs i with | none => w.names | some p => (match p.name with | none => w.names | some n => upd w.names n none)'}, 'by\n  unfold removeProc; split\n  · first | rfl | exact (upd_eq_self _ _ _ ‹_›).symm | simp_all\n  · dsimp only; split <;> simp_all'),
 'unname': ('(n : String)', 'n', {'procs': 'match w.names n with | none => w.procs | some i => upd w.procs i ((w.procs i).map fun p => { p with name := none })', 'names': 'upd w.names n none'}, 'by\n  unfold unname; split\n  · first | rfl | exact (upd_eq_self _ _ _ ‹_›).symm | simp_all\n  · simp_all'),
 'sendFrame': ('(f : NFrame B) (id : Nat)', 'f id', {'pending': None, 'out': None, 'asked': 'w.asked ++ [(id, f)]'}, 'by\n  unfold sendFrame; dsimp only; split\n  · rfl\n  · split\n    · rfl\n    · split <;> rfl'),
 'exitLinked': ('(i : Nat) (p : Pid) (r : ExitReason)', 'i p r', {'procs': None, 'sent': None}, 'by\n  unfold exitLinked; split\n  · rfl\n  · split\n    · simp\n    · split <;> rfl'),
 'processExit': ('(i : Nat) (p : Pid) (r : ExitReason)', 'i p r', {'procs': None, 'sent': None}, 'by\n  unfold processExit; split\n  · rfl\n  · split <;> (try split) <;> (try split) <;> simp'),
 'nodeRegister': ('(n : Node) (c : Bool)', 'n c', {x: None for x in ['nextPid','procs','nextNode','nodeRegs','nodeMap']}, 'by\n  unfold nodeRegister; split\n  · rfl\n  · split\n    · split\n      · split\n        · rfl\n        · split <;> rfl\n      · rfl\n    · dsimp only; split <;> rfl'),
}
out = ['import Verif.WorldAtoms', '/-! Generated by tools/gen_fields.py: effect of the elementary functions on each field of the world. -/',
 'namespace Verif.World', 'open Verif.Mailbox', 'variable {B V : Type}', '',
 'theorem upd_self {K A : Type} [DecidableEq K] (f : K → A) (k : K) : upd f k (f k) = f := by',
 '  funext j; unfold upd; split <;> simp_all', '',
 'theorem upd_eq_self {K A : Type} [DecidableEq K] (f : K → A) (k : K) (v : A) (h : f k = v) : upd f k v = f := by',
 '  subst h; exact upd_self f k', '',
 'theorem upd_at {K A : Type} [DecidableEq K] (f : K → A) (k : K) (v : A) (j : K) : upd f k v j = if j = k then v else f j := rfl', '']
for name, (bnd, args, ch, pf) in P.items():
    for f in F:
        if f in ch and ch[f] is None: continue
        proj = '.1' if name == 'nodeRegister' else ''
        rhs = ch.get(f, 'w.' + f)
        out.append(f'@[simp, grind =] theorem {name}_{f}_eq (w : World B V) {bnd} : ({name} w {args}){proj}.{f} = {rhs} := {pf}')
    out.append('')
out.append('end Verif.World')
import os
open(os.path.join(os.path.dirname(os.path.abspath(__file__)), '../lean/Verif/WorldFields.lean'), 'w').write('\n'.join(out) + '\n')
