import Verif.WorldFields
/-! # Effect of the elementary changes, projection by projection -/
namespace Verif.World
open Verif.Mailbox
variable {B V : Type}

attribute [grind =] upd_at

@[simp, grind =] theorem register_loc_names (w : World B V) (i : Nat) (n : String) :
   (register w (.loc i) n).1.names = if w.names n = none ∧ (∃ p, w.procs i = some p ∧ p.name = none) then upd w.names n (some i) else w.names := by
  unfold register; dsimp only; split <;> (try split) <;> (try split) <;> simp_all
@[simp, grind =] theorem register_loc_procs (w : World B V) (i : Nat) (n : String) :
   (register w (.loc i) n).1.procs = if w.names n = none ∧ (∃ p, w.procs i = some p ∧ p.name = none) then upd w.procs i ((w.procs i).map fun p => {p with name := some n}) else w.procs := by
  unfold register; dsimp only; split <;> (try split) <;> (try split) <;> simp_all
theorem register_eq (w : World B V) (i : Pid) (n : String) :
   (register w i n).1 = { w with procs := (register w i n).1.procs, names := (register w i n).1.names } := by
  unfold register; cases i <;> dsimp only <;> (try split) <;> (try split) <;> (try split) <;> rfl

@[simp, grind =] theorem register_nextPid (w : World B V) (i : Pid) (n : String) : (register w i n).1.nextPid = w.nextPid := by rw [register_eq]
@[simp, grind =] theorem register_nextRef (w : World B V) (i : Pid) (n : String) : (register w i n).1.nextRef = w.nextRef := by rw [register_eq]
@[simp, grind =] theorem register_nextNode (w : World B V) (i : Pid) (n : String) : (register w i n).1.nextNode = w.nextNode := by rw [register_eq]
@[simp, grind =] theorem register_links (w : World B V) (i : Pid) (n : String) : (register w i n).1.links = w.links := by rw [register_eq]
@[simp, grind =] theorem register_mons (w : World B V) (i : Pid) (n : String) : (register w i n).1.mons = w.mons := by rw [register_eq]
@[simp, grind =] theorem register_aliases (w : World B V) (i : Pid) (n : String) : (register w i n).1.aliases = w.aliases := by rw [register_eq]
@[simp, grind =] theorem register_nodeRegs (w : World B V) (i : Pid) (n : String) : (register w i n).1.nodeRegs = w.nodeRegs := by rw [register_eq]
@[simp, grind =] theorem register_nodeMap (w : World B V) (i : Pid) (n : String) : (register w i n).1.nodeMap = w.nodeMap := by rw [register_eq]
@[simp, grind =] theorem register_nodeMons (w : World B V) (i : Pid) (n : String) : (register w i n).1.nodeMons = w.nodeMons := by rw [register_eq]
@[simp, grind =] theorem register_nodeLinks (w : World B V) (i : Pid) (n : String) : (register w i n).1.nodeLinks = w.nodeLinks := by rw [register_eq]
@[simp, grind =] theorem register_pending (w : World B V) (i : Pid) (n : String) : (register w i n).1.pending = w.pending := by rw [register_eq]
@[simp, grind =] theorem register_tables (w : World B V) (i : Pid) (n : String) : (register w i n).1.tables = w.tables := by rw [register_eq]
@[simp, grind =] theorem register_sent (w : World B V) (i : Pid) (n : String) : (register w i n).1.sent = w.sent := by rw [register_eq]
@[simp, grind =] theorem register_out (w : World B V) (i : Pid) (n : String) : (register w i n).1.out = w.out := by rw [register_eq]
@[simp, grind =] theorem register_asked (w : World B V) (i : Pid) (n : String) : (register w i n).1.asked = w.asked := by rw [register_eq]

/-- A projection of a process (`none` if there is no such process). -/
def pmap {X : Type} (π : Proc B V → X) (w : World B V) (i : Nat) : Option X := (w.procs i).map π

theorem ex_act (w : World B V) (a : Atom B V) (j : Nat) : ((act w a).procs j).isSome =
   match a with
   | .spawn => decide (j = w.nextPid) || (w.procs j).isSome
   | .remove i => decide (j ≠ i) && (w.procs j).isSome
   | _ => (w.procs j).isSome := by
  cases a <;> simp [act, setNt, spawnRaw, alias, newRef, upd_at]
  all_goals (try split) <;> (try split) <;> simp_all [upd_at]
  all_goals (try split) <;> (try simp_all)

theorem name_act (w : World B V) (a : Atom B V) (j : Nat) : pmap (·.name) (act w a) j =
   match a with
   | .spawn => if j = w.nextPid then some none else pmap (·.name) w j
   | .remove i => if j = i then none else pmap (·.name) w j
   | .name i n => if j = i ∧ w.names n = none ∧ pmap (·.name) w j = some none then some (some n) else pmap (·.name) w j
   | .unname n => if w.names n = some j then (w.procs j).map (fun _ => none) else pmap (·.name) w j
   | _ => pmap (·.name) w j := by
  unfold pmap
  cases a <;> simp [act, setNt, spawnRaw, alias, newRef, newProc, upd_at]
  all_goals (try split) <;> (try simp_all [Function.comp_def])
  · rename_i i n h
    obtain ⟨h1, p, hp, hn⟩ := h
    simp only [upd_at]; split
    · subst_vars; simp [hp, hn]
    · simp_all
  · rename_i i n h
    simp only [upd_at]
    by_cases hj : j = n
    · subst hj; simp [h, Function.comp_def]
    · rw [if_neg hj, if_neg (fun e => hj e.symm)]
theorem names_act (w : World B V) (a : Atom B V) : (act w a).names =
   match a with
   | .remove i => match pmap (·.name) w i with | some (some n) => upd w.names n none | _ => w.names
   | .name i n => if w.names n = none ∧ pmap (·.name) w i = some none then upd w.names n (some i) else w.names
   | .unname n => upd w.names n none
   | _ => w.names := by
  unfold pmap
  cases a <;> simp [act, setNt, spawnRaw, alias, newRef, newProc]
  cases h : w.procs _ with
  | none => rfl
  | some p => cases h2 : p.name <;> simp [h2]
theorem nextPid_act (w : World B V) (a : Atom B V) : (act w a).nextPid =
   match a with
   | .spawn => w.nextPid + 1
   | _ => w.nextPid := by
  cases a <;> simp [act, setNt, spawnRaw, alias, newRef, newProc]
theorem nextRef_act (w : World B V) (a : Atom B V) : (act w a).nextRef =
   match a with
   | .mkAlias .. | .mkMon .. | .mkMonDown .. | .mkMonRem .. | .mkFail .. => w.nextRef + 1
   | _ => w.nextRef := by
  cases a <;> simp [act, setNt, spawnRaw, alias, newRef, newProc]
theorem trap_act (w : World B V) (a : Atom B V) (j : Nat) : pmap (·.trap) (act w a) j =
   match a with
   | .spawn => if j = w.nextPid then some false else pmap (·.trap) w j
   | .remove i => if j = i then none else pmap (·.trap) w j
   | .trap i b => if j = i then (w.procs j).map fun _ => b else pmap (·.trap) w j
   | _ => pmap (·.trap) w j := by
  unfold pmap
  cases a <;> simp [act, setNt, spawnRaw, alias, newRef, newProc, upd_at]
  all_goals (try split) <;> (try split) <;> (try simp_all [Function.comp_def, upd_at])
  all_goals (try split) <;> (try simp_all [Function.comp_def])
/-- exit reason, aborted, ended -/
theorem fate_act (w : World B V) (a : Atom B V) (j : Nat) : pmap (fun p => (p.reason, p.aborted, p.ended)) (act w a) j =
   match a with
   | .spawn => if j = w.nextPid then some (none, false, false) else pmap (fun p => (p.reason, p.aborted, p.ended)) w j
   | .remove i => if j = i then none else pmap (fun p => (p.reason, p.aborted, p.ended)) w j
   | .term i r => if j = i then (w.procs j).map fun p => (some r, true, p.ended) else pmap (fun p => (p.reason, p.aborted, p.ended)) w j
   | .crash i m | .mkFail i m _ => if j = i then (w.procs j).map fun p => (some (.custom m), p.aborted, true) else pmap (fun p => (p.reason, p.aborted, p.ended)) w j
   | .fin i => if j = i then (w.procs j).map fun p => (p.reason, p.aborted, true) else pmap (fun p => (p.reason, p.aborted, p.ended)) w j
   | _ => pmap (fun p => (p.reason, p.aborted, p.ended)) w j := by
  unfold pmap
  cases a <;> simp [act, setNt, spawnRaw, alias, newRef, newProc, upd_at]
  all_goals (try split) <;> (try split) <;> (try simp_all [Function.comp_def, upd_at])
  all_goals (try split) <;> (try simp_all [Function.comp_def])
theorem links_act (w : World B V) (a : Atom B V) : (act w a).links =
   match a with
   | .addLink i p => upd w.links i (if p ∈ w.links i then w.links i else w.links i ++ [p])
   | .delLink i p => upd w.links i ((w.links i).filter (· ≠ p))
   | .clrLinks i => upd w.links i []
   | _ => w.links := by
  cases a <;> simp [act, setNt, spawnRaw, alias, newRef, newProc]
theorem mons_act (w : World B V) (a : Atom B V) : (act w a).mons =
   match a with
   | .addMonR i r frm => upd w.mons i ((w.mons i).filter (fun x => x.1 ≠ r) ++ [(r, frm, none)])
   | .mkMon me i d _ => upd w.mons i ((w.mons i).filter (fun x => x.1 ≠ .loc w.nextRef) ++ [(.loc w.nextRef, .loc me, some d)])
   | .delMon i r => upd w.mons i ((w.mons i).filter (fun x => x.1 ≠ r))
   | .clrMons i => upd w.mons i []
   | _ => w.mons := by
  cases a <;> simp [act, setNt, spawnRaw, alias, newRef, newProc]
theorem aliases_act (w : World B V) (a : Atom B V) : (act w a).aliases =
   match a with
   | .delAlias a | .dropAl _ a | .shot _ a => upd w.aliases a none
   | .mkAlias me r => upd w.aliases w.nextRef (some (me, r))
   | .mkMon me _ _ al | .mkMonRem me _ _ _ al | .mkFail me _ al =>
      match al with | none => w.aliases | some r => upd w.aliases w.nextRef (some (me, r))
   | .mkMonDown .. => upd w.aliases w.nextRef none
   | _ => w.aliases := by
  cases a <;> simp [act, setNt, spawnRaw, alias, newRef, newProc, Ref.id, freshRef, optAlias, addAlias]
  all_goals (try split) <;> simp [addAlias, Ref.id]
  funext j; simp only [upd_at]; split <;> simp_all
theorem nodeMons_act (w : World B V) (a : Atom B V) : (act w a).nodeMons =
   match a with
   | .mkMonRem _ n _ nm _ => upd w.nodeMons n ((w.nodeMons n).filter (fun x => x.1 ≠ .loc w.nextRef) ++ [(.loc w.nextRef, nm)])
   | .cleanup n r i => upd w.nodeMons n ((w.nodeMons n).filter (fun x => x.1 ≠ r) ++ [(r, .cleanup i)])
   | .delNodeMon n r => upd w.nodeMons n ((w.nodeMons n).filter (fun x => x.1 ≠ r))
   | .clrNodeMons n => upd w.nodeMons n []
   | _ => w.nodeMons := by
  cases a <;> simp [act, setNt, spawnRaw, alias, newRef, newProc]
theorem nodeLinks_act (w : World B V) (a : Atom B V) : (act w a).nodeLinks =
   match a with
   | .addNodeLink n p i => upd w.nodeLinks n (if (p, i) ∈ w.nodeLinks n then w.nodeLinks n else w.nodeLinks n ++ [(p, i)])
   | .delNodeLink n p i => upd w.nodeLinks n ((w.nodeLinks n).filter (· ≠ (p, i)))
   | .clrNodeLinks n => upd w.nodeLinks n []
   | _ => w.nodeLinks := by
  cases a <;> simp [act, setNt, spawnRaw, alias, newRef, newProc]
theorem sent_act (w : World B V) (a : Atom B V) : (act w a).sent =
   match a with
   | .put i it => if (w.procs i).isSome then w.sent ++ [(i, it)] else w.sent
   | .shot i a => if (w.procs i).isSome then w.sent ++ [(i, .aliasOff a)] else w.sent
   | .mkMonDown me d _ r _ => if (w.procs me).isSome then w.sent ++ [(me, .down d (.loc w.nextRef) r)] else w.sent
   | _ => w.sent := by
  cases a <;> simp [act, setNt, spawnRaw, alias, newRef, newProc]
  case put i it => split <;> simp_all
  case shot i a => split <;> simp_all
  case mkMonDown me d m r al =>
    cases h : w.procs me <;> simp [upd_at, h]
/-- the process-local monitors, aliases and mailbox -/
theorem box_act (w : World B V) (a : Atom B V) (j : Nat) : pmap (·.box) (act w a) j =
   match a with
   | .spawn => if j = w.nextPid then some ⟨[], [], [], []⟩ else pmap (·.box) w j
   | .remove i => if j = i then none else pmap (·.box) w j
   | .put i it => if j = i then (pmap (·.box) w j).map (deliver · it) else pmap (·.box) w j
   | .shot i a => if j = i then (pmap (·.box) w j).map (deliver · (.aliasOff a)) else pmap (·.box) w j
   | .rbox i o k => if j = i then (pmap (·.box) w j).map (recvBox o k) else pmap (·.box) w j
   | .dropMon i r => if j = i then (pmap (·.box) w j).map (fun b => { b with mons := dropMon b.mons r }) else pmap (·.box) w j
   | .dropAl i a => if j = i then (pmap (·.box) w j).map (fun b => { b with aliases := b.aliases.filter (· ≠ a) }) else pmap (·.box) w j
   | .mkAlias i _ => if j = i then (pmap (·.box) w j).map (fun b => { b with aliases := b.aliases ++ [w.nextRef] }) else pmap (·.box) w j
   | .mkMon me i _ _ => if j = me then (pmap (·.box) w j).map (fun b => setMon b (.loc w.nextRef) (.forProcess (some (.loc i)))) else pmap (·.box) w j
   | .mkMonDown me d m e _ => if j = me then (pmap (·.box) w j).map (fun b => deliver (setMon b (.loc w.nextRef) m) (.down d (.loc w.nextRef) e)) else pmap (·.box) w j
   | .mkMonRem me _ m _ _ => if j = me then (pmap (·.box) w j).map (fun b => setMon b (.loc w.nextRef) m) else pmap (·.box) w j
   | _ => pmap (·.box) w j := by
  unfold pmap
  cases a <;> simp [act, setNt, spawnRaw, alias, newRef, newProc, upd_at]
  all_goals (try split) <;> (try split) <;> (try simp_all [Function.comp_def, upd_at, Ref.id])
  all_goals (try split) <;> (try simp_all [Function.comp_def, upd_at])

theorem tables_act (w : World B V) (a : Atom B V) : (act w a).tables =
   match a with
   | .tables t => (tableOp w.tables t).1
   | _ => w.tables := by
  cases a <;> simp [act, setNt, spawnRaw, alias, newRef, newProc]
/-- the node tables -/
theorem nt_act (w : World B V) (a : Atom B V) : nt (act w a) = match a with | .nodes na => nact (nt w) na | _ => nt w := by
  cases a <;> simp [act, setNt, spawnRaw, alias, newRef, newProc, nt]

end Verif.World
