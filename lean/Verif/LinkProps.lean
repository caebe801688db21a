import Verif.DropEff
/-!
# Links (C29, C30, C31)
-/
namespace Verif.World
open Verif.Mailbox
variable {B V : Type}

/-- An invariant of the elementary changes an operation can make holds after every history. -/
theorem run_inv' (ser : V → B) (I : World B V → Prop) (ok : Op B V → Prop)
    (hs : ∀ w o, ok o → I w → ∀ w' a, Acts (AtomOf w o) w w' → AtomOf w o a → I w' → I (act w' a))
    (os : List (Op B V)) (hok : ∀ o ∈ os, ok o) (w : World B V) (h : I w) : I (run ser w os) := by
  induction os generalizing w with
  | nil => exact h
  | cons o os ih =>
    refine ih (fun o ho => hok o (.tail _ ho)) _ ?_
    have ho := hok o List.mem_cons_self
    have : ∀ w', Acts (AtomOf w o) w w' → I w' := by
      intro w' hw
      induction hw with
      | refl => exact h
      | tail hw hq ih => exact hs w o ho h _ _ hw hq ih
    exact this _ (step_acts ser w o)

/-- Link sets have no duplicates. -/
def LinksNodup (w : World B V) : Prop := ∀ i, (w.links i).Nodup

theorem linksNodup_act (w : World B V) (a : Atom B V) (h : LinksNodup w) : LinksNodup (act w a) := by
  intro i
  rw [links_act]
  cases a <;> simp only [] <;> try exact h i
  · simp only [upd_at]
    split
    · split
      · exact h _
      · rename_i hp
        exact List.nodup_append.2 ⟨h _, by simp, by simp only [List.mem_singleton]; rintro a ha b rfl rfl; exact hp ha⟩
    · exact h i
  · simp only [upd_at]
    split
    · exact (h _).filter _
    · exact h i
  · simp only [upd_at]
    split
    · simp
    · exact h i

theorem run_linksNodup (ser : V → B) (os : List (Op B V)) : LinksNodup (run ser init os) :=
  run_inv ser LinksNodup linksNodup_act os init (fun _ => by simp [init])

/-- The links recorded per node are to processes of that node. -/
def NodeLinksRemote (w : World B V) : Prop := ∀ n p i, (p, i) ∈ w.nodeLinks n → p.isLocal = false

theorem nodeLinksRemote_act (w : World B V) (o : Op B V) (w' : World B V) (a : Atom B V) (ha : AtomOf w o a)
    (h : NodeLinksRemote w') : NodeLinksRemote (act w' a) := by
  intro n p i hm
  rw [nodeLinks_act] at hm
  cases a <;> simp only [upd_at] at hm <;> try exact h n p i hm
  · split at hm
    · split at hm
      · exact h _ _ _ hm
      · rcases List.mem_append.1 hm with hm | hm
        · exact h _ _ _ hm
        · simp at hm; rw [hm.1]; exact ha.1
    · exact h _ _ _ hm
  · split at hm
    · exact h _ _ _ (List.mem_filter.1 hm).1
    · exact h _ _ _ hm
  · split at hm
    · simp at hm
    · exact h _ _ _ hm

theorem run_nodeLinksRemote (ser : V → B) (os : List (Op B V)) : NodeLinksRemote (run ser init os) :=
  run_inv' ser NodeLinksRemote (fun _ => True) (fun w o _ _ w' a _ ha h => nodeLinksRemote_act w o w' a ha h) os
    (fun _ _ => trivial) init (by simp [NodeLinksRemote, init])

/-! ## C29 -/

/-- The exit messages (`Message::System(SystemMessage::Exit(..))`) for `j` in a list of deliveries. -/
def exitsFor (j : Nat) (D : List (Nat × Item B V)) : List (Item B V) :=
  (D.filterMap fun x => match x with | (i, .system (.exit p r)) => if i = j then some (.system (.exit p r)) else none | _ => none)

theorem exitsFor_append (j : Nat) (D E : List (Nat × Item B V)) : exitsFor j (D ++ E) = exitsFor j D ++ exitsFor j E := by
  simp [exitsFor]

theorem exitsFor_down (j : Nat) (w : World B V) (r : ExitReason) (ms : List (Ref × Pid × Option Dest)) :
    exitsFor j (downMsgs w r ms) = [] := by
  unfold exitsFor downMsgs
  rw [List.filterMap_filterMap]
  rw [List.filterMap_eq_nil_iff]
  intro x _
  split
  · split <;> simp
  · rfl

theorem exitsFor_exitMsgs (w : World B V) (me : Nat) (r : ExitReason) (l : List Pid) (hn : l.Nodup) (j : Nat) (q : Proc B V)
    (hq : w.procs j = some q) :
    exitsFor j (exitMsgs w me r l) = if Pid.loc j ∈ l ∧ q.trap = true then [.system (.exit (.loc me) r)] else [] := by
  induction l with
  | nil => simp [exitMsgs, exitsFor]
  | cons p ps ih =>
    simp only [List.nodup_cons] at hn
    have ih := ih hn.2
    have he : exitMsgs w me r (p :: ps) = (match p with | .loc i => signalMsg w (.loc me) r i | .rem _ _ => []) ++ exitMsgs w me r ps := by
      cases p <;> simp [exitMsgs]
    rw [he, exitsFor_append, ih]
    cases p with
    | rem i n => simp [exitsFor]
    | loc i =>
      by_cases hij : i = j
      · subst hij
        have := hn.1
        cases ht : q.trap <;> simp [signalMsg, hq, ht, exitsFor, this]
      · have : exitsFor j (signalMsg w (.loc me) r i) = [] := by
          unfold signalMsg
          split
          · split <;> simp [exitsFor, hij]
          · simp [exitsFor]
        simp [this, Ne.symm hij]

/-- C29. The death of `me` (any reachable state, any link graph): every process `j` that `me` is linked to gets exactly one
exit signal with the reason of `me` - one Exit message if it traps exits, otherwise termination with that reason unless the
reason is normal; a process that is not linked gets none. -/
theorem C29_death_signals (ser : V → B) (os : List (Op B V)) (me j : Nat) (p q : Proc B V) :
    let w := run ser init os
    let w' := (step ser w (.drop me)).1
    let r := p.reason.getD .normal
    w.procs me = some p → (p.ended = true ∨ p.aborted = true) → j ≠ me → w.procs j = some q →
    ∃ q' D, w'.procs j = some q' ∧ w'.sent = w.sent ++ D ∧
      exitsFor j D = (if Pid.loc j ∈ w.links me ∧ q.trap = true then [.system (.exit (.loc me) r)] else []) ∧
      (q'.reason, q'.aborted) =
        (if Pid.loc j ∈ w.links me ∧ q.trap = false ∧ isNormal r = false then (some r, true) else (q.reason, q.aborted)) ∧
      q'.ended = q.ended := by
  intro w w' r hp hd hj hq
  have hw' : w' = dropProc w me := by
    have : doomed w me = true := by simp [doomed, hp]; exact hd
    simp [w', step, Op.caller, Op.exec, this]
  obtain ⟨-, h2, h3, -⟩ := drop_eff w me p hp (run_linksNodup ser os me)
  rw [hw']
  refine ⟨afterDeath w me r j q, _, by rw [h2 j hj, hq]; rfl, by rw [h3, List.append_assoc], ?_, ?_, ?_⟩
  · rw [exitsFor_append, exitsFor_down, List.append_nil]
    exact exitsFor_exitMsgs (removeProc w me) me r (w.links me) (run_linksNodup ser os me) j q (by simp [upd_at, hj, hq])
  · simp only [afterDeath, signalled]
    by_cases hl : Pid.loc j ∈ w.links me <;> cases ht : q.trap <;> cases hr : isNormal r <;> simp [hl, ht]
  · simp only [afterDeath, signalled]
    by_cases hl : Pid.loc j ∈ w.links me <;> cases ht : q.trap <;> cases hr : isNormal r <;> simp [hl, ht]

/-- An operation that removes a link between `a` and `b`. -/
def Separates (a b : Nat) (o : Op B V) : Prop :=
  o = .unlink a (.loc b) ∨ o = .unlink b (.loc a) ∨ o = .drop a ∨ o = .drop b

/-- An operation that makes a link between two existing processes `a` and `b`. -/
def Joins (a b : Nat) (o : Op B V) : Prop := o = .link a (.loc b) ∨ o = .link b (.loc a)

/-- `link` links both ways. -/
theorem C29_link_establishes (ser : V → B) (w : World B V) (a b : Nat) (ha : running w a = true) (hab : a ≠ b)
    (hb : exists? w b = true) :
    let w' := (step ser w (.link a (.loc b))).1
    Pid.loc b ∈ w'.links a ∧ Pid.loc a ∈ w'.links b := by
  have : exists? (addLink w a (.loc b)) b = true := hb
  simp only [step, Op.caller, ha, if_true, Op.exec, link, linkInstall, Pid.loc.injEq, Ne.symm hab, if_false, this]
  constructor <;> simp [upd_at, hab]
  · (try split) <;> (try split) <;> simp_all
  · (try split) <;> (try split) <;> simp_all

/-- `spawn_link` links both ways. -/
theorem C29_spawn_link_establishes (ser : V → B) (w : World B V) (a b : Nat) (r : Option Ref) (m : Bool) (hab : a ≠ b)
    (h : (step ser w (.spawn a true m)).2 = .spawned b r) :
    let w' := (step ser w (.spawn a true m)).1
    Pid.loc b ∈ w'.links a ∧ Pid.loc a ∈ w'.links b := by
  rcases step_cases ser w (.spawn a true m) with h' | h' <;> rw [h'] at h ⊢
  · simp at h
  · simp only [Op.exec, World.spawn, spawnRaw] at *
    cases m <;> simp [newRef] at * <;> obtain ⟨rfl, -⟩ := h <;> constructor <;> simp [upd_at, hab]
    all_goals have hab' := Ne.symm hab
    all_goals (try split) <;> (try split) <;> first | assumption | (exfalso; omega) | simp | simp_all

theorem link_persists_act (w : World B V) (hr : NodeLinksRemote w) (a b : Nat) (o : Op B V) (ho : ¬ Separates a b o) (w' : World B V)
    (x : Atom B V) (hx : AtomOf w o x) (h : Pid.loc b ∈ w'.links a) : Pid.loc b ∈ (act w' x).links a := by
  rw [links_act]
  cases x <;> simp only [upd_at] <;> try exact h
  · split
    · subst_vars; split
      · exact h
      · exact List.mem_append_left _ h
    · exact h
  · rename_i i p
    split
    · subst_vars
      refine List.mem_filter.2 ⟨h, ?_⟩
      simp only [ne_eq, decide_eq_true_eq]
      rintro rfl
      rcases hx with ⟨j, hj, h1 | h1⟩ | h1 | ⟨n, h1⟩
      · cases hj; exact ho (.inr (.inr (.inr h1)))
      · cases hj; exact ho (.inr (.inl h1))
      · obtain ⟨_, _, _, -, h1⟩ := h1; cases h1
      · have := hr _ _ _ h1.1; simp [Pid.isLocal] at this
    · exact h
  · split
    · rename_i hai; rw [← hai] at hx; exact absurd (.inr (.inr (.inl hx))) ho
    · exact h

/-- C29. A link stays until one of the two is unlinked or dies. -/
theorem C29_link_persists (ser : V → B) (os os' : List (Op B V)) (a b : Nat)
    (hl : Pid.loc b ∈ (run ser init os).links a ∧ Pid.loc a ∈ (run ser init os).links b)
    (h : ∀ o ∈ os', ¬ Separates a b o) :
    Pid.loc b ∈ (run ser (run ser init os) os').links a ∧ Pid.loc a ∈ (run ser (run ser init os) os').links b := by
  refine (run_inv' ser (fun w => NodeLinksRemote w ∧ Pid.loc b ∈ w.links a ∧ Pid.loc a ∈ w.links b)
    (fun o => ¬ Separates a b o) ?_ os' h _ ⟨run_nodeLinksRemote ser os, hl⟩).2
  rintro w o ho ⟨hr, -, -⟩ w' x _ hx ⟨h1, h2, h3⟩
  refine ⟨nodeLinksRemote_act w o w' x hx h1, link_persists_act w hr a b o ho w' x hx h2,
    link_persists_act w hr b a o (fun hs => ho ?_) w' x hx h3⟩
  rcases hs with h | h | h | h
  · exact .inr (.inl h)
  · exact .inl h
  · exact .inr (.inr (.inr h))
  · exact .inr (.inr (.inl h))

theorem unlinked_persists_act (w : World B V) (a b : Nat) (ha : a < w.nextPid) (hb : b < w.nextPid) (o : Op B V)
    (ho : ¬ Joins a b o) (w' : World B V) (x : Atom B V) (hx : AtomOf w o x) (h : Pid.loc b ∉ w'.links a) :
    Pid.loc b ∉ (act w' x).links a := by
  rw [links_act]
  cases x <;> simp only [upd_at] <;> try exact h
  · rename_i i p
    split
    · subst_vars; split
      · exact h
      · simp only [List.mem_append, h, List.mem_singleton, false_or]
        rintro rfl
        rcases hx with h1 | h1 | ⟨j, hj, h1⟩ | ⟨m, h1, h2⟩ | ⟨j, m, h1, h2, h3⟩
        · obtain ⟨_, _, _, -, h1⟩ := h1; cases h1
        · exact ho (.inl h1)
        · cases hj; exact ho (.inr h1)
        · cases h2; omega
        · omega
    · exact h
  · split
    · subst_vars; exact fun hm => h (List.mem_filter.1 hm).1
    · exact h
  · split
    · simp
    · exact h

/-- C29. Processes that are not linked stay so until one of them links to the other. -/
theorem C29_unlinked_persists (ser : V → B) (w : World B V) (os : List (Op B V)) (a b : Nat)
    (ha : a < w.nextPid) (hb : b < w.nextPid) (hl : Pid.loc b ∉ w.links a) (h : ∀ o ∈ os, ¬ Joins a b o) :
    Pid.loc b ∉ (run ser w os).links a := by
  refine (run_inv' ser (fun w => a < w.nextPid ∧ b < w.nextPid ∧ Pid.loc b ∉ w.links a) (fun o => ¬ Joins a b o) ?_ os h _
    ⟨ha, hb, hl⟩).2.2
  rintro w o ho ⟨h1, h2, -⟩ w' x hw hx ⟨h4, h5, h6⟩
  have := acts_mono_counters (Acts.one (Q := fun _ => True) (w := w') (a := x) trivial)
  refine ⟨by omega, by omega, unlinked_persists_act w a b h1 h2 o ho w' x hx h6⟩

/-- C29, from `link` to death: two processes linked by `link` (or `spawn_link`), and not unlinked since; when one of them
dies abnormally the other is terminated with the same reason, or gets one Exit message if it traps exits. -/
theorem C29_link_then_death (ser : V → B) (os os' : List (Op B V)) (a b : Nat) (hab : a ≠ b) (p q : Proc B V) :
    let w0 := run ser init os
    let w1 := run ser (step ser w0 (.link a (.loc b))).1 os'
    let w2 := (step ser w1 (.drop a)).1
    let r := p.reason.getD .normal
    running w0 a = true → exists? w0 b = true → (∀ o ∈ os', ¬ Separates a b o) →
    w1.procs a = some p → (p.ended = true ∨ p.aborted = true) → w1.procs b = some q →
    ∃ q' D, w2.procs b = some q' ∧ w2.sent = w1.sent ++ D ∧
      (q.trap = true → exitsFor b D = [.system (.exit (.loc a) r)] ∧ q'.reason = q.reason) ∧
      (q.trap = false → exitsFor b D = [] ∧ (isNormal r = false → q'.reason = some r ∧ q'.aborted = true) ∧
        (isNormal r = true → q'.reason = q.reason)) := by
  intro w0 w1 w2 r hra heb hos hp hd hq
  have hrun : ∀ os2, run ser (step ser w0 (.link a (.loc b))).1 os2 = run ser init (os ++ .link a (.loc b) :: os2) := by
    intro os2; simp [run, w0, List.foldl_append]
  have hl : Pid.loc b ∈ w1.links a ∧ Pid.loc a ∈ w1.links b := by
    have h1 := C29_link_establishes ser w0 a b hra hab heb
    have h2 := C29_link_persists ser (os ++ [.link a (.loc b)]) os' a b
    have he : run ser init (os ++ [.link a (.loc b)]) = (step ser w0 (.link a (.loc b))).1 := (hrun []).symm
    rw [he] at h2
    exact h2 h1 hos
  have hw1 : w1 = run ser init (os ++ .link a (.loc b) :: os') := hrun os'
  have h := C29_death_signals ser (os ++ .link a (.loc b) :: os') a b p q
  rw [← hw1] at h
  obtain ⟨q', D, e1, e2, e3, e4, e5⟩ := h hp hd (Ne.symm hab) hq
  refine ⟨q', D, e1, e2, ?_, ?_⟩
  · intro ht
    rw [if_pos ⟨hl.1, ht⟩] at e3
    rw [if_neg (by simp [ht])] at e4
    simp only [Prod.mk.injEq] at e4
    exact ⟨e3, e4.1⟩
  · intro ht
    rw [if_neg (by simp [ht])] at e3
    refine ⟨e3, ?_, ?_⟩
    · intro hr; rw [if_pos ⟨hl.1, ht, hr⟩] at e4; simp only [Prod.mk.injEq] at e4; exact e4
    · intro hr; rw [if_neg (by simp only [r] at hr; simp [hr])] at e4; simp only [Prod.mk.injEq] at e4; exact e4.1

/-- Two linked processes, one of which has panicked. -/
def linkSample : List (Op Nat Nat) := [.boot, .boot, .link 1 (.loc 2), .panic 1 "bug"]

example : (run id init linkSample).links 1 = [.loc 2] ∧ (run id init linkSample).links 2 = [.loc 1] ∧
    doomed (run id init linkSample) 1 = true ∧ alive (run id init linkSample) 2 = true ∧
    alive (run id init (linkSample ++ [.drop 1])) 2 = false := by decide

/-! ## C30 -/

/-- C30 is false of the code: `unlink` removes only the direction from the other process. Here process 1 links to
process 2 and unlinks it again; when 1 dies, 2 is terminated nevertheless (link.rs:74-89 changes `LINKS[pid]` only). -/
theorem C30_unlink_bidirectional_violated :
    ∃ os : List (Op Nat Nat), os = [.boot, .boot, .link 1 (.loc 2), .unlink 1 (.loc 2), .panic 1 "bug"] ∧
      alive (run id init os) 2 = true ∧ alive (run id init (os ++ [.drop 1])) 2 = false := by
  exact ⟨_, rfl, by decide, by decide⟩

/-- C30, the direction that holds: after `unlink(b)` by `a`, and as long as the two do not link again, the death of `b`
sends `a` no exit signal. Missing: the death of `a` does affect `b` (previous theorem). -/
theorem C30_unlink_partial (ser : V → B) (os os' : List (Op B V)) (a b : Nat) (hab : a ≠ b) (p q : Proc B V) :
    let w0 := run ser init os
    let w1 := run ser (step ser w0 (.unlink a (.loc b))).1 os'
    let w2 := (step ser w1 (.drop b)).1
    running w0 a = true → b < w0.nextPid → (∀ o ∈ os', ¬ Joins a b o) →
    w1.procs b = some p → (p.ended = true ∨ p.aborted = true) → w1.procs a = some q →
    ∃ q' D, w2.procs a = some q' ∧ w2.sent = w1.sent ++ D ∧ exitsFor a D = [] ∧
      (q'.reason, q'.aborted) = (q.reason, q.aborted) := by
  intro w0 w1 w2 hra hbn hos hp hd hq
  have hw1 : w1 = run ser init (os ++ .unlink a (.loc b) :: os') := by simp [w1, w0, run, List.foldl_append]
  have hun : Pid.loc a ∉ (step ser w0 (.unlink a (.loc b))).1.links b := by
    simp only [step, Op.caller, hra, if_true, Op.exec, unlink, Pid.loc.injEq, Ne.symm hab, if_false, linkDestroy]
    simp [upd_at]
  have han : a < w0.nextPid := by
    rcases Nat.lt_or_ge a w0.nextPid with h | h
    · exact h
    · have := run_bounded ser os a h
      simp only [running] at hra
      rw [this] at hra; simp at hra
  have hmono := step_mono_counters ser w0 (.unlink a (.loc b))
  have hl := C29_unlinked_persists ser (step ser w0 (.unlink a (.loc b))).1 os' b a (by omega) (by omega) hun (by
    intro o ho hj
    exact hos o ho (hj.elim .inr .inl))
  have h := C29_death_signals ser (os ++ .unlink a (.loc b) :: os') b a p q
  rw [← hw1] at h
  obtain ⟨q', D, e1, e2, e3, e4, e5⟩ := h hp hd hab hq
  refine ⟨q', D, e1, e2, ?_, ?_⟩
  · rw [e3, if_neg]; exact fun hh => hl hh.1
  · rw [e4, if_neg]; exact fun hh => hl hh.1

example : (run id init ([.boot, .boot, .link 1 (.loc 2), .unlink 1 (.loc 2), .panic 2 "bug"] : List (Op Nat Nat))).links 2 = [] ∧
    alive (run id init ([.boot, .boot, .link 1 (.loc 2), .unlink 1 (.loc 2), .panic 2 "bug", .drop 2] : List (Op Nat Nat))) 1 = true := by
  decide

/-! ## C31 -/

/-- Removing, in any order, processes whose task has ended or was aborted; the list gives the removed processes and the
reasons they report. -/
inductive Cascade : World B V → List (Nat × ExitReason) → World B V → Prop
  | nil (w) : Cascade w [] w
  | cons {w w' i p l} : w.procs i = some p → doomed w i = true → Cascade (dropProc w i) l w' →
      Cascade w ((i, p.reason.getD .normal) :: l) w'

/-- Reachability over links between existing processes. -/
inductive Reach (w : World B V) (a : Nat) : Nat → Prop
  | refl : Reach w a a
  | tail {i j} : Reach w a i → exists? w i = true → Pid.loc j ∈ w.links i → exists? w j = true → Reach w a j

/-- State of a cascade that started in `w` with the failure of `a` for reason `r`; `ds` have been removed. -/
structure CascadeInv (w : World B V) (a : Nat) (r : ExitReason) (w' : World B V) (ds : List Nat) : Prop where
  gone : ∀ i, exists? w' i = (exists? w i && decide (i ∉ ds))
  nodup : LinksNodup w'
  state : ∀ i p, w'.procs i = some p → p.trap = false ∧
    ((Reach w a i ∧ p.reason = some r ∧ doomed w' i = true) ∨ (p.reason = none ∧ doomed w' i = false))
  reach : ∀ i ∈ ds, Reach w a i ∧ exists? w i = true
  dist : ds.Nodup
  links : ∀ i j, exists? w' i = true → exists? w' j = true → (Pid.loc j ∈ w'.links i ↔ Pid.loc j ∈ w.links i)
  closed : ∀ x ∈ ds, ∀ y, Pid.loc y ∈ w.links x → exists? w y = true →
    y ∈ ds ∨ ∃ p, w'.procs y = some p ∧ p.reason = some r
  start : a ∈ ds ∨ ∃ p, w'.procs a = some p ∧ p.reason = some r

theorem doomed_map (w : World B V) (i : Nat) (p : Proc B V) (h : w.procs i = some p) : doomed w i = (p.ended || p.aborted) := by
  simp [doomed, h]

theorem cascade_step (w : World B V) (a : Nat) (r : ExitReason) (hr : isNormal r = false) (w' : World B V) (ds : List Nat)
    (h : CascadeInv w a r w' ds) (i : Nat) (p : Proc B V) (hp : w'.procs i = some p) (hd : doomed w' i = true) :
    p.reason = some r ∧ CascadeInv w a r (dropProc w' i) (ds ++ [i]) := by
  obtain ⟨ht, hs⟩ := h.state i p hp
  have hpr : p.reason = some r ∧ Reach w a i := by
    rcases hs with ⟨h1, h2, -⟩ | ⟨-, h2⟩
    · exact ⟨h2, h1⟩
    · rw [hd] at h2; simp at h2
  refine ⟨hpr.1, ?_⟩
  have hex : exists? w' i = true := by simp [exists?, hp]
  have hgi := h.gone i
  rw [hex] at hgi
  have hgi' : exists? w i = true ∧ i ∉ ds := by simpa using hgi.symm
  obtain ⟨e1, e2, -, e4, -⟩ := drop_eff w' i p hp (h.nodup i)
  simp only [hpr.1, Option.getD_some] at e2
  have hexj : ∀ j, j ≠ i → exists? (dropProc w' i) j = exists? w' j := by
    intro j hj; simp [exists?, e2 j hj]
  have hexi : exists? (dropProc w' i) i = false := by simp [exists?, e1]
  refine ⟨?_, ?_, ?_, ?_, ?_, ?_, ?_, ?_⟩
  · intro j
    by_cases hj : j = i
    · subst hj; rw [hexi]; simp
    · rw [hexj j hj, h.gone j]; simp [hj]
  · intro j
    rw [e4]
    split
    · simp
    · split
      · exact (h.nodup j).filter _
      · exact h.nodup j
  · intro j q' hq'
    have hj : j ≠ i := by rintro rfl; rw [e1] at hq'; simp at hq'
    have hdd := doomed_map _ _ _ hq'
    rw [e2 j hj] at hq'
    cases hq : w'.procs j with
    | none => rw [hq] at hq'; simp at hq'
    | some q =>
      rw [hq] at hq'
      simp only [Option.map_some, Option.some.injEq] at hq'
      obtain ⟨hqt, hqs⟩ := h.state j q hq
      have hexj' : exists? w' j = true := by simp [exists?, hq]
      by_cases hl : Pid.loc j ∈ w'.links i
      · have hreach : Reach w a j := by
          have hl' := (h.links i j hex hexj').1 hl
          have := h.gone j
          rw [hexj'] at this
          exact .tail hpr.2 hgi'.1 hl' (by simpa using (by simpa using this.symm : exists? w j = true ∧ j ∉ ds).1)
        subst hq'
        simp only [afterDeath, hl, if_true, signalled, hqt, hr, Bool.false_eq_true, if_false] at hdd ⊢
        exact ⟨by simp, .inl ⟨hreach, by simp, by rw [hdd]; simp⟩⟩
      · subst hq'
        simp only [afterDeath, hl, if_false] at hdd ⊢
        refine ⟨hqt, ?_⟩
        rw [hdd, ← doomed_map _ _ _ hq]
        exact hqs
  · intro j hj
    rcases List.mem_append.1 hj with hj | hj
    · exact h.reach j hj
    · simp at hj; subst hj; exact ⟨hpr.2, hgi'.1⟩
  · refine List.nodup_append.2 ⟨h.dist, by simp, ?_⟩
    simp only [List.mem_singleton]; rintro x hx y rfl rfl; exact hgi'.2 hx
  · intro x y hx hy
    have hxi : x ≠ i := by rintro rfl; rw [hexi] at hx; simp at hx
    have hyi : y ≠ i := by rintro rfl; rw [hexi] at hy; simp at hy
    rw [hexj x hxi] at hx; rw [hexj y hyi] at hy
    rw [e4, if_neg hxi, ← h.links x y hx hy]
    split
    · simp [hyi]
    · rfl
  · intro x hx y hxy hy
    by_cases hyi : y = i
    · left; simp [hyi]
    · have hcase : y ∈ ds ∨ ∃ q, w'.procs y = some q ∧ (q.reason = some r ∨ (x = i ∧ Pid.loc y ∈ w'.links i)) := by
        rcases List.mem_append.1 hx with hx | hx
        · rcases h.closed x hx y hxy hy with h1 | ⟨q, h1, h2⟩
          · exact .inl h1
          · exact .inr ⟨q, h1, .inl h2⟩
        · simp at hx; subst hx
          by_cases hyd : y ∈ ds
          · exact .inl hyd
          · have hyw : exists? w' y = true := by rw [h.gone]; simp [hy, hyd]
            have := (h.links x y hex hyw).2 hxy
            unfold exists? at hyw
            cases hq : w'.procs y with
            | none => simp [hq] at hyw
            | some q => exact .inr ⟨q, rfl, .inr ⟨rfl, this⟩⟩
      rcases hcase with h1 | ⟨q, hq, h2⟩
      · exact .inl (List.mem_append_left _ h1)
      · right
        refine ⟨_, by rw [e2 y hyi, hq]; rfl, ?_⟩
        have hqt := (h.state y q hq).1
        simp only [afterDeath, signalled, hqt, hr, Bool.false_eq_true, if_false]
        rcases h2 with h2 | ⟨-, h2⟩
        · split
          · rfl
          · exact h2
        · rw [if_pos h2]
  · by_cases hai : a = i
    · left; simp [hai]
    · rcases h.start with h1 | ⟨q, hq, h2⟩
      · exact .inl (List.mem_append_left _ h1)
      · right
        refine ⟨_, by rw [e2 a hai, hq]; rfl, ?_⟩
        have hqt := (h.state a q hq).1
        simp only [afterDeath, signalled, hqt, hr, Bool.false_eq_true, if_false]
        split
        · rfl
        · exact h2

theorem cascade_inv (w : World B V) (a : Nat) (r : ExitReason) (hr : isNormal r = false) (w1 w' : World B V)
    (l : List (Nat × ExitReason)) (hc : Cascade w1 l w') (ds : List Nat) (h : CascadeInv w a r w1 ds) :
    (∀ x ∈ l, x.2 = r) ∧ CascadeInv w a r w' (ds ++ l.map Prod.fst) := by
  induction hc generalizing ds with
  | nil => simpa using h
  | cons hp hd _ ih =>
    obtain ⟨h1, h2⟩ := cascade_step w a r hr _ ds h _ _ hp hd
    obtain ⟨h3, h4⟩ := ih _ h2
    refine ⟨?_, by simpa using h4⟩
    intro x hx
    rcases List.mem_cons.1 hx with rfl | hx
    · simp [h1]
    · exact h3 x hx

theorem nodup_length_le : ∀ (l : List Nat), l.Nodup → ∀ m : List Nat, (∀ x ∈ l, x ∈ m) → l.length ≤ m.length
  | [], _, _, _ => by simp
  | x :: l, hn, m, h => by
    have hx := h x List.mem_cons_self
    have hn := List.nodup_cons.1 hn
    have ih := nodup_length_le l hn.2 (m.erase x) (by
      intro y hy
      refine (List.mem_erase_of_ne ?_).2 (h y (.tail _ hy))
      rintro rfl; exact hn.1 hy)
    rw [List.length_erase_of_mem hx] at ih
    have : 0 < m.length := List.length_pos_of_mem hx
    simp only [List.length_cons]; omega

/-- C31. No process traps exits, all are healthy but `a`, which has failed abnormally. Then however the deaths are
processed: every process dies at most once and there are at most as many deaths as processes (so it terminates), every
death reports the reason of `a`, only processes reachable from `a` die; and when no dying process is left, exactly the
reachable ones are gone and all others are healthy. The hypotheses on the state hold in every reachable state in which
nobody traps exits and only `a` has failed (link sets have no duplicates, `run_linksNodup`). -/
theorem C31_cascade (w : World B V) (a : Nat) (r : ExitReason) (pa : Proc B V) (N : Nat)
    (hN : ∀ i, N ≤ i → w.procs i = none) (hn : LinksNodup w) (hr : isNormal r = false)
    (ha : w.procs a = some pa) (har : pa.reason = some r) (had : doomed w a = true)
    (htrap : ∀ i p, w.procs i = some p → p.trap = false)
    (hquiet : ∀ i p, i ≠ a → w.procs i = some p → p.reason = none ∧ p.aborted = false ∧ p.ended = false)
    (l : List (Nat × ExitReason)) (w' : World B V) (hc : Cascade w l w') :
    (l.map Prod.fst).Nodup ∧ l.length ≤ N ∧ (∀ x ∈ l, x.2 = r ∧ Reach w a x.1) ∧
    ((∀ i, doomed w' i = false) →
      ∀ i p, w.procs i = some p →
        (Reach w a i → w'.procs i = none ∧ i ∈ l.map Prod.fst) ∧
        (¬ Reach w a i → ∃ p', w'.procs i = some p' ∧ p'.reason = none)) := by
  have h0 : CascadeInv w a r w [] := by
    refine ⟨by simp, hn, ?_, by simp, by simp, by simp, by simp, .inr ⟨pa, ha, har⟩⟩
    intro i p hp
    refine ⟨htrap i p hp, ?_⟩
    by_cases hi : i = a
    · subst hi
      rw [ha] at hp; cases hp
      exact .inl ⟨.refl, har, had⟩
    · obtain ⟨h1, h2, h3⟩ := hquiet i p hi hp
      exact .inr ⟨h1, by simp [doomed, hp, h2, h3]⟩
  obtain ⟨h1, h2⟩ := cascade_inv w a r hr w w' l hc [] h0
  rw [List.nil_append] at h2
  refine ⟨h2.dist, ?_, ?_, ?_⟩
  · have hsub : ∀ x ∈ l.map Prod.fst, x ∈ List.range N := by
      intro x hx
      have := (h2.reach x hx).2
      rw [List.mem_range]
      rcases Nat.lt_or_ge x N with h | h
      · exact h
      · rw [exists?, hN x h] at this; simp at this
    have := nodup_length_le _ h2.dist _ hsub
    simpa using this
  · intro x hx
    exact ⟨h1 x hx, (h2.reach x.1 (List.mem_map.2 ⟨x, hx, rfl⟩)).1⟩
  · intro hdone
    have hall : ∀ i, Reach w a i → exists? w i = true → i ∈ l.map Prod.fst := by
      intro i hi
      induction hi with
      | refl =>
        intro _
        rcases h2.start with h | ⟨q, hq, hqr⟩
        · exact h
        · rcases (h2.state a q hq).2 with ⟨-, -, h⟩ | ⟨h, -⟩
          · rw [hdone] at h; simp at h
          · rw [hqr] at h; simp at h
      | tail hi hex hl hj ih =>
        intro _
        rcases h2.closed _ (ih hex) _ hl hj with h | ⟨q, hq, hqr⟩
        · exact h
        · rcases (h2.state _ q hq).2 with ⟨-, -, h⟩ | ⟨h, -⟩
          · rw [hdone] at h; simp at h
          · rw [hqr] at h; simp at h
    intro i p hp
    have hex : exists? w i = true := by simp [exists?, hp]
    refine ⟨?_, ?_⟩
    · intro hi
      have hm := hall i hi hex
      refine ⟨?_, hm⟩
      have := h2.gone i
      rw [hex] at this
      simp only [hm, not_true_eq_false, decide_false, Bool.and_false] at this
      simpa [exists?] using this
    · intro hi
      have hm : i ∉ l.map Prod.fst := fun hm => hi (h2.reach i hm).1
      have := h2.gone i
      rw [hex] at this
      have hex' : exists? w' i = true := by rw [this]; simpa using hm
      unfold exists? at hex'
      cases hq : w'.procs i with
      | none => simp [hq] at hex'
      | some q =>
        refine ⟨q, rfl, ?_⟩
        rcases (h2.state i q hq).2 with ⟨h, -, -⟩ | ⟨h, -⟩
        · exact absurd h hi
        · exact h

/-- A chain 1 - 2 - 3 and an unrelated process 4; process 1 has panicked. -/
def chainSample : World Nat Nat :=
  run id init [.boot, .boot, .boot, .boot, .link 1 (.loc 2), .link 2 (.loc 3), .panic 1 "bug"]

theorem cascade_cons' (w w' : World B V) (i : Nat) (r : ExitReason) (l : List (Nat × ExitReason))
    (h : (w.procs i).map (fun p => p.reason.getD .normal) = some r) (hd : doomed w i = true)
    (hc : Cascade (dropProc w i) l w') : Cascade w ((i, r) :: l) w' := by
  cases hp : w.procs i with
  | none => simp [hp] at h
  | some p => simp [hp] at h; rw [← h]; exact .cons hp hd hc

example : Cascade chainSample [(1, .custom "bug"), (2, .custom "bug"), (3, .custom "bug")]
    (dropProc (dropProc (dropProc chainSample 1) 2) 3) :=
  cascade_cons' _ _ _ _ _ (by decide) (by decide) (cascade_cons' _ _ _ _ _ (by decide) (by decide)
    (cascade_cons' _ _ _ _ _ (by decide) (by decide) (.nil _)))

example : alive (dropProc (dropProc (dropProc chainSample 1) 2) 3) 4 = true := by decide

end Verif.World
