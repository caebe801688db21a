import Verif.Info
import Verif.MonitorProps
import Verif.ProcessProps
/-!
# Property C104: `Process::info` tells what the runtime will do
-/
namespace Verif.World
open Verif.Mailbox
variable {B V : Type}

/-- The Down messages for `j` in a list of deliveries. -/
def downsTo (j : Nat) (D : List (Nat × Item B V)) : List (Item B V) :=
  (D.filter fun x => x.1 == j && (match x.2 with | .down _ _ _ => true | _ => false)).map Prod.snd

theorem downsTo_append (j : Nat) (D E : List (Nat × Item B V)) : downsTo j (D ++ E) = downsTo j D ++ downsTo j E := by
  simp [downsTo]

theorem downsTo_exitMsgs (j : Nat) (w : World B V) (me : Nat) (e : ExitReason) (l : List Pid) : downsTo j (exitMsgs w me e l) = [] := by
  unfold downsTo
  rw [List.map_eq_nil_iff, List.filter_eq_nil_iff]
  intro x hx
  unfold exitMsgs at hx
  obtain ⟨p, -, hp⟩ := List.mem_flatMap.1 hx
  cases p with
  | rem i n => simp at hp
  | loc i =>
    simp only [signalMsg] at hp
    split at hp
    · split at hp
      · simp at hp; subst hp; simp
      · simp at hp
    · simp at hp

theorem downsTo_downMsgs (j : Nat) (w : World B V) (e : ExitReason) (ms : List (Ref × Pid × Option Dest)) (hj : exists? w j = true) :
    downsTo j (downMsgs w e ms) = downsFor e ms j := by
  rw [← downMsgs_for w e ms j hj]
  unfold downsTo
  congr 1
  apply List.filter_congr
  intro x hx
  unfold downMsgs at hx
  obtain ⟨y, -, hy⟩ := List.mem_filterMap.1 hx
  split at hy
  · split at hy
    · cases hy; simp
    · cases hy
  · cases hy

/-- **C104**: `Process::info` answers exactly for the processes that exist. -/
theorem C104_exists (w : World B V) (i : Nat) : (info w i).isSome = exists? w i := by
  unfold info exists?; cases w.procs i <;> rfl

/-- **C104**: the name that `Process::info` reports is the one under which `Process::whereis` finds the process. -/
theorem C104_name (ser : V → B) (os : List (Op B V)) (i : Nat) (x : Info) (h : info (run ser init os) i = some x) (n : String) :
    x.registeredName = some n ↔ (run ser init os).names n = some i := by
  rw [(C25_names_bijection ser os).1]
  unfold info at h
  generalize hp : (run ser init os).procs i = op at h ⊢
  cases op with
  | none => cases h
  | some p => cases h; simp

/-- **C104**: the links and monitors that `Process::info` reports are those that take effect when the process dies: after any history, if
`me` dies and `Process::info` reported `x` for it just before, then every other process `j` of this node gets an exit signal from it if it is among the
links (as a message if, according to `Process::info`, it traps exits), and none otherwise; and it gets exactly as many Downs as
it is listed as a monitor. -/
theorem C104_death (ser : V → B) (os : List (Op B V)) (me j : Nat) (p : Proc B V) (x y : Info) :
    let w := run ser init os
    let w' := (step ser w (.drop me)).1
    let r := p.reason.getD .normal
    w.procs me = some p → (p.ended = true ∨ p.aborted = true) → j ≠ me → info w me = some x → info w j = some y →
    ∃ D, w'.sent = w.sent ++ D ∧
      exitsFor j D = (if Pid.loc j ∈ x.links ∧ y.trapExit = true then [.system (.exit (.loc me) r)] else []) ∧
      (Pid.loc j ∈ x.links → y.trapExit = false → isNormal r = false → alive w' j = false) ∧
      (Pid.loc j ∉ x.links ∨ y.trapExit = true ∨ isNormal r = true → alive w' j = alive w j) ∧
      (downsTo j D).length = x.monitoredBy.count (.loc j) := by
  intro w w' r hp hd hj hx hy
  have hw' : w' = dropProc w me := by
    have : doomed w me = true := by simp [doomed, hp]; exact hd
    simp [w', step, Op.caller, Op.exec, this]
  obtain ⟨-, h2, h3, -⟩ := drop_eff w me p hp (run_linksNodup ser os me)
  have hxl : x.links = w.links me ∧ x.monitoredBy = (w.mons me).map fun x => x.2.1 := by
    unfold info at hx; rw [hp] at hx; cases hx; exact ⟨rfl, rfl⟩
  obtain ⟨q, hq, hyt⟩ : ∃ q, w.procs j = some q ∧ y.trapExit = q.trap := by
    unfold info at hy
    split at hy
    · cases hy
    · rename_i q hq; cases hy; exact ⟨q, hq, rfl⟩
  obtain ⟨q', D, e1, e2, e3, e4, e5⟩ := C29_death_signals ser os me j p q hp hd hj hq
  refine ⟨D, e2, ?_, ?_, ?_, ?_⟩
  · rw [e3, hxl.1, hyt]
  · intro hl ht hr
    rw [hxl.1] at hl; rw [hyt] at ht
    rw [if_pos ⟨hl, ht, hr⟩] at e4
    simp only [Prod.mk.injEq] at e4
    simp only [alive]
    rw [e1]; simp [e4.1]
  · intro h
    rw [hxl.1, hyt] at h
    have hne : ¬ (Pid.loc j ∈ (run ser init os).links me ∧ q.trap = false ∧ isNormal (p.reason.getD .normal) = false) := by
      rintro ⟨a, b, c⟩
      rcases h with h | h | h
      · exact h a
      · rw [b] at h; cases h
      · simp only [r] at h; rw [c] at h; cases h
    rw [if_neg hne] at e4
    simp only [Prod.mk.injEq] at e4
    simp only [alive]
    rw [e1, hq]; simp [e4.1]
  · have hD : D = exitMsgs (removeProc w me) me r (w.links me) ++ downMsgs (removeProc w me) r (w.mons me) := by
      have := e2
      change w'.sent = w.sent ++ D at this
      rw [hw', h3, List.append_assoc] at this
      exact (List.append_cancel_left this).symm
    rw [hD, downsTo_append, downsTo_exitMsgs, List.nil_append, downsTo_downMsgs _ _ _ _ (by simp [exists?, upd_at, hj, hq]), hxl.2]
    generalize w.mons me = ms
    induction ms with
    | nil => rfl
    | cons z ms ih =>
      simp only [downsFor, List.filterMap_cons, List.map_cons, List.count_cons] at ih ⊢
      by_cases hz : z.2.1 = .loc j
      · simp [hz, ih]
      · simp [hz, ih]

/-- **C104**: after `Process::set_flags`, `Process::info` reports that flag (it stays until it is set again, `C27_trap_flag`). -/
theorem C104_trap (ser : V → B) (w : World B V) (i : Nat) (b : Bool) (h : running w i = true) :
    ∃ x, info (step ser w (.setTrap i b)).1 i = some x ∧ x.trapExit = b := by
  have : ∃ p, w.procs i = some p := by
    unfold running at h; cases hp : w.procs i with
    | none => simp [hp] at h
    | some p => exact ⟨p, rfl⟩
  obtain ⟨p, hp⟩ := this
  simp [step, Op.caller, h, Op.exec, info, modProc, hp, upd_at]

/-- The items in `D` that were put in the mailbox of `i`. -/
def itemsTo (i : Nat) (D : List (Nat × Item B V)) : List (Item B V) := (D.filter (·.1 == i)).map Prod.snd

/-- Nothing was taken from the mailbox of `i` since the history was `S0`. -/
def Queue (i : Nat) (S0 : List (Nat × Item B V)) (w : World B V) : Prop :=
  i < w.nextPid ∧ ∃ D, w.sent = S0 ++ D ∧ ∀ b, pmap (·.box) w i = some b → b.chan = itemsTo i D

theorem queue_act (i : Nat) (S0) (w : World B V) (o : Op B V) (w' : World B V) (a : Atom B V) (ho : ∀ ro k, o ≠ .recv i ro k) (ha : AtomOf w o a)
    (h : Queue i S0 w') : Queue i S0 (act w' a) := by
  obtain ⟨h1, D, h2, h3⟩ := h
  have hb := box_act w' a i
  have hs := sent_act w' a
  have hn := nextPid_act w' a
  have key : ∀ (j : Nat) (it : Item B V) (f : Box B V → Box B V), (∀ b, (f b).chan = b.chan ++ [it]) →
      (act w' a).nextPid = w'.nextPid → (act w' a).sent = (if (w'.procs j).isSome then w'.sent ++ [(j, it)] else w'.sent) →
      pmap (·.box) (act w' a) i = (if i = j then (pmap (·.box) w' i).map f else pmap (·.box) w' i) → Queue i S0 (act w' a) := by
    intro j it f hf e1 e2 e3
    refine ⟨by omega, D ++ (if (w'.procs j).isSome then [(j, it)] else []), by rw [e2, h2]; split <;> simp, ?_⟩
    intro b hb
    rw [e3] at hb
    by_cases hij : i = j
    · subst hij
      rw [if_pos rfl] at hb
      obtain ⟨b', hb', rfl⟩ := Option.map_eq_some_iff.1 hb
      have : (w'.procs i).isSome = true := by
        unfold pmap at hb'; cases hq : w'.procs i with
        | none => rw [hq] at hb'; cases hb'
        | some q => rfl
      rw [if_pos this, hf, h3 _ hb']
      simp [itemsTo]
    · rw [if_neg hij] at hb
      rw [h3 _ hb]
      split <;> simp [itemsTo, Ne.symm hij]
  have keep : ∀ f : Box B V → Box B V, (∀ b, (f b).chan = b.chan) → w'.nextPid ≤ (act w' a).nextPid → (act w' a).sent = w'.sent →
      (pmap (·.box) (act w' a) i = (pmap (·.box) w' i).map f ∨ pmap (·.box) (act w' a) i = none) → Queue i S0 (act w' a) := by
    intro f hf e1 e2 e3
    refine ⟨by omega, D, by rw [e2, h2], ?_⟩
    intro b hb
    rcases e3 with e3 | e3
    · rw [e3] at hb
      obtain ⟨b', hb', rfl⟩ := Option.map_eq_some_iff.1 hb
      rw [hf, h3 _ hb']
    · rw [e3] at hb; cases hb
  have id_ : pmap (·.box) (act w' a) i = pmap (·.box) w' i → w'.nextPid ≤ (act w' a).nextPid → (act w' a).sent = w'.sent → Queue i S0 (act w' a) :=
    fun e e1 e2 => keep id (fun _ => rfl) e1 e2 (.inl (by rw [e]; simp))
  cases a
  case put j it => exact key j it (deliver · it) (fun _ => rfl) hn hs hb
  case shot j al => exact key j (.aliasOff al) (deliver · (.aliasOff al)) (fun _ => rfl) hn hs hb
  case mkMonDown me d m e al => exact key me (.down d (.loc w'.nextRef) e) _ (fun _ => rfl) hn hs hb
  case rbox j ro k =>
    have hj : i ≠ j := by rintro rfl; exact ho ro k ha
    exact id_ (by rw [hb]; simp only; rw [if_neg hj]) (Nat.le_of_eq hn.symm) hs
  case spawn =>
    exact id_ (by rw [hb]; simp only; rw [if_neg (by omega)]) (by rw [hn]; exact Nat.le_succ _) hs
  case remove j =>
    by_cases hj : i = j
    · exact keep id (fun _ => rfl) (Nat.le_of_eq hn.symm) hs (.inr (by rw [hb]; simp only; rw [if_pos hj]))
    · exact id_ (by rw [hb]; simp only; rw [if_neg hj]) (Nat.le_of_eq hn.symm) hs
  case dropMon j r =>
    by_cases hj : i = j
    · refine keep _ ?_ (Nat.le_of_eq hn.symm) hs (.inl (hb.trans (if_pos hj)))
      intro b; rfl
    · exact id_ (by rw [hb]; simp only; rw [if_neg hj]) (Nat.le_of_eq hn.symm) hs
  case dropAl j r =>
    by_cases hj : i = j
    · refine keep _ ?_ (Nat.le_of_eq hn.symm) hs (.inl (hb.trans (if_pos hj)))
      intro b; rfl
    · exact id_ (by rw [hb]; simp only; rw [if_neg hj]) (Nat.le_of_eq hn.symm) hs
  case mkAlias j r =>
    by_cases hj : i = j
    · refine keep _ ?_ (Nat.le_of_eq hn.symm) hs (.inl (hb.trans (if_pos hj)))
      intro b; rfl
    · exact id_ (by rw [hb]; simp only; rw [if_neg hj]) (Nat.le_of_eq hn.symm) hs
  case mkMon j _ _ _ =>
    by_cases hj : i = j
    · refine keep _ ?_ (Nat.le_of_eq hn.symm) hs (.inl (hb.trans (if_pos hj)))
      intro b; rfl
    · exact id_ (by rw [hb]; simp only; rw [if_neg hj]) (Nat.le_of_eq hn.symm) hs
  case mkMonRem j _ _ _ _ =>
    by_cases hj : i = j
    · refine keep _ ?_ (Nat.le_of_eq hn.symm) hs (.inl (hb.trans (if_pos hj)))
      intro b; rfl
    · exact id_ (by rw [hb]; simp only; rw [if_neg hj]) (Nat.le_of_eq hn.symm) hs
  all_goals exact id_ hb (Nat.le_of_eq hn.symm) hs

/-- **C104**, `message_queue_len` for a process that has not received yet: it is the number of items put in its mailbox since it was spawned.
Missing: messages that a selective receive has passed over, see `C104_queue_violated`. -/
theorem C104_queue_partial (ser : V → B) (os os' : List (Op B V)) (me i : Nat) (l m : Bool) (r : Option Ref) (x : Info) :
    let w0 := run ser init os
    let w1 := (step ser w0 (.spawn me l m)).1
    let w2 := run ser w1 os'
    (step ser w0 (.spawn me l m)).2 = .spawned i r → (∀ o ∈ os', ∀ ro k, o ≠ .recv i ro k) → info w2 i = some x →
    ∃ D, w2.sent = w1.sent ++ D ∧ x.messageQueueLen = (itemsTo i D).length := by
  intro w0 w1 w2 hs hos hx
  have h1 : Queue i w1.sent w1 := by
    have key : i < w1.nextPid ∧ (me ≠ i → pmap (·.box) w1 i = some ⟨[], [], [], []⟩) := by
      simp only [w1]
      rcases step_cases ser w0 (.spawn me l m) with h' | h' <;> rw [h'] at hs ⊢
      · simp at hs
      · simp only [Op.exec, World.spawn, spawnRaw] at *
        cases l <;> cases m <;> simp [newRef] at * <;> obtain ⟨rfl, _⟩ := hs <;> simp [pmap, upd_at, newProc]
        all_goals (intro hme; rw [if_neg (Ne.symm hme)]; simp)
    have hme : me ≠ i := by
      rintro rfl
      have hf : w0.procs me = none := (C23_spawn_fresh ser os me l m me r hs).1
      have hr : running w0 me = false := by simp [running, hf]
      simp [step, Op.caller, hr] at hs
    refine ⟨key.1, [], by simp, ?_⟩
    intro b hb
    rw [key.2 hme] at hb
    cases hb; rfl
  have h2 := run_inv' ser (Queue i w1.sent) (fun o => ∀ ro k, o ≠ .recv i ro k) (fun w o ho _ w' a _ ha h => queue_act i _ w o w' a ho ha h) os' hos w1 h1
  obtain ⟨-, D, e1, e2⟩ := h2
  refine ⟨D, e1, ?_⟩
  unfold info at hx
  split at hx
  · cases hx
  · rename_i p hp
    cases hx
    show p.box.chan.length = _
    rw [e2 p.box (by show pmap _ w2 i = _; simp [pmap, hp])]

/-- A receive that accepts nothing. -/
def takesNothing : RecvOp Nat Nat := ⟨Nat, natMsgs, fun _ => false, false⟩

/-- **C104** is violated in `message_queue_len`: messages that a selective receive has passed over are in the queue of the process (the next receive returns
them), but are not counted (process_registry.rs:281: the length of the channel only). -/
theorem C104_queue_violated : ∃ os : List (Op Nat Nat), os = [.boot, .boot, .send 1 (.one (.pid (.loc 2))) 7, .recv 2 takesNothing .select] ∧
    (∃ x, info (run id init os) 2 = some x ∧ x.messageQueueLen = 0) ∧ received (run id init os) 2 anything .select = some (.user (7 : Nat)) := by
  refine ⟨_, rfl, ⟨_, rfl, rfl⟩, rfl⟩

/-! The hypotheses are met: process 2 is linked to the dying process 1 and monitors it, and traps exits; `info` reports that. -/
def infoSample : List (Op Nat Nat) :=
  [.boot, .boot, .link 1 (.loc 2), .monitor 2 (.pid (.loc 1)), .register 1 (.loc 1) "srv", .setTrap 2 true, .panic 1 "bug"]

example : doomed (run id init infoSample) 1 = true ∧ (info (run id init infoSample) 1).map Info.links = some [.loc 2] ∧
    (info (run id init infoSample) 1).map Info.monitoredBy = some [.loc 2] ∧ (info (run id init infoSample) 2).map Info.trapExit = some true ∧
    (info (run id init infoSample) 1).map Info.registeredName = some (some "srv") ∧
    (run id init (infoSample ++ [.drop 1])).sent.length = 2 := by decide

example : (∃ r, (step id (run id init [Op.boot]) (.spawn 1 true false : Op Nat Nat)).2 = .spawned 2 r) ∧
    (info (run id init [.boot, .spawn 1 true false, .send 1 (.one (.pid (.loc 2))) (5 : Nat), .send 1 (.one (.pid (.loc 2))) 6]) 2).map
      Info.messageQueueLen = some 2 := ⟨⟨_, rfl⟩, by decide⟩

end Verif.World
