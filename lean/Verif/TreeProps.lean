import Verif.SupOrphanProps
import Verif.WsServerProps
import Verif.RegistryTerm
import Verif.TwoNodeLemmas
/-!
# A supervision tree comes down with its root (C142)

gen_server.rs:440-446 (a server ends with its parent), supervisor.rs:873-952 (a supervisor is a server), process.rs:417-434 and process_registry.rs:192-209 (a process that does not trap
exits is killed with what it is linked to). C140 says this for one server and its parent; here for supervisors, and for whole trees.
-/
namespace Verif.World
open Verif.Mailbox
variable {B V : Type}

/-! ## Specification -/

/-- `p` has not died in the history with the reason `normal`. -/
def NotNormally (ser : V → B) (ops : List (Op B V)) (p : Nat) : Prop :=
  ∀ osa osb q, ops = osa ++ .drop p :: osb → (run ser init osa).procs p = some q → q.ended = true ∨ q.aborted = true → isNormal (q.reason.getD .normal) = false

/-- In the history `ops`, `m` was attached to `p`, as a child that was started with a link.

`server`: `m` is a server (a supervisor, for example) with the parent `p`: at some time it trapped exits, and `p` existed and was linked to it; since then it has left the end of `p` to its
loop, in which it is at the end of the history, or has been killed, or which it has left by `terminate`.

`worker`: `m` is a process that does not trap exits; at some time `p` existed and they were linked to each other, and neither of them has unlinked the other one since then. If `p` has died,
then not with the reason `normal`.

`child`: `m` is a child of the supervisor `p`, which has terminated by now (with whatever reason), and `m` has not itself sent an Exit message to the supervisor with `Process::exit` (C113). -/
inductive Hangs (ser : V → B) (ops : List (Op B V)) (m p : Nat) : Prop
  | server {M S : Type} {srv : Server B V M S} {τ : RecvType B V (GMsg M)} {I : S → Prop} {σ : S} {n : Nat} {osa osi osb osc : List (Op B V)} {l : Log M S} :
      ops = osa ++ (osi ++ (osb ++ osc)) → m ≠ p → Watches m p (run ser init osa) → (∀ o ∈ osi, Leaves m p o) → LeavesParent ser srv m p I → I σ →
      Exec ser m (run ser init (osa ++ osi)) (serverLoop srv τ m (.loc p) n σ) osb l → (∀ o ∈ osc, o.caller ≠ some m) → Hangs ser ops m p
  | worker {osa osb : List (Op B V)} :
      ops = osa ++ osb → m ≠ p → exists? (run ser init osa) p = true → Tied p m (run ser init osa) → NotNormally ser ops p →
      (∀ o ∈ osb, o ≠ .unlink p (.loc m) ∧ o ≠ .unlink m (.loc p) ∧ o ≠ .setTrap m true) → Hangs ser ops m p
  | child {cf : Verif.Sup.Conf B V} {osa osb osc : List (Op B V)} {parent : Pid} {n : Nat} {st : Verif.Sup.Strategy} {au : Verif.Sup.AutoShutdown} {mr md : Nat} {cs : List Verif.Sup.Spec}
      {l : Log Verif.Sup.SMsg Verif.Sup.SState} {σ : Verif.Sup.SState} {id : String} :
      ops = osa ++ osb ++ osc → cf.me = p → Verif.Sup.Genuine cf ser → (∀ c ∈ cs, c.hasStart = true) → (cs.map (·.id)).Nodup →
      Exec ser cf.me (run ser init osa) (Verif.Sup.supLife cf parent n (Verif.Sup.fresh st au mr md cs)) osb (some l, σ) → l.ended ≠ none →
      .start id (.ok (.loc m)) ∈ l.state.1.log → m < (run ser init (osa ++ osb)).nextPid → Always ser (Verif.Sup.Honest cf.me m) init (osa ++ osb) → Hangs ser ops m p

/-- The tree of the processes that hang on `root`. -/
inductive Under (ser : V → B) (ops : List (Op B V)) (root : Nat) : Nat → Prop
  | root : Under ser ops root root
  | child {m p : Nat} : Under ser ops root p → Hangs ser ops m p → Under ser ops root m

/-! ## One edge -/

theorem stopped_doomed {w : World B V} {i : Nat} (h : Stopped w i) (he : exists? w i = true) : doomed w i = true := by
  unfold exists? at he
  cases hp : w.procs i with
  | none => rw [hp] at he; cases he
  | some p => simp [doomed, hp, h.2 p hp]

theorem halted_doomed {w : World B V} {i : Nat} (h : running w i = false) (he : exists? w i = true) : doomed w i = true := by
  unfold exists? at he
  cases hp : w.procs i with
  | none => rw [hp] at he; cases he
  | some p =>
    have : p.ended = true := by simpa [running, hp] using h
    simp [doomed, hp, this]

theorem exits_stopped {ser : V → B} {me : Nat} {r : ExitReason} {w : World B V} (hre : Reachable ser w) {os : List (Op B V)} (h : ExitsWith ser me r w os) :
    Stopped (run ser w os) me := by
  obtain ⟨os1, os2, os3, rfl, -, -, p, hp, -, ha⟩ := h
  rw [List.append_cons, run_append]
  refine stopped_run ser ⟨lt_of_running (reach_run hre _) (by simp [exists?, hp]), fun q hq => ?_⟩ _
  rw [hp] at hq; cases hq; exact ha

/-- A process that does not trap exits is stopped when it is gone on which it depends. -/
theorem tied_falls {ser : V → B} {p m : Nat} (hne : m ≠ p) {os : List (Op B V)} : ∀ {pre : List (Op B V)}, exists? (run ser init pre) p = true → Tied p m (run ser init pre) →
    NotNormally ser (pre ++ os) p → (∀ o ∈ os, o ≠ .unlink p (.loc m) ∧ o ≠ .unlink m (.loc p) ∧ o ≠ .setTrap m true) →
    exists? (run ser init (pre ++ os)) p = true ∨ Stopped (run ser init (pre ++ os)) m := by
  induction os with
  | nil => intro pre he _ _ _; exact .inl (by simpa using he)
  | cons o os ih =>
    intro pre he ht hn h2
    obtain ⟨a1, a2, a3⟩ := h2 o List.mem_cons_self
    by_cases hd : o = .drop p ∧ doomed (run ser init pre) p = true
    · obtain ⟨rfl, hd⟩ := hd
      refine .inr ?_
      have hnn : NotNormal p (run ser init pre) := by
        intro q hq
        have hd' : q.ended = true ∨ q.aborted = true := by simpa [doomed, hq] using hd
        have := hn pre os q rfl hq hd'
        cases hr : q.reason with
        | none => rw [hr] at this; cases this
        | some r => rw [hr] at this; cases r <;> simp_all [isNormal]
      rw [run_append]
      exact stopped_run ser (tied_dies ⟨pre, rfl⟩ ht hne hnn hd) os
    · have keep : exists? (step ser (run ser init pre) o).1 p = true ∧ Tied p m (step ser (run ser init pre) o).1 := by
        by_cases ho : o = .drop p
        · subst ho
          have hd : doomed (run ser init pre) p = false := by cases h : doomed (run ser init pre) p <;> simp_all
          rw [drop_noop hd]; exact ⟨he, ht⟩
        · exact ⟨exists_acts (step_acts ser _ o) p he ho, tied_step ⟨pre, rfl⟩ ht a1 a2 ho a3⟩
      have e : pre ++ o :: os = (pre ++ [o]) ++ os := by simp
      rw [e] at hn ⊢
      exact ih (by rw [run_append]; exact keep.1) (by rw [run_append]; exact keep.2) hn fun o h => h2 o (.tail _ h)

/-- What the others keep holds as long as the process exists. -/
theorem silent_run {ser : V → B} {m : Nat} {J : World B V → Prop} (hJ : ∀ w o, J w → Others m o → J (step ser w o).1) {os : List (Op B V)} : ∀ {w : World B V},
    Reachable ser w → m < w.nextPid → (∀ o ∈ os, o.caller ≠ some m) → J w → exists? (run ser w os) m = true → J (run ser w os) := by
  induction os with
  | nil => intro w _ _ _ h _; exact h
  | cons o os ih =>
    intro w hre hlt hos h he
    rw [run_cons] at he ⊢
    have hlt' := Nat.lt_of_lt_of_le hlt (nextPid_step ser w o)
    refine ih (reach_step hre o) hlt' (fun o h => hos o (.tail _ h)) ?_ he
    by_cases ho : o = .drop m
    · subst ho
      cases hd : doomed w m with
      | false => rw [drop_noop hd]; exact h
      | true =>
        exfalso
        obtain ⟨pre, rfl⟩ := hre
        cases hp : (run ser init pre).procs m with
        | none => simp [doomed, hp] at hd
        | some p =>
          have hgone : (step ser (run ser init pre) (.drop m)).1.procs m = none := by
            rw [show (step ser (run ser init pre) (.drop m)).1 = dropProc (run ser init pre) m by simp [step, Op.caller, Op.exec, hd]]
            exact (drop_eff _ m p hp (run_linksNodup ser pre m)).1
          rw [exists?, (absent_run ser _ os m hlt' hgone).1] at he
          cases he
    · exact hJ w o h ⟨hos o List.mem_cons_self, ho⟩

/-- One edge of the tree: a process that is not about to be dropped, and in whose mailbox there is no exit message of the one on which it hangs, still has that one. -/
theorem hangs_on {ser : V → B} {ops : List (Op B V)} {m p : Nat} (h : Hangs ser ops m p) (he : exists? (run ser init ops) m = true)
    (hd : doomed (run ser init ops) m = false) (hh : ¬ Heard m p (run ser init ops)) : exists? (run ser init ops) p = true := by
  cases h with
  | @server M S srv τ I σ n osa osi osb osc l hops hne hw hi hl hI hx ho =>
    subst hops
    have hk : Knows ser m p (run ser init osa) := by
      refine ⟨⟨osa, rfl⟩, ?_, lt_of_running ⟨osa, rfl⟩ hw.2.2, .inl hw⟩
      obtain ⟨⟨q, hq, -⟩, -⟩ := hw
      exact lt_of_running ⟨osa, rfl⟩ (by simp [exists?, hq])
    have hk2 := leaves_knows hne hi hk
    rw [← run_append] at hk2
    rw [← List.append_assoc, run_append, run_append ser _ osb osc] at he hd hh ⊢
    cases hend : l.ended with
    | none =>
      have hk4 := loop_knows hk2.reach hne hk2 hl hI hx hend
      have hk3 := silent_run (J := Knows ser m p) (fun w o hk ho => hk.others hne [o] (by simpa using ho)) hk4.reach hk4.me ho hk4 he
      rcases hk3.told with h | h | h
      · exact h.2.2
      · exact (hh h.2).elim
      · rw [halted_doomed h he] at hd; cases hd
    | some r =>
      obtain ⟨-, -, -, -, -, -, hends, -⟩ := C58_serve ser m srv τ (.loc p) n σ _ osb l hk2.reach hx
      have := stopped_run ser (exits_stopped hk2.reach (hends r hend)) osc
      rw [stopped_doomed this he] at hd; cases hd
  | @worker osa osb hops hne hp ht hn ho =>
    subst hops
    rcases tied_falls hne hp ht hn ho with h | h
    · exact h
    · rw [stopped_doomed h he] at hd; cases hd
  | @child cf osa osb osc parent n st au mr md cs l σ id hops hp hg hs hnd hx hend hst hlt hon =>
    subst hops
    obtain ⟨r, hr⟩ := Option.ne_none_iff_exists'.1 hend
    have := Verif.Sup.C113_none_left cf ser hg osa parent n st au mr md cs hs hnd osb l σ hx r hr id m hst hon
    have := (absent_run ser _ osc m hlt this).1
    rw [exists?, run_append, this] at he
    cases he

/-! ## C142 -/

/-- **C142**: a tree comes down from its root. When the root is gone and a process of the tree is still there, then there is one that still has to go: its own parent is gone
already, and it either is about to be dropped or has its parent's exit message in its mailbox (so that it ends soon, `C140_soon`, `C142_soon`). -/
theorem C142_comes_down (ser : V → B) (ops : List (Op B V)) (root m : Nat) (hu : Under ser ops root m) (he : exists? (run ser init ops) m = true)
    (hr : exists? (run ser init ops) root = false) :
    ∃ m' p', Under ser ops root p' ∧ Hangs ser ops m' p' ∧ exists? (run ser init ops) m' = true ∧ exists? (run ser init ops) p' = false ∧
      (doomed (run ser init ops) m' = true ∨ Heard m' p' (run ser init ops)) := by
  induction hu with
  | root => rw [he] at hr; cases hr
  | @child m p hp hh ih =>
    cases hpe : exists? (run ser init ops) p with
    | true => exact ih hpe
    | false =>
      refine ⟨m, p, hp, hh, he, hpe, ?_⟩
      cases hd : doomed (run ser init ops) m with
      | true => exact .inl rfl
      | false =>
        refine .inr (Classical.byContradiction fun hn => ?_)
        rw [hangs_on hh he hd hn] at hpe; cases hpe

/-- **C142**, when everything has come to rest: no process of the tree is there without the root. -/
theorem C142_no_orphans (ser : V → B) (ops : List (Op B V)) (root : Nat)
    (hq : ∀ m p, Under ser ops root p → Hangs ser ops m p → exists? (run ser init ops) m = true → doomed (run ser init ops) m = false ∧ ¬ Heard m p (run ser init ops))
    (m : Nat) (hu : Under ser ops root m) (he : exists? (run ser init ops) m = true) : exists? (run ser init ops) root = true := by
  cases hr : exists? (run ser init ops) root with
  | true => rfl
  | false =>
    obtain ⟨m', p', h1, h2, h3, -, h5⟩ := C142_comes_down ser ops root m hu he hr
    obtain ⟨h6, h7⟩ := hq m' p' h1 h2 h3
    rcases h5 with h | h
    · rw [h] at h6; cases h6
    · exact (h7 h).elim

/-- **C142**, a supervisor that was started by its parent, which exists and is linked to it when it begins to trap exits, is in the tree of its parent, whatever happens in its life. -/
theorem C142_supervisor_hangs (ser : V → B) (cf : Verif.Sup.Conf B V) (t : Nat) (htd : Verif.Sup.Tidy cf ser t) (hne : cf.me ≠ t) (os0 : List (Op B V)) (n : Nat)
    (st : Verif.Sup.Strategy) (au : Verif.Sup.AutoShutdown) (mr md : Nat) (cs : List Verif.Sup.Spec) (ops : List (Op B V)) (l : Log Verif.Sup.SMsg Verif.Sup.SState) (σ : Verif.Sup.SState)
    (h : Exec ser cf.me (run ser init os0) (Verif.Sup.supLife cf (.loc t) n (Verif.Sup.fresh st au mr md cs)) ops (some l, σ))
    (hat : Verif.Sup.Attached ser cf.me t (run ser init os0) ops) (os1 : List (Op B V)) (hos : ∀ o ∈ os1, o.caller ≠ some cf.me) : Hangs ser (os0 ++ ops ++ os1) cf.me t := by
  obtain ⟨osa, osi, osb, osc, σ0, rfl, h1, h2, h3, h4, h5⟩ := Verif.Sup.life_attached htd ⟨os0, rfl⟩ h hat
  refine .server (τ := cf.type) (n := n) (l := l) (osa := os0 ++ osa) (osi := osi) (osb := osb) (osc := osc ++ os1) (by simp) hne (by rw [run_append]; exact h1) h2
    (Verif.Sup.sup_leaves htd) h3 ?_ ?_
  · rw [List.append_assoc, run_append]; exact h4
  · intro o ho
    rcases List.mem_append.1 ho with h | h
    · exact (h5 o h).1
    · exact hos o h

/-! ## Examples -/

end Verif.World

namespace Verif.Sup
open Verif.World Verif.Mailbox

/-- Start routines that spawn a linked process have nothing to do with the parent of the supervisor. -/
theorem supConf_tidy (t : Nat) : Tidy supConf supSer t := by
  refine ⟨?_, ?_⟩
  · intro n c w ops hre hlt hx
    simp only [supConf] at hx
    split at hx
    · obtain ⟨h, -⟩ := exec_ret_inv hx
      simp at h
    · obtain ⟨os1, os2, rfl, -, hr, h2⟩ := exec_op_inv hx
      obtain ⟨h, -⟩ := exec_ret_inv h2
      have hr' : Verif.World.running (Verif.World.run supSer w os1) 2 = true := hr
      have hst : (Verif.World.step supSer (Verif.World.run supSer w os1) (.spawn 2 true false)).2 =
          .spawned (Verif.World.run supSer w os1).nextPid (World.spawn (Verif.World.run supSer w os1) 2 true false).2.2 := by
        simp [Verif.World.step, Op.caller, Op.exec, hr', World.spawn, spawnRaw]
      rw [hst] at h
      simp only [spawnedAs, Except.ok.injEq, Pid.loc.injEq] at h
      have := nextPid_run supSer w os1
      omega
  · intro n c w ops r hre hx o ho
    simp only [supConf] at hx
    split at hx
    · exact leaves_others ((exec_ret_inv hx).2 o ho)
    · obtain ⟨os1, os2, rfl, h1, -, h2⟩ := exec_op_inv hx
      simp only [List.mem_append, List.mem_cons] at ho
      rcases ho with h | rfl | h
      · exact leaves_others (h1 o h)
      · exact ⟨(by rintro (h | h) <;> cases h), fun _ _ h => by cases h⟩
      · exact leaves_others ((exec_ret_inv h2).2 o h)

/-- Process 1 starts the supervisor 2, and that starts the worker 3. Then 1 crashes; nobody has noticed yet. -/
def treeOps : List (Op Nat (GMsg SMsg)) := [.setTrap 2 true, .spawn 2 true false, .exit 1 (.loc 1) (.custom "crash"), .drop 1]

theorem treeExec : ∃ l σ, Exec supSer supConf.me (Verif.World.run supSer init supStart)
    (supLife supConf (.loc 1) 0 (fresh .oneForOne .never 3 5000 [worker "a" .permanent])) treeOps (some l, σ) ∧ l.ended = none ∧ l.state.1.log = [.start "a" (.ok (.loc 3))] := by
  have h : ∃ l σ, sim supSer 2 (Verif.World.run supSer init supStart) (supLife supConf (.loc 1) 0 (fresh .oneForOne .never 3 5000 [worker "a" .permanent]))
      [.mine, .mine, .env (.exit 1 (.loc 1) (.custom "crash")), .env (.drop 1)] = some (treeOps, some l, σ) ∧ l.ended = none ∧ l.state.1.log = [.start "a" (.ok (.loc 3))] :=
    ⟨_, _, rfl, rfl, rfl⟩
  obtain ⟨l, σ, h1, h2, h3⟩ := h
  exact ⟨l, σ, sim_exec _ _ _ _ _ _ h1, h2, h3⟩

theorem tree_attached : Attached supSer 2 1 (Verif.World.run supSer init supStart) treeOps := ⟨[], _, rfl, by simp, by decide, by decide⟩

example := treeExec.elim fun l h => h.elim fun σ h =>
  C142_supervisor supConf supSer 1 (supConf_tidy 1) (by decide) _ ⟨supStart, rfl⟩ 0 _ _ _ _ _ treeOps l σ h.1 tree_attached h.2.1

theorem tree_not_normally : NotNormally supSer (supStart ++ treeOps ++ []) 2 := by
  intro a b q h hq _
  have : (Op.drop 2 : Op Nat (GMsg SMsg)) ∈ supStart ++ treeOps ++ [] := by rw [h]; simp
  simp [supStart, treeOps] at this

/-- The worker 3 is in the tree of process 1. -/
theorem tree_under : Under supSer (supStart ++ treeOps ++ []) 1 3 := by
  obtain ⟨l, σ, h, -⟩ := treeExec
  refine .child (.child .root (C142_supervisor_hangs supSer supConf 1 (supConf_tidy 1) (by decide) supStart 0 _ _ _ _ _ treeOps l σ h tree_attached [] (by simp))) ?_
  exact .worker (osa := supStart ++ [.setTrap 2 true, .spawn 2 true false]) (osb := [.exit 1 (.loc 1) (.custom "crash"), .drop 1]) rfl (by decide) (by decide)
    ⟨by decide, .inr ⟨by decide, by decide, by decide⟩⟩ tree_not_normally (by intro o ho; simp at ho; rcases ho with rfl | rfl <;> simp)

example := C142_comes_down supSer _ 1 3 tree_under (by decide) (by decide)

/-- The same tree before anything happens: it is at rest. -/
def calmOps : List (Op Nat (GMsg SMsg)) := [.setTrap 2 true, .spawn 2 true false]

theorem calm_exec : ∃ l σ, Exec supSer supConf.me (Verif.World.run supSer init supStart)
    (supLife supConf (.loc 1) 0 (fresh .oneForOne .never 3 5000 [worker "a" .permanent])) calmOps (some l, σ) := by
  have h : ∃ l σ, sim supSer 2 (Verif.World.run supSer init supStart) (supLife supConf (.loc 1) 0 (fresh .oneForOne .never 3 5000 [worker "a" .permanent]))
      [.mine, .mine] = some (calmOps, some l, σ) := ⟨_, _, rfl⟩
  obtain ⟨l, σ, h1⟩ := h
  exact ⟨l, σ, sim_exec _ _ _ _ _ _ h1⟩

theorem calm_under : Under supSer (supStart ++ calmOps ++ []) 1 3 := by
  obtain ⟨l, σ, h⟩ := calm_exec
  refine .child (.child .root (C142_supervisor_hangs supSer supConf 1 (supConf_tidy 1) (by decide) supStart 0 _ _ _ _ _ calmOps l σ h ⟨[], _, rfl, by simp, by decide, by decide⟩ [] (by simp))) ?_
  refine .worker (osa := supStart ++ calmOps) (osb := []) rfl (by decide) (by decide) ⟨by decide, .inr ⟨by decide, by decide, by decide⟩⟩ ?_ (by simp)
  intro a b q h hq _
  have : (Op.drop 2 : Op Nat (GMsg SMsg)) ∈ supStart ++ calmOps ++ [] := by rw [h]; exact List.mem_append_right _ List.mem_cons_self
  simp [supStart, calmOps] at this

theorem calm_rest (m p : Nat) (he : exists? (Verif.World.run supSer init (supStart ++ calmOps ++ [])) m = true) :
    doomed (Verif.World.run supSer init (supStart ++ calmOps ++ [])) m = false ∧ ¬ Heard m p (Verif.World.run supSer init (supStart ++ calmOps ++ [])) := by
  have hlt : m < 4 := lt_of_running (ser := supSer) ⟨_, rfl⟩ he
  have go : ∀ k, doomed (Verif.World.run supSer init (supStart ++ calmOps ++ [])) k = false →
      (∀ q, (Verif.World.run supSer init (supStart ++ calmOps ++ [])).procs k = some q → q.box.items ++ q.box.chan = []) →
      doomed (Verif.World.run supSer init (supStart ++ calmOps ++ [])) k = false ∧ ¬ Heard k p (Verif.World.run supSer init (supStart ++ calmOps ++ [])) := by
    intro k hd hb
    refine ⟨hd, ?_⟩
    rintro ⟨q, r, hq, hm⟩
    rw [hb q hq] at hm; cases hm
  match m, he, hlt with
  | 0, he, _ => exact absurd he (by decide)
  | 1, _, _ => exact go 1 (by decide) (by rintro q hq; cases hq; rfl)
  | 2, _, _ => exact go 2 (by decide) (by rintro q hq; cases hq; rfl)
  | 3, _, _ => exact go 3 (by decide) (by rintro q hq; cases hq; rfl)

example := C142_no_orphans supSer _ 1 (fun m p _ _ he => calm_rest m p he) 3 calm_under (by decide)

/-- The supervisor finds the exit message of its crashed parent. -/
theorem doomedSup : ∃ os l, Exec supSer supConf.me (Verif.World.run supSer init (supStart ++ treeOps))
    (serverLoop (supServer supConf) supConf.type supConf.me (.loc 1) 5 (fresh .oneForOne .never 3 5000 [worker "a" .permanent], 0)) os l ∧ l.ended = some (.custom "crash") := by
  have h : ∃ os l, sim supSer 2 (Verif.World.run supSer init (supStart ++ treeOps))
      (serverLoop (supServer supConf) supConf.type supConf.me (.loc 1) 5 (fresh .oneForOne .never 3 5000 [worker "a" .permanent], 0)) [.mine, .mine, .mine] = some (os, l) ∧
      l.ended = some (.custom "crash") := ⟨_, _, rfl, rfl⟩
  obtain ⟨os, l, h1, h2⟩ := h
  exact ⟨os, l, sim_exec _ _ _ _ _ _ h1, h2⟩

example : ∃ l : Log SMsg SState, l.ended = some (.custom "crash") ∧ ∃ calls last, l.calls = calls ++ last ∧ calls.length ≤ 0 := by
  obtain ⟨os, l, h1, h2⟩ := doomedSup
  obtain ⟨-, calls, last, h3, h4, -⟩ := C142_soon supConf supSer 1 0 (supConf_tidy 1) _ ⟨supStart ++ treeOps, rfl⟩ (by decide) ⟨_, rfl, by decide, by decide⟩ 5 _
    (by intro c hc; simp [fresh] at hc; subst hc; simp) os l h1
  exact ⟨l, h2, calls, last, h3, h4⟩

end Verif.Sup
