import Verif.SupNoticeProps
import Verif.OrphanProps
import Verif.TwoNodeLemmas
/-!
# C142: a supervision tree comes down with its root
-/
namespace Verif.Sup
open Verif.World Verif.Mailbox
variable {B V R R' : Type}

/-! ## Specification -/

/-- The start routines of the supervisor have nothing to do with `t`, the supervisor's own parent: they do not return it as a child, and they leave its end to the loop of the supervisor. -/
structure Tidy (cf : Conf B V) (ser : V → B) (t : Nat) : Prop where
  other : ∀ n c w ops, Reachable ser w → t < w.nextPid → ¬ Exec ser cf.me w (cf.startOf n c) ops (.ok (.loc t))
  leaves : ∀ n c w ops r, Reachable ser w → Exec ser cf.me w (cf.startOf n c) ops r → ∀ o ∈ ops, Leaves cf.me t o

/-- `p` is not a child of the supervisor. -/
def NoChild (p : Pid) (s : Sup) : Prop := ∀ c ∈ s.children, c.pid ≠ some p

/-! ## Routines that leave a process alone -/

/-- The routine shuts down only processes other than `p`, and its result satisfies `P`, as long as no start routine returns `p`. -/
inductive Avoids (p : Pid) (P : R → Prop) : Sk R → Prop
  | ret {r} : P r → Avoids p P (.ret r)
  | start {c k} : (∀ x, x ≠ .ok p → Avoids p P (k x)) → Avoids p P (.start c k)
  | stop {q how k} : q ≠ p → Avoids p P k → Avoids p P (.stop q how k)
  | cast {id k} : Avoids p P k → Avoids p P (.cast id k)
  | panic : Avoids p P .panic

theorem Avoids.bind {p : Pid} {P : R → Prop} {P' : R' → Prop} {x : Sk R} {f : R → Sk R'} (h : Avoids p P x) (hf : ∀ r, P r → Avoids p P' (f r)) :
    Avoids p P' (x.bind f) := by
  induction h with
  | ret h => exact hf _ h
  | start _ ih => exact .start ih
  | stop h _ ih => exact .stop h ih
  | cast _ ih => exact .cast ih
  | panic => exact .panic

theorem Avoids.pure {p : Pid} {P : R → Prop} {x : Option R} (h : ∀ r, x = some r → P r) : Avoids p P (Sk.pure x) := by
  cases x with
  | none => exact .panic
  | some r => exact .ret (h r rfl)

theorem noChild_of {p : Pid} {s s' : Sup} (h : NoChild p s) (hs : ∀ c ∈ s'.children, c.pid = none ∨ ∃ d ∈ s.children, c.pid = d.pid) : NoChild p s' := by
  intro c hc
  rcases hs c hc with e | ⟨d, hd, e⟩
  · simp [e]
  · rw [e]; exact h d hd

theorem mem_modify {α : Type} {l : List α} {i : Nat} {f : α → α} {x : α} (h : x ∈ l.modify i f) : ∃ y ∈ l, x = y ∨ x = f y := by
  rw [List.mem_iff_getElem?] at h
  obtain ⟨j, hj⟩ := h
  rw [List.getElem?_modify] at hj
  rcases e : l[j]? with _ | y
  · rw [e] at hj; simp at hj
  · rw [e] at hj
    have hy := List.mem_of_getElem? e
    by_cases hij : i = j
    · simp [hij] at hj; exact ⟨y, hy, .inr hj.symm⟩
    · simp [hij] at hj; exact ⟨y, hy, .inl hj.symm⟩

theorem noChild_modify {p : Pid} {s : Sup} {i : Nat} {f : Child → Child} (h : NoChild p s) (hf : ∀ c, (f c).pid = c.pid ∨ (f c).pid ≠ some p) :
    ∀ c ∈ s.children.modify i f, c.pid ≠ some p := by
  intro c hc
  obtain ⟨d, hd, rfl | rfl⟩ := mem_modify hc
  · exact h _ hd
  · rcases hf d with e | e
    · rw [e]; exact h _ hd
    · exact e

theorem noChild_erase {p : Pid} {s : Sup} {i : Nat} (h : NoChild p s) : ∀ c ∈ s.children.eraseIdx i, c.pid ≠ some p :=
  fun c hc => h c (List.mem_of_mem_eraseIdx hc)

theorem noChild_started {p : Pid} {s : Sup} (h : NoChild p s) (i : Nat) {q : Option Pid} (hq : q ≠ some p) : NoChild p (started s i q) :=
  noChild_modify h fun _ => .inr hq

theorem noChild_remove {p : Pid} {s : Sup} {i : Nat} {r : Sup × Child} (h : NoChild p s) (hr : removeChild s i = some r) : NoChild p r.1 := by
  rw [removeChild] at hr
  split at hr
  · cases hr
  · cases hr; exact noChild_erase h

theorem noChild_removeAll {p : Pid} {is : List Nat} : ∀ {s s' : Sup}, NoChild p s → removeAll s is = some s' → NoChild p s' := by
  induction is with
  | nil => intro s s' h hr; cases hr; exact h
  | cons i is ih =>
    intro s s' h hr
    rw [removeAll] at hr
    cases e : removeChild s i with
    | none => rw [e] at hr; cases hr
    | some r => rw [e] at hr; exact ih (noChild_remove h e) hr

theorem avoids_startAt {p : Pid} {s : Sup} (h : NoChild p s) (i : Nat) : Avoids p (fun r => NoChild p r.1 ∧ r.2 ≠ .ok (some p)) (startAtK s i) := by
  rw [startAtK]
  split
  · exact .panic
  · split
    · refine .start fun x hx => ?_
      split
      · exact .ret ⟨h, by simpa using hx⟩
      · exact .ret ⟨h, by simp⟩
      · exact .ret ⟨h, by simp⟩
    · exact .panic

theorem avoids_startAll {p : Pid} {is : List Nat} : ∀ {s : Sup}, NoChild p s → Avoids p (fun r => NoChild p r.1) (startAllK s is) := by
  induction is with
  | nil => intro s h; exact .ret h
  | cons i is ih =>
    intro s h
    rw [startAllK]
    refine (avoids_startAt h i).bind ?_
    rintro ⟨s', x⟩ ⟨h1, h2⟩
    rcases x with e | q
    · exact .ret h1
    · exact ih (noChild_started h1 i (by rintro rfl; exact h2 rfl))

theorem avoids_startChildren {p : Pid} {s : Sup} (h : NoChild p s) : Avoids p (fun r => NoChild p r.1) (startChildrenK s) := by
  rw [startChildrenK]
  refine (avoids_startAll h).bind ?_
  rintro ⟨s', x⟩ h1
  cases x with
  | some e => exact .ret h1
  | none =>
    refine .pure fun r hr => ?_
    simp only [Option.map_eq_some_iff] at hr
    obtain ⟨s'', e, rfl⟩ := hr
    exact noChild_removeAll h1 e

theorem avoids_terminateLoop {p : Pid} {is : List Nat} : ∀ {s : Sup}, NoChild p s → Avoids p (NoChild p) (terminateLoopK s is) := by
  induction is with
  | nil => intro s h; exact .ret h
  | cons i is ih =>
    intro s h
    rw [terminateLoopK]
    split
    · exact .panic
    · rename_i c hc
      split
      · exact ih h
      · rename_i q hq
        refine .stop ?_ (ih (noChild_modify h fun _ => .inr (by simp)))
        rintro rfl
        exact h c (List.mem_of_getElem? hc) hq

theorem avoids_terminateChildren {p : Pid} {s : Sup} (h : NoChild p s) : Avoids p (NoChild p) (terminateChildrenK s) := by
  rw [terminateChildrenK]
  refine (avoids_terminateLoop h).bind fun r hr => .pure fun s' e => ?_
  exact noChild_removeAll hr e

theorem avoids_terminateAt {p : Pid} {s : Sup} (h : NoChild p s) (i : Nat) : Avoids p (NoChild p) (terminateAtK s i) := by
  rw [terminateAtK]
  split
  · exact .panic
  · rename_i c hc
    split
    · exact .ret h
    · rename_i q hq
      refine .stop ?_ (.ret (noChild_modify h fun _ => .inr (by simp)))
      rintro rfl
      exact h c (List.mem_of_getElem? hc) hq

theorem avoids_init {p : Pid} {s : Sup} (h : NoChild p s) : Avoids p (fun r => NoChild p r.1) (initChildrenK s) := by
  rw [initChildrenK]
  refine (avoids_startChildren h).bind ?_
  rintro ⟨s', x⟩ h1
  rcases x with e | u
  · exact (avoids_terminateChildren h1).bind fun r hr => .ret hr
  · exact .ret h1

theorem avoids_terminateChild {p : Pid} {s : Sup} (h : NoChild p s) (id : String) : Avoids p (fun r => NoChild p r.1) (terminateChildK s id) := by
  rw [terminateChildK]
  split
  · exact .ret h
  · exact (avoids_terminateAt h _).bind fun r hr => .ret hr

theorem avoids_restartChild {p : Pid} {s : Sup} (h : NoChild p s) (id : String) : Avoids p (fun r => NoChild p r.1) (restartChildK s id) := by
  rw [restartChildK]
  split
  · exact .ret h
  · split
    · exact .panic
    · split
      · exact .ret h
      · split
        · exact .ret h
        · refine (avoids_startAt h _).bind ?_
          rintro ⟨s', x⟩ ⟨h1, h2⟩
          rcases x with e | q
          · exact .ret h1
          · exact .ret (noChild_started h1 _ (by rintro rfl; exact h2 rfl))

theorem avoids_startChild {p : Pid} {s : Sup} (h : NoChild p s) (spec : Spec) : Avoids p (fun r => NoChild p r.1) (startChildK s spec) := by
  rw [startChildK]
  split
  · split
    · exact .panic
    · split <;> exact .ret h
  · have h' : NoChild p { s with ids := spec.id :: s.ids, children := s.children ++ [⟨spec, none, false⟩] } := by
      intro c hc
      rcases List.mem_append.1 hc with hc | hc
      · exact h c hc
      · rw [List.mem_singleton] at hc; subst hc; simp
    refine (avoids_startAt h' _).bind ?_
    rintro ⟨s', x⟩ ⟨h1, h2⟩
    rcases x with e | q
    · exact .ret h1
    · have h3 := noChild_started (i := s'.children.length - 1) h1 (q := q) (by rintro rfl; exact h2 rfl)
      simp only
      split
      · exact .ret (noChild_erase h3)
      · exact .ret h3

theorem avoids_terminateOthers {p : Pid} {i : Nat} {js : List Nat} : ∀ {s : Sup}, NoChild p s → Avoids p (NoChild p) (terminateOthersK s i js) := by
  induction js with
  | nil => intro s h; exact .ret h
  | cons j js ih =>
    intro s h
    rw [terminateOthersK]
    split
    · exact ih h
    · exact (avoids_terminateAt h j).bind fun r hr => ih hr

theorem avoids_restartMany {p : Pid} {s : Sup} (h : NoChild p s) (i : Nat) (all : Bool) : Avoids p (fun r => NoChild p r.1) (restartManyK s i all) :=
  (avoids_terminateOthers h).bind fun _ hr => avoids_startAll hr

theorem avoids_failed {p : Pid} {s : Sup} (h : NoChild p s) (i : Nat) : Avoids p (NoChild p) (failedK s i) := by
  rw [failedK]
  split
  · exact .panic
  · exact .cast (.ret (noChild_modify h fun _ => .inl rfl))

theorem avoids_restart {p : Pid} {s : Sup} (h : NoChild p s) (i : Nat) : Avoids p (NoChild p) (restartK s i) := by
  have many : ∀ all, Avoids p (NoChild p) ((restartManyK s i all).bind fun
      | (s, none) => .ret s
      | (s, some (j, _)) => failedK s j) := by
    intro all
    refine (avoids_restartMany h i all).bind ?_
    rintro ⟨s', x⟩ h1
    rcases x with _ | ⟨j, e⟩
    · exact .ret h1
    · exact avoids_failed h1 j
  rw [restartK]
  split
  · refine (avoids_startAt h i).bind ?_
    rintro ⟨s', x⟩ ⟨h1, h2⟩
    rcases x with e | q
    · exact avoids_failed h1 i
    · exact .ret (noChild_started h1 _ (by rintro rfl; exact h2 rfl))
  · exact many false
  · exact many true

theorem avoids_childExited {p : Pid} {s : Sup} (h : NoChild p s) (now : Nat) (q : Pid) (r : ExitReason) : Avoids p (fun x => NoChild p x.1) (childExitedK s now q r) := by
  rw [childExitedK]
  split
  · exact .ret h
  · split
    · exact .panic
    · rename_i i _ _ _ _
      have again : Avoids p (fun x => NoChild p x.1) (if (addRestart s now).2 then (.ret ((addRestart s now).1, some shutdownReason) : Sk (Sup × Option ExitReason))
          else (restartK (addRestart s now).1 i).bind fun s => .ret (s, none)) := by
        split
        · exact .ret h
        · exact (avoids_restart (s := (addRestart s now).1) h i).bind fun r hr => .ret hr
      have drop : Avoids p (fun x => NoChild p x.1)
          (Sk.pure ((removeChild s i).map fun r => (r.1, if autoStops r.1 r.2 then some shutdownReason else none)) : Sk (Sup × Option ExitReason)) := by
        refine .pure fun x hx => ?_
        simp only [Option.map_eq_some_iff] at hx
        obtain ⟨y, e, rfl⟩ := hx
        exact noChild_remove h e
      simp only
      split
      · exact again
      · split
        · exact drop
        · split
          · exact again
          · exact drop

theorem avoids_tryAgain {p : Pid} {s : Sup} (h : NoChild p s) (now i : Nat) : Avoids p (fun x => NoChild p x.1) (tryAgainK s now i) := by
  rw [tryAgainK]
  split
  · exact .ret h
  · split
    · exact .panic
    · split
      · exact (avoids_restart (s := (addRestart s now).1) h i).bind fun r hr => .ret hr
      · exact .ret h

/-! ## What such a routine does in the node -/

theorem shuts_leaves {u : RecvType B V Unit} {me t : Nat} {p : Pid} (hp : p ≠ .loc t) {o : Op B V} (h : Shuts u me p o) : Leaves me t o :=
  shuts_gentle hp h

theorem avoids_leaves {cf : Conf B V} {ser : V → B} {t : Nat} (ht : Tidy cf ser t) {dead : R} {P : R → Prop} (hd : P dead) {x : Sk R} (hx : Avoids (.loc t) P x) :
    ∀ {w : World B V} {n : Nat} {ops : List (Op B V)} {r : R}, Reachable ser w → t < w.nextPid → Exec ser cf.me w (x.prog cf dead n) ops r → P r ∧ ∀ o ∈ ops, Leaves cf.me t o := by
  induction hx with
  | ret h =>
    intro w n ops r hre hlt hx
    obtain ⟨rfl, ho⟩ := exec_ret_inv hx
    exact ⟨h, fun o h => leaves_others (ho o h)⟩
  | @start c k _ ih =>
    intro w n ops r hre hlt hx
    obtain ⟨os1, os2, y, rfl, h1, h2⟩ := exec_bind_inv hx
    have hy : y ≠ .ok (.loc t) := by rintro rfl; exact ht.other _ _ _ _ hre hlt h1
    obtain ⟨h3, h4⟩ := ih y hy (reach_run hre os1) (Nat.lt_of_lt_of_le hlt (nextPid_run ser _ _)) h2
    refine ⟨h3, fun o ho => ?_⟩
    rcases List.mem_append.1 ho with h | h
    · exact ht.leaves _ _ _ _ _ hre h1 o h
    · exact h4 o h
  | stop hq _ ih =>
    intro w n ops r hre hlt hx
    obtain ⟨os1, os2, y, rfl, h1, h2⟩ := exec_bind_inv hx
    obtain ⟨h3, h4⟩ := ih (reach_run hre os1) (Nat.lt_of_lt_of_le hlt (nextPid_run ser _ _)) h2
    refine ⟨h3, fun o ho => ?_⟩
    rcases List.mem_append.1 ho with h | h
    · exact shuts_leaves hq (shutdown_shuts h1 o h)
    · exact h4 o h
  | cast _ ih =>
    intro w n ops r hre hlt hx
    obtain ⟨os1, os2, rfl, ho, -, h2⟩ := exec_op_inv hx
    obtain ⟨h3, h4⟩ := ih (reach_step (reach_run hre os1) _) (Nat.lt_of_lt_of_le (Nat.lt_of_lt_of_le hlt (nextPid_run ser _ os1)) (nextPid_step _ _ _)) h2
    refine ⟨h3, fun o hm => ?_⟩
    rcases List.mem_append.1 hm with h | h
    · exact leaves_others (ho o h)
    · rcases List.mem_cons.1 h with rfl | h
      · exact ⟨(by rintro (h | h) <;> cases h), fun _ _ h => by cases h⟩
      · exact h4 o h
  | panic =>
    intro w n ops r hre hlt hx
    obtain ⟨os1, os2, rfl, ho, -, h2⟩ := exec_op_inv hx
    obtain ⟨os3, os4, rfl, ho3, -, h4⟩ := exec_op_inv h2
    obtain ⟨rfl, ho5⟩ := exec_ret_inv h4
    refine ⟨hd, fun o hm => ?_⟩
    simp only [List.mem_append, List.mem_cons] at hm
    rcases hm with h | rfl | h | rfl | h
    · exact leaves_others (ho o h)
    · exact ⟨(by rintro (h | h) <;> cases h), fun _ _ h => by cases h⟩
    · exact leaves_others (ho3 o h)
    · exact ⟨(by rintro (h | h) <;> cases h), fun _ _ h => by cases h⟩
    · exact leaves_others (ho5 o h)

theorem play_leaves {cf : Conf B V} {ser : V → B} {t : Nat} (ht : Tidy cf ser t) {X : Type} {dead : X} {σ : SState} (hσ : NoChild (.loc t) σ.1) {x : Sk (Sup × X)}
    (hx : Avoids (.loc t) (fun r => NoChild (.loc t) r.1) x) {w : World B V} {ops : List (Op B V)} {q : SState × X} (hre : Reachable ser w) (hlt : t < w.nextPid) (h : Exec ser cf.me w (play cf σ dead x) ops q) :
    NoChild (.loc t) q.1.1 ∧ ∀ o ∈ ops, Leaves cf.me t o := by
  obtain ⟨os1, os2, r, rfl, h1, h2⟩ := exec_bind_inv h
  obtain ⟨rfl, ho⟩ := exec_ret_inv h2
  obtain ⟨h3, h4⟩ := avoids_leaves ht (P := fun r : Sup × X => NoChild (.loc t) r.1) (dead := (σ.1, dead)) hσ hx hre hlt h1
  refine ⟨h3, fun o hm => ?_⟩
  rcases List.mem_append.1 hm with h | h
  · exact h4 o h
  · exact leaves_others (ho o h)

theorem play_leaves' {cf : Conf B V} {ser : V → B} {t : Nat} (ht : Tidy cf ser t) {X : Type} {dead : X} {σ : SState} (hσ : NoChild (.loc t) σ.1) {x : Sk (Sup × X)}
    {w : World B V} {ops : List (Op B V)} {q : SState × X} (hre : Reachable ser w) (hlt : t < w.nextPid) (h : Exec ser cf.me w (play cf σ dead x) ops q)
    (hx : Avoids (.loc t) (fun r => NoChild (.loc t) r.1) x) : NoChild (.loc t) q.1.1 ∧ ∀ o ∈ ops, Leaves cf.me t o :=
  play_leaves ht hσ hx hre hlt h

/-- A supervisor leaves the end of its parent to its loop. -/
theorem sup_leaves {cf : Conf B V} {ser : V → B} {t : Nat} (ht : Tidy cf ser t) : LeavesParent ser (supServer cf) cf.me t fun σ => NoChild (.loc t) σ.1 := by
  refine ⟨?_, ?_, ?_⟩
  · intro σ m w os r hre hlt hσ hx
    cases m with
    | tryAgainPid p =>
      simp only [supServer] at hx
      split at hx
      · exact play_leaves' ht hσ hre hlt hx ((avoids_tryAgain hσ _ _).bind fun r hr => .ret hr)
      · exact play_leaves' ht hσ hre hlt hx (.ret hσ)
    | tryAgainId id =>
      simp only [supServer] at hx
      split at hx
      · exact play_leaves' ht hσ hre hlt hx ((avoids_tryAgain (s := { σ.1 with casts := σ.1.casts.erase id }) hσ _ _).bind fun r hr => .ret hr)
      · exact play_leaves' ht hσ hre hlt hx (.ret hσ)
    | _ => exact play_leaves' ht hσ hre hlt hx .panic
  · intro σ m frm w os r hre hlt hσ hx
    cases m with
    | countChildren => exact play_leaves' ht hσ hre hlt hx (.ret hσ)
    | startChild spec => exact play_leaves' ht hσ hre hlt hx ((avoids_startChild hσ _).bind fun r hr => .ret hr)
    | terminateChild id => exact play_leaves' ht hσ hre hlt hx ((avoids_terminateChild hσ _).bind fun r hr => .ret hr)
    | restartChild id => exact play_leaves' ht hσ hre hlt hx ((avoids_restartChild hσ _).bind fun r hr => .ret hr)
    | deleteChild id =>
      simp only [supServer] at hx
      refine play_leaves' (dead := .ok none) ht hσ hre hlt hx (.ret ?_)
      simp only [deleteChild]
      repeat' split
      all_goals first | exact hσ | exact noChild_erase hσ
    | whichChildren => exact play_leaves' ht hσ hre hlt hx (.ret hσ)
    | _ => exact play_leaves' ht hσ hre hlt hx .panic
  · intro σ m w os r hre hlt hσ hx
    simp only [supServer] at hx
    split at hx
    · exact play_leaves' ht hσ hre hlt hx ((avoids_childExited hσ _ _ _).bind fun r hr => .ret hr)
    · exact play_leaves' ht hσ hre hlt hx (.ret hσ)


/-! ## C142 -/

/-- When the supervisor begins to trap exits (the first thing that it does), its parent `t` exists and is linked to it. -/
def Attached (ser : V → B) (me t : Nat) (w : World B V) (ops : List (Op B V)) : Prop :=
  ∃ osa osb, ops = osa ++ .setTrap me true :: osb ∧ (∀ o ∈ osa, o ≠ .setTrap me true) ∧ exists? (Verif.World.run ser w osa) t = true ∧
    Pid.loc me ∈ (Verif.World.run ser w osa).links t

theorem first_split {α : Type _} {x : α} {a b c d : List α} (ha : ∀ o ∈ a, o ≠ x) (hc : ∀ o ∈ c, o ≠ x) (h : a ++ x :: b = c ++ x :: d) : a = c ∧ b = d := by
  induction a generalizing c with
  | nil =>
    cases c with
    | nil => simpa using h
    | cons y c => simp only [List.nil_append, List.cons_append, List.cons.injEq] at h; exact absurd h.1.symm (hc y List.mem_cons_self)
  | cons y a ih =>
    cases c with
    | nil => simp only [List.nil_append, List.cons_append, List.cons.injEq] at h; exact absurd h.1 (ha y List.mem_cons_self)
    | cons z c =>
      simp only [List.cons_append, List.cons.injEq] at h
      obtain ⟨h1, h2⟩ := ih (fun o h => ha o (.tail _ h)) (fun o h => hc o (.tail _ h)) h.2
      exact ⟨by rw [h.1, h1], h2⟩

/-- How the life of a supervisor begins. -/
theorem life_attached {cf : Conf B V} {ser : V → B} {t : Nat} (htd : Tidy cf ser t) {w : World B V} (hw : Reachable ser w) {n : Nat}
    {st : Strategy} {au : AutoShutdown} {mr md : Nat} {cs : List Spec} {ops : List (Op B V)} {l : Log SMsg SState} {σ : SState}
    (h : Exec ser cf.me w (supLife cf (.loc t) n (fresh st au mr md cs)) ops (some l, σ)) (hat : Attached ser cf.me t w ops) :
    ∃ osa osi osb osc σ0, ops = osa ++ (osi ++ (osb ++ osc)) ∧ Watches cf.me t (Verif.World.run ser w osa) ∧ (∀ o ∈ osi, Leaves cf.me t o) ∧ NoChild (.loc t) σ0.1 ∧
      Exec ser cf.me (Verif.World.run ser w (osa ++ osi)) (serverLoop (supServer cf) cf.type cf.me (.loc t) n σ0) osb l ∧ (∀ o ∈ osc, Others cf.me o) := by
  obtain ⟨-, σ0, -, -, -, os1, os2, os3, rfl, h1, h3, h2⟩ := life_parts cf ser w hw (.loc t) n st au mr md cs ops l σ h
  obtain ⟨osa, osb, rfl, ho, hrun, hx⟩ := exec_op_inv h1
  obtain ⟨osa', osb', he, ho', hex, hlk⟩ := hat
  have hne : ∀ o ∈ osa, o ≠ (.setTrap cf.me true : Op B V) := by
    rintro o h rfl; exact (ho _ h).1 rfl
  rw [List.append_assoc, List.cons_append] at he
  obtain ⟨rfl, -⟩ := first_split hne ho' he
  have hlt : t < (Verif.World.run ser w osa).nextPid := lt_of_running (reach_run hw osa) hex
  have hst : Verif.World.step ser (Verif.World.run ser w osa) (.setTrap cf.me true) =
      ((Verif.World.step ser (Verif.World.run ser w osa) (.setTrap cf.me true)).1, (Verif.World.step ser (Verif.World.run ser w osa) (.setTrap cf.me true)).2) := rfl
  have hw1 : Watches cf.me t (Verif.World.step ser (Verif.World.run ser w osa) (.setTrap cf.me true)).1 := by
    refine ⟨setTrap_state ser _ cf.me true hrun, ?_, ?_⟩
    · have hr : Verif.World.running (Verif.World.run ser w osa) cf.me = true := hrun
      simp only [Verif.World.step, Op.caller, hr, if_true, Op.exec, modProc]
      exact hlk
    · exact exists_acts (step_acts ser _ _) t hex (by simp)
  obtain ⟨hN, hL⟩ := play_leaves' htd (σ := (fresh st au mr md cs, 0)) (by intro c hc; simp [fresh] at hc; obtain ⟨_, _, rfl⟩ := hc; simp)
    (reach_step (reach_run hw osa) _) (by have := (acts_mono_counters (step_acts ser (Verif.World.run ser w osa) (.setTrap cf.me true))).1; omega) hx
    (avoids_init (by intro c hc; simp [fresh] at hc; obtain ⟨_, _, rfl⟩ := hc; simp))
  refine ⟨osa ++ [.setTrap cf.me true], osb, os2, os3, σ0, by simp, ?_, hL, hN, ?_, h3⟩
  · rw [run_append]; exact hw1
  · simpa using h2

/-- **C142**, supervisors: a supervisor whose parent `t` existed and was linked to it when it started goes on only while the parent exists, or while the parent's exit message waits in its
mailbox (`C142_soon`) - or until it is itself killed. -/
theorem C142_supervisor (cf : Conf B V) (ser : V → B) (t : Nat) (htd : Tidy cf ser t) (hne : cf.me ≠ t) (w : World B V) (hw : Reachable ser w) (n : Nat)
    (st : Strategy) (au : AutoShutdown) (mr md : Nat) (cs : List Spec) (ops : List (Op B V)) (l : Log SMsg SState) (σ : SState)
    (h : Exec ser cf.me w (supLife cf (.loc t) n (fresh st au mr md cs)) ops (some l, σ)) (hat : Attached ser cf.me t w ops) (hend : l.ended = none) :
    exists? (Verif.World.run ser w ops) t = true ∨ Heard cf.me t (Verif.World.run ser w ops) ∨ Verif.World.running (Verif.World.run ser w ops) cf.me = false := by
  obtain ⟨osa, osi, osb, osc, σ0, rfl, h1, h2, h3, h4, h5⟩ := life_attached htd hw h hat
  have hre := reach_run hw osa
  have hk : Knows ser cf.me t (Verif.World.run ser w osa) := by
    refine ⟨hre, ?_, lt_of_running hre h1.2.2, .inl h1⟩
    obtain ⟨⟨q, hq, -⟩, -⟩ := h1
    exact lt_of_running hre (by simp [exists?, hq])
  have hk2 := leaves_knows hne h2 hk
  rw [← run_append] at hk2
  have hk3 := (loop_knows hk2.reach hne hk2 (sup_leaves htd) h3 h4 hend).others hne osc h5
  rw [← run_append, ← run_append] at hk3
  have e : osa ++ (osi ++ (osb ++ osc)) = osa ++ osi ++ (osb ++ osc) := by simp
  rw [e]
  rw [run_append ser w (osa ++ osi) (osb ++ osc)]
  rw [run_append ser w (osa ++ osi) (osb ++ osc)] at hk3
  rcases hk3.told with h | h | h
  · exact .inl h.2.2
  · exact .inr (.inl h.2)
  · exact .inr (.inr h)

/-- **C142**, and soon: when an exit message of the parent waits in the mailbox of a supervisor, behind at most `k` items, then the supervisor runs at most `k` more callbacks, and then
terminates: it shuts its children down (C113). -/
theorem C142_soon (cf : Conf B V) (ser : V → B) (t k : Nat) (htd : Tidy cf ser t) (w : World B V) (hre : Reachable ser w) (ht : t < w.nextPid) (hw : HeardWithin cf.me t k w)
    (n : Nat) (σ : SState) (hσ : ∀ c ∈ σ.1.children, c.pid ≠ some (.loc t)) (os : List (Op B V)) (l : Log SMsg SState)
    (h : Exec ser cf.me w (serverLoop (supServer cf) cf.type cf.me (.loc t) n σ) os l) :
    (l.ended = none → n ≤ k) ∧ ∃ calls last, l.calls = calls ++ last ∧ calls.length ≤ k ∧ ∀ c ∈ last, last = [c] ∧ ∃ r, c.what = .terminate r ∧ l.ended = some r :=
  C140_soon ser cf.me t k (supServer cf) cf.type n σ w os l hre ht hw (sup_leaves htd) hσ h

end Verif.Sup
