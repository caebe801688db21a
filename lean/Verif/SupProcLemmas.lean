import Verif.SupProc
import Verif.SupervisorRetryProps
import Verif.RegistryInv
/-!
# Routines and the decisions they make

The routines of `SupProc.lean`, evaluated with given outcomes of the start routines, are the functions of `Supervisor.lean` (`Same`); a program made of a
routine performs its effects one after the other (`Performs`).
-/
namespace Verif.Sup
open Verif.World Verif.Mailbox
variable {B V R R' X : Type}

/-- The routine with the outcomes of `o` for the start routines, from the `n`-th run on: the number of runs, the effects and the result. -/
def Sk.eval (o : Oracle) : Nat → Sk R → Option (Nat × List Eff × R)
  | n, .ret r => some (n, [], r)
  | n, .start c k => ((k (o n c)).eval o (n + 1)).map fun q => (q.1, .start c.id (o n c) :: q.2.1, q.2.2)
  | n, .stop p how k => (k.eval o n).map fun q => (q.1, .stop p how :: q.2.1, q.2.2)
  | n, .cast _ k => k.eval o n
  | _, .panic => none

theorem eval_bind (o : Oracle) (x : Sk R) (f : R → Sk R') : ∀ n, (x.bind f).eval o n =
    (x.eval o n).bind fun q => ((f q.2.2).eval o q.1).map fun q' => (q'.1, q.2.1 ++ q'.2.1, q'.2.2) := by
  induction x with
  | ret r => intro n; simp [Sk.bind, Sk.eval]
  | start c k ih =>
    intro n
    simp only [Sk.bind, Sk.eval, ih, Option.map_bind, Option.bind_map]
    congr 1
    funext q
    simp [Function.comp_def]
  | stop p how k ih =>
    intro n
    simp only [Sk.bind, Sk.eval, ih, Option.map_bind, Option.bind_map]
    congr 1
    funext q
    simp [Function.comp_def]
  | cast id k ih => intro n; simp only [Sk.bind, Sk.eval, ih]
  | panic => intro n; simp [Sk.bind, Sk.eval]

/-- The retries that the routine sends to itself, with the same outcomes. -/
def Sk.retries (o : Oracle) : Nat → Sk R → List String
  | _, .ret _ => []
  | n, .start c k => (k (o n c)).retries o (n + 1)
  | n, .stop _ _ k => k.retries o n
  | n, .cast id k => id :: k.retries o n
  | _, .panic => []

theorem retries_bind (o : Oracle) (x : Sk R) (f : R → Sk R') : ∀ n q, x.eval o n = some q →
    (x.bind f).retries o n = x.retries o n ++ (f q.2.2).retries o q.1 := by
  induction x with
  | ret r => intro n q h; simp [Sk.eval] at h; subst h; simp [Sk.bind, Sk.retries]
  | start c k ih =>
    intro n q h
    simp only [Sk.eval, Option.map_eq_some_iff] at h
    obtain ⟨q', h1, rfl⟩ := h
    simp only [Sk.bind, Sk.retries]
    exact ih _ _ _ h1
  | stop p how k ih =>
    intro n q h
    simp only [Sk.eval, Option.map_eq_some_iff] at h
    obtain ⟨q', h1, rfl⟩ := h
    simp only [Sk.bind, Sk.retries]
    exact ih _ _ h1
  | cast id k ih =>
    intro n q h
    simp only [Sk.bind, Sk.retries, List.cons_append]
    rw [ih _ _ h]
  | panic => intro n q h; simp [Sk.eval] at h

/-- The routine `x`, started in state `s`, does with the outcomes `o` what `y` says: it panics, or it returns the same, its effects are exactly
those that are appended to the log, and the retries that it sends those that are appended to the casts. -/
def Same (o : Oracle) (s : Sup) (proj : R → Sup) (x : Sk R) (y : Option R) : Prop :=
  match y with
  | none => x.eval o s.calls = none
  | some r => ∃ fx, x.eval o s.calls = some ((proj r).calls, fx, r) ∧ (proj r).log = s.log ++ fx ∧
      (proj r).casts = s.casts ++ x.retries o s.calls

theorem Same.ret {o : Oracle} {s : Sup} {proj : R → Sup} {r : R} (h1 : (proj r).calls = s.calls) (h2 : (proj r).log = s.log)
    (h3 : (proj r).casts = s.casts := by rfl) :
    Same o s proj (.ret r) (some r) := ⟨[], by simp [Sk.eval, h1], by simp [h2], by simp [h3, Sk.retries]⟩

theorem Same.panic {o : Oracle} {s : Sup} {proj : R → Sup} : Same o s proj .panic none := rfl

theorem Same.pure {o : Oracle} {s : Sup} {proj : R → Sup} {y : Option R} (h : ∀ r, y = some r → (proj r).calls = s.calls ∧ (proj r).log = s.log ∧ (proj r).casts = s.casts) :
    Same o s proj (.pure y) y := by
  cases y with
  | none => exact Same.panic
  | some r => exact Same.ret (h r rfl).1 (h r rfl).2.1 (h r rfl).2.2

theorem Same.bind {o : Oracle} {s : Sup} {p1 : R → Sup} {p2 : R' → Sup} {x : Sk R} {y : Option R} {f : R → Sk R'} {g : R → Option R'}
    (h : Same o s p1 x y) (hf : ∀ r, Same o (p1 r) p2 (f r) (g r)) : Same o s p2 (x.bind f) (y.bind g) := by
  cases y with
  | none => simp only [Same] at h; simp [Same, eval_bind, h]
  | some r =>
    obtain ⟨fx, h1, h2, h2'⟩ := h
    have h3 := hf r
    simp only [Option.bind_some]
    cases hg : g r with
    | none => rw [hg] at h3; simp only [Same] at h3 ⊢; simp [eval_bind, h1, h3]
    | some r' =>
      rw [hg] at h3
      obtain ⟨fx', h4, h5, h6⟩ := h3
      exact ⟨fx ++ fx', by simp [eval_bind, h1, h4], by rw [h5, h2, List.append_assoc], by
        rw [retries_bind o x f _ _ h1, h6, h2', List.append_assoc]⟩

theorem Same.stop {o : Oracle} {s s1 : Sup} {proj : R → Sup} {p : Pid} {how : Shutdown} {k : Sk R} {y : Option R}
    (h1 : s1.calls = s.calls) (h2 : s1.log = s.log ++ [.stop p how]) (h : Same o s1 proj k y) (h3 : s1.casts = s.casts := by rfl) :
    Same o s proj (.stop p how k) y := by
  cases y with
  | none => simp only [Same] at h ⊢; rw [h1] at h; simp [Sk.eval, h]
  | some r =>
    obtain ⟨fx, h4, h5, h6⟩ := h
    rw [h1] at h4 h6
    exact ⟨.stop p how :: fx, by simp [Sk.eval, h4], by rw [h5, h2]; simp, by rw [h6, h3]; rfl⟩

theorem Same.cast {o : Oracle} {s : Sup} {proj : R → Sup} {id : String} {k : Sk R} {y : Option R}
    (h : Same o { s with casts := s.casts ++ [id] } proj k y) : Same o s proj (.cast id k) y := by
  cases y with
  | none => exact h
  | some r =>
    obtain ⟨fx, h1, h2, h3⟩ := h
    exact ⟨fx, h1, h2, by rw [h3]; simp [Sk.retries]⟩

theorem Same.of_eq {o : Oracle} {s : Sup} {proj : R → Sup} {x : Sk R} {y z : Option R} (h : y = z) (hs : Same o s proj x y) : Same o s proj x z := h ▸ hs

/-! ## The routines are the functions of `Supervisor.lean` -/

theorem startAt_same (o : Oracle) (s : Sup) (i : Nat) : Same o s Prod.fst (startAtK s i) (startAt o s i) := by
  unfold startAtK startAt
  cases s.children[i]? with
  | none => exact Same.panic
  | some c =>
    simp only
    split
    · generalize hr : o s.calls c.spec = r
      rcases r with (_ | _ | _ | _) | p <;>
        exact ⟨[.start c.spec.id (o s.calls c.spec)], by simp [Sk.eval, hr], by simp [hr], by simp [hr, Sk.retries]⟩
    · exact Same.panic

theorem startAll_same (o : Oracle) (is : List Nat) : ∀ s, Same o s Prod.fst (startAllK s is) (startAll o s is) := by
  induction is with
  | nil => intro s; exact Same.ret rfl rfl
  | cons i is ih =>
    intro s
    have : startAll o s (i :: is) = (startAt o s i).bind fun r => match r with
        | (s, .ok pid) => startAll o (started s i pid) is
        | (s, .error e) => some (s, some (i, e)) := by
      simp only [startAll]; rcases startAt o s i with _ | ⟨s1, r | r⟩ <;> rfl
    rw [this]
    refine Same.bind (startAt_same o s i) ?_
    rintro ⟨s1, e | pid⟩
    · exact Same.ret rfl rfl
    · exact ih (started s1 i pid)

theorem removeChild_frame {s : Sup} {i : Nat} {r : Sup × Child} (h : removeChild s i = some r) :
    r.1.calls = s.calls ∧ r.1.log = s.log ∧ r.1.casts = s.casts := by
  simp only [removeChild] at h
  split at h
  · simp at h
  · simp only [Option.some.injEq] at h; subst h; exact ⟨rfl, rfl, rfl⟩

theorem removeAll_frame (is : List Nat) : ∀ {s s' : Sup}, removeAll s is = some s' →
    s'.calls = s.calls ∧ s'.log = s.log ∧ s'.casts = s.casts := by
  induction is with
  | nil => intro s s' h; simp only [removeAll, Option.some.injEq] at h; subst h; exact ⟨rfl, rfl, rfl⟩
  | cons i is ih =>
    intro s s' h
    simp only [removeAll, Option.bind_eq_some_iff] at h
    obtain ⟨r, h1, h2⟩ := h
    have a := removeChild_frame h1
    have b := ih h2
    exact ⟨b.1.trans a.1, b.2.1.trans a.2.1, b.2.2.trans a.2.2⟩

theorem startChildren_same (o : Oracle) (s : Sup) : Same o s Prod.fst (startChildrenK s) (startChildren o s) := by
  have : startChildren o s = (startAll o s (List.range s.children.length)).bind fun r => match r with
      | (s, some _) => some (s, .error (.custom "failed_to_start_child"))
      | (s, none) => (removeAll s ((List.range s.children.length).filter fun i =>
          (s.children[i]?).any fun c => c.spec.restart = .temporary && c.pid.isNone).reverse).map fun s => (s, .ok ()) := by
    simp only [startChildren]; rcases startAll o s _ with _ | ⟨s1, _ | r⟩ <;> rfl
  rw [this]
  refine Same.bind (startAll_same o _ s) ?_
  rintro ⟨s1, _ | r⟩
  · refine Same.pure ?_
    intro r hr
    simp only [Option.map_eq_some_iff] at hr
    obtain ⟨s2, h2, rfl⟩ := hr
    exact removeAll_frame _ h2
  · exact Same.ret rfl rfl

theorem terminateLoop_same (o : Oracle) (is : List Nat) : ∀ s, Same o s id (terminateLoopK s is) (terminateLoop s is) := by
  induction is with
  | nil => intro s; exact Same.ret rfl rfl
  | cons i is ih =>
    intro s
    simp only [terminateLoopK, terminateLoop]
    cases s.children[i]? with
    | none => exact Same.panic
    | some c =>
      simp only
      cases c.pid with
      | none => exact ih s
      | some p =>
        exact Same.stop (s1 := { s with children := s.children.modify i fun c => { c with pid := none }, log := s.log ++ [.stop p (howTo c.spec)] })
          rfl rfl (ih _)

theorem terminateChildren_same (o : Oracle) (s : Sup) : Same o s id (terminateChildrenK s) (terminateChildren s) := by
  refine Same.bind (terminateLoop_same o _ s) ?_
  intro s1
  exact Same.pure fun r hr => removeAll_frame _ hr

theorem terminateAt_same (o : Oracle) (s : Sup) (i : Nat) : Same o s id (terminateAtK s i) (terminateAt s i) := by
  simp only [terminateAtK, terminateAt]
  cases s.children[i]? with
  | none => exact Same.panic
  | some c =>
    simp only
    cases c.pid with
    | none => exact Same.ret rfl rfl
    | some p =>
      exact Same.stop (s1 := { s with children := s.children.modify i fun c => { c with pid := none, restarting := false },
                                      log := s.log ++ [.stop p (howTo c.spec)] }) rfl rfl (Same.ret rfl rfl)

theorem initChildren_same (o : Oracle) (s : Sup) : Same o s Prod.fst (initChildrenK s) (initChildren o s) := by
  have : initChildren o s = (startChildren o s).bind fun r => match r with
      | (s, .ok ()) => some (s, .ok ())
      | (s, .error e) => (terminateChildren s).bind fun s => some (s, .error e) := by
    simp only [initChildren]; rcases startChildren o s with _ | ⟨s1, e | u⟩
    · rfl
    · simp only [Option.bind_some, Option.map_eq_bind]; rfl
    · rfl
  rw [this]
  refine Same.bind (startChildren_same o s) ?_
  rintro ⟨s1, e | u⟩
  · exact Same.bind (terminateChildren_same o s1) fun s2 => Same.ret rfl rfl
  · exact Same.ret rfl rfl

theorem terminateChild_same (o : Oracle) (s : Sup) (id' : String) : Same o s Prod.fst (terminateChildK s id') (terminateChild s id') := by
  simp only [terminateChildK, terminateChild]
  cases indexOf s id' with
  | none => exact Same.ret rfl rfl
  | some i =>
    simp only [Option.map_eq_bind]
    exact Same.bind (terminateAt_same o s i) fun s2 => Same.ret rfl rfl

theorem restartChild_same (o : Oracle) (s : Sup) (id' : String) : Same o s Prod.fst (restartChildK s id') (restartChild o s id') := by
  simp only [restartChildK, restartChild]
  cases indexOf s id' with
  | none => exact Same.ret rfl rfl
  | some i =>
    simp only
    cases s.children[i]? with
    | none => exact Same.panic
    | some c =>
      simp only
      split
      · exact Same.ret rfl rfl
      · split
        · exact Same.ret rfl rfl
        · refine Same.of_eq ?_ (Same.bind (p2 := Prod.fst) (g := fun r => match r with
              | (s, .ok pid) => some (started s i pid, .ok pid)
              | (s, .error e) => some (s, .error (.startError e))) (startAt_same o s i) ?_)
          · rcases startAt o s i with _ | ⟨s1, e | u⟩ <;> rfl
          · rintro ⟨s1, e | pid⟩ <;> exact Same.ret rfl rfl

theorem startChild_same (o : Oracle) (s : Sup) (spec : Spec) : Same o s Prod.fst (startChildK s spec) (startChild o s spec) := by
  simp only [startChildK, startChild]
  split
  · cases s.children.find? fun c => decide (c.spec.id = spec.id) with
    | none => exact Same.panic
    | some c => simp only; split <;> exact Same.ret rfl rfl
  · have key : ∀ n, Same o s Prod.fst (startAtK { s with ids := spec.id :: s.ids, children := s.children ++ [⟨spec, none, false⟩] } n)
        (startAt o { s with ids := spec.id :: s.ids, children := s.children ++ [⟨spec, none, false⟩] } n) := fun n => startAt_same o _ n
    generalize ({ s with ids := spec.id :: s.ids, children := s.children ++ [⟨spec, none, false⟩] } : Sup) = s1 at *
    generalize ((s.children ++ [(⟨spec, none, false⟩ : Child)]).length - 1) = n
    refine Same.of_eq ?_ (Same.bind (p2 := Prod.fst) (g := fun r => match r with
        | (s, .ok pid) =>
          if spec.restart = .temporary ∧ pid = none then
            some ({ started s (s.children.length - 1) pid with children := (started s (s.children.length - 1) pid).children.eraseIdx (s.children.length - 1) }, .ok pid)
          else some (started s (s.children.length - 1) pid, .ok pid)
        | (s, .error e) => some (s, .error (.startError e))) (key n) ?_)
    · rcases startAt o s1 n with _ | ⟨s2, e | u⟩ <;> rfl
    · rintro ⟨s2, e | pid⟩
      · exact Same.ret rfl rfl
      · simp only; split <;> exact Same.ret rfl rfl

theorem terminateOthers_same (o : Oracle) (i : Nat) (js : List Nat) : ∀ s, Same o s id (terminateOthersK s i js) (terminateOthers s i js) := by
  induction js with
  | nil => intro s; exact Same.ret rfl rfl
  | cons j js ih =>
    intro s
    simp only [terminateOthersK, terminateOthers]
    split
    · exact ih s
    · exact Same.bind (terminateAt_same o s j) fun s1 => ih s1

theorem restartMany_same (o : Oracle) (s : Sup) (i : Nat) (all : Bool) : Same o s Prod.fst (restartManyK s i all) (restartMany o s i all) :=
  Same.bind (terminateOthers_same o i _ s) fun s1 => startAll_same o _ s1

theorem failed_same (o : Oracle) (s : Sup) (i : Nat) : Same o s id (failedK s i) (failed s i) := by
  simp only [failedK, failed]
  cases s.children[i]? with
  | none => exact Same.panic
  | some c => exact Same.cast (Same.ret rfl rfl)

theorem restart_same (o : Oracle) (s : Sup) (i : Nat) : Same o s id (restartK s i) (restart o s i) := by
  have many : ∀ all, Same o s id ((restartManyK s i all).bind fun r => match r with
        | (s, none) => .ret s
        | (s, some (j, _)) => failedK s j) (match restartMany o s i all with
        | none => none
        | some (s, none) => some s
        | some (s, some (j, _)) => failed s j) := by
    intro all
    have : (match restartMany o s i all with
        | none => none
        | some (s, none) => some s
        | some (s, some (j, _)) => failed s j) = (restartMany o s i all).bind fun r => match r with
        | (s, none) => some s
        | (s, some (j, _)) => failed s j := by
      rcases restartMany o s i all with _ | ⟨s1, _ | ⟨j, e⟩⟩ <;> rfl
    rw [this]
    refine Same.bind (restartMany_same o s i all) ?_
    rintro ⟨s1, _ | ⟨j, e⟩⟩
    · exact Same.ret rfl rfl
    · exact failed_same o s1 j
  simp only [restartK, restart]
  cases s.strategy with
  | oneForOne =>
    refine Same.of_eq ?_ (Same.bind (p2 := id) (g := fun r => match r with
        | (s, .ok pid) => some (started s i pid)
        | (s, .error _) => failed s i) (startAt_same o s i) ?_)
    · rcases startAt o s i with _ | ⟨s1, e | u⟩ <;> rfl
    · rintro ⟨s1, e | pid⟩
      · exact failed_same o s1 i
      · exact Same.ret rfl rfl
  | restForOne => exact many false
  | oneForAll => exact many true

theorem again_same (o : Oracle) (s : Sup) (i : Nat) : Same o s Prod.fst ((restartK s i).bind fun s => .ret (s, (none : Option ExitReason)))
    ((restart o s i).map fun s => (s, none)) := by
  rw [Option.map_eq_bind]
  exact Same.bind (restart_same o s i) fun s1 => Same.ret rfl rfl

theorem childExited_same (o : Oracle) (s : Sup) (now : Nat) (pid : Pid) (reason : ExitReason) :
    Same o s Prod.fst (childExitedK s now pid reason) (childExited o s now pid reason) := by
  simp only [childExitedK, childExited]
  cases indexOfPid s pid with
  | none => exact Same.ret rfl rfl
  | some i =>
    simp only
    cases s.children[i]? with
    | none => exact Same.panic
    | some c =>
      have h1 : Same o s Prod.fst (if (addRestart s now).2 = true then .ret ((addRestart s now).1, some shutdownReason)
          else (restartK (addRestart s now).1 i).bind fun s => .ret (s, none))
          (if (addRestart s now).2 = true then some ((addRestart s now).1, some shutdownReason)
          else (restart o (addRestart s now).1 i).map fun s => (s, none)) := by
        split
        · exact Same.ret rfl rfl
        · have := again_same o (addRestart s now).1 i
          exact this
      have h2 : Same o s Prod.fst (.pure ((removeChild s i).map fun r => (r.1, if autoStops r.1 r.2 = true then some shutdownReason else none)))
          ((removeChild s i).map fun r => (r.1, if autoStops r.1 r.2 = true then some shutdownReason else none)) := by
        refine Same.pure ?_
        intro r hr
        simp only [Option.map_eq_some_iff] at hr
        obtain ⟨r1, h2, rfl⟩ := hr
        exact removeChild_frame h2
      simp only
      split
      · exact h1
      · split
        · exact h2
        · split
          · exact h1
          · exact h2

theorem tryAgain_same (o : Oracle) (s : Sup) (now i : Nat) : Same o s Prod.fst (tryAgainK s now i) (tryAgain o s now i) := by
  simp only [tryAgainK, tryAgain]
  split
  · exact Same.ret rfl rfl
  · cases (addRestart s now).1.children[i]? with
    | none => exact Same.panic
    | some c =>
      simp only
      split
      · exact again_same o (addRestart s now).1 i
      · exact Same.ret rfl rfl

end Verif.Sup
