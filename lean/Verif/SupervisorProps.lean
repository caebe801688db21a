import Verif.SupervisorSteps
/-!
# Properties C61–C70 and C84: supervisors

The log of a supervisor lists every run of a start routine and every shutdown of a child, in order. The theorems hold for
all outcomes of the start routines (`o`), all specifications, all times and all event sequences.
-/
namespace Verif.Sup

/-! ## Specification -/

/-- A start routine failed (an `ignore` is not a failure: the child just has no process). -/
def Failed : Except ExitReason Pid → Bool
  | .ok _ => false
  | .error .ignore => false
  | .error _ => true

/-- The runs of the start routines of `cs`, one after the other, until one fails. `k` runs happened before. -/
def attempts (o : Oracle) : Nat → List Spec → List Eff
  | _, [] => []
  | k, c :: cs => .start c.id (o k c) :: if Failed (o k c) then [] else attempts o (k + 1) cs

/-- None of them fails. -/
def allStart (o : Oracle) : Nat → List Spec → Bool
  | _, [] => true
  | k, c :: cs => !Failed (o k c) && allStart o (k + 1) cs

/-- The processes they start, with their specification, in order. -/
def begun (o : Oracle) : Nat → List Spec → List (Spec × Pid)
  | _, [] => []
  | k, c :: cs =>
    match o k c with
    | .ok p => (c, p) :: begun o (k + 1) cs
    | .error .ignore => begun o (k + 1) cs
    | .error _ => []

/-- The running children, in order. -/
def running (s : Sup) : List (Spec × Pid) := s.children.filterMap fun c => c.pid.map fun p => (c.spec, p)

/-- How a child is to be shut down (shutdown.rs and child_spec.rs documentation): the way its specification says; without a
way given, a worker gets five seconds and a supervisor as long as it takes. -/
def manner (c : Spec) : Shutdown :=
  c.shutdown.getD (if c.childType = .supervisor then .infinity else .duration 5000)

/-- Shutting these children down, in this order, each the way its specification says. -/
def stopping (l : List (Spec × Pid)) : List Eff := l.map fun x => .stop x.2 (manner x.1)

/-- A child whose start routine was run, with this outcome. -/
def after (c : Child) : Except ExitReason Pid → Child
  | .ok p => ⟨c.spec, some p, false⟩
  | .error .ignore => ⟨c.spec, none, false⟩
  | .error _ => { c with restarting := true }

/-- The children `cs` after their start routines ran one after the other until one failed. `k` runs happened before. -/
def outcomes (o : Oracle) : Nat → List Child → List Child
  | _, [] => []
  | k, c :: cs => after c (o k c.spec) :: if Failed (o k c.spec) then cs else outcomes o (k + 1) cs

/-- The one among `cs`, if any, whose start routine failed then. -/
def toRetry (o : Oracle) : Nat → List Child → List String
  | _, [] => []
  | k, c :: cs => if Failed (o k c.spec) then [c.spec.id] else toRetry o (k + 1) cs

/-- A child after its process, if any, was shut down. -/
def down (c : Child) : Child := ⟨c.spec, none, c.restarting && c.pid.isNone⟩

/-- A supervisor with the given children, before it is started. -/
def fresh (st : Strategy) (au : AutoShutdown) (mr md : Nat) (cs : List Spec) : Sup :=
  { new st au mr md with children := cs.map fun c => ⟨c, none, false⟩, ids := (cs.map (·.id)).reverse }

/-! ## Lemmas -/

theorem howTo_manner (c : Spec) : howTo c = manner c := by
  cases h : c.shutdown <;> cases h2 : c.childType <;> simp [howTo, manner, h, h2]

theorem stops_running (s : Sup) : stops s.children = stopping (running s) := by
  simp only [stops, stopping, running, List.map_filterMap, Option.map_map, howTo_manner]; rfl

theorem halt_down (c : Child) : halt c = down c := by
  obtain ⟨sp, p, r⟩ := c
  cases p <;> simp [halt, down]

theorem spawn_outcomes (o : Oracle) (M : List Child) : ∀ k n,
    mark n (spawn o k n M).1 (spawn o k n M).2.2 = outcomes o k M ∧
    failId n (spawn o k n M).1 (spawn o k n M).2.2 = toRetry o k M := by
  induction M with
  | nil => intro k n; simp [spawn, mark, failId, outcomes, toRetry]
  | cons c M ih =>
    intro k n
    have hm : ∀ p, mark n (put c p :: (spawn o (k + 1) (n + 1) M).1) (spawn o (k + 1) (n + 1) M).2.2
          = put c p :: mark (n + 1) (spawn o (k + 1) (n + 1) M).1 (spawn o (k + 1) (n + 1) M).2.2 ∧
        failId n (put c p :: (spawn o (k + 1) (n + 1) M).1) (spawn o (k + 1) (n + 1) M).2.2
          = failId (n + 1) (spawn o (k + 1) (n + 1) M).1 (spawn o (k + 1) (n + 1) M).2.2 := by
      intro p
      cases hf : (spawn o (k + 1) (n + 1) M).2.2 with
      | none => exact ⟨rfl, rfl⟩
      | some x =>
        obtain ⟨j, e⟩ := x
        have := spawn_fail_range o _ _ _ _ _ hf
        simp only [mark, failId]
        rw [show j - n = (j - (n + 1)) + 1 by omega, List.modify_succ_cons, List.getElem?_cons_succ]
        exact ⟨rfl, rfl⟩
    obtain ⟨i1, i2⟩ := ih (k + 1) (n + 1)
    cases ho : o k c.spec with
    | ok p =>
      simp only [spawn, ho, hm, i1, i2, outcomes, toRetry, after, Failed, Bool.false_eq_true, if_false]
      exact ⟨rfl, trivial⟩
    | error e =>
      cases e with
      | ignore =>
        simp only [spawn, ho, hm, i1, i2, outcomes, toRetry, after, Failed, Bool.false_eq_true, if_false]
        exact ⟨rfl, trivial⟩
      | _ => simp [spawn, ho, outcomes, toRetry, after, Failed, mark, failId]

theorem spawn_attempts (o : Oracle) (cs : List Child) : ∀ k i, (spawn o k i cs).2.1 = attempts o k (cs.map (·.spec)) ∧
    (spawn o k i cs).2.2.isNone = allStart o k (cs.map (·.spec)) := by
  induction cs with
  | nil => intro k i; simp [spawn, attempts, allStart]
  | cons c cs ih =>
    intro k i
    simp only [spawn, attempts, allStart, List.map_cons]
    rcases ho : o k c.spec with e | p
    · cases e <;> simp [Failed, ih (k + 1) (i + 1)]
    · simp [Failed, ih (k + 1) (i + 1)]

theorem spawn_running (o : Oracle) (cs : List Child) (hp : ∀ c ∈ cs, c.pid = none) : ∀ k i,
    (spawn o k i cs).1.filterMap (fun c => c.pid.map fun p => (c.spec, p)) = begun o k (cs.map (·.spec)) := by
  induction cs with
  | nil => intro k i; simp [spawn, begun]
  | cons c cs ih =>
    intro k i
    have hcs := fun d hd => hp d (List.mem_cons_of_mem _ hd)
    have hn : cs.filterMap (fun c => c.pid.map fun p => (c.spec, p)) = [] := by
      rw [List.filterMap_eq_nil_iff]; intro d hd; simp [hcs d hd]
    simp only [spawn, begun, List.map_cons]
    rcases ho : o k c.spec with e | p
    · cases e <;> simp [put, ih hcs, hn, hp c]
    · simp [put, ih hcs]

theorem addChildren_eq (cs : List Spec) : ∀ s : Sup, addChildren s cs =
    if (cs.map (·.id)).Nodup ∧ ∀ c ∈ cs, c.id ∉ s.ids then
      some { s with children := s.children ++ cs.map (fun c => ⟨c, none, false⟩), ids := (cs.map (·.id)).reverse ++ s.ids }
    else none := by
  induction cs with
  | nil => intro s; simp [addChildren]
  | cons c cs ih =>
    intro s
    simp only [addChildren, addChild]
    by_cases hc : c.id ∈ s.ids
    · simp [hc]
    · simp only [hc, if_false, Option.bind_some]
      rw [ih]
      have : ((cs.map (·.id)).Nodup ∧ ∀ d ∈ cs, d.id ∉ c.id :: s.ids) ↔
          (((c :: cs).map (·.id)).Nodup ∧ ∀ d ∈ c :: cs, d.id ∉ s.ids) := by
        simp only [List.map_cons, List.nodup_cons, List.mem_cons, List.mem_map]
        grind
      simp only [this]
      simp

/-! ## C61 -/

/-- Supervisor::with_children accepts exactly the lists without a repeated id (it panics otherwise). -/
theorem C61_build (st : Strategy) (au : AutoShutdown) (mr md : Nat) (cs : List Spec) :
    addChildren (new st au mr md) cs = if (cs.map (·.id)).Nodup then some (fresh st au mr md cs) else none := by
  rw [addChildren_eq]
  simp [new, fresh]

/-- The start routines run in specification order. If none fails the supervisor is up, with exactly the processes they
returned; a temporary child without process is forgotten. -/
theorem C61_start_order (o : Oracle) (st : Strategy) (au : AutoShutdown) (mr md : Nat) (cs : List Spec)
    (hs : ∀ c ∈ cs, c.hasStart = true) (ok : allStart o 0 cs = true) :
    ∃ s, boot o (fresh st au mr md cs) = .up s ∧ s.log = attempts o 0 cs ∧ running s = begun o 0 cs ∧
      ∀ c ∈ s.children, ¬ (c.spec.restart = .temporary ∧ c.pid = none) := by
  have hsp := spawn_attempts o ((cs.map fun c => (⟨c, none, false⟩ : Child))) 0 0
  have hru := spawn_running o ((cs.map fun c => (⟨c, none, false⟩ : Child))) (by simp) 0 0
  have hmap : (cs.map fun c => (⟨c, none, false⟩ : Child)).map (·.spec) = cs := by simp [Function.comp_def]
  rw [hmap] at hsp hru
  have hn : (spawn o 0 0 (cs.map fun c => (⟨c, none, false⟩ : Child))).2.2 = none := by
    have := hsp.2; rw [ok] at this; simpa using this
  have he := startChildren_eq o (fresh st au mr md cs) (by simpa [fresh] using hs)
  simp only [fresh, new, hn] at he
  simp only [boot, initChildren, fresh, new, he]
  refine ⟨_, rfl, by simp [hsp.1], ?_, ?_⟩
  · rw [← hru, running]
    simp only
    generalize (spawn o 0 0 (cs.map fun c => (⟨c, none, false⟩ : Child))).1 = l
    induction l with
    | nil => rfl
    | cons c l ih =>
      rw [List.filter_cons]
      cases hp : c.pid with
      | none =>
        rw [List.filterMap_cons_none (by simp [hp])]
        split
        · rw [List.filterMap_cons_none (by simp [hp])]; exact ih
        · exact ih
      | some p =>
        rw [if_pos (by simp), List.filterMap_cons_some (b := (c.spec, p)) (by simp [hp]),
          List.filterMap_cons_some (b := (c.spec, p)) (by simp [hp]), ih]
  · intro c hc
    have := (List.mem_filter.1 hc).2
    cases hp : c.pid <;> simp_all

/-- If a start routine fails, the processes already started are shut down in reverse order and the start fails. -/
theorem C61_start_failure (o : Oracle) (st : Strategy) (au : AutoShutdown) (mr md : Nat) (cs : List Spec)
    (hs : ∀ c ∈ cs, c.hasStart = true) (bad : allStart o 0 cs = false) :
    ∃ s, boot o (fresh st au mr md cs) = .stopped s (.custom "failed_to_start_child") ∧
      s.log = attempts o 0 cs ++ stopping (begun o 0 cs).reverse ∧ running s = [] := by
  have hsp := spawn_attempts o ((cs.map fun c => (⟨c, none, false⟩ : Child))) 0 0
  have hru := spawn_running o ((cs.map fun c => (⟨c, none, false⟩ : Child))) (by simp) 0 0
  have hmap : (cs.map fun c => (⟨c, none, false⟩ : Child)).map (·.spec) = cs := by simp [Function.comp_def]
  rw [hmap] at hsp hru
  have hn : ∃ x, (spawn o 0 0 (cs.map fun c => (⟨c, none, false⟩ : Child))).2.2 = some x := by
    have := hsp.2; rw [bad] at this
    cases hx : (spawn o 0 0 (cs.map fun c => (⟨c, none, false⟩ : Child))).2.2 with
    | none => simp [hx] at this
    | some x => exact ⟨x, rfl⟩
  obtain ⟨x, hn⟩ := hn
  have he := startChildren_eq o (fresh st au mr md cs) (by simpa [fresh] using hs)
  simp only [fresh, new, hn] at he
  simp only [boot, initChildren, fresh, new, he, terminateChildren_eq, Option.map_some]
  refine ⟨_, rfl, ?_, ?_⟩
  · simp only [hsp.1, stops, List.nil_append, stopping, List.map_reverse, ← hru, List.map_filterMap, Option.map_map, howTo_manner]
    rfl
  · simp [running]

/-- Whenever the supervisor stops, on request or by itself, it shuts the running children down in reverse order (all
of them but the one whose exit made it stop) and nothing else happens after that. -/
theorem C61_stop_order (o : Oracle) (s s' : Sup) (now : Nat) (e : Event) (rep : Reply) (r : ExitReason)
    (h : step o s now e = some (s', rep, some r)) :
    running s' = [] ∧
    (s'.log = s.log ++ stopping (running s).reverse ∨
     ∃ p q pre c post, e = .exit p q ∧ s.children = pre ++ c :: post ∧ c.pid = some p ∧
       s'.log = s.log ++ stopping (running { s with children := pre ++ post }).reverse) := by
  have fin : ∀ s1 : Sup, terminateChildren s1 = some s' → running s' = [] ∧ s'.log = s1.log ++ stopping (running s1).reverse := by
    intro s1 h1
    rw [terminateChildren_eq] at h1
    simp only [Option.some.injEq] at h1
    subst h1
    refine ⟨by simp [running], ?_⟩
    simp only [stops_running, stopping, List.map_reverse]
  have key : ∀ s1 : Sup, s1.children = s.children → s1.log = s.log → terminateChildren s1 = some s' →
      running s' = [] ∧ s'.log = s.log ++ stopping (running s).reverse := by
    intro s1 h1 h2 h3
    have := fin s1 h3
    simp only [running, h1, h2] at this ⊢
    exact this
  cases e with
  | exit p q =>
    simp only [step, Option.bind_eq_some_iff] at h
    obtain ⟨⟨s1, q1⟩, h1, h2⟩ := h
    obtain ⟨-, hq, hf⟩ := finish_some _ _ _ _ h2
    simp only [reduceCtorEq, false_and, false_or] at hf
    obtain ⟨x, -, hf⟩ := hf
    simp only at hq hf
    cases hx : s.children.findIdx? (fun c => decide (c.pid = some p)) with
    | none =>
      rw [childExited_none o s now p q (by rw [findIdx_none] at hx; intro d hd; simpa using hx d hd)] at h1
      simp only [Option.some.injEq, Prod.mk.injEq] at h1
      rw [← hq] at h1; simp at h1
    | some i =>
      obtain ⟨pre, c, post, hc, -, hp, hpre⟩ := findIdx_some _ _ _ hx
      have hp : c.pid = some p := by simpa using hp
      rw [childExited_eq o s now p q pre post c hc hp (by intro d hd; simpa using hpre d hd)] at h1
      by_cases hw : Wants c.spec q
      · rw [if_pos hw] at h1
        by_cases ht : TooMany s now
        · rw [if_pos ht] at h1
          simp only [Option.some.injEq, Prod.mk.injEq] at h1
          obtain ⟨rfl, -⟩ := h1
          obtain ⟨a, b⟩ := key { s with restarts := recent s now ++ [now] } rfl rfl hf
          exact ⟨a, Or.inl b⟩
        · rw [if_neg ht] at h1
          simp only [Option.map_eq_some_iff, Prod.mk.injEq] at h1
          obtain ⟨_, _, _, h3⟩ := h1
          rw [← hq] at h3; simp at h3
      · rw [if_neg hw] at h1
        simp only [Option.some.injEq, Prod.mk.injEq] at h1
        obtain ⟨rfl, -⟩ := h1
        obtain ⟨a, b⟩ := fin _ hf
        exact ⟨a, Or.inr ⟨p, q, pre, c, post, rfl, hc, hp, b⟩⟩
  | retry =>
    simp only [step] at h
    split at h
    · simp at h
    · next id rest hca =>
      split at h
      · simp at h
      · next i hi =>
        simp only [Option.bind_eq_some_iff] at h
        obtain ⟨⟨s1, q1⟩, h1, h2⟩ := h
        obtain ⟨-, hq, hf⟩ := finish_some _ _ _ _ h2
        simp only [reduceCtorEq, false_and, false_or] at hf
        obtain ⟨x, -, hf⟩ := hf
        simp only [tryAgain, addRestart_eq, decide_eq_true_eq] at h1
        simp only at hq hf
        split at h1
        · simp only [Option.some.injEq, Prod.mk.injEq] at h1
          obtain ⟨rfl, -⟩ := h1
          obtain ⟨a, b⟩ := (fun x y => key _ x y hf) rfl rfl
          exact ⟨a, Or.inl b⟩
        · split at h1
          · simp at h1
          · split at h1
            · simp only [Option.map_eq_some_iff, Prod.mk.injEq] at h1
              obtain ⟨_, _, _, h3⟩ := h1
              rw [← hq] at h3; simp at h3
            · simp only [Option.some.injEq, Prod.mk.injEq] at h1
              rw [← hq] at h1; simp at h1
  | stop r' =>
    simp only [step, Option.map_eq_some_iff] at h
    obtain ⟨s1, h1, h2⟩ := h
    simp only [Prod.mk.injEq] at h2
    obtain ⟨rfl, -⟩ := h2
    obtain ⟨a, b⟩ := key s rfl rfl h1
    exact ⟨a, Or.inl b⟩
  | count => simp [step] at h
  | which => simp [step] at h
  | other => simp [step] at h
  | deleteChild id => simp [step] at h
  | terminateChild id => simp [step] at h
  | restartChild id => simp [step] at h
  | startChild c => simp [step] at h

/-! A supervisor used in the examples. -/

def worker (id : String) (r : Restart) : Spec := ⟨id, true, r, none, .worker, false⟩
def signif (id : String) (r : Restart) : Spec := ⟨id, true, r, none, .worker, true⟩

/-- Every start routine succeeds with a new pid. -/
def good : Oracle := fun k _ => .ok (.loc (k + 100))

example : allStart good 0 [worker "a" .permanent, worker "b" .temporary] = true := by decide
example : allStart (fun k _ => if k = 1 then .error .kill else .ok (.loc k)) 0 [worker "a" .permanent, worker "b" .temporary] = false := by
  decide

/-! ## C62, C64, C65, C68: a child exits

In these theorems `c` is the child whose process `p` exited: it sits between `pre` and `post` in the child list. -/

def isStart : Eff → Bool
  | .start _ _ => true
  | .stop _ _ => false

theorem exit_finish (o : Oracle) (s : Sup) (now : Nat) (p : Pid) (r : ExitReason) (pre post : List Child) (c : Child)
    (h : s.children = pre ++ c :: post) (hc : c.pid = some p) (hp : ∀ d ∈ pre, d.pid ≠ some p) (hs : Ready s)
    (A M Z : List Child) (fx : List Eff) (hz : zone s.strategy pre c post = (A, M, Z, fx)) :
    step o s now (.exit p r) =
      if Wants c.spec r then
        if TooMany s now then (terminateChildren { s with restarts := recent s now ++ [now] }).map fun s => (s, .none, some shutdownReason)
        else some ({ s with
          restarts := recent s now ++ [now],
          children := A ++ mark A.length (spawn o s.calls A.length M).1 (spawn o s.calls A.length M).2.2 ++ Z,
          casts := s.casts ++ failId A.length (spawn o s.calls A.length M).1 (spawn o s.calls A.length M).2.2,
          calls := s.calls + (spawn o s.calls A.length M).2.1.length,
          log := s.log ++ fx ++ (spawn o s.calls A.length M).2.1 }, .none, none)
      else if autoStops (without s pre post c) c then
        (terminateChildren (without s pre post c)).map fun s => (s, .none, some shutdownReason)
      else some (without s pre post c, .none, none) := by
  rw [step, childExited_eq o s now p r pre post c h hc hp]
  by_cases hw : Wants c.spec r
  · rw [if_pos hw, if_pos hw]
    by_cases ht : TooMany s now
    · rw [if_pos ht, if_pos ht]; rfl
    · rw [if_neg ht, if_neg ht, restart_eq o { s with restarts := recent s now ++ [now] } pre post c h hs A M Z fx hz]
      rfl
  · rw [if_neg hw, if_neg hw]
    by_cases ha : autoStops (without s pre post c) c = true
    · rw [if_pos ha, if_pos ha]; rfl
    · rw [if_neg ha, if_neg ha]; rfl

theorem attempts_starts (o : Oracle) (cs : List Spec) : ∀ k, ∀ f ∈ attempts o k cs, isStart f = true := by
  induction cs with
  | nil => simp [attempts]
  | cons c cs ih =>
    intro k f hf
    simp only [attempts, List.mem_cons] at hf
    rcases hf with rfl | hf
    · rfl
    · split at hf
      · simp at hf
      · exact ih _ f hf

/-- **C62**, the decision: the exit of a child makes start routines run exactly if the child is permanent, or transient
and the reason is neither `normal` nor `"shutdown"`, unless there were too many restarts. Otherwise nothing is started;
then, if the child was not to be restarted, its specification is gone. -/
theorem C62_restart_policy (o : Oracle) (s : Sup) (now : Nat) (p : Pid) (r : ExitReason) (pre post : List Child) (c : Child)
    (h : s.children = pre ++ c :: post) (hc : c.pid = some p) (hp : ∀ d ∈ pre, d.pid ≠ some p) (hs : Ready s) :
    ∃ s' q fx, step o s now (.exit p r) = some (s', .none, q) ∧ s'.log = s.log ++ fx ∧
      (fx.any isStart = true ↔ (Wants c.spec r ∧ ¬ TooMany s now)) ∧
      (¬ Wants c.spec r → q = none → s'.children = pre ++ post ∧ s'.ids = s.ids.filter (· ≠ c.spec.id)) := by
  obtain ⟨A, M, Z, fx, hz⟩ : ∃ A M Z fx, zone s.strategy pre c post = (A, M, Z, fx) := ⟨_, _, _, _, rfl⟩
  rw [exit_finish o s now p r pre post c h hc hp hs A M Z fx hz]
  have hstop : ∀ l : List Child, (stops l).reverse.any isStart = false := by
    intro l
    rw [List.any_eq_false]
    intro f hf
    simp only [stops, List.mem_reverse, List.mem_filterMap] at hf
    obtain ⟨d, -, hd⟩ := hf
    cases hdp : d.pid <;> simp [hdp] at hd
    subst hd; simp [isStart]
  by_cases hw : Wants c.spec r
  · rw [if_pos hw]
    by_cases ht : TooMany s now
    · rw [if_pos ht]
      simp only [terminateChildren_eq, Option.map_some]
      refine ⟨_, _, _, rfl, rfl, ?_, fun x => absurd hw x⟩
      rw [hstop]; simp [ht]
    · rw [if_neg ht]
      refine ⟨_, _, fx ++ (spawn o s.calls A.length M).2.1, rfl, by simp, ?_, fun x => absurd hw x⟩
      simp only [hw, ht, not_false_eq_true, and_self, iff_true, List.any_append, Bool.or_eq_true]
      right
      have hM : M ≠ [] := by
        intro e; subst e
        unfold zone at hz; cases hst : s.strategy <;> simp [hst] at hz
      obtain ⟨m, M', rfl⟩ := List.exists_cons_of_ne_nil hM
      rw [(spawn_attempts o _ _ _).1]
      simp [attempts, isStart]
  · rw [if_neg hw]
    split
    · simp only [terminateChildren_eq, Option.map_some]
      refine ⟨_, _, (stops (pre ++ post)).reverse, rfl, rfl, ?_, by simp⟩
      rw [hstop]; simp [hw]
    · refine ⟨_, _, [], rfl, by simp [without], by simp [hw], fun _ _ => ⟨rfl, rfl⟩⟩

/-- **C62**: a temporary child is never restarted because of its own exit, and then its specification is removed. -/
theorem C62_temporary (o : Oracle) (s : Sup) (now : Nat) (p : Pid) (r : ExitReason) (pre post : List Child) (c : Child)
    (h : s.children = pre ++ c :: post) (hc : c.pid = some p) (hp : ∀ d ∈ pre, d.pid ≠ some p) (hs : Ready s)
    (ht : c.spec.restart = .temporary) :
    ∃ s' q fx, step o s now (.exit p r) = some (s', .none, q) ∧ s'.log = s.log ++ fx ∧ fx.any isStart = false ∧
      (q = none → s'.children = pre ++ post) := by
  obtain ⟨s', q, fx, h1, h2, h3, h4⟩ := C62_restart_policy o s now p r pre post c h hc hp hs
  have hw : ¬ Wants c.spec r := by simp [Wants, ht]
  refine ⟨s', q, fx, h1, h2, ?_, fun hq => (h4 hw hq).1⟩
  cases hx : fx.any isStart with
  | false => rfl
  | true => exact absurd (h3.1 hx).1 hw

/-- **C64**: with `OneForOne` the exit of a child that is restarted runs its start routine and does nothing else; all other
children stay exactly as they are. Afterwards the child has the new process; if its start routine failed, a retry is
pending. -/
theorem C64_one_for_one (o : Oracle) (s : Sup) (now : Nat) (p : Pid) (r : ExitReason) (pre post : List Child) (c : Child)
    (h : s.children = pre ++ c :: post) (hc : c.pid = some p) (hp : ∀ d ∈ pre, d.pid ≠ some p) (hs : Ready s)
    (hst : s.strategy = .oneForOne) (s' : Sup) (rep : Reply) (hstep : step o s now (.exit p r) = some (s', rep, none)) :
    (Wants c.spec r ∧ s'.log = s.log ++ [.start c.spec.id (o s.calls c.spec)] ∧
      s'.children = pre ++ after c (o s.calls c.spec) :: post ∧
      s'.casts = s.casts ++ if Failed (o s.calls c.spec) then [c.spec.id] else []) ∨
    (¬ Wants c.spec r ∧ s'.log = s.log ∧ s'.children = pre ++ post ∧ s'.casts = s.casts) := by
  rw [exit_finish o s now p r pre post c h hc hp hs pre [c] post [] (by simp [zone, hst])] at hstep
  by_cases hw : Wants c.spec r
  · left
    rw [if_pos hw] at hstep
    split at hstep
    · simp [terminateChildren_eq] at hstep
    · simp only [Option.some.injEq, Prod.mk.injEq] at hstep
      obtain ⟨rfl, -⟩ := hstep
      refine ⟨hw, ?_, ?_, ?_⟩
      · simp only [(spawn_attempts o _ _ _).1, attempts, List.map_cons, List.map_nil, List.append_nil]; split <;> rfl
      · simp only [(spawn_outcomes o _ _ _).1, outcomes]
        split <;> simp
      · simp only [(spawn_outcomes o _ _ _).2, toRetry]
  · right
    rw [if_neg hw] at hstep
    split at hstep
    · simp [terminateChildren_eq] at hstep
    · simp only [Option.some.injEq, Prod.mk.injEq] at hstep
      obtain ⟨rfl, -⟩ := hstep
      exact ⟨hw, rfl, rfl, rfl⟩

/-- **C65**, `OneForAll`: every other running child is shut down, then all start routines run in order, up to the first
failure. -/
theorem C65_one_for_all_partial (o : Oracle) (s : Sup) (now : Nat) (p : Pid) (r : ExitReason) (pre post : List Child) (c : Child)
    (h : s.children = pre ++ c :: post) (hc : c.pid = some p) (hp : ∀ d ∈ pre, d.pid ≠ some p) (hs : Ready s)
    (hst : s.strategy = .oneForAll) (hw : Wants c.spec r) (ht : ¬ TooMany s now) :
    ∃ s', step o s now (.exit p r) = some (s', .none, none) ∧
      s'.log = s.log ++ stopping (running { s with children := pre ++ post }) ++ attempts o s.calls (specs s) ∧
      specs s' = specs s ∧ s'.children = outcomes o s.calls (pre.map down ++ c :: post.map down) ∧
      s'.casts = s.casts ++ toRetry o s.calls (pre.map down ++ c :: post.map down) := by
  rw [exit_finish o s now p r pre post c h hc hp hs [] (pre.map halt ++ c :: post.map halt) [] (stops pre ++ stops post)
    (by simp [zone, hst]), if_pos hw, if_neg ht]
  have hm : (pre.map halt ++ c :: post.map halt).map (·.spec) = s.children.map (·.spec) := by
    simp [h, halt_spec, Function.comp_def]
  have hh : halt = down := funext halt_down
  refine ⟨_, rfl, ?_, ?_, ?_, ?_⟩
  · simp only [(spawn_attempts o _ _ _).1, hm, ← stops_running, stops_append]; rfl
  · simp only [specs, List.nil_append, List.append_nil, mark_specs, spawn_specs, hm]
  · simp only [(spawn_outcomes o _ _ _).1, hh, List.nil_append, List.append_nil]
  · simp only [(spawn_outcomes o _ _ _).2, hh]

/-- **C65**, `RestForOne`: the running children after the failed one are shut down, then the start routines of the failed
one and those after it run in order, up to the first failure. The children before it stay as they are. -/
theorem C65_rest_for_one_partial (o : Oracle) (s : Sup) (now : Nat) (p : Pid) (r : ExitReason) (pre post : List Child) (c : Child)
    (h : s.children = pre ++ c :: post) (hc : c.pid = some p) (hp : ∀ d ∈ pre, d.pid ≠ some p) (hs : Ready s)
    (hst : s.strategy = .restForOne) (hw : Wants c.spec r) (ht : ¬ TooMany s now) :
    ∃ s', step o s now (.exit p r) = some (s', .none, none) ∧
      s'.log = s.log ++ stopping (running { s with children := post }) ++ attempts o s.calls ((c :: post).map (·.spec)) ∧
      specs s' = specs s ∧ s'.children = pre ++ outcomes o s.calls (c :: post.map down) ∧
      s'.casts = s.casts ++ toRetry o s.calls (c :: post.map down) := by
  rw [exit_finish o s now p r pre post c h hc hp hs pre (c :: post.map halt) [] (stops post)
    (by simp [zone, hst]), if_pos hw, if_neg ht]
  have hm : (c :: post.map halt).map (·.spec) = (c :: post).map (·.spec) := by
    simp [halt_spec, Function.comp_def]
  have hh : halt = down := funext halt_down
  refine ⟨_, rfl, ?_, ?_, by simp only [(spawn_outcomes o _ _ _).1, hh, List.append_nil],
    by simp only [(spawn_outcomes o _ _ _).2, hh]⟩
  · simp only [(spawn_attempts o _ _ _).1, hm, ← stops_running]
  · simp only [specs, h, List.append_nil, List.map_append, mark_specs, spawn_specs, hm]

/-- **C65** is violated: although "a temporary child process is never restarted, regardless of the supervision strategy"
(restart.rs:6-8), the exit of a permanent sibling restarts a temporary child. -/
theorem C65_temporary_violated : ∃ (s s' : Sup) (c : Child) (q : Pid), boot good (fresh .oneForAll .never 3 5000
      [worker "a" .permanent, worker "t" .temporary]) = .up s ∧
    c ∈ s.children ∧ c.spec.restart = .temporary ∧
    step good s 0 (.exit (.loc 100) .kill) = some (s', .none, none) ∧
    s'.log = s.log ++ [.stop (.loc 101) (.duration 5000), .start "a" (.ok (.loc 102)), .start c.spec.id (.ok q)] :=
  ⟨_, _, ⟨worker "t" .temporary, some (.loc 101), false⟩, .loc 103, rfl, .tail _ (.head _), rfl, rfl, rfl⟩

/-- **C68**: with `Never`, no exit of a child stops the supervisor (unless the restart limit is reached). -/
theorem C68_never (o : Oracle) (s : Sup) (now : Nat) (p : Pid) (r : ExitReason) (hs : Ready s) (ha : s.auto = .never)
    (ht : ¬ TooMany s now) : ∃ s', step o s now (.exit p r) = some (s', .none, none) := by
  cases hx : s.children.findIdx? (fun c => decide (c.pid = some p)) with
  | none =>
    rw [step, childExited_none o s now p r (by rw [findIdx_none] at hx; intro d hd; simpa using hx d hd)]
    exact ⟨s, rfl⟩
  | some i =>
    obtain ⟨pre, c, post, hc, -, hpc, hpre⟩ := findIdx_some _ _ _ hx
    obtain ⟨A, M, Z, fx, hz⟩ : ∃ A M Z fx, zone s.strategy pre c post = (A, M, Z, fx) := ⟨_, _, _, _, rfl⟩
    rw [exit_finish o s now p r pre post c hc (by simpa using hpc) (by intro d hd; simpa using hpre d hd) hs A M Z fx hz]
    split
    · exact ⟨_, rfl⟩
    · rw [if_neg (by simp [autoStops, without, ha])]; exact ⟨_, rfl⟩

/-- **C68**: with `AnySignificant`, a child that exits and is not restarted stops the supervisor iff it is significant. -/
theorem C68_any_significant (o : Oracle) (s : Sup) (now : Nat) (p : Pid) (r : ExitReason) (pre post : List Child) (c : Child)
    (h : s.children = pre ++ c :: post) (hc : c.pid = some p) (hp : ∀ d ∈ pre, d.pid ≠ some p) (hs : Ready s)
    (ha : s.auto = .anySignificant) (hw : ¬ Wants c.spec r) :
    ∃ s', step o s now (.exit p r) = some (s', .none, if c.spec.significant then some (.custom "shutdown") else none) := by
  obtain ⟨A, M, Z, fx, hz⟩ : ∃ A M Z fx, zone s.strategy pre c post = (A, M, Z, fx) := ⟨_, _, _, _, rfl⟩
  rw [exit_finish o s now p r pre post c h hc hp hs A M Z fx hz, if_neg hw]
  cases hsg : c.spec.significant with
  | true =>
    rw [if_pos (by simp [autoStops, without, ha, hsg])]
    simp [terminateChildren_eq, shutdownReason]
  | false =>
    rw [if_neg (by simp [autoStops, hsg])]
    simp

/-- **C68**: with `AllSignificant`, a significant child that exits and is not restarted stops the supervisor iff some
*other significant child is still running*: the opposite of what the documentation says. -/
theorem C68_all_significant_partial (o : Oracle) (s : Sup) (now : Nat) (p : Pid) (r : ExitReason) (pre post : List Child) (c : Child)
    (h : s.children = pre ++ c :: post) (hc : c.pid = some p) (hp : ∀ d ∈ pre, d.pid ≠ some p) (hs : Ready s)
    (ha : s.auto = .allSignificant) (hw : ¬ Wants c.spec r) (hsg : c.spec.significant = true) :
    ∃ s' q, step o s now (.exit p r) = some (s', .none, q) ∧
      (q = some (.custom "shutdown") ↔ ∃ d ∈ pre ++ post, d.pid ≠ none ∧ d.spec.significant = true) ∧
      (q ≠ some (.custom "shutdown") → q = none) := by
  obtain ⟨A, M, Z, fx, hz⟩ : ∃ A M Z fx, zone s.strategy pre c post = (A, M, Z, fx) := ⟨_, _, _, _, rfl⟩
  rw [exit_finish o s now p r pre post c h hc hp hs A M Z fx hz, if_neg hw]
  have hd : autoStops (without s pre post c) c = true ↔ ∃ d ∈ pre ++ post, d.pid ≠ none ∧ d.spec.significant = true := by
    simp only [autoStops, without, ha, hsg, reduceCtorEq, if_false, Bool.true_eq_false, List.any_eq_true, Bool.and_eq_true]
    constructor
    · rintro ⟨d, hd, h1, h2⟩; exact ⟨d, hd, by cases hq : d.pid <;> simp_all, h2⟩
    · rintro ⟨d, hd, h1, h2⟩; exact ⟨d, hd, by cases hq : d.pid <;> simp_all, h2⟩
  by_cases hx : autoStops (without s pre post c) c = true
  · rw [if_pos hx]
    simp only [terminateChildren_eq, Option.map_some, shutdownReason]
    exact ⟨_, _, rfl, iff_of_true rfl (hd.1 hx), by simp⟩
  · rw [if_neg hx]
    exact ⟨_, _, rfl, by simp only [reduceCtorEq, false_iff]; exact fun y => hx (hd.2 y), by simp⟩

/-- **C68** is violated in both directions for `AllSignificant`: with two significant children, the exit of the first stops
the supervisor while the second runs; with one, its exit leaves the supervisor up without significant children. -/
theorem C68_all_significant_violated :
    (∃ s s', boot good (fresh .oneForOne .allSignificant 3 5000 [signif "a" .temporary, signif "b" .temporary]) = .up s ∧
      step good s 0 (.exit (.loc 100) .normal) = some (s', .none, some (.custom "shutdown")) ∧
      s'.log = s.log ++ [.stop (.loc 101) (.duration 5000)]) ∧
    (∃ s s', boot good (fresh .oneForOne .allSignificant 3 5000 [signif "a" .temporary]) = .up s ∧
      step good s 0 (.exit (.loc 100) .normal) = some (s', .none, none) ∧ s'.children = []) :=
  ⟨⟨_, _, rfl, rfl, rfl⟩, ⟨_, _, rfl, rfl, rfl⟩⟩

/-- A state that meets the hypotheses above: "b" runs as process 101 between "a" and "c". -/
example : ∃ s pre post c, boot good (fresh .restForOne .never 3 5000 [worker "a" .permanent, worker "b" .transient, worker "c" .temporary]) = .up s ∧
    s.children = pre ++ c :: post ∧ c.pid = some (.loc 101) ∧ (∀ d ∈ pre, d.pid ≠ some (.loc 101)) ∧ Ready s ∧
    Wants c.spec (.custom "boom") ∧ ¬ TooMany s 0 :=
  ⟨_, [⟨worker "a" .permanent, some (.loc 100), false⟩], [⟨worker "c" .temporary, some (.loc 102), false⟩],
    ⟨worker "b" .transient, some (.loc 101), false⟩, rfl, rfl, rfl, by simp, by
      intro c hc; revert hc; simp only; intro hc; revert c; decide, by decide, by decide⟩

/-! ## C66, C70: requests -/

/-- The supervisor processes that come into being: started with children `cs` and given the events `evs`. -/
def life (o : Oracle) (st : Strategy) (au : AutoShutdown) (mr md : Nat) (cs : List Spec) (evs : List (Nat × Event)) : Status :=
  run o (boot o (fresh st au mr md cs)) evs

theorem fresh_aux (cs : List Spec) (l : List Child) (s : Sup) (hs : ∀ c ∈ cs, c.hasStart = true) (hd : (cs.map (·.id)).Nodup)
    (hmap : l.map (·.spec) = cs)
    (hch : s.children = l.filter fun c => !(c.spec.restart = .temporary && c.pid.isNone))
    (hids : s.ids = (cs.map (·.id)).reverse.filter fun id => decide (id ∉ (l.filter
      fun c => c.spec.restart = .temporary && c.pid.isNone).map (·.spec.id))) : Ready s ∧ Uniq s ∧ NoStray s := by
  have hm : ∀ c ∈ l, c.spec ∈ cs := fun c hc => hmap ▸ List.mem_map_of_mem (f := (·.spec)) hc
  have hl : (l.map (·.spec.id)).Nodup := by
    have : l.map (·.spec.id) = cs.map (·.id) := by rw [← hmap]; simp [Function.comp_def]
    rw [this]; exact hd
  have hinj : ∀ c ∈ l, ∀ d ∈ l, c.spec.id = d.spec.id → c = d := by
    clear hm hmap hch hids
    induction l with
    | nil => simp
    | cons a l ih =>
      simp only [List.map_cons, List.nodup_cons, List.mem_map, not_exists, not_and] at hl
      intro c hc d hd' hcd
      rcases List.mem_cons.1 hc with h1 | h1 <;> rcases List.mem_cons.1 hd' with h2 | h2
      · rw [h1, h2]
      · exact absurd (hcd.symm.trans (by rw [h1])) (hl.1 d h2)
      · exact absurd (hcd.trans (by rw [h2])) (hl.1 c h1)
      · exact ih hl.2 c h1 d h2 hcd
  refine ⟨?_, ⟨?_, ?_⟩, ?_⟩
  · intro c hc; rw [hch] at hc; exact hs _ (hm c (List.mem_filter.1 hc).1)
  · simp only [specs, List.map_map, hch, Function.comp_def]
    exact hl.sublist (List.Sublist.map _ List.filter_sublist)
  · intro c hc
    simp only [specs, hch, List.mem_map, List.mem_filter] at hc
    obtain ⟨d, ⟨hd1, hd2⟩, rfl⟩ := hc
    simp only [hids, List.mem_filter, List.mem_reverse, List.mem_map, decide_eq_true_eq, not_exists, not_and]
    refine ⟨⟨_, hm d hd1, rfl⟩, ?_⟩
    intro x hx1 hx2
    have := hinj x hx1.1 d hd1 hx2
    subst this
    simp only [Bool.not_eq_eq_eq_not, Bool.not_true] at hd2
    rw [hd2] at hx1; simp at hx1
  · intro id hid
    simp only [hids, List.mem_filter, List.mem_reverse, List.mem_map, decide_eq_true_eq, not_exists, not_and] at hid
    obtain ⟨⟨c, hc, rfl⟩, hno⟩ := hid
    rw [← hmap] at hc
    obtain ⟨d, hd1, rfl⟩ := List.mem_map.1 hc
    refine ⟨d.spec, ?_, rfl⟩
    simp only [specs, hch, List.mem_map, List.mem_filter]
    refine ⟨d, ⟨hd1, ?_⟩, rfl⟩
    cases hq : (decide (d.spec.restart = Restart.temporary) && d.pid.isNone) with
    | false => rfl
    | true => exact absurd rfl (hno d ⟨hd1, hq⟩)

theorem fresh_inv (o : Oracle) (st : Strategy) (au : AutoShutdown) (mr md : Nat) (cs : List Spec)
    (hs : ∀ c ∈ cs, c.hasStart = true) (hd : (cs.map (·.id)).Nodup) (s : Sup) (h : boot o (fresh st au mr md cs) = .up s) :
    Ready s ∧ Uniq s ∧ NoStray s ∧ s.restarts = [] ∧ s.maxRestarts = mr ∧ s.maxDuration = md := by
  have he := startChildren_eq o (fresh st au mr md cs) (by simpa [fresh] using hs)
  simp only [boot, initChildren] at h
  rw [he] at h
  cases hx : (spawn o (fresh st au mr md cs).calls 0 (fresh st au mr md cs).children).2.2 with
  | some x => simp [hx, terminateChildren_eq] at h
  | none =>
    simp only [hx, Status.up.injEq] at h
    have hmap : (spawn o 0 0 (cs.map fun c => (⟨c, none, false⟩ : Child))).1.map (·.spec) = cs := by
      rw [spawn_specs]; simp [Function.comp_def]
    have hch := congrArg Sup.children h
    have hids := congrArg Sup.ids h
    simp only at hch hids
    obtain ⟨a, b, c⟩ := fresh_aux cs _ s hs hd hmap hch.symm hids.symm
    refine ⟨a, b, c, ?_, ?_, ?_⟩ <;> rw [← h] <;> rfl

theorem life_up (o : Oracle) (st : Strategy) (au : AutoShutdown) (mr md : Nat) (cs : List Spec) (evs : List (Nat × Event)) (s : Sup)
    (h : life o st au mr md cs evs = .up s) : ∃ s0, boot o (fresh st au mr md cs) = .up s0 ∧ run o (.up s0) evs = .up s := by
  unfold life at h
  cases hb : boot o (fresh st au mr md cs) with
  | up s0 => exact ⟨s0, rfl, hb ▸ h⟩
  | stopped s0 r => rw [hb] at h; cases evs <;> simp [run] at h
  | panicked => rw [hb] at h; cases evs <;> simp [run] at h

theorem life_inv (o : Oracle) (st : Strategy) (au : AutoShutdown) (mr md : Nat) (cs : List Spec) (evs : List (Nat × Event)) (s : Sup)
    (hs : ∀ c ∈ cs, c.hasStart = true) (hd : (cs.map (·.id)).Nodup) (h : life o st au mr md cs evs = .up s) : Ready s ∧ Uniq s := by
  obtain ⟨s0, hb, hr⟩ := life_up o st au mr md cs evs s h
  have h0 := fresh_inv o st au mr md cs hs hd s0 hb
  exact run_inv (I := fun s => Ready s ∧ Uniq s)
    (fun a b now e rep hI hstep => ⟨move_ready hI.1 (step_move hI.1 hstep), uniq_step hI.2 (move_specs (step_move hI.1 hstep))⟩)
    evs s0 s ⟨h0.1, h0.2.1⟩ hr

/-- **C66**: at every moment all children in `which_children` have different ids. -/
theorem C66_unique_ids (o : Oracle) (st : Strategy) (au : AutoShutdown) (mr md : Nat) (cs : List Spec) (evs : List (Nat × Event)) (s : Sup)
    (hs : ∀ c ∈ cs, c.hasStart = true) (hd : (cs.map (·.id)).Nodup) (h : life o st au mr md cs evs = .up s) :
    ((whichChildren s).map (·.id)).Nodup := by
  have := (life_inv o st au mr md cs evs s hs hd h).2.1
  simpa [whichChildren, specs, Function.comp_def] using this

/-- **C66**: `start_child` with the id of an existing child changes nothing and answers `AlreadyStarted` if that child has a
process and `AlreadyPresent` if not. -/
theorem C66_start_existing (o : Oracle) (st : Strategy) (au : AutoShutdown) (mr md : Nat) (cs : List Spec) (evs : List (Nat × Event)) (s : Sup)
    (hs : ∀ c ∈ cs, c.hasStart = true) (hd : (cs.map (·.id)).Nodup) (h : life o st au mr md cs evs = .up s) (now : Nat)
    (spec : Spec) (i : Info) (hi : i ∈ whichChildren s) (hid : i.id = spec.id) :
    step o s now (.startChild spec) =
      some (s, .pid (.error (if i.child.isSome then .alreadyStarted else .alreadyPresent)), none) := by
  obtain ⟨-, u1, u2⟩ := life_inv o st au mr md cs evs s hs hd h
  obtain ⟨c, hc, rfl⟩ := List.mem_map.1 hi
  simp only at hid
  have hmem : spec.id ∈ s.ids := hid ▸ u2 c.spec (List.mem_map_of_mem (f := (·.spec)) hc)
  have hinj : ∀ d ∈ s.children, d.spec.id = spec.id → d = c := by
    rw [specs, List.map_map] at u1
    intro d hd hde
    have hpw := List.pairwise_map.1 u1
    by_cases hcd : d = c
    · exact hcd
    · have := List.Pairwise.forall_of_forall_of_flip (R := fun a b : Child => a.spec.id = b.spec.id → a = b) (l := s.children)
        (fun _ _ _ => rfl) (hpw.imp fun hne he => absurd he hne) (hpw.imp fun hne he => absurd he.symm hne) hd hc
      exact this (hde.trans hid.symm)
  have hf : s.children.find? (fun d => decide (d.spec.id = spec.id)) = some c := by
    cases hx : s.children.find? (fun d => decide (d.spec.id = spec.id)) with
    | none => have := List.find?_eq_none.1 hx c hc; simp [hid] at this
    | some d =>
      have h1 := List.mem_of_find?_eq_some hx
      have h2 := List.find?_some hx
      rw [hinj d h1 (by simpa using h2)]
  simp only [step, startChild, hmem, if_true, hf]
  cases hp : c.pid <;> simp

example : life good .oneForOne .never 3 5000 [worker "a" .permanent]
    [(0, .startChild (worker "b" .transient)), (5, .exit (.loc 100) .kill), (6, .terminateChild "b")] ≠ .panicked := by
  simp [life, boot, fresh, initChildren, startChildren, startAll, startAt, started, worker, good, new]
  intro h; cases h

/-- **C70**: no history of requests and exits makes the supervisor panic, as long as every specification has a start routine
and no start routine of a *temporary* child passed to `start_child` returns `ignore`. -/
theorem C70_no_panic_partial (o : Oracle) (st : Strategy) (au : AutoShutdown) (mr md : Nat) (cs : List Spec) (evs : List (Nat × Event))
    (hs : ∀ c ∈ cs, c.hasStart = true) (hd : (cs.map (·.id)).Nodup)
    (he : ∀ now c, (now, Event.startChild c) ∈ evs → c.hasStart = true ∧ (c.restart = .temporary → ∀ k, o k c ≠ .error .ignore)) :
    life o st au mr md cs evs ≠ .panicked := by
  unfold life
  cases hb : boot o (fresh st au mr md cs) with
  | stopped s r => cases evs <;> simp [run]
  | panicked =>
    have he := startChildren_eq o (fresh st au mr md cs) (by simpa [fresh] using hs)
    simp only [boot, initChildren, he] at hb
    cases hx : (spawn o (fresh st au mr md cs).calls 0 (fresh st au mr md cs).children).2.2 <;>
      simp [hx, terminateChildren_eq] at hb
  | up s =>
    obtain ⟨h1, h2, h3, -⟩ := fresh_inv o st au mr md cs hs hd s hb
    clear hb h2
    induction evs generalizing s with
    | nil => simp [run]
    | cons x evs ih =>
      obtain ⟨now, e⟩ := x
      simp only [run]
      have htot := step_total o s now e h1 h3 (fun c hc => (he now c (by simp [hc])).1)
      cases hst : step o s now e with
      | none => exact absurd hst htot
      | some r =>
        obtain ⟨s', rep, q⟩ := r
        cases q with
        | some r => simp
        | none =>
          have hm := step_move h1 hst
          exact ih (fun n c hc => he n c (by simp [hc])) s' (move_ready h1 hm)
            (noStray_step h3 (move_specs hm) fun c hc ht => (he now c (by simp [hc])).2 ht)

/-- An oracle that lets the first `start_child` request be ignored. -/
def ignores : Oracle := fun k _ => if k = 0 then .error .ignore else .ok (.loc (k + 100))

/-- **C70** is violated: `start_child` with a temporary child whose start routine returns `ignore`, twice, panics the
supervisor. -/
theorem C70_panic_violated :
    life ignores .oneForOne .never 3 5000 [] [(0, .startChild (worker "t" .temporary)), (1, .startChild (worker "t" .temporary))] = .panicked := by
  rfl

/-! ## C67, C69 -/

/-- **C67**: `delete_child` succeeds iff a child with that id exists that has no process and is not being restarted; then
exactly this child is removed. Otherwise nothing changes. -/
theorem C67_delete (o : Oracle) (s : Sup) (now : Nat) (id : String) :
    (∃ pre c post, s.children = pre ++ c :: post ∧ c.spec.id = id ∧ (∀ d ∈ pre, d.spec.id ≠ id) ∧
      step o s now (.deleteChild id) =
        if c.restarting then some (s, .done (.error .restarting), none)
        else if c.pid.isSome then some (s, .done (.error .running), none)
        else some ({ s with children := pre ++ post, ids := s.ids.filter (· ≠ id) }, .done (.ok ()), none)) ∨
    ((∀ c ∈ s.children, c.spec.id ≠ id) ∧ step o s now (.deleteChild id) = some (s, .done (.error .notFound), none)) := by
  cases hx : s.children.findIdx? (fun c => decide (c.spec.id = id)) with
  | none =>
    right
    refine ⟨by rw [findIdx_none] at hx; intro d hd; simpa using hx d hd, ?_⟩
    simp only [step, deleteChild, indexOf, hx]
  | some i =>
    left
    obtain ⟨pre, c, post, hc, rfl, hp, hpre⟩ := findIdx_some _ _ _ hx
    have hid : c.spec.id = id := by simpa using hp
    refine ⟨pre, c, post, hc, hid, by intro d hd; simpa using hpre d hd, ?_⟩
    have hg := get_mid pre c post
    have he := erase_mid pre c post
    rw [← hc] at hg he
    simp only [step, deleteChild, indexOf, hx, hg]
    split
    · rfl
    · split
      · rfl
      · simp [he, hid]

/-- **C67**: `terminate_child` shuts down the process of the child if there is one; the child list keeps its
specifications, *also that of a temporary child* (the documentation says that one is removed, supervisor.rs:251-257). -/
theorem C67_terminate_partial (o : Oracle) (s : Sup) (now : Nat) (id : String) :
    (∃ pre c post s', s.children = pre ++ c :: post ∧ c.spec.id = id ∧ (∀ d ∈ pre, d.spec.id ≠ id) ∧
      step o s now (.terminateChild id) = some (s', .done (.ok ()), none) ∧
      s'.log = s.log ++ (match c.pid with | some p => [.stop p (manner c.spec)] | none => []) ∧
      (∃ c', c'.spec = c.spec ∧ c'.pid = none ∧ s'.children = pre ++ c' :: post) ∧ s'.ids = s.ids) ∨
    ((∀ c ∈ s.children, c.spec.id ≠ id) ∧ step o s now (.terminateChild id) = some (s, .done (.error .notFound), none)) := by
  cases hx : s.children.findIdx? (fun c => decide (c.spec.id = id)) with
  | none =>
    right
    refine ⟨by rw [findIdx_none] at hx; intro d hd; simpa using hx d hd, ?_⟩
    simp only [step, terminateChild, indexOf, hx, Option.map_some]
  | some i =>
    left
    obtain ⟨pre, c, post, hc, rfl, hp, hpre⟩ := findIdx_some _ _ _ hx
    refine ⟨pre, c, post, { s with children := pre ++ halt c :: post, log := s.log ++ stops [c] }, hc, by simpa using hp,
      by intro d hd; simpa using hpre d hd, ?_, ?_, ⟨halt c, halt_spec c, ?_, ?_⟩, ?_⟩
    · simp only [step, terminateChild, indexOf, hx, terminateAt_mid s pre post c hc, Option.map_some]
    · simp only [stops, howTo_manner]; cases hcp : c.pid <;> simp [hcp]
    · unfold halt; cases hcp : c.pid <;> simp [hcp]
    · rfl
    · rfl

/-- **C67** is violated for temporary children: after `terminate_child` the specification is still listed. -/
theorem C67_terminate_violated :
    ∃ s s', boot good (fresh .oneForOne .never 3 5000 [worker "t" .temporary]) = .up s ∧
      step good s 0 (.terminateChild "t") = some (s', .done (.ok ()), none) ∧ s'.children = [⟨worker "t" .temporary, none, false⟩] :=
  ⟨_, _, rfl, rfl, rfl⟩

/-- **C67**: `restart_child` runs the start routine only of a child that exists, has no process and is not being restarted.
It answers with the process started, or with the error of the start routine, and otherwise changes nothing. -/
theorem C67_restart (o : Oracle) (s : Sup) (now : Nat) (id : String) (hs : Ready s) :
    (∃ pre c post, s.children = pre ++ c :: post ∧ c.spec.id = id ∧ (∀ d ∈ pre, d.spec.id ≠ id) ∧
      ((c.restarting = true ∧ step o s now (.restartChild id) = some (s, .pid (.error .restarting), none)) ∨
       (c.restarting = false ∧ c.pid ≠ none ∧ step o s now (.restartChild id) = some (s, .pid (.error .running), none)) ∨
       (c.restarting = false ∧ c.pid = none ∧ ∃ s' r, step o s now (.restartChild id) = some (s', .pid r, none) ∧
         s'.log = s.log ++ [.start id (o s.calls c.spec)] ∧
         (∀ p, o s.calls c.spec = .ok p → r = .ok (some p) ∧ s'.children = pre ++ { c with pid := some p } :: post) ∧
         (o s.calls c.spec = .error .ignore → r = .ok none ∧ s'.children = s.children) ∧
         (∀ e, o s.calls c.spec = .error e → e ≠ .ignore → r = .error (.startError e) ∧ s'.children = s.children)))) ∨
    ((∀ c ∈ s.children, c.spec.id ≠ id) ∧ step o s now (.restartChild id) = some (s, .pid (.error .notFound), none)) := by
  cases hx : s.children.findIdx? (fun c => decide (c.spec.id = id)) with
  | none =>
    right
    refine ⟨by rw [findIdx_none] at hx; intro d hd; simpa using hx d hd, ?_⟩
    simp only [step, restartChild, indexOf, hx, Option.map_some]
  | some i =>
    left
    obtain ⟨pre, c, post, hc, rfl, hp, hpre⟩ := findIdx_some _ _ _ hx
    have hid : c.spec.id = id := by simpa using hp
    refine ⟨pre, c, post, hc, hid, by intro d hd; simpa using hpre d hd, ?_⟩
    have hg := get_mid pre c post
    rw [← hc] at hg
    simp only [step, restartChild, indexOf, hx, hg]
    cases hr : c.restarting with
    | true => left; simp
    | false =>
      right
      cases hpid : c.pid with
      | some p => left; simp
      | none =>
        right
        refine ⟨rfl, rfl, ?_⟩
        simp only [Bool.false_eq_true, if_false, Option.isSome_none]
        rw [startAt_mid o s pre post c hc (hs c (by simp [hc]))]
        cases ho : o s.calls c.spec with
        | ok p =>
          refine ⟨_, _, rfl, by simp [started, hid], ?_, by simp, by simp⟩
          intro q hq
          simp only [Except.ok.injEq] at hq
          subst hq
          exact ⟨rfl, by simp only [started, hc, modify_mid]⟩
        | error e =>
          cases e with
          | ignore =>
            refine ⟨_, _, rfl, by simp [started, hid], by simp, ?_, by simp⟩
            intro _
            refine ⟨rfl, ?_⟩
            simp only [started, hc, modify_mid]
            have : ({ c with pid := none, restarting := false } : Child) = c := by cases c; simp_all
            rw [this]
          | _ =>
            all_goals
              refine ⟨_, _, rfl, by simp [hid], by simp, by simp, ?_⟩
              intro e he _
              simp only [Except.error.injEq] at he
              subst he
              exact ⟨rfl, rfl⟩

/-- **C69**: the counts are those of the listed children. -/
theorem C69_counts (s : Sup) :
    countChildren s = { specs := (whichChildren s).length,
                        active := ((whichChildren s).filter fun i => i.child.isSome).length,
                        supervisors := ((whichChildren s).filter fun i => i.childType = .supervisor).length,
                        workers := ((whichChildren s).filter fun i => i.childType = .worker).length } := by
  have key : ∀ (l : List Child) (k : Counts), l.foldl (fun k c =>
      ({ specs := k.specs + 1,
         active := if c.pid.isSome then k.active + 1 else k.active,
         supervisors := if c.spec.childType = .supervisor then k.supervisors + 1 else k.supervisors,
         workers := if c.spec.childType = .supervisor then k.workers else k.workers + 1 } : Counts)) k =
      { specs := k.specs + l.length, active := k.active + (l.filter fun c => c.pid.isSome).length,
        supervisors := k.supervisors + (l.filter fun c => c.spec.childType = .supervisor).length,
        workers := k.workers + (l.filter fun c => c.spec.childType = .worker).length } := by
    intro l
    induction l with
    | nil => intro k; rfl
    | cons c l ih =>
      intro k
      rw [List.foldl_cons, ih]
      cases hp : c.pid <;> cases ht : c.spec.childType <;> simp [hp, ht] <;> omega
  rw [countChildren, key]
  simp [whichChildren, List.filter_map, Function.comp_def]

end Verif.Sup
