import Verif.SupervisorLemmas
/-! # What each event does to a supervisor, and invariants over whole runs -/
namespace Verif.Sup

/-- A child with this specification that exits for reason `r` is to be restarted. -/
def Wants (c : Spec) (r : ExitReason) : Prop :=
  c.restart = .permanent ∨ (c.restart = .transient ∧ r ≠ .normal ∧ r ≠ .custom "shutdown")

instance (c : Spec) (r : ExitReason) : Decidable (Wants c r) := by unfold Wants; infer_instance

/-- The counted restarts that are still inside the window at time `now`. -/
def recent (s : Sup) (now : Nat) : List Nat := s.restarts.filter fun t => now ≤ t + s.maxDuration

/-- One more restart at time `now` would be more than `max_restarts` in `max_duration`. -/
def TooMany (s : Sup) (now : Nat) : Prop := s.maxRestarts ≤ (recent s now).length

instance (s : Sup) (now : Nat) : Decidable (TooMany s now) := by unfold TooMany; infer_instance

theorem findIdx_some {α : Type} (p : α → Bool) (l : List α) (i : Nat) (h : l.findIdx? p = some i) :
    ∃ pre c post, l = pre ++ c :: post ∧ i = pre.length ∧ p c = true ∧ ∀ d ∈ pre, p d = false := by
  induction l generalizing i with
  | nil => simp at h
  | cons a l ih =>
    rw [List.findIdx?_cons] at h
    by_cases ha : p a = true
    · simp [ha] at h
      exact ⟨[], a, l, rfl, h.symm, ha, by simp⟩
    · simp only [ha] at h
      rcases hl : l.findIdx? p with _ | j
      · simp [hl] at h
      · simp [hl] at h
        obtain ⟨pre, c, post, e, e2, e3, e4⟩ := ih j hl
        refine ⟨a :: pre, c, post, by simp [e], by simp [← h, e2], e3, ?_⟩
        intro d hd
        rcases List.mem_cons.1 hd with rfl | hd
        · simpa using ha
        · exact e4 d hd

theorem findIdx_mid {α : Type} (p : α → Bool) (pre post : List α) (c : α) (hc : p c = true) (hp : ∀ d ∈ pre, p d = false) :
    (pre ++ c :: post).findIdx? p = some pre.length := by
  induction pre with
  | nil => simp [List.findIdx?_cons, hc]
  | cons a pre ih =>
    have := ih fun d hd => hp d (by simp [hd])
    simp [List.findIdx?_cons, hp a (by simp), this]

theorem findIdx_none {α : Type} (p : α → Bool) (l : List α) : l.findIdx? p = none ↔ ∀ d ∈ l, p d = false := by
  simp

theorem addRestart_eq (s : Sup) (now : Nat) :
    addRestart s now = ({ s with restarts := recent s now ++ [now] }, decide (TooMany s now)) := by
  simp only [addRestart, recent, TooMany, Prod.mk.injEq, List.length_append, List.length_singleton, true_and]
  congr 1
  simp only [eq_iff_iff]
  omega

theorem removeChild_mid (s : Sup) (pre post : List Child) (c : Child) (h : s.children = pre ++ c :: post) :
    removeChild s pre.length = some ({ s with children := pre ++ post, ids := s.ids.filter (· ≠ c.spec.id) }, c) := by
  have hg := get_mid pre c post
  have he := erase_mid pre c post
  rw [← h] at hg he
  simp only [removeChild, hg, he]

/-- The state after a child is forgotten. -/
def without (s : Sup) (pre post : List Child) (c : Child) : Sup :=
  { s with children := pre ++ post, ids := s.ids.filter (· ≠ c.spec.id) }

theorem childExited_eq (o : Oracle) (s : Sup) (now : Nat) (p : Pid) (r : ExitReason) (pre post : List Child) (c : Child)
    (h : s.children = pre ++ c :: post) (hc : c.pid = some p) (hp : ∀ d ∈ pre, d.pid ≠ some p) :
    childExited o s now p r =
      if Wants c.spec r then
        if TooMany s now then some ({ s with restarts := recent s now ++ [now] }, some shutdownReason)
        else (restart o { s with restarts := recent s now ++ [now] } pre.length).map fun s => (s, none)
      else some (without s pre post c, if autoStops (without s pre post c) c then some shutdownReason else none) := by
  have hi : indexOfPid s p = some pre.length := by
    rw [indexOfPid, h]; exact findIdx_mid _ _ _ _ (by simp [hc]) (by intro d hd; simp [hp d hd])
  have hg := get_mid pre c post
  rw [← h] at hg
  have hn : (isNormal r = true ∨ r = shutdownReason) ↔ (r = .normal ∨ r = .custom "shutdown") := by
    cases r <;> simp [isNormal, shutdownReason]
  simp only [childExited, hi, hg, addRestart_eq, removeChild_mid s pre post c h, Option.map_some, decide_eq_true_eq, without,
    hn]
  by_cases hw : Wants c.spec r
  · rw [if_pos hw]
    rcases hw with hw | ⟨hw, h1, h2⟩
    · rw [if_pos hw]
    · rw [if_neg (by simp [hw]), if_neg (by simp [h1, h2]), if_pos hw]
  · rw [if_neg hw, if_neg (fun x => hw (Or.inl x))]
    by_cases h1 : r = .normal ∨ r = .custom "shutdown"
    · rw [if_pos h1]; rfl
    · rw [if_neg h1, if_neg (fun x => hw (Or.inr ⟨x, fun a => h1 (Or.inl a), fun a => h1 (Or.inr a)⟩))]; rfl

theorem childExited_none (o : Oracle) (s : Sup) (now : Nat) (p : Pid) (r : ExitReason) (h : ∀ d ∈ s.children, d.pid ≠ some p) :
    childExited o s now p r = some (s, none) := by
  have : indexOfPid s p = none := by
    rw [indexOfPid, findIdx_none]; intro d hd; simp [h d hd]
  simp only [childExited, this]


def specs (s : Sup) : List Spec := s.children.map (·.spec)

/-- Every child specification has a start routine. -/
def Ready (s : Sup) : Prop := ∀ c ∈ s.children, c.spec.hasStart = true

theorem mark_specs (n : Nat) (cs : List Child) (f : Option (Nat × ExitReason)) : (mark n cs f).map (·.spec) = cs.map (·.spec) := by
  cases f with
  | none => rfl
  | some x =>
    obtain ⟨j, e⟩ := x
    simp only [mark]
    generalize j - n = k
    induction cs generalizing k with
    | nil => cases k <;> simp
    | cons c cs ih => cases k <;> simp [List.modify_succ_cons, ih]

theorem halt_specs (cs : List Child) : (cs.map halt).map (·.spec) = cs.map (·.spec) := by
  induction cs with
  | nil => rfl
  | cons c cs ih => simp [halt_spec]

theorem zone_specs {st : Strategy} {pre post A M Z : List Child} {c : Child} {fx : List Eff} (hz : zone st pre c post = (A, M, Z, fx)) :
    (A ++ M ++ Z).map (·.spec) = (pre ++ c :: post).map (·.spec) := by
  cases st <;> simp only [zone, Prod.mk.injEq] at hz <;> obtain ⟨rfl, rfl, rfl, rfl⟩ := hz <;>
    simp [halt_spec, Function.comp_def]

theorem restart_specs (o : Oracle) (s : Sup) (pre post : List Child) (c : Child) (h : s.children = pre ++ c :: post) (hs : Ready s) :
    ∃ s', restart o s pre.length = some s' ∧ specs s' = specs s ∧ s'.ids = s.ids ∧ s'.restarts = s.restarts ∧
      s'.maxRestarts = s.maxRestarts ∧ s'.maxDuration = s.maxDuration ∧ s'.strategy = s.strategy ∧ s'.auto = s.auto := by
  obtain ⟨A, M, Z, fx, hz⟩ : ∃ A M Z fx, zone s.strategy pre c post = (A, M, Z, fx) := ⟨_, _, _, _, rfl⟩
  rw [restart_eq o s pre post c h hs A M Z fx hz]
  refine ⟨_, rfl, ?_, rfl, rfl, rfl, rfl, rfl, rfl⟩
  have := zone_specs hz
  simp only [specs, h, List.map_append, mark_specs, spawn_specs] at this ⊢
  exact this

/-- What an event that does not stop the supervisor does to its list of specifications and its set of ids. -/
def SpecsStep (o : Oracle) (s : Sup) (e : Event) (s' : Sup) : Prop :=
  (specs s' = specs s ∧ s'.ids = s.ids) ∨
  (∃ a c b, specs s = a ++ c :: b ∧ specs s' = a ++ b ∧ s'.ids = s.ids.filter (· ≠ c.id)) ∨
  (∃ c, e = .startChild c ∧ c.id ∉ s.ids ∧ s'.ids = c.id :: s.ids ∧
    (specs s' = specs s ++ [c] ∨ (specs s' = specs s ∧ c.restart = .temporary ∧ ∃ k, o k c = .error .ignore)))

theorem modify_specs (cs : List Child) (i : Nat) (f : Child → Child) (h : ∀ c, (f c).spec = c.spec) :
    (cs.modify i f).map (·.spec) = cs.map (·.spec) := by
  induction cs generalizing i with
  | nil => cases i <;> simp
  | cons c cs ih => cases i <;> simp [List.modify_succ_cons, ih, h]

theorem startAt_some (o : Oracle) (s : Sup) (i : Nat) (r : Sup × Except ExitReason (Option Pid)) (h : startAt o s i = some r) :
    ∃ c, s.children[i]? = some c ∧ c.spec.hasStart = true ∧
      r.1 = { s with calls := s.calls + 1, log := s.log ++ [.start c.spec.id (o s.calls c.spec)] } ∧
      r.2 = (match o s.calls c.spec with
        | .ok p => .ok (some p)
        | .error .ignore => .ok none
        | .error e => .error e) := by
  unfold startAt at h
  split at h
  · simp at h
  · next c hc =>
    split at h
    · next hst =>
      refine ⟨c, hc, hst, ?_⟩
      generalize o s.calls c.spec = out at *
      rcases out with e | p
      · cases e <;> simp at h <;> subst h <;> simp
      · simp at h; subst h; simp
    · simp at h

theorem startAt_none (o : Oracle) (s : Sup) (i : Nat) (c : Child) (hc : s.children[i]? = some c) (hs : c.spec.hasStart = true) :
    startAt o s i ≠ none := by
  unfold startAt
  simp only [hc, hs, if_true]
  generalize o s.calls c.spec = out
  rcases out with e | p
  · cases e <;> simp
  · simp


/-- What an event can do to the children, the ids and the log. -/
inductive Move (o : Oracle) (s : Sup) (e : Event) (s' : Sup) : Prop
  | idle (hc : s'.children = s.children) (hi : s'.ids = s.ids) (hl : s'.log = s.log) (hk : s'.calls = s.calls)
  | again (pre : List Child) (c : Child) (post A M Z : List Child) (fx : List Eff) (h : s.children = pre ++ c :: post)
      (hz : zone s.strategy pre c post = (A, M, Z, fx))
      (why : (∃ p r, e = .exit p r ∧ c.pid = some p ∧ Wants c.spec r) ∨ (e = .retry ∧ c.restarting = true))
      (hc : s'.children = A ++ mark A.length (spawn o s.calls A.length M).1 (spawn o s.calls A.length M).2.2 ++ Z)
      (hi : s'.ids = s.ids) (hl : s'.log = s.log ++ fx ++ (spawn o s.calls A.length M).2.1)
      (hk : s'.calls = s.calls + (spawn o s.calls A.length M).2.1.length)
  | drop (pre : List Child) (c : Child) (post : List Child) (p : Pid) (r : ExitReason) (he : e = .exit p r)
      (h : s.children = pre ++ c :: post) (hp : c.pid = some p) (hw : ¬ Wants c.spec r) (hc : s'.children = pre ++ post)
      (hi : s'.ids = s.ids.filter (· ≠ c.spec.id)) (hl : s'.log = s.log) (hk : s'.calls = s.calls)
  | new (c : Spec) (he : e = .startChild c) (hst : c.hasStart = true) (hn : c.id ∉ s.ids) (hi : s'.ids = c.id :: s.ids)
      (hl : s'.log = s.log ++ [.start c.id (o s.calls c)]) (hk : s'.calls = s.calls + 1)
      (hc : (∃ p, o s.calls c = .ok p ∧ s'.children = s.children ++ [⟨c, some p, false⟩]) ∨
        ((∀ p, o s.calls c ≠ .ok p) ∧ s'.children = s.children ++ [⟨c, none, false⟩]) ∨
        (o s.calls c = .error .ignore ∧ c.restart = .temporary ∧ s'.children = s.children))
  | term (pre : List Child) (c : Child) (post : List Child) (id : String) (he : e = .terminateChild id) (hid : c.spec.id = id)
      (h : s.children = pre ++ c :: post) (hc : s'.children = pre ++ halt c :: post)
      (hi : s'.ids = s.ids) (hl : s'.log = s.log ++ stops [c]) (hk : s'.calls = s.calls)
  | rest (pre : List Child) (c : Child) (post : List Child) (id : String) (he : e = .restartChild id) (hid : c.spec.id = id)
      (h : s.children = pre ++ c :: post) (hp : c.pid = none) (hr : c.restarting = false)
      (hc : (∃ p, o s.calls c.spec = .ok p ∧ s'.children = pre ++ put c (some p) :: post) ∨
        ((∀ p, o s.calls c.spec ≠ .ok p) ∧ s'.children = s.children))
      (hi : s'.ids = s.ids) (hl : s'.log = s.log ++ [.start c.spec.id (o s.calls c.spec)]) (hk : s'.calls = s.calls + 1)
  | del (pre : List Child) (c : Child) (post : List Child) (id : String) (he : e = .deleteChild id) (hid : c.spec.id = id)
      (h : s.children = pre ++ c :: post) (hp : c.pid = none) (hr : c.restarting = false)
      (hc : s'.children = pre ++ post) (hi : s'.ids = s.ids.filter (· ≠ c.spec.id)) (hl : s'.log = s.log) (hk : s'.calls = s.calls)

theorem finish_some (r : Sup × Option ExitReason) (s' : Sup) (rep : Reply) (q : Option ExitReason)
    (h : finish r = some (s', rep, q)) : rep = .none ∧ q = r.2 ∧ (q = none ∧ s' = r.1 ∨ ∃ e, q = some e ∧ terminateChildren r.1 = some s') := by
  obtain ⟨s1, q1⟩ := r
  cases q1 with
  | none => simp only [finish, Option.some.injEq, Prod.mk.injEq] at h; exact ⟨h.2.1.symm, h.2.2.symm, Or.inl ⟨h.2.2.symm, h.1.symm⟩⟩
  | some e =>
    simp only [finish] at h
    cases ht : terminateChildren s1 with
    | none => simp [ht] at h
    | some s2 =>
      simp only [ht, Option.map_some, Option.some.injEq, Prod.mk.injEq] at h
      exact ⟨h.2.1.symm, h.2.2.symm, Or.inr ⟨e, h.2.2.symm, by rw [← h.1]⟩⟩

theorem step_moves (o : Oracle) (s s' : Sup) (now : Nat) (e : Event) (rep : Reply) (q : Option ExitReason) (hs : Ready s)
    (h : step o s now e = some (s', rep, q)) :
    ∃ s1, Move o s e s1 ∧ (q = none ∧ s' = s1 ∨ ∃ r, q = some r ∧ terminateChildren s1 = some s') := by
  cases e with
  | exit p r =>
    simp only [step, Option.bind_eq_some_iff] at h
    obtain ⟨⟨s1, q1⟩, h1, h2⟩ := h
    obtain ⟨-, hq, hf⟩ := finish_some _ _ _ _ h2
    refine ⟨s1, ?_, hf⟩
    cases hx : s.children.findIdx? (fun c => decide (c.pid = some p)) with
    | none =>
      rw [childExited_none o s now p r (by rw [findIdx_none] at hx; intro d hd; simpa using hx d hd)] at h1
      simp only [Option.some.injEq, Prod.mk.injEq] at h1
      obtain ⟨rfl, -⟩ := h1
      exact .idle rfl rfl rfl rfl
    | some i =>
      obtain ⟨pre, c, post, hc, -, hp, hpre⟩ := findIdx_some _ _ _ hx
      have hp : c.pid = some p := by simpa using hp
      rw [childExited_eq o s now p r pre post c hc hp (by intro d hd; simpa using hpre d hd)] at h1
      by_cases hw : Wants c.spec r
      · rw [if_pos hw] at h1
        by_cases ht : TooMany s now
        · rw [if_pos ht] at h1
          simp only [Option.some.injEq, Prod.mk.injEq] at h1
          obtain ⟨rfl, -⟩ := h1
          exact .idle rfl rfl rfl rfl
        · rw [if_neg ht] at h1
          obtain ⟨A, M, Z, fx, hz⟩ : ∃ A M Z fx, zone s.strategy pre c post = (A, M, Z, fx) := ⟨_, _, _, _, rfl⟩
          rw [restart_eq o { s with restarts := recent s now ++ [now] } pre post c hc hs A M Z fx hz] at h1
          simp only [Option.map_some, Option.some.injEq, Prod.mk.injEq] at h1
          obtain ⟨rfl, -⟩ := h1
          exact .again pre c post A M Z fx hc hz (Or.inl ⟨p, r, rfl, hp, hw⟩) rfl rfl rfl rfl
      · rw [if_neg hw] at h1
        simp only [Option.some.injEq, Prod.mk.injEq] at h1
        obtain ⟨rfl, -⟩ := h1
        exact .drop pre c post p r rfl hc hp hw rfl rfl rfl rfl
  | retry =>
    simp only [step] at h
    split at h
    · simp only [Option.some.injEq, Prod.mk.injEq] at h
      exact ⟨s, .idle rfl rfl rfl rfl, Or.inl ⟨h.2.2.symm, h.1.symm⟩⟩
    · next id rest hca =>
      split at h
      · simp only [Option.some.injEq, Prod.mk.injEq] at h
        refine ⟨s', ?_, Or.inl ⟨h.2.2.symm, rfl⟩⟩
        rw [← h.1]
        exact .idle rfl rfl rfl rfl
      · next i hi =>
        simp only [Option.bind_eq_some_iff] at h
        obtain ⟨⟨s1, q1⟩, h1, h2⟩ := h
        obtain ⟨-, hq, hf⟩ := finish_some _ _ _ _ h2
        refine ⟨s1, ?_, hf⟩
        obtain ⟨pre, c, post, hc, rfl, hp, hpre⟩ := findIdx_some _ _ _ hi
        simp only at hc
        simp only [tryAgain, addRestart_eq, decide_eq_true_eq] at h1
        split at h1
        · simp only [Option.some.injEq, Prod.mk.injEq] at h1
          obtain ⟨rfl, -⟩ := h1
          exact .idle rfl rfl rfl rfl
        · have hg := get_mid pre c post
          rw [← hc] at hg
          simp only [hg] at h1
          split at h1
          · next hr =>
            obtain ⟨A, M, Z, fx, hz⟩ : ∃ A M Z fx, zone s.strategy pre c post = (A, M, Z, fx) := ⟨_, _, _, _, rfl⟩
            rw [restart_eq o { s with restarts := recent { s with casts := rest } now ++ [now], casts := rest } pre post c hc hs A M Z fx hz] at h1
            simp only [Option.map_some, Option.some.injEq, Prod.mk.injEq] at h1
            obtain ⟨rfl, -⟩ := h1
            exact .again pre c post A M Z fx hc hz (Or.inr ⟨rfl, hr⟩) rfl rfl rfl rfl
          · simp only [Option.some.injEq, Prod.mk.injEq] at h1
            obtain ⟨rfl, -⟩ := h1
            exact .idle rfl rfl rfl rfl
  | count =>
    simp only [step, Option.some.injEq, Prod.mk.injEq] at h
    exact ⟨s, .idle rfl rfl rfl rfl, Or.inl ⟨h.2.2.symm, h.1.symm⟩⟩
  | which =>
    simp only [step, Option.some.injEq, Prod.mk.injEq] at h
    exact ⟨s, .idle rfl rfl rfl rfl, Or.inl ⟨h.2.2.symm, h.1.symm⟩⟩
  | other =>
    simp only [step, Option.some.injEq, Prod.mk.injEq] at h
    exact ⟨s, .idle rfl rfl rfl rfl, Or.inl ⟨h.2.2.symm, h.1.symm⟩⟩
  | stop r =>
    simp only [step, Option.map_eq_some_iff] at h
    obtain ⟨s1, h1, h2⟩ := h
    simp only [Prod.mk.injEq] at h2
    exact ⟨s, .idle rfl rfl rfl rfl, Or.inr ⟨r, h2.2.2.symm, by rw [h1, h2.1]⟩⟩
  | deleteChild id =>
    simp only [step, Option.some.injEq, Prod.mk.injEq] at h
    refine ⟨s', ?_, Or.inl ⟨h.2.2.symm, rfl⟩⟩
    rw [← h.1]
    unfold deleteChild
    split
    · exact .idle rfl rfl rfl rfl
    · next i hi =>
      obtain ⟨pre, c, post, hc, rfl, hp, hpre⟩ := findIdx_some _ _ _ hi
      have hg := get_mid pre c post
      have he := erase_mid pre c post
      rw [← hc] at hg he
      simp only [hg]
      split
      · exact .idle rfl rfl rfl rfl
      · next hr =>
        split
        · exact .idle rfl rfl rfl rfl
        · next hpid => exact .del pre c post id rfl (by simpa using hp) hc (by simpa using hpid) (by simpa using hr) he rfl rfl rfl
  | terminateChild id =>
    simp only [step, Option.map_eq_some_iff] at h
    obtain ⟨⟨s1, r1⟩, h1, h2⟩ := h
    simp only [Prod.mk.injEq] at h2
    refine ⟨s', ?_, Or.inl ⟨h2.2.2.symm, rfl⟩⟩
    rw [← h2.1]
    unfold terminateChild at h1
    split at h1
    · simp only [Option.some.injEq, Prod.mk.injEq] at h1
      rw [← h1.1]
      exact .idle rfl rfl rfl rfl
    · next i hi =>
      obtain ⟨pre, c, post, hc, rfl, hp, hpre⟩ := findIdx_some _ _ _ hi
      rw [terminateAt_mid s pre post c hc] at h1
      simp only [Option.map_some, Option.some.injEq, Prod.mk.injEq] at h1
      rw [← h1.1]
      exact .term pre c post id rfl (by simpa using hp) hc rfl rfl rfl rfl
  | restartChild id =>
    simp only [step, Option.map_eq_some_iff] at h
    obtain ⟨⟨s1, r1⟩, h1, h2⟩ := h
    simp only [Prod.mk.injEq] at h2
    refine ⟨s', ?_, Or.inl ⟨h2.2.2.symm, rfl⟩⟩
    rw [← h2.1]
    unfold restartChild at h1
    split at h1
    · simp only [Option.some.injEq, Prod.mk.injEq] at h1
      rw [← h1.1]
      exact .idle rfl rfl rfl rfl
    · next i hi =>
      obtain ⟨pre, c, post, hc, rfl, hp, hpre⟩ := findIdx_some _ _ _ hi
      have hg := get_mid pre c post
      rw [← hc] at hg
      simp only [hg] at h1
      split at h1
      · simp only [Option.some.injEq, Prod.mk.injEq] at h1
        rw [← h1.1]
        exact .idle rfl rfl rfl rfl
      · next hr =>
        split at h1
        · simp only [Option.some.injEq, Prod.mk.injEq] at h1
          rw [← h1.1]
          exact .idle rfl rfl rfl rfl
        · next hpid =>
          have hpn : c.pid = none := by simpa using hpid
          have hrf : c.restarting = false := by simpa using hr
          have hput : put c none = c := by cases c; simp_all [put]
          rw [startAt_mid o s pre post c hc (hs c (by simp [hc]))] at h1
          have fin : ∀ x : Sup, x.ids = s.ids → x.log = s.log ++ [.start c.spec.id (o s.calls c.spec)] → x.calls = s.calls + 1 →
              ((∃ p, o s.calls c.spec = .ok p ∧ x.children = pre ++ put c (some p) :: post) ∨
                ((∀ p, o s.calls c.spec ≠ .ok p) ∧ x.children = s.children)) → Move o s (.restartChild id) x :=
            fun x a b d g => .rest pre c post id rfl (by simpa using hp) hc hpn hrf g a b d
          cases ho : o s.calls c.spec with
          | ok p =>
            simp only [ho, Option.some.injEq, Prod.mk.injEq, started, hc, modify_mid] at h1
            apply fin <;> rw [← h1.1]
            · simp [ho]
            · exact Or.inl ⟨p, ho, rfl⟩
          | error e =>
            cases e with
            | ignore =>
              simp only [ho, Option.some.injEq, Prod.mk.injEq, started, hc, modify_mid] at h1
              apply fin <;> rw [← h1.1]
              · simp [ho]
              · refine Or.inr ⟨by simp [ho], ?_⟩
                simp only [hc]; have : (⟨c.spec, none, false⟩ : Child) = c := hput
                rw [this]
            | _ =>
              all_goals
                simp only [ho, Option.some.injEq, Prod.mk.injEq] at h1
                apply fin <;> rw [← h1.1]
                · simp [ho]
                · exact Or.inr ⟨by simp [ho], rfl⟩
  | startChild c =>
    simp only [step, Option.map_eq_some_iff] at h
    obtain ⟨⟨s1, r1⟩, h1, h2⟩ := h
    simp only [Prod.mk.injEq] at h2
    refine ⟨s', ?_, Or.inl ⟨h2.2.2.symm, rfl⟩⟩
    rw [← h2.1]
    unfold startChild at h1
    split at h1
    · split at h1
      · simp at h1
      · split at h1 <;> simp only [Option.some.injEq, Prod.mk.injEq] at h1 <;> rw [← h1.1] <;> exact .idle rfl rfl rfl rfl
    · next hn =>
      have hlen : (s.children ++ [(⟨c, none, false⟩ : Child)]).length - 1 = s.children.length := by simp
      simp only [hlen] at h1
      by_cases hst : c.hasStart = true
      · rw [startAt_mid o _ s.children [] ⟨c, none, false⟩ rfl hst] at h1
        have fin : ∀ x : Sup, x.ids = c.id :: s.ids → x.log = s.log ++ [.start c.id (o s.calls c)] → x.calls = s.calls + 1 →
            ((∃ p, o s.calls c = .ok p ∧ x.children = s.children ++ [⟨c, some p, false⟩]) ∨
              ((∀ p, o s.calls c ≠ .ok p) ∧ x.children = s.children ++ [⟨c, none, false⟩]) ∨
              (o s.calls c = .error .ignore ∧ c.restart = .temporary ∧ x.children = s.children)) → Move o s (.startChild c) x :=
          fun x a b d g => .new c rfl hst hn a b d g
        cases ho : o s.calls c with
        | ok p =>
          simp only [ho, started, hlen, modify_mid] at h1
          simp only [reduceCtorEq, and_false, if_false, Option.some.injEq, Prod.mk.injEq] at h1
          apply fin <;> rw [← h1.1]
          · simp [ho]
          · exact Or.inl ⟨p, ho, rfl⟩
        | error e =>
          cases e with
          | ignore =>
            simp only [ho, started, hlen, modify_mid, and_true] at h1
            split at h1
            · next ht =>
              simp only [Option.some.injEq, Prod.mk.injEq] at h1
              apply fin <;> rw [← h1.1]
              · simp [ho]
              · refine Or.inr (Or.inr ⟨ho, ht, ?_⟩)
                simp [List.eraseIdx_append_of_length_le]
            · simp only [Option.some.injEq, Prod.mk.injEq] at h1
              apply fin <;> rw [← h1.1]
              · simp [ho]
              · exact Or.inr (Or.inl ⟨by simp [ho], rfl⟩)
          | _ =>
            all_goals
              simp only [ho, Option.some.injEq, Prod.mk.injEq] at h1
              apply fin <;> rw [← h1.1]
              · simp [ho]
              · exact Or.inr (Or.inl ⟨by simp [ho], rfl⟩)
      · exfalso
        have hg := get_mid s.children (⟨c, none, false⟩ : Child) []
        simp [startAt, hst] at h1


/-! ## Whole runs -/

theorem run_inv {o : Oracle} {I : Sup → Prop} (hI : ∀ s s' now e rep, I s → step o s now e = some (s', rep, none) → I s')
    (evs : List (Nat × Event)) : ∀ s s', I s → run o (.up s) evs = .up s' → I s' := by
  induction evs with
  | nil => intro s s' h hr; simp only [run, Status.up.injEq] at hr; subst hr; exact h
  | cons x evs ih =>
    obtain ⟨now, e⟩ := x
    intro s s' h hr
    simp only [run] at hr
    split at hr
    · simp at hr
    · next s1 rep hs => exact ih s1 s' (hI s s1 now e rep h hs) hr
    · simp at hr

theorem step_move {o : Oracle} {s s' : Sup} {now : Nat} {e : Event} {rep : Reply} (hs : Ready s)
    (h : step o s now e = some (s', rep, none)) : Move o s e s' := by
  obtain ⟨s1, hm, hq⟩ := step_moves o s s' now e rep none hs h
  rcases hq with ⟨-, rfl⟩ | ⟨r, hr, -⟩
  · exact hm
  · simp at hr

theorem move_specs {o : Oracle} {s s' : Sup} {e : Event} (hm : Move o s e s') : SpecsStep o s e s' := by
  cases hm with
  | idle hc hi hl hk => exact Or.inl ⟨by simp [specs, hc], hi⟩
  | again pre c post A M Z fx h hz why hc hi hl hk =>
    refine Or.inl ⟨?_, hi⟩
    have := zone_specs hz
    simp only [specs, hc, h, List.map_append, mark_specs, spawn_specs] at this ⊢
    exact this
  | drop pre c post p r he h hp hw hc hi hl hk =>
    exact Or.inr (Or.inl ⟨pre.map (·.spec), c.spec, post.map (·.spec), by simp [specs, h], by simp [specs, hc], hi⟩)
  | new c he hst hn hi hl hk hc =>
    refine Or.inr (Or.inr ⟨c, he, hn, hi, ?_⟩)
    rcases hc with ⟨p, -, hc⟩ | ⟨-, hc⟩ | ⟨h1, h2, hc⟩
    · left; simp [specs, hc]
    · left; simp [specs, hc]
    · right; exact ⟨by simp [specs, hc], h2, _, h1⟩
  | term pre c post id he hid h hc hi hl hk => exact Or.inl ⟨by simp [specs, hc, h, halt_spec], hi⟩
  | rest pre c post id he hid h hp hr hc hi hl hk =>
    refine Or.inl ⟨?_, hi⟩
    rcases hc with ⟨p, -, hc⟩ | ⟨-, hc⟩
    · simp [specs, hc, h, put]
    · simp [specs, hc]
  | del pre c post id he hid h hp hr hc hi hl hk =>
    exact Or.inr (Or.inl ⟨pre.map (·.spec), c.spec, post.map (·.spec), by simp [specs, h], by simp [specs, hc], hi⟩)

theorem ready_iff (s : Sup) : Ready s ↔ ∀ c ∈ specs s, c.hasStart = true := by simp [Ready, specs]

theorem move_ready {o : Oracle} {s s' : Sup} {e : Event} (hs : Ready s) (hm : Move o s e s') : Ready s' := by
  rw [ready_iff] at *
  have hn : ∀ c, e = .startChild c → c.id ∉ s.ids → s'.ids = c.id :: s.ids → c.hasStart = true := by
    intro c he _ hi
    cases hm with
    | new d he' hst hn' hi' hl hk hc => rw [he] at he'; injection he' with he'; subst he'; exact hst
    | idle hc hi' hl hk => rw [hi'] at hi; exact absurd (congrArg List.length hi) (by simp)
    | again pre c post A M Z fx h hz why hc hi hl hk => rcases why with ⟨_, _, w, _⟩ | ⟨w, _⟩ <;> rw [he] at w <;> simp at w
    | drop pre c post p r he' => rw [he] at he'; simp at he'
    | term pre c post id he' => rw [he] at he'; simp at he'
    | rest pre c post id he' => rw [he] at he'; simp at he'
    | del pre c post id he' => rw [he] at he'; simp at he'
  rcases move_specs hm with ⟨h, -⟩ | ⟨a, c, b, h1, h2, -⟩ | ⟨c, he, hni, hi, h⟩
  · rw [h]; exact hs
  · rw [h2]; intro d hd; exact hs d (by rw [h1]; simp at hd ⊢; grind)
  · rcases h with h | ⟨h, -⟩
    · rw [h]; intro d hd
      rcases List.mem_append.1 hd with hd | hd
      · exact hs d hd
      · simp at hd; subst hd; exact hn d he hni hi
    · rw [h]; exact hs

/-- No two children have the same id, and the ids of all children are known. -/
def Uniq (s : Sup) : Prop := ((specs s).map (·.id)).Nodup ∧ ∀ c ∈ specs s, c.id ∈ s.ids

/-- Every known id belongs to a child. -/
def NoStray (s : Sup) : Prop := ∀ id ∈ s.ids, ∃ c ∈ specs s, c.id = id

theorem uniq_step {o : Oracle} {s s' : Sup} {e : Event} (hu : Uniq s) (hm : SpecsStep o s e s') : Uniq s' := by
  rcases hm with ⟨h, hi⟩ | ⟨a, c, b, h1, h2, hi⟩ | ⟨c, he, hni, hi, h⟩
  · unfold Uniq at *; rw [h, hi]; exact hu
  · unfold Uniq at *
    rw [h1] at hu
    rw [h2, hi]
    obtain ⟨u1, u2⟩ := hu
    simp only [List.map_append, List.map_cons] at u1 ⊢
    refine ⟨u1.sublist (by simp), ?_⟩
    intro d hd
    rw [List.mem_filter]
    refine ⟨u2 d (by simp at hd ⊢; grind), ?_⟩
    have : c.id ∉ (a.map (·.id) ++ b.map (·.id)) := by
      obtain ⟨-, n2, n3⟩ := List.nodup_append.1 u1
      intro hx
      rcases List.mem_append.1 hx with hx | hx
      · exact n3 _ hx _ (by simp) rfl
      · exact (List.nodup_cons.1 n2).1 hx
    have hd' : d.id ∈ a.map (·.id) ++ b.map (·.id) := by simpa using List.mem_map_of_mem (f := (·.id)) hd
    simp only [ne_eq, decide_not, Bool.not_eq_eq_eq_not, Bool.not_true, decide_eq_false_iff_not]
    intro e; rw [e] at hd'; exact this hd'
  · unfold Uniq at *
    rcases h with h | ⟨h, -⟩
    · rw [h, hi]
      refine ⟨?_, ?_⟩
      · rw [List.map_append, List.nodup_append]
        refine ⟨hu.1, by simp, ?_⟩
        intro x hx y hy
        simp at hy
        subst hy
        intro e; subst e
        obtain ⟨d, hd, e⟩ := List.mem_map.1 hx
        exact hni (e ▸ hu.2 d hd)
      · intro d hd
        rcases List.mem_append.1 hd with hd | hd
        · simp [hu.2 d hd]
        · simp at hd; simp [hd]
    · rw [h, hi]; exact ⟨hu.1, fun d hd => by simp [hu.2 d hd]⟩

theorem noStray_step {o : Oracle} {s s' : Sup} {e : Event} (hn : NoStray s) (hm : SpecsStep o s e s')
    (hg : ∀ c, e = .startChild c → c.restart = .temporary → ∀ k, o k c ≠ .error .ignore) : NoStray s' := by
  unfold NoStray at *
  rcases hm with ⟨h, hi⟩ | ⟨a, c, b, h1, h2, hi⟩ | ⟨c, he, hni, hi, h⟩
  · rw [h, hi]; exact hn
  · rw [hi, h2]
    intro id hid
    simp only [List.mem_filter, decide_eq_true_eq] at hid
    obtain ⟨d, hd, e⟩ := hn id hid.1
    rw [h1] at hd
    refine ⟨d, ?_, e⟩
    rcases List.mem_append.1 hd with hd | hd
    · simp [hd]
    · rcases List.mem_cons.1 hd with rfl | hd
      · exact absurd e.symm hid.2
      · simp [hd]
  · rcases h with h | ⟨-, ht, k, hk⟩
    · rw [h, hi]
      intro id hid
      rcases List.mem_cons.1 hid with rfl | hid
      · exact ⟨c, by simp, rfl⟩
      · obtain ⟨d, hd, e⟩ := hn id hid; exact ⟨d, by simp [hd], e⟩
    · exact absurd hk (hg c he ht k)

theorem finish_total (r : Sup × Option ExitReason) : finish r ≠ none := by
  obtain ⟨s, q⟩ := r
  cases q <;> simp [finish, terminateChildren_eq]

theorem bind_total {x : Option (Sup × Option ExitReason)} {r : Sup × Option ExitReason} (h : x = some r) : x.bind finish ≠ none := by
  rw [h]; exact finish_total r

theorem step_total (o : Oracle) (s : Sup) (now : Nat) (e : Event) (hs : Ready s) (hn : NoStray s)
    (he : ∀ c, e = .startChild c → c.hasStart = true) : step o s now e ≠ none := by
  cases e with
  | exit p r =>
    rw [step]
    cases hx : s.children.findIdx? (fun c => decide (c.pid = some p)) with
    | none =>
      rw [childExited_none o s now p r (by rw [findIdx_none] at hx; intro d hd; simpa using hx d hd)]
      exact bind_total rfl
    | some i =>
      obtain ⟨pre, c, post, hc, -, hp, hpre⟩ := findIdx_some _ _ _ hx
      rw [childExited_eq o s now p r pre post c hc (by simpa using hp) (by intro d hd; simpa using hpre d hd)]
      split
      · split
        · exact bind_total rfl
        · obtain ⟨A, M, Z, fx, hz⟩ : ∃ A M Z fx, zone s.strategy pre c post = (A, M, Z, fx) := ⟨_, _, _, _, rfl⟩
          rw [restart_eq o { s with restarts := recent s now ++ [now] } pre post c hc hs A M Z fx hz]
          exact bind_total rfl
      · exact bind_total rfl
  | retry =>
    simp only [step]
    split
    · simp
    · next id rest hca =>
      split
      · simp
      · next i hi =>
        obtain ⟨pre, c, post, hc, rfl, hp, hpre⟩ := findIdx_some _ _ _ hi
        simp only at hc
        have hg := get_mid pre c post
        rw [← hc] at hg
        simp only [tryAgain, addRestart_eq, decide_eq_true_eq, hg]
        split
        · exact bind_total rfl
        · split
          · obtain ⟨A, M, Z, fx, hz⟩ : ∃ A M Z fx, zone s.strategy pre c post = (A, M, Z, fx) := ⟨_, _, _, _, rfl⟩
            rw [restart_eq o { s with restarts := recent { s with casts := rest } now ++ [now], casts := rest } pre post c hc hs A M Z fx hz]
            exact bind_total rfl
          · exact bind_total rfl
  | count => simp [step]
  | which => simp [step]
  | other => simp [step]
  | stop r => simp [step, terminateChildren_eq]
  | deleteChild id => simp [step]
  | terminateChild id =>
    simp only [step, terminateChild]
    split
    · simp
    · next i hi =>
      obtain ⟨pre, c, post, hc, rfl, hp, hpre⟩ := findIdx_some _ _ _ hi
      rw [terminateAt_mid s pre post c hc]; simp
  | restartChild id =>
    simp only [step, restartChild]
    split
    · simp
    · next i hi =>
      obtain ⟨pre, c, post, hc, rfl, hp, hpre⟩ := findIdx_some _ _ _ hi
      have hg := get_mid pre c post
      rw [← hc] at hg
      simp only [hg]
      split
      · simp
      · split
        · simp
        · rw [startAt_mid o s pre post c hc (hs c (by simp [hc]))]
          rcases o s.calls c.spec with e | p
          · cases e <;> simp
          · simp
  | startChild c =>
    simp only [step, startChild]
    split
    · next hid =>
      obtain ⟨d, hd, hde⟩ := hn _ hid
      obtain ⟨d', hd', rfl⟩ := List.mem_map.1 hd
      split
      · next hf =>
        have := List.find?_eq_none.1 hf d' hd'
        simp [hde] at this
      · split <;> simp
    · have hlen : (s.children ++ [(⟨c, none, false⟩ : Child)]).length - 1 = s.children.length := by simp
      simp only [hlen]
      rw [startAt_mid o _ s.children [] ⟨c, none, false⟩ rfl (he c rfl)]
      rcases o s.calls c with e | p
      · cases e <;> simp
        split <;> simp
      · simp


/-! ## Counting restarts -/

/-- The event asks for a restart: the exit of a child that is to be restarted, or the retry of a failed restart of a child
that still exists. -/
def asks (s : Sup) : Event → Bool
  | .exit p r => (s.children.find? fun c => c.pid = some p).any fun c => Wants c.spec r
  | .retry => s.casts.head?.any fun id => s.children.any fun c => c.spec.id = id
  | _ => false

def isAuto : Event → Bool
  | .exit _ _ => true
  | .retry => true
  | _ => false

theorem find_mid {α : Type} (p : α → Bool) (pre post : List α) (c : α) (hc : p c = true) (hp : ∀ d ∈ pre, p d = false) :
    (pre ++ c :: post).find? p = some c := by
  induction pre with
  | nil => simp [hc]
  | cons a pre ih => simp [hp a (by simp)]; simpa using ih fun d hd => hp d (by simp [hd])

/-- Same configuration. -/
def SameConf (s s' : Sup) : Prop :=
  s'.strategy = s.strategy ∧ s'.auto = s.auto ∧ s'.maxRestarts = s.maxRestarts ∧ s'.maxDuration = s.maxDuration

theorem startAt_frame {o : Oracle} {s : Sup} {i : Nat} {r} (h : startAt o s i = some r) :
    r.1.restarts = s.restarts ∧ SameConf s r.1 := by
  obtain ⟨c, -, -, h1, -⟩ := startAt_some o s i r h
  rw [h1]; exact ⟨rfl, rfl, rfl, rfl, rfl⟩

theorem step_restarts {o : Oracle} {s s' : Sup} {now : Nat} {e : Event} {rep : Reply} (hs : Ready s)
    (h : step o s now e = some (s', rep, none)) :
    SameConf s s' ∧
    (asks s e = true → ¬ TooMany s now ∧ s'.restarts = recent s now ++ [now]) ∧
    (asks s e = false → s'.restarts = s.restarts ∧ (isAuto e = true → s'.log = s.log)) := by
  cases e with
  | exit p r =>
    cases hx : s.children.findIdx? (fun c => decide (c.pid = some p)) with
    | none =>
      have hnp : ∀ d ∈ s.children, d.pid ≠ some p := by rw [findIdx_none] at hx; intro d hd; simpa using hx d hd
      rw [step, childExited_none o s now p r hnp] at h
      simp only [Option.bind_some, finish, Option.some.injEq, Prod.mk.injEq] at h
      obtain ⟨rfl, -⟩ := h
      have hf : s.children.find? (fun c => decide (c.pid = some p)) = none := by
        rw [List.find?_eq_none]; intro d hd; simpa using hnp d hd
      refine ⟨⟨rfl, rfl, rfl, rfl⟩, ?_, fun _ => ⟨rfl, fun _ => rfl⟩⟩
      intro ha; simp [asks, hf] at ha
    | some i =>
      obtain ⟨pre, c, post, hc, -, hpc, hpre⟩ := findIdx_some _ _ _ hx
      have hf := find_mid (fun c : Child => decide (c.pid = some p)) pre post c hpc hpre
      rw [step, childExited_eq o s now p r pre post c hc (by simpa using hpc) (by intro d hd; simpa using hpre d hd)] at h
      have ha : asks s (.exit p r) = decide (Wants c.spec r) := by simp only [asks, hc]; rw [hf]; rfl
      rw [ha]
      by_cases hw : Wants c.spec r
      · rw [if_pos hw] at h
        by_cases ht : TooMany s now
        · rw [if_pos ht] at h; simp [finish, terminateChildren_eq] at h
        · rw [if_neg ht] at h
          obtain ⟨A, M, Z, fx, hz⟩ : ∃ A M Z fx, zone s.strategy pre c post = (A, M, Z, fx) := ⟨_, _, _, _, rfl⟩
          rw [restart_eq o { s with restarts := recent s now ++ [now] } pre post c hc hs A M Z fx hz] at h
          simp only [Option.map_some, Option.bind_some, finish, Option.some.injEq, Prod.mk.injEq] at h
          obtain ⟨rfl, -⟩ := h
          exact ⟨⟨rfl, rfl, rfl, rfl⟩, fun _ => ⟨ht, rfl⟩, fun x => by simp [hw] at x⟩
      · rw [if_neg hw] at h
        simp only [Option.bind_some, finish] at h
        split at h
        · simp only [Option.some.injEq, Prod.mk.injEq] at h
          obtain ⟨rfl, -⟩ := h
          exact ⟨⟨rfl, rfl, rfl, rfl⟩, fun x => by simp [hw] at x, fun _ => ⟨rfl, fun _ => rfl⟩⟩
        · simp at h
  | retry =>
    simp only [step] at h
    split at h
    · next hca =>
      simp only [Option.some.injEq, Prod.mk.injEq] at h
      obtain ⟨rfl, -⟩ := h
      exact ⟨⟨rfl, rfl, rfl, rfl⟩, fun x => by simp [asks, hca] at x, fun _ => ⟨rfl, fun _ => rfl⟩⟩
    · next id rest hca =>
      split at h
      · next hi =>
        simp only [Option.some.injEq, Prod.mk.injEq] at h
        obtain ⟨rfl, -⟩ := h
        refine ⟨⟨rfl, rfl, rfl, rfl⟩, fun x => ?_, fun _ => ⟨rfl, fun _ => rfl⟩⟩
        simp only [indexOf, findIdx_none] at hi
        simp only [asks, hca, List.head?_cons, Option.any_some, List.any_eq_true] at x
        obtain ⟨c, hc, hce⟩ := x
        rw [hi c hc] at hce; simp at hce
      · next i hi =>
        obtain ⟨pre, c, post, hc, rfl, hp, hpre⟩ := findIdx_some _ _ _ hi
        simp only at hc
        have ha : asks s .retry = true := by
          simp only [asks, hca, List.head?_cons, Option.any_some, List.any_eq_true]
          exact ⟨c, by simp [hc], hp⟩
        have hg := get_mid pre c post
        rw [← hc] at hg
        simp only [tryAgain, addRestart_eq, decide_eq_true_eq, hg] at h
        rw [ha]
        have htm : TooMany { s with casts := rest } now ↔ TooMany s now := Iff.rfl
        split at h
        · simp [finish, terminateChildren_eq] at h
        · next ht =>
          split at h
          · obtain ⟨A, M, Z, fx, hz⟩ : ∃ A M Z fx, zone s.strategy pre c post = (A, M, Z, fx) := ⟨_, _, _, _, rfl⟩
            rw [restart_eq o { s with restarts := recent { s with casts := rest } now ++ [now], casts := rest } pre post c hc hs A M Z fx hz] at h
            simp only [Option.map_some, Option.bind_some, finish, Option.some.injEq, Prod.mk.injEq] at h
            obtain ⟨rfl, -⟩ := h
            exact ⟨⟨rfl, rfl, rfl, rfl⟩, fun _ => ⟨fun x => ht (htm.2 x), rfl⟩, fun x => by simp at x⟩
          · simp only [Option.bind_some, finish, Option.some.injEq, Prod.mk.injEq] at h
            obtain ⟨rfl, -⟩ := h
            exact ⟨⟨rfl, rfl, rfl, rfl⟩, fun _ => ⟨fun x => ht (htm.2 x), rfl⟩, fun x => by simp at x⟩
  | count =>
    simp only [step, Option.some.injEq, Prod.mk.injEq] at h
    obtain ⟨rfl, -⟩ := h
    exact ⟨⟨rfl, rfl, rfl, rfl⟩, fun x => by simp [asks] at x, fun _ => ⟨rfl, fun _ => rfl⟩⟩
  | which =>
    simp only [step, Option.some.injEq, Prod.mk.injEq] at h
    obtain ⟨rfl, -⟩ := h
    exact ⟨⟨rfl, rfl, rfl, rfl⟩, fun x => by simp [asks] at x, fun _ => ⟨rfl, fun _ => rfl⟩⟩
  | other =>
    simp only [step, Option.some.injEq, Prod.mk.injEq] at h
    obtain ⟨rfl, -⟩ := h
    exact ⟨⟨rfl, rfl, rfl, rfl⟩, fun x => by simp [asks] at x, fun _ => ⟨rfl, fun _ => rfl⟩⟩
  | stop r => simp [step] at h
  | deleteChild id =>
    simp only [step, Option.some.injEq, Prod.mk.injEq] at h
    obtain ⟨rfl, -⟩ := h
    have : ∀ x : Sup × Except SupError Unit, x = deleteChild s id → SameConf s x.1 ∧ x.1.restarts = s.restarts := by
      intro x hx
      unfold deleteChild at hx
      (repeat' split at hx) <;> subst hx <;> exact ⟨⟨rfl, rfl, rfl, rfl⟩, rfl⟩
    obtain ⟨h1, h2⟩ := this _ rfl
    exact ⟨h1, fun x => by simp [asks] at x, fun _ => ⟨h2, fun x => by simp [isAuto] at x⟩⟩
  | terminateChild id =>
    simp only [step, Option.map_eq_some_iff, Prod.mk.injEq] at h
    obtain ⟨⟨s1, r1⟩, h1, rfl, -⟩ := h
    unfold terminateChild at h1
    refine and_assoc.1 ⟨?_, ?_⟩
    · refine ⟨?_, fun x => by simp [asks] at x⟩
      split at h1
      · simp only [Option.some.injEq, Prod.mk.injEq] at h1
        obtain ⟨rfl, -⟩ := h1; exact ⟨rfl, rfl, rfl, rfl⟩
      · next i hi =>
        obtain ⟨pre, c, post, hc, rfl, hp, hpre⟩ := findIdx_some _ _ _ hi
        rw [terminateAt_mid s pre post c hc] at h1
        simp only [Option.map_some, Option.some.injEq, Prod.mk.injEq] at h1
        obtain ⟨rfl, -⟩ := h1; exact ⟨rfl, rfl, rfl, rfl⟩
    · refine fun _ => ⟨?_, fun x => by simp [isAuto] at x⟩
      split at h1
      · simp only [Option.some.injEq, Prod.mk.injEq] at h1
        obtain ⟨rfl, -⟩ := h1; rfl
      · next i hi =>
        obtain ⟨pre, c, post, hc, rfl, hp, hpre⟩ := findIdx_some _ _ _ hi
        rw [terminateAt_mid s pre post c hc] at h1
        simp only [Option.map_some, Option.some.injEq, Prod.mk.injEq] at h1
        obtain ⟨rfl, -⟩ := h1; rfl
  | restartChild id =>
    simp only [step, Option.map_eq_some_iff, Prod.mk.injEq] at h
    obtain ⟨⟨s1, r1⟩, h1, rfl, -⟩ := h
    have : SameConf s s1 ∧ s1.restarts = s.restarts := by
      unfold restartChild at h1
      (repeat' split at h1) <;> try simp only [reduceCtorEq, Option.some.injEq, Prod.mk.injEq] at h1
      all_goals first
        | (obtain ⟨rfl, -⟩ := h1; exact ⟨⟨rfl, rfl, rfl, rfl⟩, rfl⟩)
        | (obtain ⟨rfl, -⟩ := h1
           next hst => exact ⟨(startAt_frame hst).2, (startAt_frame hst).1⟩)
    exact ⟨this.1, fun x => by simp [asks] at x, fun _ => ⟨this.2, fun x => by simp [isAuto] at x⟩⟩
  | startChild c =>
    simp only [step, Option.map_eq_some_iff, Prod.mk.injEq] at h
    obtain ⟨⟨s1, r1⟩, h1, rfl, -⟩ := h
    have : SameConf s s1 ∧ s1.restarts = s.restarts := by
      unfold startChild at h1
      simp only at h1
      (repeat' split at h1) <;> try simp only [reduceCtorEq, Option.some.injEq, Prod.mk.injEq] at h1
      all_goals first
        | (obtain ⟨rfl, -⟩ := h1; exact ⟨⟨rfl, rfl, rfl, rfl⟩, rfl⟩)
        | (obtain ⟨rfl, -⟩ := h1
           rename_i hst _
           exact ⟨(startAt_frame hst).2, (startAt_frame hst).1⟩)
        | (obtain ⟨rfl, -⟩ := h1
           rename_i hst
           exact ⟨(startAt_frame hst).2, (startAt_frame hst).1⟩)
    exact ⟨this.1, fun x => by simp [asks] at x, fun _ => ⟨this.2, fun x => by simp [isAuto] at x⟩⟩

end Verif.Sup
