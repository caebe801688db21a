import Verif.SupervisorProps
/-!
# Properties C63, C69 and C84: supervisors over whole runs

Restart intensity, and that a supervisor never loses track of a running child.
-/
namespace Verif.Sup

/-! ## C63: restart intensity -/

/-- The times at which the supervisor, because of an exit or a retry (not on request), ran start routines and went on. -/
def restartTimes (o : Oracle) : Sup → List (Nat × Event) → List Nat
  | _, [] => []
  | s, (now, e) :: evs =>
    match step o s now e with
    | some (s', _, none) =>
      (if isAuto e && (s'.log.drop s.log.length).any isStart then [now] else []) ++ restartTimes o s' evs
    | _ => []

/-- The times of the events that asked for a restart, as far as the supervisor went on. -/
def requestTimes (o : Oracle) : Sup → List (Nat × Event) → List Nat
  | _, [] => []
  | s, (now, e) :: evs =>
    match step o s now e with
    | some (s', _, none) => (if asks s e then [now] else []) ++ requestTimes o s' evs
    | _ => []

/-- How many of the times are in the window from `t` to `t + d`. -/
def within (d : Nat) (l : List Nat) (t : Nat) : Nat := (l.filter fun x => decide (t ≤ x ∧ x ≤ t + d)).length

theorem within_append (d : Nat) (a b : List Nat) (t : Nat) : within d (a ++ b) t = within d a t + within d b t := by
  simp [within]

theorem within_le (d : Nat) (a : List Nat) (t : Nat) : within d a t ≤ a.length := List.length_filter_le _ _

theorem restart_sublist (o : Oracle) (evs : List (Nat × Event)) : ∀ s, Ready s →
    (restartTimes o s evs).Sublist (requestTimes o s evs) := by
  induction evs with
  | nil => intro s _; exact List.Sublist.refl _
  | cons x evs ih =>
    obtain ⟨now, e⟩ := x
    intro s hs
    simp only [restartTimes, requestTimes]
    cases hst : step o s now e with
    | none => simp
    | some r =>
      obtain ⟨s', rep, q⟩ := r
      cases q with
      | some r => simp
      | none =>
        simp only
        refine List.Sublist.append ?_ (ih s' (move_ready hs (step_move hs hst)))
        obtain ⟨-, -, h2⟩ := step_restarts hs hst
        cases ha : asks s e with
        | true => simp only [if_true]; split <;> simp
        | false =>
          cases hau : isAuto e with
          | false => simp
          | true => simp [(h2 ha).2 hau]

theorem requestTimes_ge (o : Oracle) (evs : List (Nat × Event)) (b : Nat) (h : ∀ x ∈ evs, b ≤ x.1) :
    ∀ s, ∀ t ∈ requestTimes o s evs, b ≤ t := by
  induction evs with
  | nil => intro s t ht; simp [requestTimes] at ht
  | cons x evs ih =>
    obtain ⟨now, e⟩ := x
    intro s t ht
    simp only [requestTimes] at ht
    split at ht
    · rcases List.mem_append.1 ht with ht | ht
      · split at ht
        · simp at ht; subst ht; exact h (t, e) (by simp)
        · simp at ht
      · exact ih (fun y hy => h y (by simp [hy])) _ t ht
    · simp at ht

theorem within_zero (d : Nat) (l : List Nat) (t b : Nat) (h : ∀ x ∈ l, b ≤ x) (hb : t + d < b) : within d l t = 0 := by
  simp only [within, List.length_eq_zero_iff, List.filter_eq_nil_iff, decide_eq_true_eq]
  intro x hx hh
  have := h x hx
  omega

theorem requests_bounded (o : Oracle) (evs : List (Nat × Event)) (hev : evs.Pairwise (fun a b => a.1 ≤ b.1)) :
    ∀ s, Ready s → (∀ t, within s.maxDuration s.restarts t ≤ s.maxRestarts) →
    ∀ t, within s.maxDuration (s.restarts ++ requestTimes o s evs) t ≤ s.maxRestarts := by
  induction evs with
  | nil => intro s _ h t; simpa [requestTimes] using h t
  | cons x evs ih =>
    obtain ⟨now, e⟩ := x
    obtain ⟨hge, hev⟩ := List.pairwise_cons.1 hev
    intro s hs hb t
    simp only [requestTimes]
    cases hst : step o s now e with
    | none => simpa using hb t
    | some r =>
      obtain ⟨s', rep, q⟩ := r
      cases q with
      | some r => simpa using hb t
      | none =>
        have hs' := move_ready hs (step_move hs hst)
        obtain ⟨⟨-, -, c1, c2⟩, h1, h2⟩ := step_restarts hs hst
        simp only
        cases ha : asks s e with
        | false =>
          have := ih hev s' hs' (by rw [c1, c2, (h2 ha).1]; exact hb) t
          rw [c1, c2, (h2 ha).1] at this
          simpa using this
        | true =>
          obtain ⟨htm, hr⟩ := h1 ha
          have hlen : s'.restarts.length ≤ s.maxRestarts := by
            rw [hr, List.length_append, List.length_singleton]; unfold TooMany at htm; omega
          have := ih hev s' hs' (by intro t; rw [c1, c2]; exact Nat.le_trans (within_le _ _ _) hlen) t
          rw [c1, c2, hr] at this
          simp only [if_true]
          by_cases hold : t + s.maxDuration < now
          · rw [within_append, within_zero _ ([now] ++ _) t now ?_ hold]
            · simpa using hb t
            · intro y hy
              rcases List.mem_append.1 hy with hy | hy
              · simp at hy; omega
              · exact requestTimes_ge o evs now (fun z hz => hge z hz) s' y hy
          · have e1 : within s.maxDuration s.restarts t = within s.maxDuration (recent s now) t := by
              simp only [within, recent, List.filter_filter]
              congr 1
              apply List.filter_congr
              intro y _
              by_cases hy : t ≤ y ∧ y ≤ t + s.maxDuration
              · have : now ≤ y + s.maxDuration := by omega
                simp [hy, this]
              · simp [hy]
            rw [within_append] at this ⊢
            rw [within_append] at this ⊢
            rw [e1]
            omega

/-- **C63**: in every stretch of `max_duration` (from `t` to `t + max_duration`, for every `t`) the supervisor restarts
because of exits at most `max_restarts` times, whatever the children do. The times of the events never go back. -/
theorem C63_intensity (o : Oracle) (st : Strategy) (au : AutoShutdown) (mr md : Nat) (cs : List Spec) (evs : List (Nat × Event))
    (hs : ∀ c ∈ cs, c.hasStart = true) (hd : (cs.map (·.id)).Nodup) (hev : evs.Pairwise (fun a b => a.1 ≤ b.1))
    (s0 : Sup) (hb : boot o (fresh st au mr md cs) = .up s0) (t : Nat) :
    ((restartTimes o s0 evs).filter fun x => decide (t ≤ x ∧ x ≤ t + md)).length ≤ mr := by
  obtain ⟨h1, -, -, h2, h3, h4⟩ := fresh_inv o st au mr md cs hs hd s0 hb
  have := requests_bounded o evs hev s0 h1 (by intro t; simp [h2, within]) t
  rw [h2, h3, h4, List.nil_append] at this
  exact Nat.le_trans (List.Sublist.length_le (List.Sublist.filter _ (restart_sublist o evs s0 h1))) this

theorem requests_recent (o : Oracle) (evs : List (Nat × Event)) (now : Nat) (hev : evs.Pairwise (fun a b => a.1 ≤ b.1))
    (hnow : ∀ x ∈ evs, x.1 ≤ now) : ∀ s s', Ready s → run o (.up s) evs = .up s' →
    Ready s' ∧ s'.maxRestarts = s.maxRestarts ∧ s'.maxDuration = s.maxDuration ∧
    recent s' now = (s.restarts ++ requestTimes o s evs).filter fun x => now ≤ x + s.maxDuration := by
  induction evs with
  | nil =>
    intro s s' hs h
    simp only [run, Status.up.injEq] at h
    subst h
    exact ⟨hs, rfl, rfl, by simp [requestTimes, recent]⟩
  | cons x evs ih =>
    obtain ⟨n0, e⟩ := x
    obtain ⟨hge, hev⟩ := List.pairwise_cons.1 hev
    intro s s' hs h
    simp only [run] at h
    simp only [requestTimes]
    cases hst : step o s n0 e with
    | none => simp [hst] at h
    | some r =>
      obtain ⟨s1, rep, q⟩ := r
      cases q with
      | some r => simp [hst] at h
      | none =>
        simp only [hst] at h
        have hs' := move_ready hs (step_move hs hst)
        obtain ⟨⟨-, -, c1, c2⟩, h1, h2⟩ := step_restarts hs hst
        obtain ⟨r1, r2, r3, r4⟩ := ih hev (fun y hy => hnow y (by simp [hy])) s1 s' hs' h
        refine ⟨r1, r2.trans c1, r3.trans c2, ?_⟩
        rw [r4, c2]
        cases ha : asks s e with
        | false => rw [(h2 ha).1]; simp
        | true =>
          rw [(h1 ha).2]
          have hn : n0 ≤ now := hnow (n0, e) (by simp)
          have : (recent s n0).filter (fun x => decide (now ≤ x + s.maxDuration)) = s.restarts.filter fun x => decide (now ≤ x + s.maxDuration) := by
            simp only [recent, List.filter_filter]
            apply List.filter_congr
            intro y _
            by_cases hy : now ≤ y + s.maxDuration
            · have : n0 ≤ y + s.maxDuration := by omega
              simp [hy, this]
            · simp [hy]
          simp only [if_true, List.filter_append, this, List.append_assoc]

theorem asks_stops (o : Oracle) (s : Sup) (now : Nat) (e : Event) (hs : Ready s) (ha : asks s e = true) :
    if TooMany s now then ∃ s', step o s now e = some (s', .none, some (.custom "shutdown"))
    else ∃ s', step o s now e = some (s', .none, none) := by
  cases e with
  | exit p r =>
    cases hx : s.children.findIdx? (fun c => decide (c.pid = some p)) with
    | none =>
      have hf : s.children.find? (fun c => decide (c.pid = some p)) = none := by
        rw [List.find?_eq_none]; intro d hd; rw [findIdx_none] at hx; simpa using hx d hd
      simp [asks, hf] at ha
    | some i =>
      obtain ⟨pre, c, post, hc, -, hpc, hpre⟩ := findIdx_some _ _ _ hx
      have hf := find_mid (fun c : Child => decide (c.pid = some p)) pre post c hpc hpre
      have hw : Wants c.spec r := by
        simp only [asks, hc] at ha; rw [hf] at ha; simpa using ha
      rw [step, childExited_eq o s now p r pre post c hc (by simpa using hpc) (by intro d hd; simpa using hpre d hd),
        if_pos hw]
      split
      · simp [finish, terminateChildren_eq, shutdownReason]
      · obtain ⟨A, M, Z, fx, hz⟩ : ∃ A M Z fx, zone s.strategy pre c post = (A, M, Z, fx) := ⟨_, _, _, _, rfl⟩
        rw [restart_eq o { s with restarts := recent s now ++ [now] } pre post c hc hs A M Z fx hz]
        exact ⟨_, rfl⟩
  | retry =>
    rcases hca : s.casts with _ | ⟨id, rest⟩
    · simp [asks, hca] at ha
    · rcases hi : indexOf { s with casts := rest } id with _ | i
      · simp only [indexOf, findIdx_none] at hi
        simp only [asks, hca, List.head?_cons, Option.any_some, List.any_eq_true] at ha
        obtain ⟨c, hc, hce⟩ := ha
        rw [hi c hc] at hce; simp at hce
      · simp only [step, hca, hi]
        obtain ⟨pre, c, post, hc, rfl, hp, hpre⟩ := findIdx_some _ _ _ hi
        simp only at hc
        have hg := get_mid pre c post
        rw [← hc] at hg
        have htm : TooMany { s with casts := rest } now ↔ TooMany s now := Iff.rfl
        simp only [tryAgain, addRestart_eq, decide_eq_true_eq, hg, htm]
        split
        · simp [finish, terminateChildren_eq, shutdownReason]
        · split
          · obtain ⟨A, M, Z, fx, hz⟩ : ∃ A M Z fx, zone s.strategy pre c post = (A, M, Z, fx) := ⟨_, _, _, _, rfl⟩
            rw [restart_eq o { s with restarts := recent { s with casts := rest } now ++ [now], casts := rest } pre post c hc hs A M Z fx hz]
            exact ⟨_, rfl⟩
          · exact ⟨_, rfl⟩
  | _ => simp [asks] at ha

/-- **C63**: when an exit or retry asks for a restart at time `now`, the supervisor gives up (it shuts down all children and
exits with `shutdown`) if there were already `max_restarts` requests in the last `max_duration`, and otherwise goes on. The
part missing for the full property: a retry is a request here also if the restart is not performed, because the child was
terminated in the meantime (`C63_gives_up_violated`). -/
theorem C63_gives_up_partial (o : Oracle) (st : Strategy) (au : AutoShutdown) (mr md : Nat) (cs : List Spec) (evs : List (Nat × Event))
    (hs : ∀ c ∈ cs, c.hasStart = true) (hd : (cs.map (·.id)).Nodup) (s0 s : Sup) (hb : boot o (fresh st au mr md cs) = .up s0)
    (hr : run o (.up s0) evs = .up s) (now : Nat) (e : Event) (ha : asks s e = true)
    (hev : (evs ++ [(now, e)]).Pairwise (fun a b => a.1 ≤ b.1)) :
    if mr ≤ ((requestTimes o s0 evs).filter fun x => decide (now ≤ x + md)).length
    then ∃ s', step o s now e = some (s', .none, some (.custom "shutdown"))
    else ∃ s', step o s now e = some (s', .none, none) := by
  obtain ⟨h1, -, -, h2, h3, h4⟩ := fresh_inv o st au mr md cs hs hd s0 hb
  obtain ⟨p1, -, p2⟩ := List.pairwise_append.1 hev
  obtain ⟨k1, k2, -, k3⟩ := requests_recent o evs now p1 (fun x hx => p2 x hx (now, e) (by simp)) s0 s h1 hr
  have := asks_stops o s now e k1 ha
  simp only [TooMany, k3, k2, h2, h3, h4, List.nil_append] at this
  exact this

/-- The first start succeeds, all later ones fail. -/
def once : Oracle := fun k _ => if k = 0 then .ok (.loc 100) else .error (.custom "x")

/-- **C63** is violated: with `max_restarts` 1, a child whose restart failed once is terminated on request; the pending retry
then makes the supervisor give up although it restarted only once and would not restart anything. -/
theorem C63_gives_up_violated :
    ∃ s0 s s', boot once (fresh .oneForOne .never 1 5000 [worker "a" .permanent]) = .up s0 ∧
      run once (.up s0) [(0, .exit (.loc 100) .kill), (1, .terminateChild "a")] = .up s ∧
      restartTimes once s0 [(0, .exit (.loc 100) .kill), (1, .terminateChild "a")] = [0] ∧
      s.children = [⟨worker "a" .permanent, none, false⟩] ∧
      step once s 2 .retry = some (s', .none, some (.custom "shutdown")) := by
  exact ⟨_, _, _, rfl, rfl, rfl, rfl, rfl⟩

example : ∃ s0, boot good (fresh .oneForAll .never 2 5000 [worker "a" .permanent, worker "b" .transient]) = .up s0 ∧
    restartTimes good s0 [(0, .exit (.loc 100) .kill), (10, .exit (.loc 103) .kill), (6000, .exit (.loc 105) .normal),
      (7000, .exit (.loc 104) .normal)] = [0, 10, 7000] := ⟨_, rfl, rfl⟩

/-! ## C69 -/

/-- **C69** is violated: after a failed restart the supervisor still reports and counts the dead process as the child. -/
theorem C69_active_violated :
    ∃ s0 s, boot once (fresh .oneForOne .never 3 5000 [worker "a" .permanent]) = .up s0 ∧
      run once (.up s0) [(0, .exit (.loc 100) .kill)] = .up s ∧
      (countChildren s).active = 1 ∧ (whichChildren s).map (·.child) = [some (.loc 100)] :=
  ⟨_, _, rfl, rfl, rfl, rfl⟩

/-! ## C84: tracking -/

/-- The process `p` was started by the supervisor, was not shut down by it, and the supervisor was not told of its exit. -/
def Alive (log : List Eff) (exited : List Pid) (p : Pid) : Prop :=
  (∃ id, .start id (.ok p) ∈ log) ∧ (∀ how, .stop p how ∉ log) ∧ p ∉ exited

/-- The exits the supervisor was told of. -/
def exits (evs : List (Nat × Event)) : List Pid :=
  evs.filterMap fun x => match x.2 with | .exit p _ => some p | _ => none

structure Tracked (s : Sup) (X : List Pid) : Prop where
  listed : ∀ p, Alive s.log X p → ∃ c ∈ s.children, c.pid = some p
  stale : ∀ c ∈ s.children, c.restarting = true → ∀ p, c.pid = some p → ¬ Alive s.log X p
  origin : ∀ c ∈ s.children, ∀ p, c.pid = some p → ∃ id, .start id (.ok p) ∈ s.log

theorem spawn_mark (o : Oracle) (M : List Child) : ∀ k n, ∀ d ∈ mark n (spawn o k n M).1 (spawn o k n M).2.2,
    d.pid = none ∨ (d.restarting = false ∧ ∃ p id, d.pid = some p ∧ .start id (.ok p) ∈ (spawn o k n M).2.1) ∨ ∃ m ∈ M, d.pid = m.pid := by
  induction M with
  | nil => intro k n d hd; simp [spawn, mark] at hd
  | cons c M ih =>
    intro k n d hd
    have hm : ∀ p, mark n (put c p :: (spawn o (k + 1) (n + 1) M).1) (spawn o (k + 1) (n + 1) M).2.2
        = put c p :: mark (n + 1) (spawn o (k + 1) (n + 1) M).1 (spawn o (k + 1) (n + 1) M).2.2 := by
      intro p
      cases hf : (spawn o (k + 1) (n + 1) M).2.2 with
      | none => rfl
      | some x =>
        obtain ⟨j, e⟩ := x
        have := spawn_fail_range o _ _ _ _ _ hf
        simp only [mark]
        rw [show j - n = (j - (n + 1)) + 1 by omega, List.modify_succ_cons]
    have go : ∀ p (f : Eff), d ∈ put c p :: mark (n + 1) (spawn o (k + 1) (n + 1) M).1 (spawn o (k + 1) (n + 1) M).2.2 →
        (p = none ∨ ∃ q, p = some q ∧ f = .start c.spec.id (.ok q)) →
        d.pid = none ∨ (d.restarting = false ∧ ∃ p id, d.pid = some p ∧ .start id (.ok p) ∈ f :: (spawn o (k + 1) (n + 1) M).2.1) ∨
          ∃ m ∈ c :: M, d.pid = m.pid := by
      intro p f hd hp
      rcases List.mem_cons.1 hd with rfl | hd
      · rcases hp with rfl | ⟨q, rfl, rfl⟩
        · left; rfl
        · right; left; exact ⟨rfl, q, c.spec.id, rfl, by simp⟩
      · rcases ih _ _ d hd with h | ⟨h, p, id, h1, h2⟩ | ⟨m, h1, h2⟩
        · exact Or.inl h
        · exact Or.inr (Or.inl ⟨h, p, id, h1, by simp [h2]⟩)
        · exact Or.inr (Or.inr ⟨m, by simp [h1], h2⟩)
    cases ho : o k c.spec with
    | ok p =>
      simp only [spawn, ho, hm] at hd ⊢
      exact go _ _ hd (Or.inr ⟨p, rfl, rfl⟩)
    | error e =>
      cases e with
      | ignore =>
        simp only [spawn, ho, hm] at hd ⊢
        exact go _ _ hd (Or.inl rfl)
      | _ =>
        all_goals
          simp only [spawn, ho, mark, Nat.sub_self, List.modify_zero_cons] at hd
          right; right
          rcases List.mem_cons.1 hd with rfl | hd
          · exact ⟨c, by simp, rfl⟩
          · exact ⟨d, by simp [hd], rfl⟩

theorem spawn_started (o : Oracle) (M : List Child) : ∀ k n id p, .start id (.ok p) ∈ (spawn o k n M).2.1 →
    ∃ d ∈ mark n (spawn o k n M).1 (spawn o k n M).2.2, d.pid = some p := by
  have hmk : ∀ (cs : List Child) n f p, (∃ d ∈ cs, d.pid = some p) → ∃ d ∈ mark n cs f, d.pid = some p := by
    intro cs n f p h
    cases f with
    | none => exact h
    | some x =>
      obtain ⟨j, e⟩ := x
      simp only [mark]
      generalize j - n = i
      induction cs generalizing i with
      | nil => simp at h
      | cons c cs ih =>
        obtain ⟨d, hd, hp⟩ := h
        cases i with
        | zero =>
          rw [List.modify_zero_cons]
          rcases List.mem_cons.1 hd with rfl | hd
          · exact ⟨{ d with restarting := true }, List.mem_cons_self, hp⟩
          · exact ⟨d, by simp [hd], hp⟩
        | succ i =>
          rw [List.modify_succ_cons]
          rcases List.mem_cons.1 hd with rfl | hd
          · exact ⟨_, by simp, hp⟩
          · obtain ⟨d', h1, h2⟩ := ih ⟨d, hd, hp⟩ i
            exact ⟨d', by simp [h1], h2⟩
  have key : ∀ k n id p, .start id (.ok p) ∈ (spawn o k n M).2.1 → ∃ d ∈ (spawn o k n M).1, d.pid = some p := by
    induction M with
    | nil => intro k n id p h; simp [spawn] at h
    | cons c M ih =>
      intro k n id p h
      cases ho : o k c.spec with
      | ok q =>
        simp only [spawn, ho] at h ⊢
        rcases List.mem_cons.1 h with h | h
        · simp only [Eff.start.injEq, Except.ok.injEq] at h
          exact ⟨put c (some q), List.mem_cons_self, by simp [put, h.2]⟩
        · obtain ⟨d, h1, h2⟩ := ih _ _ _ _ h
          exact ⟨d, by simp [h1], h2⟩
      | error e =>
        cases e with
        | ignore =>
          simp only [spawn, ho] at h ⊢
          rcases List.mem_cons.1 h with h | h
          · simp at h
          · obtain ⟨d, h1, h2⟩ := ih _ _ _ _ h
            exact ⟨d, by simp [h1], h2⟩
        | _ => simp only [spawn, ho] at h; simp at h
  intro k n id p h
  exact hmk _ _ _ _ (key k n id p h)

theorem zone_cover {st : Strategy} {pre post A M Z : List Child} {c : Child} {fx : List Eff} (hz : zone st pre c post = (A, M, Z, fx)) :
    (∀ d ∈ pre ++ c :: post, d ∈ A ∨ d ∈ Z ∨ d = c ∨ ∀ p, d.pid = some p → .stop p (howTo d.spec) ∈ fx) ∧
    (∀ m ∈ M, m.pid = none ∨ m = c) ∧ (∀ d ∈ A, d ∈ pre ++ c :: post) ∧ (∀ d ∈ Z, d ∈ pre ++ c :: post) ∧
    (∀ id r, .start id r ∉ fx) := by
  have hh : ∀ (d : Child), (halt d).pid = none := by intro d; unfold halt; cases hd : d.pid <;> simp [hd]
  have hst : ∀ (l : List Child) d, d ∈ l → ∀ p, d.pid = some p → .stop p (howTo d.spec) ∈ stops l := by
    intro l d hd p hp
    simp only [stops, List.mem_filterMap]
    exact ⟨d, hd, by simp [hp]⟩
  have hns : ∀ (l : List Child) id r, .start id r ∉ stops l := by
    intro l id r h
    simp only [stops, List.mem_filterMap] at h
    obtain ⟨d, -, h⟩ := h
    cases hp : d.pid <;> simp [hp] at h
  cases st with
  | oneForOne =>
    simp only [zone, Prod.mk.injEq] at hz
    obtain ⟨rfl, rfl, rfl, rfl⟩ := hz
    refine ⟨?_, ?_, ?_, ?_, ?_⟩
    · intro d hd; simp at hd; rcases hd with h | h | h <;> simp [h]
    · intro m hm; simp at hm; simp [hm]
    · intro d hd; simp [hd]
    · intro d hd; simp [hd]
    · simp
  | restForOne =>
    simp only [zone, Prod.mk.injEq] at hz
    obtain ⟨rfl, rfl, rfl, rfl⟩ := hz
    refine ⟨?_, ?_, ?_, ?_, ?_⟩
    · intro d hd
      simp at hd
      rcases hd with h | h | h
      · simp [h]
      · simp [h]
      · exact Or.inr (Or.inr (Or.inr (hst _ d h)))
    · intro m hm
      rcases List.mem_cons.1 hm with h | h
      · exact Or.inr h
      · obtain ⟨d, -, rfl⟩ := List.mem_map.1 h; exact Or.inl (hh d)
    · intro d hd; simp [hd]
    · intro d hd; simp at hd
    · exact hns _
  | oneForAll =>
    simp only [zone, Prod.mk.injEq] at hz
    obtain ⟨rfl, rfl, rfl, rfl⟩ := hz
    refine ⟨?_, ?_, ?_, ?_, ?_⟩
    · intro d hd
      simp at hd
      rcases hd with h | h | h
      · exact Or.inr (Or.inr (Or.inr fun p hp => List.mem_append_left _ (hst _ d h p hp)))
      · simp [h]
      · exact Or.inr (Or.inr (Or.inr fun p hp => List.mem_append_right _ (hst _ d h p hp)))
    · intro m hm
      rcases List.mem_append.1 hm with h | h
      · obtain ⟨d, -, rfl⟩ := List.mem_map.1 h; exact Or.inl (hh d)
      · rcases List.mem_cons.1 h with h | h
        · exact Or.inr h
        · obtain ⟨d, -, rfl⟩ := List.mem_map.1 h; exact Or.inl (hh d)
    · intro d hd; simp at hd
    · intro d hd; simp at hd
    · intro id r h
      rcases List.mem_append.1 h with h | h <;> exact hns _ _ _ h

/-- A process that was started before is alive later only if it was alive before. -/
theorem alive_mono {L L2 : List Eff} {X X2 : List Pid} {p : Pid} (h : Alive (L ++ L2) (X ++ X2) p)
    (hs : ∃ id, .start id (.ok p) ∈ L) : Alive L X p :=
  ⟨hs, fun how hm => h.2.1 how (by simp [hm]), fun hm => h.2.2 (by simp [hm])⟩

theorem tracked_move {o : Oracle} {s s' : Sup} {e : Event} {X : List Pid} (ht : Tracked s X) (hm : Move o s e s') (now : Nat) :
    Tracked s' (X ++ exits [(now, e)]) := by
  -- a child of the old state that stays
  have keepStale : ∀ L2 (c : Child), c ∈ s.children → c.restarting = true → ∀ p, c.pid = some p →
      ¬ Alive (s.log ++ L2) (X ++ exits [(now, e)]) p :=
    fun L2 c hc hr p hp ha => ht.stale c hc hr p hp (alive_mono ha (ht.origin c hc p hp))
  have keepOrigin : ∀ L2 (c : Child), c ∈ s.children → ∀ p, c.pid = some p → ∃ id, .start id (.ok p) ∈ s.log ++ L2 :=
    fun L2 c hc p hp => (ht.origin c hc p hp).imp fun id h => by simp [h]
  have old : ∀ L2 p, Alive (s.log ++ L2) (X ++ exits [(now, e)]) p → (∃ c ∈ s.children, c.pid = some p) ∨ ∃ id, .start id (.ok p) ∈ L2 := by
    intro L2 p ha
    obtain ⟨id, hid⟩ := ha.1
    rcases List.mem_append.1 hid with h | h
    · exact Or.inl (ht.listed p (alive_mono ha ⟨id, h⟩))
    · exact Or.inr ⟨id, h⟩
  have hh : ∀ (d : Child), (halt d).pid = none := by intro d; unfold halt; cases hd : d.pid <;> simp [hd]
  cases hm with
  | idle hc hi hl hk =>
    have hl : s'.log = s.log ++ [] := by simp [hl]
    refine ⟨?_, ?_, ?_⟩
    · rw [hl, hc]; intro p ha
      rcases old [] p ha with h | ⟨id, h⟩
      · exact h
      · simp at h
    · rw [hl, hc]; exact keepStale []
    · rw [hl, hc]; exact keepOrigin []
  | again pre c post A M Z fx h hz why hc hi hl hk =>
    obtain ⟨z1, z2, z3, z4, z5⟩ := zone_cover hz
    rw [← h] at z1 z3 z4
    have hcm : c ∈ s.children := by simp [h]
    have hdead : ∀ L2 p, c.pid = some p → ¬ Alive (s.log ++ L2) (X ++ exits [(now, e)]) p := by
      intro L2 p hp
      rcases why with ⟨q, r, rfl, hq, -⟩ | ⟨rfl, hr⟩
      · intro ha
        rw [hq] at hp
        simp only [Option.some.injEq] at hp
        subst hp
        exact ha.2.2 (by simp [exits])
      · exact keepStale L2 c hcm hr p hp
    rw [List.append_assoc] at hl
    refine ⟨?_, ?_, ?_⟩
    · rw [hl, hc]
      intro p ha
      rcases old _ p ha with ⟨d, hd, hp⟩ | ⟨id, hid⟩
      · rcases z1 d hd with h | h | h | h
        · exact ⟨d, by simp [h], hp⟩
        · exact ⟨d, by simp [h], hp⟩
        · subst h; exact absurd ha (hdead _ p hp)
        · exact absurd (by simp [h p hp]) (ha.2.1 (howTo d.spec))
      · rcases List.mem_append.1 hid with hid | hid
        · exact absurd hid (z5 _ _)
        · obtain ⟨d, h1, h2⟩ := spawn_started o M s.calls A.length id p hid
          exact ⟨d, by simp [h1], h2⟩
    · rw [hl, hc]
      intro d hd hr p hp
      simp only [List.mem_append] at hd
      rcases hd with (hd | hd) | hd
      · exact keepStale _ d (z3 d hd) hr p hp
      · rcases spawn_mark o M _ _ d hd with h | ⟨h, -⟩ | ⟨m, h1, h2⟩
        · rw [h] at hp; simp at hp
        · rw [h] at hr; simp at hr
        · rcases z2 m h1 with h | h
          · rw [h2, h] at hp; simp at hp
          · subst h; exact hdead _ p (h2 ▸ hp)
      · exact keepStale _ d (z4 d hd) hr p hp
    · rw [hl, hc]
      intro d hd p hp
      simp only [List.mem_append] at hd
      rcases hd with (hd | hd) | hd
      · exact keepOrigin _ d (z3 d hd) p hp
      · rcases spawn_mark o M _ _ d hd with h | ⟨h, q, id, h1, h2⟩ | ⟨m, h1, h2⟩
        · rw [h] at hp; simp at hp
        · rw [h1] at hp; simp only [Option.some.injEq] at hp; subst hp; exact ⟨id, by simp [h2]⟩
        · rcases z2 m h1 with h | h
          · rw [h2, h] at hp; simp at hp
          · subst h; exact keepOrigin _ m hcm p (h2 ▸ hp)
      · exact keepOrigin _ d (z4 d hd) p hp
  | drop pre c post p r he h hp hw hc hi hl hk =>
    have hl : s'.log = s.log ++ [] := by simp [hl]
    have hsub : ∀ d ∈ pre ++ post, d ∈ s.children := by intro d hd; rw [h]; simp at hd ⊢; rcases hd with h | h <;> simp [h]
    refine ⟨?_, ?_, ?_⟩
    · rw [hl, hc]; intro q ha
      rcases old [] q ha with ⟨d, hd, hq⟩ | ⟨id, hid⟩
      · rw [h] at hd
        simp only [List.mem_append, List.mem_cons] at hd
        rcases hd with hd | rfl | hd
        · exact ⟨d, by simp [hd], hq⟩
        · rw [hp] at hq
          simp only [Option.some.injEq] at hq
          subst hq
          exact absurd (by simp [he, exits]) ha.2.2
        · exact ⟨d, by simp [hd], hq⟩
      · simp at hid
    · rw [hl, hc]; exact fun d hd => keepStale [] d (hsub d hd)
    · rw [hl, hc]; exact fun d hd => keepOrigin [] d (hsub d hd)
  | new c he hst hn hi hl hk hc =>
    have hsub : ∀ d ∈ s'.children, d ∈ s.children ∨ (d.restarting = false ∧ ∀ p, d.pid = some p → o s.calls c = .ok p) := by
      intro d hd
      rcases hc with ⟨p, hp, hc⟩ | ⟨-, hc⟩ | ⟨-, -, hc⟩
      · rw [hc] at hd
        rcases List.mem_append.1 hd with h | h
        · exact Or.inl h
        · simp at h; subst h; right; refine ⟨rfl, ?_⟩; intro q hq; simp at hq; rw [hp, hq]
      · rw [hc] at hd
        rcases List.mem_append.1 hd with h | h
        · exact Or.inl h
        · simp at h; subst h; right; refine ⟨rfl, ?_⟩; intro q hq; simp at hq
      · rw [hc] at hd; exact Or.inl hd
    have hsup : ∀ d ∈ s.children, d ∈ s'.children := by
      intro d hd
      rcases hc with ⟨p, hp, hc⟩ | ⟨-, hc⟩ | ⟨-, -, hc⟩ <;> rw [hc] <;> simp [hd]
    refine ⟨?_, ?_, ?_⟩
    · rw [hl]; intro q ha
      rcases old _ q ha with ⟨d, hd, hq⟩ | ⟨id, hid⟩
      · exact ⟨d, hsup d hd, hq⟩
      · simp only [List.mem_singleton, Eff.start.injEq] at hid
        rcases hc with ⟨p, hp, hc⟩ | ⟨hno, hc⟩ | ⟨hno, -, hc⟩
        · rw [hp] at hid; simp only [Except.ok.injEq] at hid
          rw [hc]; exact ⟨⟨c, some p, false⟩, by simp, by simp [hid.2]⟩
        · exact absurd hid.2.symm (hno q)
        · rw [hno] at hid; simp at hid
    · rw [hl]; intro d hd hr
      rcases hsub d hd with h | h
      · exact keepStale _ d h hr
      · rw [h.1] at hr; simp at hr
    · rw [hl]; intro d hd p hp
      rcases hsub d hd with h | h
      · exact keepOrigin _ d h p hp
      · exact ⟨c.id, by simp [h.2 p hp]⟩
  | term pre c post id he hid h hc hi hl hk =>
    have hcm : c ∈ s.children := by simp [h]
    have hsub : ∀ d ∈ pre ++ halt c :: post, d ∈ s.children ∨ d = halt c := by
      intro d hd; rw [h]; simp only [List.mem_append, List.mem_cons] at hd ⊢; grind
    refine ⟨?_, ?_, ?_⟩
    · rw [hl, hc]; intro q ha
      rcases old _ q ha with ⟨d, hd, hq⟩ | ⟨id, hid⟩
      · rw [h] at hd
        simp only [List.mem_append, List.mem_cons] at hd
        rcases hd with hd | rfl | hd
        · exact ⟨d, by simp [hd], hq⟩
        · exact absurd (by simp [stops, hq]) (ha.2.1 (howTo d.spec))
        · exact ⟨d, by simp [hd], hq⟩
      · simp only [stops, List.mem_filterMap] at hid
        obtain ⟨d, -, hid⟩ := hid
        cases hp : d.pid <;> simp [hp] at hid
    · rw [hl, hc]; intro d hd hr p hp
      rcases hsub d hd with h | rfl
      · exact keepStale _ d h hr p hp
      · rw [hh] at hp; simp at hp
    · rw [hl, hc]; intro d hd p hp
      rcases hsub d hd with h | rfl
      · exact keepOrigin _ d h p hp
      · rw [hh] at hp; simp at hp
  | rest pre c post id he hid h hp hr hc hi hl hk =>
    have hcm : c ∈ s.children := by simp [h]
    have hsub : ∀ d ∈ s'.children, d ∈ s.children ∨ (d.restarting = false ∧ ∀ p, d.pid = some p → o s.calls c.spec = .ok p) := by
      intro d hd
      rcases hc with ⟨p, ho, hc⟩ | ⟨-, hc⟩
      · rw [hc] at hd
        simp only [List.mem_append, List.mem_cons] at hd
        rcases hd with hd | rfl | hd
        · left; simp [h, hd]
        · right; refine ⟨rfl, ?_⟩; intro q hq; simp [put] at hq; rw [ho, hq]
        · left; simp [h, hd]
      · rw [hc] at hd; exact Or.inl hd
    refine ⟨?_, ?_, ?_⟩
    · rw [hl]; intro q ha
      rcases old _ q ha with ⟨d, hd, hq⟩ | ⟨id, hid⟩
      · rcases hc with ⟨p, ho, hc⟩ | ⟨-, hc⟩
        · rw [h] at hd
          simp only [List.mem_append, List.mem_cons] at hd
          rcases hd with hd | rfl | hd
          · exact ⟨d, by simp [hc, hd], hq⟩
          · rw [hp] at hq; simp at hq
          · exact ⟨d, by simp [hc, hd], hq⟩
        · exact ⟨d, by rw [hc]; exact hd, hq⟩
      · simp only [List.mem_singleton, Eff.start.injEq] at hid
        rcases hc with ⟨p, ho, hc⟩ | ⟨hno, hc⟩
        · rw [ho] at hid; simp only [Except.ok.injEq] at hid
          rw [hc]; exact ⟨put c (some p), by simp, by simp [put, hid.2]⟩
        · exact absurd hid.2.symm (hno q)
    · rw [hl]; intro d hd hr
      rcases hsub d hd with h | h
      · exact keepStale _ d h hr
      · rw [h.1] at hr; simp at hr
    · rw [hl]; intro d hd p hp
      rcases hsub d hd with h | h
      · exact keepOrigin _ d h p hp
      · exact ⟨c.spec.id, by simp [h.2 p hp]⟩
  | del pre c post id he hid h hp hr hc hi hl hk =>
    have hl : s'.log = s.log ++ [] := by simp [hl]
    have hsub : ∀ d ∈ pre ++ post, d ∈ s.children := by intro d hd; rw [h]; simp at hd ⊢; rcases hd with h | h <;> simp [h]
    refine ⟨?_, ?_, ?_⟩
    · rw [hl, hc]; intro q ha
      rcases old [] q ha with ⟨d, hd, hq⟩ | ⟨id, hid⟩
      · rw [h] at hd
        simp only [List.mem_append, List.mem_cons] at hd
        rcases hd with hd | rfl | hd
        · exact ⟨d, by simp [hd], hq⟩
        · rw [hp] at hq; simp at hq
        · exact ⟨d, by simp [hd], hq⟩
      · simp at hid
    · rw [hl, hc]; exact fun d hd => keepStale [] d (hsub d hd)
    · rw [hl, hc]; exact fun d hd => keepOrigin [] d (hsub d hd)

theorem terminate_alive {s s' : Sup} {X : List Pid} (ht : Tracked s X) (h : terminateChildren s = some s') : ∀ p, ¬ Alive s'.log X p := by
  intro p ha
  rw [terminateChildren_eq, Option.some.injEq] at h
  have hl : s'.log = s.log ++ (stops s.children).reverse := by rw [← h]
  rw [hl] at ha
  obtain ⟨id, hid⟩ := ha.1
  rcases List.mem_append.1 hid with hid | hid
  · obtain ⟨c, hc, hp⟩ := ht.listed p (alive_mono (X2 := []) (by simpa using ha) ⟨id, hid⟩)
    refine ha.2.1 (howTo c.spec) ?_
    simp only [List.mem_append, List.mem_reverse, stops, List.mem_filterMap]
    exact Or.inr ⟨c, hc, by simp [hp]⟩
  · simp only [List.mem_reverse, stops, List.mem_filterMap] at hid
    obtain ⟨c, -, hc⟩ := hid
    cases hp : c.pid <;> simp [hp] at hc

theorem tracked_boot (o : Oracle) (st : Strategy) (au : AutoShutdown) (mr md : Nat) (cs : List Spec)
    (hs : ∀ c ∈ cs, c.hasStart = true) :
    (∀ s, boot o (fresh st au mr md cs) = .up s → Tracked s []) ∧
    (∀ s r, boot o (fresh st au mr md cs) = .stopped s r → ∀ p, ¬ Alive s.log [] p) := by
  have he := startChildren_eq o (fresh st au mr md cs) (by simpa [fresh] using hs)
  have hc0 : (fresh st au mr md cs).children = cs.map fun c => ⟨c, none, false⟩ := rfl
  have hl0 : (fresh st au mr md cs).log = [] := rfl
  simp only [boot, initChildren] 
  rw [he]
  have m1 := spawn_mark o (fresh st au mr md cs).children (fresh st au mr md cs).calls 0
  have m2 := spawn_started o (fresh st au mr md cs).children (fresh st au mr md cs).calls 0
  have hnone : ∀ m ∈ (fresh st au mr md cs).children, m.pid = none := by
    rw [hc0]; intro m hm; obtain ⟨c, -, rfl⟩ := List.mem_map.1 hm; rfl
  have hrf : ∀ k n, ∀ d ∈ (spawn o k n (fresh st au mr md cs).children).1, d.restarting = false := by
    rw [hc0]
    clear he m1 m2 hnone hs hc0
    induction cs with
    | nil => intro k n d hd; simp [spawn] at hd
    | cons c cs ih =>
      intro k n d hd
      simp only [List.map_cons, spawn] at hd
      split at hd
      · rcases List.mem_cons.1 hd with rfl | hd
        · rfl
        · exact ih rfl _ _ d hd
      · rcases List.mem_cons.1 hd with rfl | hd
        · rfl
        · exact ih rfl _ _ d hd
      · rcases List.mem_cons.1 hd with rfl | hd
        · rfl
        · obtain ⟨c, -, rfl⟩ := List.mem_map.1 hd; rfl
  cases hx : (spawn o (fresh st au mr md cs).calls 0 (fresh st au mr md cs).children).2.2 with
  | none =>
    rw [hx] at m1 m2
    simp only [mark] at m1 m2
    simp only [Status.up.injEq, reduceCtorEq, false_implies, implies_true, and_true]
    rintro s rfl
    refine ⟨?_, ?_, ?_⟩
    · intro p ha
      obtain ⟨id, hid⟩ := ha.1
      simp only [hl0, List.nil_append] at hid
      obtain ⟨d, h1, h2⟩ := m2 id p hid
      exact ⟨d, by simp [h1, h2], h2⟩
    · intro c hc hr
      rw [hrf _ _ c (List.mem_filter.1 hc).1] at hr; simp at hr
    · intro c hc p hp
      rcases m1 c (List.mem_filter.1 hc).1 with h | ⟨-, q, id, h1, h2⟩ | ⟨m, h1, h2⟩
      · rw [h] at hp; simp at hp
      · rw [h1] at hp; simp only [Option.some.injEq] at hp; subst hp; exact ⟨id, by simp [hl0, h2]⟩
      · rw [h2, hnone m h1] at hp; simp at hp
  | some x =>
    simp only [terminateChildren_eq, Option.map_some, Status.stopped.injEq, reduceCtorEq, false_implies, implies_true, true_and]
    rintro s r ⟨rfl, -⟩ p ha
    obtain ⟨id, hid⟩ := ha.1
    simp only [hl0, List.nil_append, List.mem_append, List.mem_reverse] at hid
    rcases hid with hid | hid
    · obtain ⟨d, h1, h2⟩ := m2 id p hid
      have : ∃ d ∈ (spawn o (fresh st au mr md cs).calls 0 (fresh st au mr md cs).children).1, d.pid = some p := by
        rw [hx] at h1
        obtain ⟨j, e⟩ := x
        simp only [mark] at h1
        obtain ⟨i, hi, rfl⟩ := List.mem_iff_getElem.1 h1
        rw [List.getElem_modify] at h2
        refine ⟨_, List.getElem_mem (by simpa using hi), ?_⟩
        split at h2 <;> exact h2
      obtain ⟨d, h1, h2⟩ := this
      refine ha.2.1 (howTo d.spec) ?_
      simp only [List.mem_append, List.mem_reverse, stops, List.mem_filterMap]
      exact Or.inr ⟨d, h1, by simp [h2]⟩
    · simp only [stops, List.mem_filterMap] at hid
      obtain ⟨c, -, hc⟩ := hid
      cases hp : c.pid <;> simp [hp] at hc

theorem tracked_run (o : Oracle) (evs : List (Nat × Event)) : ∀ s X, Ready s → Tracked s X →
    (∀ s', run o (.up s) evs = .up s' → Tracked s' (X ++ exits evs)) ∧
    (∀ s' r, run o (.up s) evs = .stopped s' r → ∀ p, ¬ Alive s'.log (X ++ exits evs) p) := by
  induction evs with
  | nil => 
    intro s X hs ht
    refine ⟨?_, ?_⟩
    · intro s' h; simp only [run, Status.up.injEq] at h; subst h; simpa [exits] using ht
    · intro s' r h; simp [run] at h
  | cons x evs ih =>
    obtain ⟨now, e⟩ := x
    intro s X hs ht
    have hex : ∀ Y, Y ++ exits ((now, e) :: evs) = (Y ++ exits [(now, e)]) ++ exits evs := by
      intro Y; simp only [exits, List.filterMap_cons, List.filterMap_nil]
      split <;> simp
    simp only [run]
    cases hst : step o s now e with
    | none => simp
    | some r =>
      obtain ⟨s1, rep, q⟩ := r
      cases q with
      | none =>
        have hm := step_move hs hst
        obtain ⟨a, b⟩ := ih s1 _ (move_ready hs hm) (tracked_move ht hm now)
        rw [hex]
        exact ⟨a, b⟩
      | some r =>
        simp only [reduceCtorEq, false_implies, implies_true, true_and, Status.stopped.injEq]
        rintro s' r' ⟨rfl, rfl⟩ p ha
        obtain ⟨s2, hm, h | ⟨r, -, h⟩⟩ := step_moves o s s1 now e rep _ hs hst
        · simp at h
        · have := terminate_alive (tracked_move ht hm now) h p
          rw [hex] at ha
          exact this ⟨ha.1, ha.2.1, fun x => ha.2.2 (List.mem_append_left _ x)⟩

/-- **C84**: while the supervisor runs, every process that it started, did not shut down and was not told has exited is
listed by `which_children`. -/
theorem C84_listed (o : Oracle) (st : Strategy) (au : AutoShutdown) (mr md : Nat) (cs : List Spec) (evs : List (Nat × Event)) (s : Sup)
    (hs : ∀ c ∈ cs, c.hasStart = true) (hd : (cs.map (·.id)).Nodup) (h : life o st au mr md cs evs = .up s) (p : Pid)
    (ha : Alive s.log (exits evs) p) : ∃ i ∈ whichChildren s, i.child = some p := by
  obtain ⟨s0, hb, hr⟩ := life_up o st au mr md cs evs s h
  have := ((tracked_run o evs s0 [] (fresh_inv o st au mr md cs hs hd s0 hb).1 ((tracked_boot o st au mr md cs hs).1 s0 hb)).1 s hr).listed p
    (by simpa using ha)
  obtain ⟨c, hc, hp⟩ := this
  exact ⟨_, List.mem_map_of_mem hc, hp⟩

/-- **C84**: when the supervisor has stopped, for whatever reason, none of its children is left running. -/
theorem C84_none_left (o : Oracle) (st : Strategy) (au : AutoShutdown) (mr md : Nat) (cs : List Spec) (evs : List (Nat × Event)) (s : Sup)
    (r : ExitReason) (hs : ∀ c ∈ cs, c.hasStart = true) (hd : (cs.map (·.id)).Nodup) (h : life o st au mr md cs evs = .stopped s r) (p : Pid) :
    ¬ Alive s.log (exits evs) p := by
  unfold life at h
  cases hb : boot o (fresh st au mr md cs) with
  | panicked => rw [hb] at h; cases evs <;> simp [run] at h
  | stopped s1 r1 =>
    rw [hb] at h
    have : s1 = s := by cases evs <;> simp [run] at h <;> exact h.1
    subst this
    intro ha
    exact (tracked_boot o st au mr md cs hs).2 s1 r1 hb p ⟨ha.1, ha.2.1, by simp⟩
  | up s0 =>
    rw [hb] at h
    have := (tracked_run o evs s0 [] (fresh_inv o st au mr md cs hs hd s0 hb).1 ((tracked_boot o st au mr md cs hs).1 s0 hb)).2 s r h p
    simpa using this

example : ∃ s, life good .oneForAll .never 2 5000 [worker "a" .permanent, worker "b" .transient] [(0, .exit (.loc 100) .kill)] = .up s ∧
    Alive s.log (exits [(0, .exit (.loc 100) .kill)]) (.loc 103) := by
  refine ⟨_, rfl, ?_⟩
  show Alive [.start "a" (.ok (.loc 100)), .start "b" (.ok (.loc 101)), .stop (.loc 101) (.duration 5000),
    .start "a" (.ok (.loc 102)), .start "b" (.ok (.loc 103))] [.loc 100] (.loc 103)
  exact ⟨⟨"b", by simp⟩, by simp, by simp⟩

end Verif.Sup
