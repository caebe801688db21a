import Verif.SupervisorRunProps
/-!
# Property C100: a child that could not be restarted is tried again

`which_children` reports a child as `restarting` after a failed restart. `casts` is the list of the retries in the mailbox
of the supervisor.
-/
namespace Verif.Sup

/-! ## Lemmas -/

theorem mid_of_mem {α : Type} {l : List α} {c : α} (h : c ∈ l) : ∃ pre post, l = pre ++ c :: post := List.append_of_mem h

theorem startAt_casts {o : Oracle} {s : Sup} {i : Nat} {r} (h : startAt o s i = some r) : r.1.casts = s.casts := by
  obtain ⟨c, -, -, h1, -⟩ := startAt_some o s i r h
  rw [h1]

/-- The next retry in the mailbox is for the child `c` between `pre` and `post`. -/
theorem retry_eq (o : Oracle) (s : Sup) (now : Nat) (id : String) (rest : List String) (pre post : List Child) (c : Child)
    (hca : s.casts = id :: rest) (h : s.children = pre ++ c :: post) (hid : c.spec.id = id)
    (hp : ∀ d ∈ pre, d.spec.id ≠ id) (hs : Ready s)
    (A M Z : List Child) (fx : List Eff) (hz : zone s.strategy pre c post = (A, M, Z, fx)) :
    step o s now .retry =
      if TooMany s now then
        (terminateChildren { s with casts := rest, restarts := recent s now ++ [now] }).map fun s => (s, .none, some shutdownReason)
      else if c.restarting then some ({ s with
          restarts := recent s now ++ [now],
          children := A ++ outcomes o s.calls M ++ Z,
          casts := rest ++ toRetry o s.calls M,
          calls := s.calls + (attempts o s.calls (M.map (·.spec))).length,
          log := s.log ++ fx ++ attempts o s.calls (M.map (·.spec)) }, .none, none)
      else some ({ s with casts := rest, restarts := recent s now ++ [now] }, .none, none) := by
  have hix : indexOf { s with casts := rest } id = some pre.length := by
    simp only [indexOf, h]
    exact findIdx_mid _ _ _ _ (by simpa using hid) (by intro d hd; simpa using hp d hd)
  have hg := get_mid pre c post
  rw [← h] at hg
  simp only [step, hca, hix, tryAgain, addRestart_eq, decide_eq_true_eq]
  have ht : TooMany { s with casts := rest } now ↔ TooMany s now := Iff.rfl
  simp only [ht]
  by_cases hT : TooMany s now
  · simp only [hT, if_true, Option.bind_some, finish]; rfl
  · simp only [hT, if_false, hg]
    cases hr : c.restarting with
    | false => simp only [Bool.false_eq_true, if_false, Option.bind_some, finish]; rfl
    | true =>
      simp only [if_true]
      rw [restart_eq o _ pre post c (by exact h) (by exact hs) A M Z fx (by exact hz)]
      simp only [Option.map_some, Option.bind_some, finish, (spawn_outcomes o M _ _).1, (spawn_outcomes o M _ _).2,
        (spawn_attempts o M _ _).1]
      rfl

theorem retry_none (o : Oracle) (s : Sup) (now : Nat) (id : String) (rest : List String) (hca : s.casts = id :: rest)
    (h : ∀ c ∈ s.children, c.spec.id ≠ id) : step o s now .retry = some ({ s with casts := rest }, .none, none) := by
  have hix : indexOf { s with casts := rest } id = none := by
    simp only [indexOf, findIdx_none]; intro d hd; simpa using h d hd
  simp only [step, hca, hix]

/-- A child that is being restarted after a round of starts is the one that failed, or it was before and is not the first. -/
theorem outcomes_restarting (o : Oracle) (M : List Child) : ∀ k, ∀ d ∈ outcomes o k M, d.restarting = true →
    d.spec.id ∈ toRetry o k M ∨ d ∈ M.tail := by
  induction M with
  | nil => intro k d hd; simp [outcomes] at hd
  | cons c M ih =>
    intro k d hd hr
    simp only [outcomes, toRetry, List.tail_cons] at hd ⊢
    cases hf : Failed (o k c.spec) with
    | true =>
      simp only [hf, if_true, List.mem_cons, List.mem_singleton] at hd ⊢
      rcases hd with rfl | hd
      · left; left
        cases ho : o k c.spec with
        | ok p => rfl
        | error e => cases e <;> rfl
      · exact Or.inr hd
    | false =>
      simp only [hf, Bool.false_eq_true, if_false, List.mem_cons] at hd ⊢
      rcases hd with rfl | hd
      · exfalso
        cases ho : o k c.spec with
        | ok p => simp [ho, after] at hr
        | error e => cases e <;> simp [ho, Failed, after] at hf hr
      · rcases ih (k + 1) d hd hr with h | h
        · exact Or.inl h
        · exact Or.inr (List.mem_of_mem_tail h)

/-- The one that failed is among them and being restarted. -/
theorem toRetry_restarting (o : Oracle) (M : List Child) : ∀ k, ∀ id ∈ toRetry o k M,
    ∃ d ∈ outcomes o k M, d.spec.id = id ∧ d.restarting = true := by
  induction M with
  | nil => intro k id h; simp [toRetry] at h
  | cons c M ih =>
    intro k id h
    simp only [toRetry] at h
    cases hf : Failed (o k c.spec) with
    | true =>
      simp only [hf, if_true, List.mem_singleton] at h
      subst h
      refine ⟨after c (o k c.spec), by simp [outcomes], ?_⟩
      cases ho : o k c.spec with
      | ok p => simp [ho, Failed] at hf
      | error e => cases e <;> simp [ho, Failed, after] at hf ⊢
    | false =>
      simp only [hf, Bool.false_eq_true, if_false] at h
      obtain ⟨d, hd, h1, h2⟩ := ih (k + 1) id h
      exact ⟨d, by simp [outcomes, hf, hd], h1, h2⟩

/-- If none failed, none is being restarted. -/
theorem outcomes_clean (o : Oracle) (M : List Child) : ∀ k, toRetry o k M = [] → ∀ d ∈ outcomes o k M, d.restarting = false := by
  induction M with
  | nil => intro k _ d hd; simp [outcomes] at hd
  | cons c M ih =>
    intro k h d hd
    cases hf : Failed (o k c.spec) with
    | true => simp [toRetry, hf] at h
    | false =>
      simp only [toRetry, hf, Bool.false_eq_true, if_false] at h
      simp only [outcomes, hf, Bool.false_eq_true, if_false, List.mem_cons] at hd
      rcases hd with rfl | hd
      · cases ho : o k c.spec with
        | ok p => rfl
        | error e => cases e <;> simp [ho, Failed, after] at hf ⊢
      · exact ih (k + 1) h d hd

theorem down_restarting {c : Child} (h : (down c).restarting = true) : c.restarting = true := by
  simp only [down, Bool.and_eq_true] at h; exact h.1

/-- What the events other than a restart do to children that are being restarted and to the pending retries. -/
theorem quiet_step (o : Oracle) (s s' : Sup) (now : Nat) (e : Event) (rep : Reply) (hs : Ready s)
    (h : step o s now e = some (s', rep, none)) (he : e ≠ .retry) (hx : ∀ p r, e ≠ .exit p r) :
    s'.casts = s.casts ∧ (∀ c ∈ s'.children, c.restarting = true → c ∈ s.children) ∧
    ((∀ id, e ≠ .terminateChild id) → ∀ c ∈ s.children, c.restarting = true → c ∈ s'.children) := by
  cases e with
  | retry => exact absurd rfl he
  | exit p r => exact absurd rfl (hx p r)
  | stop r =>
    simp only [step, Option.map_eq_some_iff, Prod.mk.injEq] at h
    obtain ⟨_, _, _, _, h⟩ := h
    exact absurd h (by simp)
  | count => simp only [step, Option.some.injEq, Prod.mk.injEq] at h; rw [← h.1]; exact ⟨rfl, fun c hc _ => hc, fun _ c hc _ => hc⟩
  | which => simp only [step, Option.some.injEq, Prod.mk.injEq] at h; rw [← h.1]; exact ⟨rfl, fun c hc _ => hc, fun _ c hc _ => hc⟩
  | other => simp only [step, Option.some.injEq, Prod.mk.injEq] at h; rw [← h.1]; exact ⟨rfl, fun c hc _ => hc, fun _ c hc _ => hc⟩
  | deleteChild id =>
    rcases C67_delete o s now id with ⟨pre, c, post, hc, -, -, h1⟩ | ⟨-, h1⟩
    · rw [h] at h1
      split at h1
      · simp only [Option.some.injEq, Prod.mk.injEq] at h1
        rw [h1.1]; exact ⟨rfl, fun c hc _ => hc, fun _ c hc _ => hc⟩
      · next hr =>
        split at h1
        · simp only [Option.some.injEq, Prod.mk.injEq] at h1
          rw [h1.1]; exact ⟨rfl, fun c hc _ => hc, fun _ c hc _ => hc⟩
        · simp only [Option.some.injEq, Prod.mk.injEq] at h1
          rw [h1.1]
          simp only [hc]
          refine ⟨trivial, ?_, ?_⟩
          · intro d hd _; simp only [List.mem_append, List.mem_cons] at hd ⊢; rcases hd with h | h <;> simp [h]
          · intro _ d hd hdr
            simp only [List.mem_append, List.mem_cons] at hd ⊢
            rcases hd with h | h | h
            · exact Or.inl h
            · subst h; exact absurd hdr hr
            · exact Or.inr h
    · rw [h] at h1
      simp only [Option.some.injEq, Prod.mk.injEq] at h1
      rw [h1.1]; exact ⟨rfl, fun c hc _ => hc, fun _ c hc _ => hc⟩
  | terminateChild id =>
    cases hx : s.children.findIdx? (fun c => decide (c.spec.id = id)) with
    | none =>
      simp only [step, terminateChild, indexOf, hx, Option.map_some, Option.some.injEq, Prod.mk.injEq] at h
      rw [← h.1]; exact ⟨rfl, fun c hc _ => hc, fun _ c hc _ => hc⟩
    | some i =>
      obtain ⟨pre, c, post, hc, rfl, hp, hpre⟩ := findIdx_some _ _ _ hx
      simp only [step, terminateChild, indexOf, hx, terminateAt_mid s pre post c hc, Option.map_some, Option.some.injEq,
        Prod.mk.injEq] at h
      rw [← h.1]
      refine ⟨rfl, ?_, fun hn => absurd rfl (hn id)⟩
      intro d hd hr
      simp only [List.mem_append, List.mem_cons] at hd
      rw [hc]
      rcases hd with h | h | h
      · simp [h]
      · subst h
        have : halt c = c := by
          cases hcp : c.pid with
          | none => simp [halt, hcp]
          | some p => simp [halt, hcp] at hr
        rw [this]; simp
      · simp [h]
  | restartChild id =>
    have hcasts : s'.casts = s.casts := by
      simp only [step, Option.map_eq_some_iff, Prod.mk.injEq] at h
      obtain ⟨r, h, h1, -⟩ := h
      unfold restartChild at h
      split at h
      · simp only [Option.some.injEq] at h; rw [← h1, ← h]
      · split at h
        · simp at h
        · split at h
          · simp only [Option.some.injEq] at h; rw [← h1, ← h]
          · split at h
            · simp only [Option.some.injEq] at h; rw [← h1, ← h]
            · split at h
              · simp at h
              · next hst => simp only [Option.some.injEq] at h; rw [← h1, ← h]; exact startAt_casts hst
              · next hst => simp only [Option.some.injEq] at h; rw [← h1, ← h]; exact startAt_casts hst
    refine ⟨hcasts, ?_⟩
    rcases C67_restart o s now id hs with ⟨pre, c, post, hc, -, -, h1⟩ | ⟨-, h1⟩
    · rcases h1 with ⟨-, h1⟩ | ⟨-, -, h1⟩ | ⟨hr, hp, s2, r2, h1, -, k1, k2, k3⟩
      · rw [h] at h1
        simp only [Option.some.injEq, Prod.mk.injEq] at h1
        rw [h1.1]; exact ⟨fun c hc _ => hc, fun _ c hc _ => hc⟩
      · rw [h] at h1
        simp only [Option.some.injEq, Prod.mk.injEq] at h1
        rw [h1.1]; exact ⟨fun c hc _ => hc, fun _ c hc _ => hc⟩
      · rw [h] at h1
        simp only [Option.some.injEq, Prod.mk.injEq] at h1
        rw [h1.1]
        have : s2.children = s.children ∨ ∃ p, s2.children = pre ++ { c with pid := some p } :: post := by
          cases ho : o s.calls c.spec with
          | ok p => exact Or.inr ⟨p, (k1 p ho).2⟩
          | error e =>
            by_cases hig : e = .ignore
            · subst hig; exact Or.inl (k2 ho).2
            · exact Or.inl (k3 e ho hig).2
        rcases this with h2 | ⟨p, h2⟩
        · rw [h2]; exact ⟨fun c hc _ => hc, fun _ c hc _ => hc⟩
        · rw [h2, hc]
          refine ⟨?_, ?_⟩
          · intro d hd hdr
            simp only [List.mem_append, List.mem_cons] at hd ⊢
            rcases hd with h | h | h
            · exact Or.inl h
            · subst h; simp [hr] at hdr
            · exact Or.inr (Or.inr h)
          · intro _ d hd hdr
            simp only [List.mem_append, List.mem_cons] at hd ⊢
            rcases hd with h | h | h
            · exact Or.inl h
            · subst h; simp [hr] at hdr
            · exact Or.inr (Or.inr h)
    · rw [h] at h1
      simp only [Option.some.injEq, Prod.mk.injEq] at h1
      rw [h1.1]; exact ⟨fun c hc _ => hc, fun _ c hc _ => hc⟩
  | startChild spec =>
    have hcasts : s'.casts = s.casts := by
      simp only [step, Option.map_eq_some_iff, Prod.mk.injEq] at h
      obtain ⟨r, h, h1, -⟩ := h
      unfold startChild at h
      split at h
      · split at h
        · simp at h
        · split at h <;> (simp only [Option.some.injEq] at h; rw [← h1, ← h])
      · simp only at h
        split at h
        · simp at h
        · next hst =>
          have := startAt_casts hst
          split at h <;> (simp only [Option.some.injEq] at h; rw [← h1, ← h]; exact this)
        · next hst =>
          have := startAt_casts hst
          simp only [Option.some.injEq] at h; rw [← h1, ← h]; exact this
    refine ⟨hcasts, ?_⟩
    rcases step_move hs h with ⟨hc, -, -, -⟩ | ⟨pre, c, post, A, M, Z, fx, -, -, why, -⟩ | ⟨_, _, _, _, _, he, -⟩ |
      ⟨c, -, -, -, -, -, -, hc⟩ | ⟨_, _, _, _, he, -⟩ | ⟨_, _, _, _, he, -⟩ | ⟨_, _, _, _, he, -⟩
    · rw [hc]; exact ⟨fun c hc _ => hc, fun _ c hc _ => hc⟩
    · simp at why
    · simp at he
    · have : ∀ l : List Child, (∀ x ∈ l, x.restarting = false) → s'.children = s.children ++ l →
          (∀ c ∈ s'.children, c.restarting = true → c ∈ s.children) ∧
          ((∀ id, Event.startChild spec ≠ .terminateChild id) → ∀ c ∈ s.children, c.restarting = true → c ∈ s'.children) := by
        intro l hl hc
        rw [hc]
        refine ⟨?_, fun _ d hd _ => by simp [hd]⟩
        intro d hd hr
        rcases List.mem_append.1 hd with h | h
        · exact h
        · rw [hl d h] at hr; simp at hr
      rcases hc with ⟨p, -, hc⟩ | ⟨-, hc⟩ | ⟨-, -, hc⟩
      · exact this _ (by simp) hc
      · exact this _ (by simp) hc
      · exact this [] (by simp) (by simpa using hc)
    · simp at he
    · simp at he
    · simp at he

/-- An exit: the pending retries and the children being restarted. -/
theorem exit_step (o : Oracle) (s s' : Sup) (now : Nat) (p : Pid) (r : ExitReason) (rep : Reply) (hs : Ready s)
    (h : step o s now (.exit p r) = some (s', rep, none)) :
    (s' = s) ∨
    (∃ pre c post, s.children = pre ++ c :: post ∧ c.pid = some p ∧ s'.casts = s.casts ∧ s'.children = pre ++ post) ∨
    (∃ pre c post A M Z fx, s.children = pre ++ c :: post ∧ c.pid = some p ∧ zone s.strategy pre c post = (A, M, Z, fx) ∧
      s'.casts = s.casts ++ toRetry o s.calls M ∧ s'.children = A ++ outcomes o s.calls M ++ Z) := by
  cases hx : s.children.findIdx? (fun c => decide (c.pid = some p)) with
  | none =>
    rw [step, childExited_none o s now p r (by rw [findIdx_none] at hx; intro d hd; simpa using hx d hd)] at h
    simp only [Option.bind_some, finish, Option.some.injEq, Prod.mk.injEq] at h
    exact Or.inl h.1.symm
  | some i =>
    right
    obtain ⟨pre, c, post, hc, -, hpc, hpre⟩ := findIdx_some _ _ _ hx
    have hpc : c.pid = some p := by simpa using hpc
    obtain ⟨A, M, Z, fx, hz⟩ : ∃ A M Z fx, zone s.strategy pre c post = (A, M, Z, fx) := ⟨_, _, _, _, rfl⟩
    rw [exit_finish o s now p r pre post c hc hpc (by intro d hd; simpa using hpre d hd) hs A M Z fx hz] at h
    split at h
    · split at h
      · simp [terminateChildren_eq] at h
      · simp only [Option.some.injEq, Prod.mk.injEq] at h
        right
        refine ⟨pre, c, post, A, M, Z, fx, hc, hpc, hz, ?_, ?_⟩
        · rw [← h.1]; simp only [(spawn_outcomes o M _ _).2]
        · rw [← h.1]; simp only [(spawn_outcomes o M _ _).1]
    · split at h
      · simp [terminateChildren_eq] at h
      · simp only [Option.some.injEq, Prod.mk.injEq] at h
        left
        exact ⟨pre, c, post, hc, hpc, by rw [← h.1]; rfl, by rw [← h.1]; rfl⟩

/-- A retry: likewise. -/
theorem retry_step (o : Oracle) (s s' : Sup) (now : Nat) (rep : Reply) (hs : Ready s)
    (h : step o s now .retry = some (s', rep, none)) :
    (s.casts = [] ∧ s' = s) ∨
    (∃ id rest, s.casts = id :: rest ∧ s'.casts = rest ∧ s'.children = s.children ∧
      ((∀ c ∈ s.children, c.spec.id ≠ id) ∨ ∃ c ∈ s.children, c.spec.id = id ∧ c.restarting = false)) ∨
    (∃ rest pre c post A M Z fx, s.casts = c.spec.id :: rest ∧ s.children = pre ++ c :: post ∧ c.restarting = true ∧
      zone s.strategy pre c post = (A, M, Z, fx) ∧
      s'.casts = rest ++ toRetry o s.calls M ∧ s'.children = A ++ outcomes o s.calls M ++ Z ∧
      s'.log = s.log ++ fx ++ attempts o s.calls (M.map (·.spec))) := by
  cases hca : s.casts with
  | nil =>
    simp only [step, hca, Option.some.injEq, Prod.mk.injEq] at h
    exact Or.inl ⟨rfl, h.1.symm⟩
  | cons id rest =>
    right
    cases hx : s.children.findIdx? (fun c => decide (c.spec.id = id)) with
    | none =>
      have hno : ∀ c ∈ s.children, c.spec.id ≠ id := by rw [findIdx_none] at hx; intro d hd; simpa using hx d hd
      rw [retry_none o s now id rest hca hno] at h
      simp only [Option.some.injEq, Prod.mk.injEq] at h
      left
      exact ⟨id, rest, rfl, by rw [← h.1], by rw [← h.1], Or.inl hno⟩
    | some i =>
      obtain ⟨pre, c, post, hc, -, hpc, hpre⟩ := findIdx_some _ _ _ hx
      have hid : c.spec.id = id := by simpa using hpc
      obtain ⟨A, M, Z, fx, hz⟩ : ∃ A M Z fx, zone s.strategy pre c post = (A, M, Z, fx) := ⟨_, _, _, _, rfl⟩
      rw [retry_eq o s now id rest pre post c hca hc hid (by intro d hd; simpa using hpre d hd) hs A M Z fx hz] at h
      split at h
      · simp [terminateChildren_eq] at h
      · split at h
        · next hr =>
          simp only [Option.some.injEq, Prod.mk.injEq] at h
          right
          exact ⟨rest, pre, c, post, A, M, Z, fx, by rw [hid], hc, hr, hz, by rw [← h.1], by rw [← h.1], by rw [← h.1]⟩
        · next hr =>
          simp only [Option.some.injEq, Prod.mk.injEq] at h
          left
          exact ⟨id, rest, rfl, by rw [← h.1], by rw [← h.1], Or.inr ⟨c, by simp [hc], hid, by simpa using hr⟩⟩

theorem step_strategy {o : Oracle} {s s' : Sup} {now : Nat} {e : Event} {rep : Reply} (hs : Ready s)
    (h : step o s now e = some (s', rep, none)) : s'.strategy = s.strategy := (step_restarts hs h).1.1

/-! ## One for one and rest for one -/

/-- Every child that is being restarted has a retry pending. -/
def Pending (s : Sup) : Prop := ∀ c ∈ s.children, c.restarting = true → c.spec.id ∈ s.casts

theorem uniq_mid {s : Sup} {pre post : List Child} {c : Child} (hu : Uniq s) (h : s.children = pre ++ c :: post) :
    ∀ d ∈ pre ++ post, d.spec.id ≠ c.spec.id := by
  have := hu.1
  rw [specs, List.map_map, h, List.map_append, List.map_cons] at this
  have h2 := List.nodup_append.1 this
  have h3 := List.nodup_cons.1 h2.2.1
  intro d hd he
  rcases List.mem_append.1 hd with h | h
  · exact h2.2.2 d.spec.id (List.mem_map_of_mem (f := fun c => c.spec.id) h) c.spec.id (by simp) he
  · exact h3.1 (List.mem_map.2 ⟨d, h, he⟩)

theorem uniq_eq {s : Sup} (hu : Uniq s) {c d : Child} (hc : c ∈ s.children) (hd : d ∈ s.children) (h : d.spec.id = c.spec.id) : d = c := by
  obtain ⟨pre, post, hp⟩ := List.append_of_mem hc
  have := uniq_mid hu hp d
  rw [hp] at hd
  simp only [List.mem_append, List.mem_cons] at hd this
  rcases hd with h1 | h1 | h1
  · exact absurd h (this (Or.inl h1))
  · exact h1
  · exact absurd h (this (Or.inr h1))

/-- After a round of starts for the child `c`, a child that is being restarted is the one that failed, or it is a child
other than `c` that was being restarted before. -/
theorem zone_restarting (o : Oracle) (k : Nat) (st : Strategy) (pre post A M Z : List Child) (c : Child) (fx : List Eff)
    (hst : st ≠ .oneForAll) (hz : zone st pre c post = (A, M, Z, fx)) :
    ∀ d ∈ A ++ outcomes o k M ++ Z, d.restarting = true →
      d.spec.id ∈ toRetry o k M ∨ ∃ d' ∈ pre ++ post, d'.spec = d.spec ∧ d'.restarting = true := by
  intro d hd hr
  cases st with
  | oneForAll => exact absurd rfl hst
  | oneForOne =>
    simp only [zone, Prod.mk.injEq] at hz
    obtain ⟨rfl, rfl, rfl, -⟩ := hz
    simp only [List.mem_append] at hd
    rcases hd with (hd | hd) | hd
    · exact Or.inr ⟨d, by simp [hd], rfl, hr⟩
    · rcases outcomes_restarting o _ k d hd hr with h | h
      · exact Or.inl h
      · simp at h
    · exact Or.inr ⟨d, by simp [hd], rfl, hr⟩
  | restForOne =>
    simp only [zone, Prod.mk.injEq] at hz
    obtain ⟨rfl, rfl, rfl, -⟩ := hz
    simp only [List.mem_append, List.not_mem_nil, or_false] at hd
    rcases hd with hd | hd
    · exact Or.inr ⟨d, by simp [hd], rfl, hr⟩
    · rcases outcomes_restarting o _ k d hd hr with h | h
      · exact Or.inl h
      · simp only [List.tail_cons, List.mem_map] at h
        obtain ⟨d', hd', rfl⟩ := h
        refine Or.inr ⟨d', by simp [hd'], (halt_spec d').symm, ?_⟩
        rw [halt_down] at hr; exact down_restarting hr

theorem pending_step (o : Oracle) (s s' : Sup) (now : Nat) (e : Event) (rep : Reply) (hs : Ready s) (hu : Uniq s)
    (hst : s.strategy ≠ .oneForAll) (hp : Pending s) (h : step o s now e = some (s', rep, none)) : Pending s' := by
  by_cases he : e = .retry
  · subst he
    rcases retry_step o s s' now rep hs h with ⟨-, h1⟩ | ⟨id, rest, hca, h1, h2, h3⟩ |
      ⟨rest, pre, c, post, A, M, Z, fx, hca, hc, hr, hz, h1, h2, -⟩
    · rw [h1]; exact hp
    · intro c hc hr
      rw [h2] at hc
      have := hp c hc hr
      rw [hca] at this
      rw [h1]
      rcases List.mem_cons.1 this with h4 | h4
      · exfalso
        rcases h3 with h3 | ⟨d, hd, hdi, hdr⟩
        · exact h3 c hc h4
        · have := uniq_eq hu hc hd (hdi.trans h4.symm)
          subst this; rw [hr] at hdr; simp at hdr
      · exact h4
    · intro d hd hdr
      rw [h2] at hd
      rw [h1]
      rcases zone_restarting o s.calls s.strategy pre post A M Z c fx hst hz d hd hdr with h3 | ⟨d', hd', h3, h4⟩
      · simp [h3]
      · have hne := uniq_mid hu hc d' hd'
        have := hp d' (by rw [hc]; simp only [List.mem_append, List.mem_cons] at hd' ⊢; rcases hd' with h | h <;> simp [h]) h4
        rw [hca, h3] at this
        rw [h3] at hne
        simp only [List.mem_append]
        exact Or.inl ((List.mem_cons.1 this).resolve_left hne)
  · by_cases hx : ∃ p r, e = .exit p r
    · obtain ⟨p, r, rfl⟩ := hx
      rcases exit_step o s s' now p r rep hs h with h1 | ⟨pre, c, post, hc, -, h1, h2⟩ |
        ⟨pre, c, post, A, M, Z, fx, hc, -, hz, h1, h2⟩
      · rw [h1]; exact hp
      · intro d hd hdr
        rw [h2] at hd
        rw [h1]
        exact hp d (by rw [hc]; simp only [List.mem_append, List.mem_cons] at hd ⊢; rcases hd with h | h <;> simp [h]) hdr
      · intro d hd hdr
        rw [h2] at hd
        rw [h1]
        rcases zone_restarting o s.calls s.strategy pre post A M Z c fx hst hz d hd hdr with h3 | ⟨d', hd', h3, h4⟩
        · simp [h3]
        · have := hp d' (by rw [hc]; simp only [List.mem_append, List.mem_cons] at hd' ⊢; rcases hd' with h | h <;> simp [h]) h4
          rw [h3] at this
          simp [this]
    · obtain ⟨h1, h2, -⟩ := quiet_step o s s' now e rep hs h he (fun p r hpr => hx ⟨p, r, hpr⟩)
      intro d hd hdr
      rw [h1]
      exact hp d (h2 d hd hdr) hdr

theorem boot_facts (o : Oracle) (st : Strategy) (au : AutoShutdown) (mr md : Nat) (cs : List Spec)
    (hs : ∀ c ∈ cs, c.hasStart = true) (s : Sup) (h : boot o (fresh st au mr md cs) = .up s) :
    s.strategy = st ∧ s.casts = [] ∧ ∀ c ∈ s.children, c.restarting = false := by
  have he := startChildren_eq o (fresh st au mr md cs) (by simpa [fresh] using hs)
  simp only [boot, initChildren] at h
  rw [he] at h
  cases hx : (spawn o (fresh st au mr md cs).calls 0 (fresh st au mr md cs).children).2.2 with
  | some x => simp [hx, terminateChildren_eq] at h
  | none =>
    simp only [hx, Status.up.injEq] at h
    refine ⟨by rw [← h]; rfl, by rw [← h]; rfl, ?_⟩
    intro c hc
    rw [← h] at hc
    simp only [List.mem_filter] at hc
    have hc := hc.1
    have h1 := (spawn_outcomes o (fresh st au mr md cs).children (fresh st au mr md cs).calls 0).1
    have h2 := (spawn_outcomes o (fresh st au mr md cs).children (fresh st au mr md cs).calls 0).2
    rw [hx] at h1 h2
    simp only [mark, failId] at h1 h2
    rw [h1] at hc
    exact outcomes_clean o _ _ h2.symm c hc

/-- **C100**: with `OneForOne` and `RestForOne`, whenever `which_children` reports a child as being restarted, a retry for
this child is in the mailbox of the supervisor. -/
theorem C100_retry_pending_partial (o : Oracle) (st : Strategy) (au : AutoShutdown) (mr md : Nat) (cs : List Spec) (evs : List (Nat × Event))
    (s : Sup) (hs : ∀ c ∈ cs, c.hasStart = true) (hd : (cs.map (·.id)).Nodup) (hst : st = .oneForOne ∨ st = .restForOne)
    (h : life o st au mr md cs evs = .up s) : ∀ i ∈ whichChildren s, i.restarting = true → i.id ∈ s.casts := by
  obtain ⟨s0, hb, hr⟩ := life_up o st au mr md cs evs s h
  have h0 := fresh_inv o st au mr md cs hs hd s0 hb
  have h1 := boot_facts o st au mr md cs hs s0 hb
  have hne : s0.strategy ≠ .oneForAll := by rw [h1.1]; rcases hst with rfl | rfl <;> simp
  have := run_inv (I := fun s => Ready s ∧ Uniq s ∧ s.strategy ≠ .oneForAll ∧ Pending s)
    (fun a b now e rep hI hstep => ⟨move_ready hI.1 (step_move hI.1 hstep),
      uniq_step hI.2.1 (move_specs (step_move hI.1 hstep)), by rw [step_strategy hI.1 hstep]; exact hI.2.2.1,
      pending_step o a b now e rep hI.1 hI.2.1 hI.2.2.1 hI.2.2.2 hstep⟩)
    evs s0 s ⟨h0.1, h0.2.1, hne, fun c hc hrr => by rw [h1.2.2 c hc] at hrr; simp at hrr⟩ hr
  intro i hi hir
  obtain ⟨c, hc, rfl⟩ := List.mem_map.1 hi
  exact this.2.2.2 c hc hir

/-- **C100**: handling the retry of a child that is being restarted runs its start routine, unless there were too many
restarts: then the supervisor stops. With `OneForAll` the start routines of the children before it run first, and only if
they succeed its own. -/
theorem C100_retry_runs (o : Oracle) (st : Strategy) (au : AutoShutdown) (mr md : Nat) (cs : List Spec) (evs : List (Nat × Event))
    (s : Sup) (hs : ∀ c ∈ cs, c.hasStart = true) (hd : (cs.map (·.id)).Nodup) (h : life o st au mr md cs evs = .up s)
    (i : Info) (hi : i ∈ whichChildren s) (hr : i.restarting = true) (rest : List String) (hca : s.casts = i.id :: rest) (now : Nat) :
    ∃ s', (TooMany s now ∧ step o s now .retry = some (s', .none, some (.custom "shutdown"))) ∨
      (¬ TooMany s now ∧ step o s now .retry = some (s', .none, none) ∧ ∃ fx, s'.log = s.log ++ fx ∧
        (st = .oneForAll → fx.any isStart = true) ∧ (st ≠ .oneForAll → ∃ out, .start i.id out ∈ fx)) := by
  have hinv := life_inv o st au mr md cs evs s hs hd h
  have hstr : s.strategy = st := by
    obtain ⟨s0, hb, hr⟩ := life_up o st au mr md cs evs s h
    have := run_inv (I := fun s => Ready s ∧ s.strategy = st)
      (fun a b now e rep hI hstep => ⟨move_ready hI.1 (step_move hI.1 hstep), by rw [step_strategy hI.1 hstep]; exact hI.2⟩)
      evs s0 s ⟨(fresh_inv o st au mr md cs hs hd s0 hb).1, (boot_facts o st au mr md cs hs s0 hb).1⟩ hr
    exact this.2
  obtain ⟨c, hc, rfl⟩ := List.mem_map.1 hi
  simp only at hr hca
  obtain ⟨pre, post, hp⟩ := List.append_of_mem hc
  obtain ⟨A, M, Z, fx, hz⟩ : ∃ A M Z fx, zone s.strategy pre c post = (A, M, Z, fx) := ⟨_, _, _, _, rfl⟩
  rw [retry_eq o s now c.spec.id rest pre post c hca hp rfl
    (fun d hd => uniq_mid hinv.2 hp d (by simp [hd])) hinv.1 A M Z fx hz]
  by_cases hT : TooMany s now
  · simp only [hT, if_true, terminateChildren_eq, Option.map_some, not_true, false_and, or_false, true_and]
    exact ⟨_, rfl⟩
  · simp only [hT, if_false, hr, if_true, false_and, false_or, not_false_eq_true, true_and]
    refine ⟨_, rfl, fx ++ attempts o s.calls (M.map (·.spec)), by simp, ?_, ?_⟩
    · intro _
      have hM : M ≠ [] := by
        intro e; subst e
        unfold zone at hz; cases hst : s.strategy <;> simp [hst] at hz
      obtain ⟨m, M', rfl⟩ := List.exists_cons_of_ne_nil hM
      simp [attempts, isStart]
    · intro hne
      rw [hstr] at hz
      have hM : ∃ M', M = c :: M' := by
        cases st with
        | oneForAll => exact absurd rfl hne
        | oneForOne => simp only [zone, Prod.mk.injEq] at hz; exact ⟨[], hz.2.1.symm⟩
        | restForOne => simp only [zone, Prod.mk.injEq] at hz; exact ⟨_, hz.2.1.symm⟩
      obtain ⟨M', rfl⟩ := hM
      exact ⟨o s.calls c.spec, by simp [attempts]⟩

/-! ## One for all -/

/-- If some child is being restarted, one of them has a retry pending; and the listed process of such a child has exited. -/
structure Hope (s : Sup) (X : List Pid) : Prop where
  pend : (∃ c ∈ s.children, c.restarting = true) → ∃ c ∈ s.children, c.restarting = true ∧ c.spec.id ∈ s.casts
  gone : ∀ c ∈ s.children, c.restarting = true → ∀ p, c.pid = some p → p ∈ X

theorem zone_gone (o : Oracle) (k : Nat) (pre post A M Z : List Child) (c : Child) (fx : List Eff) (X : List Pid)
    (hz : zone .oneForAll pre c post = (A, M, Z, fx))
    (hg : ∀ d ∈ pre ++ c :: post, d.restarting = true → ∀ p, d.pid = some p → p ∈ X) (hcx : ∀ p, c.pid = some p → p ∈ X) :
    ∀ d ∈ A ++ outcomes o k M ++ Z, d.restarting = true → ∀ p, d.pid = some p → p ∈ X := by
  simp only [zone, Prod.mk.injEq] at hz
  obtain ⟨rfl, rfl, rfl, -⟩ := hz
  have key : ∀ (N : List Child) k, (∀ d ∈ N, ∀ p, d.pid = some p → p ∈ X) → ∀ d ∈ outcomes o k N, d.restarting = true →
      ∀ p, d.pid = some p → p ∈ X := by
    intro N
    induction N with
    | nil => intro k _ d hd; simp [outcomes] at hd
    | cons a N ih =>
      intro k hN d hd hr p hp
      simp only [outcomes, List.mem_cons] at hd
      rcases hd with rfl | hd
      · cases ho : o k a.spec with
        | ok q => simp [ho, after] at hr
        | error e =>
          cases e with
          | ignore => simp [ho, after] at hr
          | _ => all_goals (simp only [ho, after] at hp; exact hN a (by simp) p hp)
      · split at hd
        · exact hN d (by simp [hd]) p hp
        · exact ih _ (fun x hx => hN x (by simp [hx])) d hd hr p hp
  intro d hd
  simp only [List.nil_append, List.append_nil] at hd
  refine key _ k ?_ d hd
  intro x hx p hp
  have hh : ∀ y : Child, (halt y).pid = none := by intro y; rw [halt_down]; rfl
  simp only [List.mem_append, List.mem_map, List.mem_cons] at hx
  rcases hx with ⟨y, -, rfl⟩ | rfl | ⟨y, -, rfl⟩
  · rw [hh] at hp; simp at hp
  · exact hcx p hp
  · rw [hh] at hp; simp at hp

theorem hope_step (o : Oracle) (s s' : Sup) (now : Nat) (e : Event) (rep : Reply) (X : List Pid) (hs : Ready s) (hu : Uniq s)
    (hst : s.strategy = .oneForAll) (hp : Hope s X) (hnt : ∀ id, e ≠ .terminateChild id) (hnx : ∀ p r, e = .exit p r → p ∉ X)
    (h : step o s now e = some (s', rep, none)) : Hope s' (X ++ exits [(now, e)]) := by
  have mono : ∀ {c : Child}, (∀ p, c.pid = some p → p ∈ X) → ∀ p, c.pid = some p → p ∈ X ++ exits [(now, e)] :=
    fun h p hp => List.mem_append_left _ (h p hp)
  have round : ∀ (A M Z : List Child) (pre post : List Child) (c : Child) (fx : List Eff) (cas : List String),
      zone .oneForAll pre c post = (A, M, Z, fx) → s'.casts = cas ++ toRetry o s.calls M →
      s'.children = A ++ outcomes o s.calls M ++ Z →
      (∃ d ∈ s'.children, d.restarting = true) → ∃ d ∈ s'.children, d.restarting = true ∧ d.spec.id ∈ s'.casts := by
    intro A M Z pre post c fx cas hz h1 h2 ⟨d, hd, hdr⟩
    simp only [zone, Prod.mk.injEq] at hz
    obtain ⟨rfl, -, rfl, -⟩ := hz
    simp only [List.nil_append, List.append_nil] at h2
    rw [h2] at hd
    cases ht : toRetry o s.calls M with
    | nil => rw [outcomes_clean o M s.calls ht d hd] at hdr; simp at hdr
    | cons id l =>
      obtain ⟨x, hx, hxi, hxr⟩ := toRetry_restarting o M s.calls id (by simp [ht])
      exact ⟨x, by rw [h2]; exact hx, hxr, by rw [h1, ht, hxi]; simp⟩
  by_cases he : e = .retry
  · subst he
    rcases retry_step o s s' now rep hs h with ⟨-, h1⟩ | ⟨id, rest, hca, h1, h2, h3⟩ |
      ⟨rest, pre, c, post, A, M, Z, fx, hca, hc, hr, hz, h1, h2, -⟩
    · rw [h1]; exact ⟨hp.pend, fun c hc hr => mono (hp.gone c hc hr)⟩
    · refine ⟨?_, ?_⟩
      · rw [h1, h2]
        intro hex
        obtain ⟨c, hc, hr, hin⟩ := hp.pend hex
        refine ⟨c, hc, hr, ?_⟩
        rw [hca] at hin
        rcases List.mem_cons.1 hin with h4 | h4
        · exfalso
          rcases h3 with h3 | ⟨d, hd, hdi, hdr⟩
          · exact h3 c hc h4
          · have := uniq_eq hu hc hd (hdi.trans h4.symm)
            subst this; rw [hr] at hdr; simp at hdr
        · exact h4
      · rw [h2]; exact fun c hc hr => mono (hp.gone c hc hr)
    · rw [hst] at hz
      refine ⟨round A M Z pre post c fx rest hz h1 h2, ?_⟩
      rw [h2]
      intro d hd hdr
      refine mono (zone_gone o s.calls pre post A M Z c fx X hz ?_ ?_ d hd hdr)
      · rw [← hc]; exact hp.gone
      · exact hp.gone c (by simp [hc]) hr
  · by_cases hx : ∃ p r, e = .exit p r
    · obtain ⟨p, r, rfl⟩ := hx
      have hpX := hnx p r rfl
      rcases exit_step o s s' now p r rep hs h with h1 | ⟨pre, c, post, hc, hcp, h1, h2⟩ |
        ⟨pre, c, post, A, M, Z, fx, hc, hcp, hz, h1, h2⟩
      · rw [h1]; exact ⟨hp.pend, fun c hc hr => mono (hp.gone c hc hr)⟩
      · have sub : ∀ d ∈ pre ++ post, d ∈ s.children := by
          intro d hd; rw [hc]; simp only [List.mem_append, List.mem_cons] at hd ⊢; rcases hd with h | h <;> simp [h]
        refine ⟨?_, ?_⟩
        · rw [h1, h2]
          rintro ⟨d, hd, hdr⟩
          obtain ⟨x, hx, hxr, hxi⟩ := hp.pend ⟨d, sub d hd, hdr⟩
          refine ⟨x, ?_, hxr, hxi⟩
          rw [hc] at hx
          simp only [List.mem_append, List.mem_cons] at hx ⊢
          rcases hx with h | h | h
          · exact Or.inl h
          · subst h; exact absurd (hp.gone x (by simp [hc]) hxr p hcp) hpX
          · exact Or.inr h
        · rw [h2]; exact fun d hd hr => mono (hp.gone d (sub d hd) hr)
      · rw [hst] at hz
        refine ⟨round A M Z pre post c fx s.casts hz h1 h2, ?_⟩
        rw [h2]
        refine zone_gone o s.calls pre post A M Z c fx _ hz ?_ ?_
        · rw [← hc]; exact fun d hd hr => mono (hp.gone d hd hr)
        · intro q hq; rw [hcp] at hq; simp only [Option.some.injEq] at hq; simp [exits, hq]
    · obtain ⟨h1, h2, h3⟩ := quiet_step o s s' now e rep hs h he (fun p r hpr => hx ⟨p, r, hpr⟩)
      refine ⟨?_, fun d hd hr => mono (hp.gone d (h2 d hd hr) hr)⟩
      rintro ⟨d, hd, hdr⟩
      obtain ⟨x, hx, hxr, hxi⟩ := hp.pend ⟨d, h2 d hd hdr, hdr⟩
      exact ⟨x, h3 hnt x hx hxr, hxr, by rw [h1]; exact hxi⟩

theorem hope_run (o : Oracle) (evs : List (Nat × Event)) : ∀ s X, Ready s → Uniq s → s.strategy = .oneForAll → Hope s X →
    (∀ now id, (now, Event.terminateChild id) ∉ evs) → (X ++ exits evs).Nodup → ∀ s', run o (.up s) evs = .up s' →
    ∃ X', Hope s' X' := by
  induction evs with
  | nil => intro s X _ _ _ hp _ _ s' h; simp only [run, Status.up.injEq] at h; subst h; exact ⟨X, hp⟩
  | cons a evs ih =>
    obtain ⟨now, e⟩ := a
    intro s X hs hu hst hp hnt hnd s' h
    simp only [run] at h
    cases hstep : step o s now e with
    | none => simp [hstep] at h
    | some x =>
      obtain ⟨s1, rep, q⟩ := x
      cases q with
      | some r => simp [hstep] at h
      | none =>
        simp only [hstep] at h
        have hsplit : exits ((now, e) :: evs) = exits [(now, e)] ++ exits evs := by
          rw [show (now, e) :: evs = [(now, e)] ++ evs from rfl, exits, List.filterMap_append]; rfl
        rw [hsplit, ← List.append_assoc] at hnd
        refine ih s1 (X ++ exits [(now, e)]) (move_ready hs (step_move hs hstep)) (uniq_step hu (move_specs (step_move hs hstep)))
          (by rw [step_strategy hs hstep]; exact hst) (hope_step o s s1 now e rep X hs hu hst hp ?_ ?_ hstep)
          (fun n id hm => hnt n id (by simp [hm])) hnd s' h
        · rintro id rfl; exact hnt now id (by simp)
        · rintro p r rfl hpX
          have := (List.nodup_append.1 (List.nodup_append.1 hnd).1).2.2 p hpX p (by simp [exits])
          exact this rfl

/-- **C100**, `OneForAll`: as long as `terminate_child` is not used and each process exits at most once, whenever some child
is reported as being restarted, a retry of one of these is in the mailbox (and, if it succeeds, starts them all). The part
missing: with `terminate_child` this fails, see `C100_stuck_violated`. -/
theorem C100_one_for_all_partial (o : Oracle) (au : AutoShutdown) (mr md : Nat) (cs : List Spec) (evs : List (Nat × Event))
    (s : Sup) (hs : ∀ c ∈ cs, c.hasStart = true) (hd : (cs.map (·.id)).Nodup)
    (hnt : ∀ now id, (now, Event.terminateChild id) ∉ evs) (hx : (exits evs).Nodup)
    (h : life o .oneForAll au mr md cs evs = .up s) :
    (∃ i ∈ whichChildren s, i.restarting = true) → ∃ i ∈ whichChildren s, i.restarting = true ∧ i.id ∈ s.casts := by
  obtain ⟨s0, hb, hr⟩ := life_up o .oneForAll au mr md cs evs s h
  have h0 := fresh_inv o .oneForAll au mr md cs hs hd s0 hb
  have h1 := boot_facts o .oneForAll au mr md cs hs s0 hb
  obtain ⟨X, hX⟩ := hope_run o evs s0 [] h0.1 h0.2.1 h1.1
    ⟨fun ⟨c, hc, hrr⟩ => by rw [h1.2.2 c hc] at hrr; simp at hrr, fun c hc hrr => by rw [h1.2.2 c hc] at hrr; simp at hrr⟩
    hnt (by simpa using hx) s hr
  rintro ⟨i, hi, hir⟩
  obtain ⟨c, hc, rfl⟩ := List.mem_map.1 hi
  obtain ⟨d, hd, h2, h3⟩ := hX.pend ⟨c, hc, hir⟩
  exact ⟨_, List.mem_map_of_mem hd, h2, h3⟩

/-- The outcomes of the start routines in the next theorem: runs 5, 6 and 9 fail. -/
def flaky : Oracle := fun k _ => if k = 5 ∨ k = 6 ∨ k = 9 then .error (.custom "x") else .ok (.loc (k + 100))

def stuckEvents : List (Nat × Event) :=
  [(0, .exit (.loc 100) .kill), (1, .retry), (2, .restartChild "b"), (3, .exit (.loc 107) .kill), (4, .terminateChild "b"),
   (5, .retry), (6, .retry)]

/-- **C100** is violated for `OneForAll`: here "c" stays marked as being restarted although no retry is pending, and the
supervisor refuses to restart or delete it for good. -/
theorem C100_stuck_violated :
    ∃ s, life flaky .oneForAll .never 9 5000 [worker "a" .permanent, worker "b" .permanent, worker "c" .permanent] stuckEvents = .up s ∧
      (∃ i ∈ whichChildren s, i.id = "c" ∧ i.restarting = true ∧ i.child = none) ∧ s.casts = [] ∧
      step flaky s 7 (.restartChild "c") = some (s, .pid (.error .restarting), none) ∧
      step flaky s 7 (.deleteChild "c") = some (s, .done (.error .restarting), none) ∧
      step flaky s 7 (.terminateChild "c") = some (s, .done (.ok ()), none) :=
  ⟨_, rfl, ⟨_, .tail _ (.tail _ (.head _)), rfl, rfl, rfl⟩, rfl, rfl, rfl, rfl⟩

/-- The hypotheses of the theorems above can be met: the restart of "a" failed once. -/
example : ∃ s, life once .oneForOne .never 3 5000 [worker "a" .permanent] [(0, .exit (.loc 100) .kill)] = .up s ∧
    (whichChildren s).map (fun i => (i.id, i.restarting)) = [("a", true)] ∧ s.casts = ["a"] := ⟨_, rfl, rfl, rfl⟩
example : ∃ s, life once .oneForAll .never 3 5000 [worker "a" .permanent] [(0, .exit (.loc 100) .kill)] = .up s ∧
    (whichChildren s).map (fun i => (i.id, i.restarting)) = [("a", true)] ∧ s.casts = ["a"] := ⟨_, rfl, rfl, rfl⟩

end Verif.Sup
