import Verif.SupNoticeProps
import Verif.SupervisorRetryProps
/-!
# C145: a child that which_children shows as running is running
-/
namespace Verif.Sup
open Verif.World Verif.Mailbox
variable {B V : Type}

/-! ## Specification -/

/-- `which_children` shows the process `t` of this node as a running child. -/
def Shows (s : Sup) (t : Nat) : Prop := ∃ i ∈ whichChildren s, i.child = some (.loc t) ∧ i.restarting = false

/-- A start routine returns a new process: one that did not exist before it ran. -/
def Anew (cf : Conf B V) (ser : V → B) : Prop :=
  ∀ n c w ops t, Reachable ser w → Exec ser cf.me w (cf.startOf n c) ops (.ok (.loc t)) → w.nextPid ≤ t

/-! ## The state machine -/

theorem shows_iff {s : Sup} {t : Nat} : Shows s t ↔ ∃ c ∈ s.children, c.pid = some (.loc t) ∧ c.restarting = false := by
  simp only [Shows, whichChildren, List.mem_map]
  exact ⟨fun ⟨_, ⟨c, hc, rfl⟩, h⟩ => ⟨c, hc, h⟩, fun ⟨c, hc, h⟩ => ⟨_, ⟨c, hc, rfl⟩, h⟩⟩

/-- The process of a child is one that its start routine returned. -/
def Origin (s : Sup) : Prop := ∀ c ∈ s.children, ∀ p, c.pid = some p → .start c.spec.id (.ok p) ∈ s.log

/-- No process of this node was returned for two children. -/
def OneId (L : List Eff) : Prop := ∀ id id' t, .start id (.ok (.loc t)) ∈ L → .start id' (.ok (.loc t)) ∈ L → id = id'

theorem halt_pid (c : Child) : (halt c).pid = none := by unfold halt; cases h : c.pid <;> simp [h]

theorem spawn_from (o : Oracle) (M : List Child) : ∀ k n, ∀ d ∈ mark n (spawn o k n M).1 (spawn o k n M).2.2,
    d.pid = none ∨ (∃ p, d.pid = some p ∧ .start d.spec.id (.ok p) ∈ (spawn o k n M).2.1) ∨ ∃ m ∈ M, d.spec = m.spec ∧ d.pid = m.pid := by
  induction M with
  | nil => intro k n d hd; simp [spawn, mark] at hd
  | cons c M ih =>
    intro k n d hd
    have hm : ∀ p, mark n (put c p :: (spawn o (k + 1) (n + 1) M).1) (spawn o (k + 1) (n + 1) M).2.2
        = put c p :: mark (n + 1) (spawn o (k + 1) (n + 1) M).1 (spawn o (k + 1) (n + 1) M).2.2 := by
      intro p
      cases hf : (spawn o (k + 1) (n + 1) M).2.2 with
      | none => rfl
      | some x =>
        obtain ⟨j, e⟩ := x
        have := spawn_fail_range o _ _ _ _ _ hf
        simp only [mark]
        rw [show j - n = (j - (n + 1)) + 1 by omega, List.modify_succ_cons]
    have go : ∀ p (f : Eff), d ∈ put c p :: mark (n + 1) (spawn o (k + 1) (n + 1) M).1 (spawn o (k + 1) (n + 1) M).2.2 →
        (p = none ∨ ∃ q, p = some q ∧ f = .start c.spec.id (.ok q)) →
        d.pid = none ∨ (∃ p, d.pid = some p ∧ .start d.spec.id (.ok p) ∈ f :: (spawn o (k + 1) (n + 1) M).2.1) ∨
          ∃ m ∈ c :: M, d.spec = m.spec ∧ d.pid = m.pid := by
      intro p f hd hp
      rcases List.mem_cons.1 hd with rfl | hd
      · rcases hp with rfl | ⟨q, rfl, rfl⟩
        · left; rfl
        · right; left; exact ⟨q, rfl, by simp [put]⟩
      · rcases ih _ _ d hd with h | ⟨p, h1, h2⟩ | ⟨m, h1, h2⟩
        · exact Or.inl h
        · exact Or.inr (Or.inl ⟨p, h1, by simp [h2]⟩)
        · exact Or.inr (Or.inr ⟨m, by simp [h1], h2⟩)
    cases ho : o k c.spec with
    | ok p =>
      simp only [spawn, ho, hm] at hd ⊢
      exact go _ _ hd (Or.inr ⟨p, rfl, rfl⟩)
    | error e =>
      cases e with
      | ignore =>
        simp only [spawn, ho, hm] at hd ⊢
        exact go _ _ hd (Or.inl rfl)
      | _ =>
        all_goals
          simp only [spawn, ho, mark, Nat.sub_self, List.modify_zero_cons] at hd
          right; right
          rcases List.mem_cons.1 hd with rfl | hd
          · exact ⟨c, by simp, rfl, rfl⟩
          · exact ⟨d, by simp [hd], rfl, rfl⟩

/-- No child waits for its restart without a process. -/
def Calm (cs : List Child) : Prop := ∀ c ∈ cs, c.restarting = true → c.pid ≠ none

/-- If only the first child had a process, every process of a child that is not being restarted is new. -/
theorem spawn_new (o : Oracle) (c : Child) (hs : List Child) (hh : ∀ d ∈ hs, d.pid = none) (k n : Nat) :
    ∀ d ∈ mark n (spawn o k n (c :: hs)).1 (spawn o k n (c :: hs)).2.2, d.restarting = false → ∀ p, d.pid = some p →
      ∃ id, .start id (.ok p) ∈ (spawn o k n (c :: hs)).2.1 := by
  intro d hd hr p hp
  have hm : ∀ p, mark n (put c p :: (spawn o (k + 1) (n + 1) hs).1) (spawn o (k + 1) (n + 1) hs).2.2
      = put c p :: mark (n + 1) (spawn o (k + 1) (n + 1) hs).1 (spawn o (k + 1) (n + 1) hs).2.2 := by
    intro p
    cases hf : (spawn o (k + 1) (n + 1) hs).2.2 with
    | none => rfl
    | some x =>
      obtain ⟨j, e⟩ := x
      have := spawn_fail_range o _ _ _ _ _ hf
      simp only [mark]
      rw [show j - n = (j - (n + 1)) + 1 by omega, List.modify_succ_cons]
  have go : ∀ q (f : Eff), d ∈ put c q :: mark (n + 1) (spawn o (k + 1) (n + 1) hs).1 (spawn o (k + 1) (n + 1) hs).2.2 →
      (q = none ∨ ∃ q', q = some q' ∧ f = .start c.spec.id (.ok q')) → ∃ id, .start id (.ok p) ∈ f :: (spawn o (k + 1) (n + 1) hs).2.1 := by
    intro q f hd hq
    rcases List.mem_cons.1 hd with rfl | hd
    · rcases hq with rfl | ⟨q', rfl, rfl⟩
      · simp [put] at hp
      · simp only [put, Option.some.injEq] at hp; subst hp; exact ⟨c.spec.id, by simp⟩
    · rcases spawn_from o hs _ _ d hd with h | ⟨q', h1, h2⟩ | ⟨m, h1, -, h2⟩
      · rw [h] at hp; cases hp
      · rw [h1] at hp; cases hp; exact ⟨_, List.mem_cons_of_mem _ h2⟩
      · rw [h2, hh m h1] at hp; cases hp
  cases ho : o k c.spec with
  | ok q =>
    simp only [spawn, ho, hm] at hd ⊢
    exact go _ _ hd (Or.inr ⟨q, rfl, rfl⟩)
  | error e =>
    cases e with
    | ignore =>
      simp only [spawn, ho, hm] at hd ⊢
      exact go _ _ hd (Or.inl rfl)
    | _ =>
      all_goals
        simp only [spawn, ho, mark, Nat.sub_self, List.modify_zero_cons] at hd
        rcases List.mem_cons.1 hd with rfl | hd
        · simp at hr
        · rw [hh d hd] at hp; cases hp

/-- If only one child had a process, every process of a child that is not being restarted is new, unless the failure came before that child. -/
theorem spawn_calm (o : Oracle) (c : Child) (hs' : List Child) (hh' : ∀ d ∈ hs', d.pid = none) (hs : List Child) (hh : ∀ d ∈ hs, d.pid = none) : ∀ k n,
    Calm (mark n (spawn o k n (hs ++ c :: hs')).1 (spawn o k n (hs ++ c :: hs')).2.2) →
    ∀ d ∈ mark n (spawn o k n (hs ++ c :: hs')).1 (spawn o k n (hs ++ c :: hs')).2.2, d.restarting = false → ∀ p, d.pid = some p →
      ∃ id, .start id (.ok p) ∈ (spawn o k n (hs ++ c :: hs')).2.1 := by
  induction hs with
  | nil => intro k n _; exact spawn_new o c hs' hh' k n
  | cons h hs ih =>
    intro k n hcalm d hd hr p hp
    simp only [List.cons_append] at hcalm hd ⊢
    generalize hM : hs ++ c :: hs' = M at *
    have hm : ∀ p, mark n (put h p :: (spawn o (k + 1) (n + 1) M).1) (spawn o (k + 1) (n + 1) M).2.2
        = put h p :: mark (n + 1) (spawn o (k + 1) (n + 1) M).1 (spawn o (k + 1) (n + 1) M).2.2 := by
      intro p
      cases hf : (spawn o (k + 1) (n + 1) M).2.2 with
      | none => rfl
      | some x =>
        obtain ⟨j, e⟩ := x
        have := spawn_fail_range o _ _ _ _ _ hf
        simp only [mark]
        rw [show j - n = (j - (n + 1)) + 1 by omega, List.modify_succ_cons]
    have go : ∀ q (f : Eff), Calm (put h q :: mark (n + 1) (spawn o (k + 1) (n + 1) M).1 (spawn o (k + 1) (n + 1) M).2.2) →
        d ∈ put h q :: mark (n + 1) (spawn o (k + 1) (n + 1) M).1 (spawn o (k + 1) (n + 1) M).2.2 →
        (q = none ∨ ∃ q', q = some q' ∧ f = .start h.spec.id (.ok q')) → ∃ id, .start id (.ok p) ∈ f :: (spawn o (k + 1) (n + 1) M).2.1 := by
      intro q f hcalm hd hq
      rcases List.mem_cons.1 hd with rfl | hd
      · rcases hq with rfl | ⟨q', rfl, rfl⟩
        · simp [put] at hp
        · simp only [put, Option.some.injEq] at hp; subst hp; exact ⟨h.spec.id, by simp⟩
      · obtain ⟨id, h3⟩ := ih (fun d hd => hh d (.tail _ hd)) (k + 1) (n + 1) (fun c hc => hcalm c (.tail _ hc)) d hd hr p hp
        exact ⟨id, .tail _ h3⟩
    cases ho : o k h.spec with
    | ok q =>
      simp only [spawn, ho, hm] at hd hcalm ⊢
      exact go _ _ hcalm hd (Or.inr ⟨q, rfl, rfl⟩)
    | error e =>
      cases e with
      | ignore =>
        simp only [spawn, ho, hm] at hd hcalm ⊢
        exact go _ _ hcalm hd (Or.inl rfl)
      | _ =>
        all_goals
          simp only [spawn, ho, mark, Nat.sub_self, List.modify_zero_cons] at hcalm
          exact absurd (hh h List.mem_cons_self) (hcalm { h with restarting := true } List.mem_cons_self rfl)

theorem origin_move {o : Oracle} {s s' : Sup} {e : Event} (hor : Origin s) (hm : Move o s e s') : Origin s' := by
  have keep : ∀ L2 (c : Child), c ∈ s.children → ∀ p, c.pid = some p → .start c.spec.id (.ok p) ∈ s.log ++ L2 :=
    fun L2 c hc p hp => by simp [hor c hc p hp]
  intro d hd p hp
  cases hm with
  | idle hc hi hl hk => rw [hl]; rw [hc] at hd; exact hor d hd p hp
  | again pre c post A M Z fx h hz why hc hi hl hk =>
    obtain ⟨-, z2, z3, z4, -⟩ := zone_cover hz
    rw [← h] at z3 z4
    rw [hl, List.append_assoc]
    rw [hc] at hd
    simp only [List.mem_append] at hd
    rcases hd with (hd | hd) | hd
    · exact keep _ d (z3 d hd) p hp
    · rcases spawn_from o M _ _ d hd with h' | ⟨q, h1, h2⟩ | ⟨m, h1, h2, h3⟩
      · rw [h'] at hp; cases hp
      · rw [h1] at hp; cases hp; simp [h2]
      · rcases z2 m h1 with h' | rfl
        · rw [h3, h'] at hp; cases hp
        · rw [h2]; exact keep _ m (by simp [h]) p (h3 ▸ hp)
    · exact keep _ d (z4 d hd) p hp
  | drop pre c post q r he h hq hw hc hi hl hk =>
    rw [hl]; rw [hc] at hd; refine hor d ?_ p hp; rw [h]; simp at hd ⊢; rcases hd with h | h <;> simp [h]
  | new c he hst hn hi hl hk hc =>
    rw [hl]
    rcases hc with ⟨q, hq, hc⟩ | ⟨-, hc⟩ | ⟨-, -, hc⟩ <;> rw [hc] at hd
    · rcases List.mem_append.1 hd with hd | hd
      · exact keep _ d hd p hp
      · simp at hd; subst hd; simp only [Option.some.injEq] at hp; subst hp; simp [hq]
    · rcases List.mem_append.1 hd with hd | hd
      · exact keep _ d hd p hp
      · simp at hd; subst hd; cases hp
    · exact keep _ d hd p hp
  | term pre c post id he hid h hc hi hl hk =>
    rw [hl]; rw [hc] at hd
    simp only [List.mem_append, List.mem_cons] at hd
    rcases hd with hd | rfl | hd
    · exact keep _ d (by simp [h, hd]) p hp
    · rw [halt_pid] at hp; cases hp
    · exact keep _ d (by simp [h, hd]) p hp
  | rest pre c post id he hid h hp' hr hc hi hl hk =>
    rw [hl]
    rcases hc with ⟨q, hq, hc⟩ | ⟨-, hc⟩ <;> rw [hc] at hd
    · simp only [List.mem_append, List.mem_cons] at hd
      rcases hd with hd | rfl | hd
      · exact keep _ d (by simp [h, hd]) p hp
      · simp only [put, Option.some.injEq] at hp; subst hp; simp [put, hq]
      · exact keep _ d (by simp [h, hd]) p hp
    · exact keep _ d hd p hp
  | del pre c post id he hid h hp' hr hc hi hl hk =>
    rw [hl]; rw [hc] at hd; refine hor d ?_ p hp; rw [h]; simp at hd ⊢; rcases hd with h | h <;> simp [h]

/-- No two children have the same process. -/
theorem no_two {s : Sup} (hu : Uniq s) (hor : Origin s) (hone : OneId s.log) {pre post : List Child} {c d : Child} (h : s.children = pre ++ c :: post)
    (hd : d ∈ pre ++ post) {t : Nat} (hc : c.pid = some (.loc t)) : d.pid ≠ some (.loc t) := by
  intro he
  refine uniq_mid hu h d hd (hone _ _ t (hor d ?_ _ he) (hor c (by simp [h]) _ hc))
  rw [h]; simp at hd ⊢; rcases hd with h | h <;> simp [h]

/-- A round of starts. -/
theorem again_shows (o : Oracle) {s : Sup} (hu : Uniq s) (hor : Origin s) (hone : OneId s.log) {pre post A M Z : List Child} {c : Child}
    {fx : List Eff} (h : s.children = pre ++ c :: post) (hz : zone s.strategy pre c post = (A, M, Z, fx)) {k : Nat} {t : Nat}
    (hst : s.strategy ≠ .oneForAll ∨ Calm (A ++ mark A.length (spawn o k A.length M).1 (spawn o k A.length M).2.2 ++ Z))
    (hs : ∃ d ∈ A ++ mark A.length (spawn o k A.length M).1 (spawn o k A.length M).2.2 ++ Z, d.pid = some (.loc t) ∧ d.restarting = false) :
    (∃ id, .start id (.ok (.loc t)) ∈ fx ++ (spawn o k A.length M).2.1) ∨
      (Shows s t ∧ (∀ how, .stop (.loc t) how ∉ fx ++ (spawn o k A.length M).2.1) ∧ c.pid ≠ some (.loc t) ∧ s.strategy ≠ .oneForAll) := by
  obtain ⟨d, hd, hp, hr⟩ := hs
  have hcase : (d ∈ mark A.length (spawn o k A.length M).1 (spawn o k A.length M).2.2) ∨ (d ∈ A ∨ d ∈ Z) := by
    simp only [List.mem_append] at hd; grind
  clear hd
  rcases hcase with hd | hd
  · left
    by_cases hall : s.strategy = .oneForAll
    · have hcalm := hst.resolve_left (fun h => h hall)
      rw [hall] at hz; simp only [zone, Prod.mk.injEq] at hz; obtain ⟨rfl, rfl, rfl, rfl⟩ := hz
      obtain ⟨id, hid⟩ := spawn_calm o c (post.map halt) (fun d hd => by obtain ⟨x, -, rfl⟩ := List.mem_map.1 hd; exact halt_pid x) (pre.map halt)
        (fun d hd => by obtain ⟨x, -, rfl⟩ := List.mem_map.1 hd; exact halt_pid x) k 0 (by simpa using hcalm) d hd hr _ hp
      exact ⟨id, List.mem_append_right _ hid⟩
    have hMform : ∃ hs, M = c :: hs ∧ ∀ d ∈ hs, d.pid = none := by
      cases hs : s.strategy with
      | oneForAll => exact absurd hs hall
      | oneForOne => rw [hs] at hz; simp only [zone, Prod.mk.injEq] at hz; exact ⟨[], hz.2.1.symm, by simp⟩
      | restForOne =>
        rw [hs] at hz; simp only [zone, Prod.mk.injEq] at hz
        exact ⟨_, hz.2.1.symm, fun d hd => by obtain ⟨x, -, rfl⟩ := List.mem_map.1 hd; exact halt_pid x⟩
    obtain ⟨hs, rfl, hn⟩ := hMform
    obtain ⟨id, hid⟩ := spawn_new o c hs hn k A.length d hd hr _ hp
    exact ⟨id, List.mem_append_right _ hid⟩
  · right
    obtain ⟨hmem, hfx, hnall⟩ : d ∈ pre ++ post ∧ (∀ how, .stop (.loc t) how ∉ fx) ∧ s.strategy ≠ .oneForAll := by
      cases hs : s.strategy with
      | oneForAll =>
        rw [hs] at hz; simp only [zone, Prod.mk.injEq] at hz; obtain ⟨rfl, rfl, rfl, rfl⟩ := hz
        simp at hd
      | oneForOne =>
        rw [hs] at hz; simp only [zone, Prod.mk.injEq] at hz; obtain ⟨rfl, rfl, rfl, rfl⟩ := hz
        exact ⟨by simpa using hd, by simp, by simp⟩
      | restForOne =>
        rw [hs] at hz; simp only [zone, Prod.mk.injEq] at hz; obtain ⟨rfl, rfl, rfl, rfl⟩ := hz
        have hd : d ∈ pre := by simpa using hd
        refine ⟨by simp [hd], fun how hm => ?_, by simp⟩
        obtain ⟨x, hx, hxp, -⟩ := mem_stops hm
        obtain ⟨a, b, hab⟩ := List.append_of_mem hd
        exact no_two hu hor hone (pre := a) (post := b ++ c :: post) (c := d) (d := x) (by rw [h, hab]; simp) (by simp [hx]) hp hxp
    refine ⟨shows_iff.2 ⟨d, by rw [h]; simp at hmem ⊢; rcases hmem with h | h <;> simp [h], hp, hr⟩, fun how hm => ?_, fun hc => no_two hu hor hone h hmem hc hp, hnall⟩
    rcases List.mem_append.1 hm with hm | hm
    · exact hfx how hm
    · exact spawn_stops _ _ _ _ _ _ hm

theorem shows_step {o : Oracle} {s s' : Sup} {now : Nat} {e : Event} {rep : Reply} (hrd : Ready s) (hu : Uniq s) (hor : Origin s) (hone : OneId s.log)
    (h : step o s now e = some (s', rep, none)) :
    ∃ fx, s'.log = s.log ++ fx ∧ (∀ p how, .stop p how ∈ fx → ∃ c ∈ s.children, c.pid = some p) ∧
      (s.strategy ≠ .oneForAll ∨ Calm s'.children → ∀ t, Shows s' t → (∃ id, .start id (.ok (.loc t)) ∈ fx) ∨ (Shows s t ∧ (∀ how, .stop (.loc t) how ∉ fx) ∧ (∀ r, e ≠ .exit (.loc t) r) ∧ (s.strategy ≠ .oneForAll ∨ Calm s.children))) := by
  have hm := step_move hrd h
  have calm : (∀ d ∈ s.children, d.restarting = true → d.pid = none → d ∈ s'.children) → s.strategy ≠ .oneForAll ∨ Calm s'.children →
      s.strategy ≠ .oneForAll ∨ Calm s.children := fun hsub hst => hst.imp_right fun hn d hd hr hp => hn d (hsub d hd hr hp) hr hp
  cases hm with
  | idle hc hi hl hk =>
    refine ⟨[], by simp [hl], by simp, fun hst t ht => Or.inr ⟨by simpa [shows_iff, hc] using ht, by simp, ?_, calm (fun d hd _ _ => by rw [hc]; exact hd) hst⟩⟩
    rintro r rfl
    obtain ⟨d, hd, hp, -⟩ := shows_iff.1 ht
    rw [hc] at hd
    obtain ⟨i, hi'⟩ : ∃ i, s.children.findIdx? (fun c => decide (c.pid = some (.loc t))) = some i := by
      cases hx : s.children.findIdx? (fun c => decide (c.pid = some (.loc t))) with
      | some i => exact ⟨i, rfl⟩
      | none => rw [findIdx_none] at hx; have := hx d hd; simp [hp] at this
    obtain ⟨pre, c, post, hcs, -, hcp, hpre⟩ := findIdx_some _ _ _ hi'
    have hcp : c.pid = some (.loc t) := by simpa using hcp
    simp only [step, Option.bind_eq_some_iff] at h
    obtain ⟨⟨s1, q1⟩, h1, h2⟩ := h
    obtain ⟨-, hq, hf⟩ := finish_some _ _ _ _ h2
    simp only at hq
    subst hq
    have hf : s' = s1 := by simpa using hf
    subst hf
    rw [childExited_eq o s now _ r pre post c hcs hcp (by intro d hd; simpa using hpre d hd)] at h1
    split at h1
    · split at h1
      · simp at h1
      · obtain ⟨A, M, Z, fx, hz⟩ : ∃ A M Z fx, zone s.strategy pre c post = (A, M, Z, fx) := ⟨_, _, _, _, rfl⟩
        rw [restart_eq o { s with restarts := recent s now ++ [now] } pre post c hcs hrd A M Z fx hz] at h1
        simp only [Option.map_some, Option.some.injEq, Prod.mk.injEq, and_true] at h1
        have hch := congrArg Sup.children h1
        have hlg := congrArg Sup.log h1
        simp only at hch hlg
        rcases again_shows o hu hor hone hcs hz (k := s.calls) (by rw [hch]; exact hst) (by rw [hch]; exact shows_iff.1 ht) with ⟨id, h3⟩ | ⟨-, -, h3, -⟩
        · rw [hl, List.append_assoc] at hlg
          rw [List.append_cancel_left (hlg.trans (List.append_nil _).symm)] at h3; cases h3
        · exact h3 hcp
    · simp only [Option.some.injEq, Prod.mk.injEq] at h1
      have hch : pre ++ post = s'.children := congrArg Sup.children h1.1
      rw [hc] at hch
      rw [← hch] at hd
      exact no_two hu hor hone hcs hd hcp hp
  | again pre c post A M Z fx h hz why hc hi hl hk =>
    refine ⟨fx ++ (spawn o s.calls A.length M).2.1, by rw [hl, List.append_assoc], ?_, fun hst t ht => ?_⟩
    · intro p how hm
      rcases List.mem_append.1 hm with hm | hm
      · obtain ⟨d, hd, hp⟩ := zone_stops hz hm
        exact ⟨d, by rw [h]; simp at hd ⊢; rcases hd with h | h <;> simp [h], hp⟩
      · exact absurd hm (spawn_stops _ _ _ _ _ _)
    · have ht := shows_iff.1 ht
      rw [hc] at ht
      rcases again_shows o hu hor hone h hz (by rw [← hc]; exact hst) ht with h1 | ⟨h1, h2, h3, h4⟩
      · exact Or.inl h1
      · refine Or.inr ⟨h1, h2, fun r he => ?_, Or.inl h4⟩
        rcases why with ⟨q, r', he', hq, -⟩ | ⟨he', -⟩
        · rw [he] at he'; cases he'; exact h3 hq
        · rw [he] at he'; cases he'
  | drop pre c post p r he h hp hw hc hi hl hk =>
    refine ⟨[], by simp [hl], by simp, fun hst t ht => Or.inr ?_⟩
    obtain ⟨d, hd, hpd, hr⟩ := shows_iff.1 ht
    rw [hc] at hd
    refine ⟨shows_iff.2 ⟨d, by rw [h]; simp at hd ⊢; rcases hd with h | h <;> simp [h], hpd, hr⟩, by simp, fun r' he' => ?_, calm (fun d hd _ hn => ?_) hst⟩
    · rw [he'] at he; cases he
      exact no_two hu hor hone h hd hp hpd
    · rw [h] at hd; rw [hc]; simp only [List.mem_append, List.mem_cons] at hd ⊢
      rcases hd with h | rfl | h
      · exact Or.inl h
      · rw [hp] at hn; cases hn
      · exact Or.inr h
  | new c he hst' hn hi hl hk hc =>
    refine ⟨_, hl, by simp, fun hst t ht => ?_⟩
    obtain ⟨d, hd, hpd, hr⟩ := shows_iff.1 ht
    have old : d ∈ s.children → (∃ id, Eff.start id (.ok (.loc t)) ∈ [Eff.start c.id (o s.calls c)]) ∨ (Shows s t ∧ (∀ how, Eff.stop (.loc t) how ∉ [Eff.start c.id (o s.calls c)]) ∧ (∀ r, e ≠ .exit (.loc t) r) ∧ (s.strategy ≠ .oneForAll ∨ Calm s.children)) :=
      fun hd => Or.inr ⟨shows_iff.2 ⟨d, hd, hpd, hr⟩, by simp, by simp [he], calm (fun d hd _ _ => by rcases hc with ⟨q, hq, hc⟩ | ⟨-, hc⟩ | ⟨-, -, hc⟩ <;> rw [hc] <;> simp [hd]) hst⟩
    rcases hc with ⟨q, hq, hc⟩ | ⟨-, hc⟩ | ⟨-, -, hc⟩ <;> rw [hc] at hd
    · rcases List.mem_append.1 hd with hd | hd
      · exact old hd
      · simp at hd; subst hd; simp only [Option.some.injEq] at hpd; subst hpd; exact Or.inl ⟨c.id, by simp [hq]⟩
    · rcases List.mem_append.1 hd with hd | hd
      · exact old hd
      · simp at hd; subst hd; cases hpd
    · exact old hd
  | term pre c post id he hid h hc hi hl hk =>
    refine ⟨_, hl, ?_, fun hst t ht => Or.inr ?_⟩
    · intro p how hm
      obtain ⟨d, hd, hp, -⟩ := mem_stops hm
      simp at hd; subst hd; exact ⟨d, by simp [h], hp⟩
    · obtain ⟨d, hd, hpd, hr⟩ := shows_iff.1 ht
      rw [hc] at hd
      have hm' : d ∈ pre ++ post := by
        simp only [List.mem_append, List.mem_cons] at hd ⊢
        rcases hd with h | rfl | h
        · exact Or.inl h
        · rw [halt_pid] at hpd; cases hpd
        · exact Or.inr h
      refine ⟨shows_iff.2 ⟨d, by rw [h]; simp at hm' ⊢; rcases hm' with h | h <;> simp [h], hpd, hr⟩, fun how hm => ?_, by simp [he], calm (fun d hd hr hn => ?_) hst⟩
      case refine_2 =>
        rw [h] at hd; rw [hc]; simp only [List.mem_append, List.mem_cons] at hd ⊢
        rcases hd with h | rfl | h
        · exact Or.inl h
        · exact Or.inr (Or.inl (by simp [halt, hn]))
        · exact Or.inr (Or.inr h)
      obtain ⟨x, hx, hxp, -⟩ := mem_stops hm
      have hx : x = c := by simpa using hx
      subst hx
      exact no_two hu hor hone h hm' hxp hpd
  | rest pre c post id he hid h hp' hr' hc hi hl hk =>
    refine ⟨_, hl, by simp, fun hst t ht => ?_⟩
    obtain ⟨d, hd, hpd, hr⟩ := shows_iff.1 ht
    have old : d ∈ s.children → (∃ id, Eff.start id (.ok (.loc t)) ∈ [Eff.start c.spec.id (o s.calls c.spec)]) ∨
        (Shows s t ∧ (∀ how, Eff.stop (.loc t) how ∉ [Eff.start c.spec.id (o s.calls c.spec)]) ∧ (∀ r, e ≠ .exit (.loc t) r) ∧ (s.strategy ≠ .oneForAll ∨ Calm s.children)) :=
      fun hd => Or.inr ⟨shows_iff.2 ⟨d, hd, hpd, hr⟩, by simp, by simp [he], calm (fun d hd hr hn => by
        rcases hc with ⟨q, hq, hc⟩ | ⟨-, hc⟩ <;> rw [hc]
        · rw [h] at hd; simp only [List.mem_append, List.mem_cons] at hd ⊢
          rcases hd with h | rfl | h
          · exact Or.inl h
          · rw [hr'] at hr; cases hr
          · exact Or.inr (Or.inr h)
        · exact hd) hst⟩
    rcases hc with ⟨q, hq, hc⟩ | ⟨-, hc⟩ <;> rw [hc] at hd
    · simp only [List.mem_append, List.mem_cons] at hd
      rcases hd with hd | rfl | hd
      · exact old (by simp [h, hd])
      · simp only [put, Option.some.injEq] at hpd; subst hpd; exact Or.inl ⟨c.spec.id, by simp [hq]⟩
      · exact old (by simp [h, hd])
    · exact old hd
  | del pre c post id he hid h hp' hr' hc hi hl hk =>
    refine ⟨[], by simp [hl], by simp, fun hst t ht => Or.inr ?_⟩
    obtain ⟨d, hd, hpd, hr⟩ := shows_iff.1 ht
    rw [hc] at hd
    exact ⟨shows_iff.2 ⟨d, by rw [h]; simp at hd ⊢; rcases hd with h | h <;> simp [h], hpd, hr⟩, by simp, by simp [he], calm (fun d hd hr hn => by
      rw [h] at hd; rw [hc]; simp only [List.mem_append, List.mem_cons] at hd ⊢
      rcases hd with h | rfl | h
      · exact Or.inl h
      · rw [hr'] at hr; cases hr
      · exact Or.inr h) hst⟩

theorem boot_origin {o : Oracle} {st : Strategy} {au : AutoShutdown} {mr md : Nat} {cs : List Spec} (hs : ∀ c ∈ cs, c.hasStart = true) {s : Sup}
    (h : boot o (fresh st au mr md cs) = .up s) : Origin s ∧ ∀ p how, .stop p how ∉ s.log := by
  have he := startChildren_eq o (fresh st au mr md cs) (by simpa [fresh] using hs)
  have hl0 : (fresh st au mr md cs).log = [] := rfl
  have hnone : ∀ m ∈ (fresh st au mr md cs).children, m.pid = none := by
    intro m hm; obtain ⟨c, -, rfl⟩ := List.mem_map.1 hm; rfl
  have m1 := spawn_from o (fresh st au mr md cs).children (fresh st au mr md cs).calls 0
  simp only [boot, initChildren] at h
  rw [he] at h
  cases hx : (spawn o (fresh st au mr md cs).calls 0 (fresh st au mr md cs).children).2.2 with
  | some x => simp [hx, terminateChildren_eq] at h
  | none =>
    rw [hx] at m1
    simp only [mark] at m1
    simp only [hx, Status.up.injEq] at h
    subst h
    refine ⟨fun c hc p hp => ?_, fun p how hm => spawn_stops _ _ _ _ p how (by simpa [hl0] using hm)⟩
    rcases m1 c (List.mem_filter.1 hc).1 with h | ⟨q, h1, h2⟩ | ⟨m, h1, -, h2⟩
    · rw [h] at hp; cases hp
    · rw [h1] at hp; cases hp; simp only [hl0, List.nil_append]; exact h2
    · rw [h2, hnone m h1] at hp; cases hp

/-! ## In the node -/

theorem performs_anew {cf : Conf B V} {ser : V → B} (hl : Links cf ser) (ha : Anew cf ser) {w : World B V} {n : Nat} {ds : List Did} {ops : List (Op B V)}
    (h : PerformsQ cf ser (fun _ => False) w n ds ops) (hre : Reachable ser w) (ht : Traps cf.me w) :
    (∀ id t, .start id (.ok (.loc t)) ∈ effs ds → w.nextPid ≤ t ∧ t < (Verif.World.run ser w ops).nextPid) ∧ OneId (effs ds) := by
  induction h with
  | nil => exact ⟨by simp [effs], by intro id id' t h; simp [effs] at h⟩
  | @other w n ds o ops ho _ ih =>
    obtain ⟨h1, h2⟩ := ih (reach_step hre _) (traps_step ht (others_trap (ho.resolve_right id)))
    refine ⟨fun id t hm => ⟨?_, (h1 id t hm).2⟩, h2⟩
    exact Nat.le_trans (by have := run_nextPid_le ser w [o]; simpa [Verif.World.run] using this) (h1 id t hm).1
  | @start w n ds ops1 ops2 r c hx hp ih =>
    obtain ⟨h1, h2⟩ := ih (reach_run hre _) (hl.traps _ c _ _ _ hre hx ht)
    rw [run_append, effs_eff]
    have hle := run_nextPid_le ser w ops1
    have hnew : ∀ t, r = .ok (.loc t) → w.nextPid ≤ t ∧ t < (Verif.World.run ser w ops1).nextPid := by
      rintro t rfl
      exact ⟨ha _ c _ _ t hre hx, ((hl.linked _ c _ _ t hre hx ht).2).other⟩
    refine ⟨fun id t hm => ?_, fun id id' t hm hm' => ?_⟩
    · rcases List.mem_cons.1 hm with hm | hm
      · cases hm
        obtain ⟨h3, h4⟩ := hnew t rfl
        exact ⟨h3, Nat.lt_of_lt_of_le h4 (run_nextPid_le ser _ _)⟩
      · exact ⟨Nat.le_trans hle (h1 id t hm).1, (h1 id t hm).2⟩
    · rcases List.mem_cons.1 hm with hm1 | hm1 <;> rcases List.mem_cons.1 hm' with hm2 | hm2
      · cases hm1; cases hm2; rfl
      · have := (h1 id' t hm2).1; cases hm1; have := (hnew t rfl).2; omega
      · have := (h1 id t hm1).1; cases hm2; have := (hnew t rfl).2; omega
      · exact h2 id id' t hm1 hm2
  | @stop w n ds ops1 ops2 p how x hx _ ih =>
    obtain ⟨h1, h2⟩ := ih (reach_run hre _) (traps_run _ (fun o ho => shuts_trap (shutdown_shuts hx o ho)) ht)
    rw [run_append, effs_eff]
    refine ⟨fun id t hm => ?_, fun id id' t hm hm' => h2 id id' t (by simpa using hm) (by simpa using hm')⟩
    have hm : .start id (.ok (.loc t)) ∈ effs ds := by simpa using hm
    exact ⟨Nat.le_trans (run_nextPid_le ser w ops1) (h1 id t hm).1, (h1 id t hm).2⟩
  | @cast w n ds ops id _ ih =>
    obtain ⟨h1, h2⟩ := ih (reach_step hre _) (traps_step ht (by simp [retryOp]))
    refine ⟨fun id' t hm => ⟨?_, (h1 id' t (by simpa using hm)).2⟩, fun id id' t hm hm' => h2 id id' t (by simpa using hm) (by simpa using hm')⟩
    exact Nat.le_trans (by have := run_nextPid_le ser w [retryOp cf id]; simpa [Verif.World.run] using this) (h1 id' t (by simpa using hm)).1

/-- The invariant between two callbacks; `P t` excepts some. -/
structure Exact (cf : Conf B V) (ser : V → B) (st : Strategy) (P : Nat → Prop) (w : World B V) (σ : SState) : Prop where
  traps : Traps cf.me w
  ready : Ready σ.1
  uniq : Uniq σ.1
  strat : σ.1.strategy = st
  origin : Origin σ.1
  one : OneId σ.1.log
  old : ∀ id t, .start id (.ok (.loc t)) ∈ σ.1.log → t < w.nextPid
  knows : st ≠ .oneForAll ∨ Calm σ.1.children → ∀ t, Shows σ.1 t → ¬ P t → cf.me ≠ t ∧ Knows ser cf.me t w

theorem exact_step {cf : Conf B V} {ser : V → B} {st : Strategy} {P : Nat → Prop} {w : World B V} {σ : SState} {o : Op B V}
    (ht : o ≠ .setTrap cf.me false) (hg : ∀ t, cf.me ≠ t → ¬ P t → Knows ser cf.me t w → Knows ser cf.me t (Verif.World.step ser w o).1) (h : Exact cf ser st P w σ) :
    Exact cf ser st P (Verif.World.step ser w o).1 σ := by
  refine ⟨traps_step h.traps ht, h.ready, h.uniq, h.strat, h.origin, h.one, fun id t hm => ?_, fun hst t h1 h2 => ?_⟩
  · exact Nat.lt_of_lt_of_le (h.old id t hm) (by have := run_nextPid_le ser w [o]; simpa [Verif.World.run] using this)
  · obtain ⟨h3, h4⟩ := h.knows hst t h1 h2
    exact ⟨h3, hg t h3 h2 h4⟩

theorem exact_effects {cf : Conf B V} {ser : V → B} (hl : Links cf ser) (ha : Anew cf ser) {st : Strategy} {P : Nat → Prop} {w : World B V} {σ σ' : SState}
    {ds : List Did} {n : Nat} {ops : List (Op B V)} (hre : Reachable ser w) (hp : PerformsQ cf ser (fun _ => False) w n ds ops) (hlog : σ'.1.log = σ.1.log ++ effs ds)
    (hr : Ready σ'.1) (hu : Uniq σ'.1) (hst : σ'.1.strategy = st) (hor : Origin σ'.1)
    (ht : Traps cf.me w) (hor0 : Origin σ.1) (hone : OneId σ.1.log) (hold : ∀ id t, .start id (.ok (.loc t)) ∈ σ.1.log → t < w.nextPid)
    (hk : st ≠ .oneForAll ∨ Calm σ.1.children → ∀ t, Shows σ.1 t → ¬ P t → cf.me ≠ t ∧ Knows ser cf.me t w)
    (hstop : ∀ p how, .stop p how ∈ effs ds → ∃ c ∈ σ.1.children, c.pid = some p)
    (hsh : st ≠ .oneForAll ∨ Calm σ'.1.children → ∀ t, Shows σ'.1 t → (∃ id, .start id (.ok (.loc t)) ∈ effs ds) ∨ (Shows σ.1 t ∧ (∀ how, .stop (.loc t) how ∉ effs ds) ∧ ¬ P t ∧ (st ≠ .oneForAll ∨ Calm σ.1.children))) :
    Exact cf ser st (fun _ => False) (Verif.World.run ser w ops) σ' := by
  obtain ⟨h1, h2⟩ := performs_anew hl ha hp hre ht
  refine ⟨performs_traps hl hp hre ht, hr, hu, hst, hor, ?_, ?_, ?_⟩
  · intro id id' t hm hm'
    rw [hlog] at hm hm'
    rcases List.mem_append.1 hm with hm | hm <;> rcases List.mem_append.1 hm' with hm' | hm'
    · exact hone id id' t hm hm'
    · have := hold id t hm; have := (h1 id' t hm').1; omega
    · have := hold id' t hm'; have := (h1 id t hm).1; omega
    · exact h2 id id' t hm hm'
  · intro id t hm
    rw [hlog] at hm
    rcases List.mem_append.1 hm with hm | hm
    · exact Nat.lt_of_lt_of_le (hold id t hm) (run_nextPid_le ser _ _)
    · exact (h1 id t hm).2
  · intro hc t hsht _
    rcases hsh hc t hsht with ⟨id, hid⟩ | ⟨h3, h4, h5, h6⟩
    · refine performs_linked hl hp hre ht (fun how hm => ?_) hid
      obtain ⟨c, hc, hcp⟩ := hstop _ _ hm
      have := hold _ t (hor0 c hc _ hcp)
      have := (h1 id t hid).1
      omega
    · obtain ⟨h6, h7⟩ := hk h6 t h3 h5
      exact ⟨h6, performs_knows hl h6 hp hre h4 h7⟩

/-- **C145** (partial): with `OneForOne` and `RestForOne` - and with `OneForAll` while `which_children` shows no
child without a process as being restarted - at every moment between two messages, every process of this node
that `which_children` shows as running exists, or its exit message waits in the mailbox of the supervisor (or the supervisor was killed). Missing: with `OneForAll` and a failed restart it
is false, see `C145_stale_violated`. -/
theorem C145_running_partial (cf : Conf B V) (ser : V → B) (hlk : Links cf ser) (ha : Anew cf ser) (w : World B V) (hw : Reachable ser w) (parent : Pid) (n : Nat)
    (st : Strategy) (au : AutoShutdown) (mr md : Nat) (cs : List Spec) (hs : ∀ c ∈ cs, c.hasStart = true) (hd : (cs.map (·.id)).Nodup)
    (ops : List (Op B V)) (l : Verif.World.Log SMsg SState) (σ : SState)
    (h : Exec ser cf.me w (supLife cf parent n (fresh st au mr md cs)) ops (some l, σ)) (hend : l.ended = none)
    (hst : st ≠ .oneForAll ∨ ∀ i ∈ whichChildren l.state.1, i.restarting = true → i.child ≠ none) (t : Nat)
    (hsh : ∃ i ∈ whichChildren l.state.1, i.child = some (.loc t) ∧ i.restarting = false) :
    exists? (Verif.World.run ser w ops) t = true ∨ Heard cf.me t (Verif.World.run ser w ops) ∨ Verif.World.running (Verif.World.run ser w ops) cf.me = false := by
  obtain ⟨o0, σ0, hboot, -, -, os1, os2, os3, rfl, h1, h3, h2⟩ := life_parts cf ser w hw parent n st au mr md cs ops l σ h
  have hinit : Exact cf ser st (fun _ => False) (Verif.World.run ser w os1) σ0 := by
    obtain ⟨i1, i2, -⟩ := fresh_inv o0 st au mr md cs hs hd _ hboot
    obtain ⟨b1, b2⟩ := boot_origin hs hboot
    have b3 := (boot_facts o0 st au mr md cs hs _ hboot).1
    obtain ⟨osa, osb, rfl, ho, hrun, hx⟩ := exec_op_inv h1
    obtain ⟨ds, d1, d2, -⟩ := callback (Q := fun _ => False) (fun o => initChildren_same o (fresh st au mr md cs)) (reach_step (reach_run hw osa) _) hx
    rw [run_append]
    change Exact cf ser st _ (Verif.World.run ser (Verif.World.step ser (Verif.World.run ser w osa) (.setTrap cf.me true)).1 osb) σ0
    have d2 : σ0.1.log = effs ds := by rw [d2]; rfl
    refine exact_effects (P := fun _ => False) (σ := (fresh st au mr md cs, 0)) hlk ha (reach_step (reach_run hw osa) _) d1 (by rw [d2]; rfl) i1 i2 b3 b1 ?_ ?_ ?_ ?_ ?_ ?_ ?_
    · obtain ⟨p, hp, htr⟩ := setTrap_state ser (Verif.World.run ser w osa) cf.me true hrun
      refine ⟨lt_of_running (reach_step (reach_run hw osa) _) (by simp [exists?, hp]), fun q hq => ?_⟩
      rw [hp] at hq; cases hq; exact htr
    · intro c hc p hp; obtain ⟨x, -, rfl⟩ := List.mem_map.1 hc; cases hp
    · intro id id' t h; cases h
    · intro id t h; cases h
    · intro _ t h; obtain ⟨c, hc, hp, -⟩ := shows_iff.1 h; obtain ⟨x, -, rfl⟩ := List.mem_map.1 hc; cases hp
    · intro p how hm; exact absurd (d2 ▸ hm) (b2 p how)
    · intro _ t h; obtain ⟨c, hc, hp, -⟩ := shows_iff.1 h; exact Or.inl ⟨_, d2 ▸ b1 c hc _ hp⟩
  have loop := (loop_rule (Ok := fun _ _ => True) (I := fun w σ _ => Exact cf ser st (fun _ => False) w σ)
    (K := fun m w σ _ => Exact cf ser st (fun t => ∃ r, m = .system (.exit (.loc t) r)) w σ) (J := fun _ _ _ => True) (done := [])
    (fun w o σ l _ ho _ hi => exact_step (others_trap ho) (fun t ht _ hk => gentle_step hk ht (gentle_others ho)) hi)
    (fun w kind p σ l _ hrun hp hc hi => exact_step (by simp) (fun t ht _ hk => by
      refine hk.step ht _ (by rintro (h | h) <;> cases h) ?_
      rintro ro k he - hx hte
      cases he
      exact poll_empty hc hp hrun hx hk.told) hi)
    (fun w kind m σ l _ hrun hm _ _ hi => by
      have hkd : kind ≠ .remove := by
        rintro rfl
        cases hp : w.procs cf.me with
        | none => simp [received, hp] at hm
        | some p => simp [received, hp] at hm
      refine exact_step (P := fun t => ∃ r, m = .system (.exit (.loc t) r)) (by simp) (fun t ht hP hk => ?_)
        ⟨hi.traps, hi.ready, hi.uniq, hi.strat, hi.origin, hi.one, hi.old, fun hst t h1 _ => hi.knows hst t h1 (fun h => h)⟩
      refine hk.step ht _ (by rintro (h | h) <;> cases h) ?_
      rintro ro k he - - (⟨r, hr⟩ | ⟨rfl, -⟩)
      · cases he; change received _ _ _ _ = _ at hr; rw [hm] at hr; cases hr; exact hP ⟨r, rfl⟩
      · cases he; exact hkd rfl)
    (fun w m os c l hre _ hi hran => by
      obtain ⟨hcb, hr⟩ := hran
      obtain ⟨ds, he⟩ := ran_effects (Q := fun _ => False) hre hr
      cases hres : c.result with
      | error r => trivial
      | ok y =>
        have hnt : ∀ r, c.what ≠ .terminate r := by
          intro r hw'
          rw [hw'] at hcb
          unfold callbackFor at hcb
          split at hcb <;> (try split at hcb) <;> simp at hcb
        obtain ⟨casts, -, h2⟩ := does_step hi.uniq (he.does _ (agrees_of _ _)) hnt
        simp only [hres, Turns] at h2
        have hmv := step_move (ready_casts hi.ready casts) h2
        have hstr : c.after.1.strategy = c.before.1.strategy := step_strategy (s := { c.before.1 with casts := casts }) hi.ready h2
        obtain ⟨fx, hfx, hstop, hsh⟩ := shows_step (ready_casts hi.ready casts) (uniq_casts hi.uniq casts) (fun c hc p hp => hi.origin c hc p hp) hi.one h2
        have hfx : effs ds = fx := List.append_cancel_left (he.log.symm.trans hfx)
        subst hfx
        refine exact_effects hlk ha hre he.perf he.log (move_ready (ready_casts hi.ready casts) hmv) (uniq_step (uniq_casts hi.uniq casts) (move_specs hmv))
          (hstr.trans hi.strat) (origin_move (s := { c.before.1 with casts := casts }) (fun c hc p hp => hi.origin c hc p hp) hmv) hi.traps hi.origin hi.one hi.old hi.knows hstop ?_
        intro hc t ht
        rcases hsh (by rw [hi.strat]; exact hc) t ht with h | ⟨h1, h2, h3, h4⟩
        · exact Or.inl h
        · refine Or.inr ⟨h1, h2, ?_, by rw [hi.strat] at h4; exact h4⟩
          rintro ⟨r, rfl⟩
          refine h3 r ?_
          have hwhat : c.what = .info (.system (.exit (.loc t) r)) := by
            simp only [callbackFor] at hcb
            split at hcb
            · cases hcb
            · simpa using hcb.symm
          simp [eventOf, hwhat])
    (fun _ _ _ _ _ _ _ _ => trivial)
    (fun w c o σ l _ _ ho hi => by
      have : ∃ frm y, o = replyOp cf.type cf.me frm y := by
        unfold Verif.World.replyOf at ho
        split at ho
        · cases ho; exact ⟨_, _, rfl⟩
        · cases ho
      obtain ⟨frm, y, rfl⟩ := this
      exact exact_step (by simp [replyOp]) (fun t ht _ hk => gentle_step hk ht ⟨(by rintro (h | h) <;> cases h), fun _ _ h => by cases h⟩) hi)
    (reach_run hw os1) (by
      generalize Verif.World.run ser w os1 = w1
      clear h2 h
      induction os2 generalizing w1 with
      | nil => trivial
      | cons o os ih => exact ⟨trivial, ih (Verif.World.step ser w1 o).1⟩) hinit h2).1 hend
  obtain ⟨h5, h6⟩ := loop.knows (hst.imp_right fun hn c hc hr hp => hn _ (List.mem_map_of_mem hc) hr hp) t hsh (fun h => h)
  have h7 := h6.others h5 os3 h3
  rw [← run_append, ← run_append] at h7
  rcases h7.told with h | h | h
  · exact .inl h.2.2
  · exact .inr (.inl h.2)
  · exact .inr (.inr h)

/-! ## Example and counterexample -/

/-- Start routines that spawn a process return a new one. -/
theorem supConf_anew : Anew supConf supSer := by
  intro n c w ops t hre hx
  simp only [supConf] at hx
  split at hx
  · obtain ⟨h, -⟩ := exec_ret_inv hx
    simp at h
  · obtain ⟨os1, os2, rfl, ho, hr, h2⟩ := exec_op_inv hx
    obtain ⟨h, -⟩ := exec_ret_inv h2
    have hr' : Verif.World.running (Verif.World.run supSer w os1) 2 = true := hr
    have hst : (Verif.World.step supSer (Verif.World.run supSer w os1) (.spawn 2 true false)).2 =
        .spawned (World.spawn (Verif.World.run supSer w os1) 2 true false).2.1 (World.spawn (Verif.World.run supSer w os1) 2 true false).2.2 := by
      simp [Verif.World.step, Op.caller, Op.exec, hr']
    rw [hst] at h
    simp only [spawnedAs, Except.ok.injEq, Pid.loc.injEq] at h
    have h1 : t = (Verif.World.run supSer w os1).nextPid := h
    rw [h1]
    exact run_nextPid_le supSer w os1

/-- The children that `which_children` shows, with the flag. -/
def shownBy (l : Verif.World.Log SMsg SState) : List (String × Option Pid × Bool) := (whichChildren l.state.1).map fun i => (i.id, i.child, i.restarting)

theorem shown_of {l : Verif.World.Log SMsg SState} {id : String} {t : Nat} (h : (id, some (Pid.loc t), false) ∈ shownBy l) :
    ∃ i ∈ whichChildren l.state.1, i.child = some (.loc t) ∧ i.restarting = false := by
  obtain ⟨i, hi, he⟩ := List.mem_map.1 h
  simp only [Prod.mk.injEq] at he
  exact ⟨i, hi, he.2.1, he.2.2⟩

set_option synthInstance.maxSize 2000 in
/-- A supervisor with `OneForAll` has handled the exit of its child 3: it has shut down 4 and started 5 and 6. Then 6 is killed. -/
theorem shownExec : ∃ ops l σ, Exec supSer supConf.me (Verif.World.run supSer init supStart)
    (supLife supConf (.loc 1) 1 (fresh .oneForAll .never 3 5000 [worker "a" .permanent, worker "b" .permanent])) ops (some l, σ) ∧ l.ended = none ∧
    shownBy l = [("a", some (.loc 5), false), ("b", some (.loc 6), false)] ∧
    exists? (Verif.World.run supSer (Verif.World.run supSer init supStart) ops) 5 = true ∧
    exists? (Verif.World.run supSer (Verif.World.run supSer init supStart) ops) 6 = false ∧
    Verif.World.running (Verif.World.run supSer (Verif.World.run supSer init supStart) ops) 2 = true := by
  have h : (sim supSer 2 (Verif.World.run supSer init supStart)
      (supLife supConf (.loc 1) 1 (fresh .oneForAll .never 3 5000 [worker "a" .permanent, worker "b" .permanent]))
      ([.mine, .mine, .mine, .env (.exit 3 (.loc 3) .kill), .env (.drop 3), .mine] ++ supShut 4 ++ [.mine, .mine, .env (.exit 6 (.loc 6) .kill), .env (.drop 6)])).map
      (fun x => (x.2.1.map fun l => (l.ended, shownBy l), exists? (Verif.World.run supSer (Verif.World.run supSer init supStart) x.1) 5,
        exists? (Verif.World.run supSer (Verif.World.run supSer init supStart) x.1) 6, Verif.World.running (Verif.World.run supSer (Verif.World.run supSer init supStart) x.1) 2)) =
      some (some (none, [("a", some (.loc 5), false), ("b", some (.loc 6), false)]), true, false, true) := by decide +kernel
  simp only [Option.map_eq_some_iff, Prod.mk.injEq] at h
  obtain ⟨⟨ops, o, σ⟩, h1, ⟨l, h2, h3, h4⟩, h5, h6, h7⟩ := h
  have h2' : o = some l := h2
  subst h2'
  exact ⟨ops, l, σ, sim_exec supSer 2 _ _ _ _ h1, h3, h4, h5, h6, h7⟩

/-- So the exit message of 6 waits in the mailbox. -/
example : ∃ ops, Heard 2 6 (Verif.World.run supSer (Verif.World.run supSer init supStart) ops) := by
  obtain ⟨ops, l, σ, h1, h2, h3, h4, h5, h6⟩ := shownExec
  refine ⟨ops, ?_⟩
  have hcalm : ∀ i ∈ whichChildren l.state.1, i.restarting = true → i.child ≠ none := by
    intro i hi hr
    have := List.mem_map_of_mem (f := fun i : Info => (i.id, i.child, i.restarting)) hi
    change _ ∈ shownBy l at this
    rw [h3] at this
    simp [hr] at this
  rcases C145_running_partial supConf supSer supConf_links supConf_anew _ ⟨_, rfl⟩ (.loc 1) 1 .oneForAll .never 3 5000 _ (by decide) (by decide) ops l σ h1 h2 (.inr hcalm) 6
    (shown_of (id := "b") (by rw [h3]; simp)) with h | h | h
  · rw [h5] at h; cases h
  · exact h
  · have h' : Verif.World.running (Verif.World.run supSer (Verif.World.run supSer init supStart) ops) 2 = false := h
    rw [h6] at h'; cases h'

/-- Like `supConf`, but the third run of a start routine fails. -/
def failConf : Conf Nat (GMsg SMsg) where
  me := 2
  unit := supUnit
  type := supMsgs
  startOf := fun n _ => if n = 2 then .ret (.error (.custom "bad")) else .op (.spawn 2 true false) fun r => .ret (spawnedAs r)
  clock := id

/-- An exit message of `t` is in the mailbox of `a`. -/
def heard? (a t : Nat) (w : World Nat (GMsg SMsg)) : Bool :=
  match w.procs a with
  | some p => (p.box.items ++ p.box.chan).any fun it => match it with | .system (.exit (.loc u) _) => u = t | _ => false
  | none => false

theorem heard_of {a t : Nat} {w : World Nat (GMsg SMsg)} (h : Heard a t w) : heard? a t w = true := by
  obtain ⟨p, r, hp, hm⟩ := h
  simp only [heard?, hp, List.any_eq_true]
  exact ⟨_, hm, by simp⟩

set_option synthInstance.maxSize 2000 in
/-- **C145** is violated with `OneForAll`: the child "b" (4) is killed; the supervisor handles its exit, shuts the child "a" (3) down and runs the start routine of "a", which fails. Then
`which_children` shows 4 as running, although it is dead and the supervisor knows it. -/
theorem C145_stale_violated : ∃ ops l σ, Exec supSer failConf.me (Verif.World.run supSer init supStart)
    (supLife failConf (.loc 1) 1 (fresh .oneForAll .never 3 5000 [worker "a" .permanent, worker "b" .permanent])) ops (some l, σ) ∧ l.ended = none ∧
    (∃ i ∈ whichChildren l.state.1, i.child = some (.loc 4) ∧ i.restarting = false) ∧
    exists? (Verif.World.run supSer (Verif.World.run supSer init supStart) ops) 4 = false ∧ ¬ Heard 2 4 (Verif.World.run supSer (Verif.World.run supSer init supStart) ops) ∧
    Verif.World.running (Verif.World.run supSer (Verif.World.run supSer init supStart) ops) 2 = true := by
  have h : (sim supSer 2 (Verif.World.run supSer init supStart)
      (supLife failConf (.loc 1) 1 (fresh .oneForAll .never 3 5000 [worker "a" .permanent, worker "b" .permanent]))
      ([.mine, .mine, .mine, .env (.exit 4 (.loc 4) .kill), .env (.drop 4), .mine] ++ supShut 3 ++ [.mine])).map
      (fun x => (x.2.1.map fun l => (l.ended, shownBy l), exists? (Verif.World.run supSer (Verif.World.run supSer init supStart) x.1) 4,
        heard? 2 4 (Verif.World.run supSer (Verif.World.run supSer init supStart) x.1), Verif.World.running (Verif.World.run supSer (Verif.World.run supSer init supStart) x.1) 2)) =
      some (some (none, [("a", none, true), ("b", some (.loc 4), false)]), false, false, true) := by decide +kernel
  simp only [Option.map_eq_some_iff, Prod.mk.injEq] at h
  obtain ⟨⟨ops, o, σ⟩, h1, ⟨l, h2, h3, h4⟩, h5, h6, h7⟩ := h
  have h2' : o = some l := h2
  subst h2'
  refine ⟨ops, l, σ, sim_exec supSer 2 _ _ _ _ h1, h3, shown_of (id := "b") (by rw [h4]; simp), h5, fun h => ?_, h7⟩
  have := heard_of h
  rw [h6] at this; cases this

end Verif.Sup
