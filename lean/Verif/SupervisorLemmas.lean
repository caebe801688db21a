import Verif.Supervisor
/-! # What the loops of a supervisor compute -/
namespace Verif.Sup

/-- The shutdown effects for the running ones among `cs`, in order. -/
def stops (cs : List Child) : List Eff := cs.filterMap fun c => c.pid.map fun p => .stop p (howTo c.spec)

/-- A child after `terminate_child_by_index`. -/
def halt (c : Child) : Child := if c.pid.isSome then { c with pid := none, restarting := false } else c

/-- A child after a successful start. -/
def put (c : Child) (p : Option Pid) : Child := { c with pid := p, restarting := false }

/-- What the start routines of `cs`, run in order up to the first failure (from the `k`-th run on), lead to: the children,
the effects, and the position of the failure. -/
def spawn (o : Oracle) : Nat → Nat → List Child → List Child × List Eff × Option (Nat × ExitReason)
  | _, _, [] => ([], [], none)
  | k, i, c :: cs =>
    match o k c.spec with
    | .ok p => (put c (some p) :: (spawn o (k + 1) (i + 1) cs).1,
        .start c.spec.id (o k c.spec) :: (spawn o (k + 1) (i + 1) cs).2.1, (spawn o (k + 1) (i + 1) cs).2.2)
    | .error .ignore => (put c none :: (spawn o (k + 1) (i + 1) cs).1,
        .start c.spec.id (o k c.spec) :: (spawn o (k + 1) (i + 1) cs).2.1, (spawn o (k + 1) (i + 1) cs).2.2)
    | .error e => (c :: cs, [.start c.spec.id (o k c.spec)], some (i, e))

theorem get_mid {α : Type} (pre : List α) (c : α) (post : List α) : (pre ++ c :: post)[pre.length]? = some c := by simp

theorem modify_mid {α : Type} (pre : List α) (c : α) (post : List α) (f : α → α) :
    (pre ++ c :: post).modify pre.length f = pre ++ f c :: post := by
  induction pre with
  | nil => rfl
  | cons a pre ih => simp [List.modify_succ_cons, ih]

theorem erase_mid {α : Type} (pre : List α) (c : α) (post : List α) :
    (pre ++ c :: post).eraseIdx pre.length = pre ++ post := by
  induction pre with
  | nil => rfl
  | cons a pre ih => simp [ih]

theorem startAt_mid (o : Oracle) (s : Sup) (pre post : List Child) (c : Child) (h : s.children = pre ++ c :: post)
    (hs : c.spec.hasStart = true) :
    startAt o s pre.length =
      some ({ s with calls := s.calls + 1, log := s.log ++ [.start c.spec.id (o s.calls c.spec)] },
        match o s.calls c.spec with
        | .ok p => .ok (some p)
        | .error .ignore => .ok none
        | .error e => .error e) := by
  have := get_mid pre c post
  rw [← h] at this
  simp only [startAt, this, hs, if_true]
  split <;> simp_all

theorem spawn_length (o : Oracle) (cs : List Child) : ∀ k i, (spawn o k i cs).1.length = cs.length := by
  induction cs with
  | nil => intro k i; rfl
  | cons c cs ih => intro k i; simp only [spawn]; split <;> simp [ih]

theorem startAll_eq (o : Oracle) (mid : List Child) : ∀ (pre : List Child) (s : Sup), s.children = pre ++ mid →
    (∀ c ∈ mid, c.spec.hasStart = true) →
    startAll o s (List.range' pre.length mid.length) =
      some ({ s with children := pre ++ (spawn o s.calls pre.length mid).1,
                     calls := s.calls + (spawn o s.calls pre.length mid).2.1.length,
                     log := s.log ++ (spawn o s.calls pre.length mid).2.1 },
        (spawn o s.calls pre.length mid).2.2) := by
  induction mid with
  | nil => intro pre s h _; simp only [List.length_nil, List.range'_zero, startAll, spawn, List.append_nil] at *; rw [← h]; rfl
  | cons c mid ih =>
    intro pre s h hs
    rw [List.length_cons, List.range'_succ, startAll, startAt_mid o s pre mid c h (hs c (by simp))]
    have key : ∀ p, startAll o (started { s with calls := s.calls + 1, log := s.log ++ [.start c.spec.id (o s.calls c.spec)] } pre.length p)
        (List.range' (pre.length + 1) mid.length) =
        some ({ s with children := pre ++ put c p :: (spawn o (s.calls + 1) (pre.length + 1) mid).1,
                       calls := s.calls + ((spawn o (s.calls + 1) (pre.length + 1) mid).2.1.length + 1),
                       log := s.log ++ .start c.spec.id (o s.calls c.spec) :: (spawn o (s.calls + 1) (pre.length + 1) mid).2.1 },
          (spawn o (s.calls + 1) (pre.length + 1) mid).2.2) := by
      intro p
      have := ih (pre ++ [put c p]) (started { s with calls := s.calls + 1, log := s.log ++ [.start c.spec.id (o s.calls c.spec)] } pre.length p)
        (by simp only [started, h, modify_mid]; simp [put]) (fun d hd => hs d (by simp [hd]))
      simp only [List.length_append, List.length_singleton] at this
      rw [this]
      simp [started, Nat.add_assoc, Nat.add_comm]
    cases ho : o s.calls c.spec with
    | ok p => simp only [spawn, ho]; rw [← ho, key]; rfl
    | error e =>
      cases e with
      | ignore => simp only [spawn, ho]; rw [← ho, key]; rfl
      | _ => simp only [spawn, ho]; rw [← h]; rfl

theorem stops_append (a b : List Child) : stops (a ++ b) = stops a ++ stops b := by simp [stops]

theorem range_reverse_succ (n : Nat) : (List.range (n + 1)).reverse = n :: (List.range n).reverse := by
  simp [List.range_succ]

theorem terminateLoop_eq (n : Nat) : ∀ (mid post : List Child) (s : Sup), mid.length = n → s.children = mid ++ post →
    terminateLoop s (List.range n).reverse =
      some { s with children := mid.map (fun c => { c with pid := none }) ++ post,
                    log := s.log ++ (stops mid).reverse } := by
  induction n with
  | zero =>
    intro mid post s hn h
    cases mid with
    | cons _ _ => simp at hn
    | nil => simp only [List.range_zero, List.reverse_nil, terminateLoop, stops, List.filterMap_nil, List.append_nil,
               List.map_nil, List.nil_append] at *; rw [← h]
  | succ n ih =>
    intro mid post s hn h
    obtain ⟨mid', c, rfl⟩ : ∃ m c, mid = m ++ [c] := by
      rcases List.eq_nil_or_concat mid with rfl | ⟨m, c, rfl⟩
      · simp at hn
      · exact ⟨m, c, by simp⟩
    have hl : mid'.length = n := by simpa using hn
    have h' : s.children = mid' ++ c :: post := by rw [h]; simp
    rw [range_reverse_succ, terminateLoop]
    have hg : s.children[n]? = some c := by rw [h', ← hl]; exact get_mid mid' c post
    rw [hg]
    cases hp : c.pid with
    | none =>
      simp only [hp]
      rw [ih mid' (c :: post) s hl h']
      have : ({ c with pid := none } : Child) = c := by cases c; simp_all
      simp [stops, hp, this]
    | some p =>
      simp only [hp]
      rw [ih mid' ({ c with pid := none } :: post) _ hl (by simp only [h']; rw [← hl, modify_mid])]
      simp [stops, hp]

theorem removeAll_eq (p : Child → Bool) (n : Nat) : ∀ (mid post : List Child) (s : Sup), mid.length = n → s.children = mid ++ post →
    removeAll s ((List.range n).reverse.filter fun i => (mid[i]?).any p) =
      some { s with children := mid.filter (fun c => !p c) ++ post,
                    ids := s.ids.filter fun id => decide (id ∉ (mid.filter p).map (·.spec.id)) } := by
  induction n with
  | zero =>
    intro mid post s hn h
    cases mid with
    | cons _ _ => simp at hn
    | nil =>
      have : (s.ids.filter fun id => decide (id ∉ (([] : List Child).filter p).map (·.spec.id))) = s.ids := by simp
      simp only [this, List.range_zero, List.reverse_nil, List.filter_nil, removeAll, List.nil_append] at *; rw [← h]
  | succ n ih =>
    intro mid post s hn h
    obtain ⟨mid', c, rfl⟩ : ∃ m c, mid = m ++ [c] := by
      rcases List.eq_nil_or_concat mid with rfl | ⟨m, c, rfl⟩
      · simp at hn
      · exact ⟨m, c, by simp⟩
    have hl : mid'.length = n := by simpa using hn
    have h' : s.children = mid' ++ c :: post := by rw [h]; simp
    have hg : s.children[n]? = some c := by rw [h', ← hl]; exact get_mid mid' c post
    have hf : ((List.range n).reverse.filter fun i => ((mid' ++ [c])[i]?).any p)
        = (List.range n).reverse.filter fun i => (mid'[i]?).any p := by
      apply List.filter_congr
      intro i hi
      have : i < mid'.length := by simpa [hl] using hi
      simp [List.getElem?_append, this]
    have hm : (mid' ++ [c])[n]? = some c := by rw [← hl]; exact get_mid mid' c []
    rw [range_reverse_succ, List.filter_cons, hm]
    cases hp : p c with
    | false =>
      simp only [Option.any_some, hp, Bool.false_eq_true, if_false, hf]
      rw [ih mid' (c :: post) s hl h']
      simp [List.filter_append, hp]
    | true =>
      simp only [Option.any_some, hp, if_true, hf, removeAll, removeChild, hg, Option.bind_some]
      rw [ih mid' post _ hl (by simp only [h']; rw [← hl, erase_mid])]
      simp only [List.filter_append, hp, List.filter_cons_of_pos, List.filter_nil, List.map_append, List.map_cons,
        List.map_nil, List.filter_filter, Option.some.injEq, Sup.mk.injEq, and_true]
      refine ⟨by simp [hp], ?_⟩
      apply List.filter_congr
      intro x _
      simp

theorem terminateChildren_eq (s : Sup) :
    terminateChildren s = some { s with
      children := (s.children.filter fun c => c.spec.restart ≠ .temporary).map fun c => { c with pid := none },
      ids := s.ids.filter fun id => decide (id ∉ (s.children.filter fun c => c.spec.restart = .temporary).map (·.spec.id)),
      log := s.log ++ (stops s.children).reverse } := by
  rw [terminateChildren, terminateLoop_eq s.children.length s.children [] s rfl (by simp)]
  simp only [Option.bind_some, List.append_nil]
  have := removeAll_eq (fun c => decide (c.spec.restart = .temporary)) s.children.length
    (s.children.map fun c => { c with pid := none }) []
    { s with children := s.children.map (fun c => { c with pid := none }), log := s.log ++ (stops s.children).reverse }
    (by simp) (by simp)
  have e : ∀ i : Nat, ((s.children.map fun c => { c with pid := none } : List Child)[i]?).any (fun c : Child => decide (c.spec.restart = .temporary))
      = (s.children[i]?).any fun c : Child => decide (c.spec.restart = .temporary) := by
    intro i; simp only [List.getElem?_map]; cases s.children[i]? <;> rfl
  simp only [e] at this
  rw [this]
  simp [List.filter_map, Function.comp_def]

theorem startChildren_eq (o : Oracle) (s : Sup) (hs : ∀ c ∈ s.children, c.spec.hasStart = true) :
    startChildren o s =
      (match (spawn o s.calls 0 s.children).2.2 with
       | some _ => some ({ s with
                     children := (spawn o s.calls 0 s.children).1,
                     calls := (s.calls + (spawn o s.calls 0 s.children).2.1.length),
                     log := s.log ++ (spawn o s.calls 0 s.children).2.1 }, .error (.custom "failed_to_start_child"))
       | none =>
         some ({ s with
           children := ((spawn o s.calls 0 s.children).1.filter fun c => !(c.spec.restart = .temporary && c.pid.isNone)),
           ids := (s.ids.filter fun id => decide (id ∉ ((spawn o s.calls 0 s.children).1.filter
             fun c => c.spec.restart = .temporary && c.pid.isNone).map (·.spec.id))),
           calls := (s.calls + (spawn o s.calls 0 s.children).2.1.length),
           log := s.log ++ (spawn o s.calls 0 s.children).2.1 }, .ok ())) := by
  have := startAll_eq o s.children [] s (by simp) hs
  simp only [List.length_nil, List.nil_append, ← List.range_eq_range'] at this
  rw [startChildren, this]
  cases hf : (spawn o s.calls 0 s.children).2.2 with
  | some x => rfl
  | none =>
    simp only
    have h2 := removeAll_eq (fun c => c.spec.restart = .temporary && c.pid.isNone) (spawn o s.calls 0 s.children).1.length
      (spawn o s.calls 0 s.children).1 []
      { s with children := (spawn o s.calls 0 s.children).1,
               calls := (s.calls + (spawn o s.calls 0 s.children).2.1.length),
               log := s.log ++ (spawn o s.calls 0 s.children).2.1 } rfl (by simp)
    rw [← List.filter_reverse, h2]
    simp

theorem terminateAt_mid (s : Sup) (pre post : List Child) (c : Child) (h : s.children = pre ++ c :: post) :
    terminateAt s pre.length = some { s with children := pre ++ halt c :: post, log := s.log ++ stops [c] } := by
  have := get_mid pre c post
  rw [← h] at this
  simp only [terminateAt, this, halt, stops]
  cases hp : c.pid with
  | none => simp [hp, ← h]
  | some p => simp [hp, h, modify_mid]

theorem terminateOthers_eq (i : Nat) (mid : List Child) : ∀ (pre post : List Child) (s : Sup), s.children = pre ++ mid ++ post →
    (i < pre.length ∨ pre.length + mid.length ≤ i) →
    ∀ tl, terminateOthers s i (List.range' pre.length mid.length ++ tl) =
      terminateOthers { s with children := pre ++ mid.map halt ++ post, log := s.log ++ stops mid } i tl := by
  induction mid with
  | nil =>
    intro pre post s h _ tl
    simp only [stops, List.length_nil, List.range'_zero, List.nil_append, List.append_nil, List.map_nil, List.filterMap_nil] at *
    rw [← h]
  | cons c mid ih =>
    intro pre post s h hi tl
    rw [List.length_cons, List.range'_succ, List.cons_append, terminateOthers, if_neg (by simp at hi; omega),
      terminateAt_mid s pre (mid ++ post) c (by simp [h]), Option.bind_some]
    have := ih (pre ++ [halt c]) post { s with children := pre ++ halt c :: (mid ++ post), log := s.log ++ stops [c] } (by simp)
      (by simp at hi ⊢; omega) tl
    simp only [List.length_append, List.length_singleton] at this
    rw [this]
    simp [stops, List.filterMap_cons]
    cases c.pid <;> simp

theorem terminateOthers_mid (s : Sup) (pre m1 m2 : List Child) (c : Child) (h : s.children = pre ++ (m1 ++ c :: m2)) :
    terminateOthers s (pre.length + m1.length) (List.range' pre.length (m1.length + (m2.length + 1))) =
      some { s with children := pre ++ (m1.map halt ++ c :: m2.map halt), log := s.log ++ stops m1 ++ stops m2 } := by
  rw [← List.range'_append_1 (s := pre.length) (m := m1.length) (n := m2.length + 1),
    terminateOthers_eq _ m1 pre (c :: m2) s (by simp [h]) (Or.inr (Nat.le_refl _)), List.range'_succ, terminateOthers,
    if_pos rfl]
  have := terminateOthers_eq (pre.length + m1.length) m2 (pre ++ m1.map halt ++ [c]) []
    { s with children := pre ++ m1.map halt ++ (c :: m2), log := s.log ++ stops m1 } (by simp) (Or.inl (by simp)) []
  simp only [List.length_append, List.length_map, List.length_singleton, List.append_nil] at this
  rw [this, terminateOthers]
  simp

end Verif.Sup
namespace Verif.Sup

/-- Which children a strategy touches when the child `c` between `pre` and `post` fails: the ones kept before, the ones
(re)started (after they were stopped), the ones kept after, and the stop effects. -/
def zone (st : Strategy) (pre : List Child) (c : Child) (post : List Child) : List Child × List Child × List Child × List Eff :=
  match st with
  | .oneForOne => (pre, [c], post, [])
  | .restForOne => (pre, c :: post.map halt, [], stops post)
  | .oneForAll => ([], pre.map halt ++ c :: post.map halt, [], stops pre ++ stops post)

/-- The failed child is marked as being restarted. -/
def mark (n : Nat) (cs : List Child) : Option (Nat × ExitReason) → List Child
  | none => cs
  | some (j, _) => cs.modify (j - n) fun c => { c with restarting := true }

def failId (n : Nat) (cs : List Child) : Option (Nat × ExitReason) → List String
  | none => []
  | some (j, _) => (cs[j - n]?).toList.map (·.spec.id)

theorem spawn_fail_range (o : Oracle) (cs : List Child) : ∀ k i j e, (spawn o k i cs).2.2 = some (j, e) → i ≤ j ∧ j < i + cs.length := by
  induction cs with
  | nil => intro k i j e h; simp [spawn] at h
  | cons c cs ih =>
    intro k i j e h
    simp only [spawn] at h
    split at h
    · have := ih _ _ _ _ h; simp; omega
    · have := ih _ _ _ _ h; simp; omega
    · simp only [Option.some.injEq, Prod.mk.injEq] at h; simp; omega

theorem spawn_specs (o : Oracle) (cs : List Child) : ∀ k i, (spawn o k i cs).1.map (·.spec) = cs.map (·.spec) := by
  induction cs with
  | nil => intro k i; rfl
  | cons c cs ih => intro k i; simp only [spawn]; split <;> simp [ih, put]

theorem modify_mid' {α : Type} (a b z : List α) (j : Nat) (f : α → α) (h1 : a.length ≤ j) (h2 : j < a.length + b.length) :
    (a ++ b ++ z).modify j f = a ++ b.modify (j - a.length) f ++ z := by
  obtain ⟨b1, x, b2, rfl, hb⟩ : ∃ b1 x b2, b = b1 ++ x :: b2 ∧ b1.length = j - a.length := by
    refine ⟨b.take (j - a.length), b[j - a.length]'(by omega), b.drop (j - a.length + 1), ?_, by simp; omega⟩
    simp
  have : j = (a ++ b1).length := by simp [hb]; omega
  have e1 : (a ++ (b1 ++ x :: b2) ++ z) = (a ++ b1) ++ x :: (b2 ++ z) := by simp
  rw [e1, this, modify_mid, ← this, ← hb, modify_mid]
  simp

theorem failed_eq (s : Sup) (a b z : List Child) (j : Nat) (e : ExitReason) (h : s.children = a ++ b ++ z)
    (h1 : a.length ≤ j) (h2 : j < a.length + b.length) :
    failed s j = some { s with children := a ++ mark a.length b (some (j, e)) ++ z,
                               casts := s.casts ++ failId a.length b (some (j, e)) } := by
  have hg : (a ++ b ++ z)[j]? = some (b[j - a.length]'(by omega)) := by
    rw [List.append_assoc, List.getElem?_append_right h1, List.getElem?_append_left (by omega)]
    simp
  have hb : b[j - a.length]? = some (b[j - a.length]'(by omega)) := by simp
  simp only [failed, h, hg, mark, failId, hb, Option.toList_some, List.map_cons, List.map_nil]
  rw [modify_mid' a b z j _ h1 h2]

theorem halt_spec (c : Child) : (halt c).spec = c.spec := by unfold halt; split <;> rfl

theorem restart_eq (o : Oracle) (s : Sup) (pre post : List Child) (c : Child) (h : s.children = pre ++ c :: post)
    (hs : ∀ c ∈ s.children, c.spec.hasStart = true) (A M Z : List Child) (fx : List Eff)
    (hz : zone s.strategy pre c post = (A, M, Z, fx)) :
    restart o s pre.length = some { s with
      children := A ++ mark A.length (spawn o s.calls A.length M).1 (spawn o s.calls A.length M).2.2 ++ Z,
      casts := s.casts ++ failId A.length (spawn o s.calls A.length M).1 (spawn o s.calls A.length M).2.2,
      calls := s.calls + (spawn o s.calls A.length M).2.1.length,
      log := s.log ++ fx ++ (spawn o s.calls A.length M).2.1 } := by
  have hc : c.spec.hasStart = true := hs c (by simp [h])
  obtain ⟨ch, ids, rs, st, au, mr, md, ca, k, lg⟩ := s
  simp only at h hs hz
  simp only
  cases st with
  | oneForOne =>
    simp only [zone, Prod.mk.injEq] at hz
    obtain ⟨rfl, rfl, rfl, rfl⟩ := hz
    simp only [restart, startAt_mid o ⟨ch, ids, rs, .oneForOne, au, mr, md, ca, k, lg⟩ pre post c h hc]
    have hf : ∀ e (sp : List Child × List Eff × Option (Nat × ExitReason)), sp.1 = [c] → sp.2.2 = some (pre.length, e) →
        failed { (⟨ch, ids, rs, .oneForOne, au, mr, md, ca, k, lg⟩ : Sup) with calls := k + 1, log := lg ++ [.start c.spec.id (o k c.spec)] } pre.length =
        some { (⟨ch, ids, rs, .oneForOne, au, mr, md, ca, k, lg⟩ : Sup) with
          children := pre ++ mark pre.length sp.1 sp.2.2 ++ post, casts := ca ++ failId pre.length sp.1 sp.2.2,
          calls := k + 1, log := lg ++ [.start c.spec.id (o k c.spec)] } := by
      intro e sp h1 h2
      have := failed_eq { (⟨ch, ids, rs, .oneForOne, au, mr, md, ca, k, lg⟩ : Sup) with calls := k + 1, log := lg ++ [.start c.spec.id (o k c.spec)] } pre [c] post
        pre.length e (by simp [h]) (Nat.le_refl _) (by simp)
      rw [this, h1, h2]
    cases ho : o k c.spec with
    | ok p => simp only [spawn, ho, started, h, modify_mid, put, mark, failId]; simp
    | error e =>
      cases e with
      | ignore => simp only [spawn, ho, started, h, modify_mid, put, mark, failId]; simp
      | _ =>
        all_goals
          simp only
          rw [← ho, hf _ (spawn o k pre.length [c]) (by simp [spawn, ho]) (by simp only [spawn, ho]; rfl)]
          simp [spawn, ho]
  | restForOne =>
    simp only [zone, Prod.mk.injEq] at hz
    obtain ⟨rfl, rfl, rfl, rfl⟩ := hz
    have hl : ch.length - pre.length = 0 + (post.length + 1) := by simp [h]
    simp only [restart, restartMany, hl, Bool.false_eq_true, if_false]
    have ht := terminateOthers_mid ⟨ch, ids, rs, .restForOne, au, mr, md, ca, k, lg⟩ pre [] post c (by simp [h])
    simp only [List.length_nil, Nat.add_zero] at ht
    rw [ht]
    simp only [List.nil_append, List.map_nil, stops, List.filterMap_nil, List.append_nil, Option.bind_some, Nat.zero_add]
    have := startAll_eq o (c :: post.map halt) pre
      { (⟨ch, ids, rs, .restForOne, au, mr, md, ca, k, lg⟩ : Sup) with children := pre ++ c :: post.map halt, log := lg ++ stops post } rfl (by
        intro d hd
        rcases List.mem_cons.1 hd with rfl | hd
        · exact hc
        · obtain ⟨d', hd', rfl⟩ := List.mem_map.1 hd
          rw [halt_spec]; exact hs d' (by simp [h, hd']))
    simp only [List.length_cons, List.length_map, stops] at this
    rw [this]
    cases hf : (spawn o k pre.length (c :: post.map halt)).2.2 with
    | none => simp [mark, failId]
    | some x =>
      obtain ⟨j, e⟩ := x
      have hr := spawn_fail_range o _ _ _ _ _ hf
      have := failed_eq { (⟨ch, ids, rs, .restForOne, au, mr, md, ca, k, lg⟩ : Sup) with
          children := pre ++ (spawn o k pre.length (c :: post.map halt)).1, calls := k + (spawn o k pre.length (c :: post.map halt)).2.1.length,
          log := lg ++ stops post ++ (spawn o k pre.length (c :: post.map halt)).2.1 } pre
                (spawn o k pre.length (c :: post.map halt)).1 [] j e (by simp) hr.1 (by rw [spawn_length]; exact hr.2)
      simp only [stops, List.append_nil] at this ⊢
      exact this
  | oneForAll =>
    simp only [zone, Prod.mk.injEq] at hz
    obtain ⟨rfl, rfl, rfl, rfl⟩ := hz
    have hl : ch.length = pre.length + (post.length + 1) := by simp [h]
    simp only [restart, restartMany, hl, if_true]
    have ht := terminateOthers_mid ⟨ch, ids, rs, .oneForAll, au, mr, md, ca, k, lg⟩ [] pre post c (by simp [h])
    simp only [List.length_nil, Nat.zero_add] at ht
    rw [ht]
    simp only [List.nil_append, Option.bind_some]
    have := startAll_eq o (pre.map halt ++ c :: post.map halt) []
      { (⟨ch, ids, rs, .oneForAll, au, mr, md, ca, k, lg⟩ : Sup) with children := pre.map halt ++ c :: post.map halt, log := lg ++ stops pre ++ stops post } rfl (by
        intro d hd
        rcases List.mem_append.1 hd with hd | hd
        · obtain ⟨d', hd', rfl⟩ := List.mem_map.1 hd
          rw [halt_spec]; exact hs d' (by simp [h, hd'])
        · rcases List.mem_cons.1 hd with rfl | hd
          · exact hc
          · obtain ⟨d', hd', rfl⟩ := List.mem_map.1 hd
            rw [halt_spec]; exact hs d' (by simp [h, hd']))
    simp only [List.length_append, List.length_cons, List.length_map, List.length_nil, List.nil_append] at this
    rw [this]
    cases hf : (spawn o k 0 (pre.map halt ++ c :: post.map halt)).2.2 with
    | none => simp [mark, failId]
    | some x =>
      obtain ⟨j, e⟩ := x
      have hr := spawn_fail_range o _ _ _ _ _ hf
      have := failed_eq { (⟨ch, ids, rs, .oneForAll, au, mr, md, ca, k, lg⟩ : Sup) with
          children := (spawn o k 0 (pre.map halt ++ c :: post.map halt)).1, calls := k + (spawn o k 0 (pre.map halt ++ c :: post.map halt)).2.1.length,
          log := lg ++ stops pre ++ stops post ++ (spawn o k 0 (pre.map halt ++ c :: post.map halt)).2.1 } []
                (spawn o k 0 (pre.map halt ++ c :: post.map halt)).1 [] j e (by simp) hr.1 (by rw [spawn_length]; exact hr.2)
      simp only [List.append_nil, List.nil_append, List.length_nil, List.append_assoc] at this ⊢
      exact this

end Verif.Sup
