import Verif.Misc
/-!
# Node options (C54), comparisons (C80), awaiting tasks (C79)
-/
namespace Verif.Misc

/-! ## C54 -/

/-- What the names of the builder methods say. -/
def NodeOptions.setNamed (o : NodeOptions) : Setting → NodeOptions
  | .listenAddress a => { o with listenAddress := a }
  | .broadcastAddress a => { o with broadcastAddress := a }
  | .handshakeTimeout d => { o with handshakeTimeout := d }
  | .heartbeatInterval d => { o with heartbeatInterval := d }
  | .heartbeatTimeout d => { o with heartbeatTimeout := d }

def Setting.isHeartbeatTimeout : Setting → Bool
  | .heartbeatTimeout _ => true
  | _ => false

/-- C54 holds for chains of builder calls without `heartbeat_timeout`. -/
theorem C54_builders_partial (o : NodeOptions) (l : List Setting) (h : ∀ s ∈ l, s.isHeartbeatTimeout = false) :
    o.sets l = l.foldl NodeOptions.setNamed o := by
  induction l generalizing o with
  | nil => rfl
  | cons s l ih =>
    have hs := h s List.mem_cons_self
    have : o.set s = o.setNamed s := by cases s <;> first | rfl | simp [Setting.isHeartbeatTimeout] at hs
    show (o.set s).sets l = _
    rw [this]
    exact ih _ (fun s hs => h s (.tail _ hs))

/-- C54 fails: no chain of builder calls ever changes the heartbeat timeout, and `heartbeat_timeout` changes the handshake
timeout instead. -/
theorem C54_heartbeat_timeout_violated (o : NodeOptions) (l : List Setting) (d : Nat) :
    (o.sets l).heartbeatTimeout = o.heartbeatTimeout ∧ (o.sets (l ++ [.heartbeatTimeout d])).handshakeTimeout = d := by
  constructor
  · induction l generalizing o with
    | nil => rfl
    | cons s l ih =>
      show ((o.set s).sets l).heartbeatTimeout = _
      rw [ih]; cases s <;> rfl
  · simp [NodeOptions.sets, List.foldl_append, NodeOptions.set]

example : (NodeOptions.new.sets [.handshakeTimeout 7, .heartbeatTimeout 60]).handshakeTimeout = 60 ∧
    (NodeOptions.new.sets [.handshakeTimeout 7, .heartbeatTimeout 60]).heartbeatTimeout = 45 := ⟨rfl, rfl⟩

/-! ## C80 -/

/-- C80 holds with the destination on the left side, and for pids and names on both. -/
theorem C80_comparisons_partial (d : Dest) (p : Pid) (r : Ref) (s : String) :
    (destEqPid d p = true ↔ d = .pid p) ∧ (pidEqDest p d = true ↔ d = .pid p) ∧
    (destEqStr d s = true ↔ ∃ n, d = .named s n) ∧ (strEqDest s d = true ↔ ∃ n, d = .named s n) ∧
    (destEqRef d r = true ↔ d = .alias r) := by
  refine ⟨?_, ?_, ?_, ?_, ?_⟩ <;> cases d <;> simp [destEqPid, pidEqDest, destEqStr, strEqDest, destEqRef, eq_comm]

/-- C80 fails: comparing a reference with an alias destination never answers, with whatever stack; it only answers (correctly)
for other destinations. -/
theorem C80_reference_violated (r q : Ref) :
    (∀ n, refEqDest n r (.alias q) = none) ∧
    (∀ n d, (∀ q, d ≠ .alias q) → refEqDest (n + 1) r d = some false) := by
  constructor
  · intro n
    induction n generalizing r with
    | zero => rfl
    | succ n ih => exact ih q
  · intro n d h
    cases d with
    | alias q => exact absurd rfl (h q)
    | _ => rfl

/-! ## C79 -/

variable {E R : Type}

/-- The outcome of a task does not change once it has ended. -/
def Settled (st : Outcomes E R) : Prop := ∀ t t' i x, t ≤ t' → st t i = some x → st t' i = some x

/-- Task `i` has the outcome `x`, at whatever time. -/
def Outcome (st : Outcomes E R) (i : Nat) (x : Except E R) : Prop := ∃ t, st t i = some x

theorem outcome_unique {st : Outcomes E R} (hs : Settled st) {i : Nat} {x y : Except E R} (hx : Outcome st i x) (hy : Outcome st i y) : x = y := by
  obtain ⟨t, hx⟩ := hx
  obtain ⟨t', hy⟩ := hy
  have h1 := hs t (max t t') i x (Nat.le_max_left ..) hx
  have h2 := hs t' (max t t') i y (Nat.le_max_right ..) hy
  rw [h1] at h2; cases h2; rfl

/-- The tasks `is` ended well, with the results `xs`, in this order. -/
inductive AllOk (st : Outcomes E R) : List Nat → List R → Prop
  | nil : AllOk st [] []
  | cons {i is x xs} : Outcome st i (.ok x) → AllOk st is xs → AllOk st (i :: is) (x :: xs)

theorem awaits_inv {st : Outcomes E R} {t t' : Nat} {is : List Nat} {acc : List R} {r : Except E (List R)} (h : Awaits st t is acc t' r) :
    (∀ xs, r = .ok xs → ∃ ys, xs = acc ++ ys ∧ AllOk st is ys) ∧
    (∀ e, r = .error e → ∃ pre i post ys, is = pre ++ i :: post ∧ AllOk st pre ys ∧ Outcome st i (.error e)) := by
  induction h with
  | done t acc => exact ⟨fun xs h => by cases h; exact ⟨[], by simp, .nil⟩, fun e h => by cases h⟩
  | push _ hx _ ih =>
    obtain ⟨ih1, ih2⟩ := ih
    refine ⟨?_, ?_⟩
    · intro xs h
      obtain ⟨ys, rfl, h2⟩ := ih1 xs h
      exact ⟨_ :: ys, by simp, .cons ⟨_, hx⟩ h2⟩
    · intro e h
      obtain ⟨pre, i, post, ys, rfl, h2, h3⟩ := ih2 e h
      exact ⟨_ :: pre, i, post, _ :: ys, rfl, .cons ⟨_, hx⟩ h2, h3⟩
  | fail _ hx => exact ⟨fun xs h => (by cases h), fun e h => by cases h; exact ⟨[], _, _, [], rfl, .nil, ⟨_, hx⟩⟩⟩

/-- **C79**, for success: whatever order and times the tasks end in, `await_many` returns results only if every task ended well, and then
they are the results of the tasks, one for each, in the order of the tasks. For failure, the error is that of the first task in
the order of the list that failed; the documentation says "the first error that occurs". -/
theorem C79_in_order_partial (st : Outcomes E R) (t t' : Nat) (is : List Nat) (r : Except E (List R)) (h : Awaits st t is [] t' r) :
    (∀ xs, r = .ok xs → xs.length = is.length ∧ AllOk st is xs) ∧
    (∀ e, r = .error e → ∃ pre i post ys, is = pre ++ i :: post ∧ AllOk st pre ys ∧ Outcome st i (.error e)) := by
  obtain ⟨h1, h2⟩ := awaits_inv h
  refine ⟨?_, h2⟩
  intro xs hx
  obtain ⟨ys, hy, h3⟩ := h1 xs hx
  rw [List.nil_append] at hy
  subst hy
  refine ⟨?_, h3⟩
  clear h h1 h2 hx
  induction h3 with
  | nil => rfl
  | cons _ _ ih => simp [ih]

theorem awaits_from (st : Outcomes E R) (is : List Nat) (xs acc : List R) (hs : Settled st) (h : AllOk st is xs) (t : Nat) :
    ∃ t', Awaits st t is acc t' (.ok (acc ++ xs)) := by
  induction h generalizing t acc with
  | nil => exact ⟨t, by simpa using Awaits.done t acc⟩
  | @cons i is x xs hx _ ih =>
    obtain ⟨t0, hx⟩ := hx
    obtain ⟨t', h'⟩ := ih (acc ++ [x]) (max t t0)
    refine ⟨t', .push (Nat.le_max_left ..) (hs _ _ _ _ (Nat.le_max_right ..) hx) (by simpa using h')⟩

/-- **C79**, completeness: if all tasks end well, whenever that is, `await_many` returns their results. -/
theorem C79_returns (st : Outcomes E R) (hs : Settled st) (t : Nat) (is : List Nat) (xs : List R) (h : AllOk st is xs) :
    (∃ t', Awaits st t is [] t' (.ok xs)) ∧ ∀ t' r, Awaits st t is [] t' r → r = .ok xs := by
  refine ⟨by simpa using awaits_from st is xs [] hs h t, ?_⟩
  have uniq : ∀ {is : List Nat} {xs ys : List R}, AllOk st is xs → AllOk st is ys → xs = ys := by
    intro is xs ys h1 h2
    induction h1 generalizing ys with
    | nil => cases h2; rfl
    | cons hx _ ih =>
      cases h2 with
      | cons hy h2 => rw [ih h2]; have := outcome_unique hs hx hy; cases this; rfl
  intro t' r hr
  cases r with
  | ok ys => rw [uniq ((C79_in_order_partial st t t' is _ hr).1 ys rfl).2 h]
  | error e =>
    obtain ⟨pre, i, post, ys, rfl, h1, h2⟩ := (C79_in_order_partial st t t' is _ hr).2 e rfl
    exfalso
    clear hr
    clear uniq
    revert xs ys
    induction pre with
    | nil => intro xs ys h _; cases h with | cons hx _ => have := outcome_unique hs hx h2; cases this
    | cons j pre ih => intro xs ys h h1; cases h1 with | cons _ h1 => cases h with | cons _ h => exact ih _ _ h h1

/-- C79 fails for errors: an error is not returned when it occurs, nor is the first error that occurs the one returned. Task 1 fails
at time 1, task 0 fails later (or never ends): `await_many` returns the error of task 0 (or never returns). -/
theorem C79_first_error_violated :
    (∃ st : Outcomes String Nat, Settled st ∧ st 1 1 = some (.error "first") ∧ st 1 0 = none ∧
      ∀ t' r, Awaits st 0 [0, 1] [] t' r → r = .error "second") ∧
    (∃ st : Outcomes String Nat, Settled st ∧ st 1 1 = some (.error "first") ∧ ∀ t' r, ¬ Awaits st 0 [0, 1] [] t' r) := by
  constructor
  · refine ⟨fun t i => if i = 1 then (if 1 ≤ t then some (.error "first") else none) else
        (if 5 ≤ t then some (.error "second") else none), ?_, rfl, rfl, ?_⟩
    · intro t t' i x htt h
      dsimp only at h ⊢
      split at h
      · rename_i hi
        split at h
        · rw [if_pos hi, if_pos (by omega)]; exact h
        · cases h
      · rename_i hi
        split at h
        · rw [if_neg hi, if_pos (by omega)]; exact h
        · cases h
    · intro t' r h
      cases h with
      | push _ hx _ => simp at hx
      | fail _ hx => simp at hx; rw [hx.2]
  · refine ⟨fun t i => if i = 1 then (if 1 ≤ t then some (.error "first") else none) else none, ?_, rfl, ?_⟩
    · intro t t' i x htt h
      dsimp only at h ⊢
      split at h
      · rename_i hi
        split at h
        · rw [if_pos hi, if_pos (by omega)]; exact h
        · cases h
      · cases h
    · intro t' r h
      cases h with
      | push _ hx _ => simp at hx
      | fail _ hx => simp at hx

/-- Three tasks that end in the reverse order. -/
example : ∃ st : Outcomes String Nat, Settled st ∧ AllOk st [0, 1, 2] [10, 11, 12] ∧ st 1 2 ≠ none ∧ st 1 0 = none := by
  refine ⟨fun t i => if 3 ≤ t + i then some (.ok (10 + i)) else none, ?_, ?_, by simp, rfl⟩
  · intro t t' i x htt h
    dsimp only at h ⊢
    split at h
    · rw [if_pos (by omega)]; exact h
    · cases h
  · exact .cons ⟨3, rfl⟩ (.cons ⟨3, rfl⟩ (.cons ⟨3, rfl⟩ .nil))

end Verif.Misc
