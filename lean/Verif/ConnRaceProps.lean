import Verif.ConnRace
import Verif.RaceProps
/-!
# C110: no watch on a remote process is lost to a race with the connection
-/
namespace Verif.Race.Conn

/-- The frames that wait for the connection, or that its sender was given. -/
def queue (s : St) : List Frame :=
  match s.sender with
  | some c => s.box c
  | none => s.pending

/-- Who is being told because the connection was lost. -/
def telling (s : St) : List Nat :=
  match s.lock with
  | .telling l => l
  | _ => []

/-- Where a watcher is: in the table, in a list of those that are being told, or told. Exactly one of these, once the entry is made. -/
def places (s : St) (i : Nat) : Nat := s.table.count i + (telling s).count i + s.carrying.count i + s.notices i

structure Inv (s : St) : Prop where
  once : ∀ i, places s i = if s.pc i = .idle then 0 else 1
  known : s.sup = none ↔ s.state = .known
  pend : s.state = .pending → s.sender = none
  send : ∀ c, s.sender = some c → s.sup = some c ∧ (s.phase c = .up ∨ s.phase c = .over)
  acc : ∀ c, s.phase c = .accepted → s.sup = some c ∧ s.state = .connected ∧ s.sender = none
  busy : s.lock ≠ .free → s.sup = none
  noconn : s.sup = none → s.lock ≠ .down → ∀ i ∈ s.table, s.pc i = .created
  handed : ∀ i ∈ s.table, s.pc i = .done → s.sup ≠ none → .watch i ∈ queue s
  empty : s.lock = .free → s.sup = none → s.pending = []
  fresh : ∀ c, s.phase c = .unborn ∨ s.phase c = .attempt ∨ s.phase c = .accepted → s.box c = []
  live : ∀ c, s.sup = some c → s.phase c ≠ .unborn ∧ s.phase c ≠ .cleaned
  unborn : ∀ c, s.next ≤ c → s.phase c = .unborn

theorem inv_start : Inv start := by
  constructor <;> simp [start, places, telling, queue]

theorem Inv.nosender {s : St} (h : Inv s) (hs : s.sup = none) : s.sender = none := by
  cases hc : s.sender with
  | none => rfl
  | some c => have := h.send c hc; simp_all

theorem inv_register {s : St} (h : Inv s) (hl : s.lock = .free) : Inv (register s) := by
  simp only [register]; split
  · rename_i hs
    have h2 := h.nosender hs
    constructor
    · exact fun j => h.once j
    all_goals cases h; simp_all [setPhase, queue]
    all_goals grind
  · exact h

theorem inv_send {s : St} (h : Inv s) (hl : s.lock = .free) (f : Frame) : Inv (sendFrame s f) := by
  have hn := h.nosender
  simp only [sendFrame]; split
  · rename_i c hc
    constructor
    · exact fun j => h.once j
    all_goals have h' := h; cases h'; simp_all [queue]
    all_goals grind
  · split
    · exact h
    · constructor
      · exact fun j => h.once j
      all_goals have h' := h; cases h'; simp_all [queue]
      all_goals grind

set_option maxHeartbeats 1000000 in
theorem inv_step (s : St) (a : Act) (h : Inv s) : Inv (step s a) := by
  have hn := h.nosender
  cases a with
  | create i =>
    simp only [step]; split
    · rename_i hi
      constructor
      · intro j; have := h.once j
        simp only [places, telling, setPc] at *
        rw [List.count_append]
        by_cases hj : j = i
        · subst hj; simp_all
        · have hij : ¬ i = j := fun e => hj e.symm
          simp [hj, hij] at *; omega
      all_goals have h' := h; cases h'; simp_all [setPc, queue]
      all_goals grind
    · exact h
  | register i =>
    simp only [step]; split
    · rename_i hi
      obtain ⟨hl, hi⟩ := hi
      have h0 : Inv (register s) := inv_register h hl
      have h1 : register (setPc s i .registered) = setPc (register s) i .registered := by
        by_cases hs : s.sup = none <;> simp [register, setPc, setPhase, hs]
      have h2 : (register s).pc i = .created := by simp only [register]; split <;> simpa [setPhase] using hi
      have h3 : (register s).sup ≠ none := by simp only [register]; split <;> simp_all
      rw [h1]
      have h4 := h0.nosender
      constructor
      · intro j; have := h0.once j
        simp only [places, telling, setPc] at *
        grind
      all_goals have h' := h0; cases h'; simp_all [setPc, queue]
      all_goals grind
    · exact h
  | send i =>
    simp only [step]; split
    · rename_i hi
      obtain ⟨hl, hi⟩ := hi
      have h0 : Inv (sendFrame s (.watch i)) := inv_send h hl _
      have h1 : sendFrame (setPc s i .done) (.watch i) = setPc (sendFrame s (.watch i)) i .done := by
        cases hs : s.sender <;> simp [sendFrame, setPc, hs]
        split <;> simp [hs]
      have h2 : (sendFrame s (.watch i)).pc i = .registered := by
        cases hs : s.sender <;> simp [sendFrame, hs, hi]
        split <;> simp [hi]
      have h3 : (sendFrame s (.watch i)).sup ≠ none → .watch i ∈ queue (sendFrame s (.watch i)) := by
        have := h.known
        cases hs : s.sender <;> simp [sendFrame, hs, queue]
        split <;> simp_all
      rw [h1]
      have h4 := h0.nosender
      generalize sendFrame s (.watch i) = t at *
      have hq : queue (setPc t i .done) = queue t := rfl
      constructor
      · intro j; have := h0.once j
        simp only [places, telling, setPc] at *
        grind
      all_goals have h' := h0; cases h'; simp_all [setPc]
      all_goals grind
    · exact h
  | emit k => simp only [step]; split <;> first | exact h | exact inv_send h ‹_› _
  | connect => simp only [step]; split <;> first | exact h | exact inv_register h ‹_›
  | incoming =>
    simp only [step]
    have hu := h.unborn s.next (Nat.le_refl _)
    constructor
    · exact fun j => h.once j
    all_goals have h' := h; cases h'; simp_all [setPhase, queue]
    all_goals grind
  | accept c =>
    simp only [step]; split
    · rename_i hi
      obtain ⟨hl, hi⟩ := hi
      simp only [accept]; split
      · rename_i hp
        constructor
        · exact fun j => h.once j
        all_goals have h' := h; cases h'; simp_all [setPhase, queue]
        all_goals grind
      · rename_i hp
        constructor
        · exact fun j => h.once j
        all_goals have h' := h; cases h'; simp_all [setPhase, queue]
        all_goals grind
    · exact h
  | workers c =>
    simp only [step]; split
    · rename_i hi
      obtain ⟨hl, hi⟩ := hi
      constructor
      · exact fun j => h.once j
      all_goals have h' := h; cases h'; simp_all [setPhase, queue]
      all_goals grind
    · exact h
  | die c =>
    simp only [step]; split
    · rename_i hi
      constructor
      · exact fun j => h.once j
      all_goals have h' := h; cases h'; simp_all [setPhase, queue]
      all_goals grind
    · exact h
  | down c =>
    simp only [step]; split
    · rename_i hi
      obtain ⟨hl, hi⟩ := hi
      split
      · rename_i hp
        constructor
        · intro j; have := h.once j; simp only [places, telling, setPhase] at *; rw [hl] at this; exact this
        all_goals have h' := h; cases h'; simp_all [setPhase, queue]
        all_goals grind
      · rename_i hp
        constructor
        · exact fun j => h.once j
        all_goals have h' := h; cases h'; simp_all [setPhase, queue]
        all_goals grind
    · exact h
  | take =>
    simp only [step]; split
    · rename_i hl
      constructor
      · intro j; have := h.once j; simp only [places, telling] at *; simp_all
      all_goals have h' := h; cases h'; simp_all [queue]
    · exact h
  | tell =>
    simp only [step]; split
    · rename_i i l hl
      constructor
      · intro j; have := h.once j; simp only [places, telling, notify] at *; simp [hl, List.count_cons] at *; grind
      all_goals have h' := h; cases h'; simp_all [queue, notify]
    · exact h
  | release =>
    simp only [step]; split
    · rename_i hl
      constructor
      · intro j; have := h.once j; simp only [places, telling] at *; simpa [hl] using this
      all_goals have h' := h; cases h'; simp_all [queue]
    · exact h
  | news i =>
    simp only [step]; split
    · rename_i hi
      constructor
      · intro j; have := h.once j
        simp only [places, telling] at *
        rw [List.count_append, List.count_erase]
        have : i ∈ s.table → 0 < s.table.count i := List.count_pos_iff.2
        grind
      all_goals have h' := h; cases h'; simp_all [queue]
      all_goals grind [List.mem_of_mem_erase]
    · exact h
  | deliver i =>
    simp only [step]; split
    · rename_i hi
      constructor
      · intro j; have := h.once j
        simp only [places, telling, notify] at *
        rw [List.count_erase]
        have : i ∈ s.carrying → 0 < s.carrying.count i := List.count_pos_iff.2
        grind
      · exact h.known
      · exact h.pend
      · exact h.send
      · exact h.acc
      · exact h.busy
      · exact h.noconn
      · exact h.handed
      · exact h.empty
      · exact h.fresh
      · exact h.live
      · exact h.unborn
    · exact h

theorem inv_runs (l : List Act) : Inv (runs step start l) := runs_inv inv_step inv_start l

/-! ## Specification -/

/-- Somebody is on the way to tell watcher `i`: the clean-up after a loss, or the receiver of a notice of the remote node. -/
def BeingTold (s : St) (i : Nat) : Prop := i ∈ telling s ∨ i ∈ s.carrying ∨ (s.lock = .down ∧ i ∈ s.table)

/-- The watch is set up: its entry is there, so that it is told of a loss; a connection (or an attempt) `c` is registered whose end has not been dealt with;
and the request was handed to that connection, or waits for it. -/
def Watching (s : St) (i : Nat) : Prop :=
  i ∈ s.table ∧ ∃ c, s.sup = some c ∧ s.phase c ≠ .unborn ∧ s.phase c ≠ .cleaned ∧
    (s.sender = some c ∧ .watch i ∈ s.box c ∨ s.sender = none ∧ .watch i ∈ s.pending)

/-- The frame that an action gives to the connection. -/
def frameOf (s : St) : Act → List Frame
  | .send i => if s.lock = .free ∧ s.pc i = .registered then [.watch i] else []
  | .emit k => if s.lock = .free then [.other k] else []
  | _ => []

/-- The frames that a schedule gives to the connection. -/
def framesOf (s : St) : List Act → List Frame
  | [] => []
  | a :: l => frameOf s a ++ framesOf (step s a) l

/-- Actions that do not deal with the loss of the registered connection. -/
def keeps (s : St) : Act → Prop
  | .down c => s.sup ≠ none ∧ s.sup ≠ some c
  | _ => True

/-- No connection is lost during the schedule. -/
def Keeps (s : St) : List Act → Prop
  | [] => True
  | a :: l => keeps s a ∧ Keeps (step s a) l

/-! ## Theorems -/

/-- C110. However the steps of any number of `monitor` (`link`) calls and of the connection are interleaved, nobody is told twice. -/
theorem C110_at_most_one (l : List Act) (i : Nat) : (runs step start l).notices i ≤ 1 := by
  have h := (inv_runs l).once i
  simp only [places] at h
  split at h <;> omega

/-- C110. After the call has returned, in every schedule: the watcher was told once, or somebody is about to tell it, or the watch is set up. -/
theorem C110_no_watch_lost (l : List Act) (i : Nat) :
    let s := runs step start l
    s.pc i = .done → s.notices i = 1 ∨ (s.notices i = 0 ∧ (BeingTold s i ∨ Watching s i)) := by
  intro s hd
  have h : Inv s := inv_runs l
  have ho := h.once i
  simp only [places, hd, reduceCtorEq, ↓reduceIte] at ho
  by_cases h1 : s.notices i = 1
  · exact .inl h1
  refine .inr ⟨by omega, ?_⟩
  by_cases h2 : i ∈ telling s
  · exact .inl (.inl h2)
  by_cases h3 : i ∈ s.carrying
  · exact .inl (.inr (.inl h3))
  rw [List.count_eq_zero.2 h2, List.count_eq_zero.2 h3] at ho
  have h4 : i ∈ s.table := List.count_pos_iff.1 (by omega)
  by_cases h5 : s.lock = .down
  · exact .inl (.inr (.inr ⟨h5, h4⟩))
  right
  cases hs : s.sup with
  | none => have := h.noconn hs h5 i h4; simp [hd] at this
  | some c =>
    refine ⟨h4, c, hs, (h.live c hs).1, (h.live c hs).2, ?_⟩
    have hq := h.handed i h4 hd (by simp [hs])
    cases hx : s.sender with
    | none => exact .inr ⟨rfl, by simpa [queue, hx] using hq⟩
    | some c' =>
      have := (h.send c' hx).1
      rw [hs] at this; cases this
      exact .inl ⟨rfl, by simpa [queue, hx] using hq⟩

theorem tell_all (l : List Nat) (s : St) (hl : s.lock = .telling l) (i : Nat) (hi : i ∈ l) :
    ∃ as : List Act, (∀ a ∈ as, a = .tell) ∧ 0 < (runs step s as).notices i := by
  induction l generalizing s with
  | nil => simp at hi
  | cons j l ih =>
    have h1 : step s .tell = notify { s with lock := .telling l } j := by simp [step, hl]
    by_cases hj : i = j
    · refine ⟨[.tell], by simp, ?_⟩
      show 0 < (step s .tell).notices i
      rw [h1]; simp [notify, hj]
    · obtain ⟨as, h2, h3⟩ := ih (step s .tell) (by rw [h1]; rfl) (by simpa [hj] using hi)
      exact ⟨.tell :: as, by simpa using h2, h3⟩

/-- C110. Whoever is about to be told will be: the thread that is to tell it can go on, and nobody else has to do anything. -/
theorem C110_told_in_the_end (l : List Act) (i : Nat) (hb : BeingTold (runs step start l) i) :
    ∃ as : List Act, (∀ a ∈ as, a = .take ∨ a = .tell ∨ a = .deliver i) ∧ (runs step start (l ++ as)).notices i = 1 := by
  have fin : ∀ as : List Act, 0 < (runs step (runs step start l) as).notices i → (runs step start (l ++ as)).notices i = 1 := by
    intro as h
    rw [← runs_append] at h
    have := C110_at_most_one (l ++ as) i
    omega
  rcases hb with h | h | ⟨h, h'⟩
  · have hl : (runs step start l).lock = .telling (telling (runs step start l)) := by
      unfold telling at h ⊢
      split at h <;> simp_all
    obtain ⟨as, h1, h2⟩ := tell_all _ _ hl i h
    exact ⟨as, fun a ha => .inr (.inl (h1 a ha)), fin as h2⟩
  · refine ⟨[.deliver i], by simp, fin _ ?_⟩
    show 0 < (step (runs step start l) (.deliver i)).notices i
    simp [step, h, notify]
  · have hl : (step (runs step start l) .take).lock = .telling (runs step start l).table := by simp [step, h]
    obtain ⟨as, h1, h2⟩ := tell_all _ _ hl i h'
    refine ⟨.take :: as, ?_, fin _ h2⟩
    intro a ha
    rcases List.mem_cons.1 ha with rfl | ha
    · exact .inl rfl
    · exact .inr (.inl (h1 a ha))

theorem outside_step (s : St) (a : Act) (i : Nat) (h : s.pc i ≠ .idle ∧ (s.lock = .down ∨ i ∉ s.table)) :
    (step s a).pc i ≠ .idle ∧ ((step s a).lock = .down ∨ i ∉ (step s a).table) := by
  obtain ⟨h1, h2⟩ := h
  cases a <;> simp only [step, register, accept, sendFrame, setPc, setPhase, notify]
  all_goals repeat' split
  all_goals simp_all
  all_goals grind [List.mem_of_mem_erase]

/-- C110. The loss of the registered connection: once its clean-up is over, everybody who had made an entry before it began was told (if not by the clean-up,
then by a notice of the remote node, and that may still be being passed on). -/
theorem C110_loss_is_told (l l' : List Act) (i c : Nat) :
    let s := runs step start l
    let s' := runs step s (.down c :: l')
    s.pc i ≠ .idle → s.lock = .free → s.sup = some c → s.phase c = .over → s'.lock = .free → s'.notices i = 1 ∨ i ∈ s'.carrying := by
  intro s s' hp hl hs hc hl'
  have h0 : (step s (.down c)).pc i ≠ .idle ∧ ((step s (.down c)).lock = .down ∨ i ∉ (step s (.down c)).table) := by
    simp [step, hl, hc, hs, setPhase, hp]
  have h1 : s'.pc i ≠ .idle ∧ (s'.lock = .down ∨ i ∉ s'.table) :=
    runs_inv (P := fun s => s.pc i ≠ .idle ∧ (s.lock = .down ∨ i ∉ s.table)) (fun s a h => outside_step s a i h) h0 l'
  have h2 : Inv s' := by
    have : s' = runs step start (l ++ .down c :: l') := (runs_append ..).symm
    rw [this]; exact inv_runs _
  have h3 := h2.once i
  have h4 : i ∉ s'.table := by simpa [hl'] using h1.2
  simp only [places, telling, hl', h1.1, ↓reduceIte, List.count_eq_zero.2 h4, List.count_nil] at h3
  by_cases hx : i ∈ s'.carrying
  · exact .inr hx
  · rw [List.count_eq_zero.2 hx] at h3; exact .inl (by omega)

theorem queue_step {s : St} (h : Inv s) (hl : s.lock = .free) (hs : s.sup ≠ none) (a : Act) (hk : keeps s a) :
    queue (step s a) = queue s ++ frameOf s a ∧ (step s a).lock = .free ∧ (step s a).sup ≠ none := by
  have hkn : s.state ≠ .known := fun e => hs (h.known.2 e)
  cases a with
  | workers c =>
    simp only [step, frameOf]; split
    · rename_i hc
      obtain ⟨h1, h2, h3⟩ := h.acc c hc.2
      have h4 := h.fresh c (.inr (.inr hc.2))
      simp [queue, h3, h4, setPhase, hl, hs]
    · simp [hl, hs]
  | accept c =>
    simp only [step, frameOf]; split
    · simp only [accept]; split <;> simp [queue, setPhase, hl, hs]
    · simp [hl, hs]
  | down c =>
    simp only [step, frameOf, keeps] at *; split
    · rw [if_neg (by rintro (e | e) <;> simp_all)]; simp [queue, setPhase, hl, hs]
    · simp [hl, hs]
  | send i =>
    simp only [step, frameOf]; split
    · cases hx : s.sender <;> simp [sendFrame, setPc, hx, queue, hkn, hl, hs]
    · simp [hl, hs]
  | emit k =>
    simp only [step, frameOf, hl, ↓reduceIte]
    cases hx : s.sender <;> simp [sendFrame, hx, queue, hkn, hl, hs]
  | register i =>
    simp only [step, frameOf]; split
    · simp [register, setPc, hs, queue, hl]
    · simp [hl, hs]
  | connect => simp [step, frameOf, register, hs, hl]
  | create i => simp only [step, frameOf]; split <;> simp [queue, setPc, hl, hs]
  | incoming => simp [step, frameOf, queue, setPhase, hl, hs]
  | die c => simp only [step, frameOf]; split <;> simp [queue, setPhase, hl, hs]
  | take => simp [step, frameOf, hl, hs]
  | tell => simp [step, frameOf, hl, hs]
  | release => simp [step, frameOf, hl, hs]
  | news i => simp only [step, frameOf]; split <;> simp [queue, hl, hs]
  | deliver i => simp only [step, frameOf]; split <;> simp [queue, notify, hl, hs]

theorem queue_runs (l' : List Act) {s : St} (h : Inv s) (hl : s.lock = .free) (hs : s.sup ≠ none) (hk : Keeps s l') :
    queue (runs step s l') = queue s ++ framesOf s l' := by
  induction l' generalizing s with
  | nil => simp [runs, framesOf]
  | cons a l' ih =>
    obtain ⟨h1, h2, h3⟩ := queue_step h hl hs a hk.1
    have := ih (inv_step s a h) h2 h3 hk.2
    show queue (runs step (step s a) l') = _
    rw [this, h1, List.append_assoc]; rfl

/-- C110. As long as the connection is not lost, the frames are handed to it in the order of the calls of all threads, those first that waited for it, and none is lost
or duplicated, whether or not the connection comes up meanwhile, or is replaced by one from the other side. -/
theorem C110_frames_in_order (l l' : List Act) :
    let s := runs step start l
    s.lock = .free → s.sup ≠ none → Keeps s l' → queue (runs step s l') = queue s ++ framesOf s l' :=
  fun hl hs hk => queue_runs l' (inv_runs l) hl hs hk

/-- C110. What was meant for a lost connection is not given to the next one: while there is no connection nothing waits. -/
theorem C110_nothing_left_over (l : List Act) :
    let s := runs step start l
    s.lock = .free → s.sup = none → queue s = [] := by
  intro s hl hs
  have h : Inv s := inv_runs l
  simp [queue, h.nosender hs, h.empty hl hs]

/-! ## Examples -/

/-- The loss of a connection for which frames were waiting. -/
example : let s := runs step start [.connect, .emit 1, .die 0, .down 0, .take, .release]
    s.lock = .free ∧ s.sup = none := by decide


/-- Two watchers; the connection is lost between two steps of the first one, while the second one begins; the first one is told, the second one gets a new
connection, over which its request goes first. -/
example :
    let s := runs step start [.connect, .accept 0, .create 0, .workers 0, .register 0, .die 0, .down 0, .take, .create 1, .tell, .release, .send 0, .register 1,
      .emit 7, .send 1, .accept 1, .workers 1]
    s.notices 0 = 1 ∧ s.notices 1 = 0 ∧ Watching s 1 ∧ s.sender = some 1 ∧ queue s = [.other 7, .watch 1] := by
  refine ⟨rfl, rfl, ⟨by decide, 1, rfl, by decide, by decide, .inl ⟨rfl, by decide⟩⟩, rfl, rfl⟩

/-- A connection that is lost while a watcher has made its entry only. -/
example : let s := runs step start [.connect, .create 0, .die 0]
    s.pc 0 ≠ .idle ∧ s.lock = .free ∧ s.sup = some 0 ∧ s.phase 0 = .over ∧ (runs step s (.down 0 :: [.take, .tell, .release, .register 0, .send 0])).lock = .free ∧
    (runs step s (.down 0 :: [.take, .tell, .release, .register 0, .send 0])).notices 0 = 1 := by decide

/-- A notice of the remote node is being passed on. -/
example : BeingTold (runs step start [.create 0, .register 0, .send 0, .accept 0, .workers 0, .news 0]) 0 := by
  right; left; decide

/-- The connector is replaced by a connection from the other side while frames wait. -/
example : Keeps (runs step start [.connect]) [.emit 1, .incoming, .accept 1, .emit 2, .die 0, .down 0, .workers 1, .emit 3] ∧
    queue (runs step start ([.connect] ++ [.emit 1, .incoming, .accept 1, .emit 2, .die 0, .down 0, .workers 1, .emit 3])) = [.other 1, .other 2, .other 3] := by
  refine ⟨?_, rfl⟩
  simp only [Keeps, keeps, true_and, and_true]
  decide

end Verif.Race.Conn
