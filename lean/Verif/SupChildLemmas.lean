import Verif.SupProcProps
import Verif.SupervisorRunProps
/-!
# Lemmas for C113 and C114: what a supervisor process shuts down is dead
-/
namespace Verif.Sup
open Verif.World Verif.Mailbox
variable {B V : Type}

/-! ## Whom a supervisor shuts down -/

/-- Whatever the log says was shut down was started before. -/
def Sound (log : List Eff) : Prop := ∀ a p how b, log = a ++ .stop p how :: b → ∃ id, .start id (.ok p) ∈ a

theorem sound_nil : Sound [] := by intro a p how b h; simp at h

theorem sound_append {L L2 : List Eff} (h : Sound L) (h2 : ∀ p how, .stop p how ∈ L2 → ∃ id, .start id (.ok p) ∈ L) : Sound (L ++ L2) := by
  intro a p how b he
  rcases List.append_eq_append_iff.1 he with ⟨x, rfl, hx⟩ | ⟨x, rfl, hx⟩
  · obtain ⟨id, hid⟩ := h2 p how (by rw [hx]; simp)
    exact ⟨id, by simp [hid]⟩
  · cases x with
    | nil =>
      simp only [List.nil_append] at hx
      simp only [List.append_nil] at *
      obtain ⟨id, hid⟩ := h2 p how (by rw [← hx]; simp)
      exact ⟨id, hid⟩
    | cons y x =>
      simp only [List.cons_append, List.cons.injEq] at hx
      obtain ⟨rfl, rfl⟩ := hx
      exact h a p how x rfl

theorem sound_left {L L2 : List Eff} (h : Sound (L ++ L2)) : Sound L := by
  intro a p how b he
  exact h a p how (b ++ L2) (by rw [he]; simp)

theorem mem_stops {l : List Child} {p : Pid} {how : Shutdown} (h : .stop p how ∈ stops l) : ∃ d ∈ l, d.pid = some p ∧ how = howTo d.spec := by
  simp only [stops, List.mem_filterMap] at h
  obtain ⟨d, hd, he⟩ := h
  cases hp : d.pid with
  | none => simp [hp] at he
  | some q =>
    simp only [hp, Option.map_some, Option.some.injEq, Eff.stop.injEq] at he
    exact ⟨d, hd, by rw [hp, he.1], he.2.symm⟩

theorem spawn_stops (o : Oracle) (M : List Child) : ∀ k n p how, .stop p how ∉ (spawn o k n M).2.1 := by
  induction M with
  | nil => intro k n p how h; simp [spawn] at h
  | cons c M ih =>
    intro k n p how h
    simp only [spawn] at h
    split at h
    · rcases List.mem_cons.1 h with h | h
      · simp at h
      · exact ih _ _ _ _ h
    · rcases List.mem_cons.1 h with h | h
      · simp at h
      · exact ih _ _ _ _ h
    · simp at h

theorem zone_stops {st : Strategy} {pre post A M Z : List Child} {c : Child} {fx : List Eff} (hz : zone st pre c post = (A, M, Z, fx))
    {p : Pid} {how : Shutdown} (h : .stop p how ∈ fx) : ∃ d ∈ pre ++ c :: post, d.pid = some p := by
  cases st with
  | oneForOne =>
    simp only [zone, Prod.mk.injEq] at hz
    obtain ⟨-, -, -, rfl⟩ := hz
    simp at h
  | restForOne =>
    simp only [zone, Prod.mk.injEq] at hz
    obtain ⟨-, -, -, rfl⟩ := hz
    obtain ⟨d, hd, hp, -⟩ := mem_stops h
    exact ⟨d, by simp [hd], hp⟩
  | oneForAll =>
    simp only [zone, Prod.mk.injEq] at hz
    obtain ⟨-, -, -, rfl⟩ := hz
    rcases List.mem_append.1 h with h | h <;> obtain ⟨d, hd, hp, -⟩ := mem_stops h <;> exact ⟨d, by simp [hd], hp⟩

theorem move_sound {o : Oracle} {s s' : Sup} {e : Event} {X : List Pid} (ht : Tracked s X) (hm : Move o s e s') (h : Sound s.log) : Sound s'.log := by
  cases hm with
  | idle hc hi hl hk => rw [hl]; exact h
  | drop pre c post p r he hc' hp hw hc hi hl hk => rw [hl]; exact h
  | del pre c post id he hid hc' hp hr hc hi hl hk => rw [hl]; exact h
  | new c he hst hn hi hl hk hc => rw [hl]; exact sound_append h (by intro p how hm; simp at hm)
  | rest pre c post id he hid hc' hp hr hc hi hl hk => rw [hl]; exact sound_append h (by intro p how hm; simp at hm)
  | term pre c post id he hid hc' hc hi hl hk =>
    rw [hl]
    refine sound_append h ?_
    intro p how hm
    obtain ⟨d, hd, hp, -⟩ := mem_stops hm
    simp only [List.mem_singleton] at hd
    subst hd
    exact ht.origin d (by simp [hc']) p hp
  | again pre c post A M Z fx hc' hz why hc hi hl hk =>
    rw [hl, List.append_assoc]
    refine sound_append h ?_
    intro p how hm
    rcases List.mem_append.1 hm with hm | hm
    · obtain ⟨d, hd, hp⟩ := zone_stops hz hm
      exact ht.origin d (by rw [hc']; exact hd) p hp
    · exact absurd hm (spawn_stops _ _ _ _ _ _)

theorem terminate_sound {s s' : Sup} {X : List Pid} (ht : Tracked s X) (h : terminateChildren s = some s') (hs : Sound s.log) : Sound s'.log := by
  rw [terminateChildren_eq, Option.some.injEq] at h
  have hl : s'.log = s.log ++ (stops s.children).reverse := by rw [← h]
  rw [hl]
  refine sound_append hs ?_
  intro p how hm
  obtain ⟨d, hd, hp, -⟩ := mem_stops (List.mem_reverse.1 hm)
  exact ht.origin d hd p hp

theorem boot_sound (o : Oracle) (st : Strategy) (au : AutoShutdown) (mr md : Nat) (cs : List Spec) (hs : ∀ c ∈ cs, c.hasStart = true) :
    (∀ s, boot o (fresh st au mr md cs) = .up s → Sound s.log) ∧ (∀ s r, boot o (fresh st au mr md cs) = .stopped s r → Sound s.log) := by
  have he := startChildren_eq o (fresh st au mr md cs) (by simpa [fresh] using hs)
  have hl0 : (fresh st au mr md cs).log = [] := rfl
  have base : Sound (spawn o (fresh st au mr md cs).calls 0 (fresh st au mr md cs).children).2.1 := by
    have := sound_append (L2 := (spawn o (fresh st au mr md cs).calls 0 (fresh st au mr md cs).children).2.1) sound_nil
      (fun p how hm => absurd hm (spawn_stops _ _ _ _ _ _))
    simpa using this
  have m1 := spawn_mark o (fresh st au mr md cs).children (fresh st au mr md cs).calls 0
  have hnone : ∀ m ∈ (fresh st au mr md cs).children, m.pid = none := by
    intro m hm; obtain ⟨c, -, rfl⟩ := List.mem_map.1 hm; rfl
  simp only [boot, initChildren]
  rw [he]
  cases hx : (spawn o (fresh st au mr md cs).calls 0 (fresh st au mr md cs).children).2.2 with
  | none =>
    simp only [Status.up.injEq, reduceCtorEq, false_implies, implies_true, and_true]
    rintro s rfl
    simpa [hl0] using base
  | some x =>
    simp only [terminateChildren_eq, Option.map_some, Status.stopped.injEq, reduceCtorEq, false_implies, implies_true, true_and]
    rintro s r ⟨rfl, -⟩
    simp only [hl0, List.nil_append]
    refine sound_append base ?_
    intro p how hm
    obtain ⟨d, hd, hp, -⟩ := mem_stops (List.mem_reverse.1 hm)
    obtain ⟨d', hd', hp'⟩ : ∃ d' ∈ mark 0 (spawn o (fresh st au mr md cs).calls 0 (fresh st au mr md cs).children).1
        (spawn o (fresh st au mr md cs).calls 0 (fresh st au mr md cs).children).2.2, d'.pid = some p := by
      obtain ⟨i, hi, rfl⟩ := List.mem_iff_getElem.1 hd
      obtain ⟨j, e⟩ := x
      rw [hx]
      simp only [mark]
      refine ⟨_, List.getElem_mem (n := i) (by simpa using hi), ?_⟩
      rw [List.getElem_modify]
      split <;> exact hp
    rcases m1 d' hd' with h | ⟨-, q, id, h1, h2⟩ | ⟨m, h1, h2⟩
    · rw [h] at hp'; simp at hp'
    · rw [h1] at hp'; simp only [Option.some.injEq] at hp'; subst hp'; exact ⟨id, h2⟩
    · rw [h2, hnone m h1] at hp'; simp at hp'

/-- The exits that the supervisor was told of. -/
def told (evs : List Ev) : List Pid := exits (evs.map fun e => (e.now, e.event))

theorem told_cons (e : Ev) (evs : List Ev) : told (e :: evs) = exits [(e.now, e.event)] ++ told evs := by
  simp only [told, List.map_cons, exits, List.filterMap_cons, List.filterMap_nil]
  split <;> simp

theorem tracked_casts {s : Sup} {X : List Pid} (h : Tracked s X) (cs : List String) : Tracked { s with casts := cs } X := ⟨h.listed, h.stale, h.origin⟩

theorem lives_tracked {o : Oracle} {s s' : Sup} {evs : List Ev} {q : Option ExitReason} (h : Lives o s evs s' q) : ∀ {X}, Ready s → Tracked s X →
    Sound s.log → Sound s'.log ∧ (q = none → Tracked s' (X ++ told evs)) ∧ ∀ r, q = some r → ∀ p, ¬ Alive s'.log (X ++ told evs) p := by
  induction h with
  | nil s =>
    intro X hr ht hs
    exact ⟨hs, fun _ => by simpa [told, exits] using ht, fun r h => by simp at h⟩
  | @next s cs e s1 es s2 q hret hst hl ih =>
    intro X hr ht hs
    have hm := step_move (ready_casts hr cs) hst
    have ht1 := tracked_move (tracked_casts ht cs) hm e.now
    rw [told_cons, ← List.append_assoc]
    exact ih (move_ready (ready_casts hr cs) hm) ht1 (move_sound (tracked_casts ht cs) hm hs)
  | @last s cs e s1 r hret hst =>
    intro X hr ht hs
    obtain ⟨s2, hm, h | ⟨r, -, h⟩⟩ := step_moves o _ s1 e.now e.event e.reply _ (ready_casts hr cs) hst
    · simp at h
    · have ht1 := tracked_move (tracked_casts ht cs) hm e.now
      refine ⟨terminate_sound ht1 h (move_sound (tracked_casts ht cs) hm hs), fun h => by simp at h, fun _ _ => ?_⟩
      rw [told_cons, ← List.append_assoc]
      have : told ([] : List Ev) = [] := rfl
      rw [this, List.append_nil]
      exact terminate_alive ht1 h

/-! ## Shutdowns in the node -/

/-- The start routines are genuine: the process of this node that a start routine returns is one that exists or has existed, and not the
supervisor itself. -/
def Genuine (cf : Conf B V) (ser : V → B) : Prop :=
  ∀ n c w ops t, Reachable ser w → Exec ser cf.me w (cf.startOf n c) ops (.ok (.loc t)) →
    t ≠ cf.me ∧ t < (Verif.World.run ser w ops).nextPid

theorem shutdown_dead {cf : Conf B V} {ser : V → B} {w : World B V} {ops : List (Op B V)} {t : Nat} {mode : ShutdownMode}
    {x : Except ExitReason Unit} (hre : Reachable ser w) (ht : t ≠ cf.me) (hlt : t < w.nextPid)
    (h : Exec ser cf.me w (shutdownProg cf.unit cf.me (.loc t) mode) ops x) :
    (Verif.World.run ser w ops).procs t = none ∧ t < (Verif.World.run ser w ops).nextPid := by
  obtain ⟨os0, rfl⟩ := hre
  exact ⟨(C71_child_dead cf.unit ser os0 ops cf.me t mode ht hlt x h).1, Nat.lt_of_lt_of_le hlt (run_nextPid_le ser _ ops)⟩

/-- An effect of the log is a stretch of the history: before it exactly the effects before, afterwards exactly the effects after it. -/
theorem performs_split {cf : Conf B V} {ser : V → B} {w : World B V} {n : Nat} {fx : List Eff} {ops : List (Op B V)} (h : Performs cf ser w n fx ops) :
    ∀ a b, fx = a ++ b → ∃ ops1 ops2, ops = ops1 ++ ops2 ∧ Performs cf ser w n a ops1 ∧
      Performs cf ser (Verif.World.run ser w ops1) (n + (outs a).length) b ops2 := by
  induction h with
  | nil w n =>
    intro a b he
    have : a = [] ∧ b = [] := by simpa using he.symm
    obtain ⟨rfl, rfl⟩ := this
    exact ⟨[], [], rfl, .nil _ _, .nil _ _⟩
  | @other w n fx o ops ho hp ih =>
    intro a b he
    obtain ⟨ops1, ops2, rfl, h1, h2⟩ := ih a b he
    exact ⟨o :: ops1, ops2, rfl, .other ho h1, by rw [run_cons]; exact h2⟩
  | @start w n fx ops1 ops2 r c hx hp ih =>
    intro a b he
    cases a with
    | nil =>
      simp only [List.nil_append] at he
      subst he
      exact ⟨[], ops1 ++ ops2, rfl, .nil _ _, .start c hx hp⟩
    | cons y a =>
      simp only [List.cons_append, List.cons.injEq] at he
      obtain ⟨rfl, rfl⟩ := he
      obtain ⟨os3, os4, rfl, h1, h2⟩ := ih a b rfl
      refine ⟨ops1 ++ os3, os4, by simp, .start c hx h1, ?_⟩
      rw [run_append]
      simpa [outs, Nat.add_assoc, Nat.add_comm 1] using h2
  | @stop w n fx ops1 ops2 p how x hx hp ih =>
    intro a b he
    cases a with
    | nil =>
      simp only [List.nil_append] at he
      subst he
      exact ⟨[], ops1 ++ ops2, rfl, .nil _ _, .stop hx hp⟩
    | cons y a =>
      simp only [List.cons_append, List.cons.injEq] at he
      obtain ⟨rfl, rfl⟩ := he
      obtain ⟨os3, os4, rfl, h1, h2⟩ := ih a b rfl
      refine ⟨ops1 ++ os3, os4, by simp, .stop hx h1, ?_⟩
      rw [run_append]
      simpa [outs] using h2

theorem performs_started {cf : Conf B V} {ser : V → B} (hg : Genuine cf ser) {w : World B V} {n : Nat} {fx : List Eff} {ops : List (Op B V)}
    (h : Performs cf ser w n fx ops) : ∀ (_ : Reachable ser w) {t : Nat} {id : String}, .start id (.ok (.loc t)) ∈ fx →
    t ≠ cf.me ∧ t < (Verif.World.run ser w ops).nextPid := by
  induction h with
  | nil => intro _ t id h; simp at h
  | @other w n fx o ops ho hp ih => intro hre t id hm; rw [run_cons]; exact ih (reach_step hre o) hm
  | @start w n fx ops1 ops2 r c hx hp ih =>
    intro hre t id hm
    rw [run_append]
    rcases List.mem_cons.1 hm with hm | hm
    · simp only [Eff.start.injEq] at hm
      obtain ⟨-, rfl⟩ := hm
      obtain ⟨h1, h2⟩ := hg n c w ops1 t hre hx
      exact ⟨h1, Nat.lt_of_lt_of_le h2 (run_nextPid_le ser _ _)⟩
    · exact ih (reach_run hre ops1) hm
  | @stop w n fx ops1 ops2 p how x hx hp ih =>
    intro hre t id hm
    rw [run_append]
    rcases List.mem_cons.1 hm with hm | hm
    · simp at hm
    · exact ih (reach_run hre ops1) hm

theorem performs_stopped {cf : Conf B V} {ser : V → B} (hg : Genuine cf ser) {w : World B V} (hre : Reachable ser w) {n : Nat} {fx : List Eff}
    {ops : List (Op B V)} (h : Performs cf ser w n fx ops) (hs : Sound fx) {t : Nat} {how : Shutdown} (hm : .stop (.loc t) how ∈ fx) :
    (Verif.World.run ser w ops).procs t = none := by
  obtain ⟨a, b, rfl⟩ := List.append_of_mem hm
  obtain ⟨id, hid⟩ := hs a _ _ b rfl
  obtain ⟨ops1, ops2, rfl, h1, h2⟩ := performs_split h a _ rfl
  obtain ⟨g1, g2⟩ := performs_started hg h1 hre hid
  have hre1 := reach_run hre ops1
  rw [run_append]
  have : ∀ {w : World B V} {n fx ops}, Performs cf ser w n fx ops → fx = .stop (.loc t) how :: b → Reachable ser w → t < w.nextPid →
      (Verif.World.run ser w ops).procs t = none := by
    intro w n fx ops h
    induction h with
    | nil => intro h; simp at h
    | @other w n fx o ops ho hp ih =>
      intro he hr hlt
      rw [run_cons]
      exact ih he (reach_step hr o) (Nat.lt_of_lt_of_le hlt (by have := run_nextPid_le ser w [o]; simpa [Verif.World.run] using this))
    | start => intro h; simp at h
    | @stop w n fx ops1 ops2 p how x hx hp ih =>
      intro he hr hlt
      simp only [List.cons.injEq, Eff.stop.injEq] at he
      obtain ⟨⟨rfl, rfl⟩, rfl⟩ := he
      obtain ⟨k1, k2⟩ := shutdown_dead hr g1 hlt hx
      rw [run_append]
      exact (absent_run ser _ ops2 t k2 k1).1
  exact this h2 rfl hre1 g2

theorem performs_stopped_lt {cf : Conf B V} {ser : V → B} (hg : Genuine cf ser) {w : World B V} (hre : Reachable ser w) {n : Nat} {fx : List Eff}
    {ops : List (Op B V)} (h : Performs cf ser w n fx ops) (hs : Sound fx) {t : Nat} {how : Shutdown} (hm : .stop (.loc t) how ∈ fx) :
    t < (Verif.World.run ser w ops).nextPid := by
  obtain ⟨a, b, rfl⟩ := List.append_of_mem hm
  obtain ⟨id, hid⟩ := hs a _ _ b rfl
  obtain ⟨ops1, ops2, rfl, h1, -⟩ := performs_split h a _ rfl
  have := (performs_started hg h1 hre hid).2
  rw [run_append]
  exact Nat.lt_of_lt_of_le this (run_nextPid_le ser _ ops2)

end Verif.Sup
