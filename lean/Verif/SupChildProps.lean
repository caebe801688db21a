import Verif.SupChildLemmas
import Verif.Sim
/-!
# Properties C113 and C114: the children of a supervisor process in the node

C113: a supervisor that has ended leaves no process behind that it started. C114: what is replaced or shut down is dead before the next child is touched.
-/
namespace Verif.Sup
open Verif.World Verif.Mailbox
variable {B V : Type}

/-! ## Specification of C113 -/

/-- The process `t` never tells `me` of an exit itself (`Process::exit`), and `me` does not link to `t` before there is a process `t`. -/
def Honest (me t : Nat) (w : World B V) (o : Op B V) : Prop :=
  (∀ r, o ≠ .exit t (.loc me) r) ∧ (o = .link me (.loc t) → t < w.nextPid)

/-! ## Lemmas -/

theorem not_alive {log : List Eff} {X : List Pid} {p : Pid} (h : ¬ Alive log X p) (hs : ∃ id, .start id (.ok p) ∈ log) :
    (∃ how, .stop p how ∈ log) ∨ p ∈ X := by
  refine Classical.byContradiction fun hn => h ⟨hs, fun how hm => hn (.inl ⟨how, hm⟩), fun hm => hn (.inr hm)⟩

theorem told_record {clock : Nat → Nat} {cs : List (Record SMsg SState)} {p : Pid} (h : p ∈ told (eventsOf clock cs)) :
    ∃ c ∈ cs, ∃ r, c.what = .info (.system (.exit p r)) := by
  induction cs with
  | nil => simp [eventsOf, told, exits] at h
  | cons c cs ih =>
    simp only [eventsOf] at h
    rw [told_cons] at h
    rcases List.mem_append.1 h with h | h
    · refine ⟨c, List.mem_cons_self, ?_⟩
      obtain ⟨what, b, a, res⟩ := c
      cases what with
      | info m =>
        cases m with
        | user m => simp [eventOf, exits] at h
        | system m =>
          cases m with
          | exit q r =>
            simp only [eventOf, exits, List.filterMap_cons, List.filterMap_nil, List.mem_singleton] at h
            subst h; exact ⟨r, rfl⟩
          | _ => simp [eventOf, exits] at h
      | cast m =>
        cases m with
        | tryAgainPid q =>
          exfalso
          simp only [eventOf] at h
          cases hf : b.1.children.find? fun d => d.pid = some q <;> simp [hf, exits] at h
        | _ => simp [eventOf, exits] at h
      | call m frm => cases m <;> simp [eventOf, exits] at h
      | terminate r => simp [eventOf, exits] at h
    · cases hres : c.result with
      | error r => simp [hres, told, exits] at h
      | ok y =>
        simp only [hres] at h
        obtain ⟨d, hd, hw⟩ := ih h
        exact ⟨d, List.mem_cons_of_mem _ hd, hw⟩

theorem visible_exit {refs : List Ref} {l : List (Item B V)} {p : Pid} {r : ExitReason} :
    (.system (.exit p r) : Item B V) ∈ visible refs l → .system (.exit p r) ∈ l := by
  induction l generalizing refs with
  | nil => simp [visible]
  | cons it l ih =>
    intro h
    cases it with
    | remote b => simp only [visible, List.mem_cons, reduceCtorEq, false_or] at h; exact List.mem_cons_of_mem _ (ih h)
    | locl v => simp only [visible, List.mem_cons, reduceCtorEq, false_or] at h; exact List.mem_cons_of_mem _ (ih h)
    | system s =>
      simp only [visible, List.mem_cons] at h
      rcases h with h | h
      · rw [h]; exact List.mem_cons_self
      · exact List.mem_cons_of_mem _ (ih h)
    | down d r' e =>
      by_cases hr : r' ∈ refs
      · simp only [visible, hr, if_true, List.mem_cons, Item.system.injEq, reduceCtorEq, false_or] at h; exact List.mem_cons_of_mem _ (ih h)
      · simp only [visible, hr, if_false] at h; exact List.mem_cons_of_mem _ (ih h)
    | nodeDown n r' =>
      by_cases hr : r' ∈ refs
      · simp only [visible, hr, if_true, List.mem_cons, Item.system.injEq, reduceCtorEq, false_or] at h; exact List.mem_cons_of_mem _ (ih h)
      · simp only [visible, hr, if_false] at h; exact List.mem_cons_of_mem _ (ih h)
    | _ => simp only [visible] at h; exact List.mem_cons_of_mem _ (ih h)

/-- An Exit message that is taken was delivered. -/
theorem taken_sent {ser : V → B} {T : Type} {τ : RecvType B V T} {me : Nat} {w w' : World B V} {p : Pid} {r : ExitReason} (hre : Reachable ser w)
    (h : TakesOldest τ me w w' (.system (.exit p r))) : (me, .system (.exit p r)) ∈ w.sent := by
  obtain ⟨q, q', it, rest, hq, -, hc, hm, -⟩ := h
  have hit : it = .system (.exit p r) := by
    cases it <;> simp [asMsg] at hm
    rw [hm]
  subst hit
  have hmem : (.system (.exit p r) : Item B V) ∈ q.box.items ∨ (.system (.exit p r) : Item B V) ∈ q.box.chan := by
    have : (.system (.exit p r) : Item B V) ∈ contents q.box := by rw [hc]; exact List.mem_cons_self
    rcases List.mem_append.1 this with h | h
    · exact .inl h
    · exact .inr (visible_exit h)
  obtain ⟨-, d1, d2⟩ := reach_delivered hre me q.box (by simp [pmap, hq])
  obtain ⟨it0, h1, h2⟩ : ∃ it0, (me, it0) ∈ w.sent ∧ Came it0 (.system (.exit p r)) := by
    rcases hmem with h | h
    · exact d1 _ h
    · exact d2 _ h
  cases h2
  exact h1

theorem alternates_taken {ser : V → B} {me : Nat} {M S : Type} {srv : Server B V M S} {τ : RecvType B V (GMsg M)} {w : World B V} {os : List (Op B V)}
    {ms : List (Msg (GMsg M))} {cs : List (Record M S)} (h : Alternates ser me srv τ w os ms cs) {m : Msg (GMsg M)} (hm : m ∈ ms) :
    ∃ os1 kind os2, os = os1 ++ .recv me (anyMsg τ) kind :: os2 ∧
      TakesOldest τ me (Verif.World.run ser w os1) (Verif.World.step ser (Verif.World.run ser w os1) (.recv me (anyMsg τ) kind)).1 m := by
  induction h with
  | none => simp at hm
  | @next w pre kind os post m' c ms cs h1 h2 h3 ih =>
    rcases List.mem_cons.1 hm with rfl | hm
    · exact ⟨pre, kind, os ++ post, rfl, h1⟩
    · obtain ⟨os1, k, os2, rfl, ht⟩ := ih hm
      refine ⟨pre ++ .recv me (anyMsg τ) kind :: os ++ os1, k, os2, by simp, ?_⟩
      rw [run_append]; exact ht
  | last => simp at hm

/-- An Exit message of `t` that was delivered to `me` tells the truth. -/
def Truthful (me t : Nat) (w : World B V) : Prop := ∀ r, (me, .system (.exit (.loc t) r)) ∈ w.sent → w.procs t = none ∧ t < w.nextPid

theorem truthful_step {ser : V → B} {me t : Nat} {w : World B V} {o : Op B V} (hre : Reachable ser w) (ho : Honest me t w o) (h : Truthful me t w) :
    Truthful me t (Verif.World.step ser w o).1 := by
  intro r hr
  have keep : ∀ w' : World B V, w' = (Verif.World.step ser w o).1 → w.procs t = none → t < w.nextPid → w'.procs t = none ∧ t < w'.nextPid := by
    rintro w' rfl h1 h2
    exact absent_run ser w [o] t h2 h1
  by_cases hin : (me, .system (.exit (.loc t) r)) ∈ w.sent
  · obtain ⟨h1, h2⟩ := h r hin
    exact keep _ rfl h1 h2
  have hnew : ∃ r', AtomOf w o (.put me (.system (.exit (.loc t) r'))) := by
    refine Classical.byContradiction fun hno => hin ?_
    have := (step_acts ser w o).inv (I := fun w' : World B V => (me, .system (.exit (.loc t) r)) ∈ w'.sent → (me, .system (.exit (.loc t) r)) ∈ w.sent)
      (fun h => h) ?_
    · exact this hr
    · intro w' a ha ih hm
      rw [sent_act] at hm
      cases a with
      | put i it =>
        simp only at hm
        split at hm
        · rcases List.mem_append.1 hm with hm | hm
          · exact ih hm
          · simp only [List.mem_singleton, Prod.mk.injEq] at hm
            obtain ⟨rfl, rfl⟩ := hm
            exact absurd ⟨r, ha⟩ hno
        · exact ih hm
      | shot i a =>
        simp only at hm
        split at hm
        · rcases List.mem_append.1 hm with hm | hm
          · exact ih hm
          · simp at hm
        · exact ih hm
      | mkMonDown i d m e al =>
        simp only at hm
        split at hm
        · rcases List.mem_append.1 hm with hm | hm
          · exact ih hm
          · simp at hm
        · exact ih hm
      | _ => exact ih hm
  obtain ⟨r', ha⟩ := hnew
  rcases ha with ha | ⟨j, hj, ha⟩ | ⟨rfl, hn⟩ | ⟨n, q, -, hm⟩
  · simp [Pid.isLocal] at ha
  · simp only [Pid.loc.injEq] at hj
    subst hj
    rcases ha with ⟨e, he⟩ | rfl
    · exact absurd he (ho.1 e)
    · by_cases hdm : doomed w t = true
      · cases hp : w.procs t with
        | none => simp [doomed, hp] at hdm
        | some p =>
          have hd : p.ended = true ∨ p.aborted = true := by simpa [doomed, hp] using hdm
          obtain ⟨e1, -, -, -, -, -, e7, -⟩ := drop_eff w t p hp (reach_nodup hre t)
          have ht : t < w.nextPid := by
            rcases Nat.lt_or_ge t w.nextPid with h | h
            · exact h
            · rw [reach_bounded hre t h] at hp; simp at hp
          rw [step_drop ser w t p hp hd]
          exact ⟨e1, by rw [e7]; exact ht⟩
      · have : (Verif.World.step ser w (.drop t)).1 = w := by simp [Verif.World.step, Op.caller, Op.exec, hdm]
        rw [this] at hr
        exact absurd hr hin
  · exact keep _ rfl (hn t rfl) (ho.2 rfl)
  · have := reach_nodeLinksRemote hre n _ _ hm
    simp [Pid.isLocal] at this

theorem truthful_run {ser : V → B} {me t : Nat} {os : List (Op B V)} (h : Always ser (Honest me t) init os) :
    Truthful me t (Verif.World.run ser init os) :=
  always_run (P := fun _ => True) (I := Truthful me t) (fun w o hr _ ho hI => truthful_step hr ho hI) ⟨[], rfl⟩ h (fun _ _ => trivial)
    (by intro r hr; exact absurd hr (by simp [init, Verif.World.run]))

/-! ## C113 -/

/-- **C113**, without any assumption about the children: when a supervisor process has ended, every process of this node that it had started is dead, or the
supervisor was told of its exit. -/
theorem C113_none_left_partial (cf : Conf B V) (ser : V → B) (hg : Genuine cf ser) (w : World B V) (hw : Reachable ser w) (parent : Pid) (n : Nat)
    (st : Strategy) (au : AutoShutdown) (mr md : Nat) (cs : List Spec) (hs : ∀ c ∈ cs, c.hasStart = true) (hd : (cs.map (·.id)).Nodup)
    (ops : List (Op B V)) (l : Log SMsg SState) (σ : SState)
    (h : Exec ser cf.me w (supLife cf parent n (fresh st au mr md cs)) ops (some l, σ)) (r : ExitReason) (hend : l.ended = some r)
    (id : String) (t : Nat) (hst : .start id (.ok (.loc t)) ∈ l.state.1.log) :
    (Verif.World.run ser w ops).procs t = none ∨ ∃ c ∈ l.calls, ∃ e, c.what = .info (.system (.exit (.loc t) e)) := by
  obtain ⟨o, σ0, hb, hc, hp, -⟩ := life_chain cf ser w hw parent n st au mr md cs ops l σ h
  obtain ⟨i1, i2, -⟩ := fresh_inv _ st au mr md cs hs hd _ hb
  obtain ⟨k1, -, k2⟩ := lives_tracked (chain_lives hc i1 i2) i1 ((tracked_boot o st au mr md cs hs).1 _ hb) ((boot_sound o st au mr md cs hs).1 _ hb)
  rcases not_alive (k2 r hend (.loc t)) ⟨id, hst⟩ with ⟨how, hna⟩ | hna
  · exact .inl (performs_stopped hg hw hp k1 hna)
  · exact .inr (told_record hna)

/-- **C113**: when a supervisor process has ended, for whatever reason, every process of this node that it had started (at its start, on request or as a
restart) is dead, unless that process itself has sent an Exit message to the supervisor with `Process::exit`. -/
theorem C113_none_left (cf : Conf B V) (ser : V → B) (hg : Genuine cf ser) (os0 : List (Op B V)) (parent : Pid) (n : Nat)
    (st : Strategy) (au : AutoShutdown) (mr md : Nat) (cs : List Spec) (hs : ∀ c ∈ cs, c.hasStart = true) (hd : (cs.map (·.id)).Nodup)
    (ops : List (Op B V)) (l : Log SMsg SState) (σ : SState)
    (h : Exec ser cf.me (Verif.World.run ser init os0) (supLife cf parent n (fresh st au mr md cs)) ops (some l, σ))
    (r : ExitReason) (hend : l.ended = some r) (id : String) (t : Nat) (hst : .start id (.ok (.loc t)) ∈ l.state.1.log)
    (hh : Always ser (Honest cf.me t) init (os0 ++ ops)) :
    (Verif.World.run ser init (os0 ++ ops)).procs t = none := by
  have hw : Reachable ser (Verif.World.run ser (init : World B V) os0) := ⟨os0, rfl⟩
  rw [run_append]
  rcases C113_none_left_partial cf ser hg _ hw parent n st au mr md cs hs hd ops l σ h r hend id t hst with h1 | ⟨c, hc, e, hwhat⟩
  · exact h1
  obtain ⟨o, σ0, hb, -, -, os1, os2, os3, rfl, hx⟩ := life_chain cf ser _ hw parent n st au mr md cs ops l σ h
  obtain ⟨msgs, a1, -, a3, -⟩ := C58_serve ser cf.me (supServer cf) cf.type parent n σ0 _ os2 l (reach_run hw os1) hx
  have hmem : Invoke.info (.system (.exit (.loc t) e)) ∈ msgs.filterMap (callbackFor parent) := by
    have : Invoke.info (.system (.exit (.loc t) e)) ∈ l.calls.map Record.what := List.mem_map.2 ⟨c, hc, hwhat⟩
    rw [a3] at this
    rcases List.mem_append.1 this with h | h
    · exact h
    · cases hl : l.ended <;> simp [hl] at h
  obtain ⟨m, hm, hcb⟩ := List.mem_filterMap.1 hmem
  have hmm : m = .system (.exit (.loc t) e) := by
    cases m with
    | user g => cases g <;> simp [callbackFor] at hcb
    | system s =>
      cases s with
      | exit p r' =>
        simp only [callbackFor] at hcb
        split at hcb
        · simp at hcb
        · simp at hcb; obtain ⟨rfl, rfl⟩ := hcb; rfl
      | _ => simp [callbackFor] at hcb
  subst hmm
  obtain ⟨q1, kind, q2, rfl, htk⟩ := alternates_taken a1 hm
  have hsent := taken_sent (reach_run (reach_run hw os1) q1) htk
  have hsplit : os0 ++ (os1 ++ (q1 ++ .recv cf.me (anyMsg cf.type) kind :: q2 ++ os3)) =
      (os0 ++ os1 ++ q1) ++ (.recv cf.me (anyMsg cf.type) kind :: (q2 ++ os3)) := by simp
  rw [hsplit] at hh
  have htr := truthful_run (always_append.1 hh).1 e (by rw [run_append, run_append]; exact hsent)
  rw [← run_append, hsplit, run_append]
  exact (absent_run ser _ _ t htr.2 htr.1).1

/-- **C113**, a failed start: when `init` of a supervisor has failed, every process of this node that it had started is dead. -/
theorem C113_init_fails (cf : Conf B V) (ser : V → B) (hg : Genuine cf ser) (w : World B V) (hw : Reachable ser w) (parent : Pid) (n : Nat)
    (st : Strategy) (au : AutoShutdown) (mr md : Nat) (cs : List Spec) (hs : ∀ c ∈ cs, c.hasStart = true)
    (ops : List (Op B V)) (σ : SState)
    (h : Exec ser cf.me w (supLife cf parent n (fresh st au mr md cs)) ops (none, σ))
    (id : String) (t : Nat) (hst : .start id (.ok (.loc t)) ∈ σ.1.log) :
    (Verif.World.run ser w ops).procs t = none := by
  obtain ⟨o, r, hb, hp⟩ := C112_init_fails cf ser w hw parent n st au mr md cs ops σ h
  rcases not_alive ((tracked_boot o st au mr md cs hs).2 _ r hb (.loc t)) ⟨id, hst⟩ with ⟨how, hna⟩ | hna
  · exact performs_stopped hg hw hp ((boot_sound o st au mr md cs hs).2 _ r hb) hna
  · simp at hna

/-! ## C114: one at a time -/

theorem move_log {o : Oracle} {s s' : Sup} {e : Event} (hm : Move o s e s') : ∃ L, s'.log = s.log ++ L := by
  cases hm with
  | idle hc hi hl hk => exact ⟨[], by simp [hl]⟩
  | drop pre c post p r he hc' hp hw hc hi hl hk => exact ⟨[], by simp [hl]⟩
  | del pre c post id he hid hc' hp hr hc hi hl hk => exact ⟨[], by simp [hl]⟩
  | new c he hst hn hi hl hk hc => exact ⟨_, hl⟩
  | rest pre c post id he hid hc' hp hr hc hi hl hk => exact ⟨_, hl⟩
  | term pre c post id he hid hc' hc hi hl hk => exact ⟨_, hl⟩
  | again pre c post A M Z fx hc' hz why hc hi hl hk => exact ⟨_, by rw [hl, List.append_assoc]⟩

theorem terminate_log {s s' : Sup} (h : terminateChildren s = some s') : s'.log = s.log ++ (stops s.children).reverse := by
  rw [terminateChildren_eq, Option.some.injEq] at h
  rw [← h]

theorem lives_log {o : Oracle} {s s' : Sup} {evs : List Ev} {q : Option ExitReason} (h : Lives o s evs s' q) : Ready s → ∃ L, s'.log = s.log ++ L := by
  induction h with
  | nil s => intro _; exact ⟨[], by simp⟩
  | @next s cs e s1 es s2 q hret hst hl ih =>
    intro hr
    have hm := step_move (ready_casts hr cs) hst
    obtain ⟨L1, h1⟩ := move_log hm
    obtain ⟨L2, h2⟩ := ih (move_ready (ready_casts hr cs) hm)
    exact ⟨L1 ++ L2, by rw [h2, h1, List.append_assoc]⟩
  | @last s cs e s1 r hret hst =>
    intro hr
    obtain ⟨s2, hm, h | ⟨r, -, h⟩⟩ := step_moves o _ s1 e.now e.event e.reply _ (ready_casts hr cs) hst
    · simp at h
    · obtain ⟨L1, h1⟩ := move_log hm
      exact ⟨_, by rw [terminate_log h, h1, List.append_assoc]⟩

/-- What is known about every callback after which the supervisor goes on. -/
theorem chain_record {o : Oracle} {clock : Nat → Nat} {σ σ' : SState} {cs : List (Record SMsg SState)} {q : Option ExitReason}
    (h : Chain o clock σ cs q σ') : ∀ {X}, Ready σ.1 → Uniq σ.1 → Tracked σ.1 X → ∀ c ∈ cs, (∀ r, c.what ≠ .terminate r) → ∀ y, c.result = .ok y →
    Ready c.before.1 ∧ c.before.1.strategy = σ.1.strategy ∧
    (∃ casts, step o { c.before.1 with casts := casts } (clock c.before.2) (eventOf c).1 = some (c.after.1, replyOf c.result, none)) ∧
    ∃ L, σ'.1.log = c.after.1.log ++ L := by
  induction h with
  | none => intro X _ _ _ c hc; simp at hc
  | @next c y cs q σ' hd hnt hct hok hch ih =>
    intro X hr hu ht c' hc' hnt' y' hok'
    obtain ⟨casts, -, h2⟩ := does_step hu hd hnt
    have h3 := h2
    simp only [hok, Turns] at h2
    have hm := step_move (ready_casts hr casts) h2
    have hr1 := move_ready (ready_casts hr casts) hm
    have hu1 := uniq_step (uniq_casts hu casts) (move_specs hm)
    rcases List.mem_cons.1 hc' with rfl | hc'
    · exact ⟨hr, rfl, ⟨casts, by rw [hok]; exact h2⟩, lives_log (chain_lives hch hr1 hu1) hr1⟩
    · obtain ⟨k1, k2, k3⟩ := ih hr1 hu1 (tracked_move (tracked_casts ht casts) hm (clock c.before.2)) c' hc' hnt' y' hok'
      refine ⟨k1, ?_, k3⟩
      rw [k2]
      exact (step_restarts (ready_casts hr casts) h2).1.1
  | @fail c r t hd hnt hok ht hb hdt =>
    intro X _ _ _ c' hc' hnt' y' hok'
    simp only [List.mem_cons, List.not_mem_nil, or_false] at hc'
    rcases hc' with rfl | rfl
    · rw [hok] at hok'; simp at hok'
    · exact absurd ht (hnt' r)
  | @stop t r ht hr0 hdt =>
    intro X _ _ _ c' hc' hnt' y' hok'
    simp only [List.mem_cons, List.not_mem_nil, or_false] at hc'
    subst hc'
    exact absurd ht (hnt' r)

theorem chain_end {o : Oracle} {clock : Nat → Nat} {σ σ' : SState} {cs : List (Record SMsg SState)} {r : ExitReason}
    (h : Chain o clock σ cs (some r) σ') : ∃ t ∈ cs, t.what = .terminate r ∧ terminateChildren t.before.1 = some t.after.1 ∧ σ' = t.after := by
  generalize hq : some r = q at h
  induction h with
  | none => cases hq
  | next hd hnt hct hok hch ih =>
    obtain ⟨t, ht, h⟩ := ih hq
    exact ⟨t, List.mem_cons_of_mem _ ht, h⟩
  | @fail c r' t hd hnt hok ht hb hdt =>
    cases hq
    simp only [Does, ht] at hdt
    exact ⟨t, by simp, ht, hdt, rfl⟩
  | @stop t r' ht hr0 hdt =>
    cases hq
    simp only [Does, ht] at hdt
    exact ⟨t, by simp, ht, hdt, rfl⟩

theorem prefix_starts {fx a b sp : List Eff} {id : String} {x : Except ExitReason Pid} (h : fx ++ sp = a ++ .start id x :: b)
    (hfx : ∀ id r, .start id r ∉ fx) : ∀ y ∈ fx, y ∈ a := by
  rcases List.append_eq_append_iff.1 h with ⟨z, rfl, -⟩ | ⟨z, rfl, hz⟩
  · intro y hy; simp [hy]
  · cases z with
    | nil => intro y hy; simpa using hy
    | cons u z =>
      simp only [List.cons_append, List.cons.injEq] at hz
      obtain ⟨rfl, -⟩ := hz
      exact absurd (by simp) (hfx id x)

/-- **C114**: whatever is shut down is dead before anything else happens: the history of the supervisor process splits into what it did up to and including
the shutdown of `t`, after which `t` is dead, and what it did afterwards. -/
theorem C114_one_at_a_time (cf : Conf B V) (ser : V → B) (hg : Genuine cf ser) (w : World B V) (hw : Reachable ser w) (parent : Pid) (n : Nat)
    (st : Strategy) (au : AutoShutdown) (mr md : Nat) (cs : List Spec) (hs : ∀ c ∈ cs, c.hasStart = true) (hd : (cs.map (·.id)).Nodup)
    (ops : List (Op B V)) (l : Log SMsg SState) (σ : SState)
    (h : Exec ser cf.me w (supLife cf parent n (fresh st au mr md cs)) ops (some l, σ))
    (a b : List Eff) (t : Nat) (how : Shutdown) (hlog : l.state.1.log = a ++ .stop (.loc t) how :: b) :
    ∃ ops1 ops2 k, ops = ops1 ++ ops2 ∧ Performs cf ser w 0 (a ++ [.stop (.loc t) how]) ops1 ∧ Performs cf ser (Verif.World.run ser w ops1) k b ops2 ∧
      (Verif.World.run ser w ops1).procs t = none := by
  obtain ⟨o, σ0, hb, hc, hp, -⟩ := life_chain cf ser w hw parent n st au mr md cs ops l σ h
  obtain ⟨i1, i2, -⟩ := fresh_inv _ st au mr md cs hs hd _ hb
  obtain ⟨k1, -⟩ := lives_tracked (chain_lives hc i1 i2) i1 ((tracked_boot o st au mr md cs hs).1 _ hb) ((boot_sound o st au mr md cs hs).1 _ hb)
  rw [hlog, List.append_cons] at hp k1
  obtain ⟨ops1, ops2, rfl, p1, p2⟩ := performs_split hp _ _ rfl
  exact ⟨ops1, ops2, _, rfl, p1, p2, performs_stopped hg hw p1 (sound_left k1) (how := how) (by simp)⟩

/-! ### The signals of a shutdown -/

/-- The exit signals that `me` sends in a history, in order. -/
def signals (me : Nat) (os : List (Op B V)) : List (Pid × ExitReason) := os.filterMap fun o => match o with
  | .exit i p r => if i = me then some (p, r) else none
  | _ => none

/-- What a shutdown says to the process, by the kind of shutdown: a brutal kill is one `Kill`; a shutdown without limit is one `"shutdown"`; a
shutdown with a time limit is one `"shutdown"` and, if it is too slow, one `Kill`. -/
def Says (p : Pid) (how : Shutdown) (l : List (Pid × ExitReason)) : Prop :=
  match how with
  | .brutalKill => l = [(p, .kill)]
  | .duration _ => l = [(p, .custom "shutdown")] ∨ l = [(p, .custom "shutdown"), (p, .kill)]
  | .infinity => l = [(p, .custom "shutdown")]

theorem signals_append (me : Nat) (a b : List (Op B V)) : signals me (a ++ b) = signals me a ++ signals me b := by simp [signals]

theorem signals_none {me : Nat} {os : List (Op B V)} (h : ∀ o ∈ os, Others me o ∨ ∃ x k, o = .recv me x k) : signals me os = [] := by
  simp only [signals, List.filterMap_eq_nil_iff]
  intro o ho
  rcases h o ho with h | ⟨x, k, rfl⟩
  · cases o <;> simp_all [Others, Op.caller]
  · rfl

theorem signals_flush {ser : V → B} {u : RecvType B V Unit} {me : Nat} {w : World B V} {p : Pid} {os : List (Op B V)} {x : Except ExitReason Unit}
    (h : Exec ser me w (unlinkFlush u me p) os x) : signals me os = [] := by
  obtain ⟨os1, os2, rfl, h1, -, h2⟩ := exec_op_inv h
  obtain ⟨os3, os4, rfl, h3, -, h4⟩ := exec_op_inv h2
  obtain ⟨-, h5⟩ := exec_ret_inv h4
  rw [List.append_cons, List.append_cons os3]
  simp only [signals_append]
  rw [signals_none fun o ho => .inl (h1 o ho), signals_none fun o ho => .inl (h3 o ho), signals_none fun o ho => .inl (h5 o ho)]
  rfl

theorem signals_wait {ser : V → B} {u : RecvType B V Unit} {me : Nat} {w : World B V} {p : Pid} {f : Msg Unit → Bool} {t : Option (Prog B V (Except ExitReason Unit))}
    {os : List (Op B V)} {x : Except ExitReason Unit}
    (h : Exec ser me w (.wait .select ⟨Unit, u, f, false⟩ t fun _ => unlinkFlush u me p) os x) :
    signals me os = [] ∨ ∃ q w' os1 os2, t = some q ∧ os = os1 ++ os2 ∧ signals me os1 = [] ∧ Exec ser me w' q os2 x := by
  obtain ⟨os1, os2, rfl, h1, h | ⟨q, hq, h2⟩⟩ := exec_wait_inv h
  · obtain ⟨kind, m, os3, -, rfl, -, h2⟩ := h
    left
    rw [List.append_cons]
    simp only [signals_append, signals_flush h2]
    rw [signals_none fun o ho => (h1 o ho).imp_right fun ⟨k, hk⟩ => ⟨_, k, hk⟩]
    rfl
  · exact .inr ⟨q, _, os1, os2, hq, rfl, signals_none fun o ho => (h1 o ho).imp_right fun ⟨k, hk⟩ => ⟨_, k, hk⟩, h2⟩

theorem signals_kill {ser : V → B} {u : RecvType B V Unit} {me : Nat} {w : World B V} {p : Pid} {m : Ref} {os : List (Op B V)} {x : Except ExitReason Unit}
    (h : Exec ser me w (brutalKill u me p m) os x) : signals me os = [(p, .kill)] := by
  obtain ⟨os1, os2, rfl, h1, -, h2⟩ := exec_op_inv h
  rw [List.append_cons]
  simp only [signals_append]
  rw [signals_none fun o ho => .inl (h1 o ho)]
  rcases signals_wait h2 with h3 | ⟨q, w', os3, os4, hq, -⟩
  · rw [h3]; simp [signals]
  · simp at hq

theorem shutdown_says {ser : V → B} {u : RecvType B V Unit} {me : Nat} {w : World B V} {p : Pid} {how : Shutdown} {os : List (Op B V)} {x : Except ExitReason Unit}
    (h : Exec ser me w (shutdownProg u me p (modeOf how)) os x) : Says p how (signals me os) := by
  obtain ⟨os1, os2, rfl, h1, -, h2⟩ := exec_op_inv h
  rw [List.append_cons]
  simp only [signals_append]
  rw [signals_none fun o ho => .inl (h1 o ho)]
  have hm : signals me [(.monitor me (.pid p) : Op B V)] = [] := rfl
  rw [hm, List.nil_append, List.nil_append]
  cases how with
  | brutalKill => exact signals_kill h2
  | duration d =>
    obtain ⟨os3, os4, rfl, h3, -, h4⟩ := exec_op_inv h2
    rw [List.append_cons]
    simp only [signals_append]
    rw [signals_none fun o ho => .inl (h3 o ho)]
    rcases signals_wait h4 with h5 | ⟨q, w', os5, os6, hq, rfl, h5, h6⟩
    · rw [h5]; left; simp [signals]
    · simp only [Option.some.injEq] at hq
      subst hq
      rw [signals_append, h5, signals_kill h6]; right; simp [signals]
  | infinity =>
    obtain ⟨os3, os4, rfl, h3, -, h4⟩ := exec_op_inv h2
    rw [List.append_cons]
    simp only [signals_append]
    rw [signals_none fun o ho => .inl (h3 o ho)]
    rcases signals_wait h4 with h5 | ⟨q, w', os5, os6, hq, -⟩
    · rw [h5]; simp [signals, Says]
    · simp at hq

theorem performs_stop {cf : Conf B V} {ser : V → B} {w : World B V} {n : Nat} {fx : List Eff} {ops : List (Op B V)} (h : Performs cf ser w n fx ops) :
    ∀ p how b, fx = .stop p how :: b → ∃ pre mid post x, ops = pre ++ mid ++ post ∧ Performs cf ser w n [] pre ∧
      Exec ser cf.me (Verif.World.run ser w pre) (shutdownProg cf.unit cf.me p (modeOf how)) mid x ∧
      Performs cf ser (Verif.World.run ser w (pre ++ mid)) n b post := by
  induction h with
  | nil => intro p how b h; simp at h
  | @other w n fx o ops ho hp ih =>
    intro p how b he
    obtain ⟨pre, mid, post, x, rfl, h1, h2, h3⟩ := ih p how b he
    exact ⟨o :: pre, mid, post, x, rfl, .other ho h1, h2, h3⟩
  | start => intro p how b h; simp at h
  | @stop w n fx ops1 ops2 p' how' x hx hp ih =>
    intro p how b he
    simp only [List.cons.injEq, Eff.stop.injEq] at he
    obtain ⟨⟨rfl, rfl⟩, rfl⟩ := he
    exact ⟨[], ops1, ops2, x, rfl, .nil _ _, hx, hp⟩

/-- **C114**: a shutdown is carried out as the child's specification demands: the stretch of the history in which the supervisor shuts `p` down (after all
that it did before and before all that it did afterwards) contains exactly the signals that the kind of shutdown calls for, all to `p`. -/
theorem C114_signals (cf : Conf B V) (ser : V → B) (w : World B V) (hw : Reachable ser w) (parent : Pid) (n : Nat)
    (st : Strategy) (au : AutoShutdown) (mr md : Nat) (cs : List Spec)
    (ops : List (Op B V)) (l : Log SMsg SState) (σ : SState)
    (h : Exec ser cf.me w (supLife cf parent n (fresh st au mr md cs)) ops (some l, σ))
    (a b : List Eff) (p : Pid) (how : Shutdown) (hlog : l.state.1.log = a ++ .stop p how :: b) :
    ∃ ops1 mid ops2 k, ops = ops1 ++ mid ++ ops2 ∧ Performs cf ser w 0 a ops1 ∧ Performs cf ser (Verif.World.run ser w (ops1 ++ mid)) k b ops2 ∧
      Says p how (signals cf.me mid) := by
  obtain ⟨o, σ0, hb, hc, hp, -⟩ := life_chain cf ser w hw parent n st au mr md cs ops l σ h
  rw [hlog] at hp
  obtain ⟨ops1, ops2, rfl, p1, p2⟩ := performs_split hp _ _ rfl
  obtain ⟨pre, mid, post, x, rfl, q1, q2, q3⟩ := performs_stop p2 _ _ _ rfl
  rw [← run_append, ← List.append_assoc] at q3
  refine ⟨ops1 ++ pre, mid, post, _, by simp, ?_, q3, shutdown_says q2⟩
  have := performs_append p1 q1
  simpa using this

/-- When a start routine of a restart begins to run, what it replaces is dead. -/
theorem restart_gone (cf : Conf B V) (ser : V → B) (hg : Genuine cf ser) (w : World B V) (hw : Reachable ser w) (parent : Pid) (n : Nat)
    (st : Strategy) (au : AutoShutdown) (mr md : Nat) (cs : List Spec) (hs : ∀ c ∈ cs, c.hasStart = true) (hd : (cs.map (·.id)).Nodup)
    (ops : List (Op B V)) (l : Log SMsg SState) (σ : SState)
    (h : Exec ser cf.me w (supLife cf parent n (fresh st au mr md cs)) ops (some l, σ))
    (c : Record SMsg SState) (hc : c ∈ l.calls) (y : Option SMsg) (hok : c.result = .ok y)
    (hwhat : (∃ p r, c.what = .info (.system (.exit p r))) ∨ ∃ m, c.what = .cast m)
    (a b : List Eff) (id : String) (x : Except ExitReason Pid) (hlog : c.after.1.log = c.before.1.log ++ (a ++ .start id x :: b)) :
    ∃ pre d post, c.before.1.children = pre ++ d :: post ∧ (∀ p r, c.what = .info (.system (.exit p r)) → d.pid = some p) ∧
      (∀ m, c.what = .cast m → d.restarting = true) ∧
      ∃ ops1 ops2 k rest, ops = ops1 ++ ops2 ∧ Performs cf ser w 0 (c.before.1.log ++ a) ops1 ∧
        Performs cf ser (Verif.World.run ser w ops1) k (.start id x :: rest) ops2 ∧
        ∀ e t, e.pid = some (.loc t) → (st = .oneForAll ∧ e ∈ pre ++ post ∨ st = .restForOne ∧ e ∈ post) →
          (Verif.World.run ser w ops1).procs t = none ∧ t < (Verif.World.run ser w ops1).nextPid := by
  obtain ⟨o, σ0, hb, hch, hp, -⟩ := life_chain cf ser w hw parent n st au mr md cs ops l σ h
  obtain ⟨i1, i2, -⟩ := fresh_inv _ st au mr md cs hs hd _ hb
  have ht0 := (tracked_boot o st au mr md cs hs).1 _ hb
  obtain ⟨k1, -⟩ := lives_tracked (chain_lives hch i1 i2) i1 ht0 ((boot_sound o st au mr md cs hs).1 _ hb)
  have hst0 : σ0.1.strategy = st := by
    have he := startChildren_eq o (fresh st au mr md cs) (by simpa [fresh] using hs)
    simp only [boot, initChildren] at hb
    rw [he] at hb
    cases hx : (spawn o (fresh st au mr md cs).calls 0 (fresh st au mr md cs).children).2.2 with
    | some x => simp [hx, terminateChildren_eq] at hb
    | none => simp only [hx, Status.up.injEq] at hb; rw [← hb]; rfl
  obtain ⟨r1, r2, ⟨casts, r3⟩, L, r4⟩ := chain_record hch i1 i2 ht0 c hc (by rcases hwhat with ⟨p, r, h⟩ | ⟨m, h⟩ <;> simp [h]) y hok
  have hm := step_move (ready_casts r1 casts) r3
  have nostart : c.after.1.log = c.before.1.log → False := by
    intro he
    rw [he] at hlog
    have := congrArg List.length hlog
    simp at this
  cases hm with
  | idle _ _ hl _ => exact (nostart hl).elim
  | drop _ _ _ _ _ _ _ _ _ _ _ hl _ => exact (nostart hl).elim
  | del _ _ _ _ _ _ _ _ _ _ _ hl _ => exact (nostart hl).elim
  | new sp he =>
    exfalso
    rcases hwhat with ⟨p, r, h⟩ | ⟨m, h⟩
    · simp [eventOf, h] at he
    · cases m <;> simp [eventOf, h] at he
      split at he <;> simp at he
  | rest _ _ _ _ he =>
    exfalso
    rcases hwhat with ⟨p, r, h⟩ | ⟨m, h⟩
    · simp [eventOf, h] at he
    · cases m <;> simp [eventOf, h] at he
      split at he <;> simp at he
  | term _ _ _ _ he =>
    exfalso
    rcases hwhat with ⟨p, r, h⟩ | ⟨m, h⟩
    · simp [eventOf, h] at he
    · cases m <;> simp [eventOf, h] at he
      split at he <;> simp at he
  | again pre d post A M Z fx hcs hz why hc' hi hl hk =>
    have hcs' : c.before.1.children = pre ++ d :: post := hcs
    obtain ⟨-, -, -, -, z5⟩ := zone_cover hz
    have hpre : ∀ y ∈ fx, y ∈ a := by
      refine prefix_starts (b := b) (id := id) (x := x) (sp := (spawn o c.before.1.calls A.length M).2.1) ?_ z5
      have hl' : c.after.1.log = c.before.1.log ++ fx ++ (spawn o c.before.1.calls A.length M).2.1 := hl
      rw [hlog, List.append_assoc] at hl'
      exact (List.append_cancel_left hl').symm
    refine ⟨pre, d, post, hcs', ?_, ?_, ?_⟩
    · intro p r hw
      rcases why with ⟨p', r', he, h2, -⟩ | ⟨he, -⟩
      · simp only [eventOf, hw, Event.exit.injEq] at he
        rw [he.1]; exact h2
      · simp [eventOf, hw] at he
    · intro m hw
      rcases why with ⟨p', r', he, -⟩ | ⟨-, h2⟩
      · exfalso
        cases m <;> simp [eventOf, hw] at he
        split at he <;> simp at he
      · exact h2
    · rw [r4, hlog, List.append_assoc, List.append_assoc, ← List.append_assoc] at hp k1
      obtain ⟨ops1, ops2, rfl, p1, p2⟩ := performs_split hp _ _ rfl
      refine ⟨ops1, ops2, _, b ++ L, rfl, p1, p2, ?_⟩
      intro e t het hin
      suffices hmem : Eff.stop (.loc t) (howTo e.spec) ∈ fx from
        ⟨performs_stopped hg hw p1 (sound_left k1) (how := howTo e.spec) (List.mem_append_right _ (hpre _ hmem)),
          performs_stopped_lt hg hw p1 (sound_left k1) (how := howTo e.spec) (List.mem_append_right _ (hpre _ hmem))⟩
      have hstops : ∀ ls : List Child, e ∈ ls → Eff.stop (.loc t) (howTo e.spec) ∈ stops ls := by
        intro ls hls
        simp only [stops, List.mem_filterMap]
        exact ⟨e, hls, by simp [het]⟩
      have hstr : c.before.1.strategy = st := r2.trans hst0
      have hz' : zone st pre d post = (A, M, Z, fx) := by rw [← hstr]; exact hz
      rcases hin with ⟨rfl, hin⟩ | ⟨rfl, hin⟩
      · simp only [zone, Prod.mk.injEq] at hz'
        rw [← hz'.2.2.2, ← stops_append]
        exact hstops _ hin
      · simp only [zone, Prod.mk.injEq] at hz'
        rw [← hz'.2.2.2]
        exact hstops _ hin

/-- **C114**: a restart replaces several children only after all that it replaces are gone. When, because of an exit or a retry that concerns the child `d`,
any start routine begins to run, with `OneForAll` the processes of all other children are dead, and with `RestForOne` those of all children after `d`. -/
theorem C114_restart (cf : Conf B V) (ser : V → B) (hg : Genuine cf ser) (w : World B V) (hw : Reachable ser w) (parent : Pid) (n : Nat)
    (st : Strategy) (au : AutoShutdown) (mr md : Nat) (cs : List Spec) (hs : ∀ c ∈ cs, c.hasStart = true) (hd : (cs.map (·.id)).Nodup)
    (ops : List (Op B V)) (l : Log SMsg SState) (σ : SState)
    (h : Exec ser cf.me w (supLife cf parent n (fresh st au mr md cs)) ops (some l, σ))
    (c : Record SMsg SState) (hc : c ∈ l.calls) (y : Option SMsg) (hok : c.result = .ok y)
    (hwhat : (∃ p r, c.what = .info (.system (.exit p r))) ∨ ∃ m, c.what = .cast m)
    (a b : List Eff) (id : String) (x : Except ExitReason Pid) (hlog : c.after.1.log = c.before.1.log ++ (a ++ .start id x :: b)) :
    ∃ pre d post, c.before.1.children = pre ++ d :: post ∧ (∀ p r, c.what = .info (.system (.exit p r)) → d.pid = some p) ∧
      (∀ m, c.what = .cast m → d.restarting = true) ∧
      ∃ ops1 ops2 k rest, ops = ops1 ++ ops2 ∧ Performs cf ser w 0 (c.before.1.log ++ a) ops1 ∧
        Performs cf ser (Verif.World.run ser w ops1) k (.start id x :: rest) ops2 ∧
        ∀ e t, e.pid = some (.loc t) → (st = .oneForAll ∧ e ∈ pre ++ post ∨ st = .restForOne ∧ e ∈ post) →
          (Verif.World.run ser w ops1).procs t = none := by
  obtain ⟨pre, d, post, h1, h2, h3, ops1, ops2, k, rest, h4, h5, h6, h7⟩ :=
    restart_gone cf ser hg w hw parent n st au mr md cs hs hd ops l σ h c hc y hok hwhat a b id x hlog
  exact ⟨pre, d, post, h1, h2, h3, ops1, ops2, k, rest, h4, h5, h6, fun e t he hin => (h7 e t he hin).1⟩

/-- **C114**: a supervisor that ends shuts its children down in the reverse order of their start, each the way its specification says, and when the shutdown of
one begins those of all children after it are dead. -/
theorem C114_termination (cf : Conf B V) (ser : V → B) (hg : Genuine cf ser) (w : World B V) (hw : Reachable ser w) (parent : Pid) (n : Nat)
    (st : Strategy) (au : AutoShutdown) (mr md : Nat) (cs : List Spec) (hs : ∀ c ∈ cs, c.hasStart = true) (hd : (cs.map (·.id)).Nodup)
    (ops : List (Op B V)) (l : Log SMsg SState) (σ : SState)
    (h : Exec ser cf.me w (supLife cf parent n (fresh st au mr md cs)) ops (some l, σ)) (r : ExitReason) (hend : l.ended = some r) :
    ∃ c ∈ l.calls, c.what = .terminate r ∧ ∀ pre d post p, c.before.1.children = pre ++ d :: post → d.pid = some p →
      ∃ ops1 ops2 k rest, ops = ops1 ++ ops2 ∧ Performs cf ser (Verif.World.run ser w ops1) k (.stop p (manner d.spec) :: rest) ops2 ∧
        ∀ e ∈ post, ∀ t, e.pid = some (.loc t) → (Verif.World.run ser w ops1).procs t = none := by
  obtain ⟨o, σ0, hb, hch, hp, -⟩ := life_chain cf ser w hw parent n st au mr md cs ops l σ h
  obtain ⟨i1, i2, -⟩ := fresh_inv _ st au mr md cs hs hd _ hb
  obtain ⟨k1, -⟩ := lives_tracked (chain_lives hch i1 i2) i1 ((tracked_boot o st au mr md cs hs).1 _ hb) ((boot_sound o st au mr md cs hs).1 _ hb)
  rw [hend] at hch
  obtain ⟨c, hc, hwhat, hterm, hstate⟩ := chain_end hch
  refine ⟨c, hc, hwhat, ?_⟩
  intro pre d post p hcs hdp
  have hl := terminate_log hterm
  have hrev : (stops (pre ++ d :: post)).reverse = (stops post).reverse ++ .stop p (manner d.spec) :: (stops pre).reverse := by
    have : stops (d :: post) = .stop p (manner d.spec) :: stops post := by
      simp only [stops, List.filterMap_cons, hdp, Option.map_some, howTo_manner]
    rw [stops_append, this]
    simp
  rw [hcs, hrev, ← List.append_assoc] at hl
  rw [hstate, hl] at hp k1
  obtain ⟨ops1, ops2, rfl, p1, p2⟩ := performs_split hp _ _ rfl
  refine ⟨ops1, ops2, _, _, rfl, p2, ?_⟩
  intro e he t het
  refine performs_stopped hg hw p1 (sound_left k1) (how := howTo e.spec) (List.mem_append_right _ ?_)
  simp only [List.mem_reverse, stops, List.mem_filterMap]
  exact ⟨e, he, by simp [het]⟩

/-! ## Concrete supervisors -/

/-- Messages of a node whose values are those of supervisors. -/
def supMsgs : RecvType Nat (GMsg SMsg) (GMsg SMsg) := ⟨fun _ => none, some, id, fun _ => rfl⟩
def supUnit : RecvType Nat (GMsg SMsg) Unit := ⟨fun _ => none, fun _ => some (), fun _ => .stop .normal, fun _ => rfl⟩
def supSer : GMsg SMsg → Nat := fun _ => 0

/-- What a start routine makes of the result of `spawn_link`. -/
def spawnedAs : Res → Except ExitReason Pid
  | .spawned p _ => .ok (.loc p)
  | _ => .error .ignore

/-- A supervisor with the number 2 whose start routines spawn a linked process, except that of the child "bad", which fails. -/
def supConf : Conf Nat (GMsg SMsg) where
  me := 2
  unit := supUnit
  type := supMsgs
  startOf := fun _ c => if c.id = "bad" then .ret (.error (.custom "bad")) else .op (.spawn 2 true false) fun r => .ret (spawnedAs r)
  clock := id

/-- Such start routines are genuine. -/
theorem supConf_genuine : Genuine supConf supSer := by
  intro n c w ops t hre hx
  simp only [supConf] at hx
  split at hx
  · obtain ⟨h, -⟩ := exec_ret_inv hx
    simp at h
  · obtain ⟨os1, os2, rfl, ho, hr, h2⟩ := exec_op_inv hx
    obtain ⟨h, ho2⟩ := exec_ret_inv h2
    have hw := reach_run hre os1
    have hst : Verif.World.step supSer (Verif.World.run supSer w os1) (.spawn 2 true false) =
        ((World.spawn (Verif.World.run supSer w os1) 2 true false).1,
          .spawned (World.spawn (Verif.World.run supSer w os1) 2 true false).2.1 (World.spawn (Verif.World.run supSer w os1) 2 true false).2.2) := by
      have hr' : Verif.World.running (Verif.World.run supSer w os1) 2 = true := hr
      simp [Verif.World.step, Op.caller, Op.exec, hr']
    rw [hst] at h
    simp only [spawnedAs, Except.ok.injEq, Pid.loc.injEq] at h
    have h1 : t = (Verif.World.run supSer w os1).nextPid := h
    have hne : t ≠ 2 := by
      rintro rfl
      have := reach_bounded hw 2 (by omega)
      have hr' : Verif.World.running (Verif.World.run supSer w os1) 2 = true := hr
      simp [Verif.World.running, this] at hr'
    refine ⟨hne, ?_⟩
    rw [run_append, run_cons]
    refine Nat.lt_of_lt_of_le ?_ (run_nextPid_le supSer _ os2)
    rw [h1, hst]
    show _ < (World.spawn (Verif.World.run supSer w os1) 2 true false).1.nextPid
    have : (World.spawn (Verif.World.run supSer w os1) 2 true false).1.nextPid = (Verif.World.run supSer w os1).nextPid + 1 := by
      simp [World.spawn, spawnRaw]
    omega

/-- Process 1 starts the supervisor 2. -/
def supStart : List (Op Nat (GMsg SMsg)) := [.boot, .spawn 1 true false]

deriving instance DecidableEq for Except
deriving instance DecidableEq for Eff

/-- Whom a supervisor shuts down obeys: the seven steps of a shutdown of `t`. -/
def supShut (t : Nat) : List (Choice Nat (GMsg SMsg)) := [.mine, .mine, .mine, .env (.drop t), .mine, .mine, .mine]

/-- A supervisor with two permanent children and `OneForAll`: one child (3) is killed, the other one (4) is shut down, both are restarted (5, 6), and then
the parent (1) makes the supervisor stop. -/
def supScript : List (Choice Nat (GMsg SMsg)) :=
  [.mine, .mine, .mine, .env (.exit 3 (.loc 3) .kill), .env (.drop 3), .mine] ++ supShut 4 ++
  [.mine, .mine, .env (.exit 1 (.loc 2) (.custom "shutdown")), .mine] ++ supShut 6 ++ supShut 5 ++ [.mine, .mine]

/-- What there is to see of an execution. -/
def seen (x : List (Op Nat (GMsg SMsg)) × Option (Log SMsg SState) × SState) : Option (Option ExitReason) × List Eff :=
  (x.2.1.map (·.ended), x.2.2.1.log)

def supRun (st : Strategy) (cs : List Spec) (script : List (Choice Nat (GMsg SMsg))) :=
  sim supSer 2 (Verif.World.run supSer init supStart) (supLife supConf (.loc 1) 5 (fresh st .never 3 5000 cs)) script

theorem supRun_exec {st : Strategy} {cs : List Spec} {script : List (Choice Nat (GMsg SMsg))} {Q : List (Op Nat (GMsg SMsg)) → Bool}
    {y : Option ExitReason × List Eff}
    (h : (supRun st cs script).map (fun x => (seen x, Q x.1)) = some ((some y.1, y.2), true)) :
    ∃ ops l σ, Exec supSer supConf.me (Verif.World.run supSer init supStart) (supLife supConf (.loc 1) 5 (fresh st .never 3 5000 cs)) ops (some l, σ) ∧
      l.ended = y.1 ∧ l.state.1.log = y.2 ∧ Q ops = true := by
  simp only [Option.map_eq_some_iff, Prod.mk.injEq] at h
  obtain ⟨⟨ops, l, σ⟩, h1, h2, h3⟩ := h
  have hx := sim_exec supSer 2 _ _ _ _ h1
  simp only [seen, Prod.mk.injEq, Option.map_eq_some_iff] at h2
  obtain ⟨⟨l, rfl, h4⟩, h5⟩ := h2
  have hσ : l.state = σ := by
    obtain ⟨os1, os2, q, -, -, h⟩ := exec_bind_inv hx
    rcases hq : q.2 with r | u
    · simp only [hq] at h
      obtain ⟨os3, os4, x, -, -, h⟩ := exec_bind_inv h
      obtain ⟨h, -⟩ := exec_ret_inv h
      simp at h
    · simp only [hq] at h
      obtain ⟨os3, os4, l', -, -, h⟩ := exec_bind_inv h
      obtain ⟨h, -⟩ := exec_ret_inv h
      simp only [Prod.mk.injEq, Option.some.injEq] at h
      rw [h.1, h.2]
  exact ⟨ops, l, σ, hx, h4, by rw [hσ]; exact h5, h3⟩

def supLog : List Eff := [.start "a" (.ok (.loc 3)), .start "b" (.ok (.loc 4)), .stop (.loc 4) (.duration 5000), .start "a" (.ok (.loc 5)),
  .start "b" (.ok (.loc 6)), .stop (.loc 6) (.duration 5000), .stop (.loc 5) (.duration 5000)]

/-- `Honest`, to be evaluated. -/
def honest? (me t : Nat) (ser : V → B) : World B V → List (Op B V) → Bool
  | _, [] => true
  | w, o :: os => (match o with
      | .exit i (.loc j) _ => !(i == t && j == me)
      | .link i (.loc j) => !(i == me && j == t) || decide (t < w.nextPid)
      | _ => true) && honest? me t ser (Verif.World.step ser w o).1 os

theorem honest_of {me t : Nat} {ser : V → B} {os : List (Op B V)} : ∀ {w : World B V}, honest? me t ser w os = true → Always ser (Honest me t) w os := by
  induction os with
  | nil => intro w _; trivial
  | cons o os ih =>
    intro w h
    simp only [honest?, Bool.and_eq_true] at h
    refine ⟨⟨?_, ?_⟩, ih h.2⟩
    · rintro r rfl; simp at h
    · rintro rfl; simpa using h.1

theorem supExec : ∃ ops l σ, Exec supSer supConf.me (Verif.World.run supSer init supStart)
    (supLife supConf (.loc 1) 5 (fresh .oneForAll .never 3 5000 [worker "a" .permanent, worker "b" .permanent])) ops (some l, σ) ∧
    l.ended = some (.custom "shutdown") ∧ l.state.1.log = supLog ∧ (honest? 2 3 supSer init (supStart ++ ops) &&
      honest? 2 4 supSer init (supStart ++ ops) && honest? 2 5 supSer init (supStart ++ ops) && honest? 2 6 supSer init (supStart ++ ops)) = true :=
  supRun_exec (script := supScript) (y := (some (.custom "shutdown"), supLog))
    (Q := fun ops => honest? 2 3 supSer init (supStart ++ ops) && honest? 2 4 supSer init (supStart ++ ops) &&
      honest? 2 5 supSer init (supStart ++ ops) && honest? 2 6 supSer init (supStart ++ ops)) (by decide +kernel)

/-- All four processes that this supervisor started are dead at the end. -/
example : ∃ ops, ∀ t ∈ [3, 4, 5, 6], (Verif.World.run supSer init (supStart ++ ops)).procs t = none := by
  obtain ⟨ops, l, σ, hx, he, hl, hh⟩ := supExec
  refine ⟨ops, ?_⟩
  have go : ∀ id t, honest? 2 t supSer init (supStart ++ ops) = true → .start id (.ok (.loc t)) ∈ supLog → _ := fun id t hh hm =>
    C113_none_left supConf supSer supConf_genuine supStart (.loc 1) 5 .oneForAll .never 3 5000 _ (by decide) (by decide) ops l σ hx _ he
      id t (by rw [hl]; exact hm) (honest_of hh)
  simp only [Bool.and_eq_true] at hh
  intro t ht
  simp only [List.mem_cons, List.not_mem_nil, or_false] at ht
  rcases ht with rfl | rfl | rfl | rfl
  · exact go "a" _ hh.1.1.1 (by simp [supLog])
  · exact go "b" _ hh.1.1.2 (by simp [supLog])
  · exact go "a" _ hh.1.2 (by simp [supLog])
  · exact go "b" _ hh.2 (by simp [supLog])

example : ∃ ops o s0 l, boot o (fresh .oneForAll .never 3 5000 [worker "a" .permanent, worker "b" .permanent]) = .up s0 ∧
    Lives o s0 (eventsOf id (Log.calls l)) l.state.1 (some (.custom "shutdown")) ∧
    Performs supConf supSer (Verif.World.run supSer init supStart) 0 supLog ops := by
  obtain ⟨ops, l, σ, hx, he, hl, -⟩ := supExec
  obtain ⟨o, s0, h1, h2, h3⟩ := C112_runs_machine supConf supSer _ ⟨_, rfl⟩ (.loc 1) 5 .oneForAll .never 3 5000 _ (by decide) (by decide) ops l σ hx
  exact ⟨ops, o, s0, l, h1, by rw [← he]; exact h2, by rw [← hl]; exact h3⟩

/-- C114 in the concrete execution: 4 is dead before 5 is started. -/
example : ∃ ops1 ops2 k, Performs supConf supSer (Verif.World.run supSer init supStart) 0
      [.start "a" (.ok (.loc 3)), .start "b" (.ok (.loc 4)), .stop (.loc 4) (.duration 5000)] ops1 ∧
    Performs supConf supSer (Verif.World.run supSer (Verif.World.run supSer init supStart) ops1) k
      [.start "a" (.ok (.loc 5)), .start "b" (.ok (.loc 6)), .stop (.loc 6) (.duration 5000), .stop (.loc 5) (.duration 5000)] ops2 ∧
    (Verif.World.run supSer (Verif.World.run supSer init supStart) ops1).procs 4 = none := by
  obtain ⟨ops, l, σ, hx, he, hl, -⟩ := supExec
  obtain ⟨ops1, ops2, k, -, h1, h2, h3⟩ := C114_one_at_a_time supConf supSer supConf_genuine _ ⟨_, rfl⟩ (.loc 1) 5 .oneForAll .never 3 5000 _ (by decide) (by decide)
    ops l σ hx [.start "a" (.ok (.loc 3)), .start "b" (.ok (.loc 4))] _ 4 (.duration 5000) hl
  exact ⟨ops1, ops2, k, h1, h2, h3⟩

/-- C114 in the concrete execution: 4 is told "shutdown". -/
example : ∃ mid : List (Op Nat (GMsg SMsg)), Says (.loc 4) (.duration 5000) (signals 2 mid) := by
  obtain ⟨ops, l, σ, hx, he, hl, -⟩ := supExec
  obtain ⟨ops1, mid, ops2, k, -, h1, h2, h3⟩ := C114_signals supConf supSer _ ⟨_, rfl⟩ (.loc 1) 5 .oneForAll .never 3 5000 _
    ops l σ hx [.start "a" (.ok (.loc 3)), .start "b" (.ok (.loc 4))] _ (.loc 4) (.duration 5000) hl
  exact ⟨mid, h3⟩

/-- Whether the history holds a retry for the child. -/
def asksFor (ops : List (Op Nat (GMsg SMsg))) (id : String) : Bool := ops.any fun o => match o with
  | .send 2 (.one (.pid (.loc 2))) (.cast (.tryAgainId i)) => i == id
  | _ => false

/-- A supervisor whose second run of a start routine fails. -/
def slowConf : Conf Nat (GMsg SMsg) := { supConf with
  startOf := fun n _ => if n = 1 then .ret (.error (.custom "bad")) else .op (.spawn 2 true false) fun r => .ret (spawnedAs r) }

/-- The child (3) is killed, its restart fails, the supervisor asks itself to try again, and the retry starts 4. -/
theorem retryExec : ∃ ops l σ, Exec supSer slowConf.me (Verif.World.run supSer init supStart)
    (supLife slowConf (.loc 1) 2 (fresh .oneForOne .never 3 5000 [worker "a" .permanent])) ops (some l, σ) ∧ asksFor ops "a" = true ∧
    σ.1.log = [.start "a" (.ok (.loc 3)), .start "a" (.error (.custom "bad")), .start "a" (.ok (.loc 4))] := by
  have h : (sim supSer 2 (Verif.World.run supSer init supStart) (supLife slowConf (.loc 1) 2 (fresh .oneForOne .never 3 5000 [worker "a" .permanent]))
      [.mine, .mine, .env (.exit 3 (.loc 3) .kill), .env (.drop 3), .mine, .mine, .mine, .mine]).map (fun x => (x.2.1.isSome, asksFor x.1 "a", (seen x).2)) =
      some (true, true, [.start "a" (.ok (.loc 3)), .start "a" (.error (.custom "bad")), .start "a" (.ok (.loc 4))]) := by decide +kernel
  simp only [Option.map_eq_some_iff, Prod.mk.injEq] at h
  obtain ⟨⟨ops, l, σ⟩, h1, h2, h3, h4⟩ := h
  have hx := sim_exec supSer 2 _ _ _ _ h1
  obtain ⟨l, rfl⟩ := Option.isSome_iff_exists.1 h2
  exact ⟨ops, l, σ, hx, h3, h4⟩

/-- C112 in this execution. -/
example : ∃ ops l d0 ds, PerformsD slowConf supSer (Verif.World.run supSer init supStart) 0 (d0 ++ ds) ops ∧ recasts d0 = [] ∧
    Retries (Log.calls l) ds ∧ asksFor ops "a" = true := by
  obtain ⟨ops, l, σ, hx, ha, -⟩ := retryExec
  obtain ⟨d0, ds, h1, -, h2, h3⟩ := C112_retries slowConf supSer _ ⟨_, rfl⟩ (.loc 1) 2 .oneForOne .never 3 5000 _ ops l σ hx
  exact ⟨ops, l, d0, ds, h1, h2, h3, ha⟩

/-- A supervisor whose second child fails to start: the first one (3) is shut down again. -/
theorem badExec : ∃ ops σ, Exec supSer supConf.me (Verif.World.run supSer init supStart)
    (supLife supConf (.loc 1) 5 (fresh .oneForOne .never 3 5000 [worker "a" .permanent, worker "bad" .permanent])) ops (none, σ) ∧
    σ.1.log = [.start "a" (.ok (.loc 3)), .start "bad" (.error (.custom "bad")), .stop (.loc 3) (.duration 5000)] := by
  have h : (supRun .oneForOne [worker "a" .permanent, worker "bad" .permanent] ([.mine, .mine] ++ supShut 3 ++ [.mine, .mine])).map seen =
      some (none, [.start "a" (.ok (.loc 3)), .start "bad" (.error (.custom "bad")), .stop (.loc 3) (.duration 5000)]) := by decide +kernel
  simp only [Option.map_eq_some_iff] at h
  obtain ⟨⟨ops, l, σ⟩, h1, h2⟩ := h
  have hx := sim_exec supSer 2 _ _ _ _ h1
  simp only [seen, Prod.mk.injEq, Option.map_eq_none_iff] at h2
  obtain ⟨rfl, h3⟩ := h2
  exact ⟨ops, σ, hx, h3⟩

example : ∃ ops, (Verif.World.run supSer (Verif.World.run supSer init supStart) ops).procs 3 = none := by
  obtain ⟨ops, σ, hx, hl⟩ := badExec
  exact ⟨ops, C113_init_fails supConf supSer supConf_genuine _ ⟨_, rfl⟩ (.loc 1) 5 .oneForOne .never 3 5000 _ (by decide) ops σ hx "a" 3 (by rw [hl]; simp)⟩

/-- A transient child (3) that sends the supervisor an Exit message with `Process::exit`; then the parent makes the supervisor stop. -/
def liarScript : List (Choice Nat (GMsg SMsg)) :=
  [.mine, .mine, .env (.exit 3 (.loc 2) (.custom "shutdown")), .mine, .env (.exit 1 (.loc 2) .normal), .mine, .mine, .mine]

/-- **C113** is violated: a child that calls `Process::exit(supervisor, "shutdown")` is forgotten although it is alive, and when the supervisor has stopped
normally the child is still there, even after the supervisor's process has been dropped. -/
theorem C113_none_left_violated : ∃ ops l σ, Genuine supConf supSer ∧
    Exec supSer supConf.me (Verif.World.run supSer init supStart) (supLife supConf (.loc 1) 5 (fresh .oneForOne .never 3 5000 [worker "a" .transient])) ops (some l, σ) ∧
    l.ended = some .normal ∧ .start "a" (.ok (.loc 3)) ∈ l.state.1.log ∧
    alive (Verif.World.run supSer init (supStart ++ ops ++ [.drop 2])) 3 = true ∧
    (Verif.World.run supSer init (supStart ++ ops ++ [.drop 2])).procs 2 = none := by
  obtain ⟨ops, l, σ, h1, h2, h3, h4⟩ := supRun_exec (st := .oneForOne) (cs := [worker "a" .transient]) (script := liarScript)
    (y := (some .normal, [.start "a" (.ok (.loc 3))]))
    (Q := fun ops => alive (Verif.World.run supSer init (supStart ++ ops ++ [.drop 2])) 3 &&
      !((Verif.World.run supSer init (supStart ++ ops ++ [.drop 2])).procs 2).isSome) (by decide +kernel)
  simp only [Bool.and_eq_true, Bool.not_eq_true', Option.isSome_eq_false_iff, Option.isNone_iff_eq_none] at h4
  exact ⟨ops, l, σ, supConf_genuine, h1, h2, by rw [h3]; simp, h4.1, h4.2⟩

end Verif.Sup
