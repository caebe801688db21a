import Verif.SupProcExec
import Verif.LoopLemmas
/-!
# Properties C112, C113 and C114: the supervisor process in the node

C112: the process does what the state machine of `Supervisor.lean` does, and performs its effects one after the other. C113: a supervisor that has ended
leaves no process behind that it started. C114: what is shut down is dead before the next child is touched.
-/
namespace Verif.Sup
open Verif.World Verif.Mailbox
variable {B V : Type}

/-! ## Specification of C112 -/

/-- A handled message as an event of the state machine: when, what, the answer, and for a retry the id of the child. -/
structure Ev where
  now : Nat
  event : Event
  reply : Reply
  about : Option String := none

/-- The answer in a reply message. -/
def replyOf : Except ExitReason (Option SMsg) → Reply
  | .ok (some (.counts c)) => .counts c
  | .ok (some (.children l)) => .children l
  | .ok (some (.startChildIs r)) => .pid r
  | .ok (some (.restartChildIs r)) => .pid r
  | .ok (some (.terminateChildIs r)) => .done r
  | .ok (some (.deleteChildIs r)) => .done r
  | _ => .none

/-- The event that an invoked callback handles. A retry that names the process of no child is nothing. -/
def eventOf (c : Record SMsg SState) : Event × Option String :=
  match c.what with
  | .info (.system (.exit p r)) => (.exit p r, none)
  | .info _ => (.other, none)
  | .cast (.tryAgainId id) => (.retry, some id)
  | .cast (.tryAgainPid p) => match c.before.1.children.find? fun d => d.pid = some p with
    | some d => (.retry, some d.spec.id)
    | none => (.other, none)
  | .cast _ => (.other, none)
  | .call .countChildren _ => (.count, none)
  | .call .whichChildren _ => (.which, none)
  | .call (.startChild spec) _ => (.startChild spec, none)
  | .call (.terminateChild id) _ => (.terminateChild id, none)
  | .call (.restartChild id) _ => (.restartChild id, none)
  | .call (.deleteChild id) _ => (.deleteChild id, none)
  | .call _ _ => (.other, none)
  | .terminate r => (.stop r, none)

/-- The events of a history of the process: one per callback, but the `terminate` that follows a failed callback belongs to its event. -/
def eventsOf (clock : Nat → Nat) : List (Record SMsg SState) → List Ev
  | [] => []
  | c :: cs => ⟨clock c.before.2, (eventOf c).1, replyOf c.result, (eventOf c).2⟩ ::
      match c.result with
      | .error _ => []
      | .ok _ => eventsOf clock cs

/-- A life of the state machine. Which retries there are in its mailbox is up to the node (`cs`): a retry concerns the child that the message names. -/
inductive Lives (o : Oracle) : Sup → List Ev → Sup → Option ExitReason → Prop
  | nil (s) : Lives o s [] s none
  | next {s cs e s' es s'' q} : (e.event = .retry → cs.head? = e.about) → step o { s with casts := cs } e.now e.event = some (s', e.reply, none) →
      Lives o s' es s'' q → Lives o s (e :: es) s'' q
  | last {s cs e s' r} : (e.event = .retry → cs.head? = e.about) → step o { s with casts := cs } e.now e.event = some (s', e.reply, some r) →
      Lives o s [e] s' (some r)

/-! ## Lemmas -/

theorem step_casts {o : Oracle} {s : Sup} {now : Nat} {e : Event} {x : Sup × Reply × Option ExitReason} (h : step o s now e = some x) :
    ∃ cs, step o { s with casts := cs } now e = some x := ⟨s.casts, h⟩

theorem find_of_index {s : Sup} {p : Pid} {i : Nat} (h : indexOfPid s p = some i) :
    ∃ c, s.children[i]? = some c ∧ s.children.find? (fun d => d.pid = some p) = some c ∧ c.pid = some p := by
  obtain ⟨pre, c, post, hc, rfl, hp, hpre⟩ := findIdx_some _ _ _ h
  exact ⟨c, by rw [hc]; exact get_mid pre c post, by rw [hc]; exact find_mid _ pre post c hp hpre, by simpa using hp⟩

theorem index_of_uniq {s : Sup} (hu : Uniq s) {i : Nat} {c : Child} (h : s.children[i]? = some c) : indexOf s c.spec.id = some i := by
  have hi := (List.getElem?_eq_some_iff.1 h)
  obtain ⟨hlt, hg⟩ := hi
  have hsplit : s.children = s.children.take i ++ c :: s.children.drop (i + 1) := by
    rw [← hg]; simp
  have := findIdx_mid (fun d : Child => decide (d.spec.id = c.spec.id)) (s.children.take i) (s.children.drop (i + 1)) c (by simp) (by
    intro d hd
    have hn := hu.1
    rw [specs, hsplit] at hn
    simp only [List.map_append, List.map_cons, List.nodup_append, List.mem_map] at hn
    have := hn.2.2 d.spec.id ⟨d.spec, ⟨d, hd, rfl⟩, rfl⟩ c.spec.id (by simp)
    simp [this])
  rw [← hsplit] at this
  rw [indexOf, this]
  simp; omega

/-- `x` is the outcome of the event of a callback that returned `res` and left `s'`; after a failure the children are terminated. -/
def Turns (res : Except ExitReason (Option SMsg)) (s' : Sup) (x : Option (Sup × Reply × Option ExitReason)) : Prop :=
  match res with
  | .ok _ => x = some (s', replyOf res, none)
  | .error r => ∀ s1, terminateChildren s' = some s1 → x = some (s1, replyOf res, some r)

theorem turns_finish {res : Except ExitReason (Option SMsg)} {s' : Sup} {x : Option (Sup × Option ExitReason)} {q : Option ExitReason}
    (h1 : x = some (s', q)) (h2 : res = noReply (asResult q)) : Turns res s' (x.bind finish) := by
  subst h1; subst h2
  cases q with
  | none => rfl
  | some r =>
    intro s1 h1
    simp [finish, h1, replyOf, asResult, noReply]

/-- One callback of the process is one event of the state machine. -/
theorem does_step {o : Oracle} {clock : Nat → Nat} {c : Record SMsg SState} (hu : Uniq c.before.1) (hd : Does o clock c)
    (hnt : ∀ r, c.what ≠ .terminate r) :
    ∃ cs, ((eventOf c).1 = .retry → cs.head? = (eventOf c).2) ∧
      Turns c.result c.after.1 (step o { c.before.1 with casts := cs } (clock c.before.2) (eventOf c).1) := by
  obtain ⟨what, ⟨s, k⟩, ⟨s', k'⟩, res⟩ := c
  cases what with
  | terminate r => exact absurd rfl (hnt r)
  | info m =>
    cases m with
    | user m => obtain ⟨h1, rfl⟩ := hd; simp only at h1; subst h1; exact ⟨s'.casts, by simp [eventOf], rfl⟩
    | system y =>
      cases y with
      | exit p r =>
        obtain ⟨q, h1, h2⟩ := hd
        simp only at h1 h2
        refine ⟨s.casts, by simp [eventOf], ?_⟩
        exact turns_finish h1 h2
      | _ => obtain ⟨h1, rfl⟩ := hd; simp only at h1; subst h1; exact ⟨s'.casts, by simp [eventOf], rfl⟩
  | cast m =>
    cases m with
    | tryAgainId id =>
      refine ⟨id :: s.casts.erase id, by simp [eventOf], ?_⟩
      simp only [Does] at hd
      cases hi : indexOf s id with
      | none =>
        rw [hi] at hd
        obtain ⟨h1, rfl⟩ := hd
        have hi' : indexOf { s with casts := s.casts.erase id } id = none := hi
        simp [eventOf, step, hi', h1, replyOf, Turns]
      | some i =>
        rw [hi] at hd
        obtain ⟨q, h1, h2⟩ := hd
        have hi' : indexOf { s with casts := s.casts.erase id } id = some i := hi
        simp only [eventOf, step, hi']
        exact turns_finish h1 h2
    | tryAgainPid p =>
      simp only [Does] at hd
      cases hi : indexOfPid s p with
      | none =>
        rw [hi] at hd
        obtain ⟨h1, rfl⟩ := hd
        subst h1
        have hf : s'.children.find? (fun d => decide (d.pid = some p)) = none := by
          rw [List.find?_eq_none]
          simp only [indexOfPid, findIdx_none] at hi
          intro d hd; simpa using hi d hd
        refine ⟨s'.casts, by simp [eventOf, hf], ?_⟩
        simp [eventOf, hf, step, replyOf, Turns]
      | some i =>
        rw [hi] at hd
        obtain ⟨q, h1, h2⟩ := hd
        obtain ⟨c, hc1, hc2, hc3⟩ := find_of_index hi
        refine ⟨c.spec.id :: s.casts, by simp [eventOf, hc2], ?_⟩
        have hi' : indexOf { s with casts := s.casts } c.spec.id = some i := index_of_uniq hu hc1
        simp only [eventOf, hc2, step, hi']
        exact turns_finish h1 h2
    | _ => exact hd.elim
  | call m frm =>
    cases m with
    | countChildren => obtain ⟨h1, h2⟩ := hd; simp only at h1 h2; subst h1; subst h2; exact ⟨s'.casts, by simp [eventOf], rfl⟩
    | whichChildren => obtain ⟨h1, h2⟩ := hd; simp only at h1 h2; subst h1; subst h2; exact ⟨s'.casts, by simp [eventOf], rfl⟩
    | startChild spec =>
      obtain ⟨r, h1, rfl⟩ := hd
      simp only at h1
      exact ⟨s.casts, by simp [eventOf], by simp [eventOf, step, h1, replyOf, Turns]⟩
    | terminateChild id =>
      obtain ⟨r, h1, rfl⟩ := hd
      simp only at h1
      have h1' : terminateChild { s with casts := s.casts } id = some (s', r) := h1
      exact ⟨s.casts, by simp [eventOf], by simp [eventOf, step, h1', replyOf, Turns]⟩
    | restartChild id =>
      obtain ⟨r, h1, rfl⟩ := hd
      simp only at h1
      have h1' : restartChild o { s with casts := s.casts } id = some (s', r) := h1
      exact ⟨s.casts, by simp [eventOf], by simp [eventOf, step, h1', replyOf, Turns]⟩
    | deleteChild id =>
      obtain ⟨h1, h2⟩ := hd
      simp only at h1 h2
      subst h2
      have h3 : deleteChild { s with casts := s.casts } id = deleteChild s id := rfl
      exact ⟨s.casts, by simp [eventOf], by simp [eventOf, step, h1, replyOf, Turns]⟩
    | _ => exact hd.elim

theorem ready_casts {s : Sup} (h : Ready s) (cs : List String) : Ready { s with casts := cs } := h
theorem uniq_casts {s : Sup} (h : Uniq s) (cs : List String) : Uniq { s with casts := cs } := h

theorem chain_lives {o : Oracle} {clock : Nat → Nat} {σ σ' : SState} {cs : List (Record SMsg SState)} {q : Option ExitReason}
    (h : Chain o clock σ cs q σ') (hr : Ready σ.1) (hu : Uniq σ.1) :
    Lives o σ.1 (eventsOf clock cs) σ'.1 q := by
  induction h with
  | none => exact .nil _
  | @next c y cs q σ' hd hnt hct hok hch ih =>
    obtain ⟨casts, h1, h2⟩ := does_step hu hd hnt
    simp only [hok, Turns] at h2
    have hm := step_move (ready_casts hr casts) h2
    simp only [eventsOf, hok]
    exact .next h1 h2 (ih (move_ready (ready_casts hr casts) hm) (uniq_step (uniq_casts hu casts) (move_specs hm)))
  | @fail c r t hd hnt hok ht hb hdt =>
    obtain ⟨casts, h1, h2⟩ := does_step hu hd hnt
    simp only [hok, Turns] at h2
    simp only [Does, ht, hb] at hdt
    simp only [eventsOf, hok]
    exact .last h1 (h2 _ hdt)
  | @stop t r ht hr0 hdt =>
    simp only [Does, ht] at hdt
    simp only [eventsOf, hr0]
    refine .last (cs := t.before.1.casts) (by simp [eventOf, ht]) ?_
    have : terminateChildren { t.before.1 with casts := t.before.1.casts } = some t.after.1 := hdt
    simp [eventOf, ht, step, this, replyOf]

/-- What `init` does. -/
theorem init_does {cf : Conf B V} {ser : V → B} {w : World B V} {s : Sup} {k : Nat} {ops : List (Op B V)} {q : SState × Except ExitReason Unit}
    (hre : Reachable ser w) (hx : Exec ser cf.me w ((supServer cf).init (s, k)) ops q) :
    ∃ ds, PerformsD cf ser w s.calls ds ops ∧ q.1.1.log = s.log ++ effs ds ∧ q.1.1.calls = s.calls + (outs (effs ds)).length ∧
      q.1.1.casts = s.casts ++ recasts ds ∧ ∀ o, Agrees o s.calls (effs ds) → initChildren o s = some (q.1.1, q.2) := by
  obtain ⟨os1, os2, rfl, ho, -, h2⟩ := exec_op_inv hx
  obtain ⟨fx, h3, h4, h5, -, h5c, h6⟩ := callback (fun o => initChildren_same o s) (reach_step (reach_run hre os1) _) h2
  exact ⟨fx, performsD_pre (fun o h => .inl (ho o h)) (.other (.inr .trap) h3), h4, h5, h5c, h6⟩

/-- A whole life of the process: `init`, then the loop. -/
theorem life_parts (cf : Conf B V) (ser : V → B) (w : World B V) (hw : Reachable ser w) (parent : Pid) (n : Nat)
    (st : Strategy) (au : AutoShutdown) (mr md : Nat) (cs : List Spec)
    (ops : List (Op B V)) (l : Log SMsg SState) (σ : SState)
    (h : Exec ser cf.me w (supLife cf parent n (fresh st au mr md cs)) ops (some l, σ)) :
    ∃ o σ0, boot o (fresh st au mr md cs) = .up σ0.1 ∧ Chain o cf.clock σ0 l.calls l.ended l.state ∧
      (∃ d0 ds, PerformsD cf ser w 0 (d0 ++ ds) ops ∧ effs d0 = σ0.1.log ∧ recasts d0 = σ0.1.casts ∧ Parts l.calls ds ∧
        effs (d0 ++ ds) = l.state.1.log) ∧
      ∃ os1 os2 os3, ops = os1 ++ (os2 ++ os3) ∧ Exec ser cf.me w ((supServer cf).init (fresh st au mr md cs, 0)) os1 (σ0, .ok ()) ∧
        (∀ o ∈ os3, Others cf.me o) ∧ Exec ser cf.me (Verif.World.run ser w os1) (serverLoop (supServer cf) cf.type cf.me parent n σ0) os2 l := by
  obtain ⟨os1, os2, q, rfl, h1, h2⟩ := exec_bind_inv h
  obtain ⟨d0, p1, p2, p3, p5, p4⟩ := init_does hw h1
  rcases hq : q.2 with r | u
  · simp only [hq] at h2
    obtain ⟨os3, os4, x, rfl, h3, h4⟩ := exec_bind_inv h2
    obtain ⟨he, -⟩ := exec_ret_inv h4
    simp at he
  · simp only [hq] at h2
    obtain ⟨os3, os4, l', rfl, h3, h4⟩ := exec_bind_inv h2
    obtain ⟨he, ho⟩ := exec_ret_inv h4
    simp only [Prod.mk.injEq, Option.some.injEq] at he
    obtain ⟨rfl, -⟩ := he
    obtain ⟨ds, l1, l2, l3, l5, l4⟩ := loop_does cf ser parent n _ _ _ _ (reach_run hw os1) h3
    have hlog0 : q.1.1.log = effs d0 := by rw [p2]; simp [fresh, new]
    have hlog : l.state.1.log = effs (d0 ++ ds) := by rw [l2, hlog0, effs_append]
    have hcalls : (fresh st au mr md cs).calls = 0 := rfl
    rw [hcalls] at p1 p3 p4
    rw [p3] at l1 l4
    obtain ⟨o, hag⟩ : ∃ o, Agrees o 0 (effs (d0 ++ ds)) := ⟨_, agrees_of _ _⟩
    rw [effs_append d0 ds] at hag
    obtain ⟨a1, a2⟩ := agrees_append hag
    have hb : boot o (fresh st au mr md cs) = .up q.1.1 := by simp [boot, p4 _ a1, hq]
    refine ⟨o, q.1, hb, l4 _ a2, ⟨d0, ds, ?_, hlog0.symm, ?_, l5, hlog.symm⟩, os1, os3, os4, rfl, ?_, ho, h3⟩
    · exact performsD_append p1 (performsD_post l1 fun o h => .inl (ho o h))
    · rw [p5]; simp [fresh, new]
    · obtain ⟨σ0, res⟩ := q
      simp only at hq
      subst hq
      exact h1

/-- A whole life of the process. -/
theorem life_did (cf : Conf B V) (ser : V → B) (w : World B V) (hw : Reachable ser w) (parent : Pid) (n : Nat)
    (st : Strategy) (au : AutoShutdown) (mr md : Nat) (cs : List Spec)
    (ops : List (Op B V)) (l : Log SMsg SState) (σ : SState)
    (h : Exec ser cf.me w (supLife cf parent n (fresh st au mr md cs)) ops (some l, σ)) :
    ∃ o σ0, boot o (fresh st au mr md cs) = .up σ0.1 ∧ Chain o cf.clock σ0 l.calls l.ended l.state ∧
      (∃ d0 ds, PerformsD cf ser w 0 (d0 ++ ds) ops ∧ effs d0 = σ0.1.log ∧ recasts d0 = σ0.1.casts ∧ Parts l.calls ds ∧
        effs (d0 ++ ds) = l.state.1.log) ∧
      ∃ os1 os2 os3, ops = os1 ++ (os2 ++ os3) ∧
        Exec ser cf.me (Verif.World.run ser w os1) (serverLoop (supServer cf) cf.type cf.me parent n σ0) os2 l := by
  obtain ⟨o, σ0, h1, h2, h3, os1, os2, os3, h4, -, -, h5⟩ := life_parts cf ser w hw parent n st au mr md cs ops l σ h
  exact ⟨o, σ0, h1, h2, h3, os1, os2, os3, h4, h5⟩

theorem life_chain (cf : Conf B V) (ser : V → B) (w : World B V) (hw : Reachable ser w) (parent : Pid) (n : Nat)
    (st : Strategy) (au : AutoShutdown) (mr md : Nat) (cs : List Spec)
    (ops : List (Op B V)) (l : Log SMsg SState) (σ : SState)
    (h : Exec ser cf.me w (supLife cf parent n (fresh st au mr md cs)) ops (some l, σ)) :
    ∃ o σ0, boot o (fresh st au mr md cs) = .up σ0.1 ∧ Chain o cf.clock σ0 l.calls l.ended l.state ∧
      Performs cf ser w 0 l.state.1.log ops ∧ ∃ os1 os2 os3, ops = os1 ++ (os2 ++ os3) ∧
        Exec ser cf.me (Verif.World.run ser w os1) (serverLoop (supServer cf) cf.type cf.me parent n σ0) os2 l := by
  obtain ⟨o, σ0, h1, h2, ⟨d0, ds, h3, -, -, -, h4⟩, h5⟩ := life_did cf ser w hw parent n st au mr md cs ops l σ h
  have := h3.performs
  rw [h4] at this
  exact ⟨o, σ0, h1, h2, this, h5⟩

/-! ## Retries of the state machine -/

/-- The child whose start, the last effect, has failed. -/
def failedStart (fx : List Eff) : List String :=
  match fx.getLast? with
  | some (.start id (.error e)) => if e = .ignore then [] else [id]
  | _ => []

theorem failedStart_append {a b : List Eff} (h : failedStart a = []) : failedStart (a ++ b) = failedStart b := by
  cases b with
  | nil => simpa [failedStart] using h
  | cons x b => simp only [failedStart, List.getLast?_append, List.getLast?_cons]; rfl

theorem startAt_log {o : Oracle} {s : Sup} {i : Nat} {r : Sup × Except ExitReason (Option Pid)} (h : startAt o s i = some r) :
    r.1.casts = s.casts ∧ ∃ c x, r.1.children[i]? = some c ∧ r.1.log = s.log ++ [.start c.spec.id x] ∧
      failedStart [.start c.spec.id x] = if (errOf r.2).isSome then [c.spec.id] else [] := by
  simp only [startAt] at h
  cases hc : s.children[i]? with
  | none => simp [hc] at h
  | some c =>
    simp only [hc] at h
    split at h
    · generalize hx : o s.calls c.spec = x at h
      rcases x with (_ | _ | _ | _) | p <;> simp only [Option.some.injEq] at h <;> subst h <;>
        exact ⟨rfl, c, _, hc, rfl, by simp [failedStart, errOf]⟩
    · simp at h

/-- A loop of starts. -/
theorem startAll_log {o : Oracle} (is : List Nat) : ∀ {s : Sup} {r : Sup × Option (Nat × ExitReason)}, startAll o s is = some r →
    r.1.casts = s.casts ∧ ∃ fx, r.1.log = s.log ++ fx ∧ (match r.2 with
      | none => failedStart fx = []
      | some (j, _) => ∃ c, r.1.children[j]? = some c ∧ failedStart fx = [c.spec.id]) := by
  induction is with
  | nil =>
    intro s r h
    simp only [startAll, Option.some.injEq] at h
    subst h
    exact ⟨rfl, [], by simp, rfl⟩
  | cons i is ih =>
    intro s r h
    simp only [startAll] at h
    rcases hs : startAt o s i with _ | ⟨s1, e | pid⟩
    · simp [hs] at h
    · obtain ⟨h1, c, x, h2, h3, h4⟩ := startAt_log hs
      simp only [hs, Option.some.injEq] at h
      subst h
      exact ⟨h1, _, h3, c, h2, by simpa [errOf] using h4⟩
    · obtain ⟨h1, c, x, h2, h3, h4⟩ := startAt_log hs
      simp only [hs] at h
      obtain ⟨h5, fx, h6, h7⟩ := ih h
      have h4' : failedStart [.start c.spec.id x] = [] := by simpa [errOf] using h4
      refine ⟨h5.trans h1, .start c.spec.id x :: fx, by rw [h6]; simp only [started]; simp only at h3; rw [h3]; simp, ?_⟩
      rw [← List.singleton_append]
      obtain ⟨s2, _ | ⟨j, e⟩⟩ := r
      · exact (failedStart_append h4').trans h7
      · obtain ⟨c', g1, g2⟩ := h7
        exact ⟨c', g1, (failedStart_append h4').trans g2⟩

theorem terminateAt_log {s s' : Sup} {i : Nat} (h : terminateAt s i = some s') :
    s'.casts = s.casts ∧ ∃ fx, s'.log = s.log ++ fx ∧ failedStart fx = [] := by
  simp only [terminateAt] at h
  cases hc : s.children[i]? with
  | none => simp [hc] at h
  | some c =>
    simp only [hc] at h
    cases hp : c.pid with
    | none => simp only [hp, Option.some.injEq] at h; subst h; exact ⟨rfl, [], by simp, rfl⟩
    | some p => simp only [hp, Option.some.injEq] at h; subst h; exact ⟨rfl, _, rfl, rfl⟩

theorem terminateOthers_log (i : Nat) (js : List Nat) : ∀ {s s' : Sup}, terminateOthers s i js = some s' →
    s'.casts = s.casts ∧ ∃ fx, s'.log = s.log ++ fx ∧ failedStart fx = [] := by
  induction js with
  | nil =>
    intro s s' h
    simp only [terminateOthers, Option.some.injEq] at h
    subst h
    exact ⟨rfl, [], by simp, rfl⟩
  | cons j js ih =>
    intro s s' h
    simp only [terminateOthers] at h
    split at h
    · exact ih h
    · rw [Option.bind_eq_some_iff] at h
      obtain ⟨s1, h1, h2⟩ := h
      obtain ⟨a1, fx, a2, a3⟩ := terminateAt_log h1
      obtain ⟨b1, fx', b2, b3⟩ := ih h2
      exact ⟨b1.trans a1, fx ++ fx', by rw [b2, a2, List.append_assoc], (failedStart_append a3).trans b3⟩

theorem failed_log {s s' : Sup} {i : Nat} {c : Child} (hc : s.children[i]? = some c) (h : failed s i = some s') :
    s'.casts = s.casts ++ [c.spec.id] ∧ s'.log = s.log := by
  simp only [failed, hc, Option.some.injEq] at h
  subst h
  exact ⟨rfl, rfl⟩

/-- A restart asks for a retry of exactly the child whose start failed. -/
theorem restart_log {o : Oracle} {s s' : Sup} {i : Nat} (h : restart o s i = some s') :
    ∃ fx, s'.log = s.log ++ fx ∧ s'.casts = s.casts ++ failedStart fx := by
  have many : ∀ all, (match restartMany o s i all with
        | none => none
        | some (s, none) => some s
        | some (s, some (j, _)) => failed s j) = some s' → ∃ fx, s'.log = s.log ++ fx ∧ s'.casts = s.casts ++ failedStart fx := by
    intro all h
    rcases hm : restartMany o s i all with _ | r
    · simp [hm] at h
    · have hm' := hm
      simp only [restartMany, Option.bind_eq_some_iff] at hm'
      obtain ⟨s1, h1, h2⟩ := hm'
      obtain ⟨a1, fx, a2, a3⟩ := terminateOthers_log _ _ h1
      obtain ⟨b1, fx', b2, b3⟩ := startAll_log _ h2
      obtain ⟨s2, _ | ⟨j, e⟩⟩ := r
      · simp only [hm, Option.some.injEq] at h
        subst h
        exact ⟨fx ++ fx', by rw [b2, a2, List.append_assoc], by rw [failedStart_append a3, b3, b1, a1]; simp⟩
      · obtain ⟨c, g1, g2⟩ := b3
        simp only [hm] at h
        obtain ⟨f1, f2⟩ := failed_log g1 h
        exact ⟨fx ++ fx', by rw [f2, b2, a2, List.append_assoc], by rw [failedStart_append a3, g2, f1, b1, a1]⟩
  simp only [restart] at h
  cases hst : s.strategy with
  | oneForOne =>
    simp only [hst] at h
    rcases hs : startAt o s i with _ | ⟨s1, e | pid⟩
    · simp [hs] at h
    · obtain ⟨h1, c, x, h2, h3, h4⟩ := startAt_log hs
      simp only [hs] at h
      obtain ⟨f1, f2⟩ := failed_log h2 h
      exact ⟨_, by rw [f2, h3], by rw [f1, h4, h1]; simp [errOf]⟩
    · obtain ⟨h1, c, x, h2, h3, h4⟩ := startAt_log hs
      simp only [hs, Option.some.injEq] at h
      subst h
      exact ⟨_, h3, by rw [h4]; simpa [started, errOf] using h1⟩
  | restForOne => simp only [hst] at h; exact many false h
  | oneForAll => simp only [hst] at h; exact many true h

theorem tryAgain_log {o : Oracle} {s : Sup} {now i : Nat} {r : Sup × Option ExitReason} (h : tryAgain o s now i = some r) :
    ∃ fx, r.1.log = s.log ++ fx ∧ r.1.casts = s.casts ++ failedStart fx := by
  simp only [tryAgain] at h
  split at h
  · simp only [Option.some.injEq] at h; subst h; exact ⟨[], by simp [addRestart], by simp [addRestart, failedStart]⟩
  · cases hc : (addRestart s now).1.children[i]? with
    | none => simp [hc] at h
    | some c =>
      simp only [hc] at h
      split at h
      · simp only [Option.map_eq_some_iff] at h
        obtain ⟨s1, h1, rfl⟩ := h
        have := restart_log h1
        exact this
      · simp only [Option.some.injEq] at h; subst h; exact ⟨[], by simp [addRestart], by simp [addRestart, failedStart]⟩

theorem childExited_log {o : Oracle} {s : Sup} {now : Nat} {p : Pid} {reason : ExitReason} {r : Sup × Option ExitReason}
    (h : childExited o s now p reason = some r) : ∃ fx, r.1.log = s.log ++ fx ∧ r.1.casts = s.casts ++ failedStart fx := by
  simp only [childExited] at h
  cases hi : indexOfPid s p with
  | none => simp only [hi, Option.some.injEq] at h; subst h; exact ⟨[], by simp, by simp [failedStart]⟩
  | some i =>
    simp only [hi] at h
    cases hc : s.children[i]? with
    | none => simp [hc] at h
    | some c =>
      have again : (if (addRestart s now).2 = true then some ((addRestart s now).1, some shutdownReason)
          else (restart o (addRestart s now).1 i).map fun s => (s, none)) = some r →
          ∃ fx, r.1.log = s.log ++ fx ∧ r.1.casts = s.casts ++ failedStart fx := by
        intro h
        split at h
        · simp only [Option.some.injEq] at h; subst h; exact ⟨[], by simp [addRestart], by simp [addRestart, failedStart]⟩
        · simp only [Option.map_eq_some_iff] at h
          obtain ⟨s1, h1, rfl⟩ := h
          have := restart_log h1
          exact this
      have drop : ((removeChild s i).map fun r => (r.1, if autoStops r.1 r.2 = true then some shutdownReason else none)) = some r →
          ∃ fx, r.1.log = s.log ++ fx ∧ r.1.casts = s.casts ++ failedStart fx := by
        intro h
        simp only [Option.map_eq_some_iff] at h
        obtain ⟨r1, h1, rfl⟩ := h
        obtain ⟨-, h2, h3⟩ := removeChild_frame h1
        exact ⟨[], by simp [h2], by simp [h3, failedStart]⟩
      simp only [hc] at h
      split at h
      · exact again h
      · split at h
        · exact drop h
        · split at h
          · exact again h
          · exact drop h

theorem startChild_casts {o : Oracle} {s : Sup} {c : Spec} {r : Sup × Except SupError (Option Pid)} (h : startChild o s c = some r) :
    r.1.casts = s.casts := by
  simp only [startChild] at h
  split at h
  · split at h
    · simp at h
    · split at h <;> simp only [Option.some.injEq] at h <;> subst h <;> rfl
  · generalize hs : startAt o _ _ = x at h
    rcases x with _ | ⟨s1, e | pid⟩
    · simp at h
    · simp only [Option.some.injEq] at h; subst h; exact (startAt_log hs).1
    · simp only at h
      split at h <;> simp only [Option.some.injEq] at h <;> subst h <;> exact (startAt_log hs).1

theorem restartChild_casts {o : Oracle} {s : Sup} {id : String} {r : Sup × Except SupError (Option Pid)} (h : restartChild o s id = some r) :
    r.1.casts = s.casts := by
  simp only [restartChild] at h
  cases hi : indexOf s id with
  | none => simp only [hi, Option.some.injEq] at h; subst h; rfl
  | some i =>
    simp only [hi] at h
    cases hc : s.children[i]? with
    | none => simp [hc] at h
    | some c =>
      simp only [hc] at h
      split at h
      · simp only [Option.some.injEq] at h; subst h; rfl
      · split at h
        · simp only [Option.some.injEq] at h; subst h; rfl
        · rcases hs : startAt o s i with _ | ⟨s1, e | pid⟩ <;> simp only [hs, reduceCtorEq, Option.some.injEq] at h <;> subst h <;>
            exact (startAt_log hs).1

theorem terminateChild_casts {s : Sup} {id : String} {r : Sup × Except SupError Unit} (h : terminateChild s id = some r) :
    r.1.casts = s.casts := by
  simp only [terminateChild] at h
  cases hi : indexOf s id with
  | none => simp only [hi, Option.some.injEq] at h; subst h; rfl
  | some i =>
    simp only [hi, Option.map_eq_some_iff] at h
    obtain ⟨s1, h1, rfl⟩ := h
    exact (terminateAt_log h1).1

/-- `init` asks for no retry. -/
theorem boot_casts {o : Oracle} {s s0 : Sup} (h : boot o s = .up s0) : s0.casts = s.casts := by
  simp only [boot] at h
  rcases hi : initChildren o s with _ | ⟨s1, e | u⟩
  · simp [hi] at h
  · simp [hi] at h
  · simp only [hi, Status.up.injEq] at h
    subst h
    simp only [initChildren] at hi
    rcases hs : startChildren o s with _ | ⟨s2, e | u'⟩
    · simp [hs] at hi
    · simp only [hs, Option.map_eq_some_iff] at hi; simp at hi
    · simp only [hs, Option.some.injEq, Prod.mk.injEq] at hi
      obtain ⟨rfl, -⟩ := hi
      simp only [startChildren] at hs
      rcases ha : startAll o s (List.range s.children.length) with _ | ⟨s3, _ | x⟩
      · simp [ha] at hs
      · simp only [ha, Option.map_eq_some_iff, Prod.mk.injEq] at hs
        obtain ⟨s4, h4, rfl, -⟩ := hs
        exact (removeAll_frame _ h4).2.2.trans (startAll_log _ ha).1
      · simp [ha] at hs

/-- The retries that are due after a callback with these effects. -/
def retriesDue (what : Invoke SMsg) (fx : List Eff) : List String :=
  match what with
  | .info (.system (.exit _ _)) => failedStart fx
  | .cast _ => failedStart fx
  | _ => []

/-- The things done, callback by callback: the effects of each, and the retries that are due. -/
inductive Retries : List (Record SMsg SState) → List Did → Prop
  | nil : Retries [] []
  | cons {c cs a b} : c.after.1.log = c.before.1.log ++ effs a → recasts a = retriesDue c.what (effs a) → Retries cs b → Retries (c :: cs) (a ++ b)

theorem does_retries {o : Oracle} {clock : Nat → Nat} {c : Record SMsg SState} {a : List Did} (hd : Does o clock c)
    (hl : c.after.1.log = c.before.1.log ++ effs a) (hc : c.after.1.casts = taken c ++ recasts a) : recasts a = retriesDue c.what (effs a) := by
  obtain ⟨what, ⟨s, k⟩, ⟨s', k'⟩, res⟩ := c
  simp only at hl
  have log : ∀ {s0 : Sup}, s0.log = s.log → (∃ fx, s'.log = s0.log ++ fx ∧ s'.casts = s0.casts ++ failedStart fx) → s'.casts = s0.casts ++ failedStart (effs a) := by
    rintro s0 h0 ⟨fx, h1, h2⟩
    rw [h0, hl] at h1
    rw [List.append_cancel_left h1, h2]
  have none : taken ⟨what, (s, k), (s', k'), res⟩ = s.casts → s'.casts = s.casts → recasts a = [] := by
    intro h1 h2
    rw [h1] at hc
    simp only at hc
    rw [h2] at hc
    simpa using hc
  cases what with
  | terminate r =>
    refine none rfl ?_
    simp only [Does, terminateChildren_eq, Option.some.injEq] at hd
    rw [← hd]
  | info m =>
    cases m with
    | user m => obtain ⟨h1, -⟩ := hd; simp only at h1; subst h1; exact none rfl rfl
    | system y =>
      cases y with
      | exit p r =>
        obtain ⟨q, h1, -⟩ := hd
        have := log rfl (childExited_log h1)
        simp only [taken] at hc
        rw [this] at hc
        exact (List.append_cancel_left hc).symm
      | _ => obtain ⟨h1, -⟩ := hd; simp only at h1; subst h1; exact none rfl rfl
  | cast m =>
    cases m with
    | tryAgainId id =>
      simp only [Does] at hd
      simp only [taken] at hc
      cases hi : indexOf s id with
      | none =>
        rw [hi] at hd
        obtain ⟨rfl, -⟩ := hd
        have h1 : recasts a = [] := by simpa using hc
        have h2 : effs a = [] := by simpa using hl
        rw [h1, h2]; rfl
      | some i =>
        rw [hi] at hd
        obtain ⟨q, h1, -⟩ := hd
        have := log (s0 := { s with casts := s.casts.erase id }) rfl (tryAgain_log h1)
        rw [this] at hc
        exact (List.append_cancel_left hc).symm
    | tryAgainPid p =>
      simp only [Does] at hd
      simp only [taken] at hc
      cases hi : indexOfPid s p with
      | none =>
        rw [hi] at hd
        obtain ⟨rfl, -⟩ := hd
        have h1 : recasts a = [] := by simpa using hc
        have h2 : effs a = [] := by simpa using hl
        rw [h1, h2]; rfl
      | some i =>
        rw [hi] at hd
        obtain ⟨q, h1, -⟩ := hd
        have := log rfl (tryAgain_log h1)
        rw [this] at hc
        exact (List.append_cancel_left hc).symm
    | _ => exact hd.elim
  | call m frm =>
    cases m with
    | countChildren => obtain ⟨h1, -⟩ := hd; simp only at h1; subst h1; exact none rfl rfl
    | whichChildren => obtain ⟨h1, -⟩ := hd; simp only at h1; subst h1; exact none rfl rfl
    | startChild spec => obtain ⟨r, h1, -⟩ := hd; exact none rfl (startChild_casts h1)
    | terminateChild id => obtain ⟨r, h1, -⟩ := hd; exact none rfl (terminateChild_casts h1)
    | restartChild id => obtain ⟨r, h1, -⟩ := hd; exact none rfl (restartChild_casts h1)
    | deleteChild id =>
      obtain ⟨h1, -⟩ := hd
      simp only at h1
      exact none rfl (by rw [h1]; exact (delete_frame s id).2.2)
    | _ => exact hd.elim

theorem chain_retries {o : Oracle} {clock : Nat → Nat} {σ σ' : SState} {cs : List (Record SMsg SState)} {q : Option ExitReason}
    (h : Chain o clock σ cs q σ') : ∀ {ds}, Parts cs ds → Retries cs ds := by
  induction h with
  | none => intro ds hp; cases hp; exact .nil
  | @next c y cs q σ' hd hnt hct hok hch ih =>
    intro ds hp
    cases hp with
    | cons h1 h2 h3 => exact .cons h1 (does_retries hd h1 h2) (ih h3)
  | @fail c r t hd hnt hok ht hb hdt =>
    intro ds hp
    cases hp with
    | cons h1 h2 h3 => cases h3 with
      | cons h4 h5 h6 => cases h6; exact .cons h1 (does_retries hd h1 h2) (.cons h4 (does_retries hdt h4 h5) .nil)
  | @stop t r ht hr0 hdt =>
    intro ds hp
    cases hp with
    | cons h4 h5 h6 => cases h6; exact .cons h4 (does_retries hdt h4 h5) .nil

/-! ## C112 -/

/-- **C112**: whatever the others do meanwhile, and whatever programs its start routines are, a supervisor process that has come up and handled any
number of messages has made, message by message, the decisions of the state machine of `Supervisor.lean` (`Lives`: its children, its answers, whether
and why it ended), for some outcomes of the start routines; and what it has done in the node is to run the start routines and shutdowns that the state
machine logs, in that order and one at a time, with exactly the outcomes logged. -/
theorem C112_runs_machine (cf : Conf B V) (ser : V → B) (w : World B V) (hw : Reachable ser w) (parent : Pid) (n : Nat)
    (st : Strategy) (au : AutoShutdown) (mr md : Nat) (cs : List Spec) (hs : ∀ c ∈ cs, c.hasStart = true) (hd : (cs.map (·.id)).Nodup)
    (ops : List (Op B V)) (l : Log SMsg SState) (σ : SState)
    (h : Exec ser cf.me w (supLife cf parent n (fresh st au mr md cs)) ops (some l, σ)) :
    ∃ o s0, boot o (fresh st au mr md cs) = .up s0 ∧ Lives o s0 (eventsOf cf.clock l.calls) l.state.1 l.ended ∧
      Performs cf ser w 0 l.state.1.log ops := by
  obtain ⟨o, σ0, hb, hc, hp, -⟩ := life_chain cf ser w hw parent n st au mr md cs ops l σ h
  obtain ⟨i1, i2, -⟩ := fresh_inv _ st au mr md cs hs hd _ hb
  exact ⟨o, σ0.1, hb, chain_lives hc i1 i2, hp⟩

/-- **C112**: the supervisor asks itself to try again exactly when it should: in `init` never, and while it handles an exit or a retry exactly if the
last thing it did was a start routine that failed, and then exactly once, with a message to itself that names this child. All else that it sends outside
of its start routines and shutdowns is replies. -/
theorem C112_retries (cf : Conf B V) (ser : V → B) (w : World B V) (hw : Reachable ser w) (parent : Pid) (n : Nat)
    (st : Strategy) (au : AutoShutdown) (mr md : Nat) (cs : List Spec)
    (ops : List (Op B V)) (l : Log SMsg SState) (σ : SState)
    (h : Exec ser cf.me w (supLife cf parent n (fresh st au mr md cs)) ops (some l, σ)) :
    ∃ d0 ds, PerformsD cf ser w 0 (d0 ++ ds) ops ∧ effs (d0 ++ ds) = l.state.1.log ∧ recasts d0 = [] ∧ Retries l.calls ds := by
  obtain ⟨o, σ0, h1, h2, ⟨d0, ds, h3, -, h5, h6, h4⟩, -⟩ := life_did cf ser w hw parent n st au mr md cs ops l σ h
  refine ⟨d0, ds, h3, h4, ?_, chain_retries h2 h6⟩
  rw [h5, boot_casts h1]; rfl

/-- **C112**: a supervisor process whose `init` fails has done what the state machine says: it has run the start routines up to the one that failed,
and shut down the children that it had started. -/
theorem C112_init_fails (cf : Conf B V) (ser : V → B) (w : World B V) (hw : Reachable ser w) (parent : Pid) (n : Nat)
    (st : Strategy) (au : AutoShutdown) (mr md : Nat) (cs : List Spec)
    (ops : List (Op B V)) (σ : SState)
    (h : Exec ser cf.me w (supLife cf parent n (fresh st au mr md cs)) ops (none, σ)) :
    ∃ o r, boot o (fresh st au mr md cs) = .stopped σ.1 r ∧ Performs cf ser w 0 σ.1.log ops := by
  obtain ⟨os1, os2, q, rfl, h1, h2⟩ := exec_bind_inv h
  obtain ⟨ds, p1, p2, p3, -, p4⟩ := init_does hw h1
  rcases hq : q.2 with r | u
  · simp only [hq] at h2
    obtain ⟨os3, os4, x, rfl, h3, h4⟩ := exec_bind_inv h2
    obtain ⟨he, ho⟩ := exec_ret_inv h4
    simp only [Prod.mk.injEq, true_and] at he
    subst he
    obtain ⟨os5, os6, rfl, h5, -, h6⟩ := exec_op_inv h3
    obtain ⟨os7, os8, rfl, h7, -, h8⟩ := exec_op_inv h6
    obtain ⟨-, h9⟩ := exec_ret_inv h8
    have hlog : q.1.1.log = effs ds := by rw [p2]; simp [fresh, new]
    refine ⟨oracleOf 0 (effs ds), r, by simp [boot, p4 _ (agrees_of 0 (effs ds)), hq], ?_⟩
    rw [hlog]
    refine performs_post p1.performs ?_
    intro o hmem
    simp only [List.mem_append, List.mem_cons] at hmem
    rcases hmem with (h | rfl | h | rfl | h) | h
    · exact .inl (h5 o h)
    · exact .inr (.inl (.exit r))
    · exact .inl (h7 o h)
    · exact .inr (.inl .finish)
    · exact .inl (h9 o h)
    · exact .inl (ho o h)
  · simp only [hq] at h2
    obtain ⟨os3, os4, l', rfl, h3, h4⟩ := exec_bind_inv h2
    obtain ⟨he, ho⟩ := exec_ret_inv h4
    simp at he

end Verif.Sup
