import Verif.Server
import Verif.CallProps
/-!
# Servers (C58, C59)
-/
namespace Verif.World
open Verif.Mailbox
variable {B V M S R R' : Type}

/-! ## Specification of C58 -/

/-- The receive of the loop. -/
def anyMsg {T : Type} (τ : RecvType B V T) : RecvOp B V := ⟨T, τ, fun _ => true, true⟩

/-- The callback that a message is for; `none` for the messages that stop the server. -/
def callbackFor (parent : Pid) : Msg (GMsg M) → Option (Invoke M)
  | .user (.cast x) => some (.cast x)
  | .user (.call frm x) => some (.call x frm)
  | .user (.callReply _ x) => some (.info (.user x))
  | .user (.stop _) => none
  | .system (.exit p r) => if p = parent then none else some (.info (.system (.exit p r)))
  | .system s => some (.info (.system s))

/-- The messages that stop the server, with the reason. -/
def stopReason (parent : Pid) : Msg (GMsg M) → Option ExitReason
  | .user (.stop r) => some r
  | .system (.exit p r) => if p = parent then some r else none
  | _ => none

/-- The oldest message in the mailbox of `me` is `m`, and afterwards exactly it is gone. -/
def TakesOldest {T : Type} (τ : RecvType B V T) (me : Nat) (w w' : World B V) (m : Msg T) : Prop :=
  ∃ p p' it rest, w.procs me = some p ∧ w'.procs me = some p' ∧ contents p.box = it :: rest ∧ asMsg τ it = some m ∧
    contents p'.box = rest

/-- The state is threaded: every callback gets the state that the callback before it left. -/
def Threads : S → List (Record M S) → S → Prop
  | σ, [], σ' => σ = σ'
  | σ, r :: rs, σ' => r.before = σ ∧ Threads r.after rs σ'

/-- The callback of the record ran in the history `os` from `w`, with this state and these results. -/
def Ran (ser : V → B) (me : Nat) (srv : Server B V M S) (w : World B V) (os : List (Op B V)) (c : Record M S) : Prop :=
  match c.what with
  | .cast x => ∃ u, Exec ser me w (srv.cast c.before x) os (c.after, u) ∧ c.result = noReply u
  | .call x frm => Exec ser me w (srv.call c.before x frm) os (c.after, c.result)
  | .info m => ∃ u, Exec ser me w (srv.info c.before m) os (c.after, u) ∧ c.result = noReply u
  | .terminate r => Exec ser me w (srv.terminate c.before r) os c.after

/-- In the history `os` from `w` the process takes messages and runs callbacks alternately: every message is the oldest of
the mailbox when it is taken, it is taken only after the callback before it has returned, and the next callback runs after it
was taken. There may be one callback more at the end. -/
inductive Alternates (ser : V → B) (me : Nat) (srv : Server B V M S) (τ : RecvType B V (GMsg M)) :
    World B V → List (Op B V) → List (Msg (GMsg M)) → List (Record M S) → Prop
  | none (w os) : Alternates ser me srv τ w os [] []
  | next {w pre kind os post m c ms cs} :
      TakesOldest τ me (run ser w pre) (step ser (run ser w pre) (.recv me (anyMsg τ) kind)).1 m →
      Ran ser me srv (step ser (run ser w pre) (.recv me (anyMsg τ) kind)).1 os c →
      Alternates ser me srv τ (run ser w (pre ++ .recv me (anyMsg τ) kind :: os)) post ms cs →
      Alternates ser me srv τ w (pre ++ .recv me (anyMsg τ) kind :: (os ++ post)) (m :: ms) (c :: cs)
  | last {w pre os post c} : Ran ser me srv (run ser w pre) os c → Alternates ser me srv τ w (pre ++ (os ++ post)) [] [c]

/-- Why and how the loop ended, given the messages it took. -/
def EndsFor (parent : Pid) (msgs : List (Msg (GMsg M))) (calls : List (Record M S)) : Option ExitReason → Prop
  | none => (∀ m ∈ msgs, stopReason parent m = none) ∧ ∀ c ∈ calls, ∃ x, c.result = .ok x
  | some r => ∃ ms m, msgs = ms ++ [m] ∧ (∀ m ∈ ms, stopReason parent m = none) ∧
      ((stopReason parent m = some r ∧ ∀ c ∈ calls, ∃ x, c.result = .ok x) ∨
       (stopReason parent m = none ∧ ∃ cs c t, calls = cs ++ [c, t] ∧ c.result = .error r ∧ (∀ c ∈ cs, ∃ x, c.result = .ok x)))

/-- The server made itself exit with reason `r`, and its task ended. -/
def ExitsWith (ser : V → B) (me : Nat) (r : ExitReason) (w : World B V) (os : List (Op B V)) : Prop :=
  ∃ os1 os2 os3, os = os1 ++ .exit me (.loc me) r :: (os2 ++ .finish me :: os3) ∧ (∀ o ∈ os2, Others me o) ∧ (∀ o ∈ os3, Others me o) ∧
    ∃ p, (run ser w (os1 ++ [.exit me (.loc me) r])).procs me = some p ∧ p.reason = some r ∧ p.aborted = true

/-! ## Lemmas -/

theorem bind_ret (r : R) (k : R → Prog B V R') : (Prog.ret r : Prog B V R).bind k = k r := by rw [Prog.bind]
theorem bind_op (o : Op B V) (c : Res → Prog B V R) (k : R → Prog B V R') : (Prog.op o c).bind k = .op o fun x => (c x).bind k := by
  rw [Prog.bind]
theorem bind_wait (kind : RecvKind) (o : RecvOp B V) (t : Option (Prog B V R)) (c : Msg o.T → Prog B V R) (k : R → Prog B V R') :
    (Prog.wait kind o t c).bind k = .wait kind o (t.map (·.bind k)) fun x => (c x).bind k := by
  cases t <;> rw [Prog.bind] <;> rfl

theorem exec_bind_inv {ser : V → B} {me : Nat} {w : World B V} {p : Prog B V R} {k : R → Prog B V R'} {os : List (Op B V)} {r : R'}
    (h : Exec ser me w (p.bind k) os r) :
    ∃ os1 os2 x, os = os1 ++ os2 ∧ Exec ser me w p os1 x ∧ Exec ser me (run ser w os1) (k x) os2 r := by
  generalize hq : p.bind k = q at h
  induction h generalizing p with
  | ret w r =>
    cases p with
    | ret x => exact ⟨[], [], x, rfl, .ret _ _, by rw [bind_ret] at hq; rw [hq]; exact .ret _ _⟩
    | op o c => rw [bind_op] at hq; cases hq
    | wait kind o t c => rw [bind_wait] at hq; cases hq
  | env ho hx ih =>
    obtain ⟨os1, os2, x, rfl, h1, h2⟩ := ih hq
    exact ⟨_ :: os1, os2, x, rfl, .env ho h1, h2⟩
  | op hr hx ih =>
    cases p with
    | ret x => exact ⟨[], _, x, rfl, .ret _ _, by rw [bind_ret] at hq; rw [hq]; exact .op hr hx⟩
    | op o c =>
      rw [bind_op, Prog.op.injEq] at hq
      obtain ⟨rfl, rfl⟩ := hq
      obtain ⟨os1, os2, x, rfl, h1, h2⟩ := ih rfl
      exact ⟨_ :: os1, os2, x, rfl, .op hr h1, h2⟩
    | wait kind o t c => rw [bind_wait] at hq; cases hq
  | got hr hm hx ih =>
    cases p with
    | ret x => exact ⟨[], _, x, rfl, .ret _ _, by rw [bind_ret] at hq; rw [hq]; exact .got hr hm hx⟩
    | op o c => rw [bind_op] at hq; cases hq
    | wait kind o t c =>
      rw [bind_wait, Prog.wait.injEq] at hq
      obtain ⟨rfl, rfl, -, hk⟩ := hq
      simp at hk; subst hk
      obtain ⟨os1, os2, x, rfl, h1, h2⟩ := ih rfl
      exact ⟨_ :: os1, os2, x, rfl, .got hr hm h1, h2⟩
  | pending hr hm hx ih =>
    cases p with
    | ret x => exact ⟨[], _, x, rfl, .ret _ _, by rw [bind_ret] at hq; rw [hq]; exact .pending hr hm hx⟩
    | op o c => rw [bind_op] at hq; cases hq
    | wait kind o t c =>
      rw [bind_wait, Prog.wait.injEq] at hq
      obtain ⟨rfl, rfl, ht, hk⟩ := hq
      simp at hk; subst hk
      obtain ⟨os1, os2, x, rfl, h1, h2⟩ := ih (p := .wait .resume o t c) (by rw [bind_wait, ht])
      exact ⟨_ :: os1, os2, x, rfl, .pending hr hm h1, h2⟩
  | elapsed hx ih =>
    cases p with
    | ret x => exact ⟨[], _, x, rfl, .ret _ _, by rw [bind_ret] at hq; rw [hq]; exact .elapsed hx⟩
    | op o c => rw [bind_op] at hq; cases hq
    | wait kind o t c =>
      rw [bind_wait, Prog.wait.injEq] at hq
      obtain ⟨rfl, rfl, ht, hk⟩ := hq
      cases t with
      | none => simp at ht
      | some p =>
        simp at ht
        obtain ⟨os1, os2, x, rfl, h1, h2⟩ := ih ht
        exact ⟨os1, os2, x, rfl, .elapsed h1, h2⟩

/-- The process has ended or has nothing stashed. -/
def Unstashed (me : Nat) (w : World B V) : Prop := ∀ p, w.procs me = some p → p.ended = true ∨ p.box.items = []

theorem unstashed_others (ser : V → B) {me : Nat} {w : World B V} {o : Op B V} (ho : Others me o) (h : Unstashed me w) :
    Unstashed me (step ser w o).1 := by
  refine (step_acts ser w o).inv (I := Unstashed me) h ?_
  intro w' a ha h' p hp
  have e1 : pmap (·.box) (act w' a) me = some p.box := by simp [pmap, hp]
  have e2 : pmap (fun p => (p.reason, p.aborted, p.ended)) (act w' a) me = some (p.reason, p.aborted, p.ended) := by simp [pmap, hp]
  have hcal := ho.1
  rw [box_act] at e1
  rw [fate_act] at e2
  cases hq : w'.procs me with
  | none =>
    right
    cases a <;> simp [pmap, hq] at e1
    rw [← e1.2]
  | some q =>
    have h1 : q.ended = true → p.ended = true ∨ p.box.items = [] := by
      intro he
      cases a <;> simp only [pmap, hq, Option.map_some] at e2
      all_goals first
        | (simp at e2; left; rw [← e2.2.2]; exact he)
        | (split at e2
           · simp at e2 <;> first
             | (left; rw [← e2.2.2]; exact he)
             | (left; exact e2.2.2)
             | (subst_vars; exact absurd ha ho.2)
           · simp at e2; left; rw [← e2.2.2]; exact he)
        | skip
      split at e2
      · rename_i hm
        simp only [hm, if_true] at e1
        simp at e1
        right; rw [← e1]
      · simp at e2; left; rw [← e2.2.2]; exact he
    have h2 : q.box.items = [] → p.box.items = [] := by
      intro he
      cases a <;> simp only [pmap, hq, Option.map_some] at e1
      all_goals first
        | (simp at e1; rw [← e1]; exact he)
        | (split at e1
           · simp at e1 <;> rw [← e1] <;> exact he
           · simp at e1; rw [← e1]; exact he)
        | skip
      split at e1
      · subst_vars
        exact absurd rfl hcal
      · simp at e1; rw [← e1]; exact he
    exact (h' q hq).elim h1 (fun h => .inr (h2 h))

theorem step_recv {w : World B V} {me : Nat} (hr : running w me = true) (ser : V → B) (o : RecvOp B V) (kind : RecvKind) :
    (step ser w (.recv me o kind)).1 = recv w me o kind := by simp [step, Op.caller, hr, Op.exec]

/-- What a poll of the loop's receive does. -/
theorem poll_any {T : Type} (ser : V → B) (τ : RecvType B V T) {me : Nat} {w : World B V} (hre : Reachable ser w) (hr : running w me = true)
    (kind : RecvKind) (hk : kind = .select ∨ kind = .resume ∧ Unstashed me w) :
    match received w me (anyMsg τ) kind with
    | some m => TakesOldest τ me w (step ser w (.recv me (anyMsg τ) kind)).1 m
    | none => Unstashed me (step ser w (.recv me (anyMsg τ) kind)).1 := by
  rw [step_recv hr]
  cases hp : w.procs me with
  | none => simp [running, hp] at hr
  | some p =>
    have hwf := reach_wf hre me p hp
    have hend : p.ended = false := by simpa [running, hp] using hr
    have key : ∀ (res : Poll T) (b : Box B V), res = (pick τ (fun _ => true) true (contents p.box)).1 →
        (res ≠ .panicked → contents b = (pick τ (fun _ => true) true (contents p.box)).2) →
        (res = .pending → b.chan = []) →
        (∀ m, res = .got m → TakesOldest τ me w (modBox w me fun _ => b) m) ∧
        (res = .pending → Unstashed me (modBox w me fun _ => b)) ∧
        (res = .panicked → Unstashed me (crash (modBox w me fun _ => b) me "unsupported message")) := by
      intro res b h1 h2 h3
      have hbox : (modBox w me fun _ => b).procs me = some { p with box := b } := by simp [modBox, modProc, upd_at, hp]
      cases hc : contents p.box with
      | nil =>
        rw [hc] at h1 h2
        simp [pick] at h1
        subst h1
        simp [pick] at h2
        refine ⟨by simp, fun _ => ?_, by simp⟩
        intro q hq
        rw [hbox] at hq; simp at hq; subst hq
        right
        simp [contents] at h2; exact h2.1
      | cons it rest =>
        rw [hc] at h1 h2
        simp only [pick] at h1 h2
        cases hm : asMsg τ it with
        | none =>
          rw [hm] at h1 h2; simp at h1
          subst h1
          refine ⟨by simp, by simp, fun _ => ?_⟩
          intro q hq
          left
          simp [crash, modProc, upd_at, hbox] at hq
          subst hq; rfl
        | some m =>
          rw [hm] at h1 h2; simp at h1
          subst h1
          refine ⟨fun m' hm' => ?_, by simp, by simp⟩
          cases hm'
          exact ⟨p, { p with box := b }, it, rest, hp, hbox, hc, hm, by simpa using h2⟩
    rcases hk with rfl | ⟨rfl, hu⟩
    · have h := select_pick τ (fun _ => true) true p.box hwf
      have := key (Mailbox.select τ (fun _ => true) true p.box).1 (Mailbox.select τ (fun _ => true) true p.box).2 h.1 h.2.1 h.2.2.2
      simp only [received, recv, hp, anyMsg]
      generalize Mailbox.select τ (fun _ => true) true p.box = z at *
      obtain ⟨res, b⟩ := z
      cases res with
      | got m => exact this.1 m rfl
      | pending => exact this.2.1 rfl
      | panicked => exact this.2.2 rfl
    · have hi : p.box.items = [] := (hu p hp).resolve_left (by simp [hend])
      have h := scanChan_pick τ (fun _ => true) true p.box.items p.box.mons p.box.aliases p.box.chan hwf
      have hc : visible (p.box.mons.map Prod.fst) p.box.chan = contents p.box := by simp [contents, hi]
      rw [hc] at h
      have := key (Mailbox.resume τ (fun _ => true) true p.box).1 (Mailbox.resume τ (fun _ => true) true p.box).2 h.1
        (by intro hx; have := h.2.1 hx; rw [hi] at this; simpa [Mailbox.resume, hi] using this) h.2.2.2
      simp only [received, recv, hp, anyMsg]
      generalize Mailbox.resume τ (fun _ => true) true p.box = z at *
      obtain ⟨res, b⟩ := z
      cases res with
      | got m => exact this.1 m rfl
      | pending => exact this.2.1 rfl
      | panicked => exact this.2.2 rfl

/-- A round of the loop begins by taking the oldest message. -/
theorem loop_wait {T : Type} {ser : V → B} {τ : RecvType B V T} {me : Nat} {w : World B V} {k : Msg T → Prog B V R} {os : List (Op B V)}
    {r : R} (hre : Reachable ser w) (h : Exec ser me w (.wait .select (anyMsg τ) none k) os r) :
    ∃ os1 kind m os2, os = os1 ++ .recv me (anyMsg τ) kind :: os2 ∧
      TakesOldest τ me (run ser w os1) (step ser (run ser w os1) (.recv me (anyMsg τ) kind)).1 m ∧
      Exec ser me (step ser (run ser w os1) (.recv me (anyMsg τ) kind)).1 (k m) os2 r := by
  have gen : ∀ kind (_ : kind = .select ∨ kind = .resume ∧ Unstashed me w), Exec ser me w (.wait kind (anyMsg τ) none k) os r →
      ∃ os1 kind m os2, os = os1 ++ .recv me (anyMsg τ) kind :: os2 ∧
      TakesOldest τ me (run ser w os1) (step ser (run ser w os1) (.recv me (anyMsg τ) kind)).1 m ∧
      Exec ser me (step ser (run ser w os1) (.recv me (anyMsg τ) kind)).1 (k m) os2 r := by
    clear h
    intro kind hk h
    generalize hp : (Prog.wait kind (anyMsg τ) none k : Prog B V R) = p at h
    induction h generalizing kind with
    | env ho hx ih =>
      subst hp
      obtain ⟨os1, kind, m, os2, rfl, h1, h2⟩ := ih (reach_step hre _) kind
        (hk.imp id fun h => ⟨h.1, unstashed_others ser ho h.2⟩) rfl
      exact ⟨_ :: os1, kind, m, os2, rfl, h1, h2⟩
    | got hr hm hx ih =>
      cases hp
      have := poll_any ser τ hre hr _ hk
      rw [hm] at this
      exact ⟨[], _, _, _, rfl, this, hx⟩
    | pending hr hm hx ih =>
      cases hp
      have := poll_any ser τ hre hr _ hk
      rw [hm] at this
      obtain ⟨os1, kind', m, os2, rfl, h1, h2⟩ := ih (reach_step hre _) .resume (.inr ⟨rfl, this⟩) rfl
      exact ⟨_ :: os1, kind', m, os2, rfl, h1, h2⟩
    | elapsed => cases hp
    | _ => cases hp
  exact gen .select (.inl rfl) h

theorem exitSelf_reason (ser : V → B) (me : Nat) (r : ExitReason) (w : World B V) (hr : running w me = true) :
    ∃ p, (step ser w (.exit me (.loc me) r)).1.procs me = some p ∧ p.reason = some r ∧ p.aborted = true := by
  cases hp : w.procs me with
  | none => simp [running, hp] at hr
  | some p =>
    refine ⟨{ p with reason := some r, aborted := true }, ?_, rfl, rfl⟩
    cases r <;> simp [step, Op.caller, hr, Op.exec, exit, processExit, hp, terminate, modProc, upd_at]

theorem finish_inv {ser : V → B} {me : Nat} {srv : Server B V M S} {w : World B V} {σ : S} {r : ExitReason} {done : List (Record M S)}
    {os : List (Op B V)} {l : Log M S} (h : Exec ser me w (finishServer srv me σ r done) os l) :
    ∃ σ' os1 os2, l = ⟨done ++ [⟨.terminate r, σ, σ', .ok none⟩], some r, σ'⟩ ∧ os = os1 ++ os2 ∧
      Ran ser me srv w os1 ⟨.terminate r, σ, σ', .ok none⟩ ∧ ExitsWith ser me r w os := by
  obtain ⟨os1, os2, σ', rfl, h1, h2⟩ := exec_bind_inv h
  obtain ⟨os3, os4, rfl, h3, hr, h4⟩ := exec_op_inv h2
  obtain ⟨os5, os6, rfl, h5, -, h6⟩ := exec_op_inv h4
  obtain ⟨rfl, h7⟩ := exec_ret_inv h6
  refine ⟨σ', os1, _, rfl, rfl, h1, ?_⟩
  refine ⟨os1 ++ os3, os5, os6, by simp, h5, h7, ?_⟩
  have := exitSelf_reason ser me r _ hr
  rw [run_append, run_append]
  exact this

/-- What the theorem says about an execution of the loop. -/
def LoopSpec (ser : V → B) (me : Nat) (srv : Server B V M S) (τ : RecvType B V (GMsg M)) (parent : Pid) (n : Nat) (σ : S) (w : World B V)
    (os : List (Op B V)) (l : Log M S) : Prop :=
  ∃ msgs, Alternates ser me srv τ w os msgs l.calls ∧ (l.ended = none → msgs.length = n) ∧
    l.calls.map Record.what = msgs.filterMap (callbackFor parent) ++ (l.ended.map Invoke.terminate).toList ∧
    Threads σ l.calls l.state ∧ EndsFor parent msgs l.calls l.ended ∧
    (∀ r, l.ended = some r → ExitsWith ser me r w os) ∧
    (∀ c ∈ l.calls, ∀ x frm y, c.what = .call x frm → c.result = .ok (some y) → replyOp τ me frm y ∈ os)

theorem exits_pre {ser : V → B} {me : Nat} {r : ExitReason} {w : World B V} {pre os : List (Op B V)}
    (h : ExitsWith ser me r (run ser w pre) os) : ExitsWith ser me r w (pre ++ os) := by
  obtain ⟨os1, os2, os3, rfl, h1, h2, h3⟩ := h
  refine ⟨pre ++ os1, os2, os3, by simp, h1, h2, ?_⟩
  rw [List.append_assoc, run_append]; exact h3

theorem alternates_pre {ser : V → B} {me : Nat} {srv : Server B V M S} {τ : RecvType B V (GMsg M)} {w : World B V}
    {pre os : List (Op B V)} {ms : List (Msg (GMsg M))} {cs : List (Record M S)}
    (h : Alternates ser me srv τ (run ser w pre) os ms cs) : Alternates ser me srv τ w (pre ++ os) ms cs := by
  cases h with
  | none => exact .none _ _
  | @next _ pre' kind os' post m c ms cs h1 h2 h3 =>
    rw [← run_append ser w pre pre'] at h1 h2
    rw [← run_append ser w pre] at h3
    have := Alternates.next (ser := ser) (me := me) (srv := srv) (τ := τ) (w := w) (pre := pre ++ pre') (kind := kind) (os := os')
      (post := post) h1 h2 (by simpa using h3)
    simpa using this
  | @last _ pre' os' post c h1 =>
    rw [← run_append ser w pre pre'] at h1
    have := Alternates.last (ser := ser) (me := me) (srv := srv) (τ := τ) (w := w) (post := post) h1
    simpa using this

theorem alternates_post {ser : V → B} {me : Nat} {srv : Server B V M S} {τ : RecvType B V (GMsg M)} {w : World B V}
    {os os' : List (Op B V)} {ms : List (Msg (GMsg M))} {cs : List (Record M S)}
    (h : Alternates ser me srv τ w os ms cs) : Alternates ser me srv τ w (os ++ os') ms cs := by
  induction h with
  | none => exact .none _ _
  | next h1 h2 h3 ih => have := Alternates.next h1 h2 ih; simpa using this
  | @last _ pre os post c h => have := Alternates.last (srv := srv) (τ := τ) (post := post ++ os') h; simpa using this

/-- One round of the loop, given the rounds after it. -/
theorem loop_round {ser : V → B} {me : Nat} {srv : Server B V M S} {τ : RecvType B V (GMsg M)} {parent : Pid} {n : Nat} {w : World B V}
    {l : Log M S} {pre os1 mid os2 : List (Op B V)} {kind : RecvKind} {m : Msg (GMsg M)} {c : Record M S}
    (hre : Reachable ser w)
    (ih : ∀ (w : World B V) σ os l, Reachable ser w → Exec ser me w (serverLoop srv τ me parent n σ) os l →
      LoopSpec ser me srv τ parent n σ w os l)
    (ht : TakesOldest τ me (run ser w pre) (step ser (run ser w pre) (.recv me (anyMsg τ) kind)).1 m)
    (hm : callbackFor parent m = some c.what) (hs : stopReason parent m = none)
    (hran : Ran ser me srv (step ser (run ser w pre) (.recv me (anyMsg τ) kind)).1 os1 c)
    (hrep : ∀ x frm y, c.what = .call x frm → c.result = .ok (some y) → replyOp τ me frm y ∈ mid)
    (hx : Exec ser me (run ser w (pre ++ .recv me (anyMsg τ) kind :: (os1 ++ mid)))
      (afterCallback srv me c (serverLoop srv τ me parent n c.after)) os2 l) :
    LoopSpec ser me srv τ parent (n + 1) c.before w (pre ++ .recv me (anyMsg τ) kind :: (os1 ++ (mid ++ os2))) l := by
  have e1 : run ser w (pre ++ .recv me (anyMsg τ) kind :: (os1 ++ mid)) =
      run ser (run ser w (pre ++ .recv me (anyMsg τ) kind :: os1)) mid := by
    rw [← run_append]; simp
  have hre' : Reachable ser (run ser w (pre ++ .recv me (anyMsg τ) kind :: (os1 ++ mid))) := reach_run hre _
  cases hres : c.result with
  | ok x =>
    simp only [afterCallback, hres] at hx
    obtain ⟨os3, os4, l', rfl, hx', hl⟩ := exec_bind_inv hx
    obtain ⟨rfl, hoth⟩ := exec_ret_inv hl
    obtain ⟨msgs, h1, h2, h3, h4, h5, h6, h7⟩ := ih _ _ _ _ hre' hx'
    refine ⟨m :: msgs, ?_, ?_, ?_, ⟨rfl, h4⟩, ?_, ?_, ?_⟩
    · rw [e1] at h1
      have h1' := alternates_post (os' := os4) (alternates_pre h1)
      rw [List.append_assoc] at h1'
      exact .next ht hran h1'
    · intro he; simp [h2 he]
    · simp [hm, h3]
    · cases he : l'.ended with
      | none =>
        rw [he] at h5
        refine ⟨?_, ?_⟩
        · intro m' hm'; rcases List.mem_cons.1 hm' with rfl | h
          · exact hs
          · exact h5.1 _ h
        · intro c' hc'; rcases List.mem_cons.1 hc' with rfl | h
          · exact ⟨x, hres⟩
          · exact h5.2 _ h
      | some r =>
        rw [he] at h5
        obtain ⟨ms, m', rfl, h8, h9⟩ := h5
        refine ⟨m :: ms, m', rfl, ?_, ?_⟩
        · intro m' hm'; rcases List.mem_cons.1 hm' with rfl | h
          · exact hs
          · exact h8 _ h
        · rcases h9 with ⟨h9, h10⟩ | ⟨h9, cs, d, t, h10, h11, h12⟩
          · refine .inl ⟨h9, ?_⟩
            intro c' hc'; rcases List.mem_cons.1 hc' with rfl | h
            · exact ⟨x, hres⟩
            · exact h10 _ h
          · refine .inr ⟨h9, c :: cs, d, t, by simp [h10], h11, ?_⟩
            intro c' hc'; rcases List.mem_cons.1 hc' with rfl | h
            · exact ⟨x, hres⟩
            · exact h12 _ h
    · intro r hr
      obtain ⟨o1, o2, o3, rfl, h8, h9, h10⟩ := h6 r hr
      have := exits_pre (w := w) (pre := pre ++ .recv me (anyMsg τ) kind :: (os1 ++ mid))
        (os := o1 ++ .exit me (.loc me) r :: (o2 ++ .finish me :: o3) ++ os4) (r := r) (ser := ser) (me := me)
        ⟨o1, o2, o3 ++ os4, by simp, h8, by
          intro o ho; rcases List.mem_append.1 ho with h | h
          · exact h9 _ h
          · exact hoth _ h, h10⟩
      simpa using this
    · intro c' hc' x frm y hw hy
      rcases List.mem_cons.1 hc' with rfl | h
      · have := hrep x frm y hw hy; simp [this]
      · have := h7 _ h x frm y hw hy; simp [this]
  | error r =>
    simp only [afterCallback, hres] at hx
    obtain ⟨σ', os3, os4, rfl, rfl, h1, h2⟩ := finish_inv hx
    refine ⟨[m], ?_, by simp, by simp [hm], ⟨rfl, rfl, rfl⟩, ?_, ?_, ?_⟩
    · refine .next ht hran ?_
      rw [e1, ← run_append] at h1
      rw [run_append] at h1
      exact .last h1
    · refine ⟨[], m, rfl, by simp, .inr ⟨hs, [], c, _, rfl, hres, by simp⟩⟩
    · intro r' hr'
      cases hr'
      have := exits_pre h2
      simpa using this
    · intro c' hc' x frm y hw hy
      rcases List.mem_cons.1 hc' with rfl | h
      · have := hrep x frm y hw hy; simp [this]
      · simp at h; subst h; cases hw

theorem loop_stop {ser : V → B} {me : Nat} {srv : Server B V M S} {τ : RecvType B V (GMsg M)} {parent : Pid} {n : Nat} {w : World B V}
    {l : Log M S} {pre os2 : List (Op B V)} {kind : RecvKind} {m : Msg (GMsg M)} {σ : S} {r : ExitReason}
    (ht : TakesOldest τ me (run ser w pre) (step ser (run ser w pre) (.recv me (anyMsg τ) kind)).1 m)
    (hm : callbackFor parent m = none) (hs : stopReason parent m = some r)
    (hx : Exec ser me (step ser (run ser w pre) (.recv me (anyMsg τ) kind)).1 (finishServer srv me σ r []) os2 l) :
    LoopSpec ser me srv τ parent (n + 1) σ w (pre ++ .recv me (anyMsg τ) kind :: os2) l := by
  obtain ⟨σ', os3, os4, rfl, rfl, h1, h2⟩ := finish_inv hx
  refine ⟨[m], .next ht h1 (.none _ _), by simp, by simp [hm], ⟨rfl, rfl⟩, ?_, ?_, ?_⟩
  · refine ⟨[], m, rfl, by simp, .inl ⟨hs, ?_⟩⟩
    intro c hc; simp at hc; subst hc; exact ⟨_, rfl⟩
  · intro r' hr'
    cases hr'
    have e : (step ser (run ser w pre) (.recv me (anyMsg τ) kind)).1 = run ser w (pre ++ [.recv me (anyMsg τ) kind]) := by
      rw [run_append]; rfl
    rw [e] at h2
    have := exits_pre h2
    simpa using this
  · intro c' hc' x frm y hw hy
    simp at hc'; subst hc'; cases hw

/-- **C58.** Whatever else happens in the node, a GenServer process takes the messages of its mailbox one at a time, the oldest
first, and runs exactly the callback of each message before it takes the next one; every callback gets the state that the
callback before it left. A `stop` message, an exit signal of the parent or a callback that returns an error ends the loop:
`terminate` is invoked exactly once, as the last callback and with that reason, and then the process exits with that reason.
A `handle_call` that returns a reply has it sent to the caller. -/
theorem C58_serve (ser : V → B) (me : Nat) (srv : Server B V M S) (τ : RecvType B V (GMsg M)) (parent : Pid) (n : Nat) (σ : S)
    (w : World B V) (os : List (Op B V)) (l : Log M S) (hre : Reachable ser w)
    (h : Exec ser me w (serverLoop srv τ me parent n σ) os l) : LoopSpec ser me srv τ parent n σ w os l := by
  induction n generalizing w σ os l with
  | zero =>
    rw [serverLoop] at h
    obtain ⟨rfl, -⟩ := exec_ret_inv h
    exact ⟨[], .none _ _, by simp, by simp, rfl, ⟨by simp, by simp⟩, by simp, by simp⟩
  | succ n ih =>
    rw [serverLoop] at h
    obtain ⟨pre, kind, m, os2, rfl, ht, hx⟩ := loop_wait hre h
    have e : ∀ os', run ser (step ser (run ser w pre) (.recv me (anyMsg τ) kind)).1 os' =
        run ser w (pre ++ .recv me (anyMsg τ) kind :: os') := by
      intro os'; rw [run_append]; rfl
    have ih' : ∀ (w : World B V) σ os l, Reachable ser w → Exec ser me w (serverLoop srv τ me parent n σ) os l →
      LoopSpec ser me srv τ parent n σ w os l := fun w σ os l hw hx => ih σ w os l hw hx
    match m, ht, hx with
    | .user (.cast x), ht, hx =>
      obtain ⟨os1, os2, q, rfl, h1, h2⟩ := exec_bind_inv hx
      rw [e] at h2
      have := loop_round (c := ⟨.cast x, σ, q.1, noReply q.2⟩) (mid := []) hre ih' ht rfl rfl ⟨q.2, h1, rfl⟩ (by intro x frm y hw; cases hw)
        (by simpa using h2)
      simpa using this
    | .user (.call frm x), ht, hx =>
      obtain ⟨os1, os2, q, rfl, h1, h2⟩ := exec_bind_inv hx
      obtain ⟨σ', res⟩ := q
      rw [e] at h2
      have plain : (∀ y, res ≠ .ok (some y)) → Exec ser me (run ser w (pre ++ .recv me (anyMsg τ) kind :: os1))
          (afterCallback srv me ⟨.call x frm, σ, σ', res⟩ (serverLoop srv τ me parent n σ')) os2 l →
          LoopSpec ser me srv τ parent (n + 1) σ w (pre ++ .recv me (anyMsg τ) kind :: (os1 ++ os2)) l := by
        intro hno h2
        have := loop_round (c := ⟨.call x frm, σ, σ', res⟩) (mid := []) hre ih' ht rfl rfl h1
          (fun x frm y _ hy => absurd hy (hno y)) (by simpa using h2)
        simpa using this
      cases res with
      | error r => exact plain (by simp) h2
      | ok rep =>
        cases rep with
        | none => exact plain (by simp) h2
        | some y =>
          dsimp only at h2
          obtain ⟨os3, os4, rfl, h3, -, h4⟩ := exec_op_inv h2
          have := loop_round (c := ⟨.call x frm, σ, σ', .ok (some y)⟩) (mid := os3 ++ [replyOp τ me frm y]) (os2 := os4) hre ih' ht rfl rfl h1
            (by intro x' frm' y' hw hy; cases hw; cases hy; simp)
            (by
              have e2 : run ser w (pre ++ .recv me (anyMsg τ) kind :: (os1 ++ (os3 ++ [replyOp τ me frm y]))) =
                (step ser (run ser (run ser w (pre ++ .recv me (anyMsg τ) kind :: os1)) os3) (replyOp τ me frm y)).1 := by
                rw [show pre ++ .recv me (anyMsg τ) kind :: (os1 ++ (os3 ++ [replyOp τ me frm y])) =
                  (pre ++ .recv me (anyMsg τ) kind :: os1) ++ (os3 ++ [replyOp τ me frm y]) by simp,
                  run_append ser w (pre ++ .recv me (anyMsg τ) kind :: os1), run_append ser _ os3]
                rfl
              rw [e2]; exact h4)
          simpa using this
    | .user (.callReply t x), ht, hx =>
      obtain ⟨os1, os2, q, rfl, h1, h2⟩ := exec_bind_inv hx
      rw [e] at h2
      have := loop_round (c := ⟨.info (.user x), σ, q.1, noReply q.2⟩) (mid := []) hre ih' ht rfl rfl ⟨q.2, h1, rfl⟩
        (by intro x frm y hw; cases hw) (by simpa using h2)
      simpa using this
    | .user (.stop r), ht, hx => exact loop_stop ht rfl rfl hx
    | .system (.exit p r), ht, hx =>
      by_cases hp : p = parent
      · simp only [hp, if_true] at hx
        exact loop_stop ht (by simp [callbackFor, hp]) (by simp [stopReason, hp]) hx
      · simp only [if_neg hp] at hx
        obtain ⟨os1, os2, q, rfl, h1, h2⟩ := exec_bind_inv hx
        rw [e] at h2
        have := loop_round (c := ⟨.info (.system (.exit p r)), σ, q.1, noReply q.2⟩) (mid := []) hre ih' ht (by simp [callbackFor, hp])
          (by simp [stopReason, hp]) ⟨q.2, h1, rfl⟩ (by intro x frm y hw; cases hw) (by simpa using h2)
        simpa using this
    | .system (.processDown d t r), ht, hx =>
      obtain ⟨os1, os2, q, rfl, h1, h2⟩ := exec_bind_inv hx
      rw [e] at h2
      have := loop_round (c := ⟨.info (.system (.processDown d t r)), σ, q.1, noReply q.2⟩) (mid := []) hre ih' ht rfl rfl ⟨q.2, h1, rfl⟩
        (by intro x frm y hw; cases hw) (by simpa using h2)
      simpa using this
    | .system (.nodeDown d t), ht, hx =>
      obtain ⟨os1, os2, q, rfl, h1, h2⟩ := exec_bind_inv hx
      rw [e] at h2
      have := loop_round (c := ⟨.info (.system (.nodeDown d t)), σ, q.1, noReply q.2⟩) (mid := []) hre ih' ht rfl rfl ⟨q.2, h1, rfl⟩
        (by intro x frm y hw; cases hw) (by simpa using h2)
      simpa using this

/-! ## C59 -/

/-- `init` of the server `srv` with the state `σ` ran to its end in the last part of the history `os`, and returned `r`. -/
def InitReturned (ser : V → B) (me : Nat) (srv : Server B V M S) (σ : S) (w : World B V) (os : List (Op B V)) (r : Except ExitReason Unit) : Prop :=
  ∃ os1 os2 σ', os = os1 ++ os2 ∧ (∀ o ∈ os1, o.caller = some me → ∃ n, o = .register me (.loc me) n) ∧
    Exec ser me (run ser w os1) (srv.init σ) os2 (σ', r)

theorem register_inv {ser : V → B} {me : Nat} {name : Option String} {w : World B V} {os : List (Op B V)} {b : Bool}
    (h : Exec ser me w (registerProg me name) os b) :
    (∀ o ∈ os, o.caller = some me → ∃ n, name = some n ∧ o = .register me (.loc me) n) ∧ (∀ o ∈ os, o ≠ .drop me) ∧
    (name = none → b = true) ∧
    ∀ n, name = some n → ∃ os1 os2, os = os1 ++ .register me (.loc me) n :: os2 ∧ (b = true ↔ mayRegister (run ser w os1) (.loc me) n) ∧
      (b = true → (run ser w (os1 ++ [.register me (.loc me) n])).names n = some me) ∧
      (b = false → run ser w (os1 ++ [.register me (.loc me) n]) = run ser w os1) := by
  cases name with
  | none =>
    rw [registerProg] at h
    obtain ⟨rfl, h1⟩ := exec_ret_inv h
    exact ⟨fun o ho hc => absurd hc (h1 o ho).1, fun o ho => (h1 o ho).2, by simp, by simp⟩
  | some n =>
    rw [registerProg] at h
    obtain ⟨os1, os2, rfl, h1, hr, h2⟩ := exec_op_inv h
    have hb : (b = true ↔ ∃ u, (register (run ser w os1) (.loc me) n).2 = .ok u) ∧ ∀ o ∈ os2, Others me o := by
      simp only [step, Op.caller, hr, Op.exec] at h2
      cases hq : (register (run ser w os1) (.loc me) n).2 with
      | ok u =>
        simp only [hq] at h2
        obtain ⟨rfl, h3⟩ := exec_ret_inv h2
        exact ⟨by simp, h3⟩
      | error u =>
        simp only [hq] at h2
        obtain ⟨rfl, h3⟩ := exec_ret_inv h2
        exact ⟨by simp, h3⟩
    have hstep : run ser w (os1 ++ [.register me (.loc me) n]) = (register (run ser w os1) (.loc me) n).1 := by
      rw [run_append]
      show (step ser (run ser w os1) (.register me (.loc me) n)).1 = _
      simp only [step, Op.caller, hr, Op.exec, if_true]
    refine ⟨?_, ?_, by simp, ?_⟩
    · intro o ho hc
      rcases List.mem_append.1 ho with h | h
      · exact absurd hc (h1 o h).1
      · rcases List.mem_cons.1 h with rfl | h
        · exact ⟨n, rfl, rfl⟩
        · exact absurd hc (hb.2 o h).1
    · intro o ho
      rcases List.mem_append.1 ho with h | h
      · exact (h1 o h).2
      · rcases List.mem_cons.1 h with rfl | h
        · simp
        · exact (hb.2 o h).2
    · intro n' hn'
      cases hn'
      refine ⟨os1, os2, rfl, hb.1.trans (C26_register_iff _ _ _), ?_, ?_⟩
      · intro hbt
        rw [hstep]
        obtain ⟨u, hu⟩ := hb.1.1 hbt
        generalize run ser w os1 = v at hu
        unfold register at hu ⊢
        dsimp only at hu ⊢
        split at hu
        · rename_i j hj
          split at hu
          · rename_i hji; subst hji; simp [hj]
          · simp at hu
        · rename_i hn
          split at hu
          · simp at hu
          · split at hu
            · simp at hu
            · rename_i p hp _ hpn; simp [upd]
      · intro hbf
        rw [hstep]
        cases hq : (register (run ser w os1) (.loc me) n).2 with
        | ok u => have := hb.1.2 ⟨u, hq⟩; simp [hbf] at this
        | error u => exact C26_failure_unchanged _ _ _ _ hq

theorem exitSelf_inv {ser : V → B} {me : Nat} {r : ExitReason} {w : World B V} {os : List (Op B V)}
    (h : Exec ser me w (exitSelf me r) os ()) : ExitsWith ser me r w os := by
  obtain ⟨os1, os2, rfl, h1, hr, h2⟩ := exec_op_inv h
  obtain ⟨os3, os4, rfl, h3, -, h4⟩ := exec_op_inv h2
  obtain ⟨-, h5⟩ := exec_ret_inv h4
  refine ⟨os1, os3, os4, rfl, h3, h5, ?_⟩
  rw [run_append]
  exact exitSelf_reason ser me r _ hr

/-- **C59, success.** `start` returns a pid only if `init` has returned `Ok`; it is the pid of the new process, and if a name was
given, the process held that name when `init` began. -/
theorem C59_ok (ser : V → B) (me : Nat) (srv : Server B V M S) (name : Option String) (limited : Bool) (σ : S) (w : World B V)
    (os : List (Op B V)) (ran : Bool) (e : BootEnd S) (pid p : Pid) (h : Boots ser me srv name limited σ w os ran e)
    (hr : startResult pid e = .ok p) :
    p = pid ∧ ran = true ∧ InitReturned ser me srv σ w os (.ok ()) ∧
    ∀ n, name = some n → ∃ os1 os2, os = os1 ++ .register me (.loc me) n :: os2 ∧
      (run ser w (os1 ++ [.register me (.loc me) n])).names n = some me := by
  cases h with
  | @started os os' σ' h1 h2 =>
    obtain ⟨ha, -, -, hb⟩ := register_inv h1
    refine ⟨?_, rfl, ⟨os, os', σ', rfl, fun o ho hc => let ⟨n, _, h⟩ := ha o ho hc; ⟨n, h⟩, h2⟩, ?_⟩
    · simp [startResult, BootEnd.notify] at hr; exact hr.symm
    · intro n hn
      obtain ⟨os1, os2, rfl, -, h3, -⟩ := hb n hn
      exact ⟨os1, os2 ++ os', by simp, h3 rfl⟩
  | _ => simp [startResult, BootEnd.notify] at hr

/-- **C59, success, the other direction.** If the name could be registered (or none was given) and `init` returned `Ok`, then
`start` returns the pid. -/
theorem C59_ok_if (ser : V → B) (me : Nat) (srv : Server B V M S) (name : Option String) (limited : Bool) (σ σ' : S) (w : World B V)
    (os os' : List (Op B V)) (pid : Pid) (h : Exec ser me w (registerProg me name) os true)
    (h' : Exec ser me (run ser w os) (srv.init σ) os' (σ', .ok ())) :
    ∃ e, Boots ser me srv name limited σ w (os ++ os') true e ∧ startResult pid e = .ok pid :=
  ⟨_, .started h h', rfl⟩

/-- Why `start` failed with reason `r`. -/
inductive StartFailed (ser : V → B) (me : Nat) (srv : Server B V M S) (name : Option String) (limited : Bool) (σ : S) (w : World B V)
    (os : List (Op B V)) : Bool → ExitReason → Prop
  /-- The name could not be registered: the registration changed nothing, `init` was not invoked (the process did nothing but try
  to register and end). -/
  | already {n os1 os2} : name = some n → os = os1 ++ .register me (.loc me) n :: os2 →
      ¬ mayRegister (run ser w os1) (.loc me) n → run ser w (os1 ++ [.register me (.loc me) n]) = run ser w os1 →
      (∀ o ∈ os, o.caller = some me → o = .register me (.loc me) n ∨ o = .finish me) →
      StartFailed ser me srv name limited σ w os false (.custom "already_started")
  /-- `init` returned this reason, and the process exited with it. -/
  | init {r os1 os2} : os = os1 ++ os2 → InitReturned ser me srv σ w os1 (.error r) → ExitsWith ser me r (run ser w os1) os2 →
      StartFailed ser me srv name limited σ w os true r
  /-- The time was up before `init` had returned, and the process was made to exit. -/
  | timeout {os1 os2} : limited = true → os = os1 ++ os2 → ExitsWith ser me (.custom "timeout") (run ser w os1) os2 →
      StartFailed ser me srv name limited σ w os true (.custom "timeout")
  /-- The process died before `init` had returned. -/
  | died {os1 ran} : os = os1 ++ [.drop me] → doomed (run ser w os1) me = true →
      StartFailed ser me srv name limited σ w os ran (.custom "unknown")

/-- **C59, failure.** `start` fails only if the name could not be registered (then `init` is not invoked), `init` failed, the time was
up or the process died, and in the second and third case the half-started process is made to exit with the reported reason. -/
theorem C59_error (ser : V → B) (me : Nat) (srv : Server B V M S) (name : Option String) (limited : Bool) (σ : S) (w : World B V)
    (os : List (Op B V)) (ran : Bool) (e : BootEnd S) (pid : Pid) (r : ExitReason) (h : Boots ser me srv name limited σ w os ran e)
    (hr : startResult pid e = .error r) : StartFailed ser me srv name limited σ w os ran r := by
  cases h with
  | @taken os os' h1 h2 =>
    simp [startResult, BootEnd.notify] at hr; subst hr
    obtain ⟨ha, -, hn, hb⟩ := register_inv h1
    cases name with
    | none => simp at hn
    | some n =>
      obtain ⟨os1, os2, rfl, h3, -, h4⟩ := hb n rfl
      refine .already (n := n) (os1 := os1) (os2 := os2 ++ os') rfl (by simp) (fun h => by simpa using h3.2 h) (h4 rfl) ?_
      intro o ho hc
      obtain ⟨os3, os4, rfl, h5, -, h6⟩ := exec_op_inv h2
      obtain ⟨-, h7⟩ := exec_ret_inv h6
      rcases List.mem_append.1 ho with h | h
      · obtain ⟨n', hn', ho'⟩ := ha o h hc
        cases hn'; exact .inl ho'
      · rcases List.mem_append.1 h with h | h
        · exact absurd hc (h5 o h).1
        · rcases List.mem_cons.1 h with rfl | h
          · exact .inr rfl
          · exact absurd hc (h7 o h).1
  | started => simp [startResult, BootEnd.notify] at hr
  | @failed os os' os'' σ' r' h1 h2 h3 =>
    simp [startResult, BootEnd.notify] at hr; subst hr
    exact .init rfl ⟨os, os', σ', rfl, fun o ho hc => let ⟨n, _, h⟩ := (register_inv h1).1 o ho hc; ⟨n, h⟩, h2⟩ (exitSelf_inv h3)
  | @timedOut os os' os'' hl h1 h2 h3 =>
    simp [startResult, BootEnd.notify] at hr; subst hr
    exact .timeout hl rfl (exitSelf_inv h3)
  | diedEarly h1 h2 => simp [startResult, BootEnd.notify] at hr; subst hr; exact .died rfl h2
  | died h1 h2 h3 => simp [startResult, BootEnd.notify] at hr; subst hr; exact .died rfl h3

/-! ## Examples -/

/-- A server that counts: `cast n` adds `n`, a call replies with the sum and fails for `0`, and `init` fails for state 7. -/
def adder : Server Nat (GMsg Nat) Nat Nat where
  init s := if s = 7 then .ret (s, .error .kill) else .ret (s, .ok ())
  cast s n := .ret (s + n, .ok ())
  call s n _ := if n = 0 then .ret (s, .error (.custom "zero")) else .ret (s, .ok (some (s + n)))
  info s _ := .ret (s, .ok ())
  terminate s _ := .ret s

def anyNat : RecvOp Nat (GMsg Nat) := anyMsg natServer

/-- Process 1 has started process 2 and sends it a cast, then a call that fails. -/
def serveOps : List (Op Nat (GMsg Nat)) :=
  [.recv 2 anyNat .select, .send 1 (.one (.pid (.loc 2))) (.cast 5), .recv 2 anyNat .resume,
   .send 1 (.one (.pid (.loc 2))) (.call ⟨.loc 1, .loc 9, false⟩ 3), .send 1 (.one (.pid (.loc 2))) (.call ⟨.loc 1, .loc 10, false⟩ 0),
   .recv 2 anyNat .select, replyOp natServer 2 ⟨.loc 1, .loc 9, false⟩ 8, .recv 2 anyNat .select,
   .exit 2 (.loc 2) (.custom "zero"), .finish 2]

theorem serveExec : Exec noSer 2 (run noSer init twoProcs) (serverLoop adder natServer 2 (.loc 1) 10 0) serveOps
    ⟨[⟨.cast 5, 0, 5, .ok none⟩, ⟨.call 3 ⟨.loc 1, .loc 9, false⟩, 5, 5, .ok (some 8)⟩, ⟨.call 0 ⟨.loc 1, .loc 10, false⟩, 5, 5, .error (.custom "zero")⟩,
      ⟨.terminate (.custom "zero"), 5, 5, .ok none⟩], some (.custom "zero"), 5⟩ := by
  refine .pending rfl rfl (.env ⟨by simp [Op.caller], by simp⟩ (.got (m := .user (.cast 5)) rfl rfl ?_))
  refine .env ⟨by simp [Op.caller], by simp⟩ (.env ⟨by simp [Op.caller], by simp⟩ (.got (m := .user (.call ⟨.loc 1, .loc 9, false⟩ 3)) rfl rfl ?_))
  refine .op rfl (.got (m := .user (.call ⟨.loc 1, .loc 10, false⟩ 0)) rfl rfl (.op rfl (.op rfl ?_)))
  exact .ret _ _

example := C58_serve noSer 2 adder natServer (.loc 1) 10 0 _ _ _ ⟨twoProcs, rfl⟩ serveExec

/-- A start that succeeds, one that fails, one that is cut off, one whose name is taken. -/
example : ∃ os, Boots noSer 2 adder (some "adder") true 0 (run noSer init twoProcs) os true (.started 0) :=
  ⟨_, .started (os := [.register 2 (.loc 2) "adder"]) (.op rfl (.ret _ _)) (.ret _ _)⟩
example : ∃ os, Boots noSer 2 adder none true 7 (run noSer init twoProcs) os true (.failed .kill) :=
  ⟨_, .failed (.ret _ _) (.ret _ _) (.op rfl (.op rfl (.ret _ _)))⟩
example : ∃ os, Boots noSer 2 adder none true 0 (run noSer init twoProcs) os true .timedOut :=
  ⟨_, .timedOut rfl (.ret _ _) (.here _ _) (.op rfl (.op rfl (.ret _ _)))⟩
example : ∃ os, Boots noSer 2 adder (some "adder") true 0 (run noSer init (twoProcs ++ [.register 1 (.loc 1) "adder"])) os false .alreadyStarted :=
  ⟨_, .taken (os := [.register 2 (.loc 2) "adder"]) (.op rfl (.ret _ _)) (.op rfl (.ret _ _))⟩
example : ∃ os, Boots noSer 2 adder none true 0 (run noSer init twoProcs) os true .died :=
  ⟨_, .died (.ret _ _) (.env (o := .exit 1 (.loc 2) .kill) ⟨by simp [Op.caller], by simp⟩ (.here _ _)) rfl⟩

end Verif.World
