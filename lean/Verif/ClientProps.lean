import Verif.WorldWf
/-!
# Stopping servers and children (C60, C71)
-/
namespace Verif.World
open Verif.Mailbox
variable {B V : Type}

/-- The local process addressed by `d` (when the call looked it up, somewhere in the history `os` that starts in `w`) has died
since, with reason `e`, and is gone; or there was none, which is reported as `noproc`. -/
def ServerDied (ser : V → B) (w : World B V) (os : List (Op B V)) (d : Dest) (e : ExitReason) : Prop :=
  ∃ os1 os2, os = os1 ++ os2 ∧
    ((∃ t, targetOf (run ser w os1) d = some t ∧ Died ser (run ser w os1) os2 t e ∧ (run ser w os).procs t = none) ∨
     (targetOf (run ser w os1) d = none ∧ e = .custom "noproc"))

/-- A local server, addressed by pid (not the caller's own) or by name. -/
def LocalServer (me : Nat) (d : Dest) : Prop := (∃ t, d = .pid (.loc t) ∧ t ≠ me) ∨ ∃ n, d = .named n .loc

theorem target_lt {ser : V → B} {w : World B V} (hr : Reachable ser w) {d : Dest} {t : Nat} (h : targetOf w d = some t) : t < w.nextPid := by
  have : exists? w t = true := by
    unfold targetOf at h
    split at h
    · split at h <;> simp_all
    · rename_i n
      cases hn : w.names n with
      | none => simp [hn] at h
      | some v => simp [hn] at h; exact h.2 ▸ h.1
    · rename_i r
      cases hn : w.aliases r with
      | none => simp [hn] at h
      | some v => simp [hn] at h; exact h.2 ▸ h.1
    · simp at h
  rcases Nat.lt_or_ge t w.nextPid with h' | h'
  · exact h'
  · simp [exists?, reach_bounded hr t h'] at this

theorem run_nextPid_le (ser : V → B) (w : World B V) (os : List (Op B V)) : w.nextPid ≤ (run ser w os).nextPid := by
  induction os generalizing w with
  | nil => exact Nat.le_refl _
  | cons o os ih => exact Nat.le_trans (step_mono_counters ser w o).1 (ih _)

/-- From the Down that ended a wait to the death of the server. -/
theorem serverDied_of (ser : V → B) (w : World B V) (hr : Reachable ser w) (me : Nat) (d : Dest) (al : Option Bool)
    (hd : LocalServer me d) (os1 os2 os3 : List (Op B V)) (hrun : running (run ser w os1) me = true)
    (hos : ∀ o ∈ os2, o ≠ .demonitor me (.loc (run ser w os1).nextRef) ∧ o ≠ .drop me)
    (o : RecvOp B V) (k : RecvKind) (d' : Dest) (e : ExitReason)
    (hrec : received (run ser (step ser (run ser w os1) (monOp me d al)).1 os2) me o k =
      some (.system (.processDown d' (.loc (run ser w os1).nextRef) e))) :
    ServerDied ser w (os1 ++ monOp me d al :: os2 ++ os3) d e := by
  have hr1 := reach_run hr os1
  have hr2 := reach_run (reach_step hr1 (monOp me d al)) os2
  have hdown := received_down _ (reach_delivered hr2) (reach_noConverted hr2) me o k d' _ e hrec
  refine ⟨os1, monOp me d al :: os2 ++ os3, by simp, ?_⟩
  rcases down_tells ser _ hr1 me d al hrun hd os2 hos d' e me hdown with ⟨t, h1, h2, h3⟩ | h
  · refine .inl ⟨t, h1, ?_, ?_⟩
    · have := (Died.prepend (os' := [monOp me d al]) (w := run ser w os1) h2).append os3
      simpa using this
    · have hlt : t < (run ser w os1).nextPid := target_lt hr1 h1
      have hlt2 : t < (run ser (step ser (run ser w os1) (monOp me d al)).1 os2).nextPid :=
        Nat.lt_of_lt_of_le hlt (Nat.le_trans (step_mono_counters ser _ _).1 (run_nextPid_le ser _ _))
      have := (absent_run ser _ os3 t hlt2 h3).1
      rw [List.append_assoc, run_append, List.cons_append, run_cons, run_append]
      exact this
  · exact .inr h

theorem isDown_inv {T : Type} (r : Ref) (m : Msg T) (h : isDown r m = true) : ∃ d e, m = .system (.processDown d r e) := by
  unfold isDown at h
  split at h
  · simp at h; subst h; exact ⟨_, _, rfl⟩
  · simp at h

theorem waiting_ok (me : Nat) (o : RecvOp B V) (x : Op B V) (n : Nat) (h : Waiting me o x) :
    x ≠ .demonitor me (.loc n) ∧ x ≠ .drop me := by
  rcases h with ⟨h1, h2⟩ | ⟨k, rfl⟩
  · refine ⟨?_, h2⟩; rintro rfl; exact h1 rfl
  · exact ⟨by simp, by simp⟩

theorem others_ok (me : Nat) (x : Op B V) (n : Nat) (h : Others me x) : x ≠ .demonitor me (.loc n) ∧ x ≠ .drop me := by
  refine ⟨?_, h.2⟩; rintro rfl; exact h.1 rfl

/-! ## C60 -/

/-- The executions of `stop`: the monitor, the stop message, the wait; then either the Down or, if limited, the timeout. -/
theorem stop_inv {M : Type} {τ : RecvType B V (GMsg M)} {ser : V → B} {me : Nat} {w : World B V} {d : Dest} {reason : ExitReason}
    {limited : Bool} {ops : List (Op B V)} {res : Except ExitReason Unit}
    (h : Exec ser me w (stopProg τ me d reason limited) ops res) :
    ∃ os1 os2, running (run ser w os1) me = true ∧
      (∀ o ∈ os2, o ≠ .demonitor me (.loc (run ser w os1).nextRef) ∧ o ≠ .drop me) ∧
      .send me (.one d) (τ.box (.stop reason)) ∈ os2 ∧
      ((∃ o k d' e os3, ops = os1 ++ monOp me d none :: os2 ++ os3 ∧
          received (run ser (step ser (run ser w os1) (monOp me d none)).1 os2) me o k =
            some (.system (.processDown d' (.loc (run ser w os1).nextRef) e)) ∧
          res = if reason = e then .ok () else .error e) ∨
       (limited = true ∧ res = .error (.custom "timeout"))) := by
  obtain ⟨os1, os', rfl, h1, hrun, h⟩ := exec_op_inv h
  have href : (step ser (run ser w os1) (.monitor me d)).2 = .ref (.loc (run ser w os1).nextRef) := by
    have := step_monOp ser (run ser w os1) me d none hrun
    exact congrArg Prod.snd this
  rw [href] at h
  dsimp only at h
  obtain ⟨os2, os3, rfl, h2, -, h⟩ := exec_op_inv h
  obtain ⟨os4, os5, rfl, h4, h⟩ := exec_wait_inv h
  refine ⟨os1, os2 ++ .send me (.one d) (τ.box (.stop reason)) :: os4, hrun, ?_, by simp, ?_⟩
  · intro o ho
    rcases List.mem_append.1 ho with ho | ho
    · exact others_ok me o _ (h2 o ho)
    · rcases List.mem_cons.1 ho with rfl | ho
      · exact ⟨by simp, by simp⟩
      · exact waiting_ok me _ o _ (h4 o ho)
  · rcases h with ⟨k, m, os6, hm, rfl, -, hx⟩ | ⟨p, hp, hx⟩
    · left
      have hf := (received_item _ me _ k m hm).1
      obtain ⟨d', e, rfl⟩ := isDown_inv _ m hf
      refine ⟨⟨GMsg M, τ, isDown (.loc (run ser w os1).nextRef), false⟩, k, d', e, .recv me ⟨GMsg M, τ, isDown (.loc (run ser w os1).nextRef), false⟩ k :: os6, by simp [monOp], ?_, (exec_ret_inv hx).1⟩
      rw [run_append, run_cons]
      exact hm
    · right
      cases limited with
      | false => simp at hp
      | true =>
        simp at hp
        subst hp
        obtain ⟨os7, os8, -, -, -, hx⟩ := exec_op_inv hx
        exact ⟨rfl, (exec_ret_inv hx).1⟩

/-- C60. If `stop` on a local server (by pid or name), run by any process after any history and in any interleaving with all
other processes, returns success, then the server has died with exactly the requested reason during the call and is gone
(or there was no such server and the requested reason is `noproc`). -/
theorem C60_success {M : Type} (τ : RecvType B V (GMsg M)) (ser : V → B) (os0 ops : List (Op B V)) (me : Nat) (d : Dest)
    (reason : ExitReason) (limited : Bool) (hd : LocalServer me d)
    (h : Exec ser me (run ser init os0) (stopProg τ me d reason limited) ops (.ok ())) :
    ServerDied ser (run ser init os0) ops d reason := by
  obtain ⟨os1, os2, hrun, hos, -, h⟩ := stop_inv h
  rcases h with ⟨o, k, d', e, os3, rfl, hrec, hres⟩ | ⟨-, hres⟩
  · split at hres
    · subst reason
      exact serverDied_of ser _ ⟨os0, rfl⟩ me d none hd os1 os2 os3 hrun hos o k d' e hrec
    · simp at hres
  · simp at hres

/-- C60. If it returns an error, then either the time was limited and it is the timeout, or the server has died with that
reason, which is not the requested one. -/
theorem C60_error {M : Type} (τ : RecvType B V (GMsg M)) (ser : V → B) (os0 ops : List (Op B V)) (me : Nat) (d : Dest)
    (reason e : ExitReason) (limited : Bool) (hd : LocalServer me d)
    (h : Exec ser me (run ser init os0) (stopProg τ me d reason limited) ops (.error e)) :
    (limited = true ∧ e = .custom "timeout") ∨ (e ≠ reason ∧ ServerDied ser (run ser init os0) ops d e) := by
  obtain ⟨os1, os2, hrun, hos, -, h⟩ := stop_inv h
  rcases h with ⟨o, k, d', e', os3, rfl, hrec, hres⟩ | ⟨hl, hres⟩
  · split at hres
    · simp at hres
    · rename_i hne
      simp at hres
      subst hres
      exact .inr ⟨Ne.symm hne, serverDied_of ser _ ⟨os0, rfl⟩ me d none hd os1 os2 os3 hrun hos o k d' e hrec⟩
  · simp at hres; exact .inl ⟨hl, hres⟩

/-- C60, any server, local or remote: success means that a Down carrying the requested reason was delivered to the caller for
the monitor of this very call (a reference that did not exist before it), after the stop message was sent. -/
theorem C60_success_any {M : Type} (τ : RecvType B V (GMsg M)) (ser : V → B) (os0 ops : List (Op B V)) (me : Nat) (d : Dest)
    (reason : ExitReason) (limited : Bool)
    (h : Exec ser me (run ser init os0) (stopProg τ me d reason limited) ops (.ok ())) :
    ∃ d' n, (run ser init os0).nextRef ≤ n ∧ (me, .down d' (.loc n) reason) ∈ (run ser (run ser init os0) ops).sent ∧
      .send me (.one d) (τ.box (.stop reason)) ∈ ops := by
  obtain ⟨os1, os2, hrun, hos, hsend, h⟩ := stop_inv h
  rcases h with ⟨o, k, d', e, os3, rfl, hrec, hres⟩ | ⟨-, hres⟩
  · split at hres
    · subst reason
      have hr : Reachable ser (run ser (step ser (run ser (run ser init os0) os1) (monOp me d none)).1 os2) :=
        reach_run (reach_step (reach_run ⟨os0, rfl⟩ os1) _) os2
      have hdown := received_down _ (reach_delivered hr) (reach_noConverted hr) me o k d' _ e hrec
      refine ⟨d', (run ser (run ser init os0) os1).nextRef, ?_, ?_, ?_⟩
      · have : ∀ (os : List (Op B V)) (w : World B V), w.nextRef ≤ (run ser w os).nextRef := by
          intro os
          induction os with
          | nil => intro w; exact Nat.le_refl _
          | cons o os ih => intro w; exact Nat.le_trans (step_mono_counters ser w o).2 (ih _)
        exact this os1 _
      · have hmono : ∀ (os : List (Op B V)) (w : World B V) x, x ∈ w.sent → x ∈ (run ser w os).sent := by
          intro os w x hx
          exact run_inv ser (fun w => x ∈ w.sent) (fun w a => sent_mono_act w a x) os w hx
        rw [List.append_assoc, run_append, List.cons_append, run_cons, run_append]
        exact hmono _ _ _ hdown
      · simp [hsend]
    · simp at hres
  · simp at hres

/-! ## C71 -/

/-- The exit signals that `me` asks for in a history. -/
def exitsBy (me : Nat) (os : List (Op B V)) : List (Pid × ExitReason) :=
  os.filterMap fun o => match o with
    | .exit i p r => if i = me then some (p, r) else none
    | _ => none

theorem exitsBy_append (me : Nat) (a b : List (Op B V)) : exitsBy me (a ++ b) = exitsBy me a ++ exitsBy me b := by
  simp [exitsBy, List.filterMap_append]

theorem exitsBy_nil (me : Nat) (l : List (Op B V)) (h : ∀ x ∈ l, ∀ p r, x ≠ .exit me p r) : exitsBy me l = [] := by
  simp only [exitsBy, List.filterMap_eq_nil_iff]
  intro x hx
  cases x <;> simp
  rename_i i p r
  rintro rfl
  exact h _ hx p r rfl

theorem exitsBy_others (me : Nat) (l : List (Op B V)) (h : ∀ x ∈ l, Others me x) : exitsBy me l = [] :=
  exitsBy_nil me l fun x hx p r he => (h x hx).1 (by rw [he]; rfl)

theorem exitsBy_waiting (me : Nat) (o : RecvOp B V) (l : List (Op B V)) (h : ∀ x ∈ l, Waiting me o x) : exitsBy me l = [] := by
  refine exitsBy_nil me l fun x hx p r he => ?_
  rcases h x hx with h | ⟨k, h⟩
  · exact h.1 (by rw [he]; rfl)
  · rw [he] at h; simp at h

theorem exitsBy_cons (me : Nat) (o : Op B V) (l : List (Op B V)) (h : ∀ p r, o ≠ .exit me p r) : exitsBy me (o :: l) = exitsBy me l := by
  have : o :: l = [o] ++ l := rfl
  rw [this, exitsBy_append, exitsBy_nil me [o] (by simpa using h), List.nil_append]

theorem exitsBy_exit (me : Nat) (p : Pid) (r : ExitReason) (l : List (Op B V)) :
    exitsBy me (.exit me p r :: l) = (p, r) :: exitsBy me l := by simp [exitsBy]

theorem flush_inv {u : RecvType B V Unit} {ser : V → B} {me : Nat} {w : World B V} {pid : Pid} {ops : List (Op B V)}
    {res : Except ExitReason Unit} (h : Exec ser me w (unlinkFlush u me pid) ops res) :
    res = .ok () ∧ (∃ os1 os2, ops = os1 ++ .recv me ⟨Unit, u, isExitOf pid, false⟩ .remove :: os2 ∧ (∀ o ∈ os2, Others me o) ∧
      running (run ser w os1) me = true) ∧ exitsBy me ops = [] := by
  obtain ⟨os1, os2, rfl, g1, -, h⟩ := exec_op_inv h
  obtain ⟨os3, os4, rfl, g3, hr, h⟩ := exec_op_inv h
  obtain ⟨h1, h2⟩ := exec_ret_inv h
  refine ⟨h1, ⟨os1 ++ .unlink me pid :: os3, os4, by simp, h2, ?_⟩, ?_⟩
  · rw [run_append, run_cons]; exact hr
  · rw [exitsBy_append, exitsBy_others me os1 g1, exitsBy_cons _ _ _ (by simp), exitsBy_append, exitsBy_others me os3 g3,
      exitsBy_cons _ _ _ (by simp), exitsBy_others me os4 h2]; rfl

/-- The shape of every end of a shutdown: a Down for the monitor was received, after operations that keep the monitor, then
the link was removed and the mailbox flushed. -/
structure EndedBy (ser : V → B) (u : RecvType B V Unit) (me : Nat) (pid : Pid) (n : Nat) (w : World B V) (ops : List (Op B V)) : Prop where
  ended : ∃ os2 os3 o k d' e, ops = os2 ++ os3 ∧ (∀ o ∈ os2, o ≠ .demonitor me (.loc n) ∧ o ≠ .drop me) ∧
    received (run ser w os2) me o k = some (.system (.processDown d' (.loc n) e)) ∧
    ∃ os4 os5, os3 = os4 ++ .recv me ⟨Unit, u, isExitOf pid, false⟩ .remove :: os5 ∧ (∀ o ∈ os5, Others me o) ∧
      running (run ser w (os2 ++ os4)) me = true ∧ exitsBy me os3 = []

theorem brutal_inv {u : RecvType B V Unit} {ser : V → B} {me : Nat} {w : World B V} {pid : Pid} {n : Nat} {ops : List (Op B V)}
    {res : Except ExitReason Unit} (h : Exec ser me w (brutalKill u me pid (.loc n)) ops res) :
    res = .ok () ∧ EndedBy ser u me pid n w ops ∧ exitsBy me ops = [(pid, .kill)] := by
  obtain ⟨os1, os2, rfl, h1, -, h⟩ := exec_op_inv h
  obtain ⟨os3, os4, rfl, h3, h⟩ := exec_wait_inv h
  rcases h with ⟨k, m, os6, hm, rfl, -, hx⟩ | ⟨p, hp, -⟩
  · obtain ⟨hres, ⟨os7, os8, rfl, ho8, hr8⟩, hex⟩ := flush_inv hx
    obtain ⟨d', e, rfl⟩ := isDown_inv _ m (received_item _ me _ k m hm).1
    refine ⟨hres, ⟨os1 ++ .exit me pid .kill :: os3,
      .recv me ⟨Unit, u, isDown (.loc n), false⟩ k :: (os7 ++ .recv me ⟨Unit, u, isExitOf pid, false⟩ .remove :: os8),
      ⟨Unit, u, isDown (.loc n), false⟩, k, d', e, by simp, ?_, ?_,
      .recv me ⟨Unit, u, isDown (.loc n), false⟩ k :: os7, os8, by simp, ho8, ?_, ?_⟩, ?_⟩
    · intro o ho
      rcases List.mem_append.1 ho with ho | ho
      · exact others_ok me o _ (h1 o ho)
      · rcases List.mem_cons.1 ho with rfl | ho
        · exact ⟨by simp, by simp⟩
        · exact waiting_ok me _ o _ (h3 o ho)
    · rw [run_append, run_cons]; exact hm
    · rw [List.append_assoc, run_append, List.cons_append, run_cons, run_append, run_cons]; exact hr8
    · rw [exitsBy_cons _ _ _ (by simp), hex]
    · rw [exitsBy_append, exitsBy_others me os1 h1, exitsBy_exit, exitsBy_append, exitsBy_waiting me _ os3 h3,
        exitsBy_cons _ _ _ (by simp), hex]; rfl
  · simp at hp

theorem EndedBy.prepend {ser : V → B} {u : RecvType B V Unit} {me : Nat} {pid : Pid} {n : Nat} {w : World B V}
    {os' ops : List (Op B V)} (h : EndedBy ser u me pid n (run ser w os') ops)
    (hos : ∀ o ∈ os', o ≠ .demonitor me (.loc n) ∧ o ≠ .drop me) : EndedBy ser u me pid n w (os' ++ ops) := by
  obtain ⟨os2, os3, o, k, d', e, rfl, h1, h2, os4, os5, h3, h4, h5, h6⟩ := h
  refine ⟨os' ++ os2, os3, o, k, d', e, by simp, ?_, by rw [run_append]; exact h2, os4, os5, h3, h4, ?_, h6⟩
  · intro x hx
    rcases List.mem_append.1 hx with hx | hx
    · exact hos x hx
    · exact h1 x hx
  · rw [List.append_assoc, run_append]; exact h5

/-- The exit signals of each mode: a brutal kill sends just the kill; an unlimited shutdown just `shutdown`; one with a time
limit sends `shutdown` and perhaps the kill. -/
def ModeSignals (pid : Pid) : ShutdownMode → List (Pid × ExitReason) → Prop
  | .brutalKill, l => l = [(pid, .kill)]
  | .duration, l => l = [(pid, .custom "shutdown")] ∨ l = [(pid, .custom "shutdown"), (pid, .kill)]
  | .infinity, l => l = [(pid, .custom "shutdown")]

/-- The executions of `shutdown`. -/
theorem shutdown_inv {u : RecvType B V Unit} {ser : V → B} {me : Nat} {w : World B V} {pid : Pid} {mode : ShutdownMode}
    {ops : List (Op B V)} {res : Except ExitReason Unit} (h : Exec ser me w (shutdownProg u me pid mode) ops res) :
    res = .ok () ∧ (∃ os1 ops', ops = os1 ++ monOp me (.pid pid) none :: ops' ∧ running (run ser w os1) me = true ∧
      EndedBy ser u me pid (run ser w os1).nextRef (step ser (run ser w os1) (monOp me (.pid pid) none)).1 ops') ∧
    ModeSignals pid mode (exitsBy me ops) := by
  obtain ⟨os1, os', rfl, h1, hrun, h⟩ := exec_op_inv h
  have href : (step ser (run ser w os1) (.monitor me (.pid pid))).2 = .ref (.loc (run ser w os1).nextRef) :=
    congrArg Prod.snd (step_monOp ser (run ser w os1) me (.pid pid) none hrun)
  rw [href] at h
  dsimp only at h
  have hpre : ∀ l, exitsBy me (os1 ++ .monitor me (.pid pid) :: l) = exitsBy me l := by
    intro l; rw [exitsBy_append, exitsBy_others me os1 h1, exitsBy_cons _ _ _ (by simp)]; rfl
  have waitcase : ∀ (t : Option (Prog B V (Except ExitReason Unit))) (ops : List (Op B V)),
      Exec ser me (step ser (run ser w os1) (.monitor me (.pid pid))).1
        (.op (.exit me pid (.custom "shutdown")) fun _ =>
          .wait .select ⟨Unit, u, isDown (.loc (run ser w os1).nextRef), false⟩ t fun _ => unlinkFlush u me pid) ops res →
      (t = none ∨ t = some (brutalKill u me pid (.loc (run ser w os1).nextRef))) →
      res = .ok () ∧ EndedBy ser u me pid (run ser w os1).nextRef (step ser (run ser w os1) (.monitor me (.pid pid))).1 ops ∧
      (exitsBy me ops = [(pid, .custom "shutdown")] ∨ (t ≠ none ∧ exitsBy me ops = [(pid, .custom "shutdown"), (pid, .kill)])) := by
    intro t ops h ht
    obtain ⟨os2, os3, rfl, h2, -, h⟩ := exec_op_inv h
    obtain ⟨os4, os5, rfl, h4, h⟩ := exec_wait_inv h
    have hall : ∀ o ∈ os2 ++ .exit me pid (.custom "shutdown") :: os4,
        o ≠ .demonitor me (.loc (run ser w os1).nextRef) ∧ o ≠ .drop me := by
      intro o ho
      rcases List.mem_append.1 ho with ho | ho
      · exact others_ok me o _ (h2 o ho)
      · rcases List.mem_cons.1 ho with rfl | ho
        · exact ⟨by simp, by simp⟩
        · exact waiting_ok me _ o _ (h4 o ho)
    have hx0 : ∀ l, exitsBy me (os2 ++ .exit me pid (.custom "shutdown") :: (os4 ++ l)) = (pid, .custom "shutdown") :: exitsBy me l := by
      intro l
      rw [exitsBy_append, exitsBy_others me os2 h2, exitsBy_exit, exitsBy_append, exitsBy_waiting me _ os4 h4]; rfl
    rcases h with ⟨k, m, os6, hm, rfl, -, hx⟩ | ⟨p, hp, hx⟩
    · obtain ⟨hres, ⟨os7, os8, rfl, ho8, hr8⟩, hex⟩ := flush_inv hx
      obtain ⟨d', e, rfl⟩ := isDown_inv _ m (received_item _ me _ k m hm).1
      refine ⟨hres, ⟨os2 ++ .exit me pid (.custom "shutdown") :: os4,
        .recv me ⟨Unit, u, isDown (.loc (run ser w os1).nextRef), false⟩ k ::
          (os7 ++ .recv me ⟨Unit, u, isExitOf pid, false⟩ .remove :: os8),
        ⟨Unit, u, isDown (.loc (run ser w os1).nextRef), false⟩, k, d', e, by simp, hall, ?_,
        .recv me ⟨Unit, u, isDown (.loc (run ser w os1).nextRef), false⟩ k :: os7, os8, by simp, ho8, ?_, ?_⟩, .inl ?_⟩
      · rw [run_append, run_cons]; exact hm
      · rw [List.append_assoc, run_append, List.cons_append, run_cons, run_append, run_cons]; exact hr8
      · rw [exitsBy_cons _ _ _ (by simp), hex]
      · rw [hx0, exitsBy_cons _ _ _ (by simp), hex]
    · rcases ht with rfl | rfl
      · simp at hp
      · simp at hp; subst hp
        obtain ⟨hres, hend, hex⟩ := brutal_inv hx
        refine ⟨hres, ?_, .inr ⟨by simp, by rw [hx0, hex]⟩⟩
        have h5 : os2 ++ .exit me pid (.custom "shutdown") :: (os4 ++ os5) =
            (os2 ++ .exit me pid (.custom "shutdown") :: os4) ++ os5 := by simp
        rw [h5]
        have : EndedBy ser u me pid (run ser w os1).nextRef
            (run ser (step ser (run ser w os1) (.monitor me (.pid pid))).1 (os2 ++ .exit me pid (.custom "shutdown") :: os4)) os5 := by
          rw [run_append, run_cons]; exact hend
        exact this.prepend hall
  cases mode with
  | brutalKill =>
    obtain ⟨hres, hend, hex⟩ := brutal_inv h
    exact ⟨hres, ⟨os1, os', rfl, hrun, hend⟩, (hpre _).trans hex⟩
  | duration =>
    obtain ⟨hres, hend, hex⟩ := waitcase _ os' h (.inr rfl)
    refine ⟨hres, ⟨os1, os', rfl, hrun, hend⟩, ?_⟩
    show _ ∨ _
    rw [hpre]
    exact hex.imp id And.right
  | infinity =>
    obtain ⟨hres, hend, hex⟩ := waitcase _ os' h (.inl rfl)
    refine ⟨hres, ⟨os1, os', rfl, hrun, hend⟩, ?_⟩
    rcases hex with h | h
    · exact (hpre _).trans h
    · exact absurd rfl h.1

/-- C71. The exit signals of a shutdown: a brutal kill sends just the kill; an unlimited one just `shutdown`, never a kill; one
with a time limit sends `shutdown` and, only if the time is up, the kill. -/
theorem C71_signals (u : RecvType B V Unit) (ser : V → B) (w : World B V) (ops : List (Op B V)) (me : Nat) (pid : Pid)
    (mode : ShutdownMode) (res : Except ExitReason Unit) (h : Exec ser me w (shutdownProg u me pid mode) ops res) :
    ModeSignals pid mode (exitsBy me ops) := (shutdown_inv h).2.2

theorem dead_of_serverDied {ser : V → B} {w : World B V} {ops : List (Op B V)} {t : Nat} {e : ExitReason}
    (hlt : t < w.nextPid) (h : ServerDied ser w ops (.pid (.loc t)) e) : (run ser w ops).procs t = none := by
  obtain ⟨os4, os5, he, ⟨t', h1, -, h3⟩ | ⟨h1, -⟩⟩ := h
  · simp only [targetOf] at h1
    split at h1
    · simp at h1; subst h1; exact h3
    · simp at h1
  · have hnone : (run ser w os4).procs t = none := by
      cases hp : (run ser w os4).procs t with
      | none => rfl
      | some p => simp [targetOf, exists?, hp] at h1
    rw [he, run_append]
    exact (absent_run ser _ os5 t (Nat.lt_of_lt_of_le hlt (run_nextPid_le ser _ _)) hnone).1

/-- C71. Whatever the mode and the schedule, when the shutdown of a child returns the child is dead: it died during the
shutdown, or it did not exist any more when the shutdown began. -/
theorem C71_child_dead (u : RecvType B V Unit) (ser : V → B) (os0 ops : List (Op B V)) (me t : Nat) (mode : ShutdownMode)
    (ht : t ≠ me) (hlt : t < (run ser init os0).nextPid) (res : Except ExitReason Unit)
    (h : Exec ser me (run ser init os0) (shutdownProg u me (.loc t) mode) ops res) :
    (run ser (run ser init os0) ops).procs t = none ∧
    ∃ e, ServerDied ser (run ser init os0) ops (.pid (.loc t)) e := by
  obtain ⟨-, ⟨os1, ops', rfl, hrun, os2, os3, o, k, d', e, rfl, hos, hrec, -⟩, -⟩ := shutdown_inv h
  have hsd := serverDied_of ser _ ⟨os0, rfl⟩ me (.pid (.loc t)) none (.inl ⟨t, rfl, ht⟩) os1 os2 os3 hrun hos o k d' e hrec
  have heq : os1 ++ monOp me (.pid (.loc t)) none :: (os2 ++ os3) = os1 ++ monOp me (.pid (.loc t)) none :: os2 ++ os3 := by simp
  rw [heq]
  exact ⟨dead_of_serverDied hlt hsd, e, hsd⟩

/-- C71. A shutdown never reports anything but success. -/
theorem C71_always_ok (u : RecvType B V Unit) (ser : V → B) (w : World B V) (ops : List (Op B V)) (me : Nat) (pid : Pid)
    (mode : ShutdownMode) (res : Except ExitReason Unit) (h : Exec ser me w (shutdownProg u me pid mode) ops res) : res = .ok () :=
  (shutdown_inv h).1


theorem step_not_running (ser : V → B) (w : World B V) (o : Op B V) (t : Nat) (hc : o.caller = some t) (h : w.procs t = none) :
    (step ser w o).1 = w := by
  have : running w t = false := by simp [running, h]
  simp [step, hc, this]

theorem reach_nodeLinksRemote {ser : V → B} {w : World B V} (h : Reachable ser w) : NodeLinksRemote w := by
  obtain ⟨os, rfl⟩ := h; exact run_nodeLinksRemote ser os

/-- The mailbox of `me` holds no Exit message of process `t`. -/
def NoExitOf (me t : Nat) (w : World B V) : Prop :=
  ∀ p, w.procs me = some p → ∀ it ∈ p.box.items ++ p.box.chan, ∀ e, it ≠ .system (.exit (.loc t) e)

theorem noExit_box (me t : Nat) (w : World B V) : NoExitOf me t w ↔
    ∀ b, pmap (·.box) w me = some b → BoxOk (fun _ _ => True) (fun it => ∀ e, it ≠ .system (.exit (.loc t) e)) b := by
  unfold NoExitOf pmap
  cases hp : w.procs me with
  | none => simp
  | some p =>
    simp only [Option.some.injEq, forall_eq', Option.map_some, BoxOk, List.mem_append, true_and]
    constructor
    · intro h; exact ⟨fun it hi => h it (.inl hi), fun it hi => h it (.inr hi)⟩
    · rintro ⟨h1, h2⟩ it (hi | hi)
      · exact h1 it hi
      · exact h2 it hi

/-- Nobody but `me` itself, by linking to it, can put an Exit message of a dead process into the mailbox of `me`. -/
theorem noExit_step (ser : V → B) (w : World B V) (hr : Reachable ser w) (me t : Nat) (ht : w.procs t = none) (o : Op B V)
    (ho : o ≠ .link me (.loc t)) (h : NoExitOf me t w) : NoExitOf me t (step ser w o).1 := by
  by_cases hc : o.caller = some t
  · rw [step_not_running ser w o t hc ht]; exact h
  by_cases hd : o = .drop t
  · subst hd
    have : (step ser w (.drop t)).1 = w := by simp [step, Op.caller, Op.exec, doomed, ht]
    rw [this]; exact h
  refine (step_acts ser w o).inv (I := NoExitOf me t) h ?_
  intro w' a ha h
  rw [noExit_box] at h ⊢
  intro b hb
  have hK : KeepsItem (B := B) (V := V) (fun _ _ => True) (fun it => ∀ e, it ≠ .system (.exit (.loc t) e)) := by
    intro T τ mons als it _ hit
    refine ⟨trivial, ?_⟩
    intro e
    cases it <;> simp only [processItem] <;> (try split) <;> simp_all
  refine boxOk_act hK w' a me h (fun _ => trivial) ?_ ?_ (fun _ _ _ _ _ => trivial) (fun _ _ _ _ _ => trivial)
      (fun _ _ _ _ => trivial) ?_ b hb
  · rintro it rfl _ e rfl
    rcases ha with ha | ⟨j, hj, ha⟩ | ha | ⟨n, q, ho, hm⟩
    · simp [Pid.isLocal] at ha
    · simp at hj; subst hj
      rcases ha with ha | ha
      · obtain ⟨e', rfl⟩ := ha; exact hc rfl
      · exact hd ha
    · exact ho ha.1
    · have := reach_nodeLinksRemote hr n _ _ hm
      simp [Pid.isLocal] at this
  · intro id _ e; simp
  · intro d m e al _ e'; simp

theorem noExit_run (ser : V → B) (me t : Nat) (os : List (Op B V)) : ∀ (w : World B V) (_ : Reachable ser w) (_ : w.procs t = none) (_ : t < w.nextPid)
    (_ : ∀ o ∈ os, o ≠ .link me (.loc t)) (_ : NoExitOf me t w), NoExitOf me t (run ser w os) := by
  induction os with
  | nil => intro w _ _ _ _ h; exact h
  | cons o os ih =>
    intro w hr ht hlt ho h
    have := absent_run ser w [o] t hlt ht
    exact ih _ (reach_step hr o) this.1 this.2 (fun x hx => ho x (.tail _ hx)) (noExit_step ser w hr me t ht o (ho o List.mem_cons_self) h)

/-- Right after the flush no Exit message of `t` is left. -/
theorem noExit_remove (u : RecvType B V Unit) (ser : V → B) (w : World B V) (hr : Reachable ser w) (me t : Nat)
    (hrun : running w me = true) : NoExitOf me t (step ser w (.recv me ⟨Unit, u, isExitOf (.loc t), false⟩ .remove)).1 := by
  intro p hp it hit e he
  subst he
  cases hq : w.procs me with
  | none => simp [running, hq] at hrun
  | some q =>
    have hwf := reach_wf hr me q hq
    obtain ⟨b', h1, h2, h3⟩ := C22_remove_exact u (isExitOf (.loc t)) q.box hwf
    have h4 := remove_eq u (isExitOf (.loc t)) false q.box hwf
    rw [h1] at h4
    have hstep : (step ser w (.recv me ⟨Unit, u, isExitOf (.loc t), false⟩ .remove)).1.procs me = some { q with box := b' } := by
      simp [step, Op.caller, hrun, Op.exec, recv, hq, h1, modBox, modProc, upd]
    rw [hstep] at hp
    simp at hp; subst hp
    have hm : (.system (.exit (.loc t) e) : Item B V) ∈ contents b' := by
      simp only [contents, h4.2.1, visible, List.append_nil]
      simpa [h4.2.1] using hit
    rw [h3] at hm
    have := (List.mem_filter.1 hm).2
    simp [asMsg, isExitOf] at this

/-- C71. Exits are flushed: when the shutdown of a local child returns, the caller's mailbox holds no Exit message of the
child, and none arrives later, whatever happens, unless the caller links to the dead child again. -/
theorem C71_exit_flushed (u : RecvType B V Unit) (ser : V → B) (os0 ops later : List (Op B V)) (me t : Nat) (mode : ShutdownMode)
    (ht : t ≠ me) (hlt : t < (run ser init os0).nextPid) (res : Except ExitReason Unit)
    (h : Exec ser me (run ser init os0) (shutdownProg u me (.loc t) mode) ops res)
    (hl : ∀ o ∈ later, o ≠ .link me (.loc t)) :
    NoExitOf me t (run ser (run ser (run ser init os0) ops) later) := by
  have hr0 : Reachable ser (run ser (init : World B V) os0) := ⟨os0, rfl⟩
  obtain ⟨hdead, -⟩ := C71_child_dead u ser os0 ops me t mode ht hlt res h
  have hlt' := Nat.lt_of_lt_of_le hlt (run_nextPid_le ser _ ops)
  refine noExit_run ser me t later _ (reach_run hr0 ops) hdead hlt' hl ?_
  obtain ⟨-, ⟨os1, ops', rfl, hrun, os2, os3, o, k, d', e, rfl, hos, hrec, os4, os5, rfl, ho5, hr5, -⟩, -⟩ := shutdown_inv h
  have hsd := serverDied_of ser _ hr0 me (.pid (.loc t)) none (.inl ⟨t, rfl, ht⟩) os1 os2 os4 hrun hos o k d' e hrec
  -- the child is dead at the flush
  have hdead' := dead_of_serverDied hlt hsd
  have hr1 := reach_run (reach_step (reach_run hr0 os1) (monOp me (.pid (.loc t)) none)) (os2 ++ os4)
  have hrw : run ser (run ser init os0) (os1 ++ monOp me (.pid (.loc t)) none :: os2 ++ os4) =
      run ser (step ser (run ser (run ser init os0) os1) (monOp me (.pid (.loc t)) none)).1 (os2 ++ os4) := by
    rw [List.append_assoc, run_append, List.cons_append, run_cons]
  rw [hrw] at hdead'
  have hlt2 : t < (run ser (step ser (run ser (run ser init os0) os1) (monOp me (.pid (.loc t)) none)).1 (os2 ++ os4)).nextPid := by
    rw [← hrw]; exact Nat.lt_of_lt_of_le hlt (run_nextPid_le ser _ _)
  have h1 := noExit_remove u ser _ hr1 me t hr5
  have h2 := absent_run ser _ [.recv me ⟨Unit, u, isExitOf (.loc t), false⟩ .remove] t hlt2 hdead'
  have h3 := noExit_run ser me t os5 _ (reach_step hr1 _) h2.1 h2.2 ?_ h1
  · rw [run_append, run_cons, ← List.append_assoc, run_append, run_cons]; exact h3
  · rintro x hx rfl; exact (ho5 _ hx).1 rfl

/-! ## Executions of the programs exist -/

/-- Server messages over `Nat`, never serialized. -/
def natServer : RecvType Nat (GMsg Nat) (GMsg Nat) := ⟨fun _ => none, some, id, fun _ => rfl⟩
def anyUnit : RecvType Nat (GMsg Nat) Unit := ⟨fun _ => none, fun _ => some (), fun _ => .stop .normal, fun _ => rfl⟩

/-- Process 1 has started the process 2. -/
def twoProcs : List (Op Nat (GMsg Nat)) := [.boot, .spawn 1 false false]
def noSer : GMsg Nat → Nat := fun _ => 0

/-- What happens when process 1 stops process 2, which obeys. -/
def stopOps : List (Op Nat (GMsg Nat)) :=
  [.monitor 1 (.pid (.loc 2)), .send 1 (.one (.pid (.loc 2))) (.stop .kill),
   .recv 1 ⟨GMsg Nat, natServer, isDown (.loc 1), false⟩ .select, .exit 2 (.loc 2) .kill, .drop 2,
   .recv 1 ⟨GMsg Nat, natServer, isDown (.loc 1), false⟩ .resume]

theorem stopExec : Exec noSer 1 (run noSer init twoProcs) (stopProg natServer 1 (.pid (.loc 2)) .kill true) stopOps (.ok ()) := by
  refine .op rfl (.op rfl (.pending rfl rfl (.env ⟨by simp [Op.caller], by simp⟩ (.env ⟨by simp [Op.caller], by simp⟩
    (.got (m := .system (.processDown (.pid (.loc 2)) (.loc 1) .kill)) rfl rfl ?_)))))
  exact .ret _ _

example : LocalServer 1 (.pid (.loc 2)) := .inl ⟨2, rfl, by decide⟩
example : ServerDied noSer (run noSer init twoProcs) stopOps (.pid (.loc 2)) .kill :=
  C60_success natServer noSer twoProcs stopOps 1 _ .kill true (.inl ⟨2, rfl, by decide⟩) stopExec

/-- Process 1 shuts the child down with a limit; the child traps exits and the time is up, so it is killed. -/
def shutOps : List (Op Nat (GMsg Nat)) :=
  [.setTrap 2 true, .monitor 1 (.pid (.loc 2)), .exit 1 (.loc 2) (.custom "shutdown"),
   .recv 1 ⟨Unit, anyUnit, isDown (.loc 1), false⟩ .select, .exit 1 (.loc 2) .kill,
   .recv 1 ⟨Unit, anyUnit, isDown (.loc 1), false⟩ .select, .drop 2,
   .recv 1 ⟨Unit, anyUnit, isDown (.loc 1), false⟩ .resume, .unlink 1 (.loc 2),
   .recv 1 ⟨Unit, anyUnit, isExitOf (.loc 2), false⟩ .remove]

/-- The same, linked, and process 1 traps exits. -/
def twoProcs' : List (Op Nat (GMsg Nat)) := [.boot, .spawn 1 true false, .setTrap 1 true]

theorem shutExec : Exec noSer 1 (run noSer init twoProcs') (shutdownProg anyUnit 1 (.loc 2) .duration) shutOps (.ok ()) := by
  refine .env ⟨by simp [Op.caller], by simp⟩ (.op rfl (.op rfl (.pending rfl rfl (.elapsed (.op rfl (.pending rfl rfl
    (.env ⟨by simp [Op.caller], by simp⟩
    (.got (m := .system (.processDown (.pid (.loc 2)) (.loc 1) .kill)) rfl rfl ?_))))))))
  exact .op rfl (.op rfl (.ret _ _))

example : exitsBy 1 shutOps = [(.loc 2, .custom "shutdown"), (.loc 2, .kill)] := by decide
example : NoExitOf 1 2 (run noSer (run noSer (run noSer init twoProcs') shutOps) []) :=
  C71_exit_flushed anyUnit noSer twoProcs' shutOps [] 1 2 .duration (by decide) (by decide) _ shutExec (by simp)
/-- The flush is needed: the child's Exit message is there just before it. -/
example : ((run noSer (run noSer init twoProcs') (shutOps.take 9)).procs 1).map
    (fun p => p.box.items.map fun | .system (.exit (.loc 2) _) => true | _ => false) = some [true] := by decide

end Verif.World
