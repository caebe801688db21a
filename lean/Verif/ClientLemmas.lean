import Verif.Client
/-!
# Monitors in executions of a client program
-/
namespace Verif.World
open Verif.Mailbox
variable {B V R : Type}

/-- A world some history of a fresh runtime leads to. -/
def Reachable (ser : V → B) (w : World B V) : Prop := ∃ os, w = run ser init os

theorem reach_run {ser : V → B} {w : World B V} (h : Reachable ser w) (os : List (Op B V)) : Reachable ser (run ser w os) := by
  obtain ⟨os0, rfl⟩ := h
  exact ⟨os0 ++ os, by simp [run, List.foldl_append]⟩

theorem reach_step {ser : V → B} {w : World B V} (h : Reachable ser w) (o : Op B V) : Reachable ser (step ser w o).1 := reach_run h [o]

theorem reach_delivered {ser : V → B} {w : World B V} (h : Reachable ser w) : Delivered w := by
  obtain ⟨os, rfl⟩ := h; exact run_delivered ser _ os init_delivered
theorem reach_noConverted {ser : V → B} {w : World B V} (h : Reachable ser w) : NoConverted w := by
  obtain ⟨os, rfl⟩ := h; exact run_noConverted ser os
theorem reach_fresh {ser : V → B} {w : World B V} (h : Reachable ser w) : Fresh w := by
  obtain ⟨os, rfl⟩ := h; exact run_fresh ser os
theorem reach_bounded {ser : V → B} {w : World B V} (h : Reachable ser w) : Bounded w := by
  obtain ⟨os, rfl⟩ := h; exact run_bounded ser os
theorem reach_names {ser : V → B} {w : World B V} (h : Reachable ser w) : NamesOK w := by
  obtain ⟨os, rfl⟩ := h; exact (run_names ser os).2
theorem reach_nodup {ser : V → B} {w : World B V} (h : Reachable ser w) : LinksNodup w := by
  obtain ⟨os, rfl⟩ := h; exact run_linksNodup ser os

theorem run_append (ser : V → B) (w : World B V) (os os' : List (Op B V)) : run ser w (os ++ os') = run ser (run ser w os) os' := by
  simp [run, List.foldl_append]
theorem run_cons (ser : V → B) (w : World B V) (o : Op B V) (os : List (Op B V)) :
    run ser w (o :: os) = run ser (step ser w o).1 os := rfl

/-- A process that is gone never comes back. -/
theorem absent_run (ser : V → B) (w : World B V) (os : List (Op B V)) (t : Nat) (ht : t < w.nextPid) (h : w.procs t = none) :
    (run ser w os).procs t = none ∧ t < (run ser w os).nextPid := by
  have := run_inv ser (fun w => (w.procs t).isSome = false ∧ t < w.nextPid) ?_ os w ⟨by rw [h]; rfl, ht⟩
  · refine ⟨?_, this.2⟩
    cases hp : (run ser w os).procs t with
    | none => rfl
    | some p => rw [hp] at this; simp at this
  · rintro w a ⟨h1, h2⟩
    have := (acts_mono_counters (Acts.one (Q := fun _ => True) (w := w) (a := a) trivial)).1
    refine ⟨?_, by omega⟩
    rw [ex_act]
    cases a <;> simp only [h1] <;> simp
    omega

/-- In the history `os`, starting in `w`, process `t` died, with reason `e`. -/
def Died (ser : V → B) (w : World B V) (os : List (Op B V)) (t : Nat) (e : ExitReason) : Prop :=
  ∃ os1 os2 p, os = os1 ++ .drop t :: os2 ∧ (run ser w os1).procs t = some p ∧ (p.ended = true ∨ p.aborted = true) ∧
    p.reason.getD .normal = e

theorem Died.append {ser : V → B} {w : World B V} {os : List (Op B V)} {t : Nat} {e : ExitReason} (h : Died ser w os t e)
    (os' : List (Op B V)) : Died ser w (os ++ os') t e := by
  obtain ⟨os1, os2, p, rfl, h⟩ := h
  exact ⟨os1, os2 ++ os', p, by simp, h⟩

theorem Died.prepend {ser : V → B} {w : World B V} {os' os : List (Op B V)} {t : Nat} {e : ExitReason}
    (h : Died ser (run ser w os') os t e) : Died ser w (os' ++ os) t e := by
  obtain ⟨os1, os2, p, rfl, h1, h2⟩ := h
  exact ⟨os' ++ os1, os2, p, by simp, by rw [run_append]; exact h1, h2⟩

/-- While `a` keeps its monitor of `t`: either it still watches, or `t` has died and the Down with its reason was sent. -/
theorem watch_history (ser : V → B) (n a t : Nat) (d : Dest) (os : List (Op B V)) :
    ∀ w, Reachable ser w → Watch n a t d w → (∀ o ∈ os, o ≠ .demonitor a (.loc n) ∧ o ≠ .drop a) →
      Watch n a t d (run ser w os) ∨
      ∃ e, Died ser w os t e ∧ Gone n (run ser w os) ∧ downsOf (.loc n) (run ser w os).sent = [(a, .down d (.loc n) e)] ∧
        (run ser w os).procs t = none := by
  induction os with
  | nil => intro w _ h _; exact .inl h
  | cons o os ih =>
    intro w hr hw hos
    have hos' : ∀ o ∈ os, o ≠ .demonitor a (.loc n) ∧ o ≠ .drop a := fun x hx => hos x (.tail _ hx)
    have ho := hos o List.mem_cons_self
    rw [run_cons]
    have cont : Watch n a t d (step ser w o).1 →
        Watch n a t d (run ser (step ser w o).1 os) ∨
      ∃ e, Died ser w (o :: os) t e ∧ Gone n (run ser (step ser w o).1 os) ∧
        downsOf (.loc n) (run ser (step ser w o).1 os).sent = [(a, .down d (.loc n) e)] ∧
        (run ser (step ser w o).1 os).procs t = none := by
      intro h
      rcases ih _ (reach_step hr o) h hos' with h | ⟨e, h1, h2⟩
      · exact .inl h
      · exact .inr ⟨e, Died.prepend (os' := [o]) h1, h2⟩
    by_cases hd : o = .drop t
    · subst hd
      have hat : a ≠ t := by rintro rfl; exact ho.2 rfl
      by_cases hdm : doomed w t = true
      · cases hp : w.procs t with
        | none => simp [doomed, hp] at hdm
        | some p =>
          have hd : p.ended = true ∨ p.aborted = true := by simpa [doomed, hp] using hdm
          obtain ⟨g1, g2⟩ := watch_drop ser n a t hat d w p hw (reach_nodup hr) hp hd
          obtain ⟨g3, g4⟩ := gone_run ser n _ _ os g1 g2
          have hs := step_drop ser w t p hp hd
          obtain ⟨e1, -, -, -, -, -, e7, -⟩ := drop_eff w t p hp (reach_nodup hr t)
          have ht : t < w.nextPid := by
            rcases Nat.lt_or_ge t w.nextPid with h | h
            · exact h
            · rw [reach_bounded hr t h] at hp; simp at hp
          have := absent_run ser (step ser w (.drop t)).1 os t (by rw [hs, e7]; exact ht) (by rw [hs]; exact e1)
          exact .inr ⟨_, ⟨[], os, p, rfl, hp, hd, rfl⟩, g3, g4, this.1⟩
      · refine cont ?_
        have : (step ser w (.drop t)).1 = w := by simp [step, Op.caller, Op.exec, hdm]
        rw [this]; exact hw
    · refine cont ?_
      have hends : ¬ Ends n a t o := by
        rintro (h | h | h)
        · exact ho.1 h
        · exact ho.2 h
        · exact hd h
      exact (step_acts ser w o).inv (I := Watch n a t d) hw (fun w' x hx h => watch_act n a t d w o hw hends w' x hx h)

/-- `Process::monitor` or, with `some reply`, `Process::monitor_alias`. -/
def monOp (a : Nat) (d : Dest) : Option Bool → Op B V
  | none => .monitor a d
  | some reply => .monitorAlias a d reply

theorem running_exists {w : World B V} {a : Nat} (h : running w a = true) : exists? w a = true := by
  unfold running at h; unfold exists?; cases h' : w.procs a <;> simp_all

theorem step_monOp (ser : V → B) (w : World B V) (a : Nat) (d : Dest) (al : Option Bool) (hrun : running w a = true) :
    step ser w (monOp a d al) = (monitorInstall (freshRef w a al) d (.loc w.nextRef) a, .ref (.loc w.nextRef)) := by
  cases al <;> simp only [monOp, step, Op.caller, hrun, if_true, Op.exec, monitor_eq, monitorAlias_eq]

/-- Monitoring a local process by pid or name: it is watched from now on or, if there is none, reported at once. -/
theorem mon_local (ser : V → B) (w : World B V) (hr : Reachable ser w) (a : Nat) (d : Dest) (al : Option Bool)
    (hrun : running w a = true) (hd : (∃ t, d = .pid (.loc t) ∧ t ≠ a) ∨ ∃ n, d = .named n .loc) :
    let s := step ser w (monOp a d al)
    s.2 = .ref (.loc w.nextRef) ∧
    ((∃ t, targetOf w d = some t ∧ Watch w.nextRef a t d s.1) ∨
     (targetOf w d = none ∧ Gone w.nextRef s.1 ∧
        downsOf (.loc w.nextRef) s.1.sent = [(a, .down d (.loc w.nextRef) (.custom "noproc"))])) := by
  have hu := reach_fresh hr w.nextRef (Nat.le_refl _)
  have hex := running_exists hrun
  intro s
  have hs : s = (monitorInstall (freshRef w a al) d (.loc w.nextRef) a, .ref (.loc w.nextRef)) := step_monOp ser w a d al hrun
  rw [hs]
  refine ⟨rfl, ?_⟩
  have hdown : ∀ m, Gone w.nextRef (act w (.mkMonDown a d m (.custom "noproc") al)) ∧
      downsOf (.loc w.nextRef) (act w (.mkMonDown a d m (.custom "noproc") al)).sent = [(a, .down d (.loc w.nextRef) (.custom "noproc"))] := by
    intro m
    refine ⟨⟨by rw [nextRef_act]; simp, ?_, ?_⟩, ?_⟩
    · rw [mons_act]; exact hu.mons
    · rw [nodeMons_act]; exact hu.nodes
    · rw [sent_act]
      simp only [show (w.procs a).isSome = true from hex, if_true]
      rw [downsOf_append, hu.sent]; simp [downsOf]
  have hfr : ∀ i, exists? (modBox (freshRef w a al) a (setMon · (.loc w.nextRef) (.forProcess (some (.loc i))))) i = exists? w i := by
    intro i; cases al <;> simp only [exists?, freshRef, optAlias, newRef, addAlias, modBox, modProc, upd_at] <;> split <;> simp_all
  rcases hd with ⟨t, rfl, hta⟩ | ⟨n, rfl⟩
  · simp only [monitorInstall, hta, if_false]
    by_cases he : exists? w t = true
    · rw [if_pos (by rw [hfr]; exact he)]
      refine .inl ⟨t, by simp [targetOf, he], ?_⟩
      exact (watch_mkMon w a t _ al hu hex).1
    · rw [if_neg (by rw [hfr]; exact he)]
      refine .inr ⟨by simp [targetOf, he], ?_⟩
      exact hdown _
  · simp only [monitorInstall]
    have hnm : (freshRef w a al).names = w.names := by cases al <;> rfl
    rw [hnm]
    cases hn : w.names n with
    | none =>
      refine .inr ⟨by simp [targetOf, hn], ?_⟩
      exact hdown _
    | some i =>
      dsimp only
      have he : exists? w i = true := by
        have := (namesOK_iff w).1 (reach_names hr) n i
        have := this.1 hn
        unfold pmap at this; unfold exists?
        cases hp : w.procs i <;> simp_all
      rw [if_pos (by rw [hfr]; exact he)]
      refine .inl ⟨i, by simp [targetOf, hn, he], ?_⟩
      exact (watch_mkMon w a i _ al hu hex).1

/-- After a monitor, as long as it is kept: what the Downs for its reference say. -/
theorem down_tells (ser : V → B) (w : World B V) (hr : Reachable ser w) (a : Nat) (d : Dest) (al : Option Bool)
    (hrun : running w a = true) (hd : (∃ t, d = .pid (.loc t) ∧ t ≠ a) ∨ ∃ n, d = .named n .loc)
    (os : List (Op B V)) (hos : ∀ o ∈ os, o ≠ .demonitor a (.loc w.nextRef) ∧ o ≠ .drop a) (d' : Dest) (e : ExitReason)
    (j : Nat) (hdown : (j, .down d' (.loc w.nextRef) e) ∈ (run ser (step ser w (monOp a d al)).1 os).sent) :
    (∃ t, targetOf w d = some t ∧ Died ser (step ser w (monOp a d al)).1 os t e ∧
      (run ser (step ser w (monOp a d al)).1 os).procs t = none) ∨
    (targetOf w d = none ∧ e = .custom "noproc") := by
  have hmem : (j, Item.down d' (.loc w.nextRef) e) ∈ downsOf (.loc w.nextRef) (run ser (step ser w (monOp a d al)).1 os).sent :=
    List.mem_filter.2 ⟨hdown, by simp⟩
  rcases (mon_local ser w hr a d al hrun hd).2 with ⟨t, h1, h2⟩ | ⟨h1, h2, h3⟩
  · refine .inl ⟨t, h1, ?_⟩
    rcases watch_history ser _ a t d os _ (reach_step hr _) h2 hos with h | ⟨e', g1, -, g3, g4⟩
    · rw [h.sent] at hmem; simp at hmem
    · rw [g3] at hmem
      simp at hmem
      obtain ⟨-, -, rfl⟩ := hmem
      exact ⟨g1, g4⟩
  · refine .inr ⟨h1, ?_⟩
    rw [(gone_run ser _ _ _ os h2 h3).2] at hmem
    simp at hmem
    exact hmem.2.2

end Verif.World
