import Verif.SupChildProps
import Verif.NoticeProps
import Verif.LoopLemmas
import Verif.Provenance
/-!
# A supervisor misses no end of a child (C137)
-/
namespace Verif.Sup
open Verif.World Verif.Mailbox
variable {B V R : Type}

/-! ## Specification -/

/-- `a` traps exits (or does not exist any more). -/
def Traps (a : Nat) (w : World B V) : Prop := a < w.nextPid ∧ ∀ p, w.procs a = some p → p.trap = true

/-- The start routines of the supervisor behave as those of children do: they leave its trap flag alone; they do not make it miss the end of another
process; and the process of this node that one returns is another process, linked to the supervisor (if it has died already, its exit message is in
the mailbox). -/
structure Links (cf : Conf B V) (ser : V → B) : Prop where
  traps : ∀ n c w ops r, Reachable ser w → Exec ser cf.me w (cf.startOf n c) ops r → Traps cf.me w → Traps cf.me (Verif.World.run ser w ops)
  spares : ∀ n c w ops r u, Reachable ser w → Exec ser cf.me w (cf.startOf n c) ops r → cf.me ≠ u → Knows ser cf.me u w →
    Knows ser cf.me u (Verif.World.run ser w ops)
  linked : ∀ n c w ops t, Reachable ser w → Exec ser cf.me w (cf.startOf n c) ops (.ok (.loc t)) → Traps cf.me w →
    cf.me ≠ t ∧ Knows ser cf.me t (Verif.World.run ser w ops)

/-! ## Operations that do not make one miss a death -/

/-- An operation that does not make `a` give up `t`, and if it is a receive of `a`, does not accept exit messages of `t`. -/
def Gentle (a t : Nat) (o : Op B V) : Prop :=
  ¬ GivesUp a t o ∧ ∀ ro k, o = .recv a ro k → ∀ r, ro.filter (.system (.exit (.loc t) r)) = false

theorem gentle_others {a t : Nat} {o : Op B V} (h : Others a o) : Gentle a t o :=
  ⟨(others_spare h).1, fun ro k he => absurd he ((others_spare (t := t) h).2 ro k)⟩

theorem gentle_step {ser : V → B} {a t : Nat} {w : World B V} (h : Knows ser a t w) (hat : a ≠ t) {o : Op B V} (ho : Gentle a t o) :
    Knows ser a t (Verif.World.step ser w o).1 := by
  refine h.step hat o ho.1 ?_
  rintro ro k rfl - - (⟨r, hr⟩ | ⟨-, r, hr⟩)
  · have := (received_item _ _ _ _ _ hr).1
    rw [ho.2 ro k rfl] at this; cases this
  · rw [ho.2 ro k rfl] at hr; cases hr

theorem gentle_run {ser : V → B} {a t : Nat} (hat : a ≠ t) (os : List (Op B V)) (ho : ∀ o ∈ os, Gentle a t o) :
    ∀ {w : World B V}, Knows ser a t w → Knows ser a t (Verif.World.run ser w os) := by
  induction os with
  | nil => intro w h; exact h
  | cons o os ih => intro w h; exact ih (fun o h => ho o (.tail _ h)) (gentle_step h hat (ho o List.mem_cons_self))

theorem gentle_waiting {a t : Nat} {ro : RecvOp B V} (hf : ∀ r, ro.filter (.system (.exit (.loc t) r)) = false) {o : Op B V} (h : Waiting a ro o) : Gentle a t o := by
  rcases h with h | ⟨k, rfl⟩
  · exact gentle_others h
  · exact ⟨(by rintro (h | h) <;> cases h), fun ro' k' h r => by cases h; exact hf r⟩

theorem traps_step {ser : V → B} {a : Nat} {w : World B V} (h : Traps a w) {o : Op B V} (ho : o ≠ .setTrap a false) : Traps a (Verif.World.step ser w o).1 := by
  have conv : ∀ w : World B V, (∀ p, w.procs a = some p → p.trap = true) ↔ (pmap (·.trap) w a = some true ∨ pmap (·.trap) w a = none) := by
    intro w
    unfold pmap
    cases w.procs a with
    | none => simp
    | some p => simp
  refine (step_acts ser w o).inv (I := fun w => Traps a w) h ?_
  rintro w' x hx ⟨h1, h2⟩
  refine ⟨by rw [nextPid_act]; split <;> omega, ?_⟩
  rw [conv] at h2 ⊢
  rw [trap_act]
  cases x <;> simp only [] <;> try exact h2
  · rename_i i b
    split
    · rename_i e; subst e
      cases b with
      | false => exact absurd hx ho
      | true => cases w'.procs a <;> simp
    · exact h2
  · rw [if_neg (by omega)]; exact h2
  · split
    · exact .inr rfl
    · exact h2

theorem traps_run {ser : V → B} {a : Nat} (os : List (Op B V)) (ho : ∀ o ∈ os, o ≠ .setTrap a false) :
    ∀ {w : World B V}, Traps a w → Traps a (Verif.World.run ser w os) := by
  induction os with
  | nil => intro w h; exact h
  | cons o os ih => intro w h; exact ih (fun o h => ho o (.tail _ h)) (traps_step h (ho o List.mem_cons_self))

theorem others_trap {a : Nat} {o : Op B V} (h : Others a o) : o ≠ .setTrap a false := by
  rintro rfl; exact h.1 rfl

/-! ## Shutdowns -/

theorem isDown_refuses {T : Type} (m : Ref) (t : Nat) (r : ExitReason) : isDown (T := T) m (.system (.exit (.loc t) r)) = false := rfl

/-- The own operations of a shutdown of `p`. -/
def Shuts (u : RecvType B V Unit) (me : Nat) (p : Pid) (o : Op B V) : Prop :=
  Others me o ∨ (∃ d, o = .monitor me d) ∨ (∃ r, o = .exit me p r) ∨ (∃ m k, o = .recv me ⟨Unit, u, isDown m, false⟩ k) ∨ o = .unlink me p ∨
    o = .recv me ⟨Unit, u, isExitOf p, false⟩ .remove

theorem shuts_waiting {u : RecvType B V Unit} {me : Nat} {p : Pid} {m : Ref} {o : Op B V} (h : Waiting me ⟨Unit, u, isDown m, false⟩ o) : Shuts u me p o := by
  rcases h with h | ⟨k, rfl⟩
  · exact .inl h
  · exact .inr (.inr (.inr (.inl ⟨m, k, rfl⟩)))

theorem flush_shuts {ser : V → B} {u : RecvType B V Unit} {me : Nat} {p : Pid} {w : World B V} {os : List (Op B V)} {x : Except ExitReason Unit}
    (h : Exec ser me w (unlinkFlush u me p) os x) : ∀ o ∈ os, Shuts u me p o := by
  obtain ⟨os1, os2, rfl, h1, -, h2⟩ := exec_op_inv h
  obtain ⟨os3, os4, rfl, h3, -, h4⟩ := exec_op_inv h2
  obtain ⟨-, h5⟩ := exec_ret_inv h4
  intro o ho
  simp only [List.mem_append, List.mem_cons] at ho
  rcases ho with h | rfl | h | rfl | h
  · exact .inl (h1 o h)
  · exact .inr (.inr (.inr (.inr (.inl rfl))))
  · exact .inl (h3 o h)
  · exact .inr (.inr (.inr (.inr (.inr rfl))))
  · exact .inl (h5 o h)

theorem wait_shuts {ser : V → B} {u : RecvType B V Unit} {me : Nat} {p : Pid} {m : Ref} {w : World B V} {os : List (Op B V)} {x : Except ExitReason Unit}
    {kind : RecvKind} {tm : Option (Prog B V (Except ExitReason Unit))}
    (ht : ∀ q, tm = some q → ∀ w os x, Exec ser me w q os x → ∀ o ∈ os, Shuts u me p o)
    (h : Exec ser me w (.wait kind ⟨Unit, u, isDown m, false⟩ tm fun _ => unlinkFlush u me p) os x) : ∀ o ∈ os, Shuts u me p o := by
  obtain ⟨os1, os2, rfl, h1, h2⟩ := exec_wait_inv h
  intro o ho
  rcases List.mem_append.1 ho with h' | h'
  · exact shuts_waiting (h1 o h')
  · rcases h2 with ⟨k, y, os3, -, rfl, -, h3⟩ | ⟨q, hq, h3⟩
    · rcases List.mem_cons.1 h' with rfl | h'
      · exact .inr (.inr (.inr (.inl ⟨m, k, rfl⟩)))
      · exact flush_shuts h3 o h'
    · exact ht q hq _ _ _ h3 o h'

theorem kill_shuts {ser : V → B} {u : RecvType B V Unit} {me : Nat} {p : Pid} {m : Ref} {w : World B V} {os : List (Op B V)} {x : Except ExitReason Unit}
    (h : Exec ser me w (brutalKill u me p m) os x) : ∀ o ∈ os, Shuts u me p o := by
  obtain ⟨os1, os2, rfl, h1, -, h2⟩ := exec_op_inv h
  intro o ho
  simp only [List.mem_append, List.mem_cons] at ho
  rcases ho with h | rfl | h
  · exact .inl (h1 o h)
  · exact .inr (.inr (.inl ⟨_, rfl⟩))
  · exact wait_shuts (by simp) h2 o h

theorem shutdown_shuts {ser : V → B} {u : RecvType B V Unit} {me : Nat} {p : Pid} {mode : ShutdownMode} {w : World B V} {os : List (Op B V)} {x : Except ExitReason Unit}
    (h : Exec ser me w (shutdownProg u me p mode) os x) : ∀ o ∈ os, Shuts u me p o := by
  obtain ⟨os1, os2, rfl, h1, -, h2⟩ := exec_op_inv h
  intro o ho
  simp only [List.mem_append, List.mem_cons] at ho
  rcases ho with h | rfl | ho
  · exact .inl (h1 o h)
  · exact .inr (.inl ⟨_, rfl⟩)
  · cases mode with
    | brutalKill => exact kill_shuts h2 o ho
    | duration =>
      obtain ⟨os3, os4, rfl, h3, -, h4⟩ := exec_op_inv h2
      simp only [List.mem_append, List.mem_cons] at ho
      rcases ho with h | rfl | h
      · exact .inl (h3 o h)
      · exact .inr (.inr (.inl ⟨_, rfl⟩))
      · exact wait_shuts (by rintro q hq w os x hx; cases hq; exact kill_shuts hx) h4 o h
    | infinity =>
      obtain ⟨os3, os4, rfl, h3, -, h4⟩ := exec_op_inv h2
      simp only [List.mem_append, List.mem_cons] at ho
      rcases ho with h | rfl | h
      · exact .inl (h3 o h)
      · exact .inr (.inr (.inl ⟨_, rfl⟩))
      · exact wait_shuts (by simp) h4 o h

theorem shuts_gentle {u : RecvType B V Unit} {me t : Nat} {p : Pid} (hp : p ≠ .loc t) {o : Op B V} (h : Shuts u me p o) : Gentle me t o := by
  rcases h with h | ⟨d, rfl⟩ | ⟨r, rfl⟩ | ⟨m, k, rfl⟩ | rfl | rfl
  · exact gentle_others h
  · exact ⟨(by rintro (h | h) <;> cases h), fun _ _ h => by cases h⟩
  · exact ⟨(by rintro (h | h) <;> cases h), fun _ _ h => by cases h⟩
  · exact ⟨(by rintro (h | h) <;> cases h), fun _ _ h r => by cases h; rfl⟩
  · exact ⟨(by rintro (h | h) <;> cases h <;> exact hp rfl), fun _ _ h => by cases h⟩
  · refine ⟨(by rintro (h | h) <;> cases h), fun _ _ h r => ?_⟩
    cases h
    simpa [isExitOf] using fun h => hp h.symm

theorem shuts_trap {u : RecvType B V Unit} {me : Nat} {p : Pid} {o : Op B V} (h : Shuts u me p o) : o ≠ .setTrap me false := by
  rcases h with h | ⟨d, rfl⟩ | ⟨r, rfl⟩ | ⟨m, k, rfl⟩ | rfl | rfl
  · exact others_trap h
  all_goals simp

/-! ## What a callback does -/

theorem performs_traps {cf : Conf B V} {ser : V → B} (hl : Links cf ser) {w : World B V} {n : Nat} {ds : List Did} {ops : List (Op B V)}
    (h : PerformsQ cf ser (fun _ => False) w n ds ops) (hre : Reachable ser w) (ht : Traps cf.me w) : Traps cf.me (Verif.World.run ser w ops) := by
  induction h with
  | nil => exact ht
  | other ho _ ih => exact ih (reach_step hre _) (traps_step ht (others_trap (ho.resolve_right id)))
  | start c hx _ ih => rw [run_append]; exact ih (reach_run hre _) (hl.traps _ c _ _ _ hre hx ht)
  | stop hx _ ih => rw [run_append]; exact ih (reach_run hre _) (traps_run _ (fun o ho => shuts_trap (shutdown_shuts hx o ho)) ht)
  | cast id _ ih => exact ih (reach_step hre _) (traps_step ht (by simp [retryOp]))

theorem performs_knows {cf : Conf B V} {ser : V → B} (hl : Links cf ser) {t : Nat} (hat : cf.me ≠ t) {w : World B V} {n : Nat} {ds : List Did} {ops : List (Op B V)}
    (h : PerformsQ cf ser (fun _ => False) w n ds ops) (hre : Reachable ser w) (hns : ∀ how, .stop (.loc t) how ∉ effs ds) (hk : Knows ser cf.me t w) :
    Knows ser cf.me t (Verif.World.run ser w ops) := by
  induction h with
  | nil => exact hk
  | other ho _ ih => exact ih (reach_step hre _) hns (gentle_step hk hat (gentle_others (ho.resolve_right id)))
  | start c hx _ ih =>
    rw [run_append]
    exact ih (reach_run hre _) (fun how hm => hns how (by rw [effs_eff]; exact .tail _ hm)) (hl.spares _ c _ _ _ _ hre hx hat hk)
  | @stop w n ds ops1 ops2 p how x hx _ ih =>
    rw [run_append]
    refine ih (reach_run hre _) (fun how hm => hns how (by rw [effs_eff]; exact .tail _ hm)) (gentle_run hat _ (fun o ho => ?_) hk)
    refine shuts_gentle ?_ (shutdown_shuts hx o ho)
    rintro rfl
    exact hns how (by rw [effs_eff]; exact List.mem_cons_self)
  | cast id _ ih => exact ih (reach_step hre _) hns (gentle_step hk hat ⟨(by rintro (h | h) <;> cases h), fun _ _ h => by cases h⟩)

theorem performs_linked {cf : Conf B V} {ser : V → B} (hl : Links cf ser) {t : Nat} {w : World B V} {n : Nat} {ds : List Did} {ops : List (Op B V)}
    (h : PerformsQ cf ser (fun _ => False) w n ds ops) (hre : Reachable ser w) (ht : Traps cf.me w) (hns : ∀ how, .stop (.loc t) how ∉ effs ds) {id : String}
    (hm : .start id (.ok (.loc t)) ∈ effs ds) : cf.me ≠ t ∧ Knows ser cf.me t (Verif.World.run ser w ops) := by
  induction h with
  | nil => simp at hm
  | other ho _ ih => exact ih (reach_step hre _) (traps_step ht (others_trap (ho.resolve_right (fun h => h)))) hns hm
  | start c hx hp ih =>
    rw [run_append]
    rw [effs_eff] at hm
    have hns' := fun how hm => hns how (by rw [effs_eff]; exact .tail _ hm)
    have ht' := hl.traps _ c _ _ _ hre hx ht
    rcases List.mem_cons.1 hm with he | hm
    · cases he
      obtain ⟨h1, h2⟩ := hl.linked _ c _ _ _ hre hx ht
      exact ⟨h1, performs_knows hl h1 hp (reach_run hre _) hns' h2⟩
    · exact ih (reach_run hre _) ht' hns' hm
  | stop hx _ ih =>
    rw [run_append]
    rw [effs_eff] at hm
    have hns' := fun how hm => hns how (by rw [effs_eff]; exact .tail _ hm)
    exact ih (reach_run hre _) (traps_run _ (fun o ho => shuts_trap (shutdown_shuts hx o ho)) ht) hns' (by simpa using hm)
  | cast id _ ih => exact ih (reach_step hre _) (traps_step ht (by simp [retryOp])) hns (by simpa using hm)

/-! ## The loop -/

/-- The supervisor was told of the exit of `t`. -/
def Told (t : Nat) (calls : List (Record SMsg SState)) : Prop := ∃ c ∈ calls, ∃ e, c.what = .info (.system (.exit (.loc t) e))

/-- The invariant: whom it started, did not stop, and of whose exit it was not told, it knows of. `P t` excepts some. -/
def Minds (cf : Conf B V) (ser : V → B) (P : Nat → Prop) (w : World B V) (σ : SState) (l : List (Record SMsg SState)) : Prop :=
  Traps cf.me w ∧ ∀ id t, .start id (.ok (.loc t)) ∈ σ.1.log → (∀ how, .stop (.loc t) how ∉ σ.1.log) → ¬ Told t l → ¬ P t → cf.me ≠ t ∧ Knows ser cf.me t w

theorem minds_step {cf : Conf B V} {ser : V → B} {P : Nat → Prop} {w : World B V} {σ : SState} {l : List (Record SMsg SState)} {o : Op B V}
    (ht : o ≠ .setTrap cf.me false) (hg : ∀ t, cf.me ≠ t → ¬ P t → Knows ser cf.me t w → Knows ser cf.me t (Verif.World.step ser w o).1) (h : Minds cf ser P w σ l) :
    Minds cf ser P (Verif.World.step ser w o).1 σ l := by
  refine ⟨traps_step h.1 ht, fun id t h1 h2 h3 h4 => ?_⟩
  obtain ⟨h5, h6⟩ := h.2 id t h1 h2 h3 h4
  exact ⟨h5, hg t h5 h4 h6⟩

theorem minds_effects {cf : Conf B V} {ser : V → B} (hl : Links cf ser) {P : Nat → Prop} {w : World B V} {σ σ' : SState} {l l' : List (Record SMsg SState)}
    {ds : List Did} {n : Nat} {ops : List (Op B V)} (hre : Reachable ser w) (hp : PerformsQ cf ser (fun _ => False) w n ds ops) (hlog : σ'.1.log = σ.1.log ++ effs ds)
    (hsub : ∀ t, Told t l ∨ P t → Told t l') (h : Minds cf ser P w σ l) : Minds cf ser (fun _ => False) (Verif.World.run ser w ops) σ' l' := by
  refine ⟨performs_traps hl hp hre h.1, fun id t h1 h2 h3 _ => ?_⟩
  rw [hlog] at h1
  have hns : ∀ how, .stop (.loc t) how ∉ effs ds := fun how hm => h2 how (by rw [hlog]; exact List.mem_append_right _ hm)
  rcases List.mem_append.1 h1 with h1 | h1
  · obtain ⟨h5, h6⟩ := h.2 id t h1 (fun how hm => h2 how (by rw [hlog]; exact List.mem_append_left _ hm)) (fun hm => h3 (hsub t (.inl hm))) (fun hm => h3 (hsub t (.inr hm)))
    exact ⟨h5, performs_knows hl h5 hp hre hns h6⟩
  · exact performs_linked hl hp hre h.1 hns h1

theorem vis_sys {sy : Sys} {l : List (Item B V)} (h : .system sy ∈ l) : ∀ refs, .system sy ∈ visible refs l := by
  induction l with
  | nil => cases h
  | cons it rest ih =>
    intro refs
    rcases List.mem_cons.1 h with rfl | h'
    · simp [visible]
    · have := ih h'
      cases it <;> simp only [visible] <;> (try split) <;> simp [this]

/-- An empty mailbox has no exit message of a dead process. -/
theorem poll_empty {a t : Nat} {w : World B V} {p : Proc B V} (hc : contents p.box = []) (hp : w.procs a = some p) (hr : Verif.World.running w a = true)
    (hx : exists? w t = false) (h : Notified a t w) : False := by
  rcases h with h | ⟨-, q, r, hq, hm⟩ | h
  · rw [h.2.2] at hx; cases hx
  · rw [hp] at hq; cases hq
    have : Item.system (.exit (.loc t) r) ∈ contents p.box := by
      simp only [contents]
      rcases List.mem_append.1 hm with hm | hm
      · exact List.mem_append_left _ hm
      · exact List.mem_append_right _ (vis_sys hm _)
    rw [hc] at this; cases this
  · rw [h] at hr; cases hr

/-- C137, a supervisor: as long as it goes on, it has missed the end of no child. Every process of this node that it started (at its start, on request or
as a restart), that it has not itself shut down, and of whose end it has not yet been told by an exit message, still exists, or its exit message waits in
the mailbox of the supervisor (or the supervisor was killed). -/
theorem C137_supervisor (cf : Conf B V) (ser : V → B) (hlk : Links cf ser) (w : World B V) (hw : Reachable ser w) (parent : Pid) (n : Nat)
    (st : Strategy) (au : AutoShutdown) (mr md : Nat) (cs : List Spec) (ops : List (Op B V)) (l : Log SMsg SState) (σ : SState)
    (h : Exec ser cf.me w (supLife cf parent n (fresh st au mr md cs)) ops (some l, σ)) (hend : l.ended = none)
    (id : String) (t : Nat) (hst : .start id (.ok (.loc t)) ∈ l.state.1.log) (hns : ∀ how, .stop (.loc t) how ∉ l.state.1.log)
    (hnt : ¬ ∃ c ∈ l.calls, ∃ e, c.what = .info (.system (.exit (.loc t) e))) :
    exists? (Verif.World.run ser w ops) t = true ∨ Heard cf.me t (Verif.World.run ser w ops) ∨ Verif.World.running (Verif.World.run ser w ops) cf.me = false := by
  obtain ⟨-, σ0, -, -, -, os1, os2, os3, rfl, h1, h3, h2⟩ := life_parts cf ser w hw parent n st au mr md cs ops l σ h
  have hinit : Minds cf ser (fun _ => False) (Verif.World.run ser w os1) σ0 [] := by
    obtain ⟨osa, osb, rfl, ho, hrun, hx⟩ := exec_op_inv h1
    obtain ⟨ds, d1, d2, -⟩ := callback (Q := fun _ => False) (fun o => initChildren_same o (fresh st au mr md cs)) (reach_step (reach_run hw osa) _) hx
    rw [run_append]
    change Minds cf ser _ (Verif.World.run ser (Verif.World.step ser (Verif.World.run ser w osa) (.setTrap cf.me true)).1 osb) σ0 []
    refine minds_effects (P := fun _ => False) (σ := (fresh st au mr md cs, 0)) (l := []) hlk (reach_step (reach_run hw osa) _) d1 d2 (fun t h => h.resolve_right (fun h => h)) ⟨?_, ?_⟩
    · obtain ⟨p, hp, htr⟩ := setTrap_state ser (Verif.World.run ser w osa) cf.me true hrun
      refine ⟨lt_of_running (reach_step (reach_run hw osa) _) (by simp [exists?, hp]), fun q hq => ?_⟩
      rw [hp] at hq; cases hq; exact htr
    · intro id t h; simp [fresh, new] at h
  have loop := (loop_rule (Ok := fun _ _ => True) (I := Minds cf ser fun _ => False)
    (K := fun m => Minds cf ser fun t => ∃ r, m = .system (.exit (.loc t) r)) (J := fun _ _ _ => True)
    (fun w o σ l _ ho _ hi => minds_step (others_trap ho) (fun t ht _ hk => gentle_step hk ht (gentle_others ho)) hi)
    (fun w kind p σ l _ hrun hp hc hi => minds_step (by simp) (fun t ht _ hk => by
      refine hk.step ht _ (by rintro (h | h) <;> cases h) ?_
      rintro ro k he - hx hte
      cases he
      exact poll_empty hc hp hrun hx hk.told) hi)
    (fun w kind m σ l _ hrun hm _ _ hi => by
      have hkd : kind ≠ .remove := by
        rintro rfl
        cases hp : w.procs cf.me with
        | none => simp [received, hp] at hm
        | some p => simp [received, hp] at hm
      refine minds_step (P := fun t => ∃ r, m = .system (.exit (.loc t) r)) (by simp) (fun t ht hP hk => ?_) ⟨hi.1, fun id t h1 h2 h3 _ => hi.2 id t h1 h2 h3 (fun h => h)⟩
      refine hk.step ht _ (by rintro (h | h) <;> cases h) ?_
      rintro ro k he - - (⟨r, hr⟩ | ⟨rfl, -⟩)
      · cases he; change received _ _ _ _ = _ at hr; rw [hm] at hr; cases hr; exact hP ⟨r, rfl⟩
      · cases he; exact hkd rfl)
    (fun w m os c l hre _ hi hran => by
      obtain ⟨hcb, hr⟩ := hran
      obtain ⟨ds, he⟩ := ran_effects (Q := fun _ => False) hre hr
      have : Minds cf ser (fun _ => False) (Verif.World.run ser w os) c.after (l ++ [c]) := by
        refine minds_effects hlk hre he.perf he.log (fun t ht => ?_) hi
        rcases ht with ⟨d, hd, e⟩ | ⟨r, rfl⟩
        · exact ⟨d, List.mem_append_left _ hd, e⟩
        · refine ⟨c, by simp, r, ?_⟩
          simp only [callbackFor] at hcb
          split at hcb
          · cases hcb
          · simpa using hcb.symm
      cases c.result with
      | ok y => exact this
      | error r => trivial)
    (fun _ _ _ _ _ _ _ _ => trivial)
    (fun w c o σ l _ _ ho hi => by
      have : ∃ frm y, o = replyOp cf.type cf.me frm y := by
        unfold Verif.World.replyOf at ho
        split at ho
        · cases ho; exact ⟨_, _, rfl⟩
        · cases ho
      obtain ⟨frm, y, rfl⟩ := this
      exact minds_step (by simp [replyOp]) (fun t ht _ hk => gentle_step hk ht ⟨(by rintro (h | h) <;> cases h), fun _ _ h => by cases h⟩) hi)
    (reach_run hw os1) (by
      generalize Verif.World.run ser w os1 = w1
      clear h2 h
      induction os2 generalizing w1 with
      | nil => trivial
      | cons o os ih => exact ⟨trivial, ih (Verif.World.step ser w1 o).1⟩) hinit h2).1 hend
  obtain ⟨h5, h6⟩ := loop.2 id t hst hns (by simpa [Told] using hnt) (fun h => h)
  have h7 := h6.others h5 os3 h3
  rw [← run_append, ← run_append] at h7
  rcases h7.told with h | h | h
  · exact .inl h.2.2
  · exact .inr (.inl h.2)
  · exact .inr (.inr h)

/-! ## Example -/

/-- Start routines that spawn a linked process are as wanted. -/
theorem supConf_links : Links supConf supSer := by
  have ops_of : ∀ n c w ops r, Exec supSer 2 w (supConf.startOf n c) ops r → ∀ o ∈ ops, Others 2 o ∨ o = .spawn 2 true false := by
    intro n c w ops r hx o ho
    simp only [supConf] at hx
    split at hx
    · exact .inl ((exec_ret_inv hx).2 o ho)
    · obtain ⟨os1, os2, rfl, h1, -, h2⟩ := exec_op_inv hx
      simp only [List.mem_append, List.mem_cons] at ho
      rcases ho with h | h | h
      · exact .inl (h1 o h)
      · exact .inr h
      · exact .inl ((exec_ret_inv h2).2 o h)
  refine ⟨?_, ?_, ?_⟩
  · intro n c w ops r _ hx ht
    refine traps_run ops (fun o ho => ?_) ht
    rcases ops_of n c w ops r hx o ho with h | rfl
    · exact others_trap h
    · simp
  · intro n c w ops r u _ hx hu hk
    refine gentle_run hu ops (fun o ho => ?_) hk
    rcases ops_of n c w ops r hx o ho with h | rfl
    · exact gentle_others h
    · exact ⟨(by rintro (h | h) <;> cases h), fun _ _ h => by cases h⟩
  · intro n c w ops t hre hx ht
    simp only [supConf] at hx
    split at hx
    · obtain ⟨h, -⟩ := exec_ret_inv hx
      simp at h
    · obtain ⟨os1, os2, rfl, h1, hrun, h2⟩ := exec_op_inv hx
      obtain ⟨h3, h4⟩ := exec_ret_inv h2
      obtain ⟨os, hos⟩ := reach_run hre os1
      have ht1 : Traps 2 (Verif.World.run supSer w os1) := traps_run os1 (fun o ho => others_trap (h1 o ho)) ht
      obtain ⟨p, hp⟩ : ∃ p, (Verif.World.run supSer w os1).procs 2 = some p := by
        unfold Verif.World.running at hrun
        cases hp : (Verif.World.run supSer w os1).procs 2 with
        | none => rw [hp] at hrun; cases hrun
        | some p => exact ⟨p, rfl⟩
      have hrun' : Verif.World.running (Verif.World.run supSer w os1) 2 = true := hrun
      rw [hos] at hrun' hp
      obtain ⟨t', r', e1, e2, e3⟩ := C137_spawned supSer os 2 false hrun' ⟨p, hp, ht1.2 p (by rw [hos]; exact hp)⟩
      rw [hos] at h3
      rw [e1] at h3
      cases h3
      refine ⟨e2, ?_⟩
      rw [run_append]
      refine Knows.others (w := (Verif.World.step supSer (Verif.World.run supSer w os1) (.spawn 2 true false)).1) ?_ e2 os2 h4
      rw [hos]
      have hre' : Reachable supSer (Verif.World.step supSer (Verif.World.run supSer init os) (.spawn 2 true false)).1 := reach_step ⟨os, rfl⟩ _
      refine ⟨hre', ?_, lt_of_running hre' e3.2.2, .inl e3⟩
      obtain ⟨⟨q, hq, -⟩, -⟩ := e3
      exact lt_of_running hre' (by simp [exists?, hq])

/-- Whose exit a callback was told. -/
def exitTold (c : Record SMsg SState) : Option Pid := match c.what with | .info (.system (.exit p _)) => some p | _ => none

/-- What there is to see of an execution. -/
def noticeSeen (x : List (Op Nat (GMsg SMsg)) × Option (Log SMsg SState) × SState) : Option (Option ExitReason × List Eff × List (Option Pid)) × Bool × Bool :=
  (x.2.1.map fun l => (l.ended, l.state.1.log, l.calls.map exitTold), exists? (Verif.World.run supSer (Verif.World.run supSer init supStart) x.1) 5,
    Verif.World.running (Verif.World.run supSer (Verif.World.run supSer init supStart) x.1) 2)

set_option synthInstance.maxSize 2000 in
/-- A supervisor with two children (3, 4): 3 is killed and restarted as 5, and 5 is killed: the supervisor has not been told yet. -/
theorem noticeSup : ∃ ops l σ, Exec supSer supConf.me (Verif.World.run supSer init supStart)
    (supLife supConf (.loc 1) 1 (fresh .oneForOne .never 3 5000 [worker "a" .permanent, worker "b" .permanent])) ops (some l, σ) ∧ l.ended = none ∧
    l.state.1.log = [.start "a" (.ok (.loc 3)), .start "b" (.ok (.loc 4)), .start "a" (.ok (.loc 5))] ∧
    l.calls.map exitTold = [some (.loc 3)] ∧
    exists? (Verif.World.run supSer (Verif.World.run supSer init supStart) ops) 5 = false ∧
    Verif.World.running (Verif.World.run supSer (Verif.World.run supSer init supStart) ops) 2 = true := by
  have h : (sim supSer 2 (Verif.World.run supSer init supStart)
      (supLife supConf (.loc 1) 1 (fresh .oneForOne .never 3 5000 [worker "a" .permanent, worker "b" .permanent]))
      [.mine, .mine, .mine, .env (.exit 3 (.loc 3) .kill), .env (.drop 3), .mine, .mine, .env (.exit 5 (.loc 5) .kill), .env (.drop 5)]).map
      noticeSeen =
      some (some (none, [.start "a" (.ok (.loc 3)), .start "b" (.ok (.loc 4)), .start "a" (.ok (.loc 5))], [some (.loc 3)]), false, true) := by decide +kernel
  simp only [noticeSeen, Option.map_eq_some_iff, Prod.mk.injEq] at h
  obtain ⟨⟨ops, l, σ⟩, h1, ⟨l', rfl, h2, h3, h4⟩, h5, h6⟩ := h
  exact ⟨ops, l', σ, sim_exec supSer 2 _ _ _ _ h1, h2, h3, h4, h5, h6⟩

/-- The exit message of 5 waits in the mailbox. -/
example : ∃ ops, Heard 2 5 (Verif.World.run supSer (Verif.World.run supSer init supStart) ops) := by
  obtain ⟨ops, l, σ, h1, h2, h3, h4, h5, h6⟩ := noticeSup
  refine ⟨ops, ?_⟩
  have hnt : ¬ ∃ c ∈ l.calls, ∃ e, c.what = .info (.system (.exit (.loc 5) e)) := by
    rintro ⟨c, hc, e, he⟩
    have := List.mem_map_of_mem (f := exitTold) hc
    rw [h4] at this
    simp [exitTold, he] at this
  rcases C137_supervisor supConf supSer supConf_links _ ⟨_, rfl⟩ (.loc 1) 1 .oneForOne .never 3 5000 _ ops l σ h1 h2 "a" 5 (by rw [h3]; simp) (by rw [h3]; simp) hnt
    with h | h | h
  · rw [h5] at h; cases h
  · exact h
  · have h' : Verif.World.running (Verif.World.run supSer (Verif.World.run supSer init supStart) ops) 2 = false := h
    rw [h6] at h'; cases h'

end Verif.Sup
