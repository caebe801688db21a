import Verif.RegistryLemmas
import Verif.LoopLemmas
/-!
# The invariant of a registry, and the specification of C72
-/
namespace Verif.World
open Verif.Mailbox
variable {B V : Type}

/-! ## Specification of C72 -/

/-- What a callback of the registry means for the map from keys to processes: a start sets the key, a stop and a removal of the key clear
it, and the notice of a death clears the keys of the process. -/
def regEvent (m : RKey → Option Pid) (c : Record RMsg Lookup) : RKey → Option Pid :=
  match c.what, c.result with
  | .call (.start k) _, .ok (some (.startSuccess p)) => fun k' => if k' = k then some p else m k'
  | .call (.lookupOrStart k) _, .ok (some (.lookupOrStartSuccess p)) => fun k' => if k' = k then some p else m k'
  | .call (.stop k) _, .ok (some .stopSuccess) => fun k' => if k' = k then none else m k'
  | .call (.remove k) _, .ok (some (.removeSuccess _)) => fun k' => if k' = k then none else m k'
  | .info (.system (.exit p _)), _ => fun k' => if m k' = some p then none else m k'
  | _, _ => m

/-- The map after a history of callbacks. -/
def regMap (l : List (Record RMsg Lookup)) : RKey → Option Pid := l.foldl regEvent fun _ => none

/-- What is asked of the rest of the program: nobody else writes the table of this registry (there is no second registry with the same
name), except by `Registry::remove` (which is excluded, too, if `quiet`); and the registry is told to forget a process only after
the key of the process was removed (as `Registry::remove` does, `C72_remove_order`). -/
def RegEnv (name : String) (τ : RecvType B V (GMsg RMsg)) (me : Nat) (quiet : Prop) (w : World B V) (o : Op B V) : Prop :=
  (∀ m t, m ≠ me → o = .table m t → t.client name ∧ (quiet → ¬ t.isRemove name)) ∧
  (∀ kind p, o = .recv me (anyMsg τ) kind → received w me (anyMsg τ) kind = some (.user (.cast (.removeLookup p))) → ∀ k, tab name w k ≠ some p)

/-- What is asked of the start routine, when it is run by process `me`: a process it returns is new, and it is linked to the registry or
the registry has already been told of its death; it does not touch the table of the registry, turn off the trapping of exits, unlink
other processes or take messages for the registry out of its mailbox. -/
def Starts (ser : V → B) (name : String) (me : Nat) (f : Prog B V (Except ExitReason Pid)) : Prop :=
  ∀ w os r, Reachable ser w → Traps w me → Exec ser me w f os r →
    Traps (run ser w os) me ∧ (∀ i, i ≠ me → Watched w me i → Watched (run ser w os) me i) ∧
    (∀ t, Op.table me t ∈ os → t.client name ∧ ¬ t.isRemove name) ∧
    ∀ p, r = .ok p → ∃ i, p = .loc i ∧ w.nextPid ≤ i ∧ i < (run ser w os).nextPid ∧ Watched (run ser w os) me i

/-! ## The invariant -/

/-- `x` is the process whose death is being handled, if any. -/
structure RInv (name : String) (me : Nat) (quiet : Prop) (x : Option Pid) (w : World B V) (σ : Lookup) (M : RKey → Option Pid) : Prop where
  trap : Traps w me
  ids : ∀ p k, aget σ p = some k → ∃ i, p = .loc i ∧ i < w.nextPid ∧ i ≠ me
  tab : ∀ k p, tab name w k = some p → aget σ p = some k
  spec : ∀ k p, World.tab name w k = some p → M k = some p
  full : quiet → ∀ k p, M k = some p → World.tab name w k = some p
  watch : ∀ i k, aget σ (.loc i) = some k → x ≠ some (.loc i) → Watched w me i

theorem RInv.weaken {name : String} {me : Nat} {quiet : Prop} {w : World B V} {σ : Lookup} {M : RKey → Option Pid}
    (h : RInv name me quiet none w σ M) (x : Option Pid) : RInv name me quiet x w σ M :=
  ⟨h.trap, h.ids, h.tab, h.spec, h.full, fun i k hk _ => h.watch i k hk (by simp)⟩

/-- The operations that keep the invariant. -/
def Mild (name : String) (me : Nat) (quiet : Prop) (x : Option Pid) (o : Op B V) : Prop :=
  o ≠ .drop me ∧ (∀ ro k, o ≠ .recv me ro k) ∧ o ≠ .setTrap me false ∧ (∀ i, o = .unlink me (.loc i) → x = some (.loc i)) ∧
  (∀ m t, o = .table m t → t.client name ∧ (quiet → ¬ t.isRemove name))

theorem nextPid_step (ser : V → B) (w : World B V) (o : Op B V) : w.nextPid ≤ (step ser w o).1.nextPid :=
  (acts_mono_counters (step_acts ser w o)).1

theorem nextPid_run (ser : V → B) (w : World B V) (os : List (Op B V)) : w.nextPid ≤ (run ser w os).nextPid := by
  induction os generalizing w with
  | nil => exact Nat.le_refl _
  | cons o os ih => rw [run_cons]; exact Nat.le_trans (nextPid_step ser w o) (ih _)

/-- The part of the invariant that does not speak of the table. -/
theorem rcore_step {ser : V → B} {name : String} {me : Nat} {quiet : Prop} {x : Option Pid} {w : World B V} {σ : Lookup} {M : RKey → Option Pid}
    (hre : Reachable ser w) {o : Op B V} (m1 : o ≠ .drop me) (m2 : ∀ ro k, o ≠ .recv me ro k) (m3 : o ≠ .setTrap me false)
    (m4 : ∀ i, o = .unlink me (.loc i) → x = some (.loc i)) (h : RInv name me quiet x w σ M) :
    Traps (step ser w o).1 me ∧ (∀ p k, aget σ p = some k → ∃ i, p = .loc i ∧ i < (step ser w o).1.nextPid ∧ i ≠ me) ∧
    (∀ i k, aget σ (.loc i) = some k → x ≠ some (.loc i) → Watched (step ser w o).1 me i) := by
  have hlt := traps_lt hre h.trap
  refine ⟨traps_step ser hlt m1 m3 h.trap, ?_, ?_⟩
  · intro p k hk
    obtain ⟨i, rfl, h1, h2⟩ := h.ids p k hk
    exact ⟨i, rfl, Nat.lt_of_lt_of_le h1 (nextPid_step ser w o), h2⟩
  · intro i k hk hx
    obtain ⟨i', hi, h1, h2⟩ := h.ids _ k hk
    cases hi
    exact watched_step ser hre h2 h.trap m1 m2 (fun e => hx (m4 i e)) (h.watch i k hk hx)

theorem rinv_step {ser : V → B} {name : String} {me : Nat} {quiet : Prop} {x : Option Pid} {w : World B V} {σ : Lookup} {M : RKey → Option Pid}
    (hre : Reachable ser w) {o : Op B V} (hm : Mild name me quiet x o) (h : RInv name me quiet x w σ M) : RInv name me quiet x (step ser w o).1 σ M := by
  obtain ⟨m1, m2, m3, m4, m5⟩ := hm
  have htab : ∀ k p, tab name (step ser w o).1 k = some p → tab name w k = some p := by
    intro k p hp
    by_cases ht : ∃ m t, o = .table m t
    · obtain ⟨m, t, rfl⟩ := ht
      exact tab_client ser name w m t (m5 m t rfl).1 k p hp
    · unfold tab at hp ⊢
      rwa [tables_step ser w o (fun m t e => ht ⟨m, t, e⟩)] at hp
  have hful : quiet → ∀ k, tab name (step ser w o).1 k = tab name w k := by
    intro hq k
    by_cases ht : ∃ m t, o = .table m t
    · obtain ⟨m, t, rfl⟩ := ht
      exact tab_quiet ser name w m t (m5 m t rfl).1 ((m5 m t rfl).2 hq) k
    · unfold tab
      rw [tables_step ser w o (fun m t e => ht ⟨m, t, e⟩)]
  obtain ⟨c1, c2, c3⟩ := rcore_step hre m1 m2 m3 m4 h
  exact ⟨c1, c2, fun k p hp => h.tab k p (htab k p hp), fun k p hp => h.spec k p (htab k p hp),
    fun hq k p hp => by rw [hful hq]; exact h.full hq k p hp, c3⟩

theorem mild_others {name : String} {τ : RecvType B V (GMsg RMsg)} {me : Nat} {quiet : Prop} {x : Option Pid} {w : World B V} {o : Op B V} (ho : Others me o)
    (hok : RegEnv name τ me quiet w o) : Mild name me quiet x o := by
  obtain ⟨h1, h2⟩ := ho
  refine ⟨h2, ?_, ?_, ?_, ?_⟩
  · rintro ro k rfl; exact h1 rfl
  · rintro rfl; exact h1 rfl
  · rintro i rfl; exact absurd rfl h1
  · rintro m t rfl
    exact hok.1 m t (fun e => h1 (by subst e; rfl)) rfl

theorem rinv_others {ser : V → B} {name : String} {τ : RecvType B V (GMsg RMsg)} {me : Nat} {quiet : Prop} {x : Option Pid} {w : World B V} {σ : Lookup}
    {M : RKey → Option Pid} (hre : Reachable ser w) {os : List (Op B V)} (ho : ∀ o ∈ os, Others me o)
    (hok : Always ser (RegEnv name τ me quiet) w os) (h : RInv name me quiet x w σ M) : RInv name me quiet x (run ser w os) σ M :=
  always_run (Ok := RegEnv name τ me quiet) (P := Others me) (I := fun w => RInv name me quiet x w σ M)
    (fun _ _ hr hp hk hi => rinv_step hr (mild_others hp hk) hi) hre hok ho h

/-- The step of an operation in a program of the registry. -/
theorem rinv_op {R : Type} {ser : V → B} {name : String} {τ : RecvType B V (GMsg RMsg)} {me : Nat} {quiet : Prop} {x : Option Pid} {w : World B V} {σ : Lookup}
    {M : RKey → Option Pid} {o : Op B V} {k : Res → Prog B V R} {os : List (Op B V)} {r : R} (hre : Reachable ser w)
    (hok : Always ser (RegEnv name τ me quiet) w os) (h : RInv name me quiet x w σ M) (hx : Exec ser me w (.op o k) os r) :
    ∃ w1 os2, RInv name me quiet x w1 σ M ∧ Reachable ser w1 ∧ running w1 me = true ∧ w.nextPid ≤ w1.nextPid ∧
      Always ser (RegEnv name τ me quiet) (step ser w1 o).1 os2 ∧ run ser w os = run ser (step ser w1 o).1 os2 ∧
      Exec ser me (step ser w1 o).1 (k (step ser w1 o).2) os2 r ∧
      ((∀ k p, tab name w1 k = some p → tab name w k = some p)) := by
  obtain ⟨os1, os2, rfl, ho, hr, hx2⟩ := exec_op_inv hx
  obtain ⟨k1, k2⟩ := always_append.1 hok
  refine ⟨run ser w os1, os2, rinv_others hre ho k1 h, reach_run hre _, hr, nextPid_run _ _ _, k2.2, by rw [run_append]; rfl, hx2, ?_⟩
  have := always_run (Ok := RegEnv name τ me quiet) (P := Others me) (I := fun w' => ∀ k p, tab name w' k = some p → tab name w k = some p)
    (fun w' o hr hp hk hi => by
      intro k p hkp
      obtain ⟨-, -, -, -, m5⟩ := mild_others (x := none) hp hk
      refine hi k p ?_
      by_cases ht : ∃ m t, o = .table m t
      · obtain ⟨m, t, rfl⟩ := ht
        exact tab_client ser name w' m t (m5 m t rfl).1 k p hkp
      · unfold tab at hkp ⊢
        rwa [tables_step ser w' o (fun m t e => ht ⟨m, t, e⟩)] at hkp) hre k1 ho (fun _ _ h => h)
  exact this

/-- The end of a program of the registry. -/
theorem rinv_ret {R : Type} {ser : V → B} {name : String} {τ : RecvType B V (GMsg RMsg)} {me : Nat} {quiet : Prop} {x : Option Pid} {w : World B V} {σ : Lookup}
    {M : RKey → Option Pid} {os : List (Op B V)} {r r' : R} (hre : Reachable ser w)
    (hok : Always ser (RegEnv name τ me quiet) w os) (h : RInv name me quiet x w σ M) (hx : Exec ser me w (.ret r') os r) :
    r = r' ∧ RInv name me quiet x (run ser w os) σ M := by
  obtain ⟨rfl, ho⟩ := exec_ret_inv hx
  exact ⟨rfl, rinv_others hre ho hok h⟩

theorem always_mem {ser : V → B} {Ok : World B V → Op B V → Prop} {w : World B V} {os : List (Op B V)} (h : Always ser Ok w os) {o : Op B V} (ho : o ∈ os) :
    ∃ w', Ok w' o := by
  induction os generalizing w with
  | nil => cases ho
  | cons o' os ih =>
    rcases List.mem_cons.1 ho with rfl | ho
    · exact ⟨w, h.1⟩
    · exact ih h.2 ho

theorem tab_run {ser : V → B} {name : String} {quiet : Prop} {w : World B V} {os : List (Op B V)}
    (h : ∀ m t, Op.table m t ∈ os → t.client name ∧ (quiet → ¬ t.isRemove name)) :
    (∀ k p, tab name (run ser w os) k = some p → tab name w k = some p) ∧ (quiet → ∀ k, tab name (run ser w os) k = tab name w k) := by
  induction os generalizing w with
  | nil => exact ⟨fun _ _ h => h, fun _ _ => rfl⟩
  | cons o os ih =>
    obtain ⟨i1, i2⟩ := ih (w := (step ser w o).1) (fun m t hm => h m t (by simp [hm]))
    rw [run_cons]
    by_cases ht : ∃ m t, o = .table m t
    · obtain ⟨m, t, rfl⟩ := ht
      obtain ⟨h1, h2⟩ := h m t (by simp)
      exact ⟨fun k p hp => tab_client ser name w m t h1 k p (i1 k p hp),
        fun hq k => by rw [i2 hq]; exact tab_quiet ser name w m t h1 (h2 hq) k⟩
    · have e : ∀ k, tab name (step ser w o).1 k = tab name w k := by
        intro k; unfold tab; rw [tables_step ser w o (fun m t e => ht ⟨m, t, e⟩)]
      exact ⟨fun k p hp => by rw [← e]; exact i1 k p hp, fun hq k => by rw [i2 hq, e]⟩

theorem tables_others {ser : V → B} {name : String} {τ : RecvType B V (GMsg RMsg)} {me : Nat} {quiet : Prop} {w : World B V} {os : List (Op B V)}
    (ho : ∀ o ∈ os, Others me o) (hok : Always ser (RegEnv name τ me quiet) w os) :
    ∀ m t, Op.table m t ∈ os → t.client name ∧ (quiet → ¬ t.isRemove name) := by
  intro m t hm
  obtain ⟨w', hw'⟩ := always_mem hok hm
  exact hw'.1 m t (fun e => (ho _ hm).1 (by subst e; rfl)) rfl

/-! ### The accesses of the registry itself to its table -/

theorem own_client {name : String} {me : Nat} {quiet : Prop} {x : Option Pid} (t : TOp) (h : t.client name) (hr : quiet → ¬ t.isRemove name) :
    Mild (B := B) (V := V) name me quiet x (.table me t) := by
  refine ⟨by simp, by simp, by simp, by simp, ?_⟩
  rintro m t' e; cases e; exact ⟨h, hr⟩

theorem own_lookup {ser : V → B} {w : World B V} {me : Nat} (hr : running w me = true) (name : String) (k : RKey) :
    (step ser w (.table me (.lookup name k))).2 = .table (.found (tab name w k)) ∧
    ∀ k', tab name (step ser w (.table me (.lookup name k))).1 k' = tab name w k' := by
  obtain ⟨h1, h2⟩ := tables_table ser w me (.lookup name k) hr
  refine ⟨h2, fun k' => ?_⟩
  unfold tab; rw [h1]; rfl

theorem own_remove {ser : V → B} {w : World B V} {me : Nat} (hr : running w me = true) (name : String) (k : RKey) :
    (step ser w (.table me (.remove name k))).2 = .table (.found (tab name w k)) ∧
    ∀ k', tab name (step ser w (.table me (.remove name k))).1 k' = if k' = k then none else tab name w k' := by
  obtain ⟨h1, h2⟩ := tables_table ser w me (.remove name k) hr
  refine ⟨h2, fun k' => ?_⟩
  unfold tab; rw [h1]; simp only [tableOp, if_true]
  cases w.tables name with
  | none => simp
  | some e => simp [aget_adel]

theorem own_insert {ser : V → B} {w : World B V} {me : Nat} (hr : running w me = true) (name : String) (k : RKey) (p : Pid) :
    ∀ k', tab name (step ser w (.table me (.insert name k p))).1 k' = if k' = k then some p else tab name w k' := by
  obtain ⟨h1, h2⟩ := tables_table ser w me (.insert name k p) hr
  intro k'
  unfold tab; rw [h1]; simp only [tableOp, if_true, Option.bind_some, aget_aset]
  cases w.tables name with
  | none => simp [aget]
  | some e => simp

theorem own_removeIf {ser : V → B} {w : World B V} {me : Nat} (hr : running w me = true) (name : String) (k : RKey) (p : Pid) :
    ∀ k', tab name (step ser w (.table me (.removeIf name k p))).1 k' = if k' = k ∧ tab name w k = some p then none else tab name w k' := by
  obtain ⟨h1, h2⟩ := tables_table ser w me (.removeIf name k p) hr
  intro k'
  unfold tab; rw [h1]; simp only [tableOp, if_true]
  cases w.tables name with
  | none => simp
  | some e =>
    simp only [Option.map_some, Option.bind_some]
    by_cases h : aget e k = some p
    · simp [h, aget_adel]
    · simp [h]

/-! ### A panic ends the history -/

theorem panic_never {R : Type} {ser : V → B} {me : Nat} {w : World B V} (hre : Reachable ser w) {s : String} {dead : R} {os : List (Op B V)} {r : R}
    (hx : Exec ser me w (.op (.panic me s) fun _ => .op (.finish me) fun _ => .ret dead) os r) : False := by
  obtain ⟨os1, os2, rfl, ho, hr, hx⟩ := exec_op_inv hx
  obtain ⟨os3, os4, rfl, ho3, hr3, hx⟩ := exec_op_inv hx
  have hre1 := reach_step (reach_run hre os1) (.panic me s)
  have h0 : ∃ p, (step ser (run ser w os1) (.panic me s)).1.procs me = some p ∧ p.ended = true := by
    cases hp : (run ser w os1).procs me with
    | none => simp [running, hp] at hr
    | some p =>
      exact ⟨{ p with reason := some (.custom s), ended := true }, by simp [step, Op.caller, hr, Op.exec, crash, modProc, upd_at, hp], rfl⟩
  obtain ⟨p, hp, he⟩ := ended_run ser hre1 ho3 h0
  simp [running, hp, he] at hr3

/-- What the loop of `drop` does. -/
theorem killAll_inv {R : Type} {ser : V → B} {me : Nat} (ps : List Pid) {k : Prog B V R} {w : World B V} {os : List (Op B V)} {r : R}
    (hx : Exec ser me w (killAll me ps k) os r) :
    ∃ os1 os2, os = os1 ++ os2 ∧ exitsBy me os1 = ps.map (·, .kill) ∧ Exec ser me (run ser w os1) k os2 r := by
  induction ps generalizing w os with
  | nil => exact ⟨[], os, rfl, rfl, hx⟩
  | cons p ps ih =>
    rw [killAll] at hx
    obtain ⟨os3, os4, rfl, ho3, -, hx⟩ := exec_op_inv hx
    obtain ⟨os5, os6, rfl, ho5, -, hx⟩ := exec_op_inv hx
    obtain ⟨os7, os8, rfl, h7, hx⟩ := ih hx
    refine ⟨os3 ++ .unlink me p :: (os5 ++ .exit me p .kill :: os7), os8, by simp, ?_, ?_⟩
    · rw [show os3 ++ Op.unlink me p :: (os5 ++ Op.exit me p .kill :: os7) = os3 ++ ([.unlink me p] ++ (os5 ++ ([.exit me p .kill] ++ os7))) by simp,
        exitsBy_append, exitsBy_append, exitsBy_append, exitsBy_append, exitsBy_others me os3 ho3, exitsBy_others me os5 ho5, h7]
      simp [exitsBy]
    · rw [run_append, run_cons, run_append, run_cons]; exact hx

theorem panics_never {R : Type} {ser : V → B} {me : Nat} {w : World B V} (hre : Reachable ser w) {c : RegConf B V} {σ : Lookup} {dead : R}
    {os : List (Op B V)} {r : R} (hx : Exec ser me w (registryPanics c me σ dead) os r) : False := by
  unfold registryPanics registryDrop at hx
  obtain ⟨os1, os2, rfl, ho, hr, hx⟩ := exec_op_inv hx
  have hre := reach_step (reach_run hre os1) (.table me (.take c.name))
  obtain ⟨os3, os4, rfl, -, hx⟩ := killAll_inv _ hx
  exact panic_never (reach_run hre os3) hx

/-! ### The routines -/

variable {ser : V → B} {c : RegConf B V} {τ : RecvType B V (GMsg RMsg)} {me : Nat} {quiet : Prop}

/-- `lookup_process` by the registry. -/
theorem lookup_spec {w : World B V} {σ : Lookup} {M : RKey → Option Pid} {k : RKey} {os : List (Op B V)} {r : Option Pid} (hre : Reachable ser w)
    (hok : Always ser (RegEnv c.name τ me quiet) w os) (h : RInv c.name me quiet none w σ M) (hx : Exec ser me w (lookupProg me c.name k) os r) :
    RInv c.name me quiet none (run ser w os) σ M ∧ (∀ p, r = some p → tab c.name w k = some p ∧ M k = some p ∧ aget σ p = some k) ∧
    (r = none → tab c.name (run ser w os) k = none) := by
  obtain ⟨w1, os2, h1, hre1, hr1, -, hok2, he, hx2, hsh⟩ := rinv_op hre hok h hx
  obtain ⟨l1, l2⟩ := own_lookup (ser := ser) hr1 c.name k
  have h2 := rinv_step (ser := ser) hre1 (own_client (.lookup c.name k) trivial (fun _ h => h)) h1
  rw [l1] at hx2
  have hre2 := reach_step (ser := ser) hre1 (.table me (.lookup c.name k))
  obtain ⟨hr, h3⟩ := rinv_ret hre2 hok2 h2 hx2
  rw [he]
  refine ⟨h3, ?_, ?_⟩
  · intro p hp; rw [hr] at hp; dsimp only at hp
    exact ⟨hsh k p hp, h1.spec k p hp, h1.tab k p hp⟩
  · intro hn; rw [hr] at hn; dsimp only at hn
    obtain ⟨-, ho⟩ := exec_ret_inv hx2
    cases hq : tab c.name (run ser (step ser w1 (.table me (.lookup c.name k))).1 os2) k with
    | none => rfl
    | some p => rw [← l2, (tab_run (quiet := quiet) (tables_others ho hok2)).1 k p hq] at hn; cases hn

/-- `start_by_key`. -/
theorem start_spec {w : World B V} {σ σ' : Lookup} {M : RKey → Option Pid} {k : RKey} {os : List (Op B V)} {res : Except RError Pid} (hre : Reachable ser w)
    (hst : ∀ f, c.start = some f → Starts ser c.name me (f k)) (hok : Always ser (RegEnv c.name τ me quiet) w os)
    (h : RInv c.name me quiet none w σ M) (hx : Exec ser me w (startByKey c me σ k) os (σ', res)) :
    (∀ p, res = .ok p → RInv c.name me quiet none (run ser w os) σ' fun k' => if k' = k then some p else M k') ∧
    (∀ e, res = .error e → RInv c.name me quiet none (run ser w os) σ' M) ∧
    (∀ p, res = .ok p → ∃ os1 os2, os = os1 ++ .table me (.insert c.name k p) :: os2 ∧ tab c.name (run ser w os1) k = none) := by
  unfold startByKey at hx
  obtain ⟨os1, os2, q, rfl, hx1, hx2⟩ := exec_bind_inv hx
  obtain ⟨k1, k2⟩ := always_append.1 hok
  obtain ⟨h1, h2, h3⟩ := lookup_spec hre k1 h hx1
  have hre1 := reach_run hre os1
  rw [run_append]
  cases q with
  | some p =>
    obtain ⟨e, h4⟩ := rinv_ret hre1 k2 h1 hx2
    cases e
    exact ⟨by simp, fun _ _ => h4, by simp⟩
  | none =>
    cases hs : c.start with
    | none => simp only [hs] at hx2; exact (panics_never hre1 hx2).elim
    | some f =>
      simp only [hs] at hx2
      obtain ⟨os3, os4, q, rfl, hx3, hx4⟩ := exec_bind_inv hx2
      obtain ⟨k3, k4⟩ := always_append.1 k2
      obtain ⟨s1, s2, s3, s4⟩ := hst f hs _ _ _ hre1 h1.trap hx3
      have hre3 := reach_run hre1 os3
      have ht := tab_run (ser := ser) (name := c.name) (quiet := quiet) (w := run ser w os1) (os := os3) (by
        intro m t hm
        by_cases hme : m = me
        · subst hme; exact ⟨(s3 t hm).1, fun _ => (s3 t hm).2⟩
        · obtain ⟨w', hw'⟩ := always_mem k3 hm; exact hw'.1 m t hme rfl)
      have h4 : RInv c.name me quiet none (run ser (run ser w os1) os3) σ M := by
        refine ⟨s1, ?_, fun k p hp => h1.tab k p (ht.1 k p hp), fun k p hp => h1.spec k p (ht.1 k p hp),
          fun hq k p hp => by rw [ht.2 hq]; exact h1.full hq k p hp, ?_⟩
        · intro p k hk
          obtain ⟨i, rfl, h1, h2⟩ := h1.ids p k hk
          exact ⟨i, rfl, Nat.lt_of_lt_of_le h1 (nextPid_run _ _ _), h2⟩
        · intro i k hk hx
          obtain ⟨i', hi, _, h2⟩ := h1.ids _ k hk
          cases hi
          exact s2 i h2 (h1.watch i k hk hx)
      have hnone : tab c.name (run ser (run ser w os1) os3) k = none := by
        cases hq : tab c.name (run ser (run ser w os1) os3) k with
        | none => rfl
        | some p => rw [ht.1 k p hq] at h3; exact absurd (h3 rfl) (by simp)
      rw [run_append]
      cases q with
      | error r =>
        obtain ⟨e, h5⟩ := rinv_ret hre3 k4 h4 hx4
        cases e
        exact ⟨by simp, fun _ _ => h5, by simp⟩
      | ok pid =>
        obtain ⟨i, rfl, i1, i2, i3⟩ := s4 _ rfl
        obtain ⟨os5, os6, rfl, ho5, hr5, hx6⟩ := exec_op_inv hx4
        obtain ⟨k5, k6⟩ := always_append.1 k4
        have hre5 := reach_run hre3 os5
        have h5 := rinv_others hre3 ho5 k5 h4
        have ht5 := tab_run (ser := ser) (quiet := quiet) (w := run ser (run ser w os1) os3) (tables_others ho5 k5)
        have hnone5 : tab c.name (run ser (run ser (run ser w os1) os3) os5) k = none := by
          cases hq : tab c.name (run ser (run ser (run ser w os1) os3) os5) k with
          | none => rfl
          | some p => rw [ht5.1 k p hq] at hnone; cases hnone
        have hme : i ≠ me := by
          have := traps_lt hre1 h1.trap; omega
        have hw5 : Watched (run ser (run ser (run ser w os1) os3) os5) me i := by
          have := always_run (Ok := RegEnv c.name τ me quiet) (P := Others me) (I := fun w => Traps w me ∧ Watched w me i)
            (fun w o hr hp hk hi => by
              obtain ⟨m1, m2, m3, m4, -⟩ := mild_others (x := none) hp hk
              exact ⟨traps_step ser (traps_lt hr hi.1) m1 m3 hi.1, watched_step ser hr hme hi.1 m1 m2 (fun e => by simpa using m4 i e) hi.2⟩)
            hre3 k5 ho5 ⟨s1, i3⟩
          exact this.2
        have hfresh : aget σ (.loc i) = none := by
          cases hq : aget σ (.loc i) with
          | none => rfl
          | some k' =>
            obtain ⟨j, e, hj, -⟩ := h1.ids _ _ hq
            cases e; omega
        have hlt5 : i < (run ser (run ser (run ser w os1) os3) os5).nextPid := Nat.lt_of_lt_of_le i2 (nextPid_run _ _ _)
        rw [run_append, run_cons]
        have hw5' : run ser w (os1 ++ (os3 ++ os5)) = run ser (run ser (run ser w os1) os3) os5 := by rw [run_append, run_append]
        generalize run ser (run ser (run ser w os1) os3) os5 = w5 at *
        obtain ⟨c1, c2, c3⟩ := rcore_step (ser := ser) hre5 (o := .table me (.insert c.name k (.loc i))) (by simp) (by simp) (by simp) (by simp) h5
        have hins := own_insert (ser := ser) hr5 c.name k (.loc i)
        have hw6 : Watched (step ser w5 (.table me (.insert c.name k (.loc i)))).1 me i :=
          watched_step ser hre5 hme h5.trap (by simp) (by simp) (by simp) hw5
        have h6 : RInv c.name me quiet none (step ser w5 (.table me (.insert c.name k (.loc i)))).1 (aset σ (.loc i) k) (fun k' => if k' = k then some (.loc i) else M k') := by
          refine ⟨c1, ?_, ?_, ?_, ?_, ?_⟩
          · intro p k' hk'
            rw [aget_aset] at hk'
            split at hk'
            · subst_vars; exact ⟨i, rfl, Nat.lt_of_lt_of_le hlt5 (nextPid_step _ _ _), hme⟩
            · exact c2 p k' hk'
          · intro k' p hp
            rw [hins] at hp
            rw [aget_aset]
            split at hp
            · subst_vars; cases hp; simp
            · have := h5.tab k' p hp
              split
              · subst_vars; rw [hfresh] at this; cases this
              · exact this
          · intro k' p hp
            rw [hins] at hp
            split at hp
            · subst_vars; simpa using hp
            · rename_i hne; rw [if_neg hne]; exact h5.spec k' p hp
          · intro hq k' p hp
            rw [hins]
            split at hp
            · subst_vars; simpa using hp
            · rename_i hne; rw [if_neg hne]; exact h5.full hq k' p hp
          · intro j k' hk' hx
            rw [aget_aset] at hk'
            split at hk'
            · rename_i e; cases e; exact hw6
            · exact c3 j k' hk' hx
        obtain ⟨e, h7⟩ := rinv_ret (reach_step hre5 _) k6.2 h6 hx6
        cases e
        refine ⟨?_, by simp, ?_⟩
        · intro p hp
          cases hp
          exact h7
        · intro p hp
          cases hp
          exact ⟨os1 ++ (os3 ++ os5), os6, by simp, by rw [hw5']; exact hnone5⟩

/-- A removal of the key by the registry itself. -/
theorem remove_spec {w : World B V} {σ : Lookup} {M : RKey → Option Pid} {x : Option Pid} {k : RKey} {os : List (Op B V)} {r : Option Pid} (hre : Reachable ser w)
    (hok : Always ser (RegEnv c.name τ me quiet) w os) (h : RInv c.name me quiet x w σ M) (hx : Exec ser me w (removeProg me c.name k) os r) :
    RInv c.name me quiet x (run ser w os) σ (fun k' => if k' = k then none else M k') ∧
    (∀ p, r = some p → M k = some p ∧ aget σ p = some k) ∧ (∀ k' p, tab c.name (run ser w os) k' = some p → k' ≠ k ∧ tab c.name w k' = some p) := by
  obtain ⟨w1, os2, h1, hre1, hr1, -, hok2, he, hx2, hsh⟩ := rinv_op hre hok h hx
  obtain ⟨l1, l2⟩ := own_remove (ser := ser) hr1 c.name k
  obtain ⟨c1, c2, c3⟩ := rcore_step (ser := ser) hre1 (o := .table me (.remove c.name k)) (by simp) (by simp) (by simp) (by simp) h1
  have h2 : RInv c.name me quiet x (step ser w1 (.table me (.remove c.name k))).1 σ (fun k' => if k' = k then none else M k') := by
    refine ⟨c1, c2, ?_, ?_, ?_, c3⟩
    · intro k' p hp; rw [l2] at hp; split at hp
      · cases hp
      · exact h1.tab k' p hp
    · intro k' p hp; rw [l2] at hp; split at hp
      · cases hp
      · rename_i hne; simp only [if_neg hne]; exact h1.spec k' p hp
    · intro hq k' p hp; rw [l2]; split at hp
      · cases hp
      · rename_i hne; rw [if_neg hne]; exact h1.full hq k' p hp
  rw [l1] at hx2
  have hre2 := reach_step (ser := ser) hre1 (.table me (.remove c.name k))
  obtain ⟨hr, h3⟩ := rinv_ret hre2 hok2 h2 hx2
  obtain ⟨-, ho⟩ := exec_ret_inv hx2
  rw [he]
  refine ⟨h3, ?_, ?_⟩
  · intro p hp; rw [hr] at hp; dsimp only at hp
    exact ⟨h1.spec k p hp, h1.tab k p hp⟩
  · intro k' p hp
    have := (tab_run (quiet := quiet) (tables_others ho hok2)).1 k' p hp
    rw [l2] at this
    split at this
    · cases this
    · rename_i hne; exact ⟨hne, hsh k' p this⟩

/-- The process `p` has been unlinked and is no longer registered. -/
theorem forget_pid {w : World B V} {σ : Lookup} {M : RKey → Option Pid} {p : Pid} (h : RInv c.name me quiet (some p) w σ M)
    (hn : ∀ k, tab c.name w k ≠ some p) : RInv c.name me quiet none w (adel σ p) M := by
  refine ⟨h.trap, ?_, ?_, h.spec, h.full, ?_⟩
  · intro q k hk; rw [aget_adel] at hk; split at hk
    · cases hk
    · exact h.ids q k hk
  · intro k q hq; rw [aget_adel, if_neg (fun e => hn k (by rw [← e]; exact hq))]; exact h.tab k q hq
  · intro i k hk _; rw [aget_adel] at hk; split at hk
    · cases hk
    · rename_i hne; exact h.watch i k hk (fun e => hne (by cases e; rfl))

theorem mild_unlink {name : String} {p : Pid} : Mild (B := B) (V := V) name me quiet (some p) (.unlink me p) :=
  ⟨by simp, by simp, by simp, by rintro i e; cases e; rfl, by simp⟩

theorem mild_exit {name : String} {x : Option Pid} {p : Pid} {r : ExitReason} : Mild (B := B) (V := V) name me quiet x (.exit me p r) :=
  ⟨by simp, by simp, by simp, by simp, by simp⟩

theorem mild_send {name : String} {x : Option Pid} {ds : Dests} {v : V} : Mild (B := B) (V := V) name me quiet x (.send me ds v) :=
  ⟨by simp, by simp, by simp, by simp, by simp⟩

/-- `stop_by_key`. -/
theorem stop_spec {w : World B V} {σ σ' : Lookup} {M : RKey → Option Pid} {k : RKey} {os : List (Op B V)} {res : Except RError Unit} (hre : Reachable ser w)
    (hok : Always ser (RegEnv c.name τ me quiet) w os) (h : RInv c.name me quiet none w σ M) (hx : Exec ser me w (stopByKey c me σ k) os (σ', res)) :
    (res = .ok () → RInv c.name me quiet none (run ser w os) σ' fun k' => if k' = k then none else M k') ∧
    (∀ e, res = .error e → RInv c.name me quiet none (run ser w os) σ' M) := by
  unfold stopByKey at hx
  obtain ⟨os1, os2, q, rfl, hx1, hx2⟩ := exec_bind_inv hx
  obtain ⟨k1, k2⟩ := always_append.1 hok
  obtain ⟨h1, h2, -⟩ := lookup_spec hre k1 h hx1
  have hre1 := reach_run hre os1
  rw [run_append]
  cases q with
  | none =>
    obtain ⟨e, h4⟩ := rinv_ret hre1 k2 h1 hx2
    cases e
    exact ⟨by simp, fun _ _ => h4⟩
  | some p =>
    obtain ⟨-, -, hσ⟩ := h2 p rfl
    dsimp only at hx2
    obtain ⟨w3, os3, h3, hre3, -, -, k3, e3, hx3, -⟩ := rinv_op hre1 k2 (h1.weaken (some p)) hx2
    have h3' := rinv_step (ser := ser) hre3 (mild_unlink (p := p)) h3
    obtain ⟨w4, os4, h4, hre4, -, -, k4, e4, hx4, -⟩ := rinv_op (reach_step hre3 _) k3 h3' hx3
    have h4' := rinv_step (ser := ser) hre4 (mild_exit (p := p) (r := .custom "shutdown")) h4
    obtain ⟨os5, os6, q, rfl, hx5, hx6⟩ := exec_bind_inv hx4
    obtain ⟨k5, k6⟩ := always_append.1 k4
    obtain ⟨h5, -, h5''⟩ := remove_spec (reach_step hre4 _) k5 h4' hx5
    have h6 := forget_pid h5 (by
      intro k' hk'
      obtain ⟨hne, -⟩ := h5'' k' p hk'
      have := h5.tab k' p hk'
      rw [hσ] at this; cases this; exact hne rfl)
    obtain ⟨e, h7⟩ := rinv_ret (reach_run (reach_step hre4 _) _) k6 h6 hx6
    cases e
    rw [e3, e4, run_append]
    exact ⟨fun _ => h7, by simp⟩

/-- `remove_by_key`. -/
theorem removeKey_spec {w : World B V} {σ σ' : Lookup} {M : RKey → Option Pid} {k : RKey} {os : List (Op B V)} {res : Option Pid} (hre : Reachable ser w)
    (hok : Always ser (RegEnv c.name τ me quiet) w os) (h : RInv c.name me quiet none w σ M) (hx : Exec ser me w (removeByKey c me σ k) os (σ', res)) :
    RInv c.name me quiet none (run ser w os) σ' fun k' => if k' = k then none else M k' := by
  unfold removeByKey at hx
  obtain ⟨os1, os2, q, rfl, hx1, hx2⟩ := exec_bind_inv hx
  obtain ⟨k1, k2⟩ := always_append.1 hok
  obtain ⟨h1, h2, h2'⟩ := remove_spec hre k1 h hx1
  have hre1 := reach_run hre os1
  rw [run_append]
  cases q with
  | none =>
    obtain ⟨e, h4⟩ := rinv_ret hre1 k2 h1 hx2
    cases e
    exact h4
  | some p =>
    obtain ⟨-, hσ⟩ := h2 p rfl
    dsimp only at hx2
    obtain ⟨w3, os3, h3, hre3, -, -, k3, e3, hx3, hsh⟩ := rinv_op hre1 k2 (h1.weaken (some p)) hx2
    have h3' := rinv_step (ser := ser) hre3 (mild_unlink (p := p)) h3
    have htab : (step ser w3 (.unlink me p)).1.tables = w3.tables := tables_step ser w3 _ (by simp)
    have h6 := forget_pid h3' (by
      intro k' hk'
      unfold tab at hk'
      rw [htab] at hk'
      have hk1 := hsh k' p hk'
      obtain ⟨hne, -⟩ := h2' k' p hk1
      have := h1.tab k' p hk1
      rw [hσ] at this; cases this; exact hne rfl)
    obtain ⟨e, h7⟩ := rinv_ret (reach_step hre3 _) k3 h6 hx3
    cases e
    rw [e3]
    exact h7

/-- `Registry::remove_process`: the notice of a death is handled. -/
theorem removePid_spec {w : World B V} {σ σ' : Lookup} {M : RKey → Option Pid} {p : Pid} {os : List (Op B V)} (hre : Reachable ser w)
    (hok : Always ser (RegEnv c.name τ me quiet) w os) (h : RInv c.name me quiet (some p) w σ M) (hx : Exec ser me w (removePid c me σ p) os σ') :
    RInv c.name me quiet none (run ser w os) σ' fun k' => if M k' = some p then none else M k' := by
  unfold removePid at hx
  cases hg : aget σ p with
  | none =>
    rw [hg] at hx
    obtain ⟨e, h1⟩ := rinv_ret hre hok h hx
    subst e
    refine ⟨h1.trap, h1.ids, h1.tab, ?_, ?_, ?_⟩
    · intro k q hq
      have := h1.spec k q hq
      rw [if_neg]
      · exact this
      · intro e; rw [this] at e; cases e
        have := h1.tab k p hq; rw [hg] at this; cases this
    · intro hq k q hk
      split at hk
      · cases hk
      · exact h1.full hq k q hk
    · intro i k hk _
      refine h1.watch i k hk ?_
      intro e; cases e; rw [hg] at hk; cases hk
  | some key =>
    rw [hg] at hx
    obtain ⟨w1, os2, h1, hre1, hr1, -, hok2, he, hx2, hsh⟩ := rinv_op hre hok h hx
    have l2 := own_removeIf (ser := ser) hr1 c.name key p
    obtain ⟨c1, c2, c3⟩ := rcore_step (ser := ser) hre1 (o := .table me (.removeIf c.name key p)) (by simp) (by simp) (by simp) (by simp) h1
    have h2 : RInv c.name me quiet (some p) (step ser w1 (.table me (.removeIf c.name key p))).1 σ (fun k' => if M k' = some p then none else M k') := by
      refine ⟨c1, c2, ?_, ?_, ?_, c3⟩
      · intro k' q hq; rw [l2] at hq; split at hq
        · cases hq
        · exact h1.tab k' q hq
      · intro k' q hq; rw [l2] at hq; split at hq
        · cases hq
        · rename_i hne
          have h3 := h1.spec k' q hq
          rw [if_neg]
          · exact h3
          · intro e; rw [h3] at e; cases e
            have := h1.tab k' p hq; rw [hg] at this; cases this
            exact hne ⟨rfl, hq⟩
      · intro hq k' q hk; rw [l2]
        split at hk
        · cases hk
        · rename_i hne
          have := h1.full hq k' q hk
          rw [if_neg]
          · exact this
          · rintro ⟨rfl, e⟩
            rw [this] at e; cases e; exact hne hk
    have hre2 := reach_step (ser := ser) hre1 (.table me (.removeIf c.name key p))
    have h3 := forget_pid h2 (by
      intro k' hk'
      rw [l2] at hk'
      split at hk'
      · cases hk'
      · rename_i hne
        have := h1.tab k' p hk'; rw [hg] at this; cases this
        exact hne ⟨rfl, hk'⟩)
    obtain ⟨hr, h4⟩ := rinv_ret hre2 hok2 h3 hx2
    subst hr
    rw [he]
    exact h4

/-! ### The loop -/

/-- What holds after message `m` was taken. -/
def RTaken (name : String) (me : Nat) (quiet : Prop) (m : Msg (GMsg RMsg)) (w : World B V) (σ : Lookup) (l : List (Record RMsg Lookup)) : Prop :=
  RInv name me quiet (match m with | .system (.exit p _) => some p | _ => none) w σ (regMap l) ∧
  ∀ p, m = .user (.cast (.removeLookup p)) → ∀ k, tab name w k ≠ some p

theorem regMap_snoc (l : List (Record RMsg Lookup)) (r : Record RMsg Lookup) : regMap (l ++ [r]) = regEvent (regMap l) r := by
  simp [regMap, List.foldl_append]

theorem rinv_take {w : World B V} {kind : RecvKind} {m : Msg (GMsg RMsg)} {σ : Lookup} {l : List (Record RMsg Lookup)} (hre : Reachable ser w)
    (hr : running w me = true) (hm : received w me (anyMsg τ) kind = some m) (hok : RegEnv c.name τ me quiet w (.recv me (anyMsg τ) kind))
    (ht : TakesOldest τ me w (step ser w (.recv me (anyMsg τ) kind)).1 m) (h : RInv c.name me quiet none w σ (regMap l)) :
    RTaken c.name me quiet m (step ser w (.recv me (anyMsg τ) kind)).1 σ l := by
  have htab : (step ser w (.recv me (anyMsg τ) kind)).1.tables = w.tables := tables_step ser w _ (by simp)
  have hlt := traps_lt hre h.trap
  refine ⟨⟨traps_step ser hlt (by simp) (by simp) h.trap, ?_, ?_, ?_, ?_, ?_⟩, ?_⟩
  · intro p k hk
    obtain ⟨i, rfl, h1, h2⟩ := h.ids p k hk
    exact ⟨i, rfl, Nat.lt_of_lt_of_le h1 (nextPid_step _ _ _), h2⟩
  · intro k p hp; unfold tab at hp; rw [htab] at hp; exact h.tab k p hp
  · intro k p hp; unfold tab at hp; rw [htab] at hp; exact h.spec k p hp
  · intro hq k p hp; unfold tab; rw [htab]; exact h.full hq k p hp
  · intro i k hk hx
    rcases h.watch i k hk (by simp) with hl | hn
    · exact .inl (linked_step ser hre (by simp) (by simp) (by simp) hl)
    · right
      obtain ⟨p, p', it, rest, h1, h2, h3, h4, h5⟩ := ht
      rw [notice_iff] at hn ⊢
      obtain ⟨q, r, hq, hmem⟩ := hn
      rw [h1] at hq; cases hq
      rw [h3] at hmem
      refine ⟨p', r, h2, ?_⟩
      rw [h5]
      rcases List.mem_cons.1 hmem with rfl | h
      · exfalso
        simp [asMsg] at h4
        subst h4
        exact hx rfl
      · exact h
  · intro p hp k hk
    unfold tab at hk; rw [htab] at hk
    subst hp
    exact hok.2 kind p rfl hm k hk

theorem rinv_poll {w : World B V} {kind : RecvKind} {p : Proc B V} {σ : Lookup} {M : RKey → Option Pid} (hre : Reachable ser w)
    (hp : w.procs me = some p) (hc : contents p.box = []) (h : RInv c.name me quiet none w σ M) :
    RInv c.name me quiet none (step ser w (.recv me (anyMsg τ) kind)).1 σ M := by
  have htab : (step ser w (.recv me (anyMsg τ) kind)).1.tables = w.tables := tables_step ser w _ (by simp)
  have hlt := traps_lt hre h.trap
  refine ⟨traps_step ser hlt (by simp) (by simp) h.trap, ?_, ?_, ?_, ?_, ?_⟩
  · intro p k hk
    obtain ⟨i, rfl, h1, h2⟩ := h.ids p k hk
    exact ⟨i, rfl, Nat.lt_of_lt_of_le h1 (nextPid_step _ _ _), h2⟩
  · intro k p hp; unfold tab at hp; rw [htab] at hp; exact h.tab k p hp
  · intro k p hp; unfold tab at hp; rw [htab] at hp; exact h.spec k p hp
  · intro hq k p hp; unfold tab; rw [htab]; exact h.full hq k p hp
  · intro i k hk hx
    rcases h.watch i k hk (by simp) with hl | hn
    · exact .inl (linked_step ser hre (by simp) (by simp) (by simp) hl)
    · rw [notice_iff] at hn
      obtain ⟨q, r, hq, hmem⟩ := hn
      rw [hp] at hq; cases hq
      rw [hc] at hmem; cases hmem

theorem callback_cast {parent : Pid} {m : Msg (GMsg RMsg)} {x : RMsg} (h : callbackFor parent m = some (.cast x)) : m = .user (.cast x) := by
  unfold callbackFor at h
  split at h <;> (try split at h) <;> simp_all

theorem callback_call {parent : Pid} {m : Msg (GMsg RMsg)} {x : RMsg} {frm : From} (h : callbackFor parent m = some (.call x frm)) : m = .user (.call frm x) := by
  unfold callbackFor at h
  split at h <;> (try split at h) <;> simp_all

theorem callback_info {parent : Pid} {m : Msg (GMsg RMsg)} {s : Sys} (h : callbackFor parent m = some (.info (.system s))) : m = .system s := by
  unfold callbackFor at h
  split at h <;> (try split at h) <;> simp_all

/-- A callback of the registry. -/
theorem rinv_callback {u : RecvType B V Unit} {parent : Pid} (hst : ∀ f k, c.start = some f → Starts ser c.name me (f k))
    {w : World B V} {m : Msg (GMsg RMsg)} {os : List (Op B V)} {r : Record RMsg Lookup} {l : List (Record RMsg Lookup)} (hre : Reachable ser w)
    (hok : Always ser (RegEnv c.name τ me quiet) w os) (h : RTaken c.name me quiet m w r.before l) (hr : RanFor ser me (registryServer c u me) parent m w os r) :
    ∃ x, r.result = .ok x ∧ RInv c.name me quiet none (run ser w os) r.after (regMap (l ++ [r])) := by
  rw [regMap_snoc]
  obtain ⟨hcb, hran⟩ := hr
  obtain ⟨what, before, after, result⟩ := r
  obtain ⟨h, hrl⟩ := h
  dsimp only at *
  cases what with
  | terminate e =>
    unfold callbackFor at hcb
    split at hcb <;> (try split at hcb) <;> simp at hcb
  | cast x =>
    have := callback_cast hcb; subst this
    obtain ⟨v, hx, rfl⟩ := hran
    cases x with
    | removeLookup p =>
      obtain ⟨w3, os3, h3, hre3, -, -, k3, e3, hx3, hsh⟩ := rinv_op hre hok (h.weaken (some p)) hx
      have h3' := rinv_step (ser := ser) hre3 (mild_unlink (p := p)) h3
      have htab : (step ser w3 (.unlink me p)).1.tables = w3.tables := tables_step ser w3 _ (by simp)
      have h6 := forget_pid h3' (by
        intro k' hk'
        unfold tab at hk'
        rw [htab] at hk'
        exact hrl p rfl k' (hsh k' p hk'))
      obtain ⟨e, h7⟩ := rinv_ret (reach_step hre3 _) k3 h6 hx3
      injection e with ea ev
      dsimp only at ea
      subst ea ev
      rw [e3]
      exact ⟨_, rfl, h7⟩
    | _ => exact (panics_never hre hx).elim
  | info s =>
    obtain ⟨v, hx, rfl⟩ := hran
    have other : registryInfo c me before s = .ret (before, .ok ()) → (∀ p e, s ≠ .system (.exit p e)) → 
        ∃ x, (noReply v : Except ExitReason (Option RMsg)) = .ok x ∧ RInv c.name me quiet none (run ser w os) after
          (regEvent (regMap l) ⟨.info s, before, after, noReply v⟩) := by
      intro he hne
      have hx' : Exec ser me w (registryInfo c me before s) os (after, v) := hx
      rw [he] at hx'
      have h0 : RInv c.name me quiet none w before (regMap l) := by
        cases s with
        | user y =>
          cases m with
          | user g => exact h
          | system s => unfold callbackFor at hcb; split at hcb <;> (try split at hcb) <;> simp_all
        | system s =>
          have := callback_info hcb; subst this
          cases s <;> first | exact h | exact absurd rfl (hne _ _)
      obtain ⟨e, h7⟩ := rinv_ret hre hok h0 hx'
      cases e
      refine ⟨_, rfl, ?_⟩
      have : regEvent (regMap l) ⟨.info s, before, before, noReply (.ok ())⟩ = regMap l := by
        cases s with
        | user y => rfl
        | system s => cases s <;> first | rfl | exact absurd rfl (hne _ _)
      rw [this]
      exact h7
    cases s with
    | user y => exact other rfl (by simp)
    | system s =>
      cases s with
      | exit p e =>
        have := callback_info hcb; subst this
        obtain ⟨os1, os2, q, rfl, hx1, hx2⟩ := exec_bind_inv hx
        obtain ⟨k1, k2⟩ := always_append.1 hok
        have h1 := removePid_spec hre k1 h hx1
        obtain ⟨e, h2⟩ := rinv_ret (reach_run hre _) k2 h1 hx2
        cases e
        rw [run_append]
        exact ⟨_, rfl, h2⟩
      | _ => exact other rfl (by simp)
  | call x frm =>
    have := callback_call hcb; subst this
    have hx : Exec ser me w (registryCall c me before x) os (after, result) := hran
    clear hran
    cases x with
    | lookup k =>
      obtain ⟨os1, os2, q, rfl, hx1, hx2⟩ := exec_bind_inv hx
      obtain ⟨k1, k2⟩ := always_append.1 hok
      have h1 := (lookup_spec hre k1 h hx1).1
      obtain ⟨e, h2⟩ := rinv_ret (reach_run hre _) k2 h1 hx2
      cases e
      rw [run_append]
      exact ⟨_, rfl, h2⟩
    | lookupOrStart k =>
      obtain ⟨os1, os2, ⟨σ', q⟩, rfl, hx1, hx2⟩ := exec_bind_inv hx
      obtain ⟨k1, k2⟩ := always_append.1 hok
      rw [run_append]
      obtain ⟨os3, os4, q', rfl, hx3, hx4⟩ := exec_bind_inv hx1
      obtain ⟨k3, k4⟩ := always_append.1 k1
      obtain ⟨h3, h3', -⟩ := lookup_spec hre k3 h hx3
      rw [run_append] at k2 hx2 ⊢
      cases q' with
      | some p =>
        obtain ⟨e, h4⟩ := rinv_ret (reach_run hre _) k4 h3 hx4
        cases e
        obtain ⟨e, h5⟩ := rinv_ret (reach_run (reach_run hre _) _) k2 h4 hx2
        cases e
        refine ⟨_, rfl, ?_⟩
        have : regEvent (regMap l) ⟨.call (.lookupOrStart k) frm, before, before, .ok (some (.lookupOrStartSuccess p))⟩ = regMap l := by
          funext k'
          simp only [regEvent]
          split
          · rename_i e; rw [e, (h3' p rfl).2.1]
          · rfl
        rw [this]
        exact h5
      | none =>
        obtain ⟨h4, h4', -⟩ := start_spec (reach_run hre _) (fun f => hst f k) k4 h3 hx4
        cases q with
        | ok p =>
          obtain ⟨e, h5⟩ := rinv_ret (reach_run (reach_run hre _) _) k2 (h4 p rfl) hx2
          cases e
          exact ⟨_, rfl, h5⟩
        | error e =>
          obtain ⟨e, h5⟩ := rinv_ret (reach_run (reach_run hre _) _) k2 (h4' e rfl) hx2
          cases e
          exact ⟨_, rfl, h5⟩
    | start k =>
      obtain ⟨os1, os2, ⟨σ', q⟩, rfl, hx1, hx2⟩ := exec_bind_inv hx
      obtain ⟨k1, k2⟩ := always_append.1 hok
      obtain ⟨h4, h4', -⟩ := start_spec hre (fun f => hst f k) k1 h hx1
      rw [run_append]
      cases q with
      | ok p =>
        obtain ⟨e, h5⟩ := rinv_ret (reach_run hre _) k2 (h4 p rfl) hx2
        cases e
        exact ⟨_, rfl, h5⟩
      | error e =>
        obtain ⟨e, h5⟩ := rinv_ret (reach_run hre _) k2 (h4' e rfl) hx2
        cases e
        exact ⟨_, rfl, h5⟩
    | stop k =>
      obtain ⟨os1, os2, ⟨σ', q⟩, rfl, hx1, hx2⟩ := exec_bind_inv hx
      obtain ⟨k1, k2⟩ := always_append.1 hok
      obtain ⟨h4, h4'⟩ := stop_spec hre k1 h hx1
      rw [run_append]
      cases q with
      | ok p =>
        obtain ⟨e, h5⟩ := rinv_ret (reach_run hre _) k2 (h4 rfl) hx2
        cases e
        exact ⟨_, rfl, h5⟩
      | error e =>
        obtain ⟨e, h5⟩ := rinv_ret (reach_run hre _) k2 (h4' e rfl) hx2
        cases e
        exact ⟨_, rfl, h5⟩
    | count =>
      obtain ⟨os1, os2, q, rfl, hx1, hx2⟩ := exec_bind_inv hx
      obtain ⟨k1, k2⟩ := always_append.1 hok
      obtain ⟨w3, os3, h3, hre3, -, -, k3, e3, hx3, -⟩ := rinv_op hre k1 h hx1
      have h3' := rinv_step (ser := ser) hre3 (own_client (.count c.name) trivial (fun _ h => h)) h3
      obtain ⟨e, h7⟩ := rinv_ret (reach_step hre3 _) k3 h3' hx3
      rw [run_append]
      rw [e3] at k2 hx2 ⊢
      obtain ⟨e, h2⟩ := rinv_ret (reach_run (reach_step hre3 _) _) k2 h7 hx2
      cases e
      exact ⟨_, rfl, h2⟩
    | list =>
      obtain ⟨os1, os2, q, rfl, hx1, hx2⟩ := exec_bind_inv hx
      obtain ⟨k1, k2⟩ := always_append.1 hok
      obtain ⟨w3, os3, h3, hre3, -, -, k3, e3, hx3, -⟩ := rinv_op hre k1 h hx1
      have h3' := rinv_step (ser := ser) hre3 (own_client (.list c.name) trivial (fun _ h => h)) h3
      obtain ⟨e, h7⟩ := rinv_ret (reach_step hre3 _) k3 h3' hx3
      rw [run_append]
      rw [e3] at k2 hx2 ⊢
      obtain ⟨e, h2⟩ := rinv_ret (reach_run (reach_step hre3 _) _) k2 h7 hx2
      cases e
      exact ⟨_, rfl, h2⟩
    | remove k =>
      obtain ⟨os1, os2, ⟨σ', q⟩, rfl, hx1, hx2⟩ := exec_bind_inv hx
      obtain ⟨k1, k2⟩ := always_append.1 hok
      have h4 := removeKey_spec hre k1 h hx1
      rw [run_append]
      obtain ⟨e, h5⟩ := rinv_ret (reach_run hre _) k2 h4 hx2
      cases e
      exact ⟨_, rfl, h5⟩
    | _ => exact (panics_never hre hx).elim

/-- The invariant holds between the rounds of a registry, and its `terminate` starts in it. -/
theorem registry_loop {u : RecvType B V Unit} {parent : Pid} (hst : ∀ f k, c.start = some f → Starts ser c.name me (f k))
    {n : Nat} {w : World B V} {os : List (Op B V)} {l : Log RMsg Lookup} (hre : Reachable ser w) (hok : Always ser (RegEnv c.name τ me quiet) w os)
    (ht : Traps w me) (h0 : ∀ k, tab c.name w k = none) (h : Exec ser me w (serverLoop (registryServer c u me) τ me parent n []) os l) :
    (l.ended = none → RInv c.name me quiet none (run ser w os) l.state (regMap l.calls)) ∧
    (∀ r, l.ended = some r → Terminated ser me (registryServer c u me)
      (fun w σ calls => ∃ x, (x = none ∨ x = some parent) ∧ RInv c.name me quiet x w σ (regMap calls)) r w os l.calls l.state) := by
  have := loop_rule (ser := ser) (τ := τ) (me := me) (srv := registryServer c u me) (parent := parent) (Ok := RegEnv c.name τ me quiet)
    (I := fun w σ l => RInv c.name me quiet none w σ (regMap l)) (K := RTaken c.name me quiet)
    (J := fun w σ calls => ∃ x, (x = none ∨ x = some parent) ∧ RInv c.name me quiet x w σ (regMap calls))
    (fun w o σ l hr ho hk hi => rinv_step hr (mild_others ho hk) hi)
    (fun w kind p σ l hr _ hp hc hi => rinv_poll hr hp hc hi)
    (fun w kind m σ l hr hrun hm hk ht hi => rinv_take hr hrun hm hk ht hi)
    (fun w m os r l hr hk hi hran => by
      obtain ⟨x, hx, hi'⟩ := rinv_callback hst hr hk hi hran
      rw [hx]; exact hi')
    (fun w m r σ l hr hi hs => by
      obtain ⟨h1, -⟩ := hi
      refine ⟨_, ?_, h1⟩
      unfold stopReason at hs
      split at hs
      · exact .inl rfl
      · split at hs
        · rename_i e; exact .inr (by rw [e])
        · cases hs
      · cases hs)
    (fun w r o σ l hr hrun ho hi => by
      refine rinv_step hr ?_ hi
      unfold replyOf at ho
      split at ho
      · cases ho; exact mild_send
      · cases ho)
    (n := n) (done := []) hre hok ⟨ht, by simp [aget], by simp [h0], by simp [h0], by simp [regMap], by simp [aget]⟩ h
  simpa using this

end Verif.World
