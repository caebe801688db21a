import Verif.RegistryProps
/-!
# What a registry does for each request (C72, C73, C88, C102)

A callback of the registry is a program of its process; other processes act between its steps. `Did me os l` is the specification of "all that
process `me` did in the history `os` was `l`".
-/
namespace Verif.World
open Verif.Mailbox
variable {B V : Type}

/-- The operations that process `me` performed in the history `os` are exactly `l`, in this order. -/
inductive Did (me : Nat) : List (Op B V) → List (Op B V) → Prop
  | nil : Did me [] []
  | other {o os l} : Others me o → Did me os l → Did me (o :: os) l
  | own {o os l} : Did me os l → Did me (o :: os) (o :: l)

theorem only_others {me : Nat} {os : List (Op B V)} (h : ∀ o ∈ os, Others me o) : Did me os [] := by
  induction os with
  | nil => exact .nil
  | cons o os ih => exact .other (h o (by simp)) (ih fun o ho => h o (by simp [ho]))

theorem only_append {me : Nat} {os os' l l' : List (Op B V)} (h : Did me os l) (h' : Did me os' l') : Did me (os ++ os') (l ++ l') := by
  induction h with
  | nil => exact h'
  | other ho _ ih => exact .other ho ih
  | own _ ih => exact .own ih

theorem only_op {me : Nat} {os os' l : List (Op B V)} {o : Op B V} (h : ∀ o ∈ os, Others me o) (h' : Did me os' l) : Did me (os ++ o :: os') (o :: l) :=
  only_append (only_others h) (.own h')

variable {ser : V → B} {me : Nat} {w : World B V} {os : List (Op B V)} {c : RegConf B V} {τ : RecvType B V (GMsg RMsg)} {u : RecvType B V Unit}

/-! ## Removing a key -/

/-- **C88**, `Registry::remove` at a registry that is asked by a call (because it is remote, or given by its pid): it answers with the process that the key
had at one moment, from which on the key is free; it unlinks from that process, forgets it (and no other) and does nothing else. -/
theorem C88_remove_call {σ σ' : Lookup} {k : RKey} {res : Except ExitReason (Option RMsg)}
    (hx : Exec ser me w (registryCall c me σ (.remove k)) os (σ', res)) :
    ∃ os1 os2, os = os1 ++ .table me (.remove c.name k) :: os2 ∧ (∀ o ∈ os1, Others me o) ∧
      res = .ok (some (.removeSuccess (tab c.name (run ser w os1) k))) ∧
      (∀ k', tab c.name (run ser w (os1 ++ [.table me (.remove c.name k)])) k' = if k' = k then none else tab c.name (run ser w os1) k') ∧
      (tab c.name (run ser w os1) k = none → σ' = σ ∧ Did me os2 []) ∧
      ∀ p, tab c.name (run ser w os1) k = some p → (∀ q, aget σ' q = if q = p then none else aget σ q) ∧ Did me os2 [.unlink me p] := by
  obtain ⟨os1, os2, ⟨σ1, q⟩, rfl, hx1, hx2⟩ := exec_bind_inv hx
  obtain ⟨e, ho2⟩ := exec_ret_inv hx2
  cases e
  obtain ⟨os3, os4, q', rfl, hx3, hx4⟩ := exec_bind_inv hx1
  obtain ⟨os5, os6, rfl, ho5, ho6, hq, ht⟩ := remove_exec hx3
  refine ⟨os5, os6 ++ os4 ++ os2, by simp, ho5, ?_⟩
  cases q' with
  | none =>
    obtain ⟨e, ho4⟩ := exec_ret_inv hx4
    cases e
    refine ⟨by rw [← hq], ht, fun _ => ⟨rfl, only_append (only_append (only_others ho6) (only_others ho4)) (only_others ho2)⟩, ?_⟩
    intro p hp; rw [← hq] at hp; cases hp
  | some p =>
    obtain ⟨os7, os8, rfl, ho7, -, hx⟩ := exec_op_inv hx4
    obtain ⟨e, ho8⟩ := exec_ret_inv hx
    cases e
    refine ⟨by rw [← hq], ht, fun hn => ?_, ?_⟩
    · rw [← hq] at hn; cases hn
    · intro p' hp
      rw [← hq] at hp; cases hp
      exact ⟨fun q => aget_adel _ _ _, only_append (only_append (only_others ho6) (only_op ho7 (only_others ho8))) (only_others ho2)⟩

/-! ## Looking up or starting -/

/-- **C73**, `Registry::lookup_or_start` at the registry: if the key is present it answers with its process and does nothing but look. -/
theorem C73_lookup_or_start {σ σ' : Lookup} {k : RKey} {res : Except ExitReason (Option RMsg)}
    (hx : Exec ser me w (registryCall c me σ (.lookupOrStart k)) os (σ', res)) :
    ∃ os1 os2, os = os1 ++ .table me (.lookup c.name k) :: os2 ∧ (∀ o ∈ os1, Others me o) ∧
      ∀ p, tab c.name (run ser w os1) k = some p → res = .ok (some (.lookupOrStartSuccess p)) ∧ σ' = σ ∧ Did me os2 [] := by
  obtain ⟨os1, os2, ⟨σ1, q⟩, rfl, hx1, hx2⟩ := exec_bind_inv hx
  obtain ⟨e, ho2⟩ := exec_ret_inv hx2
  cases e
  unfold lookupOrStartByKey at hx1
  obtain ⟨os3, os4, q', rfl, hx3, hx4⟩ := exec_bind_inv hx1
  obtain ⟨os5, os6, rfl, ho5, ho6, rfl⟩ := lookup_exec hx3
  refine ⟨os5, os6 ++ os4 ++ os2, by simp, ho5, ?_⟩
  intro p hp
  rw [hp] at hx4
  obtain ⟨e, ho4⟩ := exec_ret_inv hx4
  cases e
  exact ⟨rfl, rfl, only_append (only_append (only_others ho6) (only_others ho4)) (only_others ho2)⟩

/-- **C73**, `Registry::lookup_or_start` of a local registry when the key is present: it returns the process without asking the registry. -/
theorem C73_lookup_or_start_client {name : String} {k : RKey} {res : Except RError Pid}
    (hx : Exec ser me w (rLookupOrStart τ me (.named name .loc) k) os res) :
    ∃ os1 os2, os = os1 ++ .table me (.lookup name k) :: os2 ∧ (∀ o ∈ os1, Others me o) ∧
      ∀ p, tab name (run ser w os1) k = some p → res = .ok p ∧ Did me os2 [] := by
  obtain ⟨os1, os2, q, rfl, hx1, hx2⟩ := exec_bind_inv hx
  obtain ⟨os5, os6, rfl, ho5, ho6, rfl⟩ := lookup_exec hx1
  refine ⟨os5, os6 ++ os2, by simp, ho5, ?_⟩
  intro p hp
  rw [hp] at hx2
  obtain ⟨rfl, ho2⟩ := exec_ret_inv hx2
  exact ⟨rfl, only_append (only_others ho6) (only_others ho2)⟩

/-- **C73**: a request to start a process, or to look it up or start it, for a key that is free runs the start routine of the registry once; if that
returns a process the registry answers with it, and otherwise with the reason. -/
theorem C73_starts_once {σ σ' : Lookup} {k : RKey} {res : Except ExitReason (Option RMsg)} {f : RKey → Prog B V (Except ExitReason Pid)} (hf : c.start = some f)
    (hx : Exec ser me w (registryCall c me σ (.start k)) os (σ', res)) :
    ∃ os1 os2, os = os1 ++ .table me (.lookup c.name k) :: os2 ∧ (∀ o ∈ os1, Others me o) ∧
      (tab c.name (run ser w os1) k = none → ∃ os3 os4 r, os2 = os3 ++ os4 ∧
        Exec ser me (run ser w (os1 ++ [.table me (.lookup c.name k)])) (f k) os3 r ∧
        (∀ p, r = .ok p → res = .ok (some (.startSuccess p)) ∧ Did me os4 [.table me (.insert c.name k p)]) ∧
        ∀ e, r = .error e → res = .ok (some (.startError (.startError e))) ∧ σ' = σ ∧ Did me os4 []) := by
  obtain ⟨os1, os2, ⟨σ1, q⟩, rfl, hx1, hx2⟩ := exec_bind_inv hx
  obtain ⟨e, ho2⟩ := exec_ret_inv hx2
  cases e
  unfold startByKey at hx1
  obtain ⟨os3, os4, q', rfl, hx3, hx4⟩ := exec_bind_inv hx1
  obtain ⟨os5, os6, rfl, ho5, ho6, rfl⟩ := lookup_exec hx3
  refine ⟨os5, os6 ++ os4 ++ os2, by simp, ho5, ?_⟩
  intro hn
  rw [hn] at hx4
  simp only [hf] at hx4
  obtain ⟨os7, os8, q', rfl, hx7, hx8⟩ := exec_bind_inv hx4
  refine ⟨os6 ++ os7, os8 ++ os2, q', by simp, ?_, ?_, ?_⟩
  · have : run ser w (os5 ++ .table me (.lookup c.name k) :: os6) = run ser (run ser w (os5 ++ [.table me (.lookup c.name k)])) os6 := by
      rw [← run_append]; simp
    rw [this] at hx7
    generalize run ser w (os5 ++ [.table me (.lookup c.name k)]) = w1 at hx7
    clear hx3 hx8 hx4 hn hx hx1 hx2 this ho5
    induction os6 generalizing w1 with
    | nil => exact hx7
    | cons o os6 ih => exact .env (ho6 o (by simp)) (ih (fun o ho => ho6 o (by simp [ho])) _ hx7)
  · rintro p rfl
    obtain ⟨os9, os10, rfl, ho9, -, hx9⟩ := exec_op_inv hx8
    obtain ⟨e, ho10⟩ := exec_ret_inv hx9
    cases e
    refine ⟨rfl, ?_⟩
    exact only_append (only_op ho9 (only_others ho10)) (only_others ho2)
  · rintro e rfl
    obtain ⟨e, ho⟩ := exec_ret_inv hx8
    cases e
    exact ⟨rfl, rfl, only_append (only_others ho) (only_others ho2)⟩

/-! ## Stopping -/

/-- **C102**, `Registry::stop_process` at the registry. If the key is free it answers `NotFound` and does nothing. Otherwise it unlinks from the process of the
key, sends it the exit signal `"shutdown"`, frees the key, forgets the process and answers with success. -/
theorem C102_stop {σ σ' : Lookup} {k : RKey} {res : Except ExitReason (Option RMsg)}
    (hx : Exec ser me w (registryCall c me σ (.stop k)) os (σ', res)) :
    ∃ os1 os2, os = os1 ++ .table me (.lookup c.name k) :: os2 ∧ (∀ o ∈ os1, Others me o) ∧
      (tab c.name (run ser w os1) k = none → res = .ok (some (.stopError .notFound)) ∧ σ' = σ ∧ Did me os2 []) ∧
      ∀ p, tab c.name (run ser w os1) k = some p →
        res = .ok (some .stopSuccess) ∧ (∀ q, aget σ' q = if q = p then none else aget σ q) ∧
        Did me os2 [.unlink me p, .exit me p (.custom "shutdown"), .table me (.remove c.name k)] ∧
        ∃ os3 os4, os2 = os3 ++ .table me (.remove c.name k) :: os4 ∧ Did me os4 [] ∧
          tab c.name (run ser w (os1 ++ .table me (.lookup c.name k) :: (os3 ++ [.table me (.remove c.name k)]))) k = none := by
  obtain ⟨os1, os2, ⟨σ1, q⟩, rfl, hx1, hx2⟩ := exec_bind_inv hx
  obtain ⟨e, ho2⟩ := exec_ret_inv hx2
  cases e
  unfold stopByKey at hx1
  obtain ⟨os3, os4, q', rfl, hx3, hx4⟩ := exec_bind_inv hx1
  obtain ⟨os5, os6, rfl, ho5, ho6, rfl⟩ := lookup_exec hx3
  refine ⟨os5, os6 ++ os4 ++ os2, by simp, ho5, ?_, ?_⟩
  · intro hn
    rw [hn] at hx4
    obtain ⟨e, ho4⟩ := exec_ret_inv hx4
    cases e
    exact ⟨rfl, rfl, only_append (only_append (only_others ho6) (only_others ho4)) (only_others ho2)⟩
  · intro p hp
    rw [hp] at hx4
    obtain ⟨os7, os8, rfl, ho7, -, hx5⟩ := exec_op_inv hx4
    obtain ⟨os9, os10, rfl, ho9, -, hx6⟩ := exec_op_inv hx5
    obtain ⟨os11, os12, q2, rfl, hx7, hx8⟩ := exec_bind_inv hx6
    obtain ⟨os13, os14, rfl, ho13, ho14, -, ht⟩ := remove_exec hx7
    obtain ⟨e, ho12⟩ := exec_ret_inv hx8
    cases e
    refine ⟨rfl, fun q => aget_adel _ _ _, ?_, ?_⟩
    · rw [show os6 ++ (os7 ++ .unlink me p :: (os9 ++ .exit me p (.custom "shutdown") :: (os13 ++ .table me (.remove c.name k) :: os14 ++ os12))) ++ os2 =
        (os6 ++ os7) ++ .unlink me p :: (os9 ++ .exit me p (.custom "shutdown") :: (os13 ++ .table me (.remove c.name k) :: (os14 ++ os12 ++ os2))) by simp]
      refine only_op (fun o ho => (List.mem_append.1 ho).elim (ho6 o) (ho7 o)) (only_op ho9 (only_op ho13 ?_))
      exact only_append (only_append (only_others ho14) (only_others ho12)) (only_others ho2)
    · refine ⟨os6 ++ os7 ++ .unlink me p :: (os9 ++ .exit me p (.custom "shutdown") :: os13), os14 ++ os12 ++ os2, by simp,
        only_append (only_append (only_others ho14) (only_others ho12)) (only_others ho2), ?_⟩
      have := ht k
      rw [if_pos rfl] at this
      refine Eq.trans ?_ this
      simp only [run_append, run_cons, List.cons_append, List.append_assoc]

/-- **C102**, `Registry::stop_process` of a local registry when the key is free: it returns `NotFound` without asking the registry. -/
theorem C102_client {name : String} {k : RKey} {res : Except RError Unit} (hx : Exec ser me w (rStop τ me (.named name .loc) k) os res) :
    ∃ os1 os2, os = os1 ++ .table me (.lookup name k) :: os2 ∧ (∀ o ∈ os1, Others me o) ∧
      (tab name (run ser w os1) k = none → res = .error .notFound ∧ Did me os2 []) := by
  obtain ⟨os1, os2, q, rfl, hx1, hx2⟩ := exec_bind_inv hx
  obtain ⟨os5, os6, rfl, ho5, ho6, rfl⟩ := lookup_exec hx1
  refine ⟨os5, os6 ++ os2, by simp, ho5, ?_⟩
  intro hp
  rw [hp] at hx2
  obtain ⟨rfl, ho2⟩ := exec_ret_inv hx2
  exact ⟨rfl, only_append (only_others ho6) (only_others ho2)⟩

/-! ## The start of a registry -/

theorem setTrap_traps {me : Nat} (h : running w me = true) : Traps (step ser w (.setTrap me true)).1 me := by
  obtain ⟨q, hq⟩ : ∃ q, w.procs me = some q := by
    unfold running at h
    cases hq : w.procs me with
    | none => rw [hq] at h; cases h
    | some q => exact ⟨q, rfl⟩
  simp [step, Op.caller, h, Op.exec, Traps, pmap, modProc, hq, upd_at]

theorem traps_others {me : Nat} (hre : Reachable ser w) (ho : ∀ o ∈ os, Others me o) (h : Traps w me) : Traps (run ser w os) me := by
  induction os generalizing w with
  | nil => exact h
  | cons o os ih =>
    rw [run_cons]
    refine ih (reach_step hre o) (fun o h => ho o (by simp [h])) (traps_step ser (traps_lt hre h) (ho o (by simp)).2 ?_ h)
    rintro rfl
    exact (ho (.setTrap me false) (by simp)).1 rfl

/-- **C72**: a registry that has been started traps exits: this is the assumption `Traps` of the other theorems. -/
theorem C72_traps {name : String} (hre : Reachable ser w) (hx : Exec ser me w (registryBoot c me name) os true) : Traps (run ser w os) me := by
  obtain ⟨os1, os2, q, rfl, hx1, hx2⟩ := exec_bind_inv hx
  have hre1 := reach_run hre os1
  rw [run_append]
  cases q with
  | false =>
    obtain ⟨os3, os4, rfl, -, -, hx3⟩ := exec_op_inv hx2
    obtain ⟨os5, os6, rfl, -, -, hx4⟩ := exec_op_inv hx3
    cases (exec_ret_inv hx4).1
  | true =>
    obtain ⟨os3, os4, rfl, ho3, hr, hx3⟩ := exec_op_inv hx2
    obtain ⟨-, ho4⟩ := exec_ret_inv hx3
    rw [run_append, run_cons]
    exact traps_others (reach_step (reach_run hre1 _) _) ho4 (setTrap_traps hr)

/-- The same for `init`, the callback that does it. -/
theorem C72_traps_init {σ : Lookup} {r : Lookup × Except ExitReason Unit} (hre : Reachable ser w) (hx : Exec ser me w ((registryServer c u me).init σ) os r) :
    r = (σ, .ok ()) ∧ Did me os [.setTrap me true] ∧ Traps (run ser w os) me := by
  obtain ⟨os3, os4, rfl, ho3, hr, hx3⟩ := exec_op_inv hx
  obtain ⟨e, ho4⟩ := exec_ret_inv hx3
  refine ⟨e, only_op ho3 (only_others ho4), ?_⟩
  rw [run_append, run_cons]
  exact traps_others (reach_step (reach_run hre _) _) ho4 (setTrap_traps hr)

/-! ## Samples -/

/-- A registry with the process 3 under the key 7. -/
def regHas : List (Op Nat (GMsg RMsg)) := regReady ++ [.spawn 2 true false, .table 2 (.insert "r" (.u32 7) (.loc 3))]

example : ∃ os, Exec regSer 2 (run regSer init regHas) (registryCall (regConf .brutalKill) 2 [(.loc 3, .u32 7)] (.remove (.u32 7))) os
    ([], .ok (some (.removeSuccess (some (.loc 3))))) := ⟨_, .op rfl (.op rfl (.ret _ _))⟩
example : ∃ os, Exec regSer 2 (run regSer init regHas) (registryCall (regConf .brutalKill) 2 [(.loc 3, .u32 7)] (.stop (.u32 7))) os
    ([], .ok (some .stopSuccess)) := ⟨_, .op rfl (.op rfl (.op rfl (.op rfl (.ret _ _))))⟩
example : ∃ os, Exec regSer 2 (run regSer init regHas) (registryCall (regConf .brutalKill) 2 [(.loc 3, .u32 7)] (.lookupOrStart (.u32 7))) os
    ([(.loc 3, .u32 7)], .ok (some (.lookupOrStartSuccess (.loc 3)))) := ⟨_, .op rfl (.ret _ _)⟩
example : ∃ os, Exec regSer 2 (run regSer init regHas) (registryCall (regConf .brutalKill) 2 [(.loc 3, .u32 7)] (.start (.u32 8))) os
    ([(.loc 3, .u32 7), (.loc 4, .u32 8)], .ok (some (.startSuccess (.loc 4)))) := ⟨_, .op rfl (.op rfl (.op rfl (.ret _ _)))⟩
example : ∃ os, Exec regSer 2 (run regSer init [.boot, .spawn 1 false false]) (registryBoot (regConf .brutalKill) 2 "r") os true :=
  ⟨_, .op rfl (.op rfl (.ret _ _))⟩

end Verif.World
