import Verif.RegistryTerm
/-!
# Registries (C72-C75, C88)

The specification is `regMap` (RegistryInv.lean), the map from keys to processes that the history of the callbacks means, together with
the definitions below.
-/
namespace Verif.World
open Verif.Mailbox
variable {B V : Type}

/-! ## Reading the table -/

/-- No key is twice in the list. -/
def UniqueKeys {A : Type} (l : List (RKey × A)) : Prop := (l.map Prod.fst).Nodup

theorem mem_of_aget {K A : Type} [DecidableEq K] {l : List (K × A)} {k : K} {v : A} (h : aget l k = some v) : (k, v) ∈ l := by
  unfold aget at h
  rw [Option.map_eq_some_iff] at h
  obtain ⟨⟨a, b⟩, h1, rfl⟩ := h
  have h2 := List.find?_some h1
  simp at h2; subst h2
  exact List.mem_of_find?_eq_some h1

theorem aget_of_mem {K A : Type} [DecidableEq K] {l : List (K × A)} (hn : (l.map Prod.fst).Nodup) {k : K} {v : A} (h : (k, v) ∈ l) : aget l k = some v := by
  induction l with
  | nil => cases h
  | cons x l ih =>
    obtain ⟨a, b⟩ := x
    rw [List.map_cons, List.nodup_cons] at hn
    simp only [aget, List.find?_cons] at ih ⊢
    rcases List.mem_cons.1 h with h | h
    · cases h; simp
    · have : a ≠ k := by rintro rfl; exact hn.1 (List.mem_map.2 ⟨(a, v), h, rfl⟩)
      simp [this]
      simpa using ih hn.2 h

theorem aget_mem_some {K A : Type} [DecidableEq K] {l : List (K × A)} {x : K × A} (h : x ∈ l) : ∃ v, aget l x.1 = some v := by
  unfold aget
  cases hf : l.find? fun y => decide (y.1 = x.1) with
  | none => have := List.find?_eq_none.1 hf x h; simp at this
  | some y => exact ⟨y.2, rfl⟩

theorem adel_keys {K A : Type} [DecidableEq K] {l : List (K × A)} (k : K) (h : (l.map Prod.fst).Nodup) : ((adel l k).map Prod.fst).Nodup ∧ k ∉ (adel l k).map Prod.fst := by
  refine ⟨List.Nodup.sublist (List.Sublist.map _ List.filter_sublist) h, ?_⟩
  intro hm
  obtain ⟨x, hx, rfl⟩ := List.mem_map.1 hm
  have := (List.mem_filter.1 hx).2
  simp at this

theorem aset_keys {K A : Type} [DecidableEq K] {l : List (K × A)} (k : K) (v : A) (h : (l.map Prod.fst).Nodup) : ((aset l k v).map Prod.fst).Nodup := by
  obtain ⟨h1, h2⟩ := adel_keys k h
  unfold aset
  rw [List.map_append, List.nodup_append]
  refine ⟨h1, by simp, ?_⟩
  intro a ha b hb
  simp at hb; subst hb
  rintro rfl; exact h2 ha

/-- The tables are well formed. -/
def TablesOk (t : Tables) : Prop := ∀ n e, t n = some e → UniqueKeys e

theorem tableOp_ok (t : Tables) (o : TOp) (h : TablesOk t) : TablesOk (tableOp t o).1 := by
  intro n e he
  cases o <;> simp only [tableOp] at he
  case lookup => exact h n e he
  case count => exact h n e he
  case list => exact h n e he
  case remove m k =>
    split at he
    · rw [Option.map_eq_some_iff] at he
      obtain ⟨e', h1, rfl⟩ := he
      exact (adel_keys k (h _ _ h1)).1
    · exact h n e he
  case insert m k p =>
    split at he
    · cases he
      refine aset_keys k p ?_
      cases hm : t m with
      | none => simp
      | some e' => exact h _ _ hm
    · exact h n e he
  case removeIf m k p =>
    split at he
    · rw [Option.map_eq_some_iff] at he
      obtain ⟨e', h1, rfl⟩ := he
      split
      · exact (adel_keys k (h _ _ h1)).1
      · exact h _ _ h1
    · exact h n e he
  case take m =>
    split at he
    · cases he
    · exact h n e he

theorem reach_tables {ser : V → B} {w : World B V} (h : Reachable ser w) : TablesOk w.tables := by
  obtain ⟨os, rfl⟩ := h
  refine run_inv' ser (fun w => TablesOk w.tables) (fun _ => True) ?_ os (fun _ _ => trivial) init (by intro n e h; cases h)
  intro w o _ _ w' a _ ha hw
  rw [tables_act]
  cases a <;> simp only [] <;> try exact hw
  exact tableOp_ok _ _ hw

/-- The list is the content of the registry: every registered key, once, with its process. -/
def Lists (name : String) (w : World B V) (l : Entries) : Prop := UniqueKeys l ∧ ∀ k p, (k, p) ∈ l ↔ tab name w k = some p

theorem lists_table {ser : V → B} {w : World B V} (hre : Reachable ser w) (name : String) : Lists name w ((w.tables name).getD []) := by
  have h := reach_tables hre name
  unfold Lists tab
  cases ht : w.tables name with
  | none => exact ⟨by simp [UniqueKeys], by simp⟩
  | some e =>
    have hn := h e ht
    exact ⟨hn, fun k p => ⟨fun hm => aget_of_mem hn hm, fun hm => mem_of_aget hm⟩⟩

section reads
variable {ser : V → B} {τ : RecvType B V (GMsg RMsg)} {me : Nat} {w : World B V} {os : List (Op B V)} {n : String}

theorem lookup_exec {k : RKey} {r : Option Pid} (hx : Exec ser me w (lookupProg me n k) os r) :
    ∃ os1 os2, os = os1 ++ .table me (.lookup n k) :: os2 ∧ (∀ o ∈ os1, Others me o) ∧ (∀ o ∈ os2, Others me o) ∧ r = tab n (run ser w os1) k := by
  obtain ⟨os1, os2, rfl, ho, hr, hx⟩ := exec_op_inv hx
  rw [(tables_table ser _ me _ hr).2] at hx
  obtain ⟨rfl, ho2⟩ := exec_ret_inv hx
  exact ⟨os1, os2, rfl, ho, ho2, rfl⟩

theorem remove_exec {k : RKey} {r : Option Pid} (hx : Exec ser me w (removeProg me n k) os r) :
    ∃ os1 os2, os = os1 ++ .table me (.remove n k) :: os2 ∧ (∀ o ∈ os1, Others me o) ∧ (∀ o ∈ os2, Others me o) ∧ r = tab n (run ser w os1) k ∧
      ∀ k', tab n (run ser w (os1 ++ [.table me (.remove n k)])) k' = if k' = k then none else tab n (run ser w os1) k' := by
  obtain ⟨os1, os2, rfl, ho, hr, hx⟩ := exec_op_inv hx
  rw [(tables_table ser _ me _ hr).2] at hx
  obtain ⟨rfl, ho2⟩ := exec_ret_inv hx
  refine ⟨os1, os2, rfl, ho, ho2, rfl, ?_⟩
  have := (own_remove (ser := ser) hr n k).2
  rw [run_append]
  exact this

/-- `Registry::lookup` of a local registry returns the process of the key at one moment of the call. -/
theorem C72_lookup {k : RKey} {r : Except RError (Option Pid)} (hx : Exec ser me w (rLookup τ me (.named n .loc) k) os r) :
    ∃ os1 os2, os = os1 ++ .table me (.lookup n k) :: os2 ∧ r = .ok (tab n (run ser w os1) k) := by
  obtain ⟨os1, os2, q, rfl, h1, h2⟩ := exec_bind_inv hx
  obtain ⟨os3, os4, rfl, -, -, rfl⟩ := lookup_exec h1
  obtain ⟨rfl, -⟩ := exec_ret_inv h2
  exact ⟨os3, os4 ++ os2, by simp, rfl⟩

/-- `Registry::list` returns every key of the registry exactly once. -/
theorem C72_list (hre : Reachable ser w) {r : Except RError Entries} (hx : Exec ser me w (rList τ me (.named n .loc)) os r) :
    ∃ os1 os2 l, os = os1 ++ .table me (.list n) :: os2 ∧ r = .ok l ∧ Lists n (run ser w os1) l := by
  obtain ⟨os1, os2, q, rfl, h1, h2⟩ := exec_bind_inv hx
  obtain ⟨rfl, -⟩ := exec_ret_inv h2
  obtain ⟨os3, os4, rfl, -, hr, h1⟩ := exec_op_inv h1
  rw [(tables_table ser _ me _ hr).2] at h1
  obtain ⟨rfl, -⟩ := exec_ret_inv h1
  exact ⟨os3, os4 ++ os2, _, by simp, rfl, lists_table (reach_run hre os3) n⟩

/-- `Registry::count` returns the number of the keys. -/
theorem C72_count (hre : Reachable ser w) {r : Except RError Nat} (hx : Exec ser me w (rCount τ me (.named n .loc)) os r) :
    ∃ os1 os2 l, os = os1 ++ .table me (.count n) :: os2 ∧ r = .ok l.length ∧ Lists n (run ser w os1) l := by
  obtain ⟨os1, os2, q, rfl, h1, h2⟩ := exec_bind_inv hx
  obtain ⟨rfl, -⟩ := exec_ret_inv h2
  obtain ⟨os3, os4, rfl, -, hr, h1⟩ := exec_op_inv h1
  rw [(tables_table ser _ me _ hr).2] at h1
  obtain ⟨rfl, -⟩ := exec_ret_inv h1
  refine ⟨os3, os4 ++ os2, _, by simp, ?_, lists_table (reach_run hre os3) n⟩
  simp only [tableOp]
  cases (run ser w os3).tables n <;> rfl

end reads

/-! ## C72: the map -/

section main
variable {ser : V → B} {c : RegConf B V} {τ : RecvType B V (GMsg RMsg)} {me : Nat} {u : RecvType B V Unit} {parent : Pid} {n : Nat}
  {w : World B V} {os : List (Op B V)} {l : Log RMsg Lookup}

/-- Whatever a key resolves to is the process that was last started for it and neither stopped, removed nor reported dead since; it is a
process of this node, and it is alive and linked to the registry, or the notice of its death is in the mailbox of the registry.
Missing: this asks that nobody else writes the table of the registry and that the start routine returns a new linked
process (`RegEnv`, `Starts`); see the theorems `C72_..._violated`. -/
theorem C72_resolves_partial (hst : ∀ f k, c.start = some f → Starts ser c.name me (f k)) (hre : Reachable ser w)
    (hok : Always ser (RegEnv c.name τ me False) w os) (ht : Traps w me) (h0 : ∀ k, tab c.name w k = none)
    (h : Exec ser me w (serverLoop (registryServer c u me) τ me parent n []) os l) (hl : l.ended = none) (k : RKey) (p : Pid)
    (hk : tab c.name (run ser w os) k = some p) :
    regMap l.calls k = some p ∧ ∃ i, p = .loc i ∧ i ≠ me ∧
      ((exists? (run ser w os) i = true ∧ Pid.loc me ∈ (run ser w os).links i) ∨ Notice (run ser w os) me p) := by
  have hi := (registry_loop hst hre hok ht h0 h).1 hl
  have h1 := hi.tab k p hk
  obtain ⟨i, rfl, -, hne⟩ := hi.ids p k h1
  exact ⟨hi.spec k _ hk, i, rfl, hne, hi.watch i k h1 (by simp)⟩

/-- As long as nobody removes keys past the registry, the table is that map. -/
theorem C72_last_started_partial (hst : ∀ f k, c.start = some f → Starts ser c.name me (f k)) (hre : Reachable ser w)
    (hok : Always ser (RegEnv c.name τ me True) w os) (ht : Traps w me) (h0 : ∀ k, tab c.name w k = none)
    (h : Exec ser me w (serverLoop (registryServer c u me) τ me parent n []) os l) (hl : l.ended = none) (k : RKey) :
    tab c.name (run ser w os) k = regMap l.calls k := by
  have hi := (registry_loop hst hre hok ht h0 h).1 hl
  cases hm : regMap l.calls k with
  | some p => exact hi.full trivial k p hm
  | none =>
    cases hq : tab c.name (run ser w os) k with
    | none => rfl
    | some p => rw [hi.spec k p hq] at hm; cases hm

/-- Different keys resolve to different processes. -/
theorem C72_distinct_partial (hst : ∀ f k, c.start = some f → Starts ser c.name me (f k)) (hre : Reachable ser w)
    (hok : Always ser (RegEnv c.name τ me False) w os) (ht : Traps w me) (h0 : ∀ k, tab c.name w k = none)
    (h : Exec ser me w (serverLoop (registryServer c u me) τ me parent n []) os l) (hl : l.ended = none) (k k' : RKey) (p : Pid)
    (hk : tab c.name (run ser w os) k = some p) (hk' : tab c.name (run ser w os) k' = some p) : k = k' := by
  have hi := (registry_loop hst hre hok ht h0 h).1 hl
  have h1 := hi.tab k p hk
  rw [hi.tab k' p hk'] at h1
  cases h1; rfl

/-! ## C73 -/

/-- A start request for a key that is present, at the registry: it answers `AlreadyStarted` with the process and does nothing but look; and
it answers so only then. -/
theorem C73_start {σ σ' : Lookup} {k : RKey} {res : Except ExitReason (Option RMsg)} (hre : Reachable ser w)
    (hx : Exec ser me w (registryCall c me σ (.start k)) os (σ', res)) :
    ∃ os1 os2, os = os1 ++ .table me (.lookup c.name k) :: os2 ∧ (∀ o ∈ os1, Others me o) ∧
      (∀ p, tab c.name (run ser w os1) k = some p → res = .ok (some (.startError (.alreadyStarted p))) ∧ σ' = σ ∧ ∀ o ∈ os2, Others me o) ∧
      (∀ p, res = .ok (some (.startError (.alreadyStarted p))) → tab c.name (run ser w os1) k = some p) := by
  obtain ⟨os1, os2, ⟨σ1, q⟩, rfl, hx1, hx2⟩ := exec_bind_inv hx
  obtain ⟨e, ho2⟩ := exec_ret_inv hx2
  cases e
  unfold startByKey at hx1
  obtain ⟨os3, os4, q', rfl, hx3, hx4⟩ := exec_bind_inv hx1
  obtain ⟨os5, os6, rfl, ho5, ho6, rfl⟩ := lookup_exec hx3
  refine ⟨os5, os6 ++ os4 ++ os2, by simp, ho5, ?_, ?_⟩
  · intro p hp
    rw [hp] at hx4
    obtain ⟨e, ho4⟩ := exec_ret_inv hx4
    cases e
    refine ⟨rfl, rfl, ?_⟩
    intro o ho
    simp only [List.mem_append] at ho
    rcases ho with (ho | ho) | ho
    · exact ho6 o ho
    · exact ho4 o ho
    · exact ho2 o ho
  · intro p hp
    generalize tab c.name (run ser w os5) k = z at hx4 ⊢
    cases z with
    | some p' =>
      obtain ⟨e, -⟩ := exec_ret_inv hx4
      cases e; cases hp; rfl
    | none =>
      cases hs : c.start with
      | none => simp only [hs] at hx4; exact (panics_never (reach_run hre _) hx4).elim
      | some f =>
        simp only [hs] at hx4
        obtain ⟨os7, os8, q', rfl, hx7, hx8⟩ := exec_bind_inv hx4
        cases q' with
        | ok pid =>
          obtain ⟨os9, os10, rfl, -, -, hx9⟩ := exec_op_inv hx8
          obtain ⟨e, -⟩ := exec_ret_inv hx9
          cases e; cases hp
        | error r =>
          obtain ⟨e, -⟩ := exec_ret_inv hx8
          cases e; cases hp

/-- `Registry::start_process` for a local registry when the key is present: it returns `AlreadyStarted` with the process, without asking
the registry. -/
theorem C73_client {name : String} {k : RKey} {res : Except RError Pid} (hx : Exec ser me w (rStart τ me (.named name .loc) k) os res) :
    ∃ os1 os2, os = os1 ++ .table me (.lookup name k) :: os2 ∧ (∀ o ∈ os1, Others me o) ∧
      ∀ p, tab name (run ser w os1) k = some p → res = .error (.alreadyStarted p) ∧ ∀ o ∈ os2, Others me o := by
  obtain ⟨os1, os2, q, rfl, hx1, hx2⟩ := exec_bind_inv hx
  obtain ⟨os5, os6, rfl, ho5, ho6, rfl⟩ := lookup_exec hx1
  refine ⟨os5, os6 ++ os2, by simp, ho5, ?_⟩
  intro p hp
  rw [hp] at hx2
  obtain ⟨rfl, ho2⟩ := exec_ret_inv hx2
  exact ⟨rfl, fun o ho => (List.mem_append.1 ho).elim (ho6 o) (ho2 o)⟩

/-- A successful start puts the process under a key that was free until then. -/
theorem C72_exclusive_partial {quiet : Prop} {σ σ' : Lookup} {k : RKey} {p : Pid} (hst : ∀ f k, c.start = some f → Starts ser c.name me (f k)) (hre : Reachable ser w)
    (hok : Always ser (RegEnv c.name τ me quiet) w os) {M : RKey → Option Pid} (hi : RInv c.name me quiet none w σ M)
    (hx : Exec ser me w (registryCall c me σ (.start k)) os (σ', .ok (some (.startSuccess p)))) :
    ∃ os1 os2, os = os1 ++ .table me (.insert c.name k p) :: os2 ∧ tab c.name (run ser w os1) k = none := by
  obtain ⟨os1, os2, ⟨σ1, q⟩, rfl, hx1, hx2⟩ := exec_bind_inv hx
  obtain ⟨k1, -⟩ := always_append.1 hok
  obtain ⟨e, ho2⟩ := exec_ret_inv hx2
  cases q with
  | error e' => simp at e
  | ok p' =>
    simp at e
    obtain ⟨rfl, rfl⟩ := e
    obtain ⟨-, -, h3⟩ := start_spec hre (fun f => hst f k) k1 hi hx1
    obtain ⟨os3, os4, rfl, h⟩ := h3 _ rfl
    exact ⟨os3, os4 ++ os2, by simp, h⟩

/-! ## C74 -/

/-- A registry without a start routine never answers `StartNotSupported`: it answers only if the key is present. -/
theorem C74_answers_partial {σ σ' : Lookup} {k : RKey} {res : Except ExitReason (Option RMsg)} (hs : c.start = none) (hre : Reachable ser w)
    (hx : Exec ser me w (registryCall c me σ (.start k)) os (σ', res)) :
    ∃ os1 os2 p, os = os1 ++ os2 ∧ tab c.name (run ser w os1) k = some p ∧ res = .ok (some (.startError (.alreadyStarted p))) := by
  obtain ⟨os1, os2, ⟨σ1, q⟩, rfl, hx1, hx2⟩ := exec_bind_inv hx
  obtain ⟨e, -⟩ := exec_ret_inv hx2
  cases e
  unfold startByKey at hx1
  obtain ⟨os3, os4, q', rfl, hx3, hx4⟩ := exec_bind_inv hx1
  obtain ⟨os5, os6, rfl, -, -, hq⟩ := lookup_exec hx3
  cases q' with
  | some p' =>
    obtain ⟨e, -⟩ := exec_ret_inv hx4
    cases e
    exact ⟨os5, .table me (.lookup c.name k) :: (os6 ++ (os4 ++ os2)), p', by simp, hq.symm, rfl⟩
  | none =>
    simp only [hs] at hx4
    exact (panics_never (reach_run hre _) hx4).elim

/-! ## C75 -/

/-- The processes that are registered when the registry ends are stopped; unless the mode is `BrutalKill`, they are dead before the registry
exits. -/
theorem terminate_stops {quiet : Prop} {x : Option Pid} {σ σ' : Lookup} {M : RKey → Option Pid} {r : ExitReason} (hre : Reachable ser w)
    (hok : Always ser (RegEnv c.name τ me quiet) w os) (hi : RInv c.name me quiet x w σ M)
    (hx : Exec ser me w ((registryServer c u me).terminate σ r) os σ') :
    ∃ os1 os2, os = os1 ++ .table me (.take c.name) :: os2 ∧ RInv c.name me quiet x (run ser w os1) σ M ∧
      ∀ k p, tab c.name (run ser w os1) k = some p →
        ∃ i, p = .loc i ∧ Stopped (run ser w os) i ∧ (c.mode ≠ .brutalKill → (run ser w os).procs i = none) := by
  have hmem : ∀ (w' : World B V), RInv c.name me quiet x w' σ M → ∀ y ∈ σ, ∃ i, y.1 = .loc i ∧ i < w'.nextPid ∧ i ≠ me := by
    intro w' hi y hy
    obtain ⟨v, hv⟩ := aget_mem_some hy
    exact hi.ids _ _ hv
  have kill : ∀ σ1 os1 os2 os3, os = os1 ++ .table me (.take c.name) :: (os2 ++ os3) →
      Exec ser me (run ser w (os1 ++ .table me (.take c.name) :: os2)) (killAll me (List.map Prod.fst σ1) (.ret [])) os3 σ' →
      RInv c.name me quiet x (run ser w os1) σ M → σ1 = σ →
      ∀ k p, tab c.name (run ser w os1) k = some p → ∃ i, p = .loc i ∧ Stopped (run ser w os) i := by
    intro σ1 os1 os2 os3 hos hk hi1 hσ k p hp
    subst hσ
    have h1 := hi1.tab k p hp
    obtain ⟨i, rfl, hlt, hne⟩ := hi1.ids p k h1
    refine ⟨i, rfl, ?_⟩
    have := killAll_stops _ hk (by
      intro p hp
      obtain ⟨y, hy, rfl⟩ := List.mem_map.1 hp
      obtain ⟨j, e, hj, -⟩ := hmem _ hi1 y hy
      refine ⟨j, e, Nat.lt_of_lt_of_le hj ?_⟩
      rw [run_append]; exact nextPid_run _ _ _) i (List.mem_map.2 ⟨(_, k), mem_of_aget h1, rfl⟩)
    rw [← run_append] at this
    rw [hos]; simpa using this
  obtain ⟨os1, os2, σ1, rfl, hx1, hx2⟩ := exec_bind_inv hx
  obtain ⟨k1, k2⟩ := always_append.1 hok
  unfold registryDrop at hx2
  by_cases hm : c.mode = .brutalKill
  · unfold terminateChildren at hx1
    rw [hm] at hx1
    obtain ⟨rfl, ho1⟩ := exec_ret_inv hx1
    obtain ⟨os3, os4, rfl, ho3, hr3, hx3⟩ := exec_op_inv hx2
    have hi1 := rinv_others hre ho1 k1 hi
    have hi3 := rinv_others (reach_run hre os1) ho3 (always_append.1 k2).1 hi1
    rw [← run_append] at hi3
    refine ⟨os1 ++ os3, os4, by simp, hi3, ?_⟩
    intro k p hp
    obtain ⟨i, h1, h2⟩ := kill _ (os1 ++ os3) [] os4 (by simp) (by
      rw [run_append, run_append]; exact hx3) hi3 rfl k p hp
    exact ⟨i, h1, h2, fun h => absurd hm h⟩
  · have hx1' : Exec ser me w (.op (.table me (.take c.name)) fun
        | .table (.entries (some e)) => exitChildren me e σ [] fun ms => awaitChildren u me c.mode ms (.ret [])
        | _ => .ret σ) os1 σ1 := by
      unfold terminateChildren at hx1
      cases hc : c.mode <;> first | exact absurd hc hm | (rw [hc] at hx1; exact hx1)
    obtain ⟨os3, os4, rfl, ho3, hr3, hx3⟩ := exec_op_inv hx1'
    rw [(tables_table ser _ me _ hr3).2] at hx3
    simp only [tableOp] at hx3
    have hi3 := rinv_others hre ho3 (always_append.1 k1).1 hi
    refine ⟨os3, os4 ++ os2, by simp, hi3, ?_⟩
    intro k p hp
    have hσ := hi3.tab k p hp
    obtain ⟨i, rfl, hlt, hne⟩ := hi3.ids p k hσ
    refine ⟨i, rfl, ?_⟩
    have hdead : (run ser w (os3 ++ .table me (.take c.name) :: os4)).procs i = none := by
      unfold tab at hp
      cases ht : (run ser w os3).tables c.name with
      | none => rw [ht] at hp; cases hp
      | some e =>
        rw [ht] at hx3 hp
        have hre4 := reach_step (reach_run hre os3) (.table me (.take c.name))
        obtain ⟨os5, os6, ms, rfl, -, h3, -, h5, h6⟩ := exitChildren_inv σ hre4 (by
          intro y hy
          obtain ⟨j, e, hj, hn⟩ := hmem _ hi3 y hy
          exact ⟨j, e, Nat.lt_of_lt_of_le hj (nextPid_step _ _ _), hn⟩) (by intro y hy; cases hy) hx3
        obtain ⟨m, hmm⟩ := h5 (.loc i, k) (mem_of_aget hσ) (by
          have hp' : aget e k = some (.loc i) := hp
          simp [hp'])
        obtain ⟨os7, os8, rfl, h7, -⟩ := awaitChildren_inv ms (reach_run hre4 os5) h3 h6
        obtain ⟨j, hj, hd, hlt'⟩ := h7 _ hmm
        cases hj
        rw [run_append, run_cons, run_append, run_append]
        exact (absent_run ser _ os8 i hlt' hd).1
    have hlt2 : i < (run ser w (os3 ++ .table me (.take c.name) :: os4)).nextPid := by
      refine Nat.lt_of_lt_of_le hlt ?_
      rw [run_append]; exact nextPid_run _ _ _
    have hd2 : (run ser w ((os3 ++ .table me (.take c.name) :: os4) ++ os2)).procs i = none := by
      rw [run_append]; exact (absent_run ser _ os2 i hlt2 hdead).1
    refine ⟨⟨?_, ?_⟩, fun _ => hd2⟩
    · refine Nat.lt_of_lt_of_le hlt2 ?_
      rw [run_append (os' := os2)]; exact nextPid_run _ _ _
    · rw [hd2]; simp

/-- When a registry ends by itself (it is told to stop, or its parent dies), the processes that are registered at the moment it takes its
table away do not run any more; unless the mode is `BrutalKill` they are dead. If nobody removes keys past the registry, these are
all the processes that were started and neither stopped, removed nor reported dead. Missing: as in `C72_resolves_partial`. -/
theorem C75_stopped_partial {quiet : Prop} (hst : ∀ f k, c.start = some f → Starts ser c.name me (f k)) (hre : Reachable ser w)
    (hok : Always ser (RegEnv c.name τ me quiet) w os) (ht : Traps w me) (h0 : ∀ k, tab c.name w k = none)
    (h : Exec ser me w (serverLoop (registryServer c u me) τ me parent n []) os l) {r : ExitReason} (hl : l.ended = some r) :
    ∃ os1 os2 calls last, os = os1 ++ .table me (.take c.name) :: os2 ∧ l.calls = calls ++ [last] ∧ last.what = .terminate r ∧
      (∀ k p, tab c.name (run ser w os1) k = some p → regMap calls k = some p) ∧
      (quiet → ∀ k, tab c.name (run ser w os1) k = regMap calls k) ∧
      ∀ k p, tab c.name (run ser w os1) k = some p →
        ∃ i, p = .loc i ∧ Stopped (run ser w os) i ∧ (c.mode ≠ .brutalKill → (run ser w os).procs i = none) := by
  obtain ⟨os1, os2, os3, σ, calls, rfl, hc, ⟨x, -, hi⟩, hx⟩ := (registry_loop hst hre hok ht h0 h).2 r hl
  obtain ⟨-, k2⟩ := always_append.1 hok
  obtain ⟨k2, -⟩ := always_append.1 k2
  obtain ⟨os4, os5, rfl, hi4, hs⟩ := terminate_stops (reach_run hre os1) k2 hi hx
  refine ⟨os1 ++ os4, os5 ++ os3, calls, _, by simp, hc, rfl, ?_, ?_, ?_⟩
  · rw [run_append]; exact hi4.spec
  · rw [run_append]
    intro hq k
    cases hm : regMap calls k with
    | some p => exact hi4.full hq k p hm
    | none =>
      cases hq : tab c.name (run ser (run ser w os1) os4) k with
      | none => rfl
      | some p => rw [hi4.spec k p hq] at hm; cases hm
  · rw [run_append]
    intro k p hp
    obtain ⟨i, rfl, h1, h2⟩ := hs k p hp
    refine ⟨i, rfl, ?_, ?_⟩
    · rw [run_append, run_append]; exact stopped_run ser h1 _
    · intro hm
      rw [run_append, run_append]
      exact (absent_run ser _ os3 i h1.1 (h2 hm)).1

/-- When a registry is killed or panics, its value is dropped: everything it knows is killed. -/
theorem C75_drop {R : Type} {σ : Lookup} {k : Prog B V R} {r : R} (hσ : ∀ x ∈ σ, ∃ i, x.1 = .loc i ∧ i < w.nextPid)
    (hx : Exec ser me w (registryDrop c me σ k) os r) : ∀ i key, (Pid.loc i, key) ∈ σ → Stopped (run ser w os) i := by
  obtain ⟨os3, os4, rfl, ho3, hr3, hx3⟩ := exec_op_inv hx
  intro i key hi
  have := killAll_stops _ hx3 (by
    intro p hp
    obtain ⟨y, hy, rfl⟩ := List.mem_map.1 hp
    obtain ⟨j, e, hj⟩ := hσ y hy
    exact ⟨j, e, Nat.lt_of_lt_of_le hj (Nat.le_trans (nextPid_run _ _ _) (nextPid_step _ _ _))⟩) i (List.mem_map.2 ⟨(_, key), hi, rfl⟩)
  rw [run_append, run_cons]
  exact this

/-! ## C88 -/

theorem uses_bind {R R' : Type} {P : Op B V → Prop} {p : Prog B V R} {k : R → Prog B V R'} (hp : Uses P p) (hk : ∀ r, Uses P (k r)) : Uses P (p.bind k) := by
  induction hp with
  | ret r => rw [bind_ret]; exact hk r
  | op h _ ih => rw [bind_op]; exact .op h ih
  | @wait kind o t k' h1 h2 ih1 ih2 =>
    rw [bind_wait]
    refine .wait ?_ ih2
    intro p hp
    cases t with
    | none => cases hp
    | some q => cases hp; exact ih1 q rfl

/-- Not an exit signal from `me` to `p`. -/
def NoExit (me : Nat) (p : Pid) (o : Op B V) : Prop := ∀ r, o ≠ .exit me p r

theorem uses_killAll {R : Type} {p : Pid} (ps : List Pid) (hp : p ∉ ps) {k : Prog B V R} (hk : Uses (NoExit me p) k) : Uses (NoExit me p) (killAll me ps k) := by
  induction ps with
  | nil => exact hk
  | cons q ps ih =>
    rw [killAll]
    refine .op (by intro r; simp) fun _ => .op ?_ fun _ => ih (fun h => hp (by simp [h]))
    intro r e; cases e; exact hp (by simp)

theorem uses_exitChildren {R : Type} {p : Pid} {e : Entries} (σ : Lookup) (hp : ∀ x ∈ σ, x.1 ≠ p) (ms : List (Pid × Ref)) (hms : ∀ x ∈ ms, x.1 ≠ p)
    {k : List (Pid × Ref) → Prog B V R} (hk : ∀ ms : List (Pid × Ref), (∀ x ∈ ms, x.1 ≠ p) → Uses (NoExit me p) (k ms)) :
    Uses (NoExit me p) (exitChildren me e σ ms k) := by
  induction σ generalizing ms with
  | nil => exact hk ms hms
  | cons x σ ih =>
    obtain ⟨q, key⟩ := x
    rw [exitChildren]
    split
    · refine .op (by intro r; simp) fun res => .op ?_ fun _ => ih (fun x hx => hp x (by simp [hx])) _ ?_
      · intro r e; cases e; exact hp _ List.mem_cons_self rfl
      · intro x hx
        rcases List.mem_append.1 hx with h | h
        · exact hms x h
        · simp at h; subst h; exact hp _ List.mem_cons_self
    · exact ih (fun x hx => hp x (by simp [hx])) ms hms

theorem uses_brutal' {p q : Pid} (hq : q ≠ p) (m : Ref) : Uses (NoExit me p) (brutalKill u me q m) := by
  refine .op (by intro r e; cases e; exact hq rfl) fun _ => .wait (by simp) fun _ => ?_
  exact .op (by intro r; simp) fun _ => .op (by intro r; simp) fun _ => .ret _

theorem uses_await {R : Type} {p : Pid} {mode : ShutdownMode} (ms : List (Pid × Ref)) (hms : ∀ x ∈ ms, x.1 ≠ p) {k : Prog B V R} (hk : Uses (NoExit me p) k) :
    Uses (NoExit me p) (awaitChildren u me mode ms k) := by
  induction ms with
  | nil => exact hk
  | cons x ms ih =>
    obtain ⟨q, m⟩ := x
    rw [awaitChildren]
    have hq : q ≠ p := hms (q, m) List.mem_cons_self
    refine uses_bind ?_ fun _ => ih fun x hx => hms x (by simp [hx])
    have fl : Uses (NoExit me p) (unlinkFlush u me q) := .op (by intro r; simp) fun _ => .op (by intro r; simp) fun _ => .ret _
    cases mode with
    | brutalKill => exact uses_brutal' hq m
    | duration => exact .op (by intro r e; cases e; exact hq rfl) fun _ => .wait (by rintro p ⟨rfl⟩; exact uses_brutal' hq m) fun _ => fl
    | infinity => exact .op (by intro r e; cases e; exact hq rfl) fun _ => .wait (by simp) fun _ => fl

theorem exitChildren_ret {R : Type} {e : Entries} (σ : Lookup) {ms : List (Pid × Ref)} {k : List (Pid × Ref) → Prog B V R} {r : R}
    (hx : Exec ser me w (exitChildren me e σ ms k) os r) : ∃ w' os' ms', Exec ser me w' (k ms') os' r := by
  induction σ generalizing ms w os with
  | nil => exact ⟨_, _, _, hx⟩
  | cons x σ ih =>
    obtain ⟨q, key⟩ := x
    rw [exitChildren] at hx
    split at hx
    · obtain ⟨_, _, -, -, -, hx⟩ := exec_op_inv hx
      obtain ⟨_, _, -, -, -, hx⟩ := exec_op_inv hx
      exact ih hx
    · exact ih hx

theorem await_ret {R : Type} {mode : ShutdownMode} (ms : List (Pid × Ref)) {x r : R} (hx : Exec ser me w (awaitChildren u me mode ms (.ret x)) os r) : r = x := by
  induction ms generalizing w os with
  | nil => exact (exec_ret_inv hx).1
  | cons y ms ih =>
    rw [awaitChildren] at hx
    obtain ⟨_, _, _, -, -, hx⟩ := exec_bind_inv hx
    exact ih hx

/-- `Registry::remove` of a local registry returns the process that the key had at one moment, from which on the key is free; all it does
besides is to tell the registry to forget the process. -/
theorem C88_remove {name : String} {k : RKey} {res : Except RError (Option Pid)} (hx : Exec ser me w (rRemove τ me (.named name .loc) k) os res) :
    ∃ os1 os2, os = os1 ++ .table me (.remove name k) :: os2 ∧ (∀ o ∈ os1, Others me o) ∧ res = .ok (tab name (run ser w os1) k) ∧
      (∀ k', tab name (run ser w (os1 ++ [.table me (.remove name k)])) k' = if k' = k then none else tab name (run ser w os1) k') ∧
      ∀ o ∈ os2, Others me o ∨ ∃ p, tab name (run ser w os1) k = some p ∧ o = .send me (.one (.named name .loc)) (τ.box (.cast (.removeLookup p))) := by
  obtain ⟨os1, os2, q, rfl, hx1, hx2⟩ := exec_bind_inv hx
  obtain ⟨os3, os4, rfl, ho3, ho4, hq, ht⟩ := remove_exec hx1
  refine ⟨os3, os4 ++ os2, by simp, ho3, ?_⟩
  cases q with
  | none =>
    obtain ⟨rfl, ho2⟩ := exec_ret_inv hx2
    exact ⟨by rw [hq], ht, fun o ho => .inl ((List.mem_append.1 ho).elim (ho4 o) (ho2 o))⟩
  | some p =>
    obtain ⟨os5, os6, rfl, ho5, -, hx⟩ := exec_op_inv hx2
    obtain ⟨rfl, ho6⟩ := exec_ret_inv hx
    refine ⟨by rw [hq], ht, ?_⟩
    intro o ho
    simp only [List.mem_append, List.mem_cons] at ho
    rcases ho with ho | ho | rfl | ho
    · exact .inl (ho4 o ho)
    · exact .inl (ho5 o ho)
    · exact .inr ⟨p, hq.symm, rfl⟩
    · exact .inl (ho6 o ho)

/-- The registry forgets the process when it handles that message: it unlinks from it and does nothing else. -/
theorem C88_forgets {σ σ' : Lookup} {p : Pid} {res : Except ExitReason Unit} (hx : Exec ser me w (registryCast c me σ (.removeLookup p)) os (σ', res)) :
    res = .ok () ∧ aget σ' p = none ∧ ∃ os1 os2, os = os1 ++ .unlink me p :: os2 ∧ (∀ o ∈ os1, Others me o) ∧ ∀ o ∈ os2, Others me o := by
  obtain ⟨os1, os2, rfl, ho1, -, hx⟩ := exec_op_inv hx
  obtain ⟨e, ho2⟩ := exec_ret_inv hx
  cases e
  exact ⟨rfl, by rw [aget_adel, if_pos rfl], os1, os2, rfl, ho1, ho2⟩

/-- A registry sends no exit signal to a process it has forgotten when it ends, whatever the shutdown mode. Missing: this does not hold
before it has handled the message, see `C88_violated`. -/
theorem C88_spared_partial {σ σ' : Lookup} {p : Pid} {r : ExitReason} (hp : aget σ p = none) (hx : Exec ser me w ((registryServer c u me).terminate σ r) os σ') :
    ∀ e, Op.exit me p e ∉ os := by
  have hσ : ∀ x ∈ σ, x.1 ≠ p := by
    rintro x hx rfl
    obtain ⟨v, hv⟩ := aget_mem_some hx
    rw [hp] at hv; cases hv
  -- the program without the exits
  have hd : ∀ σ1 : Lookup, (∀ x ∈ σ1, x.1 ≠ p) → Uses (NoExit me p) (registryDrop c me σ1 (Prog.ret ([] : Lookup))) := by
    intro σ1 h1
    refine .op (by intro r; simp) fun _ => uses_killAll _ ?_ (.ret _)
    intro hm
    obtain ⟨x, hx, rfl⟩ := List.mem_map.1 hm
    exact h1 x hx rfl
  obtain ⟨os1, os2, σ1, rfl, hx1, hx2⟩ := exec_bind_inv hx
  have key : Uses (NoExit me p) (terminateChildren c u me σ) := by
    unfold terminateChildren
    split
    · exact .ret _
    · refine .op (by intro r; simp) fun res => ?_
      split
      · exact uses_exitChildren σ hσ [] (by simp) fun ms hms => uses_await ms hms (.ret _)
      · exact .ret _
  have hσ1 : ∀ x ∈ σ1, x.1 ≠ p := by
    unfold terminateChildren at hx1
    split at hx1
    · obtain ⟨rfl, -⟩ := exec_ret_inv hx1; exact hσ
    · obtain ⟨os3, os4, -, -, -, hx3⟩ := exec_op_inv hx1
      split at hx3
      · obtain ⟨w', os', ms, hx4⟩ := exitChildren_ret _ hx3
        rw [await_ret _ hx4]; simp
      · obtain ⟨rfl, -⟩ := exec_ret_inv hx3; exact hσ
  intro e he
  have fin : ∀ {w : World B V} {os : List (Op B V)} {q : Prog B V Lookup} {σ2 : Lookup}, Exec ser me w q os σ2 → Uses (NoExit me p) q → Op.exit me p e ∉ os := by
    intro w os q σ2 hx hu hm
    rcases exec_uses hx hu _ hm with h | h | ⟨ro, k, h⟩
    · exact h.1 rfl
    · exact h e rfl
    · cases h
  rcases List.mem_append.1 he with he | he
  · exact fin hx1 key he
  · exact fin hx2 (hd σ1 hσ1) he

end main

/-! ## A start routine -/

theorem watched_others (ser : V → B) {me : Nat} {w : World B V} (hre : Reachable ser w) (ht : Traps w me) {os : List (Op B V)} (ho : ∀ o ∈ os, Others me o) :
    Traps (run ser w os) me ∧ ∀ i, i ≠ me → Watched w me i → Watched (run ser w os) me i := by
  induction os generalizing w with
  | nil => exact ⟨ht, fun _ _ h => h⟩
  | cons o os ih =>
    have h := ho o List.mem_cons_self
    have hlt := traps_lt hre ht
    have n1 : o ≠ .setTrap me false := by rintro rfl; exact h.1 rfl
    obtain ⟨h1, h2⟩ := ih (reach_step hre o) (traps_step ser hlt h.2 n1 ht) (fun o' h => ho o' (List.mem_cons_of_mem _ h))
    rw [run_cons]
    refine ⟨h1, fun i hi hw => h2 i hi (watched_step ser hre hi ht h.2 ?_ ?_ hw)⟩
    · rintro ro k rfl; exact h.1 rfl
    · rintro rfl; exact h.1 rfl

/-- The start routine `Process::spawn_link`, as process `me` runs it: it fails only if the process cannot run any more. -/
def spawnLinked (me : Nat) : Prog B V (Except ExitReason Pid) :=
  .op (.spawn me true false) fun r => .ret (match r with | .spawned pid _ => .ok (.loc pid) | _ => .error .kill)

theorem mem_addLink (w : World B V) {i me : Nat} (hne : i ≠ me) {p q : Pid} : p ∈ (addLink (addLink w i p) me q).links i := by
  simp only [addLink, upd_at, if_neg hne, if_true]
  split
  · assumption
  · simp

/-- What `Starts` asks for is met by it. -/
theorem starts_spawnLinked (ser : V → B) (name : String) (me : Nat) : Starts (B := B) ser name me (spawnLinked me) := by
  intro w os r hre ht hx
  obtain ⟨os1, os2, rfl, ho1, hr1, hx⟩ := exec_op_inv hx
  obtain ⟨h1, h2⟩ := watched_others ser hre ht ho1
  have hre1 := reach_run hre os1
  have hlt := traps_lt hre1 h1
  have h3 := traps_step ser hlt (o := .spawn me true false) (by simp) (by simp) h1
  obtain ⟨rfl, ho2⟩ := exec_ret_inv hx
  obtain ⟨h4, h5⟩ := watched_others ser (reach_step hre1 (.spawn me true false)) h3 ho2
  rw [run_append, run_cons]
  refine ⟨h4, ?_, ?_, ?_⟩
  · intro i hi hw
    exact h5 i hi (watched_step ser hre1 hi h1 (by simp) (by simp) (by simp) (h2 i hi hw))
  · intro t hm
    simp only [List.mem_append, List.mem_cons, reduceCtorEq, false_or] at hm
    rcases hm with hm | hm
    · exact absurd rfl (ho1 _ hm).1
    · exact absurd rfl (ho2 _ hm).1
  · intro p hp
    have e : (step ser (run ser w os1) (.spawn me true false)).2 = .spawned (run ser w os1).nextPid none := by
      simp [step, Op.caller, hr1, Op.exec, spawn]
    rw [e] at hp
    cases hp
    refine ⟨_, rfl, nextPid_run _ _ _, ?_, ?_⟩
    · refine Nat.lt_of_lt_of_le ?_ (nextPid_run _ _ _)
      simp [step, Op.caller, hr1, Op.exec, spawn, spawnRaw, addLink]
    · refine h5 _ (by omega) (.inl ⟨?_, ?_⟩)
      · simp [step, Op.caller, hr1, Op.exec, spawn, spawnRaw, addLink, exists?, upd_at]
      · have hne : (run ser w os1).nextPid ≠ me := by omega
        simp only [step, Op.caller, hr1, Op.exec, spawn]
        exact mem_addLink _ hne

/-! ## Samples -/

def regType : RecvType Nat (GMsg RMsg) (GMsg RMsg) := ⟨fun _ => none, some, id, fun _ => rfl⟩
def regUnit : RecvType Nat (GMsg RMsg) Unit := ⟨fun _ => none, fun _ => some (), fun _ => .stop .normal, fun _ => rfl⟩
def regSer : GMsg RMsg → Nat := fun _ => 0

/-- The registry "r" whose start routine is `spawn_link`, in process 2. -/
def regConf (mode : ShutdownMode) : RegConf Nat (GMsg RMsg) := ⟨"r", some fun _ => spawnLinked 2, mode⟩

/-- Process 1 has started process 2, which has the name "r" and traps exits. -/
def regReady : List (Op Nat (GMsg RMsg)) := [.boot, .spawn 1 false false, .register 2 (.loc 2) "r", .setTrap 2 true]

/-- A request of process 1. -/
def ask (n : Nat) (m : RMsg) : Op Nat (GMsg RMsg) := .send 1 (.one (.pid (.loc 2))) (.call ⟨.loc 1, .loc n, false⟩ m)

def take2 : Op Nat (GMsg RMsg) := .recv 2 (anyMsg regType) .select
def say2 (n : Nat) (m : RMsg) : Op Nat (GMsg RMsg) := .send 2 (.one (.pid (.loc 1))) (.callReply (.loc n) m)

/-- It is asked to start two processes; one of them dies; it is told to stop. -/
def regOps : List (Op Nat (GMsg RMsg)) :=
  [ask 90 (.start (.u32 7)), ask 91 (.start (.u32 8)), ask 92 (.start (.u32 7)),
   take2, .table 2 (.lookup "r" (.u32 7)), .spawn 2 true false, .table 2 (.insert "r" (.u32 7) (.loc 3)), say2 90 (.startSuccess (.loc 3)),
   take2, .table 2 (.lookup "r" (.u32 8)), .spawn 2 true false, .table 2 (.insert "r" (.u32 8) (.loc 4)), say2 91 (.startSuccess (.loc 4)),
   take2, .table 2 (.lookup "r" (.u32 7)), say2 92 (.startError (.alreadyStarted (.loc 3))),
   .finish 3, .drop 3,
   take2, .table 2 (.removeIf "r" (.u32 7) (.loc 3))]

def regCalls : List (Record RMsg Lookup) :=
  [⟨.call (.start (.u32 7)) ⟨.loc 1, .loc 90, false⟩, [], [(.loc 3, .u32 7)], .ok (some (.startSuccess (.loc 3)))⟩,
   ⟨.call (.start (.u32 8)) ⟨.loc 1, .loc 91, false⟩, [(.loc 3, .u32 7)], [(.loc 3, .u32 7), (.loc 4, .u32 8)], .ok (some (.startSuccess (.loc 4)))⟩,
   ⟨.call (.start (.u32 7)) ⟨.loc 1, .loc 92, false⟩, [(.loc 3, .u32 7), (.loc 4, .u32 8)], [(.loc 3, .u32 7), (.loc 4, .u32 8)],
     .ok (some (.startError (.alreadyStarted (.loc 3))))⟩,
   ⟨.info (.system (.exit (.loc 3) .normal)), [(.loc 3, .u32 7), (.loc 4, .u32 8)], [(.loc 4, .u32 8)], .ok none⟩]

theorem regExec : Exec regSer 2 (run regSer init regReady) (serverLoop (registryServer (regConf .brutalKill) regUnit 2) regType 2 (.loc 1) 4 []) regOps
    ⟨regCalls, none, [(.loc 4, .u32 8)]⟩ := by
  refine .env ⟨by simp [ask, Op.caller], by simp [ask]⟩ (.env ⟨by simp [ask, Op.caller], by simp [ask]⟩ (.env ⟨by simp [ask, Op.caller], by simp [ask]⟩ ?_))
  refine .got (m := .user (.call ⟨.loc 1, .loc 90, false⟩ (.start (.u32 7)))) rfl rfl (.op rfl (.op rfl (.op rfl (.op rfl ?_))))
  refine .got (m := .user (.call ⟨.loc 1, .loc 91, false⟩ (.start (.u32 8)))) rfl rfl (.op rfl (.op rfl (.op rfl (.op rfl ?_))))
  refine .got (m := .user (.call ⟨.loc 1, .loc 92, false⟩ (.start (.u32 7)))) rfl rfl (.op rfl (.op rfl ?_))
  refine .env ⟨by simp [Op.caller], by simp⟩ (.env ⟨by simp [Op.caller], by simp⟩ ?_)
  refine .got (m := .system (.exit (.loc 3) .normal)) rfl rfl (.op rfl ?_)
  exact .ret _ _

/-- What `RegEnv` asks of an operation that is no receive of the registry. -/
theorem env_other {quiet : Prop} {w : World Nat (GMsg RMsg)} {o : Op Nat (GMsg RMsg)} (h1 : ∀ m t, m ≠ 2 → o ≠ .table m t) (h2 : ∀ ro k, o ≠ .recv 2 ro k) :
    RegEnv "r" regType 2 quiet w o :=
  ⟨fun m t hm e => absurd e (h1 m t hm), fun k p e => absurd e (h2 _ k)⟩

/-- What `RegEnv` asks of a receive of the registry, if the message is another one. -/
theorem env_take {quiet : Prop} {w : World Nat (GMsg RMsg)} (m : Msg (GMsg RMsg)) (h : received w 2 (anyMsg regType) .select = some m)
    (hm : ∀ p, ¬ m = .user (.cast (.removeLookup p))) : RegEnv "r" regType 2 quiet w take2 := by
  refine ⟨fun m t _ e => by simp [take2] at e, ?_⟩
  intro kind p e hr
  have : kind = .select := by
    simp only [take2, Op.recv.injEq] at e
    exact e.2.2.symm
  subst this
  rw [h] at hr
  cases hr
  exact absurd rfl (hm p)

theorem regEnv (quiet : Prop) : Always regSer (RegEnv "r" regType 2 quiet) (run regSer init regReady) regOps := by
  refine ⟨env_other (by simp [ask]) (by simp [ask]), env_other (by simp [ask]) (by simp [ask]), env_other (by simp [ask]) (by simp [ask]), ?_⟩
  refine ⟨env_take _ rfl (by intro p h; cases h), env_other (by grind) (by simp), env_other (by simp) (by simp), env_other (by grind) (by simp), env_other (by simp [say2]) (by simp [say2]), ?_⟩
  refine ⟨env_take _ rfl (by intro p h; cases h), env_other (by grind) (by simp), env_other (by simp) (by simp), env_other (by grind) (by simp), env_other (by simp [say2]) (by simp [say2]), ?_⟩
  refine ⟨env_take _ rfl (by intro p h; cases h), env_other (by grind) (by simp), env_other (by simp [say2]) (by simp [say2]), ?_⟩
  refine ⟨env_other (by simp) (by simp), env_other (by simp) (by simp), ?_⟩
  exact ⟨env_take _ rfl (by intro p h; cases h), env_other (by grind) (by simp), trivial⟩

theorem regStarts (mode : ShutdownMode) : ∀ f k, (regConf mode).start = some f → Starts regSer (regConf mode).name 2 (f k) := by
  intro f k h; cases h; exact starts_spawnLinked _ _ _

/-- The hypotheses are met; the key of the dead process is free, the other one resolves to its process. -/
example (k : RKey) (p : Pid) := C72_resolves_partial (c := regConf .brutalKill) (regStarts _) ⟨regReady, rfl⟩ (regEnv _) rfl (fun _ => rfl) regExec rfl k p
example (k : RKey) := C72_last_started_partial (c := regConf .brutalKill) (regStarts _) ⟨regReady, rfl⟩ (regEnv _) rfl (fun _ => rfl) regExec rfl k
example : regMap regCalls (.u32 7) = none ∧ regMap regCalls (.u32 8) = some (.loc 4) := ⟨rfl, rfl⟩
example : tab "r" (run regSer (run regSer init regReady) regOps) (.u32 8) = some (.loc 4) := rfl

/-- A start request for a key that is present. -/
example : ∃ w os, Exec regSer 2 w (registryCall (regConf .brutalKill) 2 [(.loc 3, .u32 7)] (.start (.u32 7))) os
    ([(.loc 3, .u32 7)], .ok (some (.startError (.alreadyStarted (.loc 3))))) ∧ Reachable regSer w :=
  ⟨_, _, .op rfl (.ret _ _), (regReady ++ [.table 2 (.insert "r" (.u32 7) (.loc 3))]), rfl⟩

/-! ## What does not hold -/

/-- C74: the registry has no start routine; it panics, and the caller sees the server down. -/
theorem C74_violated : ∃ (c : RegConf Nat (GMsg RMsg)) (w : World Nat (GMsg RMsg)) (os os' : List (Op Nat (GMsg RMsg))) (e : ExitReason),
    c.start = none ∧ Reachable regSer w ∧
    Cut regSer 2 w (serverLoop (registryServer c regUnit 2) regType 2 (.loc 1) 1 []) os ∧
    Exec regSer 1 w (rStart regType 1 (.named "r" .loc) (.u32 7)) (os ++ .drop 2 :: os') (.error (.callError (.serverDown e))) := by
  refine ⟨⟨"r", none, .brutalKill⟩, run regSer init regReady,
    [.table 1 (.lookup "r" (.u32 7)), .monitor 1 (.named "r" .loc), .send 1 (.one (.named "r" .loc)) (.call ⟨.loc 1, .loc 1, false⟩ (.start (.u32 7))),
     .recv 1 ⟨GMsg RMsg, regType, isAnswer (.loc 1), false⟩ .select,
     take2, .table 2 (.lookup "r" (.u32 7)), .table 2 (.take "r"), .panic 2 "panic"],
    [.recv 1 ⟨GMsg RMsg, regType, isAnswer (.loc 1), false⟩ .resume], .custom "panic", rfl, ⟨regReady, rfl⟩, ?_, ?_⟩
  · refine .env ⟨by simp [Op.caller], by simp⟩ (.env ⟨by simp [Op.caller], by simp⟩ (.env ⟨by simp [Op.caller], by simp⟩ (.env ⟨by simp [Op.caller], by simp⟩ ?_)))
    refine .got (m := .user (.call ⟨.loc 1, .loc 1, false⟩ (.start (.u32 7)))) rfl rfl ?_
    exact .op rfl (.op rfl (.op rfl (.here _ _)))
  · refine .op rfl (.op rfl (.op rfl (.pending rfl rfl ?_)))
    refine .env ⟨by simp [take2, Op.caller], by simp [take2]⟩ (.env ⟨by simp [Op.caller], by simp⟩ (.env ⟨by simp [Op.caller], by simp⟩
      (.env ⟨by simp [Op.caller], by simp⟩ (.env ⟨by simp [Op.caller], by simp⟩ ?_))))
    exact .got (m := .system (.processDown (.named "r" .loc) (.loc 1) (.custom "panic"))) rfl rfl (.ret _ _)

/-- C72: a second registry with the same name, whose start fails because the name is taken, takes the table of the first one away: the
registry then starts another process for a key whose process lives. -/
theorem C72_second_registry_violated : ∃ (c : RegConf Nat (GMsg RMsg)) (w : World Nat (GMsg RMsg)) (os1 os2 os3 : List (Op Nat (GMsg RMsg))) (l : Log RMsg Lookup) (k : RKey),
    (∀ f k, c.start = some f → Starts regSer c.name 2 (f k)) ∧ Reachable regSer w ∧ Traps w 2 ∧
    Exec regSer 2 w (serverLoop (registryServer c regUnit 2) regType 2 (.loc 1) 2 []) (os1 ++ (os2 ++ os3)) l ∧
    Exec regSer 4 (run regSer w os1) (registryBoot c 4 "r") os2 false ∧
    l.calls.map (fun r => (r.what, r.result)) =
      [(.call (.start k) ⟨.loc 1, .loc 90, false⟩, .ok (some (.startSuccess (.loc 3)))),
       (.call (.start k) ⟨.loc 1, .loc 91, false⟩, .ok (some (.startSuccess (.loc 5))))] ∧
    alive (run regSer w (os1 ++ (os2 ++ os3))) 3 = true ∧ alive (run regSer w (os1 ++ (os2 ++ os3))) 5 = true := by
  refine ⟨regConf .brutalKill, run regSer init regReady,
    [ask 90 (.start (.u32 7)), take2, .table 2 (.lookup "r" (.u32 7)), .spawn 2 true false, .table 2 (.insert "r" (.u32 7) (.loc 3)),
      say2 90 (.startSuccess (.loc 3)), .spawn 1 false false],
    [.register 4 (.loc 4) "r", .table 4 (.take "r"), .finish 4],
    [ask 91 (.start (.u32 7)), take2, .table 2 (.lookup "r" (.u32 7)), .spawn 2 true false, .table 2 (.insert "r" (.u32 7) (.loc 5)),
      say2 91 (.startSuccess (.loc 5))],
    ⟨[⟨.call (.start (.u32 7)) ⟨.loc 1, .loc 90, false⟩, [], [(.loc 3, .u32 7)], .ok (some (.startSuccess (.loc 3)))⟩,
      ⟨.call (.start (.u32 7)) ⟨.loc 1, .loc 91, false⟩, [(.loc 3, .u32 7)], [(.loc 3, .u32 7), (.loc 5, .u32 7)], .ok (some (.startSuccess (.loc 5)))⟩],
      none, [(.loc 3, .u32 7), (.loc 5, .u32 7)]⟩, .u32 7, regStarts _, ⟨regReady, rfl⟩, rfl, ?_, ?_, rfl, rfl, rfl⟩
  · refine .env ⟨by simp [ask, Op.caller], by simp [ask]⟩ ?_
    refine .got (m := .user (.call ⟨.loc 1, .loc 90, false⟩ (.start (.u32 7)))) rfl rfl (.op rfl (.op rfl (.op rfl (.op rfl ?_))))
    refine .env ⟨by simp [Op.caller], by simp⟩ (.env ⟨by simp [Op.caller], by simp⟩ (.env ⟨by simp [Op.caller], by simp⟩ (.env ⟨by simp [Op.caller], by simp⟩ ?_)))
    refine .env ⟨by simp [ask, Op.caller], by simp [ask]⟩ ?_
    refine .got (m := .user (.call ⟨.loc 1, .loc 91, false⟩ (.start (.u32 7)))) rfl rfl (.op rfl (.op rfl (.op rfl (.op rfl ?_))))
    exact .ret _ _
  · exact .op rfl (.op rfl (.op rfl (.ret _ _)))

/-- C72: a registry that is started with options that give its process another name than its own: `lookup` by the name of the process, the
only name under which it can be called, finds nothing, though the registry has started a process for the key. -/
theorem C72_other_name_violated : ∃ (c : RegConf Nat (GMsg RMsg)) (w0 : World Nat (GMsg RMsg)) (os0 os os' : List (Op Nat (GMsg RMsg))) (l : Log RMsg Lookup) (k : RKey),
    Reachable regSer w0 ∧ Exec regSer 2 w0 (registryBoot c 2 "p") os0 true ∧
    Exec regSer 2 (run regSer w0 os0) (serverLoop (registryServer c regUnit 2) regType 2 (.loc 1) 1 []) os l ∧
    regMap l.calls k = some (.loc 3) ∧ alive (run regSer (run regSer w0 os0) os) 3 = true ∧
    Exec regSer 1 (run regSer (run regSer w0 os0) os) (rLookup regType 1 (.named "p" .loc) k) os' (.ok none) := by
  refine ⟨regConf .brutalKill, run regSer init [.boot, .spawn 1 false false], [.register 2 (.loc 2) "p", .setTrap 2 true],
    [ask 90 (.start (.u32 7)), take2, .table 2 (.lookup "r" (.u32 7)), .spawn 2 true false, .table 2 (.insert "r" (.u32 7) (.loc 3)), say2 90 (.startSuccess (.loc 3))],
    [.table 1 (.lookup "p" (.u32 7))],
    ⟨[⟨.call (.start (.u32 7)) ⟨.loc 1, .loc 90, false⟩, [], [(.loc 3, .u32 7)], .ok (some (.startSuccess (.loc 3)))⟩], none, [(.loc 3, .u32 7)]⟩,
    .u32 7, ⟨_, rfl⟩, .op rfl (.op rfl (.ret _ _)), ?_, rfl, rfl, .op rfl (.ret _ _)⟩
  refine .env ⟨by simp [ask, Op.caller], by simp [ask]⟩ ?_
  refine .got (m := .user (.call ⟨.loc 1, .loc 90, false⟩ (.start (.u32 7)))) rfl rfl (.op rfl (.op rfl (.op rfl (.op rfl ?_))))
  exact .ret _ _

/-- C72: a start routine that returns the same process for two keys. After the process has died and the registry has handled the notice,
one of the keys still resolves to it. -/
theorem C72_shared_process_violated : ∃ (c : RegConf Nat (GMsg RMsg)) (w : World Nat (GMsg RMsg)) (os : List (Op Nat (GMsg RMsg))) (l : Log RMsg Lookup) (k : RKey) (i : Nat) (e : ExitReason),
    Reachable regSer w ∧ Exec regSer 2 w (serverLoop (registryServer c regUnit 2) regType 2 (.loc 1) 3 []) os l ∧
    (∃ r ∈ l.calls, r.what = .info (.system (.exit (.loc i) e))) ∧ (run regSer w os).procs i = none ∧ tab c.name (run regSer w os) k = some (.loc i) := by
  refine ⟨⟨"r", some fun _ => .op (.link 2 (.loc 3)) fun _ => .ret (.ok (.loc 3)), .brutalKill⟩, run regSer init (regReady ++ [.spawn 1 false false]),
    [ask 90 (.start (.u32 7)), ask 91 (.start (.u32 8)),
      take2, .table 2 (.lookup "r" (.u32 7)), .link 2 (.loc 3), .table 2 (.insert "r" (.u32 7) (.loc 3)), say2 90 (.startSuccess (.loc 3)),
      take2, .table 2 (.lookup "r" (.u32 8)), .link 2 (.loc 3), .table 2 (.insert "r" (.u32 8) (.loc 3)), say2 91 (.startSuccess (.loc 3)),
      .finish 3, .drop 3, take2, .table 2 (.removeIf "r" (.u32 8) (.loc 3))],
    ⟨[⟨.call (.start (.u32 7)) ⟨.loc 1, .loc 90, false⟩, [], [(.loc 3, .u32 7)], .ok (some (.startSuccess (.loc 3)))⟩,
      ⟨.call (.start (.u32 8)) ⟨.loc 1, .loc 91, false⟩, [(.loc 3, .u32 7)], [(.loc 3, .u32 8)], .ok (some (.startSuccess (.loc 3)))⟩,
      ⟨.info (.system (.exit (.loc 3) .normal)), [(.loc 3, .u32 8)], [], .ok none⟩], none, []⟩, .u32 7, 3, .normal, ⟨_, rfl⟩, ?_, ?_, rfl, rfl⟩
  · refine .env ⟨by simp [ask, Op.caller], by simp [ask]⟩ (.env ⟨by simp [ask, Op.caller], by simp [ask]⟩ ?_)
    refine .got (m := .user (.call ⟨.loc 1, .loc 90, false⟩ (.start (.u32 7)))) rfl rfl (.op rfl (.op rfl (.op rfl (.op rfl ?_))))
    refine .got (m := .user (.call ⟨.loc 1, .loc 91, false⟩ (.start (.u32 8)))) rfl rfl (.op rfl (.op rfl (.op rfl (.op rfl ?_))))
    refine .env ⟨by simp [Op.caller], by simp⟩ (.env ⟨by simp [Op.caller], by simp⟩ ?_)
    refine .got (m := .system (.exit (.loc 3) .normal)) rfl rfl (.op rfl ?_)
    exact .ret _ _
  · exact ⟨_, .tail _ (.tail _ (.head _)), rfl⟩

/-- C88: a process that was removed is killed all the same if the registry is told to stop before it handles the message. -/
theorem C88_violated : ∃ (c : RegConf Nat (GMsg RMsg)) (w : World Nat (GMsg RMsg)) (os1 os2 os3 : List (Op Nat (GMsg RMsg))) (l : Log RMsg Lookup) (i : Nat),
    Reachable regSer w ∧ Exec regSer 2 w (serverLoop (registryServer c regUnit 2) regType 2 (.loc 1) 2 []) (os1 ++ (os2 ++ os3)) l ∧
    Exec regSer 1 (run regSer w os1) (rRemove regType 1 (.named "r" .loc) (.u32 7)) os2 (.ok (some (.loc i))) ∧
    alive (run regSer w (os1 ++ os2)) i = true ∧ Op.exit 2 (.loc i) .kill ∈ os3 ∧ Stopped (run regSer w (os1 ++ (os2 ++ os3))) i := by
  refine ⟨regConf .brutalKill, run regSer init regReady,
    [ask 90 (.start (.u32 7)), .send 1 (.one (.pid (.loc 2))) (.stop .normal),
      take2, .table 2 (.lookup "r" (.u32 7)), .spawn 2 true false, .table 2 (.insert "r" (.u32 7) (.loc 3)), say2 90 (.startSuccess (.loc 3))],
    [.table 1 (.remove "r" (.u32 7)), .send 1 (.one (.named "r" .loc)) (.cast (.removeLookup (.loc 3)))],
    [take2, .table 2 (.take "r"), .unlink 2 (.loc 3), .exit 2 (.loc 3) .kill, .exit 2 (.loc 2) .normal, .finish 2],
    ⟨[⟨.call (.start (.u32 7)) ⟨.loc 1, .loc 90, false⟩, [], [(.loc 3, .u32 7)], .ok (some (.startSuccess (.loc 3)))⟩,
      ⟨.terminate .normal, [(.loc 3, .u32 7)], [], .ok none⟩], some .normal, []⟩, 3, ⟨_, rfl⟩, ?_, ?_, rfl, by simp, ?_⟩
  · refine .env ⟨by simp [ask, Op.caller], by simp [ask]⟩ (.env ⟨by simp [Op.caller], by simp⟩ ?_)
    refine .got (m := .user (.call ⟨.loc 1, .loc 90, false⟩ (.start (.u32 7)))) rfl rfl (.op rfl (.op rfl (.op rfl (.op rfl ?_))))
    refine .env ⟨by simp [Op.caller], by simp⟩ (.env ⟨by simp [Op.caller], by simp⟩ ?_)
    refine .got (m := .user (.stop .normal)) rfl rfl (.op rfl (.op rfl (.op rfl (.op rfl (.op rfl ?_)))))
    exact .ret _ _
  · exact .op rfl (.op rfl (.ret _ _))
  · exact ⟨by decide, by intro p hp; cases hp; rfl⟩

def stopRegOps : List (Op Nat (GMsg RMsg)) :=
    [ask 90 (.start (.u32 7)), .send 1 (.one (.pid (.loc 2))) (.stop .normal),
      take2, .table 2 (.lookup "r" (.u32 7)), .spawn 2 true false, .table 2 (.insert "r" (.u32 7) (.loc 3)), say2 90 (.startSuccess (.loc 3)),
      take2, .table 2 (.take "r"), .monitor 2 (.pid (.loc 3)), .exit 2 (.loc 3) (.custom "shutdown"), .exit 2 (.loc 3) (.custom "shutdown"), .drop 3,
      .recv 2 ⟨Unit, regUnit, isDown (.loc 1), false⟩ .select, .unlink 2 (.loc 3), .recv 2 ⟨Unit, regUnit, isExitOf (.loc 3), false⟩ .remove,
      .table 2 (.take "r"), .exit 2 (.loc 2) .normal, .finish 2]

/-- The hypotheses of C75 are met: the registry is told to stop while it has a process. -/
theorem stopRegExec : Exec regSer 2 (run regSer init regReady) (serverLoop (registryServer (regConf .infinity) regUnit 2) regType 2 (.loc 1) 2 [])
    stopRegOps
    ⟨[⟨.call (.start (.u32 7)) ⟨.loc 1, .loc 90, false⟩, [], [(.loc 3, .u32 7)], .ok (some (.startSuccess (.loc 3)))⟩,
      ⟨.terminate .normal, [(.loc 3, .u32 7)], [], .ok none⟩], some .normal, []⟩ := by
  refine .env ⟨by simp [ask, Op.caller], by simp [ask]⟩ (.env ⟨by simp [Op.caller], by simp⟩ ?_)
  refine .got (m := .user (.call ⟨.loc 1, .loc 90, false⟩ (.start (.u32 7)))) rfl rfl (.op rfl (.op rfl (.op rfl (.op rfl ?_))))
  refine .got (m := .user (.stop .normal)) rfl rfl (.op rfl (.op rfl (.op rfl (.op rfl (.env ⟨by simp [Op.caller], by simp⟩ ?_)))))
  refine .got (m := .system (.processDown (.pid (.loc 3)) (.loc 1) (.custom "shutdown"))) rfl rfl (.op rfl (.op rfl (.op rfl (.op rfl (.op rfl ?_)))))
  exact .ret _ _

/-- What `RegEnv` asks of a receive of the registry that is not the one of its loop. -/
theorem env_soft {quiet : Prop} {w : World Nat (GMsg RMsg)} {ro : RecvOp Nat (GMsg RMsg)} {k : RecvKind} (h : ro.strict = false) :
    RegEnv "r" regType 2 quiet w (.recv 2 ro k) := by
  refine ⟨by simp, ?_⟩
  intro kind p e
  simp only [Op.recv.injEq] at e
  have := congrArg RecvOp.strict e.2.1
  rw [h] at this; cases this

example : ∃ os1, ∀ p, tab "r" (run regSer (run regSer init regReady) os1) (.u32 7) = some p → ∃ i, p = .loc i ∧
    (run regSer (run regSer init regReady) stopRegOps).procs i = none := by
  obtain ⟨os1, os2, calls, last, -, -, -, -, -, h⟩ := C75_stopped_partial (c := regConf .infinity) (quiet := True) (regStarts _) ⟨regReady, rfl⟩
    (by
      refine ⟨env_other (by simp [ask]) (by simp [ask]), env_other (by simp) (by simp), ?_⟩
      refine ⟨env_take _ rfl (by intro p h; cases h), env_other (by grind) (by simp), env_other (by simp) (by simp), env_other (by grind) (by simp), env_other (by simp [say2]) (by simp [say2]), ?_⟩
      refine ⟨env_take _ rfl (by intro p h; cases h), env_other (by grind) (by simp), env_other (by simp) (by simp), env_other (by simp) (by simp), env_other (by simp) (by simp), env_other (by simp) (by simp), ?_⟩
      refine ⟨env_soft rfl, env_other (by simp) (by simp), env_soft rfl, env_other (by grind) (by simp), env_other (by simp) (by simp), env_other (by simp) (by simp), trivial⟩)
    rfl (fun _ => rfl) stopRegExec rfl
  exact ⟨os1, fun p hp => by obtain ⟨i, h1, -, h2⟩ := h _ p hp; exact ⟨i, h1, h2 (by decide)⟩⟩

end Verif.World
