import Verif.WorldEff
/-!
# Process ids, aliveness, names, direct exit signals (C23 - C28, C39)

A *history* is any list of operations from `init`; `run ser init os` is the runtime after it and `results` what the
operations returned.
-/
namespace Verif.World
open Verif.Mailbox
variable {B V : Type}

/-! ## C23: ids are never reused -/

/-- The process ids handed out, in order. -/
def spawnedIds (rs : List Res) : List Nat := rs.filterMap fun | .spawned i _ => some i | _ => none

/-- The references handed out, in order. -/
def refsOf (rs : List Res) : List Ref := rs.filterMap fun | .spawned _ r => r | .ref r => some r | _ => none

theorem acts_mono_counters {Q : Atom B V → Prop} {w w' : World B V} (h : Acts Q w w') :
    w.nextPid ≤ w'.nextPid ∧ w.nextRef ≤ w'.nextRef :=
  Acts.inv (I := fun x => w.nextPid ≤ x.nextPid ∧ w.nextRef ≤ x.nextRef) h ⟨Nat.le_refl _, Nat.le_refl _⟩ (by
    intro x a _ hx
    rw [nextPid_act, nextRef_act]
    cases a <;> simp only [] <;> omega)

theorem step_mono_counters (ser : V → B) (w : World B V) (o : Op B V) :
    w.nextPid ≤ (step ser w o).1.nextPid ∧ w.nextRef ≤ (step ser w o).1.nextRef := acts_mono_counters (step_acts ser w o)

theorem nodeRegister_nextRef_le (w : World B V) (n : Node) (c : Bool) : (nodeRegister w n c).1.nextRef = w.nextRef := by simp

theorem linkInstall_ref (w : World B V) (d : Dest) (r : Ref) (me : Nat) : (monitorInstall w d r me).nextRef = w.nextRef := by
  unfold monitorInstall
  repeat' (first | split | dsimp only)
  all_goals simp

theorem step_cases (ser : V → B) (w : World B V) (o : Op B V) : step ser w o = (w, .unit) ∨ step ser w o = o.exec ser w := by
  unfold step
  split
  · exact .inr rfl
  · split
    · exact .inr rfl
    · exact .inl rfl

/-- What a step returns is fresh: the returned id lies between the counters before and after. -/
theorem step_res (ser : V → B) (w : World B V) (o : Op B V) :
    (∀ i ∈ spawnedIds [(step ser w o).2], w.nextPid ≤ i ∧ i < (step ser w o).1.nextPid) ∧
    (∀ r ∈ refsOf [(step ser w o).2], ∃ n, r = .loc n ∧ w.nextRef ≤ n ∧ n < (step ser w o).1.nextRef) := by
  rcases step_cases ser w o with h | h
  · rw [h]; simp [spawnedIds, refsOf]
  · rw [h]
    cases o <;> simp [Op.exec, spawnedIds, refsOf, spawnRaw, World.spawn, monitor, monitorAlias, linkInstall_ref,
        newRef, alias]
    · rename_i me l m
      cases l <;> cases m <;> simp
    · rename_i me n
      cases n <;> simp [nodeMonitor, newRef]

theorem results_fresh (ser : V → B) (os : List (Op B V)) (w : World B V) :
    (spawnedIds (results ser w os)).Pairwise (· < ·) ∧ (∀ i ∈ spawnedIds (results ser w os), w.nextPid ≤ i) ∧
    ((refsOf (results ser w os)).map Ref.id).Pairwise (· < ·) ∧
    (∀ r ∈ refsOf (results ser w os), ∃ n, r = .loc n ∧ w.nextRef ≤ n) := by
  induction os generalizing w with
  | nil => simp [results, spawnedIds, refsOf]
  | cons o os ih =>
    obtain ⟨h1, h2, h3, h4⟩ := ih (step ser w o).1
    obtain ⟨g1, g2⟩ := step_res ser w o
    obtain ⟨m1, m2⟩ := step_mono_counters ser w o
    have e1 : spawnedIds (results ser w (o :: os)) =
        spawnedIds [(step ser w o).2] ++ spawnedIds (results ser (step ser w o).1 os) := by
      simp [results, spawnedIds, List.filterMap_cons]; split <;> simp
    have e2 : refsOf (results ser w (o :: os)) =
        refsOf [(step ser w o).2] ++ refsOf (results ser (step ser w o).1 os) := by
      simp [results, refsOf, List.filterMap_cons]; split <;> simp
    have l1 : (spawnedIds [(step ser w o).2]).Pairwise (· < ·) := by
      simp [spawnedIds, List.filterMap_cons]; split <;> simp
    have l2 : ((refsOf [(step ser w o).2]).map Ref.id).Pairwise (· < ·) := by
      simp [refsOf, List.filterMap_cons]; split <;> simp
    rw [e1, e2]
    refine ⟨List.pairwise_append.2 ⟨l1, h1, ?_⟩, ?_, ?_, ?_⟩
    · intro a ha b hb
      have := (g1 a ha).2; have := h2 b hb; omega
    · intro i hi
      rcases List.mem_append.1 hi with hi | hi
      · exact (g1 i hi).1
      · have := h2 i hi; omega
    · rw [List.map_append]
      refine List.pairwise_append.2 ⟨l2, h3, ?_⟩
      intro a ha b hb
      obtain ⟨ra, hra, rfl⟩ := List.mem_map.1 ha
      obtain ⟨rb, hrb, rfl⟩ := List.mem_map.1 hb
      obtain ⟨n, rfl, hn1, hn2⟩ := g2 ra hra
      obtain ⟨m, rfl, hm⟩ := h4 rb hrb
      simp only [Ref.id]; omega
    · intro r hr
      rcases List.mem_append.1 hr with hr | hr
      · obtain ⟨n, h, h', _⟩ := g2 r hr; exact ⟨n, h, h'⟩
      · obtain ⟨n, h, h'⟩ := h4 r hr; exact ⟨n, h, by omega⟩

/-- C23. In every history all process ids handed out are distinct and so are all references. -/
theorem C23_ids_never_reused (ser : V → B) (os : List (Op B V)) :
    (spawnedIds (results ser init os)).Nodup ∧ (refsOf (results ser init os)).Nodup := by
  obtain ⟨h1, _, h3, _⟩ := results_fresh ser os init
  refine ⟨h1.imp (fun h => by omega), ?_⟩
  have h := (List.pairwise_map.1 h3)
  exact h.imp (fun hab hEq => by rw [hEq] at hab; omega)

/-- Ids of existing processes are below the counter. -/
def Bounded (w : World B V) : Prop := ∀ i, w.nextPid ≤ i → w.procs i = none

theorem bounded_act (w : World B V) (a : Atom B V) (h : Bounded w) : Bounded (act w a) := by
  intro i hi
  have hx := ex_act w a i
  rw [nextPid_act] at hi
  have : ((act w a).procs i).isSome = false := by
    rw [hx]
    cases a <;> simp only [] at hi ⊢ <;> (try rw [h i (by omega)]; simp) <;> omega
  simpa using this

theorem run_bounded (ser : V → B) (os : List (Op B V)) : Bounded (run ser init os) :=
  run_inv ser Bounded bounded_act os init (fun _ _ => rfl)

/-- C23, with internally spawned processes: the id given by a spawn belongs to no existing process, and to no id handed
out before. -/
theorem C23_spawn_fresh (ser : V → B) (os : List (Op B V)) (me : Nat) (l m : Bool) (i : Nat) (r : Option Ref)
    (h : (step ser (run ser init os) (.spawn me l m)).2 = .spawned i r) :
    (run ser init os).procs i = none ∧ i ∉ spawnedIds (results ser init os) := by
  have hres := step_res ser (run ser init os) (.spawn me l m)
  rw [h] at hres
  have hi := hres.1 i (by simp [spawnedIds])
  refine ⟨run_bounded ser os i hi.1, ?_⟩
  have hall : ∀ (os : List (Op B V)) (w : World B V), ∀ i ∈ spawnedIds (results ser w os), i < (run ser w os).nextPid := by
    intro os
    induction os with
    | nil => intro w i hi; simp [results, spawnedIds] at hi
    | cons o os ih =>
      intro w i hi
      simp only [run, List.foldl_cons]
      change i < (run ser (step ser w o).1 os).nextPid
      have hm : (step ser w o).1.nextPid ≤ (run ser (step ser w o).1 os).nextPid := by
        clear ih hi
        generalize (step ser w o).1 = x
        induction os generalizing x with
        | nil => exact Nat.le_refl _
        | cons o os ih => exact Nat.le_trans (step_mono_counters ser x o).1 (ih _)
      simp only [results, spawnedIds, List.filterMap_cons] at hi
      have hs := (step_res ser w o).1
      simp only [spawnedIds, List.filterMap_cons, List.filterMap_nil] at hs
      split at hi
      · exact ih _ _ hi
      · rename_i j hj
        rcases List.mem_cons.1 hi with rfl | hi
        · rw [hj] at hs; have := (hs i (by simp)).2; omega
        · exact ih _ _ hi
  intro hmem
  have := hall os init i hmem
  omega

/-! ## C24: aliveness -/

theorem alive_false_iff (w : World B V) (i : Nat) :
    alive w i = false ↔ ∀ x y, pmap (fun p => (p.reason, p.aborted, p.ended)) w i ≠ some (none, x, y) := by
  unfold alive pmap
  cases h : w.procs i with
  | none => simp
  | some p => cases h2 : p.reason <;> simp [h2]

theorem alive_act (w : World B V) (a : Atom B V) (i : Nat) (hi : i < w.nextPid) (h : alive w i = false) :
    i < (act w a).nextPid ∧ alive (act w a) i = false := by
  constructor
  · rw [nextPid_act]; cases a <;> simp only [] <;> omega
  · rw [alive_false_iff] at *
    intro x y
    rw [fate_act]
    cases a <;> simp only [] <;> (try split) <;> first
      | exact h x y
      | omega
      | (cases w.procs i <;> simp <;> done)
      | (cases hp : w.procs i with
         | none => simp
         | some p => have := h p.aborted p.ended; simp_all [pmap])

/-- C24. A process that is not alive (dead, or killed and about to be removed) is never alive again. `i < nextPid` says
that the id has been handed out. -/
theorem C24_dead_stays_dead (ser : V → B) (os : List (Op B V)) (w : World B V) (i : Nat) (hi : i < w.nextPid)
    (h : alive w i = false) : alive (run ser w os) i = false :=
  (run_inv ser (fun w => i < w.nextPid ∧ alive w i = false) (fun w a hx => alive_act w a i hx.1 hx.2) os w ⟨hi, h⟩).2

/-- C24. A process is alive right after it was spawned. -/
theorem C24_alive_after_spawn (ser : V → B) (w : World B V) (me : Nat) (l m : Bool) (i : Nat) (r : Option Ref)
    (h : (step ser w (.spawn me l m)).2 = .spawned i r) (hme : me ≠ i) : alive (step ser w (.spawn me l m)).1 i = true := by
  rcases step_cases ser w (.spawn me l m) with h' | h' <;> rw [h'] at h ⊢
  · simp at h
  · simp only [Op.exec, World.spawn, spawnRaw] at *
    cases l <;> cases m <;> simp [newRef] at * <;> obtain ⟨rfl, _⟩ := h <;> simp [alive, upd_at, newProc]
    all_goals (rw [if_neg (by intro h; exact hme h.symm)]; simp)

/-- C24. An alive process stops being alive in a step only by dropping it after its task ended or was aborted, or by
getting an exit reason: then its task was aborted or has ended. -/
theorem C24_alive_until_terminated (ser : V → B) (w : World B V) (o : Op B V) (i : Nat) (h : alive w i = true)
    (h2 : alive (step ser w o).1 i = false) :
    (o = .drop i ∧ doomed w i = true) ∨
    (∃ p r, (step ser w o).1.procs i = some p ∧ p.reason = some r ∧ (p.aborted = true ∨ p.ended = true)) := by
  have hI := fun (ho : o ≠ .drop i) => Acts.inv (I := fun x => ∃ rs ab en,
      pmap (fun p => (p.reason, p.aborted, p.ended)) x i = some (rs, ab, en) ∧ (rs.isSome → (ab = true ∨ en = true)))
      (step_acts ser w o)
      (by
        unfold alive at h
        split at h
        · simp at h
        · rename_i p hp
          refine ⟨p.reason, p.aborted, p.ended, by simp [pmap, hp], ?_⟩
          intro hs; simp_all)
      (by
        rintro x a ha ⟨rs, ab, en, hx, hr⟩
        rw [fate_act]
        unfold pmap at *
        cases hp : x.procs i with
        | none => simp [hp] at hx
        | some p =>
          simp [hp] at hx
          obtain ⟨rfl, rfl, rfl⟩ := hx
          cases a
          case remove j =>
            have : i ≠ j := by rintro rfl; exact ho ha
            simp only [this, if_false, hp]; exact ⟨_, _, _, rfl, hr⟩
          all_goals simp only [hp, Option.map_some]
          all_goals (try split)
          all_goals (first | exact ⟨_, _, _, rfl, hr⟩ | exact ⟨_, _, _, rfl, by simp⟩))
  by_cases ho : o = .drop i
  · left
    refine ⟨ho, ?_⟩
    subst ho
    cases hd : doomed w i with
    | true => rfl
    | false =>
      simp only [step, Op.caller, Op.exec, hd] at h2
      simp [h] at h2
  · right
    obtain ⟨rs, ab, en, hx, hr⟩ := hI ho
    unfold pmap at hx
    unfold alive at h2
    cases hp : (step ser w o).1.procs i with
    | none => simp [hp] at hx
    | some p =>
      simp only [hp] at hx h2
      simp at hx
      obtain ⟨rfl, rfl, rfl⟩ := hx
      cases hrs : p.reason with
      | none => simp [hrs] at h2
      | some r => exact ⟨p, r, rfl, hrs, hr (by simp [hrs])⟩


/-- A small history used in the examples: a process starts another one, which is killed and removed. -/
def sample : List (Op Nat Nat) :=
  [.boot, .spawn 1 true true, .register 1 (.loc 2) "worker", .exit 1 (.loc 2) .kill, .drop 2, .spawn 1 false false]

example : spawnedIds (results id init sample) = [1, 2, 3] := by decide
example : alive (run id init (sample.take 3)) 2 = true ∧ alive (run id init (sample.take 4)) 2 = false := by decide
example : refsOf (results id init sample) = [.loc 1] := by decide

/-! ## C25, C26: names -/

/-- The name table is a partial bijection between names and named processes. -/
def NamesOK (w : World B V) : Prop :=
  (∀ n i, w.names n = some i → ∃ p, w.procs i = some p ∧ p.name = some n) ∧
  (∀ i p n, w.procs i = some p → p.name = some n → w.names n = some i)

theorem namesOK_iff (w : World B V) : NamesOK w ↔ ∀ n i, w.names n = some i ↔ pmap (·.name) w i = some (some n) := by
  unfold NamesOK pmap
  constructor
  · rintro ⟨h1, h2⟩ n i
    constructor
    · intro h; obtain ⟨p, hp, hn⟩ := h1 n i h; simp [hp, hn]
    · intro h
      cases hp : w.procs i with
      | none => simp [hp] at h
      | some p => exact h2 i p n hp (by simpa [hp] using h)
  · intro h
    refine ⟨?_, ?_⟩
    · intro n i hn
      have := (h n i).1 hn
      cases hp : w.procs i with
      | none => simp [hp] at this
      | some p => exact ⟨p, rfl, by simpa [hp] using this⟩
    · intro i p n hp hn
      exact (h n i).2 (by simp [hp, hn])

theorem namesOK_act (w : World B V) (a : Atom B V) (hb : Bounded w) (h : NamesOK w) : NamesOK (act w a) := by
  rw [namesOK_iff] at *
  intro n i
  rw [name_act, names_act]
  have hfresh : pmap (·.name) w w.nextPid = none := by unfold pmap; rw [hb _ (Nat.le_refl _)]; rfl
  cases a <;> simp only [] <;> try exact h n i
  case spawn =>
    split
    · subst_vars
      constructor
      · intro hn; rw [h, hfresh] at hn; simp at hn
      · simp
    · exact h n i
  case name j m =>
    by_cases hc : w.names m = none ∧ pmap (·.name) w j = some none
    · rw [if_pos hc]
      simp only [upd_at]
      by_cases hn : n = m
      · subst hn
        by_cases hi : i = j
        · subst hi; simp [hc]
        · rw [if_pos rfl, if_neg (by simp [hi])]
          constructor
          · intro e; simp at e; exact absurd e.symm hi
          · intro e; rw [← h, hc.1] at e; simp at e
      · rw [if_neg hn]
        by_cases hi : i = j
        · subst hi
          rw [if_pos ⟨rfl, hc⟩, h, hc.2]
          simp [Ne.symm hn]
        · rw [if_neg (by simp [hi])]; exact h n i
    · rw [if_neg hc, if_neg (by rintro ⟨rfl, h1⟩; exact hc h1)]
      exact h n i
  case unname m =>
    simp only [upd_at]
    by_cases hn : n = m
    · subst hn
      simp only [if_true]
      by_cases hm : w.names n = some i
      · rw [if_pos hm]; cases w.procs i <;> simp
      · rw [if_neg hm, ← h]; simp [hm]
    · rw [if_neg hn]
      by_cases hm : w.names m = some i
      · rw [if_pos hm, h]
        have := (h m i).1 hm
        rw [this]
        cases w.procs i <;> simp [Ne.symm hn]
      · rw [if_neg hm]; exact h n i
  case remove j =>
    cases hp : pmap (·.name) w j with
    | none =>
      simp only []
      by_cases hi : i = j
      · subst hi; rw [if_pos rfl, h, hp]
      · rw [if_neg hi]; exact h n i
    | some o =>
      cases o with
      | none =>
        simp only []
        by_cases hi : i = j
        · subst hi; rw [if_pos rfl, h, hp]; simp
        · rw [if_neg hi]; exact h n i
      | some m =>
        simp only [upd_at]
        by_cases hi : i = j
        · subst hi
          rw [if_pos rfl]
          split
          · simp
          · rename_i hn
            rw [h, hp]; simp [Ne.symm hn]
        · rw [if_neg hi]
          split
          · rename_i hnm
            constructor
            · simp
            · intro hn
              have h1 := (h n i).2 hn
              have h2 := (h n j).2 (by rw [hp, hnm])
              rw [h1] at h2; simp at h2; exact absurd h2 hi
          · exact h n i

theorem run_names (ser : V → B) (os : List (Op B V)) : Bounded (run ser init os) ∧ NamesOK (run ser init os) :=
  run_inv ser (fun w => Bounded w ∧ NamesOK w) (fun w a h => ⟨bounded_act w a h.1, namesOK_act w a h.1 h.2⟩) os init
    ⟨fun _ _ => rfl, by rw [namesOK_iff]; intro n i; simp [init, pmap]⟩

/-- C25. After every history: a name that resolves (`Process::whereis`) resolves to an existing process registered under
exactly that name, and conversely; hence two names never resolve to the same process. -/
theorem C25_names_bijection (ser : V → B) (os : List (Op B V)) :
    let w := run ser init os
    (∀ n i, w.names n = some i ↔ ∃ p, w.procs i = some p ∧ p.name = some n) ∧
    (∀ n m i, w.names n = some i → w.names m = some i → n = m) := by
  intro w
  have h := (run_names ser os).2
  refine ⟨fun n i => ⟨h.1 n i, fun ⟨p, hp, hn⟩ => h.2 i p n hp hn⟩, ?_⟩
  intro n m i hn hm
  obtain ⟨p, hp, hpn⟩ := h.1 n i hn
  obtain ⟨q, hq, hqm⟩ := h.1 m i hm
  rw [hp] at hq; cases hq
  rw [hpn] at hqm; exact Option.some.inj hqm

example : (run id init (sample.take 3)).names "worker" = some 2 ∧ (run id init (sample.take 5)).names "worker" = none := by
  decide

/-- Whether `register(pid, name)` is permitted. -/
def mayRegister (w : World B V) (pid : Pid) (name : String) : Prop :=
  ∃ i, pid = .loc i ∧ (w.names name = some i ∨ (w.names name = none ∧ ∃ p, w.procs i = some p ∧ p.name = none))

/-- C26. `register` succeeds exactly when permitted. -/
theorem C26_register_iff (w : World B V) (pid : Pid) (name : String) :
    ((∃ u, (register w pid name).2 = .ok u) ↔ mayRegister w pid name) := by
  unfold register mayRegister
  cases pid with
  | rem i n => simp
  | loc i =>
    dsimp only
    split
    · rename_i j hj
      split
      · simp_all
      · rename_i hne; simp [hj]; exact fun h => hne h
    · rename_i hn
      split
      · simp_all
      · split <;> simp_all

/-- C26. A failed `register` changes nothing. -/
theorem C26_failure_unchanged (w : World B V) (pid : Pid) (name : String) (e : RegErr)
    (h : (register w pid name).2 = .error e) : (register w pid name).1 = w := by
  unfold register at *
  cases pid with
  | rem i n => rfl
  | loc i =>
    dsimp only at *
    split
    · split <;> rfl
    · split
      · rfl
      · split
        · rfl
        · simp_all

/-- C26. After a successful `register` the name belongs to the process, and no other name or process changed. -/
theorem C26_success_effect (w : World B V) (i : Nat) (name : String) (u : Unit) (hw : NamesOK w)
    (h : (register w (.loc i) name).2 = .ok u) :
    let w' := (register w (.loc i) name).1
    w'.names name = some i ∧ (∀ m, m ≠ name → w'.names m = w.names m) ∧
    (∃ p, w.procs i = some p ∧ w'.procs i = some { p with name := some name }) ∧
    (∀ j, j ≠ i → w'.procs j = w.procs j) := by
  intro w'
  have hm := (C26_register_iff w (.loc i) name).1 ⟨u, h⟩
  obtain ⟨j, hj, hc⟩ := hm
  cases hj
  simp only [w', register_loc_names, register_loc_procs]
  rcases hc with hc | ⟨hc, p, hp, hn⟩
  · rw [if_neg (by simp [hc]), if_neg (by simp [hc])]
    obtain ⟨p, hp, hpn⟩ := hw.1 _ _ hc
    refine ⟨hc, fun _ _ => rfl, ⟨p, hp, by rw [hp, ← hpn]⟩, fun _ _ => rfl⟩
  · rw [if_pos ⟨hc, p, hp, hn⟩, if_pos ⟨hc, p, hp, hn⟩]
    refine ⟨by simp [upd_at], fun m hm => by simp [upd_at, hm], ⟨p, hp, by simp [upd_at, hp]⟩,
      fun j hj => by simp [upd_at, hj]⟩

example : mayRegister (run id init (sample.take 2)) (.loc 2) "worker" :=
  ⟨2, rfl, .inr ⟨rfl, _, rfl, rfl⟩⟩

/-! ## C27, C28: direct exit signals -/

/-- What an exit signal does to its target. -/
inductive SigOutcome
  | terminated | message | ignored
  deriving DecidableEq

/-- The signal table of the documentation: `self` - the sender is the target, `trap` - the target traps exits. -/
def signalTable (self trap : Bool) : ExitReason → SigOutcome
  | .kill => .terminated
  | .normal | .ignore => if self then .terminated else if trap then .message else .ignored
  | .custom _ => if self || !trap then .terminated else .message

/-- C27. `exit(pid, reason)` on an existing local process does what the table says, and nothing else: a terminated process
gets the reason and is aborted, a message is one `Exit` item at the end of its mailbox, an ignored signal changes nothing. -/
theorem C27_exit_table (w : World B V) (me i : Nat) (r : ExitReason) (p : Proc B V) (hp : w.procs i = some p) :
    let w' := exit w me (.loc i) r
    (match signalTable (me == i) p.trap r with
      | .terminated => w'.procs i = some { p with reason := some r, aborted := true } ∧ w'.sent = w.sent
      | .message => w'.procs i = some { p with box := deliver p.box (.system (.exit (.loc me) r)) } ∧
          w'.sent = w.sent ++ [(i, .system (.exit (.loc me) r))]
      | .ignored => w' = w) ∧
    (∀ j, j ≠ i → w'.procs j = w.procs j) ∧ w'.names = w.names ∧ w'.links = w.links ∧ w'.mons = w.mons ∧
    w'.aliases = w.aliases ∧ w'.nodeMons = w.nodeMons ∧ w'.nodeLinks = w.nodeLinks ∧ w'.out = w.out := by
  intro w'
  refine ⟨?_, ?_, by simp [w', exit], by simp [w', exit], by simp [w', exit], by simp [w', exit], by simp [w', exit],
    by simp [w', exit], by simp [w', exit]⟩
  · have hb : (me == i) = decide (Pid.loc i = Pid.loc me) := by
      by_cases h : me = i
      · simp [h]
      · simp [h, Ne.symm h]
    rw [hb]
    simp only [w', exit, processExit, hp]
    cases r <;> cases ht : p.trap <;> by_cases hs : i = me <;>
      simp [signalTable, hs, terminate, put, hp, upd_at] <;> simp_all
  · intro j hj
    simp only [w', exit, processExit, hp]
    cases r <;> dsimp only <;> (try split) <;> (try split) <;> simp [upd_at, hj]

/-- C27. An exit signal to a process that does not exist changes nothing. -/
theorem C27_exit_missing (w : World B V) (me i : Nat) (r : ExitReason) (hp : w.procs i = none) :
    exit w me (.loc i) r = w := by
  simp [exit, processExit, hp]

example : signalTable false true (.custom "x") = .message ∧ signalTable false false .normal = .ignored ∧
    signalTable true true .normal = .terminated := by decide

/-- C28. After `exit(pid, Kill)` the process is not alive - whether it traps exits or not -, will be removed, and no Exit
message was put in any mailbox. -/
theorem C28_kill (w : World B V) (me i : Nat) :
    alive (exit w me (.loc i) .kill) i = false ∧ (exit w me (.loc i) .kill).sent = w.sent ∧
    (exists? w i = true → doomed (exit w me (.loc i) .kill) i = true) := by
  cases hp : w.procs i with
  | none => simp [C27_exit_missing _ _ _ _ hp, alive, hp, exists?]
  | some p =>
    have h := (C27_exit_table w me i .kill p hp).1
    simp only [signalTable] at h
    refine ⟨by simp [alive, h.1], h.2, fun _ => by simp [doomed, h.1]⟩

/-- C28. In every later history the killed process stays dead. -/
theorem C28_kill_final (ser : V → B) (os os' : List (Op B V)) (me i : Nat) (hi : i < (run ser init os).nextPid) :
    alive (run ser (exit (run ser init os) me (.loc i) .kill) os') i = false :=
  C24_dead_stays_dead ser os' _ i (by simpa [exit] using hi) (C28_kill _ me i).1

example : alive (run id init (sample.take 3)) 2 = true ∧
    alive (exit (run id init (sample.take 3)) 1 (.loc 2) .kill) 2 = false := by decide

end Verif.World
