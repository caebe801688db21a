import Verif.Locks
/-!
# No deadlock (C103)

The tables are ordered by `rank`; every function takes a lock only while all locks it holds are of a smaller rank, or belong to an earlier shard of the
same table. The proof is the usual one: of the threads that wait, one waits for a lock that is last in this order; the thread that holds it does not wait.
-/
namespace Verif.Locks

/-! ## The order of the locks -/

def rank : Table → Nat
  | .nodeMap => 0
  | .nodeRegs => 1
  | .names => 2
  | .procs => 3
  | .pending => 4
  | .nodeLinks => 5
  | .nodeMons => 6
  | .links => 7
  | .monitors => 8
  | .aliases => 9
  | .timers => 10
  | .registry => 11
  | .entries _ => 12

def before (a b : Lock) : Prop := rank a.table < rank b.table ∨ (rank a.table = rank b.table ∧ a.shard < b.shard)

theorem before_irrefl (a : Lock) : ¬ before a a := by unfold before; omega
theorem before_trans {a b c : Lock} (h : before a b) (h' : before b c) : before a c := by unfold before at *; omega

/-- The rest of a script is fine for a thread that holds these locks: locks are taken in the order, and in the end none is held. -/
def Ok (held : List (Lock × Mode)) : Script → Prop
  | [] => held = []
  | .acq l m :: k => (∀ x ∈ held, before x.1 l) ∧ Ok ((l, m) :: held) k
  | .rel l :: k => Ok (held.filter fun x => x.1 ≠ l) k

/-- A part of a script that can be run by a thread whose locks are of a rank below `k`. -/
structure Above (k : Nat) (s : Script) : Prop where
  go : ∀ held rest, (∀ x ∈ held, rank x.1.table < k) → Ok held rest → Ok held (s ++ rest)

theorem above_nil (k : Nat) : Above k [] := ⟨fun _ _ _ h => h⟩

theorem above_append {k : Nat} {s s' : Script} (h : Above k s) (h' : Above k s') : Above k (s ++ s') := by
  constructor
  intro held rest hh hr
  rw [List.append_assoc]
  exact h.go _ _ hh (h'.go _ _ hh hr)

theorem above_flatMap {α : Type} {k : Nat} {l : List α} {f : α → Script} (h : ∀ x ∈ l, Above k (f x)) : Above k (l.flatMap f) := by
  induction l with
  | nil => exact above_nil k
  | cons x l ih => rw [List.flatMap_cons]; exact above_append (h x (by simp)) (ih fun y hy => h y (by simp [hy]))

theorem above_elim {α : Type} {k : Nat} {o : Option α} {f : α → Script} (h : ∀ x, Above k (f x)) : Above k (o.elim [] f) := by
  cases o with
  | none => exact above_nil k
  | some x => exact h x

theorem filter_self {held : List (Lock × Mode)} {l : Lock} {m : Mode} {k : Nat} (hk : k ≤ rank l.table) (hh : ∀ x ∈ held, rank x.1.table < k) :
    ((l, m) :: held).filter (fun x => x.1 ≠ l) = held := by
  rw [List.filter_cons_of_neg (by simp), List.filter_eq_self.2]
  intro x hx
  have := hh x hx
  simp only [ne_eq, decide_eq_true_eq]
  rintro rfl
  omega

theorem above_lock {k : Nat} {l : Lock} {m : Mode} {body : Script} (hk : k ≤ rank l.table) (hb : Above (rank l.table + 1) body) :
    Above k (.acq l m :: body ++ [.rel l]) := by
  constructor
  intro held rest hh hr
  refine ⟨fun x hx => .inl (Nat.lt_of_lt_of_le (hh x hx) hk), ?_⟩
  have e : (body ++ [LAct.rel l]) ++ rest = body ++ (.rel l :: rest) := by simp
  show Ok ((l, m) :: held) ((body ++ [LAct.rel l]) ++ rest)
  rw [e]
  refine hb.go _ _ ?_ ?_
  · intro x hx
    rcases List.mem_cons.1 hx with rfl | hx
    · exact Nat.lt_succ_self _
    · have := hh x hx; omega
  · show Ok _ rest
    rw [filter_self hk hh]; exact hr

variable {sh : Table → Nat → Nat} {n : Nat}

theorem above_hold {k : Nat} {t : Table} {m : Mode} {key : Nat} {body : Script} (hk : k ≤ rank t) (hb : Above (rank t + 1) body) :
    Above k (hold sh t m key body) := above_lock hk hb

theorem above_touch {k : Nat} {t : Table} {m : Mode} {key : Nat} (hk : k ≤ rank t) : Above k (touch sh t m key) :=
  above_lock (body := []) hk (above_nil _)

theorem above_sweep {k : Nat} {t : Table} {m : Mode} (hk : k ≤ rank t) : Above k (sweep n t m) :=
  above_flatMap fun _ _ => above_lock (body := []) hk (above_nil _)

theorem ok_iterFrom {k : Nat} {t : Table} (hk : k ≤ rank t) {held : List (Lock × Mode)} {rest : Script} (hh : ∀ x ∈ held, rank x.1.table < k) (hr : Ok held rest)
    (i j : Nat) : Ok ((⟨t, i⟩, .read) :: held) (iterFrom t i j ++ rest) := by
  induction j generalizing i with
  | zero =>
    show Ok _ rest
    rw [filter_self (l := ⟨t, i⟩) hk hh]; exact hr
  | succ j ih =>
    refine ⟨?_, ?_⟩
    · intro x hx
      rcases List.mem_cons.1 hx with rfl | hx
      · exact .inr ⟨rfl, Nat.lt_succ_self _⟩
      · exact .inl (Nat.lt_of_lt_of_le (hh x hx) hk)
    · show Ok _ (iterFrom t (i + 1) j ++ rest)
      have : (((⟨t, i + 1⟩, Mode.read) :: (⟨t, i⟩, Mode.read) :: held).filter fun x => x.1 ≠ (⟨t, i⟩ : Lock)) = (⟨t, i + 1⟩, Mode.read) :: held := by
        rw [List.filter_cons_of_pos (by simp), filter_self (l := ⟨t, i⟩) hk hh]
      rw [this]
      exact ih (i + 1)

theorem above_iter {k : Nat} {t : Table} (hk : k ≤ rank t) : Above k (iter n t) := by
  unfold iter
  split
  · exact above_nil k
  · constructor
    intro held rest hh hr
    refine ⟨fun x hx => .inl (Nat.lt_of_lt_of_le (hh x hx) hk), ?_⟩
    exact ok_iterFrom hk hh hr 0 _

/-- Scripts are put together from parts of which each is fine. -/
macro "above" : tactic => `(tactic| repeat' (first
  | with_reducible exact above_nil _
  | with_reducible exact above_touch (by simp [rank])
  | with_reducible exact above_sweep (by simp [rank])
  | with_reducible exact above_iter (by simp [rank])
  | with_reducible refine above_append ?_ ?_
  | with_reducible refine above_hold (by simp [rank]) ?_
  | with_reducible refine above_elim fun _ => ?_
  | with_reducible refine above_flatMap fun _ _ => ?_
  | split))

theorem above_procWrite {k : Nat} (hk : k ≤ 3) (p : Nat) : Above k (procWrite sh p) := above_touch hk
theorem above_procRead {k : Nat} (hk : k ≤ 3) (p : Nat) : Above k (procRead sh p) := above_touch hk
theorem above_alias {k : Nat} (hk : k ≤ 9) (p : Nat) : Above k (aliasWrite sh p) := above_touch hk
theorem above_names {k : Nat} (hk : k ≤ 2) (p : Nat) : Above k (nameLookup sh p) := above_touch hk
theorem above_lookup {k : Nat} (hk : k ≤ 1) (p : Nat) : Above k (nodeLookup sh p) := above_touch hk
theorem above_nodeMon {k : Nat} (hk : k ≤ 6) (p : Nat) : Above k (nodeMonWrite sh p) := above_touch hk
theorem above_nodeLink {k : Nat} (hk : k ≤ 5) (p : Nat) : Above k (nodeLinkWrite sh p) := above_touch hk
theorem above_monCreate {k : Nat} (hk : k ≤ 8) (p : Nat) : Above k (monitorCreate sh p) := above_touch hk

macro "leaf" : tactic => `(tactic| first
  | with_reducible exact above_procWrite (by simp [rank]) _
  | with_reducible exact above_procRead (by simp [rank]) _
  | with_reducible exact above_alias (by simp [rank]) _
  | with_reducible exact above_names (by simp [rank]) _
  | with_reducible exact above_lookup (by simp [rank]) _
  | with_reducible exact above_nodeMon (by simp [rank]) _
  | with_reducible exact above_nodeLink (by simp [rank]) _
  | with_reducible exact above_monCreate (by simp [rank]) _)

theorem above_sendFrame (id : Nat) (f : Found) : Above 0 (nodeSendFrame sh id f) := by
  unfold nodeSendFrame
  repeat' (first | leaf | above)

theorem above_nodeRegister (node : Nat) (connect : Bool) (id : Option Nat) (fresh : Nat) (sp : Option Nat) : Above 0 (nodeRegister sh node connect id fresh sp) := by
  unfold nodeRegister
  repeat' (first | leaf | above)

macro "parts" : tactic => `(tactic| repeat' (first
  | leaf
  | with_reducible exact above_sendFrame _ _
  | with_reducible exact above_nodeRegister _ _ _ _ _
  | above))

theorem above_serialize (ids : List Nat) : Above 0 (serialize sh ids) := by unfold serialize; parts

theorem above_exists {p : Nat} {s : Script} (h : Above 0 s) : Above 0 (processExists sh p s) := above_append (above_touch (by simp)) h

theorem above_linkCreate (p : Nat) (i e : Bool) : Above 0 (linkCreate sh p i e) := by
  unfold linkCreate
  split
  · above
  · exact above_exists (by above)

theorem above_sendOne (ids : List Nat) (t : To) : Above 0 (sendOne sh ids t) := by
  cases t with
  | pid p => exact above_procRead (by simp) p
  | name nm p => exact above_append (above_names (by simp) nm) (above_elim fun p => above_procRead (by simp) p)
  | alias r => exact above_alias (by simp) r
  | remotePid r => exact above_append (above_serialize _) (above_sendFrame _ _)
  | remoteName node r => exact above_append (above_append (above_serialize _) (above_nodeRegister _ _ _ _ _)) (above_sendFrame _ _)
  | remoteAlias r => exact above_append (above_serialize _) (above_sendFrame _ _)

theorem above_sendMany (ids : List Nat) (tos : List To) (last : Option To) (fs : List Remote) : Above 0 (sendMany sh ids tos last fs) := by
  unfold sendMany
  refine above_append (above_append (above_flatMap fun t _ => above_append (above_serialize _) ?_) (above_elim (above_sendOne ids)))
    (above_flatMap fun _ _ => above_sendFrame _ _)
  parts

theorem above_linkDestroy (p : Nat) (r : Option Remote) : Above 0 (linkDestroy sh p r) := by unfold linkDestroy; parts
theorem above_monitorDestroy (p : Nat) (r : Option Remote) : Above 0 (monitorDestroy sh p r) := by unfold monitorDestroy; parts

theorem above_monitorInstall (ref : Nat) (t : Target) : Above 0 (monitorInstall sh ref t) := by
  cases t <;> unfold monitorInstall
  · exact above_exists (by parts)
  · parts
  · refine above_append (by leaf) ?_
    split
    · leaf
    · exact above_exists (by parts)
  · parts

set_option maxHeartbeats 800000 in
/-- Every call takes its locks in the order. -/
theorem above_script (c : Call) : Above 0 (script sh n c) := by
  cases c with
  | send ids to => exact above_sendOne ids to
  | sendMany ids tos last fs => exact above_sendMany ids tos last fs
  | receive ids r => unfold script deserialize; parts
  | spawn me pid link mon =>
    unfold script
    refine above_append (above_append ?_ ?_) (by leaf)
    · split
      · exact above_append (above_linkCreate ..) (above_linkCreate ..)
      · exact above_nil _
    · parts
  | register => unfold script processRegister; parts
  | unregister => unfold script processUnregister; parts
  | link pid me remote ex =>
    unfold script linkInstall
    refine above_append (above_linkCreate ..) ?_
    split
    · exact above_append (above_linkCreate ..) (by parts)
    · parts
  | unlink pid remote => exact above_linkDestroy pid remote
  | monitor ref alias t => unfold script; exact above_append (by parts) (above_monitorInstall ..)
  | demonitor => unfold script; exact above_append (above_monitorDestroy ..) (by leaf)
  | dropped =>
    unfold script linkProcessDown monitorProcessDown monitorDestroyAll
    parts
  | nodeStart => unfold script nodeLocalStart; parts
  | nodeStop => unfold script nodeLocalStop; parts
  | nodePanic => unfold script nodeLocalPanic; parts
  | nodeList => unfold script nodeList; parts
  | nodeListFiltered => unfold script nodeListFiltered; parts
  | disconnect => unfold script nodeDisconnect; parts
  | forget => unfold script nodeForget; parts
  | accept => unfold script nodeAccept; parts
  | workers => unfold script nodeRegisterWorkers; parts
  | supervisorDown => unfold script supervisorDown; parts
  | frameSend => unfold script forwardSend; parts
  | frameMonitor node r pid t install =>
    unfold script ownNode
    refine above_append (by parts) ?_
    split
    · split
      · exact above_exists (by parts)
      all_goals parts
    · exact above_append (above_monitorDestroy ..) (by leaf)
  | frameMonitorDown => unfold script nodeMonitorDown; parts
  | frameMonitorUpdate => unfold script ownNode; parts
  | frameLink node r pid install ex =>
    unfold script ownNode
    refine above_append (by parts) ?_
    split
    · exact above_append (above_linkCreate ..) (by parts)
    · exact above_append (above_linkDestroy ..) (by leaf)
  | frameLinkDown => unfold script ownNode nodeLinkDown; parts
  | frameExit => unfold script ownNode; parts
  | regLookup => unfold script registryLookup; parts
  | regCount => unfold script registryCount; parts
  | regList => unfold script registryList; parts
  | regChange => unfold script registryChange; parts
  | regTake => unfold script registryTake; parts
  | alias r => exact above_alias (by simp) r
  | whereis nm => exact above_names (by simp) nm
  | timer r => unfold script; exact above_touch (Nat.zero_le _)
  | panicked p => exact above_procWrite (by simp) p
  | alive p => exact above_procRead (by simp) p
  | registered => unfold script; exact above_iter (Nat.zero_le _)
  | list => unfold script; exact above_iter (Nat.zero_le _)
  | setFlags p => exact above_procWrite (by simp) p
  | exit p remote =>
    cases remote with
    | none => exact above_procWrite (k := 0) (Nat.zero_le _) p
    | some r => exact above_sendFrame r.id r.found
  | info p found =>
    unfold script
    refine above_append (above_procRead (Nat.zero_le _) p) ?_
    split
    · exact above_append (above_touch (Nat.zero_le _)) (above_touch (Nat.zero_le _))
    · exact above_nil _
  | nodeMonitor node r => exact above_append (above_nodeMon (by simp) node) (above_nodeRegister _ _ _ _ _)
  | nodeDemonitor node => exact above_nodeMon (by simp) node
  | nodeAlive k => unfold script; exact above_touch (Nat.zero_le _)
  | connect node r => exact above_nodeRegister _ _ _ _ _
  | framePing p => exact above_procRead (by simp) p

theorem ok_program (cs : List Call) : Ok [] (program sh n cs) := by
  have := (above_flatMap (k := 0) (l := cs) (f := script sh n) (fun c _ => above_script c)).go [] [] (by simp) rfl
  rwa [List.append_nil] at this

/-! ## Threads -/

theorem ok_step {ts ts' : List Thread} (hs : Step ts ts') (h : ∀ t ∈ ts, Ok t.held t.todo) : ∀ t ∈ ts', Ok t.held t.todo := by
  cases hs with
  | @acq a b t l m k ht hf =>
    intro t' ht'
    have h0 := h t (by simp)
    rw [ht] at h0
    simp only [List.mem_append, List.mem_cons] at ht'
    rcases ht' with ht' | rfl | ht'
    · exact h t' (by simp [ht'])
    · exact h0.2
    · exact h t' (by simp [ht'])
  | @rel a b t l k ht =>
    intro t' ht'
    have h0 := h t (by simp)
    rw [ht] at h0
    simp only [List.mem_append, List.mem_cons] at ht'
    rcases ht' with ht' | rfl | ht'
    · exact h t' (by simp [ht'])
    · exact h0
    · exact h t' (by simp [ht'])

/-- A finite list has an element that is last in an order. -/
theorem exists_last {α : Type} {R : α → α → Prop} (hi : ∀ a, ¬ R a a) (ht : ∀ {a b c}, R a b → R b c → R a c) :
    ∀ l : List α, l ≠ [] → ∃ x ∈ l, ∀ y ∈ l, ¬ R x y
  | [], h => absurd rfl h
  | [x], _ => ⟨x, by simp, by simpa using hi x⟩
  | x :: y :: l, _ => by
    obtain ⟨z, hz, hm⟩ := exists_last hi ht (y :: l) (by simp)
    by_cases hr : R z x
    · refine ⟨x, by simp, ?_⟩
      intro w hw hxw
      rcases List.mem_cons.1 hw with rfl | hw
      · exact hi _ hxw
      · exact hm w hw (ht hr hxw)
    · refine ⟨z, List.mem_cons_of_mem _ hz, ?_⟩
      intro w hw
      rcases List.mem_cons.1 hw with rfl | hw
      · exact hr
      · exact hm w hw

/-- The lock a thread waits for. -/
def awaits (t : Thread) : Option (Lock × Mode) :=
  match t.todo with
  | .acq l m :: _ => some (l, m)
  | _ => none

theorem progress {ts : List Thread} (h : ∀ t ∈ ts, Ok t.held t.todo) (hu : ∃ t ∈ ts, t.todo ≠ []) : ∃ ts', Step ts ts' := by
  false_or_by_contra
  rename_i hno
  have hacq : ∀ t ∈ ts, ∀ l m k, t.todo = .acq l m :: k → ¬ free ts l m := by
    intro t ht l m k hk hf
    obtain ⟨a, b, rfl⟩ := List.append_of_mem ht
    exact hno ⟨_, .acq hk hf⟩
  have hwait : ∀ t ∈ ts, t.todo ≠ [] → ∃ l m k, t.todo = .acq l m :: k := by
    intro t ht hn
    cases hk : t.todo with
    | nil => exact absurd hk hn
    | cons a k =>
      cases a with
      | acq l m => exact ⟨l, m, k, rfl⟩
      | rel l =>
        obtain ⟨a, b, rfl⟩ := List.append_of_mem ht
        exact absurd ⟨_, .rel hk⟩ hno
  -- the holder of a lock waits for a later one
  have hnext : ∀ l, busy ts l → ∃ t' ∈ ts, ∃ l' m' k', t'.todo = .acq l' m' :: k' ∧ before l l' := by
    rintro l ⟨t', ht', m, hm⟩
    have ho := h t' ht'
    obtain ⟨l', m', k', hk'⟩ := hwait t' ht' (by
      intro he; rw [he] at ho
      have : t'.held = [] := ho
      rw [this] at hm; cases hm)
    rw [hk'] at ho
    exact ⟨t', ht', l', m', k', hk', ho.1 _ hm⟩
  have hbusy : ∀ t ∈ ts, ∀ l m k, t.todo = .acq l m :: k → busy ts l := by
    intro t ht l m k hk
    have hf := hacq t ht l m k hk
    false_or_by_contra
    rename_i hb
    cases m with
    | write => exact hf hb
    | read =>
      refine hf ⟨fun ⟨t', ht', hw⟩ => hb ⟨t', ht', _, hw⟩, ?_⟩
      rintro ⟨t', ht', k', hk'⟩
      exact hacq t' ht' l .write k' hk' hb
  obtain ⟨t0, ht0, hn0⟩ := hu
  obtain ⟨l0, m0, k0, hk0⟩ := hwait t0 ht0 hn0
  obtain ⟨⟨l, m⟩, hl, hlast⟩ := exists_last (R := fun x y : Lock × Mode => before x.1 y.1) (fun a => before_irrefl a.1) (fun h h' => before_trans h h')
    (ts.filterMap awaits) (by
      intro he
      have : (l0, m0) ∈ ts.filterMap awaits := List.mem_filterMap.2 ⟨t0, ht0, by simp [awaits, hk0]⟩
      rw [he] at this; cases this)
  obtain ⟨t, ht, hw⟩ := List.mem_filterMap.1 hl
  have hk : ∃ k, t.todo = .acq l m :: k := by
    unfold awaits at hw
    split at hw
    · rename_i heq; cases hw; exact ⟨_, heq⟩
    · cases hw
  obtain ⟨k, hk⟩ := hk
  obtain ⟨t', ht', l', m', k', hk', hb⟩ := hnext l (hbusy t ht l m k hk)
  exact hlast (l', m') (List.mem_filterMap.2 ⟨t', ht', by simp [awaits, hk']⟩) hb

/-! ## The property -/

theorem ok_reach {ps : List (List Call)} {ts : List Thread} (h : Steps (begin_ (ps.map (program sh n))) ts) : ∀ t ∈ ts, Ok t.held t.todo := by
  generalize hb : begin_ (ps.map (program sh n)) = t0 at h
  induction h with
  | refl =>
    subst hb
    intro t ht
    simp only [begin_, List.map_map, List.mem_map] at ht
    obtain ⟨p, -, rfl⟩ := ht
    exact ok_program p
  | tail _ hs ih => exact ok_step hs ih

/-- **C103**: whatever calls any number of threads make, whatever the tables contain and whatever the schedule: as long as a thread is not done, some
thread can go on. There is no deadlock. -/
theorem C103_no_deadlock (sh : Table → Nat → Nat) (n : Nat) (ps : List (List Call)) (ts : List Thread) (h : Steps (begin_ (ps.map (program sh n))) ts)
    (hu : ∃ t ∈ ts, t.todo ≠ []) : ∃ ts', Step ts ts' := progress (ok_reach h) hu

/-- The number of steps of a run. -/
inductive Runs : Nat → List Thread → List Thread → Prop
  | refl {ts} : Runs 0 ts ts
  | tail {k ts ts' ts''} : Runs k ts ts' → Step ts' ts'' → Runs (k + 1) ts ts''

def left (ts : List Thread) : Nat := (ts.map fun t => t.todo.length).sum

theorem left_step {ts ts' : List Thread} (h : Step ts ts') : left ts' + 1 = left ts := by
  cases h with
  | acq ht _ => simp [left, ht]; omega
  | rel ht => simp [left, ht]; omega

/-- **C103**: every schedule comes to its end, after as many steps as there are in the scripts, and then all calls of all threads have returned and no
lock is held. -/
theorem C103_returns (sh : Table → Nat → Nat) (n : Nat) (ps : List (List Call)) (k : Nat) (ts : List Thread) (h : Runs k (begin_ (ps.map (program sh n))) ts) :
    k ≤ ((ps.map (program sh n)).map List.length).sum ∧ ((¬ ∃ ts', Step ts ts') → ∀ t ∈ ts, t.todo = [] ∧ t.held = []) := by
  have hsteps : ∀ {k t0 t1}, Runs k t0 t1 → Steps t0 t1 ∧ k + left t1 = left t0 := by
    intro k t0 t1 h
    induction h with
    | refl => exact ⟨.refl, by omega⟩
    | tail _ hs ih => have := left_step hs; exact ⟨.tail ih.1 hs, by omega⟩
  obtain ⟨h1, h2⟩ := hsteps h
  refine ⟨?_, ?_⟩
  · have : left (begin_ (ps.map (program sh n))) = ((ps.map (program sh n)).map List.length).sum := by
      simp only [left, begin_, List.map_map]; rfl
    omega
  · intro hno t ht
    have ht0 : t.todo = [] := by
      false_or_by_contra
      rename_i hn
      exact hno (C103_no_deadlock sh n ps ts h1 ⟨t, ht, hn⟩)
    have := ok_reach h1 t ht
    rw [ht0] at this
    exact ⟨ht0, this⟩

/-! ## Samples -/

/-- Two threads connect to the same node, and one of them waits for the other. -/
example : ∃ ts, Steps (begin_ (List.map (program (fun _ _ => 0) 1) [[.connect 5 ⟨1, none, none, 1, some 9, .missing⟩], [.disconnect 5 none none]])) ts ∧
    ∃ t ∈ ts, ∃ l m k, t.todo = .acq l m :: k ∧ ¬ free ts l m := by
  refine ⟨_, .tail .refl (.acq (a := []) (b := [_]) rfl ?_), _, by simp; exact .inr rfl, _, _, _, rfl, ?_⟩
  · simp [free, busy]
  · simp [free, writing]

/-- The semantics does have deadlocks: two threads that take two locks in opposite orders. -/
example : ∃ ts, Steps (begin_ [[.acq ⟨.names, 0⟩ .write, .acq ⟨.procs, 0⟩ .write], [.acq ⟨.procs, 0⟩ .write, .acq ⟨.names, 0⟩ .write]]) ts ∧
    (∃ t ∈ ts, t.todo ≠ []) ∧ ¬ ∃ ts', Step ts ts' := by
  refine ⟨_, .tail (.tail .refl (.acq (a := []) (b := [_]) rfl ?_)) (.acq (a := [_]) (b := []) rfl ?_), ?_, ?_⟩
  · simp [free, busy]
  · simp [free, busy]
  · exact ⟨_, List.mem_cons_self .., by simp⟩
  · rintro ⟨ts', hs⟩
    generalize hts : ([_] ++ _ :: [] : List Thread) = ts at hs
    cases hs with
    | @acq a b t l m k ht hf =>
      cases a with
      | nil =>
        simp at hts; obtain ⟨rfl, rfl⟩ := hts
        cases ht
        exact hf ⟨_, by simp; exact .inr rfl, .write, by simp⟩
      | cons x a =>
        simp at hts
        obtain ⟨rfl, h2⟩ := hts
        cases a with
        | nil =>
          simp at h2; obtain ⟨rfl, rfl⟩ := h2
          cases ht
          exact hf ⟨_, by simp; exact .inl rfl, .write, by simp⟩
        | cons y a => simp at h2
    | @rel a b t l k ht =>
      cases a with
      | nil => simp at hts; obtain ⟨rfl, rfl⟩ := hts; cases ht
      | cons x a =>
        simp at hts
        obtain ⟨rfl, h2⟩ := hts
        cases a with
        | nil => simp at h2; obtain ⟨rfl, rfl⟩ := h2; cases ht
        | cons y a => simp at h2

end Verif.Locks
