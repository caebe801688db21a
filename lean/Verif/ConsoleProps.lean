import Verif.Console
import Verif.ClientLemmas
import Verif.IdentProps
import Verif.NodeLifeProps
import Verif.InfoProps
/-!
# The console shows what is there (C132)

Observables: `exists?` is what `Process::alive` and the functions that look up a process see, `info` is `Process::info`, `listedIn` (NodeLifeProps.lean) membership in `Node::list_by_state`,
`identity` the name and address that a node has for itself, `Pid.id` the number of a process on its node.
-/
namespace Verif.World
open Verif.Mailbox
variable {B V B' V' : Type}

/-! ## Lemmas -/

theorem infosOf_loc (w : World B V) (is : List Nat) : infosOf w (is.map .loc) = some (is.map (info w)) := by
  induction is with
  | nil => rfl
  | cons i is ih => simp [infosOf, infoOf, ih]

theorem infosOf_foreign (w : World B V) {ps : List Pid} {p : Pid} (hp : p ∈ ps) (hl : p.isLocal = false) : infosOf w ps = none := by
  induction ps with
  | nil => cases hp
  | cons q ps ih =>
    cases hp with
    | head =>
      cases p with
      | loc i => cases hl
      | rem i n => rfl
    | tail _ hp =>
      simp only [infosOf, ih hp]
      cases infoOf w q <;> rfl

theorem learn_running (ser : V → B) {w : World B V} {me : Nat} (hme : running w me = true) (x : IdWire) :
    ∃ os, (deserPid w x).1 = run ser w os ∧ running (deserPid w x).1 me = true := by
  cases x with
  | unavailable i => exact ⟨[], rfl, hme⟩
  | withNode i name addr =>
    rw [deserPid_learn]
    refine ⟨[.learn me (.rem name addr)], ?_, ?_⟩
    · simp [run, step, Op.caller, hme, Op.exec]
    · have hp : (learn w (.rem name addr)).procs = w.procs := by
        simp only [learn]
        split
        · rfl
        · split
          · rfl
          · exact nodeRegister_procs_false w _
      simpa [running, hp] using hme

/-- Reading a list of pids is a number of registrations of nodes. -/
theorem readPids_learns (ser : V → B) (me : Nat) (xs : List IdWire) : ∀ (w : World B V), running w me = true →
    ∃ os, (readPids w xs).1 = run ser w os := by
  induction xs with
  | nil => exact fun w _ => ⟨[], rfl⟩
  | cons x xs ih =>
    intro w hme
    obtain ⟨os, h1, h2⟩ := learn_running ser hme x
    obtain ⟨os', h3⟩ := ih _ h2
    refine ⟨os ++ os', ?_⟩
    show (readPids (deserPid w x).1 xs).1 = _
    rw [h3, run_append, ← h1]

/-- What a list of pids of the node `a` is read as. -/
theorem readPids_spec (ser : V → B) (me : Nat) (a b : Ident) (is : List Nat) : ∀ (w : World B V), Reachable ser w → running w me = true → identity w = some b →
    let s := readPids w (is.map fun i => .withNode i a.1 a.2)
    s.2.map Pid.id = is ∧ (∀ p ∈ s.2, denotes s.1 p = some (a, p.id) ∧ (a ≠ b → ∃ n, p = .rem p.id n ∧ n ≠ LOCAL_NODE_ID)) ∧
      ∀ q x, denotes w q = some x → denotes s.1 q = some x := by
  induction is with
  | nil => exact fun w _ _ _ => ⟨rfl, by simp [readPids], fun _ _ h => h⟩
  | cons i is ih =>
    intro w hr hme hb
    obtain ⟨d1, d2, d3, d4, d5⟩ := deserPid_spec (reach_nodeInv hr) hb a i
    obtain ⟨os, h1, h2⟩ := learn_running ser hme (.withNode i a.1 a.2)
    have hr' : Reachable ser (deserPid w (.withNode i a.1 a.2)).1 := by rw [h1]; exact reach_run hr os
    have hb' : identity (deserPid w (.withNode i a.1 a.2)).1 = some b := by
      have := d3 (.loc 0) (b, 0) (by simp [denotes, hb])
      simpa [denotes] using this
    obtain ⟨e1, e2, e3⟩ := ih _ hr' h2 hb'
    refine ⟨?_, ?_, fun q x hq => e3 _ _ (d3 _ _ hq)⟩
    · simp only [List.map_cons, readPids, List.cons.injEq]
      exact ⟨d5, e1⟩
    · intro p hp
      simp only [List.map_cons, readPids, List.mem_cons] at hp ⊢
      rcases hp with rfl | hp
      · refine ⟨by rw [d5]; exact e3 _ _ d1, ?_⟩
        intro hab
        cases hpid : (deserPid w (.withNode i a.1 a.2)).2 with
        | loc j => rw [hpid] at d5; cases d5; exact absurd (d2.1 hpid) hab
        | rem j n => rw [hpid] at d5; cases d5; exact ⟨n, rfl, d4 n hpid⟩
      · exact e2 p hp

/-- What the owner reads. -/
theorem readPids_own (w : World B V) (a : Ident) (h : identity w = some a) (is : List Nat) :
    readPids w (is.map fun i => .withNode i a.1 a.2) = (w, is.map .loc) := by
  induction is with
  | nil => rfl
  | cons i is ih =>
    obtain ⟨a1, a2⟩ := a
    simp [readPids, deserPid, lookupLocal_eq, h, ih]

theorem listed_ids (w : World B V) : processList w = ((processList w).map Pid.id).map .loc := by
  simp [processList, Function.comp_def, Pid.id]

/-! ## C132 -/

theorem processList_spec (ser : V → B) (w : World B V) (hr : Reachable ser w) :
    (∀ p, p ∈ processList w ↔ ∃ i, p = .loc i ∧ exists? w i = true) ∧ (processList w).Nodup := by
  refine ⟨?_, ?_⟩
  · intro p
    simp only [processList, List.mem_map, List.mem_filter, List.mem_range, exists?]
    constructor
    · rintro ⟨i, ⟨-, h⟩, rfl⟩; exact ⟨i, rfl, h⟩
    · rintro ⟨i, rfl, h⟩
      refine ⟨i, ⟨?_, h⟩, rfl⟩
      rcases Nat.lt_or_ge i w.nextPid with h' | h'
      · exact h'
      · rw [reach_bounded hr i h'] at h; cases h
  · refine List.Pairwise.map _ ?_ ((List.nodup_range).filter _)
    intro a b h he
    exact h (Pid.loc.inj he)

/-- **C132**: `Process::list`, which the console answers `list_processes` with, has exactly the processes that exist, each once. -/
theorem C132_processes (ser : V → B) (w : World B V) (hr : Reachable ser w) (me : Nat) :
    ∃ l, consoleCall w me .processes = some (.processes l) ∧ (∀ p, p ∈ l ↔ ∃ i, p = .loc i ∧ exists? w i = true) ∧ l.Nodup :=
  ⟨processList w, rfl, (processList_spec ser w hr).1, (processList_spec ser w hr).2⟩

/-- **C132**: the list of nodes that the console shows has exactly the nodes in the given state. -/
theorem C132_nodes (ser : V → B) (w : World B V) (hr : Reachable ser w) (me : Nat) (s : NState) :
    ∃ l, consoleCall w me (.nodes s) = some (.nodes l) ∧ ∀ N, N ∈ l ↔ listedIn w s N := by
  refine ⟨nodeListIn w s, rfl, fun N => ?_⟩
  simp only [nodeListIn, List.mem_filterMap, List.mem_range, listedIn]
  constructor
  · rintro ⟨id, -, h⟩
    split at h
    · rename_i g hg
      split at h
      · rename_i hs; cases h; exact ⟨id, g, hg, hs, rfl⟩
      · cases h
    · cases h
  · rintro ⟨id, g, hg, hs, rfl⟩
    refine ⟨id, ?_, by rw [hg]; simp [hs]⟩
    obtain ⟨os, rfl⟩ := hr
    exact regs_lt os hg

/-- **C132**, on the node of the console: `processes_info` for any processes of the node has the debug information of each, `None` for those that do not exist (any more). -/
theorem C132_infos (w : World B V) (me : Nat) (is : List Nat) :
    consoleCall w me (.infos (is.map .loc)) = some (.infos (is.map (info w))) ∧ ∀ i, (info w i).isSome = exists? w i :=
  ⟨by rw [consoleCall, infosOf_loc], C104_exists w⟩

/-- **C132**, from another node: what `list_processes` returns there are the processes that existed on the node of the console, as pids of that node; and
`processes_info` for any of them, at any later time, whatever happened on both nodes in between (as long as the client does not forget the node of the console),
is answered with the debug information of exactly these processes. Nothing else changes on the node of the console. -/
theorem C132_remote (serA : V' → B') (serB : V → B) (wA wA' : World B' V') (wB : World B V) (me c : Nat) (osB : List (Op B V)) (a b : Ident) (shown : List Pid)
    (hshown : consoleCall wA c .processes = some (.processes shown)) (hrA : Reachable serA wA) (hA : identity wA = some a) (hA' : identity wA' = some a) (hB : Reachable serB wB) (hb : identity wB = some b) (hab : a ≠ b)
    (hme : running wB me = true) (hos : ∀ o ∈ osB, Remembers a o) :
    let l := readPids wB (writePids wA shown)
    let wB' := run serB l.1 osB
    (∀ p ∈ l.2, denotes l.1 p = some (a, p.id) ∧ p.isLocal = false) ∧ (∀ i, i ∈ l.2.map Pid.id ↔ exists? wA i = true) ∧ (l.2.map Pid.id).Nodup ∧
    ∀ ps, (∀ p ∈ ps, p ∈ l.2) →
      let q := readPids wA' (writePids wB' ps)
      q.1 = wA' ∧ consoleCall q.1 c (.infos q.2) = some (.infos (ps.map fun p => info wA' p.id)) := by
  cases hshown
  intro l wB'
  have hw : writePids wA (processList wA) = ((processList wA).map Pid.id).map fun i => .withNode i a.1 a.2 := by
    conv => lhs; rw [writePids, listed_ids, List.map_map]
    apply List.map_congr_left
    intro i _
    show serPid wA (.loc i) = _
    rw [serPid_eq]
    simp [denotes, hA]
  obtain ⟨h1, h2, -⟩ := readPids_spec serB me a b ((processList wA).map Pid.id) wB hB hme hb
  rw [← hw] at h1 h2
  have hmem : ∀ i, i ∈ (processList wA).map Pid.id ↔ exists? wA i = true := by
    intro i
    rw [List.mem_map]
    constructor
    · rintro ⟨p, hp, rfl⟩
      obtain ⟨j, rfl, h⟩ := (processList_spec serA wA hrA).1 p |>.1 hp
      exact h
    · intro h
      exact ⟨.loc i, (processList_spec serA wA hrA).1 _ |>.2 ⟨i, rfl, h⟩, rfl⟩
  refine ⟨?_, ?_, ?_, ?_⟩
  · intro p hp
    obtain ⟨n, hn, -⟩ := (h2 p hp).2 hab
    exact ⟨(h2 p hp).1, by rw [hn]; rfl⟩
  · show ∀ i, i ∈ (readPids wB (writePids wA (processList wA))).2.map Pid.id ↔ _
    rw [h1]; exact hmem
  · show ((readPids wB (writePids wA (processList wA))).2.map Pid.id).Nodup
    rw [h1]
    have := (processList_spec serA wA hrA).2
    rw [listed_ids] at this
    exact List.Pairwise.of_map _ (fun x y h he => h (congrArg Pid.loc he)) this
  · intro ps hps q
    have hr : Reachable serB l.1 := by
      obtain ⟨os, h⟩ := readPids_learns serB me (writePids wA (processList wA)) wB hme
      show Reachable serB (readPids wB (writePids wA (processList wA))).1
      rw [h]; exact reach_run hB os
    obtain ⟨os, hos'⟩ := hr
    have hq : writePids wB' ps = (ps.map Pid.id).map fun i => .withNode i a.1 a.2 := by
      rw [writePids, List.map_map]
      apply List.map_congr_left
      intro p hp
      obtain ⟨hd, hn⟩ := h2 p (hps p hp)
      obtain ⟨n, hn, hne⟩ := hn hab
      have := (C09_stable serB os osB p.id n a hne (by rw [← hos', ← hn]; exact hd)).2 hos
      rw [← hos', ← hn] at this
      rw [serPid_eq, this]
      rfl
    have hread : q = (wA', (ps.map Pid.id).map .loc) := by
      show readPids wA' (writePids wB' ps) = _
      rw [hq, readPids_own wA' a hA']
    rw [hread]
    refine ⟨rfl, ?_⟩
    rw [(C132_infos wA' c (ps.map Pid.id)).1, List.map_map]
    rfl

theorem infosOf_some (w : World B V) (ps : List Pid) : (infosOf w ps).isSome = ps.all Pid.isLocal := by
  induction ps with
  | nil => rfl
  | cons p ps ih =>
    cases p with
    | loc i =>
      simp only [infosOf, infoOf, List.all_cons, ← ih]
      cases infosOf w ps <;> rfl
    | rem i n => rfl

/-- **C132**: the console answers every request of its client functions, whatever the state, if the pids are of its node. -/
theorem C132_answers (w : World B V) (c : Nat) (q : CAsk) (hq : q ≠ .answer) (hl : ∀ ps, q = .infos ps → ∀ p ∈ ps, p.isLocal = true) :
    (consoleCall w c q).isSome = true := by
  cases q with
  | connect => rfl
  | nodes s => rfl
  | processes => rfl
  | answer => exact absurd rfl hq
  | infos ps =>
    have := infosOf_some w ps
    rw [List.all_eq_true.2 (hl ps rfl)] at this
    simp only [consoleCall]
    cases h : infosOf w ps with
    | none => rw [h] at this; cases this
    | some xs => rfl

/-- **C132** is violated for pids that are not of the node of the console, among them those of the client's own node: the console does not answer but panics, whatever
else is asked for. -/
theorem C132_foreign_violated (serA : V' → B') (wA : World B' V') (wB : World B V) (c : Nat) (ps : List Pid) (p : Pid) (a b : Ident) (i : Nat)
    (hA : identity wA = some a) (hrA : Reachable serA wA) (hp : p ∈ ps) (hd : denotes wB p = some (b, i)) (hab : a ≠ b) (me : Nat) (hme : running wA me = true) :
    let q := readPids wA (writePids wB ps)
    consoleCall q.1 c (.infos q.2) = none := by
  intro q
  have key : ∀ (ps : List Pid) (w : World B' V'), Reachable serA w → running w me = true → identity w = some a → p ∈ ps → ∃ p' ∈ (readPids w (writePids wB ps)).2, p'.isLocal = false := by
    intro ps
    induction ps with
    | nil => intro w _ _ _ h; cases h
    | cons x ps ih =>
      intro w hr hm hi hx
      by_cases he : p = x
      · subst he
        refine ⟨(deserPid w (serPid wB p)).2, by simp [writePids, readPids], ?_⟩
        refine C11_other_owner wB w p ?_
        intro j a' h h'
        rw [hd] at h; cases h
        rw [hi] at h'
        exact hab (Option.some.inj h')
      · have hx' : p ∈ ps := by
          rcases List.mem_cons.1 hx with h | h
          · exact absurd h he
          · exact h
        obtain ⟨os, h1, h2⟩ := learn_running serA hm (serPid wB x)
        have hi' : identity (deserPid w (serPid wB x)).1 = some a := by
          cases hsx : serPid wB x with
          | unavailable j => exact hi
          | withNode j n ad =>
            have := (deserPid_spec (reach_nodeInv hr) hi (n, ad) j).2.2.1 (.loc 0) (a, 0) (by simp [denotes, hi])
            simpa [denotes] using this
        obtain ⟨p', hp', hl⟩ := ih _ (by rw [h1]; exact reach_run hr os) h2 hi' hx'
        exact ⟨p', by simp only [writePids, List.map_cons, readPids]; exact List.mem_cons_of_mem _ hp', hl⟩
  obtain ⟨p', hp', hl⟩ := key ps wA hrA hme hA hp
  simp only [consoleCall]
  rw [infosOf_foreign q.1 hp' hl]

/-! ## Examples -/

/-- Node "a" with the processes 1 (the node), 2 (local node supervisor), 3 and 4; 3 has the name "x". -/
abbrev viewA : List (Op Nat Nat) := [.boot, .nodeStart 1 "a" (addr 1), .boot, .boot, .register 3 (.loc 3) "x"]
/-- Node "b", which knows "a". -/
abbrev viewB : List (Op Nat Nat) := [.boot, .nodeStart 1 "b" (addr 2), .learn 1 (.rem "c" (addr 3)), .learn 1 (.rem "a" (addr 1))]
/-- Later, 3 has exited. -/
abbrev viewLater : List (Op Nat Nat) := viewA ++ [.finish 3, .drop 3]

example : processList (run id init viewA) = [.loc 1, .loc 2, .loc 3, .loc 4] := rfl
example : (readPids (run id init viewB) (writePids (run id init viewA) (processList (run id init viewA)))).2 = [.rem 1 2, .rem 2 2, .rem 3 2, .rem 4 2] := rfl

example := C132_remote id id (run id init viewA) (run id init viewLater) (run id init viewB) 1 4 [] ("a", addr 1) ("b", addr 2) [.loc 1, .loc 2, .loc 3, .loc 4] rfl ⟨_, rfl⟩ rfl rfl ⟨_, rfl⟩ rfl (by decide) rfl (by simp)

/-- The console is asked about 3 and 4 of "a", and 3 is gone. -/
example : consoleCall (run id init viewLater) 4 (.infos [.loc 3, .loc 4]) = some (.infos [none, some ⟨none, 0, false, [], []⟩]) := rfl

/-- The client asks for a process of its own. -/
example : consoleCall (readPids (run id init viewA) (writePids (run id init viewB) [.rem 3 2, .loc 1])).1 4
    (.infos (readPids (run id init viewA) (writePids (run id init viewB) [.rem 3 2, .loc 1])).2) = none :=
  C132_foreign_violated id (run id init viewA) (run id init viewB) 4 [.rem 3 2, .loc 1] (.loc 1) ("a", addr 1) ("b", addr 2) 1 rfl ⟨_, rfl⟩ (by simp) rfl (by decide) 1 rfl

end Verif.World
