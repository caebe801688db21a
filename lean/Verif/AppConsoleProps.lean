import Verif.AppConsole
import Verif.AppReturnProps
import Verif.SupNoticeProps
/-!
# The console server of an application is kept running (C138)
-/
namespace Verif.World
open Verif.Mailbox
variable {B V : Type}

/-! ## Specification -/

/-- What the loop of `run` does to the node, told message by message: it takes the oldest message `m` of its mailbox, makes the exits `f m`, and if `m` says that the
console server of that time (`c`) has ended for a reason other than shutdown, and only then, it starts another one (the `k`-th start), which returns a pid. A message for which
`last` holds ends the loop. -/
inductive Keeps (ser : V → B) (τ : RecvType B V Unit) (me : Nat) (f : Msg Unit → List (Pid × ExitReason)) (cs : Nat → Prog B V (Except ExitReason Pid)) (last : Msg Unit → Prop) :
    Nat → Pid → World B V → List (Op B V) → List ConsoleRound → Bool → Prop
  | open_ {k c w os} : (∀ o ∈ os, Others me o) → Keeps ser τ me f cs last k c w os [] false
  | over {k c w pre kind mid m} :
      (∀ o ∈ pre, Others me o ∨ ∃ k, o = .recv me (anyMsg τ) k) →
      TakesOldest τ me (run ser w pre) (step ser (run ser w pre) (.recv me (anyMsg τ) kind)).1 m →
      exitsBy me mid = f m → (∀ o ∈ mid, Others me o ∨ ∃ p r, o = .exit me p r) → last m →
      Keeps ser τ me f cs last k c w (pre ++ .recv me (anyMsg τ) kind :: mid) [(m, none)] true
  | on {k c w pre kind mid post m l d} :
      (∀ o ∈ pre, Others me o ∨ ∃ k, o = .recv me (anyMsg τ) k) →
      TakesOldest τ me (run ser w pre) (step ser (run ser w pre) (.recv me (anyMsg τ) kind)).1 m →
      exitsBy me mid = f m → (∀ o ∈ mid, Others me o ∨ ∃ p r, o = .exit me p r) → ¬ last m →
      (¬ ∃ r, m = .system (.exit c r) ∧ r ≠ .custom "shutdown") →
      Keeps ser τ me f cs last k c (run ser w (pre ++ .recv me (anyMsg τ) kind :: mid)) post l d →
      Keeps ser τ me f cs last k c w (pre ++ .recv me (anyMsg τ) kind :: (mid ++ post)) ((m, none) :: l) d
  | again {k c c' w pre kind mid st post m l d} :
      (∀ o ∈ pre, Others me o ∨ ∃ k, o = .recv me (anyMsg τ) k) →
      TakesOldest τ me (run ser w pre) (step ser (run ser w pre) (.recv me (anyMsg τ) kind)).1 m →
      exitsBy me mid = f m → (∀ o ∈ mid, Others me o ∨ ∃ p r, o = .exit me p r) → ¬ last m →
      (∃ r, m = .system (.exit c r) ∧ r ≠ .custom "shutdown") →
      Exec ser me (run ser w (pre ++ .recv me (anyMsg τ) kind :: mid)) (cs k) st (.ok c') →
      Keeps ser τ me f cs last (k + 1) c' (run ser w (pre ++ .recv me (anyMsg τ) kind :: (mid ++ st))) post l d →
      Keeps ser τ me f cs last k c w (pre ++ .recv me (anyMsg τ) kind :: (mid ++ (st ++ post))) ((m, some c') :: l) d

/-- The console server after these rounds. -/
def console (c : Pid) (l : List ConsoleRound) : Pid := l.foldl (fun c e => e.2.getD c) c

/-- The starts of the console server behave as `start_link` does: they leave the trap flag of the process alone; they do not make it miss the end of another process; and
what one returns is another process of this node, linked to it (or its exit message is in the mailbox). -/
structure StartsLinked (cs : Nat → Prog B V (Except ExitReason Pid)) (me : Nat) (ser : V → B) : Prop where
  traps : ∀ k w ops r, Reachable ser w → Exec ser me w (cs k) ops r → Verif.Sup.Traps me w → Verif.Sup.Traps me (run ser w ops)
  spares : ∀ k w ops r u, Reachable ser w → Exec ser me w (cs k) ops r → me ≠ u → Knows ser me u w → Knows ser me u (run ser w ops)
  linked : ∀ k w ops p, Reachable ser w → Exec ser me w (cs k) ops (.ok p) → Verif.Sup.Traps me w → ∃ t, p = .loc t ∧ me ≠ t ∧ Knows ser me t (run ser w ops)

/-! ## Lemmas -/


theorem consolePanics_never {ser : V → B} {me : Nat} {R : Type} {dead r : R} {w : World B V} {os : List (Op B V)} (hre : Reachable ser w)
    (h : Exec ser me w (consolePanics me dead) os r) : False := panic_never hre h

theorem consoleEnded_iff {c : Pid} {m : Msg Unit} : consoleEnded c m = true ↔ ∃ r, m = .system (.exit c r) ∧ r ≠ .custom "shutdown" := by
  cases m with
  | user x => simp [consoleEnded]
  | system s =>
    cases s with
    | exit p r =>
      simp only [consoleEnded, Bool.and_eq_true, decide_eq_true_eq]
      constructor
      · rintro ⟨rfl, h⟩; exact ⟨r, rfl, h⟩
      · rintro ⟨r', h1, h2⟩; cases h1; exact ⟨rfl, h2⟩
    | _ => simp [consoleEnded]

theorem react_done {pid : Pid} {spid : Option Pid} {m : Msg Unit} : (runReact pid spid m).2 = true ↔ ∃ r, m = .system (.exit pid r) := by
  cases m with
  | user x => simp [runReact]
  | system s =>
    cases s with
    | exit p r =>
      simp only [runReact]
      by_cases hp : p = pid
      · subst hp; simp
      · rw [if_neg hp]
        constructor
        · intro h; split at h <;> simp at h
        · rintro ⟨r', h⟩; cases h; exact absurd rfl hp
    | _ => simp [runReact]

theorem keeps_post {ser : V → B} {τ : RecvType B V Unit} {me : Nat} {f : Msg Unit → List (Pid × ExitReason)} {cs : Nat → Prog B V (Except ExitReason Pid)}
    {last : Msg Unit → Prop} {k : Nat} {c : Pid} {w : World B V} {os os' : List (Op B V)} {l : List ConsoleRound} {d : Bool}
    (h : Keeps ser τ me f cs last k c w os l d) (ho : ∀ o ∈ os', Others me o) : Keeps ser τ me f cs last k c w (os ++ os') l d := by
  induction h with
  | open_ h1 =>
    refine .open_ ?_
    intro o h
    rcases List.mem_append.1 h with h | h
    · exact h1 o h
    · exact ho o h
  | @over k c w pre kind mid m h1 h2 h3 h4 h5 =>
    have : pre ++ Op.recv me (anyMsg τ) kind :: mid ++ os' = pre ++ Op.recv me (anyMsg τ) kind :: (mid ++ os') := by simp
    rw [this]
    refine .over h1 h2 ?_ ?_ h5
    · rw [exitsBy_append, h3, exitsBy_others _ _ ho]; simp
    · intro o h
      rcases List.mem_append.1 h with h | h
      · exact h4 o h
      · exact .inl (ho o h)
  | on h1 h2 h3 h4 h5 h6 _ ih => have := Keeps.on h1 h2 h3 h4 h5 h6 ih; simpa using this
  | again h1 h2 h3 h4 h5 h6 h7 _ ih => have := Keeps.again h1 h2 h3 h4 h5 h6 h7 ih; simpa using this

theorem loop_keeps {ser : V → B} {cs : Nat → Prog B V (Except ExitReason Pid)} {τ : RecvType B V Unit} {me : Nat} {pid : Pid} {spid : Option Pid} {n k : Nat} {c : Pid}
    {w : World B V} {os : List (Op B V)} {l : List ConsoleRound} {d : Bool} (hre : Reachable ser w)
    (h : Exec ser me w (runLoopC cs τ me pid spid n k c) os (l, d)) :
    Keeps ser τ me (fun m => (runReact pid spid m).1) cs (fun m => ∃ r, m = .system (.exit pid r)) k c w os l d := by
  induction n generalizing w os l d k c with
  | zero =>
    rw [runLoopC] at h
    obtain ⟨he, h1⟩ := exec_ret_inv h
    cases he
    exact .open_ h1
  | succ n ih =>
    rw [runLoopC] at h
    obtain ⟨pre, kind, m, os2, rfl, hpre, ht, hx⟩ := loop_wait' hre h
    obtain ⟨mid, os3, rfl, h1, h2, h3⟩ := exitsProg_inv _ hx
    have e : run ser (step ser (run ser w pre) (.recv me (anyMsg τ) kind)).1 mid = run ser w (pre ++ .recv me (anyMsg τ) kind :: mid) := by
      rw [run_append]; rfl
    rw [e] at h3
    by_cases hd : (runReact pid spid m).2 = true
    · rw [if_pos hd] at h3
      obtain ⟨he, h4⟩ := exec_ret_inv h3
      cases he
      have := keeps_post (Keeps.over (k := k) (c := c) (cs := cs) (last := fun m => ∃ r, m = .system (.exit pid r)) (f := fun m => (runReact pid spid m).1) hpre ht h1 h2 (react_done.1 hd)) h4
      simpa using this
    · rw [if_neg hd] at h3
      by_cases hc : consoleEnded c m = true
      · rw [if_pos hc] at h3
        obtain ⟨os4, os5, res, rfl, h4, h5⟩ := exec_bind_inv h3
        cases res with
        | error r => exact (consolePanics_never (reach_run (reach_run hre _) _) h5).elim
        | ok c' =>
          obtain ⟨os6, os7, x, rfl, h6, h7⟩ := exec_bind_inv h5
          obtain ⟨he, h8⟩ := exec_ret_inv h7
          obtain ⟨l', d'⟩ := x
          cases he
          have e2 : run ser (run ser w (pre ++ .recv me (anyMsg τ) kind :: mid)) os4 = run ser w (pre ++ .recv me (anyMsg τ) kind :: (mid ++ os4)) := by
            rw [← run_append]; simp
          rw [e2] at h6
          exact .again hpre ht h1 h2 (fun hl => hd (react_done.2 hl)) (consoleEnded_iff.1 hc) h4 (keeps_post (ih (reach_run hre _) h6) h8)
      · rw [if_neg hc] at h3
        obtain ⟨os4, os5, x, rfl, h4, h5⟩ := exec_bind_inv h3
        obtain ⟨he, h6⟩ := exec_ret_inv h5
        obtain ⟨l', d'⟩ := x
        cases he
        exact .on hpre ht h1 h2 (fun hl => hd (react_done.2 hl)) (fun hl => hc (consoleEnded_iff.2 hl)) (keeps_post (ih (reach_run hre _) h4) h6)

/-! ## C138 -/

theorem exec_after {ser : V → B} {me : Nat} {w : World B V} {o : Op B V} {R : Type} {p : Prog B V R} {os1 os : List (Op B V)} {r : R}
    (h : Exec ser me (step ser (run ser w os1) o).1 p os r) : Exec ser me (run ser w (os1 ++ [o])) p os r := by
  rw [run_append]; exact h

/-- **C138**, what `run` does: it starts a console server, then the application (in this order); if both succeed, it goes on as without a console server (see `C87_run`: the
last message is the exit of the main process), but whenever the console server of the time has ended for a reason other than shutdown, and only then, it starts another one. -/
theorem C138_restarts (ser : V → B) (cs : Nat → Prog B V (Except ExitReason Pid)) (start : Prog B V (Except ExitReason Pid)) (τ : RecvType B V Unit) (me : Nat) (graceful : Bool)
    (n : Nat) (w : World B V) (os : List (Op B V)) (c : Pid) (e : RunEndC) (hre : Reachable ser w) (h : Exec ser me w (runProgC cs start τ me graceful n) os (c, e)) :
    ∃ os1 os2 os3 os4 res, os = os1 ++ os2 ++ os3 ++ os4 ∧ (∀ o ∈ os1, Others me o ∨ o = .setTrap me true) ∧
      Exec ser me (run ser w os1) (cs 0) os2 (.ok c) ∧ Exec ser me (run ser w (os1 ++ os2)) start os3 res ∧
      match (generalizing := false) e with
      | .failed r => res = .error r ∧ ∀ o ∈ os4, Others me o
      | .looped pid spid log done => res = .ok pid ∧ (graceful = false → spid = none) ∧ ∃ os5 os6 f, os4 = os5 ++ os6 ∧
          (∀ o ∈ os5, Others me o ∨ o = .spawn me true false) ∧ Graceful pid spid f ∧
          Keeps ser τ me f cs (fun m => ∃ r, m = .system (.exit pid r)) 1 c (run ser w (os1 ++ os2 ++ os3 ++ os5)) os6 log done := by
  have hg : ∀ pid spid, Graceful pid spid (fun m => (runReact pid spid m).1) := by
    intro pid spid
    refine ⟨rfl, ?_, ?_⟩
    · intro s r hs hne; simp [runReact, hne, hs]
    · intro m h1 h2
      cases m with
      | user x => exact absurd rfl h1
      | system s =>
        cases s with
        | exit p r =>
          simp only [runReact]
          split
          · rfl
          · split
            · rename_i hs; exact absurd rfl (h2 p r hs)
            · rfl
        | _ => rfl
  rw [runProgC] at h
  obtain ⟨osA, osB, rfl, hA, hr, h1⟩ := exec_op_inv h
  have h1 := exec_after h1
  obtain ⟨osC, osD, x, rfl, h2, h3⟩ := exec_bind_inv h1
  rw [← run_append] at h3
  have h0 : ∀ o ∈ osA ++ [Op.setTrap me true], Others me o ∨ o = .setTrap me true := by
    intro o ho
    rcases List.mem_append.1 ho with h | h
    · exact .inl (hA o h)
    · simp at h; exact .inr h
  cases x with
  | error r => exact (consolePanics_never (reach_run hre _) h3).elim
  | ok c' =>
    obtain ⟨osE, osF, res, rfl, h4, h5⟩ := exec_bind_inv h3
    rw [← run_append] at h5
    cases res with
    | error r =>
      obtain ⟨he, h6⟩ := exec_ret_inv h5
      cases he
      exact ⟨osA ++ [.setTrap me true], osC, osE, osF, _, by simp, h0, h2, h4, rfl, h6⟩
    | ok pid =>
      obtain ⟨osG, osH, e', rfl, h6, h7⟩ := exec_bind_inv h5
      obtain ⟨he, h8⟩ := exec_ret_inv h7
      cases he
      have loop : ∀ (pre : List (Op B V)) (spid : Option Pid) (osI : List (Op B V)) (e : RunEndC),
          Exec ser me (run ser w (osA ++ [.setTrap me true] ++ osC ++ osE ++ pre))
            ((runLoopC cs τ me pid spid n 1 c).bind fun l => .ret (.looped pid spid l.1 l.2)) osI e →
          ∃ log done, e = .looped pid spid log done ∧
            Keeps ser τ me (fun m => (runReact pid spid m).1) cs (fun m => ∃ r, m = .system (.exit pid r)) 1 c
              (run ser w (osA ++ [.setTrap me true] ++ osC ++ osE ++ pre)) (osI ++ osH) log done := by
        intro pre spid osI e h
        obtain ⟨os4, os5, l, rfl, h4, h5⟩ := exec_bind_inv h
        obtain ⟨he, h6⟩ := exec_ret_inv h5
        obtain ⟨log, done⟩ := l
        refine ⟨log, done, he, ?_⟩
        have := keeps_post (loop_keeps (reach_run hre _) h4) (os' := os5 ++ osH) (by
          intro o ho
          rcases List.mem_append.1 ho with h | h
          · exact h6 o h
          · exact h8 o h)
        simpa using this
      cases graceful with
      | false =>
        simp only [runMainC, if_neg (show ¬ (false = true) by simp)] at h6
        obtain ⟨log, done, rfl, h9⟩ := loop [] none osG _ (by simpa using h6)
        refine ⟨osA ++ [.setTrap me true], osC, osE, osG ++ osH, _, by simp, h0, h2, h4, rfl, fun _ => rfl, [], osG ++ osH, _, rfl, by simp, hg _ _, by simpa using h9⟩
      | true =>
        simp only [runMainC, if_true] at h6
        obtain ⟨osI, osJ, rfl, h9, hrun, h10⟩ := exec_op_inv h6
        have hs : ∃ j r, (step ser (run ser (run ser w (osA ++ [.setTrap me true] ++ osC ++ osE)) osI) (.spawn me true false)).2 = .spawned j r := by
          simp only [step, Op.caller, hrun, Op.exec, if_true]; exact ⟨_, _, rfl⟩
        obtain ⟨j, r, hs⟩ := hs
        rw [hs] at h10
        dsimp only at h10
        have h10 := exec_after h10
        rw [← run_append] at h10
        obtain ⟨log, done, rfl, h11⟩ := loop _ _ osJ _ h10
        refine ⟨osA ++ [.setTrap me true], osC, osE, osI ++ .spawn me true false :: osJ ++ osH, _, by simp, h0, h2, h4, rfl, by simp,
          osI ++ [.spawn me true false], osJ ++ osH, _, by simp, ?_, hg _ _, h11⟩
        intro o ho
        rcases List.mem_append.1 ho with h | h
        · exact .inl (h9 o h)
        · simp at h; exact .inr h

theorem keeps_taken {ser : V → B} {τ : RecvType B V Unit} {me : Nat} {f : Msg Unit → List (Pid × ExitReason)} {cs : Nat → Prog B V (Except ExitReason Pid)}
    {last : Msg Unit → Prop} {k : Nat} {c : Pid} {w : World B V} {os : List (Op B V)} {l : List ConsoleRound} {d : Bool} (h : Keeps ser τ me f cs last k c w os l d) (hd : d = true) :
    ∃ os1 kind os2 m, os = os1 ++ .recv me (anyMsg τ) kind :: os2 ∧ last m ∧
      TakesOldest τ me (run ser w os1) (step ser (run ser w os1) (.recv me (anyMsg τ) kind)).1 m := by
  induction h with
  | open_ => cases hd
  | over h1 h2 h3 h4 h5 => exact ⟨_, _, _, _, rfl, h5, h2⟩
  | @on k c w pre kind mid post m l d h1 h2 h3 h4 h5 h6 _ ih =>
    obtain ⟨os1, kind', os2, m', rfl, hl, ht⟩ := ih hd
    refine ⟨pre ++ .recv me (anyMsg τ) kind :: mid ++ os1, kind', os2, m', by simp, hl, ?_⟩
    rw [run_append]; exact ht
  | @again k c c' w pre kind mid st post m l d h1 h2 h3 h4 h5 h6 h7 _ ih =>
    obtain ⟨os1, kind', os2, m', rfl, hl, ht⟩ := ih hd
    refine ⟨pre ++ .recv me (anyMsg τ) kind :: (mid ++ st) ++ os1, kind', os2, m', by simp, hl, ?_⟩
    rw [run_append]; exact ht

/-- **C138**, the console server does not end `run`: it returns only as without the console server (C87): if `start` failed, if the process of `run` was told the exit of the main
process, or if the process of `run` died; and if `start` failed, it does return. -/
theorem C138_returns (ser : V → B) (cs : Nat → Prog B V (Except ExitReason Pid)) (start : Prog B V (Except ExitReason Pid)) (τ : RecvType B V Unit) (me : Nat) (graceful : Bool)
    (w : World B V) (hre : Reachable ser w) :
    (∀ os, RunReturnsC ser cs start τ me graceful w os →
      (∃ r, Started ser start me w os (.error r)) ∨ (∃ pid, Started ser start me w os (.ok pid) ∧ ToldExit ser τ me pid w os) ∨ RunDied ser me w os) ∧
    (∀ n os c r, Exec ser me w (runProgC cs start τ me graceful n) os (c, .failed r) → RunReturnsC ser cs start τ me graceful w os) := by
  refine ⟨fun os h => ?_, fun n os c r h => .sent h rfl⟩
  cases h with
  | dropped h1 h2 => exact .inr (.inr ⟨_, rfl, h2⟩)
  | sent h1 h2 =>
    rename_i n c e
    obtain ⟨os1, os2, os3, os4, res, rfl, -, -, hx, hm⟩ := C138_restarts ser cs start τ me graceful n _ _ c e hre h1
    cases e with
    | failed r => exact .inl ⟨r, os1 ++ os2, os3, os4, rfl, by rw [← hm.1]; exact hx⟩
    | looped pid spid log done =>
      cases h2
      obtain ⟨rfl, -, os5, os6, f, rfl, -, -, hk⟩ := hm
      obtain ⟨p1, kind, p2, m, rfl, ⟨r, rfl⟩, ht⟩ := keeps_taken hk rfl
      rw [← run_append] at ht
      exact .inr (.inl ⟨pid, ⟨os1 ++ os2, os3, _, rfl, hx⟩, ⟨os1 ++ os2 ++ os3 ++ os5 ++ p1, kind, p2, r, by simp, ht⟩⟩)

/-! ## No end of a console server is missed -/

/-- The loop does not make the process miss the end of another one, of whose end it was not told. -/
theorem loopC_knows {ser : V → B} {cs : Nat → Prog B V (Except ExitReason Pid)} {τ : RecvType B V Unit} {me u : Nat} (hcs : StartsLinked cs me ser) (hat : me ≠ u) {pid : Pid}
    {spid : Option Pid} {n k : Nat} {c : Pid} {w : World B V} {os : List (Op B V)} {l : List ConsoleRound} {d : Bool} (hkw : Knows ser me u w)
    (h : Exec ser me w (runLoopC cs τ me pid spid n k c) os (l, d)) (hn : ∀ e ∈ l, ∀ r, e.1 ≠ .system (.exit (.loc u) r)) : Knows ser me u (run ser w os) := by
  induction n generalizing w os l d k c with
  | zero =>
    rw [runLoopC] at h
    obtain ⟨-, h1⟩ := exec_ret_inv h
    exact hkw.others hat os h1
  | succ n ih =>
    rw [runLoopC] at h
    obtain ⟨pre, kind, m, os2, rfl, -, hm, hx, -, hk⟩ := wait_knows hat hkw .select (by simp) h
    have hmem : ∀ (R : Prop), ((∀ r, m ≠ .system (.exit (.loc u) r)) → R) → (∃ x t, l = (m, x) :: t) → R := by
      rintro R hR ⟨x, t, rfl⟩
      exact hR fun r => hn (m, x) List.mem_cons_self r
    have go : (∀ r, m ≠ .system (.exit (.loc u) r)) → ∀ mid os3, os2 = mid ++ os3 →
        Knows ser me u (run ser (step ser (run ser w pre) (.recv me ⟨Unit, τ, fun _ => true, true⟩ kind)).1 mid) →
        Knows ser me u (run ser (run ser (step ser (run ser w pre) (.recv me ⟨Unit, τ, fun _ => true, true⟩ kind)).1 mid) os3) →
        Knows ser me u (run ser w (pre ++ .recv me ⟨Unit, τ, fun _ => true, true⟩ kind :: os2)) := by
      rintro - mid os3 rfl - h2
      rw [run_append, run_cons, run_append]; exact h2
    by_cases hne : ∀ r, m ≠ .system (.exit (.loc u) r)
    · obtain ⟨mid, os3, rfl, h1, h2⟩ := exits_knows hat _ (hk hne) hx
      refine go hne mid os3 rfl h1 ?_
      by_cases hd : (runReact pid spid m).2 = true
      · rw [if_pos hd] at h2
        obtain ⟨-, h4⟩ := exec_ret_inv h2
        exact h1.others hat os3 h4
      · rw [if_neg hd] at h2
        by_cases hc : consoleEnded c m = true
        · rw [if_pos hc] at h2
          obtain ⟨os4, os5, res, rfl, h4, h5⟩ := exec_bind_inv h2
          cases res with
          | error r => exact (consolePanics_never (reach_run h1.reach _) h5).elim
          | ok c' =>
            obtain ⟨os6, os7, x, rfl, h6, h7⟩ := exec_bind_inv h5
            obtain ⟨he, h8⟩ := exec_ret_inv h7
            obtain ⟨l', d'⟩ := x
            cases he
            rw [run_append, run_append]
            exact (ih (hcs.spares _ _ _ _ _ h1.reach h4 hat h1) h6 fun e he => hn e (.tail _ he)).others hat os7 h8
        · rw [if_neg hc] at h2
          obtain ⟨os4, os5, x, rfl, h4, h5⟩ := exec_bind_inv h2
          obtain ⟨he, h6⟩ := exec_ret_inv h5
          obtain ⟨l', d'⟩ := x
          cases he
          rw [run_append]
          exact (ih h1 h4 fun e he => hn e (.tail _ he)).others hat os5 h6
    · exfalso
      obtain ⟨mid, os3, rfl, -, -, h2⟩ := exitsProg_inv _ hx
      refine hne (hmem _ (fun h => h) ?_)
      by_cases hd : (runReact pid spid m).2 = true
      · rw [if_pos hd] at h2
        obtain ⟨he, -⟩ := exec_ret_inv h2
        cases he; exact ⟨_, _, rfl⟩
      · rw [if_neg hd] at h2
        by_cases hc : consoleEnded c m = true
        · rw [if_pos hc] at h2
          obtain ⟨os4, os5, res, rfl, h4, h5⟩ := exec_bind_inv h2
          cases res with
          | error r => exact (consolePanics_never (reach_run (reach_run (reach_step (reach_run hkw.reach _) _) _) _) h5).elim
          | ok c' =>
            obtain ⟨os6, os7, x, rfl, h6, h7⟩ := exec_bind_inv h5
            obtain ⟨he, h8⟩ := exec_ret_inv h7
            cases he; exact ⟨_, _, rfl⟩
        · rw [if_neg hc] at h2
          obtain ⟨os4, os5, x, rfl, h4, h5⟩ := exec_bind_inv h2
          obtain ⟨he, h6⟩ := exec_ret_inv h5
          cases he; exact ⟨_, _, rfl⟩

theorem waiting_trap {me : Nat} {τ : RecvType B V Unit} {o : Op B V} (h : Others me o ∨ ∃ k, o = .recv me (anyMsg τ) k) : o ≠ .setTrap me false := by
  rcases h with h | ⟨k, rfl⟩
  · exact Verif.Sup.others_trap h
  · intro h; cases h

theorem exits_trap {me : Nat} {o : Op B V} (h : Others me o ∨ ∃ p r, o = .exit me p r) : o ≠ .setTrap me false := by
  rcases h with h | ⟨p, r, rfl⟩
  · exact Verif.Sup.others_trap h
  · intro h; cases h

/-- The wait of the loop, for a process that does not miss the end of `t`. -/
theorem loop_wait_knows {T R : Type} {ser : V → B} {τ : RecvType B V T} {me t : Nat} (hat : me ≠ t) {w : World B V} {k : Msg T → Prog B V R} {os : List (Op B V)}
    {r : R} (hkw : Knows ser me t w) (h : Exec ser me w (.wait .select (anyMsg τ) none k) os r) :
    ∃ os1 kind m os2, os = os1 ++ .recv me (anyMsg τ) kind :: os2 ∧ (∀ o ∈ os1, Others me o ∨ ∃ k, o = .recv me (anyMsg τ) k) ∧
      Exec ser me (step ser (run ser w os1) (.recv me (anyMsg τ) kind)).1 (k m) os2 r ∧
      ((∀ r, m ≠ .system (.exit (.loc t) r)) → Knows ser me t (step ser (run ser w os1) (.recv me (anyMsg τ) kind)).1) := by
  have gen : ∀ kind (_ : kind ≠ RecvKind.remove), Exec ser me w (.wait kind (anyMsg τ) none k) os r →
      ∃ os1 kind m os2, os = os1 ++ .recv me (anyMsg τ) kind :: os2 ∧ (∀ o ∈ os1, Others me o ∨ ∃ k, o = .recv me (anyMsg τ) k) ∧
      Exec ser me (step ser (run ser w os1) (.recv me (anyMsg τ) kind)).1 (k m) os2 r ∧
      ((∀ r, m ≠ .system (.exit (.loc t) r)) → Knows ser me t (step ser (run ser w os1) (.recv me (anyMsg τ) kind)).1) := by
    clear h
    intro kind hkd h
    generalize hp : (Prog.wait kind (anyMsg τ) none k : Prog B V R) = p at h
    induction h generalizing kind with
    | env ho hx ih =>
      subst hp
      have hs := others_spare (t := t) ho
      obtain ⟨os1, kind, m, os2, rfl, h0, h1, h2⟩ := ih (hkw.step hat _ hs.1 fun ro k he => absurd he (hs.2 ro k)) kind hkd rfl
      refine ⟨_ :: os1, kind, m, os2, rfl, ?_, h1, h2⟩
      intro o ho'
      rcases List.mem_cons.1 ho' with rfl | h
      · exact .inl ho
      · exact h0 o h
    | got hr hm hx ih =>
      cases hp
      refine ⟨[], _, _, _, rfl, (fun o h => nomatch h), hx, fun hne => ?_⟩
      refine hkw.step hat _ (by rintro (h | h) <;> cases h) ?_
      rintro ro k' he - - (⟨r', hr'⟩ | ⟨rfl, -⟩)
      · cases he; change received _ _ _ _ = _ at hr'; rw [hm] at hr'; cases hr'; exact hne _ rfl
      · cases he; exact hkd rfl
    | pending hr hm hx ih =>
      cases hp
      obtain ⟨os1, kind', m, os2, rfl, h0, h1, h2⟩ := ih (by
        refine hkw.step hat _ (by rintro (h | h) <;> cases h) ?_
        rintro ro k' he - - (⟨r', hr'⟩ | ⟨rfl, -⟩)
        · cases he; rw [hm] at hr'; cases hr'
        · cases he; exact hkd rfl) .resume (by simp) rfl
      refine ⟨_ :: os1, kind', m, os2, rfl, ?_, h1, h2⟩
      intro o ho'
      rcases List.mem_cons.1 ho' with rfl | h
      · exact .inr ⟨_, rfl⟩
      · exact h0 o h
    | elapsed => cases hp
    | _ => cases hp
  exact gen .select (by simp) h

/-- The console server of the end: it was the one of the beginning all the time, or its end was not missed. -/
theorem loopC_kept {ser : V → B} {cs : Nat → Prog B V (Except ExitReason Pid)} {τ : RecvType B V Unit} {me : Nat} (hcs : StartsLinked cs me ser) {pid : Pid}
    {spid : Option Pid} {n k : Nat} {c : Nat} {w : World B V} {os : List (Op B V)} {l : List ConsoleRound} (S : Prop) (hat : me ≠ c) (hre : Reachable ser w)
    (htr : Verif.Sup.Traps me w) (hkw : Knows ser me c w ∨ S)
    (h : Exec ser me w (runLoopC cs τ me pid spid n k (.loc c)) os (l, false)) :
    (S ∧ console (.loc c) l = .loc c) ∨ (∃ e ∈ l, e.1 = .system (.exit (console (.loc c) l) (.custom "shutdown"))) ∨
    ∃ t, console (.loc c) l = .loc t ∧ me ≠ t ∧ Knows ser me t (run ser w os) := by
  induction n generalizing w os l k c S with
  | zero =>
    rw [runLoopC] at h
    obtain ⟨he, h1⟩ := exec_ret_inv h
    cases he
    rcases hkw with h | h
    · exact .inr (.inr ⟨c, rfl, hat, h.others hat os h1⟩)
    · exact .inl ⟨h, rfl⟩
  | succ n ih =>
    rw [runLoopC] at h
    -- the rest after the message
    have rest : ∀ (pre : List (Op B V)) kind m os2, os = pre ++ .recv me (anyMsg τ) kind :: os2 →
        (∀ o ∈ pre, Others me o ∨ ∃ k, o = .recv me (anyMsg τ) k) →
        Exec ser me (step ser (run ser w pre) (.recv me (anyMsg τ) kind)).1 (exitsProg me (runReact pid spid m).1
          (if (runReact pid spid m).2 then .ret ([(m, none)], true)
           else if consoleEnded (.loc c) m then (cs k).bind fun
             | .ok c => (runLoopC cs τ me pid spid n (k + 1) c).bind fun l => .ret ((m, some c) :: l.1, l.2)
             | .error _ => consolePanics me ([], false)
           else (runLoopC cs τ me pid spid n k (.loc c)).bind fun l => .ret ((m, none) :: l.1, l.2))) os2 (l, false) →
        (Knows ser me c (step ser (run ser w pre) (.recv me (anyMsg τ) kind)).1 ∨ S ∨ ∃ r, m = .system (.exit (.loc c) r)) →
        (S ∧ console (.loc c) l = .loc c) ∨ (∃ e ∈ l, e.1 = .system (.exit (console (.loc c) l) (.custom "shutdown"))) ∨
          ∃ t, console (.loc c) l = .loc t ∧ me ≠ t ∧ Knows ser me t (run ser w os) := by
      rintro pre kind m os2 rfl hpre hx hk
      have hw1 : Reachable ser (step ser (run ser w pre) (.recv me (anyMsg τ) kind)).1 := reach_step (reach_run hre _) _
      have ht1 : Verif.Sup.Traps me (step ser (run ser w pre) (.recv me (anyMsg τ) kind)).1 :=
        Verif.Sup.traps_step (Verif.Sup.traps_run pre (fun o ho => waiting_trap (hpre o ho)) htr) (by intro h; cases h)
      rw [run_append, run_cons]
      generalize (step ser (run ser w pre) (.recv me (anyMsg τ) kind)).1 = w1 at *
      obtain ⟨mid, os3, rfl, -, hmid, h2⟩ := exitsProg_inv _ hx
      have hw2 := reach_run hw1 mid
      have ht2 := Verif.Sup.traps_run (ser := ser) mid (fun o ho => exits_trap (hmid o ho)) ht1
      have hk2 : Knows ser me c (run ser w1 mid) ∨ S ∨ ∃ r, m = .system (.exit (.loc c) r) := by
        refine hk.imp (fun h => ?_) id
        refine Verif.Sup.gentle_run hat mid ?_ h
        intro o ho
        rcases hmid o ho with h | ⟨p, r, rfl⟩
        · exact Verif.Sup.gentle_others h
        · exact ⟨(by rintro (h | h) <;> cases h), fun _ _ h => by cases h⟩
      rw [run_append]
      generalize run ser w1 mid = w2 at *
      by_cases hd : (runReact pid spid m).2 = true
      · rw [if_pos hd] at h2
        obtain ⟨he, -⟩ := exec_ret_inv h2
        cases he
      · rw [if_neg hd] at h2
        by_cases hc : consoleEnded (.loc c) m = true
        · rw [if_pos hc] at h2
          obtain ⟨os4, os5, res, rfl, h4, h5⟩ := exec_bind_inv h2
          cases res with
          | error r => exact (consolePanics_never (reach_run hw2 _) h5).elim
          | ok c' =>
            obtain ⟨os6, os7, x, rfl, h6, h7⟩ := exec_bind_inv h5
            obtain ⟨he, h8⟩ := exec_ret_inv h7
            obtain ⟨l', d'⟩ := x
            cases he
            obtain ⟨t, rfl, hat', hk'⟩ := hcs.linked _ _ _ _ hw2 h4 ht2
            have hcon : console (.loc c) ((m, some (.loc t)) :: l') = console (.loc t) l' := rfl
            rw [hcon, run_append, run_append]
            rcases ih False hat' (reach_run hw2 _) (hcs.traps _ _ _ _ hw2 h4 ht2) (.inl hk') h6 with ⟨hf, -⟩ | ⟨e, he, hx⟩ | ⟨t', ht', hm', hk''⟩
            · exact hf.elim
            · exact .inr (.inl ⟨e, .tail _ he, hx⟩)
            · exact .inr (.inr ⟨t', ht', hm', hk''.others hm' os7 h8⟩)
        · rw [if_neg hc] at h2
          obtain ⟨os4, os5, x, rfl, h4, h5⟩ := exec_bind_inv h2
          obtain ⟨he, h6⟩ := exec_ret_inv h5
          obtain ⟨l', d'⟩ := x
          cases he
          have hcon : console (.loc c) ((m, none) :: l') = console (.loc c) l' := rfl
          rw [hcon, run_append]
          have hadd : ∀ S', (S' ∧ console (.loc c) l' = .loc c) ∨ (∃ e ∈ l', e.1 = .system (.exit (console (.loc c) l') (.custom "shutdown"))) ∨
              (∃ t, console (.loc c) l' = .loc t ∧ me ≠ t ∧ Knows ser me t (run ser w2 os4)) →
              (S' ∧ console (.loc c) l' = .loc c) ∨ (∃ e ∈ (m, none) :: l', e.1 = .system (.exit (console (.loc c) l') (.custom "shutdown"))) ∨
              (∃ t, console (.loc c) l' = .loc t ∧ me ≠ t ∧ Knows ser me t (run ser (run ser w2 os4) os5)) := by
            rintro S' (h | ⟨e, he, hx⟩ | ⟨t', ht', hm', hk''⟩)
            · exact .inl h
            · exact .inr (.inl ⟨e, .tail _ he, hx⟩)
            · exact .inr (.inr ⟨t', ht', hm', hk''.others hm' os5 h6⟩)
          rcases hk2 with hk3 | hk3 | ⟨r, rfl⟩
          · exact hadd S (ih S hat hw2 ht2 (.inl hk3) h4)
          · exact hadd S (ih S hat hw2 ht2 (.inr hk3) h4)
          · have hr : r = .custom "shutdown" := by
              apply Classical.byContradiction
              intro hne
              exact hc (consoleEnded_iff.2 ⟨r, rfl, hne⟩)
            subst hr
            rcases hadd True (ih True hat hw2 ht2 (.inr trivial) h4) with ⟨-, h⟩ | h | h
            · exact .inr (.inl ⟨_, .head _, by rw [h]⟩)
            · exact .inr (.inl h)
            · exact .inr (.inr h)
    rcases hkw with hkw | hS
    · obtain ⟨pre, kind, m, os2, he, hpre, hx, hk⟩ := loop_wait_knows hat hkw h
      refine rest pre kind m os2 he hpre hx ?_
      by_cases hm : ∃ r, m = .system (.exit (.loc c) r)
      · exact .inr (.inr hm)
      · exact .inl (hk fun r h => hm ⟨r, h⟩)
    · obtain ⟨pre, kind, m, os2, he, hpre, -, hx⟩ := loop_wait' hre h
      exact rest pre kind m os2 he hpre hx (.inr (.inl hS))


/-- A program of `me` that leaves its trap flag alone and does not make it miss the end of another process. -/
structure Careful {R : Type} (p : Prog B V R) (me : Nat) (ser : V → B) : Prop where
  traps : ∀ w ops r, Reachable ser w → Exec ser me w p ops r → Verif.Sup.Traps me w → Verif.Sup.Traps me (run ser w ops)
  spares : ∀ w ops r u, Reachable ser w → Exec ser me w p ops r → me ≠ u → Knows ser me u w → Knows ser me u (run ser w ops)

theorem traps_set {ser : V → B} {me : Nat} {w : World B V} (hre : Reachable ser w) (hr : running w me = true) :
    Verif.Sup.Traps me (step ser w (.setTrap me true)).1 := by
  have hlt := lt_of_running hre (running_exists hr)
  refine ⟨Nat.lt_of_lt_of_le hlt (acts_mono_counters (step_acts ser w _)).1, ?_⟩
  intro p hp
  have he : step ser w (.setTrap me true) = Op.exec ser w (.setTrap me true) := by simp [step, Op.caller, hr]
  rw [he] at hp
  simp only [Op.exec, modProc, upd_at, if_true, Option.map_eq_some_iff] at hp
  obtain ⟨q, -, rfl⟩ := hp
  rfl

/-- **C138**, no end is missed: as long as `run` is in its loop, the console server of the time has said goodbye ("shutdown"), or its end has been or will be reported to the
process of `run` (`Notified`: it is linked to it, or its exit message waits in the mailbox, or the process of `run` is about to die itself), which starts another one then. -/
theorem C138_kept (ser : V → B) (cs : Nat → Prog B V (Except ExitReason Pid)) (start : Prog B V (Except ExitReason Pid)) (τ : RecvType B V Unit) (me : Nat) (graceful : Bool)
    (n : Nat) (w : World B V) (os : List (Op B V)) (c pid : Pid) (spid : Option Pid) (log : List ConsoleRound) (hre : Reachable ser w) (hcs : StartsLinked cs me ser)
    (hst : Careful start me ser) (h : Exec ser me w (runProgC cs start τ me graceful n) os (c, .looped pid spid log false)) :
    (∃ e ∈ log, e.1 = .system (.exit (console c log) (.custom "shutdown"))) ∨
    ∃ t, console c log = .loc t ∧ me ≠ t ∧ Notified me t (run ser w os) := by
  rw [runProgC] at h
  obtain ⟨osA, osB, rfl, hA, hr, h1⟩ := exec_op_inv h
  have ht1 := traps_set (reach_run hre osA) hr
  obtain ⟨osC, osD, x, rfl, h2, h3⟩ := exec_bind_inv h1
  have hw1 := reach_step (reach_run hre osA) (.setTrap me true)
  rw [run_append, run_cons, run_append]
  generalize (step ser (run ser w osA) (.setTrap me true)).1 = w1 at *
  cases x with
  | error r => exact (consolePanics_never (reach_run hw1 _) h3).elim
  | ok c' =>
    obtain ⟨t, rfl, hat, hk⟩ := hcs.linked _ _ _ _ hw1 h2 ht1
    have ht2 := hcs.traps _ _ _ _ hw1 h2 ht1
    have hw2 := reach_run hw1 osC
    generalize run ser w1 osC = w2 at *
    obtain ⟨osE, osF, res, rfl, h4, h5⟩ := exec_bind_inv h3
    rw [run_append]
    have hk := hst.spares _ _ _ _ hk.reach h4 hat hk
    have ht2 := hst.traps _ _ _ hw2 h4 ht2
    generalize run ser w2 osE = w3 at *
    cases res with
    | error r => obtain ⟨he, -⟩ := exec_ret_inv h5; cases he
    | ok pid' =>
      obtain ⟨osG, osH, e', rfl, h6, h7⟩ := exec_bind_inv h5
      obtain ⟨he, h8⟩ := exec_ret_inv h7
      cases he
      rw [run_append]
      have loop : ∀ (w4 : World B V) (spid' : Option Pid) (osI : List (Op B V)), Verif.Sup.Traps me w4 → Knows ser me t w4 →
          Exec ser me w4 ((runLoopC cs τ me pid' spid' n 1 (.loc t)).bind fun l => .ret (RunEndC.looped pid' spid' l.1 l.2)) osI (.looped pid spid log false) →
          (∃ e ∈ log, e.1 = .system (.exit (console (.loc t) log) (.custom "shutdown"))) ∨
          ∃ u, console (.loc t) log = .loc u ∧ me ≠ u ∧ Notified me u (run ser (run ser w4 osI) osH) := by
        intro w4 spid' osI ht hk h
        obtain ⟨os4, os5, l, rfl, h4, h5⟩ := exec_bind_inv h
        obtain ⟨he, h66⟩ := exec_ret_inv h5
        obtain ⟨l1, l2⟩ := l
        cases he
        rw [run_append]
        rcases loopC_kept hcs False hat hk.reach ht (.inl hk) h4 with ⟨h, -⟩ | h | ⟨u, h1, h2, h3⟩
        · exact h.elim
        · exact .inl h
        · exact .inr ⟨u, h1, h2, ((h3.others h2 os5 h66).others h2 osH h8).told⟩
      cases graceful with
      | false =>
        simp only [runMainC, if_neg (show ¬ (false = true) by simp)] at h6
        exact loop w3 none osG ht2 hk h6
      | true =>
        simp only [runMainC, if_true] at h6
        obtain ⟨osI, osJ, rfl, h9, hrun, h10⟩ := exec_op_inv h6
        have ht3 := Verif.Sup.traps_step (ser := ser) (Verif.Sup.traps_run (ser := ser) osI (fun o ho => Verif.Sup.others_trap (h9 o ho)) ht2) (o := .spawn me true false) (by intro h; cases h)
        have hk3 := (hk.others hat osI h9).step hat (.spawn me true false) (by rintro (h | h) <;> cases h) (by intro _ _ h; cases h)
        rw [run_append, run_cons]
        split at h10
        · exact loop _ _ osJ ht3 hk3 h10
        · exact loop _ _ osJ ht3 hk3 h10

/-! ## Examples and counterexamples -/

/-- What is wrong: `run` is given up when a console server cannot be started again. Its process dies and `run` returns although the main process goes on. -/
theorem C138_refused_violated : ∃ (cs : Nat → Prog Nat Nat (Except ExitReason Pid)) (os : List (Op Nat Nat)),
    RunReturnsC id cs (startOne 1) unitMsgs 1 false (run id init [.boot]) os ∧ Started id (startOne 1) 1 (run id init [.boot]) os (.ok (.loc 3)) ∧
    running (run id (run id init [.boot]) os) 3 = true ∧ exists? (run id (run id init [.boot]) os) 1 = false := by
  refine ⟨fun k => if k = 0 then startOne 1 else .ret (.error (.custom "already_registered")),
    [.setTrap 1 true, .spawn 1 true false, .spawn 1 true false, .setTrap 3 true, .exit 2 (.loc 2) (.custom "oops"), .drop 2, .recv 1 (anyMsg unitMsgs) .select,
      .panic 1 "Failed to start console server!"] ++ [.drop 1], .dropped (n := 1) ?_ rfl, ?_, rfl, rfl⟩
  · refine .op rfl (.op rfl (.op rfl (.env ⟨by simp [Op.caller], by simp⟩ (.env ⟨by simp [Op.caller], by simp⟩ (.env ⟨by simp [Op.caller], by simp⟩ (.got rfl rfl
      (.op rfl (.here _ _))))))))
  · exact ⟨[.setTrap 1 true, .spawn 1 true false], [.spawn 1 true false], _, rfl, .op rfl (.ret _ _)⟩

/-- A console server (2) ends and another one (4) is started; 4 ends as well, and this has not been told yet. -/
def consoleOps : List (Op Nat Nat) :=
  [.setTrap 1 true, .spawn 1 true false, .spawn 1 true false, .exit 2 (.loc 2) (.custom "oops"), .drop 2, .recv 1 (anyMsg unitMsgs) .select, .spawn 1 true false,
   .exit 4 (.loc 4) (.custom "oops"), .drop 4]

theorem consoleExec : Exec id 1 (run id init [.boot]) (runProgC (fun _ => startOne 1) (startOne 1) unitMsgs 1 false 1) consoleOps
    (.loc 2, .looped (.loc 3) none [(.system (.exit (.loc 2) (.custom "oops")), some (.loc 4))] false) := by
  refine .op rfl (.op rfl (.op rfl (.env ⟨by simp [Op.caller], by simp⟩ (.env ⟨by simp [Op.caller], by simp⟩ (.got rfl rfl
    (.op rfl (.env ⟨by simp [Op.caller], by simp⟩ (.env ⟨by simp [Op.caller], by simp⟩ (.ret _ _)))))))))

theorem startOne_careful : Careful (startOne 1) 1 (id : Nat → Nat) ∧
    ∀ w ops p, Reachable id w → Exec id 1 w (startOne 1) ops (.ok p) → Verif.Sup.Traps 1 w → ∃ t, p = .loc t ∧ 1 ≠ t ∧ Knows id 1 t (run id w ops) := by
  have ops_of : ∀ (w : World Nat Nat) ops r, Exec id 1 w (startOne 1) ops r → ∀ o ∈ ops, Others 1 o ∨ o = .spawn 1 true false := by
    intro w ops r hx
    rw [startOne] at hx
    obtain ⟨os1, os2, rfl, h1, -, h2⟩ := exec_op_inv hx
    intro o ho
    simp only [List.mem_append, List.mem_cons] at ho
    rcases ho with h | h | h
    · exact .inl (h1 o h)
    · exact .inr h
    · split at h2 <;> exact .inl ((exec_ret_inv h2).2 o h)
  refine ⟨⟨?_, ?_⟩, ?_⟩
  · intro w ops r _ hx ht
    refine Verif.Sup.traps_run ops (fun o ho => ?_) ht
    rcases ops_of w ops r hx o ho with h | rfl
    · exact Verif.Sup.others_trap h
    · simp
  · intro w ops r u _ hx hu hk
    refine Verif.Sup.gentle_run hu ops (fun o ho => ?_) hk
    rcases ops_of w ops r hx o ho with h | rfl
    · exact Verif.Sup.gentle_others h
    · exact ⟨(by rintro (h | h) <;> cases h), fun _ _ h => by cases h⟩
  · intro w ops p hre hx ht
    rw [startOne] at hx
    obtain ⟨os1, os2, rfl, h1, hrun, h2⟩ := exec_op_inv hx
    obtain ⟨os, hos⟩ := reach_run hre os1
    have ht1 : Verif.Sup.Traps 1 (run id w os1) := Verif.Sup.traps_run os1 (fun o ho => Verif.Sup.others_trap (h1 o ho)) ht
    obtain ⟨q, hq⟩ := exists_box (running_exists hrun)
    rw [hos] at hrun hq h2
    obtain ⟨t, r, e1, e2, e3⟩ := C137_spawned id os 1 false hrun ⟨q, hq, ht1.2 q (by rw [hos]; exact hq)⟩
    rw [e1] at h2
    obtain ⟨h3, h4⟩ := exec_ret_inv h2
    cases h3
    refine ⟨t, rfl, e2, ?_⟩
    rw [run_append, hos]
    refine Knows.others (w := (step id (run id init os) (.spawn 1 true false)).1) ?_ e2 os2 h4
    have hre' : Reachable id (step id (run id init os) (.spawn 1 true false)).1 := reach_step ⟨os, rfl⟩ _
    refine ⟨hre', ?_, lt_of_running hre' e3.2.2, .inl e3⟩
    obtain ⟨⟨q, hq, -⟩, -⟩ := e3
    exact lt_of_running hre' (by simp [exists?, hq])

theorem startOne_linked : StartsLinked (fun _ => startOne 1) 1 (id : Nat → Nat) :=
  ⟨fun _ => startOne_careful.1.traps, fun _ => startOne_careful.1.spares, fun _ => startOne_careful.2⟩

example := C138_restarts id (fun _ => startOne 1) (startOne 1) unitMsgs 1 false 1 _ _ _ _ ⟨_, rfl⟩ consoleExec
/-- The application ends, and `run` with it. -/
example : ∃ os, RunReturnsC id (fun _ => startOne 1) (startOne 1) unitMsgs 1 false (run id init [.boot]) os := by
  refine ⟨[.setTrap 1 true, .spawn 1 true false, .spawn 1 true false, .exit 3 (.loc 3) .normal, .drop 3, .recv 1 (anyMsg unitMsgs) .select],
    .sent (n := 1) (c := .loc 2) (e := .looped (.loc 3) none [(.system (.exit (.loc 3) .normal), none)] true) ?_ rfl⟩
  refine .op rfl (.op rfl (.op rfl (.env ⟨by simp [Op.caller], by simp⟩ (.env ⟨by simp [Op.caller], by simp⟩ (.got rfl rfl (.ret _ _))))))

example := C138_kept id (fun _ => startOne 1) (startOne 1) unitMsgs 1 false 1 _ _ _ _ _ _ ⟨_, rfl⟩ startOne_linked startOne_careful.1 consoleExec

end Verif.World
