import Verif.App
import Verif.ServerProps
/-!
# Applications (C78, C87)
-/
namespace Verif.World
open Verif.Mailbox
variable {B V : Type}

/-! ## Lemmas -/

/-- The messages `ms` were taken from the mailbox of `me`, one after the other and oldest first, and after each of them the
process made exactly the exits `f m` before it took the next one. -/
inductive Reacts (ser : V → B) (τ : RecvType B V Unit) (me : Nat) (f : Msg Unit → List (Pid × ExitReason)) :
    World B V → List (Op B V) → List (Msg Unit) → Prop
  | none {w os} : (∀ o ∈ os, Others me o) → Reacts ser τ me f w os []
  | next {w pre kind mid post m ms} :
      (∀ o ∈ pre, Others me o ∨ ∃ k, o = .recv me (anyMsg τ) k) →
      TakesOldest τ me (run ser w pre) (step ser (run ser w pre) (.recv me (anyMsg τ) kind)).1 m →
      exitsBy me mid = f m → (∀ o ∈ mid, Others me o ∨ ∃ p r, o = .exit me p r) →
      Reacts ser τ me f (run ser w (pre ++ .recv me (anyMsg τ) kind :: mid)) post ms →
      Reacts ser τ me f w (pre ++ .recv me (anyMsg τ) kind :: (mid ++ post)) (m :: ms)

/-- As `loop_wait`, with the operations before. -/
theorem loop_wait' {T R : Type} {ser : V → B} {τ : RecvType B V T} {me : Nat} {w : World B V} {k : Msg T → Prog B V R} {os : List (Op B V)}
    {r : R} (hre : Reachable ser w) (h : Exec ser me w (.wait .select (anyMsg τ) none k) os r) :
    ∃ os1 kind m os2, os = os1 ++ .recv me (anyMsg τ) kind :: os2 ∧ (∀ o ∈ os1, Others me o ∨ ∃ k, o = .recv me (anyMsg τ) k) ∧
      TakesOldest τ me (run ser w os1) (step ser (run ser w os1) (.recv me (anyMsg τ) kind)).1 m ∧
      Exec ser me (step ser (run ser w os1) (.recv me (anyMsg τ) kind)).1 (k m) os2 r := by
  have gen : ∀ kind (_ : kind = .select ∨ kind = .resume ∧ Unstashed me w), Exec ser me w (.wait kind (anyMsg τ) none k) os r →
      ∃ os1 kind m os2, os = os1 ++ .recv me (anyMsg τ) kind :: os2 ∧ (∀ o ∈ os1, Others me o ∨ ∃ k, o = .recv me (anyMsg τ) k) ∧
      TakesOldest τ me (run ser w os1) (step ser (run ser w os1) (.recv me (anyMsg τ) kind)).1 m ∧
      Exec ser me (step ser (run ser w os1) (.recv me (anyMsg τ) kind)).1 (k m) os2 r := by
    clear h
    intro kind hk h
    generalize hp : (Prog.wait kind (anyMsg τ) none k : Prog B V R) = p at h
    induction h generalizing kind with
    | env ho hx ih =>
      subst hp
      obtain ⟨os1, kind, m, os2, rfl, h0, h1, h2⟩ := ih (reach_step hre _) kind
        (hk.imp id fun h => ⟨h.1, unstashed_others ser ho h.2⟩) rfl
      refine ⟨_ :: os1, kind, m, os2, rfl, ?_, h1, h2⟩
      intro o ho'
      rcases List.mem_cons.1 ho' with rfl | h
      · exact .inl ho
      · exact h0 o h
    | got hr hm hx ih =>
      cases hp
      have := poll_any ser τ hre hr _ hk
      rw [hm] at this
      exact ⟨[], _, _, _, rfl, by simp, this, hx⟩
    | pending hr hm hx ih =>
      cases hp
      have := poll_any ser τ hre hr _ hk
      rw [hm] at this
      obtain ⟨os1, kind', m, os2, rfl, h0, h1, h2⟩ := ih (reach_step hre _) .resume (.inr ⟨rfl, this⟩) rfl
      refine ⟨_ :: os1, kind', m, os2, rfl, ?_, h1, h2⟩
      intro o ho'
      rcases List.mem_cons.1 ho' with rfl | h
      · exact .inr ⟨_, rfl⟩
      · exact h0 o h
    | elapsed => cases hp
    | _ => cases hp
  exact gen .select (.inl rfl) h

theorem exitsProg_inv {R : Type} {ser : V → B} {me : Nat} (xs : List (Pid × ExitReason)) {k : Prog B V R} {w : World B V}
    {os : List (Op B V)} {r : R} (h : Exec ser me w (exitsProg me xs k) os r) :
    ∃ mid os2, os = mid ++ os2 ∧ exitsBy me mid = xs ∧ (∀ o ∈ mid, Others me o ∨ ∃ p r, o = .exit me p r) ∧
      Exec ser me (run ser w mid) k os2 r := by
  induction xs generalizing w os with
  | nil => exact ⟨[], os, rfl, rfl, by simp, h⟩
  | cons x xs ih =>
    rw [exitsProg] at h
    obtain ⟨os1, os2, rfl, h1, -, h2⟩ := exec_op_inv h
    obtain ⟨mid, os3, rfl, h3, h4, h5⟩ := ih h2
    refine ⟨os1 ++ .exit me x.1 x.2 :: mid, os3, by simp, ?_, ?_, ?_⟩
    · rw [exitsBy_append, exitsBy_others _ _ h1]
      simp only [List.nil_append]
      rw [show (Op.exit me x.1 x.2 :: mid : List (Op B V)) = [.exit me x.1 x.2] ++ mid from rfl, exitsBy_append, h3]
      simp [exitsBy]
    · intro o ho
      rcases List.mem_append.1 ho with h | h
      · exact .inl (h1 o h)
      · rcases List.mem_cons.1 h with rfl | h
        · exact .inr ⟨_, _, rfl⟩
        · exact h4 o h
    · rw [run_append]; exact h5

theorem reacts_post {ser : V → B} {τ : RecvType B V Unit} {me : Nat} {f : Msg Unit → List (Pid × ExitReason)} {w : World B V}
    {os os' : List (Op B V)} {ms : List (Msg Unit)} (h : Reacts ser τ me f w os ms) (ho : ∀ o ∈ os', Others me o) :
    Reacts ser τ me f w (os ++ os') ms := by
  induction h with
  | none h1 =>
    refine .none ?_
    intro o h
    rcases List.mem_append.1 h with h | h
    · exact h1 o h
    · exact ho o h
  | next h1 h2 h3 h4 _ ih => have := Reacts.next h1 h2 h3 h4 ih; simpa using this

/-! ## C87 -/

/-- What the loop of `run` did, and why it ended. -/
theorem runLoop_spec {ser : V → B} {τ : RecvType B V Unit} {me : Nat} {pid : Pid} {spid : Option Pid} {n : Nat} {w : World B V}
    {os : List (Op B V)} {ms : List (Msg Unit)} {done : Bool} (hre : Reachable ser w)
    (h : Exec ser me w (runLoop τ me pid spid n) os (ms, done)) :
    Reacts ser τ me (fun m => (runReact pid spid m).1) w os ms ∧
    (done = true → ∃ ms' r, ms = ms' ++ [.system (.exit pid r)] ∧ ∀ m ∈ ms', ∀ r, m ≠ .system (.exit pid r)) ∧
    (done = false → ms.length = n ∧ ∀ m ∈ ms, ∀ r, m ≠ .system (.exit pid r)) := by
  induction n generalizing w os ms done with
  | zero =>
    rw [runLoop] at h
    obtain ⟨he, h1⟩ := exec_ret_inv h
    cases he
    exact ⟨.none h1, by simp, by simp⟩
  | succ n ih =>
    rw [runLoop] at h
    obtain ⟨pre, kind, m, os2, rfl, hpre, ht, hx⟩ := loop_wait' hre h
    obtain ⟨mid, os3, rfl, h1, h2, h3⟩ := exitsProg_inv _ hx
    have e : run ser (step ser (run ser w pre) (.recv me (anyMsg τ) kind)).1 mid = run ser w (pre ++ .recv me (anyMsg τ) kind :: mid) := by
      rw [run_append]; rfl
    rw [e] at h3
    have hdone : (runReact pid spid m).2 = true ↔ ∃ r, m = .system (.exit pid r) := by
      cases m with
      | user x => simp [runReact]
      | system s =>
        cases s with
        | exit p r =>
          simp only [runReact]
          by_cases hp : p = pid
          · subst hp; simp
          · simp only [if_neg hp]
            split <;> simp [hp]
        | _ => simp [runReact]
    by_cases hd : (runReact pid spid m).2 = true
    · rw [if_pos hd] at h3
      obtain ⟨he, h4⟩ := exec_ret_inv h3
      cases he
      obtain ⟨r, rfl⟩ := hdone.1 hd
      exact ⟨.next hpre ht h1 h2 (.none h4), fun _ => ⟨[], r, rfl, by simp⟩, by simp⟩
    · rw [if_neg hd] at h3
      obtain ⟨os4, os5, l, rfl, h4, h5⟩ := exec_bind_inv h3
      obtain ⟨he, h6⟩ := exec_ret_inv h5
      obtain ⟨ms', done'⟩ := l
      cases he
      obtain ⟨i1, i2, i3⟩ := ih (reach_run hre _) h4
      have hne : ∀ r, m ≠ .system (.exit pid r) := fun r hr => hd (hdone.2 ⟨r, hr⟩)
      refine ⟨.next hpre ht h1 h2 (reacts_post i1 h6), ?_, ?_⟩
      · intro hdt
        obtain ⟨ms2, r, rfl, h7⟩ := i2 hdt
        refine ⟨m :: ms2, r, rfl, ?_⟩
        intro m' hm'
        rcases List.mem_cons.1 hm' with rfl | h
        · exact hne
        · exact h7 m' h
      · intro hdf
        obtain ⟨h7, h8⟩ := i3 hdf
        refine ⟨by simp [h7], ?_⟩
        intro m' hm'
        rcases List.mem_cons.1 hm' with rfl | h
        · exact hne
        · exact h8 m' h

/-- What the documentation of `run` says about a message: on the shutdown timeout the main process is killed, when the signal handler has
exited the main process is asked to shut down, and nothing else is done. -/
def Graceful (pid : Pid) (spid : Option Pid) (f : Msg Unit → List (Pid × ExitReason)) : Prop :=
  f (.user ()) = [(pid, .kill)] ∧
  (∀ s r, spid = some s → s ≠ pid → f (.system (.exit s r)) = [(pid, .custom "shutdown")]) ∧
  ∀ m, m ≠ .user () → (∀ s r, spid = some s → m ≠ .system (.exit s r)) → f m = []

/-- **C87.** The process of `run` gets past its loop only if `start` failed or it has received an exit message of the main process, which is
the last message it takes; and it makes an exit only in reaction to a message: kill when the shutdown timeout message is taken, shutdown
when the signal handler has exited, none otherwise. -/
theorem C87_run (ser : V → B) (start : Prog B V (Except ExitReason Pid)) (τ : RecvType B V Unit) (me : Nat) (graceful : Bool) (n : Nat)
    (w : World B V) (os : List (Op B V)) (e : RunEnd) (hre : Reachable ser w) (h : Exec ser me w (runProg start τ me graceful n) os e) :
    ∃ os1 os2 os3 res, os = os1 ++ os2 ++ os3 ∧ Exec ser me (run ser w os1) start os2 res ∧ (∀ o ∈ os1, Others me o ∨ o = .setTrap me true) ∧
    match (generalizing := false) e with
    | .failed r => res = .error r ∧ ∀ o ∈ os3, Others me o
    | .looped pid spid ms done => res = .ok pid ∧ (graceful = false → spid = none) ∧ ∃ os4 os5 f, os3 = os4 ++ os5 ∧
        (∀ o ∈ os4, Others me o ∨ o = .spawn me true false) ∧ Graceful pid spid f ∧
        Reacts ser τ me f (run ser w (os1 ++ os2 ++ os4)) os5 ms ∧
        (done = true → ∃ ms' r, ms = ms' ++ [.system (.exit pid r)] ∧ ∀ m ∈ ms', ∀ r, m ≠ .system (.exit pid r)) ∧
        (done = false → ms.length = n ∧ ∀ m ∈ ms, ∀ r, m ≠ .system (.exit pid r)) := by
  have hg : ∀ pid spid, Graceful pid spid (fun m => (runReact pid spid m).1) := by
    intro pid spid
    refine ⟨rfl, ?_, ?_⟩
    · intro s r hs hne; simp [runReact, hne, hs]
    · intro m h1 h2
      cases m with
      | user x => exact absurd rfl h1
      | system s =>
        cases s with
        | exit p r =>
          simp only [runReact]
          split
          · rfl
          · split
            · rename_i hs; exact absurd rfl (h2 p r hs)
            · rfl
        | _ => rfl
  rw [runProg] at h
  obtain ⟨osA, osB, rfl, hA, hr, h1⟩ := exec_op_inv h
  obtain ⟨osC, osD, res, rfl, h2, h3⟩ := exec_bind_inv h1
  have e1 : ∀ l, run ser (step ser (run ser w osA) (.setTrap me true)).1 l = run ser w (osA ++ [.setTrap me true] ++ l) := by
    intro l; rw [run_append, run_append]; rfl
  have e0 : (step ser (run ser w osA) (.setTrap me true)).1 = run ser w (osA ++ [.setTrap me true]) := by rw [run_append]; rfl
  rw [e1] at h3
  rw [e0] at h2
  refine ⟨osA ++ [.setTrap me true], osC, osD, res, by simp, h2, ?_, ?_⟩
  · intro o ho
    rcases List.mem_append.1 ho with h | h
    · exact .inl (hA o h)
    · simp at h; exact .inr h
  cases res with
  | error r =>
    obtain ⟨he, h4⟩ := exec_ret_inv h3
    subst he
    exact ⟨rfl, h4⟩
  | ok pid =>
    have loop : ∀ (pre : List (Op B V)) (spid : Option Pid) (osE : List (Op B V)) (e : RunEnd),
        Exec ser me (run ser w (osA ++ [.setTrap me true] ++ osC ++ pre))
          ((runLoop τ me pid spid n).bind fun l => .ret (.looped pid spid l.1 l.2)) osE e →
        ∃ ms done, e = .looped pid spid ms done ∧
          Reacts ser τ me (fun m => (runReact pid spid m).1) (run ser w (osA ++ [.setTrap me true] ++ osC ++ pre)) osE ms ∧
          (done = true → ∃ ms' r, ms = ms' ++ [.system (.exit pid r)] ∧ ∀ m ∈ ms', ∀ r, m ≠ .system (.exit pid r)) ∧
          (done = false → ms.length = n ∧ ∀ m ∈ ms, ∀ r, m ≠ .system (.exit pid r)) := by
      intro pre spid osE e h
      obtain ⟨os4, os5, l, rfl, h4, h5⟩ := exec_bind_inv h
      obtain ⟨he, h6⟩ := exec_ret_inv h5
      obtain ⟨ms, done⟩ := l
      obtain ⟨i1, i2, i3⟩ := runLoop_spec (reach_run hre _) h4
      exact ⟨ms, done, he, reacts_post i1 h6, i2, i3⟩
    cases graceful with
    | false =>
      simp only [runMain, if_neg (show ¬ (false = true) by simp)] at h3
      obtain ⟨ms, done, rfl, h4, h5, h6⟩ := loop [] none osD e (by simpa using h3)
      exact ⟨rfl, fun _ => rfl, [], osD, _, rfl, by simp, hg _ _, by simpa using h4, h5, h6⟩
    | true =>
      simp only [runMain, if_true] at h3
      obtain ⟨osE, osF, rfl, h4, hrun, h5⟩ := exec_op_inv h3
      have hs : ∃ j r, (step ser (run ser (run ser w (osA ++ [.setTrap me true] ++ osC)) osE) (.spawn me true false)).2 = .spawned j r := by
        simp only [step, Op.caller, hrun, Op.exec, if_true]; exact ⟨_, _, rfl⟩
      obtain ⟨j, r, hs⟩ := hs
      rw [hs] at h5
      dsimp only at h5
      have e2 : (step ser (run ser (run ser w (osA ++ [.setTrap me true] ++ osC)) osE) (.spawn me true false)).1 =
          run ser w (osA ++ [.setTrap me true] ++ osC ++ (osE ++ [.spawn me true false])) := by
        generalize osA ++ [.setTrap me true] ++ osC = z
        rw [run_append ser w z, run_append ser _ osE]; rfl
      rw [e2] at h5
      obtain ⟨ms, done, rfl, h6, h7, h8⟩ := loop _ _ osF e h5
      refine ⟨rfl, by simp, osE ++ [.spawn me true false], osF, _, by simp, ?_, hg _ _, h6, h7, h8⟩
      intro o ho
      rcases List.mem_append.1 ho with h | h
      · exact .inl (h4 o h)
      · simp at h; exact .inr h

/-! ## C78 -/

theorem testLoop_spec {ser : V → B} {τ : RecvType B V Unit} {me : Nat} {pid : Pid} {n : Nat} {w : World B V}
    {os : List (Op B V)} {ms : List (Msg Unit)} {r : ExitReason} (hre : Reachable ser w)
    (h : Exec ser me w (testLoop τ pid n) os (ms, some r)) :
    Reacts ser τ me (fun _ => []) w os ms ∧ ∃ ms', ms = ms' ++ [.system (.exit pid r)] ∧ ∀ m ∈ ms', ∀ r, m ≠ .system (.exit pid r) := by
  induction n generalizing w os ms with
  | zero =>
    rw [testLoop] at h
    obtain ⟨he, -⟩ := exec_ret_inv h
    cases he
  | succ n ih =>
    rw [testLoop] at h
    obtain ⟨pre, kind, m, os2, rfl, hpre, ht, hx⟩ := loop_wait' hre h
    have e : (step ser (run ser w pre) (.recv me (anyMsg τ) kind)).1 = run ser w (pre ++ [.recv me (anyMsg τ) kind]) := by
      rw [run_append]; rfl
    have go : (∀ r, m ≠ .system (.exit pid r)) →
        Exec ser me (step ser (run ser w pre) (.recv me (anyMsg τ) kind)).1 ((testLoop τ pid n).bind fun l => .ret (m :: l.1, l.2)) os2 (ms, some r) →
        Reacts ser τ me (fun _ => []) w (pre ++ .recv me (anyMsg τ) kind :: os2) ms ∧
          ∃ ms', ms = ms' ++ [.system (.exit pid r)] ∧ ∀ m ∈ ms', ∀ r, m ≠ .system (.exit pid r) := by
      intro hne hx
      rw [e] at hx
      obtain ⟨os4, os5, l, rfl, h4, h5⟩ := exec_bind_inv hx
      obtain ⟨he, h6⟩ := exec_ret_inv h5
      obtain ⟨ms', r'⟩ := l
      cases he
      obtain ⟨i1, ms2, rfl, i2⟩ := ih (reach_run hre _) h4
      refine ⟨?_, m :: ms2, rfl, ?_⟩
      · have := Reacts.next (mid := []) hpre ht (by rfl) (by simp) (reacts_post i1 h6)
        simpa using this
      · intro m' hm'
        rcases List.mem_cons.1 hm' with rfl | h
        · exact hne
        · exact i2 m' h
    match m, ht, hx, go with
    | .user x, ht, hx, go => exact go (by simp) hx
    | .system (.processDown a b c), ht, hx, go => exact go (by simp) hx
    | .system (.nodeDown a b), ht, hx, go => exact go (by simp) hx
    | .system (.exit p r'), ht, hx, go =>
      by_cases hp : p = pid
      · subst hp
        simp only [if_true] at hx
        obtain ⟨he, h6⟩ := exec_ret_inv hx
        cases he
        refine ⟨?_, [], rfl, by simp⟩
        have := Reacts.next (ser := ser) (τ := τ) (me := me) (w := w) (f := fun _ => []) (mid := []) (post := os2) (ms := []) hpre ht (by rfl) (by simp)
          (.none h6)
        simpa using this
      · simp only [if_neg hp] at hx
        exact go (by simp [hp]) hx

/-- C78, what holds: `test` panics exactly if it was told a custom reason other than "shutdown"; and the reason it is told is that which
`start` returned as its error, or else that of the first exit message of the main process. -/
theorem C78_test_partial (ser : V → B) (start : Prog B V (Except ExitReason Pid)) (τ : RecvType B V Unit) (me : Nat) (w : World B V)
    (os : List (Op B V)) (e : TestEnd) (hre : Reachable ser w) (h : TestRun ser start τ me w os e) :
    (testPanics e = true ↔ ∃ s, e = .reported (.custom s) ∧ s ≠ "shutdown") ∧
    ∀ r, e = .reported r → ∃ os1 os2 os3 res, os = os1 ++ os2 ++ os3 ∧ Exec ser me (run ser w os1) start os2 res ∧
      ((res = .error r) ∨ ∃ pid ms, res = .ok pid ∧ Reacts ser τ me (fun _ => []) (run ser w (os1 ++ os2)) os3 (ms ++ [.system (.exit pid r)]) ∧
        ∀ m ∈ ms, ∀ r, m ≠ .system (.exit pid r)) := by
  constructor
  · cases e with
    | dropped => simp [testPanics]
    | reported r => cases r <;> simp [testPanics, isCustom]
  · intro r hr
    subst hr
    cases h with
    | reported h =>
      rw [testProg] at h
      obtain ⟨osA, osB, rfl, hA, -, h1⟩ := exec_op_inv h
      obtain ⟨osC, osD, res, rfl, h2, h3⟩ := exec_bind_inv h1
      have e1 : ∀ l, run ser (step ser (run ser w osA) (.setTrap me true)).1 l = run ser w (osA ++ [.setTrap me true] ++ l) := by
        intro l; rw [run_append, run_append]; rfl
      have e0 : (step ser (run ser w osA) (.setTrap me true)).1 = run ser w (osA ++ [.setTrap me true]) := by rw [run_append]; rfl
      rw [e1] at h3
      rw [e0] at h2
      refine ⟨osA ++ [.setTrap me true], osC, osD, res, by simp, h2, ?_⟩
      cases res with
      | error r' =>
        obtain ⟨he, -⟩ := exec_ret_inv h3
        cases he
        exact .inl rfl
      | ok pid =>
        obtain ⟨os4, os5, l, rfl, h4, h5⟩ := exec_bind_inv h3
        obtain ⟨he, h6⟩ := exec_ret_inv h5
        obtain ⟨ms, r'⟩ := l
        cases he
        obtain ⟨i1, ms', rfl, i2⟩ := testLoop_spec (reach_run hre _) h4
        exact .inr ⟨pid, ms', rfl, reacts_post i1 h6, i2⟩

/-! ## Examples and counterexamples -/

/-- A start that spawns and links a process. -/
def startOne (me : Nat) : Prog Nat Nat (Except ExitReason Pid) := .op (.spawn me true false) fun x =>
  match x with
  | .spawned j _ => .ret (.ok (.loc j))
  | _ => .ret (.error .normal)

/-- Messages of this application: any number. -/
def unitMsgs : RecvType Nat Nat Unit := ⟨fun _ => none, fun n => if n = 0 then some () else none, fun _ => 0, fun _ => rfl⟩

def testOps (r : ExitReason) : List (Op Nat Nat) :=
  [.setTrap 1 true, .spawn 1 true false, .recv 1 (anyMsg unitMsgs) .select, .exit 2 (.loc 2) r, .drop 2, .recv 1 (anyMsg unitMsgs) .resume]

theorem testExec (r : ExitReason) :
    TestRun id (startOne 1) unitMsgs 1 (run id init [.boot]) (testOps r) (.reported r) := by
  refine .reported (n := 2) (p := some (.loc 2)) (ms := [.system (.exit (.loc 2) r)]) ?_
  refine .op rfl (.op rfl (.pending rfl rfl (.env ⟨by simp [Op.caller], by simp⟩ (.env ⟨by simp [Op.caller], by simp⟩ ?_))))
  cases r with
  | _ => exact .got (m := .system (.exit (.loc 2) _)) rfl rfl (.ret _ _)

/-- C78 fails: a main process that was killed, or that exited with `Ignore`, passes the test. -/
theorem C78_kill_violated : ∃ os, TestRun id (startOne 1) unitMsgs 1 (run id init [.boot]) os (.reported .kill) ∧ testPanics (.reported .kill) = false ∧
    ∃ os, TestRun id (startOne 1) unitMsgs 1 (run id init [.boot]) os (.reported .ignore) ∧ testPanics (.reported .ignore) = false :=
  ⟨_, testExec _, rfl, _, testExec _, rfl⟩

/-- C78 fails: if the process of the test dies, because `start` panics or because it gets a message it cannot read, the test passes. -/
theorem C78_panic_violated (msg : String) : ∃ start os,
    TestRun id start unitMsgs 1 (run id init [.boot]) os .dropped ∧ testPanics .dropped = false ∧ (.panic 1 msg : Op Nat Nat) ∈ os :=
  ⟨.op (.panic 1 msg) fun _ => .ret (.error .normal), _, .dropped (n := 0) (.op rfl (.op rfl (.here _ _))) rfl, rfl, by simp⟩

example : testPanics (.reported (.custom "oops")) = true := by decide
example := (C78_test_partial id (startOne 1) unitMsgs 1 _ _ _ ⟨_, rfl⟩ (testExec (.custom "oops"))).1

/-- A run with a signal: the main process (2) obeys. -/
def runOps : List (Op Nat Nat) :=
  [.setTrap 1 true, .spawn 1 true false, .spawn 1 true false, .exit 3 (.loc 3) (.custom "sigterm"), .drop 3, .recv 1 (anyMsg unitMsgs) .select,
   .exit 1 (.loc 2) (.custom "shutdown"), .drop 2, .recv 1 (anyMsg unitMsgs) .select]

theorem runExec : Exec id 1 (run id init [.boot]) (runProg (startOne 1) unitMsgs 1 true 5) runOps
    (.looped (.loc 2) (some (.loc 3)) [.system (.exit (.loc 3) (.custom "sigterm")), .system (.exit (.loc 2) (.custom "shutdown"))] true) := by
  refine .op rfl (.op rfl (.op rfl (.env ⟨by simp [Op.caller], by simp⟩ (.env ⟨by simp [Op.caller], by simp⟩ (.got rfl rfl
    (.op rfl (.env ⟨by simp [Op.caller], by simp⟩ (.got rfl rfl (.ret _ _)))))))))

example := C87_run id (startOne 1) unitMsgs 1 true 5 _ _ _ ⟨_, rfl⟩ runExec

end Verif.World
