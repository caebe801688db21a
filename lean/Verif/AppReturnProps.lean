import Verif.AppProps
import Verif.SupChildProps
import Verif.NoticeProps
/-!
# When `Application::run` returns (C87)
-/
namespace Verif.World
open Verif.Mailbox
variable {B V : Type}

/-! ## Specification -/

/-- In the execution `os` from `w`, `start` was run to its end, with this result. -/
def Started (ser : V → B) (start : Prog B V (Except ExitReason Pid)) (me : Nat) (w : World B V) (os : List (Op B V)) (res : Except ExitReason Pid) : Prop :=
  ∃ os1 os2 os3, os = os1 ++ os2 ++ os3 ∧ Exec ser me (run ser w os1) start os2 res

/-- In the execution `os` from `w`, the process `me` received an exit message of `pid`. -/
def ToldExit (ser : V → B) (τ : RecvType B V Unit) (me : Nat) (pid : Pid) (w : World B V) (os : List (Op B V)) : Prop :=
  ∃ os1 kind os2 r, os = os1 ++ .recv me (anyMsg τ) kind :: os2 ∧
    TakesOldest τ me (run ser w os1) (step ser (run ser w os1) (.recv me (anyMsg τ) kind)).1 (.system (.exit pid r))

/-- In the execution `os` from `w`, the process `me` itself died: it had panicked or was killed. -/
def RunDied (ser : V → B) (me : Nat) (w : World B V) (os : List (Op B V)) : Prop :=
  ∃ os', os = os' ++ [.drop me] ∧ doomed (run ser w os') me = true

theorem reacts_taken {ser : V → B} {τ : RecvType B V Unit} {me : Nat} {f : Msg Unit → List (Pid × ExitReason)} {w : World B V} {os : List (Op B V)}
    {ms : List (Msg Unit)} (h : Reacts ser τ me f w os ms) {m : Msg Unit} (hm : m ∈ ms) :
    ∃ os1 kind os2, os = os1 ++ .recv me (anyMsg τ) kind :: os2 ∧
      TakesOldest τ me (run ser w os1) (step ser (run ser w os1) (.recv me (anyMsg τ) kind)).1 m := by
  induction h with
  | none => simp at hm
  | @next w pre kind mid post m' ms h1 h2 h3 h4 h5 ih =>
    rcases List.mem_cons.1 hm with rfl | hm
    · exact ⟨pre, kind, mid ++ post, rfl, h2⟩
    · obtain ⟨os1, k, os2, rfl, ht⟩ := ih hm
      refine ⟨pre ++ .recv me (anyMsg τ) kind :: mid ++ os1, k, os2, by simp, ?_⟩
      rw [run_append]; exact ht

/-- C87, in part. `run` returns only if `start` failed, or `start` returned a process and the process of `run` received an exit message of it, or the process of `run` itself
died. In the second case, if the started process is of this node and never itself makes an exit message for the process of `run`, it is dead. What is missing: see
`C87_early_violated` and `C87_exit_violated`. -/
theorem C87_returns_partial (ser : V → B) (start : Prog B V (Except ExitReason Pid)) (τ : RecvType B V Unit) (me : Nat) (graceful : Bool)
    (os0 os : List (Op B V)) (h : RunReturns ser start τ me graceful (run ser init os0) os) :
    (∃ r, Started ser start me (run ser init os0) os (.error r)) ∨
    (∃ pid, Started ser start me (run ser init os0) os (.ok pid) ∧ ToldExit ser τ me pid (run ser init os0) os ∧
      ∀ t, pid = .loc t → Always ser (Verif.Sup.Honest me t) init (os0 ++ os) → exists? (run ser init (os0 ++ os)) t = false) ∨
    RunDied ser me (run ser init os0) os := by
  cases h with
  | dropped h1 h2 => exact .inr (.inr ⟨_, rfl, h2⟩)
  | sent h1 h2 =>
    rename_i n e
    have hre : Reachable ser (run ser (init : World B V) os0) := ⟨os0, rfl⟩
    obtain ⟨os1, os2, os3, res, rfl, hx, -, hm⟩ := C87_run ser start τ me graceful n _ _ e hre h1
    cases e with
    | failed r => exact .inl ⟨r, os1, os2, os3, rfl, by rw [← hm.1]; exact hx⟩
    | looped pid spid ms done =>
      cases h2
      obtain ⟨hres, -, os4, os5, f, rfl, -, -, hr, hd, -⟩ := hm
      obtain ⟨ms', r, rfl, -⟩ := hd rfl
      obtain ⟨p1, kind, p2, rfl, ht⟩ := reacts_taken hr (m := .system (.exit pid r)) (by simp)
      rw [← run_append] at ht
      have e1 : os1 ++ os2 ++ (os4 ++ (p1 ++ .recv me (anyMsg τ) kind :: p2)) = (os1 ++ os2 ++ os4 ++ p1) ++ .recv me (anyMsg τ) kind :: p2 := by simp
      refine .inr (.inl ⟨pid, ⟨os1, os2, _, rfl, by rw [← hres]; exact hx⟩, ⟨os1 ++ os2 ++ os4 ++ p1, kind, p2, r, e1, ht⟩, ?_⟩)
      rintro t rfl hh
      rw [e1] at hh ⊢
      have hs := Verif.Sup.taken_sent (reach_run hre _) ht
      have e2 : os0 ++ ((os1 ++ os2 ++ os4 ++ p1) ++ .recv me (anyMsg τ) kind :: p2) = (os0 ++ (os1 ++ os2 ++ os4 ++ p1)) ++ .recv me (anyMsg τ) kind :: p2 := by simp
      rw [e2] at hh ⊢
      have htr := Verif.Sup.truthful_run (always_append.1 hh).1 r (by rw [run_append]; exact hs)
      rw [run_append]
      have := (absent_run ser _ (.recv me (anyMsg τ) kind :: p2) t htr.2 htr.1).1
      unfold exists?; rw [this]; rfl

/-- C87, the other direction: `run` returns if `start` fails, and when the loop ends. -/
theorem C87_does_return (ser : V → B) (start : Prog B V (Except ExitReason Pid)) (τ : RecvType B V Unit) (me : Nat) (graceful : Bool) (n : Nat) (w : World B V) (os : List (Op B V)) :
    (∀ r, Exec ser me w (runProg start τ me graceful n) os (.failed r) → RunReturns ser start τ me graceful w os) ∧
    (∀ pid spid ms, Exec ser me w (runProg start τ me graceful n) os (.looped pid spid ms true) → RunReturns ser start τ me graceful w os) :=
  ⟨fun _ h => .sent h rfl, fun _ _ _ h => .sent h rfl⟩

/-- C87 fails: if the process of `run` gets a message that it cannot read, it dies, and `run` returns although the main process goes on. -/
theorem C87_early_violated : ∃ os,
    RunReturns id (startOne 1) unitMsgs 1 false (run id init [.boot]) os ∧ Started id (startOne 1) 1 (run id init [.boot]) os (.ok (.loc 2)) ∧
    running (run id (run id init [.boot]) os) 2 = true := by
  refine ⟨[.setTrap 1 true, .spawn 1 true false, .setTrap 2 true, .send 2 (.one (.pid (.loc 1))) 7, .recv 1 (anyMsg unitMsgs) .select] ++ [.drop 1], .dropped (n := 1) ?_ rfl, ?_, rfl⟩
  · exact .op rfl (.op rfl (.env ⟨by simp [Op.caller], by simp⟩ (.env ⟨by simp [Op.caller], by simp⟩ (.pending rfl rfl (.here _ _)))))
  · exact ⟨[.setTrap 1 true], [.spawn 1 true false], _, rfl, .op rfl (.ret _ _)⟩

/-- C87 fails: the main process can make `run` return without ending, by sending the process of `run` an exit signal. -/
theorem C87_exit_violated : ∃ os,
    RunReturns id (startOne 1) unitMsgs 1 false (run id init [.boot]) os ∧ Started id (startOne 1) 1 (run id init [.boot]) os (.ok (.loc 2)) ∧
    running (run id (run id init [.boot]) os) 2 = true ∧ running (run id (run id init [.boot]) os) 1 = true := by
  refine ⟨[.setTrap 1 true, .spawn 1 true false, .exit 2 (.loc 1) (.custom "x"), .recv 1 (anyMsg unitMsgs) .select],
    .sent (n := 1) (e := .looped (.loc 2) none [.system (.exit (.loc 2) (.custom "x"))] true) ?_ rfl, ?_, rfl, rfl⟩
  · exact .op rfl (.op rfl (.env ⟨by simp [Op.caller], by simp⟩ (.got rfl rfl (.ret _ _))))
  · exact ⟨[.setTrap 1 true], [.spawn 1 true false], _, rfl, .op rfl (.ret _ _)⟩

/-- A run that ends as it should: the main process was asked to shut down and is dead. -/
example : RunReturns id (startOne 1) unitMsgs 1 true (run id init [.boot]) runOps ∧ exists? (run id (run id init [.boot]) runOps) 2 = false ∧
    Always id (Verif.Sup.Honest 1 2) init ([.boot] ++ runOps) :=
  ⟨.sent runExec rfl, by rfl, by simp [runOps, Always, Verif.Sup.Honest]⟩

end Verif.World
