import Verif.TwoNodeProps
import Verif.TwoNodeLinkProps
import Verif.ClientLemmas
/-!
# C49 with loss of the connection

The two-node model up to a moment at which the left side notices that the connection is gone (its supervisor process ends,
node_remote.rs:280-318, node_registry.rs: node_remote_supervisor_down).
-/
namespace Verif.World
open Verif.Mailbox
variable {B V : Type}

/-- The history of the left node alone: its own operations and the frames that arrived. -/
theorem drun_left_ops (ser : Sers V B) (c : Conn) (l : List (DOp B V)) (d : Duo B V) :
    ∃ os, (drun ser c d l).L = run ser.L d.L os ∧ ∀ o ∈ os, DOp.left o ∈ l ∨ ∃ rp f, o = .frame rp c.nR f := by
  induction l generalizing d with
  | nil => exact ⟨[], rfl, by simp⟩
  | cons s l ih =>
    obtain ⟨os, h1, h2⟩ := ih (dstep ser c d s)
    have h2' : ∀ o ∈ os, DOp.left o ∈ s :: l ∨ ∃ rp f, o = .frame rp c.nR f := by
      intro o ho; rcases h2 o ho with h | h
      · exact .inl (.tail _ h)
      · exact .inr h
    have key : (dstep ser c d s).L = d.L ∨ ∃ o, (dstep ser c d s).L = (step ser.L d.L o).1 ∧ (s = .left o ∨ ∃ rp f, o = .frame rp c.nR f) := by
      cases s with
      | left o => exact .inr ⟨o, rfl, .inl rfl⟩
      | right o => exact .inl rfl
      | toR rp => left; simp only [dstep]; split <;> (try split) <;> rfl
      | toL rp =>
        simp only [dstep]; split
        · exact .inl rfl
        · split
          · exact .inr ⟨_, rfl, .inr ⟨_, _, rfl⟩⟩
          · exact .inl rfl
    rcases key with h | ⟨o, h, h'⟩
    · exact ⟨os, by rw [← h]; exact h1, h2'⟩
    · refine ⟨o :: os, ?_, ?_⟩
      · rw [run_cons, ← h]; exact h1
      · intro x hx
        rcases List.mem_cons.1 hx with rfl | hx
        · rcases h' with rfl | h'
          · exact .inl List.mem_cons_self
          · exact .inr h'
        · exact h2' x hx

/-- **C49**, also if the connection is lost: as `C49_exactly_once`, up to the moment at which the left node notices that the connection is gone (at any point of
the history, with any frames on their way), and then any further history of the left node (it may connect again, and anything may arrive). Exactly one Down
for the monitor is ever put in a mailbox: in that of `a`, for `dest`. Its reason is the right one if the news of the death had arrived in time,
and else noconnection. -/
theorem C49_once_despite_loss (ser : Sers V B) (c : Conn) (d : Duo B V) (l1 l2 : List (DOp B V)) (a : Nat) (dest : Dest) (o : Op B V) :
    let d1 := drun ser c d l1
    let d0 := dstep ser c d1 (.left o)
    let d2 := drun ser c d0 l2
    Begins ser c d → (∀ s ∈ l1, Legal c s) → RMonitors d1.L a c.nR dest o → running d1.L a = true →
    ∃ n, refsOf [(step ser.L d1.L o).2] = [.loc n] ∧
      ((∀ s ∈ l2, Legal c s ∧ ∀ o', s = .left o' → ¬ Cancels n a o') → ∀ p, ConnLost d2.L c.nR p → ∀ os'',
        ∃ e, repsOf (.loc n) (run ser.L d2.L (.supDown c.nR p :: os'')).sent = [(a, .down dest (.loc n) e)] ∧
          ((repsOf (.loc n) d2.L.sent = [] ∧ e = noconn) ∨
           (repsOf (.loc n) d2.L.sent = [(a, .down dest (.loc n) e)] ∧ Why ser c d0 dest a n l2 e))) := by
  intro d1 d0 d2 hb hl1 hm hrun
  obtain ⟨n, hn, h49⟩ := C49_exactly_once ser c d l1 l2 a dest o hb hl1 hm hrun
  refine ⟨n, hn, ?_⟩
  intro hl2 p hc os''
  obtain ⟨h49, -⟩ := h49 hl2
  obtain ⟨os0, hos0⟩ := hb.left
  obtain ⟨osA, hA, -⟩ := drun_left_ops ser c l1 d
  obtain ⟨osB, hB, hB'⟩ := drun_left_ops ser c l2 d0
  have e1 : d1.L = run ser.L init (os0 ++ osA) := by rw [run_append, ← hos0]; exact hA
  have hcan : ∀ o' ∈ osB, ¬ Cancels n a o' := by
    intro o' ho'
    rcases hB' o' ho' with h | ⟨rp, f, rfl⟩
    · exact (hl2 _ h).2 o' rfl
    · rintro (h | h | h) <;> cases h
  have e2 : d2.L = run ser.L (step ser.L (run ser.L init (os0 ++ osA)) o).1 osB := by rw [← e1]; exact hB
  rw [e1] at hm hrun
  obtain ⟨g1, g2⟩ := rmonitors_step ser.L (os0 ++ osA) a c.nR dest o hm hrun
  have hnn : n = (run ser.L init (os0 ++ osA)).nextRef := by
    rw [e1, g1] at hn; simpa using hn.symm
  rw [← hnn] at g2
  rcases rwatch_run_process ser.L osB g2 hcan with h | ⟨e, h, -⟩
  · rw [← e2] at h
    refine ⟨noconn, ?_, .inl ⟨h.sent, rfl⟩⟩
    rw [run_cons]
    exact (reported_run ser.L os'' (rwatch_lost h rfl hc)).2
  · rw [← e2] at h
    refine ⟨e, (reported_run ser.L (.supDown c.nR p :: os'') h).2, .inr ⟨h.2, ?_⟩⟩
    rcases h49 with h' | ⟨e', h', hw⟩
    · have := h.2; rw [h'] at this; simp [reportOf] at this
    · have := h.2; rw [h'] at this; simp [reportOf] at this; rw [← this]; exact hw

/-- The loss of a connection signals a process that holds a link to a process of the lost node. -/
theorem lost_link_signal (ser : V → B) (os : List (Op B V)) (a i k p : Nat) (N : Node) (hl : (Pid.rem i k, a) ∈ (run ser init os).nodeLinks N)
    (hc : ConnLost (run ser init os) N p) (hex : exists? (run ser init os) a = true) :
    Signal (.rem i k) a noconn (run ser init os) (step ser (run ser init os) (.supDown N p)).1 := by
  cases hq : (run ser init os).procs a with
  | none => simp [exists?, hq] at hex
  | some q =>
    obtain ⟨h1, -, -, h4, -⟩ := supDown_eff (run ser init os) N p hc
    have hs : exitsFrom (.rem i k) a (supDown (run ser init os) N p).sent =
        exitsFrom (.rem i k) a (run ser init os).sent ++ signalMsg (run ser init os) (.rem i k) noconn a := by
      rw [h1, exitsFrom_append, exitsFrom_append, exitsFrom_signals _ _ _ _ _ (run_nodeLinksNodup ser os N) hl, exitsFrom_loss, List.append_nil]
    have h5 := h4 a
    rw [hq] at h5
    unfold pmap at h5
    rw [step_supDown]
    cases hw2 : (supDown (run ser init os) N p).procs a with
    | none => rw [hw2] at h5; simp at h5
    | some q' =>
      refine ⟨q, q', hq, hw2, ?_, ?_⟩
      · intro ht; rw [hs]; simp [signalMsg, hq, ht]
      · intro ht _
        rw [hw2] at h5
        simp only [Option.map_some, Option.some.injEq, Prod.mk.injEq] at h5
        obtain ⟨g1, g2⟩ := cutOff_dies ((run ser init os).nodeLinks N) a q ht ⟨_, hl⟩
        exact ⟨h5.1.trans g1, h5.2.1.trans g2⟩

/-- **C51**, also if the connection is lost: process `a` of the left node links to process `t` of the right node, then anything happens in which the
connection stays up, nobody unlinks and `a` does not die; then the left node notices that the connection is gone, at any point and with any frames on their
way. Then `a` was signalled: with the right reason if the news of the death of `t` had arrived, and else it is signalled now, with noconnection. No
linked process is left without a signal by a message that is lost with the connection. -/
theorem C51_signal_despite_loss (ser : Sers V B) (c : Conn) (d : Duo B V) (l1 l2 : List (DOp B V)) (a t : Nat) :
    let d1 := drun ser c d l1
    let pre := l1 ++ [.left (.link a (.rem t c.idR))]
    let d2 := drun ser c d (pre ++ l2)
    Begins ser c d → (∀ s ∈ l1, Legal c s) → running d1.L a = true →
    NFrame.link false t a ∉ toRight c d1 → NFrame.link false a t ∉ toLeft c d1 →
    (∀ s ∈ l2, Legal c s ∧ ¬ Cuts c t a s ∧ s ≠ .left (.drop a)) → ∀ p, ConnLost d2.L c.nR p →
    SignalledL ser c d t a pre l2 ∨ Signal (.rem t c.idR) a noconn d2.L (step ser.L d2.L (.supDown c.nR p)).1 := by
  intro d1 pre d2 hb hl1 hrun hr hl hl2 p hc
  rcases linked1_run ser c d l1 l2 a t hb hl1 hrun hr hl hl2 with h | h
  · exact .inl h
  · right
    obtain ⟨os0, hos0⟩ := hb.left
    obtain ⟨os, hos, -⟩ := drun_left_ops ser c (pre ++ l2) d
    have e : d2.L = run ser.L init (os0 ++ os) := by rw [run_append, ← hos0]; exact hos
    have hlk : (Pid.rem t c.idR, a) ∈ d2.L.nodeLinks c.nR := h.link
    have hex : exists? d2.L a = true := h.ex
    rw [e] at hc hlk hex ⊢
    exact lost_link_signal ser.L (os0 ++ os) a t c.idR p c.nR hlk hc hex

/-! ## Examples -/

/-- Process 1 of the left node monitors process 1 of the right node, which dies; the news of it are on their way when the connection is lost. -/
example : ∃ n, refsOf [(step id duo.L (.monitor 1 (.pid (.rem 1 1)))).2] = [.loc n] ∧
    ∃ e, repsOf (.loc n) (run id (drun sameSer duoC (dstep sameSer duoC duo (.left (.monitor 1 (.pid (.rem 1 1))))) [.toR 5, .right (.finish 1), .right (.drop 1)]).L
      [.supDown (.rem "b" (addr 2)) 3]).sent = [(1, .down (.pid (.rem 1 1)) (.loc n) e)] := by
  obtain ⟨n, h1, h2⟩ := C49_once_despite_loss sameSer duoC duo [] [.toR 5, .right (.finish 1), .right (.drop 1)] 1 (.pid (.rem 1 1))
    (.monitor 1 (.pid (.rem 1 1))) duo_begins (by simp) ⟨rfl, .inl rfl⟩ rfl
  refine ⟨n, h1, ?_⟩
  obtain ⟨e, h3, -⟩ := h2 (by
    intro s hs
    simp at hs
    rcases hs with rfl | rfl | rfl
    · exact ⟨trivial, by simp⟩
    · exact ⟨⟨trivial, by simp⟩, by simp⟩
    · exact ⟨⟨by simp [Undisturbed], by simp⟩, by simp⟩) 3 ⟨1, _, rfl, rfl, .inr rfl⟩ []
  exact ⟨e, h3⟩

/-- A link instead, and the target lives on. -/
example : SignalledL sameSer duoC duo 1 1 [.left (.link 1 (.rem 1 1))] [.toR 5] ∨
    Signal (.rem 1 1) 1 noconn (drun sameSer duoC duo [.left (.link 1 (.rem 1 1)), .toR 5]).L
      (step id (drun sameSer duoC duo [.left (.link 1 (.rem 1 1)), .toR 5]).L (.supDown (.rem "b" (addr 2)) 3)).1 :=
  C51_signal_despite_loss sameSer duoC duo [] [.toR 5] 1 1 duo_begins (by simp) rfl (by rw [show toRight duoC (drun sameSer duoC duo []) = [] from rfl]; simp)
    (by rw [show toLeft duoC (drun sameSer duoC duo []) = [] from rfl]; simp)
    (by intro s hs; simp at hs; subst hs; exact ⟨trivial, by simp [Cuts], by simp⟩) 3 ⟨1, _, rfl, rfl, .inr rfl⟩

end Verif.World
