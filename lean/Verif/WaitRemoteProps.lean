import Verif.WaitCommon
import Verif.NodeDownProps
/-!
# Nobody waits for a server on a lost node (C115)
-/
namespace Verif.World
open Verif.Mailbox
variable {B V R : Type}

/-! ## Specification -/

/-- `o`, done in `w`, tells this node that the process behind the monitor `n` on node `N` is lost: the connection to the node is gone
and its supervisor process says so, or the node reports the death of the process (in a frame that is read by a running process). -/
def Loses (w : World B V) (n : Nat) (N : Node) (o : Op B V) : Prop :=
  (∃ p, o = .supDown N p ∧ ConnLost w N p) ∨ (∃ rp refs e, o = .frame rp N (.monitorDown refs e) ∧ n ∈ refs ∧ running w rp = true)

/-- In the history `ops`, starting in `w`, process `me` asked for a monitor of `d`, a process of another node, and that is lost:
the node of the pid was not known any more, or the process was lost since (`Loses`, for the reference given to `me`). -/
def RemoteGone (ser : V → B) (w : World B V) (ops : List (Op B V)) (me : Nat) (d : Dest) (al : Option Bool) : Prop :=
  ∃ os1 os2, ops = os1 ++ monOp me d al :: os2 ∧
    ((∃ i k, d = .pid (.rem i k) ∧ lookupNode (run ser w os1) k = none) ∨
     ∃ N x o y, remoteNode (run ser w os1) d = some N ∧ os2 = x ++ o :: y ∧
       Loses (run ser w (os1 ++ monOp me d al :: x)) (run ser w os1).nextRef N o)

/-! ## Proofs -/

theorem rwatch_holding {n me : Nat} {N : Node} {d : Dest} {w : World B V} (h : RWatch n me N (.process me d) w) : Holding n me w := by
  refine ⟨h.lt, h.low, h.ex, ?_, ?_⟩
  · intro M i hm
    by_cases hM : M = N
    · subst hM
      have : (Ref.loc n, NMon.node i) ∈ (w.nodeMons M).filter (fun x => x.1 = .loc n) := List.mem_filter.2 ⟨hm, by simp⟩
      rw [h.mon] at this; simp at this
    · exact h.others M hM _ hm rfl
  · intro b hb
    obtain ⟨h1, h2, h3⟩ := h.held b hb
    refine ⟨h1, ?_, ?_⟩ <;> rintro it hit N rfl
    · have := h2 _ hit; simp [reports] at this
    · have := h3 _ hit; simp [reports] at this

/-- The monitor is in place, or its Down is on its way. -/
def RDue (n me : Nat) (N : Node) (d : Dest) (w : World B V) : Prop := RWatch n me N (.process me d) w ∨ Told n me w

theorem reported_told (ser : V → B) {n me : Nat} {N : Node} {d : Dest} {w : World B V} {o : Op B V} {e : ExitReason}
    (h : RWatch n me N (.process me d) w) (ho : Others me o)
    (hr : Reported n (reportOf n N e (.process me d)) (step ser w o).1) : Told n me (step ser w o).1 := by
  have hex := h.ex
  unfold exists? at hex
  cases hq : w.procs me with
  | none => rw [hq] at hex; simp at hex
  | some q0 =>
    obtain ⟨D, q, g1, g2, g3, -⟩ := acts_waiting (step_acts ser w o) me q0 hq h.low ho.1 ho.2
    refine ⟨q.box, d, e, by simp [pmap, g2], ?_⟩
    apply g3
    have hr := hr.2
    rw [g1, repsOf_append, h.sent, List.nil_append] at hr
    have : (me, Item.down d (.loc n) e) ∈ repsOf (.loc n) D := by rw [hr]; simp [reportOf]
    exact (List.mem_filter.1 this).1

theorem calm_not_cancels {n me : Nat} {o : Op B V} (ho : Calm me o) : ¬ Cancels n me o := by
  rintro (rfl | rfl | rfl) <;> rcases ho with ⟨h1, h2⟩ | ⟨_, _, h⟩ | ⟨_, _, h⟩
  all_goals first | cases h | exact h2 rfl | exact h1 rfl

theorem calm_rdue (ser : V → B) {n me : Nat} {N : Node} {d : Dest} {w : World B V} {o : Op B V} (ho : Calm me o)
    (h : Holding n me w) (hd : RDue n me N d w) : RDue n me N d (step ser w o).1 := by
  rcases hd with hw | ht
  · rcases rwatch_step_process ser hw (calm_not_cancels ho) with h | ⟨e, h, h2⟩
    · exact .inl h
    · right
      refine reported_told ser hw ?_ h
      rcases ho with ho | ⟨_, _, rfl⟩ | ⟨_, _, rfl⟩
      · exact ho
      · rcases h2 with ⟨_, _, h, _⟩ | ⟨_, _, h⟩ <;> cases h
      · rcases h2 with ⟨_, _, h, _⟩ | ⟨_, _, h⟩ <;> cases h
  · exact .inr ((calm_holding ser ho h).2 ht)

theorem quietly_rrun (ser : V → B) {n me : Nat} {N : Node} {d : Dest} (os : List (Op B V)) :
    ∀ (w : World B V), Quietly ser n me w os → Holding n me w → RDue n me N d w →
      Holding n me (run ser w os) ∧ RDue n me N d (run ser w os) := by
  induction os with
  | nil => intro w _ h h'; exact ⟨h, h'⟩
  | cons x os ih =>
    rintro w ⟨hx, hos⟩ h hd
    have : Holding n me (step ser w x).1 ∧ RDue n me N d (step ser w x).1 := by
      rcases hx with hx | ⟨o, kind, rfl, hn, hrun, hk, hf, hs⟩
      · exact ⟨(calm_holding ser hx h).1, calm_rdue ser hx h hd⟩
      · obtain ⟨g1, g2⟩ := poll_holds ser hf hs hk hrun hn h
        refine ⟨g1, ?_⟩
        rcases hd with hw | ht
        · rcases rwatch_step_process ser hw (o := .recv me o kind) (by rintro (h | h | h) <;> cases h) with h | ⟨e, -, ⟨_, _, h, _⟩ | ⟨_, _, h⟩⟩
          · exact .inl h
          · cases h
          · cases h
        · exact absurd ht g2
    exact ih _ hos this.1 this.2

theorem Quietly.left {ser : V → B} {n me : Nat} {os' : List (Op B V)} (os : List (Op B V)) :
    ∀ {w : World B V}, Quietly ser n me w (os ++ os') → Quietly ser n me w os ∧ Quietly ser n me (run ser w os) os' := by
  induction os with
  | nil => intro w h; exact ⟨trivial, h⟩
  | cons x os ih => intro w h; exact ⟨⟨h.1, (ih h.2).1⟩, (ih h.2).2⟩

/-- The loss is told. -/
theorem loses_told (ser : V → B) {n me : Nat} {N : Node} {d : Dest} {w : World B V} {o : Op B V} (hl : Loses w n N o) (ho : Calm me o)
    (h : Holding n me w) (hd : RDue n me N d w) : Told n me (step ser w o).1 := by
  rcases hd with hw | ht
  · have hoth : Others me o := by
      rcases ho with ho | ⟨_, _, rfl⟩ | ⟨_, _, rfl⟩
      · exact ho
      · rcases hl with ⟨_, h, _⟩ | ⟨_, _, _, h, _⟩ <;> cases h
      · rcases hl with ⟨_, h, _⟩ | ⟨_, _, _, h, _⟩ <;> cases h
    rcases hl with ⟨p, rfl, hc⟩ | ⟨rp, refs, e, rfl, hn, hrun⟩
    · exact reported_told ser hw hoth (rwatch_lost hw rfl hc)
    · refine reported_told ser (e := e) hw hoth ?_
      have := rwatch_frame (e := e) rp refs hw
      rw [if_pos hn] at this
      simpa only [step, Op.caller, hrun, if_true, Op.exec] using this
  · exact (calm_holding ser ho h).2 ht

/-- A monitor of a pid whose node is not known. -/
theorem unknown_told (ser : V → B) (w : World B V) (hr : Reachable ser w) (a i k : Nat) (al : Option Bool)
    (hrun : running w a = true) (hk : lookupNode w k = none) :
    Holding w.nextRef a (step ser w (monOp a (.pid (.rem i k)) al)).1 ∧ Told w.nextRef a (step ser w (monOp a (.pid (.rem i k)) al)).1 := by
  have hu := reach_fresh hr w.nextRef (Nat.le_refl _)
  have hex := running_exists hrun
  have hlow : a < w.nextPid := by
    rcases Nat.lt_or_ge a w.nextPid with h | h
    · exact h
    · simp [exists?, reach_bounded hr a h] at hex
  rw [step_monOp ser w a _ al hrun]
  have hl : lookupNode (modBox (freshRef w a al) a (setMon · (.loc w.nextRef) (.forProcess (some (.rem i k))))) k = none := by
    have : ∀ w2 : World B V, w2.nodeRegs = w.nodeRegs → lookupNode w2 k = none := by
      intro w2 h; unfold lookupNode; rw [h]; exact hk
    apply this; simp
  simp only [monitorInstall, hl]
  show Holding w.nextRef a (act w (.mkMonDown a (.pid (.rem i k)) (.forProcess (some (.rem i k))) noconn al)) ∧
    Told w.nextRef a (act w (.mkMonDown a (.pid (.rem i k)) (.forProcess (some (.rem i k))) noconn al))
  have hbox : ∀ b, pmap (·.box) w a = some b → NoNodeDown (.loc w.nextRef) b.items ∧ NoNodeDown (.loc w.nextRef) b.chan := by
    intro b hb
    have := hu.box a b hb
    refine ⟨?_, ?_⟩ <;> rintro it hit N rfl
    · have := this.2.1 _ hit; simp [reports] at this
    · have := this.2.2 _ hit; simp [reports] at this
  refine ⟨⟨?_, ?_, ?_, ?_, ?_⟩, ?_⟩
  · rw [nextRef_act]; simp
  · rw [nextPid_act]; exact hlow
  · unfold exists? at hex ⊢; rw [ex_act]; exact hex
  · rw [nodeMons_act]; exact fun N i hm => hu.nodes N _ hm rfl
  · intro b hb
    rw [box_act] at hb
    simp only [if_true] at hb
    obtain ⟨b0, hb0, rfl⟩ := Option.map_eq_some_iff.1 hb
    refine ⟨by simp [setMon, hasMon, deliver], (hbox b0 hb0).1, ?_⟩
    intro y hy
    rcases List.mem_append.1 hy with hy | hy
    · exact (hbox b0 hb0).2 y hy
    · simp at hy; subst hy; simp
  · unfold exists? at hex
    cases hp : w.procs a with
    | none => rw [hp] at hex; simp at hex
    | some p =>
      refine ⟨deliver (setMon p.box (.loc w.nextRef) (.forProcess (some (.rem i k)))) (.down (.pid (.rem i k)) (.loc w.nextRef) noconn), .pid (.rem i k), noconn,
        by rw [box_act]; simp only [if_true, pmap, hp, Option.map_some], ?_⟩
      simp [deliver]

theorem waits_no_monOp {ser : V → B} {n me : Nat} {w : World B V} {d : Dest} {al : Option Bool} (os : List (Op B V)) (h : Quietly ser n me w os) :
    monOp me d al ∉ os := by
  induction os generalizing w with
  | nil => simp
  | cons x os ih =>
    intro hm
    rcases List.mem_cons.1 hm with rfl | hm
    · cases al <;> rcases h.1 with (⟨h, -⟩ | ⟨_, _, h⟩ | ⟨_, _, h⟩) | ⟨o, k, h, -⟩
      all_goals first | cases h; done | exact h rfl
    · exact ih h.2 hm

theorem rwakes (ser : V → B) (os0 : List (Op B V)) (me : Nat) (p : Prog B V R) (d : Dest) (al : Option Bool)
    (os1 os2 : List (Op B V)) (kind : RecvKind) (o : RecvOp B V) (h : WaitsFor ser me (run ser init os0) p d al os1 os2 kind o)
    (hg : RemoteGone ser (run ser init os0) (os1 ++ monOp me d al :: os2) me d al) :
    FinishesNow ser me (run ser init os0) p (os1 ++ monOp me d al :: os2) kind o := by
  obtain ⟨os1', os2', he, hg⟩ := hg
  have hb : monOp me d al ∉ os1 := by
    intro hm
    refine (h.before _ hm).1 ?_
    cases al <;> rfl
  obtain ⟨rfl, rfl⟩ := split_unique he hb (waits_no_monOp _ h.quiet)
  refine h.finish ?_
  have hw0 : run ser (run ser init os0) os1' = run ser init (os0 ++ os1') := by rw [run_append]
  rw [run_append, run_cons]
  have h2 := h.quiet
  rcases hg with ⟨i, k, rfl, hk⟩ | ⟨N, x, o', y, hN, rfl, hl⟩
  · obtain ⟨g1, g2⟩ := unknown_told ser _ (reach_run ⟨os0, rfl⟩ os1') me i k al h.run1 hk
    obtain ⟨k1, k2⟩ := told_run ser _ _ h2 g1 g2
    exact told_wakes h.accepts h.lax h.poll k1 k2
  · have hm : RMonitors (run ser (run ser init os0) os1') me N d (monOp me d al) := by
      refine ⟨hN, ?_⟩
      cases al with
      | none => exact .inl rfl
      | some b => exact .inr ⟨b, rfl⟩
    have hw := (rmonitors_step ser (os0 ++ os1') me N d (monOp me d al) (by rw [← hw0]; exact hm) (by rw [← hw0]; exact h.run1)).2
    rw [← hw0] at hw
    obtain ⟨q1, q2⟩ := Quietly.left x h2
    obtain ⟨k1, k2⟩ := quietly_rrun ser x _ q1 (rwatch_holding hw) (.inl hw)
    rw [run_append, run_cons] at hl
    have hcalm : Calm me o' := by
      rcases q2.1 with h | ⟨_, _, rfl, -⟩
      · exact h
      · rcases hl with ⟨_, h, _⟩ | ⟨_, _, _, h, _⟩ <;> cases h
    have ht := loses_told ser hl hcalm k1 k2
    obtain ⟨j1, j2⟩ := told_run ser y _ q2.2 (calm_holding ser hcalm k1).1 ht
    rw [run_append, run_cons]
    exact told_wakes h.accepts h.lax h.poll j1 j2

/-! ## Theorems -/

/-- C115. A process that waits in `GenServer::stop` for a server of another node that is lost: its next poll returns, and the call
is over. With or without a time limit. -/
theorem C115_stop {M : Type} (τ : RecvType B V (GMsg M)) (ser : V → B) (os0 ops : List (Op B V)) (me : Nat) (d : Dest)
    (reason : ExitReason) (limited : Bool) (kind : RecvKind) (o : RecvOp B V)
    (t : Option (Prog B V (Except ExitReason Unit))) (k : Msg o.T → Prog B V (Except ExitReason Unit))
    (h : At ser me (run ser init os0) (stopProg τ me d reason limited) ops (.wait kind o t k))
    (hg : RemoteGone ser (run ser init os0) ops me d none) (halive : running (run ser (run ser init os0) ops) me = true) :
    FinishesNow ser me (run ser init os0) (stopProg τ me d reason limited) ops kind o := by
  obtain ⟨os1, os2, rfl, hw⟩ := stop_waits τ ser _ ops me d reason limited kind o t k h halive
  exact rwakes ser os0 me _ d none os1 os2 kind o hw hg

/-- C115. A process that waits in `GenServer::call` for a server of another node that is lost: its next poll returns (with the
Down, or with a reply that came before), and the call is over after at most one more operation. The time limit is not needed. -/
theorem C115_call {M : Type} (τ : RecvType B V (GMsg M)) (ser : V → B) (os0 ops : List (Op B V)) (me : Nat) (d : Dest)
    (message : M) (hd : destLocal d = false) (kind : RecvKind) (o : RecvOp B V)
    (t : Option (Prog B V (Except CallError M))) (k : Msg o.T → Prog B V (Except CallError M))
    (h : At ser me (run ser init os0) (callProg τ me d message) ops (.wait kind o t k))
    (hg : RemoteGone ser (run ser init os0) ops me d (some true)) (halive : running (run ser (run ser init os0) ops) me = true) :
    FinishesNow ser me (run ser init os0) (callProg τ me d message) ops kind o := by
  obtain ⟨os1, os2, rfl, hw⟩ := call_waits τ ser _ ops me d message kind o t k h halive
  have hop : callAlias d = some true := by unfold callAlias; rw [hd]; rfl
  rw [hop] at hw hg ⊢
  exact rwakes ser os0 me _ d _ os1 os2 kind o hw hg

/-- C115. A process that waits, in the shutdown of a child on another node, for the child to end: if the child is lost, the next
poll returns and the shutdown is over after two more operations; in every mode. -/
theorem C115_shutdown (u : RecvType B V Unit) (ser : V → B) (os0 ops : List (Op B V)) (me : Nat) (c : Pid)
    (mode : ShutdownMode) (kind : RecvKind) (o : RecvOp B V)
    (t : Option (Prog B V (Except ExitReason Unit))) (k : Msg o.T → Prog B V (Except ExitReason Unit))
    (h : At ser me (run ser init os0) (shutdownProg u me c mode) ops (.wait kind o t k))
    (hg : RemoteGone ser (run ser init os0) ops me (.pid c) none) (halive : running (run ser (run ser init os0) ops) me = true) :
    FinishesNow ser me (run ser init os0) (shutdownProg u me c mode) ops kind o := by
  obtain ⟨os1, os2, rfl, hw⟩ := shutdown_waits u ser _ ops me c mode kind o t k h halive
  exact rwakes ser os0 me _ _ none os1 os2 kind o hw hg

/-! ## Concrete cases -/

def farNode : Node := .rem "b" (addr 2)
def farSrv : Dest := .pid (.rem 7 1)

/-- Process 1 is connected to the node b: process 3 is the supervisor of the connection. -/
def joinedB : List (Op Nat (GMsg Nat)) := [.boot, .nodeStart 1 "a" (addr 1), .connect 1 farNode, .workers farNode 8 9]

/-- Process 1 calls process 7 of node b, which is lost before it answers. -/
def lostCall : List (Op Nat (GMsg Nat)) :=
  [.monitorAlias 1 farSrv true, .send 1 (.one farSrv) (.call ⟨.loc 1, .loc 1, true⟩ 7),
   .recv 1 ⟨GMsg Nat, natServer, isAnswer (.loc 1), false⟩ .select, .supDown farNode 3]

example : ∃ t k, At noSer 1 (run noSer init joinedB) (callProg natServer 1 farSrv 7) lostCall
    (.wait .resume ⟨GMsg Nat, natServer, isAnswer (.loc 1), false⟩ t k) :=
  ⟨_, _, .op rfl (.op rfl (.pending rfl rfl (.env ⟨by simp [Op.caller], by simp⟩ (.here _ _))))⟩

example : RemoteGone noSer (run noSer init joinedB) lostCall 1 farSrv (some true) :=
  ⟨[], lostCall.tail, rfl, .inr ⟨farNode, (lostCall.take 3).tail, .supDown farNode 3, [], rfl, rfl, .inl ⟨3, rfl, 1, _, rfl, rfl, .inr rfl⟩⟩⟩
example : running (run noSer (run noSer init joinedB) lostCall) 1 = true ∧ destLocal farSrv = false := ⟨rfl, rfl⟩

/-- Before the loss the poll does find nothing. -/
example : received (run noSer (run noSer init joinedB) (lostCall.take 3)) 1 ⟨GMsg Nat, natServer, isAnswer (.loc 1), false⟩ .resume = none := rfl

/-- Process 1 stops a server of node b, which tells that it is dead. -/
def toldStop : List (Op Nat (GMsg Nat)) :=
  [.monitor 1 farSrv, .send 1 (.one farSrv) (.stop .kill), .frame 3 farNode (.monitorDown [5, 1] .kill)]

example : ∃ t k, At noSer 1 (run noSer init joinedB) (stopProg natServer 1 farSrv .kill false) toldStop
    (.wait .select ⟨GMsg Nat, natServer, isDown (.loc 1), false⟩ t k) :=
  ⟨_, _, .op rfl (.op rfl (.env ⟨by simp [Op.caller], by simp⟩ (.here _ _)))⟩
example : RemoteGone noSer (run noSer init joinedB) toldStop 1 farSrv none :=
  ⟨[], _, rfl, .inr ⟨farNode, [_], _, [], rfl, rfl, .inr ⟨3, [5, 1], .kill, rfl, by simp [joinedB]; decide, rfl⟩⟩⟩

/-- Process 1 shuts a process down whose node it does not know. -/
example : ∃ t k, At noSer 1 (run noSer init joinedB) (shutdownProg anyUnit 1 (.rem 7 5) .infinity)
    [.monitor 1 (.pid (.rem 7 5)), .exit 1 (.rem 7 5) (.custom "shutdown")]
    (.wait .select ⟨Unit, anyUnit, isDown (.loc 1), false⟩ t k) :=
  ⟨_, _, .op rfl (.op rfl (.here _ _))⟩
example : RemoteGone noSer (run noSer init joinedB) [.monitor 1 (.pid (.rem 7 5)), .exit 1 (.rem 7 5) (.custom "shutdown")] 1 (.pid (.rem 7 5)) none :=
  ⟨[], _, rfl, .inl ⟨7, 5, rfl, rfl⟩⟩

end Verif.World
