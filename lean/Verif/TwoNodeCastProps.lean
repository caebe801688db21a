import Verif.TwoNodeCallProps
import Verif.ReceiveOrderProps
/-!
# A cast and then a call to a server of another node (C120)

A process of the left node casts to a server of the right node; after that a process of the left node calls the server. Both requests cross
the connection.
-/
namespace Verif.World
open Verif.Mailbox
variable {B V M S R : Type}

/-! ## Specification -/

/-- During `l`, after `w`, the process `q` of left casts `m` to the process `s` of right. -/
structure CastFrom (ser : Sers V B) (c : Conn) (τL : RecvType B V (GMsg M)) (d : Duo B V) (l w : List (DOp B V)) (q s : Nat) (m : M) : Prop where
  part : w ++ [.left (castMsg τL q (.pid (.rem s c.idR)) m)] <+: l
  runs : running (drun ser c d w).L q = true

/-! ## Lemmas -/

/-- The line only grows. -/
theorem line_grows {ser : Sers V B} {c : Conn} (l : List (DOp B V)) : ∀ {d : Duo B V}, CInv ser c d → (∀ s ∈ l, Legal c s) →
    onLine c.nR c.sL d.L <+: onLine c.nR c.sL (drun ser c d l).L := by
  induction l with
  | nil => intro d _ _; exact List.prefix_rfl
  | cons s l ih =>
    intro d hi hl
    obtain ⟨hi', hcase⟩ := dstep_moves hi s (hl s List.mem_cons_self)
    refine List.IsPrefix.trans ?_ (ih hi' (fun s hs => hl s (.tail _ hs)))
    rcases hcase with hk | ⟨o, k, hm, -⟩ | ⟨o, k, hm, -⟩
    · rw [hk.1]; exact List.prefix_rfl
    · obtain ⟨new, -, h, -⟩ := hm.new
      rw [h]; exact List.prefix_append ..
    · rw [hm.L]; exact List.prefix_rfl

theorem getsRight_len (c : Conn) (d : Duo B V) (s : DOp B V) : (getsRight c d s).length ≤ 1 := by
  cases s <;> simp only [getsRight] <;> try simp
  split
  · split <;> simp
  · simp

/-- The step of the schedule at which right got a frame. -/
theorem gotRight_at (ser : Sers V B) (c : Conn) (l : List (DOp B V)) : ∀ (d : Duo B V) (a : List (NFrame B)) (f : NFrame B) (b : List (NFrame B)),
    gotRight ser c d l = a ++ f :: b → ∃ u s v, l = u ++ s :: v ∧ getsRight c (drun ser c d u) s = [f] ∧ a = gotRight ser c d u := by
  induction l with
  | nil => intro d a o b h; simp [gotRight] at h
  | cons s l ih =>
    intro d a o b h
    replace h : getsRight c d s ++ gotRight ser c (dstep ser c d s) l = a ++ o :: b := h
    have hlen := getsRight_len c d s
    cases hs : getsRight c d s with
    | nil =>
      rw [hs, List.nil_append] at h
      obtain ⟨u, s', v, rfl, h1, h2⟩ := ih _ _ _ _ h
      exact ⟨s :: u, s', v, rfl, h1, by rw [h2]; simp [gotRight, hs]⟩
    | cons x xs =>
      have : xs = [] := by rw [hs] at hlen; cases xs with
        | nil => rfl
        | cons _ _ => simp at hlen
      subst this
      rw [hs] at h
      cases a with
      | nil =>
        simp at h
        obtain ⟨rfl, rfl⟩ := h
        exact ⟨[], s, l, rfl, hs, rfl⟩
      | cons y a =>
        simp only [List.cons_append, List.nil_append, List.cons.injEq] at h
        obtain ⟨rfl, h'⟩ := h
        obtain ⟨u, s', v, rfl, h1, h2⟩ := ih _ _ _ _ h'
        exact ⟨s :: u, s', v, rfl, h1, by rw [h2]; simp [gotRight, hs]⟩

theorem getsRight_cases {c : Conn} {d : Duo B V} {s : DOp B V} {f : NFrame B} (h : getsRight c d s = [f]) :
    ∃ rp, s = .toR rp ∧ d.nextR c = some f ∧ running d.R rp = true := by
  cases s <;> simp only [getsRight] at h <;> try simp at h
  rename_i rp
  split at h
  · rename_i f' hf
    split at h
    · rename_i hrun; simp at h; subst h; exact ⟨rp, rfl, hf, hrun⟩
    · simp at h
  · simp at h

/-- What right executes are its own operations and the frames it has got. -/
theorem rightOps_mem {ser : Sers V B} {c : Conn} (l : List (DOp B V)) : ∀ {d : Duo B V} {o : Op B V}, o ∈ rightOps ser c d l →
    .right o ∈ l ∨ ∃ rp f, o = .frame rp c.nL f ∧ f ∈ gotRight ser c d l := by
  induction l with
  | nil => intro d o h; simp [rightOps] at h
  | cons s l ih =>
    intro d o h
    rcases List.mem_append.1 (h : o ∈ rightOp c d s ++ rightOps ser c (dstep ser c d s) l) with h | h
    · have e : rightOp c d s = [o] := by
        have := rightOp_len c d s
        generalize rightOp c d s = z at *
        match z, this with
        | [x], _ => simp at h; rw [h]
        | [], _ => simp at h
        | _ :: _ :: _, this => simp at this
      rcases rightOp_cases e with rfl | ⟨rp, f, rfl, rfl, h3, h4⟩
      · exact .inl List.mem_cons_self
      · exact .inr ⟨rp, f, rfl, List.mem_append_left _ (by simp [getsRight, h3, h4])⟩
    · rcases ih h with h | ⟨rp, f, h1, h2⟩
      · exact .inl (.tail _ h)
      · exact .inr ⟨rp, f, h1, List.mem_append_right _ h2⟩

/-- The message that a process of left sends to one of right is the newest on the line. -/
theorem send_line {ser : Sers V B} {c : Conn} {d : Duo B V} (hi : CInv ser c d) {q s : Nat} {v : V}
    (hl : Legal c (.left (.send q (.one (.pid (.rem s c.idR))) v) : DOp B V)) (hr : running d.L q = true) :
    onLine c.nR c.sL (dstep ser c d (.left (.send q (.one (.pid (.rem s c.idR))) v))).L = onLine c.nR c.sL d.L ++ [.send [.pid s] (ser.L v)] := by
  have ha : askedFor c.idR (dstep ser c d (.left (.send q (.one (.pid (.rem s c.idR))) v))).L = askedFor c.idR d.L ++ [.send [.pid s] (ser.L v)] := by
    simp only [dstep, step, Op.caller, hr, if_true, Op.exec, send, sendOpt, destLocal, Pid.isLocal, Bool.false_eq_true, if_false]
    unfold askedFor; rw [sendFrame_asked]; simp [Pid.node, Pid.id]
  obtain ⟨-, hk | ⟨o, k, hm, -⟩ | ⟨o, k, hm, -⟩⟩ := dstep_moves hi _ hl
  · rw [hk.1] at ha; simp at ha
  · obtain ⟨new, -, h2, h3, -⟩ := hm.new
    rw [ha] at h3
    rw [h2, List.append_cancel_left h3]
  · rw [hm.L] at ha; simp at ha

/-- A message that was on the line before any marked one arrives before any marked one. -/
theorem arrives_first {ser : Sers V B} {c : Conn} {d : Duo B V} {l w1 w2 u3 v3 : List (DOp B V)} {q s : Nat} {v : V} {P : B → Bool} {ts : List Target} {b : B}
    (hb : Begins ser c d) (hleg : ∀ s ∈ l, Legal c s) (hl : l = w1 ++ .left (.send q (.one (.pid (.rem s c.idR))) v) :: w2)
    (hr : running (drun ser c d w1).L q = true) (hv : P (ser.L v) = false)
    (hw : ∀ me ds z, .left (.send me ds z) ∈ w1 → P (ser.L z) = false) (hl3 : l = u3 ++ v3) (h3 : (drun ser c d u3).nextR c = some (.send ts b)) (hP : P b = true) :
    ∃ e1 rp e2, u3 = e1 ++ .toR rp :: e2 ∧ (drun ser c d e1).nextR c = some (.send [.pid s] (ser.L v)) ∧ running (drun ser c d e1).R rp = true ∧
      w1.length < e1.length ∧ ∀ f ∈ gotRight ser c d e1, marks P f = false := by
  have leg : ∀ {a z : List (DOp B V)}, l = a ++ z → ∀ s ∈ a, Legal c s := fun h s hs => hleg s (by rw [h]; exact List.mem_append_left _ hs)
  have lw1 := leg hl
  have ld : Legal c (.left (.send q (.one (.pid (.rem s c.idR))) v) : DOp B V) := hleg _ (by rw [hl]; simp)
  have i1 := cinv_run w1 hb.cinv lw1
  have hsend := send_line i1 ld hr
  rw [← drun_snoc] at hsend
  -- what was on the line before
  have hL1 : ∀ f ∈ onLine c.nR c.sL (drun ser c d w1).L, marks P f = false := by
    intro f hf
    cases f with
    | send ts' b' =>
      rcases line_from w1 hb.cinv lw1 hf with h | ⟨a, me, ds, z, a', rfl, -, rfl, -⟩
      · rw [hb.line.1] at h; cases h
      · exact hw me ds z (by simp)
    | _ => rfl
  have got : ∀ {a z : List (DOp B V)}, l = a ++ z → gotRight ser c d a ++ toRight c (drun ser c d a) = onLine c.nR c.sL (drun ser c d a).L := by
    intro a z h
    have := got_line (g := []) a hb.cinv (leg h) (by rw [hb.line.1, hb.line.2]; rfl)
    simpa using this
  have next : ∀ {a : List (DOp B V)} {f : NFrame B}, (drun ser c d a).nextR c = some f → ∃ r, toRight c (drun ser c d a) = f :: r :=
    fun h => ⟨_, (next_drop _ _ _ _ h).1⟩
  -- the marked one was not on the line
  have pre3 : w1 ++ [.left (.send q (.one (.pid (.rem s c.idR))) v)] <+: u3 := by
    obtain ⟨a, me, ds, z, a', hu, -, rfl, -⟩ := next_from hb (leg hl3) h3
    have hle : w1.length < a.length := by
      have hla : l = a ++ .left (.send me ds z) :: (a' ++ v3) := by rw [hl3, hu]; simp
      rcases Nat.lt_trichotomy w1.length a.length with h | h | h
      · exact h
      · obtain ⟨-, h2⟩ := List.append_inj (hl.symm.trans hla) h
        simp at h2
        obtain ⟨⟨-, -, h2⟩, -⟩ := h2
        subst h2; rw [hP] at hv; cases hv
      · have : a ++ [.left (.send me ds z)] <+: w1 :=
          List.prefix_of_prefix_length_le (l₃ := l) ⟨a' ++ v3, by rw [hla]; simp⟩ ⟨_, hl.symm⟩ (by simp; omega)
        obtain ⟨y, hy⟩ := this
        have := hw me ds z (by rw [← hy]; simp)
        rw [hP] at this; cases this
    refine List.prefix_of_prefix_length_le (l₃ := l) ⟨w2, by rw [hl]; simp⟩ ⟨v3, hl3.symm⟩ ?_
    rw [hu]; simp; omega
  obtain ⟨z3, hz3⟩ := pre3
  have l3 := leg hl3
  have lw2 : ∀ z ∈ w1 ++ [.left (.send q (.one (.pid (.rem s c.idR))) v)], Legal c z := fun z hs => l3 z (by rw [← hz3]; exact List.mem_append_left _ hs)
  have i2 := cinv_run _ hb.cinv lw2
  obtain ⟨new, hnew⟩ := line_grows z3 i2 (fun s hs => l3 s (by rw [← hz3]; exact List.mem_append_right _ hs))
  rw [← drun_append, hz3, ← got hl3, hsend] at hnew
  obtain ⟨r3, hr3⟩ := next h3
  rw [hr3] at hnew
  obtain ⟨g, hg, -⟩ := append_past (l1 := onLine c.nR c.sL (drun ser c d w1).L ++ [.send [.pid s] (ser.L v)]) hnew (by
    intro hm
    have : marks P (.send ts b) = false := by
      rcases List.mem_append.1 hm with h | h
      · exact hL1 _ h
      · simp at h; rw [h.1, h.2]; exact hv
    simp [marks, hP] at this)
  obtain ⟨e1, s1, e2, rfl, h1, h2⟩ := gotRight_at ser c u3 d (onLine c.nR c.sL (drun ser c d w1).L) (.send [.pid s] (ser.L v)) g (by rw [hg]; simp)
  obtain ⟨rp, rfl, h4, h5⟩ := getsRight_cases h1
  refine ⟨e1, rp, e2, rfl, h4, h5, ?_, by rw [← h2]; exact hL1⟩
  have le1 : l = e1 ++ (.toR rp :: e2 ++ v3) := by rw [hl3]; simp
  have hge := got le1
  obtain ⟨r4, hr4⟩ := next h4
  rw [hr4, ← h2] at hge
  rcases Nat.lt_or_ge w1.length e1.length with h | h
  · exact h
  · exfalso
    have : e1 <+: w1 := List.prefix_of_prefix_length_le (l₃ := l) ⟨_, le1.symm⟩ ⟨_, hl.symm⟩ h
    obtain ⟨y, rfl⟩ := this
    have := line_grows (ser := ser) (c := c) y (cinv_run e1 hb.cinv (leg le1)) (fun s hs => lw1 s (by simp [hs]))
    rw [← drun_append, ← hge] at this
    have := this.length_le
    simp at this
    omega

theorem received_absent {w : World B V} {s : Nat} {o : RecvOp B V} {k : RecvKind} (h : w.procs s = none) : received w s o k = none := by
  simp [received, recv, h]

theorem castOf_inv {m : M} {g : GMsg M} (h : castOf m g = true) : g = .cast m := by
  cases g with
  | cast k => simp [castOf] at h; rw [h]
  | _ => simp [castOf] at h

/-! ## Theorems -/

/-- C120. Read your writes across nodes: if a process casts to a server of another node before a call of the same node to that server begins,
and the call returns, then the server handled the cast before the call. -/
theorem C120_cast_then_call (ser : Sers V B) (c : Conn) (srv : Server B V M S) (τL τR : RecvType B V (GMsg M)) (lr rl : Carry M) (s : Nat) (parent : Pid)
    (d : Duo B V) (GL GR : List (Op B V)) (l : List (DOp B V)) (hs os : List (Op B V)) (σ : S) (n : Nat) (log : Log M S) (u v : List (DOp B V))
    (me : Nat) (dest : Dest) (m x : M) (t : Nat) (w : List (DOp B V)) (q : Nat) (m' : M)
    (hb : Begins ser c d) (hL : d.L = run ser.L init GL) (hR : d.R = run ser.R init GR)
    (hleg : ∀ s ∈ l, Legal c s) (hsp : Speaks ser c τL τR lr rl) (hr : Mutes ser.R srv s (AnswersLeft ser τL))
    (hcohL : Coherent τL (GL ++ leftOps ser c d l)) (hcohR : Coherent τR (GR ++ rightOps ser c d l))
    (hs' : Serves ser.R srv τR s parent (GR ++ rightOps ser c d l) hs os σ n log)
    (hc : CalledFrom ser c τL d l u v me dest m x t) (hu : UnforgedAcross ser c τL τR s d GL GR l hs os u v me t)
    (hcast : CastFrom ser c τL d l w q s m') (hread : τR.deser (ser.L (τL.box (.cast m'))) = some (.cast (lr.msg m')))
    (hlr : LeavesRequests ser.R srv τR (castOf (lr.msg m')) s)
    (hserver : running (run ser.R init hs) s = true) (hafter : hs.length ≤ (GR ++ rightOps ser c d w).length) (hbefore : w.length < u.length) :
    ∃ cs1 r' cs2 r cs3, log.calls = cs1 ++ r' :: (cs2 ++ r :: cs3) ∧ r'.what = .cast (lr.msg m') ∧ HandledFrom c lr rl r me dest m x t := by
  obtain ⟨a1, o, b1, a, b, cs, r, n', log', -, -, -, -, -, hlog, hh, u3, rp3, v3, ts3, p, kind, qq, hl3, hnext, hp, hhs, hqq, hrec, frm, y, hrd, htag⟩ :=
    call_located_from hb hL hR hleg hsp hr hcohL hcohR hs' hc hu
  obtain ⟨w2, hw2⟩ := hcast.part
  have hl : l = w ++ .left (.send q (.one (.pid (.rem s c.idR))) (τL.box (.cast m'))) :: w2 := by rw [← hw2]; simp [castMsg]
  obtain ⟨Aq, Cq, hlA, huA, hreq⟩ := request_step hc hu
  -- the requests of the call
  let Y : GMsg M → Bool := fun g => match g with | .call frm _ => decide (frm.tag = .rem t c.idL) | _ => false
  let P : B → Bool := fun b => (τR.deser b).any Y
  have hY : ∀ g, Y g = true → ∃ frm y, g = .call frm y ∧ frm.tag = .rem t c.idL := by
    intro g hg
    cases g with
    | call f z => exact ⟨f, z, rfl, by simpa [Y] using hg⟩
    | _ => simp [Y] at hg
  have hPv : P (ser.L (τL.box (.cast m'))) = false := by simp [P, hread, Y]
  obtain ⟨e1, rp, e2, rfl, h1, h2, h3, h4⟩ := arrives_first (P := P) hb hleg hl hcast.runs hPv (by
      intro me' ds z hm
      cases hz : P (ser.L z) with
      | false => rfl
      | true =>
        simp only [P, Option.any_eq_true] at hz
        obtain ⟨g, hg, hYg⟩ := hz
        obtain ⟨f, k, rfl, hf⟩ := hY g hYg
        obtain ⟨g1, g2, rfl⟩ := List.append_of_mem hm
        obtain ⟨he, -, -⟩ := hreq g1 me' ds z _ f k (by rw [hl, List.append_assoc, List.cons_append]) hg hf
        subst he
        simp at hbefore
        omega) hl3 hnext (by simp [P, hrd, Y, htag])
  -- where the cast arrives
  have hops : rightOps ser c d (e1 ++ .toR rp :: e2) = rightOps ser c d e1 ++ .frame rp c.nL (.send [.pid s] (ser.L (τL.box (.cast m')))) ::
      rightOps ser c (drun ser c d (e1 ++ [.toR rp])) e2 := by
    rw [rightOps_append, drun_snoc]
    simp only [rightOps]
    rw [show rightOp c (drun ser c d e1) (.toR rp) = [.frame rp c.nL (.send [.pid s] (ser.L (τL.box (.cast m'))))] by simp [rightOp, h1, h2]]
    rfl
  obtain ⟨p', hp'⟩ := hp
  have hG : hs ++ os = (GR ++ rightOps ser c d e1) ++ .frame rp c.nL (.send [.pid s] (ser.L (τL.box (.cast m')))) ::
      (rightOps ser c (drun ser c d (e1 ++ [.toR rp])) e2 ++ qq ++ p') := by
    rw [← hp', ← List.append_assoc, hhs, hops]; simp
  have hpre : hs <+: GR ++ rightOps ser c d e1 := by
    refine List.prefix_of_prefix_length_le (l₃ := hs ++ os) (List.prefix_append ..) (by rw [hG]; exact List.prefix_append ..) ?_
    have : w <+: e1 := List.prefix_of_prefix_length_le (l₃ := l) ⟨_, hl.symm⟩ ⟨.toR rp :: e2 ++ .toR rp3 :: v3, by rw [hl3]; simp⟩ (by omega)
    obtain ⟨z, rfl⟩ := this
    rw [rightOps_append]
    simp at hafter ⊢; omega
  -- the server is still there
  have hex : ((run ser.R init (GR ++ rightOps ser c d e1)).procs s).isSome = true := by
    cases hq : (run ser.R init (GR ++ rightOps ser c d e1)).procs s with
    | some _ => rfl
    | none =>
      exfalso
      have hlt0 : s < (run ser.R init hs).nextPid := by
        rcases Nat.lt_or_ge s (run ser.R init hs).nextPid with h | h
        · exact h
        · have := running_exists hserver
          simp [exists?, reach_bounded ⟨hs, rfl⟩ s h] at this
      obtain ⟨z, hz⟩ := hpre
      have hlt : s < (run ser.R init (GR ++ rightOps ser c d e1)).nextPid := by
        rw [← hz, run_append]
        exact Nat.lt_of_lt_of_le hlt0 (run_nextPid_le ..)
      have hgone := (absent_run ser.R _ (.frame rp c.nL (.send [.pid s] (ser.L (τL.box (.cast m')))) :: rightOps ser c (drun ser c d (e1 ++ [.toR rp])) e2 ++ qq) s hlt hq).1
      rw [← run_append] at hgone
      rw [hhs, hops] at hrec
      have e : GR ++ rightOps ser c d e1 ++ (.frame rp c.nL (.send [.pid s] (ser.L (τL.box (.cast m')))) :: rightOps ser c (drun ser c d (e1 ++ [.toR rp])) e2 ++ qq) =
        GR ++ (rightOps ser c d e1 ++ .frame rp c.nL (.send [.pid s] (ser.L (τL.box (.cast m')))) :: rightOps ser c (drun ser c d (e1 ++ [.toR rp])) e2) ++ qq := by simp
      rw [e] at hgone
      rw [received_absent hgone] at hrec; cases hrec
  have hworld : (drun ser c d e1).R = run ser.R init (GR ++ rightOps ser c d e1) := by rw [right_run, hR, ← run_append]
  have hlands : Lands ser.R τR (castOf (lr.msg m')) s (run ser.R init (GR ++ rightOps ser c d e1))
      (.frame rp c.nL (.send [.pid s] (ser.L (τL.box (.cast m'))))) := by
    rw [hworld] at h2
    refine ⟨[(s, .remote (ser.L (τL.box (.cast m'))))], .remote (ser.L (τL.box (.cast m'))), ?_, by simp, ?_⟩
    · simp only [step, Op.caller, h2, if_true, Op.exec, recvFrame]
      exact (forward_same _ s [.pid s] (by simp) _ hex).1
    · simp [readsAs, asMsg, hread, castOf]
  have := C118_server ser.R srv τR s parent _ hs os σ n log (castOf (lr.msg m')) Y _ _ _
    (by intro g hg; cases castOf_inv hg; trivial) hlr hcohR hs' hG hpre ⟨by intro g hg; cases castOf_inv hg; rfl, hlands, ?_⟩ cs log'.calls r hlog
    (by simp [HandlesOne, hh.1, Y])
  · obtain ⟨r', hm, hx⟩ := this
    obtain ⟨f1, f2, rfl⟩ := List.append_of_mem hm
    refine ⟨f1, r', f2, r, log'.calls, by rw [hlog]; simp, ?_, hh⟩
    unfold HandlesOne at hx
    split at hx
    · rename_i k hk; rw [hk]; simp [castOf] at hx; rw [hx]
    · simp [castOf] at hx
    · exact hx.elim
  · rintro o ho ⟨it, g, hsb, hrd', hg⟩
    obtain ⟨f, k, rfl, hf⟩ := hY g hg
    have hbyte : ∀ ts b', it = .remote b' → o = .frame rp c.nL (.send ts b') ∨ True → P b' = true := by
      rintro ts b' rfl -
      have : τR.deser b' = some (.call f k) := hrd'
      simp [P, this, Y, hf]
    simp only [List.append_assoc, List.mem_append] at ho
    rcases ho with ho | ho | ho
    · exact hu.pastR o ho it f k hsb hrd' hf
    · rcases rightOps_mem e1 ho with ho | ⟨rp', fr, rfl, hfr⟩
      · exact hu.requestR o (by rw [hl3]; simp [ho]) it f k hsb hrd' hf
      · have := h4 fr hfr
        cases hsb with
        | frame _ _ ts b' =>
          have h' := hbyte ts b' rfl (.inr trivial)
          simp [marks, h'] at this
    · simp at ho
      subst ho
      cases hsb with
      | frame _ _ ts b' =>
        have h' := hbyte [.pid s] _ rfl (.inr trivial)
        rw [hPv] at h'; cases h'

/-! ## Example -/

abbrev castU : List (DOp (GMsg Nat) (GMsg Nat)) := [.right (.recv 1 anyG .select), .left (castMsg gserver 1 theServer 5)]

/-- A call that begins while the cast is on its way. -/
abbrev castCall : List (DOp (GMsg Nat) (GMsg Nat)) :=
  [.left (callMon 1 theServer), .left (request gserver 1 theServer (.loc 1) 7), .left (.recv 1 (awaits 1) .select), .toR 5,
   .right (.recv 1 anyG .resume), .right (.recv 1 anyG .select), .toR 5, .toR 5,
   .right (.recv 1 anyG .resume), .right (replyOp gserver 1 ⟨.rem 1 1, .rem 1 1, true⟩ 12), .toL 5, .left (.recv 1 (awaits 1) .resume),
   .left (.demonitor 1 (.loc 1))]

abbrev castTalk : List (DOp (GMsg Nat) (GMsg Nat)) := castU ++ castCall

abbrev castLog : Log Nat Nat :=
  ⟨[⟨.cast 5, 0, 5, .ok none⟩, ⟨.call 7 ⟨.rem 1 1, .rem 1 1, true⟩, 5, 12, .ok (some 12)⟩], none, 12⟩

theorem castTalk_left : leftOps talkSer duoC talk castTalk = castMsg gserver 1 theServer 5 :: calls 1 7 12 := rfl

theorem castTalk_called : CalledFrom talkSer duoC gserver talk castTalk castU castCall 1 theServer 7 12 1 := by
  refine ⟨⟨[], rfl⟩, ?_, [], _, rfl, by simp, rfl⟩
  rw [show leftOps talkSer duoC (drun talkSer duoC talk castU) castCall = calls 1 7 12 from rfl]
  refine .op rfl (.op rfl (.pending rfl rfl (.env ⟨by simp [Op.caller], by simp⟩ (.got (m := .user (.callReply (.loc 1) 12)) rfl rfl ?_))))
  exact .op rfl (.ret _ _)

abbrev castServes : List (Op (GMsg Nat) (GMsg Nat)) :=
  [.recv 1 anyG .select, .frame 5 (.rem "a" (addr 1)) (.send [.pid 1] (.cast 5)), .recv 1 anyG .resume, .recv 1 anyG .select,
   .frame 5 (.rem "a" (addr 1)) (.monitor true (some 1) none (some 1) 1),
   .frame 5 (.rem "a" (addr 1)) (.send [.pid 1] (.call ⟨.rem 1 1, .rem 1 1, true⟩ 7)), .recv 1 anyG .resume,
   replyOp gserver 1 ⟨.rem 1 1, .rem 1 1, true⟩ 12]

theorem castTalk_right : rightOps talkSer duoC talk castTalk = castServes := rfl

theorem castTalk_serves : Serves talkSer.R tally gserver 1 (.loc 1) (talkR ++ rightOps talkSer duoC talk castTalk) talkR
    (rightOps talkSer duoC talk castTalk) 0 2 castLog := by
  refine ⟨List.prefix_rfl, ?_⟩
  rw [castTalk_right]
  refine .pending rfl rfl (.env ⟨by simp [Op.caller], by simp⟩ (.got (m := .user (.cast 5)) rfl rfl ?_))
  refine .pending rfl rfl (.env ⟨by simp [Op.caller], by simp⟩ (.env ⟨by simp [Op.caller], by simp⟩
    (.got (m := .user (.call ⟨.rem 1 1, .rem 1 1, true⟩ 7)) rfl rfl (.op rfl ?_))))
  exact .ret _ _

def castSends : List (Option (Bool × GMsg Nat)) :=
  [none, some (true, .cast 5), none, some (true, .call ⟨.loc 1, .loc 1, true⟩ 7), none, none, none, none, none, none, none,
   some (false, .callReply (.rem 1 1) 12), none, none, none]

theorem castSends_at {k : Nat} {g : Bool × GMsg Nat} (h : castSends[k]? = some (some g)) :
    (k = 1 ∧ g = (true, .cast 5)) ∨ (k = 3 ∧ g = (true, .call ⟨.loc 1, .loc 1, true⟩ 7)) ∨ (k = 11 ∧ g = (false, .callReply (.rem 1 1) 12)) := by
  have hk : k < 15 := by
    rcases Nat.lt_or_ge k 15 with h' | h'
    · exact h'
    · rw [List.getElem?_eq_none (by simpa [castSends] using h')] at h; cases h
  rcases (by omega : k = 0 ∨ k = 1 ∨ k = 2 ∨ k = 3 ∨ k = 4 ∨ k = 5 ∨ k = 6 ∨ k = 7 ∨ k = 8 ∨ k = 9 ∨ k = 10 ∨ k = 11 ∨ k = 12 ∨ k = 13 ∨ k = 14) with
    rfl | rfl | rfl | rfl | rfl | rfl | rfl | rfl | rfl | rfl | rfl | rfl | rfl | rfl | rfl
  all_goals simp [castSends] at h
  all_goals (subst h; simp)

theorem castTalk_at {a b : List (DOp (GMsg Nat) (GMsg Nat))} {s} (h : castTalk = a ++ s :: b) {g} (hs : sentIn s = some g) :
    castSends[a.length]? = some (some g) ∧ castTalk[a.length]? = some s := by
  refine ⟨?_, by rw [h]; simp⟩
  rw [show castSends = castTalk.map sentIn from rfl, h]
  simp [hs]

theorem castTalk_noFrames {s} (h : s ∈ castTalk) : isFrameIn s = false := by
  have e : castTalk.map isFrameIn = List.replicate 15 false := rfl
  have := List.mem_map_of_mem (f := isFrameIn) h
  rw [e] at this
  exact (List.mem_replicate.1 this).2

theorem castTalk_leftIn {o : Op (GMsg Nat) (GMsg Nat)} (h : .left o ∈ castTalk) {it g} (hs : SentBy talkSer.L o it) (hr : Reads gserver it g) :
    ∀ r x, g ≠ .callReply r x := by
  obtain ⟨a, b, h'⟩ := List.append_of_mem h
  cases hs with
  | frame rp n ts b => cases castTalk_noFrames h
  | «local» me ds v =>
    obtain ⟨h1, -⟩ := castTalk_at h' (g := (true, v)) rfl
    cases hr
    rcases castSends_at h1 with ⟨-, h2⟩ | ⟨-, h2⟩ | ⟨-, h2⟩ <;> cases h2 <;> exact fun r x h => by cases h
  | serial me ds v =>
    obtain ⟨h1, -⟩ := castTalk_at h' (g := (true, v)) rfl
    cases hr
    rcases castSends_at h1 with ⟨-, h2⟩ | ⟨-, h2⟩ | ⟨-, h2⟩ <;> cases h2 <;> exact fun r x h => by cases h

theorem castTalk_rightIn {o : Op (GMsg Nat) (GMsg Nat)} (h : .right o ∈ castTalk) {it g} (hs : SentBy talkSer.R o it) (hr : Reads gserver it g) :
    ∃ r x, g = .callReply r x := by
  obtain ⟨a, b, h'⟩ := List.append_of_mem h
  cases hs with
  | frame rp n ts b => cases castTalk_noFrames h
  | «local» me ds v =>
    obtain ⟨h1, -⟩ := castTalk_at h' (g := (false, v)) rfl
    cases hr
    rcases castSends_at h1 with ⟨-, h2⟩ | ⟨-, h2⟩ | ⟨-, h2⟩ <;> cases h2 <;> exact ⟨_, _, rfl⟩
  | serial me ds v =>
    obtain ⟨h1, -⟩ := castTalk_at h' (g := (false, v)) rfl
    cases hr
    rcases castSends_at h1 with ⟨-, h2⟩ | ⟨-, h2⟩ | ⟨-, h2⟩ <;> cases h2 <;> exact ⟨_, _, rfl⟩

theorem castTalk_unforged : UnforgedAcross talkSer duoC gserver gserver 1 talk talkL talkR castTalk talkR (rightOps talkSer duoC talk castTalk) castU
    castCall 1 1 := by
  refine ⟨?_, ?_, ?_, ?_, ?_, ?_⟩
  · rintro o ho y ⟨it, hs, -⟩
    exact talk_past (.inl rfl) ho hs
  · intro o ho it frm y hs _
    exact absurd hs (talk_past (.inr rfl) ho)
  · intro a me' ds x b frm y h hd ht
    obtain ⟨h1, h2⟩ := castTalk_at h (g := (true, x)) rfl
    rcases castSends_at h1 with ⟨-, hg⟩ | ⟨hk, hg⟩ | ⟨-, hg⟩ <;> cases hg <;> cases hd
    rw [hk] at h2 ⊢
    cases h2
    exact ⟨rfl, by decide, by decide⟩
  · intro o ho it frm y hs hr
    obtain ⟨_, _, h⟩ := castTalk_rightIn ho hs hr
    cases h
  · rintro o ho y ⟨it, hs, hr⟩
    exact castTalk_leftIn ho hs hr _ _ rfl
  · intro a me' ds x b y h hd
    obtain ⟨h1, h2⟩ := castTalk_at h (g := (false, x)) rfl
    have ha : a = castTalk.take a.length := by rw [h]; simp
    rcases castSends_at h1 with ⟨-, hg⟩ | ⟨-, hg⟩ | ⟨hk, hg⟩ <;> cases hg <;> cases hd
    rw [hk] at h2
    cases h2
    rw [ha, hk]
    exact ⟨rfl, by decide +kernel, by decide +kernel⟩

theorem castTalk_coherentR : Coherent gserver (talkR ++ rightOps talkSer duoC talk castTalk) := by
  intro a o k h b t' x h1
  rw [castTalk_right] at h
  simp only [replyOp, List.cons_append, List.nil_append, List.mem_cons, List.not_mem_nil, or_false, reduceCtorEq, false_or] at h
  rcases h with h | h | h | h <;> cases h <;> (cases h1; exact id)

theorem castTalk_coherentL : Coherent gserver (talkL ++ leftOps talkSer duoC talk castTalk) := by
  intro a o k h b t' x h1
  rw [castTalk_left] at h
  simp only [callMon, monOp, theServer, destLocal, Pid.isLocal, request, castMsg, List.cons_append, List.nil_append, List.mem_cons, List.not_mem_nil, or_false,
    reduceCtorEq, false_or] at h
  rcases h with h | h | h <;> cases h <;> (cases h1; exact id)

theorem castTalk_legal : ∀ s ∈ castTalk, Legal duoC s := by
  intro s hs
  simp only [castTalk, castU, castCall, List.cons_append, List.nil_append, List.mem_cons, List.not_mem_nil, or_false] at hs
  rcases hs with h | h | h | h | h | h | h | h | h | h | h | h | h | h | h <;> subst h <;>
    simp [Legal, Undisturbed, callMon, monOp, destLocal, Pid.isLocal, request, replyOp, castMsg]

theorem tally_leaves (x : GMsg Nat → Bool) : LeavesRequests talkSer.R tally gserver x 1 := by
  have deaf : ∀ {R : Type} (r : R), Deaf talkSer.R gserver x 1 (.ret r : Prog (GMsg Nat) (GMsg Nat) R) := by
    intro R r w os r' h o k ho
    exact absurd rfl ((exec_ret_inv h).2 _ ho).1
  exact ⟨fun _ _ => deaf _, fun _ _ _ => deaf _, fun _ _ => deaf _⟩

/-- The call returns 12 = 5 + 7: it saw the cast. -/
example := C120_cast_then_call _ _ _ _ _ _ _ _ _ _ _ _ _ _ _ _ _ _ _ _ _ _ _ _ _ [.right (.recv 1 anyG .select)] 1 5 talk_begins rfl rfl castTalk_legal talk_speaks
  tally_mutes castTalk_coherentL castTalk_coherentR castTalk_serves castTalk_called castTalk_unforged ⟨⟨castCall, rfl⟩, rfl⟩ rfl (tally_leaves _) rfl
  (by decide +kernel) (by decide)

end Verif.World
