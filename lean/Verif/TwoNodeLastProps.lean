import Verif.TwoNodeCausalProps
/-!
# A death is the last thing one hears of a process of another node (C136)

A process of the left node monitors a process `t` of the right node, and `t` sends it a message: the message is put into the mailbox before the
Down, whatever happens in between and whenever `t` dies.
-/
namespace Verif.World
open Verif.Mailbox
variable {B V : Type}

/-! ## Specification -/

/-- During `l` the frame `f` arrives on the left node, at a moment when no Down for the monitor `n` has been put into any mailbox, and the payload `b` is put into
the mailbox of `a`. -/
def LandsBefore (ser : Sers V B) (c : Conn) (d : Duo B V) (n a : Nat) (b : B) (l : List (DOp B V)) : Prop :=
  ∃ z1 rp z2, l = z1 ++ .toL rp :: z2 ∧ (drun ser c d z1).nextL c = some (.send [.pid a] b) ∧
    repsOf (.loc n) (drun ser c d z1).L.sent = [] ∧
    (drun ser c d (z1 ++ [.toL rp])).L.sent = (drun ser c d z1).L.sent ++ [(a, .remote b)]

/-! ## Proof -/

theorem pid_lt_of_exists {ser : V → B} {w : World B V} (hr : ∃ os, w = run ser init os) {t : Nat} (h : exists? w t = true) : t < w.nextPid := by
  obtain ⟨os, rfl⟩ := hr
  by_cases hlt : t < (run ser init os).nextPid
  · exact hlt
  · have := reach_bounded (ser := ser) ⟨os, rfl⟩ t (by omega)
    rw [exists?, this] at h; cases h

theorem dsend_line {ser : Sers V B} {c : Conn} {d : Duo B V} (hi : CInv ser c d) {q s : Nat} {v : V}
    (hl : Legal c (.right (.send q (.one (.pid (.rem s c.idL))) v) : DOp B V)) (hr : running d.R q = true) :
    toLeft c (dstep ser c d (.right (.send q (.one (.pid (.rem s c.idL))) v))) = toLeft c d ++ [.send [.pid s] (ser.R v)] ∧
    (dstep ser c d (.right (.send q (.one (.pid (.rem s c.idL))) v))).L = d.L := by
  refine ⟨?_, rfl⟩
  have ha : askedFor c.idL (dstep ser c d (.right (.send q (.one (.pid (.rem s c.idL))) v))).R = askedFor c.idL d.R ++ [.send [.pid s] (ser.R v)] := by
    simp only [dstep, step, Op.caller, hr, if_true, Op.exec, send, sendOpt, destLocal, Pid.isLocal, Bool.false_eq_true, if_false]
    unfold askedFor; rw [sendFrame_asked]; simp [Pid.node, Pid.id]
  obtain ⟨-, hk | ⟨o, k, hm, -⟩ | ⟨o, k, hm, -⟩⟩ := dstep_moves hi _ hl
  · rw [hk.1] at ha; simp at ha
  · rw [hm.R] at ha; simp at ha
  · obtain ⟨new, h1, h2, h3, -⟩ := hm.new
    rw [ha] at h3
    rw [h1, List.append_cancel_left h3]

/-- A message that is on its way, with no Down for the monitor before it, arrives before any Down. -/
theorem lands_first {ser : Sers V B} {c : Conn} {n a : Nat} {dest : Dest} {b : B} (y : List (DOp B V)) : ∀ {d : Duo B V} {q1 q2 : List (NFrame B)},
    CInv ser c d → RWatch n a c.nR (.process a dest) d.L → toLeft c d = q1 ++ .send [.pid a] b :: q2 → q1.filter (tells n) = [] →
    (∀ s ∈ y, Legal c s ∧ ∀ o, s = .left o → ¬ Cancels n a o) →
    repsOf (.loc n) (drun ser c d y).L.sent = [] ∨ LandsBefore ser c d n a b y := by
  induction y with
  | nil => intro d q1 q2 _ hw _ _ _; exact .inl hw.sent
  | cons s y ih =>
    intro d q1 q2 hi hw hq hq1 hl
    obtain ⟨hs, hcan⟩ := hl s List.mem_cons_self
    have next : ∀ {q1' q2'}, RWatch n a c.nR (.process a dest) (dstep ser c d s).L → toLeft c (dstep ser c d s) = q1' ++ .send [.pid a] b :: q2' →
        q1'.filter (tells n) = [] → repsOf (.loc n) (drun ser c d (s :: y)).L.sent = [] ∨ LandsBefore ser c d n a b (s :: y) := by
      intro q1' q2' h1 h2 h3
      rcases ih (dstep_moves hi s hs).1 h1 h2 h3 (fun s hs => hl s (.tail _ hs)) with h | ⟨z1, rp, z2, rfl, e1, e2, e3⟩
      · exact .inl h
      · exact .inr ⟨s :: z1, rp, z2, rfl, e1, e2, e3⟩
    obtain ⟨-, hk | ⟨o, k, hm, hso⟩ | ⟨o, k, hm, -⟩⟩ := dstep_moves hi s hs
    · exact next (by rw [hk.1]; exact hw) (by rw [hk.1]; exact hq) hq1
    · have acts : ¬ (∃ rp refs e, o = .frame rp c.nR (.monitorDown refs e) ∧ n ∈ refs) → RWatch n a c.nR (.process a dest) (dstep ser c d s).L := by
        intro hnt
        rw [hm.L]
        refine rwatch_acts hw ?_ (step_acts ser.L d.L o)
        have hc : ¬ Cancels n a o := by
          rcases hso with rfl | ⟨rp, f, -, rfl, -⟩
          · exact hcan o rfl
          · rintro (h | h | h) <;> cases h
        rintro (h | h | h | ⟨p, h⟩ | h)
        · exact hc (.inl h)
        · exact hc (.inr (.inl h))
        · exact hc (.inr (.inr h))
        · have := hm.und; rw [h] at this; exact this rfl
        · exact hnt h
      have hgot := hm.got
      rcases hm.from_ with ⟨rfl, hno⟩ | ⟨rp, f, rfl, rfl, hrun, -⟩
      · rw [hq, List.nil_append] at hgot
        exact next (acts fun ⟨rp, refs, e, h, _⟩ => hno rp _ h) hgot.symm hq1
      · cases q1 with
        | nil =>
          rw [hq] at hgot
          simp only [List.nil_append, List.singleton_append, List.cons.injEq] at hgot
          obtain ⟨rfl, hgot⟩ := hgot
          refine .inr ⟨[], rp, y, ?_, ?_, hw.sent, ?_⟩
          · rcases hso with rfl | ⟨rp', f, rfl, h, -⟩
            · exact absurd rfl (hs.2 _ _)
            · cases h; rfl
          · rcases hso with rfl | ⟨rp', f, rfl, h, h'⟩
            · exact absurd rfl (hs.2 _ _)
            · cases h; exact h'
          · have hex : (d.L.procs a).isSome = true := hw.ex
            rcases hso with rfl | ⟨rp', f, rfl, h, h'⟩
            · exact absurd rfl (hs.2 _ _)
            · cases h
              show (dstep ser c d (.toL rp)).L.sent = _
              rw [hm.L]
              simp only [step, Op.caller, hrun, if_true, Op.exec, recvFrame]
              rw [(forward_same b a [.pid a] (by simp) d.L hex).1]
              rfl
        | cons g q1 =>
          rw [hq] at hgot
          simp only [List.cons_append, List.singleton_append, List.cons.injEq] at hgot
          obtain ⟨rfl, hgot⟩ := hgot
          rw [List.filter_eq_nil_iff] at hq1
          refine next (acts ?_) hgot.symm (List.filter_eq_nil_iff.2 fun f hf => hq1 f (.tail _ hf))
          rintro ⟨rp', refs, e, h, hn⟩
          cases h
          exact hq1 _ List.mem_cons_self (by simp [tells, hn])
    · obtain ⟨new, h1, -⟩ := hm.new
      refine next (by rw [hm.L]; exact hw) (q1' := q1) (q2' := q2 ++ new) ?_ hq1
      rw [h1, hq]; simp

/-- Before anything was said about the process, a message of it can be put on the line. -/
theorem last_of_target {ser : Sers V B} {c : Conn} {d0 : Duo B V} {dest : Dest} {a n t : Nat} {v : V} (hd : ∀ r, dest ≠ .alias r) (hi : CInv ser c d0)
    (h : Mon ser c d0 dest a n [] d0) (x y : List (DOp B V))
    (hl : ∀ s ∈ x ++ .right (.send t (.one (.pid (.rem a c.idL))) v) :: y, Legal c s ∧ ∀ o, s = .left o → ¬ Cancels n a o)
    (hx : running (drun ser c d0 x).R t = true) (ht : t < d0.R.nextPid) (harr : ∀ t', Arrived ser c d0 dest a n x t' → t' = some t) :
    repsOf (.loc n) (drun ser c d0 (x ++ .right (.send t (.one (.pid (.rem a c.idL))) v) :: y)).L.sent = [] ∨
    LandsBefore ser c (drun ser c d0 (x ++ [.right (.send t (.one (.pid (.rem a c.idL))) v)])) n a (ser.R v) y := by
  have hlx : ∀ s ∈ x, Legal c s ∧ ∀ o, s = .left o → ¬ Cancels n a o := fun s hs => hl s (List.mem_append_left _ hs)
  have hix := cinv_run x hi (fun s hs => (hlx s hs).1)
  have hsx := hl (.right (.send t (.one (.pid (.rem a c.idL))) v)) (by simp)
  have hmx := mon_run hd hi h x hlx
  have hpid : ∀ z, t < (drun ser c d0 z).R.nextPid := by
    intro z
    rw [right_run]
    exact Nat.lt_of_lt_of_le ht (run_nextPid_le ..)
  have hexx : exists? (drun ser c d0 x).R t = true := by
    unfold running at hx
    unfold exists?
    cases hp : (drun ser c d0 x).R.procs t with
    | none => rw [hp] at hx; simp at hx
    | some p => rfl
  have why : ∀ e, ¬ Why ser c d0 dest a n x e := by
    rintro e (⟨-, h⟩ | ⟨t', x1, x2, p, rfl, h1, h2, h3, -⟩)
    · cases harr _ h
    · have : t' = t := by
        obtain ⟨z, rp, z', rfl, r⟩ := h1
        have := harr (some t') ⟨z, rp, z' ++ .right (.drop t') :: x2, by simp, r⟩
        cases this; rfl
      subst this
      have hg : (drun ser c d0 (x1 ++ [.right (.drop t')])).R.procs t' = none := by
        rw [drun_snoc]
        simp only [dstep, step, Op.caller, Op.exec]
        rw [if_pos h3]
        have hn : ((drun ser c d0 x1).R.links t').Nodup := by
          have hi1 := cinv_run x1 hi (fun s hs => (hlx s (List.mem_append_left _ hs)).1)
          obtain ⟨os, hos⟩ := hi1.right.reach
          rw [hos]; exact run_linksNodup ser.R os t'
        exact (drop_eff _ _ _ h2 hn).1
      rw [show x1 ++ DOp.right (.drop t') :: x2 = (x1 ++ [.right (.drop t')]) ++ x2 by simp, drun_append, right_run] at hexx
      have := (absent_run ser.R _ (rightOps ser c (drun ser c d0 (x1 ++ [.right (.drop t')])) x2) t' (hpid _) hg).1
      rw [exists?, this] at hexx; cases hexx
  rcases hmx with ⟨e, -, h2⟩ | ⟨hw, hp⟩
  · exact absurd h2 (why e)
  · have hq : (toLeft c (drun ser c d0 x)).filter (tells n) = [] := by
      cases hp with
      | asked _ _ _ h => exact h
      | placed _ _ _ _ _ _ _ h => exact h
      | told _ _ _ _ _ _ h => exact absurd h (why _)
    obtain ⟨e1, e2⟩ := dsend_line hix hsx.1 hx
    have e : x ++ .right (.send t (.one (.pid (.rem a c.idL))) v) :: y = (x ++ [.right (.send t (.one (.pid (.rem a c.idL))) v)]) ++ y := by simp
    rw [e, drun_append, drun_snoc]
    exact lands_first y (dstep_moves hix _ hsx.1).1 (by rw [e2]; exact hw) e1 hq (fun s hs => hl s (by simp [hs]))

/-- What is on its way arrives in order. -/
theorem line_order {ser : Sers V B} {c : Conn} {G : NFrame B → Bool} {f0 : NFrame B} (z : List (DOp B V)) : ∀ {d : Duo B V} {q1 q2 : List (NFrame B)} {g : NFrame B},
    CInv ser c d → toLeft c d = q1 ++ f0 :: q2 → q1.filter G = [] → G f0 = false → (∀ s ∈ z, Legal c s) → (drun ser c d z).nextL c = some g → G g = true →
    ∃ e1 rp e2, z = e1 ++ .toL rp :: e2 ∧ (drun ser c d e1).nextL c = some f0 ∧ running (drun ser c d e1).L rp = true := by
  induction z with
  | nil =>
    intro d q1 q2 g hi hq hq1 hf0 _ hn hg
    exfalso
    obtain ⟨h1, -, -⟩ := next_drop (handed c.sR d.R) (d.R.pending c.nL) d.cR g hn
    replace h1 : toLeft c d = g :: _ := h1
    rw [hq] at h1
    cases q1 with
    | nil => simp at h1; rw [h1.1] at hf0; rw [hf0] at hg; cases hg
    | cons q q1 =>
      simp at h1
      rw [List.filter_eq_nil_iff] at hq1
      exact hq1 q List.mem_cons_self (by rw [h1.1]; exact hg)
  | cons s z ih =>
    intro d q1 q2 g hi hq hq1 hf0 hl hn hg
    have hs := hl s List.mem_cons_self
    obtain ⟨hi', hcase⟩ := dstep_moves hi s hs
    have next : ∀ {q1' q2'}, toLeft c (dstep ser c d s) = q1' ++ f0 :: q2' → q1'.filter G = [] →
        ∃ e1 rp e2, s :: z = e1 ++ .toL rp :: e2 ∧ (drun ser c d e1).nextL c = some f0 ∧ running (drun ser c d e1).L rp = true := by
      intro q1' q2' h1 h2
      obtain ⟨e1, rp, e2, rfl, h3, h4⟩ := ih hi' h1 h2 hf0 (fun s hs => hl s (.tail _ hs)) hn hg
      exact ⟨s :: e1, rp, e2, rfl, h3, h4⟩
    rcases hcase with hk | ⟨o, k, hm, hso⟩ | ⟨o, k, hm, -⟩
    · exact next (by rw [hk.1]; exact hq) hq1
    · have hgot := hm.got
      rcases hm.from_ with ⟨rfl, -⟩ | ⟨rp, f, rfl, rfl, hrun, -⟩
      · rw [hq, List.nil_append] at hgot
        exact next hgot.symm hq1
      · cases q1 with
        | nil =>
          rw [hq] at hgot
          simp only [List.nil_append, List.singleton_append, List.cons.injEq] at hgot
          obtain ⟨rfl, -⟩ := hgot
          rcases hso with rfl | ⟨rp', f', rfl, h, h'⟩
          · exact absurd rfl (hs.2 _ _)
          · cases h
            exact ⟨[], rp, z, rfl, h', hrun⟩
        | cons q q1 =>
          rw [hq] at hgot
          simp only [List.cons_append, List.singleton_append, List.cons.injEq] at hgot
          rw [List.filter_eq_nil_iff] at hq1
          exact next hgot.2.symm (List.filter_eq_nil_iff.2 fun f hf => hq1 f (.tail _ hf))
    · obtain ⟨new, h1, -⟩ := hm.new
      refine next (q1' := q1) (q2' := q2 ++ new) ?_ hq1
      rw [h1, hq]; simp

/-- News of the death of `t` for the processes that are linked to it. -/
def deathOf (t : Nat) : NFrame B → Bool
  | .linkDown _ i _ => decide (i = t)
  | _ => false

/-- While a process exists, no news of its death is on the way. -/
theorem no_news {ser : Sers V B} {c : Conn} {t : Nat} (l : List (DOp B V)) : ∀ {d : Duo B V}, CInv ser c d → t < d.R.nextPid →
    (toLeft c d).filter (deathOf t) = [] → (∀ s ∈ l, Legal c s) → exists? (drun ser c d l).R t = true →
    (toLeft c (drun ser c d l)).filter (deathOf t) = [] := by
  induction l with
  | nil => intro d _ _ h _ _; exact h
  | cons s l ih =>
    intro d hi ht hq hl hex
    obtain ⟨hi', hcase⟩ := dstep_moves hi s (hl s List.mem_cons_self)
    have e1 : (drun ser c d (s :: l)) = drun ser c (dstep ser c d s) l := rfl
    have hpid : t < (dstep ser c d s).R.nextPid := by
      have : (dstep ser c d s).R = (drun ser c d [s]).R := rfl
      rw [this, right_run]
      exact Nat.lt_of_lt_of_le ht (run_nextPid_le ..)
    have hex' : exists? (dstep ser c d s).R t = true := by
      cases h : exists? (dstep ser c d s).R t with
      | true => rfl
      | false =>
        rw [e1, right_run] at hex
        have hn : (dstep ser c d s).R.procs t = none := by
          unfold exists? at h
          cases hp : (dstep ser c d s).R.procs t with
          | none => rfl
          | some p => rw [hp] at h; simp at h
        have := (absent_run ser.R _ (rightOps ser c (dstep ser c d s) l) t hpid hn).1
        rw [exists?, this] at hex; cases hex
    refine ih hi' hpid ?_ (fun s hs => hl s (.tail _ hs)) hex
    rcases hcase with hk | ⟨o, k, hm, -⟩ | ⟨o, k, hm, -⟩
    · rw [hk.1]; exact hq
    · rw [hm.got, List.filter_append] at hq
      exact (List.append_eq_nil_iff.1 hq).2
    · obtain ⟨new, h1, -, -, h4⟩ := hm.new
      rw [h1, List.filter_append, hq, List.nil_append, List.filter_eq_nil_iff]
      intro f hf hd
      have hof := h4 f hf
      cases f <;> simp only [deathOf, Bool.false_eq_true] at hd
      rename_i ls i e
      have : i = t := by simpa using hd
      subst this
      rcases hof with ⟨p, rfl, hp, -, -⟩ | ⟨rp, N, j, rfl, -, -, -, habs⟩
      · rw [hm.R] at hex'
        by_cases hdm : doomed d.R i = true
        · simp only [step, Op.caller, Op.exec, if_pos hdm] at hex'
          have hn : (d.R.links i).Nodup := by
            obtain ⟨os, hos⟩ := hi.right.reach
            rw [hos]; exact run_linksNodup ser.R os i
          rw [exists?, (drop_eff _ _ _ hp hn).1] at hex'; cases hex'
        · -- nothing happens, so there is no new frame
          have h3 := hm.new
          obtain ⟨new', g1, -, g3, -⟩ := h3
          rw [hm.R] at g3
          simp only [step, Op.caller, Op.exec, hdm] at g3
          have : new' = [] := by simpa using g3
          subst this
          rw [h1] at g1
          have : new = [] := by simpa using g1
          subst this; cases hf
      · rw [hm.R] at hex'
        have := still_absent ser.R d.R _ i ht hex'
        rw [habs] at this; cases this

/-! ## The theorems -/

/-- C136. Two nodes with a connection; after any history `l1`, process `a` of the left node starts to monitor the process `t` of the right node, which exists; then any
interleaving of operations of both nodes and arrivals of frames, in which the connection stays up and `a` does not give the monitor up, and during which `t` sends `v` to
`a`. Then no Down for the monitor has been put into a mailbox at the end, or `v` was put into the mailbox of `a` before it. So when `a` learns of the death of `t`
everything that `t` has sent to it is in its mailbox, in front of the Down. -/
theorem C136_last (ser : Sers V B) (c : Conn) (d : Duo B V) (l1 x y : List (DOp B V)) (a t : Nat) (v : V) (o : Op B V) :
    let d1 := drun ser c d l1
    let d0 := dstep ser c d1 (.left o)
    let sent : DOp B V := .right (.send t (.one (.pid (.rem a c.idL))) v)
    Begins ser c d → (∀ s ∈ l1, Legal c s) → RMonitors d1.L a c.nR (.pid (.rem t c.idR)) o → running d1.L a = true → exists? d1.R t = true →
    running (drun ser c d0 x).R t = true →
    ∃ n, refsOf [(step ser.L d1.L o).2] = [.loc n] ∧
      ((∀ s ∈ x ++ sent :: y, Legal c s ∧ ∀ o', s = .left o' → ¬ Cancels n a o') →
        repsOf (.loc n) (drun ser c d0 (x ++ sent :: y)).L.sent = [] ∨ LandsBefore ser c (drun ser c d0 (x ++ [sent])) n a (ser.R v) y) := by
  intro d1 d0 sent hb hl1 ho hrun hex hx
  obtain ⟨hc, h1, h2⟩ := mon_begins (minv_run l1 hb.minv hl1) ho hrun
  refine ⟨_, h1, fun hl => ?_⟩
  have hi1 := cinv_run l1 hb.cinv hl1
  have ht : t < d0.R.nextPid := by
    exact pid_lt_of_exists hi1.right.reach hex
  refine last_of_target (by rintro r ⟨⟩) hc (h2 _ rfl) x y hl hx ht ?_
  rintro t' ⟨z, rp, z', rfl, -, -, hm⟩
  have hez : exists? (drun ser c d0 z).R t = true := by
    cases h : exists? (drun ser c d0 z).R t with
    | true => rfl
    | false =>
      rw [drun_append, right_run] at hx
      have hn : (drun ser c d0 z).R.procs t = none := by
        unfold exists? at h
        cases hp : (drun ser c d0 z).R.procs t with
        | none => rfl
        | some p => rw [hp] at h; simp at h
      have hp : t < (drun ser c d0 z).R.nextPid := by
        rw [right_run]; exact Nat.lt_of_lt_of_le ht (run_nextPid_le ..)
      have := (absent_run ser.R _ (rightOps ser c (drun ser c d0 z) (.toR rp :: z')) t hp hn).1
      rw [running, this] at hx; cases hx
  rw [← hm]
  show (if exists? (drun ser c d0 z).R t = true then some t else none) = some t
  rw [if_pos hez]

/-- C136, a monitor of whatever process has a name: if the name stood for `t` in case the request arrived before `t` sent the message. -/
theorem C136_last_named (ser : Sers V B) (c : Conn) (d : Duo B V) (l1 x y : List (DOp B V)) (a t : Nat) (v : V) (o : Op B V) (dest : Dest) :
    let d1 := drun ser c d l1
    let d0 := dstep ser c d1 (.left o)
    let sent : DOp B V := .right (.send t (.one (.pid (.rem a c.idL))) v)
    Begins ser c d → (∀ s ∈ l1, Legal c s) → RMonitors d1.L a c.nR dest o → running d1.L a = true → exists? d1.R t = true →
    running (drun ser c d0 x).R t = true →
    ∃ n, refsOf [(step ser.L d1.L o).2] = [.loc n] ∧
      ((∀ t', Arrived ser c d0 dest a n x t' → t' = some t) → (∀ s ∈ x ++ sent :: y, Legal c s ∧ ∀ o', s = .left o' → ¬ Cancels n a o') →
        repsOf (.loc n) (drun ser c d0 (x ++ sent :: y)).L.sent = [] ∨ LandsBefore ser c (drun ser c d0 (x ++ [sent])) n a (ser.R v) y) := by
  intro d1 d0 sent hb hl1 ho hrun hex hx
  obtain ⟨hc, h1, h2⟩ := mon_begins (minv_run l1 hb.minv hl1) ho hrun
  refine ⟨_, h1, fun harr hl => ?_⟩
  have hi1 := cinv_run l1 hb.cinv hl1
  have ht : t < d0.R.nextPid := by
    exact pid_lt_of_exists hi1.right.reach hex
  refine last_of_target ?_ hc (h2 _ rfl) x y hl hx ht harr
  rintro r rfl
  have := ho.1
  simp [remoteNode] at this

/-- C136, links. The processes `a` of left and `t` of right exist and no news of a death of `t` is on its way to left; then any interleaving, during which `t` sends `v` to
`a`. When the news of the death of `t` for the processes linked to it arrives on the left node and `a` exists, `v` has been put into the mailbox of `a` already: so `a` gets
an exit signal from the death of `t` only after everything that `t` has sent to it. -/
theorem C136_link (ser : Sers V B) (c : Conn) (d : Duo B V) (l1 x z : List (DOp B V)) (a t : Nat) (v : V) (ls : List Nat) (e : ExitReason) :
    let d1 := drun ser c d l1
    let sent : DOp B V := .right (.send t (.one (.pid (.rem a c.idL))) v)
    let dz := drun ser c d1 (x ++ sent :: z)
    Begins ser c d → (∀ s ∈ l1, Legal c s) → (∀ s ∈ x ++ sent :: z, Legal c s) → exists? d1.R t = true → exists? d1.L a = true →
    (∀ ls e, .linkDown ls t e ∉ toLeft c d1) → running (drun ser c d1 x).R t = true → dz.nextL c = some (.linkDown ls t e) → exists? dz.L a = true →
    ∃ e1 rp e2, z = e1 ++ .toL rp :: e2 ∧ (drun ser c d1 (x ++ sent :: e1)).nextL c = some (.send [.pid a] (ser.R v)) ∧
      (drun ser c d1 (x ++ sent :: e1 ++ [.toL rp])).L.sent = (drun ser c d1 (x ++ sent :: e1)).L.sent ++ [(a, .remote (ser.R v))] := by
  intro d1 sent dz hb hl1 hl hext hexa hno hx hnext hza
  have hi1 := cinv_run l1 hb.cinv hl1
  have hlx : ∀ s ∈ x, Legal c s := fun s hs => hl s (List.mem_append_left _ hs)
  have hix := cinv_run x hi1 hlx
  have ht : t < d1.R.nextPid := by
    exact pid_lt_of_exists hi1.right.reach hext
  have hap : a < d1.L.nextPid := by
    exact pid_lt_of_exists hi1.left.reach hexa
  have hexx : exists? (drun ser c d1 x).R t = true := by
    unfold running at hx
    unfold exists?
    cases hp : (drun ser c d1 x).R.procs t with
    | none => rw [hp] at hx; simp at hx
    | some p => rfl
  have hq0 : (toLeft c d1).filter (deathOf t) = [] := by
    rw [List.filter_eq_nil_iff]
    intro f hf hd
    cases f <;> simp only [deathOf, Bool.false_eq_true] at hd
    have := of_decide_eq_true hd
    subst this
    exact hno _ _ hf
  have hq := no_news x hi1 ht hq0 hlx hexx
  have hs : Legal c sent := hl sent (by simp)
  obtain ⟨e1, -⟩ := dsend_line hix hs hx
  have ed : ∀ z, drun ser c d1 (x ++ sent :: z) = drun ser c (dstep ser c (drun ser c d1 x) sent) z := by
    intro z; rw [drun_append]; rfl
  have hnext' : (drun ser c (dstep ser c (drun ser c d1 x) sent) z).nextL c = some (.linkDown ls t e) := by rw [← ed]; exact hnext
  obtain ⟨z1, rp, z2, rfl, h1, h2⟩ := line_order (G := deathOf t) z (dstep_moves hix _ hs).1 e1 hq rfl (fun s hs => hl s (by simp [hs])) hnext' (by simp [deathOf])
  rw [← ed] at h1 h2
  refine ⟨z1, rp, z2, rfl, h1, ?_⟩
  have e3 : x ++ sent :: z1 ++ [DOp.toL rp] = (x ++ sent :: z1) ++ [.toL rp] := rfl
  rw [drun_snoc]
  have hae : ((drun ser c d1 (x ++ sent :: z1)).L.procs a).isSome = true := by
    cases hp : (drun ser c d1 (x ++ sent :: z1)).L.procs a with
    | some p => rfl
    | none =>
      have hap' : a < (drun ser c d1 (x ++ sent :: z1)).L.nextPid := by
        rw [left_run]; exact Nat.lt_of_lt_of_le hap (run_nextPid_le ..)
      have e4 : dz = drun ser c (drun ser c d1 (x ++ sent :: z1)) (.toL rp :: z2) := by
        rw [← drun_append]; simp [dz]
      rw [e4, left_run] at hza
      have := (absent_run ser.L _ (leftOps ser c (drun ser c d1 (x ++ sent :: z1)) (.toL rp :: z2)) a hap' hp).1
      rw [exists?, this] at hza; cases hza
  have e5 : (dstep ser c (drun ser c d1 (x ++ sent :: z1)) (.toL rp)).L = (step ser.L (drun ser c d1 (x ++ sent :: z1)).L (.frame rp c.nR (.send [.pid a] (ser.R v)))).1 := by
    simp only [dstep, h1, h2, if_true]
  rw [e5]
  simp only [step, Op.caller, h2, if_true, Op.exec, recvFrame]
  rw [(forward_same (ser.R v) a [.pid a] (by simp) _ hae).1]
  rfl


/-! ### An example -/

/-- Process 1 of "a" monitors process 1 of "b", which sends it 7 and ends; both are on their way when the first frame arrives. -/
def lastX : List (DOp Nat Nat) := [.toR 5]
def lastY : List (DOp Nat Nat) := [.right (.finish 1), .right (.drop 1), .toL 5, .toL 5]

example : let d0 := dstep sameSer duoC duo (.left (.monitor 1 (.pid (.rem 1 1))))
    RMonitors duo.L 1 duoC.nR (.pid (.rem 1 1)) (.monitor 1 (.pid (.rem 1 1)) : Op Nat Nat) ∧ running duo.L 1 = true ∧ exists? duo.R 1 = true ∧
    running (drun sameSer duoC d0 lastX).R 1 = true ∧ duo.L.nextRef = 1 := by
  refine ⟨⟨rfl, .inl rfl⟩, rfl, rfl, rfl, rfl⟩
example : ∀ s ∈ lastX ++ .right (.send 1 (.one (.pid (.rem 1 1))) 7) :: lastY, Legal duoC s ∧ ∀ o', s = .left o' → ¬ Cancels 1 1 o' := by
  simp [lastX, lastY, Legal, Undisturbed]
/-- The Down does come, after the message. -/
example : (drun sameSer duoC (dstep sameSer duoC duo (.left (.monitor 1 (.pid (.rem 1 1))))) (lastX ++ .right (.send 1 (.one (.pid (.rem 1 1))) 7) :: lastY)).L.sent =
    [(1, .remote 7), (1, .down (.pid (.rem 1 1)) (.loc 1) .normal)] := rfl
/-- Links: the news of the death is the next frame, after the message has arrived. -/
example : let d := drun sameSer duoC duo ([.left (.setTrap 1 true), .left (.link 1 (.rem 1 1)), .toR 5, .right (.send 1 (.one (.pid (.rem 1 1))) 7),
      .right (.finish 1), .right (.drop 1), .toL 5])
    d.nextL duoC = some (.linkDown [1] 1 .normal) ∧ exists? d.L 1 = true ∧ d.L.sent = [(1, .remote 7)] := ⟨rfl, rfl, rfl⟩

end Verif.World
