import Verif.TwoNodeSendProps
import Verif.ClientProps
/-!
# Exit signals between two connected nodes (C93)
-/
namespace Verif.World
open Verif.Mailbox
variable {B V : Type}

/-! ## Specification -/

/-- The calls of `Process::exit` on the left node for processes of the right node, in order: (caller, process, reason). -/
def exitsAsked (ser : Sers V B) (c : Conn) (d : Duo B V) : List (DOp B V) → List (Nat × Nat × ExitReason)
  | [] => []
  | s :: l =>
    (match s with
      | .left (.exit a (.rem t k) r) => if running d.L a = true ∧ k = c.idR then [(a, t, r)] else []
      | _ => []) ++ exitsAsked ser c (dstep ser c d s) l

/-- What an exit signal with reason `r` of process `frm` of another node means for process `t` (the table of `Process::exit`,
`signalTable`); no other process is affected. -/
structure SignalledBy (frm : Pid) (r : ExitReason) (t : Nat) (w w' : World B V) : Prop where
  self : ∀ p, w.procs t = some p → (match signalTable false p.trap r with
    | .terminated => w'.procs t = some { p with reason := some r, aborted := true } ∧ w'.sent = w.sent
    | .message => w'.procs t = some { p with box := deliver p.box (.system (.exit frm r)) } ∧ w'.sent = w.sent ++ [(t, .system (.exit frm r))]
    | .ignored => w' = w)
  absent : w.procs t = none → w' = w
  others : ∀ j, j ≠ t → w'.procs j = w.procs j
  rest : w'.names = w.names ∧ w'.links = w.links ∧ w'.mons = w.mons ∧ w'.aliases = w.aliases

/-- No exit frame arrives on the right with the step. -/
def NoExitArrives (c : Conn) (d : Duo B V) (s : DOp B V) : Prop :=
  ∀ rp t a r, s = .toR rp → d.nextR c = some (.exit t a r) → running d.R rp = false

/-- In the order of the list, and at the moments given by the schedule `l`, the right node treats the signals `sg`, and no others. -/
inductive Treated (ser : Sers V B) (c : Conn) : Duo B V → List (DOp B V) → List (Nat × Nat × ExitReason) → Prop
  | nil (d : Duo B V) : Treated ser c d [] []
  | skip (d : Duo B V) (s : DOp B V) (l : List (DOp B V)) sg : NoExitArrives c d s → Treated ser c (dstep ser c d s) l sg → Treated ser c d (s :: l) sg
  | hit (d : Duo B V) (s : DOp B V) (l : List (DOp B V)) (a t : Nat) (r : ExitReason) sg :
      SignalledBy (.rem a c.idL) r t d.R (dstep ser c d s).R →
      Treated ser c (dstep ser c d s) l sg → Treated ser c d (s :: l) ((a, t, r) :: sg)

/-! ## Proof -/

def exitOf : NFrame B → List (Nat × Nat × ExitReason)
  | .exit t a r => [(a, t, r)]
  | _ => []

theorem exitOf_nil {f : NFrame B} (h : ∀ t a r, f ≠ .exit t a r) : exitOf f = [] := by
  cases f <;> first | rfl | exact absurd rfl (h _ _ _)

def exitsL (c : Conn) (w : World B V) (o : Op B V) : List (Nat × Nat × ExitReason) :=
  match o with
  | .exit a (.rem t k) r => if running w a = true ∧ k = c.idR then [(a, t, r)] else []
  | _ => []

def exitsD (c : Conn) (d : Duo B V) (s : DOp B V) : List (Nat × Nat × ExitReason) :=
  match s with
  | .left o => exitsL c d.L o
  | _ => []

theorem exitsAsked_cons (ser : Sers V B) (c : Conn) (d : Duo B V) (s : DOp B V) (l : List (DOp B V)) :
    exitsAsked ser c d (s :: l) = exitsD c d s ++ exitsAsked ser c (dstep ser c d s) l := by
  cases s with
  | left o =>
    cases o with
    | exit a p r => cases p <;> rfl
    | _ => rfl
  | _ => rfl

theorem processExit_signal (w : World B V) (t : Nat) (frm : Pid) (r : ExitReason) (h : frm ≠ .loc t) :
    SignalledBy frm r t w (processExit w t frm r) := by
  have h' : ¬ Pid.loc t = frm := fun e => h e.symm
  refine ⟨?_, ?_, ?_, by simp⟩
  · intro p hp
    unfold processExit
    rw [hp]
    cases r <;> cases ht : p.trap <;> simp [signalTable, ht, h', terminate, modProc, put, hp, upd_at]
  · intro hp; simp [processExit, hp]
  · intro j hj
    unfold processExit
    cases hp : w.procs t with
    | none => rfl
    | some p => cases r <;> simp only [h', if_false, false_or] <;> (try split) <;> simp [terminate, modProc, put, hp, upd_at, hj]

theorem left_exits (ser : V → B) (c : Conn) (w : World B V) (o : Op B V) (new : List (NFrame B))
    (ha : askedFor c.idR (step ser w o).1 = askedFor c.idR w ++ new) (hf : ∀ f ∈ new, FrameOf w o f c.idR) :
    new.flatMap exitOf = exitsL c w o := by
  by_cases ho : ∃ a t r, o = .exit a (.rem t c.idR) r
  · obtain ⟨a, t, r, rfl⟩ := ho
    simp only [exitsL]
    cases hr : running w a with
    | false =>
      rw [step_idle ser w _ a rfl hr] at ha
      have : new = [] := by simpa using ha
      subst this; simp
    | true =>
      simp only [step, Op.caller, hr, if_true, Op.exec, World.exit] at ha
      unfold askedFor at ha
      rw [sendFrame_asked] at ha
      simp at ha
      subst ha
      simp [exitOf]
  · rw [flatMap_nil _ _ fun f hf' => exitOf_nil ?_]
    · cases o <;> try rfl
      rename_i a p r
      cases p <;> try rfl
      rename_i t k
      simp only [exitsL]
      rw [if_neg]
      rintro ⟨-, rfl⟩
      exact ho ⟨_, _, _, rfl⟩
    · rintro t a r rfl
      exact ho ⟨a, t, r, hf _ hf'⟩

theorem treated_run {ser : Sers V B} {c : Conn} (l : List (DOp B V)) : ∀ {d : Duo B V}, CInv ser c d → (∀ s ∈ l, Legal c s) →
    ∃ sg, Treated ser c d l sg ∧
      sg ++ (toRight c (drun ser c d l)).flatMap exitOf = (toRight c d).flatMap exitOf ++ exitsAsked ser c d l := by
  induction l with
  | nil => intro d _ _; exact ⟨[], .nil d, by simp [exitsAsked, drun]⟩
  | cons s l ih =>
    intro d hc hl
    obtain ⟨hi, hk⟩ := dstep_moves hc s (hl s List.mem_cons_self)
    obtain ⟨sg, h1, h2⟩ := ih hi (fun s hs => hl s (.tail _ hs))
    have hrun : drun ser c d (s :: l) = drun ser c (dstep ser c d s) l := rfl
    rw [hrun, exitsAsked_cons]
    rcases hk with hk | ⟨o, k, hm, hso⟩ | ⟨o, k, hm, hso⟩
    · refine ⟨sg, .skip _ _ _ _ (fun rp t a r => hk.2.1 rp _) h1, ?_⟩
      rw [h2, hk.1]
      have : exitsD c d s = [] := by
        cases s with
        | right o => rfl
        | toR rp => rfl
        | toL rp => rfl
        | left o =>
          obtain ⟨-, -, new, -, h4, h5⟩ := hc.left.step o (hl _ List.mem_cons_self).1
          have e := congrArg (·.L) hk.1
          simp only [dstep] at e
          have := left_exits ser.L c d.L o new h4 h5
          rw [e] at h4
          have hn : new = [] := by simpa using h4
          subst hn; exact this.symm
      rw [this, List.nil_append]
    · obtain ⟨new, g1, -, g3, g4⟩ := hm.new
      refine ⟨sg, .skip _ _ _ _ (by
        rintro rp t a r rfl
        rcases hso with h | ⟨_, _, h, -⟩ <;> cases h) h1, ?_⟩
      have := left_exits ser.L c d.L o new (by rw [← hm.L]; exact g3) g4
      rw [h2, g1, List.flatMap_append, this, List.append_assoc]
      congr 2
      rcases hso with rfl | ⟨rp, f, rfl, rfl, -⟩ <;> rfl
    · have es : exitsD c d s = [] := by
        rcases hso with rfl | ⟨rp, f, rfl, -⟩ <;> rfl
      rw [es, List.nil_append, hm.got, List.flatMap_append, List.append_assoc, ← h2]
      by_cases he : ∃ t a r, k = [.exit t a r]
      · obtain ⟨t, a, r, rfl⟩ := he
        refine ⟨(a, t, r) :: sg, .hit _ _ _ _ _ _ _ ?_ h1, by simp [exitOf]⟩
        rcases hm.from_ with ⟨h, -⟩ | ⟨rp, f, hk, ho, hr, -⟩
        · cases h
        · cases hk
          rw [hm.R, ho]
          simp only [step, Op.caller, hr, if_true, Op.exec, recvFrame]
          rw [nodeRegister_idle hc.right.ne hc.right.map]
          exact processExit_signal _ _ _ _ (by simp)
      · refine ⟨sg, .skip _ _ _ _ (by
          rintro rp t a r rfl hn
          rcases hso with h | ⟨rp', f, h, ho, hf⟩
          · cases h
          · rw [hf] at hn; cases hn
            rcases hm.from_ with ⟨-, h'⟩ | ⟨rp2, f2, hk, ho', -⟩
            · exact absurd ho (h' _ _)
            · rw [ho] at ho'; cases ho'
              exact absurd ⟨_, _, _, hk⟩ he) h1, ?_⟩
        have : k.flatMap exitOf = [] := by
          refine flatMap_nil _ _ fun f hf => exitOf_nil ?_
          rintro t a r rfl
          rcases hm.from_ with ⟨h, -⟩ | ⟨rp, f, hk, -⟩
          · rw [h] at hf; cases hf
          · rw [hk] at hf; simp at hf; exact he ⟨t, a, r, by rw [hk, hf]⟩
        rw [this, List.nil_append]

/-- C93. Two nodes with a connection, on which everything arrives in order, and any interleaving `l` of operations of both nodes and
arrivals of frames in which the connection stays up. The exit signals of processes of the left node for processes of the right node (`sg`) are
treated there in the order in which they were sent, each once, from the first one on, and all of them when nothing is on its way any more. -/
theorem C93_in_order (ser : Sers V B) (c : Conn) (d : Duo B V) (l : List (DOp B V)) (hb : Begins ser c d) (hl : ∀ s ∈ l, Legal c s) :
    ∃ sg, Treated ser c d l sg ∧ sg <+: exitsAsked ser c d l ∧ (toRight c (drun ser c d l) = [] → sg = exitsAsked ser c d l) := by
  obtain ⟨sg, h1, h2⟩ := treated_run l hb.cinv hl
  have e0 : toRight c d = [] := by
    unfold toRight
    rw [hb.readyL.handed, hb.readyL.pending]; simp
  rw [e0] at h2
  refine ⟨sg, h1, ⟨_, h2⟩, ?_⟩
  intro hq
  rw [hq] at h2
  simpa using h2

theorem dstep_R (ser : Sers V B) (c : Conn) (d : Duo B V) (s : DOp B V) : (dstep ser c d s).R = d.R ∨ ∃ o, (dstep ser c d s).R = (step ser.R d.R o).1 := by
  cases s with
  | left o => exact .inl rfl
  | right o => exact .inr ⟨o, rfl⟩
  | toR rp =>
    simp only [dstep]
    split
    · exact .inl rfl
    · split
      · exact .inr ⟨_, rfl⟩
      · exact .inl rfl
  | toL rp =>
    simp only [dstep]
    split
    · exact .inl rfl
    · split <;> exact .inl rfl

theorem drun_R (ser : Sers V B) (c : Conn) (l : List (DOp B V)) : ∀ d : Duo B V, ∃ os, (drun ser c d l).R = run ser.R d.R os := by
  induction l with
  | nil => intro d; exact ⟨[], rfl⟩
  | cons s l ih =>
    intro d
    obtain ⟨os, h⟩ := ih (dstep ser c d s)
    rcases dstep_R ser c d s with e | ⟨o, e⟩
    · exact ⟨os, by rw [← e]; exact h⟩
    · exact ⟨o :: os, by rw [show drun ser c d (s :: l) = drun ser c (dstep ser c d s) l from rfl, h, e]; rfl⟩

theorem treated_mem {ser : Sers V B} {c : Conn} {d : Duo B V} {l : List (DOp B V)} {sg : List (Nat × Nat × ExitReason)} (h : Treated ser c d l sg)
    {a t : Nat} {r : ExitReason} (hm : (a, t, r) ∈ sg) :
    ∃ x s y, l = x ++ s :: y ∧ SignalledBy (.rem a c.idL) r t (drun ser c d x).R (drun ser c d (x ++ [s])).R := by
  induction h with
  | nil => cases hm
  | skip d s l sg _ _ ih =>
    obtain ⟨x, s', y, h1, h2⟩ := ih hm
    exact ⟨s :: x, s', y, by rw [h1]; rfl, h2⟩
  | hit d s l a' t' r' sg hs _ ih =>
    rcases List.mem_cons.1 hm with e | hm
    · cases e
      exact ⟨[], s, l, rfl, hs⟩
    · obtain ⟨x, s', y, h1, h2⟩ := ih hm
      exact ⟨s :: x, s', y, by rw [h1]; rfl, h2⟩

/-- C93. A process of the right node that a process of the left node kills is not alive any more when nothing is on its way. -/
theorem C93_kill (ser : Sers V B) (c : Conn) (d : Duo B V) (l : List (DOp B V)) (a t : Nat) (hb : Begins ser c d) (hl : ∀ s ∈ l, Legal c s)
    (hk : (a, t, .kill) ∈ exitsAsked ser c d l) (ht : t < d.R.nextPid) (hq : toRight c (drun ser c d l) = []) :
    alive (drun ser c d l).R t = false := by
  obtain ⟨sg, h1, -, h2⟩ := C93_in_order ser c d l hb hl
  rw [← h2 hq] at hk
  obtain ⟨x, s, y, rfl, h3⟩ := treated_mem h1 hk
  have hdead : alive (drun ser c d (x ++ [s])).R t = false := by
    unfold alive
    cases hp : (drun ser c d x).R.procs t with
    | none => rw [h3.absent hp, hp]
    | some p =>
      have := h3.self p hp
      simp only [signalTable] at this
      rw [this.1]; rfl
  have e : x ++ s :: y = (x ++ [s]) ++ y := by simp
  rw [e, drun_append]
  obtain ⟨os, h4⟩ := drun_R ser c y (drun ser c d (x ++ [s]))
  obtain ⟨os', h5⟩ := drun_R ser c (x ++ [s]) d
  rw [h4]
  refine C24_dead_stays_dead ser.R os _ t ?_ hdead
  rw [h5]
  exact Nat.lt_of_lt_of_le ht (run_nextPid_le ser.R d.R os')

/-- Process 1 of "a" sends process 1 of "b" a normal exit (ignored), then kills it. -/
def exitSched : List (DOp Nat Nat) :=
  [.left (.exit 1 (.rem 1 1) .normal), .toR 5, .left (.link 1 (.rem 1 1)), .left (.exit 1 (.rem 1 1) .kill), .toR 5, .right (.setTrap 1 true), .toR 5]

example : (∀ s ∈ exitSched, Legal duoC s) ∧ exitsAsked sameSer duoC duo exitSched = [(1, 1, .normal), (1, 1, .kill)] ∧
    toRight duoC (drun sameSer duoC duo exitSched) = [] ∧ alive (drun sameSer duoC duo (exitSched.take 6)).R 1 = true ∧
    alive (drun sameSer duoC duo exitSched).R 1 = false := by
  refine ⟨?_, rfl, rfl, rfl, rfl⟩
  simp [exitSched, Legal, Undisturbed, duoC]

end Verif.World
