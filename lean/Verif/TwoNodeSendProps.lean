import Verif.TwoNodeProps
/-!
# Messages between two connected nodes (C92)
-/
namespace Verif.World
open Verif.Mailbox
variable {B V : Type}

/-! ## Specification -/

/-- The destinations of a send. -/
def Dests.list : Dests → List Dest
  | .one d => [d]
  | .many l => l

/-- The messages with a mark `P` that were put in the mailbox of `t`, in order, among the deliveries of a node (a message from another
node arrives in serialized form). -/
def marked (P : B → Bool) (t : Nat) (l : List (Nat × Item B V)) : List B :=
  l.filterMap fun x => match x.2 with
    | .remote b => if x.1 = t ∧ P b = true then some b else none
    | _ => none

/-- The marked messages that the processes of the left node send during `l`, in order; a message to several destinations counts once for
each of them. -/
def sentBy (ser : Sers V B) (c : Conn) (P : B → Bool) (d : Duo B V) : List (DOp B V) → List B
  | [] => []
  | s :: l =>
    (match s with
      | .left (.send me ds v) => if running d.L me = true ∧ P (ser.L v) = true then List.replicate ds.list.length (ser.L v) else []
      | _ => []) ++ sentBy ser c P (dstep ser c d s) l

/-- The mark is used for messages of the left node to process `t` of the right node only (named by its pid). -/
def Marks (ser : Sers V B) (c : Conn) (P : B → Bool) (t : Nat) : DOp B V → Prop
  | .left (.send _ ds v) => P (ser.L v) = true → ∀ x ∈ ds.list, x = .pid (.rem t c.idR)
  | .right (.send _ _ v) => P (ser.R v) = false
  | .right (.frame _ _ (.send _ b)) => P b = false
  | _ => True

/-! ## Proof -/

theorem marked_append (P : B → Bool) (t : Nat) (l l' : List (Nat × Item B V)) : marked P t (l ++ l') = marked P t l ++ marked P t l' := by
  simp [marked]

theorem marked_nil (P : B → Bool) (t : Nat) (l : List (Nat × Item B V)) (h : ∀ x ∈ l, ∀ b, x.2 = .remote b → P b = false) :
    marked P t l = [] := by
  unfold marked
  rw [List.filterMap_eq_nil_iff]
  intro x hx
  split
  · rename_i b hb
    rw [h x hx b hb]; simp
  · rfl

/-- What a send may do to the histories. -/
def Traces (b : B) (w w' : World B V) : Prop :=
  ∃ D F, w'.sent = w.sent ++ D ∧ w'.asked = w.asked ++ F ∧ (∀ x ∈ D, ∀ m, x.2 = .remote m → m = b) ∧
    (∀ y ∈ F, ∃ ts, y.2 = .send ts b)

theorem Traces.refl (b : B) (w : World B V) : Traces b w w := ⟨[], [], by simp, by simp, by simp, by simp⟩

theorem Traces.trans {b : B} {w1 w2 w3 : World B V} (h1 : Traces b w1 w2) (h2 : Traces b w2 w3) : Traces b w1 w3 := by
  obtain ⟨D, F, a1, a2, a3, a4⟩ := h1
  obtain ⟨D', F', b1, b2, b3, b4⟩ := h2
  refine ⟨D ++ D', F ++ F', by rw [b1, a1, List.append_assoc], by rw [b2, a2, List.append_assoc], ?_, ?_⟩
  · intro x hx
    rcases List.mem_append.1 hx with h | h
    · exact a3 x h
    · exact b3 x h
  · intro x hx
    rcases List.mem_append.1 hx with h | h
    · exact a4 x h
    · exact b4 x h

theorem traces_put (b : B) (w : World B V) (i : Nat) (it : Item B V) (h : ∀ m, it = .remote m → m = b) :
    Traces b w (put w i it) := by
  refine ⟨if (w.procs i).isSome then [(i, it)] else [], [], by simp, ?_, ?_, by simp⟩
  · unfold put; split <;> simp
  · intro x hx
    split at hx
    · simp at hx; subst hx; exact h
    · simp at hx

theorem traces_of_eq (b : B) {w w' : World B V} (h1 : w'.sent = w.sent) (h2 : w'.asked = w.asked) : Traces b w w' :=
  ⟨[], [], by simp [h1], by simp [h2], by simp, by simp⟩

theorem traces_putAlias (b : B) (w : World B V) (r : Ref) (it : Item B V) (h : ∀ m, it = .remote m → m = b) :
    Traces b w (putAlias w r it) := by
  unfold putAlias
  split
  · exact .refl _ _
  · exact traces_put b _ _ _ h
  · refine Traces.trans (w2 := delAlias w r) (traces_of_eq _ rfl rfl) (.trans (traces_put b _ _ _ (by simp)) (traces_put b _ _ _ h))

theorem traces_sendLocal (b : B) (w : World B V) (d : Dest) (it : Item B V) (h : ∀ m, it = .remote m → m = b) :
    Traces b w (sendLocal w d it) := by
  unfold sendLocal
  split
  · exact traces_put b _ _ _ h
  · split
    · exact traces_put b _ _ _ h
    · exact .refl _ _
  · exact traces_putAlias b _ _ _ h

theorem traces_sendFrame (b : B) (w : World B V) (ts : List Target) (k : Nat) : Traces b w (sendFrame w (.send ts b) k) :=
  ⟨[], [(k, .send ts b)], by simp, sendFrame_asked _ _ _, by simp, by simp⟩

theorem traces_nodeRegister (b : B) (w : World B V) (n : Node) (c : Bool) : Traces b w (nodeRegister w n c).1 :=
  traces_of_eq _ (by simp) (by simp)

theorem traces_sendOpt (ser : V → B) (w : World B V) (d : Dest) (v : V) : Traces (ser v) w (sendOpt ser w d v) := by
  unfold sendOpt
  split
  · exact traces_sendLocal _ _ _ _ (by simp)
  · split
    · exact traces_sendFrame _ _ _ _
    · exact .trans (traces_nodeRegister _ _ _ _) (traces_sendFrame _ _ _ _)
    · exact traces_sendFrame _ _ _ _

theorem traces_sendLoop (ser : V → B) (v : V) (l : List Dest) : ∀ (w : World B V) first groups,
    Traces (ser v) w (sendLoop ser v w first groups l).1 := by
  induction l with
  | nil => intro w first groups; exact .refl _ _
  | cons d ds ih =>
    intro w first groups
    unfold sendLoop
    split
    · exact ih _ _ _
    · split
      · exact .trans (traces_sendLocal _ _ _ _ (by simp)) (ih _ _ _)
      · split
        · exact ih _ _ _
        · exact .trans (traces_nodeRegister _ _ _ _) (ih _ _ _)
        · exact ih _ _ _

theorem traces_send (ser : V → B) (w : World B V) (ds : Dests) (v : V) : Traces (ser v) w (send ser w ds v) := by
  cases ds with
  | one d => exact traces_sendOpt _ _ _ _
  | many l =>
    simp only [send]
    refine .trans (traces_sendLoop ser v l w none []) ?_
    generalize sendLoop ser v w none [] l = z
    refine Traces.trans (w2 := match z.2.1 with | some d => sendOpt ser z.1 d v | none => z.1) ?_ ?_
    · split
      · exact traces_sendOpt _ _ _ _
      · exact .refl _ _
    · have key : ∀ (gs : List (Nat × List Target)) (w0 : World B V),
          Traces (ser v) w0 (gs.foldl (fun w g => sendFrame w (.send g.2 (ser v)) g.1) w0) := by
        intro gs
        induction gs with
        | nil => intro w0; exact .refl _ _
        | cons g gs ih => intro w0; exact .trans (traces_sendFrame _ _ _ _) (ih _)
      exact key _ _

theorem traces_forwardSend (b : B) (ts : List Target) : ∀ w : World B V, Traces b w (forwardSend b w ts) := by
  induction ts with
  | nil => intro w; exact .refl _ _
  | cons t ts ih =>
    intro w
    cases t with
    | pid i => exact .trans (traces_put _ _ _ _ (by simp)) (ih _)
    | named n =>
      refine .trans ?_ (ih _)
      split
      · exact traces_put _ _ _ _ (by simp)
      · exact .refl _ _
    | alias a => exact .trans (traces_putAlias _ _ _ _ (by simp)) (ih _)

/-- The marked messages a frame carries. -/
def carried (P : B → Bool) : NFrame B → List B
  | .send ts b => if P b = true then List.replicate ts.length b else []
  | _ => []

theorem sendLoop_same (ser : V → B) (v : V) (t k : Nat) (l : List Dest) (h : ∀ x ∈ l, x = .pid (.rem t k)) : ∀ (w : World B V) (n : Nat),
    sendLoop ser v w none (if n = 0 then [] else [(k, List.replicate n (.pid t))]) l =
      (w, none, if n + l.length = 0 then [] else [(k, List.replicate (n + l.length) (.pid t))]) := by
  induction l with
  | nil => intro w n; simp [sendLoop]
  | cons d ds ih =>
    intro w n
    have hd := h d List.mem_cons_self
    subst hd
    have this := ih (fun x hx => h x (.tail _ hx)) w (n + 1)
    have e : n + (Dest.pid (.rem t k) :: ds).length = n + 1 + ds.length := by simp; omega
    rw [e, ← this, if_neg (show ¬ n + 1 = 0 by omega)]
    simp only [sendLoop, destLocal, Pid.isLocal, Bool.false_and, Bool.false_eq_true, if_false]
    congr 1
    by_cases h0 : n = 0
    · subst h0; rfl
    · rw [if_neg h0]; simp [pushGroup, Pid.node, Pid.id, List.replicate_succ']

theorem send_marked (ser : V → B) (w : World B V) (ds : Dests) (v : V) (t k : Nat) (h : ∀ x ∈ ds.list, x = .pid (.rem t k)) :
    ∃ F, askedFor k (send ser w ds v) = askedFor k w ++ F ∧
      (∀ P : B → Bool, F.flatMap (carried P) = if P (ser v) = true then List.replicate ds.list.length (ser v) else []) ∧
      ∀ f ∈ F, ∃ ts, f = .send ts (ser v) ∧ ∀ x ∈ ts, x = .pid t := by
  cases ds with
  | one d =>
    have := h d (by simp [Dests.list])
    subst this
    refine ⟨[.send [.pid t] (ser v)], ?_, ?_, ?_⟩
    · simp only [send, sendOpt, destLocal, Pid.isLocal, Bool.false_eq_true, if_false]
      unfold askedFor; rw [sendFrame_asked]; simp [Pid.node, Pid.id]
    · intro P; simp [carried, Dests.list]
    · intro f hf; simp at hf; subst hf; exact ⟨_, rfl, by simp⟩
  | many l =>
    have e := sendLoop_same ser v t k l h w 0
    rw [if_pos rfl] at e
    simp only [send, e, Nat.zero_add]
    by_cases hl : l = []
    · subst hl
      exact ⟨[], by simp, by simp [Dests.list], by simp⟩
    · have hl' : l.length ≠ 0 := by simpa using hl
      rw [if_neg hl']
      refine ⟨[.send (List.replicate l.length (.pid t)) (ser v)], ?_, ?_, ?_⟩
      · simp only [List.foldl_cons, List.foldl_nil]
        unfold askedFor; rw [sendFrame_asked]; simp
      · intro P; simp [carried, Dests.list]
      · intro f hf; simp at hf; subst hf
        exact ⟨_, rfl, fun x hx => List.eq_of_mem_replicate hx⟩

theorem forward_same (b : B) (t : Nat) (ts : List Target) (h : ∀ x ∈ ts, x = .pid t) : ∀ w : World B V, (w.procs t).isSome = true →
    (forwardSend b w ts).sent = w.sent ++ List.replicate ts.length (t, .remote b) ∧ ((forwardSend b w ts).procs t).isSome = true := by
  induction ts with
  | nil => intro w hw; exact ⟨by simp [forwardSend], hw⟩
  | cons x ts ih =>
    intro w hw
    have := h x List.mem_cons_self
    subst this
    have hp : ((put w t (.remote b)).procs t).isSome = true := by
      cases hq : w.procs t with
      | none => rw [hq] at hw; simp at hw
      | some p => simp [put, hq, upd_at]
    obtain ⟨h1, h2⟩ := ih (fun x hx => h x (.tail _ hx)) (put w t (.remote b)) hp
    refine ⟨?_, h2⟩
    show (forwardSend b (put w t (.remote b)) ts).sent = _
    rw [h1]
    simp [hw, List.replicate_succ]

/-- The marked deliveries of a step. -/
theorem step_marked (ser : V → B) (P : B → Bool) (t : Nat) (w : World B V) (o : Op B V)
    (h1 : ∀ me ds v, o = .send me ds v → P (ser v) = false) (h2 : ∀ rp N ts b, o = .frame rp N (.send ts b) → P b = false) :
    marked P t (step ser w o).1.sent = marked P t w.sent := by
  by_cases hs : (∃ me ds v, o = .send me ds v) ∨ ∃ rp N ts b, o = .frame rp N (.send ts b)
  · rcases hs with ⟨me, ds, v, rfl⟩ | ⟨rp, N, ts, b, rfl⟩
    · cases hr : running w me with
      | false => rw [step_idle ser w _ me rfl hr]
      | true =>
        simp only [step, Op.caller, hr, if_true, Op.exec]
        obtain ⟨D, F, a1, -, a3, -⟩ := traces_send ser w ds v
        rw [a1, marked_append, marked_nil P t D, List.append_nil]
        intro x hx b hb
        rw [a3 x hx b hb]; exact h1 _ _ _ rfl
    · cases hr : running w rp with
      | false => rw [step_idle ser w _ rp rfl hr]
      | true =>
        simp only [step, Op.caller, hr, if_true, Op.exec, recvFrame]
        obtain ⟨D, F, a1, -, a3, -⟩ := traces_forwardSend b ts w
        rw [a1, marked_append, marked_nil P t D, List.append_nil]
        intro x hx m hm
        rw [a3 x hx m hm]; exact h2 _ _ _ _ rfl
  · refine (step_acts ser w o).inv (I := fun w' => marked P t w'.sent = marked P t w.sent) rfl ?_
    intro w' a ha hi
    rw [sent_act]
    cases a <;> simp only [] <;> try exact hi
    · rename_i i it
      split
      · rw [marked_append, marked_nil P t [_], List.append_nil]; exact hi
        intro x hx b hb
        simp at hx; subst hx
        simp only at hb; subst hb
        exact absurd (by
          rcases ha with ⟨me, ds, v, h⟩ | ⟨rp, n, ts, h⟩
          · exact .inl ⟨me, ds, v, h⟩
          · exact .inr ⟨rp, n, ts, b, h⟩) hs
      · exact hi
    · split
      · rw [marked_append, marked_nil P t [_] (by simp), List.append_nil]; exact hi
      · exact hi
    · split
      · rw [marked_append, marked_nil P t [_] (by simp), List.append_nil]; exact hi
      · exact hi


/-! ### The invariant -/

def sendsL (ser : V → B) (P : B → Bool) (w : World B V) (o : Op B V) : List B :=
  match o with
  | .send me ds v => if running w me = true ∧ P (ser v) = true then List.replicate ds.list.length (ser v) else []
  | _ => []

/-- What a step adds to the messages sent (see `sentBy`). -/
def sends (ser : Sers V B) (P : B → Bool) (d : Duo B V) (s : DOp B V) : List B :=
  match s with
  | .left (.send me ds v) => if running d.L me = true ∧ P (ser.L v) = true then List.replicate ds.list.length (ser.L v) else []
  | _ => []

theorem sentBy_cons (ser : Sers V B) (c : Conn) (P : B → Bool) (d : Duo B V) (s : DOp B V) (l : List (DOp B V)) :
    sentBy ser c P d (s :: l) = sends ser P d s ++ sentBy ser c P (dstep ser c d s) l := rfl

structure Posted (ser : Sers V B) (c : Conn) (P : B → Bool) (t : Nat) (base S : List B) (d : Duo B V) : Prop where
  cinv : CInv ser c d
  plain : ∀ ts b, .send ts b ∈ toRight c d → P b = true → ∀ x ∈ ts, x = .pid t
  log : ∃ got, marked P t d.R.sent = base ++ got ∧
    ((exists? d.R t = true ∧ got ++ (toRight c d).flatMap (carried P) = S) ∨
     (exists? d.R t = false ∧ t < d.R.nextPid ∧ got <+: S))

theorem absent_marked (ser : V → B) (P : B → Bool) (t : Nat) (w : World B V) (o : Op B V) (h : exists? w t = false) (ht : t < w.nextPid) :
    exists? (step ser w o).1 t = false ∧ t < (step ser w o).1.nextPid ∧ marked P t (step ser w o).1.sent = marked P t w.sent := by
  refine (step_acts ser w o).inv (I := fun w' => exists? w' t = false ∧ t < w'.nextPid ∧ marked P t w'.sent = marked P t w.sent) ⟨h, ht, rfl⟩ ?_
  rintro w' a - ⟨h1, h2, h3⟩
  have hm := (acts_mono_counters (Acts.one (Q := fun _ => True) (w := w') (a := a) trivial)).1
  refine ⟨?_, by omega, ?_⟩
  · unfold exists? at *
    rw [ex_act]
    cases a <;> simp only [h1] <;> simp
    omega
  · have one : ∀ (i : Nat) (it : Item B V), marked P t (if (w'.procs i).isSome = true then w'.sent ++ [(i, it)] else w'.sent) = marked P t w.sent := by
      intro i it
      split
      · rename_i hi
        have : i ≠ t := by rintro rfl; unfold exists? at h1; rw [hi] at h1; cases h1
        rw [marked_append, h3]
        have : marked P t [(i, it)] = [] := by
          unfold marked
          rw [List.filterMap_eq_nil_iff]
          intro x hx
          simp at hx; subst hx
          simp only
          split <;> simp [this]
        rw [this, List.append_nil]
      · exact h3
    rw [sent_act]
    cases a <;> simp only [] <;> first | exact h3 | exact one _ _

theorem flatMap_nil {A C : Type} (l : List A) (f : A → List C) (h : ∀ x ∈ l, f x = []) : l.flatMap f = [] := by
  rw [List.flatMap_eq_nil_iff]; exact h

theorem carried_nil {P : B → Bool} {f : NFrame B} (h : ∀ ts b, f = .send ts b → P b = false) : carried P f = [] := by
  cases f <;> try rfl
  rename_i ts b
  simp [carried, h ts b rfl]

/-- The new frames of a step of the left node. -/
theorem left_new (ser : V → B) (P : B → Bool) (t k : Nat) (w : World B V) (o : Op B V) (new : List (NFrame B))
    (ha : askedFor k (step ser w o).1 = askedFor k w ++ new) (hf : ∀ f ∈ new, FrameOf w o f k)
    (hm : ∀ me ds v, o = .send me ds v → P (ser v) = true → ∀ x ∈ ds.list, x = .pid (.rem t k)) :
    new.flatMap (carried P) = sendsL ser P w o ∧
    ∀ ts b, .send ts b ∈ new → P b = true → ∀ x ∈ ts, x = .pid t := by
  by_cases ho : ∃ me ds v, o = .send me ds v
  · obtain ⟨me, ds, v, rfl⟩ := ho
    simp only [sendsL]
    cases hr : running w me with
    | false =>
      rw [step_idle ser w _ me rfl hr] at ha
      have : new = [] := by simpa using ha
      subst this
      exact ⟨by simp, by simp⟩
    | true =>
      simp only [step, Op.caller, hr, if_true, Op.exec] at ha
      by_cases hP : P (ser v) = true
      · obtain ⟨F, h1, h2, h3⟩ := send_marked ser w ds v t k (hm _ _ _ rfl hP)
        rw [h1] at ha
        have := List.append_cancel_left ha
        subst this
        refine ⟨by rw [h2]; simp [hP], ?_⟩
        intro ts b hb _
        obtain ⟨ts', e, h4⟩ := h3 _ hb
        cases e; exact h4
      · obtain ⟨D, F, -, h1, -, h2⟩ := traces_send ser w ds v
        have h1' : askedFor k (send ser w ds v) = askedFor k w ++ (F.filter (·.1 = k)).map (·.2) := by
          unfold askedFor; rw [h1]; simp
        rw [h1'] at ha
        have := List.append_cancel_left ha
        subst this
        have key : ∀ f ∈ (F.filter (·.1 = k)).map (·.2), ∃ ts, f = .send ts (ser v) := by
          intro f hf
          obtain ⟨y, hy, rfl⟩ := List.mem_map.1 hf
          exact h2 y (List.mem_filter.1 hy).1
        refine ⟨?_, ?_⟩
        · rw [if_neg (by simp [hP])]
          refine flatMap_nil _ _ fun f hf => carried_nil ?_
          intro ts b e
          obtain ⟨ts', h⟩ := key f hf
          rw [h] at e; cases e
          simpa using hP
        · intro ts b hb hPb
          obtain ⟨ts', h⟩ := key _ hb
          cases h; exact absurd hPb hP
  · have key : ∀ ts b, .send ts b ∉ new := fun ts b hb => ho (hf _ hb)
    refine ⟨?_, fun ts b hb => absurd hb (key ts b)⟩
    rw [flatMap_nil _ _ fun f hf => carried_nil ?_]
    · cases o <;> first | rfl | exact absurd ⟨_, _, _, rfl⟩ ho
    · rintro ts b rfl; exact absurd hf (key ts b)

theorem posted_step {ser : Sers V B} {c : Conn} {P : B → Bool} {t : Nat} {base S : List B} {d : Duo B V} (h : Posted ser c P t base S d)
    (s : DOp B V) (hs : Legal c s) (hm : Marks ser c P t s) :
    Posted ser c P t base (S ++ sends ser P d s) (dstep ser c d s) := by
  obtain ⟨hi, hk | ⟨o, k, hl, hso⟩ | ⟨o, k, hr, hso⟩⟩ := dstep_moves h.cinv s hs
  · rw [hk.1]
    have : sends ser P d s = [] ∨ ∃ me ds v, s = .left (.send me ds v) := by
      cases s <;> try exact .inl rfl
      rename_i o
      cases o <;> first | exact .inl rfl | exact .inr ⟨_, _, _, rfl⟩
    rcases this with e | ⟨me, ds, v, rfl⟩
    · rw [e, List.append_nil]; exact h
    · -- a send that changes nothing sends nothing
      obtain ⟨h1, h2, new, h3, h4, h5⟩ := h.cinv.left.step (.send me ds v) hs.1
      have e := congrArg (·.L) hk.1
      simp only [dstep] at e
      rw [e] at h4
      have hn : new = [] := by simpa using h4
      have := (left_new ser.L P t c.idR d.L (.send me ds v) new (by rw [e]; exact h4) h5 (by rintro _ _ _ ⟨⟩; exact hm)).1
      have e2 : sends ser P d (.left (.send me ds v)) = [] := by
        subst hn; exact this.symm
      rw [e2, List.append_nil]; exact h
  · -- the left node
    obtain ⟨new, h1, -, h3, h4⟩ := hl.new
    have e : sends ser P d s = sendsL ser.L P d.L o := by
      rcases hso with rfl | ⟨rp, f, rfl, rfl, -⟩
      · cases o <;> rfl
      · rfl
    obtain ⟨g1, g2⟩ := left_new ser.L P t c.idR d.L o new (by rw [← hl.L]; exact h3) h4 (by
      rintro me ds v rfl
      rcases hso with rfl | ⟨rp, f, rfl, h, -⟩
      · exact hm
      · cases h)
    refine ⟨hi, ?_, ?_⟩
    · intro ts b hb
      rw [h1] at hb
      rcases List.mem_append.1 hb with hb | hb
      · exact h.plain ts b hb
      · exact g2 ts b hb
    · obtain ⟨got, e1, e2⟩ := h.log
      refine ⟨got, by rw [hl.R]; exact e1, ?_⟩
      rw [hl.R, h1, e, ← g1]
      rcases e2 with ⟨e2, e3⟩ | ⟨e2, e3, e4⟩
      · exact .inl ⟨e2, by rw [List.flatMap_append, ← List.append_assoc, e3]⟩
      · exact .inr ⟨e2, e3, e4.trans (List.prefix_append _ _)⟩
  · -- the right node
    have es : sends ser P d s = [] := by rcases hso with rfl | ⟨rp, f, rfl, -⟩ <;> rfl
    rw [es, List.append_nil]
    refine ⟨hi, ?_, ?_⟩
    · intro ts b hb
      exact h.plain ts b (by rw [hr.got]; exact List.mem_append_right _ hb)
    · obtain ⟨got, e1, e2⟩ := h.log
      rw [hr.R]
      rcases e2 with ⟨e2, e3⟩ | ⟨e2, e3, e4⟩
      · -- `t` exists before the step
        have hlt : t < d.R.nextPid := by
          obtain ⟨os, he⟩ := h.cinv.right.reach
          apply Classical.byContradiction
          intro hn
          have := run_bounded ser.R os t (by rw [← he]; omega)
          rw [← he] at this
          simp [exists?, this] at e2
        have hlt' : t < (step ser.R d.R o).1.nextPid := Nat.lt_of_lt_of_le hlt (acts_mono_counters (step_acts ser.R d.R o)).1
        by_cases hsend : ∃ rp ts b, o = .frame rp c.nL (.send ts b) ∧ P b = true
        · obtain ⟨rp, ts, b, rfl, hP⟩ := hsend
          rcases hr.from_ with ⟨-, h1⟩ | ⟨rp', f', hk, ho, hrun, -⟩
          · exact absurd rfl (h1 rp _)
          cases ho
          have hg := hr.got
          rw [hk] at hg
          have hp := h.plain ts b (by rw [hg]; exact List.mem_append_left _ List.mem_cons_self) hP
          obtain ⟨f1, f2⟩ := forward_same b t ts hp d.R e2
          have est : (step ser.R d.R (.frame rp c.nL (.send ts b))).1 = forwardSend b d.R ts := by
            simp only [step, Op.caller, hrun, if_true, Op.exec, recvFrame]
          rw [est]
          refine ⟨got ++ List.replicate ts.length b, ?_, .inl ⟨f2, ?_⟩⟩
          · rw [f1, marked_append, e1, List.append_assoc]
            congr 2
            unfold marked
            rw [List.filterMap_replicate]
            simp [hP]
          · rw [← e3, hg]
            simp [carried, hP]
        · have hmk : marked P t (step ser.R d.R o).1.sent = marked P t d.R.sent := by
            refine step_marked ser.R P t d.R o ?_ ?_
            · rintro me ds v rfl
              rcases hso with rfl | ⟨rp, f, rfl, h, -⟩
              · exact hm
              · cases h
            · rintro rp N ts b rfl
              rcases hso with rfl | ⟨rp, f, rfl, h, -⟩
              · exact hm
              · cases h
                cases hP : P b with
                | false => rfl
                | true => exact absurd ⟨_, _, _, rfl, hP⟩ hsend
          have hkn : k.flatMap (carried P) = [] := by
            rcases hr.from_ with ⟨hk, -⟩ | ⟨rp', f', hk, ho, -⟩
            · rw [hk]; rfl
            · rw [hk]
              refine flatMap_nil _ _ fun f hf => carried_nil ?_
              rintro ts b rfl
              simp at hf; subst hf
              cases hP : P b with
              | false => rfl
              | true => exact absurd ⟨_, _, _, ho, hP⟩ hsend
          have e3' : got ++ (toRight c (dstep ser c d s)).flatMap (carried P) = S := by
            rw [← e3, hr.got, List.flatMap_append, hkn, List.nil_append]
          refine ⟨got, by rw [hmk]; exact e1, ?_⟩
          cases he : exists? (step ser.R d.R o).1 t with
          | true => exact .inl ⟨rfl, e3'⟩
          | false => exact .inr ⟨rfl, hlt', _, e3'⟩
      · obtain ⟨a1, a2, a3⟩ := absent_marked ser.R P t d.R o e2 e3
        exact ⟨got, by rw [a3]; exact e1, .inr ⟨a1, a2, e4⟩⟩

theorem posted_run {ser : Sers V B} {c : Conn} {P : B → Bool} {t : Nat} {base : List B} (l : List (DOp B V)) : ∀ {S : List B} {d : Duo B V},
    Posted ser c P t base S d → (∀ s ∈ l, Legal c s ∧ Marks ser c P t s) →
    Posted ser c P t base (S ++ sentBy ser c P d l) (drun ser c d l) := by
  induction l with
  | nil => intro S d h _; simpa [sentBy, drun] using h
  | cons s l ih =>
    intro S d h hl
    have := ih (posted_step h s (hl s List.mem_cons_self).1 (hl s List.mem_cons_self).2) (fun s hs => hl s (.tail _ hs))
    rw [sentBy_cons, ← List.append_assoc]
    exact this

theorem unsent_run {ser : Sers V B} {c : Conn} {P : B → Bool} (l : List (DOp B V)) : ∀ {d : Duo B V}, CInv ser c d →
    (∀ ts b, .send ts b ∈ toRight c d → P b = false) →
    (∀ s ∈ l, Legal c s ∧ ∀ me ds v, s = .left (.send me ds v) → P (ser.L v) = false) →
    ∀ ts b, .send ts b ∈ toRight c (drun ser c d l) → P b = false := by
  induction l with
  | nil => intro d _ h _; exact h
  | cons s l ih =>
    intro d hc h hl
    obtain ⟨hs, hp⟩ := hl s List.mem_cons_self
    obtain ⟨hi, hk⟩ := dstep_moves hc s hs
    refine ih hi ?_ (fun s hs => hl s (.tail _ hs))
    rcases hk with hk | ⟨o, k, hm, hso⟩ | ⟨o, k, hm, hso⟩
    · rw [hk.1]; exact h
    · obtain ⟨new, h1, -, h3, h4⟩ := hm.new
      have hP : ∀ me ds v, o = .send me ds v → P (ser.L v) = false := by
        rintro me ds v rfl
        rcases hso with rfl | ⟨rp, f, rfl, h, -⟩
        · exact hp _ _ _ rfl
        · cases h
      obtain ⟨g1, -⟩ := left_new ser.L P 0 c.idR d.L o new (by rw [← hm.L]; exact h3) h4 (by
        intro me ds v ho hP'; rw [hP me ds v ho] at hP'; cases hP')
      intro ts b hb
      rw [h1] at hb
      rcases List.mem_append.1 hb with hb | hb
      · exact h ts b hb
      · obtain ⟨me, ds, v, ho⟩ : FrameOf d.L o (.send ts b) c.idR := h4 _ hb
        subst ho
        cases hr : running d.L me with
        | false =>
          rw [hm.L, step_idle ser.L d.L _ me rfl hr] at h3
          have : new = [] := by simpa using h3
          subst this; cases hb
        | true =>
          have h5 : askedFor c.idR (step ser.L d.L (.send me ds v)).1 = askedFor c.idR d.L ++ new := by rw [← hm.L]; exact h3
          simp only [step, Op.caller, hr, if_true, Op.exec] at h5
          obtain ⟨D, F, -, h6, -, h7⟩ := traces_send ser.L d.L ds v
          have h8 : askedFor c.idR (send ser.L d.L ds v) = askedFor c.idR d.L ++ (F.filter (·.1 = c.idR)).map (·.2) := by
            unfold askedFor; rw [h6]; simp
          rw [h8] at h5
          have := List.append_cancel_left h5
          subst this
          obtain ⟨y, hy, e⟩ := List.mem_map.1 hb
          obtain ⟨ts', e'⟩ := h7 y (List.mem_filter.1 hy).1
          rw [e'] at e; cases e
          exact hP _ _ _ rfl
    · intro ts b hb
      exact h ts b (by rw [hm.got]; exact List.mem_append_right _ hb)

/-- C92. Two nodes with a connection, on which everything arrives in order; after any history `l1` in which the left node sends no
marked message, the process `t` of the right node exists. Then any interleaving `l` of operations of both nodes and arrivals of frames in
which the connection stays up, and in which the messages marked by `P` are those some processes of the left node send to `t`. The marked
messages put in the mailbox of `t` meanwhile (`got`) are the first ones of those sent, in the order in which they were sent, each once, and,
when nothing is on its way to the right node any more and `t` exists, they are all of them. -/
theorem C92_in_order (ser : Sers V B) (c : Conn) (P : B → Bool) (t : Nat) (d : Duo B V) (l1 l : List (DOp B V)) :
    let d1 := drun ser c d l1
    let d2 := drun ser c d1 l
    Begins ser c d → (∀ s ∈ l1, Legal c s ∧ ∀ me ds v, s = .left (.send me ds v) → P (ser.L v) = false) → exists? d1.R t = true →
    (∀ s ∈ l, Legal c s ∧ Marks ser c P t s) →
    ∃ got, marked P t d2.R.sent = marked P t d1.R.sent ++ got ∧ got <+: sentBy ser c P d1 l ∧
      (toRight c d2 = [] → exists? d2.R t = true → got = sentBy ser c P d1 l) := by
  intro d1 d2 hb hl1 ht hl
  have e0 : toRight c d = [] := by
    unfold toRight
    rw [hb.readyL.handed, hb.readyL.pending]; simp
  have hu := unsent_run l1 hb.cinv (P := P) (by rw [e0]; simp) hl1
  have h0 : Posted ser c P t (marked P t d1.R.sent) [] d1 := by
    refine ⟨cinv_run l1 hb.cinv (fun s hs => (hl1 s hs).1), ?_, [], by simp, .inl ⟨ht, ?_⟩⟩
    · intro ts b h hP
      rw [hu ts b h] at hP; cases hP
    · rw [List.nil_append]
      exact flatMap_nil _ _ fun f hf => carried_nil (by rintro ts b rfl; exact hu ts b hf)
  have h := posted_run l h0 hl
  obtain ⟨got, e1, e2⟩ := h.log
  refine ⟨got, e1, ?_, ?_⟩
  · rcases e2 with ⟨-, e3⟩ | ⟨-, -, e3⟩
    · exact ⟨_, e3⟩
    · exact e3
  · intro hq hex
    rcases e2 with ⟨-, e3⟩ | ⟨e3, -⟩
    · have hq' : toRight c (drun ser c d1 l) = [] := hq
      rw [hq'] at e3
      simpa using e3
    · have hex' : exists? (drun ser c d1 l).R t = true := hex
      rw [e3] at hex'; cases hex'

/-- Process 1 of "a" sends 7 to process 1 of "b" and then 8 to it twice; some other traffic in between. -/
def postSched : List (DOp Nat Nat) :=
  [.left (.send 1 (.one (.pid (.rem 1 1))) 7), .left (.link 1 (.rem 1 1)), .toR 5,
   .left (.send 1 (.many [.pid (.rem 1 1), .pid (.rem 1 1)]) 8), .right (.send 1 (.one (.pid (.rem 1 1))) 0), .toR 5, .toL 5, .toR 5]

example : (∀ s ∈ postSched, Legal duoC s ∧ Marks sameSer duoC (fun b => decide (b > 5)) 1 s) ∧
    sentBy sameSer duoC (fun b => decide (b > 5)) duo postSched = [7, 8, 8] ∧
    marked (fun b => decide (b > 5)) 1 (drun sameSer duoC duo postSched).R.sent = [7, 8, 8] ∧
    toRight duoC (drun sameSer duoC duo postSched) = [] ∧ exists? (drun sameSer duoC duo postSched).R 1 = true := by
  refine ⟨?_, rfl, rfl, rfl, rfl⟩
  simp [postSched, Legal, Marks, Undisturbed, Dests.list, duoC]

end Verif.World
