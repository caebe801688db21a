import Verif.TwoNodeCastProps
/-!
# Messages to different processes of a connected node (C135)

C92 is about the messages to one process. Here the messages go to any number of processes of the other node, and the order *across* them is at issue: a message that
was sent later never arrives, at whatever process, before one that was sent earlier has arrived at its own. So what a process of the other node does because of a message
it received comes after the arrival of everything that had been sent before that message (causal order).
-/
namespace Verif.World
open Verif.Mailbox
variable {B V M S : Type}

/-! ## Specification -/

/-- The marked messages put into the mailboxes they were meant for, whichever these are, in the order in which this happened. `T b` is the process the message `b` is for. -/
def landed (P : B → Bool) (T : B → Nat) (l : List (Nat × Item B V)) : List B :=
  l.filterMap fun x => match x.2 with
    | .remote b => if x.1 = T b ∧ P b = true then some b else none
    | _ => none

/-- The mark is used for messages of the left node to processes of the right node only (named by their pids); each goes to the process `T` gives for it. -/
def Addressed (ser : Sers V B) (c : Conn) (P : B → Bool) (T : B → Nat) : DOp B V → Prop
  | .left (.send _ ds v) => P (ser.L v) = true → ∀ x ∈ ds.list, x = .pid (.rem (T (ser.L v)) c.idR)
  | .right (.send _ _ v) => P (ser.R v) = false
  | .right (.frame _ _ (.send _ b)) => P b = false
  | _ => True

/-! ## Proof -/

theorem landed_append (P : B → Bool) (T : B → Nat) (l l' : List (Nat × Item B V)) : landed P T (l ++ l') = landed P T l ++ landed P T l' := by
  simp [landed]

theorem landed_nil (P : B → Bool) (T : B → Nat) (l : List (Nat × Item B V)) (h : ∀ x ∈ l, ∀ b, x.2 = .remote b → P b = false) :
    landed P T l = [] := by
  unfold landed
  rw [List.filterMap_eq_nil_iff]
  intro x hx
  split
  · rename_i b hb
    rw [h x hx b hb]; simp
  · rfl

/-- Forwarding a message to a process that does not exist does nothing. -/
theorem forward_absent (b : B) (t : Nat) (ts : List Target) (h : ∀ x ∈ ts, x = .pid t) : ∀ w : World B V, (w.procs t).isSome = false →
    forwardSend b w ts = w := by
  induction ts with
  | nil => intro w _; rfl
  | cons x ts ih =>
    intro w hw
    have := h x List.mem_cons_self
    subst this
    have hp : put w t (.remote b) = w := by
      unfold put
      cases hq : w.procs t with
      | none => rfl
      | some p => rw [hq] at hw; cases hw
    show forwardSend b (put w t (.remote b)) ts = w
    rw [hp]
    exact ih (fun x hx => h x (.tail _ hx)) w hw

theorem step_landed (ser : V → B) (P : B → Bool) (T : B → Nat) (w : World B V) (o : Op B V)
    (h1 : ∀ me ds v, o = .send me ds v → P (ser v) = false) (h2 : ∀ rp N ts b, o = .frame rp N (.send ts b) → P b = false) :
    landed P T (step ser w o).1.sent = landed P T w.sent := by
  by_cases hs : (∃ me ds v, o = .send me ds v) ∨ ∃ rp N ts b, o = .frame rp N (.send ts b)
  · rcases hs with ⟨me, ds, v, rfl⟩ | ⟨rp, N, ts, b, rfl⟩
    · cases hr : running w me with
      | false => rw [step_idle ser w _ me rfl hr]
      | true =>
        simp only [step, Op.caller, hr, if_true, Op.exec]
        obtain ⟨D, F, a1, -, a3, -⟩ := traces_send ser w ds v
        rw [a1, landed_append, landed_nil P T D, List.append_nil]
        intro x hx b hb
        rw [a3 x hx b hb]; exact h1 _ _ _ rfl
    · cases hr : running w rp with
      | false => rw [step_idle ser w _ rp rfl hr]
      | true =>
        simp only [step, Op.caller, hr, if_true, Op.exec, recvFrame]
        obtain ⟨D, F, a1, -, a3, -⟩ := traces_forwardSend b ts w
        rw [a1, landed_append, landed_nil P T D, List.append_nil]
        intro x hx m hm
        rw [a3 x hx m hm]; exact h2 _ _ _ _ rfl
  · refine (step_acts ser w o).inv (I := fun w' => landed P T w'.sent = landed P T w.sent) rfl ?_
    intro w' a ha hi
    rw [sent_act]
    cases a <;> simp only [] <;> try exact hi
    · rename_i i it
      split
      · rw [landed_append, landed_nil P T [_], List.append_nil]; exact hi
        intro x hx b hb
        simp at hx; subst hx
        simp only at hb; subst hb
        exact absurd (by
          rcases ha with ⟨me, ds, v, h⟩ | ⟨rp, n, ts, h⟩
          · exact .inl ⟨me, ds, v, h⟩
          · exact .inr ⟨rp, n, ts, b, h⟩) hs
      · exact hi
    · split
      · rw [landed_append, landed_nil P T [_] (by simp), List.append_nil]; exact hi
      · exact hi
    · split
      · rw [landed_append, landed_nil P T [_] (by simp), List.append_nil]; exact hi
      · exact hi

/-- `S`: what was sent; `base`: what had landed before; `n`: the processes below it are looked at; `past`: what has left the line. -/
structure Flows (ser : Sers V B) (c : Conn) (P : B → Bool) (T : B → Nat) (n : Nat) (base S : List B) (d : Duo B V) : Prop where
  cinv : CInv ser c d
  plain : ∀ ts b, .send ts b ∈ toRight c d → P b = true → ∀ x ∈ ts, x = .pid (T b)
  old : n ≤ d.R.nextPid
  log : ∃ got past, landed P T d.R.sent = base ++ got ∧ past ++ (toRight c d).flatMap (carried P) = S ∧ got.Sublist past ∧
    ∀ t, t < n → exists? d.R t = true → (got.filter fun b => T b = t) = past.filter fun b => T b = t

/-- The new frames of a step of the left node. -/
theorem left_addressed (ser : V → B) (P : B → Bool) (T : B → Nat) (k : Nat) (w : World B V) (o : Op B V) (new : List (NFrame B))
    (ha : askedFor k (step ser w o).1 = askedFor k w ++ new) (hf : ∀ f ∈ new, FrameOf w o f k)
    (hm : ∀ me ds v, o = .send me ds v → P (ser v) = true → ∀ x ∈ ds.list, x = .pid (.rem (T (ser v)) k)) :
    new.flatMap (carried P) = sendsL ser P w o ∧
    ∀ ts b, .send ts b ∈ new → P b = true → ∀ x ∈ ts, x = .pid (T b) := by
  by_cases ho : ∃ me ds v, o = .send me ds v
  · obtain ⟨me, ds, v, rfl⟩ := ho
    obtain ⟨h1, h2⟩ := left_new ser P (T (ser v)) k w _ new ha hf (by rintro _ _ _ ⟨⟩; exact hm _ _ _ rfl)
    refine ⟨h1, fun ts b hb hP => ?_⟩
    have := h2 ts b hb hP
    cases hr : running w me with
    | false =>
      rw [step_idle ser w _ me rfl hr] at ha
      have hn : new = [] := by simpa using ha
      subst hn; cases hb
    | true =>
      simp only [step, Op.caller, hr, if_true, Op.exec] at ha
      obtain ⟨D, F, -, h3, -, h4⟩ := traces_send ser w ds v
      have h3' : askedFor k (send ser w ds v) = askedFor k w ++ (F.filter (·.1 = k)).map (·.2) := by
        unfold askedFor; rw [h3]; simp
      rw [h3'] at ha
      have he := List.append_cancel_left ha
      subst he
      obtain ⟨y, hy, e⟩ := List.mem_map.1 hb
      obtain ⟨ts', e'⟩ := h4 y (List.mem_filter.1 hy).1
      rw [e'] at e; cases e
      exact this
  · exact ⟨(left_new ser P 0 k w o new ha hf (fun me ds v h => absurd ⟨me, ds, v, h⟩ ho)).1, fun ts b hb => absurd (hf _ hb) ho⟩

theorem still_absent (ser : V → B) (w : World B V) (o : Op B V) (t : Nat) (ht : t < w.nextPid) (h : exists? (step ser w o).1 t = true) : exists? w t = true := by
  cases he : exists? w t with
  | true => rfl
  | false => rw [(absent_marked ser (fun _ => false) t w o he ht).1] at h; cases h

theorem flows_step {ser : Sers V B} {c : Conn} {P : B → Bool} {T : B → Nat} {n : Nat} {base S : List B} {d : Duo B V} (h : Flows ser c P T n base S d)
    (s : DOp B V) (hs : Legal c s) (hm : Addressed ser c P T s) :
    Flows ser c P T n base (S ++ sends ser P d s) (dstep ser c d s) := by
  obtain ⟨hi, hk | ⟨o, k, hl, hso⟩ | ⟨o, k, hr, hso⟩⟩ := dstep_moves h.cinv s hs
  · rw [hk.1]
    have : sends ser P d s = [] ∨ ∃ me ds v, s = .left (.send me ds v) := by
      cases s <;> try exact .inl rfl
      rename_i o
      cases o <;> first | exact .inl rfl | exact .inr ⟨_, _, _, rfl⟩
    rcases this with e | ⟨me, ds, v, rfl⟩
    · rw [e, List.append_nil]; exact h
    · obtain ⟨h1, h2, new, h3, h4, h5⟩ := h.cinv.left.step (.send me ds v) hs.1
      have e := congrArg (·.L) hk.1
      simp only [dstep] at e
      rw [e] at h4
      have hn : new = [] := by simpa using h4
      have := (left_addressed ser.L P T c.idR d.L (.send me ds v) new (by rw [e]; exact h4) h5 (by rintro _ _ _ ⟨⟩; exact hm)).1
      have e2 : sends ser P d (.left (.send me ds v)) = [] := by
        subst hn; exact this.symm
      rw [e2, List.append_nil]; exact h
  · -- the left node
    obtain ⟨new, h1, -, h3, h4⟩ := hl.new
    have e : sends ser P d s = sendsL ser.L P d.L o := by
      rcases hso with rfl | ⟨rp, f, rfl, rfl, -⟩
      · cases o <;> rfl
      · rfl
    obtain ⟨g1, g2⟩ := left_addressed ser.L P T c.idR d.L o new (by rw [← hl.L]; exact h3) h4 (by
      rintro me ds v rfl
      rcases hso with rfl | ⟨rp, f, rfl, h, -⟩
      · exact hm
      · cases h)
    refine ⟨hi, ?_, by rw [hl.R]; exact h.old, ?_⟩
    · intro ts b hb
      rw [h1] at hb
      rcases List.mem_append.1 hb with hb | hb
      · exact h.plain ts b hb
      · exact g2 ts b hb
    · obtain ⟨got, past, e1, e2, e3, e4⟩ := h.log
      refine ⟨got, past, by rw [hl.R]; exact e1, ?_, e3, by rw [hl.R]; exact e4⟩
      rw [h1, e, ← g1, List.flatMap_append, ← List.append_assoc, e2]
  · -- the right node
    have es : sends ser P d s = [] := by rcases hso with rfl | ⟨rp, f, rfl, -⟩ <;> rfl
    rw [es, List.append_nil]
    have hold : n ≤ (step ser.R d.R o).1.nextPid := Nat.le_trans h.old (acts_mono_counters (step_acts ser.R d.R o)).1
    refine ⟨hi, ?_, by rw [hr.R]; exact hold, ?_⟩
    · intro ts b hb
      exact h.plain ts b (by rw [hr.got]; exact List.mem_append_right _ hb)
    · obtain ⟨got, past, e1, e2, e3, e4⟩ := h.log
      rw [hr.R]
      by_cases hsend : ∃ rp ts b, o = .frame rp c.nL (.send ts b) ∧ P b = true
      · obtain ⟨rp, ts, b, rfl, hP⟩ := hsend
        rcases hr.from_ with ⟨-, h1⟩ | ⟨rp', f', hk, ho, hrun, -⟩
        · exact absurd rfl (h1 rp _)
        cases ho
        have hg := hr.got
        rw [hk] at hg
        have hp := h.plain ts b (by rw [hg]; exact List.mem_append_left _ List.mem_cons_self) hP
        have est : (step ser.R d.R (.frame rp c.nL (.send ts b))).1 = forwardSend b d.R ts := by
          simp only [step, Op.caller, hrun, if_true, Op.exec, recvFrame]
        have e2' : (past ++ List.replicate ts.length b) ++ (toRight c (dstep ser c d s)).flatMap (carried P) = S := by
          rw [← e2, hg]
          simp [carried, hP]
        cases hex : exists? d.R (T b) with
        | true =>
          obtain ⟨f1, f2⟩ := forward_same b (T b) ts hp d.R hex
          refine ⟨got ++ List.replicate ts.length b, past ++ List.replicate ts.length b, ?_, e2', e3.append (List.Sublist.refl _), ?_⟩
          · rw [est, f1, landed_append, e1, List.append_assoc]
            congr 2
            unfold landed
            rw [List.filterMap_replicate]
            simp [hP]
          · intro t ht htx
            rw [List.filter_append, List.filter_append, e4 t ht (still_absent ser.R d.R _ t (Nat.lt_of_lt_of_le ht h.old) htx)]
        | false =>
          have f1 := forward_absent b (T b) ts hp d.R hex
          rw [f1] at est
          refine ⟨got, past ++ List.replicate ts.length b, by rw [est]; exact e1, e2', e3.trans (List.sublist_append_left _ _), ?_⟩
          intro t ht htx
          rw [est] at htx
          rw [List.filter_append, e4 t ht htx]
          have : (List.replicate ts.length b).filter (fun b => decide (T b = t)) = [] := by
            rw [List.filter_eq_nil_iff]
            intro x hx
            rw [List.eq_of_mem_replicate hx]
            have : T b ≠ t := by rintro rfl; rw [hex] at htx; cases htx
            simpa using this
          rw [this, List.append_nil]
      · have hmk : landed P T (step ser.R d.R o).1.sent = landed P T d.R.sent := by
          refine step_landed ser.R P T d.R o ?_ ?_
          · rintro me ds v rfl
            rcases hso with rfl | ⟨rp, f, rfl, h, -⟩
            · exact hm
            · cases h
          · rintro rp N ts b rfl
            rcases hso with rfl | ⟨rp, f, rfl, h, -⟩
            · exact hm
            · cases h
              cases hP : P b with
              | false => rfl
              | true => exact absurd ⟨_, _, _, rfl, hP⟩ hsend
        have hkn : k.flatMap (carried P) = [] := by
          rcases hr.from_ with ⟨hk, -⟩ | ⟨rp', f', hk, ho, -⟩
          · rw [hk]; rfl
          · rw [hk]
            refine flatMap_nil _ _ fun f hf => carried_nil ?_
            rintro ts b rfl
            simp at hf; subst hf
            cases hP : P b with
            | false => rfl
            | true => exact absurd ⟨_, _, _, ho, hP⟩ hsend
        refine ⟨got, past, by rw [hmk]; exact e1, ?_, e3, ?_⟩
        · rw [← e2, hr.got, List.flatMap_append, hkn, List.nil_append]
        · intro t ht htx
          exact e4 t ht (still_absent ser.R d.R _ t (Nat.lt_of_lt_of_le ht h.old) htx)

theorem flows_run {ser : Sers V B} {c : Conn} {P : B → Bool} {T : B → Nat} {n : Nat} {base : List B} (l : List (DOp B V)) : ∀ {S : List B} {d : Duo B V},
    Flows ser c P T n base S d → (∀ s ∈ l, Legal c s ∧ Addressed ser c P T s) →
    Flows ser c P T n base (S ++ sentBy ser c P d l) (drun ser c d l) := by
  induction l with
  | nil => intro S d h _; simpa [sentBy, drun] using h
  | cons s l ih =>
    intro S d h hl
    have := ih (flows_step h s (hl s List.mem_cons_self).1 (hl s List.mem_cons_self).2) (fun s hs => hl s (.tail _ hs))
    rw [sentBy_cons, ← List.append_assoc]
    exact this

/-! ## Theorems -/

/-- **C135**: two nodes with a connection; after any history `l1` in which the left node sends no marked message, any interleaving `l` of operations of both nodes and arrivals
of frames in which the connection stays up. The marked messages are sent by any processes of the left node to any processes of the right node. Then there is a moment in
the history of what was sent (`past` is what was sent before it) such that only messages sent before that moment have been put into mailboxes, in the order in which they were
sent, and of those, none is missing at any process that still exists (of those that existed when the first was sent). When nothing is on its way any more, the moment is now. -/
theorem C135_cut (ser : Sers V B) (c : Conn) (P : B → Bool) (T : B → Nat) (d : Duo B V) (l1 l : List (DOp B V)) :
    let d1 := drun ser c d l1
    let d2 := drun ser c d1 l
    Begins ser c d → (∀ s ∈ l1, Legal c s ∧ ∀ me ds v, s = .left (.send me ds v) → P (ser.L v) = false) → (∀ s ∈ l, Legal c s ∧ Addressed ser c P T s) →
    ∃ got past, landed P T d2.R.sent = landed P T d1.R.sent ++ got ∧ past <+: sentBy ser c P d1 l ∧ got.Sublist past ∧
      (∀ t, exists? d1.R t = true → exists? d2.R t = true → (got.filter fun b => T b = t) = past.filter fun b => T b = t) ∧
      (toRight c d2 = [] → past = sentBy ser c P d1 l) := by
  intro d1 d2 hb hl1 hl
  have e0 : toRight c d = [] := by
    unfold toRight
    rw [hb.readyL.handed, hb.readyL.pending]; simp
  have hu := unsent_run l1 hb.cinv (P := P) (by rw [e0]; simp) hl1
  have hc1 := cinv_run l1 hb.cinv (fun s hs => (hl1 s hs).1)
  have h0 : Flows ser c P T d1.R.nextPid (landed P T d1.R.sent) [] d1 := by
    refine ⟨hc1, ?_, Nat.le_refl _, [], [], by simp, ?_, List.Sublist.refl _, by simp⟩
    · intro ts b h hP
      rw [hu ts b h] at hP; cases hP
    · rw [List.nil_append]
      exact flatMap_nil _ _ fun f hf => carried_nil (by rintro ts b rfl; exact hu ts b hf)
  have h := flows_run l h0 hl
  obtain ⟨got, past, e1, e2, e3, e4⟩ := h.log
  rw [List.nil_append] at e2
  refine ⟨got, past, e1, ⟨_, e2⟩, e3, ?_, ?_⟩
  · intro t ht
    refine e4 t ?_
    obtain ⟨os, he⟩ := hc1.right.reach
    rcases Nat.lt_or_ge t d1.R.nextPid with h | h
    · exact h
    · have := run_bounded ser.R os t (by rw [← he]; exact h)
      rw [← he] at this
      have ht' : exists? (drun ser c d l1).R t = true := ht
      simp [exists?, this] at ht'
  · intro hq
    have hq' : toRight c (drun ser c d1 l) = [] := hq
    rw [hq'] at e2
    simpa using e2

/-- **C135**, for two messages: if `m1` was sent before `m2`, to whichever processes, and `m2` has been put into a mailbox, then `m1` has been put into the mailbox of its process,
if that still exists. (So whatever is sent because of `m2` comes after `m1`: it is put into a mailbox later.) -/
theorem C135_causal (ser : Sers V B) (c : Conn) (P : B → Bool) (T : B → Nat) (d : Duo B V) (l1 l : List (DOp B V)) (m1 m2 : B) (A A' A'' : List B) :
    let d1 := drun ser c d l1
    let d2 := drun ser c d1 l
    Begins ser c d → (∀ s ∈ l1, Legal c s ∧ ∀ me ds v, s = .left (.send me ds v) → P (ser.L v) = false) → (∀ s ∈ l, Legal c s ∧ Addressed ser c P T s) →
    sentBy ser c P d1 l = A ++ m1 :: (A' ++ m2 :: A'') → m2 ∉ A ++ m1 :: A' → (∀ u, (u, Item.remote m2) ∉ d1.R.sent) → (T m2, Item.remote m2) ∈ d2.R.sent →
    exists? d1.R (T m1) = true → exists? d2.R (T m1) = true → (T m1, Item.remote m1) ∈ d2.R.sent := by
  intro d1 d2 hb hl1 hl hS hfresh hnone hm2 ht1 ht2
  have back : ∀ {w : World B V} {b : B}, b ∈ landed P T w.sent → (T b, Item.remote b) ∈ w.sent := by
    intro w b hb
    obtain ⟨⟨i, it⟩, hx, he⟩ := List.mem_filterMap.1 hb
    cases it <;> simp at he
    obtain ⟨⟨h1, -⟩, h2⟩ := he
    subst h2 h1; exact hx
  obtain ⟨got, past, e1, ⟨z, e2⟩, e3, e4, -⟩ := C135_cut ser c P T d l1 l hb hl1 hl
  have hP2 : P m2 = true := by
    have : m2 ∈ sentBy ser c P d1 l := by rw [hS]; simp
    clear hS hfresh hm2 e1 e2 e3 e4 ht2 d2
    revert this
    generalize d1 = dd
    clear hl
    induction l generalizing dd with
    | nil => intro h; simp [sentBy] at h
    | cons s l ih =>
      intro h
      rw [sentBy_cons] at h
      rcases List.mem_append.1 h with h | h
      · unfold sends at h
        split at h
        · split at h
          · rename_i hc
            rw [List.eq_of_mem_replicate h]; exact hc.2
          · cases h
        · cases h
      · exact ih _ h
  have h2 : m2 ∈ landed P T d2.R.sent := List.mem_filterMap.2 ⟨_, hm2, by simp [hP2]⟩
  change landed P T d2.R.sent = landed P T d1.R.sent ++ got at e1
  rw [e1] at h2
  have h2' : m2 ∈ past := by
    rcases List.mem_append.1 h2 with h | h
    · exact absurd (back h) (hnone _)
    · exact e3.subset h
  have h1 : m1 ∈ past := by
    change past ++ z = sentBy ser c P d1 l at e2
    rw [hS] at e2
    apply Classical.byContradiction
    intro hn
    have hle : past <+: A := by
      refine List.prefix_of_prefix_length_le (l₃ := A ++ m1 :: (A' ++ m2 :: A'')) ⟨z, e2⟩ (List.prefix_append ..) ?_
      rcases Nat.lt_or_ge A.length past.length with h | h
      · exfalso
        have : A ++ [m1] <+: past := List.prefix_of_prefix_length_le (l₃ := A ++ m1 :: (A' ++ m2 :: A'')) ⟨A' ++ m2 :: A'', by simp⟩ ⟨z, e2⟩ (by simp; omega)
        obtain ⟨y, rfl⟩ := this
        simp at hn
      · exact h
    obtain ⟨y, hy⟩ := hle
    exact hfresh (List.mem_append_left _ (by rw [← hy]; exact List.mem_append_left _ h2'))
  have h3 : m1 ∈ got.filter fun b => T b = T m1 := by
    rw [e4 (T m1) ht1 ht2]
    exact List.mem_filter.2 ⟨h1, by simp⟩
  exact back (by rw [e1]; exact List.mem_append_right _ (List.mem_filter.1 h3).1)

/-- **C135**, with servers: a process of the left node sends the request `x` to a server `s` of the right node, and after that some process of it sends another message (marked
by `P`) to any process of the right node. Then a request `y` that is sent on the right node only after that message has arrived is handled by `s` after `x`, by whatever process
it is sent and however both nodes are scheduled. -/
theorem C135_handled (ser : Sers V B) (c : Conn) (srv : Server B V M S) (τ : RecvType B V (GMsg M)) (x y : GMsg M → Bool) (P : B → Bool) (s : Nat) (parent : Pid)
    (d : Duo B V) (GR : List (Op B V)) (l w1 w2 u v3 : List (DOp B V)) (hs os : List (Op B V)) (σ : S) (n : Nat) (log : Log M S) (q : Nat) (v : V) (gx : GMsg M)
    (ts : List Target) (b : B)
    (hb : Begins ser c d) (hR : d.R = run ser.R init GR) (hleg : ∀ s ∈ l, Legal c s) (hs' : Serves ser.R srv τ s parent (GR ++ rightOps ser c d l) hs os σ n log)
    (hcoh : Coherent τ (GR ++ rightOps ser c d l)) (hall : hs ++ os = GR ++ rightOps ser c d l)
    (hl : l = w1 ++ .left (.send q (.one (.pid (.rem s c.idR))) v) :: w2) (hrun : running (drun ser c d w1).L q = true)
    (hread : τ.deser (ser.L v) = some gx) (hgx : x gx = true)
    (hreq : ∀ g, x g = true → Request g) (hapart : ∀ g, x g = true → y g = false) (hlr : LeavesRequests ser.R srv τ x s)
    (hPx : P (ser.L v) = false) (hP1 : ∀ me ds z, .left (.send me ds z) ∈ w1 → P (ser.L z) = false)
    (hl3 : l = u ++ v3) (hm : (drun ser c d u).nextR c = some (.send ts b)) (hP : P b = true)
    (hy : ∀ o ∈ GR ++ rightOps ser c d u, ¬ Sends ser.R τ y o)
    (hex : exists? d.R s = true) (hex' : exists? (drun ser c d u).R s = true) (hafter : hs.length ≤ (GR ++ rightOps ser c d w1).length)
    (cs1 cs2 : List (Record M S)) (r : Record M S) (hlog : log.calls = cs1 ++ r :: cs2) (hr : HandlesOne y r) : ∃ r' ∈ cs1, HandlesOne x r' := by
  obtain ⟨e1, rp, e2, rfl, h1, h2, h3, h4⟩ := arrives_first (P := P) hb hleg hl hrun hPx hP1 hl3 hm hP
  have hops : rightOps ser c d (e1 ++ .toR rp :: e2) = rightOps ser c d e1 ++ .frame rp c.nL (.send [.pid s] (ser.L v)) ::
      rightOps ser c (drun ser c d (e1 ++ [.toR rp])) e2 := by
    rw [rightOps_append, drun_snoc]
    simp only [rightOps]
    rw [show rightOp c (drun ser c d e1) (.toR rp) = [.frame rp c.nL (.send [.pid s] (ser.L v))] by simp [rightOp, h1, h2]]
    rfl
  have hG : hs ++ os = (GR ++ rightOps ser c d e1) ++ .frame rp c.nL (.send [.pid s] (ser.L v)) ::
      (rightOps ser c (drun ser c d (e1 ++ [.toR rp])) e2 ++ rightOps ser c (drun ser c d (e1 ++ .toR rp :: e2)) v3) := by
    rw [hall, hl3, rightOps_append, hops]; simp
  have hpre : hs <+: GR ++ rightOps ser c d e1 := by
    refine List.prefix_of_prefix_length_le (l₃ := hs ++ os) (List.prefix_append ..) (by rw [hG]; exact List.prefix_append ..) ?_
    have : w1 <+: e1 := List.prefix_of_prefix_length_le (l₃ := l) ⟨_, hl.symm⟩ ⟨.toR rp :: e2 ++ v3, by rw [hl3]; simp⟩ (by omega)
    obtain ⟨z, rfl⟩ := this
    rw [rightOps_append]
    simp at hafter ⊢; omega
  have hworld : (drun ser c d e1).R = run ser.R init (GR ++ rightOps ser c d e1) := by rw [right_run, hR, ← run_append]
  have hex1 : ((run ser.R init (GR ++ rightOps ser c d e1)).procs s).isSome = true := by
    cases hq : (run ser.R init (GR ++ rightOps ser c d e1)).procs s with
    | some _ => rfl
    | none =>
      exfalso
      have hlt0 : s < d.R.nextPid := by
        rcases Nat.lt_or_ge s d.R.nextPid with h | h
        · exact h
        · rw [hR] at h hex
          simp [exists?, reach_bounded ⟨GR, rfl⟩ s h] at hex
      have hlt : s < (run ser.R init (GR ++ rightOps ser c d e1)).nextPid := by
        rw [run_append, ← hR]
        exact Nat.lt_of_lt_of_le hlt0 (run_nextPid_le ..)
      have hgone := (absent_run ser.R _ (.frame rp c.nL (.send [.pid s] (ser.L v)) :: rightOps ser c (drun ser c d (e1 ++ [.toR rp])) e2) s hlt hq).1
      rw [← run_append, List.append_assoc, ← hops, run_append, ← hR, ← right_run] at hgone
      simp [exists?, hgone] at hex'
  have hlands : Lands ser.R τ x s (run ser.R init (GR ++ rightOps ser c d e1)) (.frame rp c.nL (.send [.pid s] (ser.L v))) := by
    rw [hworld] at h2
    refine ⟨[(s, .remote (ser.L v))], .remote (ser.L v), ?_, by simp, ?_⟩
    · simp only [step, Op.caller, h2, if_true, Op.exec, recvFrame]
      exact (forward_same _ s [.pid s] (by simp) _ hex1).1
    · simp [readsAs, asMsg, hread, hgx]
  refine C118_server ser.R srv τ s parent _ hs os σ n log x y _ _ _ hreq hlr hcoh hs' hG hpre ⟨hapart, hlands, ?_⟩ cs1 cs2 r hlog hr
  intro o ho
  refine hy o ?_
  rw [hops]
  simp only [List.append_assoc, List.mem_append, List.mem_cons, List.mem_singleton] at ho ⊢
  rcases ho with h | h | h
  · exact .inl h
  · exact .inr (.inl h)
  · simp at h; exact .inr (.inr (.inl h))

/-! ## Examples -/

/-- Process 1 of "a" casts 5 to the server, process 1 of "b", and then tells process 3 of "b", which casts 9 to the server. The cast of 5 has arrived before 3 can know. -/
abbrev relayU : List (DOp (GMsg Nat) (GMsg Nat)) :=
  [.right (.recv 1 anyG .select), .left (castMsg gserver 1 theServer 5), .left (.send 1 (.one (.pid (.rem 3 1))) (.cast 100)), .toR 5]
abbrev relayV : List (DOp (GMsg Nat) (GMsg Nat)) :=
  [.toR 5, .right (.recv 3 anyG .select), .right (castMsg gserver 3 (.pid (.loc 1)) 9), .right (.recv 1 anyG .resume), .right (.recv 1 anyG .select)]
abbrev relay : List (DOp (GMsg Nat) (GMsg Nat)) := relayU ++ relayV
abbrev relayLog : Log Nat Nat := ⟨[⟨.cast 5, 0, 5, .ok none⟩, ⟨.cast 9, 5, 14, .ok none⟩], none, 14⟩
abbrev relayServes : List (Op (GMsg Nat) (GMsg Nat)) :=
  [.recv 1 anyG .select, .frame 5 (.rem "a" (addr 1)) (.send [.pid 1] (.cast 5)), .frame 5 (.rem "a" (addr 1)) (.send [.pid 3] (.cast 100)),
   .recv 3 anyG .select, castMsg gserver 3 (.pid (.loc 1)) 9, .recv 1 anyG .resume, .recv 1 anyG .select]

def toldOf : GMsg Nat → Nat
  | .cast 100 => 3
  | _ => 1
def anyCast : GMsg Nat → Bool
  | .cast 5 | .cast 100 => true
  | _ => false

theorem relay_right : rightOps talkSer duoC talk relay = relayServes := rfl

theorem relay_serves : Serves talkSer.R tally gserver 1 (.loc 1) (talkR ++ rightOps talkSer duoC talk relay) talkR
    (rightOps talkSer duoC talk relay) 0 2 relayLog := by
  refine ⟨List.prefix_rfl, ?_⟩
  rw [relay_right]
  refine .pending rfl rfl (.env ⟨by simp [Op.caller], by simp⟩ (.env ⟨by simp [Op.caller], by simp⟩ (.env ⟨by simp [Op.caller], by simp⟩
    (.env ⟨by simp [Op.caller, castMsg], by simp [castMsg]⟩ (.got (m := .user (.cast 5)) rfl rfl ?_)))))
  exact .got (m := .user (.cast 9)) rfl rfl (.ret _ _)

theorem relay_legal : ∀ s ∈ relay, Legal duoC s := by
  intro s hs
  simp only [relay, relayU, relayV, List.cons_append, List.nil_append, List.mem_cons, List.not_mem_nil, or_false] at hs
  rcases hs with h | h | h | h | h | h | h | h | h <;> subst h <;>
    simp [Legal, Undisturbed, castMsg, duoC]

theorem relay_coherent : Coherent gserver (talkR ++ rightOps talkSer duoC talk relay) := by
  intro a o k h b t' x h1
  rw [relay_right] at h
  simp only [relayServes, castMsg, List.cons_append, List.nil_append, List.mem_cons, List.not_mem_nil, or_false, reduceCtorEq, false_or] at h
  rcases h with h | h | h | h <;> cases h <;> (cases h1; exact id)

example := C135_handled talkSer duoC tally gserver (castOf 5) (castOf 9) (fun b => castOf 100 b) 1 (.loc 1) talk talkR relay
  [.right (.recv 1 anyG .select)] _ relayU relayV talkR _ 0 2 relayLog 1 (.cast 5) (.cast 5) [.pid 3] (.cast 100) talk_begins rfl relay_legal relay_serves relay_coherent rfl
  rfl rfl rfl (by simp [castOf, Carry.gmsg]) (by intro g hg; cases castOf_inv hg; trivial) (by intro g hg; cases castOf_inv hg; simp [castOf]) (tally_leaves _) (by simp [castOf, Carry.gmsg]) (by simp) rfl rfl (by simp [castOf])
  (by
    rintro o ho ⟨it, g, hs, hr, hg⟩
    cases castOf_inv hg
    rw [show talkR ++ rightOps talkSer duoC talk relayU = talkR ++ [.recv 1 anyG .select, .frame 5 (.rem "a" (addr 1)) (.send [.pid 1] (.cast 5))] from rfl] at ho
    simp only [talkR, List.cons_append, List.nil_append, List.mem_cons, List.not_mem_nil, or_false] at ho
    rcases ho with h | h | h | h | h | h | h | h | h <;> subst h <;> cases hs
    cases hr)
  rfl rfl (by simp) [⟨.cast 5, 0, 5, .ok none⟩] [] ⟨.cast 9, 5, 14, .ok none⟩ rfl (by simp [HandlesOne, castOf])

example : sentBy talkSer duoC anyCast talk relay = [.cast 5, .cast 100] ∧
    landed anyCast toldOf (drun talkSer duoC talk relay).R.sent = [.cast 5, .cast 100] ∧ toRight duoC (drun talkSer duoC talk relay) = [] := ⟨rfl, rfl, rfl⟩

theorem relay_addressed : ∀ s ∈ relayU ++ [.toR 5], Legal duoC s ∧ Addressed talkSer duoC anyCast toldOf s := by
  intro s hs
  simp only [relayU, List.cons_append, List.nil_append, List.mem_cons, List.not_mem_nil, or_false] at hs
  rcases hs with h | h | h | h | h <;> subst h <;> simp [Legal, Undisturbed, castMsg, duoC, Addressed, Dests.list, theServer]
  · intro _; rfl
  · intro _; rfl

example := C135_cut talkSer duoC anyCast toldOf talk [] (relayU ++ [.toR 5]) talk_begins (by simp) relay_addressed

example := C135_causal talkSer duoC anyCast toldOf talk [] (relayU ++ [.toR 5]) (.cast 5) (.cast 100) [] [] [] talk_begins (by simp) relay_addressed rfl (by simp)
  (by intro u h; rw [show (drun talkSer duoC talk []).R.sent = [] from rfl] at h; cases h) (by
    rw [show (drun talkSer duoC (drun talkSer duoC talk []) (relayU ++ [.toR 5])).R.sent = [(1, .remote (.cast 5)), (3, .remote (.cast 100))] from rfl]
    simp [toldOf]) rfl rfl

end Verif.World
