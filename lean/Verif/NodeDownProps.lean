import Verif.NodeDownEff
/-!
# Losing a connection (C47, C48)
-/
namespace Verif.World
open Verif.Mailbox
variable {B V : Type}

/-! ## One monitor of a remote process or of a node -/

/-- The Down and NodeDown messages for a reference among the deliveries. -/
def repsOf (r : Ref) (l : List (Nat × Item B V)) : List (Nat × Item B V) := l.filter fun x => reports r x.2

theorem repsOf_append (r : Ref) (l l' : List (Nat × Item B V)) : repsOf r (l ++ l') = repsOf r l ++ repsOf r l' := by
  simp [repsOf]

/-- The registered monitor `n` of `a` is in place on node `N` and has not reported. -/
structure RWatch (n a : Nat) (N : Node) (m : NMon) (w : World B V) : Prop where
  lt : n < w.nextRef
  mon : (w.nodeMons N).filter (fun x => x.1 = .loc n) = [(.loc n, m)]
  others : ∀ M, M ≠ N → ∀ x ∈ w.nodeMons M, x.1 ≠ .loc n
  mons : ∀ i, ∀ x ∈ w.mons i, x.1 ≠ .loc n
  sent : repsOf (.loc n) w.sent = []
  own : ∀ j b, j ≠ a → pmap (·.box) w j = some b →
    BoxOk (fun m _ => hasMon m (.loc n) = false) (fun it => reports (.loc n) it = false) b
  held : Held n a w
  ex : exists? w a = true
  low : a < w.nextPid

/-- What ends it: the monitoring process removes it or dies, the connection is lost, or the node reports the death. -/
def REnds (n a : Nat) (N : Node) (o : Op B V) : Prop :=
  o = .drop a ∨ o = .demonitor a (.loc n) ∨ o = .nodeDemonitor a (.loc n) ∨ (∃ p, o = .supDown N p) ∨
  ∃ rp refs e, o = .frame rp N (.monitorDown refs e) ∧ n ∈ refs

theorem rwatch_noput {n a : Nat} {N : Node} {m : NMon} {w : World B V} {o : Op B V} (hw : RWatch n a N m w)
    (ho : ¬ REnds n a N o) (i : Nat) (it : Item B V) (ha : AtomOf w o (.put i it)) : reports (.loc n) it = false := by
  cases it <;> simp [reports]
  · rintro rfl
    rcases ha with ⟨t', p, dd, ho', _, hm, _⟩ | ⟨M, hm, h⟩
    · exact hw.mons t' _ hm rfl
    · by_cases hM : M = N
      · subst hM
        rcases h with ⟨p, h⟩ | ⟨rp, refs, e, h, h'⟩
        · exact ho (.inr (.inr (.inr (.inl ⟨p, h⟩))))
        · exact ho (.inr (.inr (.inr (.inr ⟨rp, refs, e, h, h'⟩))))
      · exact hw.others M hM _ hm rfl
  · rename_i M r
    rintro rfl
    obtain ⟨ha, p, hp⟩ := ha
    by_cases hM : M = N
    · subst hM; exact ho (.inr (.inr (.inr (.inl ⟨p, hp⟩))))
    · exact hw.others M hM _ ha rfl

theorem filter_ne_filter {A : Type} (l : List (Ref × A)) (r r' : Ref) (h : r ≠ r') :
    (l.filter (fun x => x.1 ≠ r')).filter (fun x => x.1 = r) = l.filter (fun x => x.1 = r) := by
  rw [List.filter_filter]
  apply List.filter_congr
  intro y _
  by_cases hy : y.1 = r <;> simp [hy, h]

theorem rwatch_act {n a : Nat} {N : Node} {m : NMon} {w : World B V} {o : Op B V} (hw : RWatch n a N m w)
    (ho : ¬ REnds n a N o) {w' : World B V} {x : Atom B V} (ha : AtomOf w o x) (h : RWatch n a N m w') :
    RWatch n a N m (act w' x) := by
  have hlt := h.lt
  have hne : Ref.loc n ≠ Ref.loc w'.nextRef := by simp; omega
  have hnp := fun i it => rwatch_noput hw ho i it
  have hcnt := acts_mono_counters (Acts.one (Q := fun _ => True) (w := w') (a := x) trivial)
  refine ⟨by omega, ?_, ?_, ?_, ?_, ?_, ?_, ?_, by have := h.low; omega⟩
  · rw [nodeMons_act]
    cases x <;> simp only [upd_at] <;> try exact h.mon
    · split
      · subst_vars
        rw [List.filter_append, filter_ne_filter _ _ _ hne]
        simpa [Ne.symm hne] using h.mon
      · exact h.mon
    · rename_i M r j
      have hr : (.loc n : Ref) ≠ r := by
        obtain ⟨_, _, _, _, k, -, hk⟩ := ha
        rw [hk]; simp
      split
      · subst_vars
        rw [List.filter_append, filter_ne_filter _ _ _ hr]
        simpa [Ne.symm hr] using h.mon
      · exact h.mon
    · rename_i M r
      split
      · subst_vars
        have hr : .loc n ≠ r := by
          rintro rfl
          rcases ha with ha | ⟨me, p, m, ho', hp, hm⟩ | ⟨me, p, ho', hp, hm⟩ | ⟨t, frm, d, _, _, hm⟩ | ⟨rp, refs, e, ho', hr⟩
          · simp [Ref.isLocal] at ha
          · by_cases hme : me = a
            · subst hme; exact ho (.inr (.inl ho'))
            · have : hasMon p.box.mons (.loc n) = false := (hw.own me p.box hme (by simp [pmap, hp])).1
              rw [hasMon_of_mem hm] at this; simp at this
          · by_cases hme : me = a
            · subst hme
              rcases ho' with ho' | ho'
              · exact ho (.inl ho')
              · exact ho (.inr (.inr (.inl ho')))
            · have : hasMon p.box.mons (.loc n) = false := (hw.own me p.box hme (by simp [pmap, hp])).1
              rw [hasMon_of_mem hm] at this; simp at this
          · exact hw.mons t _ hm rfl
          · exact ho (.inr (.inr (.inr (.inr ⟨rp, refs, e, ho', hr.1⟩))))
        rw [filter_ne_filter _ _ _ hr]; exact h.mon
      · exact h.mon
    · split
      · subst_vars
        obtain ⟨p, ha⟩ := ha
        exact absurd (.inr (.inr (.inr (.inl ⟨p, ha⟩)))) ho
      · exact h.mon
  · intro M hM y hy
    rw [nodeMons_act] at hy
    cases x <;> simp only [upd_at] at hy <;> try exact h.others M hM y hy
    · split at hy
      · subst_vars
        rcases filter_append_single_mem _ _ _ _ hy with hy | rfl
        · exact h.others _ hM y hy
        · exact Ne.symm hne
      · exact h.others M hM y hy
    · split at hy
      · subst_vars
        rcases filter_append_single_mem _ _ _ _ hy with hy | rfl
        · exact h.others _ hM y hy
        · rintro rfl; simp [AtomOf, Ref.isLocal] at ha
      · exact h.others M hM y hy
    · split at hy
      · subst_vars; exact h.others _ hM y (List.mem_filter.1 hy).1
      · exact h.others M hM y hy
    · split at hy
      · simp at hy
      · exact h.others M hM y hy
  · intro i y hy
    rw [mons_act] at hy
    cases x <;> simp only [upd_at] at hy <;> try exact h.mons i y hy
    · split at hy
      · rcases filter_append_single_mem _ _ _ _ hy with hy | rfl
        · exact h.mons _ y hy
        · rintro rfl; simp [AtomOf, Ref.isLocal] at ha
      · exact h.mons i y hy
    · split at hy
      · exact h.mons _ y (List.mem_filter.1 hy).1
      · exact h.mons i y hy
    · split at hy
      · simp at hy
      · exact h.mons i y hy
    · split at hy
      · rcases filter_append_single_mem _ _ _ _ hy with hy | rfl
        · exact h.mons _ y hy
        · exact Ne.symm hne
      · exact h.mons i y hy
  · rw [sent_act]
    cases x <;> simp only [] <;> try exact h.sent
    · split
      · rw [repsOf_append, h.sent]
        simp [repsOf, hnp _ _ ha]
      · exact h.sent
    · split
      · rw [repsOf_append, h.sent]; simp [repsOf, reports]
      · exact h.sent
    · split
      · rw [repsOf_append, h.sent]
        have : w'.nextRef ≠ n := by omega
        simp [repsOf, reports, this]
      · exact h.sent
  · intro j b hj hb
    refine boxOk_act (keeps_unused (.loc n)) w' x j (fun b => h.own j b hj) (fun _ => rfl) ?_ (fun _ _ => rfl) (fun _ _ _ h _ => h) ?_ ?_ ?_ b hb
    · rintro it rfl -; exact hnp _ _ ha
    · intro r' m _ _ hm; rw [hasMon_dropMon, hm]; rfl
    · intro b m hc hm
      have : n ≠ w'.nextRef := by omega
      rw [hasMon_setMon, hm]; simpa using this
    · rintro d m e al rfl
      have : w'.nextRef ≠ n := by omega
      simpa [reports] using this
  · intro b hb
    have hlow := h.low
    refine boxOk_act (keeps_held (.loc n)) w' x a h.held (fun _ => by omega) ?_ (fun _ _ => rfl) (fun _ _ _ h _ => h) ?_ ?_ ?_ b hb
    · rintro it rfl -; exact hnp _ _ ha
    · rintro r m als rfl hm
      rw [hasMon_dropMon, hm]
      have : Ref.loc n ≠ r := by
        rintro rfl
        rcases ha with rfl | rfl
        · exact ho (.inr (.inl rfl))
        · exact ho (.inr (.inr (.inl rfl)))
      simp [this]
    · intro b m hc hm
      rw [hasMon_setMon, hm]; rfl
    · rintro d m e al rfl
      have : w'.nextRef ≠ n := by omega
      simpa [reports] using this
  · unfold exists?; rw [ex_act]
    have := h.ex
    unfold exists? at this
    cases x <;> simp only [] <;> try exact this
    · simp [this]
    · rename_i i
      have : a ≠ i := by
        rintro rfl; exact ho (.inl ha)
      simp [this]; exact h.ex

theorem rwatch_acts {n a : Nat} {N : Node} {m : NMon} {w w' : World B V} {o : Op B V} (hw : RWatch n a N m w)
    (ho : ¬ REnds n a N o) (h : Acts (AtomOf w o) w w') : RWatch n a N m w' :=
  h.inv hw fun _ _ hx hi => rwatch_act hw ho hx hi

/-! ### After the report -/

theorem gone_reps_act {n : Nat} {D : List (Nat × Item B V)} {w : World B V} {o : Op B V} (hw : Gone n w) {w' : World B V}
    {a : Atom B V} (ha : AtomOf w o a) (hg : Gone n w') (h : repsOf (.loc n) w'.sent = D) :
    repsOf (.loc n) (act w' a).sent = D := by
  rw [sent_act]
  cases a <;> simp only [] <;> try exact h
  · rename_i i it
    split
    · rw [repsOf_append, h]
      have : reports (.loc n) it = false := by
        cases it <;> simp [reports]
        · rintro rfl
          rcases ha with ⟨t, p, dd, _, _, hm, _⟩ | ⟨N, hm, _⟩
          · exact hw.mons _ _ hm rfl
          · exact hw.nodes _ _ hm rfl
        · rintro rfl; exact hw.nodes _ _ ha.1 rfl
      simp [repsOf, this]
    · exact h
  · split
    · rw [repsOf_append, h]; simp [repsOf, reports]
    · exact h
  · split
    · rw [repsOf_append, h]
      have := hg.lt
      have : w'.nextRef ≠ n := by omega
      simp [repsOf, reports, this]
    · exact h

/-- The monitor is in no table any more and exactly the reports `D` were made for it. -/
def Reported (n : Nat) (D : List (Nat × Item B V)) (w : World B V) : Prop := Gone n w ∧ repsOf (.loc n) w.sent = D

theorem reported_acts {n : Nat} {D : List (Nat × Item B V)} {w w' : World B V} {o : Op B V} (hw : Reported n D w)
    (h : Acts (AtomOf w o) w w') : Reported n D w' :=
  h.inv hw fun _ _ hx hi => ⟨gone_act n w o _ _ hx hi.1, gone_reps_act hw.1 hx hi.1 hi.2⟩

theorem reported_run (ser : V → B) {n : Nat} {D : List (Nat × Item B V)} (os : List (Op B V)) {w : World B V}
    (hw : Reported n D w) : Reported n D (run ser w os) := by
  induction os generalizing w with
  | nil => exact hw
  | cons o os ih => exact ih (reported_acts hw (step_acts ser w o))

/-- The report of a registered monitor: a Down for a process monitor, a NodeDown for a node monitor. -/
def reportOf (n : Nat) (N : Node) (e : ExitReason) : NMon → List (Nat × Item B V)
  | .process a d => [(a, .down d (.loc n) e)]
  | .node a => [(a, .nodeDown N (.loc n))]
  | .cleanup _ => []

/-- The monitoring process of a registered monitor. -/
def NMon.owner : NMon → Option Nat
  | .process a _ | .node a => some a
  | .cleanup _ => none

theorem noMons_acts {n : Nat} {w w' : World B V} {o : Op B V} (h : Acts (AtomOf w o) w w') (hlt : n < w.nextRef)
    (hm : ∀ i, ∀ x ∈ w.mons i, x.1 ≠ .loc n) : n < w'.nextRef ∧ ∀ i, ∀ x ∈ w'.mons i, x.1 ≠ .loc n := by
  refine h.inv (I := fun w => n < w.nextRef ∧ ∀ i, ∀ x ∈ w.mons i, x.1 ≠ .loc n) ⟨hlt, hm⟩ ?_
  rintro w' a ha ⟨h1, h2⟩
  have hcnt := acts_mono_counters (Acts.one (Q := fun _ => True) (w := w') (a := a) trivial)
  refine ⟨by omega, ?_⟩
  intro i y hy
  rw [mons_act] at hy
  cases a <;> simp only [upd_at] at hy <;> try exact h2 i y hy
  · split at hy
    · rcases filter_append_single_mem _ _ _ _ hy with hy | rfl
      · exact h2 _ y hy
      · rintro rfl; simp [AtomOf, Ref.isLocal] at ha
    · exact h2 i y hy
  · split at hy
    · exact h2 _ y (List.mem_filter.1 hy).1
    · exact h2 i y hy
  · split at hy
    · simp at hy
    · exact h2 i y hy
  · split at hy
    · rcases filter_append_single_mem _ _ _ _ hy with hy | rfl
      · exact h2 _ y hy
      · simp; omega
    · exact h2 i y hy

theorem repsOf_signals (r : Ref) (w : World B V) (e : ExitReason) (ls : List (Pid × Nat)) :
    repsOf r (ls.flatMap fun x => signalMsg w x.1 e x.2) = [] := by
  unfold repsOf
  rw [List.filter_eq_nil_iff]
  intro x hx
  obtain ⟨p, -, hp⟩ := List.mem_flatMap.1 hx
  unfold signalMsg at hp
  split at hp
  · split at hp
    · simp at hp; subst hp; simp [reports]
    · simp at hp
  · simp at hp

theorem repsOf_loss (n : Nat) (w : World B V) (N : Node) (ms : List (Ref × NMon)) :
    repsOf (.loc n) (ms.flatMap (lossReport w N)) = (ms.filter fun x => x.1 = .loc n).flatMap (lossReport w N) := by
  induction ms with
  | nil => rfl
  | cons x ms ih =>
    obtain ⟨r, m⟩ := x
    rw [List.flatMap_cons, repsOf_append, ih, List.filter_cons]
    by_cases hr : r = .loc n
    · subst hr
      simp only [decide_true, if_true, List.flatMap_cons]
      congr 1
      cases m <;> simp only [lossReport] <;> (try split) <;> simp [repsOf, reports]
    · simp only [hr, decide_false, Bool.false_eq_true, if_false]
      have : repsOf (.loc n) (lossReport w N (r, m)) = [] := by
        cases m <;> simp only [lossReport] <;> (try split) <;> simp [repsOf, reports, hr]
      rw [this, List.nil_append]

theorem rwatch_lost {n a : Nat} {N : Node} {m : NMon} {w : World B V} {p : Nat} (hw : RWatch n a N m w) (ho : m.owner = some a)
    (hc : ConnLost w N p) : Reported n (reportOf n N noconn m) (supDown w N p) := by
  obtain ⟨h1, h2, h3, -, -⟩ := supDown_eff w N p hc
  obtain ⟨g1, g2⟩ := noMons_acts (n := n) (acts_supDown w N p) hw.lt hw.mons
  refine ⟨⟨g1, g2, ?_⟩, ?_⟩
  · intro M x hx
    rw [h3] at hx
    simp only [upd_at] at hx
    split at hx
    · simp at hx
    · rename_i hM; exact hw.others M hM x hx
  · rw [h1, repsOf_append, repsOf_append, hw.sent, repsOf_signals, repsOf_loss, hw.mon]
    cases m <;> simp [NMon.owner] at ho
    · subst ho; simp [lossReport, reportOf, hw.ex]
    · subst ho; simp [lossReport, reportOf, hw.ex]

theorem find_of_filter {A : Type} (l : List A) (p : A → Bool) (x : A) (h : l.filter p = [x]) : l.find? p = some x := by
  rw [← List.head?_filter, h]; rfl

theorem rwatch_monDown {n a : Nat} {N : Node} {d : Dest} {w : World B V} {e : ExitReason} (hw : RWatch n a N (.process a d) w) :
    Reported n (reportOf n N e (.process a d)) (nodeMonDown w N (.loc n) e) := by
  have hf : (w.nodeMons N).find? (fun x => x.1 == .loc n) = some (.loc n, .process a d) := by
    refine find_of_filter _ _ _ ?_
    rw [← hw.mon]
    apply List.filter_congr
    intro x _; rfl
  unfold nodeMonDown
  rw [hf]
  dsimp only [Option.map]
  have hex : exists? (delAlias (delNodeMon w N (.loc n)) (.loc n)) a = true := by simpa [exists?] using hw.ex
  refine ⟨⟨?_, ?_, ?_⟩, ?_⟩
  · simpa using hw.lt
  · simpa using hw.mons
  · intro M x hx
    simp only [put_nodeMons_eq, delAlias_nodeMons_eq, delNodeMon_nodeMons_eq, upd_at] at hx
    split at hx
    · have := (List.mem_filter.1 hx).2; simpa using this
    · rename_i hM; exact hw.others M hM x hx
  · rw [put_sent', hex, repsOf_append]
    simp only [delAlias_sent_eq, delNodeMon_sent_eq, hw.sent]
    simp [reportOf, repsOf, reports]

theorem recvFrame_monDown_cons (w : World B V) (N : Node) (rp r : Nat) (rs : List Nat) (e : ExitReason) :
    recvFrame w N rp (.monitorDown (r :: rs) e) = recvFrame (recvFrame w N rp (.monitorDown [r] e)) N rp (.monitorDown rs e) := rfl

/-- A frame of the node that reports the death of the monitored process. -/
theorem rwatch_frame {n a : Nat} {N : Node} {d : Dest} {e : ExitReason} (rp : Nat) (refs : List Nat) :
    ∀ {w : World B V}, RWatch n a N (.process a d) w → 
      if n ∈ refs then Reported n (reportOf n N e (.process a d)) (recvFrame w N rp (.monitorDown refs e))
      else RWatch n a N (.process a d) (recvFrame w N rp (.monitorDown refs e)) := by
  induction refs with
  | nil => intro w hw; exact hw
  | cons r rs ih =>
    intro w hw
    rw [recvFrame_monDown_cons]
    by_cases hr : r = n
    · subst hr
      rw [if_pos List.mem_cons_self]
      exact reported_acts (o := .frame rp N (.monitorDown rs e)) (rwatch_monDown hw) (acts_recvFrame _ _ _ _)
    · have h1 : RWatch n a N (.process a d) (recvFrame w N rp (.monitorDown [r] e)) := by
        refine rwatch_acts hw ?_ (acts_recvFrame w N rp (.monitorDown [r] e))
        rintro (h | h | h | ⟨p, h⟩ | ⟨rp', refs', e', h, hn⟩)
        · cases h
        · cases h
        · cases h
        · cases h
        · cases h; simp at hn; exact hr hn.symm
      have := ih h1
      have hiff : n ∈ r :: rs ↔ n ∈ rs := by
        constructor
        · intro h; rcases List.mem_cons.1 h with h | h
          · exact absurd h.symm hr
          · exact h
        · exact .tail _
      simp only [hiff]; exact this

/-- The operations by which the monitoring process gives the monitor up. -/
def Cancels (n a : Nat) (o : Op B V) : Prop := o = .drop a ∨ o = .demonitor a (.loc n) ∨ o = .nodeDemonitor a (.loc n)

/-- Node `N` reported the death of the monitored process for reference `n`. -/
def Tells (n : Nat) (N : Node) (e : ExitReason) (o : Op B V) : Prop := ∃ rp refs, o = .frame rp N (.monitorDown refs e) ∧ n ∈ refs

theorem step_supDown (ser : V → B) (w : World B V) (N : Node) (p : Nat) : (step ser w (.supDown N p)).1 = supDown w N p := rfl

theorem rwatch_step_process (ser : V → B) {n a : Nat} {N : Node} {d : Dest} {w : World B V} {o : Op B V}
    (hw : RWatch n a N (.process a d) w) (ho : ¬ Cancels n a o) :
    RWatch n a N (.process a d) (step ser w o).1 ∨
    ∃ e, Reported n (reportOf n N e (.process a d)) (step ser w o).1 ∧ (Tells n N e o ∨ e = noconn ∧ ∃ p, o = .supDown N p) := by
  by_cases hr : REnds n a N o
  · rcases hr with h | h | h | ⟨p, rfl⟩ | ⟨rp, refs, e, rfl, hn⟩
    · exact absurd (.inl h) ho
    · exact absurd (.inr (.inl h)) ho
    · exact absurd (.inr (.inr h)) ho
    · by_cases hc : ConnLost w N p
      · exact .inr ⟨noconn, rwatch_lost hw rfl hc, .inr ⟨rfl, p, rfl⟩⟩
      · left; rw [step_supDown, supDown_ineffective w N p hc]; exact hw
    · simp only [step, Op.caller]
      split
      · refine .inr ⟨e, ?_, .inl ⟨rp, refs, rfl, hn⟩⟩
        have := rwatch_frame (e := e) rp refs hw
        rw [if_pos hn] at this
        exact this
      · exact .inl hw
  · exact .inl (rwatch_acts hw hr (step_acts ser w o))

theorem rwatch_run_process (ser : V → B) {n a : Nat} {N : Node} {d : Dest} (os : List (Op B V)) :
    ∀ {w : World B V}, RWatch n a N (.process a d) w → (∀ o ∈ os, ¬ Cancels n a o) →
    RWatch n a N (.process a d) (run ser w os) ∨
    ∃ e, Reported n (reportOf n N e (.process a d)) (run ser w os) ∧ ((∃ o ∈ os, Tells n N e o) ∨ e = noconn ∧ ∃ p, .supDown N p ∈ os) := by
  induction os with
  | nil => intro w hw _; exact .inl hw
  | cons o os ih =>
    intro w hw hos
    rcases rwatch_step_process ser hw (hos o List.mem_cons_self) with h | ⟨e, h, h2⟩
    · rcases ih h (fun o ho => hos o (.tail _ ho)) with h | ⟨e, h, h2⟩
      · exact .inl h
      · refine .inr ⟨e, h, ?_⟩
        rcases h2 with ⟨o, ho, h2⟩ | ⟨he, p, hp⟩
        · exact .inl ⟨o, .tail _ ho, h2⟩
        · exact .inr ⟨he, p, .tail _ hp⟩
    · refine .inr ⟨e, reported_run ser os h, ?_⟩
      rcases h2 with h2 | ⟨he, p, hp⟩
      · exact .inl ⟨o, List.mem_cons_self, h2⟩
      · exact .inr ⟨he, p, by rw [hp]; exact List.mem_cons_self⟩

theorem rwatch_run_node (ser : V → B) {n a : Nat} {N : Node} (os : List (Op B V)) :
    ∀ {w : World B V}, RWatch n a N (.node a) w → (∀ o ∈ os, ¬ Cancels n a o ∧ ∀ e, ¬ Tells n N e o) →
    RWatch n a N (.node a) (run ser w os) ∨
    (Reported n (reportOf n N noconn (.node a)) (run ser w os) ∧ ∃ p, .supDown N p ∈ os) := by
  induction os with
  | nil => intro w hw _; exact .inl hw
  | cons o os ih =>
    intro w hw hos
    have key : RWatch n a N (.node a) (step ser w o).1 ∨
        (Reported n (reportOf n N noconn (.node a)) (step ser w o).1 ∧ ∃ p, o = .supDown N p) := by
      obtain ⟨ho, ht⟩ := hos o List.mem_cons_self
      by_cases hr : REnds n a N o
      · rcases hr with h | h | h | ⟨p, rfl⟩ | ⟨rp, refs, e, rfl, hn⟩
        · exact absurd (.inl h) ho
        · exact absurd (.inr (.inl h)) ho
        · exact absurd (.inr (.inr h)) ho
        · by_cases hc : ConnLost w N p
          · exact .inr ⟨rwatch_lost hw rfl hc, p, rfl⟩
          · left; rw [step_supDown, supDown_ineffective w N p hc]; exact hw
        · exact absurd ⟨rp, refs, rfl, hn⟩ (ht e)
      · exact .inl (rwatch_acts hw hr (step_acts ser w o))
    rcases key with h | ⟨h, p, hp⟩
    · rcases ih h (fun o ho => hos o (.tail _ ho)) with h | ⟨h, p, hp⟩
      · exact .inl h
      · exact .inr ⟨h, p, .tail _ hp⟩
    · exact .inr ⟨reported_run ser os h, p, by rw [hp]; exact List.mem_cons_self⟩

/-! ### Setting a monitor up -/

theorem rwatch_mkMonRem (w : World B V) (a : Nat) (N : Node) (pm : PMon) (nm : NMon) (al : Option Bool)
    (hu : Unused (.loc w.nextRef) w) (hs : repsOf (.loc w.nextRef) w.sent = []) (hb : Bounded w) (hex : exists? w a = true) :
    RWatch w.nextRef a N nm (act w (.mkMonRem a N pm nm al)) := by
  have hlow : a < w.nextPid := by
    rcases Nat.lt_or_ge a w.nextPid with h | h
    · exact h
    · simp [exists?, hb a h] at hex
  refine ⟨?_, ?_, ?_, ?_, ?_, ?_, ?_, ?_, ?_⟩
  · rw [nextRef_act]; simp
  · rw [nodeMons_act]
    simp only [upd_at, if_true, List.filter_append]
    have : List.filter (fun x => decide (x.1 = Ref.loc w.nextRef)) (List.filter (fun x => decide (x.1 ≠ Ref.loc w.nextRef)) (w.nodeMons N)) = [] := by
      rw [List.filter_filter, List.filter_eq_nil_iff]; simp
    rw [this]; simp
  · intro M hM x hx
    rw [nodeMons_act] at hx
    simp only [upd_at, hM, if_false] at hx
    exact hu.nodes M x hx
  · rw [mons_act]; exact hu.mons
  · rw [sent_act]; exact hs
  · intro j b hj hb
    rw [box_act] at hb
    simp only [hj, if_false] at hb
    exact hu.box j b hb
  · intro b hb
    rw [box_act] at hb
    simp only [if_true] at hb
    cases hw : pmap (fun x => x.box) w a with
    | none => rw [hw] at hb; simp at hb
    | some b0 =>
      rw [hw] at hb; simp at hb; subst hb
      obtain ⟨_, h2, h3⟩ := hu.box a b0 hw
      exact ⟨by show hasMon _ _ = true; rw [hasMon_setMon]; simp, h2, h3⟩
  · unfold exists?; rw [ex_act]; exact hex
  · rw [nextPid_act]; exact hlow

/-- No report was made for a reference that was not handed out yet. -/
theorem run_noReps (ser : V → B) (os : List (Op B V)) (r : Nat) (hr : (run ser init os).nextRef ≤ r) :
    repsOf (.loc r) (run ser init os).sent = [] := by
  have := run_inv' ser (fun w => Fresh w ∧ ∀ r, w.nextRef ≤ r → repsOf (.loc r) w.sent = []) (fun _ => True) ?_ os (fun _ _ => trivial) init ?_
  · exact this.2 r hr
  · rintro w o - ⟨hf, hr⟩ w' a hacts ha ⟨hf', hr'⟩
    have hcnt := acts_mono_counters (Acts.one (Q := fun _ => True) (w := w') (a := a) trivial)
    have hcnt' := acts_mono_counters hacts
    refine ⟨?_, ?_⟩
    · intro r hr2
      refine unused_act r w o (hf r (by omega)) w' a ha (hf' r (by omega)) ?_
      intro _; omega
    · intro r hr2
      rw [sent_act]
      cases a <;> simp only [] <;> try exact hr' r (by omega)
      · rename_i i it
        split
        · rw [repsOf_append, hr' r (by omega)]
          have : reports (.loc r) it = false := by
            have hu := hf r (by omega)
            cases it <;> simp [reports]
            · rintro rfl
              rcases ha with ⟨t, p, dd, _, _, hm, _⟩ | ⟨N, hm, _⟩
              · exact hu.mons _ _ hm rfl
              · exact hu.nodes _ _ hm rfl
            · rintro rfl; exact hu.nodes _ _ ha.1 rfl
          simp [repsOf, this]
        · exact hr' r (by omega)
      · split
        · rw [repsOf_append, hr' r (by omega)]; simp [repsOf, reports]
        · exact hr' r (by omega)
      · rw [nextRef_act] at hr2
        dsimp only at hr2
        split
        · rw [repsOf_append, hr' r (by omega)]
          have : w'.nextRef ≠ r := by omega
          simp [repsOf, reports, this]
        · exact hr' r (by omega)
  · refine ⟨?_, fun _ _ => rfl⟩
    have := run_fresh ser ([] : List (Op B V))
    exact this

/-- The remote node that a destination is on. -/
def remoteNode (w : World B V) : Dest → Option Node
  | .pid (.rem _ k) => lookupNode w k
  | .named _ (.rem name addr) => some (.rem name addr)
  | _ => none

/-- The operations by which process `a` starts to monitor `d`, a process of node `N`. -/
def RMonitors (w : World B V) (a : Nat) (N : Node) (d : Dest) (o : Op B V) : Prop :=
  remoteNode w d = some N ∧ (o = .monitor a d ∨ ∃ reply, o = .monitorAlias a d reply)

theorem rwatch_connect {n a : Nat} {N : Node} {m : NMon} {w : World B V} (hw : RWatch n a N m w) (M : Node) (c : Bool) (f : NFrame B) (id : Nat) :
    RWatch n a N m (nodeRegister w M c).1 ∧ RWatch n a N m (sendFrame w f id) := by
  have ho : ¬ REnds n a N (.connect a N : Op B V) := by
    rintro (h | h | h | ⟨p, h⟩ | ⟨rp', refs', e', h, hn⟩) <;> cases h
  exact ⟨rwatch_acts hw ho (acts_nodeRegister (nodesOk_op _ _) _ _ _), by
    rw [sendFrame_act]
    exact ⟨hw.lt, hw.mon, hw.others, hw.mons, hw.sent, hw.own, hw.held, hw.ex, hw.low⟩⟩

theorem rmonitors_step (ser : V → B) (os : List (Op B V)) (a : Nat) (N : Node) (d : Dest) (o : Op B V) :
    let w := run ser init os
    RMonitors w a N d o → running w a = true →
    refsOf [(step ser w o).2] = [.loc w.nextRef] ∧ RWatch w.nextRef a N (.process a d) (step ser w o).1 := by
  intro w ⟨hN, ho⟩ hrun
  have hex : exists? w a = true := by
    unfold running at hrun; unfold exists?; cases h : w.procs a <;> simp_all
  have key : ∀ al, RWatch w.nextRef a N (.process a d) (monitorInstall (freshRef w a al) d (.loc w.nextRef) a) := by
    intro al
    have hmk := fun pm => rwatch_mkMonRem w a N pm (.process a d) al (run_fresh ser os w.nextRef (Nat.le_refl _))
      (run_noReps ser os _ (Nat.le_refl _)) (run_bounded ser os) hex
    unfold monitorInstall
    match d, hN with
    | .pid (.rem i k), hN =>
      have hl : lookupNode (modBox (freshRef w a al) a (setMon · (.loc w.nextRef) (.forProcess (some (.rem i k))))) k = some N := by
        have : ∀ w2 : World B V, w2.nodeRegs = w.nodeRegs → lookupNode w2 k = some N := by
          intro w2 h; unfold lookupNode; rw [h]; exact hN
        apply this; simp
      simp only [hl]
      exact (rwatch_connect (rwatch_connect (hmk _) N true .ping 0).1 N true _ _).2
    | .named name (.rem x y), hN =>
      simp only [remoteNode, Option.some.injEq] at hN
      subst hN
      exact (rwatch_connect (rwatch_connect (hmk _) _ true .ping 0).1 .loc true _ _).2
  rcases ho with rfl | ⟨reply, rfl⟩
  · simp only [step, Op.caller, hrun, if_true, Op.exec, monitor_eq]
    exact ⟨rfl, key none⟩
  · simp only [step, Op.caller, hrun, if_true, Op.exec, monitorAlias_eq]
    exact ⟨rfl, key (some reply)⟩

theorem nodeMonitor_step (ser : V → B) (os : List (Op B V)) (a : Nat) (N : Node) (hN : N ≠ .loc) :
    let w := run ser init os
    running w a = true →
    refsOf [(step ser w (.nodeMonitor a N)).2] = [.loc w.nextRef] ∧ RWatch w.nextRef a N (.node a) (step ser w (.nodeMonitor a N)).1 := by
  intro w hrun
  have hex : exists? w a = true := by
    unfold running at hrun; unfold exists?; cases h : w.procs a <;> simp_all
  cases N with
  | loc => exact absurd rfl hN
  | rem x y =>
    simp only [step, Op.caller, hrun, if_true, Op.exec, World.nodeMonitor]
    refine ⟨rfl, (rwatch_connect (rwatch_mkMonRem w a (.rem x y) (.forNode (.rem x y)) (.node a) none (run_fresh ser os w.nextRef (Nat.le_refl _))
      (run_noReps ser os _ (Nat.le_refl _)) (run_bounded ser os) hex) _ true .ping 0).1⟩

/-! ### Items put in a mailbox stay there until the owner receives -/

/-- Everything put in the mailbox of `a` since `w` is waiting in it, and `a` holds its monitors. -/
theorem acts_waiting {w w' : World B V} {o : Op B V} (h : Acts (AtomOf w o) w w') (a : Nat) (p : Proc B V) (hp : w.procs a = some p)
    (ha : a < w.nextPid) (hc : o.caller ≠ some a) (hd : o ≠ .drop a) :
    ∃ D q, w'.sent = w.sent ++ D ∧ w'.procs a = some q ∧ (∀ it, (a, it) ∈ D → it ∈ q.box.chan) ∧ q.box.mons = p.box.mons := by
  have : a < w'.nextPid ∧ ∃ D b, w'.sent = w.sent ++ D ∧ pmap (·.box) w' a = some b ∧ (∀ it, (a, it) ∈ D → it ∈ b.chan) ∧ b.mons = p.box.mons := by
    refine h.inv (I := fun w' => a < w'.nextPid ∧ ∃ D b, w'.sent = w.sent ++ D ∧ pmap (·.box) w' a = some b ∧
      (∀ it, (a, it) ∈ D → it ∈ b.chan) ∧ b.mons = p.box.mons) ⟨ha, [], p.box, by simp, by simp [pmap, hp], by simp, rfl⟩ ?_
    rintro w' x hx ⟨h1, D, b, h2, h3, h4, h5⟩
    have hcnt := acts_mono_counters (Acts.one (Q := fun _ => True) (w := w') (a := x) trivial)
    refine ⟨by omega, ?_⟩
    have hne : a ≠ w'.nextPid := by omega
    have hsome : ∀ j b, pmap (fun x : Proc B V => x.box) w' j = some b → (w'.procs j).isSome = true := by
      intro j b hb; unfold pmap at hb; cases hj : w'.procs j <;> simp_all
    rw [sent_act, box_act]
    cases x <;> simp only [] <;> try exact ⟨D, b, h2, h3, h4, h5⟩
    · rename_i i it
      by_cases hi : a = i
      · subst hi
        refine ⟨D ++ [(a, it)], deliver b it, ?_, ?_, ?_, h5⟩
        · rw [if_pos (hsome _ _ h3), h2, List.append_assoc]
        · simp [h3]
        · intro it' hit
          simp only [deliver, List.mem_append, List.mem_singleton, Prod.mk.injEq, true_and] at hit ⊢
          rcases hit with hit | hit
          · exact .inl (h4 _ hit)
          · exact .inr hit
      · simp only [hi, if_false]
        split
        · refine ⟨D ++ [(i, it)], b, by rw [h2, List.append_assoc], h3, ?_, h5⟩
          intro it' hit
          simp only [List.mem_append, List.mem_singleton, Prod.mk.injEq, hi, false_and, or_false] at hit
          exact h4 _ hit
        · exact ⟨D, b, h2, h3, h4, h5⟩
    · exact ⟨D, b, h2, by simp [hne, h3], h4, h5⟩
    · rename_i i
      have : a ≠ i := by rintro rfl; exact hd hx
      exact ⟨D, b, h2, by simp [this, h3], h4, h5⟩
    · rename_i i _ _
      have : a ≠ i := by rintro rfl; exact hc (by rw [(hx : o = _)]; rfl)
      exact ⟨D, b, h2, by simp [this, h3], h4, h5⟩
    · rename_i i r
      have : a ≠ i := by rintro rfl; rcases hx with rfl | rfl <;> exact hc rfl
      exact ⟨D, b, h2, by simp [this, h3], h4, h5⟩
    · rename_i i r
      have : a ≠ i := by rintro rfl; obtain ⟨r', rfl, _⟩ := hx; exact hc rfl
      exact ⟨D, b, h2, by simp [this, h3], h4, h5⟩
    · rename_i i al
      by_cases hi : a = i
      · subst hi
        refine ⟨D ++ [(a, .aliasOff al)], deliver b (.aliasOff al), ?_, ?_, ?_, h5⟩
        · rw [if_pos (hsome _ _ h3), h2, List.append_assoc]
        · simp [h3]
        · intro it' hit
          simp only [deliver, List.mem_append, List.mem_singleton, Prod.mk.injEq, true_and] at hit ⊢
          rcases hit with hit | hit
          · exact .inl (h4 _ hit)
          · exact .inr hit
      · simp only [hi, if_false]
        split
        · refine ⟨D ++ [(i, .aliasOff al)], b, by rw [h2, List.append_assoc], h3, ?_, h5⟩
          intro it' hit
          simp only [List.mem_append, List.mem_singleton, Prod.mk.injEq, hi, false_and, or_false] at hit
          exact h4 _ hit
        · exact ⟨D, b, h2, h3, h4, h5⟩
    · rename_i i _
      have : a ≠ i := by rintro rfl; exact hc hx
      exact ⟨D, b, h2, by simp [this, h3], h4, h5⟩
    · rename_i i _ _ _
      have : a ≠ i := by rintro rfl; exact hc hx
      exact ⟨D, b, h2, by simp [this, h3], h4, h5⟩
    · rename_i me d m r al
      have : a ≠ me := by rintro rfl; exact hc hx
      simp only [this, if_false]
      split
      · refine ⟨D ++ [(me, .down d (.loc w'.nextRef) r)], b, by rw [h2, List.append_assoc], h3, ?_, h5⟩
        intro it' hit
        simp only [List.mem_append, List.mem_singleton, Prod.mk.injEq, this, false_and, or_false] at hit
        exact h4 _ hit
      · exact ⟨D, b, h2, h3, h4, h5⟩
    · rename_i i _ _ _ _
      have : a ≠ i := by rintro rfl; exact hc hx.1
      exact ⟨D, b, h2, by simp [this, h3], h4, h5⟩
  obtain ⟨-, D, b, h1, h2, h3, h4⟩ := this
  unfold pmap at h2
  cases hq : w'.procs a with
  | none => rw [hq] at h2; simp at h2
  | some q =>
    rw [hq] at h2; simp at h2; subst h2
    exact ⟨D, q, h1, rfl, h3, h4⟩

/-! ## C47 -/

/-- C47, monitors. In every history `os`, then a monitor of `a` on a process `d` of node `N` (by pid or by name, with or without
an alias) with the returned reference, then any history `os'` in which `a` neither dies nor removes the monitor: at most one Down
was made for the reference. When then the connection is lost, and after any further history `os''`, exactly one has been
made: to `a`, for the destination it asked for, and with the reason noconnection (unless the node itself had reported the
death of the process before). -/
theorem C47_monitor_exactly_one (ser : V → B) (os os' os'' : List (Op B V)) (a : Nat) (N : Node) (d : Dest) (o : Op B V) :
    let w0 := run ser init os
    let w1 := run ser (step ser w0 o).1 os'
    RMonitors w0 a N d o → running w0 a = true →
    ∃ n, refsOf [(step ser w0 o).2] = [.loc n] ∧
      ((∀ o' ∈ os', ¬ Cancels n a o') →
        (repsOf (.loc n) w1.sent = [] ∨ ∃ e, repsOf (.loc n) w1.sent = [(a, .down d (.loc n) e)]) ∧
        ∀ p, ConnLost w1 N p → ∃ e,
          repsOf (.loc n) (run ser w1 (.supDown N p :: os'')).sent = [(a, .down d (.loc n) e)] ∧
          (e = noconn ∨ ∃ o' ∈ os', Tells n N e o')) := by
  intro w0 w1 ho hrun
  obtain ⟨h1, h2⟩ := rmonitors_step ser os a N d o ho hrun
  refine ⟨w0.nextRef, h1, ?_⟩
  intro hos
  have h3 := rwatch_run_process ser os' h2 hos
  refine ⟨?_, ?_⟩
  · rcases h3 with h | ⟨e, h, -⟩
    · exact .inl h.sent
    · exact .inr ⟨e, h.2⟩
  · intro p hc
    rcases h3 with h | ⟨e, h, he⟩
    · exact ⟨noconn, (reported_run ser os'' (rwatch_lost h rfl hc)).2, .inl rfl⟩
    · refine ⟨e, (reported_run ser (.supDown N p :: os'') h).2, ?_⟩
      rcases he with he | he
      · exact .inr he
      · exact .inl he.1

/-- C47: the Down waits in the mailbox of `a`, and `a` still holds the monitor, so that it will be received. -/
theorem C47_down_accepted (ser : V → B) (os os' : List (Op B V)) (a : Nat) (N : Node) (d : Dest) (o : Op B V) :
    let w0 := run ser init os
    let w1 := run ser (step ser w0 o).1 os'
    RMonitors w0 a N d o → running w0 a = true →
    ∃ n, refsOf [(step ser w0 o).2] = [.loc n] ∧
      ((∀ o' ∈ os', ¬ Cancels n a o') → repsOf (.loc n) w1.sent = [] → ∀ p, ConnLost w1 N p →
        ∃ q, (step ser w1 (.supDown N p)).1.procs a = some q ∧ hasMon q.box.mons (.loc n) = true ∧
          .down d (.loc n) noconn ∈ q.box.chan) := by
  intro w0 w1 ho hrun
  obtain ⟨h1, h2⟩ := rmonitors_step ser os a N d o ho hrun
  refine ⟨w0.nextRef, h1, ?_⟩
  intro hos hs p hc
  rcases rwatch_run_process ser os' h2 hos with h | ⟨e, h, -⟩
  · have h : RWatch w0.nextRef a N (.process a d) w1 := h
    have hex := h.ex
    unfold exists? at hex
    cases hq : w1.procs a with
    | none => rw [hq] at hex; simp at hex
    | some q0 =>
      obtain ⟨D, q, g1, g2, g3, g4⟩ := acts_waiting (step_acts ser w1 (.supDown N p)) a q0 hq h.low (by simp [Op.caller]) (by simp)
      refine ⟨q, g2, ?_, ?_⟩
      · rw [g4]; exact (h.held q0.box (by simp [pmap, hq])).1
      · apply g3
        have hr := (rwatch_lost h rfl hc).2
        have e2 : (step ser w1 (.supDown N p)).1 = supDown w1 N p := rfl
        rw [← e2, g1, repsOf_append, hs, List.nil_append] at hr
        have : (a, Item.down d (.loc w0.nextRef) noconn) ∈ repsOf (.loc w0.nextRef) D := by rw [hr]; simp [reportOf]
        exact (List.mem_filter.1 this).1
  · have := h.2
    rw [show run ser (step ser (run ser init os) o).fst os' = w1 from rfl, hs] at this
    simp [reportOf] at this

/-- C47, node monitors: as `C47_monitor_exactly_one` for `Node::monitor`; exactly one NodeDown. The node is assumed not to report
the death of a process for the reference, which it never was given. -/
theorem C47_node_monitor_exactly_one (ser : V → B) (os os' os'' : List (Op B V)) (a : Nat) (N : Node) (hN : N ≠ .loc) :
    let w0 := run ser init os
    let o : Op B V := .nodeMonitor a N
    let w1 := run ser (step ser w0 o).1 os'
    running w0 a = true →
    ∃ n, refsOf [(step ser w0 o).2] = [.loc n] ∧
      ((∀ o' ∈ os', ¬ Cancels n a o' ∧ ∀ e, ¬ Tells n N e o') →
        (repsOf (.loc n) w1.sent = [] ∨ repsOf (.loc n) w1.sent = [(a, .nodeDown N (.loc n))]) ∧
        ∀ p, ConnLost w1 N p → repsOf (.loc n) (run ser w1 (.supDown N p :: os'')).sent = [(a, .nodeDown N (.loc n))]) := by
  intro w0 o w1 hrun
  obtain ⟨h1, h2⟩ := nodeMonitor_step ser os a N hN hrun
  refine ⟨w0.nextRef, h1, ?_⟩
  intro hos
  have h3 := rwatch_run_node ser os' h2 hos
  refine ⟨?_, ?_⟩
  · rcases h3 with h | ⟨h, -⟩
    · exact .inl h.sent
    · exact .inr h.2
  · intro p hc
    rcases h3 with h | ⟨h, -⟩
    · exact (reported_run ser os'' (rwatch_lost h rfl hc)).2
    · exact (reported_run ser (.supDown N p :: os'') h).2

/-! ### Links -/

/-- The exit messages from `frm` that were put in the mailbox of `i`. -/
def exitsFrom (frm : Pid) (i : Nat) (l : List (Nat × Item B V)) : List (Nat × Item B V) :=
  l.filter fun x => decide (x.1 = i) && (match x.2 with | .system (.exit p _) => decide (p = frm) | _ => false)

theorem exitsFrom_append (p : Pid) (i : Nat) (l l' : List (Nat × Item B V)) :
    exitsFrom p i (l ++ l') = exitsFrom p i l ++ exitsFrom p i l' := by simp [exitsFrom]

theorem run_nodeLinksNodup (ser : V → B) (os : List (Op B V)) (N : Node) : ((run ser init os).nodeLinks N).Nodup := by
  refine run_inv ser (fun w => ∀ N, (w.nodeLinks N).Nodup) ?_ os init (by simp [init]) N
  intro w a h N
  rw [nodeLinks_act]
  cases a <;> simp only [upd_at] <;> try exact h N
  · split
    · subst_vars
      split
      · exact h _
      · rw [List.nodup_append]
        refine ⟨h _, by simp, ?_⟩
        intro x hx y hy
        simp at hy; subst hy
        rintro rfl
        contradiction
    · exact h N
  · split
    · exact (h _).filter _
    · exact h N
  · split
    · exact List.nodup_nil
    · exact h N

/-- What ends the link of `a` to the remote process `i` of node `N` (as seen by this node). -/
def LEnds (a i k : Nat) (N : Node) (o : Op B V) : Prop :=
  o = .drop a ∨ o = .unlink a (.rem i k) ∨ (∃ p, o = .supDown N p) ∨
  (∃ rp ls e, o = .frame rp N (.linkDown ls i e) ∧ a ∈ ls) ∨ (∃ rp, o = .frame rp N (.link false a i))

theorem linked_act {a i k : Nat} {N : Node} {w : World B V} {o : Op B V} (ho : ¬ LEnds a i k N o) {w' : World B V} {x : Atom B V}
    (ha : AtomOf w o x) (h : (.rem i k, a) ∈ w'.nodeLinks N) : (.rem i k, a) ∈ (act w' x).nodeLinks N := by
  rw [nodeLinks_act]
  cases x <;> simp only [upd_at] <;> try exact h
  · split
    · subst_vars
      split
      · exact h
      · exact List.mem_append_left _ h
    · exact h
  · rename_i M p j
    split
    · subst_vars
      refine List.mem_filter.2 ⟨h, ?_⟩
      simp only [ne_eq, decide_eq_true_eq]
      intro he
      cases he
      rcases ha with ha | ha | ⟨rp, ls, fid, e, k', ho', hi, hp⟩ | ⟨rp, fid, k', ho', hp⟩
      · exact ho (.inr (.inl ha))
      · exact ho (.inl ha)
      · cases hp; exact ho (.inr (.inr (.inr (.inl ⟨rp, ls, e, ho', hi⟩))))
      · cases hp; exact ho (.inr (.inr (.inr (.inr ⟨rp, ho'⟩))))
    · exact h
  · split
    · subst_vars
      obtain ⟨p, ha⟩ := ha
      exact absurd (.inr (.inr (.inl ⟨p, ha⟩))) ho
    · exact h

theorem link_step (ser : V → B) (w : World B V) (a i k : Nat) (N : Node) (hN : lookupNode w k = some N) (hrun : running w a = true) :
    (.rem i k, a) ∈ (step ser w (.link a (.rem i k))).1.nodeLinks N := by
  simp only [step, Op.caller, hrun, if_true, Op.exec, World.link, linkInstall]
  rw [if_neg (by simp)]
  have hl : lookupNode (addLink w a (.rem i k)) k = some N := hN
  simp only [hl]
  have h0 : (Pid.rem i k, a) ∈ (addNodeLink (addLink w a (.rem i k)) N (.rem i k) a).nodeLinks N := by
    simp only [addNodeLink_nodeLinks_eq, upd_at, if_true]
    split
    · assumption
    · simp
  have ho : ¬ LEnds a i k N (.connect a N : Op B V) := by
    rintro (h | h | ⟨p, h⟩ | ⟨rp', refs', e', h, hn⟩ | ⟨rp, h⟩) <;> cases h
  have hstep : ∀ {w w' : World B V}, (Pid.rem i k, a) ∈ w.nodeLinks N → Acts (AtomOf w (.connect a N)) w w' → (Pid.rem i k, a) ∈ w'.nodeLinks N :=
    fun h hacts => hacts.inv (I := fun w => (Pid.rem i k, a) ∈ w.nodeLinks N) h fun _ _ hx hi => linked_act ho hx hi
  rw [sendFrame_act]
  exact (hstep h0 (acts_nodeRegister (nodesOk_op _ _) _ N true) : (Pid.rem i k, a) ∈ (nodeRegister _ N true).1.nodeLinks N)

theorem exitsFrom_signals (w : World B V) (frm : Pid) (i : Nat) (e : ExitReason) (ls : List (Pid × Nat)) (hn : ls.Nodup) (hm : (frm, i) ∈ ls) :
    exitsFrom frm i (ls.flatMap fun x => signalMsg w x.1 e x.2) = signalMsg w frm e i := by
  have hz : ∀ x : Pid × Nat, x ≠ (frm, i) → exitsFrom frm i (signalMsg w x.1 e x.2) = [] := by
    rintro ⟨p, j⟩ hx
    unfold exitsFrom
    rw [List.filter_eq_nil_iff]
    intro y hy
    unfold signalMsg at hy
    split at hy
    · split at hy
      · simp at hy; subst hy
        simp only [Bool.and_eq_true, decide_eq_true_eq, not_and]
        rintro rfl rfl; exact hx rfl
      · simp at hy
    · simp at hy
  have hself : exitsFrom frm i (signalMsg w frm e i) = signalMsg w frm e i := by
    unfold exitsFrom
    rw [List.filter_eq_self]
    intro y hy
    unfold signalMsg at hy
    split at hy
    · split at hy
      · simp at hy; subst hy; simp
      · simp at hy
    · simp at hy
  have hnil : ∀ l : List (Pid × Nat), (frm, i) ∉ l → exitsFrom frm i (l.flatMap fun x => signalMsg w x.1 e x.2) = [] := by
    intro l
    induction l with
    | nil => intro _; rfl
    | cons x l ih =>
      intro h
      rw [List.flatMap_cons, exitsFrom_append, hz x (fun h' => h (by rw [h']; exact List.mem_cons_self)), ih (fun h' => h (.tail _ h'))]
      rfl
  induction ls with
  | nil => simp at hm
  | cons x ls ih =>
    rw [List.nodup_cons] at hn
    rw [List.flatMap_cons, exitsFrom_append]
    rcases List.mem_cons.1 hm with hx | hx
    · subst hx; rw [hself, hnil _ hn.1, List.append_nil]
    · have : x ≠ (frm, i) := by rintro rfl; exact hn.1 hx
      rw [hz x this, ih hn.2 hx]; rfl

theorem exitsFrom_loss (w : World B V) (frm : Pid) (i : Nat) (N : Node) (ms : List (Ref × NMon)) :
    exitsFrom frm i (ms.flatMap (lossReport w N)) = [] := by
  unfold exitsFrom
  rw [List.filter_eq_nil_iff]
  intro x hx
  obtain ⟨⟨r, m⟩, -, hp⟩ := List.mem_flatMap.1 hx
  cases m <;> simp only [lossReport] at hp <;> (try split at hp) <;> simp at hp <;> subst hp <;> simp

/-- C47, links. In every history `os`, then a link of `a` to the process `i` of node `N`, then any history `os'` in which neither
the link is removed nor `a` dies nor the node reports the death, nor the connection is lost: when the connection is lost then, `a`
gets exactly one exit signal from that process with the reason noconnection: one more message if `a` traps exits, and else
`a` is terminated with this reason. -/
theorem C47_link_signal (ser : V → B) (os os' : List (Op B V)) (a i k : Nat) (N : Node) :
    let w0 := run ser init os
    let w1 := run ser (step ser w0 (.link a (.rem i k))).1 os'
    lookupNode w0 k = some N → running w0 a = true → (∀ o' ∈ os', ¬ LEnds a i k N o') →
    ∀ p q, ConnLost w1 N p → w1.procs a = some q →
      let w2 := (step ser w1 (.supDown N p)).1
      (q.trap = true → exitsFrom (.rem i k) a w2.sent =
        exitsFrom (.rem i k) a w1.sent ++ [(a, .system (.exit (.rem i k) noconn))]) ∧
      (q.trap = false → exitsFrom (.rem i k) a w2.sent = exitsFrom (.rem i k) a w1.sent ∧
        ∃ q', w2.procs a = some q' ∧ q'.reason = some noconn ∧ q'.aborted = true) := by
  intro w0 w1 hN hrun hos p q hc hq w2
  have hl : (.rem i k, a) ∈ w1.nodeLinks N :=
    run_inv' ser (fun w => (Pid.rem i k, a) ∈ w.nodeLinks N) (fun o => ¬ LEnds a i k N o)
      (fun w o ho _ w' x _ hx h => linked_act ho hx h) os' hos _ (link_step ser w0 a i k N hN hrun)
  have hnd : (w1.nodeLinks N).Nodup := by
    have : w1 = run ser init (os ++ .link a (.rem i k) :: os') := by simp [w1, w0, run, List.foldl_append]
    rw [this]; exact run_nodeLinksNodup ser _ N
  obtain ⟨h1, -, -, h4, -⟩ := supDown_eff w1 N p hc
  have e2 : w2 = supDown w1 N p := rfl
  have hs : exitsFrom (.rem i k) a w2.sent = exitsFrom (.rem i k) a w1.sent ++ signalMsg w1 (.rem i k) noconn a := by
    rw [e2, h1, exitsFrom_append, exitsFrom_append, exitsFrom_signals w1 _ _ _ _ hnd hl, exitsFrom_loss, List.append_nil]
  refine ⟨?_, ?_⟩
  · intro ht; rw [hs]; simp [signalMsg, hq, ht]
  · intro ht
    refine ⟨by rw [hs]; simp [signalMsg, hq, ht], ?_⟩
    have h5 := h4 a
    rw [hq, ← e2] at h5
    obtain ⟨g1, g2⟩ := cutOff_dies (w1.nodeLinks N) a q ht ⟨_, hl⟩
    unfold pmap at h5
    cases hw2 : w2.procs a with
    | none => rw [hw2] at h5; simp at h5
    | some q' =>
      rw [hw2] at h5
      simp only [Option.map_some, Option.some.injEq, Prod.mk.injEq] at h5
      exact ⟨q', rfl, h5.1.trans g1, h5.2.1.trans g2⟩

/-- Process 1 connects to a node, monitors and links processes of it, and monitors the node itself. -/
def lossSample : List (Op Nat Nat) :=
  [.boot, .nodeStart 1 "a" (addr 1), .connect 1 (.rem "b" (addr 2)), .workers (.rem "b" (addr 2)) 8 9,
   .monitor 1 (.named "srv" (.rem "b" (addr 2))), .monitorAlias 1 (.pid (.rem 7 1)) true, .nodeMonitor 1 (.rem "b" (addr 2)),
   .setTrap 1 true, .link 1 (.rem 7 1)]

example : RMonitors (run id init (lossSample.take 4)) 1 (.rem "b" (addr 2)) (.named "srv" (.rem "b" (addr 2)))
      (.monitor 1 (.named "srv" (.rem "b" (addr 2)))) ∧
    RMonitors (run id init (lossSample.take 5)) 1 (.rem "b" (addr 2)) (.pid (.rem 7 1)) (.monitorAlias 1 (.pid (.rem 7 1)) true) ∧
    lookupNode (run id init (lossSample.take 8)) 1 = some (.rem "b" (addr 2)) ∧ running (run id init lossSample) 1 = true :=
  ⟨⟨rfl, .inl rfl⟩, ⟨rfl, .inr ⟨_, rfl⟩⟩, rfl, by decide⟩

example : ConnLost (run id init lossSample) (.rem "b" (addr 2)) 3 := ⟨1, _, rfl, rfl, .inr rfl⟩

example : (run id init lossSample).sent.length = 0 ∧ (run id init (lossSample ++ [.supDown (.rem "b" (addr 2)) 3])).sent.length = 4 := by
  decide

/-! ## C48 -/

/-- C48: `Node::disconnect` is reported. After a monitor of `a` on a process of node `N` and any history `os'` as in C47, if
some process disconnects the known node `N` and the supervisor process of the connection then goes down (before the node is connected
again), exactly one Down is made. For `forget` and for stopping the local node this fails, see below. -/
theorem C48_disconnect_reports_partial (ser : V → B) (os os' os'' : List (Op B V)) (a me : Nat) (N : Node) (d : Dest) (o : Op B V) :
    let w0 := run ser init os
    let w1 := run ser (step ser w0 o).1 os'
    RMonitors w0 a N d o → running w0 a = true →
    ∃ n, refsOf [(step ser w0 o).2] = [.loc n] ∧
      ((∀ o' ∈ os', ¬ Cancels n a o') → running w1 me = true → (∃ id g, w1.nodeMap N = some id ∧ w1.nodeRegs id = some g) →
        ∀ p, ∃ e, repsOf (.loc n) (run ser w1 (.disconnect me N :: .supDown N p :: os'')).sent = [(a, .down d (.loc n) e)] ∧
          (e = noconn ∨ ∃ o' ∈ os', Tells n N e o')) := by
  intro w0 w1 ho hrun
  obtain ⟨n, h1, h2⟩ := C47_monitor_exactly_one ser os (os' ++ [.disconnect me N]) os'' a N d o ho hrun
  refine ⟨n, h1, ?_⟩
  rintro hos hme ⟨id, g, hm, hg⟩ p
  have hw : run ser (step ser (run ser init os) o).1 (os' ++ [.disconnect me N]) = (step ser w1 (.disconnect me N)).1 := by
    simp [run, List.foldl_append, w1, w0]
  have hc : ConnLost (step ser w1 (.disconnect me N)).1 N p := by
    have hN : N ≠ .loc := by
      rintro rfl
      have := ho.1
      unfold remoteNode at this
      split at this <;> simp [lookupNode] at this
    have hw2 : (step ser w1 (.disconnect me N)).1 = nodeDisconnect w1 me N := by simp [step, Op.caller, Op.exec, hme, hN]
    rw [hw2]
    refine ⟨id, { g with sup := none, state := .known }, ?_, ?_, .inl rfl⟩
    · simp only [nodeDisconnect, hm, hg, killOpt_nodeMap]
    · simp [nodeDisconnect, hm, hg, upd_at]
  have h3 := (h2 (by
    intro o' ho'
    rcases List.mem_append.1 ho' with ho' | ho'
    · exact hos o' ho'
    · simp at ho'; subst ho'
      rintro (h | h | h) <;> cases h)).2 p (by rw [hw]; exact hc)
  obtain ⟨e, g1, g2⟩ := h3
  refine ⟨e, ?_, ?_⟩
  · rw [hw] at g1; exact g1
  · rcases g2 with g2 | ⟨o', ho', g2⟩
    · exact .inl g2
    · rcases List.mem_append.1 ho' with ho' | ho'
      · exact .inr ⟨o', ho', g2⟩
      · simp at ho'; subst ho'; obtain ⟨rp, refs, h, -⟩ := g2; cases h

/-- C48 fails for `Node::forget` and for `Node::stop`: afterwards the events by which the connections report that they are gone
are all ignored, for every history. -/
theorem C48_forgotten_events_ignored_violated (ser : V → B) (os : List (Op B V)) (me : Nat) (N : Node) (p : Nat) (hN : N ≠ .loc) :
    let w := run ser init os
    running w me = true →
    (let w' := (step ser w (.forget me N)).1; (step ser w' (.supDown N p)).1 = w') ∧
    (w.nodeMap .loc ≠ none → let w' := (step ser w (.nodeStop me)).1; (step ser w' (.supDown N p)).1 = w') := by
  intro w hrun
  refine ⟨?_, ?_⟩
  · show supDown (step ser w (.forget me N)).1 N p = _
    refine supDown_ineffective _ _ _ ?_
    rintro ⟨id, g, hm, -⟩
    simp only [step, Op.caller, hrun, if_true, Op.exec, nodeForget, if_neg hN] at hm
    cases h0 : w.nodeMap N with
    | none => simp [h0] at hm
    | some id0 =>
      simp only [h0] at hm
      cases h1 : w.nodeRegs id0 with
      | none => simp [h1, upd_at] at hm
      | some g0 => simp [h1, upd_at, killOpt_nodeMap] at hm
  · intro hloc
    show supDown (step ser w (.nodeStop me)).1 N p = _
    refine supDown_ineffective _ _ _ ?_
    rintro ⟨id, g, hm, -⟩
    simp only [step, Op.caller, hrun, if_true, Op.exec, nodeStop] at hm
    cases h0 : w.nodeMap .loc with
    | none => exact absurd h0 hloc
    | some id0 => simp [h0, nodePanic] at hm

/-- C48 fails: witnesses where process 1 monitors a process of a connected node (and the node), the node is forgotten, or the
local node (supervisor process 2) is stopped, and the connection's supervisor (process 3, linked to process 2 as
node_remote.rs:370 does) dies and tells so: no report is made although the connection is gone. -/
theorem C48_forget_silent_violated :
    let N : Node := .rem "b" (addr 2)
    let os : List (Op Nat Nat) := lossSample.take 7 ++ [.link 3 (.loc 2)]
    ConnLost (run id init os) N 3 ∧
    ∀ os' ∈ [[(.forget 1 N : Op Nat Nat), .drop 3, .supDown N 3], [.nodeStop 1, .drop 2, .nodePanic, .drop 3, .supDown N 3]],
      let w := run id init (os ++ os')
      running w 1 = true ∧ exists? w 3 = false ∧ w.nodeMap N = none ∧ ∀ r, repsOf r w.sent = [] := by
  intro N os
  refine ⟨⟨1, _, rfl, rfl, .inr rfl⟩, ?_⟩
  intro os' ho
  simp only [List.mem_cons, List.not_mem_nil, or_false] at ho
  rcases ho with rfl | rfl <;> exact ⟨by decide, by decide, rfl, fun r => rfl⟩

end Verif.World
