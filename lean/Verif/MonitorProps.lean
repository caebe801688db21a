import Verif.MonitorInv
/-!
# Monitors and aliases (C32, C33, C34, C36, C37, C40)
-/
namespace Verif.World
open Verif.Mailbox
variable {B V : Type}

/-! ## C32 -/

/-- The operations by which process `a` starts to monitor the existing local process `t`, addressing it as `d`. -/
inductive Monitors (w : World B V) (a t : Nat) : Dest → Op B V → Prop
  | pid : exists? w t = true → Monitors w a t (.pid (.loc t)) (.monitor a (.pid (.loc t)))
  | named (n : String) : w.names n = some t → exists? w t = true → Monitors w a t (.named n .loc) (.monitor a (.named n .loc))
  | aliasPid (reply : Bool) : exists? w t = true → Monitors w a t (.pid (.loc t)) (.monitorAlias a (.pid (.loc t)) reply)
  | aliasNamed (n : String) (reply : Bool) : w.names n = some t → exists? w t = true →
      Monitors w a t (.named n .loc) (.monitorAlias a (.named n .loc) reply)
  | spawn (l : Bool) : t = w.nextPid → Monitors w a t (.pid (.loc t)) (.spawn a l true)

/-- The monitor `r` of `a` on `t` is in place and has not reported. -/
structure Watch (n a t : Nat) (d : Dest) (w : World B V) : Prop where
  lt : n < w.nextRef
  mon : (w.mons t).filter (fun x => x.1 = .loc n) = [(.loc n, .loc a, some d)]
  others : ∀ i, i ≠ t → ∀ x ∈ w.mons i, x.1 ≠ .loc n
  nodes : ∀ N, ∀ x ∈ w.nodeMons N, x.1 ≠ .loc n
  sent : downsOf (.loc n) w.sent = []
  own : ∀ j b, j ≠ a → pmap (·.box) w j = some b →
    BoxOk (fun m _ => hasMon m (.loc n) = false) (fun it => reports (.loc n) it = false) b
  ex : exists? w a = true

/-- The monitoring process still holds the monitor, and no report for it is in its mailbox. -/
def Held (n a : Nat) (w : World B V) : Prop :=
  ∀ b, pmap (·.box) w a = some b → BoxOk (fun m _ => hasMon m (.loc n) = true) (fun it => reports (.loc n) it = false) b

theorem unused_congr (r : Ref) (w w' : World B V) (h : Unused r w) (h1 : w'.mons = w.mons) (h2 : w'.nodeMons = w.nodeMons)
    (h3 : w'.sent = w.sent) (h4 : ∀ j b, pmap (·.box) w' j = some b → pmap (·.box) w j = some b ∨ b = ⟨[], [], [], []⟩) :
    Unused r w' := by
  refine ⟨by rw [h1]; exact h.mons, by rw [h2]; exact h.nodes, by rw [h3]; exact h.sent, ?_⟩
  intro j b hb
  rcases h4 j b hb with hb | rfl
  · exact h.box j b hb
  · exact ⟨rfl, by simp, by simp⟩

/-- Installing a monitor with an unused reference. -/
theorem watch_mkMon (w : World B V) (a t : Nat) (d : Dest) (al : Option Bool) (hu : Unused (.loc w.nextRef) w)
    (hex : exists? w a = true) :
    Watch w.nextRef a t d (act w (.mkMon a t d al)) ∧ Held w.nextRef a (act w (.mkMon a t d al)) := by
  have hun := hu
  refine ⟨⟨?_, ?_, ?_, ?_, ?_, ?_, ?_⟩, ?_⟩
  · rw [nextRef_act]; simp
  · rw [mons_act]
    simp only [upd_at, if_true, List.filter_append]
    have : List.filter (fun x => decide (x.1 = Ref.loc w.nextRef)) (List.filter (fun x => decide (x.1 ≠ Ref.loc w.nextRef)) (w.mons t)) = [] := by
      rw [List.filter_filter, List.filter_eq_nil_iff]; simp
    rw [this]; simp
  · intro i hi x hx
    rw [mons_act] at hx
    simp only [upd_at, hi, if_false] at hx
    exact hu.mons i x hx
  · rw [nodeMons_act]; exact hu.nodes
  · rw [sent_act]; exact hu.sent
  · intro j b hj hb
    rw [box_act] at hb
    simp only [hj, if_false] at hb
    exact hu.box j b hb
  · unfold exists?; rw [ex_act]; exact hex
  · intro b hb
    rw [box_act] at hb
    simp only [if_true] at hb
    cases hw : pmap (fun x => x.box) w a with
    | none => rw [hw] at hb; simp at hb
    | some b0 =>
      rw [hw] at hb; simp at hb; subst hb
      obtain ⟨_, h2, h3⟩ := hu.box a b0 hw
      exact ⟨by show hasMon _ _ = true; rw [hasMon_setMon]; simp, h2, h3⟩

theorem monitors_form (ser : V → B) (w : World B V) (a t : Nat) (hat : a ≠ t) (d : Dest) (o : Op B V) (hf : Fresh w)
    (ho : Monitors w a t d o) (hrun : running w a = true) :
    ∃ al w', step ser w o = (act w' (.mkMon a t d al), (step ser w o).2) ∧ Unused (.loc w.nextRef) w' ∧ w'.nextRef = w.nextRef ∧
      exists? w' a = true ∧ exists? w' t = true ∧ refsOf [(step ser w o).2] = [.loc w.nextRef] ∧
      (∀ b, pmap (·.box) w' a = some b → pmap (·.box) w a = some b) := by
  have hu := hf w.nextRef (Nat.le_refl _)
  have hex : exists? w a = true := by
    unfold running at hrun; unfold exists?; cases h : w.procs a <;> simp_all
  have hat' := Ne.symm hat
  cases ho with
  | pid he =>
    refine ⟨none, w, ?_, hu, rfl, hex, he, ?_, fun _ h => h⟩
    · simp only [step, Op.caller, hrun, if_true, Op.exec, monitor_eq, monitorInstall, hat', if_false]
      rw [if_pos (by simpa [exists?, upd_at, hat', freshRef, optAlias, newRef] using he)]
      rfl
    · simp only [step, Op.caller, hrun, if_true, Op.exec]; rfl
  | named n hn he =>
    refine ⟨none, w, ?_, hu, rfl, hex, he, ?_, fun _ h => h⟩
    · simp only [step, Op.caller, hrun, if_true, Op.exec, monitor_eq, monitorInstall]
      rw [show (freshRef w a none).names n = some t by simpa using hn]
      dsimp only
      rw [if_pos (by simpa [exists?, upd_at, hat', freshRef, optAlias, newRef] using he)]
      rfl
    · simp only [step, Op.caller, hrun, if_true, Op.exec]; rfl
  | aliasPid reply he =>
    refine ⟨some reply, w, ?_, hu, rfl, hex, he, ?_, fun _ h => h⟩
    · simp only [step, Op.caller, hrun, if_true, Op.exec, monitorAlias_eq, monitorInstall, hat', if_false]
      rw [if_pos (by simpa [exists?, upd_at, hat', freshRef, optAlias, newRef, addAlias] using he)]
      rfl
    · simp only [step, Op.caller, hrun, if_true, Op.exec]; rfl
  | aliasNamed n reply hn he =>
    refine ⟨some reply, w, ?_, hu, rfl, hex, he, ?_, fun _ h => h⟩
    · simp only [step, Op.caller, hrun, if_true, Op.exec, monitorAlias_eq, monitorInstall]
      rw [show (freshRef w a (some reply)).names n = some t by simpa using hn]
      dsimp only
      rw [if_pos (by simpa [exists?, upd_at, hat', freshRef, optAlias, newRef, addAlias] using he)]
      rfl
    · simp only [step, Op.caller, hrun, if_true, Op.exec]; rfl
  | spawn l ht =>
    subst ht
    refine ⟨none, if l then addLink (addLink (spawnRaw w).1 w.nextPid (.loc a)) a (.loc w.nextPid) else (spawnRaw w).1, ?_, ?_, ?_, ?_, ?_, ?_, ?_⟩
    · simp only [step, Op.caller, hrun, if_true, Op.exec, World.spawn]
      cases l <;> rfl
    · refine unused_congr _ w _ hu ?_ ?_ ?_ ?_
      · cases l <;> simp [spawnRaw]
      · cases l <;> simp [spawnRaw]
      · cases l <;> simp [spawnRaw]
      · intro j b hb
        have : pmap (·.box) (act w .spawn) j = some b := by cases l <;> simpa [pmap, act] using hb
        rw [box_act] at this
        simp only [] at this
        split at this
        · simp at this; exact .inr this.symm
        · exact .inl this
    · cases l <;> simp [spawnRaw]
    · have : exists? (spawnRaw w).1 a = true := by simpa [exists?, spawnRaw, upd_at, hat] using hex
      cases l <;> simpa [exists?] using this
    · cases l <;> simp [exists?, spawnRaw, upd_at]
    · simp only [step, Op.caller, hrun, if_true, Op.exec, World.spawn]
      cases l <;> rfl
    · intro b hb
      have : pmap (·.box) (act w .spawn) a = some b := by cases l <;> simpa [pmap, act] using hb
      rw [box_act] at this
      simpa [hat] using this

theorem monitors_step (ser : V → B) (w : World B V) (a t : Nat) (hat : a ≠ t) (d : Dest) (o : Op B V) (hf : Fresh w)
    (ho : Monitors w a t d o) (hrun : running w a = true) :
    refsOf [(step ser w o).2] = [.loc w.nextRef] ∧ Watch w.nextRef a t d (step ser w o).1 ∧ Held w.nextRef a (step ser w o).1 ∧
    exists? (step ser w o).1 t = true := by
  obtain ⟨al, w', h1, h2, h3, h4, h5, h6, -⟩ := monitors_form ser w a t hat d o hf ho hrun
  rw [← h3] at h2
  obtain ⟨g1, g2⟩ := watch_mkMon w' a t d al h2 h4
  rw [h1]
  rw [h3] at g1 g2
  exact ⟨h6, g1, g2, by unfold exists?; rw [ex_act]; exact h5⟩

/-- What ends a monitor: the monitoring process removes it, or one of the two dies. -/
def Ends (n a t : Nat) (o : Op B V) : Prop := o = .demonitor a (.loc n) ∨ o = .drop a ∨ o = .drop t

/-- A put of a Down or NodeDown for the reference does not happen while it is watched. -/
theorem watch_noput (n a t : Nat) (d : Dest) (w : World B V) (o : Op B V) (hw : Watch n a t d w) (ho : ¬ Ends n a t o)
    (i : Nat) (it : Item B V) (ha : AtomOf w o (.put i it)) : reports (.loc n) it = false := by
  cases it <;> simp [reports]
  · rintro rfl
    rcases ha with ⟨t', p, dd, ho', _, hm, _⟩ | ⟨N, hm, _⟩
    · by_cases ht : t' = t
      · subst ht; exact ho (.inr (.inr ho'))
      · exact hw.others t' ht _ hm rfl
    · exact hw.nodes _ _ hm rfl
  · rintro rfl; exact hw.nodes _ _ ha.1 rfl

theorem hasMon_of_mem {l : List (Ref × PMon)} {r : Ref} {m : PMon} (h : (r, m) ∈ l) : hasMon l r = true := by
  unfold hasMon; rw [List.any_eq_true]; exact ⟨_, h, by simp⟩

theorem watch_act (n a t : Nat) (d : Dest) (w : World B V) (o : Op B V) (hw : Watch n a t d w) (ho : ¬ Ends n a t o)
    (w' : World B V) (x : Atom B V) (ha : AtomOf w o x) (h : Watch n a t d w') : Watch n a t d (act w' x) := by
  have hlt := h.lt
  have hne : ∀ k, k = w'.nextRef → Ref.loc k ≠ Ref.loc n := by rintro k rfl; simp; omega
  refine ⟨?_, ?_, ?_, ?_, ?_, ?_, ?_⟩
  · have := (acts_mono_counters (Acts.one (Q := fun _ => True) (w := w') (a := x) trivial)).2; omega
  · rw [mons_act]
    cases x <;> simp only [upd_at] <;> try exact h.mon
    · rename_i i r frm
      split
      · subst_vars
        have hr : r ≠ .loc n := by rintro rfl; simp [AtomOf, Ref.isLocal] at ha
        rw [List.filter_append, List.filter_filter]
        simp only [List.filter_cons, hr, decide_false, Bool.false_eq_true, if_false, List.filter_nil, List.append_nil]
        rw [← h.mon]
        apply List.filter_congr
        intro y _
        by_cases hy : y.1 = .loc n <;> simp [hy, Ne.symm hr]
      · exact h.mon
    · rename_i i r
      split
      · subst_vars
        have hr : r ≠ .loc n := by
          rintro rfl
          rcases ha with ⟨me, p, m, ho', hp, hm⟩ | ⟨N, hm⟩ | hl
          · by_cases hme : me = a
            · subst hme
              rcases ho' with rfl | rfl
              · exact ho (.inl rfl)
              · exact ho (.inr (.inl rfl))
            · have : hasMon p.box.mons (.loc n) = false := (hw.own me p.box hme (by simp [pmap, hp])).1
              rw [hasMon_of_mem hm] at this; simp at this
          · exact hw.nodes _ _ hm.1 rfl
          · simp [Ref.isLocal] at hl
        rw [List.filter_filter, ← h.mon]
        apply List.filter_congr
        intro y _
        by_cases hy : y.1 = .loc n <;> simp [hy, Ne.symm hr]
      · exact h.mon
    · rename_i i
      split
      · rename_i hti; rw [← hti] at ha; exact absurd (.inr (.inr ha)) ho
      · exact h.mon
    · split
      · subst_vars
        rw [List.filter_append, List.filter_filter]
        simp only [List.filter_cons, hne _ rfl, decide_false, Bool.false_eq_true, if_false, List.filter_nil, List.append_nil]
        rw [← h.mon]
        apply List.filter_congr
        intro y _
        by_cases hy : y.1 = .loc n
        · have : n ≠ w'.nextRef := by omega
          simp [hy, this]
        · simp [hy]
      · exact h.mon
  · intro i hi y hy
    rw [mons_act] at hy
    cases x <;> simp only [upd_at] at hy <;> try exact h.others i hi y hy
    · split at hy
      · subst_vars
        rcases filter_append_single_mem _ _ _ _ hy with hy | rfl
        · exact h.others _ hi y hy
        · rintro rfl; simp [AtomOf, Ref.isLocal] at ha
      · exact h.others i hi y hy
    · split at hy
      · subst_vars; exact h.others _ hi y (List.mem_filter.1 hy).1
      · exact h.others i hi y hy
    · split at hy
      · simp at hy
      · exact h.others i hi y hy
    · split at hy
      · subst_vars
        rcases filter_append_single_mem _ _ _ _ hy with hy | rfl
        · exact h.others _ hi y hy
        · exact hne _ rfl
      · exact h.others i hi y hy
  · intro N y hy
    rw [nodeMons_act] at hy
    cases x <;> simp only [upd_at] at hy <;> try exact h.nodes N y hy
    · split at hy
      · rcases filter_append_single_mem _ _ _ _ hy with hy | rfl
        · exact h.nodes _ y hy
        · exact hne _ rfl
      · exact h.nodes N y hy
    · split at hy
      · rcases filter_append_single_mem _ _ _ _ hy with hy | rfl
        · exact h.nodes _ y hy
        · rintro rfl; simp [AtomOf, Ref.isLocal] at ha
      · exact h.nodes N y hy
    · split at hy
      · exact h.nodes _ y (List.mem_filter.1 hy).1
      · exact h.nodes N y hy
    · split at hy
      · simp at hy
      · exact h.nodes N y hy
  · rw [sent_act]
    cases x <;> simp only [] <;> try exact h.sent
    · rename_i i it
      split
      · rw [downsOf_append, h.sent]
        have := watch_noput n a t d w o hw ho i it ha
        cases it <;> simp_all [downsOf, reports]
      · exact h.sent
    · split
      · rw [downsOf_append, h.sent]; simp [downsOf]
      · exact h.sent
    · split
      · rw [downsOf_append, h.sent]
        have : w'.nextRef ≠ n := by omega
        simp [downsOf, this]
      · exact h.sent
  · intro j b hj hb
    refine boxOk_act (keeps_unused (.loc n)) w' x j (fun b => h.own j b hj) (fun _ => rfl) ?_ (fun _ _ => rfl) (fun _ _ _ h _ => h) ?_ ?_ ?_ b hb
    · rintro it rfl -
      exact watch_noput n a t d w o hw ho j it ha
    · intro r' m _ _ hm; rw [hasMon_dropMon, hm]; rfl
    · intro b m hc hm
      have : n ≠ w'.nextRef := by omega
      rw [hasMon_setMon, hm]; simpa using this
    · rintro d m e al rfl
      have : w'.nextRef ≠ n := by omega
      simpa [reports] using this
  · unfold exists?; rw [ex_act]
    have := h.ex
    unfold exists? at this
    cases x <;> simp only [] <;> try exact this
    · simp [this]
    · rename_i i
      have : a ≠ i := by
        rintro rfl; exact ho (.inr (.inl ha))
      simp [this]; exact h.ex

theorem held_act (n a t : Nat) (d : Dest) (w : World B V) (o : Op B V) (hw : Watch n a t d w) (ho : ¬ Ends n a t o)
    (ho2 : o ≠ .nodeDemonitor a (.loc n)) (w' : World B V) (x : Atom B V) (ha : AtomOf w o x) (hlt : n < w'.nextRef)
    (hb : Bounded w' ∧ exists? w' a = true)
    (h : Held n a w') : Held n a (act w' x) := by
  have hal : a < w'.nextPid := by
    rcases Nat.lt_or_ge a w'.nextPid with h | h
    · exact h
    · have h1 := hb.1 a h; have h2 := hb.2; simp [exists?, h1] at h2
  intro b hbx
  refine boxOk_act (keeps_held (.loc n)) w' x a h (fun _ => by omega) ?_ (fun _ _ => rfl) (fun _ _ _ h _ => h) ?_ ?_ ?_ b hbx
  · rintro it rfl -
    exact watch_noput n a t d w o hw ho a it ha
  · rintro r m als rfl hm
    rw [hasMon_dropMon, hm]
    have : Ref.loc n ≠ r := by
      rintro rfl
      rcases ha with rfl | rfl
      · exact ho (.inl rfl)
      · exact ho2 rfl
    simp [this]
  · intro b m hc hm
    rw [hasMon_setMon, hm]; rfl
  · rintro d m e al rfl
    have : w'.nextRef ≠ n := by omega
    simpa [reports] using this

/-- The reference is in no table of monitors any more. -/
structure Gone (n : Nat) (w : World B V) : Prop where
  lt : n < w.nextRef
  mons : ∀ i, ∀ x ∈ w.mons i, x.1 ≠ .loc n
  nodes : ∀ N, ∀ x ∈ w.nodeMons N, x.1 ≠ .loc n

theorem gone_act (n : Nat) (w : World B V) (o : Op B V) (w' : World B V) (a : Atom B V)
    (ha : AtomOf w o a) (h : Gone n w') : Gone n (act w' a) := by
  have hlt := h.lt
  have hne : ∀ k, k = w'.nextRef → Ref.loc k ≠ Ref.loc n := by rintro k rfl; simp; omega
  refine ⟨?_, ?_, ?_⟩
  · have := (acts_mono_counters (Acts.one (Q := fun _ => True) (w := w') (a := a) trivial)).2; omega
  · intro i x hx
    rw [mons_act] at hx
    cases a <;> simp only [upd_at] at hx <;> try exact h.mons i x hx
    · split at hx
      · rcases filter_append_single_mem _ _ _ _ hx with hx | rfl
        · exact h.mons _ x hx
        · rintro rfl; simp [AtomOf, Ref.isLocal] at ha
      · exact h.mons i x hx
    · split at hx
      · exact h.mons _ x (List.mem_filter.1 hx).1
      · exact h.mons i x hx
    · split at hx
      · simp at hx
      · exact h.mons i x hx
    · split at hx
      · rcases filter_append_single_mem _ _ _ _ hx with hx | rfl
        · exact h.mons _ x hx
        · exact hne _ rfl
      · exact h.mons i x hx
  · intro N x hx
    rw [nodeMons_act] at hx
    cases a <;> simp only [upd_at] at hx <;> try exact h.nodes N x hx
    · split at hx
      · rcases filter_append_single_mem _ _ _ _ hx with hx | rfl
        · exact h.nodes _ x hx
        · exact hne _ rfl
      · exact h.nodes N x hx
    · split at hx
      · rcases filter_append_single_mem _ _ _ _ hx with hx | rfl
        · exact h.nodes _ x hx
        · rintro rfl; simp [AtomOf, Ref.isLocal] at ha
      · exact h.nodes N x hx
    · split at hx
      · exact h.nodes _ x (List.mem_filter.1 hx).1
      · exact h.nodes N x hx
    · split at hx
      · simp at hx
      · exact h.nodes N x hx

/-- Once the reference is in no table no further Down is made for it. -/
theorem gone_sent_act (n : Nat) (D : List (Nat × Item B V)) (w : World B V) (o : Op B V) (hw : Gone n w) (w' : World B V)
    (a : Atom B V) (ha : AtomOf w o a) (hg : Gone n w') (h : downsOf (.loc n) w'.sent = D) :
    downsOf (.loc n) (act w' a).sent = D := by
  rw [sent_act]
  cases a <;> simp only [] <;> try exact h
  · rename_i i it
    split
    · rw [downsOf_append, h]
      cases it <;> simp [downsOf]
      rintro rfl
      rcases ha with ⟨t, p, dd, _, _, hm, _⟩ | ⟨N, hm, _⟩
      · exact hw.mons _ _ hm rfl
      · exact hw.nodes _ _ hm rfl
    · exact h
  · split
    · rw [downsOf_append, h]; simp [downsOf]
    · exact h
  · split
    · rw [downsOf_append, h]
      have := hg.lt
      have : w'.nextRef ≠ n := by omega
      simp [downsOf, this]
    · exact h

theorem gone_run (ser : V → B) (n : Nat) (D : List (Nat × Item B V)) (w : World B V) (os : List (Op B V)) (h : Gone n w)
    (hD : downsOf (.loc n) w.sent = D) : Gone n (run ser w os) ∧ downsOf (.loc n) (run ser w os).sent = D := by
  refine run_inv' ser (fun w => Gone n w ∧ downsOf (.loc n) w.sent = D) (fun _ => True) ?_ os (fun _ _ => trivial) w ⟨h, hD⟩
  rintro w o - ⟨h1, -⟩ w' a - ha ⟨h2, h3⟩
  exact ⟨gone_act n w o w' a ha h2, gone_sent_act n D w o h1 w' a ha h2 h3⟩

theorem downsOf_exitMsgs (r : Ref) (w : World B V) (me : Nat) (e : ExitReason) (l : List Pid) :
    downsOf r (exitMsgs w me e l) = [] := by
  unfold downsOf
  rw [List.filter_eq_nil_iff]
  intro x hx
  unfold exitMsgs at hx
  obtain ⟨p, -, hp⟩ := List.mem_flatMap.1 hx
  cases p with
  | rem i n => simp at hp
  | loc i =>
    simp only [signalMsg] at hp
    split at hp
    · split at hp
      · simp at hp; subst hp; simp
      · simp at hp
    · simp at hp

theorem downsOf_downMsgs (r : Ref) (w : World B V) (e : ExitReason) (ms : List (Ref × Pid × Option Dest)) :
    downsOf r (downMsgs w e ms) = downMsgs w e (ms.filter fun x => x.1 = r) := by
  induction ms with
  | nil => rfl
  | cons x ms ih =>
    obtain ⟨ref, frm, d⟩ := x
    have hc : ∀ l : List (Ref × Pid × Option Dest), downMsgs w e ((ref, frm, d) :: l) = downMsgs w e [(ref, frm, d)] ++ downMsgs w e l := by
      intro l; unfold downMsgs; rw [← List.filterMap_append]; rfl
    rw [hc, downsOf_append, ih, List.filter_cons]
    by_cases hr : ref = r
    · rw [if_pos (by simpa using hr), hc]
      congr 1
      subst hr
      simp only [downMsgs, List.filterMap_cons, List.filterMap_nil]
      cases frm with
      | rem i n => rfl
      | loc i => dsimp only; cases exists? w i <;> simp [downsOf]
    · rw [if_neg (by simpa using hr)]
      have : downsOf r (downMsgs w e [(ref, frm, d)]) = [] := by
        simp only [downMsgs, List.filterMap_cons, List.filterMap_nil]
        cases frm with
        | rem i n => rfl
        | loc i => dsimp only; cases exists? w i <;> simp [downsOf, hr]
      rw [this, List.nil_append]

/-- A watched reference is gone from all tables, and one Down was made for it, when the monitored process dies. -/
theorem watch_drop (ser : V → B) (n a t : Nat) (hat : a ≠ t) (d : Dest) (w : World B V) (p : Proc B V) (h : Watch n a t d w)
    (hn : LinksNodup w) (hp : w.procs t = some p) (hd : p.ended = true ∨ p.aborted = true) :
    Gone n (step ser w (.drop t)).1 ∧
    downsOf (.loc n) (step ser w (.drop t)).1.sent = [(a, .down d (.loc n) (p.reason.getD .normal))] := by
  have hdm : doomed w t = true := by simp [doomed, hp]; exact hd
  have hw' : (step ser w (.drop t)).1 = dropProc w t := by simp [step, Op.caller, Op.exec, hdm]
  obtain ⟨-, -, e3, -, -, e6, -, e8⟩ := drop_eff w t p hp (hn t)
  have hnode : ∀ N, ∀ x ∈ (dropProc w t).nodeMons N, x.1 ≠ .loc n := by
    have := Acts.inv (I := fun w' => n < w'.nextRef ∧ ∀ N, ∀ x ∈ w'.nodeMons N, x.1 ≠ .loc n) (step_acts ser w (.drop t)) ⟨h.lt, h.nodes⟩ (by
      rintro w' x hx ⟨h1, h2⟩
      have hne : ∀ k, k = w'.nextRef → Ref.loc k ≠ Ref.loc n := by rintro k rfl; simp; omega
      refine ⟨?_, ?_⟩
      · have := (acts_mono_counters (Acts.one (Q := fun _ => True) (w := w') (a := x) trivial)).2; omega
      · intro N y hy
        rw [nodeMons_act] at hy
        cases x <;> simp only [upd_at] at hy <;> try exact h2 N y hy
        · split at hy
          · rcases filter_append_single_mem _ _ _ _ hy with hy | rfl
            · exact h2 _ y hy
            · exact hne _ rfl
          · exact h2 N y hy
        · split at hy
          · rcases filter_append_single_mem _ _ _ _ hy with hy | rfl
            · exact h2 _ y hy
            · rintro rfl; simp [AtomOf, Ref.isLocal] at hx
          · exact h2 N y hy
        · split at hy
          · exact h2 _ y (List.mem_filter.1 hy).1
          · exact h2 N y hy
        · split at hy
          · simp at hy
          · exact h2 N y hy)
    rw [hw'] at this
    exact this.2
  rw [hw']
  refine ⟨⟨by rw [e8]; exact h.lt, ?_, hnode⟩, ?_⟩
  · intro i x hx
    have := (e6 i).subset hx
    split at this
    · simp at this
    · exact h.others i (by assumption) x this
  · rw [e3, downsOf_append, downsOf_append, h.sent, downsOf_exitMsgs, downsOf_downMsgs, h.mon]
    have : exists? (removeProc w t) a = true := by simpa [exists?, upd_at, hat] using h.ex
    simp [downMsgs, this]

/-- C32. In every history `os`, then a monitor of `a` on a process `t` (by pid, by name, with an alias, or by
`spawn_monitor`) with the returned reference `r`, then any history `os'` in which `a` does not remove the monitor and
neither dies: no Down for `r` was sent to anybody. When then `t` dies, and after any further history `os''`, exactly one
Down for `r` has been sent: to `a`, with the destination it asked for and the exit reason of `t`. -/
theorem C32_exactly_one_down (ser : V → B) (os os' os'' : List (Op B V)) (a t : Nat) (hat : a ≠ t) (d : Dest) (o : Op B V) :
    let w0 := run ser init os
    let w1 := run ser (step ser w0 o).1 os'
    Monitors w0 a t d o → running w0 a = true →
    ∃ n, refsOf [(step ser w0 o).2] = [.loc n] ∧
      ((∀ o' ∈ os', ¬ Ends n a t o') →
        downsOf (.loc n) w1.sent = [] ∧
        ∀ p, w1.procs t = some p → (p.ended = true ∨ p.aborted = true) →
          downsOf (.loc n) (run ser w1 (.drop t :: os'')).sent = [(a, .down d (.loc n) (p.reason.getD .normal))]) := by
  intro w0 w1 ho hrun
  obtain ⟨h1, h2, -, -⟩ := monitors_step ser w0 a t hat d o (run_fresh ser os) ho hrun
  refine ⟨w0.nextRef, h1, ?_⟩
  intro hos
  have hw1 : Watch w0.nextRef a t d w1 :=
    run_inv' ser (Watch w0.nextRef a t d) (fun o => ¬ Ends w0.nextRef a t o)
      (fun w o ho hw w' x _ hx h => watch_act _ a t d w o hw ho w' x hx h) os' hos _ h2
  refine ⟨hw1.sent, ?_⟩
  intro p hp hd
  have hw1' : w1 = run ser init (os ++ o :: os') := by simp [w1, w0, run, List.foldl_append]
  obtain ⟨g1, g2⟩ := watch_drop ser w0.nextRef a t hat d w1 p hw1 (by rw [hw1']; exact run_linksNodup ser _) hp hd
  exact (gone_run ser w0.nextRef _ _ os'' g1 g2).2

/-- C32: the Down that is put in the mailbox of `a` is one that `a` will accept: `a` still holds the monitor when `t` dies
(if it did not use the reference as a node monitor in between). -/
theorem C32_down_accepted (ser : V → B) (os os' : List (Op B V)) (a t : Nat) (hat : a ≠ t) (d : Dest) (o : Op B V) :
    let w0 := run ser init os
    let w1 := run ser (step ser w0 o).1 os'
    let w2 := (step ser w1 (.drop t)).1
    Monitors w0 a t d o → running w0 a = true →
    ∃ n, refsOf [(step ser w0 o).2] = [.loc n] ∧
      ((∀ o' ∈ os', ¬ Ends n a t o' ∧ o' ≠ .nodeDemonitor a (.loc n)) →
        ∀ p, w1.procs t = some p → (p.ended = true ∨ p.aborted = true) →
          ∃ q, w2.procs a = some q ∧ hasMon q.box.mons (.loc n) = true ∧
            .down d (.loc n) (p.reason.getD .normal) ∈ q.box.chan) := by
  intro w0 w1 w2 ho hrun
  obtain ⟨h1, h2, h3, -⟩ := monitors_step ser w0 a t hat d o (run_fresh ser os) ho hrun
  refine ⟨w0.nextRef, h1, ?_⟩
  intro hos
  have hb1 : Bounded (step ser w0 o).1 := by
    have := run_bounded ser (os ++ [o]); simpa [run, w0, List.foldl_append] using this
  obtain ⟨hw1, hw2, -⟩ :=
    run_inv' ser (fun w => Watch w0.nextRef a t d w ∧ Held w0.nextRef a w ∧ Bounded w)
      (fun o => ¬ Ends w0.nextRef a t o ∧ o ≠ .nodeDemonitor a (.loc w0.nextRef))
      (fun w o ho hw w' x _ hx h => ⟨watch_act _ a t d w o hw.1 ho.1 w' x hx h.1,
        held_act _ a t d w o hw.1 ho.1 ho.2 w' x hx h.1.lt ⟨h.2.2, h.1.ex⟩ h.2.1, bounded_act _ _ h.2.2⟩) os' hos _ ⟨h2, h3, hb1⟩
  intro p hp hd
  have hw1' : w1 = run ser init (os ++ o :: os') := by simp [w1, w0, run, List.foldl_append]
  have hdm : doomed w1 t = true := by simp [doomed, hp]; exact hd
  have hw' : w2 = dropProc w1 t := by simp [w2, step, Op.caller, Op.exec, hdm]
  have hln : LinksNodup w1 := by rw [hw1']; exact run_linksNodup ser _
  obtain ⟨-, e2, -, -⟩ := drop_eff w1 t p hp (hln t)
  have hex := hw1.ex
  unfold exists? at hex
  cases hq : w1.procs a with
  | none => rw [hq] at hex; simp at hex
  | some q =>
    rw [hw', e2 a hat, hq]
    refine ⟨_, rfl, ?_, ?_⟩
    · have : hasMon q.box.mons (.loc w0.nextRef) = true := (hw2 q.box (by show Option.map _ (w1.procs a) = _; rw [hq]; rfl)).1
      simp only [afterDeath]
      split
      · simp only [signalled]; split
        · exact this
        · split <;> exact this
      · exact this
    · simp only [afterDeath]
      refine List.mem_append_right _ ?_
      have hm : (Ref.loc w0.nextRef, Pid.loc a, some d) ∈ w1.mons t := by
        have : (Ref.loc w0.nextRef, Pid.loc a, some d) ∈ (w1.mons t).filter (fun x => x.1 = .loc w0.nextRef) := by
          rw [hw1.mon]; simp
        exact (List.mem_filter.1 this).1
      unfold downsFor
      rw [List.mem_filterMap]
      exact ⟨_, hm, by simp⟩

/-- Monitors held by local processes carry the destination they were made with, so `dest.unwrap()` (monitor.rs:227) never
panics. -/
theorem C32_dest_known (ser : V → B) (os : List (Op B V)) (i : Nat) (r : Ref) (j : Nat) (d : Option Dest)
    (h : (r, .loc j, d) ∈ (run ser init os).mons i) : d.isSome = true := by
  have := run_inv' ser (fun w => ∀ i r j d, (r, Pid.loc j, d) ∈ w.mons i → d.isSome = true) (fun _ => True) ?_ os
    (fun _ _ => trivial) init (by simp [init])
  · exact this i r j d h
  · intro w o _ _ w' a _ ha hI i r j d hm
    rw [mons_act] at hm
    cases a <;> simp only [upd_at] at hm <;> try exact hI _ _ _ _ hm
    · split at hm
      · rcases filter_append_single_mem _ _ _ _ hm with hm | hm
        · exact hI _ _ _ _ hm
        · cases hm; simp [AtomOf, Pid.isLocal] at ha
      · exact hI _ _ _ _ hm
    · split at hm
      · exact hI _ _ _ _ (List.mem_filter.1 hm).1
      · exact hI _ _ _ _ hm
    · split at hm
      · simp at hm
      · exact hI _ _ _ _ hm
    · split at hm
      · rcases filter_append_single_mem _ _ _ _ hm with hm | hm
        · exact hI _ _ _ _ hm
        · cases hm; rfl
      · exact hI _ _ _ _ hm


/-- Process 1 monitors 2 (which then fails), with an alias as well as without. -/
def monSample : List (Op Nat Nat) :=
  [.boot, .boot, .register 1 (.loc 2) "srv", .monitor 1 (.pid (.loc 2)), .monitorAlias 1 (.named "srv" .loc) true, .panic 2 "bug"]

example : Monitors (run id init (monSample.take 3)) 1 2 (.pid (.loc 2)) (.monitor 1 (.pid (.loc 2))) ∧
    Monitors (run id init (monSample.take 3)) 1 2 (.named "srv" .loc) (.monitorAlias 1 (.named "srv" .loc) true) ∧
    running (run id init (monSample.take 3)) 1 = true ∧ doomed (run id init monSample) 2 = true :=
  ⟨.pid (by decide), .aliasNamed _ _ (by decide) (by decide), by decide, by decide⟩

example : (run id init (monSample ++ [.drop 2])).sent.length = 2 ∧
    (downsOf (.loc 1) (run id init (monSample ++ [.drop 2])).sent).length = 1 := by decide

/-! ## C33 -/

/-- The message a receive of process `a` would return now. -/
def received (w : World B V) (a : Nat) (o : RecvOp B V) (k : RecvKind) : Option (Msg o.T) :=
  match w.procs a with
  | none => none
  | some p =>
    match (match k with
      | .select => (Mailbox.select o.τ o.filter o.strict p.box).1
      | .resume => (Mailbox.resume o.τ o.filter o.strict p.box).1
      | .remove => .pending) with
    | .got m => some m
    | _ => none

theorem got_scanItems {T : Type} (r : Ref) (τ : RecvType B V T) (f : Msg T → Bool) (s : Bool) (l : List (Item B V)) :
    ∀ mons als done, hasMon mons r = false → (∀ it ∈ l, converted r it = false) → ∀ sy : Sys, converted (B := B) (V := V) r (.system sy) = true →
      (scanItems τ f s mons als done l).1 ≠ .got (.system sy) := by
  induction l with
  | nil => intro mons als done _ _ sy _ h; simp [scanItems] at h
  | cons it rest ih =>
    intro mons als done h1 h3 sy hsy h
    have h3' : ∀ x ∈ rest, converted r x = false := fun x hx => h3 x (.tail _ hx)
    have h3i := h3 it List.mem_cons_self
    obtain ⟨g1, g2⟩ := keeps_removed r T τ mons als it h1 h3i
    have hres : (processItem τ mons als it).1 ≠ .msg (.system sy) := by
      cases it <;> simp only [processItem] <;> (try split) <;> simp
      · rintro rfl; rw [hsy] at h3i; simp at h3i
      · rename_i hm; rintro rfl; simp [converted] at hsy; subst hsy; rw [h1] at hm; simp at hm
      · rename_i hm; rintro rfl; simp [converted] at hsy; subst hsy; rw [h1] at hm; simp at hm
    rw [scanItems] at h
    generalize processItem τ mons als it = z at *
    obtain ⟨res, it', mons', als'⟩ := z
    cases res with
    | msg m =>
      dsimp only at *
      split at h
      · simp at h; exact hres (by rw [h])
      · exact ih _ _ _ g1 h3' sy hsy h
    | skip => exact ih _ _ _ g1 h3' sy hsy h
    | foreign =>
      dsimp only at *
      split at h
      · simp at h
      · exact ih _ _ _ g1 h3' sy hsy h

theorem got_scanChan {T : Type} (r : Ref) (τ : RecvType B V T) (f : Msg T → Bool) (s : Bool) (l : List (Item B V)) :
    ∀ items mons als, hasMon mons r = false → (∀ it ∈ l, converted r it = false) → ∀ sy : Sys, converted (B := B) (V := V) r (.system sy) = true →
      (scanChan τ f s items mons als l).1 ≠ .got (.system sy) := by
  induction l with
  | nil => intro items mons als _ _ sy _ h; simp [scanChan] at h
  | cons it rest ih =>
    intro items mons als h1 h3 sy hsy h
    have h3' : ∀ x ∈ rest, converted r x = false := fun x hx => h3 x (.tail _ hx)
    have h3i := h3 it List.mem_cons_self
    obtain ⟨g1, g2⟩ := keeps_removed r T τ mons als it h1 h3i
    have hres : (processItem τ mons als it).1 ≠ .msg (.system sy) := by
      cases it <;> simp only [processItem] <;> (try split) <;> simp
      · rintro rfl; rw [hsy] at h3i; simp at h3i
      · rename_i hm; rintro rfl; simp [converted] at hsy; subst hsy; rw [h1] at hm; simp at hm
      · rename_i hm; rintro rfl; simp [converted] at hsy; subst hsy; rw [h1] at hm; simp at hm
    rw [scanChan] at h
    generalize processItem τ mons als it = z at *
    obtain ⟨res, it', mons', als'⟩ := z
    cases res with
    | msg m =>
      dsimp only at *
      split at h
      · simp at h; exact hres (by rw [h])
      · exact ih _ _ _ g1 h3' sy hsy h
    | skip => exact ih _ _ _ g1 h3' sy hsy h
    | foreign =>
      dsimp only at *
      split at h
      · simp at h
      · exact ih _ _ _ g1 h3' sy hsy h

theorem got_box (r : Ref) (w : World B V) (a : Nat) (o : RecvOp B V) (k : RecvKind)
    (h : ∀ b, pmap (·.box) w a = some b → BoxOk (fun m _ => hasMon m r = false) (fun it => converted r it = false) b)
    (sy : Sys) (hsy : converted (B := B) (V := V) r (.system sy) = true) : received w a o k ≠ some (.system sy) := by
  unfold received
  cases hp : w.procs a with
  | none => simp
  | some p =>
    obtain ⟨h1, h2, h3⟩ := h p.box (by simp [pmap, hp])
    dsimp only
    intro hc
    have hc' : (match k with
      | .select => (Mailbox.select o.τ o.filter o.strict p.box).1
      | .resume => (Mailbox.resume o.τ o.filter o.strict p.box).1
      | .remove => .pending) = .got (.system sy) := by
      split at hc
      · rename_i m hm; rw [hm]; simp at hc; rw [hc]
      · simp at hc
    cases k with
    | resume => exact got_scanChan r _ _ _ _ _ _ _ h1 h3 sy hsy hc'
    | remove => simp at hc'
    | select =>
      have g := got_scanItems r o.τ o.filter o.strict p.box.items p.box.mons p.box.aliases [] h1 h2 sy hsy
      obtain ⟨g1, g2⟩ := scanItems_keeps o.τ (keeps_removed r _ o.τ) o.filter o.strict p.box.items p.box.mons p.box.aliases [] h1 (by simp) h2
      simp only [select] at hc'
      generalize scanItems o.τ o.filter o.strict p.box.mons p.box.aliases [] p.box.items = z at *
      obtain ⟨res, items, mons, als⟩ := z
      cases res with
      | pending => exact got_scanChan r _ _ _ _ _ _ _ g1 h3 sy hsy hc'
      | got m => exact g hc'
      | panicked => simp at hc'

/-- A history in which nobody holds or has converted the reference. -/
theorem removed_run (ser : V → B) (n a : Nat) (w : World B V) (os : List (Op B V)) (hlt : n < w.nextRef)
    (h : ∀ b, pmap (·.box) w a = some b → BoxOk (fun m _ => hasMon m (.loc n) = false) (fun it => converted (.loc n) it = false) b) :
    ∀ b, pmap (·.box) (run ser w os) a = some b →
      BoxOk (fun m _ => hasMon m (.loc n) = false) (fun it => converted (.loc n) it = false) b := by
  refine (run_inv' ser (fun w => n < w.nextRef ∧ ∀ b, pmap (·.box) w a = some b →
      BoxOk (fun m _ => hasMon m (.loc n) = false) (fun it => converted (.loc n) it = false) b) (fun _ => True) ?_ os
    (fun _ _ => trivial) w ⟨hlt, h⟩).2
  rintro w o - - w' x - hx ⟨h1, h2⟩
  refine ⟨?_, ?_⟩
  · have := (acts_mono_counters (Acts.one (Q := fun _ => True) (w := w') (a := x) trivial)).2; omega
  · intro b hb
    refine boxOk_act (keeps_removed (.loc n)) w' x a h2 (fun _ => rfl) ?_ (fun _ _ => rfl) (fun _ _ _ h _ => h) ?_ ?_ ?_ b hb
    · rintro it rfl -
      cases it with
      | system s => cases s <;> simp_all [AtomOf, converted]
      | _ => rfl
    · intro r m _ _ hm; rw [hasMon_dropMon, hm]; rfl
    · intro b m _ hm
      have : n ≠ w'.nextRef := by omega
      rw [hasMon_setMon, hm]; simpa using this
    · intros; rfl

theorem refs_lt (ser : V → B) (os : List (Op B V)) (w : World B V) (n : Nat) (h : .loc n ∈ refsOf (results ser w os)) :
    n < (run ser w os).nextRef := by
  induction os generalizing w with
  | nil => simp [results, refsOf] at h
  | cons o os ih =>
    have e2 : refsOf (results ser w (o :: os)) =
        refsOf [(step ser w o).2] ++ refsOf (results ser (step ser w o).1 os) := by
      simp [results, refsOf, List.filterMap_cons]; split <;> simp
    rw [e2] at h
    have hmono : ∀ (os : List (Op B V)) (w : World B V), w.nextRef ≤ (run ser w os).nextRef := by
      intro os
      induction os with
      | nil => intro w; exact Nat.le_refl _
      | cons o os ih => intro w; exact Nat.le_trans (step_mono_counters ser w o).2 (ih _)
    rcases List.mem_append.1 h with h | h
    · obtain ⟨m, hm, _, hlt⟩ := (step_res ser w o).2 _ h
      cases hm
      exact Nat.lt_of_lt_of_le hlt (hmono os _)
    · exact ih _ h

/-- C33, without the messages a selective receive has already set aside. After any history `os`, in which `a` got the
reference `r`, `a` calls `demonitor(r)`; if no selective receive of `a` has already passed over a Down for `r` (such a
message is an ordinary message in the mailbox, and stays), then after any further history no receive of `a`, of whatever
type and filter, returns a Down for `r` - even if the monitored process died before the call and the Down was in the
mailbox. Missing: `C33_no_down_after_demonitor_violated`. -/
theorem C33_no_down_after_demonitor_partial (ser : V → B) (os os' : List (Op B V)) (a n : Nat) (q : Proc B V) :
    let w0 := run ser init os
    let w1 := run ser (step ser w0 (.demonitor a (.loc n))).1 os'
    .loc n ∈ refsOf (results ser init os) → w0.procs a = some q → running w0 a = true →
    (∀ it ∈ q.box.items ++ q.box.chan, converted (.loc n) it = false) →
    ∀ o k d e, received w1 a o k ≠ some (.system (.processDown d (.loc n) e)) := by
  intro w0 w1 hr hq hrun hit o k d e
  refine got_box (.loc n) w1 a o k ?_ _ (by simp [converted])
  refine removed_run ser n a _ os' ?_ ?_
  · have h1 := refs_lt ser os init n hr
    have h2 := (step_mono_counters ser w0 (.demonitor a (.loc n))).2
    exact Nat.lt_of_lt_of_le h1 h2
  · intro b hb
    simp only [List.mem_append] at hit
    have hold : hasMon q.box.mons (.loc n) = false → b = q.box → BoxOk (fun m _ => hasMon m (.loc n) = false) (fun it => converted (.loc n) it = false) b := by
      rintro h rfl; exact ⟨h, fun it h => hit it (.inl h), fun it h => hit it (.inr h)⟩
    have hnew : b.items = q.box.items → b.chan = q.box.chan → b.mons = dropMon q.box.mons (.loc n) →
        BoxOk (fun m _ => hasMon m (.loc n) = false) (fun it => converted (.loc n) it = false) b := by
      intro h1 h2 h3
      refine ⟨?_, by rw [h1]; exact fun it h => hit it (.inl h), by rw [h2]; exact fun it h => hit it (.inr h)⟩
      show hasMon _ _ = false
      rw [h3, hasMon_dropMon]; simp
    simp only [step, Op.caller, hrun, if_true, Op.exec, demonitor, hq] at hb
    cases hg : getMon q.box (.loc n) with
    | none =>
      simp only [hg] at hb
      refine hold ?_ (by simpa [pmap, hq] using hb.symm)
      unfold getMon at hg
      rw [Option.map_eq_none_iff, List.find?_eq_none] at hg
      unfold hasMon
      rw [List.any_eq_false]; exact hg
    | some m =>
      simp only [hg] at hb
      cases m with
      | forNode N => simp [pmap, upd_at, hq] at hb; subst hb; exact hnew rfl rfl rfl
      | forProcess op =>
        cases op with
        | none => simp [pmap, upd_at, hq] at hb; subst hb; exact hnew rfl rfl rfl
        | some pid =>
          have : (delAlias (monitorDestroy (modBox w0 a fun b => { b with mons := dropMon b.mons (.loc n) }) pid (.loc n)) (.loc n)).procs
              = (modBox w0 a fun b => { b with mons := dropMon b.mons (.loc n) }).procs := by
            cases pid <;> simp only [monitorDestroy] <;> (try split) <;> simp
          unfold pmap at hb; rw [this] at hb; simp [upd_at, hq] at hb; subst hb; exact hnew rfl rfl rfl

/-- `Nat` messages, with `Nat` values as their own serialization. -/
def natMsgs : RecvType Nat Nat Nat where
  deser := some
  cast := some
  box := id
  cast_box := fun _ => rfl

/-- A selective receive that only wants user messages. -/
def onlyUser : RecvOp Nat Nat := ⟨Nat, natMsgs, fun m => match m with | .user _ => true | .system _ => false, false⟩
/-- A receive of anything. -/
def anything : RecvOp Nat Nat := ⟨Nat, natMsgs, fun _ => true, false⟩

/-- C33 is false of the code: a selective receive that passes over the Down turns it into an ordinary message and forgets the
monitor (process_receiver.rs:203-210), so `demonitor` does not find it and the next receive returns it. -/
theorem C33_no_down_after_demonitor_violated :
    ∃ os : List (Op Nat Nat),
      os = [.boot, .boot, .monitor 1 (.pid (.loc 2)), .finish 2, .drop 2, .recv 1 onlyUser .select, .demonitor 1 (.loc 1)] ∧
      received (run id init os) 1 anything .select = some (.system (.processDown (.pid (.loc 2)) (.loc 1) .normal)) :=
  ⟨_, rfl, rfl⟩

/-- The history of the previous theorem without the selective receive meets the hypotheses of the partial theorem. -/
example : ∃ q, (run id init ([.boot, .boot, .monitor 1 (.pid (.loc 2)), .finish 2, .drop 2] : List (Op Nat Nat))).procs 1 = some q ∧
    (∀ it ∈ q.box.items ++ q.box.chan, converted (.loc 1) it = false) ∧ q.box.chan.length = 1 ∧
    Ref.loc 1 ∈ refsOf (results id init ([.boot, .boot, .monitor 1 (.pid (.loc 2)), .finish 2, .drop 2] : List (Op Nat Nat))) := by
  refine ⟨_, rfl, ?_, rfl, by decide⟩
  intro it hit
  simp [deliver, setMon, newProc] at hit
  subst hit; rfl

/-! ## C34 -/

/-- C34. Monitoring a process that does not exist (never did, or is gone) sends the caller one Down with reason `noproc` at
once, for the returned reference, and nothing else to anybody. -/
theorem C34_monitor_dead (ser : V → B) (w : World B V) (a t : Nat) (hat : a ≠ t) (hrun : running w a = true)
    (hdead : exists? w t = false) :
    let s := step ser w (.monitor a (.pid (.loc t)))
    s.2 = .ref (.loc w.nextRef) ∧ s.1.sent = w.sent ++ [(a, .down (.pid (.loc t)) (.loc w.nextRef) (.custom "noproc"))] ∧
    (∀ p, w.procs a = some p → ∃ p', s.1.procs a = some p' ∧ hasMon p'.box.mons (.loc w.nextRef) = true ∧
      p'.box.chan = p.box.chan ++ [.down (.pid (.loc t)) (.loc w.nextRef) (.custom "noproc")]) := by
  have hat' := Ne.symm hat
  have he : (step ser w (.monitor a (.pid (.loc t)))) =
      (act w (.mkMonDown a (.pid (.loc t)) (.forProcess (some (.loc t))) (.custom "noproc") none), .ref (.loc w.nextRef)) := by
    simp only [step, Op.caller, hrun, if_true, Op.exec, monitor_eq, monitorInstall, hat', if_false]
    rw [if_neg (by simpa [exists?, upd_at, hat', freshRef, optAlias, newRef] using hdead)]
    rfl
  have hex : exists? w a = true := by
    unfold running at hrun; unfold exists?; cases h : w.procs a <;> simp_all
  rw [he]
  refine ⟨rfl, ?_, ?_⟩
  · show (act w _).sent = _
    rw [sent_act]; exact if_pos hex
  · intro p hp
    have hb := box_act w (.mkMonDown a (.pid (.loc t)) (.forProcess (some (.loc t))) (.custom "noproc") none) a
    simp only [if_true] at hb
    have : pmap (·.box) w a = some p.box := by simp [pmap, hp]
    rw [this] at hb
    unfold pmap at hb
    dsimp only
    cases hq : (act w (.mkMonDown a (.pid (.loc t)) (.forProcess (some (.loc t))) (.custom "noproc") none)).procs a with
    | none => rw [hq] at hb; simp at hb
    | some q =>
      rw [hq] at hb
      simp only [Option.map_some, Option.some.injEq] at hb
      refine ⟨q, rfl, ?_, ?_⟩
      · rw [hb]; simp only [deliver]; rw [hasMon_setMon]; simp
      · rw [hb]; simp [deliver, setMon]

/-- C34, by name: monitoring a name nobody has. -/
theorem C34_monitor_unknown_name (ser : V → B) (w : World B V) (a : Nat) (n : String) (hrun : running w a = true)
    (hdead : w.names n = none) :
    let s := step ser w (.monitor a (.named n .loc))
    s.2 = .ref (.loc w.nextRef) ∧ s.1.sent = w.sent ++ [(a, .down (.named n .loc) (.loc w.nextRef) (.custom "noproc"))] := by
  have he : (step ser w (.monitor a (.named n .loc))) =
      (act w (.mkMonDown a (.named n .loc) (.forProcess none) (.custom "noproc") none), .ref (.loc w.nextRef)) := by
    simp only [step, Op.caller, hrun, if_true, Op.exec, monitor_eq, monitorInstall]
    rw [show (freshRef w a none).names n = none by simpa using hdead]
    rfl
  have hex : exists? w a = true := by
    unfold running at hrun; unfold exists?; cases h : w.procs a <;> simp_all
  rw [he]
  refine ⟨rfl, ?_⟩
  show (act w _).sent = _
  rw [sent_act]; exact if_pos hex

/-- C34. Linking to a process that does not exist: one exit signal `noproc`, that is one Exit message if the caller traps
exits, termination with that reason otherwise. -/
theorem C34_link_dead (ser : V → B) (w : World B V) (a t : Nat) (p : Proc B V) (hat : a ≠ t) (hp : w.procs a = some p)
    (hrun : running w a = true) (hdead : exists? w t = false) :
    let w' := (step ser w (.link a (.loc t))).1
    ∃ p', w'.procs a = some p' ∧
      (p.trap = true → w'.sent = w.sent ++ [(a, .system (.exit (.loc t) (.custom "noproc")))] ∧
        p'.box.chan = p.box.chan ++ [.system (.exit (.loc t) (.custom "noproc"))] ∧ p'.reason = p.reason) ∧
      (p.trap = false → w'.sent = w.sent ∧ p'.reason = some (.custom "noproc") ∧ p'.aborted = true) := by
  have h1 : exists? (addLink w a (.loc t)) t = false := hdead
  have h2 : (addLink w a (.loc t)).procs a = some p := by simpa using hp
  simp only [step, Op.caller, hrun, if_true, Op.exec, link, linkInstall, Pid.loc.injEq, Ne.symm hat, if_false, h1,
    Bool.false_eq_true, exitLinked, h2]
  cases ht : p.trap
  · simp [isNormal, upd_at, hp, terminate]
  · simp [put, hp, upd_at, deliver]

example : running (run id init ([.boot, .boot, .finish 2, .drop 2] : List (Op Nat Nat))) 1 = true ∧
    exists? (run id init ([.boot, .boot, .finish 2, .drop 2] : List (Op Nat Nat))) 2 = false := by decide

/-! ## C36 -/

/-- An alias that does not exist, once its reference was handed out, never exists again. -/
theorem alias_gone_run (ser : V → B) (n : Nat) (w : World B V) (os : List (Op B V)) (hlt : n < w.nextRef)
    (h : w.aliases n = none) : (run ser w os).aliases n = none := by
  refine (run_inv' ser (fun w => n < w.nextRef ∧ w.aliases n = none) (fun _ => True) ?_ os (fun _ _ => trivial) w ⟨hlt, h⟩).2
  rintro w o - - w' a - ha ⟨h1, h2⟩
  have hne : n ≠ w'.nextRef := by omega
  refine ⟨?_, ?_⟩
  · have := (acts_mono_counters (Acts.one (Q := fun _ => True) (w := w') (a := a) trivial)).2; omega
  · rw [aliases_act]
    cases a <;> simp only [upd_at, hne, if_false] <;> (try exact h2)
    · split <;> simp [h2]
    all_goals split <;> simp [upd_at, hne, h2]

/-- C36, what holds: after `unalias` (of any reference handed out before) and any further history, a message sent to the
alias, by anybody on this node or in a frame from another node, reaches nobody and changes nothing; and `unalias` returned
whether the alias existed. Missing: it acts on aliases of other processes as well (`C36_unalias_own_only_violated`). -/
theorem C36_unalias_partial (ser : V → B) (os os' : List (Op B V)) (me n : Nat) :
    let w0 := run ser init os
    let s := step ser w0 (.unalias me (.loc n))
    let w1 := run ser s.1 os'
    .loc n ∈ refsOf (results ser init os) → running w0 me = true →
    s.2 = .bool (w0.aliases n).isSome ∧
    (∀ v, send ser w1 (.one (.alias (.loc n))) v = w1) ∧ (∀ b, forwardSend b w1 [.alias n] = w1) := by
  intro w0 s w1 hr hrun
  have hs : s = ((unalias w0 me (.loc n)).1, .bool (unalias w0 me (.loc n)).2) := by
    simp only [s, step, Op.caller, hrun, if_true, Op.exec]
  have hlt : n < s.1.nextRef := by
    have h1 := refs_lt ser os init n hr
    have h2 := (step_mono_counters ser w0 (.unalias me (.loc n))).2
    exact Nat.lt_of_lt_of_le h1 h2
  have hg : w1.aliases n = none := alias_gone_run ser n s.1 os' hlt (by rw [hs]; simp [unalias, upd_at, Ref.id])
  refine ⟨by rw [hs]; simp [unalias, Ref.id], ?_, ?_⟩
  · intro v
    simp [send, sendOpt, destLocal, Ref.isLocal, sendLocal, putAlias, Ref.id, hg]
  · intro b
    simp [forwardSend, putAlias, Ref.id, hg]

/-- C36 is false of the code in that `unalias` does not look at the owner (process.rs:121-125): process 2 destroys the alias
of process 1 and is told it succeeded; a message to the alias of process 1 is then lost. -/
theorem C36_unalias_own_only_violated :
    ∃ os : List (Op Nat Nat), os = [.boot, .boot, .alias 1 false] ∧ (run id init os).aliases 1 = some (1, false) ∧
      (match (step id (run id init os) (.unalias 2 (.loc 1))).2 with | .bool b => b | _ => false) = true ∧
      (run id init (os ++ [.send 2 (.one (.alias (.loc 1))) 7])).sent.length = 1 ∧
      (run id init (os ++ [.unalias 2 (.loc 1), .send 2 (.one (.alias (.loc 1))) 7])).sent.length = 0 :=
  ⟨_, rfl, by decide, by decide, by decide, by decide⟩


/-! ## C37 -/

theorem step_drop (ser : V → B) (w : World B V) (me : Nat) (p : Proc B V) (hp : w.procs me = some p)
    (hd : p.ended = true ∨ p.aborted = true) : (step ser w (.drop me)).1 = dropProc w me := by
  have hdm : doomed w me = true := by simp [doomed, hp]; exact hd
  simp [step, Op.caller, Op.exec, hdm]

/-- C37, the tables keyed by the process: after any history, when a process is dropped its registration, all its names, its
link set and the monitors on it are gone, and so are its entries in the link sets of the processes it was linked to.
Missing: `C37_nothing_left_violated`. -/
theorem C37_tables_cleaned_partial (ser : V → B) (os : List (Op B V)) (me : Nat) (p : Proc B V) :
    let w := run ser init os
    let w' := (step ser w (.drop me)).1
    w.procs me = some p → (p.ended = true ∨ p.aborted = true) →
    w'.procs me = none ∧ (∀ n, w'.names n ≠ some me) ∧ w'.links me = [] ∧ w'.mons me = [] ∧
      (∀ j, Pid.loc j ∈ w.links me → Pid.loc me ∉ w'.links j) := by
  intro w w' hp hd
  obtain ⟨e1, -, -, e4, -, e6, -⟩ := drop_eff w me p hp (run_linksNodup ser os me)
  have hw' : w' = dropProc w me := step_drop ser w me p hp hd
  rw [hw']
  refine ⟨e1, ?_, ?_, ?_, ?_⟩
  · intro n hn
    have hk := (C25_names_bijection ser (os ++ [.drop me]))
    have hr : run ser init (os ++ [.drop me]) = w' := by simp [run, w', w, List.foldl_append]
    rw [hr, hw'] at hk
    obtain ⟨q, hq, -⟩ := (hk.1 n me).1 hn
    rw [e1] at hq; simp at hq
  · rw [e4]; simp
  · have := e6 me; simpa using this
  · intro j hj
    rw [e4]
    split
    · simp
    · simp

/-- Each receive keeps `r`'s entry, given no item mentions `r`. -/
theorem keeps_entry (r : Ref) (m : PMon) :
    KeepsItem (B := B) (V := V) (fun l _ => (r, m) ∈ l)
      (fun it => reports r it = false ∧ ∀ p, it ≠ .update r p) := by
  intro T τ mons als it h1 h2
  have hdrop : ∀ r', r' ≠ r → (r, m) ∈ dropMon mons r' := by
    intro r' hr; exact List.mem_filter.2 ⟨h1, by simp [Ne.symm hr]⟩
  cases it <;> simp only [processItem]
  · split <;> exact ⟨h1, by simp [reports]⟩
  · split <;> exact ⟨h1, by simp [reports]⟩
  · exact ⟨h1, by simp [reports]⟩
  · simp only [reports, beq_eq_false_iff_ne, ne_eq] at h2
    split
    · exact ⟨hdrop _ h2.1, by simp [reports]⟩
    · exact ⟨h1, by simpa [reports] using h2⟩
  · simp only [reports, beq_eq_false_iff_ne, ne_eq] at h2
    split
    · exact ⟨hdrop _ h2.1, by simp [reports]⟩
    · exact ⟨h1, by simpa [reports] using h2⟩
  · rename_i r' p
    have hr : r ≠ r' := by rintro rfl; exact h2.2 p rfl
    refine ⟨List.mem_map.2 ⟨(r, m), h1, by simp [hr]⟩, by simp [reports, Ne.symm hr]⟩
  · exact ⟨h1, by simp [reports]⟩

/-- Process `a` holds its monitor on `t`, and no message will make it forget. -/
def Entry (n a t : Nat) (w : World B V) : Prop :=
  ∀ b, pmap (·.box) w a = some b → BoxOk (fun l _ => (Ref.loc n, PMon.forProcess (some (.loc t))) ∈ l)
    (fun it => reports (.loc n) it = false ∧ ∀ p, it ≠ .update (.loc n) p) b

/-- Operations that change the entry: demonitor, or a (wrong) MonitorUpdate frame from another node. -/
def Forgets (n a : Nat) (o : Op B V) : Prop :=
  o = .nodeDemonitor a (.loc n) ∨ ∃ rp N f, o = .frame rp N (.monitorUpdate a f n)

theorem entry_act (n a t : Nat) (d : Dest) (w : World B V) (o : Op B V) (hw : Watch n a t d w) (ho : ¬ Ends n a t o)
    (ho2 : ¬ Forgets n a o) (w' : World B V) (x : Atom B V) (ha : AtomOf w o x) (hlt : n < w'.nextRef)
    (hb : Bounded w' ∧ exists? w' a = true)
    (h : Entry n a t w') : Entry n a t (act w' x) := by
  have hal : a < w'.nextPid := by
    rcases Nat.lt_or_ge a w'.nextPid with h | h
    · exact h
    · have h1 := hb.1 a h; have h2 := hb.2; simp [exists?, h1] at h2
  intro b hbx
  refine boxOk_act (keeps_entry (.loc n) _) w' x a h (fun _ => by omega) ?_ (fun _ _ => ⟨rfl, by simp⟩) (fun _ _ _ h _ => h) ?_ ?_ ?_ b hbx
  · rintro it rfl -
    refine ⟨watch_noput n a t d w o hw ho a it ha, ?_⟩
    rintro p rfl
    obtain ⟨rp, N, f, rfl⟩ := ha
    exact ho2 (.inr ⟨rp, N, f, rfl⟩)
  · rintro r m als rfl hm
    have : Ref.loc n ≠ r := by
      rintro rfl
      rcases ha with rfl | rfl
      · exact ho (.inl rfl)
      · exact ho2 (.inl rfl)
    exact List.mem_filter.2 ⟨hm, by simp [this]⟩
  · intro b m hc hm
    have : n ≠ w'.nextRef := by omega
    simp only [setMon]
    exact List.mem_append_left _ (List.mem_filter.2 ⟨hm, by simp [this]⟩)
  · rintro d m e al rfl
    have : w'.nextRef ≠ n := by omega
    simpa [reports] using this

theorem entry_mkMon (w : World B V) (a t : Nat) (d : Dest) (al : Option Bool) (hu : Unused (.loc w.nextRef) w)
    (hupd : ∀ b, pmap (·.box) w a = some b → ∀ it, it ∈ b.items ∨ it ∈ b.chan → ∀ p, it ≠ .update (.loc w.nextRef) p) :
    Entry w.nextRef a t (act w (.mkMon a t d al)) := by
  intro b hb
  rw [box_act] at hb
  simp only [if_true] at hb
  cases hw : pmap (fun x => x.box) w a with
  | none => rw [hw] at hb; simp at hb
  | some b0 =>
    rw [hw] at hb; simp at hb; subst hb
    obtain ⟨_, h2, h3⟩ := hu.box a b0 hw
    have := hupd b0 hw
    exact ⟨by simp [setMon], fun it h => ⟨h2 it h, this it (.inl h)⟩, fun it h => ⟨h3 it h, this it (.inr h)⟩⟩

theorem monitors_entry (ser : V → B) (w : World B V) (a t : Nat) (hat : a ≠ t) (d : Dest) (o : Op B V) (hf : Fresh w)
    (ho : Monitors w a t d o) (hrun : running w a = true)
    (hupd : ∀ b, pmap (·.box) w a = some b → ∀ it, it ∈ b.items ∨ it ∈ b.chan → ∀ p, it ≠ .update (.loc w.nextRef) p) :
    Entry w.nextRef a t (step ser w o).1 := by
  obtain ⟨al, w', h1, h2, h3, -, -, -, h7⟩ := monitors_form ser w a t hat d o hf ho hrun
  rw [← h3] at h2
  have := entry_mkMon w' a t d al h2 (by rw [h3]; exact fun b hb => hupd b (h7 b hb))
  rw [h1, ← h3]; exact this

theorem monitorDestroyAll_deletes (l : List (Ref × PMon)) (w : World B V) (n t : Nat)
    (h : (Ref.loc n, PMon.forProcess (some (.loc t))) ∈ l) :
    (∀ x ∈ (monitorDestroyAll w l).mons t, x.1 ≠ .loc n) ∧ (monitorDestroyAll w l).aliases n = none := by
  have keepAl : ∀ (l : List (Ref × PMon)) (w : World B V), w.aliases n = none → (monitorDestroyAll w l).aliases n = none := by
    intro l
    induction l with
    | nil => intro w h; exact h
    | cons x xs ih =>
      intro w h
      obtain ⟨r, m⟩ := x
      have hdel : ∀ w1 : World B V, w1.aliases n = none → (if r.isLocal then delAlias w1 r else w1).aliases n = none := by
        intro w1 h1; split
        · simp only [delAlias, upd_at]; split <;> simp [h1]
        · exact h1
      cases m with
      | forNode N => exact ih _ (hdel _ (by simpa using h))
      | forProcess op =>
        cases op with
        | none => exact ih _ h
        | some pid =>
          refine ih _ (hdel _ ?_)
          cases pid <;> simpa using h
  induction l generalizing w with
  | nil => simp at h
  | cons x xs ih =>
    by_cases hxs : (Ref.loc n, PMon.forProcess (some (.loc t))) ∈ xs
    · obtain ⟨r, m⟩ := x
      cases m with
      | forNode N => exact ih _ hxs
      | forProcess op => cases op <;> exact ih _ hxs
    · have hx : x = (Ref.loc n, PMon.forProcess (some (.loc t))) := by
        rcases List.mem_cons.1 h with h | h
        · exact h.symm
        · exact absurd h hxs
      subst hx
      simp only [monitorDestroyAll, Ref.isLocal, if_true]
      refine ⟨?_, keepAl _ _ (by simp [upd_at, Ref.id])⟩
      intro y hy
      have := (monitorDestroyAll_mons xs (delAlias (delMon w t (.loc n)) (.loc n)) t).subset hy
      simp [upd_at] at this
      exact this.2

/-- After the death of the monitoring process `a` neither the monitor on `t` nor an alias created with it is left. -/
theorem entry_drop (ser : V → B) (w : World B V) (n a t : Nat) (p : Proc B V) (hp : w.procs a = some p)
    (hd : p.ended = true ∨ p.aborted = true) (he : Entry n a t w) :
    (∀ x ∈ (step ser w (.drop a)).1.mons t, x.1 ≠ .loc n) ∧ (step ser w (.drop a)).1.aliases n = none := by
  rw [step_drop ser w a p hp hd, dropProc_eq w a p hp, aliasDestroyAll_eq]
  have hm : (Ref.loc n, PMon.forProcess (some (.loc t))) ∈ p.box.mons := (he p.box (by simp [pmap, hp])).1
  obtain ⟨h1, h2⟩ := monitorDestroyAll_deletes p.box.mons
    (monitorProcessDown (linkProcessDown (removeProc w a) a (p.reason.getD .normal)) a (p.reason.getD .normal)) n t hm
  refine ⟨h1, ?_⟩
  dsimp only
  split
  · rfl
  · exact h2

/-- C37, outgoing monitors: process `a` monitors a local process `t` (in any of the ways), keeps the monitor, and dies: the
monitor is removed from `t`'s table, as well as the alias created with it, so nothing refers to `a` any more through it.
(`Forgets` excludes the reference being abused as a node monitor, or re-targeted by a remote node.) -/
theorem C37_outgoing_monitors_removed_partial (ser : V → B) (os os' : List (Op B V)) (a t : Nat) (hat : a ≠ t) (d : Dest) (o : Op B V)
    (p : Proc B V) :
    let w0 := run ser init os
    let w1 := run ser (step ser w0 o).1 os'
    let w2 := (step ser w1 (.drop a)).1
    Monitors w0 a t d o → running w0 a = true →
    (∀ q, w0.procs a = some q → ∀ it, it ∈ q.box.items ∨ it ∈ q.box.chan → ∀ r p, it ≠ .update r p) →
    ∃ n, refsOf [(step ser w0 o).2] = [.loc n] ∧
      ((∀ o' ∈ os', ¬ Ends n a t o' ∧ ¬ Forgets n a o') →
        w1.procs a = some p → (p.ended = true ∨ p.aborted = true) →
          (∀ i, ∀ x ∈ w2.mons i, x.1 ≠ .loc n) ∧ w2.aliases n = none) := by
  intro w0 w1 w2 ho hrun hupd
  obtain ⟨h1, h2, -, -⟩ := monitors_step ser w0 a t hat d o (run_fresh ser os) ho hrun
  have h3 : Entry w0.nextRef a t (step ser w0 o).1 := monitors_entry ser w0 a t hat d o (run_fresh ser os) ho hrun (by
    intro b hb it hit p
    unfold pmap at hb
    cases hq : w0.procs a with
    | none => rw [hq] at hb; simp at hb
    | some q => rw [hq] at hb; simp at hb; subst hb; exact hupd q hq it hit _ p)
  refine ⟨w0.nextRef, h1, ?_⟩
  intro hos hp hd
  have hb1 : Bounded (step ser w0 o).1 := by
    have := run_bounded ser (os ++ [o]); simpa [run, w0, List.foldl_append] using this
  obtain ⟨hw1, hw2, -⟩ :=
    run_inv' ser (fun w => Watch w0.nextRef a t d w ∧ Entry w0.nextRef a t w ∧ Bounded w)
      (fun o => ¬ Ends w0.nextRef a t o ∧ ¬ Forgets w0.nextRef a o)
      (fun w o ho hw w' x _ hx h => ⟨watch_act _ a t d w o hw.1 ho.1 w' x hx h.1,
        entry_act _ a t d w o hw.1 ho.1 ho.2 w' x hx h.1.lt ⟨h.2.2, h.1.ex⟩ h.2.1, bounded_act _ _ h.2.2⟩) os' hos _ ⟨h2, h3, hb1⟩
  have hw1' : w1 = run ser init (os ++ o :: os') := by simp [w1, w0, run, List.foldl_append]
  obtain ⟨g1, g2⟩ := entry_drop ser w1 w0.nextRef a t p hp hd hw2
  refine ⟨?_, g2⟩
  intro i x hx
  by_cases hi : i = t
  · subst hi; exact g1 x hx
  · have hln : LinksNodup w1 := by rw [hw1']; exact run_linksNodup ser _
    obtain ⟨-, -, -, -, -, e6, -⟩ := drop_eff w1 a p hp (hln a)
    have hw' : w2 = dropProc w1 a := step_drop ser w1 a p hp hd
    rw [hw'] at hx
    have := (e6 i).subset hx
    split at this
    · simp at this
    · exact hw1.others i hi x this

/-- Each receive keeps an alias of the process, given no item says it was used up. -/
theorem keeps_alias (n : Nat) :
    KeepsItem (B := B) (V := V) (fun _ als => n ∈ als) (fun it => it ≠ .aliasOff n) := by
  intro T τ mons als it h1 h2
  cases it <;> simp only [processItem] <;> (try split) <;> (try exact ⟨h1, by simp⟩)
  rename_i id
  refine ⟨List.mem_filter.2 ⟨h1, ?_⟩, h2⟩
  have : n ≠ id := by rintro rfl; exact h2 rfl
  simpa using this

/-- C37, aliases: an alias created with `alias` is gone after the process dies (whatever was sent to it, whether it was
removed before or not). -/
theorem C37_aliases_removed_partial (ser : V → B) (os os' : List (Op B V)) (a : Nat) (reply : Bool) (p : Proc B V) :
    let w0 := run ser init os
    let s := step ser w0 (.alias a reply)
    let w1 := run ser s.1 os'
    running w0 a = true →
    (∀ q, w0.procs a = some q → ∀ it, it ∈ q.box.items ∨ it ∈ q.box.chan → it ≠ .aliasOff w0.nextRef) →
    s.2 = .ref (.loc w0.nextRef) ∧
      ((∀ o ∈ os', o ≠ .drop a) → w1.procs a = some p → (p.ended = true ∨ p.aborted = true) →
        (step ser w1 (.drop a)).1.aliases w0.nextRef = none) := by
  intro w0 s w1 hrun hoff
  have hs : s = (act w0 (.mkAlias a reply), .ref (.loc w0.nextRef)) := by
    simp only [s, step, Op.caller, hrun, if_true, Op.exec]; rfl
  refine ⟨by rw [hs], ?_⟩
  intro hos hp hd
  have hex : exists? w0 a = true := by
    unfold running at hrun; unfold exists?; cases h : w0.procs a <;> simp_all
  let I : World B V → Prop := fun w => w0.nextRef < w.nextRef ∧ Bounded w ∧ exists? w a = true ∧
    (w.aliases w0.nextRef = none ∨ ∀ b, pmap (·.box) w a = some b → BoxOk (fun _ als => w0.nextRef ∈ als) (fun it => it ≠ .aliasOff w0.nextRef) b)
  have hI : I w1 := by
    refine run_inv' ser I (fun o => o ≠ .drop a) ?_ os' hos s.1 ?_
    · rintro w o ho - w' x - hx ⟨h1, h2, h3, h4⟩
      have hne : w0.nextRef ≠ w'.nextRef := by omega
      have hal : a < w'.nextPid := by
        rcases Nat.lt_or_ge a w'.nextPid with h | h
        · exact h
        · have h1 := h2 a h; simp [exists?, h1] at h3
      refine ⟨?_, bounded_act _ _ h2, ?_, ?_⟩
      · have := (acts_mono_counters (Acts.one (Q := fun _ => True) (w := w') (a := x) trivial)).2; omega
      · unfold exists?; rw [ex_act]
        unfold exists? at h3
        cases x <;> simp only [] <;> try exact h3
        · simp [h3]
        · rename_i i
          have : a ≠ i := by
            rintro rfl; exact ho hx
          simp [this, h3]
      · rcases h4 with h4 | h4
        · left
          rw [aliases_act]
          cases x <;> simp only [upd_at, hne, if_false] <;> (try exact h4)
          all_goals split <;> simp [upd_at, hne, h4]
        · by_cases hc : (∃ j, x = .dropAl j w0.nextRef) ∨ (∃ j, x = .shot j w0.nextRef)
          · left
            rw [aliases_act]
            rcases hc with ⟨j, rfl⟩ | ⟨j, rfl⟩ <;> simp [upd_at]
          · right
            intro b hb
            refine boxOk_act (keeps_alias w0.nextRef) w' x a h4 (fun _ => by omega) ?_ ?_ ?_ ?_ ?_ ?_ b hb
            · rintro it rfl - rfl; exact hx
            · rintro id rfl h
              cases h; exact hc (.inr ⟨_, rfl⟩)
            · rintro m als als' hm (⟨y, rfl, rfl⟩ | ⟨y, rfl, rfl⟩)
              · refine List.mem_filter.2 ⟨hm, ?_⟩
                have : w0.nextRef ≠ y := by rintro rfl; exact hc (.inl ⟨_, rfl⟩)
                simpa using this
              · exact List.mem_append_left _ hm
            · intro r m als _ h; exact h
            · intro b m _ h; exact h
            · intros; simp
    · rw [hs]
      refine ⟨by rw [nextRef_act]; simp, bounded_act _ _ (run_bounded ser os), by unfold exists?; rw [ex_act]; exact hex, .inr ?_⟩
      intro b hb
      rw [box_act] at hb
      simp only [if_true] at hb
      unfold pmap at hb
      cases hq : w0.procs a with
      | none => rw [hq] at hb; simp at hb
      | some q =>
        rw [hq] at hb; simp at hb; subst hb
        exact ⟨by simp, fun it h => hoff q hq it (.inl h), fun it h => hoff q hq it (.inr h)⟩
  obtain ⟨h1, -, -, h4⟩ := hI
  rcases h4 with h4 | h4
  · have := alias_gone_run ser w0.nextRef w1 [.drop a] h1 h4
    exact this
  · rw [step_drop ser w1 a p hp hd, dropProc_eq w1 a p hp, aliasDestroyAll_eq]
    have hm : w0.nextRef ∈ p.box.aliases := (h4 p.box (by simp [pmap, hp])).1
    simp [hm]

/-- C37 is false of the code. A process that calls `monitor_alias` on itself panics after the alias was created and before
it was recorded anywhere (process.rs:339-351, monitor.rs:117): the alias outlives the process. And a process that was
linked and unlinked keeps the other one in its link set after that one died (link.rs:74-89). -/
theorem C37_nothing_left_violated :
    (∃ os : List (Op Nat Nat), os = [.boot, .monitorAlias 1 (.pid (.loc 1)) false, .drop 1] ∧
      exists? (run id init os) 1 = false ∧ (run id init os).aliases 1 = some (1, false)) ∧
    (∃ os : List (Op Nat Nat), os = [.boot, .boot, .link 1 (.loc 2), .unlink 1 (.loc 2), .finish 2, .drop 2] ∧
      exists? (run id init os) 2 = false ∧ (run id init os).links 1 = [.loc 2]) :=
  ⟨⟨_, rfl, by decide, by decide⟩, ⟨_, rfl, by decide, by decide⟩⟩

/-! ## C40 -/

/-- C40, the reason is the same for everybody: all exit signals and all Downs of a death carry the recorded reason of the
process (normal if its task just returned). Missing: that this is the first one, `C40_first_reason_violated`. -/
theorem C40_one_reason_partial (ser : V → B) (os : List (Op B V)) (me : Nat) (p : Proc B V) :
    let w := run ser init os
    let w' := (step ser w (.drop me)).1
    let r := p.reason.getD .normal
    w.procs me = some p → (p.ended = true ∨ p.aborted = true) →
    ∃ D, w'.sent = w.sent ++ D ∧ ∀ x ∈ D, (x.2 = .system (.exit (.loc me) r)) ∨ (∃ d ref, x.2 = .down d ref r) := by
  intro w w' r hp hd
  obtain ⟨-, -, e3, -⟩ := drop_eff w me p hp (run_linksNodup ser os me)
  have hw' : w' = dropProc w me := step_drop ser w me p hp hd
  rw [hw']
  refine ⟨_, by rw [e3, List.append_assoc], ?_⟩
  intro x hx
  rcases List.mem_append.1 hx with hx | hx
  · left
    unfold exitMsgs at hx
    obtain ⟨q, -, hq⟩ := List.mem_flatMap.1 hx
    cases q with
    | rem i n => simp at hq
    | loc i =>
      simp only [signalMsg] at hq
      split at hq
      · split at hq
        · simp at hq; subst hq; rfl
        · simp at hq
      · simp at hq
  · right
    unfold downMsgs at hx
    obtain ⟨y, -, hy⟩ := List.mem_filterMap.1 hx
    split at hy
    · split at hy
      · simp at hy; exact ⟨_, _, by rw [← hy]⟩
      · simp at hy
    · simp at hy

/-- C40, when only one terminating event happens: a recorded reason stays until the process is dropped, unless the process
itself runs on or another terminating signal comes (an exit signal to it, the death of some process, or a node event). -/
theorem C40_reason_kept_partial (ser : V → B) (w : World B V) (os : List (Op B V)) (i : Nat) (hb : Bounded w) (p : Proc B V) (hp : w.procs i = some p)
    (h : ∀ o ∈ os, o.caller ≠ some i ∧ ¬ o.maySignal i) :
    ∃ p', (run ser w os).procs i = some p' ∧ p'.reason = p.reason ∧ p'.aborted = p.aborted ∧ p'.ended = p.ended := by
  have key := run_inv' ser (fun w => i < w.nextPid ∧ pmap (fun p => (p.reason, p.aborted, p.ended)) w i = some (p.reason, p.aborted, p.ended))
    (fun o => o.caller ≠ some i ∧ ¬ o.maySignal i) ?_ os h w ⟨?_, by simp [pmap, hp]⟩
  · obtain ⟨-, h⟩ := key
    unfold pmap at h
    cases hq : (run ser w os).procs i with
    | none => rw [hq] at h; simp at h
    | some q => rw [hq] at h; simp at h; exact ⟨q, rfl, h⟩
  · rintro w o ⟨ho1, ho2⟩ - w' x - hx ⟨h1, h2⟩
    refine ⟨?_, ?_⟩
    · have := (acts_mono_counters (Acts.one (Q := fun _ => True) (w := w') (a := x) trivial)).1; omega
    · rw [fate_act]
      cases x <;> simp only [] <;> try exact h2
      all_goals
        split
        rotate_left
        · exact h2
      all_goals rename_i hi
      · subst hi; exact absurd hx.1 ho2
      · subst hi; first | exact absurd hx ho1 | exact absurd (by rw [show o = .finish i from hx]; rfl) ho1
      · subst hi; first | exact absurd hx ho1 | exact absurd (by rw [show o = .finish i from hx]; rfl) ho1
      · omega
      · subst hi
        have : o = .drop i := hx
        subst this; exact absurd trivial ho2
      · subst hi; exact absurd hx ho1
  · rcases Nat.lt_or_ge i w.nextPid with h | h
    · exact h
    · rw [hb i h] at hp; simp at hp

/-- C40 is false of the code: `process.exit_reason` is overwritten by every terminating signal until the process is dropped
(process_registry.rs:148-189). Process 2 is told to exit with reason `first`, then with `second`, before its task is
dropped; the monitoring process is told `second`. -/
theorem C40_first_reason_violated :
    ∃ os : List (Op Nat Nat), os = [.boot, .boot, .monitor 1 (.pid (.loc 2)), .exit 1 (.loc 2) (.custom "first")] ∧
      alive (run id init os) 2 = false ∧
      received (run id init (os ++ [.exit 1 (.loc 2) (.custom "second"), .drop 2])) 1 anything .select =
        some (.system (.processDown (.pid (.loc 2)) (.loc 1) (.custom "second"))) :=
  ⟨_, rfl, by decide, rfl⟩

end Verif.World
