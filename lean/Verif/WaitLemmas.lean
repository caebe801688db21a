import Verif.CallLemmas
/-!
# Lemmas about processes that wait for the Down of a monitor
-/
namespace Verif.World
open Verif.Mailbox
variable {B V R : Type}

/-! ## Unfinished executions -/

/-- `At ser me w p os q`: from the world `w`, the process `me` running `p` can be left with `q` to run after the history `os`.
The rules are those of `Exec`, which follows a program to its result. -/
inductive At (ser : V → B) (me : Nat) : World B V → Prog B V R → List (Op B V) → Prog B V R → Prop
  | here (w p) : At ser me w p [] p
  | env {w p o os q} : Others me o → At ser me (step ser w o).1 p os q → At ser me w p (o :: os) q
  | op {w o k os q} : running w me = true → At ser me (step ser w o).1 (k (step ser w o).2) os q →
      At ser me w (.op o k) (o :: os) q
  | got {w kind o t k os q m} : running w me = true → received w me o kind = some m →
      At ser me (step ser w (.recv me o kind)).1 (k m) os q → At ser me w (.wait kind o t k) (.recv me o kind :: os) q
  | pending {w kind o t k os q} : running w me = true → received w me o kind = none →
      At ser me (step ser w (.recv me o kind)).1 (.wait .resume o t k) os q →
      At ser me w (.wait kind o t k) (.recv me o kind :: os) q
  | elapsed {w o p k os q} : At ser me w p os q → At ser me w (.wait .resume o (some p) k) os q

/-- An unfinished execution can be continued. -/
theorem At.exec {ser : V → B} {me : Nat} {w : World B V} {p q : Prog B V R} {os os' : List (Op B V)} {r : R}
    (h : At ser me w p os q) (hx : Exec ser me (run ser w os) q os' r) : Exec ser me w p (os ++ os') r := by
  induction h with
  | here => exact hx
  | env ho _ ih => exact .env ho (ih hx)
  | op hr _ ih => exact .op hr (ih hx)
  | got hr hm _ ih => exact .got hr hm (ih hx)
  | pending hr hn _ ih => exact .pending hr hn (ih hx)
  | elapsed _ ih => exact .elapsed (ih hx)

theorem at_ret_inv {ser : V → B} {me : Nat} {w : World B V} {r : R} {q : Prog B V R} {os : List (Op B V)}
    (h : At ser me w (.ret r) os q) : q = .ret r := by
  generalize hp : (Prog.ret r : Prog B V R) = p at h
  induction h with
  | here => cases hp; rfl
  | env _ _ ih => exact ih hp
  | _ => cases hp

theorem at_op_inv {ser : V → B} {me : Nat} {w : World B V} {o : Op B V} {k : Res → Prog B V R} {q : Prog B V R} {os : List (Op B V)}
    (h : At ser me w (.op o k) os q) :
    q = .op o k ∨ ∃ os1 os2, os = os1 ++ o :: os2 ∧ (∀ o ∈ os1, Others me o) ∧ running (run ser w os1) me = true ∧
      At ser me (step ser (run ser w os1) o).1 (k (step ser (run ser w os1) o).2) os2 q := by
  generalize hp : (Prog.op o k : Prog B V R) = p at h
  induction h with
  | here => cases hp; exact .inl rfl
  | op hr hx _ => cases hp; exact .inr ⟨[], _, rfl, by simp, hr, hx⟩
  | @env w p o' os q ho _ ih =>
    rcases ih hp with h | ⟨os1, os2, h1, h2, h3, h4⟩
    · exact .inl h
    · refine .inr ⟨o' :: os1, os2, by rw [h1]; rfl, ?_, h3, h4⟩
      intro x hm; rcases List.mem_cons.1 hm with rfl | hm
      · exact ho
      · exact h2 x hm
  | _ => cases hp

theorem at_wait_inv {ser : V → B} {me : Nat} {w : World B V} {kind : RecvKind} {o : RecvOp B V} {t : Option (Prog B V R)}
    {k : Msg o.T → Prog B V R} {q : Prog B V R} {os : List (Op B V)} (h : At ser me w (.wait kind o t k) os q) (hk : kind ≠ .remove) :
    (∃ kind', q = .wait kind' o t k ∧ kind' ≠ .remove ∧ Waits ser me o w os) ∨
    ∃ os1 os2, os = os1 ++ os2 ∧ Waits ser me o w os1 ∧
      ((∃ m w' os3, At ser me w' (k m) os3 q) ∨ ∃ p, t = some p ∧ At ser me (run ser w os1) p os2 q) := by
  generalize hp : (Prog.wait kind o t k : Prog B V R) = p at h
  induction h generalizing kind with
  | here => cases hp; exact .inl ⟨kind, rfl, hk, trivial⟩
  | @env w p o' os q ho _ ih =>
    rcases ih hk hp with ⟨k', h1, h2, h3⟩ | ⟨os1, os2, h1, h2, h3⟩
    · exact .inl ⟨k', h1, h2, .inl ho, h3⟩
    · exact .inr ⟨o' :: os1, os2, by rw [h1]; rfl, ⟨.inl ho, h2⟩, h3⟩
  | got hr hm hx _ => cases hp; exact .inr ⟨[], _, rfl, trivial, .inl ⟨_, _, _, hx⟩⟩
  | @pending w kind' o' t' k' os q hr hn _ ih =>
    cases hp
    rcases ih (kind := .resume) (by simp) rfl with ⟨k', h1, h2, h3⟩ | ⟨os1, os2, h1, h2, h3⟩
    · exact .inl ⟨k', h1, h2, .inr ⟨_, rfl, hn, hr, hk⟩, h3⟩
    · exact .inr ⟨.recv me _ kind' :: os1, os2, by rw [h1]; rfl, ⟨.inr ⟨_, rfl, hn, hr, hk⟩, h2⟩, h3⟩
  | elapsed hx _ => cases hp; exact .inr ⟨[], _, rfl, trivial, .inr ⟨_, rfl, hx⟩⟩
  | _ => cases hp

/-! ## The monitor is held -/

/-- A mailbox with an entry for `r` and without a NodeDown for `r`. -/
def HoldsBox (r : Ref) (b : Box B V) : Prop := hasMon b.mons r = true ∧ NoNodeDown r b.items ∧ NoNodeDown r b.chan

theorem hasMon_drop (r r' : Ref) (h : r' ≠ r) (mons : List (Ref × PMon)) (hn : hasMon mons r = true) : hasMon (dropMon mons r') r = true := by
  simp only [hasMon, dropMon, List.any_eq_true] at hn ⊢
  obtain ⟨x, hx, he⟩ := hn
  refine ⟨x, List.mem_filter.2 ⟨hx, ?_⟩, he⟩
  simp at he ⊢
  rw [he]; exact Ne.symm h

/-- What an item does to the entry of `r`: it stays, or the Down is reported. -/
theorem holds_item {T : Type} (τ : RecvType B V T) (r : Ref) (mons : List (Ref × PMon)) (als : List Nat) (it : Item B V)
    (h : hasMon mons r = true) (hit : ∀ n, it ≠ .nodeDown n r) :
    (∀ n, (processItem τ mons als it).2.1 ≠ .nodeDown n r) ∧
    ((hasMon (processItem τ mons als it).2.2.1 r = true ∧ ∀ d e, it ≠ .down d r e) ∨
      ∃ d e, (processItem τ mons als it).1 = .msg (.system (.processDown d r e))) := by
  cases it <;> simp only [processItem]
  · split <;> exact ⟨by simp, .inl ⟨h, by simp⟩⟩
  · split <;> exact ⟨by simp, .inl ⟨h, by simp⟩⟩
  · exact ⟨by simp, .inl ⟨h, by simp⟩⟩
  · rename_i d r' e
    by_cases hr : r' = r
    · subst hr; rw [if_pos h]; exact ⟨by simp, .inr ⟨d, e, rfl⟩⟩
    · split
      · exact ⟨by simp, .inl ⟨hasMon_drop r r' hr mons h, by simp [hr]⟩⟩
      · exact ⟨by simp, .inl ⟨h, by simp [hr]⟩⟩
  · rename_i n r'
    have hr : r' ≠ r := by rintro rfl; exact hit n rfl
    split
    · exact ⟨by simp, .inl ⟨hasMon_drop r r' hr mons h, by simp⟩⟩
    · exact ⟨hit, .inl ⟨h, by simp⟩⟩
  · exact ⟨by simp, .inl ⟨by rw [hasMon_update]; exact h, by simp⟩⟩
  · exact ⟨by simp, .inl ⟨h, by simp⟩⟩

theorem scanItems_holds {T : Type} (τ : RecvType B V T) (r : Ref) (f : Msg T → Bool) (hf : ∀ d e, f (.system (.processDown d r e)) = true)
    (l : List (Item B V)) : ∀ mons als done, hasMon mons r = true → NoNodeDown r done → NoNodeDown r l →
      (∃ m, (scanItems τ f false mons als done l).1 = .got m) ∨
      ((scanItems τ f false mons als done l).1 = .pending ∧
        hasMon (scanItems τ f false mons als done l).2.2.1 r = true ∧ NoNodeDown r (scanItems τ f false mons als done l).2.1) := by
  induction l with
  | nil => intro mons als done h1 h2 _; exact .inr ⟨rfl, h1, h2⟩
  | cons it rest ih =>
    intro mons als done h1 h2 h3
    have hi := holds_item τ r mons als it h1 (h3 it List.mem_cons_self)
    have hrest : NoNodeDown r rest := fun x hx => h3 x (.tail _ hx)
    rw [scanItems]
    generalize processItem τ mons als it = z at *
    obtain ⟨res, it', mons', als'⟩ := z
    have hdone : NoNodeDown r (done ++ [it']) := by
      intro x hx
      rcases List.mem_append.1 hx with hx | hx
      · exact h2 x hx
      · simp at hx; subst hx; exact hi.1
    cases res with
    | msg m =>
      dsimp only at *
      split
      · exact .inl ⟨m, rfl⟩
      · rename_i hfm
        rcases hi.2 with h | ⟨d, e, h⟩
        · exact ih _ _ _ h.1 hdone hrest
        · simp at h; subst h; exact absurd (hf d e) hfm
    | skip =>
      rcases hi.2 with h | ⟨d, e, h⟩
      · exact ih _ _ _ h.1 hdone hrest
      · simp at h
    | foreign =>
      rcases hi.2 with h | ⟨d, e, h⟩
      · exact ih _ _ _ h.1 hdone hrest
      · simp at h

/-- A scan of the channel: it finds something, or there is no Down for `r` in it and the entry stays. -/
theorem scanChan_holds {T : Type} (τ : RecvType B V T) (r : Ref) (f : Msg T → Bool) (hf : ∀ d e, f (.system (.processDown d r e)) = true)
    (l : List (Item B V)) : ∀ items mons als, hasMon mons r = true → NoNodeDown r items → NoNodeDown r l →
      (∃ m, (scanChan τ f false items mons als l).1 = .got m) ∨
      ((∀ d e, .down d r e ∉ l) ∧ HoldsBox r (scanChan τ f false items mons als l).2) := by
  induction l with
  | nil => intro items mons als h1 h2 _; exact .inr ⟨by simp, h1, h2, by intro x hx; simp [scanChan] at hx⟩
  | cons it rest ih =>
    intro items mons als h1 h2 h3
    have hi := holds_item τ r mons als it h1 (h3 it List.mem_cons_self)
    have hrest : NoNodeDown r rest := fun x hx => h3 x (.tail _ hx)
    rw [scanChan]
    generalize processItem τ mons als it = z at *
    obtain ⟨res, it', mons', als'⟩ := z
    have hdone : NoNodeDown r (items ++ [it']) := by
      intro x hx
      rcases List.mem_append.1 hx with hx | hx
      · exact h2 x hx
      · simp at hx; subst hx; exact hi.1
    have more : ∀ its, NoNodeDown r its → hasMon mons' r = true ∧ (∀ d e, it ≠ .down d r e) →
        (∃ m, (scanChan τ f false its mons' als' rest).1 = .got m) ∨
        ((∀ d e, .down d r e ∉ it :: rest) ∧ HoldsBox r (scanChan τ f false its mons' als' rest).2) := by
      intro its hits h
      rcases ih its mons' als' h.1 hits hrest with g | ⟨g1, g2⟩
      · exact .inl g
      · refine .inr ⟨?_, g2⟩
        intro d e hm
        rcases List.mem_cons.1 hm with hm | hm
        · exact h.2 d e hm.symm
        · exact g1 d e hm
    cases res with
    | msg m =>
      dsimp only at *
      split
      · exact .inl ⟨m, rfl⟩
      · rename_i hfm
        rcases hi.2 with h | ⟨d, e, h⟩
        · exact more _ hdone h
        · simp at h; subst h; exact absurd (hf d e) hfm
    | skip =>
      rcases hi.2 with h | ⟨d, e, h⟩
      · exact more _ h2 h
      · simp at h
    | foreign =>
      rcases hi.2 with h | ⟨d, e, h⟩
      · exact more _ hdone h
      · simp at h

/-- A poll with a filter that lets the Downs of `r` pass: it returns something, or there was no Down for `r` in the channel and
the monitor stays. -/
theorem holds_poll {o : RecvOp B V} {r : Ref} (hf : ∀ d e, o.filter (.system (.processDown d r e)) = true) (hs : o.strict = false)
    (kind : RecvKind) (hk : kind ≠ .remove) (w : World B V) (me : Nat) (p : Proc B V) (hp : w.procs me = some p)
    (h : HoldsBox r p.box) :
    (∃ m, received w me o kind = some m) ∨ ((∀ d e, .down d r e ∉ p.box.chan) ∧ HoldsBox r (recvBox o kind p.box)) := by
  obtain ⟨h1, h2, h3⟩ := h
  cases kind with
  | remove => exact absurd rfl hk
  | resume =>
    rcases scanChan_holds o.τ r o.filter hf p.box.chan p.box.items p.box.mons p.box.aliases h1 h2 h3 with ⟨m, h⟩ | h
    · refine .inl ⟨m, ?_⟩
      simp [received, hp, Mailbox.resume, hs, h]
    · right
      simpa [recvBox, Mailbox.resume, hs] using h
  | select =>
    have g := scanItems_holds o.τ r o.filter hf p.box.items p.box.mons p.box.aliases [] h1 (by intro x hx; simp at hx) h2
    simp only [received, hp, recvBox, Mailbox.select, hs]
    generalize scanItems o.τ o.filter false p.box.mons p.box.aliases [] p.box.items = z at *
    obtain ⟨res, items, mons, als⟩ := z
    rcases g with ⟨m, g⟩ | ⟨g, g1, g2⟩
    · dsimp only at g; subst g; exact .inl ⟨m, rfl⟩
    · dsimp only at g g1 g2; subst g
      dsimp only
      rcases scanChan_holds o.τ r o.filter hf p.box.chan items mons als g1 g2 h3 with ⟨m, h⟩ | h
      · left; refine ⟨m, ?_⟩; rw [h]
      · exact .inr h

/-! ## What the others, and the sends and exit signals of the process itself, do -/

/-- Operations of the others, and sends and exit signals of `me`. -/
def Calm (me : Nat) (o : Op B V) : Prop :=
  Others me o ∨ (∃ ds v, o = .send me ds v) ∨ ∃ p e, o = .exit me p e

/-- Elementary changes that leave the monitor map of `me` alone and tell it nothing as a node monitor. -/
def Soft (n me : Nat) : Atom B V → Prop
  | .put i it => i = me → ∀ N, it ≠ .nodeDown N (.loc n)
  | .rbox i _ _ | .dropMon i _ | .dropAl i _ | .mkAlias i _ | .mkMon i _ _ _ | .mkMonDown i _ _ _ _ | .mkMonRem i _ _ _ _
  | .remove i => i ≠ me
  | _ => True

theorem calm_acts (ser : V → B) {n me : Nat} {w : World B V} {o : Op B V} (ho : Calm me o)
    (hn : ∀ N i, (Ref.loc n, NMon.node i) ∉ w.nodeMons N) : Acts (Soft n me) w (step ser w o).1 := by
  rcases ho with ho | ⟨ds, v, rfl⟩ | ⟨p, e, rfl⟩
  · refine (step_acts ser w o).mono ?_
    intro a ha
    have hcal : ∀ i, o.caller = some i → i ≠ me := by rintro i h rfl; exact ho.1 h
    cases a <;> simp only [Soft]
    · rename_i i it
      rintro rfl N rfl
      exact hn _ _ ha.1
    all_goals first
      | exact hcal _ ha
      | exact hcal _ ha.1
      | (rintro rfl; exact ho.2 ha)
      | (simp only [AtomOf] at ha; rcases ha with ha | ha <;> exact hcal _ (by rw [ha]; rfl))
      | (obtain ⟨r, ha, -⟩ := ha; exact hcal _ (by rw [ha]; rfl))
      | (simp only [AtomOf] at ha; exact hcal _ (by rw [ha]; rfl))
  · by_cases hr : running w me = true
    · simp only [step, Op.caller, hr, if_true, Op.exec]
      refine acts_send ⟨trivial, fun _ _ => trivial, fun _ => trivial⟩ ser w ds v ?_ ?_ ?_ ?_ ?_ <;> intros <;> simp [Soft]
    · simp only [step, Op.caller, hr]; exact .refl _
  · by_cases hr : running w me = true
    · simp only [step, Op.caller, hr, if_true, Op.exec, World.exit]
      cases p with
      | loc i => exact acts_processExit _ _ _ _ (fun _ => by simp [Soft]) (fun _ => trivial)
      | rem i k => exact acts_sendFrame _ _ _ trivial
    · simp only [step, Op.caller, hr]; exact .refl _

/-- Process `me` holds the monitor `n`. -/
structure Holding (n me : Nat) (w : World B V) : Prop where
  lt : n < w.nextRef
  low : me < w.nextPid
  ex : exists? w me = true
  nonode : ∀ N i, (Ref.loc n, NMon.node i) ∉ w.nodeMons N
  box : ∀ b, pmap (·.box) w me = some b → HoldsBox (.loc n) b

/-- The Down of `n` is in the channel of `me`. -/
def Told (n me : Nat) (w : World B V) : Prop := ∃ b d e, pmap (·.box) w me = some b ∧ .down d (.loc n) e ∈ b.chan

theorem soft_box {n me : Nat} {w : World B V} {x : Atom B V} (hx : Soft n me x) (hl : me < w.nextPid) :
    pmap (·.box) (act w x) me = pmap (·.box) w me ∨
    ∃ it, pmap (·.box) (act w x) me = (pmap (·.box) w me).map (deliver · it) ∧ ∀ N, it ≠ .nodeDown N (.loc n) := by
  rw [box_act]
  cases x <;> simp only [] <;> try exact .inl trivial
  all_goals (try (split; rotate_left; exact .inl rfl))
  all_goals subst_vars
  all_goals first
    | exact .inr ⟨_, rfl, hx rfl⟩
    | exact .inr ⟨_, rfl, by simp⟩
    | exact absurd rfl hx
    | omega

theorem soft_holding {n me : Nat} {w : World B V} {x : Atom B V} (hx : Soft n me x) (h : Holding n me w) : Holding n me (act w x) := by
  have hc := acts_mono_counters (Acts.one (Q := fun _ => True) (w := w) (a := x) trivial)
  refine ⟨by have := h.lt; omega, by have := h.low; omega, ?_, noNode_act n w x h.lt h.nonode, ?_⟩
  · unfold exists?
    rw [ex_act]
    have := h.ex
    unfold exists? at this
    cases x <;> simp only [this] <;> simp
    exact fun hh => hx hh.symm
  · intro b hb
    rcases soft_box hx h.low with he | ⟨it, he, hit⟩
    · exact h.box b (he ▸ hb)
    · rw [he] at hb
      obtain ⟨b0, hb0, rfl⟩ := Option.map_eq_some_iff.1 hb
      obtain ⟨h1, h2, h3⟩ := h.box b0 hb0
      refine ⟨h1, h2, ?_⟩
      intro y hy
      rcases List.mem_append.1 hy with hy | hy
      · exact h3 y hy
      · simp at hy; subst hy; exact hit

theorem soft_told {n me : Nat} {w : World B V} {x : Atom B V} (hx : Soft n me x) (hl : me < w.nextPid) (h : Told n me w) :
    Told n me (act w x) := by
  obtain ⟨b, d, e, hb, hm⟩ := h
  rcases soft_box hx hl with he | ⟨it, he, hit⟩
  · exact ⟨b, d, e, he.trans hb, hm⟩
  · rw [hb] at he
    exact ⟨_, d, e, he, List.mem_append_left _ hm⟩

theorem calm_holding (ser : V → B) {n me : Nat} {w : World B V} {o : Op B V} (ho : Calm me o) (h : Holding n me w) :
    Holding n me (step ser w o).1 ∧ (Told n me w → Told n me (step ser w o).1) := by
  have := (calm_acts ser ho h.nonode).inv (I := fun w' => Holding n me w' ∧ (Told n me w → Told n me w')) ⟨h, id⟩ ?_
  · exact this
  · rintro w' a ha ⟨h1, h2⟩
    exact ⟨soft_holding ha h1, fun ht => soft_told ha h1.low (h2 ht)⟩

/-- `t` is watched and there, or its Down is on its way. -/
def Due (n me t : Nat) (d : Dest) (w : World B V) : Prop := (Watch n me t d w ∧ exists? w t = true) ∨ Told n me w

theorem calm_due (ser : V → B) {n me t : Nat} {d : Dest} {w : World B V} {o : Op B V} (hr : Reachable ser w) (ho : Calm me o)
    (h : Holding n me w) (hd : Due n me t d w) : Due n me t d (step ser w o).1 := by
  rcases hd with ⟨hw, hex⟩ | ht
  · have hne : o ≠ .demonitor me (.loc n) ∧ o ≠ .drop me := by
      rcases ho with ho | ⟨_, _, rfl⟩ | ⟨_, _, rfl⟩
      · exact others_ok me o n ho
      · simp
      · simp
    by_cases hdt : o = .drop t
    · subst hdt
      have hat : me ≠ t := by rintro rfl; exact hne.2 rfl
      by_cases hdm : doomed w t = true
      · right
        cases hp : w.procs t with
        | none => simp [doomed, hp] at hdm
        | some p =>
          have hd : p.ended = true ∨ p.aborted = true := by simpa [doomed, hp] using hdm
          rw [step_drop ser w t p hp hd]
          obtain ⟨-, e2, -⟩ := drop_eff w t p hp (reach_nodup hr t)
          have hex := hw.ex
          unfold exists? at hex
          cases hq : w.procs me with
          | none => rw [hq] at hex; simp at hex
          | some q =>
            refine ⟨(afterDeath w t (p.reason.getD .normal) me q).box, d, p.reason.getD .normal, ?_, ?_⟩
            · simp only [pmap, e2 me hat, hq, Option.map_some]
            · simp only [afterDeath]
              refine List.mem_append_right _ ?_
              have hm : (Ref.loc n, Pid.loc me, some d) ∈ w.mons t := by
                have : (Ref.loc n, Pid.loc me, some d) ∈ (w.mons t).filter (fun x => x.1 = .loc n) := by
                  rw [hw.mon]; simp
                exact (List.mem_filter.1 this).1
              unfold downsFor
              rw [List.mem_filterMap]
              exact ⟨_, hm, by simp⟩
      · left
        have : (step ser w (.drop t)).1 = w := by simp [step, Op.caller, Op.exec, hdm]
        rw [this]; exact ⟨hw, hex⟩
    · left
      have hends : ¬ Ends n me t o := by
        rintro (h | h | h)
        · exact hne.1 h
        · exact hne.2 h
        · exact hdt h
      refine (step_acts ser w o).inv (I := fun w => Watch n me t d w ∧ exists? w t = true) ⟨hw, hex⟩ ?_
      rintro w' x hx ⟨h1, h2⟩
      refine ⟨watch_act n me t d w o hw hends w' x hx h1, ?_⟩
      unfold exists? at h2 ⊢
      rw [ex_act]
      cases x <;> simp only [h2] <;> simp
      rename_i i
      rintro rfl
      exact hdt hx
  · exact .inr ((calm_holding ser ho h).2 ht)

/-- What happens between the monitor and the end of the wait. -/
def Quietly (ser : V → B) (n me : Nat) : World B V → List (Op B V) → Prop
  | _, [] => True
  | w, x :: os => (Calm me x ∨ ∃ o kind, x = .recv me o kind ∧ received w me o kind = none ∧ running w me = true ∧ kind ≠ .remove ∧
      (∀ d e, o.filter (.system (.processDown d (.loc n) e)) = true) ∧ o.strict = false) ∧ Quietly ser n me (step ser w x).1 os

theorem Quietly.append {ser : V → B} {n me : Nat} {os' : List (Op B V)} (os : List (Op B V)) :
    ∀ {w : World B V}, Quietly ser n me w os → Quietly ser n me (run ser w os) os' → Quietly ser n me w (os ++ os') := by
  induction os with
  | nil => intro w _ h; exact h
  | cons x os ih => intro w h h'; exact ⟨h.1, ih h.2 h'⟩

theorem quietly_others {ser : V → B} {n me : Nat} (os : List (Op B V)) : ∀ {w : World B V}, (∀ o ∈ os, Others me o) → Quietly ser n me w os := by
  induction os with
  | nil => intro w _; trivial
  | cons x os ih => intro w h; exact ⟨.inl (.inl (h x List.mem_cons_self)), ih fun y hy => h y (.tail _ hy)⟩

theorem quietly_waits {ser : V → B} {n me : Nat} {o : RecvOp B V} (hf : ∀ d e, o.filter (.system (.processDown d (.loc n) e)) = true)
    (hs : o.strict = false) (os : List (Op B V)) : ∀ {w : World B V}, Waits ser me o w os → Quietly ser n me w os := by
  induction os with
  | nil => intro w _; trivial
  | cons x os ih =>
    rintro w ⟨h1, h2⟩
    refine ⟨?_, ih h2⟩
    rcases h1 with h1 | ⟨kind, rfl, hn, hr, hk⟩
    · exact .inl (.inl h1)
    · exact .inr ⟨o, kind, rfl, hn, hr, hk, hf, hs⟩

theorem poll_holds (ser : V → B) {n me : Nat} {w : World B V} {o : RecvOp B V} {kind : RecvKind}
    (hf : ∀ d e, o.filter (.system (.processDown d (.loc n) e)) = true) (hs : o.strict = false) (hk : kind ≠ .remove)
    (hrun : running w me = true) (hn : received w me o kind = none) (h : Holding n me w) :
    Holding n me (step ser w (.recv me o kind)).1 ∧ ¬ Told n me w := by
  cases hp : w.procs me with
  | none => simp [running, hp] at hrun
  | some p =>
    have hstep : (step ser w (.recv me o kind)).1 = recv w me o kind := by simp [step, Op.caller, hrun, Op.exec]
    rcases holds_poll hf hs kind hk w me p hp (h.box p.box (by simp [pmap, hp])) with ⟨m, hm⟩ | ⟨h1, h2⟩
    · rw [hm] at hn; simp at hn
    · constructor
      · rw [hstep]
        have key : Holding n me (modBox w me (recvBox o kind)) := by
          refine ⟨h.lt, h.low, ?_, h.nonode, ?_⟩
          · simp [exists?, modBox, modProc, upd_at, hp]
          · intro b hb'
            simp [pmap, modBox, modProc, upd_at, hp] at hb'
            subst hb'
            exact h2
        rcases recv_eq w me o kind p hp with he | ⟨m, he⟩
        · rw [he]; exact key
        · rw [he]
          refine ⟨key.lt, key.low, ?_, key.nonode, ?_⟩
          · simp [exists?, crash, modBox, modProc, upd_at, hp]
          · intro b hb'
            simp [pmap, crash, modBox, modProc, upd_at, hp] at hb'
            subst hb'
            exact h2
      · rintro ⟨b, d', e, hb, hm⟩
        simp [pmap, hp] at hb
        subst hb
        exact absurd hm (h1 d' e)

theorem poll_holding (ser : V → B) {n me t : Nat} {d : Dest} {w : World B V} {o : RecvOp B V} {kind : RecvKind}
    (hf : ∀ d e, o.filter (.system (.processDown d (.loc n) e)) = true) (hs : o.strict = false) (hk : kind ≠ .remove)
    (hrun : running w me = true) (hn : received w me o kind = none) (h : Holding n me w) (hd : Due n me t d w) :
    Holding n me (step ser w (.recv me o kind)).1 ∧ Due n me t d (step ser w (.recv me o kind)).1 := by
  obtain ⟨g1, g2⟩ := poll_holds ser hf hs hk hrun hn h
  refine ⟨g1, ?_⟩
  rcases hd with ⟨hw, hex⟩ | ht
  · left
    have hends : ¬ Ends n me t (.recv me o kind : Op B V) := by rintro (h | h | h) <;> cases h
    refine (step_acts ser w (.recv me o kind)).inv (I := fun w => Watch n me t d w ∧ exists? w t = true) ⟨hw, hex⟩ ?_
    rintro w' x hx ⟨h1, h2⟩
    refine ⟨watch_act n me t d w _ hw hends w' x hx h1, ?_⟩
    unfold exists? at h2 ⊢
    rw [ex_act]
    cases x <;> simp only [h2] <;> simp
    cases hx
  · exact absurd ht g2

theorem quietly_run (ser : V → B) {n me t : Nat} {d : Dest} (os : List (Op B V)) :
    ∀ (w : World B V), Reachable ser w → Quietly ser n me w os → Holding n me w → Due n me t d w →
      Holding n me (run ser w os) ∧ Due n me t d (run ser w os) := by
  induction os with
  | nil => intro w _ _ h h'; exact ⟨h, h'⟩
  | cons x os ih =>
    rintro w hr ⟨hx, hos⟩ h hd
    have : Holding n me (step ser w x).1 ∧ Due n me t d (step ser w x).1 := by
      rcases hx with hx | ⟨o, kind, rfl, hn, hrun, hk, hf, hs⟩
      · exact ⟨(calm_holding ser hx h).1, calm_due ser hr hx h hd⟩
      · exact poll_holding ser hf hs hk hrun hn h hd
    exact ih _ (reach_step hr x) hos this.1 this.2

/-- A poll when the Down is there returns something. -/
theorem told_wakes {n me : Nat} {w : World B V} {o : RecvOp B V} {kind : RecvKind}
    (hf : ∀ d e, o.filter (.system (.processDown d (.loc n) e)) = true) (hs : o.strict = false) (hk : kind ≠ .remove)
    (h : Holding n me w) (ht : Told n me w) : ∃ m, received w me o kind = some m := by
  obtain ⟨b, d, e, hb, hm⟩ := ht
  cases hp : w.procs me with
  | none => simp [pmap, hp] at hb
  | some p =>
    simp [pmap, hp] at hb
    subst hb
    rcases holds_poll hf hs kind hk w me p hp (h.box p.box (by simp [pmap, hp])) with h | ⟨h1, -⟩
    · exact h
    · exact absurd hm (h1 d e)

theorem told_run (ser : V → B) {n me : Nat} (os : List (Op B V)) :
    ∀ (w : World B V), Quietly ser n me w os → Holding n me w → Told n me w → Holding n me (run ser w os) ∧ Told n me (run ser w os) := by
  induction os with
  | nil => intro w _ h h'; exact ⟨h, h'⟩
  | cons x os ih =>
    rintro w ⟨hx, hos⟩ h hd
    rcases hx with hx | ⟨o, kind, rfl, hn, hrun, hk, hf, hs⟩
    · exact ih _ hos (calm_holding ser hx h).1 ((calm_holding ser hx h).2 hd)
    · obtain ⟨m, hm⟩ := told_wakes hf hs hk h hd
      rw [hm] at hn; simp at hn

/-- Right after the monitor of a local process. -/
theorem mon_due (ser : V → B) (w : World B V) (hr : Reachable ser w) (a : Nat) (d : Dest) (al : Option Bool)
    (hrun : running w a = true) (hd : LocalServer a d) :
    Holding w.nextRef a (step ser w (monOp a d al)).1 ∧
    ((∃ t, targetOf w d = some t ∧ Watch w.nextRef a t d (step ser w (monOp a d al)).1 ∧ exists? (step ser w (monOp a d al)).1 t = true) ∨
     (targetOf w d = none ∧ Told w.nextRef a (step ser w (monOp a d al)).1)) := by
  have hu := reach_fresh hr w.nextRef (Nat.le_refl _)
  have hex := running_exists hrun
  have hlow : a < w.nextPid := by
    rcases Nat.lt_or_ge a w.nextPid with h | h
    · exact h
    · simp [exists?, reach_bounded hr a h] at hex
  rw [step_monOp ser w a d al hrun]
  have hbox : ∀ b, pmap (·.box) w a = some b → NoNodeDown (.loc w.nextRef) b.items ∧ NoNodeDown (.loc w.nextRef) b.chan := by
    intro b hb
    have := hu.box a b hb
    refine ⟨?_, ?_⟩ <;> rintro it hit N rfl
    · have := this.2.1 _ hit; simp [reports] at this
    · have := this.2.2 _ hit; simp [reports] at this
  have hno : ∀ N i, (Ref.loc w.nextRef, NMon.node i) ∉ w.nodeMons N := fun N i hm => hu.nodes N _ hm rfl
  have hhold : ∀ x : Atom B V, (∃ t, x = .mkMon a t d al) ∨ (∃ m e, x = .mkMonDown a d m e al) → Holding w.nextRef a (act w x) := by
    intro x hx
    refine ⟨?_, ?_, ?_, ?_, ?_⟩
    · rw [nextRef_act]; rcases hx with ⟨t, rfl⟩ | ⟨m, e, rfl⟩ <;> simp
    · have := (acts_mono_counters (Acts.one (Q := fun _ => True) (w := w) (a := x) trivial)).1; omega
    · unfold exists? at hex ⊢
      rw [ex_act]; rcases hx with ⟨t, rfl⟩ | ⟨m, e, rfl⟩ <;> simpa using hex
    · rw [nodeMons_act]; rcases hx with ⟨t, rfl⟩ | ⟨m, e, rfl⟩ <;> exact hno
    · intro b hb
      rw [box_act] at hb
      rcases hx with ⟨t, rfl⟩ | ⟨m, e, rfl⟩
      · simp only [if_true] at hb
        obtain ⟨b0, hb0, rfl⟩ := Option.map_eq_some_iff.1 hb
        refine ⟨by simp [setMon, hasMon], hbox b0 hb0⟩
      · simp only [if_true] at hb
        obtain ⟨b0, hb0, rfl⟩ := Option.map_eq_some_iff.1 hb
        refine ⟨by simp [setMon, hasMon, deliver], (hbox b0 hb0).1, ?_⟩
        intro y hy
        rcases List.mem_append.1 hy with hy | hy
        · exact (hbox b0 hb0).2 y hy
        · simp at hy; subst hy; simp
  have hdown : ∀ m, Told w.nextRef a (act w (.mkMonDown a d m (.custom "noproc") al)) := by
    intro m
    unfold exists? at hex
    cases hp : w.procs a with
    | none => rw [hp] at hex; simp at hex
    | some p =>
      refine ⟨deliver (setMon p.box (.loc w.nextRef) m) (.down d (.loc w.nextRef) (.custom "noproc")), d, .custom "noproc",
        by rw [box_act]; simp only [if_true, pmap, hp, Option.map_some], ?_⟩
      simp [deliver]
  have hexm : ∀ t, exists? w t = true → exists? (act w (.mkMon a t d al)) t = true := by
    intro t h; unfold exists? at h ⊢; rw [ex_act]; exact h
  have hfr : ∀ i, exists? (modBox (freshRef w a al) a (setMon · (.loc w.nextRef) (.forProcess (some (.loc i))))) i = exists? w i := by
    intro i; cases al <;> simp only [exists?, freshRef, optAlias, newRef, addAlias, modBox, modProc, upd_at] <;> split <;> simp_all
  rcases hd with ⟨t, rfl, hta⟩ | ⟨n, rfl⟩
  · simp only [monitorInstall, hta, if_false]
    by_cases he : exists? w t = true
    · rw [if_pos (by rw [hfr]; exact he)]
      exact ⟨hhold _ (.inl ⟨t, rfl⟩), .inl ⟨t, by simp [targetOf, he], (watch_mkMon w a t _ al hu hex).1, hexm t he⟩⟩
    · rw [if_neg (by rw [hfr]; exact he)]
      exact ⟨hhold _ (.inr ⟨_, _, rfl⟩), .inr ⟨by simp [targetOf, he], hdown _⟩⟩
  · simp only [monitorInstall]
    have hnm : (freshRef w a al).names = w.names := by cases al <;> rfl
    rw [hnm]
    cases hn : w.names n with
    | none => exact ⟨hhold _ (.inr ⟨_, _, rfl⟩), .inr ⟨by simp [targetOf, hn], hdown _⟩⟩
    | some i =>
      dsimp only
      have he : exists? w i = true := by
        have := (namesOK_iff w).1 (reach_names hr) n i
        have := this.1 hn
        unfold pmap at this; unfold exists?
        cases hp : w.procs i <;> simp_all
      rw [if_pos (by rw [hfr]; exact he)]
      exact ⟨hhold _ (.inl ⟨i, rfl⟩), .inl ⟨i, by simp [targetOf, hn, he], (watch_mkMon w a i _ al hu hex).1, hexm i he⟩⟩

/-- From the monitor to the end of the wait: if the process is gone, the next poll returns. -/
theorem gone_wakes (ser : V → B) (w : World B V) (hr : Reachable ser w) (me : Nat) (d : Dest) (al : Option Bool)
    (hrun : running w me = true) (hd : LocalServer me d) (os : List (Op B V))
    (hq : Quietly ser w.nextRef me (step ser w (monOp me d al)).1 os)
    (hgone : targetOf w d = none ∨ ∃ t, targetOf w d = some t ∧ (run ser (step ser w (monOp me d al)).1 os).procs t = none)
    (o : RecvOp B V) (kind : RecvKind) (hf : ∀ d e, o.filter (.system (.processDown d (.loc w.nextRef) e)) = true)
    (hs : o.strict = false) (hk : kind ≠ .remove) :
    ∃ m, received (run ser (step ser w (monOp me d al)).1 os) me o kind = some m := by
  obtain ⟨h1, h2⟩ := mon_due ser w hr me d al hrun hd
  have hr' := reach_step hr (monOp me d al)
  rcases h2 with ⟨t, g1, g2, g3⟩ | ⟨g1, g2⟩
  · obtain ⟨k1, k2⟩ := quietly_run ser os _ hr' hq h1 (.inl ⟨g2, g3⟩)
    rcases hgone with h | ⟨t', ht', hn⟩
    · rw [h] at g1; simp at g1
    · rw [g1] at ht'; simp at ht'; subst ht'
      rcases k2 with ⟨-, k2⟩ | k2
      · simp [exists?, hn] at k2
      · exact told_wakes hf hs hk k1 k2
  · obtain ⟨k1, k2⟩ := told_run ser os _ hq h1 g2
    exact told_wakes hf hs hk k1 k2

end Verif.World
