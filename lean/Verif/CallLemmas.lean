import Verif.ClientProps
/-!
# Lemmas about the waiting part of `GenServer::call`
-/
namespace Verif.World
open Verif.Mailbox
variable {B V R : Type}

/-- What happens during a wait, poll by poll: operations of the others, and polls that found nothing. -/
def Waits (ser : V → B) (me : Nat) (o : RecvOp B V) : World B V → List (Op B V) → Prop
  | _, [] => True
  | w, x :: os => (Others me x ∨ ∃ kind, x = .recv me o kind ∧ received w me o kind = none ∧ running w me = true ∧ kind ≠ .remove) ∧
      Waits ser me o (step ser w x).1 os

theorem exec_wait_inv' {ser : V → B} {me : Nat} {w : World B V} {kind : RecvKind} {o : RecvOp B V} {t : Option (Prog B V R)}
    {k : Msg o.T → Prog B V R} {r : R} {os : List (Op B V)} (h : Exec ser me w (.wait kind o t k) os r) (hk : kind ≠ .remove) :
    ∃ os1 os2, os = os1 ++ os2 ∧ Waits ser me o w os1 ∧
      ((∃ kind m os3, received (run ser w os1) me o kind = some m ∧ os2 = .recv me o kind :: os3 ∧
          running (run ser w os1) me = true ∧
          Exec ser me (step ser (run ser w os1) (.recv me o kind)).1 (k m) os3 r) ∨
       ∃ p, t = some p ∧ Exec ser me (run ser w os1) p os2 r) := by
  generalize hp : (Prog.wait kind o t k : Prog B V R) = p at h
  induction h generalizing kind with
  | @env w p o' os r ho _ ih =>
    obtain ⟨os1, os2, h1, h2, h3⟩ := ih hk hp
    exact ⟨o' :: os1, os2, by rw [h1]; rfl, ⟨.inl ho, h2⟩, h3⟩
  | got hr hm hx _ => cases hp; exact ⟨[], _, rfl, trivial, .inl ⟨_, _, _, hm, rfl, hr, hx⟩⟩
  | @pending w kind' o' t' k' os r hr hn _ ih =>
    cases hp
    obtain ⟨os1, os2, h1, h2, h3⟩ := ih (by simp) rfl
    exact ⟨.recv me _ kind' :: os1, os2, by rw [h1]; rfl, ⟨.inr ⟨_, rfl, hn, hr, hk⟩, h2⟩, h3⟩
  | elapsed hx _ => cases hp; exact ⟨[], _, rfl, trivial, .inr ⟨_, rfl, hx⟩⟩
  | _ => cases hp

theorem Waits.waiting {ser : V → B} {me : Nat} {o : RecvOp B V} {w : World B V} {os : List (Op B V)} (h : Waits ser me o w os) :
    ∀ x ∈ os, Waiting me o x := by
  induction os generalizing w with
  | nil => simp
  | cons x os ih =>
    obtain ⟨h1, h2⟩ := h
    intro y hy
    rcases List.mem_cons.1 hy with rfl | hy
    · rcases h1 with h1 | ⟨k, rfl, -⟩
      · exact .inl h1
      · exact .inr ⟨k, rfl⟩
    · exact ih h2 y hy

/-! ## A monitor entry that names its target survives the wait -/

/-- The entry of `r` in a process-local monitor map names a process. -/
def Names (r : Ref) (mons : List (Ref × PMon)) : Prop := ∃ p, (mons.find? fun x => x.1 == r).map Prod.snd = some (.forProcess (some p))

theorem names_drop (r r' : Ref) (h : r' ≠ r) (mons : List (Ref × PMon)) (hn : Names r mons) : Names r (dropMon mons r') := by
  obtain ⟨p, hp⟩ := hn
  refine ⟨p, ?_⟩
  rw [dropMon, List.find?_filter]
  rw [← hp]
  congr 2
  funext x
  by_cases hx : x.1 = r
  · simp [hx, Ne.symm h]
  · simp [hx]

theorem names_update (r r' : Ref) (q : Pid) (mons : List (Ref × PMon)) (hn : Names r mons) :
    Names r (mons.map fun x => if x.1 = r' then (x.1, .forProcess (some q)) else x) := by
  obtain ⟨p, hp⟩ := hn
  have : ((fun x : Ref × PMon => x.1 == r) ∘ fun x => if x.1 = r' then (x.1, .forProcess (some q)) else x) = fun x => x.1 == r := by
    funext x; simp only [Function.comp]; split <;> rfl
  unfold Names
  rw [List.find?_map, this]
  cases hf : mons.find? fun x => x.1 == r with
  | none => rw [hf] at hp; simp at hp
  | some y =>
    rw [hf] at hp
    simp at hp
    simp only [Option.map_some, Option.some.injEq]
    split
    · exact ⟨q, rfl⟩
    · exact ⟨p, hp⟩

/-- What an item does to the entry of `r`. -/
theorem names_item {T : Type} (τ : RecvType B V T) (r : Ref) (mons : List (Ref × PMon)) (als : List Nat) (it : Item B V)
    (h : Names r mons) (hit : ∀ n, it ≠ .nodeDown n r) :
    (∀ n, (processItem τ mons als it).2.1 ≠ .nodeDown n r) ∧
    (Names r (processItem τ mons als it).2.2.1 ∨ ∃ d e, (processItem τ mons als it).1 = .msg (.system (.processDown d r e))) := by
  cases it <;> simp only [processItem]
  · split <;> exact ⟨by simp, .inl h⟩
  · split <;> exact ⟨by simp, .inl h⟩
  · exact ⟨by simp, .inl h⟩
  · rename_i d r' e
    split
    · refine ⟨by simp, ?_⟩
      by_cases hr : r' = r
      · subst hr; exact .inr ⟨d, e, rfl⟩
      · exact .inl (names_drop r r' hr mons h)
    · exact ⟨by simp, .inl h⟩
  · rename_i n r'
    have hr : r' ≠ r := by rintro rfl; exact hit n rfl
    split
    · exact ⟨by simp, .inl (names_drop r r' hr mons h)⟩
    · exact ⟨hit, .inl h⟩
  · exact ⟨by simp, .inl (names_update r _ _ mons h)⟩
  · exact ⟨by simp, .inl h⟩

def NoNodeDown (r : Ref) (l : List (Item B V)) : Prop := ∀ it ∈ l, ∀ n, it ≠ .nodeDown n r

theorem scanItems_names {T : Type} (τ : RecvType B V T) (r : Ref) (f : Msg T → Bool) (hf : ∀ d e, f (.system (.processDown d r e)) = true)
    (l : List (Item B V)) : ∀ mons als done, Names r mons → NoNodeDown r done → NoNodeDown r l →
      (∀ m, (scanItems τ f false mons als done l).1 ≠ .got m) →
      Names r (scanItems τ f false mons als done l).2.2.1 ∧ NoNodeDown r (scanItems τ f false mons als done l).2.1 := by
  induction l with
  | nil => intro mons als done h1 h2 _ _; exact ⟨h1, h2⟩
  | cons it rest ih =>
    intro mons als done h1 h2 h3 h4
    have hi := names_item τ r mons als it h1 (h3 it List.mem_cons_self)
    have hrest : NoNodeDown r rest := fun x hx => h3 x (.tail _ hx)
    rw [scanItems] at h4 ⊢
    generalize processItem τ mons als it = z at *
    obtain ⟨res, it', mons', als'⟩ := z
    have hdone : NoNodeDown r (done ++ [it']) := by
      intro x hx
      rcases List.mem_append.1 hx with hx | hx
      · exact h2 x hx
      · simp at hx; subst hx; exact hi.1
    cases res with
    | msg m =>
      dsimp only at *
      split at h4
      · exact absurd rfl (h4 m)
      · rename_i hfm
        rw [if_neg hfm]
        rcases hi.2 with h | ⟨d, e, h⟩
        · exact ih _ _ _ h hdone hrest h4
        · simp at h; subst h; exact absurd (hf d e) hfm
    | skip =>
      rcases hi.2 with h | ⟨d, e, h⟩
      · exact ih _ _ _ h hdone hrest h4
      · simp at h
    | foreign =>
      rcases hi.2 with h | ⟨d, e, h⟩
      · exact ih _ _ _ h hdone hrest h4
      · simp at h

theorem scanChan_names {T : Type} (τ : RecvType B V T) (r : Ref) (f : Msg T → Bool) (hf : ∀ d e, f (.system (.processDown d r e)) = true)
    (l : List (Item B V)) : ∀ items mons als, Names r mons → NoNodeDown r items → NoNodeDown r l →
      (∀ m, (scanChan τ f false items mons als l).1 ≠ .got m) →
      Names r (scanChan τ f false items mons als l).2.mons ∧ NoNodeDown r (scanChan τ f false items mons als l).2.items ∧
      NoNodeDown r (scanChan τ f false items mons als l).2.chan := by
  induction l with
  | nil => intro items mons als h1 h2 _ _; exact ⟨h1, h2, by intro x hx; simp [scanChan] at hx⟩
  | cons it rest ih =>
    intro items mons als h1 h2 h3 h4
    have hi := names_item τ r mons als it h1 (h3 it List.mem_cons_self)
    have hrest : NoNodeDown r rest := fun x hx => h3 x (.tail _ hx)
    rw [scanChan] at h4 ⊢
    generalize processItem τ mons als it = z at *
    obtain ⟨res, it', mons', als'⟩ := z
    have hdone : NoNodeDown r (items ++ [it']) := by
      intro x hx
      rcases List.mem_append.1 hx with hx | hx
      · exact h2 x hx
      · simp at hx; subst hx; exact hi.1
    cases res with
    | msg m =>
      dsimp only at *
      split at h4
      · exact absurd rfl (h4 m)
      · rename_i hfm
        rw [if_neg hfm]
        rcases hi.2 with h | ⟨d, e, h⟩
        · exact ih _ _ _ h hdone hrest h4
        · simp at h; subst h; exact absurd (hf d e) hfm
    | skip =>
      rcases hi.2 with h | ⟨d, e, h⟩
      · exact ih _ _ _ h h2 hrest h4
      · simp at h
    | foreign =>
      rcases hi.2 with h | ⟨d, e, h⟩
      · exact ih _ _ _ h hdone hrest h4
      · simp at h

/-- A mailbox whose entry for `r` names a process and that holds no NodeDown for `r`. -/
def NamesBox (r : Ref) (b : Box B V) : Prop := Names r b.mons ∧ NoNodeDown r b.items ∧ NoNodeDown r b.chan

theorem namesBox_poll {o : RecvOp B V} {r : Ref} (hf : ∀ d e, o.filter (.system (.processDown d r e)) = true) (hs : o.strict = false)
    (kind : RecvKind) (hk : kind ≠ .remove) (w : World B V) (me : Nat) (p : Proc B V) (hp : w.procs me = some p)
    (hn : received w me o kind = none) (h : NamesBox r p.box) : NamesBox r (recvBox o kind p.box) := by
  have hn' : ∀ m, (match kind with
      | .select => (Mailbox.select o.τ o.filter o.strict p.box).1
      | .resume => (Mailbox.resume o.τ o.filter o.strict p.box).1
      | .remove => .pending) ≠ .got m := by
    intro m hm
    unfold received at hn
    rw [hp] at hn
    dsimp only at hn
    split at hn
    · simp at hn
    · rename_i hx; exact hx m hm
  obtain ⟨h1, h2, h3⟩ := h
  cases kind with
  | remove => exact absurd rfl hk
  | resume =>
    dsimp only at hn'
    rw [hs] at hn'
    have := scanChan_names o.τ r o.filter hf p.box.chan p.box.items p.box.mons p.box.aliases h1 h2 h3 hn'
    simpa [recvBox, Mailbox.resume, hs, NamesBox] using this
  | select =>
    dsimp only at hn'
    rw [hs] at hn'
    simp only [Mailbox.select] at hn'
    have g := scanItems_names o.τ r o.filter hf p.box.items p.box.mons p.box.aliases [] h1 (by intro x hx; simp at hx) h2
    simp only [recvBox, Mailbox.select, hs]
    generalize scanItems o.τ o.filter false p.box.mons p.box.aliases [] p.box.items = z at *
    obtain ⟨res, items, mons, als⟩ := z
    cases res with
    | pending =>
      obtain ⟨g1, g2⟩ := g (by simp)
      exact scanChan_names o.τ r o.filter hf p.box.chan items mons als g1 g2 h3 hn'
    | got m => exact absurd rfl (hn' m)
    | panicked =>
      obtain ⟨g1, g2⟩ := g (by simp)
      exact ⟨g1, g2, h3⟩

/-- Process `me` holds the monitor `n`, whose target it knows. -/
structure Keeping (n me : Nat) (w : World B V) : Prop where
  lt : n < w.nextRef
  low : me < w.nextPid
  ex : exists? w me = true
  nonode : ∀ N i, (Ref.loc n, NMon.node i) ∉ w.nodeMons N
  box : ∀ b, pmap (·.box) w me = some b → NamesBox (.loc n) b

theorem noNode_act (n : Nat) (w : World B V) (a : Atom B V) (hlt : n < w.nextRef)
    (h : ∀ N i, (Ref.loc n, NMon.node i) ∉ w.nodeMons N) : ∀ N i, (Ref.loc n, NMon.node i) ∉ (act w a).nodeMons N := by
  intro N i hm
  rw [nodeMons_act] at hm
  cases a <;> simp only [] at hm <;> try exact h N i hm
  all_goals
    simp only [upd_at] at hm
    split at hm
    · subst_vars
      simp at hm <;> first
        | exact h _ _ hm.1
        | (rcases hm with hm | hm
           · exact h _ _ hm.1
           · omega)
    · exact h N i hm

theorem keeping_act {n me : Nat} {w : World B V} {o : Op B V} (ho : Others me o) (hw : Keeping n me w) {w' : World B V} {x : Atom B V}
    (ha : AtomOf w o x) (h : Keeping n me w') : Keeping n me (act w' x) := by
  have hc := acts_mono_counters (Acts.one (Q := fun _ => True) (w := w') (a := x) trivial)
  have hex : ∃ b, pmap (·.box) w' me = some b := by
    have := h.ex
    unfold exists? at this
    unfold pmap
    cases hp : w'.procs me with
    | none => rw [hp] at this; simp at this
    | some p => exact ⟨p.box, rfl⟩
  obtain ⟨b0, hb0⟩ := hex
  have hbox := h.box b0 hb0
  have hne : me ≠ w'.nextPid := by have := h.low; omega
  have hcal : o.caller ≠ some me := ho.1
  refine ⟨by have := h.lt; omega, by have := h.low; omega, ?_, noNode_act n w' x h.lt h.nonode, ?_⟩
  · unfold exists?
    rw [ex_act]
    have := h.ex
    unfold exists? at this
    cases x <;> simp only [this] <;> simp
    rename_i i
    rintro rfl
    exact ho.2 ha
  · intro b hb
    rw [box_act] at hb
    have hput : ∀ it, x = .put me it → NamesBox (.loc n) (deliver b0 it) := by
      rintro it rfl
      refine ⟨hbox.1, hbox.2.1, ?_⟩
      intro y hy
      rcases List.mem_append.1 hy with hy | hy
      · exact hbox.2.2 y hy
      · simp at hy
        subst hy
        rintro N rfl
        exact hw.nonode _ _ ha.1
    cases x <;> simp only [hb0] at hb <;> try exact h.box b (hb0.trans hb)
    all_goals
      split at hb
      rotate_left
      · exact h.box b (hb0.trans hb)
    all_goals
      subst_vars
    · simp at hb; subst hb; exact hput _ rfl
    · exact absurd rfl hne
    · simp at hb
    · exact absurd rfl hcal
    · rcases ha with ha | ha <;> exact absurd (by rw [ha]; rfl) hcal
    · obtain ⟨r, ha, -⟩ := ha; exact absurd (by rw [ha]; rfl) hcal
    · simp at hb; subst hb
      refine ⟨hbox.1, hbox.2.1, ?_⟩
      intro y hy
      rcases List.mem_append.1 hy with hy | hy
      · exact hbox.2.2 y hy
      · simp at hy; subst hy; simp
    · exact absurd ha hcal
    · exact absurd ha hcal
    · exact absurd ha hcal
    · exact absurd ha.1 hcal

theorem keeping_others (ser : V → B) {n me : Nat} {w : World B V} {o : Op B V} (ho : Others me o) (h : Keeping n me w) :
    Keeping n me (step ser w o).1 :=
  (step_acts ser w o).inv (I := Keeping n me) h (fun _ _ ha h' => keeping_act ho h ha h')

theorem keeping_poll (ser : V → B) {n me : Nat} {w : World B V} {o : RecvOp B V} {kind : RecvKind}
    (hf : ∀ d e, o.filter (.system (.processDown d (.loc n) e)) = true) (hs : o.strict = false) (hk : kind ≠ .remove)
    (hr : running w me = true) (hn : received w me o kind = none) (h : Keeping n me w) : Keeping n me (step ser w (.recv me o kind)).1 := by
  cases hp : w.procs me with
  | none => simp [running, hp] at hr
  | some p =>
    have hstep : (step ser w (.recv me o kind)).1 = recv w me o kind := by simp [step, Op.caller, hr, Op.exec]
    rw [hstep]
    have hb := namesBox_poll hf hs kind hk w me p hp hn (h.box p.box (by simp [pmap, hp]))
    have key : Keeping n me (modBox w me (recvBox o kind)) := by
      refine ⟨h.lt, h.low, ?_, h.nonode, ?_⟩
      · simp [exists?, modBox, modProc, upd_at, hp]
      · intro b hb'
        simp [pmap, modBox, modProc, upd_at, hp] at hb'
        subst hb'
        exact hb
    rcases recv_eq w me o kind p hp with he | ⟨m, he⟩
    · rw [he]; exact key
    · rw [he]
      refine ⟨key.lt, key.low, ?_, key.nonode, ?_⟩
      · simp [exists?, crash, modBox, modProc, upd_at, hp]
      · intro b hb'
        simp [pmap, crash, modBox, modProc, upd_at, hp] at hb'
        subst hb'
        exact hb

theorem keeping_waits (ser : V → B) {n me : Nat} {o : RecvOp B V} (hf : ∀ d e, o.filter (.system (.processDown d (.loc n) e)) = true)
    (hs : o.strict = false) (os : List (Op B V)) :
    ∀ w, Waits ser me o w os → Keeping n me w → Keeping n me (run ser w os) := by
  induction os with
  | nil => intro w _ h; exact h
  | cons x os ih =>
    rintro w ⟨h1, h2⟩ h
    refine ih _ h2 ?_
    rcases h1 with h1 | ⟨kind, rfl, hn, hr, hk⟩
    · exact keeping_others ser h1 h
    · exact keeping_poll ser hf hs hk hr hn h

theorem keeping_run_others (ser : V → B) {n me : Nat} (os : List (Op B V)) :
    ∀ w, (∀ o ∈ os, Others me o) → Keeping n me w → Keeping n me (run ser w os) := by
  induction os with
  | nil => intro w _ h; exact h
  | cons x os ih => intro w ho h; exact ih _ (fun y hy => ho y (.tail _ hy)) (keeping_others ser (ho x List.mem_cons_self) h)

/-- Removing a monitor that names its target destroys the alias of the same reference. -/
theorem demonitor_alias (ser : V → B) {n me : Nat} {w : World B V} (h : Keeping n me w) (hr : running w me = true) :
    (step ser w (.demonitor me (.loc n))).1.aliases n = none := by
  cases hp : w.procs me with
  | none => simp [running, hp] at hr
  | some p =>
    obtain ⟨q, hq⟩ := (h.box p.box (by simp [pmap, hp])).1
    simp [step, Op.caller, hr, Op.exec, demonitor, hp, getMon, hq, delAlias, upd_at, Ref.id]

end Verif.World
