import Verif.MailboxSpec
/-!
# Properties C18–C22, C81: receiving messages

`contents b` (MailboxSpec) is the mailbox as one list of messages in arrival order, `asMsg τ x` is how the message `x`
reads as the requested type (`none`: other type). `Accepts` is what a filter accepts.
-/
namespace Verif.Mailbox
variable {B V T : Type}

/-- The filter accepts message `x` (read as type `T`). -/
def Accepts (τ : RecvType B V T) (filter : Msg T → Bool) (x : Item B V) : Prop :=
  ∃ m, asMsg τ x = some m ∧ filter m = true

/-- Everything that can happen to a mailbox. -/
inductive Ev (B V T : Type)
  | arrive (it : Item B V)
  | select (filter : Msg T → Bool) (strict : Bool)
  | resume (filter : Msg T → Bool) (strict : Bool)
  | remove (filter : Msg T → Bool) (strict : Bool)
  | setMons (mons : List (Ref × PMon))

def Ev.run (τ : RecvType B V T) (b : Box B V) : List (Ev B V T) → Box B V
  | [] => b
  | .arrive it :: es => run τ (deliver b it) es
  | .select f s :: es => run τ (Mailbox.select τ f s b).2 es
  | .resume f s :: es => run τ (Mailbox.resume τ f s b).2 es
  | .remove f s :: es => match Mailbox.remove τ f s b with
      | some b' => run τ b' es
      | none => b
  | .setMons m :: es => run τ { b with mons := m } es

def Box.empty : Box B V := ⟨[], [], [], []⟩

/-- Every reachable mailbox stashes only messages (hypothesis `WF` of the theorems below always holds). -/
theorem C18_reachable_wf (τ : RecvType B V T) (es : List (Ev B V T)) : WF (Ev.run τ (Box.empty : Box B V) es) := by
  have : ∀ b : Box B V, WF b → WF (Ev.run τ b es) := by
    induction es with
    | nil => intro b h; exact h
    | cons e es ih =>
      intro b h
      cases e with
      | arrive it => exact ih _ h
      | select f s => exact ih _ (select_pick τ f s b h).2.2.1
      | resume f s => exact ih _ (scanChan_pick τ f s b.items b.mons b.aliases b.chan h).2.2.1
      | remove f s =>
        simp only [Ev.run]
        have hr := remove_eq τ f s b h
        split
        · rename_i b' heq
          rw [heq] at hr
          exact ih _ hr.1
        · exact h
      | setMons m => exact ih _ h
  exact this _ (by simp [WF, Box.empty])

theorem pick_cases (τ : RecvType B V T) (filter : Msg T → Bool) (l : List (Item B V)) :
    (∃ pre it post m, l = pre ++ it :: post ∧ asMsg τ it = some m ∧ filter m = true ∧
        (∀ x ∈ pre, ¬ Accepts τ filter x) ∧
        pick τ filter false l = (.got m, pre.map (norm τ) ++ post)) ∨
    ((∀ x ∈ l, ¬ Accepts τ filter x) ∧ pick τ filter false l = (.pending, l.map (norm τ))) := by
  induction l with
  | nil => right; simp [pick]
  | cons it rest ih =>
    rw [pick]
    have step : ¬ Accepts τ filter it →
        (∃ pre it' post m, it :: rest = pre ++ it' :: post ∧ asMsg τ it' = some m ∧ filter m = true ∧
          (∀ x ∈ pre, ¬ Accepts τ filter x) ∧
          ((pick τ filter false rest).1, norm τ it :: (pick τ filter false rest).2)
            = (.got m, pre.map (norm τ) ++ post)) ∨
        ((∀ x ∈ it :: rest, ¬ Accepts τ filter x) ∧
          ((pick τ filter false rest).1, norm τ it :: (pick τ filter false rest).2)
            = (.pending, (it :: rest).map (norm τ))) := by
      intro hna
      rcases ih with ⟨pre, it', post, m, h1, h2, h3, h4, h5⟩ | ⟨h1, h2⟩
      · left
        refine ⟨it :: pre, it', post, m, by simp [h1], h2, h3, ?_, by simp [h5]⟩
        intro x hx
        rcases List.mem_cons.mp hx with rfl | hx
        · exact hna
        · exact h4 x hx
      · right
        refine ⟨?_, by simp [h2]⟩
        intro x hx
        rcases List.mem_cons.mp hx with rfl | hx
        · exact hna
        · exact h1 x hx
    cases hm : asMsg τ it with
    | some m =>
      by_cases hf : filter m = true
      · left
        exact ⟨[], it, rest, m, rfl, hm, hf, by simp, by simp [hf]⟩
      · simp only [hf]
        apply step
        rintro ⟨m', h1, h2⟩
        rw [hm] at h1
        cases h1
        exact hf h2
    | none =>
      simp only [Bool.false_eq_true, if_false]
      apply step
      rintro ⟨m', h1, _⟩
      rw [hm] at h1
      cases h1

/-- C18. A (non-strict) select returns the earliest accepted message; every other message stays, in order. When nothing
is accepted it keeps waiting and every message stays, in order. (`norm`: a serialized message that was inspected is
stored deserialized.) -/
theorem C18_select_earliest (τ : RecvType B V T) (filter : Msg T → Bool) (b : Box B V) (h : WF b) :
    (∃ pre it post m, contents b = pre ++ it :: post ∧ asMsg τ it = some m ∧ filter m = true ∧
        (∀ x ∈ pre, ¬ Accepts τ filter x) ∧
        (select τ filter false b).1 = .got m ∧
        contents (select τ filter false b).2 = pre.map (norm τ) ++ post) ∨
    ((∀ x ∈ contents b, ¬ Accepts τ filter x) ∧ (select τ filter false b).1 = .pending ∧
        contents (select τ filter false b).2 = (contents b).map (norm τ)) := by
  have hs := select_pick τ filter false b h
  rcases pick_cases τ filter (contents b) with ⟨pre, it, post, m, h1, h2, h3, h4, h5⟩ | ⟨h1, h2⟩
  · left
    rw [h5] at hs
    exact ⟨pre, it, post, m, h1, h2, h3, h4, hs.1, hs.2.1 (by rw [hs.1]; simp)⟩
  · right
    rw [h2] at hs
    exact ⟨h1, hs.1, hs.2.1 (by rw [hs.1]; simp)⟩

/-- Awaiting a select while messages arrive in batches: after each batch the pending future is polled again. -/
def pollsResume (τ : RecvType B V T) (filter : Msg T → Bool) (strict : Bool) (b : Box B V) :
    List (List (Item B V)) → Poll T × Box B V
  | [] => (.pending, b)
  | l :: ls =>
      match resume τ filter strict { b with chan := b.chan ++ l } with
      | (.pending, b') => pollsResume τ filter strict b' ls
      | (r, b') => (r, { b' with chan := b'.chan ++ ls.flatten })

def polls (τ : RecvType B V T) (filter : Msg T → Bool) (strict : Bool) (b : Box B V) (batches : List (List (Item B V))) :
    Poll T × Box B V :=
  match select τ filter strict b with
  | (.pending, b') => pollsResume τ filter strict b' batches
  | (r, b') => (r, { b' with chan := b'.chan ++ batches.flatten })

theorem pick_pending_normed (τ : RecvType B V T) (filter : Msg T → Bool) (strict : Bool) (l : List (Item B V))
    (h : (pick τ filter strict l).1 = .pending) :
    (pick τ filter strict l).2 = l.map (norm τ) ∧
      pick τ filter strict (l.map (norm τ)) = (.pending, l.map (norm τ)) := by
  induction l with
  | nil => simp [pick]
  | cons it rest ih =>
    rw [pick] at h
    rw [pick, List.map_cons, pick, asMsg_norm]
    cases hm : asMsg τ it with
    | some m =>
      rw [hm] at h
      simp only at h ⊢
      by_cases hf : filter m
      · simp [hf] at h
      · simp only [hf, Bool.false_eq_true, if_false] at h ⊢
        have := ih h
        simp [this.1, this.2, norm_norm]
    | none =>
      rw [hm] at h
      simp only at h ⊢
      by_cases hs : strict
      · simp [hs] at h
      · have hs' : strict = false := by simpa using hs
        subst hs'
        simp only [Bool.false_eq_true, if_false] at h ⊢
        have := ih h
        simp [this.1, this.2, norm_norm]

theorem pollsResume_spec (τ : RecvType B V T) (filter : Msg T → Bool) (strict : Bool) (batches : List (List (Item B V)))
    (b : Box B V) (h : WF b) (hc : b.chan = [])
    (hp : pick τ filter strict b.items = (.pending, b.items)) :
    let r := pollsResume τ filter strict b batches
    let whole := pick τ filter strict (b.items ++ visible (finalRefs b) batches.flatten)
    r.1 = whole.1 ∧ (r.1 ≠ .panicked → contents r.2 = whole.2) ∧ WF r.2 ∧ (r.1 = .pending → r.2.chan = []) := by
  induction batches generalizing b with
  | nil =>
    simp only [pollsResume, List.flatten_nil, visible, List.append_nil, hp]
    exact ⟨trivial, fun _ => by simp [contents, hc, visible], h, fun _ => hc⟩
  | cons l ls ih =>
    have hsc := scanChan_pick τ filter strict b.items b.mons b.aliases ([] ++ l) h
    have hfin := scanChan_final τ filter strict b.items b.mons b.aliases ([] ++ l)
    have hf0 : finalRefs b = b.mons.map Prod.fst := by simp [finalRefs, hc, leftRefs]
    simp only [List.nil_append] at hsc hfin
    simp only [pollsResume, resume, hc, List.nil_append, List.flatten_cons]
    rw [hf0, visible_append', ← List.append_assoc]
    have hpa : pick τ filter strict (b.items ++ visible (b.mons.map Prod.fst) l)
        = ((pick τ filter strict (visible (b.mons.map Prod.fst) l)).1,
            b.items ++ (pick τ filter strict (visible (b.mons.map Prod.fst) l)).2) := by
      rw [pick_append, hp]
    rw [pick_append, hpa]
    generalize hsv : scanChan τ filter strict b.items b.mons b.aliases l = sv at *
    obtain ⟨r, b'⟩ := sv
    simp only at hsc hfin ⊢
    rw [← hsc.1]
    cases r with
    | pending =>
      simp only
      have hcont := hsc.2.1 (by simp)
      have hch := hsc.2.2.2 rfl
      have hitems : b'.items = b.items ++ (pick τ filter strict (visible (b.mons.map Prod.fst) l)).2 := by
        rw [← hcont]; simp [contents, hch, visible]
      have hnorm := pick_pending_normed τ filter strict _ hsc.1.symm
      have hp' : pick τ filter strict b'.items = (.pending, b'.items) := by
        rw [hitems, pick_append, hp, hnorm.1, hnorm.2]
      have := ih b' hsc.2.2.1 hch hp'
      simp only at this
      rw [pick_append, hp', hfin, hitems] at this
      exact this
    | got m =>
      simp only
      refine ⟨trivial, ?_, hsc.2.2.1, ?_⟩
      · intro _
        rw [contents_deliver, hsc.2.1 (by simp), hfin]
      · intro hcc; cases hcc
    | panicked =>
      simp only
      refine ⟨trivial, ?_, hsc.2.2.1, ?_⟩
      · intro hcc; exact absurd rfl hcc
      · intro hcc; cases hcc

theorem polls_spec (τ : RecvType B V T) (filter : Msg T → Bool) (strict : Bool) (batches : List (List (Item B V)))
    (b : Box B V) (h : WF b) :
    let r := polls τ filter strict b batches
    let whole := pick τ filter strict (contents { b with chan := b.chan ++ batches.flatten })
    r.1 = whole.1 ∧ (r.1 ≠ .panicked → contents r.2 = whole.2) ∧ WF r.2 ∧ (r.1 = .pending → r.2.chan = []) := by
  have hs := select_pick τ filter strict b h
  have hfin := select_final τ filter strict b h
  simp only [polls]
  rw [contents_deliver, pick_append]
  generalize select τ filter strict b = sv at *
  obtain ⟨r, b'⟩ := sv
  simp only at hs hfin ⊢
  rw [← hs.1]
  cases r with
  | pending =>
    simp only
    have hch := hs.2.2.2 rfl
    have hcont := hs.2.1 (by simp)
    have hitems : b'.items = (pick τ filter strict (contents b)).2 := by
      rw [← hcont]; simp [contents, hch, visible]
    have hnorm := pick_pending_normed τ filter strict _ hs.1.symm
    have hp' : pick τ filter strict b'.items = (.pending, b'.items) := by
      rw [hitems, hnorm.1, hnorm.2]
    have := pollsResume_spec τ filter strict batches b' hs.2.2.1 hch hp'
    simp only at this
    rw [pick_append, hp', hfin] at this
    rw [← hitems]
    exact this
  | got m =>
    simp only
    refine ⟨trivial, ?_, hs.2.2.1, ?_⟩
    · intro _
      rw [contents_deliver, hs.2.1 (by simp), hfin]
    · intro hcc; cases hcc
  | panicked =>
    simp only
    refine ⟨trivial, ?_, hs.2.2.1, ?_⟩
    · intro hcc; exact absurd rfl hcc
    · intro hcc; cases hcc

/-- C18. The timing of arrivals does not matter: awaiting a select while messages arrive in any batches gives the same
message and leaves the same mailbox as if everything had arrived before the call. -/
theorem C18_schedule_independent (τ : RecvType B V T) (filter : Msg T → Bool) (b : Box B V) (h : WF b)
    (batches : List (List (Item B V))) :
    let early := select τ filter false { b with chan := b.chan ++ batches.flatten }
    (polls τ filter false b batches).1 = early.1 ∧
      contents (polls τ filter false b batches).2 = contents early.2 := by
  have hp := polls_spec τ filter false batches b h
  have hs := select_pick τ filter false { b with chan := b.chan ++ batches.flatten } h
  have hnp : ∀ l, (pick τ filter false l).1 ≠ .panicked := by
    intro l
    rcases pick_cases τ filter l with ⟨_, _, _, _, _, _, _, _, h5⟩ | ⟨_, h2⟩
    · rw [h5]; simp
    · rw [h2]; simp
  simp only at hp ⊢
  refine ⟨by rw [hp.1, hs.1], ?_⟩
  rw [hp.2.1 (by rw [hp.1]; exact hnp _), hs.2.1 (by rw [hs.1]; exact hnp _)]

/-! Non-vacuity: numbers as messages. -/

/-- Boxed values: numbers or text. Serialized form: a number. -/
def natType : RecvType Nat (Nat ⊕ String) Nat where
  deser b := some b
  cast := fun | .inl n => some n | .inr _ => none
  box := .inl
  cast_box _ := rfl

def sampleBox : Box Nat (Nat ⊕ String) :=
  ⟨[.locl (.inl 1), .locl (.inr "x")], [.remote 2, .down (.pid (.loc 9)) (.loc 4) .kill, .locl (.inl 3)],
    [(.loc 4, .forProcess (some (.loc 9)))], []⟩

def isUser3 : Msg Nat → Bool
  | .user 3 => true
  | _ => false

example : WF sampleBox ∧ (select natType isUser3 false sampleBox).1 = .got (.user 3) := by
  refine ⟨?_, by decide⟩
  intro it hit
  simp [sampleBox] at hit
  rcases hit with rfl | rfl <;> exact trivial

/-- C19. First-in first-out: over any history of arrivals and (non-strict) receives, the messages returned so far followed
by those still waiting are exactly the messages of that type that arrived, in arrival order; messages of other types
all stay, in order. -/
def runFifo (τ : RecvType B V T) (b : Box B V) : List (Option (Item B V)) → List (Msg T) × Box B V
  | [] => ([], b)
  | some it :: es => runFifo τ (deliver b it) es
  | none :: es =>
      match receive τ false b with
      | (.got m, b') => (m :: (runFifo τ b' es).1, (runFifo τ b' es).2)
      | (_, b') => runFifo τ b' es

theorem asMsg_isNone_norm (τ : RecvType B V T) (it : Item B V) (h : asMsg τ it = none) : norm τ it = it := by
  cases it with
  | remote b =>
    simp only [asMsg, Option.map_eq_none_iff] at h
    simp [norm, h]
  | _ => rfl

/-- Messages that do not read as type `T`. -/
def foreign (τ : RecvType B V T) (l : List (Item B V)) : List (Item B V) := l.filter fun x => (asMsg τ x).isNone

theorem foreign_map_norm (τ : RecvType B V T) (l : List (Item B V)) : foreign τ (l.map (norm τ)) = foreign τ l := by
  induction l with
  | nil => rfl
  | cons x l ih =>
    simp only [foreign, List.map_cons, List.filter_cons, asMsg_norm] at ih ⊢
    cases hm : asMsg τ x with
    | none => simp [ih, asMsg_isNone_norm τ x hm]
    | some m => simp [ih]

theorem filterMap_map_norm (τ : RecvType B V T) (l : List (Item B V)) :
    (l.map (norm τ)).filterMap (asMsg τ) = l.filterMap (asMsg τ) := by
  rw [List.filterMap_map]
  congr 1
  funext x
  exact asMsg_norm τ x

theorem C19_receive_fifo (τ : RecvType B V T) (es : List (Option (Item B V))) (b : Box B V) (h : WF b) :
    let all := contents { b with chan := b.chan ++ es.filterMap id }
    (runFifo τ b es).1 ++ (contents (runFifo τ b es).2).filterMap (asMsg τ) = all.filterMap (asMsg τ) ∧
    foreign τ (contents (runFifo τ b es).2) = foreign τ all := by
  induction es generalizing b with
  | nil => simp [runFifo]
  | cons e es ih =>
    cases e with
    | some it =>
      have := ih (deliver b it) h
      simp only [runFifo]
      simpa [deliver] using this
    | none =>
      simp only [runFifo, List.filterMap_cons_none, id]
      have hs := select_pick τ (fun _ => true) false b h
      have hfin := select_final τ (fun _ => true) false b h
      change (receive τ false b).1 = _ ∧ _ at hs
      change finalRefs (receive τ false b).2 = _ at hfin
      have hcase := pick_cases τ (fun _ => true) (contents b)
      rw [contents_deliver]
      generalize hrv : receive τ false b = rv at *
      obtain ⟨r, b'⟩ := rv
      simp only at hs hfin
      rcases hcase with ⟨pre, it, post, m, h1, h2, _, h4, h5⟩ | ⟨h1, h2⟩
      · have hcont : contents b' = pre.map (norm τ) ++ post := by
          have hr : r = .got m := by rw [hs.1, h5]
          have := hs.2.1 (by simp [receive] at hrv ⊢; rw [hrv]; simp [hr])
          have hb : (select τ (fun _ => true) false b).2 = b' := by
            have := congrArg Prod.snd hrv; simpa [receive] using this
          rw [hb, h5] at this; exact this
        have hr : r = .got m := by rw [hs.1, h5]
        subst hr
        have hpre : ∀ x ∈ pre, asMsg τ x = none := by
          intro x hx
          cases hm : asMsg τ x with
          | none => rfl
          | some m' => exact absurd ⟨m', hm, rfl⟩ (h4 x hx)
        have hpre0 : pre.filterMap (asMsg τ) = [] := List.filterMap_eq_nil_iff.mpr hpre
        have hwf : WF b' := by
          have hb : (select τ (fun _ => true) false b).2 = b' := by
            have := congrArg Prod.snd hrv; simpa [receive] using this
          rw [← hb]; exact (select_pick τ (fun _ => true) false b h).2.2.1
        have := ih b' hwf
        rw [contents_deliver, hfin, hcont] at this
        simp only at this ⊢
        rw [h1]
        constructor
        · rw [List.cons_append, this.1]
          simp only [List.filterMap_append, filterMap_map_norm, hpre0, List.filterMap_cons, h2, List.nil_append,
            List.append_assoc, List.cons_append]
        · rw [this.2]
          have hfi : foreign τ [it] = [] := by simp [foreign, h2]
          have happ : ∀ a c : List (Item B V), foreign τ (a ++ c) = foreign τ a ++ foreign τ c := by
            intro a c; simp [foreign]
          rw [show pre ++ it :: post = pre ++ ([it] ++ post) by simp]
          simp only [happ, foreign_map_norm, hfi, List.nil_append]
      · have hr : r = .pending := by rw [hs.1, h2]
        have hb : (select τ (fun _ => true) false b).2 = b' := by
          have := congrArg Prod.snd hrv; simpa [receive] using this
        have hcont : contents b' = (contents b).map (norm τ) := by
          have := hs.2.1 (by simp [receive] at hrv ⊢; rw [hrv]; simp [hr])
          rw [hb, h2] at this; exact this
        have hwf : WF b' := by
          rw [← hb]; exact (select_pick τ (fun _ => true) false b h).2.2.1
        subst hr
        have := ih b' hwf
        rw [contents_deliver, hfin, hcont] at this
        have happ : ∀ a c : List (Item B V), foreign τ (a ++ c) = foreign τ a ++ foreign τ c := by
          intro a c; simp [foreign]
        simp only [happ, foreign_map_norm, List.filterMap_append, filterMap_map_norm] at this ⊢
        exact this

example : (runFifo natType (Box.empty : Box Nat (Nat ⊕ String))
    [some (.remote 5), none, some (.locl (.inr "t")), some (.locl (.inl 6)), none, none]).1
    = [.user 5, .user 6] := by decide

/-- A list of selects, each with the batches that arrive while it waits, all cancelled. -/
def cancelAll (τ : RecvType B V T) (b : Box B V) : List ((Msg T → Bool) × List (List (Item B V))) → Box B V
  | [] => b
  | (f, batches) :: cs => cancelAll τ (polls τ f false b batches).2 cs

/-- All of them were still waiting when cancelled. -/
def allPending (τ : RecvType B V T) (b : Box B V) : List ((Msg T → Bool) × List (List (Item B V))) → Prop
  | [] => True
  | (f, batches) :: cs =>
      (polls τ f false b batches).1 = .pending ∧ allPending τ (polls τ f false b batches).2 cs

theorem pollsResume_final (τ : RecvType B V T) (filter : Msg T → Bool) (strict : Bool) (batches : List (List (Item B V)))
    (b : Box B V) (hpend : (pollsResume τ filter strict b batches).1 = .pending) :
    finalRefs (pollsResume τ filter strict b batches).2
      = finalRefs { b with chan := b.chan ++ batches.flatten } := by
  induction batches generalizing b with
  | nil => simp [pollsResume]
  | cons l ls ih =>
    simp only [pollsResume, resume] at hpend ⊢
    have hf := scanChan_final τ filter strict b.items b.mons b.aliases (b.chan ++ l)
    generalize scanChan τ filter strict b.items b.mons b.aliases (b.chan ++ l) = sv at *
    obtain ⟨r, b'⟩ := sv
    have lapp : ∀ (refs : List Ref) (x y : List (Item B V)), leftRefs refs (x ++ y) = leftRefs (leftRefs refs x) y := by
      intro refs x
      induction x generalizing refs with
      | nil => intro y; rfl
      | cons it rest ihx =>
        intro y
        cases it <;> simp only [List.cons_append, leftRefs, ihx]
        all_goals split <;> rfl
    cases r with
    | pending =>
      simp only at hpend hf ⊢
      rw [ih b' hpend]
      simp only [finalRefs, List.flatten_cons, ← List.append_assoc] at hf ⊢
      rw [lapp, hf, lapp _ (b.chan ++ l)]
    | got m => simp at hpend
    | panicked => simp at hpend

/-- C20. Cancelling receives loses nothing: after any number of cancelled selects of type `T`, with messages arriving
meanwhile, the mailbox reads — for receives of type `T` — exactly like one into which all those messages were
delivered and nothing else happened; no message is lost, duplicated or reordered. -/
theorem C20_cancel_loses_nothing (τ : RecvType B V T) (cs : List ((Msg T → Bool) × List (List (Item B V))))
    (b : Box B V) (h : WF b) (hp : allPending τ b cs) :
    (contents (cancelAll τ b cs)).map (asMsg τ)
      = (contents { b with chan := b.chan ++ (cs.map fun c => c.2.flatten).flatten }).map (asMsg τ) ∧
    (contents (cancelAll τ b cs)).length
      = (contents { b with chan := b.chan ++ (cs.map fun c => c.2.flatten).flatten }).length := by
  suffices hsuf : (contents (cancelAll τ b cs)).map (asMsg τ)
      = (contents { b with chan := b.chan ++ (cs.map fun c => c.2.flatten).flatten }).map (asMsg τ) by
    exact ⟨hsuf, by simpa using congrArg List.length hsuf⟩
  induction cs generalizing b with
  | nil => simp [cancelAll]
  | cons c cs ih =>
    obtain ⟨f, batches⟩ := c
    obtain ⟨hp1, hp2⟩ := hp
    have hps := polls_spec τ f false batches b h
    simp only at hps
    have hrec := ih _ hps.2.2.1 hp2
    simp only [cancelAll, List.map_cons, List.flatten_cons]
    rw [hrec, contents_deliver]
    rw [show b.chan ++ (batches.flatten ++ (cs.map fun c => c.2.flatten).flatten)
        = (b.chan ++ batches.flatten) ++ (cs.map fun c => c.2.flatten).flatten by simp]
    have hall : contents { b with chan := (b.chan ++ batches.flatten) ++ (cs.map fun c => c.2.flatten).flatten }
        = contents { b with chan := b.chan ++ batches.flatten } ++
          visible (finalRefs { b with chan := b.chan ++ batches.flatten }) (cs.map fun c => c.2.flatten).flatten :=
      contents_deliver { b with chan := b.chan ++ batches.flatten } _
    rw [hall]
    have hpk : (pick τ f false (contents { b with chan := b.chan ++ batches.flatten })).1 = .pending := by
      rw [← hps.1]; exact hp1
    have hn := pick_pending_normed τ f false _ hpk
    have hcont := hps.2.1 (by rw [hp1]; simp)
    have hfinal : finalRefs (polls τ f false b batches).2 = finalRefs { b with chan := b.chan ++ batches.flatten } := by
      have hsf := select_final τ f false b h
      simp only [polls] at hp1 ⊢
      generalize select τ f false b = sv at *
      obtain ⟨r, b'⟩ := sv
      cases r with
      | pending =>
        simp only at hp1 hsf ⊢
        rw [pollsResume_final τ f false batches b' hp1]
        have lapp : ∀ (refs : List Ref) (x y : List (Item B V)),
            leftRefs refs (x ++ y) = leftRefs (leftRefs refs x) y := by
          intro refs x
          induction x generalizing refs with
          | nil => intro y; rfl
          | cons it rest ihx =>
            intro y
            cases it <;> simp only [List.cons_append, leftRefs, ihx]
            all_goals split <;> rfl
        simp only [finalRefs] at hsf ⊢
        rw [lapp, hsf, lapp]
      | got m => simp at hp1
      | panicked => simp at hp1
    rw [List.map_append, List.map_append, hcont, hn.1, hfinal]
    congr 1
    rw [List.map_map]
    apply List.map_congr_left
    intro x _
    exact asMsg_norm τ x

example : allPending natType sampleBox [(fun _ => false, [[.remote 8], []]), (fun m => m = .user 100, [[.locl (.inl 4)]])] := by
  refine ⟨by decide, by decide, trivial⟩

/-- C21. A non-strict select never panics. -/
theorem C21_nonstrict_never_panics (τ : RecvType B V T) (filter : Msg T → Bool) (b : Box B V) (h : WF b) :
    (select τ filter false b).1 ≠ .panicked := by
  rcases C18_select_earliest τ filter b h with ⟨_, _, _, _, _, _, _, _, h5, _⟩ | ⟨_, h2, _⟩
  · rw [h5]; simp
  · rw [h2]; simp

theorem pick_strict (τ : RecvType B V T) (filter : Msg T → Bool) (l : List (Item B V)) :
    ((∃ pre it post, l = pre ++ it :: post ∧ asMsg τ it = none ∧
        (∀ x ∈ pre, ¬ Accepts τ filter x)) → (pick τ filter true l).1 = .panicked) ∧
    ((pick τ filter true l).1 ≠ .panicked → pick τ filter true l = pick τ filter false l) ∧
    ((pick τ filter true l).1 = .panicked → ∃ pre it post, l = pre ++ it :: post ∧ asMsg τ it = none ∧
        (∀ x ∈ pre, ¬ Accepts τ filter x)) := by
  induction l with
  | nil =>
    refine ⟨?_, by simp [pick], by simp [pick]⟩
    rintro ⟨pre, it, post, h, _⟩
    simp at h
  | cons y rest ih =>
    cases hm : asMsg τ y with
    | none =>
      refine ⟨fun _ => by simp [pick, hm], fun hc => ?_, fun _ => ⟨[], y, rest, rfl, hm, by simp⟩⟩
      exfalso; apply hc; simp [pick, hm]
    | some m =>
      by_cases hf : filter m = true
      · refine ⟨?_, fun _ => by simp [pick, hm, hf], fun hc => ?_⟩
        · rintro ⟨pre, it, post, h1, h2, h3⟩
          cases pre with
          | nil =>
            simp only [List.nil_append, List.cons.injEq] at h1
            rw [← h1.1, hm] at h2; cases h2
          | cons z pre =>
            simp only [List.cons_append, List.cons.injEq] at h1
            have := h3 z (by simp)
            rw [← h1.1] at this
            exact absurd ⟨m, hm, hf⟩ this
        · simp [pick, hm, hf] at hc
      · have hna : ¬ Accepts τ filter y := by
          rintro ⟨m', h1, h2⟩
          rw [hm] at h1; cases h1; exact hf h2
        refine ⟨?_, ?_, ?_⟩
        · rintro ⟨pre, it, post, h1, h2, h3⟩
          cases pre with
          | nil =>
            simp only [List.nil_append, List.cons.injEq] at h1
            rw [← h1.1, hm] at h2; cases h2
          | cons z pre =>
            simp only [List.cons_append, List.cons.injEq] at h1
            have := ih.1 ⟨pre, it, post, h1.2, h2, fun x hx => h3 x (by simp [hx])⟩
            simp [pick, hm, hf, this]
        · intro hc
          simp only [pick, hm, hf, Bool.false_eq_true, if_false] at hc ⊢
          rw [ih.2.1 hc]
        · intro hc
          simp only [pick, hm, hf, Bool.false_eq_true, if_false] at hc
          obtain ⟨pre, it, post, h1, h2, h3⟩ := ih.2.2 hc
          refine ⟨y :: pre, it, post, by simp [h1], h2, ?_⟩
          intro x hx
          rcases List.mem_cons.mp hx with rfl | hx
          · exact hna
          · exact h3 x hx

/-- C21. A strict select panics exactly when a message of another type comes before the first accepted one; otherwise it
behaves like a non-strict one. -/
theorem C21_strict_panics_iff (τ : RecvType B V T) (filter : Msg T → Bool) (b : Box B V) (h : WF b) :
    ((select τ filter true b).1 = .panicked ↔
      ∃ pre it post, contents b = pre ++ it :: post ∧ asMsg τ it = none ∧ (∀ x ∈ pre, ¬ Accepts τ filter x)) ∧
    ((select τ filter true b).1 ≠ .panicked →
      (select τ filter true b).1 = (select τ filter false b).1 ∧
      contents (select τ filter true b).2 = contents (select τ filter false b).2) := by
  have hs := select_pick τ filter true b h
  have hn := select_pick τ filter false b h
  have hp := pick_strict τ filter (contents b)
  constructor
  · rw [hs.1]; exact ⟨hp.2.2, hp.1⟩
  · intro hne
    rw [hs.1] at hne
    have heq := hp.2.1 hne
    refine ⟨by rw [hs.1, hn.1, heq], ?_⟩
    rw [hs.2.1 (by rw [hs.1]; exact hne), hn.2.1 (C21_nonstrict_never_panics τ filter b h), heq]

example : (select natType isUser3 true sampleBox).1 = .panicked := by decide

/-- C22. `remove` (non-strict) deletes exactly the accepted messages that have arrived and keeps the others in order. -/
theorem C22_remove_exact (τ : RecvType B V T) (filter : Msg T → Bool) (b : Box B V) (h : WF b) :
    ∃ b', remove τ filter false b = some b' ∧ WF b' ∧
      contents b' = ((contents b).map (norm τ)).filter fun x => !((asMsg τ x).any filter) := by
  have hr := remove_eq τ filter false b h
  have hd : ∀ l : List (Item B V), dropAll τ filter false l
      = some ((l.map (norm τ)).filter fun x => !((asMsg τ x).any filter)) := by
    intro l
    induction l with
    | nil => rfl
    | cons it rest ih =>
      rw [dropAll, List.map_cons, List.filter_cons, asMsg_norm]
      cases hm : asMsg τ it with
      | some m => by_cases hf : filter m <;> simp [ih, hf]
      | none => simp [ih]
  rw [hd] at hr
  split at hr
  · cases hr
  · rename_i b' heq
    exact ⟨b', heq, hr.1, (Option.some.inj hr.2.2).symm⟩

example : ∃ b', remove natType isUser3 false sampleBox = some b' ∧ (contents b').length = 4 := by
  refine ⟨_, rfl, by decide⟩

/-- The other type of the C81 witness. -/
def strType : RecvType Nat (Nat ⊕ String) String where
  deser b := if b < 10 then some "small" else none
  cast := fun | .inl _ => none | .inr s => some s
  box := .inr
  cast_box _ := rfl

/-- C81 (violated). Looking for a message of one type can make a message undeliverable for a receive of another type: a
serialized message that happens to deserialize as the first type is converted to it even though the filter rejects
it. -/
theorem C81_other_type_unaffected_violated :
    ¬ ∀ (b : Box Nat (Nat ⊕ String)) (f : Msg Nat → Bool) (g : Msg String → Bool), WF b →
        (select natType f false b).1 = .pending →
        (select strType g false (select natType f false b).2).1 = (select strType g false b).1 := by
  intro h
  have := h ⟨[], [.remote 5], [], []⟩ (fun _ => false) (fun _ => true) (by simp [WF]) (by decide)
  exact absurd this (by decide)

/-- C81 (what holds). A receive of type `T` leaves every message that does not read as `T` untouched for receives of any
other type, and every message that was sent inside the process's own node (not serialized). Missing: serialized
messages that deserialize as both types. -/
theorem C81_other_type_unaffected_partial (τ : RecvType B V T) (filter : Msg T → Bool) (b : Box B V) (h : WF b)
    (hno : ∀ x ∈ contents b, ∀ bytes, x = .remote bytes → τ.deser bytes = none)
    (hp : (select τ filter false b).1 = .pending) : contents (select τ filter false b).2 = contents b := by
  rcases C18_select_earliest τ filter b h with ⟨_, _, _, _, _, _, _, _, h5, _⟩ | ⟨_, _, h3⟩
  · rw [hp] at h5; cases h5
  · rw [h3]
    conv => rhs; rw [← List.map_id (contents b)]
    apply List.map_congr_left
    intro x hx
    cases x with
    | remote bytes => simp [norm, hno _ hx bytes rfl]
    | _ => rfl

example : ∀ x ∈ contents (⟨[], [.remote 50], [], []⟩ : Box Nat (Nat ⊕ String)), ∀ bytes, x = .remote bytes →
    strType.deser bytes = none := by
  intro x hx bytes he
  simp [contents, visible] at hx
  rw [he] at hx
  cases hx
  rfl

end Verif.Mailbox
