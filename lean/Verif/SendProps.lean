import Verif.ProcessProps
/-!
# Sending (C38, C39, C55)
-/
namespace Verif.World
open Verif.Mailbox
variable {B V : Type}

/-- Between `w` and `w'` exactly the items `D` (receiver, item) were put in mailboxes, in this order; nothing else of any
process changed. -/
structure Delivers (w w' : World B V) (D : List (Nat × Item B V)) : Prop where
  sent : w'.sent = w.sent ++ D
  box : ∀ i, w'.procs i = (w.procs i).map fun p =>
    { p with box := { p.box with chan := p.box.chan ++ (D.filter (·.1 == i)).map Prod.snd } }
  names : w'.names = w.names
  links : w'.links = w.links
  mons : w'.mons = w.mons

theorem Delivers.refl (w : World B V) : Delivers w w [] where
  sent := by simp
  box := by intro i; cases w.procs i <;> simp
  names := rfl
  links := rfl
  mons := rfl

theorem Delivers.of_eq {w w' : World B V} (h1 : w'.sent = w.sent) (h2 : w'.procs = w.procs) (h3 : w'.names = w.names)
    (h4 : w'.links = w.links) (h5 : w'.mons = w.mons) : Delivers w w' [] where
  sent := by simp [h1]
  box := by intro i; rw [h2]; cases w.procs i <;> simp
  names := h3
  links := h4
  mons := h5

theorem Delivers.trans {a b c : World B V} {D E : List (Nat × Item B V)} (h1 : Delivers a b D) (h2 : Delivers b c E) :
    Delivers a c (D ++ E) where
  sent := by rw [h2.sent, h1.sent, List.append_assoc]
  box := by
    intro i
    rw [h2.box, h1.box]
    cases a.procs i <;> simp [List.filter_append]
  names := h2.names.trans h1.names
  links := h2.links.trans h1.links
  mons := h2.mons.trans h1.mons

theorem delivers_put (w : World B V) (i : Nat) (it : Item B V) :
    Delivers w (put w i it) (if (w.procs i).isSome then [(i, it)] else []) where
  sent := by simp
  box := by
    intro j
    simp only [put_procs_eq, upd_at]
    by_cases hj : j = i
    · subst hj
      cases h : w.procs j <;> simp [deliver]
    · rw [if_neg hj]
      cases h : w.procs j <;> simp
      split <;> simp [Ne.symm hj]
  names := by simp
  links := by simp
  mons := by simp

/-- Is it a user message? -/
def isUser : Item B V → Bool
  | .remote _ | .locl _ => true
  | _ => false

/-- The mailbox a local destination stands for: an existing process, by pid, name or active alias. -/
def targetOf (w : World B V) : Dest → Option Nat
  | .pid (.loc i) => if exists? w i then some i else none
  | .named n .loc => (w.names n).bind fun i => if exists? w i then some i else none
  | .alias (.loc r) => (w.aliases r).bind fun a => if exists? w a.1 then some a.1 else none
  | _ => none

/-- An active one-shot (reply) alias. -/
def oneShot (w : World B V) : Dest → Prop
  | .alias (.loc r) => ∃ o, w.aliases r = some (o, true)
  | _ => False

/-- Number of user messages for `i` in `D`. -/
def userCount (i : Nat) (D : List (Nat × Item B V)) : Nat := (D.filter fun x => x.1 == i && isUser x.2).length

theorem userCount_append (i : Nat) (D E : List (Nat × Item B V)) : userCount i (D ++ E) = userCount i D + userCount i E := by
  simp [userCount]

/-- Every user item of `D` is one of the two given items. -/
def OnlyUser (P : Item B V → Prop) (D : List (Nat × Item B V)) : Prop := ∀ x ∈ D, isUser x.2 = true → P x.2

/-- Resolution of destinations is the same, except for used up one-shot aliases. -/
structure SameTargets (w w' : World B V) (used : Dest → Prop) : Prop where
  target : ∀ d, (used d → ¬ oneShot w d) → targetOf w' d = targetOf w d
  shots : ∀ d, oneShot w' d → oneShot w d

theorem exists_delivers {w w' : World B V} {D : List (Nat × Item B V)} (h : Delivers w w' D) (i : Nat) :
    exists? w' i = exists? w i := by
  unfold exists?; rw [h.box]; cases w.procs i <;> rfl

theorem sameTargets_of {w w' : World B V} {D : List (Nat × Item B V)} {used : Dest → Prop} (h : Delivers w w' D)
    (ha : w'.aliases = w.aliases) : SameTargets w w' used where
  target := by
    intro d _
    unfold targetOf
    split <;> simp [exists_delivers h, h.names, ha]
  shots := by
    intro d hd
    unfold oneShot at *
    split <;> simp_all

theorem SameTargets.trans {a b c : World B V} {U U' : Dest → Prop} (h1 : SameTargets a b U) (h2 : SameTargets b c U') :
    SameTargets a c (fun d => U d ∨ U' d) where
  target := by
    intro d hd
    rw [h2.target d (fun hu ho => hd (.inr hu) (h1.shots d ho)), h1.target d (fun hu => hd (.inl hu))]
  shots := fun d hd => h1.shots d (h2.shots d hd)

/-- Delivery of one user item to a local destination. -/
theorem sendLocal_spec (w : World B V) (d : Dest) (it : Item B V) (hd : destLocal d = true) (hit : isUser it = true) :
    ∃ D, Delivers w (sendLocal w d it) D ∧ (∀ i, userCount i D = if targetOf w d = some i then 1 else 0) ∧
      OnlyUser (· = it) D ∧ SameTargets w (sendLocal w d it) (· = d) ∧
      (∀ x ∈ D, isUser x.2 = false → ∃ r, x.2 = .aliasOff r ∧ d = .alias (.loc r)) := by
  have hput : ∀ (j : Nat) (w : World B V), (∀ i, userCount i (if (w.procs j).isSome then [(j, it)] else []) =
        if (if exists? w j then some j else none) = some i then 1 else 0) ∧
      OnlyUser (· = it) (if (w.procs j).isSome then [(j, it)] else []) ∧
      (∀ x ∈ (if (w.procs j).isSome then [(j, it)] else []), isUser x.2 = true) := by
    intro j w
    unfold exists? userCount OnlyUser
    cases h : (w.procs j).isSome <;> simp [hit]
    intro i; by_cases hij : j = i <;> simp [hij, hit]
  cases d with
  | pid p =>
    cases p with
    | rem i n => simp [destLocal, Pid.isLocal] at hd
    | loc i =>
      refine ⟨_, delivers_put w i it, (hput i w).1, (hput i w).2.1, ?_, ?_⟩
      · exact sameTargets_of (delivers_put w i it) (by simp [sendLocal])
      · intro x hx hu; rw [(hput i w).2.2 x hx] at hu; simp at hu
  | named n node =>
    cases node with
    | rem a b => simp [destLocal] at hd
    | loc =>
      rcases (show w.names n = none ∨ ∃ i, w.names n = some i by cases w.names n <;> simp) with hn | ⟨i, hn⟩ <;>
        simp only [sendLocal, targetOf, hn]
      · exact ⟨[], .refl w, by simp [userCount], by simp [OnlyUser], sameTargets_of (.refl w) rfl, by simp⟩
      · refine ⟨_, delivers_put w i it, (hput i w).1, (hput i w).2.1, ?_, ?_⟩
        · exact sameTargets_of (delivers_put w i it) (by simp)
        · intro x hx hu; rw [(hput i w).2.2 x hx] at hu; simp at hu
  | «alias» r =>
    cases r with
    | rem a b => simp [destLocal, Ref.isLocal] at hd
    | loc r =>
      rcases (show w.aliases r = none ∨ ∃ a, w.aliases r = some a by cases w.aliases r <;> simp) with ha | ⟨⟨i, b⟩, ha⟩ <;>
        simp only [sendLocal, putAlias, targetOf, Ref.id, ha]
      · exact ⟨[], .refl w, by simp [userCount], by simp [OnlyUser], sameTargets_of (.refl w) rfl, by simp⟩
      · skip
        cases b with
        | false =>
          refine ⟨_, delivers_put w i it, (hput i w).1, (hput i w).2.1, ?_, ?_⟩
          · exact sameTargets_of (delivers_put w i it) (by simp)
          · intro x hx hu; rw [(hput i w).2.2 x hx] at hu; simp at hu
        | true =>
          simp only []
          have d1 : Delivers w (delAlias w (.loc r)) [] := .of_eq rfl rfl rfl rfl rfl
          have d2 := delivers_put (delAlias w (.loc r)) i (.aliasOff r : Item B V)
          have d3 := delivers_put (put (delAlias w (.loc r)) i (.aliasOff r)) i it
          have hD2 : ∀ x ∈ (if ((delAlias w (.loc r)).procs i).isSome then [(i, (.aliasOff r : Item B V))] else []),
              x.2 = .aliasOff r := by
            intro x hx; split at hx <;> simp at hx; rw [hx]
          generalize (if ((delAlias w (.loc r)).procs i).isSome then [(i, (.aliasOff r : Item B V))] else []) = D2 at d2 hD2
          have hD2u : ∀ j, userCount j D2 = 0 := by
            intro j
            simp only [userCount, List.length_eq_zero_iff, List.filter_eq_nil_iff]
            intro x hx; rw [hD2 x hx]; simp [isUser]
          refine ⟨_, (d1.trans d2).trans d3, ?_, ?_, ?_, ?_⟩
          · intro j
            have h3 := (hput i (put (delAlias w (.loc r)) i (.aliasOff r))).1 j
            rw [userCount_append, h3]
            have : exists? (put (delAlias w (.loc r)) i (.aliasOff r)) i = exists? w i := by
              rw [exists_delivers d2]; rfl
            rw [this]
            rw [List.nil_append, hD2u]; simp
          · have h3 := (hput i (put (delAlias w (.loc r)) i (.aliasOff r))).2.1
            intro x hx hu
            rcases List.mem_append.1 hx with hx | hx
            · rw [hD2 x (by simpa using hx)] at hu; simp [isUser] at hu
            · exact h3 x hx hu
          · refine ⟨?_, ?_⟩
            · intro d hu
              have hex : ∀ j, exists? (put (put (delAlias w (.loc r)) i (.aliasOff r)) i it) j = exists? w j := by
                intro j; rw [exists_delivers ((d1.trans d2).trans d3)]
              unfold targetOf
              split
              · rw [hex]
              · simp [hex]
              · rename_i a
                simp only [put_aliases_eq, delAlias_aliases_eq, Ref.id, upd_at, hex]
                by_cases har : a = r
                · subst har
                  exact absurd ⟨i, ha⟩ (hu rfl)
                · rw [if_neg har]
              · rfl
            · intro d hd
              unfold oneShot at hd
              split at hd
              · rename_i a
                simp only [put_aliases_eq, delAlias_aliases_eq, Ref.id, upd_at] at hd
                obtain ⟨o, ho⟩ := hd
                split at ho
                · simp at ho
                · exact ⟨o, ho⟩
              · exact hd.elim
          · have h3 := (hput i (put (delAlias w (.loc r)) i (.aliasOff r))).2.2
            intro x hx hu
            rcases List.mem_append.1 hx with hx | hx
            · exact ⟨r, hD2 x (by simpa using hx), rfl⟩
            · rw [h3 x hx] at hu; simp at hu

/-! ## C39 -/

/-- A local destination that stands for no process. A one-shot alias of a dead process would still be removed, so it is
excluded (`C37`: the aliases of a dead process are removed with it). -/
def Missing (w : World B V) : Dest → Prop
  | .pid (.loc i) => w.procs i = none
  | .named n .loc => w.names n = none
  | .alias (.loc r) => w.aliases r = none
  | _ => False

theorem missing_local (w : World B V) (d : Dest) (h : Missing w d) : destLocal d = true := by
  unfold Missing at h; split at h <;> simp_all [destLocal, Pid.isLocal, Ref.isLocal]

theorem sendLocal_missing (w : World B V) (d : Dest) (it : Item B V) (h : Missing w d) : sendLocal w d it = w := by
  unfold Missing at h; split at h <;> simp_all [sendLocal, put, Pid.id, putAlias, Ref.id]

/-- C39. Sending to any list of local pids, names and aliases that do not exist leaves the whole runtime unchanged. -/
theorem C39_missing_many (ser : V → B) (w : World B V) (l : List Dest) (v : V) (h : ∀ d ∈ l, Missing w d) :
    send ser w (.many l) v = w := by
  have hl : ∀ (l : List Dest) (f : Option Dest), (∀ d ∈ l, Missing w d) → (∀ d ∈ f, Missing w d) →
      ∃ f', sendLoop ser v w f [] l = (w, f', []) ∧ ∀ d ∈ f', Missing w d := by
    intro l
    induction l with
    | nil => intro f _ hf; exact ⟨f, rfl, hf⟩
    | cons d l ih =>
      intro f h hf
      have hm := h d List.mem_cons_self
      have hd := missing_local w d hm
      unfold sendLoop
      rw [hd]
      cases f with
      | none => simpa using ih (some d) (fun d hd => h d (.tail _ hd)) (by simpa using hm)
      | some f =>
        simp [sendLocal_missing w d _ hm]
        exact ih (some f) (fun d hd => h d (.tail _ hd)) (by simpa using hf)
  obtain ⟨f', he, hf⟩ := hl l none h (by simp)
  unfold send
  simp only [he, List.foldl_nil]
  cases f' with
  | none => rfl
  | some d =>
    have hm := hf d rfl
    simp [sendOpt, missing_local w d hm, sendLocal_missing w d _ hm]

theorem C39_missing_one (ser : V → B) (w : World B V) (d : Dest) (v : V) (h : Missing w d) :
    send ser w (.one d) v = w := by
  simp [send, sendOpt, missing_local w d h, sendLocal_missing w d _ h]

example : Missing (run id init sample) (.pid (.loc 2)) ∧ Missing (run id init sample) (.named "worker" .loc) := by
  exact ⟨rfl, rfl⟩

/-! ## C38 -/

/-- The frame target a remote destination stands for, given the node table. -/
def remoteTarget (w : World B V) : Dest → Option (Nat × Target)
  | .pid (.rem i n) => some (n, .pid i)
  | .named n (.rem a b) => (w.nodeMap (.rem a b)).map fun k => (k, .named n)
  | .alias (.rem i n) => some (n, .alias i)
  | _ => none

/-- The targets on node `k` among the destinations, in order. -/
def targetsAt (w : World B V) (k : Nat) (l : List Dest) : List Target :=
  (l.filterMap (remoteTarget w)).filterMap fun x => if x.1 = k then some x.2 else none


theorem nodeRegister_false (w : World B V) (n : Node) :
    (nodeRegister w n false).1 = { w with
      nextNode := (nodeRegister w n false).1.nextNode
      nodeRegs := (nodeRegister w n false).1.nodeRegs
      nodeMap := (nodeRegister w n false).1.nodeMap } := by
  unfold nodeRegister
  split
  · rfl
  · split
    · simp
    · simp

theorem delivers_nodeRegister (w : World B V) (n : Node) : Delivers w (nodeRegister w n false).1 [] := by
  rw [nodeRegister_false]; exact .of_eq rfl rfl rfl rfl rfl

theorem nodeRegister_false_map (w : World B V) (n : Node) :
    (∀ m k, w.nodeMap m = some k → (nodeRegister w n false).1.nodeMap m = some k) ∧
    (n ≠ .loc → (nodeRegister w n false).1.nodeMap n = some (nodeRegister w n false).2) := by
  cases n with
  | loc => simp [nodeRegister]
  | rem a b =>
    cases hn : w.nodeMap (.rem a b) with
    | some id => simp [nodeRegister, hn]
    | none =>
      simp only [nodeRegister, hn]
      refine ⟨?_, fun _ => by simp [upd_at]⟩
      intro m k hm
      simp only [Bool.false_eq_true, if_false, upd_at]
      split
      · subst_vars; rw [hn] at hm; simp at hm
      · exact hm

theorem sendLocal_nodes (w : World B V) (d : Dest) (it : Item B V) :
    (sendLocal w d it).nodeMap = w.nodeMap ∧ (sendLocal w d it).nodeRegs = w.nodeRegs ∧
    (sendLocal w d it).out = w.out ∧ (sendLocal w d it).pending = w.pending := by
  cases d with
  | pid p => simp [sendLocal]
  | named n node => simp only [sendLocal]; split <;> simp
  | «alias» r => simp only [sendLocal, putAlias]; split <;> simp

/-- The local part of a send to several destinations. -/
theorem sendLoop_local (ser : V → B) (v : V) (l : List Dest) (w : World B V) (f : Option Dest)
    (G : List (Nat × List Target)) (hf : ∀ d ∈ f, destLocal d = true)
    (h1 : ∀ d, oneShot w d → (f.toList ++ l).count d ≤ 1) :
    ∃ D, Delivers w (sendLoop ser v w f G l).1 D ∧
      (∀ d ∈ (sendLoop ser v w f G l).2.1, destLocal d = true ∧ d ∈ f.toList ++ l) ∧
      (∀ i, userCount i D + ((sendLoop ser v w f G l).2.1.toList.countP
          fun d => decide (targetOf (sendLoop ser v w f G l).1 d = some i)) =
        (f.toList ++ l).countP fun d => decide (targetOf w d = some i)) ∧
      OnlyUser (fun x => x = .locl v ∨ x = .remote (ser v)) D ∧
      (∀ x ∈ D, isUser x.2 = false → ∃ r, x.2 = .aliasOff r ∧ .alias (.loc r) ∈ l) := by
  induction l generalizing w f G with
  | nil => exact ⟨[], .refl w, fun d hd => ⟨hf d hd, by simpa [sendLoop] using hd⟩,
      fun i => by simp only [sendLoop, userCount, List.filter_nil, List.length_nil, Nat.zero_add, List.append_nil]; rfl,
      by simp [OnlyUser], by simp⟩
  | cons d l ih =>
    have hcount : ∀ d', (f.toList ++ d :: l).count d' = (f.toList ++ l).count d' + if d = d' then 1 else 0 := by
      intro d'; simp only [List.count_append, List.count_cons, beq_iff_eq]; omega
    -- a remote destination: nothing local happens
    have hremote : destLocal d = false → ∀ (w1 : World B V) (G1 : List (Nat × List Target)),
        Delivers w w1 [] → w1.aliases = w.aliases →
        sendLoop ser v w f G (d :: l) = sendLoop ser v w1 f G1 l →
        ∃ D, Delivers w (sendLoop ser v w f G (d :: l)).1 D ∧
          (∀ d' ∈ (sendLoop ser v w f G (d :: l)).2.1, destLocal d' = true ∧ d' ∈ f.toList ++ d :: l) ∧
          (∀ i, userCount i D + ((sendLoop ser v w f G (d :: l)).2.1.toList.countP
              fun x => decide (targetOf (sendLoop ser v w f G (d :: l)).1 x = some i)) =
            (f.toList ++ d :: l).countP fun x => decide (targetOf w x = some i)) ∧
          OnlyUser (fun x => x = .locl v ∨ x = .remote (ser v)) D ∧
          (∀ x ∈ D, isUser x.2 = false → ∃ r, x.2 = .aliasOff r ∧ .alias (.loc r) ∈ d :: l) := by
      intro hd w1 G1 hw1 ha he
      rw [he]
      have hst : SameTargets w w1 (fun _ => False) := sameTargets_of hw1 ha
      obtain ⟨D, hD, hfst, hc, hu, ho⟩ := ih w1 f G1 hf (by
        intro d' hd'
        have := h1 d' (hst.shots d' hd')
        rw [hcount] at this; omega)
      refine ⟨D, by simpa using hw1.trans hD, ?_, ?_, hu, ?_⟩
      · intro d' hd'
        have := hfst d' hd'
        refine ⟨this.1, ?_⟩
        have h2 := this.2
        simp only [List.mem_append, List.mem_cons] at h2 ⊢
        rcases h2 with h2 | h2
        · exact .inl h2
        · exact .inr (.inr h2)
      · intro i
        rw [hc i]
        have ht : targetOf w d = none := by
          unfold targetOf; split <;> simp_all [destLocal, Pid.isLocal, Ref.isLocal]
        have : (fun x => decide (targetOf w1 x = some i)) = fun x => decide (targetOf w x = some i) := by
          funext x; rw [hst.target x (fun h => h.elim)]
        rw [this]
        simp [List.countP_append, List.countP_cons, ht]
      · intro x hx hxu
        obtain ⟨r, h, h'⟩ := ho x hx hxu
        exact ⟨r, h, .tail _ h'⟩
    cases hd : destLocal d with
    | false =>
      cases d with
      | pid p => exact hremote hd w (pushGroup p.node (.pid p.id) G) (.refl w) rfl (by simp [sendLoop, hd])
      | named n node =>
        exact hremote hd _ (pushGroup (nodeRegister w node false).2 (.named n) G) (delivers_nodeRegister w node)
          (by rw [nodeRegister_false]) (by simp [sendLoop, hd])
      | «alias» r => exact hremote hd w (pushGroup r.node (.alias r.id) G) (.refl w) rfl (by simp [sendLoop, hd])
    | true =>
      cases f with
      | none =>
        have he : sendLoop ser v w none G (d :: l) = sendLoop ser v w (some d) G l := by simp [sendLoop, hd]
        rw [he]
        obtain ⟨D, hD, hfst, hc, hu, ho⟩ := ih w (some d) G (by simpa using hd) (by simpa using h1)
        refine ⟨D, hD, by simpa using hfst, by simpa using hc, hu, ?_⟩
        intro x hx hxu
        obtain ⟨r, h, h'⟩ := ho x hx hxu
        exact ⟨r, h, .tail _ h'⟩
      | some f0 =>
        have he : sendLoop ser v w (some f0) G (d :: l) =
            sendLoop ser v (sendLocal w d (.remote (ser v))) (some f0) G l := by simp [sendLoop, hd]
        rw [he]
        obtain ⟨E, hE, hEc, hEu, hst, hEo⟩ := sendLocal_spec w d (.remote (ser v)) hd rfl
        obtain ⟨D, hD, hfst, hc, hu, ho⟩ := ih (sendLocal w d (.remote (ser v))) (some f0) G hf (by
          intro d' hd'
          have := h1 d' (hst.shots d' hd')
          rw [hcount] at this; omega)
        refine ⟨E ++ D, hE.trans hD, ?_, ?_, ?_, ?_⟩
        · intro d' hd'
          have := hfst d' hd'
          refine ⟨this.1, ?_⟩
          have h2 := this.2
          simp only [List.mem_append, List.mem_cons] at h2 ⊢
          rcases h2 with h2 | h2
          · exact .inl h2
          · exact .inr (.inr h2)
        · intro i
          rw [userCount_append, Nat.add_assoc, hc i, hEc i]
          have : ((some f0).toList ++ l).countP (fun x => decide (targetOf (sendLocal w d (.remote (ser v))) x = some i)) =
              ((some f0).toList ++ l).countP (fun x => decide (targetOf w x = some i)) := by
            apply List.countP_congr
            intro x hx
            rw [hst.target x (by
              rintro rfl hs
              have := h1 x hs
              rw [hcount, if_pos rfl] at this
              have h3 : 0 < ((some f0).toList ++ l).count x := List.count_pos_iff.2 hx
              omega)]
          rw [this]
          simp only [List.countP_append, List.countP_cons, decide_eq_true_eq]
          omega
        · intro x hx hxu
          rcases List.mem_append.1 hx with hx | hx
          · exact .inr (hEu x hx hxu)
          · exact hu x hx hxu
        · intro x hx hxu
          rcases List.mem_append.1 hx with hx | hx
          · obtain ⟨r, h, h'⟩ := hEo x hx hxu
            exact ⟨r, h, by simp [h']⟩
          · obtain ⟨r, h, h'⟩ := ho x hx hxu
            exact ⟨r, h, .tail _ h'⟩

/-! ### Grouping of the remote destinations -/

/-- The values stored under a key. -/
def look {A : Type} (k : Nat) (G : List (Nat × List A)) : List A := (G.filter (·.1 == k)).flatMap Prod.snd

theorem pushGroup_keys {A : Type} (k : Nat) (a : A) (G : List (Nat × List A)) :
    (pushGroup k a G).map Prod.fst = if k ∈ G.map Prod.fst then G.map Prod.fst else G.map Prod.fst ++ [k] := by
  induction G with
  | nil => simp [pushGroup]
  | cons g G ih =>
    obtain ⟨k', l⟩ := g
    simp only [pushGroup]
    split
    · subst_vars; simp
    · rename_i hne
      simp only [List.map_cons, ih, List.mem_cons, Ne.symm hne, false_or]
      split <;> simp

theorem pushGroup_look {A : Type} (k k' : Nat) (a : A) (G : List (Nat × List A)) (hn : (G.map Prod.fst).Nodup) :
    look k' (pushGroup k a G) = look k' G ++ if k' = k then [a] else [] := by
  induction G with
  | nil =>
    simp only [pushGroup, look]
    by_cases h : k' = k
    · simp [h]
    · simp [h, Ne.symm h]
  | cons g G ih =>
    obtain ⟨k0, l⟩ := g
    simp only [List.map_cons, List.nodup_cons] at hn
    have ih := ih hn.2
    simp only [pushGroup]
    split
    · rename_i h0
      subst h0
      by_cases h : k' = k0
      · subst h
        have : look k' G = [] := by
          simp only [look, List.flatMap_eq_nil_iff, List.mem_filter]
          rintro x ⟨hx, hxk⟩
          exact absurd (List.mem_map.2 ⟨x, hx, by simpa using hxk⟩) hn.1
        simp only [look] at this
        simp [look, this]
      · simp [look, h, Ne.symm h]
    · rename_i h0
      by_cases h : k0 = k'
      · subst h
        simp only [look, List.filter_cons, beq_self_eq_true, if_true, List.flatMap_cons] at ih ⊢
        rw [ih]; simp
      · simp only [look, List.filter_cons, beq_iff_eq, h, if_false] at ih ⊢
        exact ih

theorem look_mem {A : Type} (G : List (Nat × List A)) (hn : (G.map Prod.fst).Nodup) (hne : ∀ g ∈ G, g.2 ≠ []) (k : Nat)
    (ts : List A) : (k, ts) ∈ G ↔ ts ≠ [] ∧ ts = look k G := by
  induction G with
  | nil => simp [look]
  | cons g G ih =>
    obtain ⟨k0, l⟩ := g
    simp only [List.map_cons, List.nodup_cons] at hn
    have ih := ih hn.2 (fun g hg => hne g (.tail _ hg))
    have hl := hne (k0, l) List.mem_cons_self
    by_cases h : k0 = k
    · subst h
      have h0 : look k0 G = [] := by
        simp only [look, List.flatMap_eq_nil_iff, List.mem_filter]
        rintro x ⟨hx, hxk⟩
        exact absurd (List.mem_map.2 ⟨x, hx, by simpa using hxk⟩) hn.1
      have h1 : look k0 ((k0, l) :: G) = l := by
        simp only [look] at h0
        simp [look, h0]
      rw [h1]
      simp only [List.mem_cons, Prod.mk.injEq, true_and]
      constructor
      · rintro (rfl | hm)
        · exact ⟨hl, rfl⟩
        · exact absurd (List.mem_map.2 ⟨_, hm, rfl⟩) hn.1
      · rintro ⟨-, rfl⟩; exact .inl rfl
    · have h1 : look k ((k0, l) :: G) = look k G := by simp [look, h]
      rw [h1, ← ih]
      simp [Ne.symm h]

theorem targetsAt_cons (w : World B V) (k : Nat) (d : Dest) (l : List Dest) :
    targetsAt w k (d :: l) = (match remoteTarget w d with | some x => if x.1 = k then [x.2] else [] | none => []) ++
      targetsAt w k l := by
  unfold targetsAt
  simp only [List.filterMap_cons]
  cases remoteTarget w d with
  | none => rfl
  | some x => simp only [List.filterMap_cons]; split <;> split <;> simp_all

theorem pushGroup_ne {A : Type} (k : Nat) (a : A) (G : List (Nat × List A)) (h : ∀ g ∈ G, g.2 ≠ []) :
    ∀ g ∈ pushGroup k a G, g.2 ≠ [] := by
  induction G with
  | nil => simp [pushGroup]
  | cons g G ih =>
    obtain ⟨k0, l⟩ := g
    simp only [pushGroup]
    split
    · intro g hg
      rcases List.mem_cons.1 hg with rfl | hg
      · simp
      · exact h g (.tail _ hg)
    · intro g hg
      rcases List.mem_cons.1 hg with rfl | hg
      · exact h _ List.mem_cons_self
      · exact ih (fun g hg => h g (.tail _ hg)) g hg

theorem sendLoop_remote (ser : V → B) (v : V) (l : List Dest) (w : World B V) (f : Option Dest)
    (G : List (Nat × List Target)) (hn : (G.map Prod.fst).Nodup) (hne : ∀ g ∈ G, g.2 ≠ []) :
    let s := sendLoop ser v w f G l
    (∀ m k, w.nodeMap m = some k → s.1.nodeMap m = some k) ∧ s.1.out = w.out ∧ s.1.pending = w.pending ∧
    (s.2.2.map Prod.fst).Nodup ∧ (∀ g ∈ s.2.2, g.2 ≠ []) ∧
    (∀ k, look k s.2.2 = look k G ++ targetsAt s.1 k l) := by
  induction l generalizing w f G with
  | nil => exact ⟨fun _ _ h => h, rfl, rfl, hn, hne, fun k => by simp [sendLoop, targetsAt]⟩
  | cons d l ih =>
    have hpush : ∀ k a, ((pushGroup k a G).map Prod.fst).Nodup := by
      intro k a
      rw [pushGroup_keys]
      split
      · exact hn
      · rename_i hk
        exact List.nodup_append.2 ⟨hn, by simp, by simp only [List.mem_singleton]; rintro a ha b rfl rfl; exact hk ha⟩
    unfold sendLoop
    cases hd : destLocal d with
    | true =>
      have ht : ∀ w : World B V, remoteTarget w d = none := by
        intro w; unfold remoteTarget; split <;> simp_all [destLocal, Pid.isLocal, Ref.isLocal]
      cases f with
      | none =>
        simp only [Option.isNone_none, Bool.and_self, if_true]
        obtain ⟨h1, h2, h3, h4, h5, h6⟩ := ih w (some d) G hn hne
        exact ⟨h1, h2, h3, h4, h5, fun k => by rw [h6, targetsAt_cons, ht]; rfl⟩
      | some f0 =>
        simp only [Option.isNone_some, Bool.and_false, Bool.false_eq_true, if_false, if_true]
        obtain ⟨h1, h2, h3, h4, h5, h6⟩ := ih (sendLocal w d (.remote (ser v))) (some f0) G hn hne
        obtain ⟨n1, n2, n3, n4⟩ := sendLocal_nodes w d (.remote (ser v) : Item B V)
        rw [n1] at h1; rw [n3] at h2; rw [n4] at h3
        exact ⟨h1, h2, h3, h4, h5, fun k => by rw [h6, targetsAt_cons, ht]; rfl⟩
    | false =>
      simp only [Bool.false_and, Bool.false_eq_true, if_false]
      cases d with
      | pid p =>
        cases p with
        | loc i => simp [destLocal, Pid.isLocal] at hd
        | rem i n =>
          obtain ⟨h1, h2, h3, h4, h5, h6⟩ := ih w f (pushGroup n (.pid i) G) (hpush _ _) (pushGroup_ne _ _ _ hne)
          refine ⟨h1, h2, h3, h4, h5, fun k => ?_⟩
          simp only [Pid.node, Pid.id]
          rw [h6, pushGroup_look _ _ _ _ hn, targetsAt_cons]
          simp [remoteTarget, eq_comm]
      | «alias» r =>
        cases r with
        | loc i => simp [destLocal, Ref.isLocal] at hd
        | rem i n =>
          obtain ⟨h1, h2, h3, h4, h5, h6⟩ := ih w f (pushGroup n (.alias i) G) (hpush _ _) (pushGroup_ne _ _ _ hne)
          refine ⟨h1, h2, h3, h4, h5, fun k => ?_⟩
          simp only [Ref.node, Ref.id]
          rw [h6, pushGroup_look _ _ _ _ hn, targetsAt_cons]
          simp [remoteTarget, eq_comm]
      | named n node =>
        cases node with
        | loc => simp [destLocal] at hd
        | rem a b =>
          obtain ⟨m1, m2⟩ := nodeRegister_false_map w (.rem a b)
          have m2 := m2 (by simp)
          obtain ⟨h1, h2, h3, h4, h5, h6⟩ := ih (nodeRegister w (.rem a b) false).1 f
            (pushGroup (nodeRegister w (.rem a b) false).2 (.named n) G) (hpush _ _) (pushGroup_ne _ _ _ hne)
          refine ⟨fun m k h => h1 m k (m1 m k h), by rw [h2]; rw [nodeRegister_false],
            by rw [h3]; rw [nodeRegister_false], h4, h5, fun k => ?_⟩
          rw [h6, pushGroup_look _ _ _ _ hn, targetsAt_cons]
          simp only [remoteTarget, h1 _ _ m2, Option.map_some]
          simp [eq_comm]

theorem foldl_sendFrame (ser : V → B) (v : V) (G : List (Nat × List Target)) (w : World B V) :
    let w' := G.foldl (fun w g => sendFrame w (.send g.2 (ser v)) g.1) w
    Delivers w w' [] ∧ w'.nodeRegs = w.nodeRegs ∧ w'.nodeMap = w.nodeMap ∧ w'.aliases = w.aliases ∧
    w'.out = w.out ++ G.filterMap fun g => ((w.nodeRegs g.1).bind NReg.sender).map fun s => (s, .send g.2 (ser v)) := by
  induction G generalizing w with
  | nil => exact ⟨.refl w, rfl, rfl, rfl, by simp⟩
  | cons g G ih =>
    obtain ⟨h1, h2, h3, h4, h5⟩ := ih (sendFrame w (.send g.2 (ser v)) g.1)
    have hd : Delivers w (sendFrame w (.send g.2 (ser v)) g.1) [] := .of_eq (by simp) (by simp) (by simp) (by simp) (by simp)
    refine ⟨by simpa using hd.trans h1, by simpa using h2, by simpa using h3, by simpa using h4, ?_⟩
    simp only [List.foldl_cons]
    rw [h5]
    simp only [sendFrame_nodeRegs_eq, List.filterMap_cons]
    have ho : ∀ f : NFrame B, (sendFrame w f g.1).out = w.out ++ (((w.nodeRegs g.1).bind NReg.sender).map fun s => (s, f)).toList := by
      intro f
      unfold sendFrame
      dsimp only
      split
      · rename_i hg; simp [hg]
      · rename_i r hg
        split
        · rename_i s hs; simp [hg, hs]
        · rename_i hs
          split <;> simp [hg, hs]
    rw [ho]
    cases (w.nodeRegs g.1).bind NReg.sender <;> simp

/-- C38. A send to any list of destinations (in which no one-shot alias is listed twice): the mailbox of every local
process grows by exactly one copy of the message per destination in the list that stands for it, and nothing else is put
in any mailbox but the notices that one-shot aliases are used up. Every remote node gets at most one frame, which lists
exactly its destinations in order (frames to a node without connection or registration are queued or dropped,
`sendFrame`). -/
theorem C38_send_many (ser : V → B) (w : World B V) (l : List Dest) (v : V) (h1 : ∀ d, oneShot w d → l.count d ≤ 1) :
    let w' := send ser w (.many l) v
    ∃ (D : List (Nat × Item B V)) (frames : List (Nat × List Target)),
      Delivers w w' D ∧
      (∀ i, userCount i D = l.countP fun d => decide (targetOf w d = some i)) ∧
      (∀ x ∈ D, x.2 = .locl v ∨ x.2 = .remote (ser v) ∨ ∃ r, x.2 = .aliasOff r ∧ .alias (.loc r) ∈ l) ∧
      (frames.map Prod.fst).Nodup ∧
      (∀ k ts, (k, ts) ∈ frames ↔ ts ≠ [] ∧ ts = targetsAt w' k l) ∧
      w'.out = w.out ++ frames.filterMap fun g =>
        ((w'.nodeRegs g.1).bind NReg.sender).map fun s => (s, .send g.2 (ser v)) := by
  intro w'
  obtain ⟨D, hD, hf, hc, hu, ho⟩ := sendLoop_local ser v l w none [] (by simp) (by simpa using h1)
  obtain ⟨r1, r2, r3, r4, r5, r6⟩ := sendLoop_remote ser v l w none [] (by simp) (by simp)
  simp only [Option.toList_none, List.nil_append] at hc hf
  have hw' : w' = (sendLoop ser v w none [] l).2.2.foldl (fun w g => sendFrame w (.send g.2 (ser v)) g.1)
      (match (sendLoop ser v w none [] l).2.1 with
        | some d => sendOpt ser (sendLoop ser v w none [] l).1 d v | none => (sendLoop ser v w none [] l).1) := rfl
  generalize sendLoop ser v w none [] l = s at *
  obtain ⟨w1, f', G⟩ := s
  dsimp only at *
  have hlast : ∃ E, Delivers w1 (match f' with | some d => sendOpt ser w1 d v | none => w1) E ∧
      (∀ i, userCount i E = f'.toList.countP fun d => decide (targetOf w1 d = some i)) ∧
      OnlyUser (fun x => x = .locl v ∨ x = .remote (ser v)) E ∧
      (∀ x ∈ E, isUser x.2 = false → ∃ r, x.2 = .aliasOff r ∧ .alias (.loc r) ∈ l) ∧
      (match f' with | some d => sendOpt ser w1 d v | none => w1).nodeMap = w1.nodeMap ∧
      (match f' with | some d => sendOpt ser w1 d v | none => w1).out = w1.out := by
    cases f' with
    | none => exact ⟨[], .refl _, by simp [userCount], by simp [OnlyUser], by simp, rfl, rfl⟩
    | some d =>
      obtain ⟨hl, hm⟩ := hf d rfl
      obtain ⟨E, hE, hEc, hEu, -, hEo⟩ := sendLocal_spec w1 d (.locl v) hl rfl
      have he : sendOpt ser w1 d v = sendLocal w1 d (.locl v) := by simp [sendOpt, hl]
      dsimp only
      rw [he]
      refine ⟨E, hE, ?_, fun x hx hxu => .inl (hEu x hx hxu), ?_, (sendLocal_nodes _ _ _).1, (sendLocal_nodes _ _ _).2.2.1⟩
      · intro i; rw [hEc]; simp [List.countP_cons]
      · intro x hx hxu
        obtain ⟨r, h, h'⟩ := hEo x hx hxu
        exact ⟨r, h, h' ▸ hm⟩
  obtain ⟨E, hE, hEc, hEu, hEo, hEm, hEout⟩ := hlast
  generalize (match f' with | some d => sendOpt ser w1 d v | none => w1) = w2 at *
  obtain ⟨g1, g2, g3, g4, g5⟩ := foldl_sendFrame ser v G w2
  rw [← hw'] at g1 g2 g3 g4 g5
  refine ⟨D ++ E, G, by simpa using (hD.trans hE).trans g1, ?_, ?_, r4, ?_, ?_⟩
  · intro i; rw [userCount_append, hEc, hc]
  · intro x hx
    rcases List.mem_append.1 hx with hx | hx
    · cases hxu : isUser x.2 with
      | true => rcases hu x hx hxu with h | h <;> simp [h]
      | false => exact .inr (.inr (ho x hx hxu))
    · cases hxu : isUser x.2 with
      | true => rcases hEu x hx hxu with h | h <;> simp [h]
      | false => exact .inr (.inr (hEo x hx hxu))
  · intro k ts
    rw [look_mem G r4 r5, r6]
    have : targetsAt w' k l = targetsAt w1 k l := by
      unfold targetsAt
      congr 2
      funext d
      unfold remoteTarget
      split <;> simp [g3, hEm]
    rw [this]; simp [look]
  · rw [g5, hEout, r2, g2]

/-- C38 for one destination: a local one gets the message itself. -/
theorem C38_send_one (ser : V → B) (w : World B V) (d : Dest) (v : V) (hd : destLocal d = true) :
    ∃ D, Delivers w (send ser w (.one d) v) D ∧
      (∀ i, userCount i D = if targetOf w d = some i then 1 else 0) ∧
      (∀ x ∈ D, x.2 = .locl v ∨ ∃ r, x.2 = .aliasOff r ∧ d = .alias (.loc r)) ∧
      (send ser w (.one d) v).out = w.out := by
  obtain ⟨E, hE, hEc, hEu, -, hEo⟩ := sendLocal_spec w d (.locl v) hd rfl
  have he : send ser w (.one d) v = sendLocal w d (.locl v) := by simp [send, sendOpt, hd]
  rw [he]
  refine ⟨E, hE, hEc, ?_, (sendLocal_nodes _ _ _).2.2.1⟩
  intro x hx
  cases hxu : isUser x.2 with
  | true => exact .inl (hEu x hx hxu)
  | false => exact .inr (hEo x hx hxu)

/-- A world with two processes, one of them named, and a connected node. -/
def sendSample : World Nat Nat :=
  run id init [.boot, .spawn 1 false false, .register 1 (.loc 2) "worker", .alias 2 true]

example : ∀ d, oneShot sendSample d →
    [Dest.pid (.loc 1), .named "worker" .loc, .pid (.loc 1), .alias (.loc 1), .pid (.rem 5 9), .alias (.rem 6 9)].count d ≤ 1 := by
  intro d hd
  unfold oneShot at hd
  split at hd
  · rename_i r
    by_cases h : r = 1
    · subst h; decide
    · simp [List.count_cons, h, Ne.symm h]
  · exact hd.elim

example : targetOf sendSample (.named "worker" .loc) = some 2 ∧ targetOf sendSample (.alias (.loc 1)) = some 2 := by decide

/-- C38, one destination on another node: exactly one frame is asked for, addressed to the node of the destination, holding the
destination (a pid as a pid, a name as a name, an alias as an alias) and the message; no local process gets anything. -/
theorem C38_remote_one (ser : V → B) (w : World B V) (d : Dest) (v : V) (hd : destLocal d = false) :
    ∃ k t, remoteTarget (send ser w (.one d) v) d = some (k, t) ∧
      (send ser w (.one d) v).asked = w.asked ++ [(k, .send [t] (ser v))] ∧
      Delivers w (send ser w (.one d) v) [] ∧ (send ser w (.one d) v).aliases = w.aliases := by
  cases d with
  | pid p =>
    cases p with
    | loc i => cases hd
    | rem i n =>
      refine ⟨n, .pid i, rfl, ?_, ?_, ?_⟩ <;> simp only [send, sendOpt, hd, Bool.false_eq_true, if_false, Pid.id, Pid.node]
      · simp
      · exact .of_eq (by simp) (by simp) (by simp) (by simp) (by simp)
      · simp
  | named m node =>
    cases node with
    | loc => cases hd
    | rem a b =>
      have hm := (nodeRegister_false_map w (.rem a b)).2 (by simp)
      refine ⟨(nodeRegister w (.rem a b) false).2, .named m, ?_, ?_, ?_, ?_⟩ <;>
        simp only [send, sendOpt, hd, Bool.false_eq_true, if_false]
      · simp [remoteTarget, hm]
      · simp
      · have h2 : Delivers (nodeRegister w (.rem a b) false).1 (sendFrame (nodeRegister w (.rem a b) false).1 (.send [.named m] (ser v))
            (nodeRegister w (.rem a b) false).2) [] := .of_eq (by simp) (by simp) (by simp) (by simp) (by simp)
        simpa using (delivers_nodeRegister w (.rem a b)).trans h2
      · simp
  | «alias» r =>
    cases r with
    | loc n => cases hd
    | rem i n =>
      refine ⟨n, .alias i, rfl, ?_, ?_, ?_⟩ <;> simp only [send, sendOpt, hd, Bool.false_eq_true, if_false, Ref.id, Ref.node]
      · simp
      · exact .of_eq (by simp) (by simp) (by simp) (by simp) (by simp)
      · simp

example : destLocal (.alias (.rem 3 5)) = false ∧
    (send id (run id init sample) (.one (.alias (.rem 3 5))) 7).asked = (run id init sample).asked ++ [(5, .send [.alias 3] 7)] := ⟨rfl, rfl⟩

/-! ## C55 -/

/-- The destination a frame target stands for. -/
def Target.dest : Target → Dest
  | .pid i => .pid (.loc i)
  | .named n => .named n .loc
  | .alias a => .alias (.loc a)

theorem forwardSend_cons (msg : B) (w : World B V) (t : Target) (ts : List Target) :
    forwardSend msg w (t :: ts) = forwardSend msg (sendLocal w t.dest (.remote msg)) ts := by
  cases t <;> rfl

/-- C55. A Send frame (in which no one-shot alias is listed twice) puts exactly one copy of its message in the mailbox of
a process per target that stands for it, and nothing else anywhere. -/
theorem C55_forward_send (msg : B) (ts : List Target) (w : World B V)
    (h1 : ∀ d, oneShot w d → (ts.map Target.dest).count d ≤ 1) :
    ∃ D, Delivers w (forwardSend msg w ts) D ∧
      (∀ i, userCount i D = ts.countP fun t => decide (targetOf w t.dest = some i)) ∧
      (∀ x ∈ D, x.2 = .remote msg ∨ ∃ r, x.2 = .aliasOff r ∧ .alias r ∈ ts) := by
  induction ts generalizing w with
  | nil => exact ⟨[], .refl w, by simp [userCount], by simp⟩
  | cons t ts ih =>
    rw [forwardSend_cons]
    have hl : destLocal t.dest = true := by cases t <;> rfl
    obtain ⟨E, hE, hEc, hEu, hst, hEo⟩ := sendLocal_spec w t.dest (.remote msg : Item B V) hl rfl
    obtain ⟨D, hD, hc, ho⟩ := ih (sendLocal w t.dest (.remote msg)) (by
      intro d hd
      have := h1 d (hst.shots d hd)
      simp only [List.map_cons, List.count_cons] at this
      omega)
    refine ⟨E ++ D, hE.trans hD, ?_, ?_⟩
    · intro i
      rw [userCount_append, hEc, hc]
      have : ts.countP (fun x => decide (targetOf (sendLocal w t.dest (.remote msg)) x.dest = some i)) =
          ts.countP (fun x => decide (targetOf w x.dest = some i)) := by
        apply List.countP_congr
        intro x hx
        rw [hst.target x.dest (by
          intro he hs
          have := h1 x.dest hs
          have h3 : 0 < (ts.map Target.dest).count x.dest := List.count_pos_iff.2 (List.mem_map.2 ⟨x, hx, rfl⟩)
          simp only [List.map_cons, List.count_cons, he, beq_self_eq_true, if_true] at this h3
          omega)]
      rw [this]
      simp only [List.countP_cons, decide_eq_true_eq]
      omega
    · intro x hx
      rcases List.mem_append.1 hx with hx | hx
      · cases hxu : isUser x.2 with
        | true => exact .inl (hEu x hx hxu)
        | false =>
          obtain ⟨r, h, h'⟩ := hEo x hx hxu
          refine .inr ⟨r, h, ?_⟩
          cases t <;> simp [Target.dest] at h'
          subst h'; exact List.mem_cons_self
      · rcases ho x hx with h | ⟨r, h, h'⟩
        · exact .inl h
        · exact .inr ⟨r, h, .tail _ h'⟩

/-- C55. The frame is handled by exactly this delivery. -/
theorem C55_frame (w : World B V) (node : Node) (rp : Nat) (ts : List Target) (msg : B) :
    recvFrame w node rp (.send ts msg) = forwardSend msg w ts := rfl

example : userCount 2 (forwardSend 7 sendSample [.pid 2, .named "worker", .alias 1, .pid 9]).sent = 3 := by decide

end Verif.World
