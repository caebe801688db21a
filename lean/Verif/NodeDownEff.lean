import Verif.NodeProps
import Verif.MonitorProps
/-! # The effect of losing a connection (`supDown`) -/
namespace Verif.World
open Verif.Mailbox
variable {B V : Type}

/-- The reason reported when a connection is lost, node_registry.rs:306, :325. -/
abbrev noconn : ExitReason := .custom "noconnection"

theorem supDownLinks_keep {X : Type} (π : World B V → X) (h1 : ∀ w i p, π (delLink w i p) = π w)
    (h2 : ∀ w i p r, π (exitLinked w i p r) = π w) (ls : List (Pid × Nat)) (w : World B V) : π (supDownLinks w ls) = π w := by
  induction ls generalizing w with
  | nil => rfl
  | cons x ls ih => obtain ⟨p, i⟩ := x; rw [supDownLinks, ih, h2, h1]

theorem supDownMons_keep {X : Type} (π : World B V → X) (h1 : ∀ w i it, π (put w i it) = π w) (h2 : ∀ w i r, π (delMon w i r) = π w)
    (h3 : ∀ w r, π (delAlias w r) = π w) (n : Node) (ms : List (Ref × NMon)) (w : World B V) : π (supDownMons n w ms) = π w := by
  induction ms generalizing w with
  | nil => rfl
  | cons x ms ih =>
    obtain ⟨r, m⟩ := x
    simp only [supDownMons]
    rw [ih]
    have : ∀ w1 : World B V, π (if r.isLocal = true then delAlias w1 r else w1) = π w1 := by
      intro w1; split
      · exact h3 _ _
      · rfl
    rw [this]
    cases m with
    | node i => exact h1 ..
    | process i d => exact h1 ..
    | cleanup i => exact h2 ..

/-- What the exit signals of the lost links do to process `j`. -/
def cutOff (ls : List (Pid × Nat)) (j : Nat) (p : Proc B V) : Proc B V :=
  (ls.filter (·.2 = j)).foldl (fun p x => signalled x.1 noconn p) p

theorem cutOff_trap (ls : List (Pid × Nat)) (j : Nat) (p : Proc B V) : (cutOff ls j p).trap = p.trap := by
  unfold cutOff
  generalize ls.filter (·.2 = j) = l
  induction l generalizing p with
  | nil => rfl
  | cons x l ih => rw [List.foldl_cons, ih, signalled_trap]

theorem supDownLinks_procs (ls : List (Pid × Nat)) (w : World B V) (j : Nat) :
    (supDownLinks w ls).procs j = (w.procs j).map (cutOff ls j) := by
  induction ls generalizing w with
  | nil => show w.procs j = Option.map (fun p => p) _; simp
  | cons x ls ih =>
    obtain ⟨p, i⟩ := x
    rw [supDownLinks, ih, exitLinked_procs']
    simp only [delLink_procs_eq, upd_at]
    by_cases hj : j = i
    · subst hj
      simp only [if_true, Option.map_map]
      congr 1
      funext q
      simp [cutOff]
    · have : ¬ i = j := fun h => hj h.symm
      simp only [hj, if_false]
      congr 1
      funext q
      simp [cutOff, this]

theorem supDownLinks_sent (ls : List (Pid × Nat)) (w : World B V) :
    (supDownLinks w ls).sent = w.sent ++ ls.flatMap fun x => signalMsg w x.1 noconn x.2 := by
  induction ls generalizing w with
  | nil => simp [supDownLinks]
  | cons x ls ih =>
    obtain ⟨p, i⟩ := x
    rw [supDownLinks, ih, exitLinked_sent']
    have : (fun x : Pid × Nat => signalMsg (exitLinked (delLink w i p) i p noconn) x.1 noconn x.2) =
        fun x => signalMsg w x.1 noconn x.2 := by
      funext x
      apply signalMsg_congr
      rw [exitLinked_procs']
      simp only [delLink_procs_eq, upd_at]
      split
      · subst_vars; cases w.procs x.2 <;> simp [signalled_trap]
      · rfl
    rw [this]
    simp [List.flatMap_cons, List.append_assoc, signalMsg]

/-- The report for one registered monitor. -/
def lossReport (w : World B V) (n : Node) (x : Ref × NMon) : List (Nat × Item B V) :=
  match x.2 with
  | .node i => if exists? w i then [(i, .nodeDown n x.1)] else []
  | .process i d => if exists? w i then [(i, .down d x.1 noconn)] else []
  | .cleanup _ => []

theorem put_sent' (w : World B V) (i : Nat) (it : Item B V) : (put w i it).sent = w.sent ++ if exists? w i then [(i, it)] else [] := by
  unfold put exists?
  cases w.procs i <;> simp

theorem put_exists (w : World B V) (i j : Nat) (it : Item B V) : exists? (put w i it) j = exists? w j := by
  have := ex_act w (.put i it) j
  simpa [exists?, act] using this

theorem supDownMons_sent (n : Node) (ms : List (Ref × NMon)) (w : World B V) :
    (supDownMons n w ms).sent = w.sent ++ ms.flatMap (lossReport w n) := by
  induction ms generalizing w with
  | nil => simp [supDownMons]
  | cons x ms ih =>
    obtain ⟨r, m⟩ := x
    simp only [supDownMons]
    rw [ih]
    have key : ∀ w1 : World B V, w1.sent = w.sent ++ lossReport w n (r, m) → (∀ j, exists? w1 j = exists? w j) →
        (if r.isLocal = true then delAlias w1 r else w1).sent ++ ms.flatMap (lossReport (if r.isLocal = true then delAlias w1 r else w1) n) =
        w.sent ++ List.flatMap (lossReport w n) ((r, m) :: ms) := by
      intro w1 h1 h2
      have h3 : (if r.isLocal = true then delAlias w1 r else w1).sent = w1.sent := by split <;> rfl
      have h4 : lossReport (if r.isLocal = true then delAlias w1 r else w1) n = lossReport w n := by
        have : ∀ j, exists? (if r.isLocal = true then delAlias w1 r else w1) j = exists? w j := by
          intro j; rw [← h2 j]; split <;> rfl
        funext x; unfold lossReport; split <;> simp [this]
      rw [h3, h4, h1, List.flatMap_cons, List.append_assoc]
    cases m with
    | node i => exact key _ (by rw [put_sent']; simp [lossReport]) (fun j => put_exists ..)
    | process i d => exact key _ (by rw [put_sent']; simp [lossReport]) (fun j => put_exists ..)
    | cleanup i => exact key _ (by simp [lossReport]) (fun j => by simp [exists?])

theorem put_fate {X : Type} (π : Proc B V → X) (hπ : ∀ p b, π { p with box := b } = π p) (w : World B V) (i j : Nat) (it : Item B V) :
    pmap π (put w i it) j = pmap π w j := by
  unfold put pmap
  split
  · rfl
  · rename_i p hp
    simp only [upd_at]
    split
    · subst_vars; simp [hp, hπ]
    · rfl

theorem supDownMons_fate {X : Type} (π : Proc B V → X) (hπ : ∀ p b, π { p with box := b } = π p) (n : Node) (ms : List (Ref × NMon))
    (w : World B V) (j : Nat) : pmap π (supDownMons n w ms) j = pmap π w j := by
  refine supDownMons_keep (fun w => pmap π w j) ?_ ?_ ?_ n ms w
  · intro w i it; exact put_fate π hπ w i j it
  · intro w i r; simp [pmap]
  · intro w r; simp [pmap]

/-- The supervisor process `p` of the current connection with `n` (or of one that was disconnected) has gone down. -/
def ConnLost (w : World B V) (n : Node) (p : Nat) : Prop :=
  ∃ id g, w.nodeMap n = some id ∧ w.nodeRegs id = some g ∧ (g.sup = none ∨ g.sup = some p)

theorem supDown_ineffective (w : World B V) (n : Node) (p : Nat) (h : ¬ ConnLost w n p) : supDown w n p = w := by
  unfold supDown
  cases hm : w.nodeMap n with
  | none => rfl
  | some id =>
    dsimp only
    cases hg : w.nodeRegs id with
    | none => rfl
    | some g =>
      dsimp only
      rw [if_pos]
      refine ⟨?_, ?_⟩
      · cases hs : g.sup with
        | none => exact absurd ⟨id, g, hm, hg, .inl hs⟩ h
        | some s => rfl
      · intro hs; exact h ⟨id, g, hm, hg, .inr hs⟩

theorem supDown_eff (w : World B V) (n : Node) (p : Nat) (h : ConnLost w n p) :
    let w' := supDown w n p
    w'.sent = w.sent ++ (w.nodeLinks n).flatMap (fun x => signalMsg w x.1 noconn x.2) ++ (w.nodeMons n).flatMap (lossReport w n) ∧
    w'.nodeLinks = upd w.nodeLinks n [] ∧ w'.nodeMons = upd w.nodeMons n [] ∧
    (∀ j, pmap (fun p => (p.reason, p.aborted, p.ended)) w' j =
      (w.procs j).map fun p => ((cutOff (w.nodeLinks n) j p).reason, (cutOff (w.nodeLinks n) j p).aborted, (cutOff (w.nodeLinks n) j p).ended)) ∧
    (∀ j, exists? w' j = exists? w j) := by
  obtain ⟨id, g, hm, hg, hs⟩ := h
  have hc : ¬ (g.sup.isSome ∧ g.sup ≠ some p) := by
    rcases hs with hs | hs <;> simp [hs]
  intro w'
  have hw' : w' = supDown w n p := rfl
  unfold supDown at hw'
  simp only [hm, hg, if_neg hc] at hw'
  have k : ∀ {X : Type} (π : World B V → X), (∀ w i p, π (delLink w i p) = π w) → (∀ w i p r, π (exitLinked w i p r) = π w) →
      ∀ (w : World B V) ls, π (supDownLinks w ls) = π w := fun π h1 h2 w ls => supDownLinks_keep π h1 h2 ls w
  have hnm : ∀ (w : World B V) ls, (supDownLinks w ls).nodeMons = w.nodeMons := k _ (by simp) (by simp)
  have hex : ∀ (w : World B V) ls j, exists? (supDownLinks w ls) j = exists? w j := by
    intro w ls j; unfold exists?; rw [supDownLinks_procs]; cases w.procs j <;> rfl
  have hlr : ∀ (w : World B V) (w2 : World B V), (∀ j, exists? w2 j = exists? w j) → lossReport w2 n = lossReport w n := by
    intro w w2 h; funext x; unfold lossReport; split <;> simp [h]
  refine ⟨?_, ?_, ?_, ?_, ?_⟩
  · rw [hw']
    simp only [supDownMons_sent, supDownLinks_sent, hnm]
    rw [hlr w]
    · rfl
    · intro j
      have := hex { w with nodeRegs := upd w.nodeRegs id (some { g with sup := none, sender := none, recv := none, state := .known }), nodeLinks := upd w.nodeLinks n [] } (w.nodeLinks n) j
      unfold exists? at this ⊢
      exact this
  · rw [hw']
    have h1 : ∀ (w : World B V) ms, (supDownMons n w ms).nodeLinks = w.nodeLinks := fun w ms =>
      supDownMons_keep _ (by intros; unfold put; split <;> rfl) (by simp) (by simp) n ms w
    have h2 : ∀ (w : World B V) ls, (supDownLinks w ls).nodeLinks = w.nodeLinks := k _ (by simp) (by simp)
    simp only [h1, h2]
  · rw [hw']
    have h1 : ∀ (w : World B V) ms, (supDownMons n w ms).nodeMons = w.nodeMons := fun w ms =>
      supDownMons_keep _ (by intros; unfold put; split <;> rfl) (by simp) (by simp) n ms w
    simp only [h1, hnm]
  · intro j
    rw [hw']
    have h1 := supDownMons_fate (B := B) (V := V) (fun p => (p.reason, p.aborted, p.ended)) (by intros; rfl) n
    show pmap _ (supDownMons n _ _) j = _
    rw [h1]
    unfold pmap
    simp only [supDownLinks_procs, Option.map_map]
    rfl
  · intro j
    rw [hw']
    have h1 := supDownMons_fate (B := B) (V := V) (fun _ => ()) (by intros; rfl) n
    have : ∀ w : World B V, exists? w j = (pmap (fun _ => ()) w j).isSome := by intro w; simp [exists?, pmap]
    rw [this]
    show (pmap _ (supDownMons n _ _) j).isSome = _
    rw [h1, ← this]
    have := hex { w with nodeRegs := upd w.nodeRegs id (some { g with sup := none, sender := none, recv := none, state := .known }), nodeLinks := upd w.nodeLinks n [] } (w.nodeLinks n) j
    unfold exists? at this ⊢
    exact this

/-- A linked process that does not trap exits is terminated with reason noconnection. -/
theorem cutOff_dies (ls : List (Pid × Nat)) (j : Nat) (p : Proc B V) (ht : p.trap = false) (h : ∃ q, (q, j) ∈ ls) :
    (cutOff ls j p).reason = some noconn ∧ (cutOff ls j p).aborted = true := by
  obtain ⟨q, hq⟩ := h
  have hmem : (q, j) ∈ ls.filter (·.2 = j) := List.mem_filter.2 ⟨hq, by simp⟩
  unfold cutOff
  generalize ls.filter (·.2 = j) = l at hmem
  have hsig : ∀ (x : Pid) (p : Proc B V), p.trap = false → (signalled x noconn p).reason = some noconn ∧ (signalled x noconn p).aborted = true ∧
      (signalled x noconn p).trap = false := by
    intro x p h; simp [signalled, h, isNormal]
  have hstay : ∀ (l : List (Pid × Nat)) (p : Proc B V), p.trap = false → p.reason = some noconn ∧ p.aborted = true →
      ((l.foldl (fun p x => signalled x.1 noconn p) p).reason = some noconn ∧ (l.foldl (fun p x => signalled x.1 noconn p) p).aborted = true) := by
    intro l
    induction l with
    | nil => intro p _ h; exact h
    | cons x l ih =>
      intro p h _
      obtain ⟨a, b, c⟩ := hsig x.1 p h
      exact ih _ c ⟨a, b⟩
  cases l with
  | nil => simp at hmem
  | cons x l =>
    obtain ⟨a, b, c⟩ := hsig x.1 p ht
    exact hstay l _ c ⟨a, b⟩

end Verif.World
