import Verif.TwoNodeSendProps
import Verif.ClientLemmas
/-!
# The histories of two connected nodes

What each of two connected nodes (`TwoNode.lean`) has executed, as a list of operations, and where the Send frames that one of them gets
from the other come from. The lemmas are for the line from left to right; `swap` exchanges the two nodes.
-/
namespace Verif.World
open Verif.Mailbox
variable {B V : Type}

/-- What left executes in one step. -/
def leftOp (c : Conn) (d : Duo B V) : DOp B V → List (Op B V)
  | .left o => [o]
  | .toL rp => match d.nextL c with
    | some f => if running d.L rp then [.frame rp c.nR f] else []
    | none => []
  | _ => []

/-- What right executes in one step. -/
def rightOp (c : Conn) (d : Duo B V) : DOp B V → List (Op B V)
  | .right o => [o]
  | .toR rp => match d.nextR c with
    | some f => if running d.R rp then [.frame rp c.nL f] else []
    | none => []
  | _ => []

/-- What left executes during `l`. -/
def leftOps (ser : Sers V B) (c : Conn) (d : Duo B V) : List (DOp B V) → List (Op B V)
  | [] => []
  | s :: l => leftOp c d s ++ leftOps ser c (dstep ser c d s) l

/-- What right executes during `l`. -/
def rightOps (ser : Sers V B) (c : Conn) (d : Duo B V) : List (DOp B V) → List (Op B V)
  | [] => []
  | s :: l => rightOp c d s ++ rightOps ser c (dstep ser c d s) l

/-! ## Exchanging the two nodes -/

def Conn.swap (c : Conn) : Conn := ⟨c.nR, c.nL, c.idR, c.idL, c.sR, c.sL⟩
def Duo.swap (d : Duo B V) : Duo B V := ⟨d.R, d.L, d.cR, d.cL⟩
def Sers.swap (s : Sers V B) : Sers V B := ⟨s.R, s.L⟩
def DOp.swap : DOp B V → DOp B V
  | .left o => .right o
  | .right o => .left o
  | .toR rp => .toL rp
  | .toL rp => .toR rp

theorem dstep_swap (ser : Sers V B) (c : Conn) (d : Duo B V) (s : DOp B V) :
    dstep ser.swap c.swap d.swap s.swap = (dstep ser c d s).swap := by
  cases s with
  | left o => rfl
  | right o => rfl
  | toR rp =>
    show dstep ser.swap c.swap d.swap (.toL rp) = _
    simp only [dstep]
    rw [show d.swap.nextL c.swap = d.nextR c from rfl]
    split
    · rfl
    rw [show running d.swap.L rp = running d.R rp from rfl]
    split <;> rfl
  | toL rp =>
    show dstep ser.swap c.swap d.swap (.toR rp) = _
    simp only [dstep]
    rw [show d.swap.nextR c.swap = d.nextL c from rfl]
    split
    · rfl
    rw [show running d.swap.R rp = running d.L rp from rfl]
    split <;> rfl

theorem drun_swap (ser : Sers V B) (c : Conn) (l : List (DOp B V)) : ∀ d : Duo B V,
    drun ser.swap c.swap d.swap (l.map DOp.swap) = (drun ser c d l).swap := by
  induction l with
  | nil => intro d; rfl
  | cons s l ih =>
    intro d
    show drun _ _ (dstep _ _ d.swap s.swap) _ = (drun _ _ (dstep _ _ d s) l).swap
    rw [dstep_swap, ih]

theorem leftOp_swap (c : Conn) (d : Duo B V) (s : DOp B V) : leftOp c.swap d.swap s.swap = rightOp c d s := by
  cases s <;> rfl

theorem leftOps_swap (ser : Sers V B) (c : Conn) (l : List (DOp B V)) : ∀ d : Duo B V,
    leftOps ser.swap c.swap d.swap (l.map DOp.swap) = rightOps ser c d l := by
  induction l with
  | nil => intro d; rfl
  | cons s l ih =>
    intro d
    show leftOp _ _ s.swap ++ leftOps _ _ (dstep _ _ d.swap s.swap) _ = _
    rw [dstep_swap, leftOp_swap, ih]; rfl

theorem Begins.swap {ser : Sers V B} {c : Conn} {d : Duo B V} (h : Begins ser c d) : Begins ser.swap c.swap d.swap :=
  ⟨h.right, h.left, h.readyR, h.readyL, h.none.2, h.none.1⟩

theorem legal_swap {c : Conn} {s : DOp B V} (h : Legal c s) : Legal c.swap s.swap := by
  cases s <;> exact h

theorem DOp.swap_swap (s : DOp B V) : s.swap.swap = s := by cases s <;> rfl

theorem map_swap_swap (l : List (DOp B V)) : (l.map DOp.swap).map DOp.swap = l := by
  rw [List.map_map]
  induction l with
  | nil => rfl
  | cons s l ih => rw [List.map_cons, ih]; simp [DOp.swap_swap]

/-! ## The histories -/

theorem leftOps_append (ser : Sers V B) (c : Conn) (a b : List (DOp B V)) : ∀ d : Duo B V,
    leftOps ser c d (a ++ b) = leftOps ser c d a ++ leftOps ser c (drun ser c d a) b := by
  induction a with
  | nil => intro d; rfl
  | cons s a ih =>
    intro d
    show leftOp c d s ++ leftOps ser c (dstep ser c d s) (a ++ b) = (leftOp c d s ++ leftOps ser c (dstep ser c d s) a) ++ _
    rw [ih, List.append_assoc]; rfl

theorem rightOps_append (ser : Sers V B) (c : Conn) (a b : List (DOp B V)) : ∀ d : Duo B V,
    rightOps ser c d (a ++ b) = rightOps ser c d a ++ rightOps ser c (drun ser c d a) b := by
  induction a with
  | nil => intro d; rfl
  | cons s a ih =>
    intro d
    show rightOp c d s ++ rightOps ser c (dstep ser c d s) (a ++ b) = (rightOp c d s ++ rightOps ser c (dstep ser c d s) a) ++ _
    rw [ih, List.append_assoc]; rfl

theorem left_step (ser : Sers V B) (c : Conn) (d : Duo B V) (s : DOp B V) : (dstep ser c d s).L = run ser.L d.L (leftOp c d s) := by
  cases s with
  | left o => rfl
  | right o => rfl
  | toR rp =>
    simp only [dstep]
    split
    · rfl
    · split <;> rfl
  | toL rp =>
    simp only [dstep, leftOp]
    split
    · rename_i h; rw [h]; rfl
    · rename_i f h; rw [h]; dsimp only
      split <;> rfl

theorem left_run (ser : Sers V B) (c : Conn) (l : List (DOp B V)) : ∀ d : Duo B V, (drun ser c d l).L = run ser.L d.L (leftOps ser c d l) := by
  induction l with
  | nil => intro d; rfl
  | cons s l ih =>
    intro d
    show (drun ser c (dstep ser c d s) l).L = run ser.L d.L (leftOp c d s ++ _)
    rw [ih, run_append, left_step]

theorem right_run (ser : Sers V B) (c : Conn) (l : List (DOp B V)) (d : Duo B V) : (drun ser c d l).R = run ser.R d.R (rightOps ser c d l) := by
  have := left_run ser.swap c.swap (l.map DOp.swap) d.swap
  rw [drun_swap, leftOps_swap] at this
  exact this

theorem leftOp_len (c : Conn) (d : Duo B V) (s : DOp B V) : (leftOp c d s).length ≤ 1 := by
  cases s <;> simp only [leftOp] <;> try simp
  split
  · split <;> simp
  · simp

theorem rightOp_len (c : Conn) (d : Duo B V) (s : DOp B V) : (rightOp c d s).length ≤ 1 := by
  rw [← leftOp_swap]; exact leftOp_len ..

/-- The step of the schedule at which left executed `o`. -/
theorem leftOps_at (ser : Sers V B) (c : Conn) (l : List (DOp B V)) : ∀ (d : Duo B V) (a : List (Op B V)) (o : Op B V) (b : List (Op B V)),
    leftOps ser c d l = a ++ o :: b → ∃ u s v, l = u ++ s :: v ∧ leftOp c (drun ser c d u) s = [o] ∧ a = leftOps ser c d u ∧
      b = leftOps ser c (drun ser c d (u ++ [s])) v := by
  induction l with
  | nil => intro d a o b h; simp [leftOps] at h
  | cons s l ih =>
    intro d a o b h
    replace h : leftOp c d s ++ leftOps ser c (dstep ser c d s) l = a ++ o :: b := h
    have hlen := leftOp_len c d s
    cases hs : leftOp c d s with
    | nil =>
      rw [hs, List.nil_append] at h
      obtain ⟨u, s', v, rfl, h1, h2, h3⟩ := ih _ _ _ _ h
      exact ⟨s :: u, s', v, rfl, h1, by rw [h2]; simp [leftOps, hs], h3⟩
    | cons x xs =>
      have : xs = [] := by rw [hs] at hlen; cases xs with
        | nil => rfl
        | cons _ _ => simp at hlen
      subst this
      rw [hs] at h
      cases a with
      | nil =>
        simp at h
        obtain ⟨rfl, rfl⟩ := h
        exact ⟨[], s, l, rfl, hs, rfl, rfl⟩
      | cons y a =>
        simp only [List.cons_append, List.nil_append, List.cons.injEq] at h
        obtain ⟨rfl, h'⟩ := h
        obtain ⟨u, s', v, rfl, h1, h2, h3⟩ := ih _ _ _ _ h'
        exact ⟨s :: u, s', v, rfl, h1, by rw [h2]; simp [leftOps, hs], h3⟩

theorem rightOps_at (ser : Sers V B) (c : Conn) (l : List (DOp B V)) (d : Duo B V) (a : List (Op B V)) (o : Op B V) (b : List (Op B V))
    (h : rightOps ser c d l = a ++ o :: b) : ∃ u s v, l = u ++ s :: v ∧ rightOp c (drun ser c d u) s = [o] ∧ a = rightOps ser c d u ∧
      b = rightOps ser c (drun ser c d (u ++ [s])) v := by
  rw [← leftOps_swap] at h
  obtain ⟨u, s, v, h1, h2, h3, h4⟩ := leftOps_at _ _ _ _ _ _ _ h
  have e : l = u.map DOp.swap ++ s.swap :: v.map DOp.swap := by
    rw [← map_swap_swap l, h1]; simp
  have ed : ∀ z, drun ser.swap c.swap d.swap z = (drun ser c d (z.map DOp.swap)).swap := by
    intro z; rw [← drun_swap, map_swap_swap]
  refine ⟨u.map DOp.swap, s.swap, v.map DOp.swap, e, ?_, ?_, ?_⟩
  · rw [ed] at h2
    rw [← leftOp_swap, DOp.swap_swap]; exact h2
  · rw [h3, ← leftOps_swap, map_swap_swap]
  · rw [h4, ed, ← leftOps_swap, map_swap_swap]; simp

/-- What left executes comes from itself, or is a frame from right. -/
theorem leftOp_cases {c : Conn} {d : Duo B V} {s : DOp B V} {o : Op B V} (h : leftOp c d s = [o]) :
    s = .left o ∨ ∃ rp f, s = .toL rp ∧ o = .frame rp c.nR f ∧ d.nextL c = some f ∧ running d.L rp = true := by
  cases s <;> simp only [leftOp] at h <;> try simp at h
  · exact .inl (by rw [h])
  · rename_i rp
    split at h
    · rename_i f hf
      split at h
      · rename_i hrun
        simp at h
        exact .inr ⟨rp, f, rfl, h.symm, hf, hrun⟩
      · simp at h
    · simp at h

theorem rightOp_cases {c : Conn} {d : Duo B V} {s : DOp B V} {o : Op B V} (h : rightOp c d s = [o]) :
    s = .right o ∨ ∃ rp f, s = .toR rp ∧ o = .frame rp c.nL f ∧ d.nextR c = some f ∧ running d.R rp = true := by
  rw [← leftOp_swap] at h
  rcases leftOp_cases h with h | ⟨rp, f, h1, h2, h3, h4⟩
  · left; rw [← DOp.swap_swap s, h]; rfl
  · right; exact ⟨rp, f, by rw [← DOp.swap_swap s, h1]; rfl, h2, h3, h4⟩

/-! ## Send frames -/

/-- What stands for the destination in a Send frame (`sendOpt`, World.lean). -/
def Dest.target : Dest → Target
  | .pid p => .pid p.id
  | .named n _ => .named n
  | .alias r => .alias r.id

theorem send_one_asked (ser : V → B) (w : World B V) (d : Dest) (v : V) :
    (send ser w (.one d) v).asked = w.asked ∨
      destLocal d = false ∧ ∃ k, (send ser w (.one d) v).asked = w.asked ++ [(k, .send [Dest.target d] (ser v))] := by
  have hl : ∀ it : Item B V, (sendLocal w d it).asked = w.asked := by
    intro it
    unfold sendLocal
    have hp : ∀ (w : World B V) i (it : Item B V), (put w i it).asked = w.asked := by
      intro w i it; unfold put; split <;> rfl
    split
    · exact hp ..
    · split
      · exact hp ..
      · rfl
    · unfold putAlias
      split
      · rfl
      · exact hp ..
      · rw [hp, hp]; rfl
  simp only [send, sendOpt]
  split
  · exact .inl (hl _)
  · rename_i hd
    refine .inr ⟨by simpa using hd, ?_⟩
    split
    · exact ⟨_, sendFrame_asked _ _ _⟩
    · rename_i n node
      exact ⟨_, (sendFrame_asked _ _ (nodeRegister w node false).2).trans (by rw [nodeRegister_asked_eq]; rfl)⟩
    · exact ⟨_, sendFrame_asked _ _ _⟩

/-- The new Send frames of a step. -/
theorem step_frames (ser : V → B) (k : Nat) (w : World B V) (o : Op B V) (new : List (NFrame B))
    (ha : askedFor k (step ser w o).1 = askedFor k w ++ new) (hf : ∀ f ∈ new, FrameOf w o f k) {ts : List Target} {b : B}
    (h : .send ts b ∈ new) :
    ∃ me ds v, o = .send me ds v ∧ running w me = true ∧ b = ser v ∧ ∀ d, ds = .one d → new = [.send ts b] ∧ destLocal d = false ∧ ts = [Dest.target d] := by
  obtain ⟨me, ds, v, rfl⟩ := hf _ h
  cases hr : running w me with
  | false =>
    rw [step_idle ser w _ me rfl hr] at ha
    have : new = [] := by simpa using ha
    subst this; simp at h
  | true =>
    simp only [step, Op.caller, hr, if_true, Op.exec] at ha
    obtain ⟨D, F, -, h1, -, h2⟩ := traces_send ser w ds v
    have h1' : askedFor k (send ser w ds v) = askedFor k w ++ (F.filter (·.1 = k)).map (·.2) := by
      unfold askedFor; rw [h1]; simp
    rw [h1'] at ha
    have hn := List.append_cancel_left ha
    refine ⟨me, ds, v, rfl, hr, ?_, ?_⟩
    · rw [← hn] at h
      obtain ⟨y, hy, he⟩ := List.mem_map.1 h
      obtain ⟨ts', h3⟩ := h2 y (List.mem_filter.1 hy).1
      rw [h3] at he; cases he; rfl
    · rintro d rfl
      have hF : F = [] ∨ destLocal d = false ∧ ∃ k, F = [(k, .send [Dest.target d] (ser v))] := by
        rcases send_one_asked ser w d v with h4 | ⟨hd, k', h4⟩
        · rw [h1] at h4; exact .inl (by simpa using h4)
        · rw [h1] at h4; exact .inr ⟨hd, k', List.append_cancel_left h4⟩
      rcases hF with rfl | ⟨hd, k', rfl⟩
      · rw [← hn] at h; simp at h
      · rw [← hn] at h ⊢
        by_cases hk : k' = k
        · simp [hk] at h ⊢
          obtain ⟨rfl, rfl⟩ := h
          simp [hd]
        · simp [hk] at h

/-- The frame from left that right gets in one step. -/
def getsRight (c : Conn) (d : Duo B V) : DOp B V → List (NFrame B)
  | .toR rp => match d.nextR c with
    | some f => if running d.R rp then [f] else []
    | none => []
  | _ => []

/-- The frames from left that right has got during `l`. -/
def gotRight (ser : Sers V B) (c : Conn) (d : Duo B V) : List (DOp B V) → List (NFrame B)
  | [] => []
  | s :: l => getsRight c d s ++ gotRight ser c (dstep ser c d s) l

theorem gotRight_append (ser : Sers V B) (c : Conn) (a b : List (DOp B V)) : ∀ d : Duo B V,
    gotRight ser c d (a ++ b) = gotRight ser c d a ++ gotRight ser c (drun ser c d a) b := by
  induction a with
  | nil => intro d; rfl
  | cons s a ih =>
    intro d
    show _ ++ gotRight ser c (dstep ser c d s) (a ++ b) = (_ ++ gotRight ser c (dstep ser c d s) a) ++ _
    rw [ih, List.append_assoc]; rfl

/-- What right has got, together with what is on its way, is what was on the line. -/
theorem got_line {ser : Sers V B} {c : Conn} (l : List (DOp B V)) : ∀ {d : Duo B V} {g : List (NFrame B)}, CInv ser c d →
    (∀ s ∈ l, Legal c s) → g ++ toRight c d = onLine c.nR c.sL d.L →
    (g ++ gotRight ser c d l) ++ toRight c (drun ser c d l) = onLine c.nR c.sL (drun ser c d l).L := by
  induction l with
  | nil => intro d g _ _ h; simpa [gotRight, drun] using h
  | cons s l ih =>
    intro d g hi hl h
    obtain ⟨hi', hk | ⟨o, k, hm, hso⟩ | ⟨o, k, hm, hso⟩⟩ := dstep_moves hi s (hl s List.mem_cons_self)
    · have e : getsRight c d s = ([] : List (NFrame B)) := by
        cases s <;> try rfl
        rename_i rp
        simp only [getsRight]
        split
        · rename_i f hf
          rw [hk.2.1 rp f rfl hf]; rfl
        · rfl
      show (g ++ (_ ++ gotRight ser c (dstep ser c d s) l)) ++ toRight c (drun ser c (dstep ser c d s) l) = _
      rw [e, List.nil_append]
      exact ih hi' (fun s hs => hl s (.tail _ hs)) (by rw [hk.1]; exact h)
    · have e : getsRight c d s = ([] : List (NFrame B)) := by
        rcases hso with rfl | ⟨rp, f, rfl, -⟩ <;> rfl
      show (g ++ (_ ++ gotRight ser c (dstep ser c d s) l)) ++ toRight c (drun ser c (dstep ser c d s) l) = _
      rw [e, List.nil_append]
      obtain ⟨new, h1, h2, -⟩ := hm.new
      exact ih hi' (fun s hs => hl s (.tail _ hs)) (by rw [h1, h2, ← List.append_assoc, h])
    · show (g ++ (_ ++ gotRight ser c (dstep ser c d s) l)) ++ toRight c (drun ser c (dstep ser c d s) l) = _
      have e : getsRight c d s = k := by
        rcases hm.from_ with ⟨hk, hne⟩ | ⟨rp, f, hk, ho, hrun, -⟩
        · rcases hso with rfl | ⟨rp, f, rfl, ho, -⟩
          · exact hk.symm
          · exact absurd ho (hne rp f)
        · rcases hso with rfl | ⟨rp', f', rfl, ho', hf'⟩
          · exact absurd ho ((hl _ List.mem_cons_self).2 rp f)
          · rw [ho] at ho'; cases ho'
            rw [hk]; simp only [getsRight]; rw [hf']; dsimp only; rw [hrun]; rfl
      rw [e, ← List.append_assoc]
      refine ih hi' (fun s hs => hl s (.tail _ hs)) ?_
      rw [hm.L, List.append_assoc, ← hm.got]; exact h

/-- Every Send frame on the line was asked for by a send of left. -/
theorem line_from {ser : Sers V B} {c : Conn} (l : List (DOp B V)) {d : Duo B V} (hi : CInv ser c d) (hl : ∀ s ∈ l, Legal c s)
    {ts : List Target} {b : B} (h : .send ts b ∈ onLine c.nR c.sL (drun ser c d l).L) :
    .send ts b ∈ onLine c.nR c.sL d.L ∨
    ∃ u me ds v w, l = u ++ .left (.send me ds v) :: w ∧ running (drun ser c d u).L me = true ∧ b = ser.L v ∧
      ∀ x, ds = .one x → destLocal x = false ∧ ts = [Dest.target x] := by
  induction l generalizing d with
  | nil => exact .inl h
  | cons s l ih =>
    have hd := dstep_moves hi s (hl s List.mem_cons_self)
    rcases ih hd.1 (fun s hs => hl s (.tail _ hs)) h with h | ⟨u, me, ds, v, w, rfl, h1, h2⟩
    · obtain ⟨-, hk | ⟨o, k, hm, hso⟩ | ⟨o, k, hm, hso⟩⟩ := hd
      · rw [hk.1] at h; exact .inl h
      · obtain ⟨new, -, h2, h3, h4⟩ := hm.new
        rw [h2] at h
        rcases List.mem_append.1 h with h | h
        · exact .inl h
        · obtain ⟨me, ds, v, rfl, k1, k2, k3⟩ := step_frames ser.L c.idR d.L o new (by rw [← hm.L]; exact h3) h4 h
          rcases hso with rfl | ⟨rp, f, -, hx, -⟩
          · exact .inr ⟨[], me, ds, v, l, rfl, k1, k2, fun x hx => (k3 x hx).2⟩
          · cases hx
      · rw [hm.L] at h; exact .inl h
    · exact .inr ⟨s :: u, me, ds, v, w, rfl, h1, h2⟩

/-- A marked Send frame. -/
def marks (P : B → Bool) : NFrame B → Bool
  | .send _ b => P b
  | _ => false

/-- The step is a send of left of a marked message. -/
def sendsMarked (ser : Sers V B) (P : B → Bool) : DOp B V → Bool
  | .left (.send _ _ v) => P (ser.L v)
  | _ => false

/-- There are no more marked frames on the line than marked sends to one destination. -/
theorem line_count {ser : Sers V B} {c : Conn} {P : B → Bool} (l : List (DOp B V)) {d : Duo B V} (hi : CInv ser c d) (hl : ∀ s ∈ l, Legal c s)
    (hone : ∀ me ds v, .left (.send me ds v) ∈ l → P (ser.L v) = true → ∃ x, ds = .one x) :
    (onLine c.nR c.sL (drun ser c d l).L).countP (marks P) ≤ (onLine c.nR c.sL d.L).countP (marks P) + l.countP (sendsMarked ser P) := by
  induction l generalizing d with
  | nil => simp [drun]
  | cons s l ih =>
    have hd := dstep_moves hi s (hl s List.mem_cons_self)
    have h1 := ih hd.1 (fun s hs => hl s (.tail _ hs)) (fun me ds v hm => hone me ds v (.tail _ hm))
    have e : drun ser c d (s :: l) = drun ser c (dstep ser c d s) l := rfl
    rw [e, List.countP_cons]
    suffices hs : (onLine c.nR c.sL (dstep ser c d s).L).countP (marks P) ≤
        (onLine c.nR c.sL d.L).countP (marks P) + if sendsMarked ser P s = true then 1 else 0 by omega
    obtain ⟨-, hk | ⟨o, k, hm, hso⟩ | ⟨o, k, hm, hso⟩⟩ := hd
    · rw [hk.1]; omega
    · obtain ⟨new, -, h2, h3, h4⟩ := hm.new
      rw [h2, List.countP_append]
      by_cases hz : new.countP (marks P) = 0
      · omega
      · obtain ⟨f, hf, hmk⟩ := List.countP_pos_iff.1 (Nat.pos_of_ne_zero hz)
        cases f with
        | send ts b =>
          obtain ⟨me, ds, v, rfl, k1, rfl, k3⟩ := step_frames ser.L c.idR d.L o new (by rw [← hm.L]; exact h3) h4 hf
          rcases hso with rfl | ⟨rp, f, -, hx, -⟩
          · obtain ⟨x, rfl⟩ := hone me ds v List.mem_cons_self hmk
            rw [(k3 x rfl).1]
            have : sendsMarked ser P (.left (.send me (.one x) v)) = true := hmk
            rw [if_pos this]
            simp only [List.countP_cons, List.countP_nil, hmk]
            simp
          · cases hx
        | _ => cases hmk
    · rw [hm.L]; omega

theorem Begins.line {ser : Sers V B} {c : Conn} {d : Duo B V} (h : Begins ser c d) : onLine c.nR c.sL d.L = [] ∧ toRight c d = [] := by
  have e : onLine c.nR c.sL d.L = [] := by simp [onLine, h.readyL.handed, h.readyL.pending]
  refine ⟨e, ?_⟩
  unfold toRight
  unfold onLine at e
  rw [e]; simp

/-- The frame that right gets next was asked for by a send of left, if it is a Send frame. -/
theorem next_from {ser : Sers V B} {c : Conn} {l : List (DOp B V)} {d : Duo B V} (hb : Begins ser c d) (hl : ∀ s ∈ l, Legal c s)
    {ts : List Target} {b : B} (h : (drun ser c d l).nextR c = some (.send ts b)) :
    ∃ u me ds v w, l = u ++ .left (.send me ds v) :: w ∧ running (drun ser c d u).L me = true ∧ b = ser.L v ∧
      ∀ x, ds = .one x → destLocal x = false ∧ ts = [Dest.target x] := by
  have hm : .send ts b ∈ onLine c.nR c.sL (drun ser c d l).L :=
    List.mem_append_left _ (List.mem_of_getElem? h)
  rcases line_from l hb.cinv hl hm with h | h
  · rw [hb.line.1] at h; cases h
  · exact h

theorem next_from' {ser : Sers V B} {c : Conn} {l : List (DOp B V)} {d : Duo B V} (hb : Begins ser c d) (hl : ∀ s ∈ l, Legal c s)
    {ts : List Target} {b : B} (h : (drun ser c d l).nextL c = some (.send ts b)) :
    ∃ u me ds v w, l = u ++ .right (.send me ds v) :: w ∧ running (drun ser c d u).R me = true ∧ b = ser.R v ∧
      ∀ x, ds = .one x → destLocal x = false ∧ ts = [Dest.target x] := by
  have h' : (drun ser.swap c.swap d.swap (l.map DOp.swap)).nextR c.swap = some (.send ts b) := by rw [drun_swap]; exact h
  obtain ⟨u, me, ds, v, w, e, h1, h2, h3⟩ := next_from hb.swap (by
    intro s hs; obtain ⟨s', hs', rfl⟩ := List.mem_map.1 hs; exact legal_swap (hl s' hs')) h'
  refine ⟨u.map DOp.swap, me, ds, v, w.map DOp.swap, ?_, ?_, h2, h3⟩
  · rw [← map_swap_swap l, e]; simp [DOp.swap]
  · have ed : drun ser.swap c.swap d.swap u = (drun ser c d (u.map DOp.swap)).swap := by rw [← drun_swap, map_swap_swap]
    rw [ed] at h1; exact h1

end Verif.World
