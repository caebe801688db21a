import Verif.TwoNode
/-!
# Monitors and links between two connected nodes (C49, C50, C51)
-/
namespace Verif.World
open Verif.Mailbox
variable {B V : Type}

/-! ## References of one node in the tables of the other one -/

structure MInv (ser : Sers V B) (c : Conn) (d : Duo B V) : Prop where
  conn : CInv ser c d
  mf : ∀ i p nm fr n, NFrame.monitor i p nm fr n ∈ onLine c.nR c.sL d.L → i = true ∧ n < d.L.nextRef
  en : ∀ i, ∀ x ∈ d.R.mons i, x.1.node = c.idL → x.1.id < d.L.nextRef
  dn : ∀ refs e n, NFrame.monitorDown refs e ∈ onLine c.nL c.sR d.R → n ∈ refs → n < d.L.nextRef

theorem Begins.minv {ser : Sers V B} {c : Conn} {d : Duo B V} (h : Begins ser c d) : MInv ser c d := by
  have hl : onLine c.nR c.sL d.L = [] := by unfold onLine; rw [h.readyL.handed, h.readyL.pending]; rfl
  have hr : onLine c.nL c.sR d.R = [] := by unfold onLine; rw [h.readyR.handed, h.readyR.pending]; rfl
  refine ⟨h.cinv, ?_, ?_, ?_⟩
  · intro i p nm fr n hf; rw [hl] at hf; simp at hf
  · intro i x hx hk; exact absurd hk (h.readyR.mons i x hx)
  · intro refs e n hf; rw [hr] at hf; simp at hf

theorem nextRef_monitor (ser : V → B) (w : World B V) (o : Op B V) (me : Nat) (d : Dest)
    (ho : o = .monitor me d ∨ ∃ reply, o = .monitorAlias me d reply) (hrun : running w me = true) :
    w.nextRef < (step ser w o).1.nextRef := by
  have key : ∀ al, w.nextRef < (monitorInstall (freshRef w me al) d (.loc w.nextRef) me).nextRef := by
    intro al
    have h0 : (freshRef w me al).nextRef = w.nextRef + 1 := by
      unfold freshRef optAlias; cases al <;> rfl
    have hc : ∀ (w1 : World B V) M, (nodeRegister w1 M true).1.nextRef = w1.nextRef := by
      intro w1 M; unfold nodeRegister spawnRaw
      split
      · rfl
      · split
        · simp only [if_true]; split
          · rfl
          · split <;> rfl
        · simp only [if_true]
    have hs : ∀ (w1 : World B V) f k, (sendFrame w1 f k).nextRef = w1.nextRef := by
      intro w1 f k; rw [sendFrame_act, nextRef_act]
    have hd : ∀ (w1 : World B V) m d r e, (sendDown w1 m d r e).nextRef = w1.nextRef := by
      intro w1 m d r e; unfold sendDown; simp
    unfold monitorInstall
    split
    · split
      · simp [h0]
      · dsimp only
        split <;> simp [h0, hd]
    · dsimp only
      split <;> simp [h0, hc, hs, hd]
    · split
      · simp [h0, hd]
      · dsimp only
        split <;> simp [h0, hd]
    · simp [h0, hc, hs]
    · simp [h0]
  rcases ho with rfl | ⟨reply, rfl⟩
  · simp only [step, Op.caller, hrun, if_true, Op.exec, monitor_eq]; exact key none
  · simp only [step, Op.caller, hrun, if_true, Op.exec, monitorAlias_eq]; exact key (some reply)

theorem step_idle (ser : V → B) (w : World B V) (o : Op B V) (me : Nat) (hc : o.caller = some me) (hrun : running w me = false) :
    (step ser w o).1 = w := by
  simp [step, hc, hrun]

theorem lmove_nextRef {ser : Sers V B} {c : Conn} {d d' : Duo B V} {o : Op B V} {k : List (NFrame B)} (hm : LMove ser c d d' o k) :
    d.L.nextRef ≤ d'.L.nextRef := by
  rw [hm.L]; exact (acts_mono_counters (step_acts ser.L d.L o)).2

theorem minv_lmove {ser : Sers V B} {c : Conn} {d d' : Duo B V} {o : Op B V} {k : List (NFrame B)} (h : MInv ser c d) (hc : CInv ser c d')
    (hm : LMove ser c d d' o k) : MInv ser c d' := by
  have hle := lmove_nextRef hm
  refine ⟨hc, ?_, ?_, ?_⟩
  · intro i p nm fr n hf
    obtain ⟨new, -, h2, h3, h4⟩ := hm.new
    rw [h2] at hf
    rcases List.mem_append.1 hf with hf | hf
    · obtain ⟨g1, g2⟩ := h.mf i p nm fr n hf; exact ⟨g1, by omega⟩
    · have hof := h4 _ hf
      cases i with
      | false => exact absurd hof (h.conn.left.no_demon o)
      | true =>
        refine ⟨rfl, ?_⟩
        obtain ⟨rfl, me, dd, ho⟩ := hof
        rw [hm.L]
        cases hrun : running d.L me with
        | true => exact nextRef_monitor ser.L d.L o me dd ho hrun
        | false =>
          have hcal : o.caller = some me := by rcases ho with rfl | ⟨_, rfl⟩ <;> rfl
          have : d'.L = d.L := by rw [hm.L]; exact step_idle ser.L _ _ me hcal hrun
          rw [this] at h3
          have : new = [] := by simpa using h3
          subst this; simp at hf
  · rw [hm.R]; intro i x hx hk; have := h.en i x hx hk; omega
  · rw [hm.R]; intro refs e n hf hn; have := h.dn refs e n hf hn; omega

/-- Right got the frame `f` of left with this operation. -/
theorem rmove_frame {ser : Sers V B} {c : Conn} {d d' : Duo B V} {o : Op B V} {k : List (NFrame B)} (h : CInv ser c d)
    (hm : RMove ser c d d' o k) {rp : Nat} {N : Node} {f : NFrame B} (ho : o = .frame rp N f) (hN : (nodeRegister d.R N false).2 = c.idL) :
    N = c.nL ∧ k = [f] ∧ running d.R rp = true ∧ f ∈ onLine c.nR c.sL d.L := by
  have := nodeRegister_id h.right.inv h.right.ne h.right.map hN
  subst this
  rcases hm.from_ with ⟨-, h1⟩ | ⟨rp', f', h1, h2, h3, h4⟩
  · exact absurd ho (h1 rp f)
  · rw [ho] at h2; cases h2; exact ⟨rfl, h1, h3, h4⟩

theorem minv_rmove {ser : Sers V B} {c : Conn} {d d' : Duo B V} {o : Op B V} {k : List (NFrame B)} (h : MInv ser c d) (hc : CInv ser c d')
    (hm : RMove ser c d d' o k) : MInv ser c d' := by
  refine ⟨hc, ?_, ?_, ?_⟩
  · rw [hm.L]; exact h.mf
  · rw [hm.L, hm.R]
    refine (step_acts ser.R d.R o).inv (I := fun w => ∀ i, ∀ x ∈ w.mons i, x.1.node = c.idL → x.1.id < d.L.nextRef) h.en ?_
    intro w a ha hw i x hx hk
    rw [mons_act] at hx
    cases a <;> simp only [] at hx <;> try exact hw i x hx hk
    · simp only [upd_at] at hx
      split at hx
      · rcases filter_append_single_mem _ _ _ _ hx with hx | rfl
        · exact hw _ x hx hk
        · obtain ⟨rp, N, p, nm, fid, n, ho, rfl, -⟩ := ha
          obtain ⟨-, -, -, h4⟩ := rmove_frame h.conn hm ho hk
          exact (h.mf _ _ _ _ _ h4).2
      · exact hw i x hx hk
    · simp only [upd_at] at hx
      split at hx
      · exact hw _ x (List.mem_filter.1 hx).1 hk
      · exact hw i x hx hk
    · simp only [upd_at] at hx
      split at hx
      · simp at hx
      · exact hw i x hx hk
    · simp only [upd_at] at hx
      split at hx
      · rcases filter_append_single_mem _ _ _ _ hx with hx | rfl
        · exact hw _ x hx hk
        · exact absurd hk.symm h.conn.right.id_ne
      · exact hw i x hx hk
  · intro refs e n hf hn
    rw [hm.L]
    obtain ⟨new, -, h2, h3, h4⟩ := hm.new
    rw [h2] at hf
    rcases List.mem_append.1 hf with hf | hf
    · exact h.dn refs e n hf hn
    · rcases h4 _ hf with ⟨t, p, -, -, -, g⟩ | ⟨rp, N, p, nm, fid, n', ho, rfl, -, hid, -⟩
      · obtain ⟨r, fid, dd, g1, g2⟩ := g n hn
        obtain ⟨m, rfl⟩ := h.conn.right.monsRemote t _ _ _ _ g1
        have := h.en t _ g1 rfl
        simp only [Ref.id] at this g2
        omega
      · simp at hn; subst hn
        obtain ⟨-, -, -, g⟩ := rmove_frame h.conn hm ho hid.symm
        exact (h.mf _ _ _ _ _ g).2

theorem minv_step {ser : Sers V B} {c : Conn} {d : Duo B V} (h : MInv ser c d) (s : DOp B V) (hs : Legal c s) : MInv ser c (dstep ser c d s) := by
  obtain ⟨hc, ⟨h0, -⟩ | ⟨o, k, hm, -⟩ | ⟨o, k, hm, -⟩⟩ := dstep_moves h.conn s hs
  · rw [h0]; exact h
  · exact minv_lmove h hc hm
  · exact minv_rmove h hc hm

theorem minv_run {ser : Sers V B} {c : Conn} (l : List (DOp B V)) {d : Duo B V} (h : MInv ser c d) (hl : ∀ s ∈ l, Legal c s) :
    MInv ser c (drun ser c d l) := by
  induction l generalizing d with
  | nil => exact h
  | cons s l ih => exact ih (minv_step h s (hl s List.mem_cons_self)) (fun s hs => hl s (.tail _ hs))

/-! ## One monitor -/

/-- The frame by which process `a` of left asks for the monitor `n` of `dest` (monitor.rs:119-135, :175-190). -/
def askFrame (dest : Dest) (a n : Nat) : NFrame B :=
  match dest with
  | .pid p => .monitor true (some p.id) none (some a) n
  | .named x _ => .monitor true none (some x) (some a) n
  | .alias _ => .ping

/-- The process of a node that a destination stands for, if it exists. -/
def meant (dest : Dest) (w : World B V) : Option Nat :=
  match dest with
  | .pid p => if exists? w p.id then some p.id else none
  | .named x _ => w.names x
  | .alias _ => none

/-- During `l` the request for the monitor was handled on the right, and at that moment the destination stood for `t` (`none`: for no
process). -/
def Arrived (ser : Sers V B) (c : Conn) (d0 : Duo B V) (dest : Dest) (a n : Nat) (l : List (DOp B V)) (t : Option Nat) : Prop :=
  ∃ x rp y, l = x ++ .toR rp :: y ∧ running (drun ser c d0 x).R rp = true ∧ (drun ser c d0 x).nextR c = some (askFrame dest a n) ∧
    meant dest (drun ser c d0 x).R = t

/-- `e` is the right reason for the Down: the process that was meant when the request arrived died with this reason later, or there was
none. -/
def Why (ser : Sers V B) (c : Conn) (d0 : Duo B V) (dest : Dest) (a n : Nat) (l : List (DOp B V)) (e : ExitReason) : Prop :=
  (e = .custom "noproc" ∧ Arrived ser c d0 dest a n l none) ∨
  ∃ t x y p, l = x ++ .right (.drop t) :: y ∧ Arrived ser c d0 dest a n x (some t) ∧ (drun ser c d0 x).R.procs t = some p ∧
    doomed (drun ser c d0 x).R t = true ∧ e = p.reason.getD .normal

theorem Arrived.snoc {ser : Sers V B} {c : Conn} {d0 : Duo B V} {dest : Dest} {a n : Nat} {l : List (DOp B V)} {t : Option Nat}
    (h : Arrived ser c d0 dest a n l t) (s : DOp B V) : Arrived ser c d0 dest a n (l ++ [s]) t := by
  obtain ⟨x, rp, y, h1, h2⟩ := h
  exact ⟨x, rp, y ++ [s], by rw [h1]; simp, h2⟩

/-- The request arrives with step `s`. -/
def Arrives (c : Conn) (dest : Dest) (a n : Nat) (d : Duo B V) (s : DOp B V) : Prop :=
  ∃ rp, s = .toR rp ∧ running d.R rp = true ∧ d.nextR c = some (askFrame dest a n)

theorem Arrived.snoc_inv {ser : Sers V B} {c : Conn} {d0 : Duo B V} {dest : Dest} {a n : Nat} {l : List (DOp B V)} {t : Option Nat} {s : DOp B V}
    (h : Arrived ser c d0 dest a n (l ++ [s]) t) :
    Arrived ser c d0 dest a n l t ∨ (Arrives c dest a n (drun ser c d0 l) s ∧ meant dest (drun ser c d0 l).R = t) := by
  obtain ⟨x, rp, y, h1, h2, h3, h4⟩ := h
  rcases List.eq_nil_or_concat y with rfl | ⟨y', s', rfl⟩
  · obtain ⟨rfl, h⟩ := List.append_inj' h1 rfl
    simp at h
    exact .inr ⟨⟨rp, h, h2, h3⟩, h4⟩
  · rw [List.concat_eq_append, ← List.cons_append, ← List.append_assoc] at h1
    obtain ⟨rfl, -⟩ := List.append_inj' h1 rfl
    exact .inl ⟨x, rp, y', rfl, h2, h3, h4⟩

theorem Why.snoc {ser : Sers V B} {c : Conn} {d0 : Duo B V} {dest : Dest} {a n : Nat} {l : List (DOp B V)} {e : ExitReason}
    (h : Why ser c d0 dest a n l e) (s : DOp B V) : Why ser c d0 dest a n (l ++ [s]) e := by
  rcases h with ⟨h1, h2⟩ | ⟨t, x, y, p, h1, h2⟩
  · exact .inl ⟨h1, h2.snoc s⟩
  · exact .inr ⟨t, x, y ++ [s], p, by rw [h1]; simp, h2⟩

/-- Frames about the monitor `n`. -/
def asks (n : Nat) : NFrame B → Bool
  | .monitor _ _ _ _ m => decide (m = n)
  | _ => false
def tells (n : Nat) : NFrame B → Bool
  | .monitorDown refs _ => decide (n ∈ refs)
  | _ => false

/-- Where the monitor is: asked for, in place, or reported. -/
inductive Phase (ser : Sers V B) (c : Conn) (d0 : Duo B V) (dest : Dest) (a n : Nat) (l : List (DOp B V)) (d : Duo B V) : Prop
  | asked : (∀ t, ¬ Arrived ser c d0 dest a n l t) → (toRight c d).filter (asks n) = [askFrame dest a n] → (∀ i, entries (.rem n c.idL) i d.R = []) →
      (toLeft c d).filter (tells n) = [] → Phase ser c d0 dest a n l d
  | placed (t fid : Nat) : (toRight c d).filter (asks n) = [] → (∀ i, i ≠ t → entries (.rem n c.idL) i d.R = []) →
      entries (.rem n c.idL) t d.R = [(.rem n c.idL, .rem fid c.idL, none)] → (∀ t', Arrived ser c d0 dest a n l t' ↔ t' = some t) → exists? d.R t = true →
      (toLeft c d).filter (tells n) = [] → Phase ser c d0 dest a n l d
  | told (refs : List Nat) (e : ExitReason) : (toRight c d).filter (asks n) = [] → (∀ i, entries (.rem n c.idL) i d.R = []) →
      n ∈ refs → (toLeft c d).filter (tells n) = [.monitorDown refs e] → Why ser c d0 dest a n l e → Phase ser c d0 dest a n l d

def Mon (ser : Sers V B) (c : Conn) (d0 : Duo B V) (dest : Dest) (a n : Nat) (l : List (DOp B V)) (d : Duo B V) : Prop :=
  (∃ e, Reported n [(a, .down dest (.loc n) e)] d.L ∧ Why ser c d0 dest a n l e) ∨
  (RWatch n a c.nR (.process a dest) d.L ∧ Phase ser c d0 dest a n l d)

theorem Phase.snoc {ser : Sers V B} {c : Conn} {d0 : Duo B V} {dest : Dest} {a n : Nat} {l : List (DOp B V)} {d : Duo B V}
    (h : Phase ser c d0 dest a n l d) (s : DOp B V) (hs : ¬ Arrives c dest a n (drun ser c d0 l) s) : Phase ser c d0 dest a n (l ++ [s]) d := by
  have hiff : ∀ t, Arrived ser c d0 dest a n (l ++ [s]) t ↔ Arrived ser c d0 dest a n l t := by
    intro t
    refine ⟨fun h => ?_, fun h => h.snoc s⟩
    rcases h.snoc_inv with h | h
    · exact h
    · exact absurd h.1 hs
  cases h with
  | asked h0 h1 h2 h3 => exact .asked (fun t h => h0 t ((hiff t).1 h)) h1 h2 h3
  | placed t fid h1 h2 h3 h4 h5 h6 => exact .placed t fid h1 h2 h3 (fun t' => (hiff t').trans (h4 t')) h5 h6
  | told refs e h1 h2 h3 h4 h5 => exact .told refs e h1 h2 h3 h4 (h5.snoc s)

/-- The phase only depends on these. -/
theorem Phase.congr {ser : Sers V B} {c : Conn} {d0 : Duo B V} {dest : Dest} {a n : Nat} {l : List (DOp B V)} {d d' : Duo B V}
    (h : Phase ser c d0 dest a n l d) (h1 : (toRight c d').filter (asks n) = (toRight c d).filter (asks n))
    (h2 : (toLeft c d').filter (tells n) = (toLeft c d).filter (tells n)) (h3 : d'.R = d.R) : Phase ser c d0 dest a n l d' := by
  cases h with
  | asked a0 a1 a2 a3 => exact .asked a0 (h1.trans a1) (by rw [h3]; exact a2) (h2.trans a3)
  | placed t fid a1 a2 a3 a4 a5 a6 =>
    exact .placed t fid (h1.trans a1) (by rw [h3]; exact a2) (by rw [h3]; exact a3) a4 (by rw [h3]; exact a5) (h2.trans a6)
  | told refs e a1 a2 a3 a4 a5 => exact .told refs e (h1.trans a1) (by rw [h3]; exact a2) a3 (h2.trans a4) a5

theorem mon_lmove {ser : Sers V B} {c : Conn} {d0 d d' : Duo B V} {dest : Dest} {a n : Nat} {l : List (DOp B V)} {o : Op B V} {k : List (NFrame B)}
    (hi : CInv ser c d) (h : Mon ser c d0 dest a n l d) (hm : LMove ser c d d' o k) (hc : ¬ Cancels n a o) :
    Mon ser c d0 dest a n l d' := by
  rcases h with ⟨e, h1, h2⟩ | ⟨hw, hp⟩
  · exact .inl ⟨e, by rw [hm.L]; exact reported_acts h1 (step_acts ser.L d.L o), h2⟩
  · -- no new request
    obtain ⟨new, g1, -, -, g4⟩ := hm.new
    have hnew : new.filter (asks n) = [] := by
      rw [List.filter_eq_nil_iff]
      intro f hf
      have hof := g4 f hf
      cases f <;> simp only [asks, Bool.false_eq_true, not_false_eq_true]
      rename_i i p nm fr m
      cases i with
      | false => exact absurd hof (hi.left.no_demon o)
      | true =>
        obtain ⟨rfl, -⟩ := hof
        have := hw.lt
        simp only [decide_eq_true_eq]; omega
    have hI : (toRight c d').filter (asks n) = (toRight c d).filter (asks n) := by rw [g1, List.filter_append, hnew, List.append_nil]
    by_cases ht : ∃ rp refs e, o = .frame rp c.nR (.monitorDown refs e) ∧ n ∈ refs
    · obtain ⟨rp, refs, e, rfl, hn⟩ := ht
      rcases hm.from_ with ⟨-, h1⟩ | ⟨rp', f, rfl, h2, h3, h4⟩
      · exact absurd rfl (h1 rp _)
      · cases h2
        have hk : (toLeft c d).filter (tells n) = .monitorDown refs e :: (toLeft c d').filter (tells n) := by
          rw [hm.got]; simp [tells, hn]
        cases hp with
        | asked a0 a1 a2 a3 => rw [a3] at hk; simp at hk
        | placed t fid a1 a2 a3 a4 a5 a6 => rw [a6] at hk; simp at hk
        | told refs' e' a1 a2 a3 a4 a5 =>
          rw [a4] at hk
          simp only [List.cons.injEq, NFrame.monitorDown.injEq] at hk
          obtain ⟨⟨rfl, rfl⟩, -⟩ := hk
          refine .inl ⟨e', ?_, a5⟩
          have := rwatch_frame (e := e') rp refs' hw
          rw [if_pos hn] at this
          rw [hm.L]
          simp only [step, Op.caller, h3, if_true, Op.exec]
          exact this
    · have hne : ¬ REnds n a c.nR o := by
        rintro (h | h | h | ⟨p, h⟩ | h)
        · exact hc (.inl h)
        · exact hc (.inr (.inl h))
        · exact hc (.inr (.inr h))
        · have := hm.und; rw [h] at this; exact this rfl
        · exact ht h
      refine .inr ⟨by rw [hm.L]; exact rwatch_acts hw hne (step_acts ser.L d.L o), hp.congr hI ?_ hm.R⟩
      rw [hm.got, List.filter_append]
      have : k.filter (tells n) = [] := by
        rcases hm.from_ with ⟨rfl, -⟩ | ⟨rp, f, rfl, h2, -⟩
        · rfl
        · rw [List.filter_eq_nil_iff]
          intro f' hf'
          simp at hf'; subst hf'
          cases f' <;> simp only [tells, Bool.false_eq_true, not_false_eq_true]
          rename_i refs e
          simp only [decide_eq_true_eq]
          intro hn
          exact ht ⟨rp, refs, e, h2, hn⟩
      rw [this, List.nil_append]

/-- What right tells about the monitor: the entries that die. -/
theorem rmove_tells {ser : Sers V B} {c : Conn} {d d' : Duo B V} {o : Op B V} {k : List (NFrame B)} {n : Nat} (hi : CInv ser c d)
    (hm : RMove ser c d d' o k) (ho : ¬ Touches c.nL n o) {f : NFrame B} (hf : FrameOf d.R o f c.idL) (ht : tells n f = true) :
    ∃ t, o = .drop t ∧ entries (.rem n c.idL) t d.R ≠ [] := by
  cases f <;> simp only [tells, Bool.false_eq_true] at ht
  rename_i refs e
  have hn : n ∈ refs := by simpa using ht
  rcases hf with ⟨t, p, ho', -, -, g⟩ | ⟨rp, N, p, nm, fid, n', ho', rfl, -, hid, -⟩
  · refine ⟨t, ho', ?_⟩
    obtain ⟨r, fid, dd, g1, g2⟩ := g n hn
    obtain ⟨m, rfl⟩ := hi.right.monsRemote t _ _ _ _ g1
    simp only [Ref.id] at g2
    subst g2
    intro h
    unfold entries at h
    rw [List.filter_eq_nil_iff] at h
    exact h _ g1 (by simp)
  · simp at hn; subst hn
    obtain ⟨rfl, -, -, -⟩ := rmove_frame hi hm ho' hid.symm
    exact absurd (.inr ⟨_, _, _, _, _, ho'⟩) ho

theorem exists_of_meant {ser : V → B} {w : World B V} (hr : ∃ os, w = run ser init os) {dest : Dest} {t : Nat} (h : meant dest w = some t) :
    exists? w t = true := by
  cases dest with
  | pid p =>
    simp only [meant] at h
    split at h
    · simp at h; subst h; assumption
    · simp at h
  | named x N =>
    obtain ⟨os, rfl⟩ := hr
    obtain ⟨p, hp, -⟩ := (run_names ser os).2.1 x t h
    simp [exists?, hp]
  | alias r => simp [meant] at h

theorem entries_addMon (w : World B V) (r : Ref) (frm : Pid) (t i : Nat) :
    entries r i (addMon w t r frm none) = if i = t then [(r, frm, none)] else entries r i w := by
  unfold entries
  simp only [addMon_mons_eq, upd_at]
  split
  · subst_vars
    rw [List.filter_append]
    have : ((w.mons i).filter (fun x => x.1 ≠ r)).filter (fun x => decide (x.1 = r)) = [] := by
      rw [List.filter_filter, List.filter_eq_nil_iff]; simp
    simp_all
  · rfl

/-- The request arrives. -/
theorem request_frame {N : Node} {id : Nat} (hN : N ≠ .loc) {w : World B V} (hm : w.nodeMap N = some id) (rp a n : Nat) (dest : Dest)
    (hd : ∀ r, dest ≠ .alias r) :
    match meant dest w with
    | none => (recvFrame w N rp (askFrame dest a n)).mons = w.mons ∧
        askedFor id (recvFrame w N rp (askFrame dest a n)) = askedFor id w ++ [.monitorDown [n] (.custom "noproc")]
    | some t => (∀ i, entries (.rem n id) i (recvFrame w N rp (askFrame dest a n)) =
          if i = t then [(.rem n id, .rem a id, none)] else entries (.rem n id) i w) ∧
        ∃ new, askedFor id (recvFrame w N rp (askFrame dest a n)) = askedFor id w ++ new ∧ new.filter (tells n) = [] := by
  have hs : ∀ (w : World B V) f, askedFor id (sendFrame w f id) = askedFor id w ++ [f] := by
    intro w f; unfold askedFor; rw [sendFrame_asked]; simp
  have hsm : ∀ (w : World B V) f k, (sendFrame w f k).mons = w.mons := by
    intro w f k; rw [sendFrame_act, mons_act]
  cases dest with
  | pid p =>
    simp only [meant, askFrame, recvFrame, nodeRegister_idle hN hm]
    by_cases hx : exists? w p.id = true
    · simp only [hx, if_true]
      refine ⟨fun i => ?_, [], ?_, rfl⟩
      · exact entries_addMon w _ _ _ _
      · simp [askedFor]
    · simp only [hx]
      exact ⟨hsm _ _ _, hs _ _⟩
  | named x M =>
    simp only [meant, askFrame, recvFrame, nodeRegister_idle hN hm]
    cases hx : w.names x with
    | none => exact ⟨hsm _ _ _, hs _ _⟩
    | some t =>
      dsimp only
      refine ⟨fun i => ?_, [.monitorUpdate a t n], ?_, rfl⟩
      · have : ∀ w1 : World B V, w1.mons = (addMon w t (.rem n id) (.rem a id) none).mons →
            entries (.rem n id) i w1 = entries (.rem n id) i (addMon w t (.rem n id) (.rem a id) none) := by
          intro w1 h; unfold entries; rw [h]
        rw [this _ (by simp [hsm]), entries_addMon]
      · have : ∀ w1 w2 : World B V, w1.asked = w2.asked → askedFor id w1 = askedFor id w2 := by
          intro w1 w2 h; unfold askedFor; rw [h]
        rw [this _ (sendFrame (addMon w t (.rem n id) (.rem a id) none) (.monitorUpdate a t n) id) (by simp), hs]
        congr 1
  | alias r => exact absurd rfl (hd r)

theorem mon_rmove {ser : Sers V B} {c : Conn} {d0 d d' : Duo B V} {dest : Dest} {a n : Nat} {l : List (DOp B V)} {o : Op B V} {k : List (NFrame B)}
    (hd : ∀ r, dest ≠ .alias r)
    (hi : CInv ser c d) (h : Mon ser c d0 dest a n l d) (hm : RMove ser c d d' o k) (s : DOp B V) (hleg : Legal c s) (hdl : d = drun ser c d0 l)
    (hs : s = .right o ∨ ∃ rp f, s = .toR rp ∧ o = .frame rp c.nL f ∧ d.nextR c = some f) : Mon ser c d0 dest a n (l ++ [s]) d' := by
  rcases h with ⟨e, h1, h2⟩ | ⟨hw, hp⟩
  · exact .inl ⟨e, by rw [hm.L]; exact h1, h2.snoc s⟩
  · refine .inr ⟨by rw [hm.L]; exact hw, ?_⟩
    obtain ⟨new, g1, -, g3, g4⟩ := hm.new
    have hno : ¬ Touches c.nL n o → ¬ Arrives c dest a n (drun ser c d0 l) s := by
      rintro ht ⟨rp, h1, h2, h3⟩
      rw [← hdl] at h3
      rcases hs with rfl | ⟨rp', f, rfl, h5, h6⟩
      · cases h1
      · rw [h3] at h6
        cases h6
        cases dest with
        | pid p => exact ht (.inr ⟨_, _, _, _, _, h5⟩)
        | named x N => exact ht (.inr ⟨_, _, _, _, _, h5⟩)
        | alias r => exact absurd rfl (hd r)
    by_cases ht : Touches c.nL n o
    · -- the request arrives
      rcases ht with ⟨p, rfl⟩ | ⟨rp, i, p, nm, frm, rfl⟩
      · exact absurd rfl hm.und
      · rcases hm.from_ with ⟨-, h1⟩ | ⟨rp', f, rfl, h2, h3, h4⟩
        · exact absurd rfl (h1 rp _)
        · cases h2
          have hk : (toRight c d).filter (asks n) = .monitor i p nm frm n :: (toRight c d').filter (asks n) := by
            rw [hm.got]; simp [asks]
          cases hp with
          | placed t fid a1 a2 a3 a4 a5 a6 => rw [a1] at hk; simp at hk
          | told refs' e' a1 a2 a3 a4 a5 => rw [a1] at hk; simp at hk
          | asked a0 a1 a2 a3 =>
            rw [a1] at hk
            simp only [List.cons.injEq] at hk
            obtain ⟨hreq, hrest⟩ := hk
            have hR : d'.R = recvFrame d.R c.nL rp (askFrame dest a n) := by
              rw [hm.R, hreq]; simp [step, Op.caller, h3, Op.exec]
            have harr : ∀ t, meant dest d.R = t → Arrived ser c d0 dest a n (l ++ [s]) t := by
              intro t ht
              rcases hs with rfl | ⟨rp', f, rfl, h5, h6⟩
              · exact absurd rfl (hleg.2 rp _)
              · cases h5
                exact ⟨l, rp, [], rfl, by rw [← hdl]; exact h3, by rw [← hdl, h6, hreq], by rw [← hdl]; exact ht⟩
            have hframe := request_frame hi.right.ne hi.right.map rp a n dest hd
            rw [← hR] at hframe
            cases hmt : meant dest d.R with
            | none =>
              rw [hmt] at hframe
              obtain ⟨f1, f2⟩ := hframe
              rw [g3] at f2
              have f2 := List.append_cancel_left f2
              refine .told [n] (.custom "noproc") hrest.symm ?_ (by simp) ?_ (.inl ⟨rfl, harr none hmt⟩)
              · intro i; unfold entries; rw [f1]; exact a2 i
              · rw [g1, List.filter_append, a3, f2]; simp [tells]
            | some t =>
              rw [hmt] at hframe
              obtain ⟨f1, new', f2, f3⟩ := hframe
              rw [g3] at f2
              have f2 := List.append_cancel_left f2
              refine .placed t a hrest.symm ?_ ?_ ?_ ?_ ?_
              · intro i hi; rw [f1, if_neg hi]; exact a2 i
              · rw [f1, if_pos rfl]
              · intro t'
                refine ⟨fun h => ?_, fun h => h ▸ harr _ hmt⟩
                rcases h.snoc_inv with h | h
                · exact absurd h (a0 t')
                · rw [← h.2, ← hdl]; exact hmt
              · rw [hm.R]; exact exists_acts (step_acts ser.R d.R _) t (exists_of_meant hi.right.reach hmt) (by simp)
              · rw [g1, List.filter_append, a3, f2, f3]; rfl
    · have hI : (toRight c d').filter (asks n) = (toRight c d).filter (asks n) := by
        rw [hm.got, List.filter_append]
        have : k.filter (asks n) = [] := by
          rcases hm.from_ with ⟨rfl, -⟩ | ⟨rp, f, rfl, h2, -⟩
          · rfl
          · rw [List.filter_eq_nil_iff]
            intro f' hf'
            simp at hf'; subst hf'
            cases f' <;> simp only [asks, Bool.false_eq_true, not_false_eq_true]
            rename_i i p nm fr m
            simp only [decide_eq_true_eq]
            rintro rfl
            exact ht (.inr ⟨_, _, _, _, _, h2⟩)
        rw [this, List.nil_append]
      have hent := entries_acts hi.right.ne hi.right.inv hi.right.map hi.right.filed hi.right.boxLocal ht (step_acts ser.R d.R o)
      rw [← hm.R] at hent
      have hkeep : ∀ i, entries (.rem n c.idL) i d.R = [] → entries (.rem n c.idL) i d'.R = [] := by
        intro i h; rcases hent i with h1 | ⟨-, h1⟩
        · rw [h1, h]
        · exact h1
      have hqt : (∀ t, o = .drop t → entries (.rem n c.idL) t d.R = []) → (toLeft c d').filter (tells n) = (toLeft c d).filter (tells n) := by
        intro hnn
        rw [g1, List.filter_append]
        have : new.filter (tells n) = [] := by
          rw [List.filter_eq_nil_iff]
          intro f hf htf
          obtain ⟨t, h1, h2⟩ := rmove_tells hi hm ht (g4 f hf) htf
          exact h2 (hnn t h1)
        rw [this, List.append_nil]
      have hp := hp.snoc s (hno ht)
      cases hp with
      | asked a0 a1 a2 a3 => exact .asked a0 (hI.trans a1) (fun i => hkeep i (a2 i)) ((hqt fun t _ => a2 t).trans a3)
      | told refs e a1 a2 a3 a4 a5 =>
        exact .told refs e (hI.trans a1) (fun i => hkeep i (a2 i)) a3 ((hqt fun t _ => a2 t).trans a4) a5
      | placed t fid a1 a2 a3 a4 a5 a6 =>
        by_cases hdrop : o = .drop t
        · subst hdrop
          obtain ⟨p, hp⟩ : ∃ p, d.R.procs t = some p := by
            unfold exists? at a5; cases h : d.R.procs t <;> simp_all
          cases hdm : doomed d.R t with
          | false =>
            have hR : d'.R = d.R := by rw [hm.R]; simp [step, Op.caller, Op.exec, hdm]
            refine .placed t fid (hI.trans a1) ?_ ?_ a4 ?_ ?_
            · rw [hR]; exact a2
            · rw [hR]; exact a3
            · rw [hR]; exact a5
            · have : new = [] := by rw [hR] at g3; simpa using g3
              rw [g1, this, List.append_nil]; exact a6
          | true =>
            have hR : d'.R = dropProc d.R t := by rw [hm.R]; simp [step, Op.caller, Op.exec, hdm]
            have hmem : (Ref.rem n c.idL, Pid.rem fid c.idL, (none : Option Dest)) ∈ d.R.mons t := by
              have : (Ref.rem n c.idL, Pid.rem fid c.idL, (none : Option Dest)) ∈ entries (.rem n c.idL) t d.R := by rw [a3]; simp
              exact (List.mem_filter.1 this).1
            have hfr := dropProc_askedFor d.R t p hp c.idL (by
              intro r m hm' hk
              have := hi.right.boxLocal t p hp _ hm'
              cases r with
              | loc i => exact hi.right.id_ne hk.symm
              | rem i k => simp [Ref.isLocal] at this)
            dsimp only at hfr
            rw [← hR, g3, List.append_assoc] at hfr
            have hnew := List.append_cancel_left hfr
            have hin : Ref.rem n c.idL ∈ ((remoteRefs (d.R.mons t)).filter (fun x => decide (x.1 = c.idL))).map (fun x => x.2) := by
              refine List.mem_map.2 ⟨(c.idL, .rem n c.idL), List.mem_filter.2 ⟨?_, by simp⟩, rfl⟩
              exact List.mem_filterMap.2 ⟨_, hmem, rfl⟩
            generalize ((remoteRefs (d.R.mons t)).filter (fun x => decide (x.1 = c.idL))).map (fun x => x.2) = rs at hnew hin
            have hrs : rs ≠ [] := by rintro rfl; simp at hin
            rw [if_neg hrs] at hnew
            have hn : n ∈ rs.map Ref.id := List.mem_map.2 ⟨_, hin, rfl⟩
            refine .told (rs.map Ref.id) (p.reason.getD .normal) (hI.trans a1) ?_ hn ?_ ?_
            · intro i
              by_cases hi' : i = t
              · subst hi'
                have h6 := (drop_eff d.R i p hp (by obtain ⟨os, h⟩ := hi.right.reach; rw [h]; exact run_linksNodup ser.R os i)).2.2.2.2.2.1 i
                rw [if_pos rfl, ← hR] at h6
                unfold entries
                rw [List.sublist_nil.1 h6]; rfl
              · exact hkeep i (a2 i hi')
            · rw [g1, List.filter_append, a6, hnew, List.filter_append]
              have hlk : ∀ (ps : List Pid), (if ps = [] then [] else [NFrame.linkDown (ps.map Pid.id) t (p.reason.getD .normal)] : List (NFrame B)).filter (tells n) = [] := by
                intro ps; split <;> simp [tells]
              rw [hlk]
              simp only [List.nil_append, List.filter_cons, List.filter_nil, tells, hn, decide_true, if_true]
            · rcases hs with rfl | ⟨rp', f, rfl, h5, h6⟩
              · refine .inr ⟨t, l, [], p, rfl, ?_, by rw [← hdl]; exact hp, by rw [← hdl]; exact hdm, rfl⟩
                rcases ((a4 _).2 rfl).snoc_inv with h | ⟨h, -⟩
                · exact h
                · exact absurd h (hno ht)
              · cases h5
        · refine .placed t fid (hI.trans a1) (fun i hi' => hkeep i (a2 i hi')) ?_ a4 ?_ ?_
          · rcases hent t with h1 | ⟨h1, -⟩
            · rw [h1, a3]
            · exact absurd h1 hdrop
          · rw [hm.R]; exact exists_acts (step_acts ser.R d.R o) t a5 hdrop
          · refine (hqt ?_).trans a6
            rintro t' rfl
            exact a2 t' (by rintro rfl; exact hdrop rfl)

theorem mon_step {ser : Sers V B} {c : Conn} {d0 : Duo B V} {dest : Dest} {a n : Nat} (hd : ∀ r, dest ≠ .alias r) {l : List (DOp B V)}
    (hi : CInv ser c (drun ser c d0 l)) (h : Mon ser c d0 dest a n l (drun ser c d0 l)) (s : DOp B V) (hs : Legal c s)
    (hc : ∀ o, s = .left o → ¬ Cancels n a o) : Mon ser c d0 dest a n (l ++ [s]) (drun ser c d0 (l ++ [s])) := by
  rw [drun_snoc]
  have hkeep : ∀ d', (∀ rp, s ≠ .toR rp) → Mon ser c d0 dest a n l d' → Mon ser c d0 dest a n (l ++ [s]) d' := by
    rintro d' hne (⟨e, h1, h2⟩ | ⟨h1, h2⟩)
    · exact .inl ⟨e, h1, h2.snoc s⟩
    · exact .inr ⟨h1, h2.snoc s (by rintro ⟨rp, h, -⟩; exact hne rp h)⟩
  obtain ⟨-, ⟨h0, h1, -⟩ | ⟨o, k, hm, h1⟩ | ⟨o, k, hm, h1⟩⟩ := dstep_moves hi s hs
  · rw [h0]
    rcases h with ⟨e, h2, h3⟩ | ⟨h2, h3⟩
    · exact .inl ⟨e, h2, h3.snoc s⟩
    · refine .inr ⟨h2, h3.snoc s ?_⟩
      rintro ⟨rp, h4, h5, h6⟩
      rw [h1 rp _ h4 h6] at h5; simp at h5
  · refine hkeep _ ?_ (mon_lmove hi h hm ?_)
    · rintro rp rfl
      rcases h1 with h1 | ⟨rp', f, h1, -⟩ <;> cases h1
    · rcases h1 with h1 | ⟨rp', f, -, rfl, -⟩
      · exact hc o h1
      · rintro (h | h | h) <;> cases h
  · exact mon_rmove hd hi h hm s hs rfl h1

theorem mon_run {ser : Sers V B} {c : Conn} {d0 : Duo B V} {dest : Dest} {a n : Nat} (hd : ∀ r, dest ≠ .alias r) (hi : CInv ser c d0)
    (h : Mon ser c d0 dest a n [] d0) (l : List (DOp B V)) : (∀ s ∈ l, Legal c s ∧ ∀ o, s = .left o → ¬ Cancels n a o) →
    Mon ser c d0 dest a n l (drun ser c d0 l) := by
  have key : ∀ (l' l : List (DOp B V)), (∀ s ∈ l, Legal c s) → (∀ s ∈ l', Legal c s ∧ ∀ o, s = .left o → ¬ Cancels n a o) →
      Mon ser c d0 dest a n l (drun ser c d0 l) → Mon ser c d0 dest a n (l ++ l') (drun ser c d0 (l ++ l')) := by
    intro l'
    induction l' with
    | nil => intro l _ _ h; simpa using h
    | cons s l' ih =>
      intro l hl hl' h
      have h1 := mon_step hd (cinv_run l hi hl) h s (hl' s List.mem_cons_self).1 (hl' s List.mem_cons_self).2
      have := ih (l ++ [s]) (by
        intro s' hs'
        rcases List.mem_append.1 hs' with hs' | hs'
        · exact hl s' hs'
        · simp at hs'; subst hs'; exact (hl' _ List.mem_cons_self).1) (fun s hs => hl' s (.tail _ hs)) h1
      simpa using this
  intro hl
  exact key l [] (by simp) hl h

/-- The request that a monitor operation makes. -/
theorem monitor_asks {ser : V → B} {N : Node} {id s : Nat} {w : World B V} (h : Side ser N id s w) {a : Nat} {dest : Dest} {o : Op B V}
    (ho : RMonitors w a N dest o) (hrun : running w a = true) :
    askedFor id (step ser w o).1 = askedFor id w ++ [askFrame dest a w.nextRef] := by
  have hc : ∀ (w1 : World B V) M, (nodeRegister w1 M true).1.asked = w1.asked := by
    intro w1 M; unfold nodeRegister spawnRaw
    split
    · rfl
    · split
      · simp only [if_true]; split
        · rfl
        · split <;> rfl
      · simp only [if_true]
  have hid : ∀ (w1 : World B V), w1.nodeMap = w.nodeMap → (nodeRegister w1 N true).2 = id := by
    intro w1 h1
    have hm : w1.nodeMap N = some id := by rw [h1]; exact h.map
    unfold nodeRegister
    split
    · exact absurd rfl h.ne
    · simp only [hm]
      simp only [if_true]; split
      · rfl
      · split <;> rfl
  have hs : ∀ (w1 : World B V) f, w1.asked = w.asked → askedFor id (sendFrame w1 f id) = askedFor id w ++ [f] := by
    intro w1 f h1; unfold askedFor; rw [sendFrame_asked, h1]; simp
  have key : ∀ al, askedFor id (monitorInstall (freshRef w a al) dest (.loc w.nextRef) a) = askedFor id w ++ [askFrame dest a w.nextRef] := by
    intro al
    have h0 : (freshRef w a al).asked = w.asked ∧ (freshRef w a al).nodeMap = w.nodeMap ∧ (freshRef w a al).nodeRegs = w.nodeRegs := by
      unfold freshRef optAlias; cases al <;> exact ⟨rfl, rfl, rfl⟩
    obtain ⟨hN, -⟩ := ho
    unfold monitorInstall
    match dest, hN with
    | .pid (.rem i k), hN =>
      have hl : lookupNode (modBox (freshRef w a al) a (setMon · (.loc w.nextRef) (.forProcess (some (.rem i k))))) k = some N := by
        have : ∀ w2 : World B V, w2.nodeRegs = w.nodeRegs → lookupNode w2 k = some N := by
          intro w2 h; unfold lookupNode; rw [h]; exact hN
        apply this; simp
      simp only [hl]
      rw [hid _ (by simp [h0])]
      exact hs _ _ (by rw [hc]; simp [h0])
    | .named name (.rem x y), hN =>
      simp only [remoteNode, Option.some.injEq] at hN
      subst hN
      dsimp only
      rw [hid _ (by simp [h0])]
      exact hs _ _ (by rw [hc]; simp [h0])
  rcases ho.2 with rfl | ⟨reply, rfl⟩
  · simp only [step, Op.caller, hrun, if_true, Op.exec, monitor_eq]; exact key none
  · simp only [step, Op.caller, hrun, if_true, Op.exec, monitorAlias_eq]; exact key (some reply)

theorem mon_begins {ser : Sers V B} {c : Conn} {d : Duo B V} (h : MInv ser c d) {a : Nat} {dest : Dest} {o : Op B V}
    (ho : RMonitors d.L a c.nR dest o) (hrun : running d.L a = true) :
    CInv ser c (dstep ser c d (.left o)) ∧ refsOf [(step ser.L d.L o).2] = [.loc d.L.nextRef] ∧
    ∀ d0, d0 = dstep ser c d (.left o) → Mon ser c d0 dest a d.L.nextRef [] d0 := by
  have hleg : Legal c (.left o) := by
    obtain ⟨-, rfl | ⟨r, rfl⟩⟩ := ho
    · exact ⟨trivial, by simp⟩
    · exact ⟨trivial, by simp⟩
  obtain ⟨os, hos⟩ := h.conn.left.reach
  have hrw := rmonitors_step ser.L os a c.nR dest o
  rw [← hos] at hrw
  obtain ⟨r1, r2⟩ := hrw ho hrun
  obtain ⟨hc, -⟩ := dstep_moves h.conn _ hleg
  obtain ⟨-, -, new, g3, g4, -⟩ := h.conn.left.step o hleg.1
  have hnew : new = [askFrame dest a d.L.nextRef] := by
    have := monitor_asks h.conn.left ho hrun
    rw [g4] at this; exact List.append_cancel_left this
  refine ⟨hc, r1, ?_⟩
  rintro d0 rfl
  refine .inr ⟨r2, .asked ?_ ?_ ?_ ?_⟩
  · rintro t ⟨x, rp, y, hx, -⟩; simp at hx
  · have e : toRight c (dstep ser c d (.left o)) = toRight c d ++ [askFrame dest a d.L.nextRef] := by
      rw [← hnew]; exact drop_wire _ _ _ h.conn.cL _ _ _ g3
    rw [e, List.filter_append]
    have h0 : (toRight c d).filter (asks d.L.nextRef) = [] := by
      rw [List.filter_eq_nil_iff]
      intro f hf hfa
      cases f <;> simp only [asks, Bool.false_eq_true] at hfa
      have := (h.mf _ _ _ _ _ (List.mem_of_mem_drop hf)).2
      simp at hfa; omega
    rw [h0, List.nil_append]
    have : asks d.L.nextRef (askFrame dest a d.L.nextRef : NFrame B) = true := by
      obtain ⟨hN, -⟩ := ho
      match dest, hN with
      | .pid (.rem i k), hN => simp [askFrame, asks]
      | .named name (.rem x y), hN => simp [askFrame, asks]
    simp [this]
  · intro i
    show entries _ i d.R = []
    unfold entries
    rw [List.filter_eq_nil_iff]
    intro x hx hxr
    simp at hxr
    have := h.en i x hx (by rw [hxr]; rfl)
    rw [hxr] at this; simp [Ref.id] at this
  · show (toLeft c d).filter _ = []
    rw [List.filter_eq_nil_iff]
    intro f hf hft
    cases f <;> simp only [tells, Bool.false_eq_true] at hft
    have := h.dn _ _ d.L.nextRef (List.mem_of_mem_drop hf) (by simpa using hft)
    omega

/-- C49. Two nodes with a connection, on which everything arrives in order; after any history `l1` the process `a` of the left node
starts to monitor `dest`, a process of the right node; then any interleaving `l2` of operations of both nodes and arrivals of frames, in
which the connection stays up and `a` does not give the monitor up. At most one Down (or NodeDown) for the monitor is put in `a`'s mailbox,
and it has the right reason (`Why`): the one with which the process died, or "noproc" if there was none when the request arrived. And
when nothing is on its way any more, it was put there, unless the process which `dest` stood for when the request arrived still exists. -/
theorem C49_exactly_once (ser : Sers V B) (c : Conn) (d : Duo B V) (l1 l2 : List (DOp B V)) (a : Nat) (dest : Dest) (o : Op B V) :
    let d1 := drun ser c d l1
    let d0 := dstep ser c d1 (.left o)
    let d2 := drun ser c d0 l2
    Begins ser c d → (∀ s ∈ l1, Legal c s) → RMonitors d1.L a c.nR dest o → running d1.L a = true →
    ∃ n, refsOf [(step ser.L d1.L o).2] = [.loc n] ∧
      ((∀ s ∈ l2, Legal c s ∧ ∀ o', s = .left o' → ¬ Cancels n a o') →
        (repsOf (.loc n) d2.L.sent = [] ∨
          ∃ e, repsOf (.loc n) d2.L.sent = [(a, .down dest (.loc n) e)] ∧ Why ser c d0 dest a n l2 e) ∧
        (Quiet c d2 →
          (∃ e, repsOf (.loc n) d2.L.sent = [(a, .down dest (.loc n) e)] ∧ Why ser c d0 dest a n l2 e) ∨
          ∃ t, exists? d2.R t = true ∧ (∀ t', Arrived ser c d0 dest a n l2 t' ↔ t' = some t) ∧ repsOf (.loc n) d2.L.sent = [])) := by
  intro d1 d0 d2 hb hl1 ho hrun
  obtain ⟨hc, h1, h2⟩ := mon_begins (minv_run l1 hb.minv hl1) ho hrun
  refine ⟨_, h1, ?_⟩
  intro hl2
  have hd : ∀ r, dest ≠ .alias r := by
    rintro r rfl
    have := ho.1
    simp [remoteNode] at this
  have hm := mon_run hd hc (h2 _ rfl) l2 hl2
  refine ⟨?_, ?_⟩
  · rcases hm with ⟨e, h3, h4⟩ | ⟨h3, -⟩
    · exact .inr ⟨e, h3.2, h4⟩
    · exact .inl h3.sent
  · rintro ⟨q1, q2⟩
    rcases hm with ⟨e, h3, h4⟩ | ⟨h3, h4⟩
    · exact .inl ⟨e, h3.2, h4⟩
    · cases h4 with
      | asked a0 a1 a2 a3 => rw [show toRight c _ = [] from q1] at a1; simp at a1
      | told refs e a1 a2 a3 a4 a5 => rw [show toLeft c _ = [] from q2] at a4; simp at a4
      | placed t fid a1 a2 a3 a4 a5 a6 => exact .inr ⟨t, a5, a4, h3.sent⟩

/-! ### An example -/

/-- Node "a" connects to node "b", sender 4 and receiver 5. -/
def duoL : List (Op Nat Nat) :=
  [.boot, .nodeStart 1 "a" (addr 1), .connect 1 (.rem "b" (addr 2)), .boot, .boot, .workers (.rem "b" (addr 2)) 4 5]
/-- Node "b" accepts, sender 4 and receiver 5. -/
def duoR : List (Op Nat Nat) :=
  [.boot, .nodeStart 1 "b" (addr 2), .boot, .accept 3 (.rem "a" (addr 1)), .boot, .boot, .workers (.rem "a" (addr 1)) 4 5]
def duoC : Conn := ⟨.rem "a" (addr 1), .rem "b" (addr 2), 1, 1, 4, 4⟩
def duo : Duo Nat Nat := ⟨run id init duoL, run id init duoR, 0, 0⟩

theorem regs_lt {ser : V → B} (os : List (Op B V)) {k : Nat} {g : NReg} (h : (run ser init os).nodeRegs k = some g) :
    k < (run ser init os).nextNode := by
  have hi := run_nodeInv ser os
  by_cases h0 : k = 0
  · subst h0; exact hi.pos
  · rcases hi.range _ _ ((hi.back k g h).2 h0) with ⟨h1, -⟩ | ⟨-, -, h1⟩
    · cases h1
    · exact h1

abbrev sameSer : Sers Nat Nat := ⟨id, id⟩

theorem duo_begins : Begins sameSer duoC duo := by
  refine ⟨⟨duoL, rfl⟩, ⟨duoR, rfl⟩, ⟨by decide, rfl, ⟨_, rfl, by decide, .inr rfl⟩, ?_, ?_, rfl, rfl, ?_, ?_, ?_, ?_⟩,
    ⟨by decide, rfl, ⟨_, rfl, by decide, .inr rfl⟩, ?_, ?_, rfl, rfl, ?_, ?_, ?_, ?_⟩, rfl, rfl⟩
  · intro k g hk hg
    have := regs_lt duoL hg
    have e : (run id init duoL : World Nat Nat).nextNode = 2 := rfl
    rw [e] at this
    have : k = 0 := by simp only [duoC] at hk; omega
    subst this
    cases hg; decide
  · intro g hg; cases hg; decide
  · intro i x hx; cases hx
  · intro i x hx; cases hx
  · intro i x hx; cases hx
  · intro i x hx; cases hx
  · intro k g hk hg
    have := regs_lt duoR hg
    have e : (run id init duoR : World Nat Nat).nextNode = 2 := rfl
    rw [e] at this
    have : k = 0 := by simp only [duoC] at hk; omega
    subst this
    cases hg; decide
  · intro g hg; cases hg; decide
  · intro i x hx; cases hx
  · intro i x hx; cases hx
  · intro i x hx; cases hx
  · intro i x hx; cases hx

end Verif.World
