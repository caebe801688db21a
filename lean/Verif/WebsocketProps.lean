import Verif.Websocket
/-!
# C76, C77, C90: the websocket handler process
-/
namespace Verif.Websocket
variable {S M : Type}

/-! ## Specification -/

/-- The messages handed to the socket for `Send` commands. -/
def writes (l : List (Ev M)) : List WsMsg := l.filterMap fun | .wrote m => some m | _ => none
/-- How often `terminate` was invoked. -/
def terminates (l : List (Ev M)) : Nat := l.countP fun | .terminate _ => true | _ => false
/-- Something sent over the websocket. -/
def Out : Ev M → Prop
  | .wrote _ | .ponged _ | .closed _ _ => True
  | _ => False
/-- `w` consists of a beginning of the messages of each command list, in the order of the lists. -/
def InOrder (w : List WsMsg) (g : List (List Cmd)) : Prop :=
  ∃ ps : List (List WsMsg), ps.length = g.length ∧ (∀ (i : Nat) (p : List WsMsg) (cs : List Cmd), ps[i]? = some p → g[i]? = some cs → p <+: sends cs) ∧ w = ps.flatten

/-- What `sends` and `closing` are. -/
theorem sends_spec (pre : List WsMsg) : sends (pre.map .send) = pre ∧ closing (pre.map .send) = none ∧
    ∀ c r rest, sends (pre.map .send ++ .close c r :: rest) = pre ∧ closing (pre.map .send ++ .close c r :: rest) = some (c, r) := by
  induction pre with
  | nil => simp [sends, closing]
  | cons m pre ih => simpa [sends, closing] using ih

theorem run_append (h : Handler S M) (s : St S M) (l l' : List (In M)) : run h s (l ++ l') = run h (run h s l) l' := by simp [run, List.foldl_append]

theorem run_inv {h : Handler S M} {P : St S M → Prop} (hs : ∀ s i, P s → P (step h s i)) {s : St S M} (h0 : P s) (l : List (In M)) : P (run h s l) := by
  induction l generalizing s with
  | nil => exact h0
  | cons i l ih => exact ih (hs s i h0)

/-! ## What one step adds -/

@[simp] theorem emit_pc (s : St S M) (es) : (emit s es).pc = s.pc := rfl
@[simp] theorem emit_log (s : St S M) (es) : (emit s es).log = s.log ++ es := rfl
@[simp] theorem emit_given (s : St S M) (es) : (emit s es).given = s.given := rfl
@[simp] theorem emit_shut (s : St S M) (es) : (emit s es).shut = s.shut := rfl
@[simp] theorem emit_σ (s : St S M) (es) : (emit s es).σ = s.σ := rfl
@[simp] theorem goto_pc (s : St S M) (p) : (goto s p).pc = p := rfl
@[simp] theorem goto_log (s : St S M) (p) : (goto s p).log = s.log := rfl
@[simp] theorem goto_given (s : St S M) (p) : (goto s p).given = s.given := rfl
@[simp] theorem goto_shut (s : St S M) (p) : (goto s p).shut = s.shut := rfl
@[simp] theorem goto_σ (s : St S M) (p) : (goto s p).σ = s.σ := rfl
@[simp] theorem finish_log (s : St S M) (a) : (finish s a).log = s.log := by cases a <;> rfl
@[simp] theorem finish_given (s : St S M) (a) : (finish s a).given = s.given := by cases a <;> rfl
@[simp] theorem finish_shut (s : St S M) (a) : (finish s a).shut = s.shut := by cases a <;> rfl
theorem finish_pc (s : St S M) (a) : (finish s a).pc = .select ∨ (finish s a).pc = .terminate (.custom "connection_closed") .leave := by
  cases a <;> simp [finish]
@[simp] theorem closeStep_log (s : St S M) (c a) : (closeStep s c a).log = s.log := by cases c <;> simp [closeStep]
@[simp] theorem closeStep_given (s : St S M) (c a) : (closeStep s c a).given = s.given := by cases c <;> simp [closeStep]
@[simp] theorem closeStep_shut (s : St S M) (c a) : (closeStep s c a).shut = s.shut := by cases c <;> simp [closeStep]
@[simp] theorem result_log (s : St S M) (σ r a) : (result s σ r a).log = s.log := by
  rcases r with (_ | _) | _ | _ <;> simp [result]
@[simp] theorem result_shut (s : St S M) (σ r a) : (result s σ r a).shut = s.shut := by
  rcases r with (_ | _) | _ | _ <;> simp [result]

/-- What the log gets in one step: the shapes of the additions. -/
inductive Adds (s : St S M) : List (Ev M) → Bool → Prop
  | nothing : Adds s [] s.shut
  | init (r : ExitReason) : Adds s [.init, .exit r] s.shut
  | called (e : Ev M) (he : e = .init ∨ (∃ m, e = .info m) ∨ (∃ m, e = .handle m)) : Adds s [e] s.shut
  | sent (ms : List WsMsg) (hs : s.shut = true → ms = []) : Adds s (ms.map .wrote) s.shut
  | failed (ms : List WsMsg) (e : WsError) (hs : s.shut = true → ms = []) : Adds s (ms.map .wrote ++ [.failed e]) s.shut
  | closed (c : Nat) (r : String) (hs : s.shut = false) : Adds s [.closed c r, .exit .normal] true
  | terminated (r : ExitReason) : Adds s [.terminate r, .exit r] s.shut
  | ponged (d : List UInt8) (hs : s.shut = false) : Adds s [.ponged d] s.shut

theorem step_adds (h : Handler S M) (s : St S M) (i : In M) : ∃ es b, Adds s es b ∧ (step h s i).log = s.log ++ es ∧ (step h s i).shut = b := by
  unfold step
  split
  · exact ⟨_, _, .nothing, by simp, rfl⟩
  · exact ⟨_, _, .nothing, by simp, rfl⟩
  · exact ⟨_, _, .nothing, by simp, rfl⟩
  · rename_i cs a n _
    exact ⟨_, _, .sent ((sends cs).take (if s.shut then 0 else n)) (fun hs => by rw [if_pos hs]; simp), rfl, rfl⟩
  · exact ⟨_, _, .nothing, by simp, rfl⟩
  · split
    · exact ⟨_, _, .init _, by simp; rfl, rfl⟩
    · exact ⟨_, _, .called .init (.inl rfl), by simp, by simp⟩
  · split
    · exact ⟨_, _, .nothing, by simp, rfl⟩
    · rename_i cs a _ hc
      exact ⟨_, _, .sent (sends cs) (by intro hs; false_or_by_contra; rename_i hn; exact hc ⟨hs, hn⟩), by simp, by simp⟩
  · split
    · rename_i cs a n e _ hc
      exact ⟨_, _, .failed ((sends cs).take n) e (fun hs => by simp [hc.2 hs]), by simp, by simp⟩
    · exact ⟨_, _, .nothing, by simp, rfl⟩
  · split
    · exact ⟨_, _, .nothing, by simp, rfl⟩
    · rename_i c r a _ hc
      exact ⟨_, _, .closed c r (by simpa using hc), by simp, by simp⟩
  · exact ⟨_, _, .failed [] _ (fun _ => rfl), by simp; rfl, by simp⟩
  · dsimp only
    split
    · exact ⟨_, _, .terminated _, by simp; rfl, by simp⟩
    · exact ⟨_, _, .terminated _, by simp; rfl, by simp⟩
    · exact ⟨_, _, .terminated _, by simp; rfl, by simp⟩
  · exact ⟨_, _, .nothing, by simp, rfl⟩
  · exact ⟨_, _, .nothing, by simp, rfl⟩
  · exact ⟨_, _, .nothing, by simp, rfl⟩
  · exact ⟨_, _, .nothing, by simp, rfl⟩
  · exact ⟨_, _, .nothing, by simp, rfl⟩
  · split
    · exact ⟨_, _, .nothing, by simp, rfl⟩
    · rename_i hc
      exact ⟨_, _, .ponged _ (by simpa using hc), by simp; rfl, by simp⟩
  · exact ⟨_, _, .failed [] _ (fun _ => rfl), by simp; rfl, by simp⟩
  · dsimp only
    exact ⟨_, _, .called (.handle _) (.inr (.inr ⟨_, rfl⟩)), by simp; rfl, by simp⟩
  · dsimp only
    exact ⟨_, _, .called (.info _) (.inr (.inl ⟨_, rfl⟩)), by simp; rfl, by simp⟩
  · exact ⟨_, _, .nothing, by simp, rfl⟩

/-! ## C76 -/

theorem writes_append (l l' : List (Ev M)) : writes (l ++ l') = writes l ++ writes l' := by simp [writes, List.filterMap_append]
theorem writes_map (ms : List WsMsg) : writes (ms.map (Ev.wrote (M := M))) = ms := by
  induction ms with
  | nil => rfl
  | cons m ms ih => simpa [writes] using ih

theorem inOrder_append {w : List WsMsg} {g : List (List Cmd)} (h : InOrder w g) {p : List WsMsg} {cs : List Cmd} (hp : p <+: sends cs) : InOrder (w ++ p) (g ++ [cs]) := by
  obtain ⟨ps, h1, h2, h3⟩ := h
  refine ⟨ps ++ [p], by simp [h1], ?_, by simp [h3]⟩
  intro i q ds hq hd
  by_cases hi : i < g.length
  · rw [List.getElem?_append_left (by omega)] at hq hd
    exact h2 i q ds hq hd
  · rw [List.getElem?_append_right (by omega)] at hq hd
    have : i - g.length = 0 := by
      false_or_by_contra; rename_i hne
      rw [List.getElem?_eq_none (by simp; omega)] at hd; simp at hd
    rw [h1, this] at hq; rw [this] at hd
    simp at hq hd; subst hq hd; exact hp

/-- The writes so far match the command lists `g`, and exactly so if no write failed. -/
def Ok (log : List (Ev M)) (g : List (List Cmd)) : Prop :=
  InOrder (writes log) g ∧ ((∀ e, .failed e ∉ log) → writes log = (g.map sends).flatten)

theorem ok_none {log : List (Ev M)} {g} (h : Ok log g) {es : List (Ev M)} (he : writes es = []) : Ok (log ++ es) g :=
  ⟨by rw [writes_append, he, List.append_nil]; exact h.1,
   fun hf => by rw [writes_append, he, List.append_nil]; exact h.2 fun e he => hf e (List.mem_append_left _ he)⟩

theorem ok_all {log : List (Ev M)} {g} (h : Ok log g) (cs : List Cmd) : Ok (log ++ (sends cs).map .wrote) (g ++ [cs]) := by
  refine ⟨by rw [writes_append, writes_map]; exact inOrder_append h.1 (List.prefix_refl _), fun hf => ?_⟩
  rw [writes_append, writes_map, h.2 fun e he => hf e (List.mem_append_left _ he)]
  simp

theorem ok_fail {log : List (Ev M)} {g} (h : Ok log g) (cs : List Cmd) (n : Nat) (e : WsError) :
    Ok (log ++ (((sends cs).take n).map .wrote ++ [.failed e])) (g ++ [cs]) := by
  refine ⟨?_, fun hf => absurd (by simp) (hf e)⟩
  rw [writes_append, writes_append, writes_map]
  simpa [writes] using inOrder_append h.1 (List.take_prefix n _)

/-- The invariant: while a command list is being sent, the ones before are dealt with. -/
def Q (s : St S M) : Prop :=
  match s.pc with
  | .send cs _ => ∃ g, s.given = g ++ [cs] ∧ Ok s.log g
  | .dropped => InOrder (writes s.log) s.given
  | _ => Ok s.log s.given

theorem q_of {s : St S M} (h : Ok s.log s.given) (hp : ∀ cs a, s.pc ≠ .send cs a) : Q s := by
  unfold Q
  split
  · rename_i cs a hpc; exact absurd hpc (hp cs a)
  · exact h.1
  · exact h

theorem q_finish {s : St S M} (h : Ok s.log s.given) (a) : Q (finish s a) := by
  refine q_of (by simpa using h) fun cs b => ?_
  cases a <;> simp [finish]

theorem q_closeStep {s : St S M} (h : Ok s.log s.given) (c a) : Q (closeStep s c a) := by
  cases c with
  | none => exact q_finish h a
  | some c => exact q_of h fun cs b => by simp [closeStep]

theorem q_result {s : St S M} (h : Ok s.log s.given) (σ r a) : Q (result s σ r a) := by
  rcases r with (_ | cs) | _ | _
  · exact q_finish (s := { s with σ := σ }) h a
  · exact ⟨s.given, rfl, h⟩
  · exact q_of h fun cs b => by simp [result]
  · exact q_of h fun cs b => by simp [result]

theorem q_ok {s : St S M} (h : Q s) (hp : ∀ cs a, s.pc ≠ .send cs a) (hd : s.pc ≠ .dropped) : Ok s.log s.given := by
  unfold Q at h
  split at h
  · rename_i cs a hpc; exact absurd hpc (hp cs a)
  · rename_i hpc; exact absurd hpc hd
  · exact h

theorem q_send {s : St S M} (h : Q s) {cs a} (hp : s.pc = .send cs a) : ∃ g, s.given = g ++ [cs] ∧ Ok s.log g := by
  unfold Q at h; rw [hp] at h; exact h

theorem q_inOrder {s : St S M} (h : Q s) : InOrder (writes s.log) s.given := by
  unfold Q at h
  split at h
  · obtain ⟨g, hg, h⟩ := h
    rename_i cs a _
    have := inOrder_append h.1 (p := []) (cs := cs) (List.nil_prefix)
    rw [hg]; simpa using this
  · exact h
  · exact h.1

theorem q_step (h : Handler S M) (s : St S M) (i : In M) (hq : Q s) : Q (step h s i) := by
  unfold step
  split
  · exact hq
  · exact hq
  · exact hq
  · rename_i cs a n hpc
    obtain ⟨g, hg, hok⟩ := q_send hq hpc
    show InOrder (writes (s.log ++ _)) s.given
    rw [writes_append, writes_map, hg]
    exact inOrder_append hok.1 (List.take_prefix _ _)
  · exact (q_inOrder hq : InOrder (writes s.log) s.given)
  · rename_i hpc
    have hok := q_ok hq (by simp [hpc]) (by simp [hpc])
    split
    · refine q_of ?_ (by simp)
      exact ok_none hok rfl
    · exact q_result (ok_none hok rfl) _ _ _
  · rename_i cs a hpc
    obtain ⟨g, hg, hok⟩ := q_send hq hpc
    split
    · exact hq
    · refine q_closeStep ?_ _ _
      show Ok (s.log ++ _) s.given
      rw [hg]; exact ok_all hok cs
  · rename_i cs a n e hpc
    obtain ⟨g, hg, hok⟩ := q_send hq hpc
    split
    · refine q_of ?_ (by simp)
      show Ok (s.log ++ _) s.given
      rw [hg]; exact ok_fail hok cs n e
    · exact hq
  · rename_i hpc
    have hok := q_ok hq (by simp [hpc]) (by simp [hpc])
    split
    · exact hq
    · refine q_finish ?_ _
      exact ok_none hok rfl
  · rename_i hpc
    have hok := q_ok hq (by simp [hpc]) (by simp [hpc])
    exact q_of (ok_none hok rfl) (by simp)
  · rename_i r t hpc
    have hok := q_ok hq (by simp [hpc]) (by simp [hpc])
    dsimp only
    have hok' : Ok (s.log ++ [.terminate r, .exit r]) s.given := ok_none hok rfl
    split
    · exact q_of hok' (by simp)
    · exact q_closeStep hok' _ _
    · exact q_finish hok' _
  · rename_i hpc; have hok := q_ok hq (by simp [hpc]) (by simp [hpc]); exact q_of hok (by simp)
  · rename_i hpc; have hok := q_ok hq (by simp [hpc]) (by simp [hpc]); exact q_of hok (by simp)
  · rename_i hpc; have hok := q_ok hq (by simp [hpc]) (by simp [hpc]); exact q_of hok (by simp)
  · rename_i hpc; have hok := q_ok hq (by simp [hpc]) (by simp [hpc]); exact q_of hok (by simp)
  · rename_i hpc; have hok := q_ok hq (by simp [hpc]) (by simp [hpc]); exact q_of hok (by simp)
  · rename_i hpc
    split
    · exact hq
    · exact q_of (ok_none (q_ok hq (by simp [hpc]) (by simp [hpc])) rfl) (by simp)
  · rename_i hpc; exact q_of (ok_none (q_ok hq (by simp [hpc]) (by simp [hpc])) rfl) (by simp)
  · rename_i hpc; exact q_result (ok_none (q_ok hq (by simp [hpc]) (by simp [hpc])) rfl) _ _ _
  · rename_i hpc; exact q_result (ok_none (q_ok hq (by simp [hpc]) (by simp [hpc])) rfl) _ _ _
  · exact hq

theorem q_start (σ : S) : Q (start σ : St S M) := ⟨⟨[], rfl, by simp, rfl⟩, fun _ => rfl⟩

/-- C76. For every handler and everything that can happen to the process: the messages sent for commands are, in order, a beginning of the messages of each command list that the callbacks returned, in
the order in which they returned them; messages behind a `Close` never are among them. -/
theorem C76_in_order (h : Handler S M) (σ : S) (l : List (In M)) :
    InOrder (writes (run h (start σ) l).log) (run h (start σ) l).given := q_inOrder (run_inv (q_step h) (q_start σ) l)

/-- C76. As long as no write failed and the process was not dropped, all messages of all command lists up to their first `Close` have been sent, once the last list is dealt with. -/
theorem C76_complete (h : Handler S M) (σ : S) (l : List (In M)) (hf : ∀ e, .failed e ∉ (run h (start σ) l).log)
    (hd : (run h (start σ) l).pc ≠ .dropped) (hp : ∀ cs a, (run h (start σ) l).pc ≠ .send cs a) :
    writes (run h (start σ) l).log = ((run h (start σ) l).given.map sends).flatten :=
  (q_ok (run_inv (q_step h) (q_start σ) l) hp hd).2 hf

/-- C76. One command list: the messages before the first `Close` are sent in order, then the close frame, and the process exits with `normal`; the commands behind it
have no effect. Without a `Close` the messages are sent and the process goes on. -/
theorem C76_commands (h : Handler S M) (s : St S M) (a : After) (pre : List WsMsg) (hs : s.shut = false) :
    (∀ c r rest, s.pc = .send (pre.map .send ++ .close c r :: rest) a →
      (run h s [.go, .go]).log = s.log ++ pre.map .wrote ++ [.closed c r, .exit .normal]) ∧
    (s.pc = .send (pre.map .send) a → (run h s [.go]).log = s.log ++ pre.map .wrote ∧
      (a = .loop → (run h s [.go]).pc = .select)) := by
  obtain ⟨h1, h2, h3⟩ := sends_spec pre
  constructor
  · intro c r rest hp
    obtain ⟨h4, h5⟩ := h3 c r rest
    have : step h s .go = goto (emit s (pre.map .wrote)) (.close (c, r) a) := by
      simp [step, hp, hs, h4, h5, closeStep]
    simp [run, this]
    simp [step, hs]
  · intro hp
    have : step h s .go = finish (emit s (pre.map .wrote)) a := by
      simp [step, hp, hs, h1, h2, closeStep]
    constructor
    · simp [run, this]
    · rintro rfl; simp [run, this, finish]

/-- A close frame has been sent and nothing since, or none has been sent. -/
def Shut (s : St S M) : Prop :=
  (s.shut = false → ∀ c r, .closed c r ∉ s.log) ∧
  ∀ l₁ c r l₂, s.log = l₁ ++ .closed c r :: l₂ → ∀ e ∈ l₂, ¬ Out e

theorem adds_shut {s : St S M} {es b} (h : Adds s es b) (hs : s.shut = true) : ∀ e ∈ es, ¬ Out e := by
  cases h with
  | nothing => simp
  | init r => simp [Out]
  | called e he => rcases he with rfl | ⟨m, rfl⟩ | ⟨m, rfl⟩ <;> simp [Out]
  | sent ms hm => simp [hm hs]
  | failed ms e hm => simp [hm hs, Out]
  | closed c r hc => simp [hs] at hc
  | terminated r => simp [Out]
  | ponged d hc => simp [hs] at hc

theorem adds_closed {s : St S M} {es b} (h : Adds s es b) {c r} (hc : .closed c r ∈ es) : b = true := by
  cases h with
  | closed => rfl
  | called e he => rcases he with rfl | ⟨m, rfl⟩ | ⟨m, rfl⟩ <;> simp at hc
  | _ => simp at hc

theorem shut_step (h : Handler S M) (s : St S M) (i : In M) (hq : Shut s) : Shut (step h s i) := by
  obtain ⟨h1, h2⟩ := hq
  obtain ⟨es, b, ha, hl, hb⟩ := step_adds h s i
  cases hs : s.shut with
  | true =>
    have hno := adds_shut ha hs
    have hb' : (step h s i).shut = true := by
      rw [hb]; cases ha <;> first | exact hs | rfl
    refine ⟨by simp [hb'], fun l₁ c r l₂ e x hx => ?_⟩
    rw [hl] at e
    rcases List.append_eq_append_iff.mp e with ⟨t, e1, e2⟩ | ⟨t, e1, e2⟩
    · -- the close frame is in the addition
      have : Ev.closed c r ∈ es := by rw [e2]; simp
      exact absurd trivial (hno _ this)
    · cases t with
      | nil =>
        simp at e2
        have : Ev.closed c r ∈ es := by rw [← e2]; simp
        exact absurd trivial (hno _ this)
      | cons y t =>
        simp at e2
        obtain ⟨rfl, rfl⟩ := e2
        rcases List.mem_append.mp hx with hx | hx
        · exact h2 l₁ c r t e1 x hx
        · exact hno x hx
  | false =>
    have hn := h1 hs
    by_cases hc : ∃ c r, es = [.closed c r, .exit .normal]
    · obtain ⟨c, r, rfl⟩ := hc
      have hb' : (step h s i).shut = true := by rw [hb]; exact adds_closed ha (c := c) (r := r) (by simp)
      refine ⟨by simp [hb'], fun l₁ c' r' l₂ e x hx => ?_⟩
      rw [hl] at e
      rcases List.append_eq_append_iff.mp e with ⟨t, e1, e2⟩ | ⟨t, e1, e2⟩
      · cases t with
        | nil => simp at e2; rw [← e2.2] at hx; simp at hx; subst hx; exact id
        | cons y t =>
          exfalso
          simp at e2
          obtain ⟨rfl, e2⟩ := e2
          cases t with
          | nil => simp at e2
          | cons z t => simp at e2
      · cases t with
        | nil => simp at e2; rw [e2.2] at hx; simp at hx; subst hx; exact id
        | cons y t =>
          simp at e2
          exact absurd (by rw [e1, ← e2.1]; simp) (hn c' r')
    · have hne : ∀ c r, .closed c r ∉ es := by
        cases ha with
        | nothing => simp
        | init r => simp
        | called e he => rcases he with rfl | ⟨m, rfl⟩ | ⟨m, rfl⟩ <;> simp
        | sent ms hm => simp
        | failed ms e hm => simp
        | closed c r _ => exact absurd ⟨c, r, rfl⟩ hc
        | terminated r => simp
        | ponged d _ => simp
      have hall : ∀ c r, .closed c r ∉ (step h s i).log := by
        intro c r; rw [hl]; simp [hn c r, hne c r]
      refine ⟨fun _ => hall, fun l₁ c r l₂ e => ?_⟩
      exact absurd (by rw [e]; simp) (hall c r)

/-- C76. In every history, nothing is sent over the websocket after the close frame of a `Close` command: no message, no pong, no second close frame. -/
theorem C76_nothing_after_close (h : Handler S M) (σ : S) (l : List (In M)) (l₁ l₂ : List (Ev M)) (c : Nat) (r : String)
    (e : (run h (start σ) l).log = l₁ ++ .closed c r :: l₂) : ∀ x ∈ l₂, ¬ Out x :=
  (run_inv (shut_step h) (P := Shut) ⟨fun _ => by simp [start], by simp [start]⟩ l).2 l₁ c r l₂ e

/-! ## C90 -/

/-- The event before a handled `Ping` is the `Pong` with its data. -/
def Answered (log : List (Ev M)) : Prop := ∀ l₁ d l₂, log = l₁ ++ .handle (.ping d) :: l₂ → ∃ l₀, l₁ = l₀ ++ [.ponged d]

def PInv (s : St S M) : Prop := Answered s.log ∧ ∀ d, s.pc = .handle (.ping d) → ∃ l₀, s.log = l₀ ++ [.ponged d]

theorem answered_append {log es : List (Ev M)} (h : Answered log) (he : ∀ d, .handle (.ping d) ∉ es) : Answered (log ++ es) := by
  intro l₁ d l₂ e
  rcases List.append_eq_append_iff.mp e with ⟨t, e1, e2⟩ | ⟨t, e1, e2⟩
  · exact absurd (by rw [e2]; simp) (he d)
  · cases t with
    | nil => simp at e2; exact absurd (by rw [← e2]; simp) (he d)
    | cons y t => simp at e2; obtain ⟨rfl, rfl⟩ := e2; exact h l₁ d t e1

theorem answered_handle {log : List (Ev M)} (h : Answered log) (m : WsMsg) (hm : ∀ d, m = .ping d → ∃ l₀, log = l₀ ++ [.ponged d]) : Answered (log ++ [.handle m]) := by
  intro l₁ d l₂ e
  rcases List.append_eq_append_iff.mp e with ⟨t, e1, e2⟩ | ⟨t, e1, e2⟩
  · cases t with
    | nil => simp at e2 e1; rw [e1]; exact hm d e2.1
    | cons y t => simp at e2
  · cases t with
    | nil => simp at e2 e1; rw [← e1]; exact hm d e2.1.symm
    | cons y t => simp at e2; obtain ⟨rfl, rfl⟩ := e2; exact h l₁ d t e1

theorem not_wrote (ms : List WsMsg) (m : WsMsg) : Ev.handle m ∉ ms.map (Ev.wrote (M := M)) := by
  intro h; rw [List.mem_map] at h; obtain ⟨_, _, h⟩ := h; cases h

theorem pinv_of {s : St S M} (h : Answered s.log) (hp : ∀ m, s.pc ≠ .handle m) : PInv s := ⟨h, fun d hd => absurd hd (hp _)⟩

theorem finish_ne (s : St S M) (a m) : (finish s a).pc ≠ .handle m := by cases a <;> simp [finish]
theorem closeStep_ne (s : St S M) (c a m) : (closeStep s c a).pc ≠ .handle m := by
  cases c
  · exact finish_ne s a m
  · simp [closeStep]
theorem result_ne (s : St S M) (σ r a m) : (result s σ r a).pc ≠ .handle m := by
  rcases r with (_ | _) | _ | _
  · exact finish_ne _ _ _
  all_goals simp [result]

theorem pinv_step (h : Handler S M) (s : St S M) (i : In M) (hq : PInv s) : PInv (step h s i) := by
  obtain ⟨h1, h2⟩ := hq
  unfold step
  split
  · exact ⟨h1, h2⟩
  · exact ⟨h1, h2⟩
  · exact ⟨h1, h2⟩
  · exact pinv_of (answered_append h1 fun d => not_wrote _ _) (by simp)
  · exact pinv_of h1 (by simp)
  · split
    · exact pinv_of (answered_append h1 (by simp)) (by simp)
    · exact pinv_of (by simpa using answered_append h1 (es := [.init]) (by simp)) (result_ne _ _ _ _)
  · split
    · exact ⟨h1, h2⟩
    · exact pinv_of (by simpa using answered_append h1 (by simp)) (closeStep_ne _ _ _)
  · split
    · refine pinv_of (answered_append h1 fun d hd => ?_) (by simp)
      rcases List.mem_append.mp hd with hd | hd
      · exact not_wrote _ _ hd
      · simp at hd
    · exact ⟨h1, h2⟩
  · split
    · exact ⟨h1, h2⟩
    · refine pinv_of ?_ (finish_ne _ _)
      simpa using answered_append h1 (es := [.closed _ _, .exit .normal]) (by simp)
  · exact pinv_of (answered_append h1 (by simp)) (by simp)
  · rename_i r t hpc
    dsimp only
    have ha : Answered (s.log ++ [.terminate r, .exit r]) := answered_append h1 (by simp)
    split
    · exact pinv_of ha (by simp)
    · exact pinv_of (by simpa using ha) (closeStep_ne _ _ _)
    · exact pinv_of (by simpa using ha) (finish_ne _ _)
  · exact pinv_of h1 (by simp)
  · exact pinv_of h1 (by simp)
  · rename_i m hm _
    exact ⟨h1, fun d hd => by simp at hd; exact absurd hd (hm d)⟩
  · exact pinv_of h1 (by simp)
  · exact pinv_of h1 (by simp)
  · split
    · exact ⟨h1, h2⟩
    · exact ⟨answered_append h1 (by simp), fun d hd => by simp at hd; subst hd; exact ⟨s.log, rfl⟩⟩
  · exact pinv_of (answered_append h1 (by simp)) (by simp)
  · rename_i m hpc
    refine pinv_of ?_ (result_ne _ _ _ _)
    simpa using answered_handle h1 m (fun d hd => by subst hd; exact h2 d hpc)
  · refine pinv_of ?_ (result_ne _ _ _ _)
    simpa using answered_append h1 (es := [.info _]) (by simp)
  · exact ⟨h1, h2⟩

/-- C90. In every history, whenever the handler is given a `Ping`, a `Pong` with the same data was sent right before. -/
theorem C90_pong_first (h : Handler S M) (σ : S) (l : List (In M)) (l₁ l₂ : List (Ev M)) (d : List UInt8)
    (e : (run h (start σ) l).log = l₁ ++ .handle (.ping d) :: l₂) : ∃ l₀, l₁ = l₀ ++ [.ponged d] :=
  (run_inv (pinv_step h) (P := PInv) (pinv_of (by intro l₁ d l₂ e; simp [start] at e) (by simp [start])) l).1 l₁ d l₂ e

/-- C90. A `Ping` that arrives is answered, unless the close frame has been sent already or the write fails; and the handler then gets it. -/
theorem C90_answered (h : Handler S M) (s : St S M) (hp : s.pc = .select) (hs : s.shut = false) (d : List UInt8) :
    (run h s [.frame (.ping d), .go, .go]).log = s.log ++ [.ponged d, .handle (.ping d)] := by
  simp [run, step, hp, hs]

/-! ## C77 -/

/-- The abort takes effect at the next `await`: after the process has asked to exit, it is dropped there. -/
def Prompt (h : Handler S M) (σ : S) (l : List (In M)) : Prop :=
  ∀ l₁ i l₂, l = l₁ ++ i :: l₂ → (∃ r, .exit r ∈ (run h (start σ) l₁).log) → ∃ n, i = .drop n

/-- How the log of a process that has asked to exit ends. -/
def Ending (es : List (Ev M)) : Prop :=
  (∃ r, es = [.terminate r, .exit r]) ∨ (∃ r, es = [.init, .exit r]) ∨ (∃ c r, es = [.closed c r, .exit .normal])

/-- Neither `terminate` nor an exit. -/
def Plain (l : List (Ev M)) : Prop := ∀ e ∈ l, (∀ r, e ≠ .terminate r) ∧ (∀ r, e ≠ .exit r)

theorem adds_plain {s : St S M} {es b} (h : Adds s es b) : Plain es ∨ Ending es := by
  cases h with
  | nothing => left; simp [Plain]
  | init r => right; exact .inr (.inl ⟨r, rfl⟩)
  | called e he => left; rcases he with rfl | ⟨m, rfl⟩ | ⟨m, rfl⟩ <;> simp [Plain]
  | sent ms hm => left; simp [Plain]
  | failed ms e hm => left; intro x hx; simp at hx; rcases hx with ⟨m, _, rfl⟩ | rfl <;> simp
  | closed c r hc => right; exact .inr (.inr ⟨c, r, rfl⟩)
  | terminated r => right; exact .inl ⟨r, rfl⟩
  | ponged d hc => left; simp [Plain]

theorem finish_ns (s : St S M) (a cs b) : (finish s a).pc ≠ .send cs b := by cases a <;> simp [finish]
theorem closeStep_ns (s : St S M) (c a cs b) : (closeStep s c a).pc ≠ .send cs b := by
  cases c
  · exact finish_ns s a cs b
  · simp [closeStep]

theorem result_nr (s : St S M) (σ r a) : (result s σ r a).pc ≠ .returned := by
  rcases r with (_ | _) | _ | _
  · cases a <;> simp [result, finish]
  all_goals simp [result]

/-- Each step adds a plain piece, or an ending after which the process is not sending; it returns only with an ending. -/
theorem step_ending (h : Handler S M) (s : St S M) (i : In M) : ∃ es, (step h s i).log = s.log ++ es ∧
    (Plain es ∧ ((step h s i).pc = .returned → s.pc = .returned) ∨
     Ending es ∧ (∀ cs a, (step h s i).pc ≠ .send cs a) ∧ ((step h s i).pc = .returned → ∀ c r x, es ≠ [.closed c r, x])) := by
  have nil : Plain ([] : List (Ev M)) := by simp [Plain]
  unfold step
  split
  · exact ⟨[], by simp, .inl ⟨nil, id⟩⟩
  · exact ⟨[], by simp, .inl ⟨nil, id⟩⟩
  · exact ⟨[], by simp, .inl ⟨nil, id⟩⟩
  · refine ⟨_, rfl, .inl ⟨?_, by simp⟩⟩
    intro e he; rw [List.mem_map] at he; obtain ⟨_, _, rfl⟩ := he; simp
  · exact ⟨[], by simp, .inl ⟨nil, by simp⟩⟩
  · split
    · exact ⟨[.init, .exit _], rfl, .inr ⟨.inr (.inl ⟨_, rfl⟩), by simp, by simp⟩⟩
    · exact ⟨[.init], by simp, .inl ⟨by simp [Plain], fun hh => absurd hh (result_nr _ _ _ _)⟩⟩
  · split
    · exact ⟨[], by simp, .inl ⟨nil, id⟩⟩
    · rename_i cs a _ _
      refine ⟨_, by simp; rfl, .inl ⟨by simp [Plain], ?_⟩⟩
      cases closing cs <;> cases a <;> simp [closeStep, finish]
  · split
    · refine ⟨_, rfl, .inl ⟨?_, by simp⟩⟩
      intro e he
      rcases List.mem_append.mp he with he | he
      · rw [List.mem_map] at he; obtain ⟨_, _, rfl⟩ := he; simp
      · simp at he; subst he; simp
    · exact ⟨[], by simp, .inl ⟨nil, id⟩⟩
  · split
    · exact ⟨[], by simp, .inl ⟨nil, id⟩⟩
    · rename_i c r a _ _
      exact ⟨[.closed c r, .exit .normal], by simp, .inr ⟨.inr (.inr ⟨c, r, rfl⟩), finish_ns _ _, by cases a <;> simp [finish]⟩⟩
  · exact ⟨_, rfl, .inl ⟨by simp [Plain], by simp⟩⟩
  · rename_i r t hpc
    dsimp only
    refine ⟨[.terminate r, .exit r], ?_, .inr ⟨.inl ⟨r, rfl⟩, ?_, by simp⟩⟩
    · split <;> simp
    · split
      · simp
      · exact closeStep_ns _ _ _
      · exact finish_ns _ _
  · exact ⟨[], by simp, .inl ⟨nil, by simp⟩⟩
  · exact ⟨[], by simp, .inl ⟨nil, by simp⟩⟩
  · exact ⟨[], by simp, .inl ⟨nil, by simp⟩⟩
  · exact ⟨[], by simp, .inl ⟨nil, by simp⟩⟩
  · exact ⟨[], by simp, .inl ⟨nil, by simp⟩⟩
  · split
    · exact ⟨[], by simp, .inl ⟨nil, id⟩⟩
    · exact ⟨_, rfl, .inl ⟨by simp [Plain], by simp⟩⟩
  · exact ⟨_, rfl, .inl ⟨by simp [Plain], by simp⟩⟩
  · rename_i m hpc
    exact ⟨[.handle m], by simp, .inl ⟨by simp [Plain], fun hh => absurd hh (result_nr _ _ _ _)⟩⟩
  · rename_i m hpc
    exact ⟨[.info m], by simp, .inl ⟨by simp [Plain], fun hh => absurd hh (result_nr _ _ _ _)⟩⟩
  · exact ⟨[], by simp, .inl ⟨nil, id⟩⟩

/-- After a drop of a process that is not sending the log is as before. -/
theorem step_drop (h : Handler S M) (s : St S M) (n : Nat) (hs : ∀ cs a, s.pc ≠ .send cs a) :
    (step h s (.drop n)).log = s.log ∧ (∀ cs a, (step h s (.drop n)).pc ≠ .send cs a) ∧ ((step h s (.drop n)).pc = .returned → s.pc = .returned) := by
  cases hp : s.pc <;> simp [step, hp]
  rename_i cs a
  exact absurd hp (hs cs a)

theorem prompt_inv (h : Handler S M) (σ : S) (l : List (In M)) (hl : Prompt h σ l) :
    let s := run h (start σ) l
    (Plain s.log ∧ s.pc ≠ .returned) ∨ ∃ body es, s.log = body ++ es ∧ Plain body ∧ Ending es ∧ (∀ cs a, s.pc ≠ .send cs a) ∧
      (s.pc = .returned → ∀ c r x, es ≠ [.closed c r, x]) := by
  have key : ∀ n, ∀ l : List (In M), l.length = n → Prompt h σ l →
      (Plain (run h (start σ) l).log ∧ (run h (start σ) l).pc ≠ .returned) ∨ ∃ body es, (run h (start σ) l).log = body ++ es ∧ Plain body ∧ Ending es ∧
        (∀ cs a, (run h (start σ) l).pc ≠ .send cs a) ∧ ((run h (start σ) l).pc = .returned → ∀ c r x, es ≠ [.closed c r, x]) := by
    intro n
    induction n with
    | zero =>
      intro l hn _
      have : l = [] := List.length_eq_zero_iff.mp hn
      subst this
      exact .inl ⟨by simp [run, start, Plain], by simp [run, start]⟩
    | succ n ih =>
      intro l hn hl
      have hne : l ≠ [] := by rintro rfl; simp at hn
      obtain ⟨l', i, rfl⟩ : ∃ l' i, l = l' ++ [i] := ⟨l.dropLast, l.getLast hne, (List.dropLast_concat_getLast hne).symm⟩
      have hl' : Prompt h σ l' := fun l₁ j l₂ e => hl l₁ j (l₂ ++ [i]) (by rw [e]; simp)
      have hi := hl l' i [] rfl
      have hn' : l'.length = n := by simpa using hn
      have e : run h (start σ) (l' ++ [i]) = step h (run h (start σ) l') i := by rw [run_append]; rfl
      rw [e]
      rcases ih l' hn' hl' with ⟨hp, hr⟩ | ⟨body, es, h1, h2, h3, h4, h5⟩
      · obtain ⟨es, he, hh⟩ := step_ending h (run h (start σ) l') i
        rcases hh with ⟨hpl, hret⟩ | ⟨hend, hns, hret⟩
        · left
          refine ⟨?_, fun hh => hr (hret hh)⟩
          rw [he]; intro x hx
          rcases List.mem_append.mp hx with hx | hx
          · exact hp x hx
          · exact hpl x hx
        · exact .inr ⟨_, es, he, hp, hend, hns, hret⟩
      · have hex : ∃ r, .exit r ∈ (run h (start σ) l').log := by
          rw [h1]
          rcases h3 with ⟨r, rfl⟩ | ⟨r, rfl⟩ | ⟨c, r, rfl⟩
          · exact ⟨r, by simp⟩
          · exact ⟨r, by simp⟩
          · exact ⟨.normal, by simp⟩
        obtain ⟨m, rfl⟩ := hi hex
        obtain ⟨g1, g2, g3⟩ := step_drop h (run h (start σ) l') m h4
        exact .inr ⟨body, es, by rw [g1, h1], h2, h3, g2, fun hh => h5 (g3 hh)⟩
  exact key l.length l rfl hl

theorem terminates_append (l l' : List (Ev M)) : terminates (l ++ l') = terminates l + terminates l' := by simp [terminates]
theorem terminates_plain {l : List (Ev M)} (h : Plain l) : terminates l = 0 := by
  rw [terminates, List.countP_eq_zero]
  intro e he
  have := (h e he).1
  cases e <;> simp_all

/-- C77, in part. If an abort takes effect at the next `await`, then in every history `terminate` is invoked at most once, nothing is invoked or sent after it, and the process exits with the same reason.
What is missing: see `C77_twice_violated`. -/
theorem C77_at_most_once_partial (h : Handler S M) (σ : S) (l : List (In M)) (hl : Prompt h σ l) :
    terminates (run h (start σ) l).log ≤ 1 ∧
    ∀ l₁ r l₂, (run h (start σ) l).log = l₁ ++ .terminate r :: l₂ → l₂ = [.exit r] := by
  rcases prompt_inv h σ l hl with ⟨hp, _⟩ | ⟨body, es, h1, h2, h3, _, _⟩
  · refine ⟨by rw [terminates_plain hp]; omega, fun l₁ r l₂ e => ?_⟩
    exact absurd rfl ((hp (.terminate r) (by rw [e]; simp)).1 r)
  · rw [h1]
    constructor
    · rw [terminates_append, terminates_plain h2]
      rcases h3 with ⟨r, rfl⟩ | ⟨r, rfl⟩ | ⟨c, r, rfl⟩ <;> simp [terminates]
    · intro l₁ r l₂ e
      rcases List.append_eq_append_iff.mp e with ⟨t, e1, e2⟩ | ⟨t, e1, e2⟩
      · rcases h3 with ⟨q, rfl⟩ | ⟨q, rfl⟩ | ⟨c, q, rfl⟩ <;> cases t with
        | nil => simp at e2; try (rw [← e2.2, e2.1])
        | cons y t =>
          simp at e2
          obtain ⟨_, e2⟩ := e2
          cases t <;> simp at e2
      · cases t with
        | nil =>
          simp at e2
          rcases h3 with ⟨q, rfl⟩ | ⟨q, rfl⟩ | ⟨c, q, rfl⟩ <;> simp at e2
          rw [e2.1, e2.2]
        | cons y t =>
          simp at e2
          exact absurd rfl ((h2 (.terminate r) (by rw [e1, ← e2.1]; simp)).1 r)

/-- C77, in part. A process that returned has invoked `terminate`, unless `websocket_init` returned an error. -/
theorem C77_returned_partial (h : Handler S M) (σ : S) (l : List (In M)) (hl : Prompt h σ l) (hr : (run h (start σ) l).pc = .returned) :
    (∃ body r, (run h (start σ) l).log = body ++ [.terminate r, .exit r] ∧ terminates (run h (start σ) l).log = 1) ∨
    (∃ body r, (run h (start σ) l).log = body ++ [.init, .exit r]) := by
  rcases prompt_inv h σ l hl with ⟨_, hn⟩ | ⟨body, es, h1, h2, h3, _, h5⟩
  · exact absurd hr hn
  · rcases h3 with ⟨r, rfl⟩ | ⟨r, rfl⟩ | ⟨c, r, rfl⟩
    · exact .inl ⟨body, r, h1, by rw [h1, terminates_append, terminates_plain h2]; simp [terminates]⟩
    · exact .inr ⟨body, r, h1⟩
    · exact absurd rfl (h5 hr c r _)

/-- C77. The ways to end in which `terminate` is invoked, with its reason, in every state: a callback returns an error; the websocket yields an error; the answer to a ping cannot be sent; the peer
closes the connection and the handler has nothing to send. In each the process then exits with that reason. -/
theorem C77_called (h : Handler S M) (s : St S M) :
    (∀ m σ r, s.pc = .info m → h.info s.σ m = (σ, .err r) →
      (run h s [.go, .go]).log = s.log ++ [.info m, .terminate r, .exit r] ∧ (run h s [.go, .go]).pc = .returned) ∧
    (∀ m σ r, s.pc = .handle m → h.handle s.σ m = (σ, .err r) →
      (run h s [.go, .go]).log = s.log ++ [.handle m, .terminate r, .exit r] ∧ (run h s [.go, .go]).pc = .returned) ∧
    (∀ e, s.pc = .select →
      (run h s [.broken e, .go]).log = s.log ++ [.terminate (reason e), .exit (reason e)] ∧ (run h s [.broken e, .go]).pc = .returned) ∧
    (∀ d n e, s.pc = .pong d →
      (run h s [.fail n e, .go]).log = s.log ++ [.failed e, .terminate (reason e), .exit (reason e)] ∧ (run h s [.fail n e, .go]).pc = .returned) ∧
    (∀ σ, s.pc = .handle .close → h.handle s.σ .close = (σ, .ok none) →
      (run h s [.go, .go]).log = s.log ++ [.handle .close, .terminate (.custom "connection_closed"), .exit (.custom "connection_closed")] ∧
        (run h s [.go, .go]).pc = .returned) := by
  refine ⟨?_, ?_, ?_, ?_, ?_⟩
  · intro m σ r hp hi; simp [run, step, hp, hi, result]
  · intro m σ r hp hi; simp [run, step, hp, hi, result]
  · intro e hp; simp [run, step, hp]
  · intro d n e hp; simp [run, step, hp]
  · intro σ hp hi; simp [run, step, hp, hi, result, finish, afterOf]

/-- C77 fails: `terminate` is documented to be called if a callback except `accept` returns an error. If `websocket_init` does, the process exits and `terminate` is never invoked,
for every handler whose `websocket_init` fails. -/
theorem C77_init_violated (h : Handler S M) (σ σ' : S) (r : ExitReason) (hi : h.init σ = (σ', .err r)) (l : List (In M)) :
    (run h (start σ) (.go :: l)).pc = .returned ∧ (run h (start σ) (.go :: l)).log = [.init, .exit r] := by
  have h1 : step h (start σ) .go = ⟨.returned, σ', false, [.init, .exit r], []⟩ := by
    simp only [step, start, hi, emit]; rfl
  show (run h (step h (start σ) .go) l).pc = .returned ∧ (run h (step h (start σ) .go) l).log = _
  rw [h1]
  have : ∀ l : List (In M), run h ⟨.returned, σ', false, [.init, .exit r], []⟩ l = ⟨.returned, σ', false, [.init, .exit r], []⟩ := by
    intro l; induction l with
    | nil => rfl
    | cons i l ih => exact ih
  rw [this]; exact ⟨rfl, rfl⟩

/-- C77 fails: `terminate` is documented to be called if the connection closes for whatever reason. If the websocket ends without a close frame, the process panics and `terminate` is not invoked. -/
theorem C77_eof_violated (h : Handler S M) (s : St S M) (hp : s.pc = .select) (l : List (In M)) :
    (run h s (.eof :: l)).pc = .panicked ∧ (run h s (.eof :: l)).log = s.log := by
  have h1 : step h s .eof = goto s .panicked := by simp [step, hp]
  show (run h (step h s .eof) l).pc = .panicked ∧ (run h (step h s .eof) l).log = _
  rw [h1]
  have : ∀ l : List (In M), run h (goto s .panicked) l = goto s .panicked := by
    intro l; induction l with
    | nil => rfl
    | cons i l ih => exact ih
  rw [this]; exact ⟨rfl, rfl⟩

/-- C77 fails: if the handler itself closes the connection, the process exits with `normal` and is dropped without `terminate`. -/
theorem C77_close_violated (h : Handler S M) (s : St S M) (c : Nat) (r : String) (hp : s.pc = .close (c, r) .loop) (hs : s.shut = false) (n : Nat) (l : List (In M)) :
    (run h s (.go :: .drop n :: l)).pc = .dropped ∧ (run h s (.go :: .drop n :: l)).log = s.log ++ [.closed c r, .exit .normal] := by
  have h1 : step h s .go = ⟨.select, s.σ, true, s.log ++ [.closed c r, .exit .normal], s.given⟩ := by
    simp [step, hp, hs, finish, goto, emit]
  show (run h (step h (step h s .go) (.drop n)) l).pc = .dropped ∧ (run h (step h (step h s .go) (.drop n)) l).log = _
  rw [h1]
  have : ∀ l : List (In M), run h ⟨.dropped, s.σ, true, s.log ++ [.closed c r, .exit .normal], s.given⟩ l = ⟨.dropped, s.σ, true, s.log ++ [.closed c r, .exit .normal], s.given⟩ := by
    intro l; induction l with
    | nil => rfl
    | cons i l ih => exact ih
  rw [show step h ⟨.select, s.σ, true, s.log ++ [.closed c r, .exit .normal], s.given⟩ (.drop n) =
    ⟨.dropped, s.σ, true, s.log ++ [.closed c r, .exit .normal], s.given⟩ from rfl, this]
  exact ⟨rfl, rfl⟩

/-- Sends one message and closes. -/
def greeter : Handler Unit Nat where
  init _ := ((), .ok (some [.send (.other [1]), .close 1000 "bye", .send (.other [2])]))
  handle _ _ := ((), .ok none)
  info _ m := ((), if m = 0 then .err .normal else .ok (some [.send (.other [3])]))
  terminate _ _ := ()

/-- C77 fails: `terminate` is invoked twice. The flush of the messages fails: `terminate` is invoked and the process asks to exit, but goes on to close the websocket, which fails, too, without waiting, and invokes
`terminate` again. -/
theorem C77_twice_violated : ∃ l, terminates (run greeter (start ()) l).log = 2 :=
  ⟨[.go, .fail 1 .io, .go, .fail 0 .io, .go], by decide⟩

/-- C77 fails: callbacks are invoked after `terminate`: a message is in the mailbox when the process, which has asked to exit, comes to its next round. -/
theorem C77_after_violated : ∃ l l₁ l₂ r m, (run greeter (start ()) l).log = l₁ ++ .terminate r :: l₂ ∧ .info m ∈ l₂ :=
  ⟨[.go, .fail 0 .io, .go, .msg 7, .go], [.init, .failed .io], [.exit (reason .io), .info 7], reason .io, 7, by decide, by decide⟩

/-- The greeter in a good run: one message, the close frame, and the message behind it is not sent. -/
example : (run greeter (start ()) [.go, .go, .go, .drop 0]).log = [.init, .wrote (.other [1]), .closed 1000 "bye", .exit .normal] := by decide
example : Prompt greeter () [.go, .go, .go, .drop 0] := by
  intro l₁ i l₂ e ⟨r, hr⟩
  match l₁, e with
  | [], e => simp [run, start] at hr
  | [_], e => simp at e; obtain ⟨rfl, _⟩ := e; simp [run, start, step, greeter, result] at hr
  | [_, _], e => simp at e; obtain ⟨rfl, rfl, _⟩ := e; simp [run, start, step, greeter, result, sends, closing, closeStep] at hr
  | [_, _, _], e => simp at e; exact ⟨0, by rw [← e.2.2.2.1]⟩
  | _ :: _ :: _ :: _ :: _, e => have := congrArg List.length e; simp at this

end Verif.Websocket
