import Verif.SupProcLemmas
/-!
# Executions of a supervisor process

What an execution of a routine, of a callback and of the whole loop does in the node (`Performs`), and which decisions it makes (`Does`, `Chain`).
-/
namespace Verif.Sup
open Verif.World Verif.Mailbox
variable {B V R R' X : Type}

/-- The outcomes of the start routines among the effects. -/
def outs (fx : List Eff) : List (Except ExitReason Pid) := fx.filterMap fun f => match f with | .start _ r => some r | .stop _ _ => none

/-- `o` gives from the `n`-th run on the outcomes that the effects say. -/
def Agrees (o : Oracle) (n : Nat) (fx : List Eff) : Prop := ∀ i r, (outs fx)[i]? = some r → ∀ c, o (n + i) c = r

/-- The operations of the supervisor process outside of start routines, shutdowns and retries: it traps exits, receives, replies, and ends. -/
inductive Own0 (cf : Conf B V) : Op B V → Prop
  | trap : Own0 cf (.setTrap cf.me true)
  | recv (o : RecvOp B V) (k : RecvKind) : Own0 cf (.recv cf.me o k)
  | reply (frm : From) (m : SMsg) : Own0 cf (replyOp cf.type cf.me frm m)
  | exit (r : ExitReason) : Own0 cf (.exit cf.me (.loc cf.me) r)
  | finish : Own0 cf (.finish cf.me)

/-- The message with which the supervisor asks itself to try the restart of a child again. -/
def retryOp (cf : Conf B V) (id : String) : Op B V := .send cf.me (.one (.pid (.loc cf.me))) (cf.type.box (.cast (.tryAgainId id)))

/-- The operations of the supervisor process outside of start routines and shutdowns. -/
def Own (cf : Conf B V) (o : Op B V) : Prop := Own0 cf o ∨ ∃ id, o = retryOp cf id

/-- What a supervisor does: an effect, or it asks itself to try again. -/
inductive Did
  | eff (e : Eff)
  | cast (id : String)

/-- The effects. -/
def effs (ds : List Did) : List Eff := ds.filterMap fun d => match d with | .eff e => some e | .cast _ => none

/-- The children that it will try again. -/
def recasts (ds : List Did) : List String := ds.filterMap fun d => match d with | .eff _ => none | .cast id => some id

@[simp] theorem effs_append (a b : List Did) : effs (a ++ b) = effs a ++ effs b := by simp [effs]
@[simp] theorem recasts_append (a b : List Did) : recasts (a ++ b) = recasts a ++ recasts b := by simp [recasts]
@[simp] theorem effs_eff (e : Eff) (b : List Did) : effs (.eff e :: b) = e :: effs b := by simp [effs]
@[simp] theorem effs_cast (e : String) (b : List Did) : effs (.cast e :: b) = effs b := by simp [effs]
@[simp] theorem recasts_eff (e : Eff) (b : List Did) : recasts (.eff e :: b) = recasts b := by simp [recasts]
@[simp] theorem recasts_cast (e : String) (b : List Did) : recasts (.cast e :: b) = e :: recasts b := by simp [recasts]
@[simp] theorem effs_nil : effs [] = [] := rfl
@[simp] theorem recasts_nil : recasts [] = [] := rfl

/-- In the history `ops` from `w` the supervisor does these things one after the other: each run of a start routine (the `n`-th and so on) and each
shutdown is complete before the next one begins. In between there are only operations of others and operations in `Q`. -/
inductive PerformsQ (cf : Conf B V) (ser : V → B) (Q : Op B V → Prop) : World B V → Nat → List Did → List (Op B V) → Prop
  | nil (w n) : PerformsQ cf ser Q w n [] []
  | other {w n ds o ops} : Others cf.me o ∨ Q o → PerformsQ cf ser Q (Verif.World.step ser w o).1 n ds ops → PerformsQ cf ser Q w n ds (o :: ops)
  | start {w n ds ops1 ops2 r} (c : Spec) : Exec ser cf.me w (cf.startOf n c) ops1 r → PerformsQ cf ser Q (Verif.World.run ser w ops1) (n + 1) ds ops2 →
      PerformsQ cf ser Q w n (.eff (.start c.id r) :: ds) (ops1 ++ ops2)
  | stop {w n ds ops1 ops2 p how x} : Exec ser cf.me w (shutdownProg cf.unit cf.me p (modeOf how)) ops1 x →
      PerformsQ cf ser Q (Verif.World.run ser w ops1) n ds ops2 → PerformsQ cf ser Q w n (.eff (.stop p how) :: ds) (ops1 ++ ops2)
  | cast {w n ds ops} (id : String) : PerformsQ cf ser Q (Verif.World.step ser w (retryOp cf id)).1 n ds ops →
      PerformsQ cf ser Q w n (.cast id :: ds) (retryOp cf id :: ops)

/-- In the whole life of the process. -/
abbrev PerformsD (cf : Conf B V) (ser : V → B) : World B V → Nat → List Did → List (Op B V) → Prop := PerformsQ cf ser (Own0 cf)

theorem PerformsQ.weaken {cf : Conf B V} {ser : V → B} {Q Q' : Op B V → Prop} (hq : ∀ o, Q o → Q' o) {w : World B V} {n : Nat} {ds : List Did} {ops : List (Op B V)}
    (h : PerformsQ cf ser Q w n ds ops) : PerformsQ cf ser Q' w n ds ops := by
  induction h with
  | nil w n => exact .nil _ _
  | other ho _ ih => exact .other (ho.imp_right (hq _)) ih
  | start c hx _ ih => exact .start c hx ih
  | stop hx _ ih => exact .stop hx ih
  | cast id _ ih => exact .cast id ih

/-- In the history `ops` from `w` the supervisor performs the effects one after the other: each run of a start routine (the `n`-th and so on) and each
shutdown is complete before the next effect begins. In between there are only operations of others and `Own` operations. -/
inductive Performs (cf : Conf B V) (ser : V → B) : World B V → Nat → List Eff → List (Op B V) → Prop
  | nil (w n) : Performs cf ser w n [] []
  | other {w n fx o ops} : Others cf.me o ∨ Own cf o → Performs cf ser (Verif.World.step ser w o).1 n fx ops → Performs cf ser w n fx (o :: ops)
  | start {w n fx ops1 ops2 r} (c : Spec) : Exec ser cf.me w (cf.startOf n c) ops1 r → Performs cf ser (Verif.World.run ser w ops1) (n + 1) fx ops2 →
      Performs cf ser w n (.start c.id r :: fx) (ops1 ++ ops2)
  | stop {w n fx ops1 ops2 p how x} : Exec ser cf.me w (shutdownProg cf.unit cf.me p (modeOf how)) ops1 x →
      Performs cf ser (Verif.World.run ser w ops1) n fx ops2 → Performs cf ser w n (.stop p how :: fx) (ops1 ++ ops2)

theorem outs_append (a b : List Eff) : outs (a ++ b) = outs a ++ outs b := by simp [outs]

theorem agrees_append {o : Oracle} {n : Nat} {a b : List Eff} (h : Agrees o n (a ++ b)) : Agrees o n a ∧ Agrees o (n + (outs a).length) b := by
  refine ⟨?_, ?_⟩
  · intro i r hi c
    refine h i r ?_ c
    obtain ⟨hlt, -⟩ := List.getElem?_eq_some_iff.1 hi
    rw [outs_append, List.getElem?_append_left hlt]; exact hi
  · intro i r hi c
    rw [Nat.add_assoc]
    refine h _ r ?_ c
    rw [outs_append, List.getElem?_append_right (by omega)]
    simpa using hi

/-- Some outcomes agree. -/
def oracleOf (n : Nat) (fx : List Eff) : Oracle := fun k _ => (outs fx)[k - n]?.getD (.error .ignore)

theorem agrees_of (n : Nat) (fx : List Eff) : Agrees (oracleOf n fx) n fx := by
  intro i r hi c
  simp [oracleOf, hi]

theorem performs_others {cf : Conf B V} {ser : V → B} {ops : List (Op B V)} : ∀ {w : World B V} {n : Nat}, (∀ o ∈ ops, Others cf.me o ∨ Own cf o) →
    Performs cf ser w n [] ops := by
  induction ops with
  | nil => intro w n _; exact .nil _ _
  | cons o ops ih => intro w n h; exact .other (h o (by simp)) (ih fun x hx => h x (by simp [hx]))

theorem performs_append {cf : Conf B V} {ser : V → B} {w : World B V} {n : Nat} {fx fx' : List Eff} {ops ops' : List (Op B V)}
    (h : Performs cf ser w n fx ops) (h' : Performs cf ser (Verif.World.run ser w ops) (n + (outs fx).length) fx' ops') :
    Performs cf ser w n (fx ++ fx') (ops ++ ops') := by
  induction h with
  | nil w n => exact h'
  | other ho _ ih => rw [run_cons] at h'; exact .other ho (ih h')
  | start c hx _ ih =>
    rw [run_append] at h'
    rw [List.append_assoc, List.cons_append]
    refine .start c hx (ih ?_)
    simpa [outs, Nat.add_assoc, Nat.add_comm 1] using h'
  | stop hx _ ih =>
    rw [run_append] at h'
    rw [List.append_assoc, List.cons_append]
    refine .stop hx (ih ?_)
    simpa [outs] using h'

theorem performs_pre {cf : Conf B V} {ser : V → B} {w : World B V} {n : Nat} {fx : List Eff} {ops ops' : List (Op B V)}
    (h : ∀ o ∈ ops, Others cf.me o ∨ Own cf o) (h' : Performs cf ser (Verif.World.run ser w ops) n fx ops') :
    Performs cf ser w n fx (ops ++ ops') := by
  have := performs_append (performs_others (ser := ser) (w := w) (n := n) h) (fx' := fx) (ops' := ops') (by simpa [outs] using h')
  simpa using this

theorem performs_post {cf : Conf B V} {ser : V → B} {w : World B V} {n : Nat} {fx : List Eff} {ops ops' : List (Op B V)}
    (h' : Performs cf ser w n fx ops) (h : ∀ o ∈ ops', Others cf.me o ∨ Own cf o) :
    Performs cf ser w n fx (ops ++ ops') := by
  have := performs_append h' (performs_others (ser := ser) h)
  simpa using this

theorem performsD_others {cf : Conf B V} {ser : V → B} {Q : Op B V → Prop} {ops : List (Op B V)} : ∀ {w : World B V} {n : Nat}, (∀ o ∈ ops, Others cf.me o ∨ Q o) →
    PerformsQ cf ser Q w n [] ops := by
  induction ops with
  | nil => intro w n _; exact .nil _ _
  | cons o ops ih => intro w n h; exact .other (h o (by simp)) (ih fun x hx => h x (by simp [hx]))

theorem performsD_append {cf : Conf B V} {ser : V → B} {Q : Op B V → Prop} {w : World B V} {n : Nat} {fx fx' : List Did} {ops ops' : List (Op B V)}
    (h : PerformsQ cf ser Q w n fx ops) (h' : PerformsQ cf ser Q (Verif.World.run ser w ops) (n + (outs (effs fx)).length) fx' ops') :
    PerformsQ cf ser Q w n (fx ++ fx') (ops ++ ops') := by
  induction h with
  | nil w n => exact h'
  | other ho _ ih => rw [run_cons] at h'; exact .other ho (ih h')
  | start c hx _ ih =>
    rw [run_append] at h'
    rw [List.append_assoc, List.cons_append]
    refine .start c hx (ih ?_)
    simpa [outs, Nat.add_assoc, Nat.add_comm 1] using h'
  | stop hx _ ih =>
    rw [run_append] at h'
    rw [List.append_assoc, List.cons_append]
    refine .stop hx (ih ?_)
    simpa [outs] using h'
  | cast id _ ih =>
    rw [run_cons] at h'
    exact .cast id (ih (by simpa using h'))

theorem performsD_pre {cf : Conf B V} {ser : V → B} {Q : Op B V → Prop} {w : World B V} {n : Nat} {fx : List Did} {ops ops' : List (Op B V)}
    (h : ∀ o ∈ ops, Others cf.me o ∨ Q o) (h' : PerformsQ cf ser Q (Verif.World.run ser w ops) n fx ops') :
    PerformsQ cf ser Q w n fx (ops ++ ops') := by
  have := performsD_append (performsD_others (ser := ser) (w := w) (n := n) h) (fx' := fx) (ops' := ops') (by simpa [outs] using h')
  simpa using this

theorem performsD_post {cf : Conf B V} {ser : V → B} {Q : Op B V → Prop} {w : World B V} {n : Nat} {fx : List Did} {ops ops' : List (Op B V)}
    (h' : PerformsQ cf ser Q w n fx ops) (h : ∀ o ∈ ops', Others cf.me o ∨ Q o) :
    PerformsQ cf ser Q w n fx (ops ++ ops') := by
  have := performsD_append h' (performsD_others (ser := ser) h)
  simpa using this

theorem PerformsD.performs {cf : Conf B V} {ser : V → B} {w : World B V} {n : Nat} {ds : List Did} {ops : List (Op B V)}
    (h : PerformsD cf ser w n ds ops) : Performs cf ser w n (effs ds) ops := by
  induction h with
  | nil w n => exact .nil _ _
  | other ho _ ih => exact .other (ho.imp_right .inl) ih
  | start c hx _ ih => rw [effs_eff]; exact .start c hx ih
  | stop hx _ ih => rw [effs_eff]; exact .stop hx ih
  | cast id _ ih => rw [effs_cast]; exact .other (.inr (.inr ⟨id, rfl⟩)) ih

/-- An execution of a routine performs its effects and returns what the evaluation with the outcomes that occurred returns. -/
theorem exec_prog (cf : Conf B V) (ser : V → B) (Q : Op B V → Prop) (dead : R) (x : Sk R) : ∀ {w : World B V} {n : Nat} {ops : List (Op B V)} {r : R},
    Reachable ser w → Exec ser cf.me w (x.prog cf dead n) ops r →
    ∃ ds, PerformsQ cf ser Q w n ds ops ∧ ∀ o, Agrees o n (effs ds) →
      x.eval o n = some (n + (outs (effs ds)).length, effs ds, r) ∧ x.retries o n = recasts ds := by
  induction x with
  | ret r0 =>
    intro w n ops r hre hx
    obtain ⟨rfl, ho⟩ := exec_ret_inv hx
    exact ⟨[], performsD_others fun o h => .inl (ho o h), fun o _ => by simp [Sk.eval, Sk.retries, outs]⟩
  | start c k ih =>
    intro w n ops r hre hx
    obtain ⟨os1, os2, y, rfl, h1, h2⟩ := exec_bind_inv hx
    obtain ⟨ds, h3, h4⟩ := ih y (reach_run hre os1) h2
    refine ⟨.eff (.start c.id y) :: ds, .start c h1 h3, ?_⟩
    intro o ho
    rw [effs_eff] at ho
    have hc : ∀ c, o n c = y := ho 0 y (by simp [outs])
    have hfx : Agrees o (n + 1) (effs ds) := by
      have := (agrees_append (a := [.start c.id y]) (b := effs ds) (by simpa using ho)).2
      simpa [outs] using this
    obtain ⟨h5, h6⟩ := h4 o hfx
    refine ⟨?_, by simp [Sk.retries, hc, h6]⟩
    simp only [Sk.eval, hc, h5, Option.map_some]
    simp [outs]; omega
  | stop p how k ih =>
    intro w n ops r hre hx
    obtain ⟨os1, os2, y, rfl, h1, h2⟩ := exec_bind_inv hx
    obtain ⟨ds, h3, h4⟩ := ih (reach_run hre os1) h2
    refine ⟨.eff (.stop p how) :: ds, .stop h1 h3, ?_⟩
    intro o ho
    rw [effs_eff] at ho
    have hfx : Agrees o n (effs ds) := by
      have := (agrees_append (a := [.stop p how]) (b := effs ds) (by simpa using ho)).2
      simpa [outs] using this
    obtain ⟨h5, h6⟩ := h4 o hfx
    refine ⟨?_, by simp [Sk.retries, h6]⟩
    simp only [Sk.eval, h5, Option.map_some]
    simp [outs]
  | cast id k ih =>
    intro w n ops r hre hx
    obtain ⟨os1, os2, rfl, ho, hr, h2⟩ := exec_op_inv hx
    obtain ⟨ds, h3, h4⟩ := ih (reach_step (reach_run hre os1) _) h2
    refine ⟨.cast id :: ds, performsD_pre (fun o h => .inl (ho o h)) (.cast id h3), fun o hag => ?_⟩
    rw [effs_cast] at hag
    obtain ⟨h5, h6⟩ := h4 o hag
    exact ⟨by simp [Sk.eval, h5], by simp [Sk.retries, h6]⟩
  | panic =>
    intro w n ops r hre hx
    exact (panic_never hre hx).elim

/-- An execution of a callback. -/
theorem callback {cf : Conf B V} {ser : V → B} {Q : Op B V → Prop} {σ : SState} {dead : X} {x : Sk (Sup × X)} {y : Oracle → Option (Sup × X)} {s0 : Sup}
    (hs : ∀ o, Same o s0 Prod.fst x (y o)) {w : World B V} {ops : List (Op B V)} {q : SState × X} (hre : Reachable ser w)
    (hx : Exec ser cf.me w (play cf σ dead x) ops q) (h0 : s0.calls = σ.1.calls := by rfl) (h0' : s0.log = σ.1.log := by rfl) :
    ∃ ds, PerformsQ cf ser Q w σ.1.calls ds ops ∧ q.1.1.log = σ.1.log ++ effs ds ∧ q.1.1.calls = σ.1.calls + (outs (effs ds)).length ∧ q.1.2 = σ.2 + 1 ∧
      q.1.1.casts = s0.casts ++ recasts ds ∧ ∀ o, Agrees o σ.1.calls (effs ds) → y o = some (q.1.1, q.2) := by
  obtain ⟨os1, os2, r, rfl, h1, h2⟩ := exec_bind_inv hx
  obtain ⟨rfl, ho⟩ := exec_ret_inv h2
  obtain ⟨ds, h3, h4⟩ := exec_prog cf ser Q _ x hre h1
  have key : ∀ o, Agrees o σ.1.calls (effs ds) → y o = some r ∧ r.1.log = σ.1.log ++ effs ds ∧ r.1.calls = σ.1.calls + (outs (effs ds)).length ∧
      r.1.casts = s0.casts ++ recasts ds := by
    intro o hag
    have h5 := hs o
    obtain ⟨h6, h6'⟩ := h4 o hag
    cases hy : y o with
    | none => rw [hy] at h5; simp only [Same] at h5; rw [h0, h6] at h5; simp at h5
    | some r' =>
      rw [hy] at h5
      obtain ⟨fx', h7, h8, h8'⟩ := h5
      rw [h0, h6] at h7
      simp only [Option.some.injEq, Prod.mk.injEq] at h7
      obtain ⟨h9, rfl, rfl⟩ := h7
      rw [h0, h6'] at h8'
      exact ⟨rfl, by rw [h8, h0'], h9.symm, h8'⟩
  have := key _ (agrees_of _ (effs ds))
  exact ⟨ds, performsD_post h3 (fun o h => .inl (ho o h)), this.2.1, this.2.2.1, rfl, this.2.2.2, fun o hag => (key o hag).1⟩

/-! ## Records -/

/-- The error of a result. -/
def errOf {Y : Type} : Except ExitReason Y → Option ExitReason
  | .ok _ => none
  | .error r => some r

/-- What the functions of `Supervisor.lean` say about an invoked callback: the new state and the result. -/
def Does (o : Oracle) (clock : Nat → Nat) (c : Record SMsg SState) : Prop :=
  match c.what with
  | .info (.system (.exit p r)) =>
    ∃ q, childExited o c.before.1 (clock c.before.2) p r = some (c.after.1, q) ∧ c.result = noReply (asResult q)
  | .info _ => c.after.1 = c.before.1 ∧ c.result = .ok none
  | .cast (.tryAgainId id) =>
    match indexOf c.before.1 id with
    | some i => ∃ q, tryAgain o { c.before.1 with casts := c.before.1.casts.erase id } (clock c.before.2) i = some (c.after.1, q) ∧ c.result = noReply (asResult q)
    | none => c.after.1 = { c.before.1 with casts := c.before.1.casts.erase id } ∧ c.result = .ok none
  | .cast (.tryAgainPid p) =>
    match indexOfPid c.before.1 p with
    | some i => ∃ q, tryAgain o c.before.1 (clock c.before.2) i = some (c.after.1, q) ∧ c.result = noReply (asResult q)
    | none => c.after.1 = c.before.1 ∧ c.result = .ok none
  | .cast _ => False
  | .call .countChildren _ => c.after.1 = c.before.1 ∧ c.result = .ok (some (.counts (countChildren c.before.1)))
  | .call .whichChildren _ => c.after.1 = c.before.1 ∧ c.result = .ok (some (.children (whichChildren c.before.1)))
  | .call (.startChild spec) _ => ∃ r, startChild o c.before.1 spec = some (c.after.1, r) ∧ c.result = .ok (some (.startChildIs r))
  | .call (.terminateChild id) _ => ∃ r, terminateChild c.before.1 id = some (c.after.1, r) ∧ c.result = .ok (some (.terminateChildIs r))
  | .call (.restartChild id) _ => ∃ r, restartChild o c.before.1 id = some (c.after.1, r) ∧ c.result = .ok (some (.restartChildIs r))
  | .call (.deleteChild id) _ =>
    c.after.1 = (deleteChild c.before.1 id).1 ∧ c.result = .ok (some (.deleteChildIs (deleteChild c.before.1 id).2))
  | .call _ _ => False
  | .terminate _ => terminateChildren c.before.1 = some c.after.1

/-- The retries that are still to come when the callback begins. -/
def taken (c : Record SMsg SState) : List String :=
  match c.what with
  | .cast (.tryAgainId id) => c.before.1.casts.erase id
  | _ => c.before.1.casts

/-- What a callback with its record does in the node. -/
structure Effects (cf : Conf B V) (ser : V → B) (Q : Op B V → Prop) (w : World B V) (ops : List (Op B V)) (c : Record SMsg SState) (ds : List Did) : Prop where
  perf : PerformsQ cf ser Q w c.before.1.calls ds ops
  log : c.after.1.log = c.before.1.log ++ effs ds
  calls : c.after.1.calls = c.before.1.calls + (outs (effs ds)).length
  count : c.after.2 = c.before.2 + 1
  casts : c.after.1.casts = taken c ++ recasts ds
  does : ∀ o, Agrees o c.before.1.calls (effs ds) → Does o cf.clock c

/-- Executing a routine and then turning its result into another one. -/
theorem same_map {o : Oracle} {s : Sup} {Y : Type} {x : Sk (Sup × X)} {y : Option (Sup × X)} (h : Same o s Prod.fst x y) (f : X → Y) :
    Same o s Prod.fst (x.bind fun r => .ret (r.1, f r.2)) (y.map fun r => (r.1, f r.2)) := by
  rw [Option.map_eq_bind]
  exact Same.bind h fun r => Same.ret rfl rfl

theorem same_ret {o : Oracle} {s s' : Sup} {x : X} (h1 : s'.calls = s.calls) (h2 : s'.log = s.log) (h3 : s'.casts = s.casts := by rfl) :
    Same o s Prod.fst (.ret (s', x)) (some (s', x)) := Same.ret (proj := Prod.fst) (r := (s', x)) h1 h2 h3

theorem delete_frame (s : Sup) (id : String) : (deleteChild s id).1.calls = s.calls ∧ (deleteChild s id).1.log = s.log ∧
    (deleteChild s id).1.casts = s.casts := by
  simp only [deleteChild]
  repeat' split
  all_goals exact ⟨rfl, rfl, rfl⟩

theorem ran_effects {cf : Conf B V} {ser : V → B} {Q : Op B V → Prop} {w : World B V} {ops : List (Op B V)} {c : Record SMsg SState} (hre : Reachable ser w)
    (h : Ran ser cf.me (supServer cf) w ops c) : ∃ fx, Effects cf ser Q w ops c fx := by
  obtain ⟨what, σ, σ', res⟩ := c
  cases what with
  | cast m =>
    obtain ⟨u, hx, rfl⟩ := h
    cases m with
    | tryAgainPid p =>
      simp only [supServer] at hx
      cases hi : indexOfPid σ.1 p with
      | none =>
        simp only [hi] at hx
        obtain ⟨fx, h1, h2, h3, h4, h4c, h5⟩ := callback (y := fun _ => some (σ.1, .ok ())) (fun o => same_ret rfl rfl) hre hx
        refine ⟨fx, h1, h2, h3, h4, h4c, fun o ho => ?_⟩
        have := h5 o ho
        simp only [Option.some.injEq, Prod.mk.injEq] at this
        simp [Does, hi, ← this.1, ← this.2, noReply]
      | some i =>
        simp only [hi] at hx
        obtain ⟨fx, h1, h2, h3, h4, h4c, h5⟩ := callback (fun o => same_map (tryAgain_same o σ.1 (cf.clock σ.2) i) asResult) hre hx
        refine ⟨fx, h1, h2, h3, h4, h4c, fun o ho => ?_⟩
        have := h5 o ho
        simp only [Option.map_eq_some_iff, Prod.mk.injEq] at this
        obtain ⟨⟨s1, q⟩, e1, e2, e3⟩ := this
        simp only [Does, hi]
        exact ⟨q, by rw [e1, ← e2], by rw [← e3]⟩
    | tryAgainId id =>
      simp only [supServer] at hx
      have hii : indexOf { σ.1 with casts := σ.1.casts.erase id } id = indexOf σ.1 id := rfl
      rw [hii] at hx
      cases hi : indexOf σ.1 id with
      | none =>
        simp only [hi] at hx
        obtain ⟨fx, h1, h2, h3, h4, h4c, h5⟩ := callback (y := fun _ => some ({ σ.1 with casts := σ.1.casts.erase id }, .ok ()))
          (fun o => same_ret (s := { σ.1 with casts := σ.1.casts.erase id }) (s' := { σ.1 with casts := σ.1.casts.erase id }) rfl rfl) hre hx
        refine ⟨fx, h1, h2, h3, h4, h4c, fun o ho => ?_⟩
        have := h5 o ho
        simp only [Option.some.injEq, Prod.mk.injEq] at this
        simp [Does, hi, ← this.1, ← this.2, noReply]
      | some i =>
        simp only [hi] at hx
        have hs : ∀ o, Same o { σ.1 with casts := σ.1.casts.erase id } Prod.fst (tryAgainK { σ.1 with casts := σ.1.casts.erase id } (cf.clock σ.2) i)
          (tryAgain o { σ.1 with casts := σ.1.casts.erase id } (cf.clock σ.2) i) := fun o => tryAgain_same o _ _ _
        obtain ⟨fx, h1, h2, h3, h4, h4c, h5⟩ := callback (fun o => same_map (hs o) asResult) hre hx
        refine ⟨fx, h1, h2, h3, h4, h4c, fun o ho => ?_⟩
        have := h5 o ho
        simp only [Option.map_eq_some_iff, Prod.mk.injEq] at this
        obtain ⟨⟨s1, q⟩, e1, e2, e3⟩ := this
        simp only [Does, hi]
        exact ⟨q, by rw [e1, ← e2], by rw [← e3]⟩
    | _ =>
      obtain ⟨fx, h1, h2, h3, h4, h4c, h5⟩ := callback (Q := Q) (y := fun _ => none) (fun o => Same.panic) hre hx
      exact absurd (h5 _ (agrees_of _ (effs fx))) (by simp)
  | call m frm =>
    have hx : Exec ser cf.me w ((supServer cf).call σ m frm) ops (σ', res) := h
    cases m with
    | countChildren =>
      obtain ⟨fx, h1, h2, h3, h4, h4c, h5⟩ := callback (y := fun _ => some (σ.1, .ok (some (.counts (countChildren σ.1))))) (fun o => same_ret rfl rfl) hre hx
      refine ⟨fx, h1, h2, h3, h4, h4c, fun o ho => ?_⟩
      have := h5 o ho
      simp only [Option.some.injEq, Prod.mk.injEq] at this
      simp [Does, ← this.1, ← this.2]
    | whichChildren =>
      obtain ⟨fx, h1, h2, h3, h4, h4c, h5⟩ := callback (y := fun _ => some (σ.1, .ok (some (.children (whichChildren σ.1))))) (fun o => same_ret rfl rfl) hre hx
      refine ⟨fx, h1, h2, h3, h4, h4c, fun o ho => ?_⟩
      have := h5 o ho
      simp only [Option.some.injEq, Prod.mk.injEq] at this
      simp [Does, ← this.1, ← this.2]
    | deleteChild id =>
      obtain ⟨fx, h1, h2, h3, h4, h4c, h5⟩ := callback (y := fun _ => some ((deleteChild σ.1 id).1, .ok (some (.deleteChildIs (deleteChild σ.1 id).2))))
        (fun o => same_ret (delete_frame σ.1 id).1 (delete_frame σ.1 id).2.1 (delete_frame σ.1 id).2.2) hre hx
      refine ⟨fx, h1, h2, h3, h4, h4c, fun o ho => ?_⟩
      have := h5 o ho
      simp only [Option.some.injEq, Prod.mk.injEq] at this
      simp [Does, ← this.1, ← this.2]
    | startChild spec =>
      obtain ⟨fx, h1, h2, h3, h4, h4c, h5⟩ := callback (fun o => same_map (startChild_same o σ.1 spec) fun r => Except.ok (some (SMsg.startChildIs r))) hre hx
      refine ⟨fx, h1, h2, h3, h4, h4c, fun o ho => ?_⟩
      have := h5 o ho
      simp only [Option.map_eq_some_iff, Prod.mk.injEq] at this
      obtain ⟨⟨s1, q⟩, e1, e2, e3⟩ := this
      exact ⟨q, by simp only; rw [e1, ← e2], by rw [← e3]⟩
    | terminateChild id =>
      obtain ⟨fx, h1, h2, h3, h4, h4c, h5⟩ := callback (fun o => same_map (terminateChild_same o σ.1 id) fun r => Except.ok (some (SMsg.terminateChildIs r))) hre hx
      refine ⟨fx, h1, h2, h3, h4, h4c, fun o ho => ?_⟩
      have := h5 o ho
      simp only [Option.map_eq_some_iff, Prod.mk.injEq] at this
      obtain ⟨⟨s1, q⟩, e1, e2, e3⟩ := this
      exact ⟨q, by simp only; rw [e1, ← e2], by rw [← e3]⟩
    | restartChild id =>
      obtain ⟨fx, h1, h2, h3, h4, h4c, h5⟩ := callback (fun o => same_map (restartChild_same o σ.1 id) fun r => Except.ok (some (SMsg.restartChildIs r))) hre hx
      refine ⟨fx, h1, h2, h3, h4, h4c, fun o ho => ?_⟩
      have := h5 o ho
      simp only [Option.map_eq_some_iff, Prod.mk.injEq] at this
      obtain ⟨⟨s1, q⟩, e1, e2, e3⟩ := this
      exact ⟨q, by simp only; rw [e1, ← e2], by rw [← e3]⟩
    | _ =>
      obtain ⟨fx, h1, h2, h3, h4, h4c, h5⟩ := callback (Q := Q) (y := fun _ => none) (fun o => Same.panic) hre hx
      exact absurd (h5 _ (agrees_of _ (effs fx))) (by simp)
  | info m =>
    obtain ⟨u, hx, rfl⟩ := h
    have idle : Exec ser cf.me w (play cf σ (.ok ()) (.ret (σ.1, .ok ()))) ops (σ', u) →
        (∀ o, σ'.1 = σ.1 → u = .ok () → Does o cf.clock ⟨.info m, σ, σ', noReply u⟩) → ∃ fx, Effects cf ser Q w ops ⟨.info m, σ, σ', noReply u⟩ fx := by
      intro hx hd
      obtain ⟨fx, h1, h2, h3, h4, h4c, h5⟩ := callback (y := fun _ => some (σ.1, .ok ())) (fun o => same_ret rfl rfl) hre hx
      refine ⟨fx, h1, h2, h3, h4, h4c, fun o ho => ?_⟩
      have := h5 o ho
      simp only [Option.some.injEq, Prod.mk.injEq] at this
      exact hd o this.1.symm this.2.symm
    cases m with
    | user m => exact idle hx fun o h1 h2 => ⟨h1, by rw [h2]; rfl⟩
    | system s =>
      cases s with
      | exit p r =>
        obtain ⟨fx, h1, h2, h3, h4, h4c, h5⟩ := callback (fun o => same_map (childExited_same o σ.1 (cf.clock σ.2) p r) asResult) hre hx
        refine ⟨fx, h1, h2, h3, h4, h4c, fun o ho => ?_⟩
        have := h5 o ho
        simp only [Option.map_eq_some_iff, Prod.mk.injEq] at this
        obtain ⟨⟨s1, q⟩, e1, e2, e3⟩ := this
        exact ⟨q, by simp only; rw [e1, ← e2], by rw [← e3]⟩
      | _ => exact idle hx fun o h1 h2 => ⟨h1, by rw [h2]; rfl⟩
  | terminate r =>
    have hx : Exec ser cf.me w ((supServer cf).terminate σ r) ops σ' := h
    obtain ⟨os1, os2, q, rfl, hx', h2⟩ := exec_bind_inv hx
    obtain ⟨rfl, ho⟩ := exec_ret_inv h2
    have hs : ∀ o, Same o σ.1 Prod.fst ((terminateChildrenK σ.1).bind fun s => .ret (s, ())) ((terminateChildren σ.1).map fun s => (s, ())) := by
      intro o
      rw [Option.map_eq_bind]
      exact Same.bind (terminateChildren_same o σ.1) fun s1 => same_ret rfl rfl
    obtain ⟨fx, h1, h2, h3, h4, h4c, h5⟩ := callback hs hre hx'
    refine ⟨fx, performsD_post h1 fun o h => .inl (ho o h), h2, h3, h4, h4c, fun o hag => ?_⟩
    have := h5 o hag
    simp only [Option.map_eq_some_iff, Prod.mk.injEq] at this
    obtain ⟨s1, e1, e2, -⟩ := this
    simp only [Does]
    rw [e1, e2]

/-! ## The loop -/

/-- A history of the loop: the state is threaded, every callback does what the functions of `Supervisor.lean` say, and after a callback that fails and
after an order to stop there is exactly `terminate`. -/
inductive Chain (o : Oracle) (clock : Nat → Nat) : SState → List (Record SMsg SState) → Option ExitReason → SState → Prop
  | none (σ) : Chain o clock σ [] none σ
  | next {c y cs q σ'} : Does o clock c → (∀ r, c.what ≠ .terminate r) → c.after.2 = c.before.2 + 1 → c.result = .ok y → Chain o clock c.after cs q σ' →
      Chain o clock c.before (c :: cs) q σ'
  | fail {c r t} : Does o clock c → (∀ r, c.what ≠ .terminate r) → c.result = .error r → t.what = .terminate r → t.before = c.after → Does o clock t →
      Chain o clock c.before [c, t] (some r) t.after
  | stop {t r} : t.what = .terminate r → t.result = .ok none → Does o clock t → Chain o clock t.before [t] (some r) t.after

/-- The things done, callback by callback. -/
inductive Parts : List (Record SMsg SState) → List Did → Prop
  | nil : Parts [] []
  | cons {c cs a b} : c.after.1.log = c.before.1.log ++ effs a → c.after.1.casts = taken c ++ recasts a → Parts cs b → Parts (c :: cs) (a ++ b)

/-- What an execution of the loop does in the node. -/
def LoopDoes (cf : Conf B V) (ser : V → B) (w : World B V) (σ : SState) (ops : List (Op B V)) (l : Log SMsg SState) : Prop :=
  ∃ ds, PerformsD cf ser w σ.1.calls ds ops ∧ l.state.1.log = σ.1.log ++ effs ds ∧ l.state.1.calls = σ.1.calls + (outs (effs ds)).length ∧
    Parts l.calls ds ∧ ∀ o, Agrees o σ.1.calls (effs ds) → Chain o cf.clock σ l.calls l.ended l.state

theorem finish_does {cf : Conf B V} {ser : V → B} {w : World B V} {σ : SState} {r : ExitReason} {done : List (Record SMsg SState)}
    {ops : List (Op B V)} {l : Log SMsg SState} (hre : Reachable ser w) (hx : Exec ser cf.me w (finishServer (supServer cf) cf.me σ r done) ops l) :
    ∃ t fx, t.what = .terminate r ∧ t.result = .ok none ∧ t.before = σ ∧ l = ⟨done ++ [t], some r, t.after⟩ ∧ Effects cf ser (Own0 cf) w ops t fx := by
  obtain ⟨os1, os2, σ', rfl, h1, h2⟩ := exec_bind_inv hx
  obtain ⟨os3, os4, rfl, h3, hr, h4⟩ := exec_op_inv h2
  obtain ⟨os5, os6, rfl, h5, -, h6⟩ := exec_op_inv h4
  obtain ⟨rfl, h7⟩ := exec_ret_inv h6
  obtain ⟨fx, he⟩ := ran_effects (c := ⟨.terminate r, σ, σ', .ok none⟩) hre h1
  refine ⟨⟨.terminate r, σ, σ', .ok none⟩, fx, rfl, rfl, rfl, rfl, ?_⟩
  refine { he with perf := performsD_post he.perf ?_ }
  intro o ho
  simp only [List.mem_append, List.mem_cons] at ho
  rcases ho with h | rfl | h | rfl | h
  · exact .inl (h3 o h)
  · exact .inr (.exit r)
  · exact .inl (h5 o h)
  · exact .inr .finish
  · exact .inl (h7 o h)

theorem after_does {cf : Conf B V} {ser : V → B} {parent : Pid} {n : Nat} {w : World B V} {c : Record SMsg SState} {ops1 mid ops2 : List (Op B V)}
    {fx : List Did} {l : Log SMsg SState} (hre : Reachable ser w)
    (ih : ∀ (w : World B V) σ ops l, Reachable ser w → Exec ser cf.me w (serverLoop (supServer cf) cf.type cf.me parent n σ) ops l →
      LoopDoes cf ser w σ ops l)
    (hc : Effects cf ser (Own0 cf) w ops1 c fx) (hnt : ∀ r, c.what ≠ .terminate r) (hmid : ∀ o ∈ mid, Others cf.me o ∨ Own0 cf o)
    (hx : Exec ser cf.me (Verif.World.run ser w (ops1 ++ mid)) (afterCallback (supServer cf) cf.me c (serverLoop (supServer cf) cf.type cf.me parent n c.after)) ops2 l) :
    LoopDoes cf ser w c.before (ops1 ++ mid ++ ops2) l := by
  have hp := performsD_post hc.perf hmid
  have hre' := reach_run hre (ops1 ++ mid)
  cases hres : c.result with
  | ok y =>
    simp only [afterCallback, hres] at hx
    obtain ⟨os3, os4, l', rfl, hx', hl⟩ := exec_bind_inv hx
    obtain ⟨rfl, hoth⟩ := exec_ret_inv hl
    obtain ⟨fx', h1, h2, h3, hpt, h4⟩ := ih _ _ _ _ hre' hx'
    refine ⟨fx ++ fx', ?_, ?_, ?_, .cons hc.log hc.casts hpt, ?_⟩
    · refine performsD_append hp (performsD_post ?_ fun o h => .inl (hoth o h))
      rw [← hc.calls]; exact h1
    · simp only [h2, hc.log, effs_append, List.append_assoc]
    · simp only [h3, hc.calls, effs_append, outs_append, List.length_append]; omega
    · intro o ho
      rw [effs_append] at ho
      obtain ⟨a1, a2⟩ := agrees_append ho
      rw [← hc.calls] at a2
      exact .next (hc.does o a1) hnt hc.count hres (h4 o a2)
  | error r =>
    simp only [afterCallback, hres] at hx
    obtain ⟨t, fx', h1, -, h2, rfl, h3⟩ := finish_does hre' hx
    have hperf := h3.perf
    rw [h2, hc.calls] at hperf
    refine ⟨fx ++ fx', performsD_append hp hperf, ?_, ?_, ?_, ?_⟩
    · rw [h3.log, h2, hc.log, effs_append, List.append_assoc]
    · rw [h3.calls, h2, hc.calls, effs_append, outs_append, List.length_append]; omega
    · have := Parts.cons h3.log h3.casts .nil
      rw [List.append_nil] at this
      exact .cons hc.log hc.casts this
    · intro o ho
      rw [effs_append] at ho
      obtain ⟨a1, a2⟩ := agrees_append ho
      rw [← hc.calls, ← h2] at a2
      exact .fail (hc.does o a1) hnt hres h1 h2 (h3.does o a2)

theorem loop_does (cf : Conf B V) (ser : V → B) (parent : Pid) (n : Nat) : ∀ (w : World B V) (σ : SState) (ops : List (Op B V)) (l : Log SMsg SState),
    Reachable ser w → Exec ser cf.me w (serverLoop (supServer cf) cf.type cf.me parent n σ) ops l → LoopDoes cf ser w σ ops l := by
  induction n with
  | zero =>
    intro w σ ops l hre hx
    obtain ⟨rfl, ho⟩ := exec_ret_inv hx
    exact ⟨[], performsD_others fun o h => .inl (ho o h), by simp, by simp [outs], .nil, fun o _ => .none _⟩
  | succ n ih =>
    intro w σ ops l hre hx
    simp only [serverLoop] at hx
    obtain ⟨os1, os2, rfl, hw, h⟩ := exec_wait_inv hx
    have hw' : ∀ o ∈ os1, Others cf.me o ∨ Own0 cf o := by
      intro o ho
      rcases hw o ho with h | ⟨k, rfl⟩
      · exact .inl h
      · exact .inr (.recv _ _)
    replace h := h.resolve_right (by rintro ⟨p, h, -⟩; simp at h)
    clear hx
    obtain ⟨kind, m, os3, hm, rfl, hr, hx⟩ := h
    have hre1 := reach_step (reach_run hre os1) (.recv cf.me (⟨GMsg SMsg, cf.type, fun _ => true, true⟩ : RecvOp B V) kind)
    have wrap : LoopDoes cf ser (Verif.World.step ser (Verif.World.run ser w os1) (.recv cf.me ⟨GMsg SMsg, cf.type, fun _ => true, true⟩ kind)).1 σ os3 l →
        LoopDoes cf ser w σ (os1 ++ .recv cf.me ⟨GMsg SMsg, cf.type, fun _ => true, true⟩ kind :: os3) l := by
      rintro ⟨fx, h1, h2⟩
      exact ⟨fx, performsD_pre hw' (.other (.inr (.recv _ _)) h1), h2⟩
    apply wrap
    clear wrap
    have round : ∀ {c : Record SMsg SState} {ops1 ops2 : List (Op B V)}, c.before = σ → (∀ r, c.what ≠ .terminate r) → os3 = ops1 ++ ops2 →
        Ran ser cf.me (supServer cf) (Verif.World.step ser (Verif.World.run ser w os1) (.recv cf.me ⟨GMsg SMsg, cf.type, fun _ => true, true⟩ kind)).1 ops1 c →
        Exec ser cf.me (Verif.World.run ser (Verif.World.step ser (Verif.World.run ser w os1) (.recv cf.me ⟨GMsg SMsg, cf.type, fun _ => true, true⟩ kind)).1 ops1)
          (afterCallback (supServer cf) cf.me c (serverLoop (supServer cf) cf.type cf.me parent n c.after)) ops2 l →
        LoopDoes cf ser (Verif.World.step ser (Verif.World.run ser w os1) (.recv cf.me ⟨GMsg SMsg, cf.type, fun _ => true, true⟩ kind)).1 σ os3 l := by
      intro c ops1 ops2 hb hnt he hran hx
      obtain ⟨fx, hc⟩ := ran_effects hre1 hran
      have := after_does (mid := []) hre1 ih hc hnt (by simp) (by simpa using hx)
      rw [he, ← hb]; simpa using this
    have info : ∀ x, Exec ser cf.me (Verif.World.step ser (Verif.World.run ser w os1) (.recv cf.me ⟨GMsg SMsg, cf.type, fun _ => true, true⟩ kind)).1
        (((supServer cf).info σ x).bind fun q => afterCallback (supServer cf) cf.me ⟨.info x, σ, q.1, noReply q.2⟩
          (serverLoop (supServer cf) cf.type cf.me parent n q.1)) os3 l →
        LoopDoes cf ser (Verif.World.step ser (Verif.World.run ser w os1) (.recv cf.me ⟨GMsg SMsg, cf.type, fun _ => true, true⟩ kind)).1 σ os3 l := by
      intro x hx
      obtain ⟨os4, os5, q, rfl, h1, h2⟩ := exec_bind_inv hx
      exact round (c := ⟨.info x, σ, q.1, noReply q.2⟩) rfl (by simp) rfl ⟨q.2, h1, rfl⟩ h2
    have stop : ∀ r, Exec ser cf.me (Verif.World.step ser (Verif.World.run ser w os1) (.recv cf.me ⟨GMsg SMsg, cf.type, fun _ => true, true⟩ kind)).1
        (finishServer (supServer cf) cf.me σ r []) os3 l →
        LoopDoes cf ser (Verif.World.step ser (Verif.World.run ser w os1) (.recv cf.me ⟨GMsg SMsg, cf.type, fun _ => true, true⟩ kind)).1 σ os3 l := by
      intro r hx
      obtain ⟨t, fx, h1, h0, h2, rfl, h3⟩ := finish_does hre1 hx
      subst h2
      have hpt := Parts.cons h3.log h3.casts .nil
      rw [List.append_nil] at hpt
      exact ⟨fx, h3.perf, h3.log, h3.calls, hpt, fun o ho => .stop h1 h0 (h3.does o ho)⟩
    cases m with
    | user g =>
      cases g with
      | cast x =>
        obtain ⟨os4, os5, q, rfl, h1, h2⟩ := exec_bind_inv hx
        exact round (c := ⟨.cast x, σ, q.1, noReply q.2⟩) rfl (by simp) rfl ⟨q.2, h1, rfl⟩ h2
      | call frm x =>
        obtain ⟨os4, os5, ⟨σ1, q⟩, rfl, h1, h2⟩ := exec_bind_inv hx
        rcases q with r | _ | reply
        · exact round (c := ⟨.call x frm, σ, σ1, .error r⟩) rfl (by simp) rfl h1 h2
        · exact round (c := ⟨.call x frm, σ, σ1, .ok none⟩) rfl (by simp) rfl h1 h2
        · obtain ⟨os6, os7, rfl, h3, hr3, h4⟩ := exec_op_inv h2
          obtain ⟨fx, hc⟩ := ran_effects (c := ⟨.call x frm, σ, σ1, .ok (some reply)⟩) hre1 h1
          have := after_does (mid := os6 ++ [replyOp cf.type cf.me frm reply]) hre1 ih hc (by simp) (by
            intro o ho
            simp only [List.mem_append, List.mem_singleton] at ho
            rcases ho with h | rfl
            · exact .inl (h3 o h)
            · exact .inr (.reply _ _)) (ops2 := os7) (l := l) (by
            rw [run_append, run_append]; exact h4)
          simpa using this
      | callReply tag x => exact info _ hx
      | stop r => exact stop r hx
    | system s =>
      cases s with
      | exit p r =>
        simp only at hx
        split at hx
        · exact stop r hx
        · exact info _ hx
      | _ => exact info _ hx

end Verif.Sup
