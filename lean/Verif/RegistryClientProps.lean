import Verif.RegistryOpsProps
import Verif.HandlerProps
import Verif.Sim
/-!
# The functions of `Registry` act on the registry at one moment (C125), and there is one process for a key (C126)
-/
namespace Verif.World
open Verif.Mailbox
variable {B V R : Type}

/-! ## Specification -/

/-- What one can ask a registry for. -/
inductive RAsk
  | lookup (k : RKey)
  | lookupOrStart (k : RKey)
  | start (k : RKey)
  | stop (k : RKey)
  | count
  | list
  | remove (k : RKey)

/-- What the function returns. -/
def RAsk.Out : RAsk → Type
  | .lookup _ => Option Pid
  | .lookupOrStart _ => Pid
  | .start _ => Pid
  | .stop _ => Unit
  | .count => Nat
  | .list => Entries
  | .remove _ => Option Pid

/-- The function. -/
def RAsk.prog (τ : RecvType B V (GMsg RMsg)) (me : Nat) (d : Dest) : (q : RAsk) → Prog B V (Except RError q.Out)
  | .lookup k => rLookup τ me d k
  | .lookupOrStart k => rLookupOrStart τ me d k
  | .start k => rStart τ me d k
  | .stop k => rStop τ me d k
  | .count => rCount τ me d
  | .list => rList τ me d
  | .remove k => rRemove τ me d k

/-- The content of a registry: the process of each key. -/
abbrev Keys := RKey → Option Pid

/-- With `k` bound to `p`. -/
def Keys.set (T : Keys) (k : RKey) (p : Option Pid) : Keys := fun k' => if k' = k then p else T k'

/-- The list is the content: every key that has a process, once, with its process. -/
def Keys.Listed (T : Keys) (l : Entries) : Prop := UniqueKeys l ∧ ∀ k p, (k, p) ∈ l ↔ T k = some p

/-- What the function returns, and makes of the content of the registry, if it is alone. -/
inductive RAsk.Effect : (q : RAsk) → Except RError q.Out → Keys → Keys → Prop
  | lookup (T : Keys) (k : RKey) : Effect (.lookup k) (.ok (T k)) T T
  | found (T : Keys) (k : RKey) (p : Pid) : T k = some p → Effect (.lookupOrStart k) (.ok p) T T
  | foundNone (T : Keys) (k : RKey) (p : Pid) : T k = none → Effect (.lookupOrStart k) (.ok p) T (T.set k (some p))
  | foundFailed (T : Keys) (k : RKey) (e : ExitReason) : T k = none → Effect (.lookupOrStart k) (.error (.startError e)) T T
  | started (T : Keys) (k : RKey) (p : Pid) : T k = none → Effect (.start k) (.ok p) T (T.set k (some p))
  | already (T : Keys) (k : RKey) (p : Pid) : T k = some p → Effect (.start k) (.error (.alreadyStarted p)) T T
  | startFailed (T : Keys) (k : RKey) (e : ExitReason) : T k = none → Effect (.start k) (.error (.startError e)) T T
  | stopped (T : Keys) (k : RKey) : Effect (.stop k) (.ok ()) T (T.set k none)
  | nothingToStop (T : Keys) (k : RKey) : T k = none → Effect (.stop k) (.error .notFound) T T
  | count (T : Keys) (l : Entries) : T.Listed l → Effect .count (.ok l.length) T T
  | list (T : Keys) (l : Entries) : T.Listed l → Effect .list (.ok l) T T
  | remove (T : Keys) (k : RKey) : Effect (.remove k) (.ok (T k)) T (T.set k none)

/-- The operation frees the key: somebody takes it out of the registry, the death of its process `p` is handled, or the registry ends. -/
def Frees (name : String) (k : RKey) (p : Pid) (o : Op B V) : Prop :=
  ∃ m, o = .table m (.remove name k) ∨ o = .table m (.removeIf name k p) ∨ o = .table m (.take name)

/-- The operation puts a process into the registry `name`. -/
def Inserts (name : String) (o : Op B V) : Prop := ∃ m k p, o = .table m (.insert name k p)

/-- In the history `G`, after `hs`, the process `s` serves the registry. It is the only one that puts processes into it, in the loop of the server, where
the start routine neither does so nor answers calls. -/
structure RegServes (ser : V → B) (c : RegConf B V) (u : RecvType B V Unit) (τ : RecvType B V (GMsg RMsg)) (s : Nat) (parent : Pid) (G hs os : List (Op B V))
    (σ : Lookup) (n : Nat) (l : Log RMsg Lookup) : Prop where
  serves : Serves ser (registryServer c u s) τ s parent G hs os σ n l
  silent : ∀ f k, c.start = some f → Silent ser τ s (f k)
  routine : ∀ f k, c.start = some f → Mute ser s (Inserts c.name) (f k)
  only : ∀ a o b, G = a ++ o :: b → Inserts c.name o → o.caller = some s ∧ hs.length ≤ a.length ∧ a.length < hs.length + os.length

/-- In the history `G`, after `pre`, the process `me` asks `d`, which takes `ops` and returns `r`. If it makes a call, nobody forges that. -/
structure RAsked (ser : V → B) (τ : RecvType B V (GMsg RMsg)) (s : Nat) (G hs os pre ops : List (Op B V)) (me : Nat) (d : Dest) (q : RAsk)
    (r : Except RError q.Out) : Prop where
  part : pre ++ ops <+: G
  run : Exec ser me (run ser init pre) (q.prog τ me d) ops r
  unforged : ∀ os1 os2 t, ops = os1 ++ callMon me d :: os2 → t = (World.run ser init (pre ++ os1)).nextRef → Unforged ser τ s G hs os pre ops me t

/-- The function acts on the registry `name` with the operation number `i` of the history `G`, which lies between its beginning after `pre` and its end: with the
content of the registry before and after that operation, the function does what it does if it is alone. -/
structure ActsAt (ser : V → B) (name : String) (G : List (Op B V)) (i : Nat) (pre ops : List (Op B V)) (q : RAsk) (r : Except RError q.Out) : Prop where
  begun : pre.length ≤ i
  ended : i < (pre ++ ops).length
  effect : q.Effect r (tab name (run ser init (G.take i))) (tab name (run ser init (G.take (i + 1))))

/-- The use of a function: after `pre`, the process `me` asks `d` for `q`; that takes `ops` and returns `r`. -/
structure RUse (B V : Type) where
  pre : List (Op B V)
  ops : List (Op B V)
  me : Nat
  d : Dest
  q : RAsk
  r : Except RError q.Out

/-- The one has returned before the other begins. -/
def RUse.Before (a b : RUse B V) : Prop := (a.pre ++ a.ops).length ≤ b.pre.length

/-! ## Lemmas -/

theorem silent_table {τ : RecvType B V (GMsg RMsg)} {s : Nat} {ser : V → B} {m : Nat} {x : TOp} {k : Res → Prog B V R}
    (hk : ∀ r, Silent ser τ s (k r)) : Silent ser τ s (.op (.table m x) k) :=
  silent_op (by rintro t y ⟨it, hs, -⟩; cases hs) hk

theorem silent_killAll {τ : RecvType B V (GMsg RMsg)} {s : Nat} {ser : V → B} {k : Prog B V R} (hk : Silent ser τ s k) : ∀ ps, Silent ser τ s (killAll s ps k)
  | [] => hk
  | _ :: ps => silent_op (by rintro t y ⟨it, hs, -⟩; cases hs) fun _ => silent_op (by rintro t y ⟨it, hs, -⟩; cases hs) fun _ => silent_killAll hk ps

theorem silent_drop {c : RegConf B V} {τ : RecvType B V (GMsg RMsg)} {s : Nat} {ser : V → B} {σ : Lookup} {k : Prog B V R} (hk : Silent ser τ s k) :
    Silent ser τ s (registryDrop c s σ k) := silent_table fun _ => silent_killAll hk _

theorem silent_panics {c : RegConf B V} {τ : RecvType B V (GMsg RMsg)} {s : Nat} {ser : V → B} {σ : Lookup} {dead : R} :
    Silent ser τ s (registryPanics c s σ dead) :=
  silent_drop (silent_op (by rintro t y ⟨it, hs, -⟩; cases hs) fun _ => silent_op (by rintro t y ⟨it, hs, -⟩; cases hs) fun _ => silent_ret _)

theorem silent_start {c : RegConf B V} {τ : RecvType B V (GMsg RMsg)} {s : Nat} {ser : V → B} (hst : ∀ f k, c.start = some f → Silent ser τ s (f k))
    (σ : Lookup) (k : RKey) : Silent ser τ s (startByKey c s σ k) := by
  refine silent_bind (silent_table fun _ => silent_ret _) fun r => ?_
  cases r with
  | some p => exact silent_ret _
  | none =>
    cases hc : c.start with
    | none => exact silent_panics
    | some f =>
      refine silent_bind (hst f k hc) fun r => ?_
      cases r with
      | ok p => exact silent_table fun _ => silent_ret _
      | error e => exact silent_ret _

theorem silent_shutdownWith {u : RecvType B V Unit} {τ : RecvType B V (GMsg RMsg)} {s : Nat} {ser : V → B} (p : Pid) (m : Ref) (mode : ShutdownMode) :
    Silent ser τ s (shutdownWith u s p m mode) := by
  have hf : Silent ser τ s (unlinkFlush u s p) := by
    refine silent_op ?_ fun _ => silent_op ?_ fun _ => silent_ret _ <;> (rintro t y ⟨it, hs, -⟩; cases hs)
  have hb : ∀ m, Silent ser τ s (brutalKill u s p m) := by
    intro m
    refine silent_op ?_ fun _ => silent_wait (by simp) fun _ => hf
    rintro t y ⟨it, hs, -⟩; cases hs
  cases mode with
  | brutalKill => exact hb _
  | duration =>
    refine silent_op (by rintro t y ⟨it, hs, -⟩; cases hs) fun _ => silent_wait ?_ fun _ => hf
    intro p' h; cases h; exact hb _
  | infinity =>
    exact silent_op (by rintro t y ⟨it, hs, -⟩; cases hs) fun _ => silent_wait (by simp) fun _ => hf

theorem silent_exitChildren {τ : RecvType B V (GMsg RMsg)} {s : Nat} {ser : V → B} (e : Entries) (k : List (Pid × Ref) → Prog B V R)
    (hk : ∀ ms, Silent ser τ s (k ms)) : ∀ σ ms, Silent ser τ s (exitChildren s e σ ms k)
  | [], ms => hk ms
  | (p, key) :: σ, ms => by
    unfold exitChildren
    split
    · exact silent_op (by rintro t y ⟨it, hs, -⟩; cases hs) fun _ => silent_op (by rintro t y ⟨it, hs, -⟩; cases hs) fun _ => silent_exitChildren e k hk σ _
    · exact silent_exitChildren e k hk σ _

theorem silent_awaitChildren {u : RecvType B V Unit} {τ : RecvType B V (GMsg RMsg)} {s : Nat} {ser : V → B} (mode : ShutdownMode) (k : Prog B V R)
    (hk : Silent ser τ s k) : ∀ ms, Silent ser τ s (awaitChildren u s mode ms k)
  | [] => hk
  | (p, m) :: ms => silent_bind (silent_shutdownWith p m mode) fun _ => silent_awaitChildren mode k hk ms

theorem silent_terminateChildren {c : RegConf B V} {u : RecvType B V Unit} {τ : RecvType B V (GMsg RMsg)} {s : Nat} {ser : V → B} (σ : Lookup) :
    Silent ser τ s (terminateChildren c u s σ) := by
  unfold terminateChildren
  split
  · exact silent_ret _
  · refine silent_table fun r => ?_
    split
    · exact silent_exitChildren _ _ (fun ms => silent_awaitChildren _ _ (silent_ret _) ms) _ _
    · exact silent_ret _

/-- A registry leaves it to the loop to answer. -/
theorem registry_returns {c : RegConf B V} {u : RecvType B V Unit} {τ : RecvType B V (GMsg RMsg)} {s : Nat} {ser : V → B}
    (hst : ∀ f k, c.start = some f → Silent ser τ s (f k)) : Returns ser (registryServer c u s) τ s := by
  have hu : ∀ {R : Type} {p : Pid} {k : Res → Prog B V R}, (∀ r, Silent ser τ s (k r)) → Silent ser τ s (.op (.unlink s p) k) :=
    fun hk => silent_op (by rintro t y ⟨it, hs, -⟩; cases hs) hk
  refine ⟨?_, ?_, ?_, ?_⟩
  · intro σ m
    cases m with
    | removeLookup p => exact hu fun _ => silent_ret _
    | _ => exact silent_panics
  · intro σ m frm
    have hl : ∀ k, Silent ser τ s (lookupProg s c.name k) := fun k => silent_table fun _ => silent_ret _
    cases m with
    | lookup k => exact silent_bind (hl k) fun _ => silent_ret _
    | lookupOrStart k =>
      refine silent_bind (silent_bind (hl k) fun r => ?_) fun _ => silent_ret _
      cases r with
      | some p => exact silent_ret _
      | none => exact silent_start hst _ _
    | start k => exact silent_bind (silent_start hst _ _) fun _ => silent_ret _
    | stop k =>
      refine silent_bind (silent_bind (hl k) fun r => ?_) fun _ => silent_ret _
      cases r with
      | none => exact silent_ret _
      | some p =>
        exact hu fun _ => silent_op (by rintro t y ⟨it, hs, -⟩; cases hs) fun _ => silent_bind (silent_table fun _ => silent_ret _) fun _ => silent_ret _
    | count => exact silent_bind (silent_table fun _ => silent_ret _) fun _ => silent_ret _
    | list => exact silent_bind (silent_table fun _ => silent_ret _) fun _ => silent_ret _
    | remove k =>
      refine silent_bind (silent_bind (silent_table fun _ => silent_ret _) fun r => ?_) fun _ => silent_ret _
      cases r with
      | none => exact silent_ret _
      | some p => exact hu fun _ => silent_ret _
    | _ => exact silent_panics
  · intro σ m
    show Silent ser τ s (registryInfo c s σ m)
    unfold registryInfo
    split
    · refine silent_bind ?_ fun _ => silent_ret _
      unfold removePid
      split
      · exact silent_ret _
      · exact silent_table fun _ => silent_ret _
    · exact silent_ret _
  · intro σ r
    exact silent_bind (silent_terminateChildren σ) fun _ => silent_drop (silent_ret _)

/-- What one operation can do to a key. -/
theorem tab_step (ser : V → B) (name : String) (w : World B V) (o : Op B V) (k : RKey) :
    tab name (step ser w o).1 k = tab name w k ∨ (∃ m p, o = .table m (.insert name k p)) ∨ (tab name (step ser w o).1 k = none ∧ ∃ m,
      o = .table m (.remove name k) ∨ o = .table m (.take name) ∨ ∃ p, tab name w k = some p ∧ o = .table m (.removeIf name k p)) := by
  by_cases ht : ∃ m t, o = .table m t
  · obtain ⟨m, t, rfl⟩ := ht
    cases hr : running w m with
    | false => rw [tables_idle ser w m t hr]; exact .inl rfl
    | true =>
      have h1 := (tables_table ser w m t hr).1
      cases t with
      | remove n k' =>
        by_cases hn : n = name
        · subst hn
          have h2 := (own_remove (ser := ser) hr n k').2 k
          by_cases hk : k = k'
          · subst hk; rw [if_pos rfl] at h2; exact .inr (.inr ⟨h2, m, .inl rfl⟩)
          · rw [if_neg hk] at h2; exact .inl h2
        · left; unfold tab; rw [h1]; simp only [tableOp]; rw [if_neg (Ne.symm hn)]
      | insert n k' p' =>
        by_cases hn : n = name
        · subst hn
          have h2 := own_insert (ser := ser) hr n k' p' k
          by_cases hk : k = k'
          · subst hk; exact .inr (.inl ⟨m, p', rfl⟩)
          · rw [if_neg hk] at h2; exact .inl h2
        · left; unfold tab; rw [h1]; simp only [tableOp]; rw [if_neg (Ne.symm hn)]
      | removeIf n k' p' =>
        by_cases hn : n = name
        · subst hn
          have h2 := own_removeIf (ser := ser) hr n k' p' k
          by_cases hk : k = k' ∧ tab n w k' = some p'
          · rw [if_pos hk] at h2
            obtain ⟨rfl, hk⟩ := hk
            exact .inr (.inr ⟨h2, m, .inr (.inr ⟨p', hk, rfl⟩)⟩)
          · rw [if_neg hk] at h2; exact .inl h2
        · left; unfold tab; rw [h1]; simp only [tableOp]; rw [if_neg (Ne.symm hn)]
      | take n =>
        by_cases hn : n = name
        · subst hn
          refine .inr (.inr ⟨?_, m, .inr (.inl rfl)⟩)
          unfold tab; rw [h1]; simp [tableOp]
        · left; unfold tab; rw [h1]; simp only [tableOp]; rw [if_neg (Ne.symm hn)]
      | _ => left; unfold tab; rw [h1]; rfl
  · left
    unfold tab
    rw [tables_step ser w o (fun m t h => ht ⟨m, t, h⟩)]

/-- A free key stays free as long as nobody puts a process under it. -/
theorem tab_free {ser : V → B} {name : String} {k : RKey} {os : List (Op B V)} : ∀ {w : World B V}, (∀ o ∈ os, ¬ Inserts name o) → tab name w k = none →
    tab name (run ser w os) k = none := by
  induction os with
  | nil => exact fun _ h => h
  | cons o os ih =>
    intro w h hn
    rw [run_cons]
    refine ih (fun o' ho' => h o' (.tail _ ho')) ?_
    rcases tab_step ser name w o k with h1 | ⟨m, p, rfl⟩ | ⟨h1, -⟩
    · rw [h1, hn]
    · exact absurd ⟨m, k, p, rfl⟩ (h _ List.mem_cons_self)
    · exact h1

/-- In the program, a process is put only under keys that are free, provided the others put none. -/
def Guards (ser : V → B) (s : Nat) (name : String) (p : Prog B V R) : Prop :=
  ∀ w os r, Reachable ser w → Exec ser s w p os r → (∀ o ∈ os, Inserts name o → o.caller = some s) →
    ∀ a m k q b, os = a ++ .table m (.insert name k q) :: b → tab name (run ser w a) k = none

theorem guards_mute {ser : V → B} {s : Nat} {name : String} {p : Prog B V R} (h : Mute ser s (Inserts name) p) : Guards ser s name p := by
  intro w os r _ hx ho a m k q b he
  have hm : Op.table m (.insert name k q) ∈ os := by rw [he]; simp
  exact absurd ⟨m, k, q, rfl⟩ (h _ _ _ hx _ hm (ho _ hm ⟨m, k, q, rfl⟩))

theorem guards_ret {ser : V → B} {s : Nat} {name : String} (r : R) : Guards ser s name (.ret r : Prog B V R) :=
  guards_mute fun _ _ _ h o ho hc => absurd hc ((exec_ret_inv h).2 o ho).1

theorem guards_seq {ser : V → B} {name : String} {w : World B V} {os1 os2 : List (Op B V)}
    (h1 : ∀ a m k q b, os1 = a ++ .table m (.insert name k q) :: b → tab name (run ser w a) k = none)
    (h2 : ∀ a m k q b, os2 = a ++ .table m (.insert name k q) :: b → tab name (run ser (run ser w os1) a) k = none) :
    ∀ a m k q b, os1 ++ os2 = a ++ .table m (.insert name k q) :: b → tab name (run ser w a) k = none := by
  intro a m k q b he
  rcases List.append_eq_append_iff.1 he with ⟨c, rfl, hc⟩ | ⟨c, rfl, hc⟩
  · rw [run_append]; exact h2 _ _ _ _ _ hc
  · cases c with
    | nil =>
      rw [List.append_nil] at h2
      have := h2 [] m k q b (by simpa using hc.symm)
      simpa [run] using this
    | cons x c =>
      simp only [List.cons_append, List.cons.injEq] at hc
      obtain ⟨rfl, rfl⟩ := hc
      exact h1 _ _ _ _ _ rfl

theorem guards_bind {ser : V → B} {s : Nat} {name : String} {R' : Type} {p : Prog B V R} {k : R → Prog B V R'} (hp : Guards ser s name p)
    (hk : ∀ r, Guards ser s name (k r)) : Guards ser s name (p.bind k) := by
  intro w os r hre h ho
  obtain ⟨os1, os2, r', rfl, h1, h2⟩ := exec_bind_inv h
  exact guards_seq (hp _ _ _ hre h1 fun o hm => ho o (List.mem_append_left _ hm))
    (hk _ _ _ _ (reach_run hre os1) h2 fun o hm => ho o (List.mem_append_right _ hm))

theorem guards_none {ser : V → B} {s : Nat} {name : String} {w : World B V} {os : List (Op B V)} (h : ∀ o ∈ os, o.caller = some s → ¬ Inserts name o)
    (ho : ∀ o ∈ os, Inserts name o → o.caller = some s) :
    ∀ a m k q b, os = a ++ .table m (.insert name k q) :: b → tab name (run ser w a) k = none := by
  intro a m k q b he
  have hm : Op.table m (.insert name k q) ∈ os := by rw [he]; simp
  exact absurd ⟨m, k, q, rfl⟩ (h _ hm (ho _ hm ⟨m, k, q, rfl⟩))

theorem guards_op {ser : V → B} {s : Nat} {name : String} {x : Op B V} {k : Res → Prog B V R} (hx : ¬ Inserts name x)
    (hk : ∀ r, Guards ser s name (k r)) : Guards ser s name (.op x k) := by
  intro w os r hre h ho
  obtain ⟨os1, os2, rfl, h1, -, h2⟩ := exec_op_inv h
  have e : os1 ++ x :: os2 = (os1 ++ [x]) ++ os2 := by simp
  rw [e] at ho ⊢
  refine guards_seq (guards_none ?_ fun o hm => ho o (List.mem_append_left _ hm)) ?_
  · intro o hm hc
    rcases List.mem_append.1 hm with hm | hm
    · exact absurd hc (h1 o hm).1
    · simp at hm; subst hm; exact hx
  · have e2 : run ser w (os1 ++ [x]) = (step ser (run ser w os1) x).1 := by rw [run_append]; rfl
    rw [e2]
    exact hk _ _ _ _ (reach_step (reach_run hre os1) x) h2 fun o hm => ho o (List.mem_append_right _ hm)

theorem guards_wait {ser : V → B} {s : Nat} {name : String} {kind : RecvKind} {x : RecvOp B V} {p : Option (Prog B V R)} {k : Msg x.T → Prog B V R}
    (hp : ∀ p', p = some p' → Guards ser s name p') (hk : ∀ r, Guards ser s name (k r)) : Guards ser s name (.wait kind x p k) := by
  intro w os r hre h ho
  obtain ⟨os1, os2, rfl, h1, h2⟩ := exec_wait_inv h
  have g1 : ∀ o ∈ os1, o.caller = some s → ¬ Inserts name o := by
    rintro o hm hc ⟨m, k, q, rfl⟩
    rcases h1 _ hm with h | ⟨k, h⟩
    · exact h.1 hc
    · cases h
  rcases h2 with ⟨kind, m, os3, -, rfl, -, h3⟩ | ⟨p', rfl, h3⟩
  · have e : os1 ++ .recv s x kind :: os3 = (os1 ++ [.recv s x kind]) ++ os3 := by simp
    rw [e] at ho ⊢
    refine guards_seq (guards_none ?_ fun o hm => ho o (List.mem_append_left _ hm)) ?_
    · intro o hm hc
      rcases List.mem_append.1 hm with hm | hm
      · exact g1 o hm hc
      · simp at hm; subst hm; rintro ⟨m, k, q, h⟩; cases h
    · have e2 : run ser w (os1 ++ [.recv s x kind]) = (step ser (run ser w os1) (.recv s x kind)).1 := by rw [run_append]; rfl
      rw [e2]
      exact hk _ _ _ _ (reach_step (reach_run hre os1) _) h3 fun o hm => ho o (List.mem_append_right _ hm)
  · exact guards_seq (guards_none g1 fun o hm => ho o (List.mem_append_left _ hm))
      (hp _ rfl _ _ _ (reach_run hre os1) h3 fun o hm => ho o (List.mem_append_right _ hm))

/-- What a start at the registry does to the table. -/
theorem start_moments {ser : V → B} {c : RegConf B V} {s : Nat} {w : World B V} {σ : Lookup} {k : RKey} {E : List (Op B V)} {q : Lookup × Except RError Pid}
    (hre : Reachable ser w) (hst : ∀ f k, c.start = some f → Mute ser s (Inserts c.name) (f k)) (hx : Exec ser s w (startByKey c s σ k) E q)
    (ho : ∀ o ∈ E, Inserts c.name o → o.caller = some s) :
    (∃ p E1 E2, q.2 = .error (.alreadyStarted p) ∧ E = E1 ++ .table s (.lookup c.name k) :: E2 ∧ tab c.name (run ser w E1) k = some p ∧
      ∀ o ∈ E, ¬ Inserts c.name o) ∨
    (∃ E1 E2, E = E1 ++ .table s (.lookup c.name k) :: E2 ∧ tab c.name (run ser w E1) k = none ∧
      ((∃ e, q.2 = .error (.startError e) ∧ ∀ o ∈ E, ¬ Inserts c.name o) ∨
       ∃ p E3 E4, q.2 = .ok p ∧ E2 = E3 ++ .table s (.insert c.name k p) :: E4 ∧ tab c.name (run ser w (E1 ++ .table s (.lookup c.name k) :: E3)) k = none ∧
        running (run ser w (E1 ++ .table s (.lookup c.name k) :: E3)) s = true ∧ (∀ o ∈ E1 ++ .table s (.lookup c.name k) :: E3, ¬ Inserts c.name o) ∧
        ∀ o ∈ E4, ¬ Inserts c.name o)) := by
  have oth : ∀ {l : List (Op B V)}, (∀ o ∈ l, Others s o) → (∀ o ∈ l, o ∈ E) → ∀ o ∈ l, ¬ Inserts c.name o :=
    fun h1 h2 o hm hi => (h1 o hm).1 (ho o (h2 o hm) hi)
  have nl : ∀ k', ¬ Inserts c.name (.table s (.lookup c.name k') : Op B V) := by rintro k' ⟨m, k, p, h⟩; cases h
  obtain ⟨os1, os2, r, rfl, h1, h2⟩ := exec_bind_inv hx
  obtain ⟨E1, E2, rfl, o1, o2, rfl⟩ := lookup_exec h1
  have p1 : ∀ o ∈ E1 ++ .table s (.lookup c.name k) :: E2, ¬ Inserts c.name o := by
    intro o hm
    rcases List.mem_append.1 hm with hm | hm
    · exact oth o1 (fun o h => by simp [h]) o hm
    · rcases List.mem_cons.1 hm with rfl | hm
      · exact nl k
      · exact oth o2 (fun o h => by simp [h]) o hm
  cases ht : tab c.name (run ser w E1) k with
  | some p =>
    rw [ht] at h2
    obtain ⟨rfl, o3⟩ := exec_ret_inv h2
    refine .inl ⟨p, E1, E2 ++ os2, rfl, by simp, ht, ?_⟩
    intro o hm
    rcases List.mem_append.1 hm with hm | hm
    · exact p1 o hm
    · exact oth o3 (fun o h => by simp [h]) o hm
  | none =>
    rw [ht] at h2
    dsimp only at h2
    cases hc : c.start with
    | none => rw [hc] at h2; exact (panics_never (reach_run hre _) h2).elim
    | some f =>
      rw [hc] at h2
      obtain ⟨os3, os4, r, rfl, h3, h4⟩ := exec_bind_inv h2
      have hm := hst f k hc
      have p3 : ∀ o ∈ os3, ¬ Inserts c.name o := fun o hm' hi => hm _ _ _ h3 o hm' (ho o (by simp [hm']) hi) hi
      have p5 : ∀ {l : List (Op B V)}, (∀ o ∈ l, Others s o) → (∀ o ∈ l, o ∈ os4) → ∀ o ∈ (E1 ++ .table s (.lookup c.name k) :: E2) ++ (os3 ++ l), ¬ Inserts c.name o := by
        intro l h1 h2 o hm
        rcases List.mem_append.1 hm with hm | hm
        · exact p1 o hm
        · rcases List.mem_append.1 hm with hm | hm
          · exact p3 o hm
          · exact oth h1 (fun o h => by simp [h2 o h]) o hm
      refine .inr ⟨E1, E2 ++ (os3 ++ os4), by simp, ht, ?_⟩
      cases r with
      | error e =>
        obtain ⟨rfl, o4⟩ := exec_ret_inv h4
        exact .inl ⟨e, rfl, p5 o4 (fun o h => h)⟩
      | ok p =>
        obtain ⟨os5, os6, rfl, o5, hr, h6⟩ := exec_op_inv h4
        obtain ⟨rfl, o6⟩ := exec_ret_inv h6
        have hp := p5 o5 (fun o h => by simp [h])
        have e1 : E1 ++ .table s (.lookup c.name k) :: (E2 ++ (os3 ++ os5)) = (E1 ++ .table s (.lookup c.name k) :: E2) ++ (os3 ++ os5) := by simp
        refine .inr ⟨p, E2 ++ (os3 ++ os5), os6, rfl, by simp, ?_, ?_, by rw [e1]; exact hp, oth o6 fun o h => by simp [h]⟩
        · rw [run_append]
          refine tab_free (fun o hm => ?_) ht
          rw [← e1] at hp
          exact hp o (List.mem_append_right _ hm)
        · rw [e1, run_append, run_append]; exact hr

theorem guards_start {ser : V → B} {c : RegConf B V} {s : Nat} (hst : ∀ f k, c.start = some f → Mute ser s (Inserts c.name) (f k)) (σ : Lookup) (k : RKey) :
    Guards ser s c.name (startByKey c s σ k) := by
  intro w os r hre hx ho a m k' q b he
  have hm : Op.table m (.insert c.name k' q) ∈ os := by rw [he]; simp
  rcases start_moments hre hst hx ho with ⟨_, _, _, -, -, -, h⟩ | ⟨E1, E2, rfl, -, ⟨_, -, h⟩ | ⟨p, E3, E4, -, rfl, h1, -, h2, h3⟩⟩
  · exact absurd ⟨m, k', q, rfl⟩ (h _ hm)
  · exact absurd ⟨m, k', q, rfl⟩ (h _ hm)
  · have e : E1 ++ .table s (.lookup c.name k) :: (E3 ++ .table s (.insert c.name k p) :: E4) =
        (E1 ++ .table s (.lookup c.name k) :: E3) ++ .table s (.insert c.name k p) :: E4 := by simp
    rw [e] at he
    obtain ⟨a', rfl, h4⟩ := append_past he (fun hm => h2 _ hm ⟨m, k', q, rfl⟩)
    cases a' with
    | nil =>
      simp only [List.nil_append, List.cons.injEq, Op.table.injEq, TOp.insert.injEq, true_and] at h4
      obtain ⟨⟨-, rfl, -⟩, -⟩ := h4
      rw [List.append_nil]; exact h1
    | cons x a' =>
      simp only [List.cons_append, List.cons.injEq] at h4
      exact absurd ⟨m, k', q, rfl⟩ (h3 (.table m (.insert c.name k' q)) (by rw [h4.2]; simp))

theorem mute_op {ser : V → B} {s : Nat} {Q : Op B V → Prop} {x : Op B V} {k : Res → Prog B V R} (hx : ¬ Q x) (hk : ∀ r, Mute ser s Q (k r)) :
    Mute ser s Q (.op x k) := by
  intro w os r h o ho hc
  obtain ⟨os1, os2, rfl, h1, -, h2⟩ := exec_op_inv h
  rcases List.mem_append.1 ho with hm | hm
  · exact absurd hc (h1 o hm).1
  · rcases List.mem_cons.1 hm with rfl | hm
    · exact hx
    · exact hk _ _ _ _ h2 o hm hc

/-- Every callback of the registry. -/
theorem guards_server {ser : V → B} {c : RegConf B V} {u : RecvType B V Unit} {s : Nat} (hst : ∀ f k, c.start = some f → Mute ser s (Inserts c.name) (f k)) :
    (∀ σ m, Guards ser s c.name ((registryServer c u s).cast σ m)) ∧ (∀ σ m frm, Guards ser s c.name ((registryServer c u s).call σ m frm)) ∧
    (∀ σ m, Guards ser s c.name ((registryServer c u s).info σ m)) ∧ ∀ σ r, Guards ser s c.name ((registryServer c u s).terminate σ r) := by
  have ni : ∀ {x : Op B V}, (∀ m k p, x ≠ .table m (.insert c.name k p)) → ¬ Inserts c.name x := fun h ⟨m, k, p, he⟩ => h m k p he
  have hu : ∀ {R : Type} {p : Pid} {k : Res → Prog B V R}, (∀ r, Guards ser s c.name (k r)) → Guards ser s c.name (.op (.unlink s p) k) :=
    fun hk => guards_op (ni (by simp)) hk
  have hl : ∀ k, Guards ser s c.name (lookupProg s c.name k) := fun k => guards_op (ni (by simp)) fun _ => guards_ret _
  have hrm : ∀ k, Guards ser s c.name (removeProg s c.name k) := fun k => guards_op (ni (by simp)) fun _ => guards_ret _
  have hkill : ∀ {R : Type} {k : Prog B V R}, Guards ser s c.name k → ∀ ps, Guards ser s c.name (killAll s ps k) := by
    intro R k hk ps
    induction ps with
    | nil => exact hk
    | cons p ps ih => exact hu fun _ => guards_op (ni (by simp)) fun _ => ih
  have hd : ∀ {R : Type} {σ : Lookup} {k : Prog B V R}, Guards ser s c.name k → Guards ser s c.name (registryDrop c s σ k) :=
    fun hk => guards_op (ni (by simp)) fun _ => hkill hk _
  have hp : ∀ {R : Type} {σ : Lookup} {dead : R}, Guards ser s c.name (registryPanics c s σ dead) :=
    hd (guards_op (ni (by simp)) fun _ => guards_op (ni (by simp)) fun _ => guards_ret _)
  have hflush : ∀ p, Guards ser s c.name (unlinkFlush u s p) := fun p => guards_op (ni (by simp)) fun _ => guards_op (ni (by simp)) fun _ => guards_ret _
  have hbk : ∀ p m, Guards ser s c.name (brutalKill u s p m) :=
    fun p m => guards_op (ni (by simp)) fun _ => guards_wait (by simp) fun _ => hflush p
  have hsw : ∀ p m mode, Guards ser s c.name (shutdownWith u s p m mode) := by
    intro p m mode
    cases mode with
    | brutalKill => exact hbk _ _
    | duration =>
      refine guards_op (ni (by simp)) fun _ => guards_wait ?_ fun _ => hflush p
      intro p' h; cases h; exact hbk _ _
    | infinity => exact guards_op (ni (by simp)) fun _ => guards_wait (by simp) fun _ => hflush p
  refine ⟨?_, ?_, ?_, ?_⟩
  · intro σ m
    cases m with
    | removeLookup p => exact hu fun _ => guards_ret _
    | _ => exact hp
  · intro σ m frm
    cases m with
    | lookup k => exact guards_bind (hl k) fun _ => guards_ret _
    | lookupOrStart k =>
      refine guards_bind (guards_bind (hl k) fun r => ?_) fun _ => guards_ret _
      cases r with
      | some p => exact guards_ret _
      | none => exact guards_start hst _ _
    | start k => exact guards_bind (guards_start hst _ _) fun _ => guards_ret _
    | stop k =>
      refine guards_bind (guards_bind (hl k) fun r => ?_) fun _ => guards_ret _
      cases r with
      | none => exact guards_ret _
      | some p => exact hu fun _ => guards_op (ni (by simp)) fun _ => guards_bind (hrm k) fun _ => guards_ret _
    | count => exact guards_bind (guards_op (ni (by simp)) fun _ => guards_ret _) fun _ => guards_ret _
    | list => exact guards_bind (guards_op (ni (by simp)) fun _ => guards_ret _) fun _ => guards_ret _
    | remove k =>
      refine guards_bind (guards_bind (hrm k) fun r => ?_) fun _ => guards_ret _
      cases r with
      | none => exact guards_ret _
      | some p => exact hu fun _ => guards_ret _
    | _ => exact hp
  · intro σ m
    show Guards ser s c.name (registryInfo c s σ m)
    unfold registryInfo
    split
    · refine guards_bind ?_ fun _ => guards_ret _
      unfold removePid
      split
      · exact guards_ret _
      · exact guards_op (ni (by simp)) fun _ => guards_ret _
    · exact guards_ret _
  · intro σ r
    refine guards_bind ?_ fun _ => hd (guards_ret _)
    unfold terminateChildren
    split
    · exact guards_ret _
    · refine guards_op (ni (by simp)) fun r => ?_
      have haw : ∀ mode ms, Guards ser s c.name (awaitChildren u s mode ms (.ret [] : Prog B V Lookup)) := by
        intro mode ms
        induction ms with
        | nil => exact guards_ret _
        | cons x ms ih => exact guards_bind (hsw _ _ _) fun _ => ih
      have hex : ∀ mode e (σ : Lookup) ms, Guards ser s c.name (exitChildren s e σ ms fun ms => awaitChildren u s mode ms (.ret [] : Prog B V Lookup)) := by
        intro mode e σ
        induction σ with
        | nil => exact fun ms => haw _ ms
        | cons x σ ih =>
          intro ms
          unfold exitChildren
          split
          · exact guards_op (ni (by simp)) fun _ => guards_op (ni (by simp)) fun _ => ih _
          · exact ih _
      split
      · exact hex _ _ _ _
      · exact guards_ret _

theorem guards_loop {ser : V → B} {c : RegConf B V} {u : RecvType B V Unit} {τ : RecvType B V (GMsg RMsg)} {s : Nat} {parent : Pid}
    (hst : ∀ f k, c.start = some f → Mute ser s (Inserts c.name) (f k)) (n : Nat) :
    ∀ σ, Guards ser s c.name (serverLoop (registryServer c u s) τ s parent n σ) := by
  have ni : ∀ {x : Op B V}, (∀ m k p, x ≠ .table m (.insert c.name k p)) → ¬ Inserts c.name x := fun h ⟨m, k, p, he⟩ => h m k p he
  obtain ⟨h1, h2, h3, h4⟩ := guards_server (u := u) hst
  induction n with
  | zero => exact fun σ => guards_ret _
  | succ n ih =>
    intro σ
    rw [serverLoop_succ]
    refine guards_wait (by simp) fun m => ?_
    have hf : ∀ σ r done, Guards ser s c.name (finishServer (registryServer c u s) s σ r done) := fun σ r done =>
      guards_bind (h4 σ r) fun _ => guards_op (ni (by simp)) fun _ => guards_op (ni (by simp)) fun _ => guards_ret _
    have ha : ∀ r σ', Guards ser s c.name (afterCallback (registryServer c u s) s r (serverLoop (registryServer c u s) τ s parent n σ')) := by
      intro r σ'
      unfold afterCallback
      split
      · exact guards_bind (ih _) fun _ => guards_ret _
      · exact hf _ _ _
    simp only [roundOf]
    match m with
    | .user (.cast x) => exact guards_bind (h1 _ _) fun q => ha _ _
    | .user (.callReply _ x) => exact guards_bind (h3 _ _) fun q => ha _ _
    | .user (.stop r) => exact hf _ _ _
    | .system (.exit p r) =>
      dsimp only
      split
      · exact hf _ _ _
      · exact guards_bind (h3 _ _) fun q => ha _ _
    | .system (.processDown d r e) => exact guards_bind (h3 _ _) fun q => ha _ _
    | .system (.nodeDown d r) => exact guards_bind (h3 _ _) fun q => ha _ _
    | .user (.call frm x) =>
      refine guards_bind (h2 _ _ _) fun q => ?_
      split
      · exact guards_op (ni (by simp [replyOp])) fun _ => ha _ _
      · exact ha _ _

theorem mem_place {A : Type _} {G hs os : List A} {o : A} (hp : hs ++ os <+: G) (hm : o ∈ os) : ∃ a b, G = a ++ o :: b := by
  obtain ⟨z, hz⟩ := hp
  obtain ⟨x, y, rfl⟩ := List.append_of_mem hm
  exact ⟨hs ++ x, y ++ z, by rw [← hz]; simp⟩

/-- In the whole history a process is put only under a free key. -/
theorem insert_free {ser : V → B} {c : RegConf B V} {u : RecvType B V Unit} {τ : RecvType B V (GMsg RMsg)} {s : Nat} {parent : Pid} {G hs os : List (Op B V)}
    {σ : Lookup} {n : Nat} {l : Log RMsg Lookup} (hsv : RegServes ser c u τ s parent G hs os σ n l) {a : List (Op B V)} {m : Nat} {k : RKey} {q : Pid}
    {b : List (Op B V)} (hG : G = a ++ .table m (.insert c.name k q) :: b) : tab c.name (run ser init a) k = none := by
  obtain ⟨-, h2, h3⟩ := hsv.only _ _ _ hG ⟨m, k, q, rfl⟩
  obtain ⟨z, hz⟩ := hsv.serves.part
  have h4 : hs <+: a := List.prefix_of_prefix_length_le (l₃ := G) ⟨os ++ z, by rw [← hz]; simp⟩ ⟨_, hG.symm⟩ h2
  obtain ⟨a', rfl⟩ := h4
  have h5 : os ++ z = a' ++ .table m (.insert c.name k q) :: b := by
    rw [← hz, List.append_assoc, List.append_assoc] at hG
    exact List.append_cancel_left hG
  have h6 : a' ++ [.table m (.insert c.name k q)] <+: os :=
    List.prefix_of_prefix_length_le (l₃ := os ++ z) ⟨b, by rw [h5]; simp⟩ (List.prefix_append ..) (by simp at h3 ⊢; omega)
  obtain ⟨b', hb'⟩ := h6
  rw [run_append]
  refine guards_loop hsv.routine n σ _ _ _ ⟨hs, rfl⟩ hsv.serves.loop (fun o hm hi => ?_) a' m k q b' (by rw [← hb']; simp)
  obtain ⟨x, y, hxy⟩ := mem_place hsv.serves.part hm
  exact (hsv.only _ _ _ hxy hi).1

/-- A key keeps its process until it is freed. -/
theorem key_kept {ser : V → B} {c : RegConf B V} {u : RecvType B V Unit} {τ : RecvType B V (GMsg RMsg)} {s : Nat} {parent : Pid} {G hs os : List (Op B V)}
    {σ : Lookup} {n : Nat} {l : Log RMsg Lookup} (hsv : RegServes ser c u τ s parent G hs os σ n l) {k : RKey} {p : Pid} (Z : List (Op B V)) :
    ∀ {A C : List (Op B V)}, G = A ++ (Z ++ C) → tab c.name (run ser init A) k = some p → (∀ o ∈ Z, ¬ Frees c.name k p o) →
      tab c.name (run ser init (A ++ Z)) k = some p := by
  induction Z with
  | nil => intro A C _ h _; rw [List.append_nil]; exact h
  | cons o Z ih =>
    intro A C hG hk hn
    have e : A ++ o :: Z = (A ++ [o]) ++ Z := by simp
    rw [e]
    refine ih (C := C) (by rw [hG]; simp) ?_ fun o' ho' => hn o' (.tail _ ho')
    rw [run_append]
    show tab c.name (step ser (run ser init A) o).1 k = some p
    rcases tab_step ser c.name (run ser init A) o k with h | ⟨m, q, rfl⟩ | ⟨-, m, h⟩
    · rw [h, hk]
    · have := insert_free hsv (a := A) (b := Z ++ C) (m := m) (k := k) (q := q) hG
      rw [this] at hk; cases hk
    · refine absurd ⟨m, ?_⟩ (hn o List.mem_cons_self)
      rcases h with h | h | ⟨p', h1, h2⟩
      · exact .inl h
      · exact .inr (.inr h)
      · rw [hk] at h1; cases h1; exact .inr (.inl h2)

/-- A part of what a function does, with its call, is not forged either. -/
theorem unforged_sub {ser : V → B} {τ : RecvType B V (GMsg RMsg)} {s : Nat} {G hs os pre o1 ops o2 : List (Op B V)} {me t : Nat}
    (hp : pre ++ (o1 ++ (ops ++ o2)) <+: G) (h1 : ∀ o ∈ o1, o.caller = some me → ∀ it, ¬ SentBy ser o it) (h2 : ∀ o ∈ o2, o.caller = some me → ∀ it, ¬ SentBy ser o it)
    (h : Unforged ser τ s G hs os pre (o1 ++ (ops ++ o2)) me t) : Unforged ser τ s G hs os (pre ++ o1) ops me t := by
  refine ⟨?_, h.reply⟩
  intro a x b it frm y hG hs hr ht
  obtain ⟨g1, g2, g3⟩ := h.request a x b it frm y hG hs hr ht
  obtain ⟨z, hz⟩ := hp
  have hget : (o1 ++ (ops ++ o2))[a.length - pre.length]? = some x := by
    have h1 : G[a.length]? = some x := by rw [hG]; simp
    rw [← hz, List.append_assoc, List.getElem?_append_right g2, List.getElem?_append_left (by omega)] at h1
    exact h1
  refine ⟨g1, ?_, ?_⟩
  · rcases Nat.lt_or_ge (a.length - pre.length) o1.length with hlt | hge
    · rw [List.getElem?_append_left hlt] at hget
      exact absurd hs (h1 x (List.mem_of_getElem? hget) g1 it)
    · simp; omega
  · rcases Nat.lt_or_ge (a.length - pre.length) (o1 ++ ops).length with hlt | hge
    · simp at hlt ⊢; omega
    · rw [← List.append_assoc, List.getElem?_append_right hge] at hget
      exact absurd hs (h2 x (List.mem_of_getElem? hget) g1 it)

/-- The request of a function, at the registry. -/
theorem asked_handled {X : Type} {ser : V → B} {c : RegConf B V} {u : RecvType B V Unit} {τ : RecvType B V (GMsg RMsg)} {s : Nat} {parent : Pid} {G hs os : List (Op B V)}
    {σ : Lookup} {n : Nat} {l : Log RMsg Lookup} (hf : Faithful ser τ) (hcoh : Coherent τ G) (hfor : NoForgery ser τ G) (hsv : RegServes ser c u τ s parent G hs os σ n l)
    {pre o1 ops : List (Op B V)} {me : Nat} {d : Dest} {m : RMsg} {f : RMsg → Option (Except RError X)} {r : Except RError X}
    (hp : pre ++ (o1 ++ ops) <+: G) (h1 : ∀ o ∈ o1, o.caller = some me → ∀ it, ¬ SentBy ser o it)
    (hu : ∀ os1 os2 t, o1 ++ ops = os1 ++ callMon me d :: os2 → t = (run ser init (pre ++ os1)).nextRef → Unforged ser τ s G hs os pre (o1 ++ ops) me t)
    (hx : Exec ser me (run ser init (pre ++ o1)) ((callProg τ me d m).bind (answered f me)) ops r) (hr : ∀ e, r ≠ .error (.callError e)) :
    ∃ A E σ1 σ2 x, A ++ E <+: G ∧ pre.length < A.length ∧ (A ++ E).length < (pre ++ (o1 ++ ops)).length ∧ f x = some r ∧
      Exec ser s (run ser init A) (registryCall c s σ1 m) E (σ2, .ok (some x)) ∧
      ∃ t e C a b, G = A ++ (E ++ (e ++ replyOp τ s (callFrom me d t) x :: C)) ∧ (∀ o ∈ e, Others s o) ∧
        HandledIn ser (registryServer c u s) s G A E σ1 m (callFrom me d t) σ2 x ∧ G = a ++ callMon me d :: b ∧ running (run ser init a) me = true ∧
        t = (run ser init a).nextRef := by
  obtain ⟨ops1, ops2, x, rfl, h3, h4⟩ := exec_bind_inv hx
  cases x with
  | error e => exact absurd (exec_ret_inv h4).1 (hr e)
  | ok x =>
    simp only [answered] at h4
    cases hfx : f x with
    | none =>
      simp only [hfx] at h4
      exact (panic_never (reach_run ⟨pre ++ o1, rfl⟩ ops1) h4).elim
    | some y =>
      simp only [hfx] at h4
      obtain ⟨rfl, ho⟩ := exec_ret_inv h4
      obtain ⟨p1, p2, p3, he, hp1, -⟩ := call_sends h3
      rw [← run_append] at he
      have hU := hu (o1 ++ p1) (p2 ++ request τ me d (.loc (run ser init (pre ++ o1 ++ p1)).nextRef) m :: p3 ++ ops2) _ (by rw [he]; simp) rfl
      have hU := unforged_sub hp h1 (fun o hm hc => absurd hc (ho o hm).1) hU
      have hC : Called ser τ G (pre ++ o1) ops1 me d m x (run ser init (pre ++ (o1 ++ p1))).nextRef := by
        refine ⟨?_, h3, p1, _, he, hp1, by simp⟩
        obtain ⟨z, hz⟩ := hp
        exact ⟨ops2 ++ z, by rw [← hz]; simp⟩
      obtain ⟨A, E, e, C, σ1, σ2, hG, hH, g1, g2, g3, -⟩ := call_handled (registry_returns hsv.silent) hcoh hfor hf hsv.serves hC hU
      obtain ⟨b, hb⟩ : ∃ b, G = (pre ++ (o1 ++ p1)) ++ callMon me d :: b := by
        obtain ⟨z, hz⟩ := hp
        exact ⟨p2 ++ request τ me d (.loc (run ser init (pre ++ o1 ++ p1)).nextRef) m :: p3 ++ ops2 ++ z, by rw [← hz, he]; simp⟩
      refine ⟨A, E, σ1, σ2, x, hH.part, ?_, ?_, hfx, hH.run, _, e, C, pre ++ (o1 ++ p1), b, hG, g3, hH, hb, ?_, rfl⟩
      · simp at g1; omega
      · simp at g2 ⊢; omega
      · unfold callProg at h3
        rw [callMon_eq] at h3
        obtain ⟨p1', p4, he', hp1', hrun, -⟩ := exec_op_inv h3
        have hcal : (callMon me d : Op B V).caller = some me := by unfold callMon; split <;> rfl
        have : p1' = p1 := by
          rw [he] at he'
          obtain ⟨z, hz1, hz2⟩ := append_past he' (fun hm => (hp1 _ hm).1 hcal)
          cases z with
          | nil => simpa using hz1
          | cons y z =>
            simp only [List.cons_append, List.cons.injEq] at hz2
            exact absurd hcal (hp1' _ (by rw [hz1, hz2.1]; simp)).1
        rw [this, ← run_append, List.append_assoc] at hrun
        exact hrun

/-- The request of a function, at the registry. -/
theorem asked_inside {X : Type} {ser : V → B} {c : RegConf B V} {u : RecvType B V Unit} {τ : RecvType B V (GMsg RMsg)} {s : Nat} {parent : Pid} {G hs os : List (Op B V)}
    {σ : Lookup} {n : Nat} {l : Log RMsg Lookup} (hf : Faithful ser τ) (hcoh : Coherent τ G) (hfor : NoForgery ser τ G) (hsv : RegServes ser c u τ s parent G hs os σ n l)
    {pre o1 ops : List (Op B V)} {me : Nat} {d : Dest} {m : RMsg} {f : RMsg → Option (Except RError X)} {r : Except RError X}
    (hp : pre ++ (o1 ++ ops) <+: G) (h1 : ∀ o ∈ o1, o.caller = some me → ∀ it, ¬ SentBy ser o it)
    (hu : ∀ os1 os2 t, o1 ++ ops = os1 ++ callMon me d :: os2 → t = (run ser init (pre ++ os1)).nextRef → Unforged ser τ s G hs os pre (o1 ++ ops) me t)
    (hx : Exec ser me (run ser init (pre ++ o1)) ((callProg τ me d m).bind (answered f me)) ops r) (hr : ∀ e, r ≠ .error (.callError e)) :
    ∃ A E σ1 σ2 x, A ++ E <+: G ∧ pre.length < A.length ∧ (A ++ E).length < (pre ++ (o1 ++ ops)).length ∧ f x = some r ∧
      Exec ser s (run ser init A) (registryCall c s σ1 m) E (σ2, .ok (some x)) := by
  obtain ⟨A, E, σ1, σ2, x, h1, h2, h3, h4, h5, -⟩ := asked_handled hf hcoh hfor hsv hp h1 hu hx hr
  exact ⟨A, E, σ1, σ2, x, h1, h2, h3, h4, h5⟩

theorem count_exec {ser : V → B} {me : Nat} {w : World B V} {n : String} {os : List (Op B V)} {r : Nat} (hre : Reachable ser w)
    (hx : Exec ser me w (countProg me n) os r) : ∃ os1 os2 l, os = os1 ++ .table me (.count n) :: os2 ∧ r = l.length ∧ Keys.Listed (tab n (run ser w os1)) l := by
  obtain ⟨os3, os4, rfl, -, hr, h1⟩ := exec_op_inv hx
  rw [(tables_table ser _ me _ hr).2] at h1
  obtain ⟨rfl, -⟩ := exec_ret_inv h1
  refine ⟨os3, os4, _, rfl, ?_, lists_table (reach_run hre os3) n⟩
  simp only [tableOp]
  cases (run ser w os3).tables n <;> rfl

theorem list_exec {ser : V → B} {me : Nat} {w : World B V} {n : String} {os : List (Op B V)} {r : Entries} (hre : Reachable ser w)
    (hx : Exec ser me w (listProg me n) os r) : ∃ os1 os2, os = os1 ++ .table me (.list n) :: os2 ∧ Keys.Listed (tab n (run ser w os1)) r := by
  obtain ⟨os3, os4, rfl, -, hr, h1⟩ := exec_op_inv hx
  rw [(tables_table ser _ me _ hr).2] at h1
  obtain ⟨rfl, -⟩ := exec_ret_inv h1
  exact ⟨os3, os4, rfl, lists_table (reach_run hre os3) n⟩

/-- The function acts somewhere in `E`, by an operation of `m`. -/
def ActsIn (ser : V → B) (m : Nat) (name : String) (w : World B V) (E : List (Op B V)) (q : RAsk) (r : Except RError q.Out) : Prop :=
  ∃ E1 o E2, E = E1 ++ o :: E2 ∧ o.caller = some m ∧ q.Effect r (tab name (run ser w E1)) (tab name (run ser w (E1 ++ [o])))

theorem acts_same {ser : V → B} {name : String} {w : World B V} {E1 E2 : List (Op B V)} {m : Nat} {t : TOp} {q : RAsk} {r : Except RError q.Out}
    (ht : match t with | .lookup _ _ => True | .count _ => True | .list _ => True | _ => False)
    (h : q.Effect r (tab name (run ser w E1)) (tab name (run ser w E1))) : ActsIn ser m name w (E1 ++ .table m t :: E2) q r := by
  refine ⟨E1, _, E2, rfl, rfl, ?_⟩
  have : tab name (run ser w (E1 ++ [.table m t])) = tab name (run ser w E1) := by
    funext k
    rw [run_append]
    show tab name (step ser (run ser w E1) (.table m t)).1 k = _
    rcases tab_step ser name (run ser w E1) (.table m t) k with h | ⟨m, p, h⟩ | ⟨-, m, h | h | ⟨p, -, h⟩⟩
    · exact h
    all_goals (cases h; exact ht.elim)
  rw [this]; exact h

theorem acts_remove {ser : V → B} {name : String} {w : World B V} {E : List (Op B V)} {m : Nat} {k : RKey} {r : Option Pid} {q : RAsk} {r' : Except RError q.Out}
    (hx : Exec ser m w (removeProg m name k) E r) (h : ∀ T : Keys, T k = r → q.Effect r' T (T.set k none)) : ActsIn ser m name w E q r' := by
  obtain ⟨os1, os2, rfl, -, -, rfl, h1⟩ := remove_exec hx
  refine ⟨os1, _, os2, rfl, rfl, ?_⟩
  have : tab name (run ser w (os1 ++ [.table m (.remove name k)])) = Keys.set (tab name (run ser w os1)) k none := funext h1
  rw [this]
  exact h _ rfl

theorem acts_left {ser : V → B} {m : Nat} {name : String} {w : World B V} {E E' : List (Op B V)} {q : RAsk} {r : Except RError q.Out} (h : ActsIn ser m name w E q r) :
    ActsIn ser m name w (E ++ E') q r := by
  obtain ⟨E1, o, E2, rfl, hc, h⟩ := h
  exact ⟨E1, o, E2 ++ E', by simp, hc, h⟩

theorem acts_right {ser : V → B} {m : Nat} {name : String} {w : World B V} {E E' : List (Op B V)} {q : RAsk} {r : Except RError q.Out}
    (h : ActsIn ser m name (run ser w E) E' q r) : ActsIn ser m name w (E ++ E') q r := by
  obtain ⟨E1, o, E2, rfl, hc, h⟩ := h
  refine ⟨E ++ E1, o, E2, by simp, hc, ?_⟩
  rw [List.append_assoc, run_append, run_append]; exact h

/-- A start at the registry. -/
theorem start_acts {ser : V → B} {c : RegConf B V} {s : Nat} {w : World B V} {σ : Lookup} {k : RKey} {E : List (Op B V)} {q : Lookup × Except RError Pid}
    (hre : Reachable ser w) (hst : ∀ f k, c.start = some f → Mute ser s (Inserts c.name) (f k)) (hx : Exec ser s w (startByKey c s σ k) E q)
    (ho : ∀ o ∈ E, Inserts c.name o → o.caller = some s) :
    ActsIn ser s c.name w E (.start k) q.2 ∧ (tab c.name w k = none → ActsIn ser s c.name w E (.lookupOrStart k) q.2) := by
  rcases start_moments hre hst hx ho with ⟨p, E1, E2, h1, rfl, h2, h3⟩ | ⟨E1, E2, rfl, h1, ⟨e, h2, h3⟩ | ⟨p, E3, E4, h2, rfl, h3, h4, h5, h6⟩⟩
  · rw [h1]
    refine ⟨acts_same trivial (.already _ _ _ h2), fun hn => ?_⟩
    rw [tab_free (fun o hm => h3 o (by simp [hm])) hn] at h2; cases h2
  · rw [h2]
    exact ⟨acts_same trivial (.startFailed _ _ _ h1), fun _ => acts_same trivial (.foundFailed _ _ _ h1)⟩
  · rw [h2]
    have e : E1 ++ .table s (.lookup c.name k) :: (E3 ++ .table s (.insert c.name k p) :: E4) =
        (E1 ++ .table s (.lookup c.name k) :: E3) ++ .table s (.insert c.name k p) :: E4 := by simp
    rw [e]
    generalize E1 ++ .table s (.lookup c.name k) :: E3 = Z at *
    have : tab c.name (run ser w (Z ++ [.table s (.insert c.name k p)])) = Keys.set (tab c.name (run ser w Z)) k (some p) := by
      funext k'
      rw [run_append]
      exact own_insert h4 c.name k p k'
    exact ⟨⟨Z, _, E4, rfl, rfl, by rw [this]; exact .started _ _ _ h3⟩, fun _ => ⟨Z, _, E4, rfl, rfl, by rw [this]; exact .foundNone _ _ _ h3⟩⟩

/-- The registry handles the request. -/
theorem call_acts {ser : V → B} {c : RegConf B V} {s : Nat} {w : World B V} {σ : Lookup} {E : List (Op B V)} {m x : RMsg} {σ' : Lookup}
    (hre : Reachable ser w) (hst : ∀ f k, c.start = some f → Mute ser s (Inserts c.name) (f k)) (ho : ∀ o ∈ E, Inserts c.name o → o.caller = some s)
    (hx : Exec ser s w (registryCall c s σ m) E (σ', .ok (some x))) :
    (∀ k, m = .lookup k → ∃ p, x = .lookupSuccess p ∧ ActsIn ser s c.name w E (.lookup k) (.ok p)) ∧
    (∀ k, m = .lookupOrStart k → ∃ r, ActsIn ser s c.name w E (.lookupOrStart k) r ∧ ((∃ p, r = .ok p ∧ x = .lookupOrStartSuccess p) ∨ ∃ e, r = .error e ∧ x = .lookupOrStartError e)) ∧
    (∀ k, m = .start k → ∃ r, ActsIn ser s c.name w E (.start k) r ∧ ((∃ p, r = .ok p ∧ x = .startSuccess p) ∨ ∃ e, r = .error e ∧ x = .startError e)) ∧
    (∀ k, m = .stop k → ∃ r, ActsIn ser s c.name w E (.stop k) r ∧ ((r = .ok () ∧ x = .stopSuccess) ∨ ∃ e, r = .error e ∧ x = .stopError e)) ∧
    (m = .count → ∃ n, x = .countSuccess n ∧ ActsIn ser s c.name w E .count (.ok n)) ∧
    (m = .list → ∃ n, x = .listSuccess n ∧ ActsIn ser s c.name w E .list (.ok n)) ∧
    (∀ k, m = .remove k → ∃ p, x = .removeSuccess p ∧ ActsIn ser s c.name w E (.remove k) (.ok p)) := by
  refine ⟨?_, ?_, ?_, ?_, ?_, ?_, ?_⟩
  · rintro k rfl
    obtain ⟨os1, os2, p, rfl, h1, h2⟩ := exec_bind_inv hx
    have h3 := (exec_ret_inv h2).1
    simp only [Prod.mk.injEq, Except.ok.injEq, Option.some.injEq] at h3
    obtain ⟨-, rfl⟩ := h3
    obtain ⟨E1, E2, rfl, -, -, rfl⟩ := lookup_exec h1
    exact ⟨_, rfl, acts_left (acts_same trivial (.lookup _ _))⟩
  · rintro k rfl
    obtain ⟨os1, os2, q, rfl, h1, h2⟩ := exec_bind_inv hx
    have h3 := (exec_ret_inv h2).1
    simp only [Prod.mk.injEq, Except.ok.injEq, Option.some.injEq] at h3
    obtain ⟨-, rfl⟩ := h3
    refine ⟨q.2, acts_left ?_, by cases q.2 with | ok p => exact .inl ⟨p, rfl, rfl⟩ | error e => exact .inr ⟨e, rfl, rfl⟩⟩
    obtain ⟨os3, os4, r, rfl, h4, h5⟩ := exec_bind_inv h1
    obtain ⟨E1, E2, rfl, -, o2, rfl⟩ := lookup_exec h4
    cases ht : tab c.name (run ser w E1) k with
    | some p =>
      rw [ht] at h5
      obtain ⟨rfl, -⟩ := exec_ret_inv h5
      exact acts_left (acts_same trivial (.found _ _ _ ht))
    | none =>
      rw [ht] at h5
      refine acts_right ((start_acts (reach_run hre _) hst h5 fun o hm hi => ho o (by simp [hm]) hi).2 ?_)
      rw [run_append]
      refine tab_free (fun o hm hi => ?_) ht
      rcases List.mem_cons.1 hm with rfl | hm
      · obtain ⟨_, _, _, h⟩ := hi; cases h
      · exact (o2 o hm).1 (ho o (by simp [hm]) hi)
  · rintro k rfl
    obtain ⟨os1, os2, q, rfl, h1, h2⟩ := exec_bind_inv hx
    have h3 := (exec_ret_inv h2).1
    simp only [Prod.mk.injEq, Except.ok.injEq, Option.some.injEq] at h3
    obtain ⟨-, rfl⟩ := h3
    exact ⟨q.2, acts_left (start_acts hre hst h1 fun o hm hi => ho o (by simp [hm]) hi).1, by cases q.2 with | ok p => exact .inl ⟨p, rfl, rfl⟩ | error e => exact .inr ⟨e, rfl, rfl⟩⟩
  · rintro k rfl
    obtain ⟨os1, os2, q, rfl, h1, h2⟩ := exec_bind_inv hx
    have h3 := (exec_ret_inv h2).1
    simp only [Prod.mk.injEq, Except.ok.injEq, Option.some.injEq] at h3
    obtain ⟨-, rfl⟩ := h3
    refine ⟨q.2, acts_left ?_, by cases q.2 with | ok p => exact .inl ⟨rfl, rfl⟩ | error e => exact .inr ⟨e, rfl, rfl⟩⟩
    obtain ⟨os3, os4, r, rfl, h4, h5⟩ := exec_bind_inv h1
    obtain ⟨E1, E2, rfl, -, o2, rfl⟩ := lookup_exec h4
    cases ht : tab c.name (run ser w E1) k with
    | none =>
      rw [ht] at h5
      obtain ⟨rfl, -⟩ := exec_ret_inv h5
      exact acts_left (acts_same trivial (.nothingToStop _ _ ht))
    | some p =>
      rw [ht] at h5
      obtain ⟨os5, os6, rfl, -, -, h6⟩ := exec_op_inv h5
      obtain ⟨os7, os8, rfl, -, -, h7⟩ := exec_op_inv h6
      obtain ⟨os9, os10, r, rfl, h8, h9⟩ := exec_bind_inv h7
      obtain ⟨rfl, -⟩ := exec_ret_inv h9
      have e : os5 ++ .unlink s p :: (os7 ++ .exit s p (.custom "shutdown") :: (os9 ++ os10)) =
        (os5 ++ [.unlink s p]) ++ ((os7 ++ [.exit s p (.custom "shutdown")]) ++ (os9 ++ os10)) := by simp
      rw [e]
      refine acts_right (acts_right (acts_right (acts_left (acts_remove (m := s) (r := r) ?_ fun T hT => .stopped _ _))))
      have e2 : run ser (run ser (run ser w (E1 ++ .table s (.lookup c.name k) :: E2)) (os5 ++ [.unlink s p])) (os7 ++ [.exit s p (.custom "shutdown")]) =
          (step ser (run ser (step ser (run ser (run ser w (E1 ++ .table s (.lookup c.name k) :: E2)) os5) (.unlink s p)).1 os7) (.exit s p (.custom "shutdown"))).1 := by
        rw [run_append ser _ os7, run_append ser _ os5]; rfl
      rw [e2]; exact h8
  · rintro rfl
    obtain ⟨os1, os2, p, rfl, h1, h2⟩ := exec_bind_inv hx
    have h3 := (exec_ret_inv h2).1
    simp only [Prod.mk.injEq, Except.ok.injEq, Option.some.injEq] at h3
    obtain ⟨-, rfl⟩ := h3
    obtain ⟨E1, E2, l, rfl, rfl, h4⟩ := count_exec hre h1
    exact ⟨_, rfl, acts_left (acts_same trivial (.count _ _ h4))⟩
  · rintro rfl
    obtain ⟨os1, os2, p, rfl, h1, h2⟩ := exec_bind_inv hx
    have h3 := (exec_ret_inv h2).1
    simp only [Prod.mk.injEq, Except.ok.injEq, Option.some.injEq] at h3
    obtain ⟨-, rfl⟩ := h3
    obtain ⟨E1, E2, rfl, h4⟩ := list_exec hre h1
    exact ⟨_, rfl, acts_left (acts_same trivial (.list _ _ h4))⟩
  · rintro k rfl
    obtain ⟨os1, os2, q, rfl, h1, h2⟩ := exec_bind_inv hx
    have h3 := (exec_ret_inv h2).1
    simp only [Prod.mk.injEq, Except.ok.injEq, Option.some.injEq] at h3
    obtain ⟨-, rfl⟩ := h3
    refine ⟨q.2, rfl, acts_left ?_⟩
    obtain ⟨os3, os4, r, rfl, h4, h5⟩ := exec_bind_inv h1
    have hq : q.2 = r := by
      cases r with
      | none => rw [(exec_ret_inv h5).1]
      | some p =>
        obtain ⟨os5, os6, -, -, -, h6⟩ := exec_op_inv h5
        rw [(exec_ret_inv h6).1]
    refine acts_left (acts_remove h4 fun T hT => ?_)
    rw [hq, ← hT]; exact .remove _ _

/-- The position lies in a `handle_call` of the registry for a call of `me`. -/
def HandlesAt (ser : V → B) (c : RegConf B V) (u : RecvType B V Unit) (τ : RecvType B V (GMsg RMsg)) (s : Nat) (G : List (Op B V)) (me : Nat) (d : Dest) (i : Nat) : Prop :=
  ∃ A E σ1 σ2 m x, (∃ t e C a b, G = A ++ (E ++ (e ++ replyOp τ s (callFrom me d t) x :: C)) ∧ (∀ o ∈ e, Others s o) ∧
    HandledIn ser (registryServer c u s) s G A E σ1 m (callFrom me d t) σ2 x ∧ G = a ++ callMon me d :: b ∧ running (run ser init a) me = true ∧
    t = (run ser init a).nextRef) ∧ A.length ≤ i ∧ i < (A ++ E).length



/-- The moment at which a function acts on the registry: an operation of its own, or one of the registry in the `handle_call` of its request. -/
def Moment (ser : V → B) (c : RegConf B V) (u : RecvType B V Unit) (τ : RecvType B V (GMsg RMsg)) (s : Nat) (G pre ops : List (Op B V)) (me : Nat) (d : Dest) (q : RAsk)
    (r : Except RError q.Out) : Prop :=
  ∃ A o C, G = A ++ o :: C ∧ pre.length ≤ A.length ∧ A.length < (pre ++ ops).length ∧
    q.Effect r (tab c.name (run ser init A)) (tab c.name (run ser init (A ++ [o]))) ∧ (o.caller = some me ∨ o.caller = some s ∧ HandlesAt ser c u τ s G me d A.length)

/-- The function acts at one moment. -/
theorem asked_moment {ser : V → B} {c : RegConf B V} {u : RecvType B V Unit} {τ : RecvType B V (GMsg RMsg)} {s : Nat} {parent : Pid} {G hs os : List (Op B V)}
    {σ : Lookup} {n : Nat} {l : Log RMsg Lookup} (hf : Faithful ser τ) (hcoh : Coherent τ G) (hfor : NoForgery ser τ G)
    (hsv : RegServes ser c u τ s parent G hs os σ n l) {pre ops : List (Op B V)} {me : Nat} {d : Dest} (hd : ∀ name, localName d = some name → name = c.name)
    {q : RAsk} {r : Except RError q.Out} (ha : RAsked ser τ s G hs os pre ops me d q r) (hr : ∀ e, r ≠ .error (.callError e)) :
    Moment ser c u τ s G pre ops me d q r := by
  have own : ActsIn ser me c.name (run ser init pre) ops q r → Moment ser c u τ s G pre ops me d q r := by
    rintro ⟨E1, o, E2, rfl, hc, h3⟩
    obtain ⟨z, hz⟩ := ha.part
    refine ⟨pre ++ E1, o, E2 ++ z, by rw [← hz]; simp, by simp, by simp, ?_, .inl hc⟩
    rw [List.append_assoc, run_append, run_append]; exact h3
  have here : ∀ {A E : List (Op B V)} {σ1 σ2 m x}, A ++ E <+: G → pre.length ≤ A.length → (A ++ E).length ≤ (pre ++ ops).length →
      (∃ t e C a b, G = A ++ (E ++ (e ++ replyOp τ s (callFrom me d t) x :: C)) ∧ (∀ o ∈ e, Others s o) ∧
        HandledIn ser (registryServer c u s) s G A E σ1 m (callFrom me d t) σ2 x ∧ G = a ++ callMon me d :: b ∧ running (run ser init a) me = true ∧
        t = (run ser init a).nextRef) →
      ActsIn ser s c.name (run ser init A) E q r → Moment ser c u τ s G pre ops me d q r := by
    rintro A E σ1 σ2 m x ⟨z, hz⟩ h1 h2 h4 ⟨E1, o, E2, rfl, hc, h3⟩
    refine ⟨A ++ E1, o, E2 ++ z, by rw [← hz]; simp, by simp; omega, by simp at h2 ⊢; omega, ?_, .inr ⟨hc, A, E1 ++ o :: E2, σ1, σ2, m, x, h4, by simp, by simp⟩⟩
    rw [List.append_assoc, run_append, run_append]; exact h3
  have htab : ∀ (m : Nat) (t : TOp) it, ¬ SentBy ser (.table m t : Op B V) it := by intro m t it h; cases h
  have hpre := ha.part
  have hun := ha.unforged
  have hrun := ha.run
  -- what the registry does for the request
  have reg : ∀ {A E : List (Op B V)} {σ1 σ2 m x}, A ++ E <+: G → Exec ser s (run ser init A) (registryCall c s σ1 m) E (σ2, .ok (some x)) → _ :=
    fun hAE hx => call_acts ⟨_, rfl⟩ hsv.routine (fun o hm hi => by
      obtain ⟨x, y, hxy⟩ := mem_place hAE hm
      exact (hsv.only _ _ _ hxy hi).1) hx
  cases q with
  | lookup k =>
    simp only [RAsk.prog, rLookup] at hrun
    cases hn : localName d with
    | some name =>
      cases hd _ hn
      simp only [hn] at hrun
      obtain ⟨os1, os2, p, rfl, h1, h2⟩ := exec_bind_inv hrun
      obtain ⟨rfl, -⟩ := exec_ret_inv h2
      obtain ⟨E1, E2, rfl, -, -, rfl⟩ := lookup_exec h1
      exact own (acts_left (acts_same trivial (.lookup _ _)))
    | none =>
      simp only [hn] at hrun
      obtain ⟨A, E, σ1, σ2, x, g1, g2, g3, g4, g5, g6⟩ := asked_handled hf hcoh hfor hsv (o1 := []) hpre (by simp) hun (by rw [List.append_nil]; exact hrun) hr
      obtain ⟨p, rfl, h⟩ := (reg g1 g5).1 k rfl
      cases g4
      exact here g1 (by omega) (by simpa using Nat.le_of_lt g3) g6 h
  | lookupOrStart k =>
    have ask : ∀ {o1 ops' : List (Op B V)}, ops = o1 ++ ops' → (∀ o ∈ o1, o.caller = some me → ∀ it, ¬ SentBy ser o it) →
        Exec ser me (run ser init (pre ++ o1)) ((callProg τ me d (.lookupOrStart k)).bind
          (answered (fun | .lookupOrStartSuccess p => some (.ok p) | .lookupOrStartError e => some (.error e) | _ => none) me)) ops' r → Moment ser c u τ s G pre ops me d _ r := by
      rintro o1 ops' rfl h1 hx
      obtain ⟨A, E, σ1, σ2, x, g1, g2, g3, g4, g5, g6⟩ := asked_handled hf hcoh hfor hsv hpre h1 hun hx hr
      obtain ⟨r', h, ⟨p, rfl, rfl⟩ | ⟨p, rfl, rfl⟩⟩ := (reg g1 g5).2.1 k rfl <;> cases g4 <;> exact here g1 (by omega) (Nat.le_of_lt g3) g6 h
    simp only [RAsk.prog, rLookupOrStart] at hrun
    cases hn : localName d with
    | some name =>
      cases hd _ hn
      simp only [hn] at hrun
      obtain ⟨os1, os2, p, rfl, h1, h2⟩ := exec_bind_inv hrun
      obtain ⟨E1, E2, rfl, o1, o2, rfl⟩ := lookup_exec h1
      cases ht : tab c.name (run ser (run ser init pre) E1) k with
      | some p =>
        rw [ht] at h2
        obtain ⟨rfl, -⟩ := exec_ret_inv h2
        exact own (acts_left (acts_same trivial (.found _ _ _ ht)))
      | none =>
        rw [ht] at h2
        refine ask rfl ?_ (by rw [run_append]; exact h2)
        intro o hm hc
        rcases List.mem_append.1 hm with hm | hm
        · exact absurd hc (o1 o hm).1
        · rcases List.mem_cons.1 hm with rfl | hm
          · exact htab _ _
          · exact absurd hc (o2 o hm).1
    | none =>
      simp only [hn] at hrun
      exact ask (o1 := []) rfl (by simp) (by rw [List.append_nil]; exact hrun)
  | start k =>
    have ask : ∀ {o1 ops' : List (Op B V)}, ops = o1 ++ ops' → (∀ o ∈ o1, o.caller = some me → ∀ it, ¬ SentBy ser o it) →
        Exec ser me (run ser init (pre ++ o1)) ((callProg τ me d (.start k)).bind
          (answered (fun | .startSuccess p => some (.ok p) | .startError e => some (.error e) | _ => none) me)) ops' r → Moment ser c u τ s G pre ops me d _ r := by
      rintro o1 ops' rfl h1 hx
      obtain ⟨A, E, σ1, σ2, x, g1, g2, g3, g4, g5, g6⟩ := asked_handled hf hcoh hfor hsv hpre h1 hun hx hr
      obtain ⟨r', h, ⟨p, rfl, rfl⟩ | ⟨p, rfl, rfl⟩⟩ := (reg g1 g5).2.2.1 k rfl <;> cases g4 <;> exact here g1 (by omega) (Nat.le_of_lt g3) g6 h
    simp only [RAsk.prog, rStart] at hrun
    cases hn : localName d with
    | some name =>
      cases hd _ hn
      simp only [hn] at hrun
      obtain ⟨os1, os2, p, rfl, h1, h2⟩ := exec_bind_inv hrun
      obtain ⟨E1, E2, rfl, o1, o2, rfl⟩ := lookup_exec h1
      cases ht : tab c.name (run ser (run ser init pre) E1) k with
      | some p =>
        rw [ht] at h2
        obtain ⟨rfl, -⟩ := exec_ret_inv h2
        exact own (acts_left (acts_same trivial (.already _ _ _ ht)))
      | none =>
        rw [ht] at h2
        refine ask rfl ?_ (by rw [run_append]; exact h2)
        intro o hm hc
        rcases List.mem_append.1 hm with hm | hm
        · exact absurd hc (o1 o hm).1
        · rcases List.mem_cons.1 hm with rfl | hm
          · exact htab _ _
          · exact absurd hc (o2 o hm).1
    | none =>
      simp only [hn] at hrun
      exact ask (o1 := []) rfl (by simp) (by rw [List.append_nil]; exact hrun)
  | stop k =>
    have ask : ∀ {o1 ops' : List (Op B V)}, ops = o1 ++ ops' → (∀ o ∈ o1, o.caller = some me → ∀ it, ¬ SentBy ser o it) →
        Exec ser me (run ser init (pre ++ o1)) ((callProg τ me d (.stop k)).bind
          (answered (fun | .stopSuccess => some (.ok ()) | .stopError e => some (.error e) | _ => none) me)) ops' r → Moment ser c u τ s G pre ops me d _ r := by
      rintro o1 ops' rfl h1 hx
      obtain ⟨A, E, σ1, σ2, x, g1, g2, g3, g4, g5, g6⟩ := asked_handled hf hcoh hfor hsv hpre h1 hun hx hr
      obtain ⟨r', h, ⟨rfl, rfl⟩ | ⟨p, rfl, rfl⟩⟩ := (reg g1 g5).2.2.2.1 k rfl <;> cases g4 <;> exact here g1 (by omega) (Nat.le_of_lt g3) g6 h
    simp only [RAsk.prog, rStop] at hrun
    cases hn : localName d with
    | some name =>
      cases hd _ hn
      simp only [hn] at hrun
      obtain ⟨os1, os2, p, rfl, h1, h2⟩ := exec_bind_inv hrun
      obtain ⟨E1, E2, rfl, o1, o2, rfl⟩ := lookup_exec h1
      cases ht : tab c.name (run ser (run ser init pre) E1) k with
      | none =>
        rw [ht] at h2
        obtain ⟨rfl, -⟩ := exec_ret_inv h2
        exact own (acts_left (acts_same trivial (.nothingToStop _ _ ht)))
      | some p =>
        rw [ht] at h2
        refine ask rfl ?_ (by rw [run_append]; exact h2)
        intro o hm hc
        rcases List.mem_append.1 hm with hm | hm
        · exact absurd hc (o1 o hm).1
        · rcases List.mem_cons.1 hm with rfl | hm
          · exact htab _ _
          · exact absurd hc (o2 o hm).1
    | none =>
      simp only [hn] at hrun
      exact ask (o1 := []) rfl (by simp) (by rw [List.append_nil]; exact hrun)
  | count =>
    simp only [RAsk.prog, rCount] at hrun
    cases hn : localName d with
    | some name =>
      cases hd _ hn
      simp only [hn] at hrun
      obtain ⟨os1, os2, p, rfl, h1, h2⟩ := exec_bind_inv hrun
      obtain ⟨rfl, -⟩ := exec_ret_inv h2
      obtain ⟨E1, E2, l, rfl, rfl, h3⟩ := count_exec ⟨_, rfl⟩ h1
      exact own (acts_left (acts_same trivial (.count _ _ h3)))
    | none =>
      simp only [hn] at hrun
      obtain ⟨A, E, σ1, σ2, x, g1, g2, g3, g4, g5, g6⟩ := asked_handled hf hcoh hfor hsv (o1 := []) hpre (by simp) hun (by rw [List.append_nil]; exact hrun) hr
      obtain ⟨p, rfl, h⟩ := (reg g1 g5).2.2.2.2.1 rfl
      cases g4
      exact here g1 (by omega) (by simpa using Nat.le_of_lt g3) g6 h
  | list =>
    simp only [RAsk.prog, rList] at hrun
    cases hn : localName d with
    | some name =>
      cases hd _ hn
      simp only [hn] at hrun
      obtain ⟨os1, os2, p, rfl, h1, h2⟩ := exec_bind_inv hrun
      obtain ⟨rfl, -⟩ := exec_ret_inv h2
      obtain ⟨E1, E2, rfl, h3⟩ := list_exec ⟨_, rfl⟩ h1
      exact own (acts_left (acts_same trivial (.list _ _ h3)))
    | none =>
      simp only [hn] at hrun
      obtain ⟨A, E, σ1, σ2, x, g1, g2, g3, g4, g5, g6⟩ := asked_handled hf hcoh hfor hsv (o1 := []) hpre (by simp) hun (by rw [List.append_nil]; exact hrun) hr
      obtain ⟨p, rfl, h⟩ := (reg g1 g5).2.2.2.2.2.1 rfl
      cases g4
      exact here g1 (by omega) (by simpa using Nat.le_of_lt g3) g6 h
  | remove k =>
    simp only [RAsk.prog, rRemove] at hrun
    cases hn : localName d with
    | some name =>
      cases hd _ hn
      simp only [hn] at hrun
      obtain ⟨os1, os2, p, rfl, h1, h2⟩ := exec_bind_inv hrun
      have hrp : r = .ok p := by
        cases p with
        | none => exact (exec_ret_inv h2).1
        | some p =>
          obtain ⟨_, _, -, -, -, h3⟩ := exec_op_inv h2
          exact (exec_ret_inv h3).1
      rw [hrp] at own
      rw [hrp]
      exact own (acts_left (acts_remove h1 fun T hT => by rw [← hT]; exact .remove _ _))
    | none =>
      simp only [hn] at hrun
      obtain ⟨A, E, σ1, σ2, x, g1, g2, g3, g4, g5, g6⟩ := asked_handled hf hcoh hfor hsv (o1 := []) hpre (by simp) hun (by rw [List.append_nil]; exact hrun) hr
      obtain ⟨p, rfl, h⟩ := (reg g1 g5).2.2.2.2.2.2 k rfl
      cases g4
      exact here g1 (by omega) (by simpa using Nat.le_of_lt g3) g6 h

theorem Moment.acts {ser : V → B} {c : RegConf B V} {u : RecvType B V Unit} {τ : RecvType B V (GMsg RMsg)} {s : Nat} {G pre ops : List (Op B V)} {me : Nat} {d : Dest}
    {q : RAsk} {r : Except RError q.Out} (h : Moment ser c u τ s G pre ops me d q r) :
    ∃ i, ActsAt ser c.name G i pre ops q r ∧ ∃ o, G[i]? = some o ∧ (o.caller = some me ∨ o.caller = some s ∧ HandlesAt ser c u τ s G me d i) := by
  obtain ⟨A, o, C, hG, h2, h3, h4, h5⟩ := h
  refine ⟨A.length, ⟨h2, h3, ?_⟩, o, by rw [hG]; simp, h5⟩
  have e : A ++ o :: C = (A ++ [o]) ++ C := by simp
  have e1 : G.take A.length = A := by rw [hG]; simp
  have e2 : G.take (A.length + 1) = A ++ [o] := by
    rw [hG, e]
    exact List.take_left' (by simp)
  rw [e1, e2]; exact h4

/-- Calls of different processes have different references. -/
theorem callMon_tags {ser : V → B} {G a a' b b' : List (Op B V)} {me me' : Nat} {d d' : Dest} (hne : me ≠ me') (h : G = a ++ callMon me d :: b)
    (h' : G = a' ++ callMon me' d' :: b') (hr : running (run ser init a) me = true) (hr' : running (run ser init a') me' = true)
    (heq : (run ser init a).nextRef = (run ser init a').nextRef) : False := by
  have key : ∀ {a a' b b' : List (Op B V)} {me me' : Nat} {d d' : Dest}, G = a ++ callMon me d :: b → G = a' ++ callMon me' d' :: b' →
      running (run ser init a) me = true → a.length < a'.length → (run ser init a).nextRef < (run ser init a').nextRef := by
    intro a a' b b' me me' d d' h h' hr hlt
    have h1 : a ++ [callMon me d] <+: a' := List.prefix_of_prefix_length_le (l₃ := G) ⟨b, by rw [h]; simp⟩ ⟨_, h'.symm⟩ (by simp; omega)
    obtain ⟨Y, rfl⟩ := h1
    rw [run_append]
    refine Nat.lt_of_lt_of_le ?_ (run_nextRef_le ser _ Y)
    rw [run_append]
    show _ < (step ser (run ser init a) (callMon me d)).1.nextRef
    unfold callMon
    rw [step_monOp _ _ _ _ _ hr]
    have e : ∀ (w : World B V) (a : Nat) al, (freshRef w a al).nextRef = w.nextRef + 1 := by intro w a al; cases al <;> rfl
    have e2 : ∀ (w : World B V) d r a, (monitorInstall w d r a).nextRef = w.nextRef := by
      intro w d r a
      unfold monitorInstall
      repeat' split
      all_goals try simp only [sendFrame_nextRef_eq, nodeRegister_nextRef_eq, addNodeMon_nextRef_eq, modBox_nextRef_eq, addMon_nextRef_eq, sendDown_nextRef_eq, crash_nextRef_eq]
      all_goals (try split) <;> simp
    rw [e2, e]
    omega
  rcases Nat.lt_trichotomy a.length a'.length with hlt | he | hlt
  · have := key h h' hr hlt; omega
  · obtain ⟨rfl, h5⟩ := List.append_inj (h.symm.trans h') he
    simp only [List.cons.injEq] at h5
    have : (callMon me d : Op B V).caller = (callMon me' d' : Op B V).caller := by rw [h5.1]
    have e1 : ∀ m (d : Dest), (callMon m d : Op B V).caller = some m := by intro m d; unfold callMon; split <;> rfl
    rw [e1, e1] at this
    exact hne (Option.some.inj this)
  · have := key h' h hr' hlt; omega

/-- Two calls of different processes are not handled at the same time. -/
theorem handles_apart {ser : V → B} {c : RegConf B V} {u : RecvType B V Unit} {τ : RecvType B V (GMsg RMsg)} {s : Nat} {G : List (Op B V)} {me me' : Nat} {d d' : Dest}
    {i : Nat} (hr : Returns ser (registryServer c u s) τ s) (hne : me ≠ me') (h : HandlesAt ser c u τ s G me d i) (h' : HandlesAt ser c u τ s G me' d' i) : False := by
  obtain ⟨A, E, σ1, σ2, m, x, ⟨t, e, C, a, b, hG, he, hH, ha, hru, ht⟩, hi, hi2⟩ := h
  obtain ⟨A', E', σ1', σ2', m', x', ⟨t', e', C', a', b', hG', he', hH', ha', hru', ht'⟩, hi', hi2'⟩ := h'
  rcases Nat.lt_trichotomy (A' ++ (E' ++ e')).length (A ++ (E ++ e)).length with hlt | heq | hlt
  · have := handled_apart hr (t' := t') rfl hG hG' hH he hlt
    simp only [List.length_append] at this hi2'; omega
  · have e1 : A ++ (E ++ (e ++ replyOp τ s (callFrom me d t) x :: C)) = (A ++ (E ++ e)) ++ replyOp τ s (callFrom me d t) x :: C := by simp
    have e2 : A' ++ (E' ++ (e' ++ replyOp τ s (callFrom me' d' t') x' :: C')) = (A' ++ (E' ++ e')) ++ replyOp τ s (callFrom me' d' t') x' :: C' := by simp
    rw [e1] at hG
    rw [e2, hG] at hG'
    have := (List.append_inj hG' heq.symm).2
    simp only [List.cons.injEq] at this
    have hb := this.1
    simp only [replyOp, Op.send.injEq] at hb
    have hbox := congrArg τ.cast hb.2.2
    rw [τ.cast_box, τ.cast_box] at hbox
    simp only [Option.some.injEq, GMsg.callReply.injEq, callFrom, Ref.loc.injEq] at hbox
    exact callMon_tags hne ha ha' hru hru' (by rw [← ht, ← ht']; exact hbox.1)
  · have := handled_apart hr (t' := t) rfl hG' hG hH' he' hlt
    simp only [List.length_append] at this hi2; omega

/-! ## Theorems -/

/-- **C125**: a function that asks a registry, from anywhere on the node and by whatever destination, acts on it at one moment between its call and its return: what
it returns and what it makes of the content of the registry is what it does if it is alone. -/
theorem C125_at_once (ser : V → B) (c : RegConf B V) (u : RecvType B V Unit) (τ : RecvType B V (GMsg RMsg)) (s : Nat) (parent : Pid) (G hs os : List (Op B V))
    (σ : Lookup) (n : Nat) (l : Log RMsg Lookup) (hf : Faithful ser τ) (hcoh : Coherent τ G) (hfor : NoForgery ser τ G)
    (hsv : RegServes ser c u τ s parent G hs os σ n l) (pre ops : List (Op B V)) (me : Nat) (d : Dest) (hd : ∀ name, localName d = some name → name = c.name)
    (q : RAsk) (r : Except RError q.Out) (ha : RAsked ser τ s G hs os pre ops me d q r) (hr : ∀ e, r ≠ .error (.callError e)) :
    ∃ i, ActsAt ser c.name G i pre ops q r := by
  obtain ⟨i, h, -⟩ := (asked_moment hf hcoh hfor hsv hd ha hr).acts
  exact ⟨i, h⟩

/-- **C125**: the registry is linearizable. Any number of uses of its functions by any number of processes, however they overlap, act on it one after another, each
at a moment of its own between its beginning and its end; and so a use that has returned before another begins acts before it. -/
theorem C125_linearizable (ser : V → B) (c : RegConf B V) (u : RecvType B V Unit) (τ : RecvType B V (GMsg RMsg)) (s : Nat) (parent : Pid) (G hs os : List (Op B V))
    (σ : Lookup) (n : Nat) (l : Log RMsg Lookup) (hf : Faithful ser τ) (hcoh : Coherent τ G) (hfor : NoForgery ser τ G)
    (hsv : RegServes ser c u τ s parent G hs os σ n l) (I : Type) (use : I → RUse B V)
    (ha : ∀ a, RAsked ser τ s G hs os (use a).pre (use a).ops (use a).me (use a).d (use a).q (use a).r)
    (hd : ∀ a name, localName (use a).d = some name → name = c.name) (hr : ∀ a e, (use a).r ≠ .error (.callError e)) (hme : ∀ a, (use a).me ≠ s)
    (hone : ∀ a b, a ≠ b → (use a).me ≠ (use b).me ∨ (use a).Before (use b) ∨ (use b).Before (use a)) :
    ∃ at_ : I → Nat, (∀ a, ActsAt ser c.name G (at_ a) (use a).pre (use a).ops (use a).q (use a).r) ∧ (∀ a b, a ≠ b → at_ a ≠ at_ b) ∧
      ∀ a b, (use a).Before (use b) → at_ a < at_ b := by
  have hm := fun a => (asked_moment hf hcoh hfor hsv (hd a) (ha a) (hr a)).acts
  have hlt : ∀ a b, (use a).Before (use b) → (hm a).choose < (hm b).choose := by
    intro a b h
    have h1 := (hm a).choose_spec.1.ended
    have h2 := (hm b).choose_spec.1.begun
    unfold RUse.Before at h
    omega
  refine ⟨fun a => (hm a).choose, fun a => (hm a).choose_spec.1, fun a b hab heq => ?_, hlt⟩
  obtain ⟨o, ho, hco⟩ := (hm a).choose_spec.2
  obtain ⟨o', ho', hco'⟩ := (hm b).choose_spec.2
  replace heq : (hm a).choose = (hm b).choose := heq
  rw [heq] at ho hco
  rw [ho] at ho'; cases ho'
  rcases hone a b hab with hne | h | h
  · rcases hco with hco | ⟨hco, h1⟩ <;> rcases hco' with hco' | ⟨hco', h1'⟩
    · rw [hco] at hco'; exact hne (Option.some.inj hco')
    · rw [hco] at hco'; exact hme a (Option.some.inj hco')
    · rw [hco] at hco'; exact hme b (Option.some.inj hco').symm
    · exact handles_apart (registry_returns hsv.silent) hne h1 h1'
  · have := hlt a b h; omega
  · have := hlt b a h; omega

/-- **C125**: when `stop_process` has returned `Ok`, then meanwhile the key had a process, which after that was told to shut down. -/
theorem C125_stopped (ser : V → B) (c : RegConf B V) (u : RecvType B V Unit) (τ : RecvType B V (GMsg RMsg)) (s : Nat) (parent : Pid) (G hs os : List (Op B V))
    (σ : Lookup) (n : Nat) (l : Log RMsg Lookup) (hf : Faithful ser τ) (hcoh : Coherent τ G) (hfor : NoForgery ser τ G)
    (hsv : RegServes ser c u τ s parent G hs os σ n l) (pre ops : List (Op B V)) (me : Nat) (d : Dest) (k : RKey)
    (ha : RAsked ser τ s G hs os pre ops me d (.stop k) (.ok ())) :
    ∃ P Q C p, G = P ++ (Q ++ .exit s p (.custom "shutdown") :: C) ∧ pre.length ≤ P.length ∧ (P ++ Q).length < (pre ++ ops).length ∧
      tab c.name (run ser init P) k = some p := by
  have ask : ∀ {o1 ops' : List (Op B V)}, ops = o1 ++ ops' → (∀ o ∈ o1, o.caller = some me → ∀ it, ¬ SentBy ser o it) →
      Exec ser me (run ser init (pre ++ o1)) ((callProg τ me d (.stop k)).bind
        (answered (fun | .stopSuccess => some (.ok ()) | .stopError e => some (.error e) | _ => none) me)) ops' (.ok ()) →
      ∃ P Q C p, G = P ++ (Q ++ .exit s p (.custom "shutdown") :: C) ∧ pre.length ≤ P.length ∧ (P ++ Q).length < (pre ++ ops).length ∧
        tab c.name (run ser init P) k = some p := by
    rintro o1 ops' rfl h1 hx
    obtain ⟨A, E, σ1, σ2, x, g1, g2, g3, g4, g5, -⟩ := asked_handled hf hcoh hfor hsv ha.part h1 ha.unforged hx (by simp)
    obtain ⟨os1, os2, q, rfl, h1, h2⟩ := exec_bind_inv g5
    have h3 := (exec_ret_inv h2).1
    simp only [Prod.mk.injEq, Except.ok.injEq, Option.some.injEq] at h3
    obtain ⟨-, rfl⟩ := h3
    obtain ⟨os3, os4, r, rfl, h4, h5⟩ := exec_bind_inv h1
    obtain ⟨E1, E2, rfl, -, o2, rfl⟩ := lookup_exec h4
    cases ht : tab c.name (run ser (run ser init A) E1) k with
    | none =>
      rw [ht] at h5
      obtain ⟨rfl, -⟩ := exec_ret_inv h5
      cases g4
    | some p =>
      rw [ht] at h5
      obtain ⟨os5, os6, rfl, -, -, h6⟩ := exec_op_inv h5
      obtain ⟨os7, os8, rfl, -, -, -⟩ := exec_op_inv h6
      obtain ⟨z, hz⟩ := g1
      refine ⟨A ++ E1, .table s (.lookup c.name k) :: E2 ++ (os5 ++ .unlink s p :: os7), os8 ++ os2 ++ z, p, by rw [← hz]; simp, by simp; omega, ?_, ?_⟩
      · simp at g3 ⊢; omega
      · rw [run_append]; exact ht
  have hrun := ha.run
  simp only [RAsk.prog, rStop] at hrun
  cases hn : localName d with
  | some name =>
    simp only [hn] at hrun
    obtain ⟨os1, os2, p, rfl, h1, h2⟩ := exec_bind_inv hrun
    obtain ⟨E1, E2, rfl, o1, o2, rfl⟩ := lookup_exec h1
    cases ht : tab name (run ser (run ser init pre) E1) k with
    | none =>
      rw [ht] at h2
      cases (exec_ret_inv h2).1
    | some p =>
      rw [ht] at h2
      refine ask rfl ?_ (by rw [run_append]; exact h2)
      intro o hm hc
      rcases List.mem_append.1 hm with hm | hm
      · exact absurd hc (o1 o hm).1
      · rcases List.mem_cons.1 hm with rfl | hm
        · intro it h; cases h
        · exact absurd hc (o2 o hm).1
  | none =>
    simp only [hn] at hrun
    exact ask (o1 := []) rfl (by simp) (by rw [List.append_nil]; exact hrun)

/-! ## One process for a key -/

/-- By what it returns, the function says that `p` is the process of the key `k`. -/
inductive RAsk.Tells (k : RKey) (p : Pid) : (q : RAsk) → Except RError q.Out → Prop
  | lookup : Tells k p (.lookup k) (.ok (some p))
  | found : Tells k p (.lookupOrStart k) (.ok p)
  | started : Tells k p (.start k) (.ok p)
  | already : Tells k p (.start k) (.error (.alreadyStarted p))

theorem tells_after {k : RKey} {p : Pid} {q : RAsk} {r : Except RError q.Out} {T T' : Keys} (h : q.Tells k p r) (he : q.Effect r T T') : T' k = some p := by
  cases h with
  | lookup =>
    generalize hr : (Except.ok (some p) : Except RError (RAsk.lookup k).Out) = r at he
    cases he with
    | lookup T k =>
      have : some p = T k := Except.ok.inj hr
      exact this.symm
  | found =>
    cases he with
    | found _ _ _ h => exact h
    | foundNone => simp [Keys.set]
  | started =>
    cases he with
    | started => simp [Keys.set]
  | already =>
    cases he with
    | already _ _ _ h => exact h

/-- Between two moments in a period in which the key is not freed. -/
theorem period_kept {ser : V → B} {c : RegConf B V} {u : RecvType B V Unit} {τ : RecvType B V (GMsg RMsg)} {s : Nat} {parent : Pid} {G hs os : List (Op B V)}
    {σ : Lookup} {n : Nat} {l : Log RMsg Lookup} (hsv : RegServes ser c u τ s parent G hs os σ n l) {k : RKey} {p : Pid} {P Z C : List (Op B V)}
    (hG : G = P ++ (Z ++ C)) (hfree : ∀ o ∈ Z, ¬ Frees c.name k p o) {A : List (Op B V)} {o : Op B V} {D A' : List (Op B V)} {o' : Op B V} {D' : List (Op B V)}
    (h : G = A ++ o :: D) (h' : G = A' ++ o' :: D') (hl : P.length ≤ A.length) (hlt : A.length < A'.length) (hl' : A'.length < (P ++ Z).length)
    (hk : tab c.name (run ser init (A ++ [o])) k = some p) : tab c.name (run ser init A') k = some p := by
  have h1 : A ++ [o] <+: A' := List.prefix_of_prefix_length_le (l₃ := G) ⟨D, by rw [h]; simp⟩ ⟨_, h'.symm⟩ (by simp; omega)
  obtain ⟨Y, rfl⟩ := h1
  refine key_kept hsv Y (C := o' :: D') (by rw [h']; simp) hk ?_
  intro x hx
  refine hfree x ?_
  have h2 : P <+: A ++ [o] := List.prefix_of_prefix_length_le (l₃ := G) ⟨_, hG.symm⟩ ⟨D, by rw [h]; simp⟩ (by simp; omega)
  obtain ⟨Y2, hY2⟩ := h2
  have h3 : A ++ [o] ++ Y <+: P ++ Z := List.prefix_of_prefix_length_le (l₃ := G) ⟨_, h'.symm⟩ ⟨C, by rw [hG]; simp⟩ (by simp at hl' ⊢; omega)
  rw [← hY2, List.append_assoc] at h3
  obtain ⟨W, hW⟩ := h3
  have : Z = Y2 ++ Y ++ W := by
    rw [List.append_assoc] at hW
    exact (List.append_cancel_left hW).symm
  rw [this]; simp [hx]

/-- **C126**: in a period in which the key is not freed, all functions of all processes that name a process of the key name the same one: there is one process
for a key, however the calls overlap. -/
theorem C126_one_process (ser : V → B) (c : RegConf B V) (u : RecvType B V Unit) (τ : RecvType B V (GMsg RMsg)) (s : Nat) (parent : Pid) (G hs os : List (Op B V))
    (σ : Lookup) (n : Nat) (l : Log RMsg Lookup) (hf : Faithful ser τ) (hcoh : Coherent τ G) (hfor : NoForgery ser τ G)
    (hsv : RegServes ser c u τ s parent G hs os σ n l) (k : RKey) (P Z C : List (Op B V)) (hG : G = P ++ (Z ++ C)) (hfree : ∀ o ∈ Z, ∀ p, ¬ Frees c.name k p o)
    (pre ops : List (Op B V)) (me : Nat) (d : Dest) (hd : ∀ name, localName d = some name → name = c.name)
    (q : RAsk) (r : Except RError q.Out) (ha : RAsked ser τ s G hs os pre ops me d q r) (hP : P.length ≤ pre.length) (hZ : (pre ++ ops).length ≤ (P ++ Z).length)
    (pre' ops' : List (Op B V)) (me' : Nat) (d' : Dest) (hd' : ∀ name, localName d' = some name → name = c.name)
    (q' : RAsk) (r' : Except RError q'.Out) (ha' : RAsked ser τ s G hs os pre' ops' me' d' q' r') (hP' : P.length ≤ pre'.length)
    (hZ' : (pre' ++ ops').length ≤ (P ++ Z).length) (p p' : Pid) (ht : q.Tells k p r) (ht' : q'.Tells k p' r') : p = p' := by
  obtain ⟨A, o, D, h, h1, h2, h3, -⟩ := asked_moment hf hcoh hfor hsv hd ha (by rintro e rfl; cases ht)
  obtain ⟨A', o', D', h', h1', h2', h3', -⟩ := asked_moment hf hcoh hfor hsv hd' ha' (by rintro e rfl; cases ht')
  have hk := tells_after ht h3
  have hk' := tells_after ht' h3'
  rcases Nat.lt_trichotomy A.length A'.length with hlt | heq | hlt
  · have h5 := key_kept hsv [o'] (A := A') (C := D') (by rw [h']; simp) (period_kept hsv hG (fun o ho => hfree o ho p) h h' (by omega) hlt (by omega) hk) (by
      intro x hx
      simp at hx; subst hx
      refine hfree x ?_ p
      have hx : G[A'.length]? = some x := by rw [h']; simp
      rw [hG, List.getElem?_append_right (by omega), List.getElem?_append_left (by simp at h2' hZ'; omega)] at hx
      exact List.mem_of_getElem? hx)
    rw [hk'] at h5; cases h5; rfl
  · obtain ⟨rfl, h5⟩ := List.append_inj (h.symm.trans h') heq
    cases h5
    rw [hk] at hk'; cases hk'; rfl
  · have h5 := key_kept hsv [o] (A := A) (C := D) (by rw [h]; simp) (period_kept hsv hG (fun o ho => hfree o ho p') h' h (by omega) hlt (by omega) hk') (by
      intro x hx
      simp at hx; subst hx
      refine hfree x ?_ p'
      have hx : G[A.length]? = some x := by rw [h]; simp
      rw [hG, List.getElem?_append_right (by omega), List.getElem?_append_left (by simp at h2 hZ; omega)] at hx
      exact List.mem_of_getElem? hx)
    rw [hk] at h5; cases h5; rfl


/-- The function has started the process `p` for the key `k`. -/
inductive RAsk.Starts (k : RKey) (p : Pid) : (q : RAsk) → Except RError q.Out → Prop
  | mk : Starts k p (.start k) (.ok p)

/-- **C126**: in a period in which the key is not freed, at most one `start_process` for it succeeds, of however many processes that race for it. -/
theorem C126_started_once (ser : V → B) (c : RegConf B V) (u : RecvType B V Unit) (τ : RecvType B V (GMsg RMsg)) (s : Nat) (parent : Pid) (G hs os : List (Op B V))
    (σ : Lookup) (n : Nat) (l : Log RMsg Lookup) (hf : Faithful ser τ) (hcoh : Coherent τ G) (hfor : NoForgery ser τ G)
    (hsv : RegServes ser c u τ s parent G hs os σ n l) (k : RKey) (P Z C : List (Op B V)) (hG : G = P ++ (Z ++ C)) (hfree : ∀ o ∈ Z, ∀ p, ¬ Frees c.name k p o)
    (a b : RUse B V) (hd : ∀ name, localName a.d = some name → name = c.name) (hd' : ∀ name, localName b.d = some name → name = c.name)
    (ha : RAsked ser τ s G hs os a.pre a.ops a.me a.d a.q a.r) (hP : P.length ≤ a.pre.length) (hZ : (a.pre ++ a.ops).length ≤ (P ++ Z).length)
    (hb : RAsked ser τ s G hs os b.pre b.ops b.me b.d b.q b.r) (hP' : P.length ≤ b.pre.length) (hZ' : (b.pre ++ b.ops).length ≤ (P ++ Z).length)
    (hme : a.me ≠ s) (hme' : b.me ≠ s) (hone : a.me ≠ b.me ∨ a.Before b ∨ b.Before a) (p p' : Pid) (ht : a.q.Starts k p a.r) (ht' : b.q.Starts k p' b.r) : False := by
  have noerr : ∀ {q : RAsk} {r : Except RError q.Out} {p}, q.Starts k p r → ∀ e, r ≠ .error (.callError e) := by
    rintro q r p ⟨⟩ e h; cases h
  have eff : ∀ {q : RAsk} {r : Except RError q.Out} {p} {T T' : Keys}, q.Starts k p r → q.Effect r T T' → T k = none ∧ T' k = some p := by
    rintro q r p T T' ⟨⟩ h
    cases h with
    | started _ _ _ h => exact ⟨h, by simp [Keys.set]⟩
  have split : ∀ i, i < G.length → ∃ o, G = G.take i ++ o :: G.drop (i + 1) ∧ G.take (i + 1) = G.take i ++ [o] := by
    intro i hi
    exact ⟨G[i], by rw [← List.drop_eq_getElem_cons hi, List.take_append_drop], by rw [List.take_succ_eq_append_getElem hi]⟩
  have key : ∀ {i j : Nat} {a b : RUse B V} {p p'}, ActsAt ser c.name G i a.pre a.ops a.q a.r → ActsAt ser c.name G j b.pre b.ops b.q b.r →
      a.q.Starts k p a.r → b.q.Starts k p' b.r → i < j → P.length ≤ a.pre.length → (b.pre ++ b.ops).length ≤ (P ++ Z).length → False := by
    intro i j a b p p' h h' ht ht' hij hP hZ
    have hjl : j < G.length := by
      have h1 := h'.ended
      have : (P ++ Z).length ≤ G.length := by rw [hG]; simp
      omega
    obtain ⟨o, ho, ho2⟩ := split i (by omega)
    obtain ⟨o', ho', -⟩ := split j hjl
    have h1 := (eff ht h.effect).2
    rw [ho2] at h1
    have h2 := period_kept hsv hG (fun o ho => hfree o ho p) ho ho' (by have := h.begun; simp; omega) (by simp; omega) (by have := h'.ended; simp at this hZ ⊢; omega) h1
    rw [(eff ht' h'.effect).1] at h2
    cases h2
  obtain ⟨at_, h1, h2, -⟩ := C125_linearizable ser c u τ s parent G hs os σ n l hf hcoh hfor hsv Bool (fun x => if x then a else b)
    (by rintro (_ | _) <;> assumption) (by rintro (_ | _) <;> assumption) (by rintro (_ | _); exact noerr ht'; exact noerr ht)
    (by rintro (_ | _) <;> assumption) (by
      rintro (_ | _) (_ | _) hne
      · exact absurd rfl hne
      · rcases hone with h | h | h
        · exact .inl fun e => h e.symm
        · exact .inr (.inr h)
        · exact .inr (.inl h)
      · exact hone
      · exact absurd rfl hne)
  rcases Nat.lt_trichotomy (at_ true) (at_ false) with hlt | heq | hlt
  · exact key (h1 true) (h1 false) ht ht' hlt hP hZ'
  · exact h2 true false (by simp) heq
  · exact key (h1 false) (h1 true) ht' ht hlt hP' hZ


/-! ## A concrete case: two processes race for a key, a third one looks it up -/

/-- Process 1 has started the registry "r", process 2, and process 3. -/
def raceStart : List (Op Nat (GMsg RMsg)) := regReady ++ [.spawn 1 false false]

def raceRecv (t : Nat) : RecvOp Nat (GMsg RMsg) := ⟨GMsg RMsg, regType, isAnswer (.loc t), false⟩
def raceDest : Dest := .named "r" .loc

/-- Process 1 looks; process 3 looks and asks; then 1 asks too; the registry handles both requests, that of 3 first. -/
def raceA : List (Op Nat (GMsg RMsg)) := [.table 1 (.lookup "r" (.u32 7))]

def raceB : List (Op Nat (GMsg RMsg)) :=
  [.table 3 (.lookup "r" (.u32 7)), callMon 3 raceDest, request regType 3 raceDest (.loc 1) (.start (.u32 7)),
   callMon 1 raceDest, request regType 1 raceDest (.loc 2) (.start (.u32 7)), .recv 3 (raceRecv 1) .select, .recv 1 (raceRecv 2) .select,
   .recv 2 (anyMsg regType) .select, .table 2 (.lookup "r" (.u32 7)), .spawn 2 true false, .table 2 (.insert "r" (.u32 7) (.loc 4)),
   replyOp regType 2 ⟨.loc 3, .loc 1, false⟩ (.startSuccess (.loc 4)),
   .recv 3 (raceRecv 1) .resume, .recv 2 (anyMsg regType) .select, .table 2 (.lookup "r" (.u32 7)),
   replyOp regType 2 ⟨.loc 1, .loc 2, false⟩ (.startError (.alreadyStarted (.loc 4))), .demonitor 3 (.loc 1)]

def raceC : List (Op Nat (GMsg RMsg)) := [.recv 1 (raceRecv 2) .resume, .demonitor 1 (.loc 2)]

/-- Process 3 looks the key up. -/
def raceD : List (Op Nat (GMsg RMsg)) := [.table 3 (.lookup "r" (.u32 7))]

/-- Process 3 has the process stopped. -/
def raceE : List (Op Nat (GMsg RMsg)) :=
  [.table 3 (.lookup "r" (.u32 7)), callMon 3 raceDest, request regType 3 raceDest (.loc 3) (.stop (.u32 7)), .recv 3 (raceRecv 3) .select,
   .recv 2 (anyMsg regType) .select, .table 2 (.lookup "r" (.u32 7)), .unlink 2 (.loc 4), .exit 2 (.loc 4) (.custom "shutdown"),
   .table 2 (.remove "r" (.u32 7)), replyOp regType 2 ⟨.loc 3, .loc 3, false⟩ .stopSuccess, .recv 3 (raceRecv 3) .resume, .demonitor 3 (.loc 3)]

def raceServe : List (Op Nat (GMsg RMsg)) := raceA ++ raceB ++ raceC ++ raceD ++ raceE
def raceAll : List (Op Nat (GMsg RMsg)) := raceStart ++ raceServe

def raceScript (me : Nat) (os : List (Op Nat (GMsg RMsg))) : List (Choice Nat (GMsg RMsg)) := os.map fun o => if o.caller = some me then .mine else .env o

def raceLog : Log RMsg Lookup :=
  ⟨[⟨.call (.start (.u32 7)) ⟨.loc 3, .loc 1, false⟩, [], [(.loc 4, .u32 7)], .ok (some (.startSuccess (.loc 4)))⟩,
    ⟨.call (.start (.u32 7)) ⟨.loc 1, .loc 2, false⟩, [(.loc 4, .u32 7)], [(.loc 4, .u32 7)], .ok (some (.startError (.alreadyStarted (.loc 4))))⟩,
    ⟨.call (.stop (.u32 7)) ⟨.loc 3, .loc 3, false⟩, [(.loc 4, .u32 7)], [], .ok (some .stopSuccess)⟩], none, []⟩

set_option maxHeartbeats 4000000 in
theorem raceSim : sim regSer 2 (run regSer init raceStart) (serverLoop (registryServer (regConf .brutalKill) regUnit 2) regType 2 (.loc 1) 3 [])
    (raceScript 2 raceServe) = some (raceServe, raceLog) := rfl

set_option maxHeartbeats 4000000 in
theorem raceSim1 : sim regSer 1 (run regSer init raceStart) ((RAsk.start (.u32 7)).prog regType 1 raceDest) (raceScript 1 (raceA ++ raceB ++ raceC)) =
    some (raceA ++ raceB ++ raceC, .error (.alreadyStarted (.loc 4))) := rfl

set_option maxHeartbeats 4000000 in
theorem raceSim3 : sim regSer 3 (run regSer init (raceStart ++ raceA)) ((RAsk.start (.u32 7)).prog regType 3 raceDest) (raceScript 3 raceB) =
    some (raceB, .ok (.loc 4)) := rfl

set_option maxHeartbeats 4000000 in
theorem raceSimD : sim regSer 3 (run regSer init (raceStart ++ (raceA ++ raceB ++ raceC))) ((RAsk.lookup (.u32 7)).prog regType 3 raceDest) (raceScript 3 raceD) =
    some (raceD, .ok (some (.loc 4))) := rfl

set_option maxHeartbeats 4000000 in
theorem raceSimE : sim regSer 3 (run regSer init (raceStart ++ (raceA ++ raceB ++ raceC ++ raceD))) ((RAsk.stop (.u32 7)).prog regType 3 raceDest) (raceScript 3 raceE) =
    some (raceE, .ok ()) := rfl


theorem race_serves : RegServes regSer (regConf .brutalKill) regUnit regType 2 (.loc 1) raceAll raceStart raceServe [] 3 raceLog where
  serves := ⟨List.prefix_rfl, sim_exec _ _ _ _ _ _ raceSim⟩
  silent := by
    intro f k h; cases h
    exact silent_op (by rintro t y ⟨it, hs, -⟩; cases hs) fun _ => silent_ret _
  routine := by
    intro f k h; cases h
    refine mute_op (by rintro ⟨_, _, _, h⟩; cases h) fun _ => ?_
    intro w os r hx o ho hc
    exact absurd hc ((exec_ret_inv hx).2 o ho).1
  only := by
    intro a o b h hi
    have hget : raceAll[a.length]? = some o := by rw [h]; simp
    have : ∀ k, (raceAll[k]?.map fun o => match o with | .table _ (.insert _ _ _) => true | _ => false) = some true → k = 16 := by
      intro k hk
      have hlt : k < 38 := by
        rcases Nat.lt_or_ge k 38 with h' | h'
        · exact h'
        · rw [List.getElem?_eq_none h'] at hk; cases hk
      revert hk
      revert k
      decide
    have h16 := this a.length (by rw [hget]; obtain ⟨_, _, _, rfl⟩ := hi; rfl)
    rw [h16] at hget ⊢
    cases hget
    exact ⟨rfl, by decide, by decide⟩

theorem race_faithful : Faithful regSer regType := by intro g g' h; simp [regType] at h

/-- What an operation sends. -/
def raceSends : Op Nat (GMsg RMsg) → Option (GMsg RMsg)
  | .send _ _ v => some v
  | _ => none

theorem raceSends_eq {o : Op Nat (GMsg RMsg)} {it g} (h : SentBy regSer o it) (hr : Reads regType it g) : raceSends o = some g := by
  cases h with
  | «local» => simpa [Reads, regType, raceSends] using hr
  | serial => simp [Reads, regType] at hr
  | frame => simp [Reads, regType] at hr

def racePlaces : List (Nat × GMsg RMsg) :=
  [(8, .call ⟨.loc 3, .loc 1, false⟩ (.start (.u32 7))), (10, .call ⟨.loc 1, .loc 2, false⟩ (.start (.u32 7))),
   (17, .callReply (.loc 1) (.startSuccess (.loc 4))), (21, .callReply (.loc 2) (.startError (.alreadyStarted (.loc 4)))),
   (28, .call ⟨.loc 3, .loc 3, false⟩ (.stop (.u32 7))), (35, .callReply (.loc 3) .stopSuccess)]

theorem race_at {a b : List (Op Nat (GMsg RMsg))} {o it g} (h : raceAll = a ++ o :: b) (hs : SentBy regSer o it) (hr : Reads regType it g) :
    (a.length, g) ∈ racePlaces ∧ raceAll[a.length]? = some o := by
  have := mem_placed (raceAll.map raceSends) 0 a.length g (by rw [h]; simp [raceSends_eq hs hr])
  rw [Nat.zero_add] at this
  exact ⟨this, by rw [h]; simp⟩

theorem race_coherent : Coherent regType raceAll := by
  intro a o k h b t' x h1
  have key : ∀ o ∈ raceAll, (match o with | .recv _ x _ => ∀ b, (x.τ.deser b).isNone = true | _ => True) := by
    simp [raceAll, raceStart, raceServe, raceA, raceB, raceC, raceD, raceE, regReady, callMon, monOp, destLocal, request, replyOp, anyMsg, raceRecv, regType, raceDest]
  have := key _ h b
  simp [h1] at this

theorem race_noForgery : NoForgery regSer regType raceAll := by
  rintro os1 o os2 n m h ⟨it, hs, hr⟩
  have hlen : os1 = raceAll.take os1.length := by rw [h]; simp
  obtain ⟨h1, -⟩ := race_at h hs hr
  simp only [racePlaces, List.mem_cons, Prod.mk.injEq, List.not_mem_nil, or_false] at h1
  rcases h1 with ⟨-, hg⟩ | ⟨-, hg⟩ | ⟨hk, hg⟩ | ⟨hk, hg⟩ | ⟨-, hg⟩ | ⟨hk, hg⟩ <;> cases hg <;> (rw [hlen, hk]; decide +kernel)

theorem race_unforged {pre ops : List (Op Nat (GMsg RMsg))} {me t i j : Nat} (hi : pre.length ≤ i ∧ i < pre.length + ops.length)
    (hcall : (raceAll[i]?.map Op.caller) = some (some me)) (hj : raceStart.length ≤ j ∧ j < raceStart.length + raceServe.length)
    (hrep : (raceAll[j]?.map Op.caller) = some (some 2))
    (h1 : ∀ k frm y, (k, GMsg.call frm y) ∈ racePlaces → frm.tag = .loc t → k = i) (h2 : ∀ k y, (k, GMsg.callReply (.loc t) y) ∈ racePlaces → k = j) :
    Unforged regSer regType 2 raceAll raceStart raceServe pre ops me t := by
  refine ⟨?_, ?_⟩
  · intro a o b it frm y h hs hr ht
    obtain ⟨hm, ho⟩ := race_at h hs hr
    have := h1 _ _ _ hm ht
    rw [this] at ho ⊢
    rw [ho] at hcall
    exact ⟨by simpa using hcall, hi⟩
  · rintro a o b y h ⟨it, hs, hr⟩
    obtain ⟨hm, ho⟩ := race_at h hs hr
    have := h2 _ _ hm
    rw [this] at ho ⊢
    rw [ho] at hrep
    exact ⟨by simpa using hrep, hj⟩

/-- Where `me` monitors. -/
def raceMons (me : Nat) (os : List (Op Nat (GMsg RMsg))) : List Bool := os.map fun | .monitor m _ => m == me | _ => false

theorem raceMons_at {me : Nat} {ops os1 os2 : List (Op Nat (GMsg RMsg))} (h : ops = os1 ++ callMon me raceDest :: os2) : (raceMons me ops)[os1.length]? = some true := by
  subst h
  simp [raceMons, callMon, monOp, destLocal, raceDest]

theorem true_at {l : List Bool} {k j : Nat} (h : l[k]? = some true) (hj : l.drop (j + 1) = List.replicate (l.length - (j + 1)) false)
    (hl : l.take j = List.replicate j false) : k = j := by
  rcases Nat.lt_trichotomy k j with hlt | rfl | hlt
  · have : (l.take j)[k]? = some true := by rw [List.getElem?_take]; simp [hlt, h]
    rw [hl, List.getElem?_replicate] at this
    simp [hlt] at this
  · rfl
  · have : (l.drop (j + 1))[k - (j + 1)]? = some true := by rw [List.getElem?_drop]; rw [← h]; congr 1; omega
    rw [hj, List.getElem?_replicate] at this
    split at this <;> simp at this

theorem race_asked1 : RAsked regSer regType 2 raceAll raceStart raceServe raceStart (raceA ++ raceB ++ raceC) 1 raceDest (.start (.u32 7))
    (.error (.alreadyStarted (.loc 4))) := by
  refine ⟨⟨raceD ++ raceE, rfl⟩, sim_exec _ _ _ _ _ _ raceSim1, ?_⟩
  intro os1 os2 t h ht
  have hk := true_at (j := 4) (raceMons_at h) rfl rfl
  have e : os1 = (raceA ++ raceB ++ raceC).take 4 := by rw [h, ← hk]; simp
  have : t = 2 := by rw [ht, e]; decide +kernel
  subst this
  refine race_unforged (i := 10) (j := 21) (by decide) rfl (by decide) rfl ?_ ?_
  · intro k frm y h ht
    simp only [racePlaces, List.mem_cons, Prod.mk.injEq, GMsg.call.injEq, reduceCtorEq, and_false, false_or, List.not_mem_nil, or_false] at h
    rcases h with ⟨rfl, rfl, -⟩ | ⟨rfl, rfl, -⟩ | ⟨rfl, rfl, -⟩ <;> first | rfl | cases ht
  · intro k y h
    simp [racePlaces] at h
    exact h.1

theorem race_asked3 : RAsked regSer regType 2 raceAll raceStart raceServe (raceStart ++ raceA) raceB 3 raceDest (.start (.u32 7)) (.ok (.loc 4)) := by
  refine ⟨⟨raceC ++ (raceD ++ raceE), rfl⟩, sim_exec _ _ _ _ _ _ raceSim3, ?_⟩
  intro os1 os2 t h ht
  have hk := true_at (j := 1) (raceMons_at h) rfl rfl
  have e : os1 = raceB.take 1 := by rw [h, ← hk]; simp
  have : t = 1 := by rw [ht, e]; decide +kernel
  subst this
  refine race_unforged (i := 8) (j := 17) (by decide) rfl (by decide) rfl ?_ ?_
  · intro k frm y h ht
    simp only [racePlaces, List.mem_cons, Prod.mk.injEq, GMsg.call.injEq, reduceCtorEq, and_false, false_or, List.not_mem_nil, or_false] at h
    rcases h with ⟨rfl, rfl, -⟩ | ⟨rfl, rfl, -⟩ | ⟨rfl, rfl, -⟩ <;> first | rfl | cases ht
  · intro k y h
    simp [racePlaces] at h
    exact h.1

theorem race_askedD : RAsked regSer regType 2 raceAll raceStart raceServe (raceStart ++ (raceA ++ raceB ++ raceC)) raceD 3 raceDest (.lookup (.u32 7))
    (.ok (some (.loc 4))) := by
  refine ⟨⟨raceE, rfl⟩, sim_exec _ _ _ _ _ _ raceSimD, ?_⟩
  intro os1 os2 t h ht
  have := raceMons_at h
  have h0 : raceMons 3 raceD = [false] := rfl
  rw [h0] at this
  rcases hn : os1.length with _ | n <;> rw [hn] at this <;> simp at this

theorem race_askedE : RAsked regSer regType 2 raceAll raceStart raceServe (raceStart ++ (raceA ++ raceB ++ raceC ++ raceD)) raceE 3 raceDest (.stop (.u32 7)) (.ok ()) := by
  refine ⟨⟨[], rfl⟩, sim_exec _ _ _ _ _ _ raceSimE, ?_⟩
  intro os1 os2 t h ht
  have hk := true_at (j := 1) (raceMons_at h) rfl rfl
  have e : os1 = raceE.take 1 := by rw [h, ← hk]; simp
  have : t = 3 := by rw [ht, e]; decide +kernel
  subst this
  refine race_unforged (i := 28) (j := 35) (by decide) rfl (by decide) rfl ?_ ?_
  · intro k frm y h ht
    simp only [racePlaces, List.mem_cons, Prod.mk.injEq, GMsg.call.injEq, reduceCtorEq, and_false, false_or, List.not_mem_nil, or_false] at h
    rcases h with ⟨rfl, rfl, -⟩ | ⟨rfl, rfl, -⟩ | ⟨rfl, rfl, -⟩ <;> first | rfl | cases ht
  · intro k y h
    simp [racePlaces] at h
    exact h.1

theorem race_dest : ∀ name, localName raceDest = some name → name = (regConf .brutalKill).name := by intro name h; cases h; rfl

example := C125_at_once _ _ _ _ _ _ _ _ _ _ _ _ race_faithful race_coherent race_noForgery race_serves _ _ _ _ race_dest _ _ race_asked3 (by simp)
example := C125_stopped _ _ _ _ _ _ _ _ _ _ _ _ race_faithful race_coherent race_noForgery race_serves _ _ _ _ _ race_askedE

/-- The three uses: 1 and 3 overlap, 3 then looks up. -/
def raceUse : Fin 3 → RUse Nat (GMsg RMsg)
  | 0 => ⟨raceStart, raceA ++ raceB ++ raceC, 1, raceDest, .start (.u32 7), .error (.alreadyStarted (.loc 4))⟩
  | 1 => ⟨raceStart ++ raceA, raceB, 3, raceDest, .start (.u32 7), .ok (.loc 4)⟩
  | 2 => ⟨raceStart ++ (raceA ++ raceB ++ raceC), raceD, 3, raceDest, .lookup (.u32 7), .ok (some (.loc 4))⟩

theorem fin3 {P : Fin 3 → Prop} (h0 : P 0) (h1 : P 1) (h2 : P 2) : ∀ a, P a := by
  intro a
  match a with
  | 0 => exact h0
  | 1 => exact h1
  | 2 => exact h2

example := C125_linearizable _ _ _ _ _ _ _ _ _ _ _ _ race_faithful race_coherent race_noForgery race_serves (Fin 3) raceUse
  (fin3 race_asked1 race_asked3 race_askedD) (fin3 race_dest race_dest race_dest) (fin3 (by intro e h; cases h) (by intro e h; cases h) (by intro e h; cases h))
  (fin3 (by decide) (by decide) (by decide))
  (fin3 (fin3 (by intro h; exact absurd rfl h) (fun _ => .inl (by decide)) fun _ => .inr (.inl (by unfold RUse.Before; decide)))
    (fin3 (fun _ => .inl (by decide)) (by intro h; exact absurd rfl h) fun _ => .inr (.inl (by unfold RUse.Before; decide)))
    (fin3 (fun _ => .inr (.inr (by unfold RUse.Before; decide))) (fun _ => .inr (.inr (by unfold RUse.Before; decide))) (by intro h; exact absurd rfl h)))

/-- Until process 3 stops it. -/
def racePeriod : List (Op Nat (GMsg RMsg)) := raceA ++ raceB ++ raceC ++ raceD

theorem race_kept : ∀ o ∈ racePeriod, ∀ p, ¬ Frees (regConf .brutalKill).name (.u32 7) p o := by
  have key : ∀ o ∈ racePeriod, (match o with | .table _ (.remove ..) => false | .table _ (.removeIf ..) => false | .table _ (.take _) => false | _ => true) = true := by
    simp [racePeriod, raceA, raceB, raceC, raceD, callMon, monOp, destLocal, request, replyOp, raceDest]
  rintro o ho p ⟨m, rfl | rfl | rfl⟩ <;> cases key _ ho

example : (Pid.loc 4) = .loc 4 := C126_one_process _ _ _ _ _ _ _ _ _ _ _ _ race_faithful race_coherent race_noForgery race_serves (.u32 7) raceStart racePeriod raceE
  (by simp [raceAll, raceServe, racePeriod]) race_kept _ _ _ _ race_dest _ _ race_asked1 (by decide) (by decide) _ _ _ _ race_dest _ _ race_askedD (by decide) (by decide) _ _ .already .lookup

/-- And so process 1, which lost the race, cannot have been told to have started it too. -/
example (ops : List (Op Nat (GMsg RMsg))) (p : Pid) (h : RAsked regSer regType 2 raceAll raceStart raceServe raceStart ops 1 raceDest (.start (.u32 7)) (.ok p))
    (hl : (raceStart ++ ops).length ≤ (raceStart ++ racePeriod).length) : False :=
  C126_started_once _ _ _ _ _ _ _ _ _ _ _ _ race_faithful race_coherent race_noForgery race_serves (.u32 7) raceStart racePeriod raceE (by simp [raceAll, raceServe, racePeriod]) race_kept
    ⟨raceStart, ops, 1, raceDest, .start (.u32 7), .ok p⟩ (raceUse 1) race_dest race_dest h (Nat.le_refl _) hl race_asked3 (by decide) (by decide) (by simp) (by decide)
    (.inl (by intro h; cases h)) _ _ .mk .mk


/-! ## A stop and a removal -/

def overlapA : List (Op Nat (GMsg RMsg)) :=
  [.table 3 (.lookup "r" (.u32 7)), callMon 3 raceDest, request regType 3 raceDest (.loc 3) (.stop (.u32 7)), .recv 3 (raceRecv 3) .select,
   .recv 2 (anyMsg regType) .select, .table 2 (.lookup "r" (.u32 7)), .unlink 2 (.loc 4), .exit 2 (.loc 4) (.custom "shutdown")]
def overlapB : List (Op Nat (GMsg RMsg)) :=
  [.table 1 (.remove "r" (.u32 7)), .send 1 (.one raceDest) (.cast (.removeLookup (.loc 4)))]
def overlapC : List (Op Nat (GMsg RMsg)) :=
  [.table 2 (.remove "r" (.u32 7)), replyOp regType 2 ⟨.loc 3, .loc 3, false⟩ .stopSuccess, .recv 3 (raceRecv 3) .resume, .demonitor 3 (.loc 3)]

set_option maxHeartbeats 4000000 in
/-- What a function does if it is alone does not say that a `stop_process` that succeeds finds a process to remove, since in one history a `stop_process` and a `remove`
of the same key both succeed, although the key has a process before them and gets none meanwhile. -/
theorem C125_stop_overlaps : ∃ (c : RegConf Nat (GMsg RMsg)) (w : World Nat (GMsg RMsg)) (a b c' : List (Op Nat (GMsg RMsg))) (σ : Lookup) (l : Log RMsg Lookup),
    Reachable regSer w ∧ tab c.name w (.u32 7) = some (.loc 4) ∧ (∀ o ∈ a ++ (b ++ c'), ¬ Inserts c.name o) ∧
    Exec regSer 2 w (serverLoop (registryServer c regUnit 2) regType 2 (.loc 1) 1 σ) (a ++ (b ++ c')) l ∧
    Exec regSer 3 w (rStop regType 3 (.named c.name .loc) (.u32 7)) (a ++ (b ++ c')) (.ok ()) ∧
    Exec regSer 1 (run regSer w a) (rRemove regType 1 (.named c.name .loc) (.u32 7)) b (.ok (some (.loc 4))) := by
  have h1 : ∃ x, sim regSer 2 (run regSer init (raceStart ++ racePeriod)) (serverLoop (registryServer (regConf .brutalKill) regUnit 2) regType 2 (.loc 1) 1 [(.loc 4, .u32 7)])
      (raceScript 2 (overlapA ++ (overlapB ++ overlapC))) = some x ∧ x.1 = overlapA ++ (overlapB ++ overlapC) := ⟨_, rfl, rfl⟩
  obtain ⟨⟨ops, l⟩, h1, h2⟩ := h1
  simp only at h2
  subst h2
  refine ⟨regConf .brutalKill, run regSer init (raceStart ++ racePeriod), overlapA, overlapB, overlapC, [(.loc 4, .u32 7)], l, ⟨raceStart ++ racePeriod, rfl⟩, rfl, ?_, sim_exec _ _ _ _ _ _ h1, ?_, ?_⟩
  · have key : ∀ o ∈ overlapA ++ (overlapB ++ overlapC), (match o with | .table _ (.insert ..) => false | _ => true) = true := by
      simp [overlapA, overlapB, overlapC, callMon, monOp, destLocal, request, replyOp, raceDest]
    rintro o ho ⟨m, k, p, rfl⟩
    cases key _ ho
  · exact sim_exec _ _ (raceScript 3 (overlapA ++ (overlapB ++ overlapC))) _ _ (overlapA ++ (overlapB ++ overlapC), Except.ok ()) rfl
  · exact sim_exec _ _ (raceScript 1 overlapB) _ _ (overlapB, Except.ok (some (Pid.loc 4))) rfl

end Verif.World
