import Verif.WsServer
import Verif.RegistryTerm
import Verif.NormalExitProps
import Verif.ServerProps
/-!
# C108: the websocket server and the process that accepts its connections
-/
namespace Verif.World
open Verif.Mailbox
variable {B V R R' : Type}

/-- Before a program ends its own process normally, it has sent process `a` the signal `kill`. -/
inductive Guarded (me a : Nat) : Prog B V R → Prop
  | ret (r) : Guarded me a (.ret r)
  | kill {k} : Guarded me a (.op (.exit me (.loc a) .kill) k)
  | op {o k} : ¬ EndsNormally me o → (∀ r, Guarded me a (k r)) → Guarded me a (.op o k)
  | wait {kind o t k} : (∀ p, t = some p → Guarded me a p) → (∀ m, Guarded me a (k m)) → Guarded me a (.wait kind o t k)

theorem guarded_bind {me a : Nat} {p : Prog B V R} {k : R → Prog B V R'} (h : Guarded me a p) (hk : ∀ r, Guarded me a (k r)) :
    Guarded me a (p.bind k) := by
  induction h with
  | ret r => rw [Prog.bind]; exact hk r
  | kill => rw [Prog.bind]; exact .kill
  | op h1 _ ih => rw [Prog.bind]; exact .op h1 ih
  | @wait kind o t c h1 h2 ih1 ih2 =>
    rw [bind_wait]
    refine .wait ?_ ih2
    intro q hq
    cases t with
    | none => cases hq
    | some p => cases hq; exact ih1 p rfl

theorem cut_guarded {ser : V → B} {me a : Nat} {w : World B V} {p : Prog B V R} {os : List (Op B V)} (hx : Cut ser me w p os) (h : Guarded me a p) :
    (∃ os1 os2, os = os1 ++ .exit me (.loc a) .kill :: os2 ∧ running (run ser w os1) me = true) ∨ ∀ o ∈ os, ¬ EndsNormally me o := by
  induction hx with
  | here => exact .inr (by simp)
  | @env w p o os ho _ ih =>
    rcases ih h with ⟨os1, os2, rfl, hr⟩ | h2
    · exact .inl ⟨o :: os1, os2, rfl, hr⟩
    · refine .inr fun x hx => ?_
      rcases List.mem_cons.1 hx with rfl | hx
      · rintro (rfl | rfl) <;> exact ho.1 rfl
      · exact h2 x hx
  | @op w o k os hr _ ih =>
    cases h with
    | kill => exact .inl ⟨[], os, rfl, hr⟩
    | op h1 h2 =>
      rcases ih (h2 _) with ⟨os1, os2, rfl, hr⟩ | h3
      · exact .inl ⟨o :: os1, os2, rfl, hr⟩
      · refine .inr fun x hx => ?_
        rcases List.mem_cons.1 hx with rfl | hx
        · exact h1
        · exact h3 x hx
  | @got w kind o t k os m hr _ _ ih =>
    cases h with
    | wait h1 h2 =>
      rcases ih (h2 _) with ⟨os1, os2, rfl, hr⟩ | h3
      · exact .inl ⟨.recv me o kind :: os1, os2, rfl, hr⟩
      · refine .inr fun x hx => ?_
        rcases List.mem_cons.1 hx with rfl | hx
        · rintro (h | h) <;> cases h
        · exact h3 x hx
  | @pending w kind o t k os hr _ _ ih =>
    cases h with
    | wait h1 h2 =>
      rcases ih (.wait h1 h2) with ⟨os1, os2, rfl, hr⟩ | h3
      · exact .inl ⟨.recv me o kind :: os1, os2, rfl, hr⟩
      · refine .inr fun x hx => ?_
        rcases List.mem_cons.1 hx with rfl | hx
        · rintro (h | h) <;> cases h
        · exact h3 x hx
  | elapsed _ ih =>
    cases h with
    | wait h1 h2 => exact ih (h1 _ rfl)

theorem cut_uses {ser : V → B} {me : Nat} {P : Op B V → Prop} {w : World B V} {p : Prog B V R} {os : List (Op B V)}
    (hx : Cut ser me w p os) (hu : Uses P p) : ∀ o ∈ os, Others me o ∨ P o ∨ ∃ ro k, o = .recv me ro k := by
  induction hx with
  | here => simp
  | env ho _ ih =>
    intro x hm; rcases List.mem_cons.1 hm with rfl | hm
    · exact .inl ho
    · exact ih hu x hm
  | op hr _ ih =>
    cases hu with
    | op h1 h2 =>
      intro x hm; rcases List.mem_cons.1 hm with rfl | hm
      · exact .inr (.inl h1)
      · exact ih (h2 _) x hm
  | got hr _ _ ih =>
    cases hu with
    | wait h1 h2 =>
      intro x hm; rcases List.mem_cons.1 hm with rfl | hm
      · exact .inr (.inr ⟨_, _, rfl⟩)
      · exact ih (h2 _) x hm
  | pending hr _ _ ih =>
    cases hu with
    | wait h1 h2 =>
      intro x hm; rcases List.mem_cons.1 hm with rfl | hm
      · exact .inr (.inr ⟨_, _, rfl⟩)
      · exact ih (.wait h1 h2) x hm
  | elapsed _ ih =>
    cases hu with
    | wait h1 h2 => exact ih (h1 _ rfl)

theorem uses_bind {P : Op B V → Prop} {p : Prog B V R} {k : R → Prog B V R'} (h : Uses P p) (hk : ∀ r, Uses P (k r)) : Uses P (p.bind k) := by
  induction h with
  | ret r => rw [Prog.bind]; exact hk r
  | op h1 _ ih => rw [Prog.bind]; exact .op h1 ih
  | @wait kind o t c h1 h2 ih1 ih2 =>
    rw [bind_wait]
    refine .wait ?_ ih2
    intro q hq
    cases t with
    | none => cases hq
    | some p => cases hq; exact ih1 p rfl

theorem cut_op_inv {ser : V → B} {me : Nat} {w : World B V} {o : Op B V} {k : Res → Prog B V R} {os : List (Op B V)}
    (h : Cut ser me w (.op o k) os) :
    (∀ x ∈ os, Others me x) ∨ ∃ os1 os2, os = os1 ++ o :: os2 ∧ (∀ x ∈ os1, Others me x) ∧ running (run ser w os1) me = true ∧
      Cut ser me (step ser (run ser w os1) o).1 (k (step ser (run ser w os1) o).2) os2 := by
  generalize hp : (Prog.op o k : Prog B V R) = p at h
  induction h with
  | here => exact .inl (by simp)
  | op hr hx _ => cases hp; exact .inr ⟨[], _, rfl, by simp, hr, hx⟩
  | @env w p o' os ho _ ih =>
    rcases ih hp with h | ⟨os1, os2, h1, h2, h3, h4⟩
    · exact .inl fun x hx => by rcases List.mem_cons.1 hx with rfl | hx; exact ho; exact h x hx
    · exact .inr ⟨o' :: os1, os2, by rw [h1]; rfl, fun x hx => by rcases List.mem_cons.1 hx with rfl | hx; exact ho; exact h2 x hx, h3, h4⟩
  | got => cases hp
  | pending => cases hp
  | elapsed => cases hp
/-! ## The programs of the server -/

theorem ws_terminate_guarded (me a : Nat) (b : Except BindError Unit) (r : ExitReason) (k : Option Pid → Prog B V R) :
    Guarded me a (((wsServer me b).terminate (some (.loc a)) r).bind k) := by
  simp only [wsServer, bind_op]; exact .kill

theorem ws_loop_guarded (me a : Nat) (b : Except BindError Unit) (τ : RecvType B V (GMsg Unit)) (parent : Pid) (n : Nat) :
    Guarded me a (serverLoop (wsServer me b) τ me parent n (some (.loc a))) := by
  have hend : ∀ r done, Guarded me a (finishServer (wsServer me b) me (some (.loc a)) r done : Prog B V (Log Unit (Option Pid))) :=
    fun r done => ws_terminate_guarded ..
  induction n with
  | zero => rw [serverLoop]; exact .ret _
  | succ n ih =>
    have hcb : ∀ rec : Record Unit (Option Pid), rec.after = some (.loc a) →
        Guarded me a (afterCallback (wsServer me b) me rec (serverLoop (wsServer me b) τ me parent n (some (.loc a)))) := by
      intro rec h
      rw [afterCallback]; split
      · exact guarded_bind ih fun _ => .ret _
      · rw [h]; exact hend _ _
    rw [serverLoop]
    refine .wait (by simp) fun m => ?_
    repeat' split
    · rw [show (wsServer me b).cast (some (Pid.loc a)) _ = (.op (.panic me "not implemented") fun _ => .ret (some (Pid.loc a), .ok ()) : Prog B V _) from rfl, bind_op]
      refine .op (by rintro (h | h) <;> cases h) fun _ => ?_
      rw [bind_ret]; refine hcb _ ?_; rfl
    · rw [show (wsServer me b).call (some (Pid.loc a)) _ _ = (.op (.panic me "not implemented") fun _ => .ret (some (Pid.loc a), .ok none) : Prog B V _) from rfl, bind_op]
      refine .op (by rintro (h | h) <;> cases h) fun _ => ?_
      rw [bind_ret]; refine hcb _ ?_; rfl
    · rw [show (wsServer me b).info (some (Pid.loc a)) _ = (.ret (some (Pid.loc a), .ok ()) : Prog B V _) from rfl, bind_ret]
      refine hcb _ ?_; rfl
    · exact hend _ _
    · exact hend _ _
    · rw [show (wsServer me b).info (some (Pid.loc a)) _ = (.ret (some (Pid.loc a), .ok ()) : Prog B V _) from rfl, bind_ret]
      refine hcb _ ?_; rfl
    · rw [show (wsServer me b).info (some (Pid.loc a)) _ = (.ret (some (Pid.loc a), .ok ()) : Prog B V _) from rfl, bind_ret]
      refine hcb _ ?_; rfl

/-- Neither spawns, nor unlinks, nor is its own end: what the server does after `init`. -/
def Plain (me : Nat) (o : Op B V) : Prop := (∀ l m, o ≠ .spawn me l m) ∧ (∀ p, o ≠ .unlink me p) ∧ o ≠ .drop me

theorem ws_loop_plain (me : Nat) (b : Except BindError Unit) (τ : RecvType B V (GMsg Unit)) (parent : Pid) (n : Nat) (σ : Option Pid) :
    Uses (Plain me) (serverLoop (wsServer me b) τ me parent n σ) := by
  have hend : ∀ σ r done, Uses (Plain me) (finishServer (wsServer me b) me σ r done : Prog B V (Log Unit (Option Pid))) := by
    intro σ r done
    refine uses_bind ?_ fun _ => .op ⟨by simp, by simp, by simp⟩ fun _ => .op ⟨by simp, by simp, by simp⟩ fun _ => .ret _
    cases σ with
    | none => exact .ret _
    | some p => exact .op ⟨by simp, by simp, by simp⟩ fun _ => .ret _
  induction n generalizing σ with
  | zero => rw [serverLoop]; exact .ret _
  | succ n ih =>
    have hcb : ∀ (rec : Record Unit (Option Pid)) σ',
        Uses (Plain me) (afterCallback (wsServer me b) me rec (serverLoop (wsServer me b) τ me parent n σ')) := by
      intro rec σ'
      rw [afterCallback]; split
      · exact uses_bind (ih _) fun _ => .ret _
      · exact hend _ _ _
    rw [serverLoop]
    refine .wait (by simp) fun m => ?_
    repeat' split
    · exact uses_bind (.op ⟨by simp, by simp, by simp⟩ fun _ => .ret _) fun _ => hcb _ _
    · refine uses_bind (.op ⟨by simp, by simp, by simp⟩ fun _ => .ret _) fun q => ?_
      split
      · exact .op ⟨by simp [replyOp], by simp [replyOp], by simp [replyOp]⟩ fun _ => hcb _ _
      · exact hcb _ _
    · exact uses_bind (.ret _) fun _ => hcb _ _
    · exact hend _ _ _
    · exact hend _ _ _
    · exact uses_bind (.ret _) fun _ => hcb _ _
    · exact uses_bind (.ret _) fun _ => hcb _ _

/-! ## The link between the server and the accepting process -/

theorem drop_noop {ser : V → B} {w : World B V} {i : Nat} (h : doomed w i = false) : (step ser w (.drop i)).1 = w := by
  simp [step, Op.caller, Op.exec, h]

/-- `a` is dead, or linked with `me` and not trapping exits. -/
def Tied (me a : Nat) (w : World B V) : Prop :=
  a < w.nextPid ∧ (w.procs a = none ∨ (Pid.loc a ∈ w.links me ∧ Pid.loc me ∈ w.links a ∧ pmap (·.trap) w a = some false))

theorem tied_step {ser : V → B} {me a : Nat} {w : World B V} (hre : Reachable ser w) {o : Op B V} (h : Tied me a w)
    (h1 : o ≠ .unlink me (.loc a)) (h2 : o ≠ .unlink a (.loc me)) (h3 : o ≠ .drop me) (h4 : o ≠ .setTrap a true) : Tied me a (step ser w o).1 := by
  obtain ⟨hlt, h⟩ := h
  refine ⟨Nat.lt_of_lt_of_le hlt (nextPid_step _ _ _), ?_⟩
  by_cases hn : w.procs a = none
  · exact .inl (absent_run ser w [o] a hlt hn).1
  obtain ⟨l1, l2, ht⟩ := h.resolve_left hn
  by_cases hd : o = .drop a
  · subst hd
    by_cases hdoom : doomed w a = true
    · left
      obtain ⟨os, rfl⟩ := hre
      cases hp : (run ser init os).procs a with
      | none => exact absurd hp hn
      | some p =>
        rw [show (step ser (run ser init os) (.drop a)).1 = dropProc (run ser init os) a by simp [step, Op.caller, Op.exec, hdoom]]
        exact (drop_eff _ a p hp (run_linksNodup ser os a)).1
    · rw [drop_noop (by simpa using hdoom)]
      exact .inr ⟨l1, l2, ht⟩
  · by_cases hgone : (step ser w o).1.procs a = none
    · exact .inl hgone
    right
    obtain ⟨os, rfl⟩ := hre
    have hl := C29_link_persists ser os [o] me a ⟨l1, l2⟩ (by
      intro x hx
      rw [List.mem_singleton] at hx; subst hx
      rintro (h | h | h | h)
      · exact h1 h
      · exact h2 h
      · exact h3 h
      · exact hd h)
    refine ⟨hl.1, hl.2, ?_⟩
    have key := Acts.inv (I := fun x => ∀ b, pmap (·.trap) x a = some b → b = false) (step_acts ser (run ser init os) o) (by
      intro b hb; rw [ht] at hb; cases hb; rfl) (by
      intro w' x hx ih b hb
      rw [trap_act] at hb
      cases x <;> simp only [] at hb <;> try exact ih b hb
      all_goals
        split at hb
        rotate_left
        · exact ih b hb
      · rename_i i c hi
        subst hi
        rw [Option.map_eq_some_iff] at hb
        obtain ⟨_, _, rfl⟩ := hb
        cases c with
        | false => rfl
        | true => exact absurd hx h4
      · cases hb; rfl
      · cases hb)
    cases hq : (step ser (run ser init os) o).1.procs a with
    | none => exact absurd hq hgone
    | some q =>
      have := key q.trap (by simp [pmap, hq])
      simp [pmap, hq, this]

theorem tied_run {ser : V → B} {me a : Nat} {os : List (Op B V)} {w : World B V} (hre : Reachable ser w) (h : Tied me a w)
    (ho : ∀ o ∈ os, o ≠ .unlink me (.loc a) ∧ o ≠ .unlink a (.loc me) ∧ o ≠ .drop me ∧ o ≠ .setTrap a true) : Tied me a (run ser w os) := by
  induction os generalizing w with
  | nil => exact h
  | cons o os ih =>
    rw [run_cons]
    obtain ⟨h1, h2, h3, h4⟩ := ho o List.mem_cons_self
    exact ih (reach_run hre [o]) (tied_step hre h h1 h2 h3 h4) fun x hx => ho x (.tail _ hx)

/-- Every process that was told to stop has a reason. -/
theorem aborted_reason (ser : V → B) (os : List (Op B V)) (i : Nat) (p : Proc B V) (hp : (run ser init os).procs i = some p) (h : p.reason = none) :
    p.aborted = false := by
  have key := run_inv ser (fun w : World B V => ∀ f, pmap (fun p => (p.reason, p.aborted, p.ended)) w i = some f → f.1 = none → f.2.1 = false) ?_ os init
    (by simp [pmap, init])
  · exact key (p.reason, p.aborted, p.ended) (by simp [pmap, hp]) h
  · intro w a h f hf
    rw [fate_act] at hf
    cases a <;> simp only [] at hf <;> try exact h f hf
    all_goals
      split at hf
      rotate_left
      · exact h f hf
    all_goals rename_i hi
    all_goals (try subst hi)
    all_goals (try (simp at hf; done))
    all_goals (try (simp at hf; subst hf; simp; done))
    all_goals
      rw [Option.map_eq_some_iff] at hf
      obtain ⟨q, hq, rfl⟩ := hf
    all_goals (try (simp; done))
    exact h (q.reason, q.aborted, q.ended) (by simp [pmap, hq])

theorem tied_dies {ser : V → B} {me a : Nat} {w : World B V} (hre : Reachable ser w) (h : Tied me a w) (hne : a ≠ me) (hn : NotNormal me w)
    (hd : doomed w me = true) : Stopped (step ser w (.drop me)).1 a := by
  refine ⟨Nat.lt_of_lt_of_le h.1 (nextPid_step _ _ _), ?_⟩
  intro q' hq'
  cases hq : w.procs a with
  | none =>
    have := (absent_run ser w [.drop me] a h.1 hq).1
    rw [run_cons, show ∀ x : World B V, run ser x [] = x from fun _ => rfl, hq'] at this; cases this
  | some q =>
    obtain ⟨l1, l2, ht⟩ := h.2.resolve_left (by simp [hq])
    obtain ⟨os, rfl⟩ := hre
    cases hp : (run ser init os).procs me with
    | none => simp [doomed, hp] at hd
    | some p =>
      have hd' : p.ended = true ∨ p.aborted = true := by simpa [doomed, hp] using hd
      obtain ⟨q'', D, h1, -, -, h2, -⟩ := C29_death_signals ser os me a p q hp hd' hne hq
      rw [hq'] at h1; cases h1
      have htr : q.trap = false := by simpa [pmap, hq] using ht
      have hr : isNormal (p.reason.getD .normal) = false := by
        obtain ⟨h3, h4⟩ := hn p hp
        cases hr : p.reason with
        | none => obtain ⟨h5, h6⟩ := h4 hr; simp_all
        | some r => cases r <;> simp_all [isNormal]
      rw [if_pos ⟨l1, htr, hr⟩] at h2
      exact (Prod.mk.inj h2).2

/-- **C108**: the accepting process does not outlive the server. The server process `me` runs a websocket server whose address could be bound (`wsLife`),
up to any moment of its life, interleaved in any way with the rest of the system; it has started the accepting process `a`. However the server ends (it is
stopped, its parent exits, somebody kills it, a message it cannot handle makes it panic, with any reason), from the moment on at which it
is gone, `a` is dead or told to stop, for ever: the port is free for a restart. -/
theorem C108_accept_ends_with_server (ser : V → B) (w : World B V) (hre : Reachable ser w) (me : Nat) (hal : alive w me = true) (hrun : running w me = true)
    (τ : RecvType B V (GMsg Unit)) (parent : Pid) (n : Nat) (os : List (Op B V)) (hx : Cut ser me w (wsLife me (.ok ()) τ parent n) os)
    (os1 os2 : List (Op B V)) (a : Nat) (r : Option Ref) (he : os = os1 ++ .spawn me true false :: os2)
    (hs : (step ser (run ser w os1) (.spawn me true false)).2 = .spawned a r)
    (ha : ∀ o ∈ os2, o.caller = some a → AcceptOp a o)
    (hd : doomed (run ser w os) me = true) (later : List (Op B V)) :
    Stopped (run ser (run ser w os) (.drop me :: later)) a := by
  -- the life of the server
  rw [wsLife, show (wsServer me (.ok ())).init none = (.op (.setTrap me true) fun _ => .op (.spawn me true false) fun r => match r with
        | .spawned a _ => .ret (some (.loc a), .ok ())
        | _ => .ret (none, .ok ()) : Prog B V _) from rfl, bind_op] at hx
  have hmem : Op.spawn me true false ∈ os := by rw [he]; simp
  rcases cut_op_inv hx with h | ⟨o1, o2, e1, ho1, hr1, hx1⟩
  · exact absurd rfl (h _ hmem).1
  rw [bind_op] at hx1
  have hsp : ∀ o ∈ o1 ++ [Op.setTrap me true], o ≠ .spawn me true false := by
    intro o ho e
    rcases List.mem_append.1 ho with ho | ho
    · exact (ho1 o ho).1 (by rw [e]; rfl)
    · rw [List.mem_singleton] at ho; rw [ho] at e; cases e
  rcases cut_op_inv hx1 with h | ⟨o3, o4, e2, ho3, hr3, hx3⟩
  · rw [e1, show o1 ++ Op.setTrap me true :: o2 = (o1 ++ [Op.setTrap me true]) ++ o2 by simp] at hmem
    rcases List.mem_append.1 hmem with h' | h'
    · exact absurd rfl (hsp _ h')
    · exact absurd rfl (h _ h').1
  have hloop : ∀ x : Res, Uses (Plain me) (((match x with
        | .spawned a _ => .ret (some (.loc a), .ok ())
        | _ => .ret (none, .ok ()) : Prog B V (Option Pid × Except ExitReason Unit))).bind fun q => match q.2 with
      | .ok _ => (serverLoop (wsServer me (.ok ())) τ me parent n q.1).bind fun l => .ret (some l)
      | .error r => (exitSelf me r).bind fun _ => .ret none) := by
    intro x
    split <;> rw [bind_ret] <;> exact uses_bind (ws_loop_plain ..) fun _ => .ret _
  have hpl := cut_uses hx3 (hloop _)
  have hpre : ∀ o ∈ o1 ++ Op.setTrap me true :: o3, o = .setTrap me true ∨ Others me o := by
    intro o ho
    rcases List.mem_append.1 ho with h | h
    · exact .inr (ho1 o h)
    · rcases List.mem_cons.1 h with h | h
      · exact .inl h
      · exact .inr (ho3 o h)
  -- the process was started only once
  have esplit : os1 = o1 ++ Op.setTrap me true :: o3 ∧ os2 = o4 := by
    have e : os1 ++ Op.spawn me true false :: os2 = (o1 ++ Op.setTrap me true :: o3) ++ Op.spawn me true false :: o4 := by
      rw [← he, e1, e2]; simp
    rcases List.append_eq_append_iff.1 e with ⟨l, h1, h2⟩ | ⟨l, h1, h2⟩
    · cases l with
      | nil => simp at h1 h2; exact ⟨h1.symm, h2⟩
      | cons x l =>
        simp only [List.cons_append, List.cons.injEq] at h2
        obtain ⟨rfl, -⟩ := h2
        rcases hpre (.spawn me true false) (by rw [h1]; simp) with h | h
        · cases h
        · exact absurd rfl h.1
    · cases l with
      | nil => simp at h1 h2; exact ⟨h1, h2.symm⟩
      | cons x l =>
        simp only [List.cons_append, List.cons.injEq] at h2
        obtain ⟨rfl, h2⟩ := h2
        rcases hpl (Op.spawn me true false) (by rw [h2]; simp) with h | h | ⟨_, _, h⟩
        · exact absurd rfl h.1
        · exact absurd rfl (h.1 true false)
        · cases h
  obtain ⟨hos1, rfl⟩ := esplit
  have erun : run ser (step ser (run ser w o1) (.setTrap me true)).1 o3 = run ser w os1 := by rw [hos1, run_append, run_cons]
  rw [erun] at hr3 hx3
  rw [hs] at hx3
  simp only [bind_ret] at hx3
  have hre1 : Reachable ser (run ser w os1) := reach_run hre os1
  -- the new process
  have hmelt : me < (run ser w os1).nextPid := by
    obtain ⟨l, hl⟩ := hre1
    rw [hl] at hr3 ⊢
    rcases Nat.lt_or_ge me (run ser init l).nextPid with h | h
    · exact h
    · rw [running, run_bounded ser l me h] at hr3; cases hr3
  have hstep : (step ser (run ser w os1) (.spawn me true false)) = Op.exec ser (run ser w os1) (.spawn me true false) := by
    simp [step, Op.caller, hr3]
  have haeq : a = (run ser w os1).nextPid := by
    rw [hstep] at hs; simp [Op.exec, World.spawn, spawnRaw] at hs; exact hs.1.symm
  have hne : a ≠ me := by omega
  obtain ⟨hl1, hl2⟩ := C29_spawn_link_establishes ser (run ser w os1) me a r false (Ne.symm hne) hs
  have htied : Tied me a (step ser (run ser w os1) (.spawn me true false)).1 := by
    refine ⟨?_, .inr ⟨hl1, hl2, ?_⟩⟩
    · rw [hstep]; simp [Op.exec, World.spawn, spawnRaw]; omega
    · rw [hstep]; simp [Op.exec, World.spawn, spawnRaw, pmap, newProc, upd_at, haeq]
  have hre2 : Reachable ser (step ser (run ser w os1) (.spawn me true false)).1 := by
    exact reach_run hre1 [.spawn me true false]
  have eend : run ser (step ser (run ser w os1) (.spawn me true false)).1 os2 = run ser w os := by rw [he, run_append, run_cons]
  rw [run_cons]
  apply stopped_run
  rcases cut_guarded hx3 (guarded_bind (ws_loop_guarded me a (.ok ()) τ parent n) fun _ => .ret _) with ⟨o5, o6, h5, h6⟩ | hno
  · -- it was killed by `terminate`
    apply stopped_step
    rw [← eend, h5, run_append, run_cons]
    apply stopped_run
    exact kill_stops h6 (Nat.lt_of_lt_of_le htied.1 (nextPid_run ser _ _))
  · -- the link
    refine tied_dies (reach_run hre os) ?_ hne ?_ hd
    · rw [← eend]
      refine tied_run hre2 htied fun o ho => ?_
      have h1 : ∀ x : Op B V, (x = .unlink a (.loc me) ∨ x = .setTrap a true) → ¬ AcceptOp a x := by
        rintro x (rfl | rfl) (h | ⟨_, h⟩) <;> cases h
      refine ⟨?_, fun e => h1 o (.inl e) (ha o ho (by rw [e]; rfl)), ?_, fun e => h1 o (.inr e) (ha o ho (by rw [e]; rfl))⟩
      · rintro rfl
        rcases hpl _ ho with h | h | ⟨_, _, h⟩
        · exact h.1 rfl
        · exact h.2.1 _ rfl
        · cases h
      · rintro rfl
        rcases hpl _ ho with h | h | ⟨_, _, h⟩
        · exact h.2 rfl
        · exact h.2.2 rfl
        · cases h
    · refine notNormal_run ser os me w ?_ ?_
      · intro p hp
        obtain ⟨l, rfl⟩ := hre
        simp [alive, hp] at hal
        refine ⟨by simp [hal], fun _ => ⟨aborted_reason ser l me p hp hal, ?_⟩⟩
        simpa [running, hp] using hrun
      · intro o ho
        rw [he] at ho
        rcases List.mem_append.1 ho with h | h
        · rw [hos1] at h
          rcases hpre o h with rfl | h
          · rintro (h | h) <;> cases h
          · rintro (rfl | rfl) <;> exact h.1 rfl
        · rcases List.mem_cons.1 h with rfl | h
          · rintro (h | h) <;> cases h
          · exact hno o h

/-- The name of the reason for every kind of failure. -/
def bindFailure : List (BindError × String) :=
  [(.addrInUse, "address_in_use"), (.addrNotAvailable, "address_not_available"), (.wouldBlock, "would_block"), (.other, "unknown")]

/-- **C108**: if the address cannot be bound, `init` fails with the reason that tells why, and no process has been started (all that
the server has done is to set its flag). -/
theorem C108_bind_fails (ser : V → B) (w : World B V) (me : Nat) (e : BindError) (os : List (Op B V)) (σ : Option Pid) (res : Except ExitReason Unit)
    (hx : Exec ser me w ((wsServer me (.error e)).init none) os (σ, res)) :
    σ = none ∧ (∃ s, (e, s) ∈ bindFailure ∧ res = .error (.custom s)) ∧ ∀ o ∈ os, Others me o ∨ o = .setTrap me true := by
  rw [show (wsServer me (.error e)).init none = (.op (.setTrap me true) fun _ => .ret (none, .error e.reason) : Prog B V _) from rfl] at hx
  obtain ⟨o1, o2, rfl, h1, -, h2⟩ := exec_op_inv hx
  obtain ⟨h3, h4⟩ := exec_ret_inv h2
  cases h3
  refine ⟨rfl, by cases e <;> exact ⟨_, by simp [bindFailure], rfl⟩, fun o ho => ?_⟩
  rcases List.mem_append.1 ho with h | h
  · exact .inl (h1 o h)
  · rcases List.mem_cons.1 h with h | h
    · exact .inr h
    · exact .inl (h4 o h)

/-! ## A server whose accepting process is gone -/

def unitServer : RecvType Nat (GMsg Unit) (GMsg Unit) := ⟨fun _ => none, some, id, fun _ => rfl⟩
def unitSer : GMsg Unit → Nat := fun _ => 0

/-- Process 1 has started process 2, which is to run the websocket server. -/
def wsBefore : List (Op Nat (GMsg Unit)) := [.boot, .spawn 1 true false]

/-- The server starts the accepting process 3, which panics (say, because of the certificate); the server gets the exit message. -/
def wsPanic : List (Op Nat (GMsg Unit)) :=
  [.setTrap 2 true, .spawn 2 true false, .panic 3 "Failed to parse pkcs12 certificate!", .drop 3, .recv 2 (anyMsg unitServer) .select]

/-- **C108** is violated in the other direction: a server whose accepting process has died goes on as if nothing had happened. It receives the exit
message, hands it to the default `handle_info` (gen_server.rs:319-329), which ignores it; the server is alive, has no accepting
process and waits for the next message; its supervisor, process 1, is not told anything. -/
theorem C108_accept_dies_violated :
    Exec unitSer 2 (run unitSer init wsBefore) (wsLife 2 (.ok ()) unitServer (.loc 1) 1) wsPanic
      (some ⟨[⟨.info (.system (.exit (.loc 3) (.custom "Failed to parse pkcs12 certificate!"))), some (.loc 3), some (.loc 3), .ok none⟩], none, some (.loc 3)⟩) ∧
    alive (run unitSer (run unitSer init wsBefore) wsPanic) 2 = true ∧
    (run unitSer (run unitSer init wsBefore) wsPanic).procs 3 = none ∧
    (∀ x ∈ (run unitSer (run unitSer init wsBefore) wsPanic).sent, x.1 ≠ 1) := by
  refine ⟨?_, rfl, rfl, by decide⟩
  refine .op rfl (.op rfl (.env ⟨by simp [Op.caller], by simp⟩ (.env ⟨by simp [Op.caller], by simp⟩ ?_)))
  refine .got (m := .system (.exit (.loc 3) (.custom "Failed to parse pkcs12 certificate!"))) rfl rfl ?_
  exact .ret _ _

/-- The hypotheses of `C108_accept_ends_with_server` are met when the supervisor of the server kills it ... -/
example : Stopped (run unitSer (run unitSer (run unitSer init wsBefore) [.setTrap 2 true, .spawn 2 true false, .exit 1 (.loc 2) .kill]) [.drop 2]) 3 :=
  C108_accept_ends_with_server unitSer _ ⟨wsBefore, rfl⟩ 2 rfl rfl unitServer (.loc 1) 5 _
    (.op rfl (.op rfl (.env ⟨by simp [Op.caller], by simp⟩ (.here _ _)))) [.setTrap 2 true] [.exit 1 (.loc 2) .kill] 3 none rfl rfl
    (by intro o ho h; rw [List.mem_singleton] at ho; subst ho; simp [Op.caller] at h) rfl []

/-- ... and when it is asked to stop with reason `normal`. -/
example : Stopped (run unitSer (run unitSer (run unitSer init wsBefore) [.setTrap 2 true, .spawn 2 true false,
    .send 1 (.one (.pid (.loc 2))) (.stop .normal), .recv 2 (anyMsg unitServer) .select, .exit 2 (.loc 3) .kill, .exit 2 (.loc 2) .normal, .finish 2]) [.drop 2]) 3 :=
  C108_accept_ends_with_server unitSer _ ⟨wsBefore, rfl⟩ 2 rfl rfl unitServer (.loc 1) 5 _
    (.op rfl (.op rfl (.env ⟨by simp [Op.caller], by simp⟩ (.got (m := .user (.stop .normal)) rfl rfl (.op rfl (.op rfl (.op rfl (.here _ _)))))))) [.setTrap 2 true]
    _ 3 none rfl rfl (by intro o ho h; simp at ho; rcases ho with rfl | rfl | rfl | rfl | rfl <;> simp [Op.caller] at h) rfl []

end Verif.World
