import Verif.ReceiveOrder
/-!
# An earlier message is received before a later one (C118)

Specification: `Lands` (an operation puts a message into a mailbox), `Takes` (a receive returns a message), `Tame` (which receives leave the
messages in question alone), all in ReceiveOrder.lean; `Earlier`, `receiveProg`, `castMsg`, `Deaf`, `Request` and `HandlesOne` here.
-/
namespace Verif.World
open Verif.Mailbox
variable {B V T M S R : Type}

/-! ## Specification -/

/-- After the history `a`, the operation `ox` puts a message of `x` into the mailbox of `P`, and no message of `y` was sent by then. -/
structure Earlier (ser : V → B) (τ : RecvType B V T) (x y : T → Bool) (P : Nat) (a : List (Op B V)) (ox : Op B V) : Prop where
  apart : ∀ t, x t = true → y t = false
  lands : Lands ser τ x P (run ser init a) ox
  none : ∀ o ∈ a ++ [ox], ¬ Sends ser τ y o

/-- `Process::receiver().select(filter)`, awaited without a timeout; `strict` for `for_message`, process_receiver.rs:36-107. -/
def receiveProg (τ : RecvType B V T) (f : Msg T → Bool) (s : Bool) : Prog B V (Msg T) := .wait .select ⟨T, τ, f, s⟩ none fun m => .ret m

/-- `GenServer::cast`, gen_server.rs:190-192. -/
def castMsg (τ : RecvType B V (GMsg M)) (me : Nat) (d : Dest) (m : M) : Op B V := .send me (.one d) (τ.box (.cast m))

/-- Whatever happens, the program, run by the process `s`, receives only messages of types as which no message of `x` can be read. -/
def Deaf (ser : V → B) (τ : RecvType B V T) (x : T → Bool) (s : Nat) (p : Prog B V R) : Prop :=
  ∀ w os r, Exec ser s w p os r → ∀ o k, .recv s o k ∈ os → ∀ it, readsAs τ x it = true → asMsg o.τ it = none

/-- The callbacks of the server leave its requests to the loop. -/
structure LeavesRequests (ser : V → B) (srv : Server B V M S) (τ : RecvType B V (GMsg M)) (x : GMsg M → Bool) (s : Nat) : Prop where
  cast : ∀ σ m, Deaf ser τ x s (srv.cast σ m)
  call : ∀ σ m frm, Deaf ser τ x s (srv.call σ m frm)
  info : ∀ σ m, Deaf ser τ x s (srv.info σ m)

/-- Casts and calls. -/
def Request : GMsg M → Prop
  | .cast _ | .call _ _ => True
  | _ => False

open Classical in
/-- The casts of `m`. -/
noncomputable def castOf (m : M) : GMsg M → Bool
  | .cast k => decide (k = m)
  | _ => false

/-- The record is that of a request of `p`. -/
def HandlesOne (p : GMsg M → Bool) (c : Record M S) : Prop :=
  match c.what with
  | .cast m => p (.cast m) = true
  | .call m frm => p (.call frm m) = true
  | _ => False

/-! ## Lemmas -/

theorem walk_lead {τ : RecvType B V T} {x y : T → Bool} {P : Nat} (ser : V → B) (os : List (Op B V)) : ∀ {w : World B V}, Lead τ x y P true w →
    Coherent τ os → (∀ ro k, .recv P ro k ∈ os → Tame τ x ro k) →
    Lead τ x y P true (run ser w os) ∨ ∃ b1 o b2, os = b1 ++ o :: b2 ∧ Takes τ x P (run ser w b1) o := by
  induction os with
  | nil => intro w h _ _; exact .inl h
  | cons o os ih =>
    intro w h hc ht
    have next : Lead τ x y P true (step ser w o).1 ∨ Takes τ x P w o := by
      by_cases hr : ∃ ro k, o = .recv P ro k
      · obtain ⟨ro, k, rfl⟩ := hr
        exact (recv_lead h ser ro k (hc P ro k List.mem_cons_self) (ht ro k List.mem_cons_self)).symm
      · exact .inl (lead_step h ser o fun ro k he => hr ⟨ro, k, he⟩)
    rcases next with h' | h'
    · rcases ih h' (fun a ro k hm => hc a ro k (.tail _ hm)) (fun ro k hm => ht ro k (.tail _ hm)) with h | ⟨b1, o', b2, rfl, h⟩
      · exact .inl (by rw [run_cons]; exact h)
      · exact .inr ⟨o :: b1, o', b2, rfl, by rw [run_cons]; exact h⟩
    · exact .inr ⟨[], o, os, rfl, h'⟩

/-- What a receive that accepts the messages of `x` returns, while one is ahead. -/
theorem poll_ahead {τ : RecvType B V T} {x y : T → Bool} {P : Nat} {w : World B V} (hdis : ∀ t, x t = true → y t = false) {f : Msg T → Bool}
    (hf : ∀ t, x t = true → f (.user t) = true) {s : Bool} {kind : RecvKind} (hr : running w P = true)
    (hk : kind = .select ∧ Lead τ x y P true w ∨ kind = .resume ∧ Lead τ x y P false w) (ser : V → B) :
    match received w P ⟨T, τ, f, s⟩ kind with
    | some m => ¬ msgIs y m
    | none => running (step ser w (.recv P ⟨T, τ, f, s⟩ kind)).1 P = false := by
  obtain ⟨q, hq⟩ : ∃ q, w.procs P = some q := by
    cases hj : w.procs P with
    | none => simp [running, hj] at hr
    | some q => exact ⟨q, rfl⟩
  have hend : q.ended = false := by simpa [running, hq] using hr
  have dead : ∀ b m, running (crash (modBox w P fun _ => b) P m) P = false := by
    intro b m
    simp [running, crash, modBox, modProc, upd_at, hq]
  rw [step_recv hr]
  simp only [received, recv, hq]
  rcases hk with ⟨rfl, h⟩ | ⟨rfl, h⟩
  · have hA : Ahead τ x y (q.box.items ++ q.box.chan) := by simpa [line] using (h.ahead q hq).resolve_left (by simp [hend])
    have := select_first hdis f hf s q.box hA
    dsimp only
    generalize Mailbox.select τ f s q.box = z at *
    obtain ⟨res, b⟩ := z
    dsimp only at this
    cases res with
    | got m => exact this.2 m rfl
    | pending => exact absurd rfl this.1
    | panicked => exact dead _ _
  · have hA : Ahead τ x y q.box.chan := by simpa [line] using (h.ahead q hq).resolve_left (by simp [hend])
    have := resume_first hdis f hf s q.box hA
    dsimp only
    generalize Mailbox.resume τ f s q.box = z at *
    obtain ⟨res, b⟩ := z
    dsimp only at this
    cases res with
    | got m => exact this.2 m rfl
    | pending => exact absurd rfl this.1
    | panicked => exact dead _ _

theorem dead_acts {w w' : World B V} {P : Nat} {Q : Atom B V → Prop} (hw : Acts Q w w') (hlt : P < w.nextPid) (h : running w P = false) :
    P < w'.nextPid ∧ running w' P = false := by
  refine hw.inv (I := fun w' => P < w'.nextPid ∧ running w' P = false) ⟨hlt, h⟩ ?_
  rintro w1 a - ⟨h1, h2⟩
  refine ⟨by rw [nextPid_act]; split <;> omega, ?_⟩
  cases hp : (act w1 a).procs P with
  | none => simp [running, hp]
  | some p =>
    have e2 : pmap (fun p => (p.reason, p.aborted, p.ended)) (act w1 a) P = some (p.reason, p.aborted, p.ended) := by simp [pmap, hp]
    rw [fate_act] at e2
    cases hq : w1.procs P with
    | none =>
      cases a <;> simp [pmap, hq] at e2
      omega
    | some q =>
      have he : q.ended = true := by simpa [running, hq] using h2
      suffices p.ended = true by simp [running, hp, this]
      cases a <;> simp only [pmap, hq, Option.map_some] at e2
      all_goals first
        | (simp at e2; rw [← e2.2.2]; exact he)
        | (split at e2
           · simp at e2 <;> first
             | (rw [← e2.2.2]; exact he)
             | exact e2.2.2
             | omega
           · simp at e2; rw [← e2.2.2]; exact he)

/-- A process that has ended finishes no receive. -/
theorem dead_waits {ser : V → B} {P : Nat} {w : World B V} {kind : RecvKind} {o : RecvOp B V} {k : Msg o.T → Prog B V R} {os : List (Op B V)} {r : R}
    (h : Exec ser P w (.wait kind o none k) os r) (hlt : P < w.nextPid) (hd : running w P = false) : False := by
  generalize hp : (Prog.wait kind o none k : Prog B V R) = p at h
  induction h with
  | @env w' _ o' _ _ ho _ ih =>
    have := dead_acts (step_acts ser w' o') hlt hd
    exact ih this.1 this.2 hp
  | got hr => rw [hd] at hr; cases hr
  | pending hr => rw [hd] at hr; cases hr
  | elapsed => cases hp
  | _ => cases hp

/-- How a wait ends: with a message, taken at some point. -/
structure GotAt (ser : V → B) (P : Nat) (o : RecvOp B V) (k : Msg o.T → Prog B V R) (w : World B V) (os : List (Op B V)) (r : R)
    (os1 : List (Op B V)) (kind : RecvKind) (m : Msg o.T) (os2 : List (Op B V)) : Prop where
  eq : os = os1 ++ .recv P o kind :: os2
  run : running (run ser w os1) P = true
  got : received (World.run ser w os1) P o kind = some m
  rest : Exec ser P (step ser (World.run ser w os1) (.recv P o kind)).1 (k m) os2 r

theorem GotAt.cons {ser : V → B} {P : Nat} {o : RecvOp B V} {k : Msg o.T → Prog B V R} {w : World B V} {os : List (Op B V)} {r : R}
    {os1 : List (Op B V)} {kind : RecvKind} {m : Msg o.T} {os2 : List (Op B V)} {z : Op B V} (h : GotAt ser P o k (step ser w z).1 os r os1 kind m os2) :
    GotAt ser P o k w (z :: os) r (z :: os1) kind m os2 :=
  ⟨by rw [h.eq]; rfl, by rw [run_cons]; exact h.run, by rw [run_cons]; exact h.got, by rw [run_cons]; exact h.rest⟩

theorem coherent_tail {τ : RecvType B V T} {o : Op B V} {os : List (Op B V)} (h : Coherent τ (o :: os)) : Coherent τ os :=
  fun a ro k hm => h a ro k (.tail _ hm)

/-- A receive that accepts the messages of `x`, while one is ahead. -/
theorem wait_ahead {ser : V → B} {τ : RecvType B V T} {x y : T → Bool} {P : Nat} (hdis : ∀ t, x t = true → y t = false) {f : Msg T → Bool}
    (hf : ∀ t, x t = true → f (.user t) = true) {s : Bool} {w : World B V} {kind : RecvKind} {k : Msg T → Prog B V R} {os : List (Op B V)} {r : R}
    (h : Exec ser P w (.wait kind ⟨T, τ, f, s⟩ none k) os r) (hcoh : Coherent τ os)
    (hk : kind = .select ∧ Lead τ x y P true w ∨ kind = .resume ∧ Lead τ x y P false w ∧ Lead τ x y P true w) :
    ∃ os1 kind' m os2, GotAt ser P ⟨T, τ, f, s⟩ k w os r os1 kind' m os2 ∧ ¬ msgIs y m ∧
      (msgIs x m ∨ Lead τ x y P true (step ser (run ser w os1) (.recv P ⟨T, τ, f, s⟩ kind')).1) := by
  generalize hp : (Prog.wait kind (⟨T, τ, f, s⟩ : RecvOp B V) none k : Prog B V R) = p at h
  induction h generalizing kind with
  | @env w' _ o' _ _ ho _ ih =>
    subst hp
    have hne : ∀ ro k, o' ≠ Op.recv P ro k := by rintro ro k rfl; exact ho.1 rfl
    have hk' : kind = .select ∧ Lead τ x y P true (step ser w' o').1 ∨
        kind = .resume ∧ Lead τ x y P false (step ser w' o').1 ∧ Lead τ x y P true (step ser w' o').1 :=
      hk.imp (fun h => ⟨h.1, lead_step h.2 ser _ hne⟩) fun h => ⟨h.1, lead_step h.2.1 ser _ hne, lead_step h.2.2 ser _ hne⟩
    obtain ⟨os1, kind', m, os2, h1, h2, h3⟩ := ih (coherent_tail hcoh) hk' rfl
    exact ⟨_, kind', m, os2, h1.cons, h2, by rw [run_cons]; exact h3⟩
  | @got w' kind' _ _ _ _ _ _ hr hm hx _ =>
    cases hp
    have := poll_ahead hdis hf (s := s) hr (hk.imp id fun h => ⟨h.1, h.2.1⟩) ser
    rw [hm] at this
    refine ⟨[], _, _, _, ⟨rfl, hr, hm, hx⟩, this, ?_⟩
    have hl : Lead τ x y P true w' := hk.elim (·.2) (·.2.2)
    rcases recv_lead_gen hl ser hr ⟨T, τ, f, s⟩ kind' (looks_same x y (hcoh P _ _ List.mem_cons_self)) (by rcases hk with ⟨rfl, -⟩ | ⟨rfl, -⟩ <;> simp) with ⟨m', hm', t, rfl, ht⟩ | h
    · rw [hm] at hm'; cases hm'; exact .inl ht
    · exact .inr h
  | @pending w' kind' _ _ _ _ _ hr hm hx _ =>
    cases hp
    have := poll_ahead hdis hf (s := s) hr (hk.imp id fun h => ⟨h.1, h.2.1⟩) ser
    rw [hm] at this
    have hl : Lead τ x y P true w' := hk.elim (·.2) (·.2.2)
    have hlt : P < (step ser w' (.recv P ⟨T, τ, f, s⟩ kind')).1.nextPid :=
      (step_acts ser w' (.recv P ⟨T, τ, f, s⟩ kind')).inv (I := fun w => P < w.nextPid) hl.lt (by intro w1 a _ h; rw [nextPid_act]; split <;> omega)
    exact (dead_waits hx hlt this).elim
  | elapsed => cases hp
  | _ => cases hp

theorem noneSent_not {ser : V → B} {τ : RecvType B V T} {y : T → Bool} {P : Nat} {w : World B V} (h : NoneSent τ y P w) {f : Msg T → Bool} {s : Bool}
    {kind : RecvKind} {m : Msg T} (hr : running w P = true) (hm : received w P ⟨T, τ, f, s⟩ kind = some m) (hc : CoherentWith τ τ) : ¬ msgIs y m := by
  intro hy
  cases m with
  | system => exact hy
  | user t =>
    have := taken_recv h.taken ser hc hr hm hy
    have h1 := this.all
    have h2 : sentTo τ y P (step ser w (.recv P ⟨T, τ, f, s⟩ kind)).1 = 0 := by
      refine (noneSent_step h ser _ ?_ ?_).sent
      · rintro a ro k he; cases he; exact hc
      · rintro ⟨it, t, hs, -⟩; cases hs
    omega

/-- A receive during which the first message arrives. -/
theorem wait_unsent {ser : V → B} {τ : RecvType B V T} {x y : T → Bool} {P : Nat} (hdis : ∀ t, x t = true → y t = false) {f : Msg T → Bool}
    (hf : ∀ t, x t = true → f (.user t) = true) {s : Bool} {w : World B V} {kind : RecvKind} {k : Msg T → Prog B V R} {os : List (Op B V)} {r : R}
    (h : Exec ser P w (.wait kind ⟨T, τ, f, s⟩ none k) os r) (hkind : kind ≠ .remove) (hcoh : Coherent τ os) (hcl : NoneSent τ y P w) {u v : List (Op B V)} {ox : Op B V}
    (hos : os = u ++ ox :: v) (hno : ∀ o ∈ u ++ [ox], ¬ Sends ser τ y o) (hl : Lands ser τ x P (run ser w u) ox) :
    ∃ os1 kind' m os2, GotAt ser P ⟨T, τ, f, s⟩ k w os r os1 kind' m os2 ∧ ¬ msgIs y m ∧
      ((∃ u', u = os1 ++ .recv P ⟨T, τ, f, s⟩ kind' :: u' ∧ NoneSent τ y P (step ser (run ser w os1) (.recv P ⟨T, τ, f, s⟩ kind')).1) ∨
       msgIs x m ∨ Lead τ x y P true (step ser (run ser w os1) (.recv P ⟨T, τ, f, s⟩ kind')).1) := by
  generalize hp : (Prog.wait kind (⟨T, τ, f, s⟩ : RecvOp B V) none k : Prog B V R) = p at h
  induction h generalizing kind u with
  | @env w' _ o' _ _ ho hx ih =>
    subst hp
    have hne : ∀ ro k, o' ≠ Op.recv P ro k := by rintro ro k rfl; exact ho.1 rfl
    cases u with
    | nil =>
      simp only [List.nil_append, List.cons.injEq] at hos
      obtain ⟨rfl, rfl⟩ := hos
      have hL := lands_lead hcl ser _ hne (hno _ (by simp)) hl
      obtain ⟨os1, kind', m, os2, h1, h2, h3⟩ := wait_ahead hdis hf hx (coherent_tail hcoh)
        (by cases kind <;> first | exact .inl ⟨rfl, hL true⟩ | exact .inr ⟨rfl, hL false, hL true⟩ | exact absurd rfl hkind)
      exact ⟨_, kind', m, os2, h1.cons, h2, .inr (by rw [run_cons]; exact h3)⟩
    | cons z u =>
      simp only [List.cons_append, List.cons.injEq] at hos
      obtain ⟨rfl, rfl⟩ := hos
      have hcl' := noneSent_step hcl ser o' (by rintro a ro k rfl; exact hcoh a ro k List.mem_cons_self) (hno _ (by simp))
      obtain ⟨os1, kind', m, os2, h1, h2, h3⟩ := ih hkind (coherent_tail hcoh) hcl' rfl (fun o h => hno o (by simp at h ⊢; exact .inr h))
        (by rw [run_cons] at hl; exact hl) rfl
      refine ⟨_, kind', m, os2, h1.cons, h2, ?_⟩
      rw [run_cons]
      rcases h3 with ⟨u', rfl, h3⟩ | h3
      · exact .inl ⟨u', rfl, h3⟩
      · exact .inr h3
  | got hr hm hx _ =>
    cases hp
    have hcc : CoherentWith τ τ := hcoh P _ _ List.mem_cons_self
    cases u with
    | nil =>
      simp only [List.nil_append, List.cons.injEq] at hos
      obtain ⟨rfl, rfl⟩ := hos
      exact (recv_lands hl).elim
    | cons z u =>
      simp only [List.cons_append, List.cons.injEq] at hos
      obtain ⟨rfl, rfl⟩ := hos
      refine ⟨[], _, _, _, ⟨rfl, hr, hm, hx⟩, noneSent_not (ser := ser) hcl hr hm hcc, .inl ⟨u, rfl, ?_⟩⟩
      exact noneSent_step hcl ser _ (by rintro a ro k he; exact hcoh a ro k (by rw [← he]; exact List.mem_cons_self)) (hno _ (by simp))
  | pending hr hm hx ih =>
    cases hp
    cases u with
    | nil =>
      simp only [List.nil_append, List.cons.injEq] at hos
      obtain ⟨rfl, rfl⟩ := hos
      exact (recv_lands hl).elim
    | cons z u =>
      simp only [List.cons_append, List.cons.injEq] at hos
      obtain ⟨rfl, rfl⟩ := hos
      have hcl' := noneSent_step hcl ser _ (by rintro a ro k he; exact hcoh a ro k (by rw [← he]; exact List.mem_cons_self)) (hno _ (by simp))
      obtain ⟨os1, kind', m, os2, h1, h2, h3⟩ := ih (by simp) (coherent_tail hcoh) hcl' rfl (fun o h => hno o (by simp at h ⊢; exact .inr h))
        (by rw [run_cons] at hl; exact hl) rfl
      refine ⟨_, kind', m, os2, h1.cons, h2, ?_⟩
      rw [run_cons]
      rcases h3 with ⟨u', rfl, h3⟩ | h3
      · exact .inl ⟨u', rfl, h3⟩
      · exact .inr h3
  | elapsed => cases hp
  | _ => cases hp

/-! ## C118: receives -/

/-- C118. Two messages are put into the mailbox of a process, first one of `x`, then one of `y`. If a receive that would accept the first
returns the second, then the process has received the first (one of `x`) before. -/
theorem C118_order (ser : V → B) (τ : RecvType B V T) (x y : T → Bool) (P : Nat) (a c pre ops : List (Op B V)) (ox : Op B V) (f : Msg T → Bool) (s : Bool) (t : T)
    (hG : a ++ ox :: c = pre ++ ops) (he : Earlier ser τ x y P a ox) (hcoh : Coherent τ (pre ++ ops))
    (htame : ∀ b ro k b', pre = a ++ ox :: (b ++ .recv P ro k :: b') → Tame τ x ro k)
    (hf : ∀ t, x t = true → f (.user t) = true)
    (hx : Exec ser P (run ser init pre) (receiveProg τ f s) ops (.user t)) (hy : y t = true) :
    ∃ b o b', pre = a ++ ox :: (b ++ o :: b') ∧ Takes τ x P (run ser init (a ++ ox :: b)) o := by
  have fin : ∀ {os1 kind' m os2}, GotAt ser P ⟨T, τ, f, s⟩ (fun m => .ret m) (run ser init pre) ops (.user t) os1 kind' m os2 → ¬ msgIs y m → False := by
    intro os1 kind' m os2 h hn
    have := (exec_ret_inv h.rest).1
    subst this
    exact hn hy
  have hca : Coherent τ a := fun i ro k hm => hcoh i ro k (by rw [← hG]; simp [hm])
  have hclean : ∀ u, u <+: a → NoneSent τ y P (run ser init u) := by
    rintro u ⟨z, rfl⟩
    exact noneSent_run ser u (noneSent_init τ y P) (fun i ro k hm => hca i ro k (by simp [hm])) (fun o ho => he.none o (by simp [ho]))
  rcases List.append_eq_append_iff.1 hG with ⟨u, rfl, hu⟩ | ⟨u, rfl, hu⟩
  · cases u with
    | nil =>
      simp only [List.append_nil, List.nil_append] at *
      obtain ⟨os1, kind', m, os2, h1, h2, -⟩ := wait_unsent (u := []) he.apart hf hx (by simp) (fun i ro k hm => hcoh i ro k (by simp [hm])) (hclean a (List.prefix_refl _))
        hu.symm (fun o ho => he.none o (by simp at ho; simp [ho])) he.lands
      exact (fin h1 h2).elim
    | cons z b =>
      simp only [List.cons_append, List.cons.injEq] at hu
      obtain ⟨rfl, rfl⟩ := hu
      have hne : ∀ ro k, ox ≠ .recv P ro k := by rintro ro k rfl; exact recv_lands he.lands
      have hL := lands_lead (hclean a (List.prefix_refl _)) ser ox hne (he.none ox (by simp)) he.lands
      rcases walk_lead ser b (hL true) (fun i ro k hm => hcoh i ro k (by simp [hm])) (fun ro k hm => by
          obtain ⟨b1, b2, rfl⟩ := List.append_of_mem hm; exact htame b1 ro k b2 rfl) with h | ⟨b1, o, b2, rfl, h⟩
      · have e : run ser (step ser (run ser init a) ox).1 b = run ser init (a ++ ox :: b) := by rw [run_append, run_cons]
        rw [e] at h
        obtain ⟨os1, kind', m, os2, h1, h2, -⟩ := wait_ahead he.apart hf hx (fun i ro k hm => hcoh i ro k (by simp [hm])) (.inl ⟨rfl, h⟩)
        exact (fin h1 h2).elim
      · refine ⟨b1, o, b2, rfl, ?_⟩
        rw [run_append, run_cons]; exact h
  · obtain ⟨os1, kind', m, os2, h1, h2, -⟩ := wait_unsent (u := u) he.apart hf hx (by simp) (fun i ro k hm => hcoh i ro k (by simp [hm])) (hclean pre (List.prefix_append ..))
      hu (fun o ho => he.none o (by simp at ho ⊢; rcases ho with h | h <;> simp [h])) (by rw [← run_append]; exact he.lands)
    exact (fin h1 h2).elim

/-! ## C118: servers -/

/-- One round of the loop, after its receive. -/
theorem round_tail {ser : V → B} {srv : Server B V M S} {τ : RecvType B V (GMsg M)} {s : Nat} {parent : Pid} {n : Nat} {w : World B V} {σ : S}
    {os : List (Op B V)} {l : Log M S} {m : Msg (GMsg M)} {k : Msg (GMsg M) → Prog B V (Log M S)} {Q : RecvOp B V → Prop}
    (hk : serverLoop srv τ s parent (n + 1) σ = .wait .select (anyMsg τ) none k) (h : Exec ser s w (k m) os l)
    (hcast : ∀ σ m w os r, Exec ser s w (srv.cast σ m) os r → ∀ o k, .recv s o k ∈ os → Q o)
    (hcall : ∀ σ m frm w os r, Exec ser s w (srv.call σ m frm) os r → ∀ o k, .recv s o k ∈ os → Q o)
    (hinfo : ∀ σ m w os r, Exec ser s w (srv.info σ m) os r → ∀ o k, .recv s o k ∈ os → Q o) :
    (l.calls ≠ [] ∧ ∀ c ∈ l.calls, ∃ r, c.what = .terminate r) ∨ ∃ c rest, l.calls = c :: rest ∧ callbackFor parent m = some c.what ∧
      ((rest ≠ [] ∧ ∀ c ∈ rest, ∃ r, c.what = .terminate r) ∨ ∃ b1 b2 l', os = b1 ++ b2 ∧ (∀ o k, .recv s o k ∈ b1 → Q o) ∧
        Exec ser s (run ser w b1) (serverLoop srv τ s parent n c.after) b2 l' ∧ l'.calls = rest) := by
  have fin : ∀ {w' : World B V} {σ' r done z}, Exec ser s w' (finishServer srv s σ' r done) z l → ∃ c, (∃ r, c.what = .terminate r) ∧ l.calls = done ++ [c] := by
    intro w' σ' r done z h
    obtain ⟨_, _, σ'', -, -, h2⟩ := exec_bind_inv h
    obtain ⟨_, _, -, -, -, h4⟩ := exec_op_inv h2
    obtain ⟨_, _, -, -, -, h6⟩ := exec_op_inv h4
    rw [(exec_ret_inv h6).1]
    exact ⟨_, ⟨r, rfl⟩, rfl⟩
  have aft : ∀ (m : Msg (GMsg M)) (c : Record M S) (b1 b2 : List (Op B V)), os = b1 ++ b2 → (∀ o k, .recv s o k ∈ b1 → Q o) → callbackFor parent m = some c.what →
      Exec ser s (run ser w b1) (afterCallback srv s c (serverLoop srv τ s parent n c.after)) b2 l →
      ∃ c rest, l.calls = c :: rest ∧ callbackFor parent m = some c.what ∧
        ((rest ≠ [] ∧ ∀ c ∈ rest, ∃ r, c.what = .terminate r) ∨ ∃ b1 b2 l', os = b1 ++ b2 ∧ (∀ o k, .recv s o k ∈ b1 → Q o) ∧
          Exec ser s (run ser w b1) (serverLoop srv τ s parent n c.after) b2 l' ∧ l'.calls = rest) := by
    intro m c b1 b2 he hq hm h
    cases hres : c.result with
    | error r =>
      simp only [afterCallback, hres] at h
      obtain ⟨t, ht, hl⟩ := fin h
      exact ⟨c, [t], hl, hm, .inl ⟨by simp, by simpa using ht⟩⟩
    | ok x =>
      simp only [afterCallback, hres] at h
      obtain ⟨os3', os4, l', rfl, hy, hl⟩ := exec_bind_inv h
      obtain ⟨hl, hoth⟩ := exec_ret_inv hl
      exact ⟨c, l'.calls, by rw [hl], hm, .inr ⟨b1, _, l', he, hq, exec_more hy hoth, rfl⟩⟩
  have plain : ∀ (m : Msg (GMsg M)) (p : Prog B V (S × Except ExitReason Unit)) (f : S × Except ExitReason Unit → Record M S),
      (∀ q, callbackFor parent m = some (f q).what) → (∀ w os r, Exec ser s w p os r → ∀ o k, .recv s o k ∈ os → Q o) →
      Exec ser s w (p.bind fun q => afterCallback srv s (f q) (serverLoop srv τ s parent n (f q).after)) os l →
      ∃ c rest, l.calls = c :: rest ∧ callbackFor parent m = some c.what ∧
        ((rest ≠ [] ∧ ∀ c ∈ rest, ∃ r, c.what = .terminate r) ∨ ∃ b1 b2 l', os = b1 ++ b2 ∧ (∀ o k, .recv s o k ∈ b1 → Q o) ∧
          Exec ser s (run ser w b1) (serverLoop srv τ s parent n c.after) b2 l' ∧ l'.calls = rest) := by
    intro m p f hf hq hx
    obtain ⟨c1, c2, q, hc1, h1, h2⟩ := exec_bind_inv hx
    exact aft m (f q) c1 c2 hc1 (hq _ _ _ h1) (hf q) h2
  have stop : ∀ {w' : World B V} {σ' r z}, Exec ser s w' (finishServer srv s σ' r []) z l → l.calls ≠ [] ∧ ∀ c ∈ l.calls, ∃ r, c.what = .terminate r := by
    intro w' σ' r z h
    obtain ⟨t, ht, hl⟩ := fin h
    refine ⟨by simp [hl], fun c hc => ?_⟩
    rw [hl] at hc; simp at hc; subst hc; exact ht
  cases hk
  match m, h with
  | .user (.cast x), hx => exact .inr (plain _ _ (fun q => ⟨.cast x, σ, q.1, noReply q.2⟩) (fun _ => rfl) (hcast σ x) hx)
  | .user (.callReply _ x), hx => exact .inr (plain _ _ (fun q => ⟨.info (.user x), σ, q.1, noReply q.2⟩) (fun _ => rfl) (hinfo _ _) hx)
  | .user (.stop r), hx => exact .inl (stop hx)
  | .system (.exit p r), hx =>
    dsimp only at hx
    split at hx
    · exact .inl (stop hx)
    · rename_i hp
      exact .inr (plain _ _ (fun q => ⟨.info (.system (.exit p r)), σ, q.1, noReply q.2⟩) (fun _ => by simp [callbackFor, hp]) (hinfo _ _) hx)
  | .system (.processDown d r e), hx =>
    exact .inr (plain _ _ (fun q => ⟨.info (.system (.processDown d r e)), σ, q.1, noReply q.2⟩) (fun _ => rfl) (hinfo _ _) hx)
  | .system (.nodeDown d r), hx => exact .inr (plain _ _ (fun q => ⟨.info (.system (.nodeDown d r)), σ, q.1, noReply q.2⟩) (fun _ => rfl) (hinfo _ _) hx)
  | .user (.call frm x), hx =>
    obtain ⟨c1, c2, ⟨σ', res⟩, rfl, h1, h2⟩ := exec_bind_inv hx
    have hq := hcall _ _ _ _ _ _ h1
    match res, h2, h1 with
    | .error r, h2, _ => exact .inr (aft _ ⟨.call x frm, σ, σ', .error r⟩ c1 c2 rfl hq rfl h2)
    | .ok none, h2, _ => exact .inr (aft _ ⟨.call x frm, σ, σ', .ok none⟩ c1 c2 rfl hq rfl h2)
    | .ok (some reply), h2, _ =>
      obtain ⟨e, e', rfl, hoth, -, h3⟩ := exec_op_inv h2
      refine .inr (aft _ ⟨.call x frm, σ, σ', .ok (some reply)⟩ (c1 ++ (e ++ [replyOp τ s frm reply])) e' (by simp) ?_ rfl ?_)
      · intro o k hm
        rcases List.mem_append.1 hm with hm | hm
        · exact hq o k hm
        · rcases List.mem_append.1 hm with hm | hm
          · exact absurd rfl (hoth _ hm).1
          · simp [replyOp] at hm
      · have : run ser w (c1 ++ (e ++ [replyOp τ s frm reply])) = (step ser (run ser (run ser w c1) e) (replyOp τ s frm reply)).1 := by
          rw [run_append, run_append]; rfl
        rw [this]; exact h3

theorem handles_of_msg {parent : Pid} {p : GMsg M → Bool} {m : Msg (GMsg M)} {c : Record M S} (hcb : callbackFor parent m = some c.what) (h : HandlesOne p c) :
    msgIs p m := by
  unfold HandlesOne at h
  cases m with
  | user g =>
    cases g <;> simp [callbackFor] at hcb <;> rw [← hcb] at h
    · exact h
    · exact h
    · exact h.elim
  | system e =>
    have : ∃ z, c.what = .info z := by
      cases e with
      | exit p r => simp only [callbackFor] at hcb; split at hcb <;> simp at hcb; exact ⟨_, hcb.symm⟩
      | _ => simp [callbackFor] at hcb; exact ⟨_, hcb.symm⟩
    obtain ⟨z, hz⟩ := this
    rw [hz] at h; exact h.elim

theorem msg_handles {parent : Pid} {p : GMsg M → Bool} (hp : ∀ g, p g = true → Request g) {m : Msg (GMsg M)} {c : Record M S}
    (hcb : callbackFor parent m = some c.what) (h : msgIs p m) : HandlesOne p c := by
  unfold HandlesOne
  cases m with
  | system => exact h.elim
  | user g =>
    have := hp g h
    cases g with
    | cast m => simp [callbackFor] at hcb; rw [← hcb]; exact h
    | call frm m => simp [callbackFor] at hcb; rw [← hcb]; exact h
    | callReply => exact this.elim
    | stop => exact this.elim

theorem loop_order {ser : V → B} {srv : Server B V M S} {τ : RecvType B V (GMsg M)} {s : Nat} {parent : Pid} {x y : GMsg M → Bool}
    (hdis : ∀ t, x t = true → y t = false) (hreq : ∀ g, x g = true → Request g) (hlr : LeavesRequests ser srv τ x s) (n : Nat) :
    ∀ (w : World B V) σ os l cs1 c cs2, Exec ser s w (serverLoop srv τ s parent n σ) os l → Coherent τ os → l.calls = cs1 ++ c :: cs2 → HandlesOne y c →
      (Lead τ x y s true w ∨ NoneSent τ y s w ∧ ∃ u ox v, os = u ++ ox :: v ∧ (∀ o ∈ u ++ [ox], ¬ Sends ser τ y o) ∧ Lands ser τ x s (run ser w u) ox) →
      ∃ c' ∈ cs1, HandlesOne x c' := by
  induction n with
  | zero =>
    intro w σ os l cs1 c cs2 h _ hl hw
    have := (exec_ret_inv h).1
    rw [this] at hl; simp at hl
  | succ n ih =>
    intro w σ os l cs1 c cs2 h hcoh hl hy hst
    have term : ∀ {l : List (Record M S)}, (∀ c ∈ l, ∃ r, c.what = .terminate r) → c ∈ l → False := by
      intro l hall hm
      obtain ⟨r, hr⟩ := hall c hm
      simp [HandlesOne, hr] at hy
    obtain ⟨k, hk⟩ : ∃ k, serverLoop srv τ s parent (n + 1) σ = .wait .select (anyMsg τ) none k := ⟨_, rfl⟩
    rw [hk] at h
    have hwait : ∃ os1 kind m os2, GotAt ser s (anyMsg τ) k w os l os1 kind m os2 ∧ ¬ msgIs y m ∧
        ((∃ u ox v, os = u ++ ox :: v ∧ (∀ o ∈ u ++ [ox], ¬ Sends ser τ y o) ∧ Lands ser τ x s (run ser w u) ox ∧
          ∃ u', u = os1 ++ .recv s (anyMsg τ) kind :: u' ∧ NoneSent τ y s (step ser (run ser w os1) (.recv s (anyMsg τ) kind)).1) ∨
          msgIs x m ∨ Lead τ x y s true (step ser (run ser w os1) (.recv s (anyMsg τ) kind)).1) := by
      rcases hst with hL | ⟨hcl, u, ox, v, hos, hno, hla⟩
      · obtain ⟨os1, kind, m, os2, h1, h2, h3⟩ := wait_ahead (f := fun _ => true) (s := true) hdis (fun _ _ => rfl) h hcoh (.inl ⟨rfl, hL⟩)
        exact ⟨os1, kind, m, os2, h1, h2, .inr h3⟩
      · obtain ⟨os1, kind, m, os2, h1, h2, h3⟩ := wait_unsent (f := fun _ => true) (s := true) hdis (fun _ _ => rfl) h (by simp) hcoh hcl hos hno hla
        refine ⟨os1, kind, m, os2, h1, h2, ?_⟩
        rcases h3 with h3 | h3
        · exact .inl ⟨u, ox, v, hos, hno, hla, h3⟩
        · exact .inr h3
    obtain ⟨os1, kind, m, os2, he, hny, hcase⟩ := hwait
    have htail := round_tail (Q := fun o => ∀ it, readsAs τ x it = true → asMsg o.τ it = none) hk he.rest
      (fun σ m w os r h o k hm it hi => hlr.cast σ m w os r h o k hm it hi)
      (fun σ m frm w os r h o k hm it hi => hlr.call σ m frm w os r h o k hm it hi)
      (fun σ m w os r h o k hm it hi => hlr.info σ m w os r h o k hm it hi)
    rcases htail with ⟨-, hall⟩ | ⟨c0, rest, hl0, hcb, hrest⟩
    · exact (term hall (by rw [hl]; simp)).elim
    rw [hl0] at hl
    cases cs1 with
    | nil =>
      simp at hl
      obtain ⟨rfl, rfl⟩ := hl
      exact absurd (handles_of_msg hcb hy) hny
    | cons z cs1 =>
      simp at hl
      obtain ⟨rfl, rfl⟩ := hl
      by_cases hxm : msgIs x m
      · exact ⟨c0, by simp, msg_handles hreq hcb hxm⟩
      rcases hrest with ⟨-, hrest⟩ | ⟨b1, b2, l', hos2, hq, hx, hl'⟩
      · exact (term hrest (by simp)).elim
      have heq := he.eq
      rw [hos2] at heq
      have hcoh1 : Coherent τ b1 := fun i ro k hm => hcoh i ro k (by rw [heq]; simp [hm])
      have hcoh2 : Coherent τ b2 := fun i ro k hm => hcoh i ro k (by rw [heq]; simp [hm])
      have walk : ∀ (b1' : List (Op B V)) (w' : World B V), (∀ i ro k, .recv i ro k ∈ b1' → .recv i ro k ∈ b1) → Lead τ x y s true w' → Lead τ x y s true (run ser w' b1') := by
        intro b1' w' hsub h3
        have : ∀ ro k, .recv s ro k ∈ b1' → ∀ it, readsAs τ x it = true → asMsg ro.τ it = none := fun ro k hm => hq ro k (hsub _ _ _ hm)
        have hc' : Coherent τ b1' := fun i ro k hm => hcoh1 i ro k (hsub _ _ _ hm)
        clear hsub
        induction b1' generalizing w' with
        | nil => exact h3
        | cons o b ihb =>
          rw [run_cons]
          refine ihb _ ?_ (fun ro k hm => this ro k (.tail _ hm)) (coherent_tail hc')
          by_cases hr : ∃ ro k, o = .recv s ro k
          · obtain ⟨ro, k, rfl⟩ := hr
            cases hrun : running w' s with
            | false =>
              have : (step ser w' (.recv s ro k)).1 = w' := by simp [step, Op.caller, hrun]
              rw [this]; exact h3
            | true =>
              rcases recv_lead_gen h3 ser hrun ro k (looks_blind x y (hc' s ro k List.mem_cons_self) (this ro k List.mem_cons_self)) (fun _ m hm => hm.elim) with ⟨_, -, hf⟩ | h
              · exact hf.elim
              · exact h
          · exact lead_step h3 ser o fun ro k he => hr ⟨ro, k, he⟩
      have hstage : Lead τ x y s true (run ser (step ser (run ser w os1) (.recv s (anyMsg τ) kind)).1 b1) ∨
          NoneSent τ y s (run ser (step ser (run ser w os1) (.recv s (anyMsg τ) kind)).1 b1) ∧ ∃ u ox v, b2 = u ++ ox :: v ∧ (∀ o ∈ u ++ [ox], ¬ Sends ser τ y o) ∧
            Lands ser τ x s (run ser (run ser (step ser (run ser w os1) (.recv s (anyMsg τ) kind)).1 b1) u) ox := by
        rcases hcase with ⟨u, ox, v, hos, hno, hla, u', rfl, hcl⟩ | hxm' | hL
        · rw [heq] at hos
          have hos' : b1 ++ b2 = u' ++ ox :: v := by
            have := hos
            simp only [List.append_assoc, List.cons_append] at this
            have := List.append_cancel_left this
            simpa using this
          have hla' : Lands ser τ x s (run ser (step ser (run ser w os1) (.recv s (anyMsg τ) kind)).1 u') ox := by
            have e : run ser w (os1 ++ .recv s (anyMsg τ) kind :: u') = run ser (step ser (run ser w os1) (.recv s (anyMsg τ) kind)).1 u' := by rw [run_append, run_cons]
            rw [← e]; exact hla
          generalize step ser (run ser w os1) (.recv s (anyMsg τ) kind) = w2 at *
          rcases List.append_eq_append_iff.1 hos' with ⟨z, rfl, hz⟩ | ⟨z, rfl, hz⟩
          · -- the message arrives after the callback
            refine .inr ⟨noneSent_run ser b1 hcl hcoh1 (fun o ho => hno o (by simp [ho])), z, ox, v, hz, ?_, by rw [← run_append]; exact hla'⟩
            intro o ho
            refine hno o ?_
            simp at ho ⊢
            rcases ho with h | h <;> simp [h]
          · cases z with
            | nil =>
              simp only [List.append_nil, List.nil_append] at *
              exact .inr ⟨noneSent_run ser u' hcl hcoh1 (fun o ho => hno o (by simp [ho])), [], ox, v, hz.symm, by
                intro o ho; simp at ho; subst ho; exact hno o (by simp), hla'⟩
            | cons o z =>
              simp only [List.cons_append, List.cons.injEq] at hz
              obtain ⟨rfl, rfl⟩ := hz
              left
              have hcl' := noneSent_run ser u' hcl (fun i ro k hm => hcoh1 i ro k (by simp [hm])) (fun o ho => hno o (by simp [ho]))
              have hne : ∀ ro k, ox ≠ .recv s ro k := by rintro ro k rfl; exact recv_lands hla'
              have := lands_lead hcl' ser ox hne (hno ox (by simp)) hla' true
              rw [run_append, run_cons]
              exact walk z _ (fun i ro k hm => by simp [hm]) this
        · exact absurd hxm' hxm
        · exact .inl (walk b1 _ (fun _ _ _ h => h) hL)
      obtain ⟨c', hc', hh⟩ := ih _ _ _ _ _ _ _ hx hcoh2 hl' hy hstage
      exact ⟨c', by simp [hc'], hh⟩

/-- C118. If the request `x` is put into the mailbox of a server before any request `y` is sent, then the server handles `x` before it
handles `y`: the log has no record of `y` that is not preceded by one of `x`. -/
theorem C118_server (ser : V → B) (srv : Server B V M S) (τ : RecvType B V (GMsg M)) (s : Nat) (parent : Pid) (G hs os : List (Op B V)) (σ : S)
    (n : Nat) (l : Log M S) (x y : GMsg M → Bool) (a c : List (Op B V)) (ox : Op B V) (hreq : ∀ g, x g = true → Request g)
    (hlr : LeavesRequests ser srv τ x s) (hcoh : Coherent τ G) (hs' : Serves ser srv τ s parent G hs os σ n l)
    (hG : hs ++ os = a ++ ox :: c) (hafter : hs <+: a) (he : Earlier ser τ x y s a ox)
    (cs1 cs2 : List (Record M S)) (r : Record M S) (hl : l.calls = cs1 ++ r :: cs2) (hy : HandlesOne y r) : ∃ r' ∈ cs1, HandlesOne x r' := by
  obtain ⟨z, hz⟩ := hs'.part
  have hcoh' : Coherent τ (hs ++ os) := fun i ro k hm => hcoh i ro k (by rw [← hz]; simp at hm ⊢; rcases hm with h | h <;> simp [h])
  obtain ⟨u, rfl⟩ := hafter
  have hos : os = u ++ ox :: c := by
    rw [List.append_assoc] at hG; exact List.append_cancel_left hG
  refine loop_order he.apart hreq hlr n _ _ _ _ _ _ _ hs'.loop (fun i ro k hm => hcoh' i ro k (by simp [hm])) hl hy (.inr ⟨?_, u, ox, c, hos, ?_, ?_⟩)
  · exact noneSent_run ser hs (noneSent_init τ y s) (fun i ro k hm => hcoh' i ro k (by simp [hm])) (fun o ho => he.none o (by simp [ho]))
  · intro o ho; exact he.none o (by simp at ho ⊢; rcases ho with h | h <;> simp [h])
  · rw [← run_append]; exact he.lands

/-- C118. Read your writes: if a cast was put into the mailbox of the server before a call began, and the call returned, then the server
handled the cast before the call. -/
theorem C118_cast_then_call (ser : V → B) (srv : Server B V M S) (τ : RecvType B V (GMsg M)) (s : Nat) (parent : Pid)
    (G hs os : List (Op B V)) (σ : S)
    (n : Nat) (l : Log M S) (pre ops : List (Op B V)) (me : Nat) (d : Dest) (m x : M) (t : Nat) (hr : Returns ser srv τ s)
    (hcoh : Coherent τ G) (hfor : NoForgery ser τ G) (hf : Faithful ser τ) (hs' : Serves ser srv τ s parent G hs os σ n l)
    (hc : Called ser τ G pre ops me d m x t) (hu : Unforged ser τ s G hs os pre ops me t)
    (a c : List (Op B V)) (q : Nat) (d' : Dest) (m' : M)
    (hlr : LeavesRequests ser srv τ (castOf m') s)
    (hG : hs ++ os = a ++ castMsg τ q d' m' :: c) (hafter : hs <+: a) (hbefore : a ++ [castMsg τ q d' m'] <+: pre)
    (hla : Lands ser τ (castOf m') s (run ser init a) (castMsg τ q d' m')) :
    ∃ cs1 r' cs2 r cs3, l.calls = cs1 ++ r' :: (cs2 ++ r :: cs3) ∧ r'.what = .cast m' ∧ Handled r me d m x t := by
  obtain ⟨cs1, r, cs2, hl, hh, -⟩ := C116_answered ser srv τ s parent G hs os σ n l pre ops me d m x t hr hcoh hfor hf hs' hc hu
  have := C118_server ser srv τ s parent G hs os σ n l (castOf m')
    (fun g => match g with | .call frm _ => decide (frm.tag = .loc t) | _ => false) a c (castMsg τ q d' m')
    (by intro g hg; cases g <;> simp_all [Request, castOf]) hlr hcoh hs' hG hafter ⟨by intro g hg; cases g <;> simp_all [castOf], hla, ?_⟩ cs1 cs2 r hl
    (by simp [HandlesOne, hh.1])
  · obtain ⟨r', hm, hx⟩ := this
    obtain ⟨e1, e2, rfl⟩ := List.append_of_mem hm
    refine ⟨e1, r', e2, r, cs2, by rw [hl]; simp, ?_, hh⟩
    unfold HandlesOne at hx
    split at hx
    · rename_i k hk; rw [hk]; simp [castOf] at hx; rw [hx]
    · simp [castOf] at hx
    · exact hx.elim
  · rintro o ho ⟨it, g, hsb, hrd, hg⟩
    cases g with
    | call frm k =>
      simp at hg
      obtain ⟨z, hz⟩ := hbefore
      obtain ⟨z', hz'⟩ := hc.part
      obtain ⟨u, v, huv⟩ := List.append_of_mem ho
      have := (hu.request u o (v ++ z ++ ops ++ z') it frm k (by rw [← hz', ← hz, huv]; simp) hsb hrd hg).2.1
      have h1 : (a ++ [castMsg τ q d' m']).length = (u ++ o :: v).length := by rw [huv]
      have h2 := congrArg List.length hz
      simp at h1 h2
      omega
    | _ => simp at hg


/-! ## Examples -/

theorem adder_leaves (x : GMsg Nat → Bool) : LeavesRequests noSer adder natServer x 2 := by
  have deaf : ∀ {R : Type} (r : R), Deaf noSer natServer x 2 (.ret r : Prog Nat (GMsg Nat) R) := by
    intro R r w os r' h o k ho
    exact absurd rfl ((exec_ret_inv h).2 _ ho).1
  refine ⟨fun _ _ => deaf _, ?_, fun _ _ => deaf _⟩
  intro σ m frm
  simp only [adder]
  split <;> exact deaf _

/-- The cast of process 3 is handled before the call of process 3, which sees its effect. -/
example := C118_cast_then_call _ _ _ _ _ _ _ _ _ _ _ _ _ _ _ _ _ _ adder_returns order_coherent order_noForgery natServer_faithful order_serves order_called2
  order_unforged2 (orderStart ++ ([.recv 2 anyNat .select] ++ orderCall1)) (.recv 2 anyNat .select :: orderCall2) 3 (.pid (.loc 2)) 5 (adder_leaves _) rfl
  ⟨_, rfl⟩ ⟨[.recv 2 anyNat .select], rfl⟩ ⟨[(2, .locl (.cast 5))], .locl (.cast 5), rfl, by simp, by simp [readsAs, castOf, natServer]⟩

/-- Two casts to process 2, which receives the first of them. -/
def twoCasts : List (Op Nat (GMsg Nat)) :=
  twoProcs ++ [castMsg natServer 1 (.pid (.loc 2)) 1, castMsg natServer 1 (.pid (.loc 2)) 2, .recv 2 anyNat .select]

def isCast (n : Nat) : GMsg Nat → Bool
  | .cast k => k == n
  | _ => false

theorem twoCasts_earlier : Earlier noSer natServer (isCast 1) (isCast 2) 2 twoProcs (castMsg natServer 1 (.pid (.loc 2)) 1) := by
  refine ⟨?_, ⟨[(2, .locl (.cast 1))], .locl (.cast 1), rfl, by simp, rfl⟩, ?_⟩
  · intro t h
    cases t <;> simp_all [isCast]
  · rintro o ho ⟨it, g, hs, hr, hg⟩
    have := sendsOf_eq hs hr
    simp [twoProcs, castMsg] at ho
    rcases ho with rfl | rfl | rfl
    · cases this
    · cases this
    · cases this; cases hg

theorem twoCasts_exec : Exec noSer 2 (run noSer init twoCasts) (receiveProg natServer (fun _ => true) true) [.recv 2 anyNat .select] (.user (.cast 2)) :=
  .got (m := .user (.cast 2)) rfl rfl (.ret _ _)

example : ∃ b o b', twoCasts = twoProcs ++ castMsg natServer 1 (.pid (.loc 2)) 1 :: (b ++ o :: b') ∧
    Takes natServer (isCast 1) 2 (run noSer init (twoProcs ++ castMsg natServer 1 (.pid (.loc 2)) 1 :: b)) o := by
  refine C118_order noSer natServer (isCast 1) (isCast 2) 2 twoProcs _ twoCasts [.recv 2 anyNat .select] (castMsg natServer 1 (.pid (.loc 2)) 1) (fun _ => true) true (.cast 2)
    rfl twoCasts_earlier ?_ ?_ (fun _ _ => rfl) twoCasts_exec rfl
  · intro a o k h b t' x h1
    simp only [twoCasts, twoProcs, castMsg, List.cons_append, List.nil_append, List.mem_cons, List.not_mem_nil, or_false, reduceCtorEq, false_or, anyNat] at h
    rcases h with h | h <;> cases h <;> cases h1
  · intro b ro k b' h
    have hm : Op.recv 2 ro k ∈ twoCasts := by rw [h]; simp
    simp only [twoCasts, twoProcs, castMsg, List.cons_append, List.nil_append, List.mem_cons, List.not_mem_nil, or_false, reduceCtorEq, false_or, anyNat] at hm
    cases hm
    exact .same _ _ _ (by simp)

end Verif.World
