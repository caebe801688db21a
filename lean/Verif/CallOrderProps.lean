import Verif.ServerProps
import Verif.OnceProps
import Verif.Sim
/-!
# Calls to one server are linearizable (C116)
-/
namespace Verif.World
open Verif.Mailbox
variable {B V M S R : Type}

/-! ## Specification -/

/-- In the history `G` of the node, after `hs`, the process `s` runs the loop of a server for `n` rounds, which take `os` and leave the log `l`. -/
structure Serves (ser : V → B) (srv : Server B V M S) (τ : RecvType B V (GMsg M)) (s : Nat) (parent : Pid) (G hs os : List (Op B V)) (σ : S)
    (n : Nat) (l : Log M S) : Prop where
  part : hs ++ os <+: G
  loop : Exec ser s (run ser init hs) (serverLoop srv τ s parent n σ) os l

/-- In the history `G`, after `pre`, the process `me` calls `d` with `m`; that takes `ops` and returns `x`. `t` is the reference that the
call made for itself. -/
structure Called (ser : V → B) (τ : RecvType B V (GMsg M)) (G pre ops : List (Op B V)) (me : Nat) (d : Dest) (m x : M) (t : Nat) : Prop where
  part : pre ++ ops <+: G
  call : Exec ser me (run ser init pre) (callProg τ me d m) ops (.ok x)
  tag : ∃ os1 os2, ops = os1 ++ callMon me d :: os2 ∧ (∀ o ∈ os1, Others me o) ∧ t = (run ser init (pre ++ os1)).nextRef

/-- Nobody misuses the reference of a call: requests that carry it are sent only by the caller, in the call, and
replies to it are sent only by the server `s` while its loop runs. -/
structure Unforged (ser : V → B) (τ : RecvType B V (GMsg M)) (s : Nat) (G hs os pre ops : List (Op B V)) (me t : Nat) : Prop where
  request : ∀ a o b it frm y, G = a ++ o :: b → SentBy ser o it → Reads τ it (.call frm y) → frm.tag = .loc t →
    o.caller = some me ∧ pre.length ≤ a.length ∧ a.length < pre.length + ops.length
  reply : ∀ a o b y, G = a ++ o :: b → Replies ser τ (.loc t) y o → o.caller = some s ∧ hs.length ≤ a.length ∧ a.length < hs.length + os.length

/-- Whatever happens, the program sends no replies to calls. -/
def Silent (ser : V → B) (τ : RecvType B V (GMsg M)) (s : Nat) (p : Prog B V R) : Prop :=
  ∀ w os r, Exec ser s w p os r → ∀ o ∈ os, o.caller = some s → ∀ t y, ¬ Replies ser τ (.loc t) y o

/-- The callbacks leave it to the loop to answer the calls: `handle_call` returns its replies. -/
structure Returns (ser : V → B) (srv : Server B V M S) (τ : RecvType B V (GMsg M)) (s : Nat) : Prop where
  cast : ∀ σ m, Silent ser τ s (srv.cast σ m)
  call : ∀ σ m frm, Silent ser τ s (srv.call σ m frm)
  info : ∀ σ m, Silent ser τ s (srv.info σ m)
  terminate : ∀ σ r, Silent ser τ s (srv.terminate σ r)

/-- Serialised messages of the server's type are read as what they were. -/
def Faithful (ser : V → B) (τ : RecvType B V (GMsg M)) : Prop := ∀ g g', τ.deser (ser (τ.box g)) = some g' → g' = g

/-- The record of the call: the server handled this very request with `handle_call`, which returned `x`. -/
def Handled (c : Record M S) (me : Nat) (d : Dest) (m x : M) (t : Nat) : Prop :=
  c.what = .call m ⟨.loc me, .loc t, !destLocal d⟩ ∧ c.result = .ok (some x)

/-- The record is that of a request with the reference `t`. -/
def ForCall (t : Nat) (c : Record M S) : Prop := ∃ m frm, c.what = .call m frm ∧ frm.tag = .loc t

/-- Every callback computes the function `δ` of the server's state and its arguments, whatever else it does. -/
structure Computes (ser : V → B) (srv : Server B V M S) (s : Nat) (δ : S → Invoke M → S × Except ExitReason (Option M)) : Prop where
  cast : ∀ σ m w os r, Exec ser s w (srv.cast σ m) os r → (r.1, noReply r.2) = δ σ (.cast m)
  call : ∀ σ m frm w os r, Exec ser s w (srv.call σ m frm) os r → r = δ σ (.call m frm)
  info : ∀ σ m w os r, Exec ser s w (srv.info σ m) os r → (r.1, noReply r.2) = δ σ (.info m)
  terminate : ∀ σ e w os r, Exec ser s w (srv.terminate σ e) os r → r = (δ σ (.terminate e)).1

/-- The records are a run of `δ`, one invocation after the other, from state `σ`. -/
def Sequential (δ : S → Invoke M → S × Except ExitReason (Option M)) : S → List (Record M S) → Prop
  | _, [] => True
  | σ, c :: cs => c.before = σ ∧ c.after = (δ σ c.what).1 ∧ ((∀ e, c.what ≠ .terminate e) → c.result = (δ σ c.what).2) ∧ Sequential δ c.after cs

/-! ## Lemmas -/

theorem append_past {A : Type _} {x : A} : ∀ {l1 l2 a b : List A}, l1 ++ l2 = a ++ x :: b → x ∉ l1 → ∃ a', a = l1 ++ a' ∧ l2 = a' ++ x :: b
  | [], _, a, _, h, _ => ⟨a, rfl, h⟩
  | y :: l1, l2, [], b, h, hx => by simp at h; exact absurd h.1 (fun he => hx (by simp [he]))
  | y :: l1, l2, z :: a, b, h, hx => by
      simp at h
      obtain ⟨a', h1, h2⟩ := append_past h.2 (fun hm => hx (.tail _ hm))
      exact ⟨a', by simp [h.1, h1], h2⟩

theorem append_before {A : Type _} {x : A} : ∀ {a b l1 l2 : List A}, l1 ++ l2 = a ++ x :: b → x ∉ l2 → ∃ b', l1 = a ++ x :: b' ∧ b = b' ++ l2
  | a, b, [], l2, h, hx => by simp at h; exact absurd (by rw [h]; simp) hx
  | [], b, y :: l1, l2, h, _ => by simp at h; exact ⟨l1, by simp [h.1], h.2.symm⟩
  | z :: a, b, y :: l1, l2, h, hx => by
      simp at h
      obtain ⟨b', h1, h2⟩ := append_before h.2 hx
      exact ⟨b', by simp [h.1, h1], h2⟩

theorem exec_more {ser : V → B} {me : Nat} {w : World B V} {p : Prog B V R} {os os' : List (Op B V)} {r : R}
    (h : Exec ser me w p os r) (ho : ∀ o ∈ os', Others me o) : Exec ser me w p (os ++ os') r := by
  induction h with
  | ret w r =>
    induction os' generalizing w with
    | nil => exact .ret _ _
    | cons x os' ih => exact .env (ho x List.mem_cons_self) (ih (fun o h => ho o (.tail _ h)) _)
  | env h _ ih => exact .env h ih
  | op h _ ih => exact .op h ih
  | got h1 h2 _ ih => exact .got h1 h2 ih
  | pending h1 h2 _ ih => exact .pending h1 h2 ih
  | elapsed _ ih => exact .elapsed ih

theorem exec_bind {ser : V → B} {me : Nat} {w : World B V} {R' : Type} {p : Prog B V R} {k : R → Prog B V R'} {os os' : List (Op B V)} {r : R} {r' : R'}
    (h : Exec ser me w p os r) (h' : Exec ser me (run ser w os) (k r) os' r') : Exec ser me w (p.bind k) (os ++ os') r' := by
  induction h with
  | ret => rw [bind_ret]; exact h'
  | env ho _ ih => exact .env ho (ih h')
  | op hr _ ih => rw [bind_op]; exact .op hr (ih h')
  | got hr hm _ ih => rw [bind_wait]; exact .got hr hm (ih h')
  | pending hr hm _ ih => rw [bind_wait]; exact .pending hr hm (by rw [← bind_wait]; exact ih h')
  | elapsed _ ih => rw [bind_wait]; exact .elapsed (ih h')

theorem exec_envs {ser : V → B} {me : Nat} {p : Prog B V R} {os os' : List (Op B V)} {r : R} (ho : ∀ o ∈ os, Others me o) :
    ∀ {w : World B V}, Exec ser me (run ser w os) p os' r → Exec ser me w p (os ++ os') r := by
  induction os with
  | nil => exact fun h => h
  | cons x os ih => exact fun h => .env (ho x List.mem_cons_self) (ih (fun o h => ho o (.tail _ h)) h)

/-- What happens up to a message does not depend on what is done with it. -/
theorem exec_wait_again {ser : V → B} {me : Nat} {w : World B V} {kind : RecvKind} {o : RecvOp B V} {k : Msg o.T → Prog B V R} {r : R} {os : List (Op B V)}
    (h : Exec ser me w (.wait kind o none k) os r) :
    ∃ os1 kind' m os3, os = os1 ++ .recv me o kind' :: os3 ∧ (∀ x ∈ os1, Waiting me o x) ∧ received (run ser w os1) me o kind' = some m ∧
      Exec ser me (step ser (run ser w os1) (.recv me o kind')).1 (k m) os3 r ∧
      ∀ (k' : Msg o.T → Prog B V R) os3' r', Exec ser me (step ser (run ser w os1) (.recv me o kind')).1 (k' m) os3' r' →
        Exec ser me w (.wait kind o none k') (os1 ++ .recv me o kind' :: os3') r' := by
  generalize hp : (Prog.wait kind o none k : Prog B V R) = p at h
  induction h generalizing kind with
  | @env w p o' os r ho _ ih =>
    obtain ⟨os1, kind', m, os3, rfl, h1, h2, h3, h4⟩ := ih hp
    refine ⟨o' :: os1, kind', m, os3, rfl, ?_, h2, h3, fun k' os3' r' hx => .env ho (h4 k' os3' r' hx)⟩
    intro x hm; rcases List.mem_cons.1 hm with rfl | hm
    · exact .inl ho
    · exact h1 x hm
  | got hr hm hx _ => cases hp; exact ⟨[], _, _, _, rfl, by simp, hm, hx, fun k' os3' r' hx' => .got hr hm hx'⟩
  | @pending w kind' o' t' k' os r hr hn _ ih =>
    cases hp
    obtain ⟨os1, kind'', m, os3, rfl, h1, h2, h3, h4⟩ := ih rfl
    refine ⟨.recv me _ kind' :: os1, kind'', m, os3, rfl, ?_, h2, h3, fun k' os3' r' hx => .pending hr hn (h4 k' os3' r' hx)⟩
    intro x hm; rcases List.mem_cons.1 hm with rfl | hm
    · exact .inr ⟨_, rfl⟩
    · exact h1 x hm
  | _ => cases hp

/-- What is known when the server `s` sends the reply `o` at the end of `a`: it has received a request, its `handle_call` returned the reply,
and from there the loop goes on. `E k` says what the same program does if it stops after `k` messages: here, it stops after the reply. -/
def AnsweredAt (ser : V → B) (srv : Server B V M S) (τ : RecvType B V (GMsg M)) (s : Nat) (parent : Pid) (E : Nat → List (Op B V) → Log M S → Prop)
    (w : World B V) (a : List (Op B V)) (o : Op B V) (b : List (Op B V)) (l : Log M S) : Prop :=
  ∃ cs c n' l' m frm x, Exec ser s (run ser w (a ++ [o])) (serverLoop srv τ s parent n' c.after) b l' ∧ l.calls = cs ++ c :: l'.calls ∧
    c.what = .call m frm ∧ c.result = .ok (some x) ∧ o = replyOp τ s frm x ∧ E (cs.length + 1) (a ++ [o]) ⟨cs ++ [c], none, c.after⟩ ∧
    ∃ a1 kind a2, a = a1 ++ .recv s (anyMsg τ) kind :: a2 ∧ received (run ser w a1) s (anyMsg τ) kind = some (.user (.call frm m)) ∧
      ∃ a3 e, a2 = a3 ++ e ∧ (∀ o ∈ e, Others s o) ∧
        Exec ser s (run ser w (a1 ++ [.recv s (anyMsg τ) kind])) (srv.call c.before m frm) a3 (c.after, c.result)

/-- The program executes no operation of `Q`. -/
def Mute (ser : V → B) (s : Nat) (Q : Op B V → Prop) (p : Prog B V R) : Prop :=
  ∀ w os r, Exec ser s w p os r → ∀ o ∈ os, o.caller = some s → ¬ Q o

/-- No callback executes an operation of `Q`; they are sends. -/
structure Mutes (ser : V → B) (srv : Server B V M S) (s : Nat) (Q : Op B V → Prop) : Prop where
  cast : ∀ σ m, Mute ser s Q (srv.cast σ m)
  call : ∀ σ m frm, Mute ser s Q (srv.call σ m frm)
  info : ∀ σ m, Mute ser s Q (srv.info σ m)
  terminate : ∀ σ r, Mute ser s Q (srv.terminate σ r)
  sends : ∀ o, Q o → ∃ it, SentBy ser o it

theorem Returns.mutes {ser : V → B} {srv : Server B V M S} {τ : RecvType B V (GMsg M)} {s : Nat} (h : Returns ser srv τ s) :
    Mutes ser srv s (fun o => ∃ t y, Replies ser τ (.loc t) y o) where
  cast σ m w os r hx o ho hc := fun ⟨t, y, hr⟩ => h.cast σ m w os r hx o ho hc t y hr
  call σ m frm w os r hx o ho hc := fun ⟨t, y, hr⟩ => h.call σ m frm w os r hx o ho hc t y hr
  info σ m w os r hx o ho hc := fun ⟨t, y, hr⟩ => h.info σ m w os r hx o ho hc t y hr
  terminate σ e w os r hx o ho hc := fun ⟨t, y, hr⟩ => h.terminate σ e w os r hx o ho hc t y hr
  sends := fun o ⟨_, _, it, h, _⟩ => ⟨it, h⟩

theorem replies_send {ser : V → B} {o : Op B V} {s : Nat} (h : ∃ it, SentBy ser o it)
    (hc : o.caller = some s) (h2 : (∃ ro kind, o = .recv s ro kind) ∨ (∃ p r, o = .exit s p r) ∨ o = .finish s ∨ Others s o) : False := by
  obtain ⟨it, hs⟩ := h
  rcases h2 with ⟨_, _, rfl⟩ | ⟨_, _, rfl⟩ | rfl | h2
  · cases hs
  · cases hs
  · cases hs
  · exact h2.1 hc

theorem answered_pre {ser : V → B} {srv : Server B V M S} {τ : RecvType B V (GMsg M)} {s : Nat} {parent : Pid} {w : World B V} {pre a : List (Op B V)}
    {o : Op B V} {b : List (Op B V)} {l : Log M S} {E E' : Nat → List (Op B V) → Log M S → Prop} (hE : ∀ k os l, E k os l → E' k (pre ++ os) l)
    (h : AnsweredAt ser srv τ s parent E (run ser w pre) a o b l) : AnsweredAt ser srv τ s parent E' w (pre ++ a) o b l := by
  obtain ⟨cs', c, n', l'', m, frm, x, h1, h2, h3, h4, h5, h8, a1, kind, a2, h6, h7, a3, e, h9, h10, h11⟩ := h
  refine ⟨cs', c, n', l'', m, frm, x, ?_, h2, h3, h4, h5, by rw [List.append_assoc]; exact hE _ _ _ h8, pre ++ a1, kind, a2, by rw [h6]; simp,
    by rw [run_append]; exact h7, a3, e, h9, h10, by rw [List.append_assoc, run_append]; exact h11⟩
  rw [List.append_assoc, run_append]; exact h1

/-- No reply is sent while the server ends. -/
theorem finish_silent {ser : V → B} {srv : Server B V M S} {s : Nat} {Q : Op B V → Prop} (hr : Mutes ser srv s Q) {w : World B V} {σ : S}
    {r : ExitReason} {done : List (Record M S)} {a : List (Op B V)} {o : Op B V} {b : List (Op B V)} {l : Log M S}
    (h : Exec ser s w (finishServer srv s σ r done) (a ++ o :: b) l) (hc : o.caller = some s) (ho : Q o) : False := by
  obtain ⟨os1, os2, σ', he, h1, h2⟩ := exec_bind_inv h
  obtain ⟨os3, os4, rfl, h3, -, h4⟩ := exec_op_inv h2
  obtain ⟨os5, os6, rfl, h5, -, h6⟩ := exec_op_inv h4
  have h7 := (exec_ret_inv h6).2
  have hm : o ∈ os1 ++ (os3 ++ .exit s (.loc s) r :: (os5 ++ .finish s :: os6)) := by rw [← he]; simp
  simp only [List.mem_append, List.mem_cons] at hm
  rcases hm with hm | hm | hm | hm | hm | hm
  · exact hr.terminate _ _ _ _ _ h1 o hm hc ho
  · exact replies_send (hr.sends _ ho) hc (.inr (.inr (.inr (h3 o hm))))
  · exact replies_send (hr.sends _ ho) hc (.inr (.inl ⟨_, _, hm⟩))
  · exact replies_send (hr.sends _ ho) hc (.inr (.inr (.inr (h5 o hm))))
  · exact replies_send (hr.sends _ ho) hc (.inr (.inr (.inl hm)))
  · exact replies_send (hr.sends _ ho) hc (.inr (.inr (.inr (h7 o hm))))

/-- The rest of a round. -/
theorem after_answered {ser : V → B} {srv : Server B V M S} {τ : RecvType B V (GMsg M)} {s : Nat} {parent : Pid} {Q : Op B V → Prop} (hr : Mutes ser srv s Q) {n : Nat}
    (ih : ∀ (w : World B V) σ a o b l, Exec ser s w (serverLoop srv τ s parent n σ) (a ++ o :: b) l → o.caller = some s →
      Q o → AnsweredAt ser srv τ s parent (fun k os l => Exec ser s w (serverLoop srv τ s parent k σ) os l) w a o b l)
    {w : World B V} {c : Record M S} {a : List (Op B V)} {o : Op B V} {b : List (Op B V)} {l : Log M S}
    (h : Exec ser s w (afterCallback srv s c (serverLoop srv τ s parent n c.after)) (a ++ o :: b) l) (hc : o.caller = some s)
    (ho : Q o) : AnsweredAt ser srv τ s parent (fun k os l => ∃ k', k = k' + 1 ∧ Exec ser s w (afterCallback srv s c (serverLoop srv τ s parent k' c.after)) os l) w a o b l := by
  cases hres : c.result with
  | error r =>
    simp only [afterCallback, hres] at h
    exact (finish_silent hr h hc ho).elim
  | ok x =>
    simp only [afterCallback, hres] at h ⊢
    obtain ⟨os3, os4, l', he, hx, hl⟩ := exec_bind_inv h
    obtain ⟨rfl, hoth⟩ := exec_ret_inv hl
    obtain ⟨b', rfl, rfl⟩ := append_before he.symm (fun hm => (hoth o hm).1 hc)
    obtain ⟨cs, c', n', l'', m, frm, x, h1, h2, h3, h4, h5, h6, h7⟩ := ih _ _ _ _ _ _ hx hc ho
    refine ⟨c :: cs, c', n', l'', m, frm, x, exec_more h1 hoth, by simp [h2], h3, h4, h5, ⟨cs.length + 1, by simp, ?_⟩, h7⟩
    have := exec_bind (k := fun l => .ret { l with calls := c :: l.calls }) h6 (os' := []) (r' := ⟨c :: (cs ++ [c']), none, c'.after⟩) (.ret _ _)
    simpa using this

/-- What the loop does with a message. -/
def roundOf (srv : Server B V M S) (τ : RecvType B V (GMsg M)) (me : Nat) (parent : Pid) (n : Nat) (σ : S) : Msg (GMsg M) → Prog B V (Log M S) := fun m =>
  match m with
  | .user (.cast x) => (srv.cast σ x).bind fun q =>
      afterCallback srv me ⟨.cast x, σ, q.1, noReply q.2⟩ (serverLoop srv τ me parent n q.1)
  | .user (.call frm x) => (srv.call σ x frm).bind fun q =>
      match q.2 with
      | .ok (some reply) => .op (replyOp τ me frm reply) fun _ =>
          afterCallback srv me ⟨.call x frm, σ, q.1, q.2⟩ (serverLoop srv τ me parent n q.1)
      | _ => afterCallback srv me ⟨.call x frm, σ, q.1, q.2⟩ (serverLoop srv τ me parent n q.1)
  | .user (.callReply _ x) => (srv.info σ (.user x)).bind fun q =>
      afterCallback srv me ⟨.info (.user x), σ, q.1, noReply q.2⟩ (serverLoop srv τ me parent n q.1)
  | .user (.stop r) => finishServer srv me σ r []
  | .system (.exit p r) =>
      if p = parent then finishServer srv me σ r []
      else (srv.info σ (.system (.exit p r))).bind fun q =>
        afterCallback srv me ⟨.info (.system (.exit p r)), σ, q.1, noReply q.2⟩ (serverLoop srv τ me parent n q.1)
  | .system s => (srv.info σ (.system s)).bind fun q =>
      afterCallback srv me ⟨.info (.system s), σ, q.1, noReply q.2⟩ (serverLoop srv τ me parent n q.1)

theorem serverLoop_succ (srv : Server B V M S) (τ : RecvType B V (GMsg M)) (me : Nat) (parent : Pid) (n : Nat) (σ : S) :
    serverLoop srv τ me parent (n + 1) σ = .wait .select ⟨GMsg M, τ, fun _ => true, true⟩ none (roundOf srv τ me parent n σ) := by
  unfold serverLoop
  congr 1
  funext m
  rcases m with (_ | _ | _ | _) | (_ | _ | _)
  · rfl
  · simp only [roundOf]
    congr 1
  all_goals rfl

theorem loop_answered {ser : V → B} {srv : Server B V M S} {τ : RecvType B V (GMsg M)} {s : Nat} {parent : Pid} {Q : Op B V → Prop} (hr : Mutes ser srv s Q) (n : Nat) :
    ∀ (w : World B V) σ a o b l, Exec ser s w (serverLoop srv τ s parent n σ) (a ++ o :: b) l → o.caller = some s →
      Q o → AnsweredAt ser srv τ s parent (fun k os l => Exec ser s w (serverLoop srv τ s parent k σ) os l) w a o b l := by
  induction n with
  | zero =>
    intro w σ a o b l h hc ho
    have := (exec_ret_inv h).2 o (by simp)
    exact absurd hc this.1
  | succ n ih =>
    intro w σ a o b l h hc ho
    obtain ⟨os1, kind, m, os3, he, hw, hrec, hx, hag⟩ := exec_wait_again h
    obtain ⟨a', rfl, he2⟩ := append_past he.symm (by
      intro hm
      rcases hw o hm with h | ⟨k, h⟩
      · exact h.1 hc
      · exact replies_send (hr.sends _ ho) hc (.inl ⟨_, _, h⟩))
    cases a' with
    | nil => simp at he2; exact (replies_send (hr.sends _ ho) hc (.inl ⟨_, _, he2.1.symm⟩)).elim
    | cons z a' =>
    simp at he2
    obtain ⟨rfl, rfl⟩ := he2
    have e1 : (step ser (run ser w os1) (.recv s (anyMsg τ) kind)).1 = run ser w (os1 ++ [.recv s (anyMsg τ) kind]) := by
      rw [run_append]; rfl
    have el : ∀ z : List (Op B V), os1 ++ .recv s (anyMsg τ) kind :: z = (os1 ++ [.recv s (anyMsg τ) kind]) ++ z := by simp
    show AnsweredAt ser srv τ s parent _ w (os1 ++ .recv s (anyMsg τ) kind :: a') o b l
    rw [el]
    -- a callback that does not answer
    have plain : ∀ (p : Prog B V (S × Except ExitReason Unit)) (f : S × Except ExitReason Unit → Record M S), Mute ser s Q p →
        (∀ k os l, Exec ser s (run ser w (os1 ++ [.recv s (anyMsg τ) kind])) (p.bind fun q => afterCallback srv s (f q) (serverLoop srv τ s parent k (f q).after)) os l →
          Exec ser s w (serverLoop srv τ s parent (k + 1) σ) ((os1 ++ [.recv s (anyMsg τ) kind]) ++ os) l) →
        Exec ser s (run ser w (os1 ++ [.recv s (anyMsg τ) kind])) (p.bind fun q => afterCallback srv s (f q) (serverLoop srv τ s parent n (f q).after)) (a' ++ o :: b) l →
        AnsweredAt ser srv τ s parent (fun k os l => Exec ser s w (serverLoop srv τ s parent k σ) os l) w (os1 ++ [.recv s (anyMsg τ) kind] ++ a') o b l := by
      intro p f hp hb hx
      obtain ⟨c1, c2, q, hc1, h1, h2⟩ := exec_bind_inv hx
      obtain ⟨a'', rfl, rfl⟩ := append_past hc1.symm (fun hm => hp _ _ _ h1 o hm hc ho)
      have := after_answered hr ih h2 hc ho
      rw [← run_append] at this
      rw [← List.append_assoc]
      refine answered_pre ?_ this
      rintro k os l ⟨k', rfl, hk⟩
      rw [List.append_assoc]
      exact hb k' _ _ (exec_bind h1 (by rw [← run_append]; exact hk))
    dsimp only [anyMsg] at m hrec hx hag
    have e1' : (step ser (run ser w os1) (.recv s ⟨GMsg M, τ, fun _ => true, true⟩ kind)).1 = run ser w (os1 ++ [.recv s (anyMsg τ) kind]) := e1
    rw [e1'] at hx
    have back : ∀ k os l, Exec ser s (run ser w (os1 ++ [.recv s (anyMsg τ) kind])) (roundOf srv τ s parent k σ m) os l →
        Exec ser s w (serverLoop srv τ s parent (k + 1) σ) ((os1 ++ [.recv s (anyMsg τ) kind]) ++ os) l := by
      intro k os l hx
      rw [List.append_assoc, serverLoop_succ]
      exact hag (roundOf srv τ s parent k σ) os l (by rw [e1']; exact hx)
    match m, hx, hrec, back with
    | .user (.cast x), hx, _, back => exact plain _ (fun q => ⟨.cast x, σ, q.1, noReply q.2⟩) (hr.cast _ _) back hx
    | .user (.callReply _ x), hx, _, back => exact plain _ (fun q => ⟨.info (.user x), σ, q.1, noReply q.2⟩) (hr.info _ _) back hx
    | .user (.stop r), hx, _, _ => exact (finish_silent hr hx hc ho).elim
    | .system (.exit p r), hx, _, back =>
      simp only [roundOf] at back
      dsimp only at hx
      split at hx
      · exact (finish_silent hr hx hc ho).elim
      · rename_i hne
        simp only [if_neg hne] at back
        exact plain _ (fun q => ⟨.info (.system (.exit p r)), σ, q.1, noReply q.2⟩) (hr.info _ _) back hx
    | .system (.processDown d r e), hx, _, back => exact plain _ (fun q => ⟨.info (.system (.processDown d r e)), σ, q.1, noReply q.2⟩) (hr.info _ _) back hx
    | .system (.nodeDown d r), hx, _, back => exact plain _ (fun q => ⟨.info (.system (.nodeDown d r)), σ, q.1, noReply q.2⟩) (hr.info _ _) back hx
    | .user (.call frm x), hx, hrec, back =>
      obtain ⟨c1, c2, q, hc1, h1, h2⟩ := exec_bind_inv hx
      obtain ⟨a'', rfl, rfl⟩ := append_past hc1.symm (fun hm => hr.call _ _ _ _ _ _ h1 o hm hc ho)
      rw [← run_append] at h2
      rw [← List.append_assoc]
      obtain ⟨σ', res⟩ := q
      have other : ∀ {w' : World B V} {a b : List (Op B V)}, Exec ser s w' (afterCallback srv s ⟨.call x frm, σ, σ', res⟩ (serverLoop srv τ s parent n σ')) (a ++ o :: b) l →
          AnsweredAt ser srv τ s parent (fun k os l => ∃ k', k = k' + 1 ∧
            Exec ser s w' (afterCallback srv s ⟨.call x frm, σ, σ', res⟩ (serverLoop srv τ s parent k' σ')) os l) w' a o b l :=
        fun h => after_answered hr ih h hc ho
      match res, h2, h1 with
      | .error r, h2, h1 =>
        refine answered_pre ?_ (other h2)
        rintro k os l ⟨k', rfl, hk⟩
        rw [List.append_assoc]
        exact back k' _ _ (exec_bind h1 (by rw [← run_append]; exact hk))
      | .ok none, h2, h1 =>
        refine answered_pre ?_ (other h2)
        rintro k os l ⟨k', rfl, hk⟩
        rw [List.append_assoc]
        exact back k' _ _ (exec_bind h1 (by rw [← run_append]; exact hk))
      | .ok (some reply), h2, h1 =>
        obtain ⟨e, e', hee, hoth, hrn, h3⟩ := exec_op_inv h2
        have again : ∀ k' os l, Exec ser s (step ser (run ser (run ser w (os1 ++ [.recv s (anyMsg τ) kind] ++ c1)) e) (replyOp τ s frm reply)).1
            (afterCallback srv s ⟨.call x frm, σ, σ', .ok (some reply)⟩ (serverLoop srv τ s parent k' σ')) os l →
            Exec ser s w (serverLoop srv τ s parent (k' + 1) σ) ((os1 ++ [.recv s (anyMsg τ) kind]) ++ (c1 ++ (e ++ replyOp τ s frm reply :: os))) l := by
          intro k' os l hk
          refine back k' _ _ (exec_bind h1 ?_)
          rw [← run_append]
          exact exec_envs hoth (.op hrn hk)
        obtain ⟨f, rfl, hf⟩ := append_past hee.symm (fun hm => (hoth o hm).1 hc)
        cases f with
        | nil =>
          simp at hf
          obtain ⟨rfl, rfl⟩ := hf
          simp only [afterCallback] at h3
          obtain ⟨os3, os4, l', rfl, hx', hl⟩ := exec_bind_inv h3
          obtain ⟨rfl, hoth'⟩ := exec_ret_inv hl
          have hrest := exec_more hx' hoth'
          refine ⟨[], ⟨.call x frm, σ, σ', .ok (some reply)⟩, n, l', x, frm, reply, ?_, rfl, rfl, rfl, rfl, ?_, os1, kind, c1 ++ e, by simp, hrec, c1, e, rfl, hoth, h1⟩
          · have : run ser w (os1 ++ [.recv s (anyMsg τ) kind] ++ c1 ++ (e ++ []) ++ [replyOp τ s frm reply]) =
                (step ser (run ser (run ser w (os1 ++ [.recv s (anyMsg τ) kind] ++ c1)) e) (replyOp τ s frm reply)).1 := by
              rw [List.append_nil, run_append, run_append]; rfl
            rw [this]; exact hrest
          · have := again 0 [] ⟨[⟨.call x frm, σ, σ', .ok (some reply)⟩], none, σ'⟩ (by
              simp only [afterCallback, serverLoop, bind_ret]; exact .ret _ _)
            simpa using this
        | cons z f =>
          simp at hf
          obtain ⟨rfl, rfl⟩ := hf
          have := other h3
          have e2 : (step ser (run ser (run ser w (os1 ++ [.recv s (anyMsg τ) kind] ++ c1)) e) (replyOp τ s frm reply)).1 =
              run ser w (os1 ++ [.recv s (anyMsg τ) kind] ++ c1 ++ (e ++ [replyOp τ s frm reply])) := by
            generalize os1 ++ [Op.recv s (anyMsg τ) kind] ++ c1 = z
            rw [run_append ser w z, run_append]; rfl
          rw [e2] at this
          have := answered_pre (E' := fun k os l => Exec ser s w (serverLoop srv τ s parent k σ) os l) (by
            rintro k os l ⟨k', rfl, hk⟩
            rw [← e2] at hk
            simpa using again k' _ _ hk) this
          simpa using this

theorem sentBy_read {ser : V → B} {τ : RecvType B V (GMsg M)} (hf : Faithful ser τ) {me : Nat} {ds : Dests} {g g' : GMsg M} {it : Item B V}
    (h : SentBy ser (.send me ds (τ.box g)) it) (hr : Reads τ it g') : g' = g := by
  cases h with
  | «local» => have h : τ.cast (τ.box g) = some g' := hr; rw [τ.cast_box] at h; exact (Option.some.inj h).symm
  | serial => exact hf _ _ hr

/-- The caller's own sends in a call: one request. -/
theorem call_sends {τ : RecvType B V (GMsg M)} {ser : V → B} {me : Nat} {w : World B V} {d : Dest} {m : M} {ops : List (Op B V)}
    {res : Except CallError M} (h : Exec ser me w (callProg τ me d m) ops res) :
    ∃ p1 p2 p3, ops = p1 ++ callMon me d :: (p2 ++ request τ me d (.loc (run ser w p1).nextRef) m :: p3) ∧
      (∀ o ∈ p1, Others me o) ∧ (∀ o ∈ p2, Others me o) ∧ (∀ o ∈ p3, o.caller = some me → ∀ it, ¬ SentBy ser o it) := by
  unfold callProg at h
  rw [callMon_eq] at h
  obtain ⟨os1, os', rfl, h1, hrun, h⟩ := exec_op_inv h
  have href : (step ser (run ser w os1) (callMon me d)).2 = .ref (.loc (run ser w os1).nextRef) :=
    congrArg Prod.snd (step_monOp ser (run ser w os1) me d _ hrun)
  rw [href] at h
  dsimp only at h
  obtain ⟨os2, os3, rfl, h2, -, h⟩ := exec_op_inv h
  refine ⟨os1, os2, os3, rfl, h1, h2, ?_⟩
  have oth : ∀ {l : List (Op B V)}, (∀ o ∈ l, Others me o) → ∀ o ∈ l, o.caller = some me → ∀ it, ¬ SentBy ser o it :=
    fun hl o ho hc => absurd hc (hl o ho).1
  obtain ⟨os4, os5, rfl, h4, h⟩ := exec_wait_inv h
  have h4' : ∀ o ∈ os4, o.caller = some me → ∀ it, ¬ SentBy ser o it := by
    intro o ho hc it hs
    rcases h4 o ho with h | ⟨k, rfl⟩
    · exact h.1 hc
    · cases hs
  have app : ∀ {l l' : List (Op B V)}, (∀ o ∈ l, o.caller = some me → ∀ it, ¬ SentBy ser o it) →
      (∀ o ∈ l', o.caller = some me → ∀ it, ¬ SentBy ser o it) → ∀ o ∈ l ++ l', o.caller = some me → ∀ it, ¬ SentBy ser o it := by
    intro l l' h1 h2 o ho
    rcases List.mem_append.1 ho with h | h
    · exact h1 o h
    · exact h2 o h
  have con : ∀ {o : Op B V} {l : List (Op B V)}, (∀ it, ¬ SentBy ser o it) →
      (∀ o ∈ l, o.caller = some me → ∀ it, ¬ SentBy ser o it) → ∀ x ∈ o :: l, x.caller = some me → ∀ it, ¬ SentBy ser x it := by
    intro o l h1 h2 x hx
    rcases List.mem_cons.1 hx with rfl | h
    · exact fun _ => h1
    · exact h2 x h
  refine app h4' ?_
  rcases h with ⟨k, m', os6, hm, rfl, -, hx⟩ | ⟨p, hp, hx⟩
  · refine con (fun it h => by cases h) ?_
    dsimp only at m' hm hx
    split at hx
    · obtain ⟨_, _, rfl, g1, -, hx⟩ := exec_op_inv hx
      exact app (oth g1) (con (fun it h => by cases h) (oth (exec_ret_inv hx).2))
    · exact oth (exec_ret_inv hx).2
    · exact oth (exec_ret_inv hx).2
  · simp at hp; subst hp
    obtain ⟨os6, os', rfl, h6, -, hx⟩ := exec_op_inv hx
    obtain ⟨os7, os8, rfl, h7, -, hx⟩ := exec_op_inv hx
    exact app (oth h6) (con (fun it h => by cases h) (app (oth h7) (con (fun it h => by cases h) (oth (exec_ret_inv hx).2))))

/-- Where the request of a call is in the history. -/
theorem request_at {ser : V → B} {τ : RecvType B V (GMsg M)} {s : Nat} {G hs os : List (Op B V)} {pre ops : List (Op B V)} {me : Nat} {d : Dest}
    {m x : M} {t : Nat} (hc : Called ser τ G pre ops me d m x t) (hu : Unforged ser τ s G hs os pre ops me t) :
    ∃ A C, G = A ++ request τ me d (.loc t) m :: C ∧ ∀ a o b it frm y, G = a ++ o :: b → SentBy ser o it → Reads τ it (.call frm y) →
      frm.tag = .loc t → o = request τ me d (.loc t) m ∧ a = A ∧ b = C := by
  obtain ⟨r1, hG1⟩ := hc.part
  obtain ⟨p1, p2, p3, he, hp1, hp2, hp3⟩ := call_sends hc.call
  obtain ⟨q1, q2, hq, hqo, ht⟩ := hc.tag
  have hcal : (callMon me d : Op B V).caller = some me := by unfold callMon; split <;> rfl
  have hpq : q1 = p1 := by
    have h1 : callMon me d ∉ q1 := fun hm => (hqo _ hm).1 hcal
    have h2 : callMon me d ∉ p1 := fun hm => (hp1 _ hm).1 hcal
    rw [hq] at he
    obtain ⟨a', hh1, hh2⟩ := append_past he h1
    cases a' with
    | nil => simp at hh1; exact hh1.symm
    | cons z a' => simp at hh2; exact absurd (by rw [hh1, hh2.1]; simp) h2
  subst hpq
  have ht' : (run ser (run ser init pre) q1).nextRef = t := by rw [ht, run_append]
  rw [ht'] at he
  have hGr : G = (pre ++ (q1 ++ callMon me d :: p2)) ++ request τ me d (.loc t) m :: (p3 ++ r1) := by rw [← hG1, he]; simp
  refine ⟨_, _, hGr, ?_⟩
  intro a o b it frm y hG hsb hrd htag
  obtain ⟨g1, g2, g3⟩ := hu.request a o b it frm y hG hsb hrd htag
  have key : a.length = (pre ++ (q1 ++ callMon me d :: p2)).length := by
    rcases Nat.lt_trichotomy a.length (pre ++ (q1 ++ callMon me d :: p2)).length with hlt | heq | hlt
    · -- before the request
      exfalso
      have hpre : a ++ [o] <+: pre ++ (q1 ++ callMon me d :: p2) :=
        List.prefix_of_prefix_length_le (l₃ := G) ⟨b, by rw [hG]; simp⟩ ⟨_, hGr.symm⟩ (by simp only [List.length_append, List.length_cons, List.length_nil] at hlt ⊢; omega)
      obtain ⟨z, hz⟩ := hpre
      have hpa : pre <+: a := List.prefix_of_prefix_length_le (l₃ := pre ++ (q1 ++ callMon me d :: p2)) (List.prefix_append ..) ⟨o :: z, by rw [← hz]; simp⟩ g2
      obtain ⟨a', rfl⟩ := hpa
      rw [List.append_assoc, List.append_assoc] at hz
      have hz := List.append_cancel_left hz
      have ho : o ∈ q1 ++ callMon me d :: p2 := by rw [← hz]; simp
      simp only [List.mem_append, List.mem_cons] at ho
      rcases ho with ho | ho | ho
      · exact (hp1 o ho).1 g1
      · subst ho
        unfold callMon monOp at hsb
        split at hsb
        · cases hsb
        · cases hsb
      · exact (hp2 o ho).1 g1
    · exact heq
    · -- after it
      exfalso
      have hpre : (pre ++ (q1 ++ callMon me d :: p2)) ++ [request τ me d (.loc t) m] <+: a :=
        List.prefix_of_prefix_length_le (l₃ := G) ⟨p3 ++ r1, by rw [hGr]; simp⟩ ⟨_, hG.symm⟩ (by simp only [List.length_append, List.length_cons, List.length_nil] at hlt ⊢; omega)
      obtain ⟨z, rfl⟩ := hpre
      have e : z ++ o :: b = p3 ++ r1 := by
        rw [hGr] at hG
        simp only [List.append_assoc, List.cons_append, List.nil_append] at hG
        have := List.append_cancel_left hG
        have := List.append_cancel_left this
        simp at this
        exact this.symm
      have hlen : z.length < p3.length := by
        rw [he] at g3; simp at g3; omega
      have hz : z ++ [o] <+: p3 :=
        List.prefix_of_prefix_length_le (l₃ := p3 ++ r1) ⟨b, by rw [← e]; simp⟩ (List.prefix_append ..) (by simp; omega)
      obtain ⟨z', hz'⟩ := hz
      exact hp3 o (by rw [← hz']; simp) g1 it hsb
  have hA := List.append_inj (hG.symm.trans hGr) key
  obtain ⟨h1, h2⟩ := hA
  simp at h2
  exact ⟨h2.1, h1, h2.2⟩

/-- Where in the history, and in the log, a call was answered, and where its request was handled. -/
theorem call_inside {ser : V → B} {srv : Server B V M S} {τ : RecvType B V (GMsg M)} {s : Nat} {parent : Pid} {G hs os : List (Op B V)} {σ : S}
    {n : Nat} {l : Log M S} {pre ops : List (Op B V)} {me : Nat} {d : Dest} {m x : M} {t : Nat} (hr : Returns ser srv τ s)
    (hcoh : Coherent τ G) (hfor : NoForgery ser τ G) (hf : Faithful ser τ) (hs' : Serves ser srv τ s parent G hs os σ n l)
    (hc : Called ser τ G pre ops me d m x t) (hu : Unforged ser τ s G hs os pre ops me t) :
    ∃ a o b cs c n' l', os = a ++ o :: b ∧ pre.length ≤ (hs ++ a).length ∧ (hs ++ a).length < (pre ++ ops).length ∧
      Exec ser s (run ser (run ser init hs) (a ++ [o])) (serverLoop srv τ s parent n' c.after) b l' ∧ l.calls = cs ++ c :: l'.calls ∧
      Handled c me d m x t ∧ Exec ser s (run ser init hs) (serverLoop srv τ s parent (cs.length + 1) σ) (a ++ [o]) ⟨cs ++ [c], none, c.after⟩ ∧
      ∃ a1 a2 e, a = a1 ++ (a2 ++ e) ∧ pre.length < (hs ++ a1).length ∧ (∀ o ∈ e, Others s o) ∧
        Exec ser s (run ser init (hs ++ a1)) (srv.call c.before m ⟨.loc me, .loc t, !destLocal d⟩) a2 (c.after, c.result) ∧ o = replyOp τ s ⟨.loc me, .loc t, !destLocal d⟩ x := by
  obtain ⟨r2, hG2⟩ := hs'.part
  obtain ⟨r1, hG1⟩ := hc.part
  have hcoh1 : Coherent τ (pre ++ ops) := fun a o k hm => hcoh a o k (by rw [← hG1]; exact List.mem_append_left _ hm)
  have hfor1 : NoForgery ser τ (pre ++ ops) := by
    intro os1 o os2 n m he hrep
    exact hfor os1 o (os2 ++ r1) n m (by rw [← hG1, he]; simp) hrep
  obtain ⟨os1, os2, os3, os4, o, t', he, ht', hoth, hreq, hrep, -⟩ := C56_reply τ ser pre ops me d m x hcoh1 hfor1 hc.call
  obtain ⟨p1, p2, hp, hpo, ht⟩ := hc.tag
  have htt : t' = t := by
    have hcal : (callMon me d : Op B V).caller = some me := by unfold callMon; split <;> rfl
    have h1 : callMon me d ∉ p1 := fun hm => (hpo _ hm).1 hcal
    have h2 : callMon me d ∉ os1 := fun hm => (hoth _ hm).1 hcal
    have : p1 = os1 := by
      rw [hp] at he
      rw [List.append_assoc] at he
      obtain ⟨a', hh1, hh2⟩ := append_past (l1 := p1) (l2 := callMon me d :: p2) (a := os1) (b := os2 ++ o :: os3 ++ os4) (x := callMon me d) (by simpa using he) h1
      cases a' with
      | nil => simp at hh1; exact hh1.symm
      | cons z a' => simp at hh2; exact absurd (by rw [hh1, hh2.1]; simp) h2
    rw [ht', ht, this]
  subst htt
  have hGo : G = (pre ++ (os1 ++ callMon me d :: os2)) ++ o :: (os3 ++ os4 ++ r1) := by rw [← hG1, he]; simp
  obtain ⟨hcal, hlo, hhi⟩ := hu.reply _ o _ x hGo hrep
  -- the position in the loop
  have hloc : ∃ a b, os = a ++ o :: b ∧ hs ++ a = pre ++ (os1 ++ callMon me d :: os2) := by
    have hEq : hs ++ (os ++ r2) = (pre ++ (os1 ++ callMon me d :: os2)) ++ o :: (os3 ++ os4 ++ r1) := by rw [← hGo, ← hG2]; simp
    have hpre : hs <+: pre ++ (os1 ++ callMon me d :: os2) := by
      refine List.prefix_of_prefix_length_le (l₃ := hs ++ (os ++ r2)) (List.prefix_append ..) ?_ hlo
      rw [hEq]; exact List.prefix_append ..
    obtain ⟨a, ha⟩ := hpre
    rw [← ha, List.append_assoc] at hEq
    have hEq := List.append_cancel_left hEq
    have hlen : a.length < os.length := by
      rw [← ha] at hhi; simp at hhi; omega
    have hpre2 : a ++ [o] <+: os := by
      refine List.prefix_of_prefix_length_le (l₃ := os ++ r2) ?_ (List.prefix_append ..) (by simp; omega)
      rw [hEq]; exact ⟨os3 ++ os4 ++ r1, by simp⟩
    obtain ⟨b, hb⟩ := hpre2
    exact ⟨a, b, by rw [← hb]; simp, ha⟩
  obtain ⟨a, b, rfl, hab⟩ := hloc
  obtain ⟨cs, c, n', l', m', frm, x', h1, h2, h3, h4, h5, h8, a1, kind, a2, h6, h7, a3, e, h9, h10, h11⟩ := loop_answered hr.mutes n _ σ a o b l hs'.loop hcal ⟨t', x, hrep⟩
  obtain ⟨it, hsb, hrd⟩ := hrep
  rw [h5] at hsb
  have hg := sentBy_read hf hsb hrd
  simp only [GMsg.callReply.injEq] at hg
  obtain ⟨htag, rfl⟩ := hg
  -- the request
  have hread : Readable τ (run ser init (hs ++ a1)) := by
    refine readable_run ser _ (fun z o k hm => hcoh z o k ?_)
    rw [← hG2, h6]
    rcases List.mem_append.1 hm with h | h <;> simp [h]
  rw [run_append] at hread
  obtain ⟨it2, hit2, hu2, hrd2⟩ := received_reads hread h7
  rw [← run_append] at hit2
  rcases sent_user_at ser _ init s it2 hu2 hit2 with h0 | ⟨z1, o2, z2, hz, hsb2⟩
  · simp [init] at h0
  · obtain ⟨A, C, -, hreqat⟩ := request_at hc hu
    obtain ⟨ho2, -⟩ := hreqat z1 o2 (z2 ++ .recv s (anyMsg τ) kind :: a2 ++ o :: b ++ r2) it2 frm m' (by
      rw [← hG2, h6]
      have : hs ++ (a1 ++ Op.recv s (anyMsg τ) kind :: a2 ++ o :: b) ++ r2 = (hs ++ a1) ++ (Op.recv s (anyMsg τ) kind :: a2 ++ o :: b ++ r2) := by simp
      rw [this, hz]; simp) hsb2 hrd2 htag.symm
    subst ho2
    have hg2 := sentBy_read hf hsb2 hrd2
    simp only [GMsg.call.injEq] at hg2
    obtain ⟨rfl, rfl⟩ := hg2
    refine ⟨a, o, b, cs, c, n', l', rfl, ?_, ?_, h1, h2, ⟨h3, h4⟩, h8, a1 ++ [.recv s (anyMsg τ) kind], a3, e, by rw [h6, h9]; simp, ?_, h10,
      by rw [run_append]; exact h11, h5⟩
    · rw [hab]; simp
    · rw [hab, he]; simp
    · have hlow := (hu.request z1 _ (z2 ++ .recv s (anyMsg τ) kind :: a2 ++ o :: b ++ r2) it2 _ _ (by
        rw [← hG2, h6]
        have : hs ++ (a1 ++ Op.recv s (anyMsg τ) kind :: a2 ++ o :: b) ++ r2 = (hs ++ a1) ++ (Op.recv s (anyMsg τ) kind :: a2 ++ o :: b ++ r2) := by simp
        rw [this, hz]; simp) hsb2 hrd2 rfl).2.1
      have := congrArg List.length hz
      simp at this ⊢
      omega

/-- Where in the history, and in the log, a call was answered. -/
theorem call_located {ser : V → B} {srv : Server B V M S} {τ : RecvType B V (GMsg M)} {s : Nat} {parent : Pid} {G hs os : List (Op B V)} {σ : S}
    {n : Nat} {l : Log M S} {pre ops : List (Op B V)} {me : Nat} {d : Dest} {m x : M} {t : Nat} (hr : Returns ser srv τ s)
    (hcoh : Coherent τ G) (hfor : NoForgery ser τ G) (hf : Faithful ser τ) (hs' : Serves ser srv τ s parent G hs os σ n l)
    (hc : Called ser τ G pre ops me d m x t) (hu : Unforged ser τ s G hs os pre ops me t) :
    ∃ a o b cs c n' l', os = a ++ o :: b ∧ pre.length ≤ (hs ++ a).length ∧ (hs ++ a).length < (pre ++ ops).length ∧
      Exec ser s (run ser (run ser init hs) (a ++ [o])) (serverLoop srv τ s parent n' c.after) b l' ∧ l.calls = cs ++ c :: l'.calls ∧
      Handled c me d m x t ∧ Exec ser s (run ser init hs) (serverLoop srv τ s parent (cs.length + 1) σ) (a ++ [o]) ⟨cs ++ [c], none, c.after⟩ := by
  obtain ⟨a, o, b, cs, c, n', l', h1, h2, h3, h4, h5, h6, h7, -⟩ := call_inside hr hcoh hfor hf hs' hc hu
  exact ⟨a, o, b, cs, c, n', l', h1, h2, h3, h4, h5, h6, h7⟩

/-- One round of the loop. -/
theorem round_split {ser : V → B} {srv : Server B V M S} {τ : RecvType B V (GMsg M)} {s : Nat} {parent : Pid} {n : Nat} {w : World B V} {σ : S}
    {os : List (Op B V)} {l : Log M S} (h : Exec ser s w (serverLoop srv τ s parent (n + 1) σ) os l) :
    ∃ a kind m os3, os = a ++ .recv s (anyMsg τ) kind :: os3 ∧ running (run ser w a) s = true ∧ received (run ser w a) s (anyMsg τ) kind = some m ∧
      ((∀ c ∈ l.calls, ∃ r, c.what = .terminate r) ∨ ∃ c rest, l.calls = c :: rest ∧ callbackFor parent m = some c.what ∧
        ((∀ c ∈ rest, ∃ r, c.what = .terminate r) ∨ ∃ b1 b2 l', os3 = b1 ++ b2 ∧
          Exec ser s (run ser w (a ++ .recv s (anyMsg τ) kind :: b1)) (serverLoop srv τ s parent n c.after) b2 l' ∧ l'.calls = rest)) := by
  obtain ⟨os1, os2, rfl, hw, hcase⟩ := exec_wait_inv h
  rcases hcase with ⟨kind, m, os3, hrec, rfl, hrun, hx⟩ | ⟨p, hp, -⟩
  rotate_left
  · simp at hp
  refine ⟨os1, kind, m, os3, rfl, hrun, hrec, ?_⟩
  have e1 : ∀ z, run ser (step ser (run ser w os1) (.recv s (anyMsg τ) kind)).1 z = run ser w (os1 ++ .recv s (anyMsg τ) kind :: z) := by
    intro z; rw [run_append, run_cons]
  have fin : ∀ {w' : World B V} {σ' r done z}, Exec ser s w' (finishServer srv s σ' r done) z l → ∃ c, (∃ r, c.what = .terminate r) ∧ l.calls = done ++ [c] := by
    intro w' σ' r done z h
    obtain ⟨_, _, σ'', -, -, h2⟩ := exec_bind_inv h
    obtain ⟨_, _, -, -, -, h4⟩ := exec_op_inv h2
    obtain ⟨_, _, -, -, -, h6⟩ := exec_op_inv h4
    rw [(exec_ret_inv h6).1]
    exact ⟨_, ⟨r, rfl⟩, rfl⟩
  have aft : ∀ (m : Msg (GMsg M)) (c : Record M S) (b1 b2 : List (Op B V)), os3 = b1 ++ b2 → callbackFor parent m = some c.what →
      Exec ser s (run ser w (os1 ++ .recv s (anyMsg τ) kind :: b1)) (afterCallback srv s c (serverLoop srv τ s parent n c.after)) b2 l →
      ∃ c rest, l.calls = c :: rest ∧ callbackFor parent m = some c.what ∧
        ((∀ c ∈ rest, ∃ r, c.what = .terminate r) ∨ ∃ b1 b2 l', os3 = b1 ++ b2 ∧
          Exec ser s (run ser w (os1 ++ .recv s (anyMsg τ) kind :: b1)) (serverLoop srv τ s parent n c.after) b2 l' ∧ l'.calls = rest) := by
    intro m c b1 b2 he hm h
    cases hres : c.result with
    | error r =>
      simp only [afterCallback, hres] at h
      obtain ⟨t, ht, hl⟩ := fin h
      exact ⟨c, [t], hl, hm, .inl (by simpa using ht)⟩
    | ok x =>
      simp only [afterCallback, hres] at h
      obtain ⟨os3', os4, l', rfl, hy, hl⟩ := exec_bind_inv h
      obtain ⟨hl, hoth⟩ := exec_ret_inv hl
      exact ⟨c, l'.calls, by rw [hl], hm, .inr ⟨b1, _, l', he, exec_more hy hoth, rfl⟩⟩
  have plain : ∀ (m : Msg (GMsg M)) (p : Prog B V (S × Except ExitReason Unit)) (f : S × Except ExitReason Unit → Record M S),
      (∀ q, callbackFor parent m = some (f q).what) →
      Exec ser s (step ser (run ser w os1) (.recv s (anyMsg τ) kind)).1 (p.bind fun q => afterCallback srv s (f q) (serverLoop srv τ s parent n (f q).after)) os3 l →
      ∃ c rest, l.calls = c :: rest ∧ callbackFor parent m = some c.what ∧
        ((∀ c ∈ rest, ∃ r, c.what = .terminate r) ∨ ∃ b1 b2 l', os3 = b1 ++ b2 ∧
          Exec ser s (run ser w (os1 ++ .recv s (anyMsg τ) kind :: b1)) (serverLoop srv τ s parent n c.after) b2 l' ∧ l'.calls = rest) := by
    intro m p f hf hx
    obtain ⟨c1, c2, q, hc1, h1, h2⟩ := exec_bind_inv hx
    rw [e1] at h2
    exact aft m (f q) c1 c2 hc1 (hf q) h2
  have stop : ∀ {w' : World B V} {σ' r z}, Exec ser s w' (finishServer srv s σ' r []) z l → ∀ c ∈ l.calls, ∃ r, c.what = .terminate r := by
    intro w' σ' r z h c hc
    obtain ⟨t, ht, hl⟩ := fin h
    rw [hl] at hc; simp at hc; subst hc; exact ht
  dsimp only [anyMsg] at m hrec hx
  match m, hx, hrec with
  | .user (.cast x), hx, _ => exact .inr (plain _ _ (fun q => ⟨.cast x, σ, q.1, noReply q.2⟩) (fun _ => rfl) hx)
  | .user (.callReply _ x), hx, _ => exact .inr (plain _ _ (fun q => ⟨.info (.user x), σ, q.1, noReply q.2⟩) (fun _ => rfl) hx)
  | .user (.stop r), hx, _ => exact .inl (stop hx)
  | .system (.exit p r), hx, _ =>
    dsimp only at hx
    split at hx
    · exact .inl (stop hx)
    · rename_i hp
      exact .inr (plain _ _ (fun q => ⟨.info (.system (.exit p r)), σ, q.1, noReply q.2⟩) (fun _ => by simp [callbackFor, hp]) hx)
  | .system (.processDown d r e), hx, _ => exact .inr (plain _ _ (fun q => ⟨.info (.system (.processDown d r e)), σ, q.1, noReply q.2⟩) (fun _ => rfl) hx)
  | .system (.nodeDown d r), hx, _ => exact .inr (plain _ _ (fun q => ⟨.info (.system (.nodeDown d r)), σ, q.1, noReply q.2⟩) (fun _ => rfl) hx)
  | .user (.call frm x), hx, _ =>
    obtain ⟨c1, c2, ⟨σ', res⟩, rfl, h1, h2⟩ := exec_bind_inv hx
    have e1' : run ser (step ser (run ser w os1) (.recv s ⟨GMsg M, τ, fun _ => true, true⟩ kind)).1 c1 = run ser w (os1 ++ .recv s (anyMsg τ) kind :: c1) := e1 c1
    rw [e1'] at h2
    match res, h2, h1 with
    | .error r, h2, _ => exact .inr (aft _ ⟨.call x frm, σ, σ', .error r⟩ c1 c2 rfl rfl h2)
    | .ok none, h2, _ => exact .inr (aft _ ⟨.call x frm, σ, σ', .ok none⟩ c1 c2 rfl rfl h2)
    | .ok (some reply), h2, _ =>
      obtain ⟨e, e', rfl, hoth, -, h3⟩ := exec_op_inv h2
      refine .inr (aft _ ⟨.call x frm, σ, σ', .ok (some reply)⟩ (c1 ++ (e ++ [replyOp τ s frm reply])) e' (by simp) rfl ?_)
      have : run ser w (os1 ++ .recv s (anyMsg τ) kind :: (c1 ++ (e ++ [replyOp τ s frm reply]))) =
          (step ser (run ser (run ser w (os1 ++ .recv s (anyMsg τ) kind :: c1)) e) (replyOp τ s frm reply)).1 := by
        have hl : os1 ++ Op.recv s (anyMsg τ) kind :: (c1 ++ (e ++ [replyOp τ s frm reply])) = (os1 ++ Op.recv s (anyMsg τ) kind :: c1) ++ (e ++ [replyOp τ s frm reply]) := by simp
        rw [hl, run_append, run_append]; rfl
      rw [this]; exact h3

/-- A record of a request comes from a receive. -/
theorem loop_call {ser : V → B} {srv : Server B V M S} {τ : RecvType B V (GMsg M)} {s : Nat} {parent : Pid} (n : Nat) :
    ∀ (w : World B V) σ os l cs1 c cs2 m frm, Exec ser s w (serverLoop srv τ s parent n σ) os l → l.calls = cs1 ++ c :: cs2 → c.what = .call m frm →
      ∃ a kind b1 b2, os = a ++ .recv s (anyMsg τ) kind :: (b1 ++ b2) ∧ running (run ser w a) s = true ∧
        received (run ser w a) s (anyMsg τ) kind = some (.user (.call frm m)) ∧
        ((∀ c ∈ cs2, ∃ r, c.what = .terminate r) ∨ ∃ n' l', Exec ser s (run ser w (a ++ .recv s (anyMsg τ) kind :: b1)) (serverLoop srv τ s parent n' c.after) b2 l' ∧
          l'.calls = cs2) := by
  induction n with
  | zero =>
    intro w σ os l cs1 c cs2 m frm h hl hw
    have := (exec_ret_inv h).1
    rw [this] at hl; simp at hl
  | succ n ih =>
    intro w σ os l cs1 c cs2 m frm h hl hw
    obtain ⟨a, kind, msg, os3, rfl, hrun, hrec, hcase⟩ := round_split h
    rcases hcase with hall | ⟨c0, rest, hl0, hcb, hrest⟩
    · obtain ⟨r, hr⟩ := hall c (by rw [hl]; simp)
      rw [hr] at hw; cases hw
    · rw [hl0] at hl
      cases cs1 with
      | nil =>
        simp at hl
        obtain ⟨rfl, rfl⟩ := hl
        rw [hw] at hcb
        have hmsg : msg = .user (.call frm m) := by
          unfold callbackFor at hcb
          split at hcb <;> simp at hcb
          obtain ⟨rfl, rfl⟩ := hcb; rfl
        subst hmsg
        rcases hrest with hrest | ⟨b1, b2, l', rfl, hx, hl'⟩
        · exact ⟨a, kind, os3, [], by simp, hrun, hrec, .inl hrest⟩
        · exact ⟨a, kind, b1, b2, rfl, hrun, hrec, .inr ⟨n, l', hx, hl'⟩⟩
      | cons z cs1 =>
        simp at hl
        obtain ⟨rfl, rfl⟩ := hl
        rcases hrest with hrest | ⟨b1, b2, l', rfl, hx, hl'⟩
        · obtain ⟨r, hr⟩ := hrest c (by simp)
          rw [hr] at hw; cases hw
        · obtain ⟨a', kind', d1, d2, rfl, k1, k2, k3⟩ := ih _ _ _ _ _ _ _ _ _ hx hl' hw
          rw [← run_append] at k1 k2 k3
          refine ⟨a ++ .recv s (anyMsg τ) kind :: b1 ++ a', kind', d1, d2, by simp, by simpa using k1, by simpa using k2, ?_⟩
          rcases k3 with k3 | ⟨n', l'', k3, k4⟩
          · exact .inl k3
          · exact .inr ⟨n', l'', by simpa [← run_append] using k3, k4⟩

/-- At most one request with the reference of a call is handled. -/
theorem handled_once {ser : V → B} {srv : Server B V M S} {τ : RecvType B V (GMsg M)} {s : Nat} {parent : Pid} {G hs os : List (Op B V)} {σ : S}
    {n : Nat} {l : Log M S} {pre ops : List (Op B V)} {me : Nat} {d : Dest} {m x : M} {t : Nat}
    (hcoh : Coherent τ G) (hs' : Serves ser srv τ s parent G hs os σ n l)
    (hc : Called ser τ G pre ops me d m x t) (hu : Unforged ser τ s G hs os pre ops me t) {cs1 cs2 : List (Record M S)} {c : Record M S}
    (hl : l.calls = cs1 ++ c :: cs2) (hf : ForCall t c) : ∀ c' ∈ cs2, ¬ ForCall t c' := by
  rintro c' hc' ⟨m', frm', hw', ht'⟩
  obtain ⟨m1, frm, hw, ht⟩ := hf
  obtain ⟨r2, hG2⟩ := hs'.part
  obtain ⟨A, C, hGA, hreq⟩ := request_at hc hu
  obtain ⟨a, kind, b1, b2, rfl, k1, k2, k3⟩ := loop_call n _ _ _ _ _ _ _ _ _ hs'.loop hl hw
  rcases k3 with k3 | ⟨n', l', hx, hl'⟩
  · obtain ⟨r, hr⟩ := k3 c' hc'
    rw [hr] at hw'; cases hw'
  · obtain ⟨e1, e2, he⟩ := List.append_of_mem hc'
    obtain ⟨a', kind', d1, d2, rfl, j1, j2, -⟩ := loop_call n' _ _ _ _ e1 c' e2 _ _ hx (by rw [hl', he]) hw'
    rw [← run_append] at k1 k2
    rw [← run_append, ← run_append] at j1 j2
    have j1' : running (run ser init (hs ++ (a ++ .recv s (anyMsg τ) kind :: b1) ++ a')) s = true := by simpa using j1
    have j2' : received (run ser init (hs ++ (a ++ .recv s (anyMsg τ) kind :: b1) ++ a')) s (anyMsg τ) kind' = some (.user (.call frm' m')) := by simpa using j2
    let p : GMsg M → Bool := fun g => match g with | .call frm _ => frm.tag == .loc t | _ => false
    have hR : ReceivesAt ser τ p G (hs ++ a).length :=
      ⟨hs ++ a, s, _, _, kind, _, b1 ++ (a' ++ .recv s (anyMsg τ) kind' :: (d1 ++ d2)) ++ r2, by rw [← hG2]; simp [anyMsg], rfl, k1, k2, by simp [p, ht]⟩
    have hR' : ReceivesAt ser τ p G (hs ++ (a ++ .recv s (anyMsg τ) kind :: b1) ++ a').length :=
      ⟨hs ++ (a ++ .recv s (anyMsg τ) kind :: b1) ++ a', s, _, _, kind', _, d1 ++ d2 ++ r2, by rw [← hG2]; simp [anyMsg], rfl, j1', j2', by simp [p, ht']⟩
    have hnot : ∀ o' ∈ A ++ C, ¬ Sends ser τ p o' := by
      rintro o' ho' ⟨it, g, hsb, hrd, hp⟩
      cases g with
      | call f y =>
        simp [p] at hp
        rcases List.mem_append.1 ho' with h | h
        · obtain ⟨u, v, rfl⟩ := List.append_of_mem h
          obtain ⟨-, he1, -⟩ := hreq u o' (v ++ request τ me d (.loc t) m :: C) it f y (by rw [hGA]; simp) hsb hrd hp
          have := congrArg List.length he1
          simp at this
        · obtain ⟨u, v, rfl⟩ := List.append_of_mem h
          obtain ⟨-, he1, -⟩ := hreq (A ++ request τ me d (.loc t) m :: u) o' v it f y (by rw [hGA]; simp) hsb hrd hp
          have := congrArg List.length he1
          simp at this
      | _ => simp [p] at hp
    have := C117_at_most_once ser τ p A C (request τ me d (.loc t) m) (by rw [← hGA]; exact hcoh) (.send ..) hnot _ _ (by rw [← hGA]; exact hR) (by rw [← hGA]; exact hR')
    simp at this

/-! ## Theorems -/

/-- C116. A call that returned `x` was handled by the server exactly once: the log of the server has a `handle_call` of this very
request that returned `x`, and no other record of a request with the reference of the call. -/
theorem C116_answered (ser : V → B) (srv : Server B V M S) (τ : RecvType B V (GMsg M)) (s : Nat) (parent : Pid) (G hs os : List (Op B V)) (σ : S)
    (n : Nat) (l : Log M S) (pre ops : List (Op B V)) (me : Nat) (d : Dest) (m x : M) (t : Nat) (hr : Returns ser srv τ s)
    (hcoh : Coherent τ G) (hfor : NoForgery ser τ G) (hf : Faithful ser τ) (hs' : Serves ser srv τ s parent G hs os σ n l)
    (hc : Called ser τ G pre ops me d m x t) (hu : Unforged ser τ s G hs os pre ops me t) :
    ∃ cs1 c cs2, l.calls = cs1 ++ c :: cs2 ∧ Handled c me d m x t ∧ ∀ c' ∈ cs1 ++ cs2, ¬ ForCall t c' := by
  obtain ⟨a, o, b, cs, c, n', l', -, -, -, -, h2, h3, -⟩ := call_located hr hcoh hfor hf hs' hc hu
  have hfc : ForCall t c := ⟨m, _, h3.1, rfl⟩
  refine ⟨cs, c, l'.calls, h2, h3, ?_⟩
  intro c' hc' hfc'
  rcases List.mem_append.1 hc' with h | h
  · obtain ⟨e1, e2, rfl⟩ := List.append_of_mem h
    exact handled_once hcoh hs' hc hu (cs1 := e1) (c := c') (cs2 := e2 ++ c :: l'.calls) (by rw [h2]; simp) hfc' c (by simp) hfc
  · exact handled_once hcoh hs' hc hu h2 hfc c' h hfc'

/-- C116. If one call had returned before another one began, by whatever processes, then the server handled the first before
the second. -/
theorem C116_order (ser : V → B) (srv : Server B V M S) (τ : RecvType B V (GMsg M)) (s : Nat) (parent : Pid) (G hs os : List (Op B V)) (σ : S)
    (n : Nat) (l : Log M S) (pre ops : List (Op B V)) (me : Nat) (d : Dest) (m x : M) (t : Nat)
    (pre' ops' : List (Op B V)) (me' : Nat) (d' : Dest) (m' x' : M) (t' : Nat) (hr : Returns ser srv τ s)
    (hcoh : Coherent τ G) (hfor : NoForgery ser τ G) (hf : Faithful ser τ) (hs' : Serves ser srv τ s parent G hs os σ n l)
    (hc : Called ser τ G pre ops me d m x t) (hu : Unforged ser τ s G hs os pre ops me t)
    (hc' : Called ser τ G pre' ops' me' d' m' x' t') (hu' : Unforged ser τ s G hs os pre' ops' me' t')
    (hbefore : pre ++ ops <+: pre') :
    ∃ cs1 c cs2 c' cs3, l.calls = cs1 ++ c :: (cs2 ++ c' :: cs3) ∧ Handled c me d m x t ∧ Handled c' me' d' m' x' t' := by
  obtain ⟨a, o, b, cs, c, n1, l1, he, -, hlt, hx, h2, h3, -⟩ := call_located hr hcoh hfor hf hs' hc hu
  subst he
  obtain ⟨q, hq⟩ := hbefore
  -- the rest of the loop serves the second call
  have hS : Serves ser srv τ s parent G (hs ++ (a ++ [o])) b c.after n1 l1 := by
    refine ⟨?_, by rw [run_append]; exact hx⟩
    obtain ⟨r, hr⟩ := hs'.part
    exact ⟨r, by rw [← hr]; simp⟩
  have hU : Unforged ser τ s G (hs ++ (a ++ [o])) b pre' ops' me' t' := by
    refine ⟨hu'.request, ?_⟩
    intro a' o' b' y hG hrep
    obtain ⟨g1, g2, g3⟩ := hu'.reply a' o' b' y hG hrep
    refine ⟨g1, ?_, by simp at g3 ⊢; omega⟩
    -- replies to the second call come after the second call began
    have hlt2 : t' < (run ser init a').nextRef := hfor a' o' b' t' y hG hrep
    obtain ⟨p1, p2, hops, -, ht'⟩ := hc'.tag
    obtain ⟨r1, hr1⟩ := hc'.part
    have hlen : (pre' ++ p1).length < a'.length := by
      rcases Nat.lt_or_ge (pre' ++ p1).length a'.length with h | h
      · exact h
      · have hp : a' <+: pre' ++ p1 := by
          refine List.prefix_of_prefix_length_le (l₃ := G) (by rw [hG]; exact List.prefix_append ..) ?_ h
          rw [← hr1, hops]; exact ⟨callMon me' d' :: p2 ++ r1, by simp⟩
        obtain ⟨z, hz⟩ := hp
        have : (run ser init a').nextRef ≤ (run ser init (pre' ++ p1)).nextRef := by
          rw [← hz, run_append ser init a']; exact run_nextRef_le ..
        omega
    rw [← hq] at hlen
    simp at hlt hlen ⊢
    omega
  obtain ⟨a', o', b', cs', c', n2, l2, -, -, -, -, k2, k3, -⟩ := call_located hr hcoh hfor hf hS hc' hU
  exact ⟨cs, c, cs', c', l2.calls, by rw [h2, k2], h3, k3⟩

/-- C116. If the callbacks compute a function of the state, the log is a run of it, one invocation after the other. -/
theorem C116_sequential (ser : V → B) (srv : Server B V M S) (τ : RecvType B V (GMsg M)) (s : Nat) (parent : Pid) (G hs os : List (Op B V)) (σ : S)
    (n : Nat) (l : Log M S) (hs' : Serves ser srv τ s parent G hs os σ n l) (δ : S → Invoke M → S × Except ExitReason (Option M))
    (hd : Computes ser srv s δ) : Sequential δ σ l.calls := by
  obtain ⟨msgs, halt, -, -, hth, -⟩ := C58_serve ser s srv τ parent n σ _ os l ⟨hs, rfl⟩ hs'.loop
  have one : ∀ (w : World B V) os c, Ran ser s srv w os c →
      c.after = (δ c.before c.what).1 ∧ ((∀ e, c.what ≠ .terminate e) → c.result = (δ c.before c.what).2) := by
    intro w os c h
    unfold Ran at h
    split at h
    · rename_i x hw
      obtain ⟨u, hx, hr⟩ := h
      have := hd.cast _ _ _ _ _ hx
      rw [hw, hr]
      exact ⟨congrArg Prod.fst this, fun _ => congrArg Prod.snd this⟩
    · rename_i x frm hw
      have := hd.call _ _ _ _ _ _ h
      rw [hw]
      exact ⟨congrArg Prod.fst this, fun _ => congrArg Prod.snd this⟩
    · rename_i x hw
      obtain ⟨u, hx, hr⟩ := h
      have := hd.info _ _ _ _ _ hx
      rw [hw, hr]
      exact ⟨congrArg Prod.fst this, fun _ => congrArg Prod.snd this⟩
    · rename_i e hw
      have := hd.terminate _ _ _ _ _ h
      rw [hw]
      exact ⟨this, fun hne => absurd rfl (hne e)⟩
  generalize run ser init hs = w at halt
  generalize l.calls = cs at *
  generalize l.state = σ' at hth
  clear hs' 
  induction halt generalizing σ with
  | none => trivial
  | next h1 h2 _ ih =>
    obtain ⟨hb, hth⟩ := hth
    have := one _ _ _ h2
    rw [hb] at this
    exact ⟨hb, this.1, this.2, ih _ hth⟩
  | last h1 =>
    obtain ⟨hb, hth⟩ := hth
    have := one _ _ _ h1
    rw [hb] at this
    exact ⟨hb, this.1, this.2, trivial⟩


/-! ## Examples -/

/-- Process 1 starts the server 2 and process 3. -/
def orderStart : List (Op Nat (GMsg Nat)) := twoProcs ++ [.spawn 1 false false]

/-- Process 1 calls the server. -/
def orderCall1 : List (Op Nat (GMsg Nat)) :=
  [callMon 1 (.pid (.loc 2)), request natServer 1 (.pid (.loc 2)) (.loc 1) 7, .recv 1 ⟨GMsg Nat, natServer, isAnswer (.loc 1), false⟩ .select,
   .recv 2 anyNat .resume, replyOp natServer 2 ⟨.loc 1, .loc 1, false⟩ 7, .recv 1 ⟨GMsg Nat, natServer, isAnswer (.loc 1), false⟩ .resume,
   .demonitor 1 (.loc 1)]

/-- Process 3 calls the server. -/
def orderCall2 : List (Op Nat (GMsg Nat)) :=
  [callMon 3 (.pid (.loc 2)), request natServer 3 (.pid (.loc 2)) (.loc 2) 4, .recv 3 ⟨GMsg Nat, natServer, isAnswer (.loc 2), false⟩ .select,
   .recv 2 anyNat .select, replyOp natServer 2 ⟨.loc 3, .loc 2, false⟩ 9, .recv 3 ⟨GMsg Nat, natServer, isAnswer (.loc 2), false⟩ .resume,
   .demonitor 3 (.loc 2)]

/-- What happens while the server runs: a call of 1, a cast of 3, a call of 3. -/
def orderServe : List (Op Nat (GMsg Nat)) :=
  [.recv 2 anyNat .select] ++ orderCall1 ++ [.send 3 (.one (.pid (.loc 2))) (.cast 5), .recv 2 anyNat .select] ++ orderCall2

def orderLog : Log Nat Nat :=
  ⟨[⟨.call 7 ⟨.loc 1, .loc 1, false⟩, 0, 0, .ok (some 7)⟩, ⟨.cast 5, 0, 5, .ok none⟩, ⟨.call 4 ⟨.loc 3, .loc 2, false⟩, 5, 5, .ok (some 9)⟩], none, 5⟩

theorem orderExec1 : Exec noSer 1 (run noSer init (orderStart ++ [.recv 2 anyNat .select])) (callProg natServer 1 (.pid (.loc 2)) 7) orderCall1 (.ok 7) := by
  refine .op rfl (.op rfl (.pending rfl rfl (.env ⟨by simp [Op.caller], by simp⟩ (.env ⟨by simp [Op.caller, replyOp], by simp [replyOp]⟩
    (.got (m := .user (.callReply (.loc 1) 7)) rfl rfl ?_)))))
  exact .op rfl (.ret _ _)

theorem orderExec2 : Exec noSer 3 (run noSer init (orderStart ++ ([.recv 2 anyNat .select] ++ orderCall1 ++
    [.send 3 (.one (.pid (.loc 2))) (.cast 5), .recv 2 anyNat .select]))) (callProg natServer 3 (.pid (.loc 2)) 4) orderCall2 (.ok 9) := by
  refine .op rfl (.op rfl (.pending rfl rfl (.env ⟨by simp [Op.caller], by simp⟩ (.env ⟨by simp [Op.caller, replyOp], by simp [replyOp]⟩
    (.got (m := .user (.callReply (.loc 2) 9)) rfl rfl ?_)))))
  exact .op rfl (.ret _ _)

theorem orderExec : Exec noSer 2 (run noSer init orderStart) (serverLoop adder natServer 2 (.loc 1) 3 0) orderServe orderLog := by
  have oth : ∀ {o : Op Nat (GMsg Nat)}, o.caller = some 1 ∨ o.caller = some 3 → (∀ i, o ≠ .drop i) → Others 2 o := by
    intro o h1 h2
    refine ⟨?_, h2 2⟩
    rcases h1 with h | h <;> simp [h]
  refine .pending rfl rfl (.env (oth (.inl rfl) (by intro i h; cases h)) (.env (oth (.inl rfl) (by intro i h; cases h))
    (.env (oth (.inl rfl) (by intro i h; cases h)) (.got (m := .user (.call ⟨.loc 1, .loc 1, false⟩ 7)) rfl rfl (.op rfl ?_)))))
  refine .env (oth (.inl rfl) (by intro i h; cases h)) (.env (oth (.inl rfl) (by intro i h; cases h)) (.env (oth (.inr rfl) (by intro i h; cases h))
    (.got (m := .user (.cast 5)) rfl rfl ?_)))
  refine .env (oth (.inr rfl) (by intro i h; cases h)) (.env (oth (.inr rfl) (by intro i h; cases h))
    (.env (oth (.inr rfl) (by intro i h; cases h)) (.got (m := .user (.call ⟨.loc 3, .loc 2, false⟩ 4)) rfl rfl (.op rfl ?_))))
  exact .env (oth (.inr rfl) (by intro i h; cases h)) (.env (oth (.inr rfl) (by intro i h; cases h)) (.ret _ _))

/-- What an operation sends. -/
def sendsOf : Op Nat (GMsg Nat) → Option (GMsg Nat)
  | .send _ _ v => some v
  | _ => none

theorem sendsOf_eq {o : Op Nat (GMsg Nat)} {it g} (h : SentBy noSer o it) (hr : Reads natServer it g) : sendsOf o = some g := by
  cases h with
  | «local» => simpa [Reads, natServer, sendsOf] using hr
  | serial => simp [Reads, natServer] at hr
  | frame => simp [Reads, natServer] at hr

def orderSends : List (Option (GMsg Nat)) :=
  [none, none, none, none, none, some (.call ⟨.loc 1, .loc 1, false⟩ 7), none, none, some (.callReply (.loc 1) 7), none, none, some (.cast 5), none,
   none, some (.call ⟨.loc 3, .loc 2, false⟩ 4), none, none, some (.callReply (.loc 2) 9), none, none]

theorem order_sends : (orderStart ++ orderServe).map sendsOf = orderSends := rfl

theorem orderSends_at {k : Nat} {g : GMsg Nat} (h : orderSends[k]? = some (some g)) :
    (k = 5 ∧ g = .call ⟨.loc 1, .loc 1, false⟩ 7) ∨ (k = 8 ∧ g = .callReply (.loc 1) 7) ∨ (k = 11 ∧ g = .cast 5) ∨
    (k = 14 ∧ g = .call ⟨.loc 3, .loc 2, false⟩ 4) ∨ (k = 17 ∧ g = .callReply (.loc 2) 9) := by
  have hk : k < 20 := by
    rcases Nat.lt_or_ge k 20 with h' | h'
    · exact h'
    · rw [List.getElem?_eq_none (by simpa [orderSends] using h')] at h; cases h
  have : ∀ k < 20, ∀ g, orderSends[k]? = some (some g) → (k = 5 ∧ g = .call ⟨.loc 1, .loc 1, false⟩ 7) ∨ (k = 8 ∧ g = .callReply (.loc 1) 7) ∨
      (k = 11 ∧ g = .cast 5) ∨ (k = 14 ∧ g = .call ⟨.loc 3, .loc 2, false⟩ 4) ∨ (k = 17 ∧ g = .callReply (.loc 2) 9) := by
    intro k hk g h
    rcases (by omega : k = 0 ∨ k = 1 ∨ k = 2 ∨ k = 3 ∨ k = 4 ∨ k = 5 ∨ k = 6 ∨ k = 7 ∨ k = 8 ∨ k = 9 ∨ k = 10 ∨ k = 11 ∨ k = 12 ∨ k = 13 ∨ k = 14 ∨ k = 15 ∨ k = 16 ∨ k = 17 ∨ k = 18 ∨ k = 19) with
      rfl | rfl | rfl | rfl | rfl | rfl | rfl | rfl | rfl | rfl | rfl | rfl | rfl | rfl | rfl | rfl | rfl | rfl | rfl | rfl
    all_goals simp [orderSends] at h
    all_goals (subst h; simp)
  exact this k hk g h

theorem order_at {a b : List (Op Nat (GMsg Nat))} {o it g} (h : orderStart ++ orderServe = a ++ o :: b) (hs : SentBy noSer o it)
    (hr : Reads natServer it g) : orderSends[a.length]? = some (some g) := by
  rw [← order_sends, h]
  simp [sendsOf_eq hs hr]


theorem order_coherent : Coherent natServer (orderStart ++ orderServe) := by
  intro a o k h b t' x h1
  simp only [orderStart, orderServe, orderCall1, orderCall2, callMon, monOp, destLocal, Pid.isLocal, request, twoProcs, replyOp, List.cons_append, List.nil_append,
    List.mem_cons, List.not_mem_nil, or_false, reduceCtorEq, false_or, if_true, anyNat] at h
  rcases h with h | h | h | h | h | h | h | h <;> cases h <;> cases h1

theorem order_noForgery : NoForgery noSer natServer (orderStart ++ orderServe) := by
  rintro os1 o os2 n m h ⟨it, hs, hr⟩
  have hlen : os1 = (orderStart ++ orderServe).take os1.length := by rw [h]; simp
  rcases orderSends_at (order_at h hs hr) with ⟨-, hg⟩ | ⟨hk, hg⟩ | ⟨-, hg⟩ | ⟨-, hg⟩ | ⟨hk, hg⟩ <;> cases hg <;>
    (rw [hlen, hk]; decide +kernel)

theorem adder_returns : Returns noSer adder natServer 2 := by
  have silent : ∀ {R : Type} (r : R), Silent noSer natServer 2 (.ret r : Prog Nat (GMsg Nat) R) := by
    intro R r w os r' h o ho hc
    exact absurd hc ((exec_ret_inv h).2 o ho).1
  refine ⟨fun _ _ => silent _, ?_, fun _ _ => silent _, fun _ _ => silent _⟩
  intro σ m frm
  simp only [adder]
  split <;> exact silent _

theorem natServer_faithful : Faithful noSer natServer := by intro g g' h; simp [natServer] at h

theorem order_serves : Serves noSer adder natServer 2 (.loc 1) (orderStart ++ orderServe) orderStart orderServe 0 3 orderLog :=
  ⟨List.prefix_rfl, orderExec⟩

theorem order_called1 : Called noSer natServer (orderStart ++ orderServe) (orderStart ++ [.recv 2 anyNat .select]) orderCall1 1 (.pid (.loc 2)) 7 7 1 :=
  ⟨⟨_, rfl⟩, orderExec1, [], _, rfl, by simp, rfl⟩

theorem order_called2 : Called noSer natServer (orderStart ++ orderServe) (orderStart ++ ([.recv 2 anyNat .select] ++ orderCall1 ++
    [.send 3 (.one (.pid (.loc 2))) (.cast 5), .recv 2 anyNat .select])) orderCall2 3 (.pid (.loc 2)) 4 9 2 :=
  ⟨⟨[], rfl⟩, orderExec2, [], _, rfl, by simp, rfl⟩

theorem order_at' {a b : List (Op Nat (GMsg Nat))} {o} (h : orderStart ++ orderServe = a ++ o :: b) : (orderStart ++ orderServe)[a.length]? = some o := by
  rw [h]; simp

theorem order_unforged1 : Unforged noSer natServer 2 (orderStart ++ orderServe) orderStart orderServe (orderStart ++ [.recv 2 anyNat .select]) orderCall1 1 1 := by
  refine ⟨?_, ?_⟩
  · intro a o b it frm y h hs hr ht
    have ho := order_at' h
    rcases orderSends_at (order_at h hs hr) with ⟨hk, hg⟩ | ⟨-, hg⟩ | ⟨-, hg⟩ | ⟨-, hg⟩ | ⟨-, hg⟩ <;> cases hg <;> try cases ht
    rw [hk] at ho ⊢
    cases ho
    exact ⟨rfl, by decide, by decide⟩
  · rintro a o b y h ⟨it, hs, hr⟩
    have ho := order_at' h
    rcases orderSends_at (order_at h hs hr) with ⟨-, hg⟩ | ⟨hk, hg⟩ | ⟨-, hg⟩ | ⟨-, hg⟩ | ⟨-, hg⟩ <;> cases hg
    rw [hk] at ho ⊢
    cases ho
    exact ⟨rfl, by decide, by decide⟩

theorem order_unforged2 : Unforged noSer natServer 2 (orderStart ++ orderServe) orderStart orderServe (orderStart ++ ([.recv 2 anyNat .select] ++ orderCall1 ++
    [.send 3 (.one (.pid (.loc 2))) (.cast 5), .recv 2 anyNat .select])) orderCall2 3 2 := by
  refine ⟨?_, ?_⟩
  · intro a o b it frm y h hs hr ht
    have ho := order_at' h
    rcases orderSends_at (order_at h hs hr) with ⟨-, hg⟩ | ⟨-, hg⟩ | ⟨-, hg⟩ | ⟨hk, hg⟩ | ⟨-, hg⟩ <;> cases hg <;> try cases ht
    rw [hk] at ho ⊢
    cases ho
    exact ⟨rfl, by decide, by decide⟩
  · rintro a o b y h ⟨it, hs, hr⟩
    have ho := order_at' h
    rcases orderSends_at (order_at h hs hr) with ⟨-, hg⟩ | ⟨-, hg⟩ | ⟨-, hg⟩ | ⟨-, hg⟩ | ⟨hk, hg⟩ <;> cases hg
    rw [hk] at ho ⊢
    cases ho
    exact ⟨rfl, by decide, by decide⟩

example := C116_answered _ _ _ _ _ _ _ _ _ _ _ _ _ _ _ _ _ _ adder_returns order_coherent order_noForgery natServer_faithful order_serves order_called1
  order_unforged1
example := C116_order _ _ _ _ _ _ _ _ _ _ _ _ _ _ _ _ _ _ _ _ _ _ _ _ _ adder_returns order_coherent order_noForgery natServer_faithful order_serves
  order_called1 order_unforged1 order_called2 order_unforged2 ⟨_, rfl⟩

/-- The function that the callbacks of `adder` compute. -/
def adds : Nat → Invoke Nat → Nat × Except ExitReason (Option Nat)
  | s, .cast n => (s + n, .ok none)
  | s, .call n _ => if n = 0 then (s, .error (.custom "zero")) else (s, .ok (some (s + n)))
  | s, _ => (s, .ok none)

theorem adder_computes : Computes noSer adder 2 adds := by
  refine ⟨?_, ?_, ?_, ?_⟩
  · intro σ m w os r h; rw [(exec_ret_inv h).1]; rfl
  · intro σ m frm w os r h
    simp only [adder] at h
    simp only [adds]
    split at h <;> (rw [(exec_ret_inv h).1]; simp_all)
  · intro σ m w os r h; rw [(exec_ret_inv h).1]; rfl
  · intro σ m w os r h; rw [(exec_ret_inv h).1]; rfl

example : Sequential adds 0 orderLog.calls := C116_sequential _ _ _ _ _ _ _ _ _ _ _ order_serves _ adder_computes

/-- The requests with reference 1. -/
def request1 : GMsg Nat → Bool
  | .call frm _ => frm.tag == .loc 1
  | _ => false

theorem order_received : ReceivesAt noSer natServer request1 (orderStart ++ orderServe) 7 :=
  ⟨(orderStart ++ orderServe).take 7, 2, fun _ => true, true, .resume, .call ⟨.loc 1, .loc 1, false⟩ 7, (orderStart ++ orderServe).drop 8, rfl, rfl,
    by decide +kernel, rfl, rfl⟩

/-- The request of process 1 is received at position 7, and nowhere else. -/
example (k : Nat) (h : ReceivesAt noSer natServer request1 (orderStart ++ orderServe) k) : k = 7 := by
  refine C117_at_most_once noSer natServer request1 ((orderStart ++ orderServe).take 5) ((orderStart ++ orderServe).drop 6)
    (request natServer 1 (.pid (.loc 2)) (.loc 1) 7) order_coherent (.send ..) ?_ k 7 h order_received
  rintro o ho ⟨it, g, hs, hr, hg⟩
  have hso := sendsOf_eq hs hr
  have hall : ∀ x ∈ ((orderStart ++ orderServe).take 5 ++ (orderStart ++ orderServe).drop 6).map sendsOf, ∀ g, x = some g → request1 g = false := by
    have : ((orderStart ++ orderServe).take 5 ++ (orderStart ++ orderServe).drop 6).map sendsOf = orderSends.take 5 ++ orderSends.drop 6 := rfl
    rw [this]
    intro x hx g hxg
    subst hxg
    simp [orderSends] at hx
    rcases hx with rfl | rfl | rfl | rfl <;> decide
  rw [hall _ (List.mem_map_of_mem ho) g hso] at hg
  cases hg

end Verif.World
