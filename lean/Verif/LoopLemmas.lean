import Verif.ServerProps
/-!
# A rule for loops that receive any message
-/
namespace Verif.World
open Verif.Mailbox
variable {B V M S R : Type}

/-- Every operation of the history satisfies `Ok` where it happens. -/
def Always (ser : V → B) (Ok : World B V → Op B V → Prop) : World B V → List (Op B V) → Prop
  | _, [] => True
  | w, o :: os => Ok w o ∧ Always ser Ok (step ser w o).1 os

theorem always_append {ser : V → B} {Ok : World B V → Op B V → Prop} {w : World B V} {os os' : List (Op B V)} :
    Always ser Ok w (os ++ os') ↔ Always ser Ok w os ∧ Always ser Ok (run ser w os) os' := by
  induction os generalizing w with
  | nil => simp [Always, run]
  | cons o os ih => simp only [List.cons_append, Always, ih, run_cons, and_assoc]

/-- A history of operations, each of which keeps `I` where it happens, keeps `I`. -/
theorem always_run {ser : V → B} {Ok : World B V → Op B V → Prop} {I : World B V → Prop} {P : Op B V → Prop}
    (hs : ∀ w o, Reachable ser w → P o → Ok w o → I w → I (step ser w o).1) {w : World B V} (hre : Reachable ser w) {os : List (Op B V)}
    (hok : Always ser Ok w os) (hp : ∀ o ∈ os, P o) (hI : I w) : I (run ser w os) := by
  induction os generalizing w with
  | nil => exact hI
  | cons o os ih =>
    rw [run_cons]
    exact ih (reach_step hre o) hok.2 (fun o' h => hp o' (by simp [h])) (hs w o hre (hp o (by simp)) hok.1 hI)

/-- A process that has ended does not start again, as long as it is not dropped. -/
theorem ended_others (ser : V → B) {me : Nat} {w : World B V} {o : Op B V} (ho : Others me o)
    (h : ∃ p, w.procs me = some p ∧ p.ended = true) (hlt : me < w.nextPid) :
    ∃ p, (step ser w o).1.procs me = some p ∧ p.ended = true := by
  have key : ∀ w', Acts (AtomOf w o) w w' → me < w'.nextPid ∧ ∃ f, pmap (fun p => (p.reason, p.aborted, p.ended)) w' me = some f ∧ f.2.2 = true := by
    intro w' hw
    induction hw with
    | refl => obtain ⟨p, hp, he⟩ := h; exact ⟨hlt, (p.reason, p.aborted, p.ended), by simp only [pmap, hp, Option.map_some], he⟩
    | @tail w1 a hw ha ih =>
      obtain ⟨hl, f, hf, he⟩ := ih
      have hc := acts_mono_counters (Acts.one (Q := fun _ => True) (w := w1) (a := a) trivial)
      refine ⟨by omega, ?_⟩
      have hf' := hf
      simp only [pmap] at hf'
      rw [Option.map_eq_some_iff] at hf'
      obtain ⟨q, hq, rfl⟩ := hf'
      rw [fate_act]
      cases a <;> simp only [hq, Option.map_some] <;> try exact ⟨_, hf, he⟩
      all_goals split
      all_goals first
        | exact ⟨_, hf, he⟩
        | exact ⟨_, rfl, he⟩
        | exact ⟨_, rfl, rfl⟩
        | omega
        | (rename_i heq; rw [← heq] at ha; exact absurd ha ho.2)
  obtain ⟨-, f, hf, he⟩ := key _ (step_acts ser w o)
  simp only [pmap] at hf
  rw [Option.map_eq_some_iff] at hf
  obtain ⟨q, hq, rfl⟩ := hf
  exact ⟨q, hq, he⟩

theorem ended_run (ser : V → B) {me : Nat} {w : World B V} (hre : Reachable ser w) {os : List (Op B V)} (ho : ∀ o ∈ os, Others me o)
    (h : ∃ p, w.procs me = some p ∧ p.ended = true) : ∃ p, (run ser w os).procs me = some p ∧ p.ended = true := by
  induction os generalizing w with
  | nil => exact h
  | cons o os ih =>
    rw [run_cons]
    refine ih (reach_step hre o) (fun o' h => ho o' (by simp [h])) (ended_others ser (ho o (by simp)) h ?_)
    obtain ⟨p, hp, -⟩ := h
    rcases Nat.lt_or_ge me w.nextPid with h' | h'
    · exact h'
    · have := reach_bounded hre me h'; rw [this] at hp; cases hp

theorem exec_wait_live {T : Type} {ser : V → B} {me : Nat} {τ : RecvType B V T} {w : World B V} {kind : RecvKind} {k : Msg T → Prog B V R} {os : List (Op B V)}
    {r : R} (hre : Reachable ser w) (h : Exec ser me w (.wait kind (anyMsg τ) none k) os r) : ¬ ∃ p, w.procs me = some p ∧ p.ended = true := by
  generalize hp : (Prog.wait kind (anyMsg τ) none k : Prog B V R) = p at h
  induction h generalizing kind with
  | env ho hx ih =>
    intro he
    obtain ⟨p, hp', hee⟩ := he
    refine ih (reach_step hre _) hp (ended_others ser ho ⟨p, hp', hee⟩ ?_)
    rcases Nat.lt_or_ge me _ with h' | h'
    · exact h'
    · have := reach_bounded hre me h'; rw [this] at hp'; cases hp'
  | got hr => rintro ⟨p, hp, he⟩; simp [running, hp, he] at hr
  | pending hr => rintro ⟨p, hp, he⟩; simp [running, hp, he] at hr
  | elapsed => cases hp
  | _ => cases hp

/-- A poll of the loop's receive that returns nothing found nothing, or made the process panic. -/
theorem poll_none {T : Type} (ser : V → B) (τ : RecvType B V T) {me : Nat} {w : World B V} (hre : Reachable ser w) (hr : running w me = true)
    (kind : RecvKind) (hk : kind = .select ∨ kind = .resume ∧ Unstashed me w) (hn : received w me (anyMsg τ) kind = none) :
    (∃ p, w.procs me = some p ∧ contents p.box = []) ∨ ∃ p, (step ser w (.recv me (anyMsg τ) kind)).1.procs me = some p ∧ p.ended = true := by
  rw [step_recv hr]
  cases hp : w.procs me with
  | none => simp [running, hp] at hr
  | some p =>
    have hwf := reach_wf hre me p hp
    have hend : p.ended = false := by simpa [running, hp] using hr
    have key : ∀ (res : Poll T) (b : Box B V), res = (pick τ (fun _ => true) true (contents p.box)).1 →
        (res = .pending → contents p.box = []) ∧
        (res = .panicked → ∃ q, (crash (modBox w me fun _ => b) me "unsupported message").procs me = some q ∧ q.ended = true) := by
      intro res b h1
      constructor
      · intro hpend
        cases hc : contents p.box with
        | nil => rfl
        | cons it rest =>
          rw [hc] at h1
          simp only [pick] at h1
          cases hm : asMsg τ it with
          | none => rw [hm] at h1; simp at h1; rw [h1] at hpend; cases hpend
          | some m => rw [hm] at h1; simp at h1; rw [h1] at hpend; cases hpend
      · intro _
        exact ⟨{ p with reason := some (.custom "unsupported message"), ended := true, box := b },
          by simp [crash, modProc, modBox, upd_at, hp], rfl⟩
    rcases hk with rfl | ⟨rfl, hu⟩
    · have h := select_pick τ (fun _ => true) true p.box hwf
      have := key (Mailbox.select τ (fun _ => true) true p.box).1 (Mailbox.select τ (fun _ => true) true p.box).2 h.1
      simp only [received, recv, hp, anyMsg] at hn ⊢
      generalize Mailbox.select τ (fun _ => true) true p.box = z at *
      obtain ⟨res, b⟩ := z
      cases res with
      | got m => cases hn
      | pending => exact .inl ⟨p, rfl, this.1 rfl⟩
      | panicked => exact .inr (this.2 rfl)
    · have hi : p.box.items = [] := (hu p hp).resolve_left (by simp [hend])
      have h := scanChan_pick τ (fun _ => true) true p.box.items p.box.mons p.box.aliases p.box.chan hwf
      have hc : visible (p.box.mons.map Prod.fst) p.box.chan = contents p.box := by simp [contents, hi]
      rw [hc] at h
      have := key (Mailbox.resume τ (fun _ => true) true p.box).1 (Mailbox.resume τ (fun _ => true) true p.box).2 h.1
      simp only [received, recv, hp, anyMsg] at hn ⊢
      generalize Mailbox.resume τ (fun _ => true) true p.box = z at *
      obtain ⟨res, b⟩ := z
      cases res with
      | got m => cases hn
      | pending => exact .inl ⟨p, rfl, this.1 rfl⟩
      | panicked => exact .inr (this.2 rfl)

/-- As `loop_take`, with the kind of the poll that takes the message. The begin of a round: an invariant that the others and the polls of an empty mailbox keep holds when the message is taken. -/
theorem loop_take' {T : Type} {ser : V → B} {τ : RecvType B V T} {me : Nat} {w : World B V} {k : Msg T → Prog B V R} {os : List (Op B V)}
    {r : R} {Ok : World B V → Op B V → Prop} {I : World B V → Prop}
    (henv : ∀ w o, Reachable ser w → Others me o → Ok w o → I w → I (step ser w o).1)
    (hpoll : ∀ w kind p, Reachable ser w → running w me = true → w.procs me = some p → contents p.box = [] → I w →
      I (step ser w (.recv me (anyMsg τ) kind)).1)
    (hre : Reachable ser w) (hok : Always ser Ok w os) (hI : I w) (h : Exec ser me w (.wait .select (anyMsg τ) none k) os r) :
    ∃ os1 kind m os2, os = os1 ++ .recv me (anyMsg τ) kind :: os2 ∧ I (run ser w os1) ∧ running (run ser w os1) me = true ∧
      (kind = .select ∨ kind = .resume ∧ Unstashed me (run ser w os1)) ∧
      received (run ser w os1) me (anyMsg τ) kind = some m ∧
      TakesOldest τ me (run ser w os1) (step ser (run ser w os1) (.recv me (anyMsg τ) kind)).1 m ∧
      Exec ser me (step ser (run ser w os1) (.recv me (anyMsg τ) kind)).1 (k m) os2 r := by
  have gen : ∀ kind (_ : kind = .select ∨ kind = .resume ∧ Unstashed me w), Exec ser me w (.wait kind (anyMsg τ) none k) os r →
      ∃ os1 kind m os2, os = os1 ++ .recv me (anyMsg τ) kind :: os2 ∧ I (run ser w os1) ∧ running (run ser w os1) me = true ∧
      (kind = .select ∨ kind = .resume ∧ Unstashed me (run ser w os1)) ∧
      received (run ser w os1) me (anyMsg τ) kind = some m ∧
      TakesOldest τ me (run ser w os1) (step ser (run ser w os1) (.recv me (anyMsg τ) kind)).1 m ∧
      Exec ser me (step ser (run ser w os1) (.recv me (anyMsg τ) kind)).1 (k m) os2 r := by
    clear h
    intro kind hk h
    generalize hp : (Prog.wait kind (anyMsg τ) none k : Prog B V R) = p at h
    induction h generalizing kind with
    | env ho hx ih =>
      subst hp
      obtain ⟨os1, kind, m, os2, rfl, h1, h2⟩ := ih (reach_step hre _) hok.2 (henv _ _ hre ho hok.1 hI) kind
        (hk.imp id fun h => ⟨h.1, unstashed_others ser ho h.2⟩) rfl
      exact ⟨_ :: os1, kind, m, os2, rfl, h1, h2⟩
    | got hr hm hx ih =>
      cases hp
      have := poll_any ser τ hre hr _ hk
      rw [hm] at this
      exact ⟨[], _, _, _, rfl, hI, hr, hk, hm, this, hx⟩
    | pending hr hm hx ih =>
      cases hp
      have hu := poll_any ser τ hre hr _ hk
      rw [hm] at hu
      rcases poll_none ser τ hre hr _ hk hm with ⟨p, hp, hc⟩ | he
      · obtain ⟨os1, kind', m, os2, rfl, h1, h2⟩ := ih (reach_step hre _) hok.2 (hpoll _ _ p hre hr hp hc hI) .resume (.inr ⟨rfl, hu⟩) rfl
        exact ⟨_ :: os1, kind', m, os2, rfl, h1, h2⟩
      · exact absurd he (exec_wait_live (reach_step hre _) hx)
    | elapsed => cases hp
    | _ => cases hp
  exact gen .select (.inl rfl) h

/-- The begin of a round: an invariant that the others and the polls of an empty mailbox keep holds when the message is taken. -/
theorem loop_take {T : Type} {ser : V → B} {τ : RecvType B V T} {me : Nat} {w : World B V} {k : Msg T → Prog B V R} {os : List (Op B V)}
    {r : R} {Ok : World B V → Op B V → Prop} {I : World B V → Prop}
    (henv : ∀ w o, Reachable ser w → Others me o → Ok w o → I w → I (step ser w o).1)
    (hpoll : ∀ w kind p, Reachable ser w → running w me = true → w.procs me = some p → contents p.box = [] → I w →
      I (step ser w (.recv me (anyMsg τ) kind)).1)
    (hre : Reachable ser w) (hok : Always ser Ok w os) (hI : I w) (h : Exec ser me w (.wait .select (anyMsg τ) none k) os r) :
    ∃ os1 kind m os2, os = os1 ++ .recv me (anyMsg τ) kind :: os2 ∧ I (run ser w os1) ∧ running (run ser w os1) me = true ∧
      received (run ser w os1) me (anyMsg τ) kind = some m ∧
      TakesOldest τ me (run ser w os1) (step ser (run ser w os1) (.recv me (anyMsg τ) kind)).1 m ∧
      Exec ser me (step ser (run ser w os1) (.recv me (anyMsg τ) kind)).1 (k m) os2 r := by
  obtain ⟨os1, kind, m, os2, h1, h2, h3, -, h4⟩ := loop_take' henv hpoll hre hok hI h
  exact ⟨os1, kind, m, os2, h1, h2, h3, h4⟩

/-! ## The loop of a server -/

/-- A message of a round: the callback that it is for has been run, with its result. -/
def RanFor (ser : V → B) (me : Nat) (srv : Server B V M S) (parent : Pid) (m : Msg (GMsg M)) (w : World B V) (os : List (Op B V))
    (c : Record M S) : Prop := callbackFor parent m = some c.what ∧ Ran ser me srv w os c

/-- The reply that the loop sends after a callback. -/
def replyOf (τ : RecvType B V (GMsg M)) (me : Nat) (c : Record M S) : Option (Op B V) :=
  match c.what, c.result with
  | .call _ frm, .ok (some y) => some (replyOp τ me frm y)
  | _, _ => none

/-- A round of the loop: the message and what follows it. -/
theorem round_inv {ser : V → B} {me : Nat} {srv : Server B V M S} {τ : RecvType B V (GMsg M)} {parent : Pid} {n : Nat} {σ : S}
    {w : World B V} {m : Msg (GMsg M)} {os : List (Op B V)} {l : Log M S} {k : Msg (GMsg M) → Prog B V (Log M S)}
    (hk : serverLoop srv τ me parent (n + 1) σ = .wait .select (anyMsg τ) none k) (h : Exec ser me w (k m) os l) :
    (∃ r, stopReason parent m = some r ∧ Exec ser me w (finishServer srv me σ r []) os l) ∨
    ∃ os1 os2 c, os = os1 ++ os2 ∧ c.before = σ ∧ RanFor ser me srv parent m w os1 c ∧
      Exec ser me (run ser w os1) (match replyOf τ me c with
        | some o => .op o fun _ => afterCallback srv me c (serverLoop srv τ me parent n c.after)
        | none => afterCallback srv me c (serverLoop srv τ me parent n c.after)) os2 l := by
  rw [serverLoop] at hk
  simp only [anyMsg, Prog.wait.injEq, heq_eq_eq, true_and] at hk
  subst hk
  have go : ∀ (p : Prog B V (S × Except ExitReason Unit)) (wh : Invoke M), (∀ x frm, wh ≠ .call x frm) → callbackFor parent m = some wh →
      (∀ os a u, Exec ser me w p os (a, u) → Ran ser me srv w os ⟨wh, σ, a, noReply u⟩) →
      Exec ser me w (p.bind fun q => afterCallback srv me ⟨wh, σ, q.1, noReply q.2⟩ (serverLoop srv τ me parent n q.1)) os l →
      ∃ os1 os2 c, os = os1 ++ os2 ∧ c.before = σ ∧ RanFor ser me srv parent m w os1 c ∧
      Exec ser me (run ser w os1) (match replyOf τ me c with
        | some o => .op o fun _ => afterCallback srv me c (serverLoop srv τ me parent n c.after)
        | none => afterCallback srv me c (serverLoop srv τ me parent n c.after)) os2 l := by
    intro p wh hwh hcb hran hx
    obtain ⟨os1, os2, ⟨a, u⟩, rfl, h1, h2⟩ := exec_bind_inv hx
    refine ⟨os1, os2, ⟨wh, σ, a, noReply u⟩, rfl, rfl, ⟨hcb, hran _ _ _ h1⟩, ?_⟩
    have : replyOf τ me (⟨wh, σ, a, noReply u⟩ : Record M S) = none := by
      cases wh <;> first | rfl | exact absurd rfl (hwh _ _)
    rw [this]
    exact h2
  cases m with
  | user g =>
    cases g with
    | cast x => exact .inr (go _ (.cast x) (by simp) rfl (fun os a u hx => ⟨u, hx, rfl⟩) h)
    | callReply t x => exact .inr (go _ (.info (.user x)) (by simp) rfl (fun os a u hx => ⟨u, hx, rfl⟩) h)
    | stop r => exact .inl ⟨r, rfl, h⟩
    | call frm x =>
      right
      obtain ⟨os1, os2, ⟨a, u⟩, rfl, h1, h2⟩ := exec_bind_inv h
      refine ⟨os1, os2, ⟨.call x frm, σ, a, u⟩, rfl, rfl, ⟨rfl, h1⟩, ?_⟩
      rcases u with r | _ | y
      · exact h2
      · exact h2
      · exact h2
  | system s =>
    cases s with
    | exit p r =>
      dsimp only at h
      by_cases hp : p = parent
      · rw [if_pos hp] at h
        exact .inl ⟨r, by simp [stopReason, hp], h⟩
      · rw [if_neg hp] at h
        exact .inr (go _ (.info (.system (.exit p r))) (by simp) (by simp [callbackFor, hp]) (fun os a u hx => ⟨u, hx, rfl⟩) h)
    | _ => exact .inr (go _ (.info (.system _)) (by simp) rfl (fun os a u hx => ⟨u, hx, rfl⟩) h)

/-- The loop ended by `terminate`, in a state with `J`. -/
def Terminated (ser : V → B) (me : Nat) (srv : Server B V M S) (J : World B V → S → List (Record M S) → Prop) (r : ExitReason) (w : World B V)
    (os : List (Op B V)) (l : List (Record M S)) (σ' : S) : Prop :=
  ∃ os1 os2 os3 σ calls, os = os1 ++ (os2 ++ os3) ∧ l = calls ++ [⟨.terminate r, σ, σ', .ok none⟩] ∧ J (run ser w os1) σ calls ∧
    Exec ser me (run ser w os1) (srv.terminate σ r) os2 σ'

theorem Terminated.wrap {ser : V → B} {me : Nat} {srv : Server B V M S} {J : World B V → S → List (Record M S) → Prop} {r : ExitReason} {w : World B V}
    {os pre post : List (Op B V)} {l : List (Record M S)} {σ' : S} (h : Terminated ser me srv J r (run ser w pre) os l σ') :
    Terminated ser me srv J r w (pre ++ (os ++ post)) l σ' := by
  obtain ⟨os1, os2, os3, σ, calls, rfl, hl, hj, hx⟩ := h
  exact ⟨pre ++ os1, os2, os3 ++ post, σ, calls, by simp, hl, by rw [run_append]; exact hj, by rw [run_append]; exact hx⟩

/-- The rule for the loop of a server, with the kind of the poll that takes a message. `I w σ l` holds between rounds, when the callbacks `l` have been run and the state is `σ`; `K m` holds
after the message `m` was taken. -/
theorem loop_rule' {ser : V → B} {τ : RecvType B V (GMsg M)} {me : Nat} {srv : Server B V M S} {parent : Pid}
    {Ok : World B V → Op B V → Prop} {I : World B V → S → List (Record M S) → Prop} {K : Msg (GMsg M) → World B V → S → List (Record M S) → Prop}
    {J : World B V → S → List (Record M S) → Prop}
    (henv : ∀ w o σ l, Reachable ser w → Others me o → Ok w o → I w σ l → I (step ser w o).1 σ l)
    (hpoll : ∀ w kind p σ l, Reachable ser w → running w me = true → w.procs me = some p → contents p.box = [] → I w σ l →
      I (step ser w (.recv me (anyMsg τ) kind)).1 σ l)
    (htake : ∀ w kind m σ l, Reachable ser w → running w me = true → (kind = .select ∨ kind = .resume ∧ Unstashed me w) → received w me (anyMsg τ) kind = some m →
      Ok w (.recv me (anyMsg τ) kind) → TakesOldest τ me w (step ser w (.recv me (anyMsg τ) kind)).1 m → I w σ l →
      K m (step ser w (.recv me (anyMsg τ) kind)).1 σ l)
    (hcall : ∀ w m os c l, Reachable ser w → Always ser Ok w os → K m w c.before l → RanFor ser me srv parent m w os c →
      match c.result with | .ok _ => I (run ser w os) c.after (l ++ [c]) | .error _ => J (run ser w os) c.after (l ++ [c]))
    (hstop : ∀ w m r σ l, Reachable ser w → K m w σ l → stopReason parent m = some r → J w σ l)
    (hreply : ∀ w (c : Record M S) o σ l, Reachable ser w → running w me = true → replyOf τ me c = some o → I w σ l → I (step ser w o).1 σ l)
    {n : Nat} {σ : S} {w : World B V} {os : List (Op B V)} {l : Log M S} {done : List (Record M S)}
    (hre : Reachable ser w) (hok : Always ser Ok w os) (hI : I w σ done) (h : Exec ser me w (serverLoop srv τ me parent n σ) os l) :
    (l.ended = none → I (run ser w os) l.state (done ++ l.calls)) ∧
    (∀ r, l.ended = some r → Terminated ser me srv J r w os (done ++ l.calls) l.state) := by
  induction n generalizing σ w os l done with
  | zero =>
    rw [serverLoop] at h
    obtain ⟨rfl, ho⟩ := exec_ret_inv h
    refine ⟨fun _ => ?_, by simp⟩
    rw [List.append_nil]
    exact always_run (Ok := Ok) (P := Others me) (I := fun w => I w σ done) (fun w o hr hp hk hi => henv w o σ done hr hp hk hi) hre hok ho hI
  | succ n ih =>
    generalize hk : serverLoop srv τ me parent (n + 1) σ = pg at h
    have hk' := hk
    rw [serverLoop] at hk
    subst hk
    obtain ⟨os1, kind, m, os2, rfl, hI1, hr1, hkd, hm, ht, hx⟩ := loop_take' (Ok := Ok) (I := fun w => I w σ done) (fun w o hr hp hk hi => henv w o σ done hr hp hk hi)
      (fun w kind p hr hrun hp hc hi => hpoll w kind p σ done hr hrun hp hc hi) hre hok hI h
    have hok' := always_append.1 hok
    have hre1 := reach_run hre os1
    have hK := htake _ kind m σ done hre1 hr1 hkd hm hok'.2.1 ht hI1
    have e1 : (step ser (run ser w os1) (.recv me (anyMsg τ) kind)).1 = run ser w (os1 ++ [.recv me (anyMsg τ) kind]) := by
      rw [run_append]; rfl
    have hok2 : Always ser Ok (run ser w (os1 ++ [.recv me (anyMsg τ) kind])) os2 := by rw [← e1]; exact hok'.2.2
    rw [e1] at hK hx
    have hre2 := reach_run hre (os1 ++ [.recv me (anyMsg τ) kind])
    have hos : os1 ++ Op.recv me (anyMsg τ) kind :: os2 = (os1 ++ [Op.recv me (anyMsg τ) kind]) ++ os2 := by simp
    rw [hos]
    generalize os1 ++ [Op.recv me (anyMsg τ) kind] = pre at *
    rcases round_inv hk' hx with ⟨r, hsr, hf⟩ | ⟨os3, os4, c, rfl, hb, hran, hf⟩
    · obtain ⟨σ', os5, os6, rfl, rfl, hran, -⟩ := finish_inv hf
      refine ⟨by simp, ?_⟩
      intro r' hr'
      simp at hr'; subst hr'
      exact ⟨pre, os5, os6, σ, done, rfl, by simp, hstop _ _ _ _ _ hre2 hK hsr, hran⟩
    · subst hb
      have hok3 := always_append.1 hok2
      have hre3 := reach_run hre2 os3
      have hI3 := hcall _ m os3 c done hre2 hok3.1 hK hran
      rcases hres : c.result with r | x
      · have hrep : replyOf τ me c = none := by unfold replyOf; rw [hres]; cases c.what <;> rfl
        rw [hrep] at hf
        simp only [afterCallback, hres] at hf
        obtain ⟨σ', os5, os6, rfl, rfl, hran', -⟩ := finish_inv hf
        refine ⟨by simp, ?_⟩
        intro r' hr'
        simp at hr'; subst hr'
        rw [hres] at hI3
        refine ⟨pre ++ os3, os5, os6, c.after, done ++ [c], by simp, by simp, by rw [run_append]; exact hI3, by rw [run_append]; exact hran'⟩
      · rw [hres] at hI3
        have last : ∀ os5 os6, os4 = os5 ++ os6 → I (run ser w (pre ++ (os3 ++ os5))) c.after (done ++ [c]) →
            Exec ser me (run ser w (pre ++ (os3 ++ os5))) (afterCallback srv me c (serverLoop srv τ me parent n c.after)) os6 l →
            (l.ended = none → I (run ser w (pre ++ (os3 ++ os4))) l.state (done ++ l.calls)) ∧
              (∀ r, l.ended = some r → Terminated ser me srv J r w (pre ++ (os3 ++ os4)) (done ++ l.calls) l.state) := by
          intro os5 os6 h56 hI5 hx5
          subst h56
          simp only [afterCallback, hres] at hx5
          obtain ⟨os7, os8, l', rfl, h7, h8⟩ := exec_bind_inv hx5
          obtain ⟨rfl, ho8⟩ := exec_ret_inv h8
          have hre5 := reach_run hre (pre ++ (os3 ++ os5))
          have hok5 : Always ser Ok (run ser w (pre ++ (os3 ++ os5))) (os7 ++ os8) := by
            rw [run_append]
            rw [← List.append_assoc] at hok2; exact (always_append.1 hok2).2
          have hok7 := always_append.1 hok5
          obtain ⟨i1, i2⟩ := ih hre5 hok7.1 hI5 h7
          have e : pre ++ (os3 ++ (os5 ++ (os7 ++ os8))) = (pre ++ (os3 ++ os5)) ++ (os7 ++ os8) := by simp
          rw [e]
          refine ⟨fun he => ?_, fun r hr => by have := Terminated.wrap (post := os8) (i2 r hr); simpa using this⟩
          have := always_run (Ok := Ok) (P := Others me) (I := fun w => I w l'.state (done ++ [c] ++ l'.calls))
              (fun w o hr hp hk hi => henv w o _ _ hr hp hk hi) (reach_run hre5 os7) hok7.2 ho8 (i1 he)
          rw [← run_append, ← run_append] at this
          simpa using this
        cases hrep : replyOf τ me c with
        | none =>
          rw [hrep] at hf
          exact last [] os4 rfl (by rw [run_append]; simpa using hI3) (by rw [run_append]; simpa using hf)
        | some o =>
          rw [hrep] at hf
          obtain ⟨os5, os6, rfl, ho5, hr5, hx5⟩ := exec_op_inv hf
          have hok5 := always_append.1 hok3.2
          have hI5 := always_run (Ok := Ok) (P := Others me) (I := fun w => I w c.after (done ++ [c]))
              (fun w o hr hp hk hi => henv w o _ _ hr hp hk hi) hre3 hok5.1 ho5 hI3
          have hI6 := hreply _ c o _ _ (reach_run hre3 os5) hr5 hrep hI5
          have e : run ser w (pre ++ (os3 ++ (os5 ++ [o]))) = (step ser (run ser (run ser (run ser w pre) os3) os5) o).1 := by
            rw [run_append, run_append, run_append]; rfl
          exact last (os5 ++ [o]) os6 (by simp) (by rw [e]; exact hI6) (by rw [e]; exact hx5)

/-- The rule for the loop of a server. `I w σ l` holds between rounds, when the callbacks `l` have been run and the state is `σ`; `K m` holds
after the message `m` was taken. -/
theorem loop_rule {ser : V → B} {τ : RecvType B V (GMsg M)} {me : Nat} {srv : Server B V M S} {parent : Pid}
    {Ok : World B V → Op B V → Prop} {I : World B V → S → List (Record M S) → Prop} {K : Msg (GMsg M) → World B V → S → List (Record M S) → Prop}
    {J : World B V → S → List (Record M S) → Prop}
    (henv : ∀ w o σ l, Reachable ser w → Others me o → Ok w o → I w σ l → I (step ser w o).1 σ l)
    (hpoll : ∀ w kind p σ l, Reachable ser w → running w me = true → w.procs me = some p → contents p.box = [] → I w σ l →
      I (step ser w (.recv me (anyMsg τ) kind)).1 σ l)
    (htake : ∀ w kind m σ l, Reachable ser w → running w me = true → received w me (anyMsg τ) kind = some m →
      Ok w (.recv me (anyMsg τ) kind) → TakesOldest τ me w (step ser w (.recv me (anyMsg τ) kind)).1 m → I w σ l →
      K m (step ser w (.recv me (anyMsg τ) kind)).1 σ l)
    (hcall : ∀ w m os c l, Reachable ser w → Always ser Ok w os → K m w c.before l → RanFor ser me srv parent m w os c →
      match c.result with | .ok _ => I (run ser w os) c.after (l ++ [c]) | .error _ => J (run ser w os) c.after (l ++ [c]))
    (hstop : ∀ w m r σ l, Reachable ser w → K m w σ l → stopReason parent m = some r → J w σ l)
    (hreply : ∀ w (c : Record M S) o σ l, Reachable ser w → running w me = true → replyOf τ me c = some o → I w σ l → I (step ser w o).1 σ l)
    {n : Nat} {σ : S} {w : World B V} {os : List (Op B V)} {l : Log M S} {done : List (Record M S)}
    (hre : Reachable ser w) (hok : Always ser Ok w os) (hI : I w σ done) (h : Exec ser me w (serverLoop srv τ me parent n σ) os l) :
    (l.ended = none → I (run ser w os) l.state (done ++ l.calls)) ∧
    (∀ r, l.ended = some r → Terminated ser me srv J r w os (done ++ l.calls) l.state) :=
  loop_rule' henv hpoll (fun w kind m σ l h1 h2 _ => htake w kind m σ l h1 h2) hcall hstop hreply hre hok hI h

end Verif.World
