import Verif.SupClient
import Verif.SupChildProps
import Verif.SilentLemmas
import Verif.TwoNodeMixProps
import Verif.Sim
/-!
# Property C122: what the functions that ask a supervisor return
-/
namespace Verif.Sup
open Verif.World Verif.Mailbox
variable {B V R : Type}

/-! ## Specification -/

/-- What the state machine is asked. -/
def Ask.event : Ask → Event
  | .count => .count
  | .which => .which
  | .start c => .startChild c
  | .terminate id => .terminateChild id
  | .restart id => .restartChild id
  | .delete id => .deleteChild id

/-- The answer of the state machine that the function returns. -/
inductive Ask.Says : (q : Ask) → Except AskError q.Out → Reply → Prop
  | count (c : Counts) : Says .count (.ok c) (.counts c)
  | which (l : List Info) : Says .which (.ok l) (.children l)
  | started (c : Spec) (p : Option Pid) : Says (.start c) (.ok p) (.pid (.ok p))
  | notStarted (c : Spec) (e : SupError) : Says (.start c) (.error (.sup e)) (.pid (.error e))
  | terminated (id : String) : Says (.terminate id) (.ok ()) (.done (.ok ()))
  | notTerminated (id : String) (e : SupError) : Says (.terminate id) (.error (.sup e)) (.done (.error e))
  | restarted (id : String) (p : Option Pid) : Says (.restart id) (.ok p) (.pid (.ok p))
  | notRestarted (id : String) (e : SupError) : Says (.restart id) (.error (.sup e)) (.pid (.error e))
  | deleted (id : String) : Says (.delete id) (.ok ()) (.done (.ok ()))
  | notDeleted (id : String) (e : SupError) : Says (.delete id) (.error (.sup e)) (.done (.error e))

/-- In the history `G`, after `hs`, a supervisor with these children runs: `init`, then `n` messages. That takes `os` and leaves the log `l`. -/
structure Supervises (cf : Conf B V) (ser : V → B) (parent : Pid) (G hs os : List (Op B V)) (n : Nat) (s : Sup) (l : Log SMsg SState) : Prop where
  part : hs ++ os <+: G
  life : ∃ σ, Exec ser cf.me (Verif.World.run ser Verif.World.init hs) (supLife cf parent n s) os (some l, σ)

/-- In the history `G`, after `pre`, the process `me` asks `d`; that takes `ops` and returns `r`. `t` is the reference of its call. -/
structure Asked (cf : Conf B V) (ser : V → B) (G pre ops : List (Op B V)) (me : Nat) (d : Dest) (q : Ask) (r : Except AskError q.Out) (t : Nat) : Prop where
  part : pre ++ ops <+: G
  call : Exec ser me (Verif.World.run ser Verif.World.init pre) (q.prog cf.type me d) ops r
  tag : ∃ os1 os2, ops = os1 ++ callMon me d :: os2 ∧ (∀ o ∈ os1, Others me o) ∧ t = (Verif.World.run ser Verif.World.init (pre ++ os1)).nextRef

/-- In the history that begins with `hs` and `P`, the supervisor that started after `hs` has just decided the question: it was in state `s1`, it is in state
`s2`, and its answer is `rep`. -/
def Decides (cf : Conf B V) (ser : V → B) (parent : Pid) (hs P : List (Op B V)) (s : Sup) (q : Ask) (rep : Reply) (s1 s2 : Sup) : Prop :=
  ∃ k l o s0 es now casts, Exec ser cf.me (Verif.World.run ser Verif.World.init hs) (supLife cf parent k s) P (some l, l.state) ∧
    boot o s = .up s0 ∧ eventsOf cf.clock l.calls = es ++ [⟨now, q.event, rep, none⟩] ∧ Lives o s0 es s1 none ∧
    step o { s1 with casts := casts } now q.event = some (s2, rep, none) ∧ l.state.1 = s2 ∧ l.ended = none

/-! ## Lemmas -/

/-- What the function makes of a reply. -/
def asked {X : Type} : Except SupError X → Except AskError X
  | .ok y => .ok y
  | .error e => .error (.sup e)

theorem silent_prog {cf : Conf B V} {ser : V → B} (hf : Faithful ser cf.type) (hs : ∀ k c, Silent ser cf.type cf.me (cf.startOf k c)) (dead : R) (x : Sk R) :
    ∀ n, Silent ser cf.type cf.me (x.prog cf dead n) := by
  induction x with
  | ret r => exact fun n => silent_ret r
  | start c k ih => exact fun n => silent_bind (hs n c) fun r => ih r _
  | stop p how k ih => exact fun n => silent_bind (silent_shutdown _ _) fun _ => ih _
  | cast id k ih =>
    refine fun n => silent_op ?_ fun _ => ih _
    rintro t y ⟨it, hsb, hrd⟩
    have := sentBy_read hf hsb hrd
    cases this
  | panic => exact fun n => silent_op (by rintro t y ⟨it, hs, -⟩; cases hs) fun _ => silent_op (by rintro t y ⟨it, hs, -⟩; cases hs) fun _ => silent_ret _

theorem silent_play {cf : Conf B V} {ser : V → B} (hf : Faithful ser cf.type) (hs : ∀ k c, Silent ser cf.type cf.me (cf.startOf k c)) (σ : SState) {X : Type}
    (dead : X) (x : Sk (Sup × X)) : Silent ser cf.type cf.me (play cf σ dead x) :=
  silent_bind (silent_prog hf hs _ x _) fun _ => silent_ret _

/-- A supervisor leaves it to the loop to answer. -/
theorem sup_returns {cf : Conf B V} {ser : V → B} (hf : Faithful ser cf.type) (hs : ∀ k c, Silent ser cf.type cf.me (cf.startOf k c)) :
    Returns ser (supServer cf) cf.type cf.me := by
  refine ⟨?_, ?_, ?_, ?_⟩
  · intro σ m
    simp only [supServer]
    repeat' split
    all_goals exact silent_play hf hs _ _ _
  · intro σ m frm
    simp only [supServer]
    repeat' split
    all_goals exact silent_play hf hs _ _ _
  · intro σ m
    simp only [supServer]
    repeat' split
    all_goals exact silent_play hf hs _ _ _
  · intro σ r
    exact silent_bind (silent_play hf hs _ _ _) fun _ => silent_ret _

/-- Before and after a handled request. -/
theorem chain_split {o : Oracle} {clock : Nat → Nat} : ∀ (cs1 : List (Record SMsg SState)) {σ σ' : SState} {c : Record SMsg SState}
    {cs2 : List (Record SMsg SState)} {q : Option ExitReason} {x : Option SMsg}, Chain o clock σ (cs1 ++ c :: cs2) q σ' → Ready σ.1 → Uniq σ.1 →
    (∀ r, c.what ≠ .terminate r) → c.result = .ok x →
    Does o clock c ∧ (eventsOf clock (cs1 ++ c :: cs2) =
      eventsOf clock cs1 ++ ⟨clock c.before.2, (eventOf c).1, replyOf c.result, (eventOf c).2⟩ :: eventsOf clock cs2) ∧
    Lives o σ.1 (eventsOf clock cs1) c.before.1 none ∧
    (∃ casts, step o { c.before.1 with casts := casts } (clock c.before.2) (eventOf c).1 = some (c.after.1, replyOf c.result, none)) ∧
    Chain o clock c.after cs2 q σ' ∧ Ready c.after.1 ∧ Uniq c.after.1
  | [], σ, σ', c, cs2, q, x, h, hr, hu, hnt, hok => by
    cases h with
    | next hd _ hct hok' hch =>
      obtain ⟨casts, h1, h2⟩ := does_step hu hd hnt
      simp only [hok, Turns] at h2
      have hm := step_move (ready_casts hr casts) h2
      exact ⟨hd, by simp [eventsOf, hok], .nil _, ⟨casts, by rw [hok]; exact h2⟩, hch, move_ready (ready_casts hr casts) hm,
        uniq_step (uniq_casts hu casts) (move_specs hm)⟩
    | fail hd _ hok' => rw [hok] at hok'; cases hok'
    | stop ht => exact absurd ht (hnt _)
  | c0 :: cs1, σ, σ', c, cs2, q, x, h, hr, hu, hnt, hok => by
    generalize hl : c0 :: cs1 ++ c :: cs2 = l at h
    cases h with
    | none => cases hl
    | @next c1 y cs' _ _ hd hnt0 hct hok' hch =>
      simp only [List.cons_append, List.cons.injEq] at hl
      obtain ⟨rfl, rfl⟩ := hl
      obtain ⟨casts, h1, h2⟩ := does_step hu hd hnt0
      simp only [hok', Turns] at h2
      have hm := step_move (ready_casts hr casts) h2
      obtain ⟨g1, g2, g3, g4⟩ := chain_split cs1 hch (move_ready (ready_casts hr casts) hm) (uniq_step (uniq_casts hu casts) (move_specs hm)) hnt hok
      refine ⟨g1, ?_, ?_, g4⟩
      · simp only [eventsOf, hok', g2, List.cons_append]
      · simp only [eventsOf, hok']
        exact .next h1 h2 g3
    | fail hd hnt0 hok' ht =>
      simp only [List.cons_append, List.cons.injEq] at hl
      obtain ⟨rfl, hl⟩ := hl
      cases cs1 with
      | nil => simp at hl; rw [← hl.1] at ht; exact absurd ht (hnt _)
      | cons _ _ => simp at hl
    | stop ht =>
      simp at hl

/-- The record of a function's request. -/
theorem ask_record {o : Oracle} {clock : Nat → Nat} {c : Record SMsg SState} {q : Ask} {frm : From} {x : SMsg} (hd : Does o clock c)
    (hw : c.what = .call q.msg frm) (hx : c.result = .ok (some x)) :
    ∃ y, q.read x = some y ∧ q.Says (asked y) (replyOf c.result) ∧ eventOf c = (q.event, none) := by
  obtain ⟨what, ⟨s, k⟩, ⟨s', k'⟩, res⟩ := c
  simp only at hw hx
  subst hw; subst hx
  cases q with
  | count => obtain ⟨-, h⟩ := hd; simp only [Except.ok.injEq, Option.some.injEq] at h; subst h; exact ⟨_, rfl, .count _, rfl⟩
  | which => obtain ⟨-, h⟩ := hd; simp only [Except.ok.injEq, Option.some.injEq] at h; subst h; exact ⟨_, rfl, .which _, rfl⟩
  | start spec =>
    obtain ⟨r, -, h⟩ := hd; simp only [Except.ok.injEq, Option.some.injEq] at h; subst h
    refine ⟨_, rfl, ?_, rfl⟩
    cases r with
    | ok p => exact .started _ _
    | error e => exact .notStarted _ _
  | terminate id =>
    obtain ⟨r, -, h⟩ := hd; simp only [Except.ok.injEq, Option.some.injEq] at h; subst h
    refine ⟨_, rfl, ?_, rfl⟩
    cases r with
    | ok p => exact .terminated _
    | error e => exact .notTerminated _ _
  | restart id =>
    obtain ⟨r, -, h⟩ := hd; simp only [Except.ok.injEq, Option.some.injEq] at h; subst h
    refine ⟨_, rfl, ?_, rfl⟩
    cases r with
    | ok p => exact .restarted _ _
    | error e => exact .notRestarted _ _
  | delete id =>
    obtain ⟨-, h⟩ := hd; simp only [Except.ok.injEq, Option.some.injEq] at h; subst h
    refine ⟨_, rfl, ?_, rfl⟩
    generalize (deleteChild s id).2 = r
    cases r with
    | ok p => exact .deleted _
    | error e => exact .notDeleted _ _

/-- The call in a function. -/
theorem asked_called {cf : Conf B V} {ser : V → B} {G pre ops : List (Op B V)} {me : Nat} {d : Dest} {q : Ask} {r : Except AskError q.Out} {t : Nat}
    (h : Asked cf ser G pre ops me d q r t) (hr : ∀ e, r ≠ .error (.call e)) :
    ∃ ops1 ops2 x y, ops = ops1 ++ ops2 ∧ (∀ o ∈ ops2, Others me o) ∧ Called ser cf.type G pre ops1 me d q.msg x t ∧ q.read x = some y ∧
      r = (asked y) := by
  obtain ⟨ops1, ops2, x, rfl, h1, h2⟩ := exec_bind_inv h.call
  have key : ∀ {m}, x = .ok m → (∀ o ∈ ops2, Others me o) → Called ser cf.type G pre ops1 me d q.msg m t := by
    rintro m rfl ho
    refine ⟨?_, h1, ?_⟩
    · obtain ⟨z, hz⟩ := h.part
      exact ⟨ops2 ++ z, by rw [← hz]; simp⟩
    · obtain ⟨os1, os2, he, h3, h4⟩ := h.tag
      have hcal : (callMon me d : Op B V).caller = some me := by unfold callMon; split <;> rfl
      obtain ⟨b', hb, -⟩ := append_before he (fun hm => (ho _ hm).1 hcal)
      exact ⟨os1, b', hb, h3, h4⟩
  cases x with
  | error e => exact absurd (exec_ret_inv h2).1 (hr e)
  | ok m =>
    cases hm : q.read m with
    | none =>
      simp only [Ask.take, hm] at h2
      exact (panic_never (reach_run ⟨pre, rfl⟩ ops1) h2).elim
    | some y =>
      simp only [Ask.take, hm] at h2
      cases y with
      | ok y => exact ⟨ops1, ops2, m, .ok y, rfl, (exec_ret_inv h2).2, key rfl (exec_ret_inv h2).2, hm, (exec_ret_inv h2).1⟩
      | error e => exact ⟨ops1, ops2, m, .error e, rfl, (exec_ret_inv h2).2, key rfl (exec_ret_inv h2).2, hm, (exec_ret_inv h2).1⟩

/-- A supervisor serves. -/
theorem supervises_serves {cf : Conf B V} {ser : V → B} {parent : Pid} {G hs os : List (Op B V)} {n : Nat} {st : Strategy} {au : AutoShutdown} {mr md : Nat}
    {cs : List Spec} {l : Log SMsg SState} (hf : Faithful ser cf.type) (hst : ∀ k c, Silent ser cf.type cf.me (cf.startOf k c))
    (hs' : ∀ c ∈ cs, c.hasStart = true) (hd : (cs.map (·.id)).Nodup)
    (h : Supervises cf ser parent G hs os n (fresh st au mr md cs) l) :
    ∃ o σ0 os1 os2, boot o (fresh st au mr md cs) = .up σ0.1 ∧ Chain o cf.clock σ0 l.calls l.ended l.state ∧ Ready σ0.1 ∧ Uniq σ0.1 ∧ hs ++ (os1 ++ os2) <+: hs ++ os ∧
      Exec ser cf.me (Verif.World.run ser Verif.World.init hs) ((supServer cf).init (fresh st au mr md cs, 0)) os1 (σ0, .ok ()) ∧
      Serves ser (supServer cf) cf.type cf.me parent G (hs ++ os1) os2 σ0 n l ∧
      ∀ pre ops me t, Unforged ser cf.type cf.me G hs os pre ops me t → Unforged ser cf.type cf.me G (hs ++ os1) os2 pre ops me t := by
  obtain ⟨σ, hx⟩ := h.life
  obtain ⟨z, hz⟩ := h.part
  obtain ⟨o, σ0, hb, hc, -, os1, os2, os3, rfl, hi, ho, hl⟩ := life_parts cf ser _ ⟨hs, rfl⟩ parent n st au mr md cs os l σ hx
  obtain ⟨i1, i2, -⟩ := fresh_inv _ st au mr md cs hs' hd _ hb
  refine ⟨o, σ0, os1, os2, hb, hc, i1, i2, ⟨os3, by simp⟩, hi, ⟨⟨os3 ++ z, by rw [← hz]; simp⟩, by rw [run_append]; exact hl⟩, ?_⟩
  intro pre ops me t hu
  refine ⟨hu.request, ?_⟩
  intro a x b y hG hr
  obtain ⟨g1, g2, g3⟩ := hu.reply a x b y hG hr
  have hsil : Silent ser cf.type cf.me ((supServer cf).init (fresh st au mr md cs, 0)) :=
    silent_op (by rintro t y ⟨it, hs, -⟩; cases hs) fun _ => silent_play hf hst _ _ _
  -- where the reply is
  have hget : (os1 ++ (os2 ++ os3))[a.length - hs.length]? = some x := by
    have h1 : G[a.length]? = some x := by rw [hG]; simp
    rw [← hz, List.append_assoc, List.getElem?_append_right g2, List.getElem?_append_left (by omega)] at h1
    exact h1
  refine ⟨g1, ?_, ?_⟩
  · rcases Nat.lt_or_ge (a.length - hs.length) os1.length with hlt | hge
    · rw [List.getElem?_append_left hlt] at hget
      exact absurd hr (hsil _ _ _ hi x (List.mem_of_getElem? hget) g1 t y)
    · simp; omega
  · rcases Nat.lt_or_ge (a.length - hs.length) (os1 ++ os2).length with hlt | hge
    · simp at hlt ⊢; omega
    · rw [← List.append_assoc, List.getElem?_append_right hge] at hget
      exact absurd g1 (ho x (List.mem_of_getElem? hget)).1

/-- The call of a function is not forged either. -/
theorem unforged_call {ser : V → B} {τ : RecvType B V (GMsg SMsg)} {s : Nat} {G hs os pre ops1 ops2 : List (Op B V)} {me t : Nat}
    (hp : pre ++ (ops1 ++ ops2) <+: G) (ho : ∀ o ∈ ops2, Others me o) (h : Unforged ser τ s G hs os pre (ops1 ++ ops2) me t) :
    Unforged ser τ s G hs os pre ops1 me t := by
  refine ⟨?_, h.reply⟩
  intro a x b it frm y hG hs hr ht
  obtain ⟨g1, g2, g3⟩ := h.request a x b it frm y hG hs hr ht
  refine ⟨g1, g2, ?_⟩
  obtain ⟨z, hz⟩ := hp
  have hget : (ops1 ++ ops2)[a.length - pre.length]? = some x := by
    have h1 : G[a.length]? = some x := by rw [hG]; simp
    rw [← hz, List.append_assoc, List.getElem?_append_right g2, List.getElem?_append_left (by omega)] at h1
    exact h1
  rcases Nat.lt_or_ge (a.length - pre.length) ops1.length with hlt | hge
  · omega
  · rw [List.getElem?_append_right hge] at hget
    exact absurd g1 (ho x (List.mem_of_getElem? hget)).1

/-! ## Theorems -/

/-- **C122**: a function that returns anything but a failed call returns what the supervisor decided, once, while the function was running: somewhere in the
life of the state machine there is this very question, and the function's result is the answer that the state machine gives in the state it then is in. -/
theorem C122_answered (cf : Conf B V) (ser : V → B) (hf : Faithful ser cf.type) (hst : ∀ k c, Silent ser cf.type cf.me (cf.startOf k c))
    (parent : Pid) (G hs os : List (Op B V)) (n : Nat) (st : Strategy) (au : AutoShutdown) (mr md : Nat) (cs : List Spec)
    (hs' : ∀ c ∈ cs, c.hasStart = true) (hd : (cs.map (·.id)).Nodup) (l : Log SMsg SState)
    (hsup : Supervises cf ser parent G hs os n (fresh st au mr md cs) l) (hcoh : Coherent cf.type G) (hfor : NoForgery ser cf.type G)
    (pre ops : List (Op B V)) (me : Nat) (d : Dest) (q : Ask) (r : Except AskError q.Out) (t : Nat) (ha : Asked cf ser G pre ops me d q r t)
    (hu : Unforged ser cf.type cf.me G hs os pre ops me t) (hr : ∀ e, r ≠ .error (.call e)) :
    ∃ o s0 es1 es2 now rep s1 casts s2, boot o (fresh st au mr md cs) = .up s0 ∧ q.Says r rep ∧
      eventsOf cf.clock l.calls = es1 ++ ⟨now, q.event, rep, none⟩ :: es2 ∧ Lives o s0 es1 s1 none ∧
      step o { s1 with casts := casts } now q.event = some (s2, rep, none) ∧ Lives o s2 es2 l.state.1 l.ended := by
  obtain ⟨ops1, ops2, x, y, rfl, ho, hc, hxy, rfl⟩ := asked_called ha hr
  obtain ⟨o, σ0, os1, os2, hb, hch, i1, i2, -, -, hsv, huf⟩ := supervises_serves hf hst hs' hd hsup
  obtain ⟨cs1, c, cs2, hl, hh, -⟩ := C116_answered ser (supServer cf) cf.type cf.me parent G _ _ σ0 n l pre ops1 me d q.msg x t (sup_returns hf hst) hcoh hfor hf
    hsv hc (huf _ _ _ _ (unforged_call ha.part ho hu))
  rw [hl] at hch
  obtain ⟨hdo, hev, hl1, ⟨casts, hstep⟩, hch2, j1, j2⟩ := chain_split cs1 hch i1 i2 (by rw [hh.1]; simp) hh.2
  obtain ⟨y', hy', hsay, heq⟩ := ask_record hdo hh.1 hh.2
  rw [hxy] at hy'
  cases hy'
  refine ⟨o, σ0.1, _, _, cf.clock c.before.2, _, _, casts, _, hb, hsay, ?_, hl1, ?_, chain_lives hch2 j1 j2⟩
  · rw [hl, hev, heq]
  · rw [heq] at hstep; exact hstep

/-- **C122**: and it decided while the function was running: after the call and before the return. -/
theorem C122_meanwhile (cf : Conf B V) (ser : V → B) (hf : Faithful ser cf.type) (hst : ∀ k c, Silent ser cf.type cf.me (cf.startOf k c))
    (parent : Pid) (G hs os : List (Op B V)) (n : Nat) (st : Strategy) (au : AutoShutdown) (mr md : Nat) (cs : List Spec)
    (hs' : ∀ c ∈ cs, c.hasStart = true) (hd : (cs.map (·.id)).Nodup) (l : Log SMsg SState)
    (hsup : Supervises cf ser parent G hs os n (fresh st au mr md cs) l) (hcoh : Coherent cf.type G) (hfor : NoForgery ser cf.type G)
    (pre ops : List (Op B V)) (me : Nat) (d : Dest) (q : Ask) (r : Except AskError q.Out) (t : Nat) (ha : Asked cf ser G pre ops me d q r t)
    (hu : Unforged ser cf.type cf.me G hs os pre ops me t) (hr : ∀ e, r ≠ .error (.call e)) :
    ∃ P rep s1 s2, P <+: os ∧ hs ++ P <+: pre ++ ops ∧ pre.length < (hs ++ P).length ∧ q.Says r rep ∧
      Decides cf ser parent hs P (fresh st au mr md cs) q rep s1 s2 := by
  obtain ⟨ops1, ops2, x, y, rfl, ho, hc, hxy, rfl⟩ := asked_called ha hr
  obtain ⟨-, σ0, os1, os2, -, -, -, -, hpre, hin, hsv, huf⟩ := supervises_serves hf hst hs' hd hsup
  obtain ⟨a, ox, b, cs1, c, n', l', rfl, g1, g2, -, -, hh, hx⟩ := call_located (sup_returns hf hst) hcoh hfor hf hsv hc (huf _ _ _ _ (unforged_call ha.part ho hu))
  rw [run_append] at hx
  have hlife : Exec ser cf.me (Verif.World.run ser Verif.World.init hs) (supLife cf parent (cs1.length + 1) (fresh st au mr md cs)) (os1 ++ (a ++ [ox]))
      (some ⟨cs1 ++ [c], none, c.after⟩, c.after) := by
    refine exec_bind hin ?_
    have := exec_bind (k := fun l => .ret (some l, l.state)) hx (os' := []) (r' := (some ⟨cs1 ++ [c], none, c.after⟩, c.after)) (.ret _ _)
    simpa using this
  obtain ⟨o, τ0, hb, hch, -⟩ := life_chain cf ser _ ⟨hs, rfl⟩ parent _ st au mr md cs _ _ _ hlife
  obtain ⟨i1, i2, -⟩ := fresh_inv _ st au mr md cs hs' hd _ hb
  obtain ⟨hdo, hev, hl1, ⟨casts, hstep⟩, hch2, j1, j2⟩ := chain_split cs1 hch i1 i2 (by rw [hh.1]; simp) hh.2
  obtain ⟨y', hy', hsay, heq⟩ := ask_record hdo hh.1 hh.2
  rw [hxy] at hy'
  cases hy'
  have hP : os1 ++ (a ++ [ox]) <+: os := by
    obtain ⟨z, hz⟩ := hpre
    rw [List.append_assoc] at hz
    exact ⟨b ++ z, by have := List.append_cancel_left hz; rw [← this]; simp⟩
  refine ⟨_, _, _, _, hP, ?_, ?_, hsay, _, _, o, _, _, cf.clock c.before.2, casts, hlife, hb, ?_, hl1, ?_, rfl, rfl⟩
  · obtain ⟨z1, hz1⟩ := hsup.part
    obtain ⟨z2, hz2⟩ := ha.part
    obtain ⟨z3, hz3⟩ := hP
    refine List.prefix_of_prefix_length_le (l₃ := G) ⟨z3 ++ z1, by rw [← hz1, ← hz3]; simp⟩ ⟨z2, hz2⟩ ?_
    simp at g2 ⊢
    omega
  · simp at g1 ⊢
    omega
  · rw [hev, heq]; rfl
  · rw [heq] at hstep; exact hstep

/-- **C122**: the answer of a supervisor is always one that the function expects: it does not panic. -/
theorem C122_no_panic (cf : Conf B V) (ser : V → B) (hf : Faithful ser cf.type) (hst : ∀ k c, Silent ser cf.type cf.me (cf.startOf k c))
    (parent : Pid) (G hs os : List (Op B V)) (n : Nat) (st : Strategy) (au : AutoShutdown) (mr md : Nat) (cs : List Spec)
    (hs' : ∀ c ∈ cs, c.hasStart = true) (hd : (cs.map (·.id)).Nodup) (l : Log SMsg SState)
    (hsup : Supervises cf ser parent G hs os n (fresh st au mr md cs) l) (hcoh : Coherent cf.type G) (hfor : NoForgery ser cf.type G)
    (pre ops : List (Op B V)) (me : Nat) (d : Dest) (q : Ask) (x : SMsg) (t : Nat) (hc : Called ser cf.type G pre ops me d q.msg x t)
    (hu : Unforged ser cf.type cf.me G hs os pre ops me t) :
    ∃ r, Exec ser me (Verif.World.run ser Verif.World.init pre) (q.prog cf.type me d) ops r ∧ ∀ e, r ≠ .error (.call e) := by
  obtain ⟨o, σ0, os1, os2, hb, hch, i1, i2, -, -, hsv, huf⟩ := supervises_serves hf hst hs' hd hsup
  obtain ⟨cs1, c, cs2, hl, hh, -⟩ := C116_answered ser (supServer cf) cf.type cf.me parent G _ _ σ0 n l pre ops me d q.msg x t (sup_returns hf hst) hcoh hfor hf
    hsv hc (huf _ _ _ _ hu)
  rw [hl] at hch
  obtain ⟨hdo, -⟩ := chain_split cs1 hch i1 i2 (by rw [hh.1]; simp) hh.2
  obtain ⟨y, hy, -⟩ := ask_record hdo hh.1 hh.2
  have hx : ∀ r, q.take me (.ok x) = (.ret r : Prog B V _) → Exec ser me (Verif.World.run ser Verif.World.init pre) (q.prog cf.type me d) ops r := by
    intro r hk
    have := exec_bind (k := q.take me) hc.call (os' := []) (r' := r) (by rw [hk]; exact .ret _ _)
    rw [List.append_nil] at this
    exact this
  cases y with
  | ok y => exact ⟨.ok y, hx _ (by simp only [Ask.take, hy]), by simp⟩
  | error e => exact ⟨.error (.sup e), hx _ (by simp only [Ask.take, hy]), by simp⟩

/-- **C122**: a failed call, with its error, is what the function returns exactly if its call to the supervisor failed, with that error: none of the
other outcomes is passed off as one. -/
theorem C122_failed (τ : RecvType B V (GMsg SMsg)) (ser : V → B) (pre ops : List (Op B V)) (me : Nat) (d : Dest) (q : Ask) (e : CallError) :
    Exec ser me (Verif.World.run ser Verif.World.init pre) (q.prog τ me d) ops (.error (.call e)) ↔
      ∃ ops1 ops2, ops = ops1 ++ ops2 ∧ (∀ o ∈ ops2, Others me o) ∧
        Exec ser me (Verif.World.run ser Verif.World.init pre) (callProg τ me d q.msg) ops1 (.error e) := by
  refine ⟨?_, ?_⟩
  · intro h
    obtain ⟨ops1, ops2, x, rfl, h1, h2⟩ := exec_bind_inv h
    cases x with
    | error e' =>
      obtain ⟨h3, h4⟩ := exec_ret_inv h2
      simp only [Except.error.injEq, AskError.call.injEq] at h3
      subst h3
      exact ⟨ops1, ops2, rfl, h4, h1⟩
    | ok m =>
      cases hm : q.read m with
      | none =>
        simp only [Ask.take, hm] at h2
        exact (panic_never (reach_run ⟨pre, rfl⟩ ops1) h2).elim
      | some y =>
        simp only [Ask.take, hm] at h2
        cases y with
        | ok y => exact absurd (exec_ret_inv h2).1 (by simp)
        | error e => exact absurd (exec_ret_inv h2).1 (by simp)
  · rintro ⟨ops1, ops2, rfl, ho, h⟩
    have h2 : Exec ser me (Verif.World.run ser (Verif.World.run ser Verif.World.init pre) ops1) (q.take me (.error e)) (ops2 ++ []) (.error (.call e)) :=
      exec_envs ho (.ret _ _)
    rw [List.append_nil] at h2
    exact exec_bind h h2

/-- **C122**: questions are answered in the order in which they are asked: if one function had returned before another was called, by whatever processes,
the supervisor decided the first before the second. -/
theorem C122_order (cf : Conf B V) (ser : V → B) (hf : Faithful ser cf.type) (hst : ∀ k c, Silent ser cf.type cf.me (cf.startOf k c))
    (parent : Pid) (G hs os : List (Op B V)) (n : Nat) (st : Strategy) (au : AutoShutdown) (mr md : Nat) (cs : List Spec)
    (hs' : ∀ c ∈ cs, c.hasStart = true) (hd : (cs.map (·.id)).Nodup) (l : Log SMsg SState)
    (hsup : Supervises cf ser parent G hs os n (fresh st au mr md cs) l) (hcoh : Coherent cf.type G) (hfor : NoForgery ser cf.type G)
    (pre ops : List (Op B V)) (me : Nat) (d : Dest) (q : Ask) (r : Except AskError q.Out) (t : Nat) (ha : Asked cf ser G pre ops me d q r t)
    (hu : Unforged ser cf.type cf.me G hs os pre ops me t) (hr : ∀ e, r ≠ .error (.call e))
    (pre' ops' : List (Op B V)) (me' : Nat) (d' : Dest) (q' : Ask) (r' : Except AskError q'.Out) (t' : Nat) (ha' : Asked cf ser G pre' ops' me' d' q' r' t')
    (hu' : Unforged ser cf.type cf.me G hs os pre' ops' me' t') (hr' : ∀ e, r' ≠ .error (.call e)) (hbefore : pre ++ ops <+: pre') :
    ∃ o s0 es1 es2 es3 now rep s1 casts s2 now' rep' s3 casts' s4, boot o (fresh st au mr md cs) = .up s0 ∧ q.Says r rep ∧ q'.Says r' rep' ∧
      eventsOf cf.clock l.calls = es1 ++ ⟨now, q.event, rep, none⟩ :: (es2 ++ ⟨now', q'.event, rep', none⟩ :: es3) ∧
      Lives o s0 es1 s1 none ∧ step o { s1 with casts := casts } now q.event = some (s2, rep, none) ∧
      Lives o s2 es2 s3 none ∧ step o { s3 with casts := casts' } now' q'.event = some (s4, rep', none) ∧ Lives o s4 es3 l.state.1 l.ended := by
  obtain ⟨ops1, ops2, x, y, rfl, ho, hc, hxy, rfl⟩ := asked_called ha hr
  obtain ⟨ops1', ops2', x', y', rfl, ho', hc', hxy', rfl⟩ := asked_called ha' hr'
  obtain ⟨o, σ0, os1, os2, hb, hch, i1, i2, -, -, hsv, huf⟩ := supervises_serves hf hst hs' hd hsup
  have hbef : pre ++ ops1 <+: pre' := by
    obtain ⟨z, hz⟩ := hbefore
    exact ⟨ops2 ++ z, by rw [← hz]; simp⟩
  obtain ⟨cs1, c, cs2, c', cs3, hl, hh, hh'⟩ := C116_order ser (supServer cf) cf.type cf.me parent G _ _ σ0 n l pre ops1 me d q.msg x t pre' ops1' me' d' q'.msg x' t'
    (sup_returns hf hst) hcoh hfor hf hsv hc (huf _ _ _ _ (unforged_call ha.part ho hu)) hc' (huf _ _ _ _ (unforged_call ha'.part ho' hu')) hbef
  rw [hl] at hch
  obtain ⟨hdo, hev, hl1, ⟨casts, hstep⟩, hch2, j1, j2⟩ := chain_split cs1 hch i1 i2 (by rw [hh.1]; simp) hh.2
  obtain ⟨hdo', hev', hl1', ⟨casts', hstep'⟩, hch3, k1, k2⟩ := chain_split cs2 hch2 j1 j2 (by rw [hh'.1]; simp) hh'.2
  obtain ⟨z, hz, hsay, heq⟩ := ask_record hdo hh.1 hh.2
  obtain ⟨z', hz', hsay', heq'⟩ := ask_record hdo' hh'.1 hh'.2
  rw [hxy] at hz
  cases hz
  rw [hxy'] at hz'
  cases hz'
  refine ⟨o, σ0.1, _, _, _, cf.clock c.before.2, _, _, casts, _, cf.clock c'.before.2, _, _, casts', _, hb, hsay, hsay', ?_, hl1, ?_, hl1', ?_, chain_lives hch3 k1 k2⟩
  · rw [hl, hev, heq, hev', heq']
  · rw [heq] at hstep; exact hstep
  · rw [heq'] at hstep'; exact hstep'

/-! ## C123 -/

theorem lives_uniq {o : Oracle} {s s' : Sup} {es : List Ev} {q : Option ExitReason} (h : Lives o s es s' q) (hq : q = none) : Ready s → Uniq s → Ready s' ∧ Uniq s' := by
  induction h with
  | nil => exact fun h1 h2 => ⟨h1, h2⟩
  | @next s cs e s1 es s2 q h1 h2 _ ih =>
    intro hr hu
    have hm := step_move (ready_casts hr cs) h2
    exact ih hq (move_ready (ready_casts hr cs) hm) (uniq_step (uniq_casts hu cs) (move_specs hm))
  | last => cases hq

/-- What the supervisor has shut down, when it has just decided, is dead. -/
theorem decided_dead {cf : Conf B V} {ser : V → B} (hg : Genuine cf ser) {parent : Pid} {hs P : List (Op B V)} {st : Strategy} {au : AutoShutdown} {mr md : Nat}
    {cs : List Spec} (hs' : ∀ c ∈ cs, c.hasStart = true) (hd : (cs.map (·.id)).Nodup) {k : Nat} {l : Log SMsg SState}
    (hx : Exec ser cf.me (Verif.World.run ser Verif.World.init hs) (supLife cf parent k (fresh st au mr md cs)) P (some l, l.state)) {t : Nat} {how : Shutdown}
    (hm : .stop (.loc t) how ∈ l.state.1.log) :
    (Verif.World.run ser Verif.World.init (hs ++ P)).procs t = none ∧ t < (Verif.World.run ser Verif.World.init (hs ++ P)).nextPid := by
  obtain ⟨o, σ0, hb, hc, hp, -⟩ := life_chain cf ser _ ⟨hs, rfl⟩ parent k st au mr md cs P l _ hx
  obtain ⟨i1, i2, -⟩ := fresh_inv _ st au mr md cs hs' hd _ hb
  obtain ⟨k1, -⟩ := lives_tracked (chain_lives hc i1 i2) i1 ((tracked_boot o st au mr md cs hs').1 _ hb) ((boot_sound o st au mr md cs hs').1 _ hb)
  rw [run_append]
  refine ⟨performs_stopped hg ⟨hs, rfl⟩ hp k1 hm, ?_⟩
  obtain ⟨a, b, he⟩ := List.append_of_mem hm
  obtain ⟨id, hid⟩ := k1 a _ _ b he
  exact (performs_started hg hp ⟨hs, rfl⟩ (id := id) (by rw [he]; simp [hid])).2

/-- **C123**: when `terminate_child` has returned `Ok`, the process of the child, if the child had one when the supervisor decided, is dead. -/
theorem C123_terminated (cf : Conf B V) (ser : V → B) (hf : Faithful ser cf.type) (hst : ∀ k c, Silent ser cf.type cf.me (cf.startOf k c)) (hg : Genuine cf ser)
    (parent : Pid) (G hs os : List (Op B V)) (n : Nat) (st : Strategy) (au : AutoShutdown) (mr md : Nat) (cs : List Spec)
    (hs' : ∀ c ∈ cs, c.hasStart = true) (hd : (cs.map (·.id)).Nodup) (l : Log SMsg SState)
    (hsup : Supervises cf ser parent G hs os n (fresh st au mr md cs) l) (hcoh : Coherent cf.type G) (hfor : NoForgery ser cf.type G)
    (pre ops : List (Op B V)) (me : Nat) (d : Dest) (id : String) (t : Nat) (ha : Asked cf ser G pre ops me d (.terminate id) (.ok ()) t)
    (hu : Unforged ser cf.type cf.me G hs os pre ops me t) :
    ∃ P s1 s2, hs ++ P <+: pre ++ ops ∧ pre.length < (hs ++ P).length ∧
      Decides cf ser parent hs P (fresh st au mr md cs) (.terminate id) (.done (.ok ())) s1 s2 ∧
      (∃ c ∈ s1.children, c.spec.id = id) ∧
      ∀ c ∈ s1.children, c.spec.id = id → ∀ p, c.pid = some (.loc p) → (Verif.World.run ser Verif.World.init (pre ++ ops)).procs p = none := by
  obtain ⟨P, rep, s1, s2, -, h1, h2, hsay, hdec⟩ := C122_meanwhile cf ser hf hst parent G hs os n st au mr md cs hs' hd l hsup hcoh hfor pre ops me d _ _ t ha hu (by simp)
  cases hsay
  refine ⟨P, s1, s2, h1, h2, hdec, ?_⟩
  obtain ⟨k, l0, o, s0, es, now, casts, hx, hb, hev, hlv, hstep, rfl, hend⟩ := hdec
  obtain ⟨i1, i2, -⟩ := fresh_inv _ st au mr md cs hs' hd _ hb
  obtain ⟨-, hun⟩ := lives_uniq hlv rfl i1 i2
  simp only [Ask.event, step, Option.map_eq_some_iff, Prod.mk.injEq, Reply.done.injEq, and_true] at hstep
  obtain ⟨⟨s3, res⟩, ht, h4, h5⟩ := hstep
  simp only at h4 h5
  subst h4; subst h5
  simp only [terminateChild] at ht
  cases hi : indexOf { s1 with casts := casts } id with
  | none => simp [hi] at ht
  | some i =>
    simp only [hi, Option.map_eq_some_iff, Prod.mk.injEq] at ht
    obtain ⟨s4, hat, rfl, -⟩ := ht
    obtain ⟨pre', c0, post, hc0, rfl, hp0, -⟩ := findIdx_some _ _ _ hi
    have hc0' : s1.children = pre' ++ c0 :: post := hc0
    refine ⟨⟨c0, by rw [hc0']; simp, by simpa using hp0⟩, ?_⟩
    intro c hcm hcid p hcp
    obtain ⟨j, hj, hjc⟩ := List.getElem_of_mem hcm
    have hjc' : s1.children[j]? = some c := by rw [List.getElem?_eq_getElem hj, hjc]
    have hij := index_of_uniq hun hjc'
    rw [hcid] at hij
    have hi' : indexOf s1 id = some pre'.length := hi
    rw [hi'] at hij
    cases hij
    simp only [terminateAt] at hat
    rw [show ({ s1 with casts := casts } : Sup).children[pre'.length]? = some c from hjc'] at hat
    simp only [hcp, Option.some.injEq] at hat
    obtain ⟨g1, g2⟩ := decided_dead hg hs' hd hx (t := p) (how := howTo c.spec) (by rw [← hat]; simp)
    obtain ⟨z, hz⟩ := h1
    rw [← hz, run_append]
    exact (absent_run ser _ z p g2 g1).1

/-- Both ways to have a child started. -/
theorem step_starts {o : Oracle} {s s2 : Sup} {now : Nat} {q : Ask} {id : String} {p : Pid} (hq : (∃ c, q = .start c ∧ c.id = id) ∨ q = .restart id)
    (h : step o s now q.event = some (s2, .pid (.ok (some p)), none)) : s2.log = s.log ++ [.start id (.ok p)] := by
  have hst : ∀ {s : Sup} {i : Nat} {s' : Sup} {c : Child}, s.children[i]? = some c → startAt o s i = some (s', .ok (some p)) →
      s'.log = s.log ++ [.start c.spec.id (.ok p)] := by
    intro s i s' c hc h
    simp only [startAt, hc] at h
    split at h
    · cases hr : o s.calls c.spec with
      | ok p' =>
        simp only [hr, Option.some.injEq, Prod.mk.injEq, Except.ok.injEq] at h
        rw [← h.1, ← h.2]
      | error e => cases e <;> simp [hr] at h
    · simp at h
  rcases hq with ⟨c, rfl, rfl⟩ | rfl
  · simp only [Ask.event, step, Option.map_eq_some_iff, Prod.mk.injEq, Reply.pid.injEq, and_true] at h
    obtain ⟨⟨s3, res⟩, ht, h4, h5⟩ := h
    simp only at h4 h5
    subst h4; subst h5
    simp only [startChild] at ht
    split at ht
    · split at ht
      · cases ht
      · split at ht <;> simp at ht
    · split at ht
      · cases ht
      · rename_i s5 pid hs5
        have : pid = some p := by
          split at ht <;> (simp only [Option.some.injEq, Prod.mk.injEq, Except.ok.injEq] at ht; exact ht.2)
        subst this
        have := hst (c := ⟨c, none, false⟩) (by simp) hs5
        simp only [reduceCtorEq, and_false, if_false, Option.some.injEq, Prod.mk.injEq] at ht
        rw [← ht.1]
        exact this
      · simp at ht
  · simp only [Ask.event, step, Option.map_eq_some_iff, Prod.mk.injEq, Reply.pid.injEq, and_true] at h
    obtain ⟨⟨s3, res⟩, ht, h4, h5⟩ := h
    simp only at h4 h5
    subst h4; subst h5
    simp only [restartChild] at ht
    cases hi : indexOf s id with
    | none => simp [hi] at ht
    | some i =>
      obtain ⟨pre', c0, post, hc0, rfl, hp0, -⟩ := findIdx_some _ _ _ hi
      have hg : s.children[pre'.length]? = some c0 := by rw [hc0]; simp
      simp only [hi, hg] at ht
      split at ht
      · simp at ht
      · split at ht
        · simp at ht
        · split at ht
          · cases ht
          · rename_i s5 pid hs5
            simp only [Option.some.injEq, Prod.mk.injEq, Except.ok.injEq] at ht
            obtain ⟨h1, rfl⟩ := ht
            have := hst hg hs5
            rw [← h1, ← show c0.spec.id = id by simpa using hp0]
            exact this
          · simp at ht

/-- A single effect that is a start. -/
theorem performs_one {cf : Conf B V} {ser : V → B} {id : String} {r : Except ExitReason Pid} {w : World B V} {n : Nat} {fx : List Eff} {ops : List (Op B V)}
    (h : Performs cf ser w n fx ops) (hf : fx = [.start id r]) :
    ∃ ops1 ops2 ops3 k c, ops = ops1 ++ (ops2 ++ ops3) ∧ c.id = id ∧ Exec ser cf.me (Verif.World.run ser w ops1) (cf.startOf k c) ops2 r := by
  induction h with
  | nil => cases hf
  | @other w n fx o ops ho hp ih =>
    obtain ⟨ops1, ops2, ops3, k, c, rfl, h1, h2⟩ := ih hf
    exact ⟨o :: ops1, ops2, ops3, k, c, rfl, h1, by rw [run_cons]; exact h2⟩
  | @start w n fx ops1 ops2 r' c hx hp ih =>
    simp only [List.cons.injEq, Eff.start.injEq] at hf
    obtain ⟨⟨h1, rfl⟩, -⟩ := hf
    exact ⟨[], ops1, ops2, n, c, rfl, h1, hx⟩
  | stop => simp at hf

/-- When the supervisor has just decided to have a child started, the start routine has been run. -/
theorem decided_started {cf : Conf B V} {ser : V → B} {parent : Pid} {hs P : List (Op B V)} {st : Strategy} {au : AutoShutdown} {mr md : Nat}
    {cs : List Spec} {q : Ask} {id : String} {p : Pid} {s1 s2 : Sup} (hq : (∃ c, q = .start c ∧ c.id = id) ∨ q = .restart id)
    (h : Decides cf ser parent hs P (fresh st au mr md cs) q (.pid (.ok (some p))) s1 s2) :
    ∃ P1 P2 P3 k c, P = P1 ++ (P2 ++ P3) ∧ c.id = id ∧ Exec ser cf.me (Verif.World.run ser Verif.World.init (hs ++ P1)) (cf.startOf k c) P2 (.ok p) := by
  obtain ⟨k, l0, o, s0, es, now, casts, hx, hb, hev, hlv, hstep, rfl, hend⟩ := h
  have hlog := step_starts hq hstep
  obtain ⟨-, -, -, -, hp, -⟩ := life_chain cf ser _ ⟨hs, rfl⟩ parent k st au mr md cs P l0 _ hx
  obtain ⟨Pa, Pb, rfl, -, h2⟩ := performs_split hp _ _ hlog
  obtain ⟨ops1, ops2, ops3, k', c, rfl, h3, h4⟩ := performs_one h2 rfl
  rw [← run_append, ← run_append] at h4
  exact ⟨Pa ++ ops1, ops2, ops3, k', c, by simp, h3, h4⟩

/-- **C123**: when `start_child` has returned `Ok(Some(pid))`, the supervisor has run the start routine of a child with this id to its end, and the routine
returned this `pid`. -/
theorem C123_started (cf : Conf B V) (ser : V → B) (hf : Faithful ser cf.type) (hst : ∀ k c, Silent ser cf.type cf.me (cf.startOf k c))
    (parent : Pid) (G hs os : List (Op B V)) (n : Nat) (st : Strategy) (au : AutoShutdown) (mr md : Nat) (cs : List Spec)
    (hs' : ∀ c ∈ cs, c.hasStart = true) (hd : (cs.map (·.id)).Nodup) (l : Log SMsg SState)
    (hsup : Supervises cf ser parent G hs os n (fresh st au mr md cs) l) (hcoh : Coherent cf.type G) (hfor : NoForgery ser cf.type G)
    (pre ops : List (Op B V)) (me : Nat) (d : Dest) (spec : Spec) (p : Pid) (t : Nat)
    (ha : Asked cf ser G pre ops me d (.start spec) (.ok (some p)) t) (hu : Unforged ser cf.type cf.me G hs os pre ops me t) :
    ∃ P1 P2 P3 s1 s2 k c, hs ++ (P1 ++ (P2 ++ P3)) <+: pre ++ ops ∧ c.id = spec.id ∧
      Exec ser cf.me (Verif.World.run ser Verif.World.init (hs ++ P1)) (cf.startOf k c) P2 (.ok p) ∧
      Decides cf ser parent hs (P1 ++ (P2 ++ P3)) (fresh st au mr md cs) (.start spec) (.pid (.ok (some p))) s1 s2 := by
  obtain ⟨P, rep, s1, s2, -, h1, h2, hsay, hdec⟩ := C122_meanwhile cf ser hf hst parent G hs os n st au mr md cs hs' hd l hsup hcoh hfor pre ops me d _ _ t ha hu (by simp)
  cases hsay
  obtain ⟨P1, P2, P3, k, c, rfl, h3, h4⟩ := decided_started (.inl ⟨spec, rfl, rfl⟩) hdec
  exact ⟨P1, P2, P3, s1, s2, k, c, h1, h3, h4, hdec⟩

/-- **C123**: the same for `restart_child`. -/
theorem C123_restarted (cf : Conf B V) (ser : V → B) (hf : Faithful ser cf.type) (hst : ∀ k c, Silent ser cf.type cf.me (cf.startOf k c))
    (parent : Pid) (G hs os : List (Op B V)) (n : Nat) (st : Strategy) (au : AutoShutdown) (mr md : Nat) (cs : List Spec)
    (hs' : ∀ c ∈ cs, c.hasStart = true) (hd : (cs.map (·.id)).Nodup) (l : Log SMsg SState)
    (hsup : Supervises cf ser parent G hs os n (fresh st au mr md cs) l) (hcoh : Coherent cf.type G) (hfor : NoForgery ser cf.type G)
    (pre ops : List (Op B V)) (me : Nat) (d : Dest) (id : String) (p : Pid) (t : Nat)
    (ha : Asked cf ser G pre ops me d (.restart id) (.ok (some p)) t) (hu : Unforged ser cf.type cf.me G hs os pre ops me t) :
    ∃ P1 P2 P3 s1 s2 k c, hs ++ (P1 ++ (P2 ++ P3)) <+: pre ++ ops ∧ c.id = id ∧
      Exec ser cf.me (Verif.World.run ser Verif.World.init (hs ++ P1)) (cf.startOf k c) P2 (.ok p) ∧
      Decides cf ser parent hs (P1 ++ (P2 ++ P3)) (fresh st au mr md cs) (.restart id) (.pid (.ok (some p))) s1 s2 := by
  obtain ⟨P, rep, s1, s2, -, h1, h2, hsay, hdec⟩ := C122_meanwhile cf ser hf hst parent G hs os n st au mr md cs hs' hd l hsup hcoh hfor pre ops me d _ _ t ha hu (by simp)
  cases hsay
  obtain ⟨P1, P2, P3, k, c, rfl, h3, h4⟩ := decided_started (.inr rfl) hdec
  exact ⟨P1, P2, P3, s1, s2, k, c, h1, h3, h4, hdec⟩

/-! ## Samples -/

/-- Process 1 starts the supervisor 2 and process 3. -/
def askStart : List (Op Nat (GMsg SMsg)) := [.boot, .spawn 1 true false, .spawn 1 false false]

def askRecv (t : Nat) : RecvOp Nat (GMsg SMsg) := ⟨GMsg SMsg, supMsgs, isAnswer (.loc t), false⟩
def supDest : Dest := .pid (.loc 2)

/-- Process 3 asks for a new child, which gets the number 4. -/
def askA : List (Op Nat (GMsg SMsg)) :=
  [callMon 3 supDest, request supMsgs 3 supDest (.loc 1) (.startChild (worker "a" .permanent)), .recv 3 (askRecv 1) .select,
   .recv 2 (anyMsg supMsgs) .resume, .spawn 2 true false, replyOp supMsgs 2 ⟨.loc 3, .loc 1, false⟩ (.startChildIs (.ok (some (.loc 4)))),
   .recv 3 (askRecv 1) .resume, .demonitor 3 (.loc 1)]

/-- Process 1 counts. -/
def askB : List (Op Nat (GMsg SMsg)) :=
  [callMon 1 supDest, request supMsgs 1 supDest (.loc 2) .countChildren, .recv 1 (askRecv 2) .select,
   .recv 2 (anyMsg supMsgs) .select, replyOp supMsgs 2 ⟨.loc 1, .loc 2, false⟩ (.counts ⟨1, 1, 0, 1⟩), .recv 1 (askRecv 2) .resume, .demonitor 1 (.loc 2)]

/-- Process 3 has the child terminated. -/
def askC : List (Op Nat (GMsg SMsg)) :=
  [callMon 3 supDest, request supMsgs 3 supDest (.loc 3) (.terminateChild "a"), .recv 3 (askRecv 3) .select,
   .recv 2 (anyMsg supMsgs) .select, .monitor 2 (.pid (.loc 4)), .exit 2 (.loc 4) (.custom "shutdown"), .recv 2 ⟨Unit, supUnit, isDown (.loc 4), false⟩ .select,
   .drop 4, .recv 2 ⟨Unit, supUnit, isDown (.loc 4), false⟩ .resume, .unlink 2 (.loc 4), .recv 2 ⟨Unit, supUnit, isExitOf (.loc 4), false⟩ .remove,
   replyOp supMsgs 2 ⟨.loc 3, .loc 3, false⟩ (.terminateChildIs (.ok ())), .recv 3 (askRecv 3) .resume, .demonitor 3 (.loc 3)]

def askServe : List (Op Nat (GMsg SMsg)) := [.setTrap 2 true, .recv 2 (anyMsg supMsgs) .select] ++ askA ++ askB ++ askC

def askScript (me : Nat) (os : List (Op Nat (GMsg SMsg))) : List (Choice Nat (GMsg SMsg)) := os.map fun o => if o.caller = some me then .mine else .env o


def askAll : List (Op Nat (GMsg SMsg)) := askStart ++ askServe
def askPre : List (Op Nat (GMsg SMsg)) := askStart ++ [.setTrap 2 true, .recv 2 (anyMsg supMsgs) .select]

/-- The supervisor of the sample begins without children. -/
def askSup : Sup := fresh .oneForOne .never 3 5000 []

def simmed (x : List (Op Nat (GMsg SMsg)) × (Option (Log SMsg SState) × SState)) : Bool := x.2.1.isSome

set_option maxHeartbeats 4000000 in
theorem askSim : ∃ x, sim supSer 2 (Verif.World.run supSer Verif.World.init askStart) (supLife supConf (.loc 1) 3 askSup) (askScript 2 askServe) = some x ∧
    x.1 = askServe ∧ simmed x = true := ⟨_, rfl, rfl, rfl⟩

set_option maxHeartbeats 4000000 in
theorem askSimA : sim supSer 3 (Verif.World.run supSer Verif.World.init askPre) ((Ask.start (worker "a" .permanent)).prog supMsgs 3 supDest)
    (askScript 3 askA) = some (askA, .ok (some (.loc 4))) := rfl

set_option maxHeartbeats 4000000 in
theorem askSimB : sim supSer 1 (Verif.World.run supSer Verif.World.init (askPre ++ askA)) (Ask.count.prog supMsgs 1 supDest)
    (askScript 1 askB) = some (askB, .ok ⟨1, 1, 0, 1⟩) := rfl

set_option maxHeartbeats 4000000 in
theorem askSimC : sim supSer 3 (Verif.World.run supSer Verif.World.init (askPre ++ askA ++ askB)) ((Ask.terminate "a").prog supMsgs 3 supDest)
    (askScript 3 askC) = some (askC, .ok ()) := rfl

theorem ask_supervises : ∃ l, Supervises supConf supSer (.loc 1) askAll askStart askServe 3 askSup l := by
  obtain ⟨⟨ops, l, σ⟩, h, h1, h2⟩ := askSim
  have hx := sim_exec _ _ _ _ _ _ h
  simp only at h1
  subst h1
  cases l with
  | none => simp [simmed] at h2
  | some l => exact ⟨l, List.prefix_rfl, σ, hx⟩

theorem ask_askedA : Asked supConf supSer askAll askPre askA 3 supDest (.start (worker "a" .permanent)) (.ok (some (.loc 4))) 1 :=
  ⟨⟨askB ++ askC, rfl⟩, sim_exec _ _ _ _ _ _ askSimA, [], _, rfl, by simp, rfl⟩

theorem ask_askedB : Asked supConf supSer askAll (askPre ++ askA) askB 1 supDest .count (.ok ⟨1, 1, 0, 1⟩) 2 :=
  ⟨⟨askC, rfl⟩, sim_exec _ _ _ _ _ _ askSimB, [], _, rfl, by simp, by decide +kernel⟩

theorem ask_askedC : Asked supConf supSer askAll (askPre ++ askA ++ askB) askC 3 supDest (.terminate "a") (.ok ()) 3 :=
  ⟨⟨[], rfl⟩, sim_exec _ _ _ _ _ _ askSimC, [], _, rfl, by simp, by decide +kernel⟩

theorem ask_faithful : Faithful supSer supConf.type := by intro g g' h; simp [supConf, supMsgs] at h

theorem ask_silent (k : Nat) (c : Spec) : Silent supSer supConf.type supConf.me (supConf.startOf k c) := by
  simp only [supConf]
  split
  · exact silent_ret (τ := supConf.type) (s := supConf.me) _
  · exact silent_op (τ := supConf.type) (s := supConf.me) (by rintro t y ⟨it, hs, -⟩; cases hs) fun _ => silent_ret (τ := supConf.type) (s := supConf.me) _

/-- What an operation sends. -/
def askSends : Op Nat (GMsg SMsg) → Option (GMsg SMsg)
  | .send _ _ v => some v
  | _ => none

theorem askSends_eq {o : Op Nat (GMsg SMsg)} {it g} (h : SentBy supSer o it) (hr : Reads supMsgs it g) : askSends o = some g := by
  cases h with
  | «local» => simpa [Reads, supMsgs, askSends] using hr
  | serial => simp [Reads, supMsgs] at hr
  | frame => simp [Reads, supMsgs] at hr

def askPlaces : List (Nat × GMsg SMsg) :=
  [(6, .call ⟨.loc 3, .loc 1, false⟩ (.startChild (worker "a" .permanent))), (10, .callReply (.loc 1) (.startChildIs (.ok (some (.loc 4))))),
   (14, .call ⟨.loc 1, .loc 2, false⟩ .countChildren), (17, .callReply (.loc 2) (.counts ⟨1, 1, 0, 1⟩)),
   (21, .call ⟨.loc 3, .loc 3, false⟩ (.terminateChild "a")), (31, .callReply (.loc 3) (.terminateChildIs (.ok ())))]

theorem ask_at {a b : List (Op Nat (GMsg SMsg))} {o it g} (h : askAll = a ++ o :: b) (hs : SentBy supSer o it) (hr : Reads supMsgs it g) :
    (a.length, g) ∈ askPlaces ∧ askAll[a.length]? = some o := by
  have := mem_placed (askAll.map askSends) 0 a.length g (by rw [h]; simp [askSends_eq hs hr])
  rw [Nat.zero_add] at this
  exact ⟨this, by rw [h]; simp⟩

theorem ask_coherent : Coherent supConf.type askAll := by
  intro a o k h b t' x h1
  have key : ∀ o ∈ askAll, (match o with | .recv _ x _ => ∀ b, (x.τ.deser b).isNone = true | _ => True) := by
    simp [askAll, askStart, askServe, askA, askB, askC, callMon, monOp, destLocal, Pid.isLocal, request, replyOp, anyMsg, askRecv, supMsgs, supUnit, supDest]
  have := key _ h b
  simp [h1] at this

theorem ask_noForgery : NoForgery supSer supConf.type askAll := by
  rintro os1 o os2 n m h ⟨it, hs, hr⟩
  have hlen : os1 = askAll.take os1.length := by rw [h]; simp
  obtain ⟨h1, -⟩ := ask_at h hs hr
  simp only [askPlaces, List.mem_cons, Prod.mk.injEq, List.not_mem_nil, or_false] at h1
  rcases h1 with ⟨-, hg⟩ | ⟨hk, hg⟩ | ⟨-, hg⟩ | ⟨hk, hg⟩ | ⟨-, hg⟩ | ⟨hk, hg⟩ <;> cases hg <;> (rw [hlen, hk]; decide +kernel)

theorem ask_unforged {pre ops : List (Op Nat (GMsg SMsg))} {me t i j : Nat} (hi : pre.length ≤ i ∧ i < pre.length + ops.length)
    (hcall : (askAll[i]?.map Op.caller) = some (some me)) (hj : askStart.length ≤ j ∧ j < askStart.length + askServe.length)
    (hrep : (askAll[j]?.map Op.caller) = some (some 2))
    (h1 : ∀ k frm y, (k, GMsg.call frm y) ∈ askPlaces → frm.tag = .loc t → k = i) (h2 : ∀ k y, (k, GMsg.callReply (.loc t) y) ∈ askPlaces → k = j) :
    Unforged supSer supConf.type supConf.me askAll askStart askServe pre ops me t := by
  refine ⟨?_, ?_⟩
  · intro a o b it frm y h hs hr ht
    obtain ⟨hm, ho⟩ := ask_at h hs hr
    have := h1 _ _ _ hm ht
    rw [this] at ho ⊢
    rw [ho] at hcall
    exact ⟨by simpa using hcall, hi⟩
  · rintro a o b y h ⟨it, hs, hr⟩
    obtain ⟨hm, ho⟩ := ask_at h hs hr
    have := h2 _ _ hm
    rw [this] at ho ⊢
    rw [ho] at hrep
    exact ⟨by simpa [supConf] using hrep, hj⟩

theorem ask_unforgedA : Unforged supSer supConf.type supConf.me askAll askStart askServe askPre askA 3 1 := by
  refine ask_unforged (i := 6) (j := 10) (by decide) rfl (by decide) rfl ?_ ?_
  · intro k frm y h ht
    simp only [askPlaces, List.mem_cons, Prod.mk.injEq, GMsg.call.injEq, reduceCtorEq, and_false, false_or, List.not_mem_nil, or_false] at h
    rcases h with ⟨rfl, rfl, -⟩ | ⟨rfl, rfl, -⟩ | ⟨rfl, rfl, -⟩ <;> first | rfl | cases ht
  · intro k y h
    simp [askPlaces] at h
    exact h.1

theorem ask_unforgedB : Unforged supSer supConf.type supConf.me askAll askStart askServe (askPre ++ askA) askB 1 2 := by
  refine ask_unforged (i := 14) (j := 17) (by decide) rfl (by decide) rfl ?_ ?_
  · intro k frm y h ht
    simp only [askPlaces, List.mem_cons, Prod.mk.injEq, GMsg.call.injEq, reduceCtorEq, and_false, false_or, List.not_mem_nil, or_false] at h
    rcases h with ⟨rfl, rfl, -⟩ | ⟨rfl, rfl, -⟩ | ⟨rfl, rfl, -⟩ <;> first | rfl | cases ht
  · intro k y h
    simp [askPlaces] at h
    exact h.1

theorem ask_unforgedC : Unforged supSer supConf.type supConf.me askAll askStart askServe (askPre ++ askA ++ askB) askC 3 3 := by
  refine ask_unforged (i := 21) (j := 31) (by decide) rfl (by decide) rfl ?_ ?_
  · intro k frm y h ht
    simp only [askPlaces, List.mem_cons, Prod.mk.injEq, GMsg.call.injEq, reduceCtorEq, and_false, false_or, List.not_mem_nil, or_false] at h
    rcases h with ⟨rfl, rfl, -⟩ | ⟨rfl, rfl, -⟩ | ⟨rfl, rfl, -⟩ <;> first | rfl | cases ht
  · intro k y h
    simp [askPlaces] at h
    exact h.1

theorem ask_callB : Called supSer supMsgs askAll (askPre ++ askA) askB 1 supDest .countChildren (.counts ⟨1, 1, 0, 1⟩) 2 := by
  refine ⟨⟨askC, rfl⟩, ?_, [], _, rfl, by simp, by decide +kernel⟩
  exact sim_exec _ _ (askScript 1 askB) _ _ (askB, Except.ok (SMsg.counts ⟨1, 1, 0, 1⟩)) rfl

example : True := by
  obtain ⟨l, hl⟩ := ask_supervises
  have h1 := C122_answered _ _ ask_faithful ask_silent _ _ _ _ _ _ _ _ _ _ (by simp) (by simp) _ hl ask_coherent ask_noForgery _ _ _ _ _ _ _ ask_askedB ask_unforgedB
    (by simp)
  have h2 := C122_meanwhile _ _ ask_faithful ask_silent _ _ _ _ _ _ _ _ _ _ (by simp) (by simp) _ hl ask_coherent ask_noForgery _ _ _ _ _ _ _ ask_askedB ask_unforgedB
    (by simp)
  have h3 := C122_order _ _ ask_faithful ask_silent _ _ _ _ _ _ _ _ _ _ (by simp) (by simp) _ hl ask_coherent ask_noForgery _ _ _ _ _ _ _ ask_askedA ask_unforgedA
    (by simp) _ _ _ _ _ _ _ ask_askedB ask_unforgedB (by simp) List.prefix_rfl
  have h6 := C122_no_panic _ _ ask_faithful ask_silent _ _ _ _ _ _ _ _ _ _ (by simp) (by simp) _ hl ask_coherent ask_noForgery _ _ _ _ .count _ _ ask_callB ask_unforgedB
  have h4 := C123_started _ _ ask_faithful ask_silent _ _ _ _ _ _ _ _ _ _ (by simp) (by simp) _ hl ask_coherent ask_noForgery _ _ _ _ _ _ _ ask_askedA ask_unforgedA
  have h5 := C123_terminated _ _ ask_faithful ask_silent supConf_genuine _ _ _ _ _ _ _ _ _ _ (by simp) (by simp) _ hl ask_coherent ask_noForgery _ _ _ _ _ _ ask_askedC
    ask_unforgedC
  trivial

end Verif.Sup
