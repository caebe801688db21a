import Verif.SupClientProps
import Verif.HonestProps
/-!
# The functions that ask a supervisor, in a node where every process minds its own business (C130)

Specification: `Honest`, `HonestFrom`, `Means`, `RepliesOnlyIn` (HonestProps.lean), `Supervises`, `Ask.Says` (SupClientProps.lean), `Lives` (SupProcProps.lean);
here `SUse`, `SUse.Before`.
-/
namespace Verif.Sup
open Verif.World Verif.Mailbox
variable {B V R : Type} {P : V → Prop}

/-! ## Specification -/

/-- The use of one of the functions that ask a supervisor: after the history `pre` the process `me` calls the function, which takes `ops` and returns `r`. -/
structure SUse (B V : Type) where
  pre : List (Op B V)
  ops : List (Op B V)
  me : Nat
  d : Dest
  q : Ask
  r : Except AskError q.Out

/-- The one has returned before the other begins. -/
def SUse.Before (a b : SUse B V) : Prop := (a.pre ++ a.ops).length ≤ b.pre.length

/-! ## Lemmas -/

theorem decent_plain {ser : V → B} {τ : RecvType B V (GMsg SMsg)} {s : Nat} {o : Op B V} {k : Res → Prog B V R} (ho : SendsNone P o)
    (hk : ∀ r, Decent ser τ P s (k r)) : Decent ser τ P s (.op o k) := decent_op ho hk

theorem decent_shutdown {ser : V → B} {τ : RecvType B V (GMsg SMsg)} {s : Nat} (u : RecvType B V Unit) (p : Pid) (mode : ShutdownMode) :
    Decent ser τ P s (shutdownProg u s p mode) := by
  have hf : Decent ser τ P s (unlinkFlush u s p) := decent_plain (by intro _ _ _ h; cases h) fun _ => decent_plain (by intro _ _ _ h; cases h) fun _ => decent_ret _
  have hb : ∀ m, Decent ser τ P s (brutalKill u s p m) := by
    intro m
    exact decent_plain (by intro _ _ _ h; cases h) fun _ => decent_wait (by simp) fun _ => hf
  refine decent_plain (by intro _ _ _ h; cases h) fun r => ?_
  cases mode with
  | brutalKill => exact hb _
  | duration =>
    refine decent_plain (by intro _ _ _ h; cases h) fun _ => decent_wait ?_ fun _ => hf
    intro p' h; cases h; exact hb _
  | infinity => exact decent_plain (by intro _ _ _ h; cases h) fun _ => decent_wait (by simp) fun _ => hf

theorem decent_sk {cf : Conf B V} {ser : V → B} (hP : Telling cf.type P) (hs : ∀ k c, Decent ser cf.type P cf.me (cf.startOf k c)) (dead : R) (x : Sk R) :
    ∀ n, Decent ser cf.type P cf.me (x.prog cf dead n) := by
  induction x with
  | ret r => exact fun n => decent_ret r
  | start c k ih => exact fun n => decent_bind (hs n c) fun r => ih r _
  | stop p how k ih => exact fun n => decent_bind (decent_shutdown _ _ _) fun _ => ih _
  | cast id k ih =>
    exact fun n => decent_op hP.cast fun _ => ih _
  | panic => exact fun n => decent_plain (by intro _ _ _ h; cases h) fun _ => decent_plain (by intro _ _ _ h; cases h) fun _ => decent_ret _

theorem decent_play {cf : Conf B V} {ser : V → B} (hP : Telling cf.type P) (hs : ∀ k c, Decent ser cf.type P cf.me (cf.startOf k c)) (σ : SState) {X : Type}
    (dead : X) (x : Sk (Sup × X)) : Decent ser cf.type P cf.me (play cf σ dead x) :=
  decent_bind (decent_sk hP hs _ x _) fun _ => decent_ret _

/-- A function that is used and does not report a failed call: the reference of its call. -/
theorem asked_of_exec {cf : Conf B V} {ser : V → B} {G pre ops : List (Op B V)} {me : Nat} {d : Dest} {q : Ask} {r : Except AskError q.Out}
    (hp : pre ++ ops <+: G) (hx : Exec ser me (Verif.World.run ser Verif.World.init pre) (q.prog cf.type me d) ops r) :
    ∃ t, Asked cf ser G pre ops me d q r t := by
  obtain ⟨ops1, ops2, x, he, h1, h2⟩ := exec_bind_inv hx
  obtain ⟨os1, os2, os4, os5, h3, -, h4, -⟩ := call_inv h1
  refine ⟨_, hp, hx, os1, (os2 ++ request cf.type me d (.loc (Verif.World.run ser (Verif.World.run ser Verif.World.init pre) os1).nextRef) q.msg :: os4) ++ os5 ++ ops2, ?_, h4, rfl⟩
  rw [he, h3]; simp

/-! ## C130 -/

/-- **C130**: the functions that ask a supervisor are honest, also if they are cut off. -/
theorem C130_ask (ser : V → B) (τ : RecvType B V (GMsg SMsg)) (P : V → Prop) (me : Nat) (d : Dest) (q : Ask) (a : List (Op B V)) :
    HonestFrom ser τ P me a (q.prog τ me d) := by
  refine (?_ : Decent ser τ P me (q.prog τ me d)) a
  refine decent_bind (fun a => C127_call ser τ P me d q.msg a) fun x => ?_
  cases x with
  | error e => exact decent_ret _
  | ok m =>
    simp only [Ask.take]
    split
    · exact decent_ret _
    · exact decent_ret _
    · exact decent_plain (by intro _ _ _ h; cases h) fun _ => decent_plain (by intro _ _ _ h; cases h) fun _ => decent_ret _

/-- **C130**: a supervisor is honest if the start routines of its children are. -/
theorem C130_server (cf : Conf B V) (ser : V → B) (P : V → Prop) (hP : Telling cf.type P) (hst : ∀ k c a, HonestFrom ser cf.type P cf.me a (cf.startOf k c)) :
    HonestServer ser cf.type P (supServer cf) cf.me := by
  have hp : ∀ {X : Type} (σ : SState) (dead : X) (x : Sk (Sup × X)) a, HonestFrom ser cf.type P cf.me a (play cf σ dead x) :=
    fun σ dead x a => decent_play hP hst σ dead x a
  refine ⟨?_, ?_, ?_, ?_⟩
  · intro a σ m
    simp only [supServer]
    repeat' split
    all_goals exact hp _ _ _ _
  · intro a σ m frm _
    simp only [supServer]
    repeat' split
    all_goals exact hp _ _ _ _
  · intro a σ m
    simp only [supServer]
    repeat' split
    all_goals exact hp _ _ _ _
  · intro a σ r
    exact (decent_bind (decent_play hP hst _ _ _) fun _ => decent_ret _ : Decent ser cf.type P cf.me _) a

/-- **C130**: and so is its whole life, from `init` on. -/
theorem C130_life (cf : Conf B V) (ser : V → B) (P : V → Prop) (hP : Telling cf.type P) (hst : ∀ k c a, HonestFrom ser cf.type P cf.me a (cf.startOf k c)) (parent : Pid) (n : Nat)
    (s : Sup) (a : List (Op B V)) : HonestFrom ser cf.type P cf.me a (supLife cf parent n s) := by
  refine (?_ : Decent ser cf.type P cf.me (supLife cf parent n s)) a
  refine decent_bind (decent_plain (by intro _ _ _ h; cases h) fun _ => decent_play hP hst _ _ _) fun q => ?_
  obtain ⟨σ, x⟩ := q
  cases x with
  | ok _ => exact decent_bind (fun a => C127_server ser cf.type P (supServer cf) cf.me (C130_server cf ser P hP hst) parent n σ a) fun _ => decent_ret _
  | error r =>
    exact decent_bind (decent_plain (by intro _ _ _ h; cases h) fun _ => decent_plain (by intro _ _ _ h; cases h) fun _ => decent_ret _) fun _ => decent_ret _

/-- **C130**: the reference of a question to a supervisor is not misused in a node where every process minds its own business; so C122 and C123 apply. -/
theorem C130_unforged (cf : Conf B V) (ser : V → B) (G hs os pre ops : List (Op B V)) (me : Nat) (d : Dest) (q : Ask) (r : Except AskError q.Out)
    (hf : Faithful ser cf.type) (hcoh : Coherent cf.type G) (hh : Verif.World.Honest ser cf.type G) (hd : Means ser G d cf.me) (ho : RepliesOnlyIn ser cf.type cf.me G hs os) (hp : pre ++ ops <+: G)
    (hx : Exec ser me (Verif.World.run ser Verif.World.init pre) (q.prog cf.type me d) ops r) (hr : ∀ e, r ≠ .error (.call e)) :
    NoForgery ser cf.type G ∧ ∃ t, Asked cf ser G pre ops me d q r t ∧ Unforged ser cf.type cf.me G hs os pre ops me t := by
  refine ⟨C127_no_forgery ser cf.type G hf hcoh hh, ?_⟩
  obtain ⟨t, ha⟩ := asked_of_exec hp hx
  refine ⟨t, ha, ?_⟩
  obtain ⟨ops1, ops2, x, y, rfl, ho', hc, -, -⟩ := asked_called ha hr
  have hu := C127_unforged ser cf.type cf.me G hs os pre ops1 me d q.msg x t hf hcoh hh hc hd ho
  refine ⟨?_, hu.reply⟩
  intro a o b it frm y hG hs hr ht
  obtain ⟨g1, g2, g3⟩ := hu.request a o b it frm y hG hs hr ht
  exact ⟨g1, g2, by simp; omega⟩

/-- **C130**: a supervisor whose process does nothing before and after its life replies only in its life. -/
theorem C130_only_in_life (cf : Conf B V) (ser : V → B) (hs os post : List (Op B V)) (h1 : ∀ o ∈ hs, o.caller ≠ some cf.me) (h2 : ∀ o ∈ post, o.caller ≠ some cf.me) :
    RepliesOnlyIn ser cf.type cf.me (hs ++ (os ++ post)) hs os := by
  intro a o b t y hG hc _
  have hget : (hs ++ (os ++ post))[a.length]? = some o := by rw [hG]; simp
  rcases Nat.lt_or_ge a.length hs.length with hlt | hge
  · rw [List.getElem?_append_left hlt] at hget
    exact absurd hc (h1 o (List.mem_of_getElem? hget))
  · refine ⟨hge, ?_⟩
    rcases Nat.lt_or_ge a.length (hs.length + os.length) with hlt | hge'
    · exact hlt
    · rw [List.getElem?_append_right hge, List.getElem?_append_right (by omega)] at hget
      exact absurd hc (h2 o (List.mem_of_getElem? hget))

/-- Where the question is in the log of the supervisor. -/
theorem place_unique {t : Nat} {cs1 cs2 cs3 cs4 : List (Record SMsg SState)} {c c' : Record SMsg SState} (h : cs1 ++ c :: cs2 = cs3 ++ c' :: cs4)
    (hn : ∀ x ∈ cs1 ++ cs2, ¬ ForCall t x) (hc : ForCall t c') : cs1 = cs3 := by
  rcases Nat.lt_trichotomy cs1.length cs3.length with hlt | he | hlt
  · exfalso
    have h1 : (cs3 ++ c' :: cs4)[cs3.length]? = some c' := by simp
    rw [← h, List.getElem?_append_right (by omega)] at h1
    have : cs3.length - cs1.length = (cs3.length - cs1.length - 1) + 1 := by omega
    rw [this, List.getElem?_cons_succ] at h1
    exact hn c' (List.mem_append_right _ (List.mem_of_getElem? h1)) hc
  · exact (List.append_inj h he).1
  · exfalso
    have h1 : (cs3 ++ c' :: cs4)[cs3.length]? = some c' := by simp
    rw [← h, List.getElem?_append_left hlt] at h1
    exact hn c' (List.mem_append_left _ (List.mem_of_getElem? h1)) hc

theorem handled_for {c : Record SMsg SState} {me : Nat} {d : Dest} {m x : SMsg} {t : Nat} (h : Handled c me d m x t) : ForCall t c := ⟨_, _, h.1, rfl⟩

/-- **C130**: a supervisor is one state machine for all who ask it. Whatever processes use the functions, as often as they like and at the same time, in a node where
every process minds its own business: there is one life of the state machine, in which every function that did not report a failed call has a place of its own with its
question and the answer that it returned, and a function that had returned before another was called has its place before it. -/
theorem C130_linearizable (cf : Conf B V) (ser : V → B) (hf : Faithful ser cf.type) (hst : ∀ k c, Silent ser cf.type cf.me (cf.startOf k c))
    (parent : Pid) (G hs os : List (Op B V)) (n : Nat) (st : Strategy) (au : AutoShutdown) (mr md : Nat) (cs : List Spec)
    (hs' : ∀ c ∈ cs, c.hasStart = true) (hd : (cs.map (·.id)).Nodup) (l : Log SMsg SState)
    (hsup : Supervises cf ser parent G hs os n (fresh st au mr md cs) l) (hcoh : Coherent cf.type G) (hh : Verif.World.Honest ser cf.type G)
    (ho : RepliesOnlyIn ser cf.type cf.me G hs os) (I : Type) (use : I → SUse B V) (hp : ∀ a, (use a).pre ++ (use a).ops <+: G)
    (hx : ∀ a, Exec ser (use a).me (Verif.World.run ser Verif.World.init (use a).pre) ((use a).q.prog cf.type (use a).me (use a).d) (use a).ops (use a).r)
    (hm : ∀ a, Means ser G (use a).d cf.me) (hr : ∀ a e, (use a).r ≠ .error (.call e))
    (hone : ∀ a b, a ≠ b → (use a).me ≠ (use b).me ∨ (use a).Before (use b) ∨ (use b).Before (use a)) :
    ∃ o s0, boot o (fresh st au mr md cs) = .up s0 ∧ Lives o s0 (eventsOf cf.clock l.calls) l.state.1 l.ended ∧
      ∃ at_ : I → Nat, (∀ a, ∃ now rep, (eventsOf cf.clock l.calls)[at_ a]? = some ⟨now, (use a).q.event, rep, none⟩ ∧ (use a).q.Says (use a).r rep) ∧
        (∀ a b, a ≠ b → at_ a ≠ at_ b) ∧ ∀ a b, (use a).Before (use b) → at_ a < at_ b := by
  obtain ⟨o, σ0, os1, os2, hb, hch, i1, i2, -, -, hsv, huf⟩ := supervises_serves hf hst hs' hd hsup
  have hfor := C127_no_forgery ser cf.type G hf hcoh hh
  refine ⟨o, σ0.1, hb, chain_lives hch i1 i2, ?_⟩
  -- each question has a call
  have hcall : ∀ a, ∃ ops1 ops2 x y t, (use a).ops = ops1 ++ ops2 ∧ (∀ o ∈ ops2, Others (use a).me o) ∧
      Called ser cf.type G (use a).pre ops1 (use a).me (use a).d (use a).q.msg x t ∧ (use a).q.read x = some y ∧ (use a).r = asked y ∧
      Unforged ser cf.type cf.me G (hs ++ os1) os2 (use a).pre ops1 (use a).me t := by
    intro a
    obtain ⟨t, ha⟩ := asked_of_exec (hp a) (hx a)
    obtain ⟨ops1, ops2, x, y, he, h2, hc, h3, h4⟩ := asked_called ha (hr a)
    exact ⟨ops1, ops2, x, y, t, he, h2, hc, h3, h4, huf _ _ _ _ (C127_unforged ser cf.type cf.me G hs os _ ops1 _ _ _ x t hf hcoh hh hc (hm a) ho)⟩
  have hplace : ∀ a, ∃ k, (∃ now rep, (eventsOf cf.clock l.calls)[k]? = some ⟨now, (use a).q.event, rep, none⟩ ∧ (use a).q.Says (use a).r rep) ∧
      ∃ ops1 ops2 x t cs1 c cs2, (use a).ops = ops1 ++ ops2 ∧ Called ser cf.type G (use a).pre ops1 (use a).me (use a).d (use a).q.msg x t ∧
        Unforged ser cf.type cf.me G (hs ++ os1) os2 (use a).pre ops1 (use a).me t ∧
        l.calls = cs1 ++ c :: cs2 ∧ Handled c (use a).me (use a).d (use a).q.msg x t ∧ (∀ c' ∈ cs1 ++ cs2, ¬ ForCall t c') ∧ k = (eventsOf cf.clock cs1).length := by
    intro a
    obtain ⟨ops1, ops2, x, y, t, he, h2, hc, hxy, hry, hu⟩ := hcall a
    obtain ⟨cs1, c, cs2, hl, hh', huq⟩ := C116_answered ser (supServer cf) cf.type cf.me parent G _ _ σ0 n l _ ops1 _ _ _ x t (sup_returns hf hst) hcoh hfor hf hsv hc hu
    have hch' := hch
    rw [hl] at hch'
    obtain ⟨hdo, hev, -⟩ := chain_split cs1 hch' i1 i2 (by rw [hh'.1]; simp) hh'.2
    obtain ⟨y', hy', hsay, heq⟩ := ask_record hdo hh'.1 hh'.2
    rw [hxy] at hy'
    cases hy'
    refine ⟨_, ⟨cf.clock c.before.2, replyOf c.result, ?_, by rw [hry]; exact hsay⟩, ops1, ops2, x, t, cs1, c, cs2, he, hc, hu, hl, hh', huq, rfl⟩
    rw [hl, hev, heq]; simp
  have hlen : ∀ b1 c1 b2 c2 b3, ∀ {me d m x t me' d' m' x' t'}, l.calls = b1 ++ c1 :: (b2 ++ c2 :: b3) → Handled c1 me d m x t → Handled c2 me' d' m' x' t' →
      (eventsOf cf.clock b1).length < (eventsOf cf.clock (b1 ++ c1 :: b2)).length := by
    intro b1 c1 b2 c2 b3 me d m x t me' d' m' x' t' hl2 g1 g2
    have hch' := hch
    rw [hl2] at hch'
    obtain ⟨-, e1, -, -, hch2, j1, j2⟩ := chain_split b1 hch' i1 i2 (by rw [g1.1]; simp) g1.2
    obtain ⟨-, e2, -⟩ := chain_split b2 hch2 j1 j2 (by rw [g2.1]; simp) g2.2
    have hch3 := hch
    rw [show l.calls = (b1 ++ c1 :: b2) ++ c2 :: b3 by rw [hl2]; simp] at hch3
    obtain ⟨-, e3, -⟩ := chain_split (b1 ++ c1 :: b2) hch3 i1 i2 (by rw [g2.1]; simp) g2.2
    have e4 : (b1 ++ c1 :: b2) ++ c2 :: b3 = b1 ++ c1 :: (b2 ++ c2 :: b3) := by simp
    rw [e4, e1, e2] at e3
    have := congrArg List.length e3
    simp at this
    omega
  have hlt : ∀ a b, (use a).Before (use b) → (hplace a).choose < (hplace b).choose := by
    intro a b hab
    obtain ⟨-, ops1, ops2, x, t, cs1, c, cs2, he, hc, hu, hl, hh', huq, hk⟩ := (hplace a).choose_spec
    obtain ⟨-, ops1', ops2', x', t', cs1', c', cs2', he', hc', hu', hl', hh'', huq', hk'⟩ := (hplace b).choose_spec
    rw [hk, hk']
    have hbef : (use a).pre ++ ops1 <+: (use b).pre := by
      refine List.prefix_of_prefix_length_le (l₃ := G) hc.part ?_ ?_
      · obtain ⟨z, hz⟩ := hp b; exact ⟨(use b).ops ++ z, by rw [← hz]; simp⟩
      · unfold SUse.Before at hab
        rw [he] at hab
        simp at hab ⊢; omega
    obtain ⟨b1, c1, b2, c2, b3, hl2, g1, g2⟩ := C116_order ser (supServer cf) cf.type cf.me parent G _ _ σ0 n l _ ops1 _ _ _ x t _ ops1' _ _ _ x' t'
      (sup_returns hf hst) hcoh hfor hf hsv hc hu hc' hu' hbef
    have e1 : cs1 = b1 := place_unique (hl.symm.trans hl2) huq (handled_for g1)
    have e2 : cs1' = b1 ++ c1 :: b2 := place_unique (cs4 := b3) (c' := c2) (hl'.symm.trans (by rw [hl2]; simp)) huq' (handled_for g2)
    rw [e1, e2]
    exact hlen b1 c1 b2 c2 b3 hl2 g1 g2
  refine ⟨fun a => (hplace a).choose, fun a => (hplace a).choose_spec.1, fun a b hab heq => ?_, hlt⟩
  replace heq : (hplace a).choose = (hplace b).choose := heq
  rcases hone a b hab with hne | h | h
  · obtain ⟨-, ops1, ops2, x, t, cs1, c, cs2, he, hc, hu, hl, hh', huq, hk⟩ := (hplace a).choose_spec
    obtain ⟨-, ops1', ops2', x', t', cs1', c', cs2', he', hc', hu', hl', hh'', huq', hk'⟩ := (hplace b).choose_spec
    rw [hk, hk'] at heq
    have key : ∀ {cs1 cs2 cs1' cs2' : List (Record SMsg SState)} {c c' : Record SMsg SState}, l.calls = cs1 ++ c :: cs2 → l.calls = cs1' ++ c' :: cs2' → cs1.length < cs1'.length →
        ∃ b2, cs1' = cs1 ++ c :: b2 ∧ l.calls = cs1 ++ c :: (b2 ++ c' :: cs2') := by
      intro cs1 cs2 cs1' cs2' c c' h1 h2 hlt
      obtain ⟨z, hz⟩ : cs1 ++ [c] <+: cs1' := List.prefix_of_prefix_length_le (l₃ := l.calls) ⟨cs2, by rw [h1]; simp⟩ ⟨_, h2.symm⟩ (by simp; omega)
      exact ⟨z, by rw [← hz]; simp, by rw [h2, ← hz]; simp⟩
    rcases Nat.lt_trichotomy cs1.length cs1'.length with h | h | h
    · obtain ⟨b2, e1, e2⟩ := key hl hl' h
      have := hlen _ _ _ _ _ e2 hh' hh''
      rw [← e1] at this; omega
    · obtain ⟨e1, e2⟩ := List.append_inj (hl.symm.trans hl') h
      simp only [List.cons.injEq] at e2
      have h1 := hh'.1
      rw [e2.1, hh''.1] at h1
      simp only [Invoke.call.injEq, From.mk.injEq, Pid.loc.injEq] at h1
      exact hne h1.2.1.symm
    · obtain ⟨b2, e1, e2⟩ := key hl' hl h
      have := hlen _ _ _ _ _ e2 hh'' hh'
      rw [← e1] at this; omega
  · have := hlt a b h; omega
  · have := hlt b a h; omega

/-! ## Samples: three questions of two processes (SupClientProps.lean) -/

theorem askAll_take {a b : List (Op Nat (GMsg SMsg))} {o : Op Nat (GMsg SMsg)} (h : askAll = a ++ o :: b) {k : Nat} (hk : a.length = k) : a = askAll.take k := by
  rw [h, ← hk]; simp

set_option maxHeartbeats 4000000 in
theorem ask_got1 : GotRequest supSer supMsgs 2 (askAll.take 10) ⟨.loc 3, .loc 1, false⟩ :=
  ⟨askAll.take 8, (askAll.take 10).drop 9, fun _ => true, true, .resume, .startChild (worker "a" .permanent), rfl, rfl⟩

set_option maxHeartbeats 4000000 in
theorem ask_got2 : GotRequest supSer supMsgs 2 (askAll.take 17) ⟨.loc 1, .loc 2, false⟩ :=
  ⟨askAll.take 16, (askAll.take 17).drop 17, fun _ => true, true, .select, .countChildren, rfl, rfl⟩

set_option maxHeartbeats 4000000 in
theorem ask_got3 : GotRequest supSer supMsgs 2 (askAll.take 31) ⟨.loc 3, .loc 3, false⟩ :=
  ⟨askAll.take 23, (askAll.take 31).drop 24, fun _ => true, true, .select, .terminateChild "a", rfl, rfl⟩

theorem ask_honest : Verif.World.Honest supSer supConf.type askAll := by
  refine ⟨?_, ?_⟩
  · rintro a o b h me ds v rfl ⟨g, hg', hr⟩
    obtain ⟨it, hs, hr⟩ : ∃ it, SentBy supSer (.send me ds v) it ∧ Reads supConf.type it g := by
      rcases hr with hr | hr
      · exact ⟨_, .local .., hr⟩
      · exact ⟨_, .serial .., hr⟩
    obtain ⟨hm, hg⟩ := ask_at h hs hr
    simp only [askPlaces, List.mem_cons, Prod.mk.injEq, List.not_mem_nil, or_false] at hm
    rcases hm with ⟨hk, rfl⟩ | ⟨hk, rfl⟩ | ⟨hk, rfl⟩ | ⟨hk, rfl⟩ | ⟨hk, rfl⟩ | ⟨hk, rfl⟩ <;> rw [hk] at hg <;> rw [askAll_take h hk]
    · exact .inl ⟨_, 3, supDest, askAll.take 5, [], .startChild (worker "a" .permanent), rfl, by decide +kernel, rfl, by simp, (Option.some.inj hg).symm⟩
    · exact .inr ⟨_, 2, _, ask_got1, (Option.some.inj hg).symm⟩
    · exact .inl ⟨_, 1, supDest, askAll.take 13, [], .countChildren, rfl, by decide +kernel, rfl, by simp, (Option.some.inj hg).symm⟩
    · exact .inr ⟨_, 2, _, ask_got2, (Option.some.inj hg).symm⟩
    · exact .inl ⟨_, 3, supDest, askAll.take 20, [], .terminateChild "a", rfl, by decide +kernel, rfl, by simp, (Option.some.inj hg).symm⟩
    · exact .inr ⟨_, 2, _, ask_got3, (Option.some.inj hg).symm⟩
  · intro a rp n ts bytes b h
    have hm : (Op.frame rp n (.send ts bytes) : Op Nat (GMsg SMsg)).caller ∈ askAll.map Op.caller := List.mem_map_of_mem (by rw [h]; simp)
    exact ⟨by intro frm y t h; simp [supConf, supMsgs] at h, by intro y t h; simp [supConf, supMsgs] at h⟩

theorem ask_only : RepliesOnlyIn supSer supConf.type supConf.me askAll askStart askServe := by
  have := C130_only_in_life supConf supSer askStart askServe [] (by
    intro o ho
    simp [askStart] at ho
    rcases ho with rfl | rfl | rfl <;> simp [Op.caller, supConf]) (by simp)
  rwa [List.append_nil] at this

theorem ask_means : Means supSer askAll supDest supConf.me := by
  refine ⟨rfl, ?_⟩
  intro a b i _ h
  simp only [supDest, targetOf] at h
  split at h
  · exact (Option.some.inj h).symm
  · cases h

def askUse : Fin 3 → SUse Nat (GMsg SMsg)
  | 0 => ⟨askPre, askA, 3, supDest, .start (worker "a" .permanent), .ok (some (.loc 4))⟩
  | 1 => ⟨askPre ++ askA, askB, 1, supDest, .count, .ok ⟨1, 1, 0, 1⟩⟩
  | 2 => ⟨askPre ++ askA ++ askB, askC, 3, supDest, .terminate "a", .ok ()⟩

/-- The three questions have their places in one life of the state machine, in their order. -/
example : True := by
  obtain ⟨l, hl⟩ := ask_supervises
  have h := C130_linearizable _ _ ask_faithful ask_silent _ _ _ _ _ _ _ _ _ _ (by simp) (by simp) _ hl ask_coherent ask_honest ask_only (Fin 3) askUse
    (fun | 0 => ask_askedA.part | 1 => ask_askedB.part | 2 => ask_askedC.part) (fun | 0 => ask_askedA.call | 1 => ask_askedB.call | 2 => ask_askedC.call)
    (fun | 0 => ask_means | 1 => ask_means | 2 => ask_means) (fun | 0 => by simp [askUse] | 1 => by simp [askUse] | 2 => by simp [askUse])
    (by
      intro a b hab
      have b01 : (askUse 0).Before (askUse 1) := by unfold SUse.Before; decide
      have b02 : (askUse 0).Before (askUse 2) := by unfold SUse.Before; decide
      have b12 : (askUse 1).Before (askUse 2) := by unfold SUse.Before; decide
      match a, b with
      | 0, 0 => exact absurd rfl hab
      | 0, 1 => exact .inr (.inl b01)
      | 0, 2 => exact .inr (.inl b02)
      | 1, 0 => exact .inr (.inr b01)
      | 1, 1 => exact absurd rfl hab
      | 1, 2 => exact .inr (.inl b12)
      | 2, 0 => exact .inr (.inr b02)
      | 2, 1 => exact .inr (.inr b12)
      | 2, 2 => exact absurd rfl hab)
  trivial

example := C130_unforged supConf supSer askAll askStart askServe _ _ _ _ _ _ ask_faithful ask_coherent ask_honest ask_means ask_only ask_askedB.part ask_askedB.call (by simp)

/-- The supervisor of the sample is honest. -/
example := C130_life supConf supSer (Talks supSer supConf.type) (talks_telling ask_faithful) (by
  intro k c
  simp only [supConf]
  split
  · exact fun a => decent_ret (τ := supConf.type) (s := supConf.me) _ a
  · exact fun a => decent_plain (τ := supConf.type) (s := supConf.me) (by intro _ _ _ h; cases h) (fun _ => decent_ret (τ := supConf.type) (s := supConf.me) _) a) (.loc 1) 3 askSup askStart

end Verif.Sup
