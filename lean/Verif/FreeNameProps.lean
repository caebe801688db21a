import Verif.SupChildProps
import Verif.RaceProps
/-!
# C143: a process that is started again finds the name of its predecessor free
-/
namespace Verif.World
open Verif.Mailbox
variable {B V M S R : Type}

/-! ## Specification -/

/-- `t` is dead in `w` and no name resolves to it, and so it stays whatever happens afterwards. -/
def Vanished (ser : V → B) (t : Nat) (w : World B V) : Prop :=
  ∀ os, (run ser w os).procs t = none ∧ ∀ n, (run ser w os).names n ≠ some t

/-! ## Names of the dead -/

/-- **C143**: a process that is dead, and has existed, is dead for ever and no name ever resolves to it (`Process::whereis`). -/
theorem C143_dead_nameless (ser : V → B) (w : World B V) (hre : Reachable ser w) (t : Nat) (ht : t < w.nextPid) (hd : w.procs t = none) :
    Vanished ser t w := by
  intro os'
  have hp := (absent_run ser w os' t ht hd).1
  refine ⟨hp, fun n hn => ?_⟩
  obtain ⟨os0, h0⟩ := reach_run hre os'
  rw [h0] at hn hp
  obtain ⟨p, hq, -⟩ := ((C25_names_bijection ser os0).1 n t).1 hn
  rw [hp] at hq
  cases hq

/-- **C143**: if a server that is started with a name is refused (`already_started`), then it is not because of a process that was dead when it was started: when it asked for the name, the name
was held by another process, which existed, or the server had been given another name. -/
theorem C143_start (ser : V → B) (me : Nat) (srv : Server B V M S) (n : String) (limited : Bool) (σ : S) (w : World B V) (hre : Reachable ser w)
    (os : List (Op B V)) (ran : Bool) (h : Boots ser me srv (some n) limited σ w os ran .alreadyStarted)
    (t : Nat) (ht : t < w.nextPid) (hd : w.procs t = none) :
    ∃ os1 os2, os = os1 ++ .register me (.loc me) n :: os2 ∧
      ((∃ q p, q ≠ t ∧ q ≠ me ∧ (run ser w os1).names n = some q ∧ (run ser w os1).procs q = some p) ∨
       ∃ p m, (run ser w os1).procs me = some p ∧ p.name = some m ∧ m ≠ n) := by
  cases h with
  | @taken os os' h1 h2 =>
    rw [registerProg] at h1
    obtain ⟨os1, os2, rfl, ho, hr, h3⟩ := exec_op_inv h1
    refine ⟨os1, os2 ++ os', by simp, ?_⟩
    have hre1 := reach_run hre os1
    have hno : ¬ mayRegister (run ser w os1) (.loc me) n := by
      rw [← C26_register_iff]
      rintro ⟨u, hu⟩
      simp only [step, Op.caller, Op.exec, hr, hu] at h3
      obtain ⟨h3, -⟩ := exec_ret_inv h3
      cases h3
    obtain ⟨os0, he⟩ := hre1
    have hb := C25_names_bijection ser os0
    rw [← he] at hb
    obtain ⟨p, hp⟩ : ∃ p, (run ser w os1).procs me = some p := Option.isSome_iff_exists.1 (running_exists hr)
    cases hn : (run ser w os1).names n with
    | some q =>
      left
      obtain ⟨pq, hq, -⟩ := (hb.1 n q).1 hn
      refine ⟨q, pq, ?_, ?_, rfl, hq⟩
      · rintro rfl
        exact (C143_dead_nameless ser w hre q ht hd os1).2 n hn
      · rintro rfl
        exact hno ⟨q, rfl, .inl hn⟩
    | none =>
      right
      cases hm : p.name with
      | none => exact (hno ⟨me, rfl, .inr ⟨hn, p, hp, hm⟩⟩).elim
      | some m =>
        refine ⟨p, m, hp, hm, ?_⟩
        rintro rfl
        have := (hb.1 m me).2 ⟨p, hp, hm⟩
        rw [hn] at this; cases this

/-- Where a callback of the loop of a server runs: right after the message that it is for has been taken. -/
theorem loop_calls {ser : V → B} {τ : RecvType B V (GMsg M)} {me : Nat} {srv : Server B V M S} {parent : Pid} {n : Nat} {σ : S} {w : World B V}
    {os : List (Op B V)} {l : Log M S} (hre : Reachable ser w) (h : Exec ser me w (serverLoop srv τ me parent n σ) os l)
    {c : Record M S} (hc : c ∈ l.calls) (hnt : ∀ r, c.what ≠ .terminate r) :
    ∃ pre kind m mid post, os = pre ++ .recv me (anyMsg τ) kind :: (mid ++ post) ∧
      TakesOldest τ me (run ser w pre) (step ser (run ser w pre) (.recv me (anyMsg τ) kind)).1 m ∧
      RanFor ser me srv parent m (step ser (run ser w pre) (.recv me (anyMsg τ) kind)).1 mid c := by
  induction n generalizing σ w os l with
  | zero =>
    rw [serverLoop] at h
    obtain ⟨rfl, -⟩ := exec_ret_inv h
    simp at hc
  | succ n ih =>
    generalize hk : serverLoop srv τ me parent (n + 1) σ = pg at h
    have hk' := hk
    rw [serverLoop] at hk
    subst hk
    obtain ⟨pre, kind, m, os2, rfl, ht, hx⟩ := loop_wait hre h
    have hre1 : Reachable ser (step ser (run ser w pre) (.recv me (anyMsg τ) kind)).1 := reach_step (reach_run hre pre) _
    rcases round_inv hk' hx with ⟨r, -, hf⟩ | ⟨os3, os4, c', rfl, -, hran, hf⟩
    · obtain ⟨σ', os5, os6, rfl, -, -, -⟩ := finish_inv hf
      simp at hc
      rw [hc] at hnt
      exact (hnt r rfl).elim
    · have mine : ∀ os5 os6, os4 = os5 ++ os6 →
          Exec ser me (run ser (run ser (step ser (run ser w pre) (.recv me (anyMsg τ) kind)).1 os3) os5)
            (afterCallback srv me c' (serverLoop srv τ me parent n c'.after)) os6 l →
          ∃ pre' kind' m' mid post, pre ++ .recv me (anyMsg τ) kind :: (os3 ++ os4) = pre' ++ .recv me (anyMsg τ) kind' :: (mid ++ post) ∧
            TakesOldest τ me (run ser w pre') (step ser (run ser w pre') (.recv me (anyMsg τ) kind')).1 m' ∧
            RanFor ser me srv parent m' (step ser (run ser w pre') (.recv me (anyMsg τ) kind')).1 mid c := by
        intro os5 os6 he hx6
        subst he
        have here : c = c' → ∃ pre' kind' m' mid post, pre ++ .recv me (anyMsg τ) kind :: (os3 ++ (os5 ++ os6)) = pre' ++ .recv me (anyMsg τ) kind' :: (mid ++ post) ∧
            TakesOldest τ me (run ser w pre') (step ser (run ser w pre') (.recv me (anyMsg τ) kind')).1 m' ∧
            RanFor ser me srv parent m' (step ser (run ser w pre') (.recv me (anyMsg τ) kind')).1 mid c :=
          fun e => ⟨pre, kind, m, os3, os5 ++ os6, rfl, ht, e ▸ hran⟩
        rcases hres : c'.result with r | x
        · simp only [afterCallback, hres] at hx6
          obtain ⟨σ', os7, os8, rfl, -, -, -⟩ := finish_inv hx6
          simp at hc
          rcases hc with hc | hc
          · exact here hc
          · rw [hc] at hnt; exact (hnt r rfl).elim
        · simp only [afterCallback, hres] at hx6
          obtain ⟨os7, os8, l', rfl, h7, h8⟩ := exec_bind_inv hx6
          obtain ⟨rfl, -⟩ := exec_ret_inv h8
          rcases List.mem_cons.1 hc with hc | hc
          · exact here hc
          · obtain ⟨pre', kind', m', mid, post, rfl, ht', hran'⟩ := ih (reach_run (reach_run hre1 os3) os5) h7 hc
            have e : run ser (run ser (step ser (run ser w pre) (.recv me (anyMsg τ) kind)).1 os3) os5 =
                run ser w (pre ++ .recv me (anyMsg τ) kind :: (os3 ++ os5)) := by
              rw [run_append, run_cons, run_append]
            rw [e, ← run_append] at ht' hran'
            exact ⟨pre ++ .recv me (anyMsg τ) kind :: (os3 ++ os5) ++ pre', kind', m', mid, post ++ os8, by simp, ht', hran'⟩
      cases hrep : replyOf τ me c' with
      | none =>
        rw [hrep] at hf
        exact mine [] os4 rfl hf
      | some o =>
        rw [hrep] at hf
        obtain ⟨os5, os6, rfl, -, -, hx5⟩ := exec_op_inv hf
        refine mine (os5 ++ [o]) os6 (by simp) ?_
        rw [run_append]
        exact hx5



/-- Process 1 had the name and is dead, process 2 has taken it; so a server 3 that is started with this name is refused, on account of 2. -/
example : ∃ os ran, Boots noSer 3 adder (some "a") false 0 (run noSer (init : World Nat (GMsg Nat))
      [.boot, .boot, .boot, .register 1 (.loc 1) "a", .finish 1, .drop 1, .register 2 (.loc 2) "a"]) os ran .alreadyStarted ∧
    1 < (run noSer (init : World Nat (GMsg Nat)) [.boot, .boot, .boot, .register 1 (.loc 1) "a", .finish 1, .drop 1, .register 2 (.loc 2) "a"]).nextPid ∧
    (run noSer (init : World Nat (GMsg Nat)) [.boot, .boot, .boot, .register 1 (.loc 1) "a", .finish 1, .drop 1, .register 2 (.loc 2) "a"]).procs 1 = none := by
  refine ⟨_, _, .taken (os := [.register 3 (.loc 3) "a"]) (os' := [.finish 3]) ?_ ?_, by decide, rfl⟩
  · exact sim_exec noSer 3 [.mine] (run noSer (init : World Nat (GMsg Nat)) [.boot, .boot, .boot, .register 1 (.loc 1) "a", .finish 1, .drop 1, .register 2 (.loc 2) "a"])
      (registerProg 3 (some "a")) ([.register 3 (.loc 3) "a"], false) (by rfl)
  · exact sim_exec noSer 3 [.mine] (run noSer (run noSer (init : World Nat (GMsg Nat)) [.boot, .boot, .boot, .register 1 (.loc 1) "a", .finish 1, .drop 1, .register 2 (.loc 2) "a"]) [.register 3 (.loc 3) "a"])
      (.op (.finish 3) fun _ => .ret ()) ([.finish 3], ()) (by rfl)

theorem gone_later {ser : V → B} {t : Nat} {w : World B V} {os : List (Op B V)} (h : Vanished ser t w) : Vanished ser t (run ser w os) := by
  intro os1
  rw [← run_append]
  exact h _

end Verif.World

namespace Verif.Sup
open Verif.World Verif.Mailbox
variable {B V M S : Type}

theorem message_of {M : Type} {parent : Pid} {m : Msg (GMsg M)} {p : Pid} {r : ExitReason} (hcb : callbackFor parent m = some (.info (.system (.exit p r)))) :
    m = .system (.exit p r) := by
  cases m with
  | user g => cases g <;> simp [callbackFor] at hcb
  | system s =>
    cases s with
    | exit p r' =>
      simp only [callbackFor] at hcb
      split at hcb
      · simp at hcb
      · simp at hcb; obtain ⟨rfl, rfl⟩ := hcb; rfl
    | _ => simp [callbackFor] at hcb

/-- **C143**: when a server is told, in `handle_info`, that the process `t` of this node has exited, `t` is dead and no name resolves to it, from before this callback begins and for ever, unless `t` itself
has sent that message with `Process::exit`. -/
theorem C143_told (ser : V → B) (srv : Server B V M S) (τ : RecvType B V (GMsg M)) (me : Nat) (parent : Pid) (n : Nat) (σ : S)
    (os0 os : List (Op B V)) (l : World.Log M S) (h : Exec ser me (Verif.World.run ser init os0) (serverLoop srv τ me parent n σ) os l)
    (t : Nat) (hh : Always ser (Honest me t) init (os0 ++ os)) (c : Record M S) (hc : c ∈ l.calls) (r : ExitReason)
    (hwhat : c.what = .info (.system (.exit (.loc t) r))) :
    ∃ pre kind mid post, os = pre ++ .recv me (anyMsg τ) kind :: (mid ++ post) ∧
      Ran ser me srv (Verif.World.run ser init (os0 ++ pre ++ [.recv me (anyMsg τ) kind])) mid c ∧
      Vanished ser t (Verif.World.run ser init (os0 ++ pre)) := by
  have hw : Reachable ser (Verif.World.run ser (init : World B V) os0) := ⟨os0, rfl⟩
  obtain ⟨pre, kind, m, mid, post, rfl, ht, hran⟩ := loop_calls hw h hc (by simp [hwhat])
  have hcb := hran.1
  rw [hwhat] at hcb
  have hmm := message_of hcb
  subst hmm
  have hsent := taken_sent (reach_run hw pre) ht
  rw [← List.append_assoc] at hh
  have htr := truthful_run (always_append.1 hh).1 r (by rw [run_append]; exact hsent)
  refine ⟨pre, kind, mid, post, rfl, ?_, ?_⟩
  · have := hran.2
    rw [run_append, run_append]
    exact this
  · exact C143_dead_nameless ser _ ⟨_, rfl⟩ t htr.2 htr.1

/-- An effect that is a run of a start routine is a stretch of the history. -/
theorem performsQ_start {cf : Conf B V} {ser : V → B} {Q : Op B V → Prop} {w : World B V} {n : Nat} {ds : List Did} {ops : List (Op B V)}
    (h : PerformsQ cf ser Q w n ds ops) {id : String} {x : Except ExitReason Pid} (hm : .start id x ∈ effs ds) :
    ∃ ops1 ops2 ops3 k sp, ops = ops1 ++ (ops2 ++ ops3) ∧ sp.id = id ∧ Exec ser cf.me (Verif.World.run ser w ops1) (cf.startOf k sp) ops2 x := by
  induction h with
  | nil => simp [effs] at hm
  | @other w n ds o ops ho hp ih =>
    obtain ⟨ops1, ops2, ops3, k, sp, rfl, h1, h2⟩ := ih hm
    exact ⟨o :: ops1, ops2, ops3, k, sp, rfl, h1, by rw [run_cons]; exact h2⟩
  | @start w n ds ops1 ops2 r c hx hp ih =>
    simp only [effs, List.filterMap_cons, List.mem_cons] at hm
    rcases hm with hm | hm
    · simp only [Eff.start.injEq] at hm
      obtain ⟨rfl, rfl⟩ := hm
      exact ⟨[], ops1, ops2, n, c, rfl, rfl, hx⟩
    · obtain ⟨os1, os2, os3, k, sp, rfl, h1, h2⟩ := ih hm
      exact ⟨ops1 ++ os1, os2, os3, k, sp, by simp, h1, by rw [run_append]; exact h2⟩
  | @stop w n ds ops1 ops2 p how x hx hp ih =>
    simp only [effs, List.filterMap_cons, List.mem_cons] at hm
    rcases hm with hm | hm
    · cases hm
    · obtain ⟨os1, os2, os3, k, sp, rfl, h1, h2⟩ := ih hm
      exact ⟨ops1 ++ os1, os2, os3, k, sp, by simp, h1, by rw [run_append]; exact h2⟩
  | @cast w n ds ops id' hp ih =>
    obtain ⟨ops1, ops2, ops3, k, sp, rfl, h1, h2⟩ := ih hm
    exact ⟨_ :: ops1, ops2, ops3, k, sp, rfl, h1, by rw [run_cons]; exact h2⟩

/-- **C143**: when a supervisor restarts children because the process `t` of a child has exited, then at the moment when any start routine begins to run, `t` is dead, no name resolves to it, and both stay so. -/
theorem C143_restart (cf : Conf B V) (ser : V → B) (os0 : List (Op B V)) (parent : Pid) (n : Nat)
    (st : Strategy) (au : AutoShutdown) (mr md : Nat) (cs : List Spec) (ops : List (Op B V)) (l : World.Log SMsg SState) (σ : SState)
    (h : Exec ser cf.me (Verif.World.run ser init os0) (supLife cf parent n (fresh st au mr md cs)) ops (some l, σ))
    (t : Nat) (hh : Always ser (Honest cf.me t) init (os0 ++ ops)) (c : Record SMsg SState) (hc : c ∈ l.calls) (r : ExitReason)
    (hwhat : c.what = .info (.system (.exit (.loc t) r)))
    (a b : List Eff) (id : String) (x : Except ExitReason Pid) (hlog : c.after.1.log = c.before.1.log ++ (a ++ .start id x :: b)) :
    ∃ ops1 ops2 ops3 k sp, ops = ops1 ++ (ops2 ++ ops3) ∧ sp.id = id ∧
      Exec ser cf.me (Verif.World.run ser init (os0 ++ ops1)) (cf.startOf k sp) ops2 x ∧
      Vanished ser t (Verif.World.run ser init (os0 ++ ops1)) := by
  have hw : Reachable ser (Verif.World.run ser (init : World B V) os0) := ⟨os0, rfl⟩
  obtain ⟨o, σ0, -, -, -, os1, os2, os3, rfl, hx⟩ := life_chain cf ser _ hw parent n st au mr md cs ops l σ h
  rw [← run_append] at hx
  have hh' : Always ser (Honest cf.me t) init (os0 ++ os1 ++ os2) := by
    have : os0 ++ (os1 ++ (os2 ++ os3)) = os0 ++ os1 ++ os2 ++ os3 := by simp
    rw [this] at hh
    exact (always_append.1 hh).1
  obtain ⟨pre, kind, mid, post, rfl, hran, hgone⟩ := C143_told ser (supServer cf) cf.type cf.me parent n σ0 (os0 ++ os1) os2 l hx t hh' c hc r hwhat
  obtain ⟨fx, he⟩ := ran_effects (Q := fun _ => True) ⟨_, rfl⟩ hran
  have hfx : effs fx = a ++ .start id x :: b := by
    have := he.log
    rw [hlog] at this
    exact (List.append_cancel_left this).symm
  obtain ⟨q1, q2, q3, k, sp, rfl, hid, hxs⟩ := performsQ_start he.perf (id := id) (x := x) (by rw [hfx]; simp)
  refine ⟨os1 ++ pre ++ .recv cf.me (anyMsg cf.type) kind :: q1, q2, q3 ++ (post ++ os3), k, sp, by simp, hid, ?_, ?_⟩
  · rw [← run_append] at hxs
    have e : os0 ++ (os1 ++ pre ++ .recv cf.me (anyMsg cf.type) kind :: q1) = os0 ++ os1 ++ pre ++ [.recv cf.me (anyMsg cf.type) kind] ++ q1 := by simp
    rw [e]; exact hxs
  · have e : os0 ++ (os1 ++ pre ++ .recv cf.me (anyMsg cf.type) kind :: q1) = os0 ++ os1 ++ pre ++ (.recv cf.me (anyMsg cf.type) kind :: q1) := by simp
    rw [e, run_append ser _ (os0 ++ os1 ++ pre)]
    exact gone_later hgone

theorem performs_first {cf : Conf B V} {ser : V → B} {w : World B V} {n : Nat} {fx rest : List Eff} {ops : List (Op B V)}
    (h : Performs cf ser w n fx ops) {id : String} {x : Except ExitReason Pid} (hm : fx = .start id x :: rest) :
    ∃ ops1 ops2 ops3 k sp, ops = ops1 ++ (ops2 ++ ops3) ∧ sp.id = id ∧ Exec ser cf.me (Verif.World.run ser w ops1) (cf.startOf k sp) ops2 x := by
  induction h with
  | nil => cases hm
  | @other w n fx o ops ho hp ih =>
    obtain ⟨ops1, ops2, ops3, k, sp, rfl, h1, h2⟩ := ih hm
    exact ⟨o :: ops1, ops2, ops3, k, sp, rfl, h1, by rw [run_cons]; exact h2⟩
  | @start w n fx ops1 ops2 r c hx hp ih =>
    simp only [List.cons.injEq, Eff.start.injEq] at hm
    obtain ⟨⟨rfl, rfl⟩, rfl⟩ := hm
    exact ⟨[], ops1, ops2, n, c, rfl, rfl, hx⟩
  | stop => simp at hm

/-- **C143**: the same for the children that are replaced together with the one that has exited: with `OneForAll` all others, with `RestForOne` those after it. -/
theorem C143_siblings (cf : Conf B V) (ser : V → B) (hg : Genuine cf ser) (w : World B V) (hw : Reachable ser w) (parent : Pid) (n : Nat)
    (st : Strategy) (au : AutoShutdown) (mr md : Nat) (cs : List Spec) (hs : ∀ c ∈ cs, c.hasStart = true) (hd : (cs.map (·.id)).Nodup)
    (ops : List (Op B V)) (l : World.Log SMsg SState) (σ : SState)
    (h : Exec ser cf.me w (supLife cf parent n (fresh st au mr md cs)) ops (some l, σ))
    (c : Record SMsg SState) (hc : c ∈ l.calls) (y : Option SMsg) (hok : c.result = .ok y)
    (hwhat : (∃ p r, c.what = .info (.system (.exit p r))) ∨ ∃ m, c.what = .cast m)
    (a b : List Eff) (id : String) (x : Except ExitReason Pid) (hlog : c.after.1.log = c.before.1.log ++ (a ++ .start id x :: b)) :
    ∃ pre d post, c.before.1.children = pre ++ d :: post ∧ (∀ p r, c.what = .info (.system (.exit p r)) → d.pid = some p) ∧
      ∃ ops1 ops2 ops3 k sp, ops = ops1 ++ (ops2 ++ ops3) ∧ sp.id = id ∧ Exec ser cf.me (Verif.World.run ser w ops1) (cf.startOf k sp) ops2 x ∧
        ∀ e t, e.pid = some (.loc t) → (st = .oneForAll ∧ e ∈ pre ++ post ∨ st = .restForOne ∧ e ∈ post) →
          Vanished ser t (Verif.World.run ser w ops1) := by
  obtain ⟨pre, d, post, h1, h2, -, ops1, ops2, k, rest, rfl, -, h6, h7⟩ :=
    restart_gone cf ser hg w hw parent n st au mr md cs hs hd ops l σ h c hc y hok hwhat a b id x hlog
  obtain ⟨q1, q2, q3, k', sp, rfl, hid, hx⟩ := performs_first h6 rfl
  refine ⟨pre, d, post, h1, h2, ops1 ++ q1, q2, q3, k', sp, by simp, hid, by rw [run_append]; exact hx, ?_⟩
  intro e t he hin
  obtain ⟨g1, g2⟩ := h7 e t he hin
  rw [run_append]
  exact gone_later (C143_dead_nameless ser _ (reach_run hw ops1) t g2 g1)

end Verif.Sup

namespace Verif.Sup
open Verif.World Verif.Mailbox

/-- What an exit message of a process of this node made the supervisor do. -/
def exitSeen (c : Record SMsg SState) : Option (Nat × List Eff × List Eff × List (Option Pid)) :=
  match c.what with
  | .info (.system (.exit (.loc t) _)) => some (t, c.before.1.log, c.after.1.log, c.before.1.children.map (·.pid))
  | _ => none

theorem exitSeen_inv {c : Record SMsg SState} {t : Nat} {x y : List Eff} {z : List (Option Pid)} (h : exitSeen c = some (t, x, y, z)) :
    (∃ r, c.what = .info (.system (.exit (.loc t) r))) ∧ c.before.1.log = x ∧ c.after.1.log = y ∧ c.before.1.children.map (·.pid) = z := by
  unfold exitSeen at h
  split at h
  · rename_i t' r hw
    simp only [Option.some.injEq, Prod.mk.injEq] at h
    obtain ⟨rfl, h1, h2⟩ := h
    exact ⟨⟨r, hw⟩, h1, h2⟩
  · cases h

def isOk (c : Record SMsg SState) : Bool := match c.result with | .ok _ => true | .error _ => false

/-- The supervisor of `supScript` handles the exit of its child 3: it shuts down 4 and starts both again. -/
theorem supExit : ∃ ops l σ c, Exec supSer supConf.me (Verif.World.run supSer init supStart)
    (supLife supConf (.loc 1) 5 (fresh .oneForAll .never 3 5000 [worker "a" .permanent, worker "b" .permanent])) ops (some l, σ) ∧
    honest? 2 3 supSer init (supStart ++ ops) = true ∧ c ∈ l.calls ∧ (∃ y, c.result = .ok y) ∧ exitSeen c = some (3, supLog.take 2, supLog.take 5, [some (.loc 3), some (.loc 4)]) := by
  have h : (supRun .oneForAll [worker "a" .permanent, worker "b" .permanent] supScript).map
      (fun x => (honest? 2 3 supSer init (supStart ++ x.1), x.2.1.bind fun l => (l.calls.head?).map fun c => (isOk c, exitSeen c))) =
      some (true, some (true, some (3, supLog.take 2, supLog.take 5, [some (.loc 3), some (.loc 4)]))) := by
    set_option synthInstance.maxSize 2000 in decide +kernel
  simp only [Option.map_eq_some_iff, Prod.mk.injEq, Option.bind_eq_some_iff] at h
  obtain ⟨⟨ops, o, σ⟩, h1, h2, l, h3, c, h4, h5, h6⟩ := h
  have h3' : o = some l := h3
  subst h3'
  have hx := sim_exec supSer 2 _ _ _ _ h1
  refine ⟨ops, l, σ, c, hx, h2, List.mem_of_mem_head? h4, ?_, h6⟩
  unfold isOk at h5
  split at h5
  · exact ⟨_, by assumption⟩
  · cases h5

/-- When child "a" is started again, its old process 3 is gone for ever and has no name; -/
example : ∃ w k sp ops2, sp.id = "a" ∧ Exec supSer supConf.me w (supConf.startOf k sp) ops2 (.ok (.loc 5)) ∧ Vanished supSer 3 w := by
  obtain ⟨ops, l, σ, c, hx, hh, hc, -, hs⟩ := supExit
  obtain ⟨⟨r, hw⟩, h1, h2, -⟩ := exitSeen_inv hs
  obtain ⟨ops1, ops2, ops3, k, sp, -, h3, h4, h5⟩ := C143_restart supConf supSer supStart (.loc 1) 5 .oneForAll .never 3 5000 _ ops l σ hx 3 (honest_of hh) c hc r hw
    [.stop (.loc 4) (.duration 5000)] [.start "b" (.ok (.loc 6))] "a" (.ok (.loc 5)) (by rw [h1, h2]; rfl)
  exact ⟨_, k, sp, ops2, h3, h4, h5⟩

/-- and so is the process 4 of the other child. -/
example : ∃ w k sp ops2, sp.id = "a" ∧ Exec supSer supConf.me w (supConf.startOf k sp) ops2 (.ok (.loc 5)) ∧ Vanished supSer 4 w := by
  obtain ⟨ops, l, σ, c, hx, hh, hc, ⟨y, hy⟩, hs⟩ := supExit
  obtain ⟨⟨r, hw⟩, h1, h2, h3⟩ := exitSeen_inv hs
  obtain ⟨pre, d, post, h4, h5, ops1, ops2, ops3, k, sp, -, h6, h7, h8⟩ := C143_siblings supConf supSer supConf_genuine _ ⟨_, rfl⟩ (.loc 1) 5 .oneForAll .never 3 5000
    [worker "a" .permanent, worker "b" .permanent] (by decide) (by decide) ops l σ hx c hc y hy (.inl ⟨_, _, hw⟩)
    [.stop (.loc 4) (.duration 5000)] [.start "b" (.ok (.loc 6))] "a" (.ok (.loc 5)) (by rw [h1, h2]; rfl)
  have hd := h5 _ _ hw
  have he : ∃ e ∈ pre ++ post, e.pid = some (.loc 4) := by
    have : some (Pid.loc 4) ∈ c.before.1.children.map (·.pid) := by rw [h3]; simp
    obtain ⟨e, hm, he⟩ := List.mem_map.1 this
    rw [h4] at hm
    refine ⟨e, ?_, he⟩
    simp only [List.mem_append, List.mem_cons] at hm ⊢
    rcases hm with h | rfl | h
    · exact .inl h
    · rw [hd] at he; cases he
    · exact .inr h
  obtain ⟨e, hm, he⟩ := he
  exact ⟨_, k, sp, ops2, h6, h7, h8 e 4 he (.inl ⟨rfl, hm⟩)⟩

end Verif.Sup

/-! ## In every schedule of the single steps -/
namespace Verif.Race
namespace Names

/-- What holds of the names in every schedule, also of those in which `unregister` and a drop overlap. -/
structure Owned (s : St) : Prop where
  name : ∀ n p, s.names n = some p → (s.procs p = some (some n) ∧ s.clearing p = false) ∨ s.removing p n = true
  set : ∀ n p, s.setting p n = true → (s.procs p = some (some n) ∧ s.clearing p = false) ∨ s.removing p n = true
  gone : ∀ n p, s.removing p n = true → s.procs p = none
  clr : ∀ p, s.clearing p = true → s.procs p ≠ some none

theorem owned_step (s : St) (a : Act) (h : Owned s) : Owned (step s a) := by
  obtain ⟨h1, h2, h3, h4⟩ := h
  cases a with
  | spawn p =>
    simp only [step]; split
    · rename_i hc
      constructor
      · intro n q hq; by_cases hqp : q = p
        · subst hqp; rcases h1 n q hq with h | h
          · simp [hc.1] at h
          · simp [hc.2.2] at h
        · simpa [hqp] using h1 n q hq
      · intro n q hq; by_cases hqp : q = p
        · subst hqp; rcases h2 n q hq with h | h
          · simp [hc.1] at h
          · simp [hc.2.2] at h
        · simpa [hqp] using h2 n q hq
      · intro n q hq; by_cases hqp : q = p
        · subst hqp; simp [hc.2.2] at hq
        · simpa [hqp] using h3 n q hq
      · intro q hq; by_cases hqp : q = p
        · subst hqp; simp [hc.2.1] at hq
        · simpa [hqp] using h4 q hq
    · exact ⟨h1, h2, h3, h4⟩
  | register p n =>
    simp only [step]; split
    · rename_i hc
      have hcl : s.clearing p = false := by
        cases hq : s.clearing p with
        | false => rfl
        | true => exact absurd hc.2.2 (h4 p hq)
      constructor
      · intro m q hq; by_cases hqp : q = p
        · subst hqp; rcases h1 m q hq with h | h
          · simp [hc.2.2] at h
          · have := h3 m q h; simp [hc.2.2] at this
        · simpa [hqp] using h1 m q hq
      · intro m q hq; by_cases hqp : q = p
        · subst hqp
          by_cases hm : m = n
          · subst hm; left; simp [hcl]
          · have hq' : s.setting q m = true := by simpa [hm] using hq
            rcases h2 m q hq' with h | h
            · simp [hc.2.2] at h
            · have := h3 m q h; simp [hc.2.2] at this
        · simpa [hqp] using h2 m q (by simpa [hqp] using hq)
      · intro m q hq; by_cases hqp : q = p
        · subst hqp; have := h3 m q hq; simp [hc.2.2] at this
        · simpa [hqp] using h3 m q hq
      · intro q hq; by_cases hqp : q = p
        · subst hqp; simp
        · simpa [hqp] using h4 q hq
    · exact ⟨h1, h2, h3, h4⟩
  | insert p n =>
    simp only [step]; split
    · rename_i hc
      constructor
      · intro m q hq; by_cases hm : m = n
        · subst hm; simp at hq; subst hq; exact h2 m p hc
        · exact h1 m q (by simpa [hm] using hq)
      · intro m q hq; refine h2 m q ?_
        by_cases hqp : q = p ∧ m = n
        · simp [hqp] at hq
        · simpa [hqp] using hq
      · exact h3
      · exact h4
    · exact ⟨h1, h2, h3, h4⟩
  | unregister n =>
    simp only [step]; split
    · exact ⟨h1, h2, h3, h4⟩
    · rename_i hlk
      split
      · exact ⟨h1, h2, h3, h4⟩
      · rename_i p hp
        constructor
        · intro m q hq; by_cases hm : m = n
          · subst hm; simp at hq
          · have hq' : s.names m = some q := by simpa [hm] using hq
            by_cases hqp : q = p
            · subst hqp
              rcases h1 m q hq' with h | h
              · rcases h1 n q hp with g | g
                · rw [h.1] at g; simp at g; exact absurd g.1 hm
                · have := h3 n q g; simp [h.1] at this
              · exact .inr h
            · simpa [hqp] using h1 m q hq'
        · intro m q hq
          by_cases hqp : q = p
          · subst hqp
            rcases h2 m q hq with h | h
            · rcases h1 n q hp with g | g
              · rw [h.1] at g; simp at g; rw [g.1] at hq; exact absurd ⟨q, hq⟩ hlk
              · have := h3 n q g; simp [h.1] at this
            · exact .inr h
          · simpa [hqp] using h2 m q hq
        · exact h3
        · intro q hq; by_cases hqp : q = p
          · subst hqp
            rcases h1 n q hp with g | g
            · simp [g.1]
            · simp [h3 n q g]
          · exact h4 q (by simpa [hqp] using hq)
    
  | clear p =>
    simp only [step]; split
    · rename_i hc
      constructor
      · intro m q hq; by_cases hqp : q = p
        · subst hqp; rcases h1 m q hq with h | h
          · simp [hc] at h
          · exact .inr h
        · simpa [hqp] using h1 m q hq
      · intro m q hq; by_cases hqp : q = p
        · subst hqp; rcases h2 m q hq with h | h
          · simp [hc] at h
          · exact .inr h
        · simpa [hqp] using h2 m q hq
      · intro m q hq; by_cases hqp : q = p
        · subst hqp; simp [h3 m q hq]
        · simpa [hqp] using h3 m q hq
      · intro q hq; by_cases hqp : q = p
        · subst hqp; simp at hq
        · simpa [hqp] using h4 q (by simpa [hqp] using hq)
    · exact ⟨h1, h2, h3, h4⟩
  | drop p =>
    simp only [step]; split
    · exact ⟨h1, h2, h3, h4⟩
    · rename_i x hx
      constructor
      · intro m q hq; by_cases hqp : q = p
        · subst hqp; rcases h1 m q hq with h | h
          · right; rw [hx] at h; simp at h; simp [h.1]
          · right; simp [h]
        · simpa [hqp] using h1 m q hq
      · intro m q hq; by_cases hqp : q = p
        · subst hqp; rcases h2 m q hq with h | h
          · right; rw [hx] at h; simp at h; simp [h.1]
          · right; simp [h]
        · simpa [hqp] using h2 m q hq
      · intro m q hq; by_cases hqp : q = p
        · subst hqp; simp
        · simpa [hqp] using h3 m q (by simpa [hqp] using hq)
      · intro q hq; by_cases hqp : q = p
        · subst hqp; simp
        · simpa [hqp] using h4 q hq
  | remove p n =>
    simp only [step]; split
    · rename_i hc
      constructor
      · intro m q hq; by_cases hm : m = n
        · subst hm; simp at hq
        · simpa [hm] using h1 m q (by simpa [hm] using hq)
      · intro m q hq
        have hm : m ≠ n := by rintro rfl; exact hc.2 ⟨q, hq⟩
        simpa [hm] using h2 m q hq
      · intro m q hq; refine h3 m q ?_
        by_cases hqp : q = p ∧ m = n
        · simp [hqp] at hq
        · simpa [hqp] using hq
      · exact h4
    · exact ⟨h1, h2, h3, h4⟩

theorem owned (l : List Act) : Owned (runs step start l) := by
  induction l using snoc_ind with
  | nil => constructor <;> simp [runs, start]
  | snoc l a ih => rw [runs_append]; exact owned_step _ a ih

/-- The process has been taken out of the table and its drop has removed its name, if it had one: from here on `Drop for Process` sends the notices of its death. -/
def Announced (s : St) (p : Nat) : Prop := s.procs p = none ∧ ∀ n, s.removing p n = false

/-- **C143** in every schedule of the single steps of `register`, `unregister` and the drop of processes, also where they overlap: before anybody is told of the death of a process no name resolves to it
any more, and none ever will, not even one whose registration was under way when it died. -/
theorem C143_concurrent (l l' : List Act) (p : Nat) (h : Announced (runs step start l) p) (hl : .spawn p ∉ l') (n : String) :
    (runs step start (l ++ l')).names n ≠ some p := by
  have key : ∀ l', .spawn p ∉ l' → Announced (runs step start (l ++ l')) p := by
    intro l' hl
    induction l' using snoc_ind with
    | nil => simpa using h
    | snoc l' a ih =>
      have ⟨i1, i2⟩ := ih (by simp_all)
      have ha : a ≠ .spawn p := by rintro rfl; simp at hl
      rw [← List.append_assoc, runs_append step start (l ++ l') [a]]
      have ho := owned (l ++ l')
      generalize runs step start (l ++ l') = s at *
      show Announced (step s a) p
      cases a with
      | spawn q =>
        have hq : p ≠ q := by rintro rfl; exact ha rfl
        simp only [step]; split
        · exact ⟨by simp [hq, i1], i2⟩
        · exact ⟨i1, i2⟩
      | register q n =>
        simp only [step]; split
        · rename_i hc
          have hq : p ≠ q := by rintro rfl; simp [i1] at hc
          exact ⟨by simp [hq, i1], i2⟩
        · exact ⟨i1, i2⟩
      | insert q n => simp only [step]; split <;> exact ⟨i1, i2⟩
      | unregister n =>
        simp only [step]; split
        · exact ⟨i1, i2⟩
        · split <;> exact ⟨i1, i2⟩
      | clear q =>
        simp only [step]; split
        · refine ⟨?_, i2⟩
          by_cases hq : p = q
          · subst hq; simp [i1]
          · simp [hq, i1]
        · exact ⟨i1, i2⟩
      | drop q =>
        simp only [step]; split
        · exact ⟨i1, i2⟩
        · rename_i x hx
          have hq : p ≠ q := by rintro rfl; simp [i1] at hx
          exact ⟨by simp [hq, i1], by intro n; simp [hq, i2]⟩
      | remove q n =>
        simp only [step]; split
        · refine ⟨i1, ?_⟩
          intro m
          by_cases hq : p = q ∧ m = n <;> simp [i2]
        · exact ⟨i1, i2⟩
  obtain ⟨h1, h2⟩ := key l' hl
  intro hn
  rcases (owned (l ++ l')).name n p hn with h | h
  · simp [h1] at h
  · simp [h2] at h

/-- Process 0 dies while its registration is under way: its drop removes the name that is inserted afterwards. -/
example : (runs step start [.spawn 0, .register 0 "a", .drop 0, .insert 0 "a"]).names "a" = some 0 ∧
    Announced (runs step start [.spawn 0, .register 0 "a", .drop 0, .insert 0 "a", .remove 0 "a"]) 0 ∧
    (runs step start [.spawn 0, .register 0 "a", .drop 0, .insert 0 "a", .remove 0 "a"]).names "a" = none := by
  refine ⟨by simp [runs, step, start, locked], ⟨by simp [runs, step, start, locked], ?_⟩, by simp [runs, step, start, locked]⟩
  intro n
  by_cases hn : n = "a"
  · simp [runs, step, start, locked, hn]
  · simp [runs, step, start, locked, hn, Ne.symm hn]

end Names
end Verif.Race
