import Verif.AliasProps
import Verif.IdentProps
import Verif.NodeDownProps
import Verif.TwoNodeLemmas
import Verif.NodeStopProps
/-!
# Further theorems about processes and nodes (C29, C33, C37, C40, C47, C48, C94, C95, C96)
-/
namespace Verif.World
open Verif.Mailbox
variable {B V : Type}

/-! ## C29: a process is not linked to itself -/

/-- C29. `link` with the own pid does nothing. -/
theorem C29_link_self (ser : V → B) (w : World B V) (a : Nat) : (step ser w (.link a (.loc a))).1 = w := by
  simp only [step, Op.caller, Op.exec, World.link]
  split <;> rfl

/-! ## C40: which reason a process that ends by itself reports -/

/-- The ways in which a process ends by itself, and the reason that is reported for it when it had reason `r` recorded before (because of
a signal that it has not yet noticed): returning keeps it (normal, if there was none), a panic overwrites it. -/
inductive Finishes (i : Nat) : Op B V → Option ExitReason → ExitReason → Prop
  | returns (r) : Finishes i (.finish i) r (r.getD .normal)
  | panics (r msg) : Finishes i (.panic i msg) r (.custom msg)

/-- C40. After any history process `i` ends by itself; then anything happens except another terminating signal to it; then it is dropped.
All the exit signals and Downs of its death have the reason of its end, and a process that returned without having been signalled
reports `normal`, one that panicked the panic's message. -/
theorem C40_own_reason (ser : V → B) (os os' : List (Op B V)) (i : Nat) (o : Op B V) (p : Proc B V) (e : ExitReason) :
    let w0 := run ser init os
    let w1 := run ser (step ser w0 o).1 os'
    let w2 := (step ser w1 (.drop i)).1
    w0.procs i = some p → running w0 i = true → Finishes i o p.reason e → (∀ o' ∈ os', o'.caller ≠ some i ∧ ¬ o'.maySignal i) →
    w2.procs i = none ∧
    ∃ D, w2.sent = w1.sent ++ D ∧ ∀ x ∈ D, x.2 = .system (.exit (.loc i) e) ∨ ∃ d ref, x.2 = .down d ref e := by
  intro w0 w1 w2 hp hrun hf hos
  have hs : ∃ q, (step ser w0 o).1.procs i = some q ∧ q.reason.getD .normal = e ∧ q.ended = true := by
    cases hf with
    | returns r =>
      exact ⟨{ p with ended := true }, by simp only [step, Op.caller, hrun, if_true, Op.exec, modProc, upd_at, hp]; rfl, rfl, rfl⟩
    | panics r msg =>
      exact ⟨{ p with reason := some (.custom msg), ended := true },
        by simp only [step, Op.caller, hrun, if_true, Op.exec, crash, modProc, upd_at, hp]; rfl, rfl, rfl⟩
  obtain ⟨q, hq, hqr, hqe⟩ := hs
  have hb : Bounded (step ser w0 o).1 := by
    have := run_bounded ser (os ++ [o]); simpa [run, w0, List.foldl_append] using this
  obtain ⟨q', k1, k2, k3, k4⟩ := C40_reason_kept_partial ser (step ser w0 o).1 os' i hb q hq hos
  have hw1 : w1 = run ser init (os ++ o :: os') := by simp [w1, w0, run, List.foldl_append]
  have key := C40_one_reason_partial ser (os ++ o :: os') i q'
  simp only [← hw1] at key
  obtain ⟨D, h1, h2⟩ := key k1 (.inl (by rw [k4, hqe]))
  refine ⟨?_, D, h1, ?_⟩
  · have := C37_tables_cleaned_partial ser (os ++ o :: os') i q'
    simp only [← hw1] at this
    exact (this k1 (.inl (by rw [k4, hqe]))).1
  · rw [k2, hqr] at h2; exact h2

example : Finishes (B := Nat) (V := Nat) 2 (.panic 2 "bug") none (.custom "bug") ∧ Finishes (B := Nat) (V := Nat) 2 (.finish 2) none .normal ∧
    (run id init ([.boot, .boot, .monitor 1 (.pid (.loc 2)), .panic 2 "bug", .drop 2] : List (Op Nat Nat))).sent =
      [(1, .down (.pid (.loc 2)) (.loc 1) (.custom "bug"))] := ⟨.panics _ _, .returns _, rfl⟩

/-! ## C33, C94: `demonitor` leaves nothing -/

/-- All the entries of `a` for the reference are for the process `t`. -/
def Only (n a t : Nat) (w : World B V) : Prop :=
  ∀ b, pmap (·.box) w a = some b → BoxOk (fun l _ => ∀ x ∈ l, x.1 = Ref.loc n → x.2 = PMon.forProcess (some (.loc t)))
    (fun it => ∀ p, it ≠ .update (.loc n) p) b

theorem keeps_only (r : Ref) (m : PMon) :
    KeepsItem (B := B) (V := V) (fun l _ => ∀ x ∈ l, x.1 = r → x.2 = m) (fun it => ∀ p, it ≠ .update r p) := by
  intro T τ mons als it h1 h2
  have hdrop : ∀ r', ∀ x ∈ dropMon mons r', x.1 = r → x.2 = m := fun r' x hx => h1 x (List.mem_filter.1 hx).1
  cases it <;> simp only [processItem]
  · split <;> exact ⟨h1, by simp⟩
  · split <;> exact ⟨h1, by simp⟩
  · exact ⟨h1, by simp⟩
  · split
    · exact ⟨hdrop _, by simp⟩
    · exact ⟨h1, by simp⟩
  · split
    · exact ⟨hdrop _, by simp⟩
    · exact ⟨h1, by simp⟩
  · rename_i r' p
    have hr : r ≠ r' := by rintro rfl; exact h2 p rfl
    refine ⟨?_, by simpa using fun h => absurd h.symm hr⟩
    intro x hx hxr
    obtain ⟨y, hy, rfl⟩ := List.mem_map.1 hx
    split at hxr
    · rename_i h; exact absurd (hxr.symm.trans h) hr
    · rename_i h; rw [if_neg h]; exact h1 y hy hxr
  · exact ⟨h1, by simp⟩

theorem only_act (n a t : Nat) (w : World B V) (o : Op B V) (ho2 : ¬ Forgets n a o) (w' : World B V) (x : Atom B V)
    (ha : AtomOf w o x) (hlt : n < w'.nextRef) (h : Only n a t w') : Only n a t (act w' x) := by
  intro b hbx
  refine boxOk_act (keeps_only (.loc n) _) w' x a h (fun _ => by simp) ?_ (fun _ _ => by simp) (fun _ _ _ h _ => h) ?_ ?_ ?_ b hbx
  · rintro it rfl - p rfl
    obtain ⟨rp, N, f, rfl⟩ := ha
    exact ho2 (.inr ⟨rp, N, f, rfl⟩)
  · rintro r m als rfl hm x hx
    exact hm x (List.mem_filter.1 hx).1
  · intro b m hc hm x hx hxn
    simp only [setMon] at hx
    rcases List.mem_append.1 hx with hx | hx
    · exact hm x (List.mem_filter.1 hx).1 hxn
    · simp at hx; subst hx
      cases hxn; omega
  · intros; simp

theorem only_mkMon (w : World B V) (a t : Nat) (d : Dest) (al : Option Bool)
    (hupd : ∀ b, pmap (·.box) w a = some b → ∀ it, it ∈ b.items ∨ it ∈ b.chan → ∀ p, it ≠ .update (.loc w.nextRef) p) :
    Only w.nextRef a t (act w (.mkMon a t d al)) := by
  intro b hb
  rw [box_act] at hb
  simp only [if_true] at hb
  cases hw : pmap (fun x => x.box) w a with
  | none => rw [hw] at hb; simp at hb
  | some b0 =>
    rw [hw] at hb; simp at hb; subst hb
    have := hupd b0 hw
    refine ⟨?_, fun it h => this it (.inl h), fun it h => this it (.inr h)⟩
    intro x hx hxn
    simp only [setMon] at hx
    rcases List.mem_append.1 hx with hx | hx
    · have := (List.mem_filter.1 hx).2
      simp [hxn] at this
    · simp at hx; subst hx; rfl

/-- C33, C94. After any history, process `a` monitors a process `t` of this node (in any of the ways, perhaps with an alias), and keeps the
monitor; then it calls `demonitor`. Nothing of the monitor remains: no table has an entry for the reference, so that the death of `t` makes no Down for
it; and the alias of the monitor, if any, is inactive. (`Forgets`: the reference is not abused as a node monitor and no other
node claims it.) -/
theorem C33_entry_gone (ser : V → B) (os os' : List (Op B V)) (a t : Nat) (hat : a ≠ t) (d : Dest) (o : Op B V) :
    let w0 := run ser init os
    let w1 := run ser (step ser w0 o).1 os'
    Monitors w0 a t d o → running w0 a = true →
    (∀ q, w0.procs a = some q → ∀ it, it ∈ q.box.items ∨ it ∈ q.box.chan → ∀ r p, it ≠ .update r p) →
    ∃ n, refsOf [(step ser w0 o).2] = [.loc n] ∧
      ((∀ o' ∈ os', ¬ Ends n a t o' ∧ ¬ Forgets n a o') → running w1 a = true →
        let w2 := (step ser w1 (.demonitor a (.loc n))).1
        (∀ i, ∀ x ∈ w2.mons i, x.1 ≠ .loc n) ∧ w2.aliases n = none ∧ w2.sent = w1.sent ∧ running w2 a = true) := by
  intro w0 w1 ho hrun hupd
  have hupd' : ∀ b, pmap (·.box) w0 a = some b → ∀ it, it ∈ b.items ∨ it ∈ b.chan → ∀ p, it ≠ .update (.loc w0.nextRef) p := by
    intro b hb it hit p
    unfold pmap at hb
    cases hq : w0.procs a with
    | none => rw [hq] at hb; simp at hb
    | some q => rw [hq] at hb; simp at hb; subst hb; exact hupd q hq it hit _ p
  obtain ⟨h1, h2, -, -⟩ := monitors_step ser w0 a t hat d o (run_fresh ser os) ho hrun
  have h3 : Entry w0.nextRef a t (step ser w0 o).1 := monitors_entry ser w0 a t hat d o (run_fresh ser os) ho hrun hupd'
  have h4 : Only w0.nextRef a t (step ser w0 o).1 := by
    obtain ⟨al, w', k1, k2, k3, -, -, -, k7⟩ := monitors_form ser w0 a t hat d o (run_fresh ser os) ho hrun
    rw [← k3] at k2
    have := only_mkMon w' a t d al (by rw [k3]; exact fun b hb => hupd' b (k7 b hb))
    rw [k1, ← k3]; exact this
  refine ⟨w0.nextRef, h1, ?_⟩
  intro hos hr1 w2
  have hb1 : Bounded (step ser w0 o).1 := by
    have := run_bounded ser (os ++ [o]); simpa [run, w0, List.foldl_append] using this
  obtain ⟨hw1, hw2, hw3, -⟩ :=
    run_inv' ser (fun w => Watch w0.nextRef a t d w ∧ Entry w0.nextRef a t w ∧ Only w0.nextRef a t w ∧ Bounded w)
      (fun o => ¬ Ends w0.nextRef a t o ∧ ¬ Forgets w0.nextRef a o)
      (fun w o ho hw w' x _ hx h => ⟨watch_act _ a t d w o hw.1 ho.1 w' x hx h.1,
        entry_act _ a t d w o hw.1 ho.1 ho.2 w' x hx h.1.lt ⟨h.2.2.2, h.1.ex⟩ h.2.1,
        only_act _ a t w o ho.2 w' x hx h.1.lt h.2.2.1, bounded_act _ _ h.2.2.2⟩) os' hos _ ⟨h2, h3, h4, hb1⟩
  cases hp : w1.procs a with
  | none => simp [running, hp] at hr1
  | some p =>
    have hbx : pmap (·.box) w1 a = some p.box := by simp [pmap, hp]
    have e1 := (hw2 p.box hbx).1
    have e2 := (hw3 p.box hbx).1
    have hg : getMon p.box (.loc w0.nextRef) = some (.forProcess (some (.loc t))) := by
      unfold getMon
      cases hf : p.box.mons.find? fun x => x.1 == Ref.loc w0.nextRef with
      | none =>
        have := List.find?_eq_none.1 hf _ e1
        simp at this
      | some y =>
        have hy1 := List.mem_of_find?_eq_some hf
        have hy2 := List.find?_some hf
        simp at hy2
        simp [e2 y hy1 hy2]
    have hw : w2 = delAlias (delMon (modBox w1 a fun b => { b with mons := dropMon b.mons (.loc w0.nextRef) }) t (.loc w0.nextRef)) (.loc w0.nextRef) := by
      simp only [w2, step, Op.caller, hr1, if_true, Op.exec, World.demonitor, hp, hg, monitorDestroy]
    rw [hw]
    refine ⟨?_, by simp [delAlias, Ref.id, upd_at], by simp, ?_⟩
    · intro i x hx
      simp only [delAlias_mons_eq, delMon_mons_eq, modBox_mons_eq, upd_at] at hx
      split at hx
      · have := (List.mem_filter.1 hx).2
        simpa using this
      · rename_i hi; exact hw1.others i hi x hx
    · simp only [running, delAlias_procs_eq, delMon_procs_eq, modBox, modProc, upd_at, if_true, hp, Option.map_some] at hr1 ⊢
      exact hr1

example : Monitors (run id init ([.boot, .boot] : List (Op Nat Nat))) 1 2 (.pid (.loc 2)) (.monitorAlias 1 (.pid (.loc 2)) false) :=
  .aliasPid false (by decide)

/-! ## C47: links made by the other node -/

/-- C47, links, from the other side. A process `i` of node `N` links to our process `t` (its request arrives after any history while `t` exists); then any
history in which the link is not removed and neither `t` dies nor the node reports the death nor the connection is lost. When the
connection is lost then, `t` gets exactly one exit signal from that process with the reason noconnection. -/
theorem C47_incoming_link_signal (ser : V → B) (os os' : List (Op B V)) (rp t i : Nat) (N : Node) :
    let w0 := run ser init os
    let o : Op B V := .frame rp N (.link true t i)
    let w1 := run ser (step ser w0 o).1 os'
    running w0 rp = true → exists? w0 t = true →
    ∃ k, (Pid.rem i k ∈ (step ser w0 o).1.links t) ∧
    ((∀ o' ∈ os', ¬ LEnds t i k N o') →
    ∀ p q, ConnLost w1 N p → w1.procs t = some q →
      let w2 := (step ser w1 (.supDown N p)).1
      (q.trap = true → exitsFrom (.rem i k) t w2.sent =
        exitsFrom (.rem i k) t w1.sent ++ [(t, .system (.exit (.rem i k) noconn))]) ∧
      (q.trap = false → exitsFrom (.rem i k) t w2.sent = exitsFrom (.rem i k) t w1.sent ∧
        ∃ q', w2.procs t = some q' ∧ q'.reason = some noconn ∧ q'.aborted = true)) := by
  intro w0 o w1 hrp ht
  have hstep : (step ser w0 o).1 = recvFrame w0 N rp (.link true t i) := by simp [o, step, Op.caller, Op.exec, hrp]
  have hex : exists? (nodeRegister w0 N false).1 t = true := by
    have hk : (nodeRegister w0 N false).1.procs = w0.procs := by
      unfold nodeRegister
      cases N with
      | loc => rfl
      | rem nm ad => dsimp only; split <;> simp
    simpa [exists?, hk] using ht
  have hrec : recvFrame w0 N rp (.link true t i) =
      addNodeLink (addLink (nodeRegister w0 N false).1 t (.rem i (nodeRegister w0 N false).2)) N (.rem i (nodeRegister w0 N false).2) t := by
    simp [recvFrame, hex]
  refine ⟨(nodeRegister w0 N false).2, ?_, ?_⟩
  · rw [hstep, hrec]
    simp only [addNodeLink, addLink, upd_at, if_true]
    split
    · assumption
    · simp
  intro hos p q hc hq w2
  generalize hk : (nodeRegister w0 N false).2 = k at *
  have h0 : (.rem i k, t) ∈ (step ser w0 o).1.nodeLinks N := by
    rw [hstep, hrec]
    simp only [addNodeLink, upd_at, if_true]
    split
    · assumption
    · simp
  have hl : (.rem i k, t) ∈ w1.nodeLinks N :=
    run_inv' ser (fun w => (Pid.rem i k, t) ∈ w.nodeLinks N) (fun o => ¬ LEnds t i k N o)
      (fun w o ho _ w' x _ hx h => linked_act ho hx h) os' hos _ h0
  have hnd : (w1.nodeLinks N).Nodup := by
    have : w1 = run ser init (os ++ o :: os') := by simp [w1, w0, run, List.foldl_append]
    rw [this]; exact run_nodeLinksNodup ser _ N
  obtain ⟨h1, -, -, h4, -⟩ := supDown_eff w1 N p hc
  have e2 : w2 = supDown w1 N p := rfl
  have hs : exitsFrom (.rem i k) t w2.sent = exitsFrom (.rem i k) t w1.sent ++ signalMsg w1 (.rem i k) noconn t := by
    rw [e2, h1, exitsFrom_append, exitsFrom_append, exitsFrom_signals w1 _ _ _ _ hnd hl, exitsFrom_loss, List.append_nil]
  refine ⟨?_, ?_⟩
  · intro ht; rw [hs]; simp [signalMsg, hq, ht]
  · intro ht
    refine ⟨by rw [hs]; simp [signalMsg, hq, ht], ?_⟩
    have h5 := h4 t
    rw [hq, ← e2] at h5
    obtain ⟨g1, g2⟩ := cutOff_dies (w1.nodeLinks N) t q ht ⟨_, hl⟩
    unfold pmap at h5
    cases hw2 : w2.procs t with
    | none => rw [hw2] at h5; simp at h5
    | some q' =>
      rw [hw2] at h5
      simp only [Option.map_some, Option.some.injEq, Prod.mk.injEq] at h5
      exact ⟨q', rfl, h5.1.trans g1, h5.2.1.trans g2⟩

example : let w := run id init (lossSample.take 4 ++ [.boot, .frame 1 (.rem "b" (addr 2)) (.link true 4 7)])
    ConnLost w (.rem "b" (addr 2)) 3 ∧ Pid.rem 7 1 ∈ w.links 4 ∧
    (pmap (·.reason) (step id w (.supDown (.rem "b" (addr 2)) 3)).1 4) = some (some noconn) :=
  ⟨⟨1, _, rfl, rfl, .inr rfl⟩, by decide, by decide⟩

/-! ## C48: disconnecting and forgetting really end the connection -/

/-- The supervisor process of the connection with node `N`. -/
def connSup (w : World B V) (N : Node) : Option Nat := (w.nodeMap N).bind fun id => (w.nodeRegs id).bind NReg.sup

/-- C48. `Node::disconnect` and `Node::forget` terminate the process that runs the connection with the node (if any, and as long as it
lives), and no other process is touched; afterwards the node has no connection, and nothing is sent to anybody. -/
theorem C48_connection_killed (ser : V → B) (w : World B V) (me : Nat) (N : Node) (hN : N ≠ .loc) (hrun : running w me = true)
    (o : Op B V) (ho : o = .disconnect me N ∨ o = .forget me N) :
    let w' := (step ser w o).1
    (∀ s p, connSup w N = some s → w.procs s = some p → ∃ p', w'.procs s = some p' ∧ p'.reason = some .kill ∧ p'.aborted = true) ∧
    (∀ j, connSup w N ≠ some j → w'.procs j = w.procs j) ∧ connSup w' N = none ∧ w'.sent = w.sent := by
  intro w'
  have hw : w' = nodeDisconnect w me N ∨ w' = nodeForget w me N := by
    rcases ho with rfl | rfl
    · left; simp [w', step, Op.caller, Op.exec, hrun, hN]
    · right; simp [w', step, Op.caller, Op.exec, hrun, hN]
  clear_value w'
  cases hm : w.nodeMap N with
  | none =>
    have : w' = w := by rcases hw with rfl | rfl <;> simp [nodeDisconnect, nodeForget, hm]
    subst this
    simp [connSup, hm]
  | some id =>
    cases hg : w.nodeRegs id with
    | none =>
      have h1 : w'.procs = w.procs ∧ w'.sent = w.sent ∧ connSup w' N = none := by
        rcases hw with rfl | rfl <;> simp [nodeDisconnect, nodeForget, hm, hg, connSup, upd_at]
      refine ⟨fun s p h => by simp [connSup, hm, hg] at h, fun j _ => by rw [h1.1], h1.2.2, h1.2.1⟩
    | some g =>
      have hs : connSup w N = g.sup := by simp [connSup, hm, hg]
      have hkill : ∀ s (v : World B V), v.procs = w.procs → ∀ j, (processExit v s (.loc me) .kill).procs j =
          if j = s then (w.procs s).map (fun p => { p with reason := some .kill, aborted := true }) else w.procs j := by
        intro s v hv j
        unfold processExit
        rw [hv]
        split
        · rename_i h; split
          · subst_vars; simp [h, hv]
          · rw [hv]
        · rename_i h; simp [terminate, modProc, upd_at, hv]
      have hopt : ∀ (v : World B V), v.procs = w.procs → ∀ j, (killOpt v me g.sup).procs j =
          if g.sup = some j then (w.procs j).map (fun p => { p with reason := some .kill, aborted := true }) else w.procs j := by
        intro v hv j
        cases hsup : g.sup with
        | none => simp [killOpt, hv]
        | some s =>
          simp only [killOpt, hkill s v hv j, Option.some.injEq]
          by_cases h : s = j
          · subst h; simp
          · simp [h, Ne.symm h]
      have hsent : ∀ (v : World B V), (killOpt v me g.sup).sent = v.sent := by
        intro v
        cases hsup : g.sup with
        | none => rfl
        | some s => simp only [killOpt, processExit]; split <;> simp [terminate, modProc]
      have key : (∀ j, w'.procs j = if g.sup = some j then (w.procs j).map (fun p => { p with reason := some .kill, aborted := true }) else w.procs j) ∧
          connSup w' N = none ∧ w'.sent = w.sent := by
        rcases hw with rfl | rfl
        · refine ⟨fun j => ?_, ?_, ?_⟩
          · simp only [nodeDisconnect, hm, hg]; exact hopt { w with pending := upd w.pending N [] } rfl j
          · simp [connSup, nodeDisconnect, hm, hg, killOpt_nodeMap, upd_at]
          · simp [nodeDisconnect, hm, hg, hsent]
        · refine ⟨fun j => ?_, ?_, ?_⟩
          · simp only [nodeForget, hm, hg]
            exact hopt { w with nodeRegs := upd w.nodeRegs id none, nodeMap := upd w.nodeMap N none, pending := upd w.pending N [] } rfl j
          · simp [connSup, nodeForget, hm, hg, killOpt_nodeMap, upd_at]
          · simp [nodeForget, hm, hg, hsent]
      rw [hs]
      refine ⟨?_, ?_, key.2.1, key.2.2⟩
      · intro s p h1 h2
        rw [key.1, if_pos h1, h2]
        exact ⟨_, rfl, rfl, rfl⟩
      · intro j hj; rw [key.1, if_neg hj]

example : connSup (run id init lossSample) (.rem "b" (addr 2)) = some 3 ∧
    pmap (·.reason) (step id (run id init lossSample) (.disconnect 1 (.rem "b" (addr 2)))).1 3 = some (some .kill) := by decide

/-! ## C37: the node monitors of a dead process -/

/-- Process `a` holds its monitor on the node `N`, and no message will make it forget. -/
def NEntry (n a : Nat) (N : Node) (w : World B V) : Prop :=
  ∀ b, pmap (·.box) w a = some b → BoxOk (fun l _ => (Ref.loc n, PMon.forNode N) ∈ l)
    (fun it => reports (.loc n) it = false ∧ ∀ p, it ≠ .update (.loc n) p) b

theorem nentry_act {n a : Nat} {N : Node} {m : NMon} {w : World B V} {o : Op B V} (hw : RWatch n a N m w) (ho : ¬ REnds n a N o)
    (ho2 : ∀ rp M f, o ≠ .frame rp M (.monitorUpdate a f n)) {w' : World B V} {x : Atom B V} (ha : AtomOf w o x) (hlt : n < w'.nextRef)
    (hal : a < w'.nextPid) (h : NEntry n a N w') : NEntry n a N (act w' x) := by
  intro b hbx
  refine boxOk_act (keeps_entry (.loc n) _) w' x a h (fun _ => by omega) ?_ (fun _ _ => ⟨rfl, by simp⟩) (fun _ _ _ h _ => h) ?_ ?_ ?_ b hbx
  · rintro it rfl -
    refine ⟨rwatch_noput hw ho a it ha, ?_⟩
    rintro p rfl
    obtain ⟨rp, N, f, rfl⟩ := ha
    exact ho2 rp N f rfl
  · rintro r m als rfl hm
    have : Ref.loc n ≠ r := by
      rintro rfl
      rcases ha with rfl | rfl
      · exact ho (.inr (.inl rfl))
      · exact ho (.inr (.inr (.inl rfl)))
    exact List.mem_filter.2 ⟨hm, by simp [this]⟩
  · intro b m hc hm
    have : n ≠ w'.nextRef := by omega
    simp only [setMon]
    exact List.mem_append_left _ (List.mem_filter.2 ⟨hm, by simp [this]⟩)
  · rintro d m e al rfl
    have : w'.nextRef ≠ n := by omega
    simpa [reports] using this

theorem nentry_acts {n a : Nat} {N : Node} {m : NMon} {w w' : World B V} {o : Op B V} (hw : RWatch n a N m w) (ho : ¬ REnds n a N o)
    (ho2 : ∀ rp M f, o ≠ .frame rp M (.monitorUpdate a f n)) (ha : Acts (AtomOf w o) w w') (h : NEntry n a N w) : NEntry n a N w' :=
  (ha.inv (I := fun w => (n < w.nextRef ∧ a < w.nextPid) ∧ NEntry n a N w) ⟨⟨hw.lt, hw.low⟩, h⟩ fun w1 x hx h => by
    have hm := acts_mono_counters (Acts.one (Q := fun _ => True) (w := w1) (a := x) trivial)
    exact ⟨⟨Nat.lt_of_lt_of_le h.1.1 hm.2, Nat.lt_of_lt_of_le h.1.2 hm.1⟩, nentry_act hw ho ho2 hx h.1.1 h.1.2 h.2⟩).2

theorem monitorDestroyAll_nodeMons (l : List (Ref × PMon)) (N : Node) : ∀ (w : World B V) x, x ∈ (monitorDestroyAll w l).nodeMons N →
    x ∈ w.nodeMons N := by
  induction l with
  | nil => intro w x h; exact h
  | cons y l ih =>
    intro w x h
    obtain ⟨r, m⟩ := y
    have hdel : ∀ w1 : World B V, (if r.isLocal then delAlias w1 r else w1).nodeMons = w1.nodeMons := by
      intro w1; split <;> simp
    cases m with
    | forNode M =>
      have := ih _ _ h
      rw [hdel] at this
      simp only [delNodeMon, upd_at] at this
      split at this
      · subst_vars; exact (List.mem_filter.1 this).1
      · exact this
    | forProcess op =>
      cases op with
      | none => exact ih _ _ h
      | some pid =>
        have := ih _ _ h
        rw [hdel] at this
        cases pid with
        | loc i => simpa using this
        | rem i k => simpa using this

theorem monitorDestroyAll_node (l : List (Ref × PMon)) (n : Nat) (N : Node) (h : (Ref.loc n, PMon.forNode N) ∈ l) : ∀ w : World B V,
    ∀ x ∈ (monitorDestroyAll w l).nodeMons N, x.1 ≠ .loc n := by
  induction l with
  | nil => simp at h
  | cons y l ih =>
    intro w x hx
    by_cases hl : (Ref.loc n, PMon.forNode N) ∈ l
    · obtain ⟨r, m⟩ := y
      cases m with
      | forNode M => exact ih hl _ x hx
      | forProcess op => cases op <;> exact ih hl _ x hx
    · have hy : y = (Ref.loc n, PMon.forNode N) := by
        rcases List.mem_cons.1 h with h | h
        · exact h.symm
        · exact absurd h hl
      subst hy
      simp only [monitorDestroyAll, Ref.isLocal, if_true] at hx
      have := monitorDestroyAll_nodeMons l N _ x hx
      simp [delNodeMon, upd_at] at this
      exact this.2

/-- C37, node monitors. After any history process `a` calls `Node::monitor`; it keeps the monitor (and no other node abuses the reference) until it dies.
Then no node has an entry for the reference. (It does not hold if the process is terminated by having called `Process::demonitor` on the reference,
see `C37_node_monitor_left_violated`.) -/
theorem C37_node_monitors_removed_partial (ser : V → B) (os os' : List (Op B V)) (a : Nat) (N : Node) (hN : N ≠ .loc) (p : Proc B V) :
    let w0 := run ser init os
    let s := step ser w0 (.nodeMonitor a N)
    let w1 := run ser s.1 os'
    let w2 := (step ser w1 (.drop a)).1
    running w0 a = true →
    (∀ q, w0.procs a = some q → ∀ it, it ∈ q.box.items ∨ it ∈ q.box.chan → ∀ r p, it ≠ .update r p) →
    ∃ n, refsOf [s.2] = [.loc n] ∧ (∃ m, (.loc n, m) ∈ s.1.nodeMons N) ∧
      ((∀ o ∈ os', ¬ REnds n a N o ∧ ∀ rp M f, o ≠ .frame rp M (.monitorUpdate a f n)) →
        w1.procs a = some p → (p.ended = true ∨ p.aborted = true) →
        ∀ M, ∀ x ∈ w2.nodeMons M, x.1 ≠ .loc n) := by
  intro w0 s w1 w2 hrun hupd
  obtain ⟨h1, h2⟩ := nodeMonitor_step ser os a N hN hrun
  have hpos : (Ref.loc w0.nextRef, NMon.node a) ∈ s.1.nodeMons N := by
    have : (Ref.loc w0.nextRef, NMon.node a) ∈ (s.1.nodeMons N).filter (fun x => x.1 = .loc w0.nextRef) := by rw [h2.mon]; simp [w0]
    exact (List.mem_filter.1 this).1
  refine ⟨w0.nextRef, h1, ⟨_, hpos⟩, ?_⟩
  intro hos hp hd
  have hex : exists? w0 a = true := by
    unfold running at hrun; unfold exists?; cases h : w0.procs a <;> simp_all
  have h3 : NEntry w0.nextRef a N s.1 := by
    cases hNN : N with
    | loc => exact absurd hNN hN
    | rem x y =>
      have hs1 : s.1 = (nodeRegister (act w0 (.mkMonRem a N (.forNode N) (.node a) none)) N true).1 := by
        subst hNN
        simp only [s, step, Op.caller, hrun, if_true, Op.exec, World.nodeMonitor]; rfl
      have hw : RWatch w0.nextRef a N (.node a) (act w0 (.mkMonRem a N (.forNode N) (.node a) none)) :=
        rwatch_mkMonRem w0 a N (.forNode N) (.node a) none (run_fresh ser os w0.nextRef (Nat.le_refl _))
          (run_noReps ser os _ (Nat.le_refl _)) (run_bounded ser os) hex
      have hE : NEntry w0.nextRef a N (act w0 (.mkMonRem a N (.forNode N) (.node a) none)) := by
        intro b hb
        rw [box_act] at hb
        simp only [if_true] at hb
        cases hw : pmap (fun x => x.box) w0 a with
        | none => rw [hw] at hb; simp at hb
        | some b0 =>
          rw [hw] at hb; simp at hb; subst hb
          obtain ⟨_, h2, h3⟩ := (run_fresh ser os w0.nextRef (Nat.le_refl _)).box a b0 hw
          have hu : ∀ it, it ∈ b0.items ∨ it ∈ b0.chan → ∀ p, it ≠ .update (.loc w0.nextRef) p := by
            unfold pmap at hw
            cases hq : w0.procs a with
            | none => rw [hq] at hw; simp at hw
            | some q => rw [hq] at hw; simp at hw; subst hw; exact fun it hit p => hupd q hq it hit _ p
          exact ⟨by simp [setMon], fun it h => ⟨h2 it h, hu it (.inl h)⟩, fun it h => ⟨h3 it h, hu it (.inr h)⟩⟩
      rw [← hNN, hs1]
      refine nentry_acts (o := .connect a N) hw ?_ (by simp) (acts_nodeRegister (nodesOk_op _ _) _ N true) hE
      rintro (h | h | h | ⟨p, h⟩ | ⟨rp', refs', e', h, hn⟩) <;> cases h
  have hI : RWatch w0.nextRef a N (.node a) w1 ∧ NEntry w0.nextRef a N w1 := by
    have : ∀ (os' : List (Op B V)) (w : World B V), (∀ o ∈ os', ¬ REnds w0.nextRef a N o ∧ ∀ rp M f, o ≠ .frame rp M (.monitorUpdate a f w0.nextRef)) →
        RWatch w0.nextRef a N (.node a) w ∧ NEntry w0.nextRef a N w → RWatch w0.nextRef a N (.node a) (run ser w os') ∧ NEntry w0.nextRef a N (run ser w os') := by
      intro os'
      induction os' with
      | nil => intro w _ h; exact h
      | cons o os' ih =>
        intro w ho h
        have hh := ho o List.mem_cons_self
        exact ih _ (fun o h => ho o (.tail _ h)) ⟨rwatch_acts h.1 hh.1 (step_acts ser w o), nentry_acts h.1 hh.1 hh.2 (step_acts ser w o) h.2⟩
    exact this os' s.1 hos ⟨h2, h3⟩
  have hw2 : w2 = dropProc w1 a := step_drop ser w1 a p hp hd
  intro M x hx
  by_cases hM : M = N
  · subst hM
    rw [hw2, dropProc_eq w1 a p hp, aliasDestroyAll_eq] at hx
    exact monitorDestroyAll_node p.box.mons _ M (hI.2 p.box (by simp [pmap, hp])).1 _ x hx
  · refine hI.1.others M hM x ?_
    have hsub : ∀ x, x ∈ w2.nodeMons M → x ∈ w1.nodeMons M := by
      refine (step_acts ser w1 (.drop a)).inv (I := fun w => ∀ x, x ∈ w.nodeMons M → x ∈ w1.nodeMons M) (fun _ h => h) ?_
      intro w' y hy h z hz
      apply h
      rw [nodeMons_act] at hz
      cases y <;> simp only [upd_at] at hz <;> try exact hz
      · exact absurd hy.1 (by simp [Op.caller])
      · obtain ⟨rp, p, nm, fid, k, h, -⟩ := hy; cases h
      · split at hz
        · subst_vars; exact (List.mem_filter.1 hz).1
        · exact hz
      · obtain ⟨p, h⟩ := hy; cases h
    exact hsub x hx

/-- C37 is false for node monitors if the process dies by calling `Process::demonitor` with the reference of a node monitor
(process.rs:356-374): the entry of the process is removed first, the panic follows, and the entry of the node stays for ever. -/
theorem C37_node_monitor_left_violated :
    let os : List (Op Nat Nat) := [.boot, .nodeMonitor 1 (.rem "b" (addr 2)), .demonitor 1 (.loc 1), .drop 1]
    exists? (run id init os) 1 = false ∧ ((run id init os).nodeMons (.rem "b" (addr 2))).map (·.1) = [.loc 1] := by
  exact ⟨rfl, rfl⟩

example : let os : List (Op Nat Nat) := [.boot, .nodeMonitor 1 (.rem "b" (addr 2))]
    running (run id init (os.take 1)) 1 = true ∧ ((run id init os).nodeMons (.rem "b" (addr 2))).map (·.1) = [.loc 1] ∧
    ((run id init (os ++ [.finish 1, .drop 1])).nodeMons (.rem "b" (addr 2))).map (·.1) = [] := ⟨rfl, rfl, rfl⟩

end Verif.World
