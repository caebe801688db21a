import Verif.HonestProps
/-!
# A server that waits cannot answer (C129)

While a process does something that sends no replies, for example while it waits in a `GenServer::call` of its own, no call to it returns a reply. So
servers that call each other, or themselves, wait for their time to be up.

Specification: `Honest`, `Means` (HonestProps.lean), `Replyless` here; the history `G` consists of the part `A`, the part `E` in which the process is
busy, and the rest.
-/
namespace Verif.World
open Verif.Mailbox
variable {B V M S R : Type}

/-! ## Specification -/

/-- In the part `E` of a history, the process `s` sends no replies to calls. -/
def Replyless (ser : V → B) (τ : RecvType B V (GMsg M)) (s : Nat) (E : List (Op B V)) : Prop :=
  ∀ o ∈ E, o.caller = some s → ∀ t y, ¬ Replies ser τ (.loc t) y o

/-- A call that begins and ends (with `r`) in the part `E` of the history, after `A`. -/
structure CallIn (ser : V → B) (τ : RecvType B V (GMsg M)) (A E pre ops : List (Op B V)) (me : Nat) (d : Dest) (m : M) (r : Except CallError M) : Prop where
  begins : A <+: pre
  ends : pre ++ ops <+: A ++ E
  call : Exec ser me (run ser init pre) (callProg τ me d m) ops r

/-! ## Lemmas -/

theorem quiet_prefix {ser : V → B} {τ : RecvType B V (GMsg M)} {s : Nat} {E E' : List (Op B V)} (h : Replyless ser τ s E) (hp : E' <+: E) : Replyless ser τ s E' :=
  fun o ho => h o (hp.subset ho)

theorem request_quiet {ser : V → B} {τ : RecvType B V (GMsg M)} (hf : Faithful ser τ) {me : Nat} {ds : Dests} {frm : From} {y : M} (t : Nat) (x : M) :
    ¬ Replies ser τ (.loc t) x (.send me ds (τ.box (.call frm y)) : Op B V) := by
  rintro ⟨it, hs, hr⟩
  have := sentBy_read hf (g := .call frm y) hs hr
  cases this

theorem call_uses {ser : V → B} {τ : RecvType B V (GMsg M)} (hf : Faithful ser τ) (me : Nat) (d : Dest) (m : M) :
    Uses (fun o : Op B V => ∀ t y, ¬ Replies ser τ (.loc t) y o) (callProg τ me d m) := by
  have plain : ∀ o : Op B V, (∀ it, ¬ SentBy ser o it) → ∀ t y, ¬ Replies ser τ (.loc t) y o := fun o h t y ⟨it, hs, _⟩ => h it hs
  unfold callProg
  refine .op ?_ fun res => .op (request_quiet hf) fun _ => .wait ?_ ?_
  · split <;> exact plain _ (by intro it hs; cases hs)
  · intro p hp
    cases hp
    exact .op (plain _ (by intro it hs; cases hs)) fun _ => .op (plain _ (by intro it hs; cases hs)) fun _ => .ret _
  · intro r
    split
    · exact .op (plain _ (by intro it hs; cases hs)) fun _ => .ret _
    · exact .ret _
    · exact .ret _

/-- A program that sends no replies keeps its process quiet, however far it gets. -/
theorem uses_quiet {ser : V → B} {τ : RecvType B V (GMsg M)} {s : Nat} {w : World B V} {p : Prog B V R} {E : List (Op B V)}
    (hu : Uses (fun o : Op B V => ∀ t y, ¬ Replies ser τ (.loc t) y o) p) (hc : Cut ser s w p E) : Replyless ser τ s E := by
  intro o ho hcal t y
  rcases cut_uses hc hu o ho with h | h | ⟨ro, k, rfl⟩
  · exact absurd hcal h.1
  · exact h t y
  · rintro ⟨it, hs, -⟩; cases hs

/-! ## C129 -/

/-- **C129**: while a server sends no replies, no call to it returns a reply. -/
theorem C129_busy (ser : V → B) (τ : RecvType B V (GMsg M)) (s : Nat) (A E Z pre ops : List (Op B V)) (me : Nat) (d : Dest) (m x : M)
    (hf : Faithful ser τ) (hcoh : Coherent τ (A ++ E ++ Z)) (hh : Honest ser τ (A ++ E ++ Z)) (hd : Means ser (A ++ E ++ Z) d s) (hq : Replyless ser τ s E)
    (hc : CallIn ser τ A E pre ops me d m (.ok x)) : False := by
  obtain ⟨⟨P, rfl⟩, ⟨Q, hQ⟩, hx⟩ := hc
  have hG : A ++ E ++ Z = (A ++ P ++ ops) ++ (Q ++ Z) := by rw [← hQ]; simp
  have hnf := C127_no_forgery ser τ _ hf hcoh hh
  rw [hG] at hcoh hnf
  obtain ⟨os1, os2, os3, os4, o, n, he, hn, hoth, -, hrep, -⟩ := C56_reply τ ser (A ++ P) ops me d m x
    (fun i ro k hm => hcoh i ro k (List.mem_append_left _ hm))
    (fun a o b n y e hr => hnf a o (b ++ (Q ++ Z)) n y (by rw [e]; simp) hr) hx
  rw [← hG] at hcoh
  have hcalled : Called ser τ (A ++ E ++ Z) (A ++ P) ops me d m x n :=
    ⟨⟨_, hG.symm⟩, hx, os1, _, by rw [he]; simp only [List.append_assoc, List.cons_append]; rfl, hoth, hn⟩
  have hun := C127_unforged ser τ s _ [] (A ++ E ++ Z) _ _ me d m x n hf hcoh hh hcalled hd (by
    intro a o b t y e _ _
    rw [e]; simp)
  have hcal := (hun.reply (A ++ P ++ (os1 ++ callMon me d :: os2)) o (os3 ++ os4 ++ (Q ++ Z)) x (by rw [hG, he]; simp) hrep).1
  have hmem : o ∈ E := by
    have : E = P ++ ops ++ Q := by
      have := hQ
      simp only [List.append_assoc, List.append_cancel_left_eq] at this
      rw [← this]; simp
    rw [this, he]; simp
  exact hq o hmem hcal n x hrep

/-- **C129**: while a process waits in a `GenServer::call` of its own, no call to it returns a reply; so two servers that call each other both wait until the
time of one of them is up. -/
theorem C129_waiting (ser : V → B) (τ : RecvType B V (GMsg M)) (s : Nat) (A E Z pre ops : List (Op B V)) (me : Nat) (d d' : Dest) (m m' x : M)
    (hf : Faithful ser τ) (hcoh : Coherent τ (A ++ E ++ Z)) (hh : Honest ser τ (A ++ E ++ Z)) (hd : Means ser (A ++ E ++ Z) d s)
    (hw : Cut ser s (run ser init A) (callProg τ s d' m') E) : ¬ CallIn ser τ A E pre ops me d m (.ok x) :=
  fun hc => C129_busy ser τ s A E Z pre ops me d m x hf hcoh hh hd (uses_quiet (call_uses hf s d' m') hw) hc

/-- **C129**: a process that calls itself by its name gets no reply: its time is up, unless the name is given up meanwhile. -/
theorem C129_self_name (ser : V → B) (τ : RecvType B V (GMsg M)) (G pre ops : List (Op B V)) (me : Nat) (name : String) (m : M) (r : Except CallError M)
    (hf : Faithful ser τ) (hcoh : Coherent τ G) (hh : Honest ser τ G) (hd : Means ser G (.named name .loc) me) (hp : pre ++ ops <+: G)
    (hx : Exec ser me (run ser init pre) (callProg τ me (.named name .loc) m) ops r) :
    r = .error .timeout ∨ r = .error (.serverDown (.custom "noproc")) ∧ ∃ os1 os2, ops = os1 ++ os2 ∧ targetOf (run ser init (pre ++ os1)) (.named name .loc) = none := by
  obtain ⟨Z, rfl⟩ := hp
  match r, hx with
  | .ok x, hx => exact (C129_waiting ser τ me pre ops Z pre ops me _ _ m m x hf hcoh hh hd (exec_cut hx) ⟨List.prefix_rfl, List.prefix_rfl, hx⟩).elim
  | .error .timeout, _ => exact .inl rfl
  | .error (.serverDown e), hx =>
    right
    obtain ⟨os1, os2, he, hcase⟩ := C56_server_down τ ser pre ops me _ (.inr ⟨name, rfl⟩) m e hx
    rcases hcase with ⟨t, ht, ⟨b1, b2, p, hb, -⟩, -⟩ | ⟨hn, rfl⟩
    · have ht' : t = me := hd.is (pre ++ os1) (os2 ++ Z) t (by rw [he]; simp) (by rw [run_append]; exact ht)
      subst ht'
      have hmem : (.drop t : Op B V) ∈ ops := by rw [he, hb]; simp
      rcases exec_uses hx (call_uses (ser := ser) hf t _ m) _ hmem with h | h | ⟨ro, k, h⟩
      · exact absurd rfl h.2
      · have hu : Uses (fun o : Op B V => o ≠ .drop t) (callProg τ t (.named name .loc) m) := by
          unfold callProg
          refine .op ?_ fun res => .op (by simp) fun _ => .wait ?_ ?_
          · split <;> simp
          · intro p hp
            cases hp
            exact .op (by simp) fun _ => .op (by simp) fun _ => .ret _
          · intro r
            split
            · exact .op (by simp) fun _ => .ret _
            · exact .ret _
            · exact .ret _
        rcases exec_uses hx hu _ hmem with h | h | ⟨ro, k, h⟩
        · exact absurd rfl h.2
        · exact absurd rfl h
        · cases h
      · cases h
    · exact ⟨rfl, os1, os2, he, by rw [run_append]; exact hn⟩

/-- **C129**: a process that calls itself by its pid panics in the call, with the reason given here. -/
theorem C129_self_pid_panics (ser : V → B) (w : World B V) (me : Nat) (hr : running w me = true) :
    ∃ p, (step ser w (callMon me (.pid (.loc me)))).1.procs me = some p ∧ p.ended = true ∧ p.reason = some (.custom "Can not monitor yourself!") := by
  have h : step ser w (callMon me (.pid (.loc me))) = _ := step_monOp ser w me (.pid (.loc me)) none hr
  rw [h]
  simp only [monitorInstall, if_true, crash, modProc]
  cases hp : w.procs me with
  | none => simp [running, hp] at hr
  | some p => simp [freshRef, newRef, hp, upd]

/-- **C129**: so that call never returns. -/
theorem C129_self_pid (ser : V → B) (τ : RecvType B V (GMsg M)) (pre ops : List (Op B V)) (me : Nat) (m : M) (r : Except CallError M) :
    ¬ Exec ser me (run ser init pre) (callProg τ me (.pid (.loc me)) m) ops r := by
  intro hx
  unfold callProg at hx
  rw [callMon_eq] at hx
  obtain ⟨os1, os', -, h1, hrun, hx⟩ := exec_op_inv hx
  obtain ⟨os2, os'', -, h2, hrun2, -⟩ := exec_op_inv hx
  obtain ⟨p, hp, he, -⟩ := C129_self_pid_panics ser _ me hrun
  have key : ∀ (os : List (Op B V)) (w : World B V), (∀ o ∈ os, Others me o) → Reachable ser w → (∃ p, w.procs me = some p ∧ p.ended = true) → ∃ p, (run ser w os).procs me = some p ∧ p.ended = true := by
    intro os
    induction os with
    | nil => intro w _ _ h; exact h
    | cons o os ih =>
      intro w ho hre h
      rw [run_cons]
      refine ih _ (fun o h => ho o (.tail _ h)) (reach_step hre o) (ended_others ser (ho o List.mem_cons_self) h ?_)
      obtain ⟨p, hp, -⟩ := h
      rcases Nat.lt_or_ge me w.nextPid with h | h
      · exact h
      · have := reach_bounded hre me h; rw [hp] at this; cases this
  obtain ⟨p', hp', he'⟩ := key os2 _ h2 (reach_step (reach_run ⟨pre, rfl⟩ os1) _) ⟨p, hp, he⟩
  simp [running, hp', he'] at hrun2

/-! ## Examples -/

/-- Process 2 calls process 1 and waits. -/
def busyWait : List (Op Nat (GMsg Nat)) :=
  [callMon 2 (.pid (.loc 1)), request natServer 2 (.pid (.loc 1)) (.loc 1) 3, .recv 2 ⟨GMsg Nat, natServer, isAnswer (.loc 1), false⟩ .select]

/-- Process 1 calls process 2 meanwhile. -/
def busyCall : List (Op Nat (GMsg Nat)) :=
  [callMon 1 (.pid (.loc 2)), request natServer 1 (.pid (.loc 2)) (.loc 2) 4, .recv 1 ⟨GMsg Nat, natServer, isAnswer (.loc 2), false⟩ .select,
    .demonitor 1 (.loc 2), .recv 1 ⟨GMsg Nat, natServer, isReply (.loc 2), false⟩ .remove]

theorem busyExec : Exec noSer 1 (run noSer init (twoProcs ++ busyWait)) (callProg natServer 1 (.pid (.loc 2)) 4) busyCall (.error .timeout) :=
  .op rfl (.op rfl (.pending rfl rfl (.elapsed (.op rfl (.op rfl (.ret _ _))))))

theorem busyCut : Cut noSer 2 (run noSer init twoProcs) (callProg natServer 2 (.pid (.loc 1)) 3) (busyWait ++ busyCall) := by
  have oth : ∀ {o : Op Nat (GMsg Nat)}, o.caller = some 1 → (∀ i, o ≠ .drop i) → Others 2 o := fun h1 h2 => ⟨by simp [h1], h2 2⟩
  refine .op rfl (.op rfl (.pending rfl rfl ?_))
  exact .env (oth rfl (by intro i h; cases h)) (.env (oth rfl (by intro i h; cases h)) (.env (oth rfl (by intro i h; cases h))
    (.env (oth rfl (by intro i h; cases h)) (.env (oth rfl (by intro i h; cases h)) (.here _ _)))))

theorem busy_programs : HonestPrograms noSer natServer (Talks noSer natServer) (twoProcs ++ (busyWait ++ busyCall) ++ []) := by
  intro q ⟨o, ho, hq⟩
  have hm := List.mem_map_of_mem (f := Op.caller) ho
  rw [hq] at hm
  have he : (twoProcs ++ (busyWait ++ busyCall) ++ []).map Op.caller =
    [none, some 1, some 2, some 2, some 2, some 1, some 1, some 1, some 1, some 1] := rfl
  rw [he] at hm
  have : q = 1 ∨ q = 2 := by simp at hm; omega
  rcases this with rfl | rfl
  · refine ⟨_, (.op (.spawn 1 false false) fun _ => callProg natServer 1 (.pid (.loc 2)) 4), ⟨[.boot], .spawn 1 false false :: (busyWait ++ busyCall), [], rfl, by simp [Op.caller], by simp, ?_⟩,
      fun a => honest_plain (by intro _ _ _ h; cases h) fun _ _ => C127_call _ _ _ _ _ _ _⟩
    have oth : ∀ {o : Op Nat (GMsg Nat)}, o.caller = some 2 → (∀ i, o ≠ .drop i) → Others 1 o := fun h1 h2 => ⟨by simp [h1], h2 1⟩
    refine .op rfl (.env (oth rfl (by intro i h; cases h)) (.env (oth rfl (by intro i h; cases h)) (.env (oth rfl (by intro i h; cases h)) ?_)))
    exact exec_cut busyExec
  · refine ⟨_, callProg natServer 2 (.pid (.loc 1)) 3, ⟨twoProcs, busyWait ++ busyCall, [], by simp, ?_, by simp, busyCut⟩, fun a => C127_call _ _ _ _ _ _ _⟩
    intro o ho
    simp [twoProcs] at ho
    rcases ho with rfl | rfl <;> simp [Op.caller]

theorem honest_noFrames {τ : RecvType Nat (GMsg Nat) (GMsg Nat)} {G : List (Op Nat (GMsg Nat))} (hp : HonestPrograms noSer τ (Talks noSer τ) G)
    (h : ∀ o ∈ G, ∀ rp n f, o ≠ .frame rp n f) : Honest noSer τ G :=
  C127_programs _ _ _ hp fun a rp n ts bytes b e => absurd rfl (h _ (by rw [e]; simp) rp n (.send ts bytes))

theorem busy_honest : Honest noSer natServer (twoProcs ++ (busyWait ++ busyCall) ++ []) := by
  refine honest_noFrames busy_programs ?_
  intro o ho rp n f
  simp only [busyWait, busyCall, callMon, monOp, destLocal, Pid.isLocal, request, twoProcs, List.cons_append, List.nil_append, List.append_nil,
    List.mem_cons, List.not_mem_nil, or_false, if_true] at ho
  rcases ho with h | h | h | h | h | h | h | h | h | h <;> rw [h] <;> simp

theorem busy_coherent : Coherent natServer (twoProcs ++ (busyWait ++ busyCall) ++ []) := by
  intro a o k h b t' x h1
  simp only [busyWait, busyCall, callMon, monOp, destLocal, Pid.isLocal, request, twoProcs, List.cons_append, List.nil_append, List.append_nil,
    List.mem_cons, List.not_mem_nil, or_false, reduceCtorEq, false_or, if_true] at h
  rcases h with h | h | h <;> cases h <;> cases h1

/-- Process 1 calls process 2 while that waits for process 1: no reply, whatever is tried. -/
example := C129_waiting noSer natServer 2 twoProcs (busyWait ++ busyCall) [] (twoProcs ++ busyWait) busyCall 1 (.pid (.loc 2)) (.pid (.loc 1)) 4 3 0
  natServer_faithful busy_coherent busy_honest
  ⟨rfl, by
    intro a b i _ h
    simp only [targetOf] at h
    split at h
    · exact (Option.some.inj h).symm
    · cases h⟩ busyCut

/-- The call is there; its time is up. -/
example : CallIn noSer natServer twoProcs (busyWait ++ busyCall) (twoProcs ++ busyWait) busyCall 1 (.pid (.loc 2)) 4 (.error .timeout) :=
  ⟨⟨_, rfl⟩, ⟨[], by simp⟩, busyExec⟩

/-- Process 1 calls itself by its name. -/
def selfStart : List (Op Nat (GMsg Nat)) := [.boot, .register 1 (.loc 1) "me"]
def selfCall : List (Op Nat (GMsg Nat)) :=
  [callMon 1 (.named "me" .loc), request natServer 1 (.named "me" .loc) (.loc 1) 4, .recv 1 ⟨GMsg Nat, natServer, isAnswer (.loc 1), false⟩ .select,
    .demonitor 1 (.loc 1), .recv 1 ⟨GMsg Nat, natServer, isReply (.loc 1), false⟩ .remove]

theorem selfExec : Exec noSer 1 (run noSer init selfStart) (callProg natServer 1 (.named "me" .loc) 4) selfCall (.error .timeout) :=
  .op rfl (.op rfl (.pending rfl rfl (.elapsed (.op rfl (.op rfl (.ret _ _))))))

theorem self_honest : Honest noSer natServer (selfStart ++ selfCall) := by
  refine honest_noFrames ?_ ?_
  · intro q ⟨o, ho, hq⟩
    have hm := List.mem_map_of_mem (f := Op.caller) ho
    rw [hq] at hm
    have he : (selfStart ++ selfCall).map Op.caller = [none, some 1, some 1, some 1, some 1, some 1, some 1] := rfl
    rw [he] at hm
    have : q = 1 := by simp at hm; omega
    subst this
    exact ⟨_, (.op (.register 1 (.loc 1) "me") fun _ => callProg natServer 1 (.named "me" .loc) 4), ⟨[.boot], .register 1 (.loc 1) "me" :: selfCall, [], rfl, by simp [Op.caller], by simp,
      .op rfl (exec_cut selfExec)⟩, fun a => honest_plain (by intro _ _ _ h; cases h) fun _ _ => C127_call _ _ _ _ _ _ _⟩
  · intro o ho rp n f
    simp only [selfStart, selfCall, callMon, monOp, destLocal, request, List.cons_append, List.nil_append, List.append_nil,
      List.mem_cons, List.not_mem_nil, or_false, if_true] at ho
    rcases ho with h | h | h | h | h | h | h <;> rw [h] <;> simp

theorem self_means : Means noSer (selfStart ++ selfCall) (.named "me" .loc) 1 := by
  refine ⟨rfl, ?_⟩
  intro a b i he h
  have hl : a = (selfStart ++ selfCall).take a.length := by rw [he]; simp
  have hb : a.length ≤ 7 := by
    have := congrArg List.length he
    simp [selfStart, selfCall] at this; omega
  have all : ∀ k, k ≤ 7 → ∀ i, targetOf (run noSer init ((selfStart ++ selfCall).take k)) (.named "me" .loc) = some i → i = 1 := by
    intro k hk
    have : k = 0 ∨ k = 1 ∨ k = 2 ∨ k = 3 ∨ k = 4 ∨ k = 5 ∨ k = 6 ∨ k = 7 := by omega
    rcases this with rfl | rfl | rfl | rfl | rfl | rfl | rfl | rfl
    · have : targetOf (run noSer init ((selfStart ++ selfCall).take 0)) (.named "me" .loc) = none := rfl
      intro i h; rw [this] at h; cases h; try rfl
    · have : targetOf (run noSer init ((selfStart ++ selfCall).take 1)) (.named "me" .loc) = none := rfl
      intro i h; rw [this] at h; cases h; try rfl
    · have : targetOf (run noSer init ((selfStart ++ selfCall).take 2)) (.named "me" .loc) = some 1 := rfl
      intro i h; rw [this] at h; cases h; try rfl
    · have : targetOf (run noSer init ((selfStart ++ selfCall).take 3)) (.named "me" .loc) = some 1 := rfl
      intro i h; rw [this] at h; cases h; try rfl
    · have : targetOf (run noSer init ((selfStart ++ selfCall).take 4)) (.named "me" .loc) = some 1 := rfl
      intro i h; rw [this] at h; cases h; try rfl
    · have : targetOf (run noSer init ((selfStart ++ selfCall).take 5)) (.named "me" .loc) = some 1 := rfl
      intro i h; rw [this] at h; cases h; try rfl
    · have : targetOf (run noSer init ((selfStart ++ selfCall).take 6)) (.named "me" .loc) = some 1 := rfl
      intro i h; rw [this] at h; cases h; try rfl
    · have : targetOf (run noSer init ((selfStart ++ selfCall).take 7)) (.named "me" .loc) = some 1 := rfl
      intro i h; rw [this] at h; cases h; try rfl
  rw [hl] at h
  exact all _ hb _ h

example := C129_self_name noSer natServer (selfStart ++ selfCall) selfStart selfCall 1 "me" 4 _ natServer_faithful (by
    intro a o k h b t' x h1
    simp only [selfStart, selfCall, callMon, monOp, destLocal, request, List.cons_append, List.nil_append, List.append_nil,
      List.mem_cons, List.not_mem_nil, or_false, reduceCtorEq, false_or, if_true] at h
    rcases h with h | h <;> cases h <;> cases h1) self_honest self_means ⟨[], by simp⟩ selfExec

example := C129_self_pid_panics noSer (run noSer init selfStart) 1 rfl

end Verif.World
