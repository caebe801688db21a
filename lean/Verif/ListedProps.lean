import Verif.FreeNameProps
/-!
# C144: which_children misses no living child
-/
namespace Verif.Sup
open Verif.World Verif.Mailbox
variable {B V M S : Type}

/-- If a server was told, in `handle_info`, that the process `t` of this node has exited, `t` is gone, unless it has sent this message itself. -/
theorem told_gone (ser : V → B) (srv : Server B V M S) (τ : RecvType B V (GMsg M)) (me : Nat) (parent : Pid) (n : Nat) (σ : S)
    (os0 os : List (Op B V)) (l : World.Log M S) (h : Exec ser me (Verif.World.run ser init os0) (serverLoop srv τ me parent n σ) os l)
    (t : Nat) (hh : Always ser (Honest me t) init (os0 ++ os)) (c : Record M S) (hc : c ∈ l.calls) (r : ExitReason)
    (hwhat : c.what = .info (.system (.exit (.loc t) r))) : (Verif.World.run ser init (os0 ++ os)).procs t = none := by
  obtain ⟨pre, kind, mid, post, rfl, -, hv⟩ := C143_told ser srv τ me parent n σ os0 os l h t hh c hc r hwhat
  have := (hv (.recv me (anyMsg τ) kind :: (mid ++ post))).1
  rwa [← run_append, List.append_assoc] at this

/-- **C144**: at every moment between two messages, every process of this node that the supervisor started (at its start, on request or as a restart) and that still exists is listed by
`which_children`. -/
theorem C144_all_listed (cf : Conf B V) (ser : V → B) (hg : Genuine cf ser) (os0 : List (Op B V)) (parent : Pid) (n : Nat)
    (st : Strategy) (au : AutoShutdown) (mr md : Nat) (cs : List Spec) (hs : ∀ c ∈ cs, c.hasStart = true) (hd : (cs.map (·.id)).Nodup)
    (ops : List (Op B V)) (l : World.Log SMsg SState) (σ : SState)
    (h : Exec ser cf.me (Verif.World.run ser init os0) (supLife cf parent n (fresh st au mr md cs)) ops (some l, σ)) (hend : l.ended = none)
    (id : String) (t : Nat) (hst : .start id (.ok (.loc t)) ∈ l.state.1.log)
    (hh : Always ser (Honest cf.me t) init (os0 ++ ops)) (hx : exists? (Verif.World.run ser init (os0 ++ ops)) t = true) :
    ∃ i ∈ whichChildren l.state.1, i.child = some (.loc t) := by
  have hw : Reachable ser (Verif.World.run ser (init : World B V) os0) := ⟨os0, rfl⟩
  obtain ⟨o, σ0, hb, hc, hp, os1, os2, os3, rfl, hl⟩ := life_chain cf ser _ hw parent n st au mr md cs ops l σ h
  obtain ⟨i1, i2, -⟩ := fresh_inv _ st au mr md cs hs hd _ hb
  obtain ⟨k1, k2, -⟩ := lives_tracked (chain_lives hc i1 i2) i1 ((tracked_boot o st au mr md cs hs).1 _ hb) ((boot_sound o st au mr md cs hs).1 _ hb)
  have gone : ¬ (Verif.World.run ser init (os0 ++ (os1 ++ (os2 ++ os3)))).procs t = none := by
    intro hn; simp [exists?, hn] at hx
  have ha : Alive l.state.1.log ([] ++ told (eventsOf cf.clock l.calls)) (.loc t) := by
    refine Classical.byContradiction fun hna => ?_
    rcases not_alive hna ⟨id, hst⟩ with ⟨how, hm⟩ | hm
    · have := performs_stopped hg hw hp k1 hm
      rw [← run_append] at this
      exact gone this
    · rw [List.nil_append] at hm
      obtain ⟨c, hcm, r, hwhat⟩ := told_record hm
      have e : os0 ++ (os1 ++ (os2 ++ os3)) = os0 ++ os1 ++ os2 ++ os3 := by simp
      rw [e] at hh gone
      rw [← run_append] at hl
      have hd := told_gone ser (supServer cf) cf.type cf.me parent n σ0 (os0 ++ os1) os2 l hl t (always_append.1 hh).1 c hcm r hwhat
      have hlt : t < (Verif.World.run ser (init : World B V) (os0 ++ os1 ++ os2)).nextPid := by
        obtain ⟨pre, kind, m, mid, post, rfl, ht, hran⟩ := loop_calls ⟨_, rfl⟩ hl hcm (by simp [hwhat])
        have hcb := hran.1
        rw [hwhat] at hcb
        have hsent := taken_sent (reach_run ⟨_, rfl⟩ pre) (by rw [message_of hcb] at ht; exact ht)
        have hpre : Always ser (Honest cf.me t) init (os0 ++ os1 ++ pre) := by
          have h1 := (always_append.1 hh).1
          rw [← List.append_assoc] at h1
          exact (always_append.1 h1).1
        have := (truthful_run hpre r (by rw [run_append]; exact hsent)).2
        rw [← List.append_assoc, run_append]
        exact Nat.lt_of_lt_of_le this (run_nextPid_le ser _ _)
      rw [run_append] at gone
      exact gone (absent_run ser _ os3 t hlt hd).1
  obtain ⟨c, hcm, hpid⟩ := (k2 hend).listed (.loc t) ha
  exact ⟨_, List.mem_map_of_mem hcm, hpid⟩

/-! ## Example -/

/-- A supervisor with `OneForAll` that has handled the exit of its child 3 and goes on: it has shut down 4 and started 5 and 6. -/
theorem listedExec : ∃ ops l σ, Exec supSer supConf.me (Verif.World.run supSer init supStart)
    (supLife supConf (.loc 1) 1 (fresh .oneForAll .never 3 5000 [worker "a" .permanent, worker "b" .permanent])) ops (some l, σ) ∧
    honest? 2 6 supSer init (supStart ++ ops) = true ∧ exists? (Verif.World.run supSer init (supStart ++ ops)) 6 = true ∧ l.ended = none ∧
    .start "b" (.ok (.loc 6)) ∈ l.state.1.log := by
  have h : (sim supSer 2 (Verif.World.run supSer init supStart)
      (supLife supConf (.loc 1) 1 (fresh .oneForAll .never 3 5000 [worker "a" .permanent, worker "b" .permanent]))
      ([.mine, .mine, .mine, .env (.exit 3 (.loc 3) .kill), .env (.drop 3), .mine] ++ supShut 4 ++ [.mine, .mine])).map
      (fun x => (honest? 2 6 supSer init (supStart ++ x.1) && exists? (Verif.World.run supSer init (supStart ++ x.1)) 6, x.2.1.map fun l => (l.ended, l.state.1.log))) =
      some (true, some (none, supLog.take 5)) := by
    set_option synthInstance.maxSize 2000 in decide +kernel
  simp only [Option.map_eq_some_iff, Prod.mk.injEq, Bool.and_eq_true] at h
  obtain ⟨⟨ops, o, σ⟩, h1, ⟨h2, h3⟩, l, h4, h5, h6⟩ := h
  have h4' : o = some l := h4
  subst h4'
  refine ⟨ops, l, σ, sim_exec supSer 2 _ _ _ _ h1, h2, h3, h5, ?_⟩
  rw [h6]
  simp [supLog]

/-- So the new process of child "b" is listed. -/
example : ∃ l : World.Log SMsg SState, ∃ i ∈ whichChildren l.state.1, i.child = some (.loc 6) := by
  obtain ⟨ops, l, σ, h1, h2, h3, h4, h5⟩ := listedExec
  exact ⟨l, C144_all_listed supConf supSer supConf_genuine supStart (.loc 1) 1 .oneForAll .never 3 5000 _ (by decide) (by decide) ops l σ h1 h4 "b" 6 h5 (honest_of h2) h3⟩

end Verif.Sup
