import Verif.HandledProps
import Verif.TwoNodeCastProps
/-!
# What a server handles is what the other node sent (C134, two nodes)
-/
namespace Verif.World
open Verif.Mailbox
variable {B V T M S : Type}

/-! ## Specification -/

/-- The serialized messages that are read as messages of `x`. -/
def decodes (τ : RecvType B V T) (x : T → Bool) (b : B) : Bool := (τ.deser b).any x

/-- The messages of `x` that the processes of the left node send during `l`, in order, as the right node reads them. -/
def sentAcross (ser : Sers V B) (c : Conn) (τ : RecvType B V T) (x : T → Bool) (d : Duo B V) (l : List (DOp B V)) : List T :=
  (sentBy ser c (decodes τ x) d l).filterMap τ.deser

/-- Messages of `x` come to process `s` of the right node from the left node only: the left node addresses them to `s` by its pid, and nobody on the right node, and no third
node, sends any. -/
structure OnlyLeft (ser : Sers V B) (c : Conn) (τ : RecvType B V T) (x : T → Bool) (s : Nat) (d : Duo B V) (l : List (DOp B V)) : Prop where
  marks : ∀ o ∈ l, Marks ser c (decodes τ x) s o
  own : ∀ v, (s, .locl v) ∈ (drun ser c d l).R.sent → (τ.cast v).any x = false
  before : delivered τ x s d.R = []

/-! ## C134 -/

theorem filterMap_same {A C : Type _} {f g : A → Option C} : ∀ {l : List A}, (∀ a ∈ l, f a = g a) → l.filterMap f = l.filterMap g
  | [], _ => rfl
  | a :: l, h => by rw [List.filterMap_cons, List.filterMap_cons, h a (by simp), filterMap_same fun b hb => h b (.tail _ hb)]

theorem delivered_marked (τ : RecvType B V T) (x : T → Bool) (P : Nat) (w : World B V) (hown : ∀ v, (P, .locl v) ∈ w.sent → (τ.cast v).any x = false) :
    delivered τ x P w = (marked (decodes τ x) P w.sent).filterMap τ.deser := by
  unfold delivered readings arrivals marked
  rw [List.filterMap_filterMap, List.filterMap_filterMap]
  refine filterMap_same ?_
  rintro ⟨i, it⟩ hm
  by_cases hi : i = P
  · subst hi
    cases it with
    | remote b =>
      simp only [if_true, reading, decodes, true_and, Option.bind_some]
      cases hd : τ.deser b with
      | none => simp
      | some t => cases hx : x t <;> simp [hx, hd]
    | locl v =>
      have := hown v hm
      simp only [if_true, reading, Option.bind_some, Option.bind_none]
      cases hd : τ.cast v with
      | none => rfl
      | some t => rw [hd] at this; simp at this; simp [this]
    | _ => simp [reading]
  · cases it <;> simp [hi]

theorem sent_stays (ser : V → B) (os : List (Op B V)) : ∀ (w : World B V) {e}, e ∈ w.sent → e ∈ (run ser w os).sent := by
  induction os with
  | nil => intro w e h; exact h
  | cons o os ih =>
    intro w e h
    rw [run_cons]
    exact ih _ ((step_acts ser w o).inv (I := fun w' => e ∈ w'.sent) h fun w' a _ h => sent_mono_act w' a _ h)

/-- C134. Two connected nodes: the requests of `x`, which only the left node sends, are handled by the server of the right node in the order in which they were sent, each once and
with none left out, whichever processes of the left node sent them and however both nodes are scheduled. -/
theorem C134_across (ser : Sers V B) (c : Conn) (srv : Server B V M S) (τ : RecvType B V (GMsg M)) (x : GMsg M → Bool) (s : Nat) (parent : Pid) (d : Duo B V)
    (GR : List (Op B V)) (l : List (DOp B V)) (hs os : List (Op B V)) (σ : S) (n : Nat) (log : Log M S)
    (hb : Begins ser c d) (hR : d.R = run ser.R init GR) (hleg : ∀ o ∈ l, Legal c o) (hx : OnlyLeft ser c τ x s d l) (ht : exists? d.R s = true)
    (hreq : ∀ g, x g = true → Request g) (hsp : SparesRequests ser.R srv τ x s) (hcoh : Coherent τ (GR ++ rightOps ser c d l))
    (hbefore : ∀ o k, .recv s o k ∈ hs → Spares τ x o) (hs' : Serves ser.R srv τ s parent (GR ++ rightOps ser c d l) hs os σ n log) :
    handled x log <+: sentAcross ser c τ x d l := by
  have h1 := C134_handled ser.R srv τ s parent _ hs os σ n log x hreq hsp hcoh hbefore hs'
  obtain ⟨z, hz⟩ := hs'.part
  have hw : (drun ser c d l).R = run ser.R init (hs ++ os ++ z) := by rw [right_run, hR, ← run_append, hz]
  have h2 : delivered τ x s (run ser.R init (hs ++ os)) <+: delivered τ x s (drun ser c d l).R := by
    rw [hw, run_append ser.R init (hs ++ os) z]; exact delivered_prefix ser.R τ x s z _
  obtain ⟨got, h3, h4, -⟩ := C92_in_order ser c (decodes τ x) s d [] l hb (by simp) ht (fun o ho => ⟨hleg o ho, hx.marks o ho⟩)
  have h5 : ∀ v, (s, Item.locl v) ∈ d.R.sent → (τ.cast v).any x = false := by
    intro v hv
    refine hx.own v ?_
    rw [right_run]; exact sent_stays ser.R _ _ hv
  have h6 := hx.before
  rw [delivered_marked τ x s d.R h5] at h6
  rw [delivered_marked τ x s _ hx.own] at h2
  change marked _ s (drun ser c d l).R.sent = marked _ s d.R.sent ++ got at h3
  rw [h3, List.filterMap_append, h6, List.nil_append] at h2
  exact (h1.trans h2).trans (h4.filterMap _)

/-- C134. When nothing is on its way to the right node and no request waits in the mailbox of the server, it has handled all of them. -/
theorem C134_across_all (ser : Sers V B) (c : Conn) (srv : Server B V M S) (τ : RecvType B V (GMsg M)) (x : GMsg M → Bool) (s : Nat) (parent : Pid) (d : Duo B V)
    (GR : List (Op B V)) (l : List (DOp B V)) (hs os : List (Op B V)) (σ : S) (n : Nat) (log : Log M S)
    (hb : Begins ser c d) (hR : d.R = run ser.R init GR) (hleg : ∀ o ∈ l, Legal c o) (hx : OnlyLeft ser c τ x s d l) (ht : exists? d.R s = true)
    (hreq : ∀ g, x g = true → Request g) (hsp : SparesRequests ser.R srv τ x s) (hcoh : Coherent τ (GR ++ rightOps ser c d l))
    (hbefore : ∀ o k, .recv s o k ∈ hs → Spares τ x o) (hs' : Serves ser.R srv τ s parent (GR ++ rightOps ser c d l) hs os σ n log)
    (hall : hs ++ os = GR ++ rightOps ser c d l) (hlive : ∀ c ∈ log.calls, ∀ r, c.what ≠ .terminate r) (hrun : running (drun ser c d l).R s = true)
    (hidle : waiting τ x s (drun ser c d l).R = []) (hline : toRight c (drun ser c d l) = []) :
    handled x log = sentAcross ser c τ x d l := by
  have hw : (drun ser c d l).R = run ser.R init (hs ++ os) := by rw [right_run, hR, ← run_append, hall]
  have h1 := C134_accounted ser.R srv τ s parent _ hs os σ n log x hreq hsp hcoh hbefore hs' hlive (by rw [← hw]; exact hrun)
  rw [← hw, hidle, List.append_nil] at h1
  obtain ⟨got, h3, -, h4⟩ := C92_in_order ser c (decodes τ x) s d [] l hb (by simp) ht (fun o ho => ⟨hleg o ho, hx.marks o ho⟩)
  have h5 : ∀ v, (s, Item.locl v) ∈ d.R.sent → (τ.cast v).any x = false := by
    intro v hv
    refine hx.own v ?_
    rw [right_run]; exact sent_stays ser.R _ _ hv
  have h6 := hx.before
  rw [delivered_marked τ x s d.R h5] at h6
  rw [delivered_marked τ x s _ hx.own] at h1
  change marked _ s (drun ser c d l).R.sent = marked _ s d.R.sent ++ got at h3
  have hex : exists? (drun ser c d l).R s = true := by
    unfold running at hrun
    unfold exists?
    cases hp : (drun ser c d l).R.procs s with
    | none => rw [hp] at hrun; simp at hrun
    | some p => rfl
  rw [h3, List.filterMap_append, h6, List.nil_append, h4 hline hex] at h1
  exact h1.symm

/-! ## Example -/

theorem castTalk_only : OnlyLeft talkSer duoC gserver anyRequest 1 talk castTalk := by
  refine ⟨?_, ?_, rfl⟩
  · intro o ho
    simp only [castTalk, castU, castCall, List.cons_append, List.nil_append, List.mem_cons, List.not_mem_nil, or_false] at ho
    rcases ho with h | h | h | h | h | h | h | h | h | h | h | h | h | h | h <;> subst h <;>
      simp [Marks, callMon, monOp, destLocal, Pid.isLocal, request, replyOp, castMsg, Dests.list, theServer, duoC]
    rfl
  · intro v hv
    have : (drun talkSer duoC talk castTalk).R.sent.any (fun e => match e.2 with | .locl _ => true | _ => false) = false := by decide +kernel
    have h := List.any_eq_false.1 this _ hv
    simp at h

/-- A cast and a call of node "a" are handled in the order in which they were sent. -/
example : handled anyRequest castLog = [.cast 5, .call ⟨.rem 1 1, .rem 1 1, true⟩ 7] ∧
    sentAcross talkSer duoC gserver anyRequest talk castTalk = [.cast 5, .call ⟨.rem 1 1, .rem 1 1, true⟩ 7] := ⟨rfl, rfl⟩

example := C134_across talkSer duoC tally gserver anyRequest 1 (.loc 1) talk talkR castTalk _ _ 0 2 castLog talk_begins rfl castTalk_legal castTalk_only rfl
  (by intro g hg; cases g <;> simp_all [anyRequest, Request]) (spares_of_leaves (tally_leaves _)) castTalk_coherentR
  (by intro o k h; simp at h) castTalk_serves

example := C134_across_all talkSer duoC tally gserver anyRequest 1 (.loc 1) talk talkR castTalk _ _ 0 2 castLog talk_begins rfl castTalk_legal castTalk_only rfl
  (by intro g hg; cases g <;> simp_all [anyRequest, Request]) (spares_of_leaves (tally_leaves _)) castTalk_coherentR
  (by intro o k h; simp at h) castTalk_serves rfl (by intro c hc r; simp at hc; rcases hc with rfl | rfl <;> simp) rfl rfl rfl

end Verif.World
