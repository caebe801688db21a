import Verif.Codec
/-! Helper lemmas for the codec theorems: every field codec is exact in both directions. -/
namespace Verif.Codec

/-- Decoding what was encoded gives the value back and leaves the rest. -/
def RT {α : Type} (e : α → List UInt8) (d : Dec α) : Prop :=
  ∀ x rest, (e x).length < 2 ^ 64 → d (e x ++ rest) = .ok (x, rest)

/-- A successful decode read exactly the encoding of its result. -/
def EX {α : Type} (e : α → List UInt8) (d : Dec α) : Prop :=
  ∀ bs x rest, d bs = .ok (x, rest) → bs = e x ++ rest

theorem bind_ok {α β : Type} {d : Dec α} {f : α → Dec β} {bs rest : List UInt8} {a : α}
    (h : d bs = .ok (a, rest)) : d.bind f bs = f a rest := by
  simp [Dec.bind, h]

theorem bind_inv {α β : Type} {d : Dec α} {f : α → Dec β} {bs rest : List UInt8} {b : β}
    (h : d.bind f bs = .ok (b, rest)) : ∃ a mid, d bs = .ok (a, mid) ∧ f a mid = .ok (b, rest) := by
  unfold Dec.bind at h
  split at h
  · rename_i a mid heq
    exact ⟨a, mid, heq, h⟩
  · cases h

theorem pure_inv {α : Type} {a b : α} {bs rest : List UInt8}
    (h : (Dec.pure a) bs = .ok (b, rest)) : b = a ∧ rest = bs := by
  simp only [Dec.pure, Except.ok.injEq, Prod.mk.injEq] at h
  exact ⟨h.1.symm, h.2.symm⟩

theorem fail_inv {α : Type} {b : α} {bs rest : List UInt8}
    (h : (Dec.fail : Dec α) bs = .ok (b, rest)) : False := by
  simp [Dec.fail] at h

@[simp] theorem leBytes_length (k n : Nat) : (leBytes k n).length = k := by
  induction k generalizing n with
  | zero => rfl
  | succ k ih => simp [leBytes, ih]

theorem leVal_leBytes (k n : Nat) (h : n < 256 ^ k) : leVal (leBytes k n) = n := by
  induction k generalizing n with
  | zero => simp at h; simp [leBytes, leVal, h]
  | succ k ih =>
    have h2 : n / 256 < 256 ^ k := by
      apply Nat.div_lt_of_lt_mul
      rw [Nat.pow_succ] at h; omega
    simp only [leBytes, leVal, ih _ h2]
    have : (UInt8.ofNat (n % 256)).toNat = n % 256 := by
      simp
    rw [this]; omega

theorem leVal_lt (l : List UInt8) : leVal l < 256 ^ l.length := by
  induction l with
  | nil => simp [leVal]
  | cons b l ih =>
    simp only [leVal, List.length_cons, Nat.pow_succ]
    have := b.toNat_lt
    omega

theorem leBytes_leVal (l : List UInt8) : leBytes l.length (leVal l) = l := by
  induction l with
  | nil => rfl
  | cons b l ih =>
    have hb := b.toNat_lt
    simp only [leVal, List.length_cons, leBytes]
    have h1 : (b.toNat + 256 * leVal l) % 256 = b.toNat := by omega
    have h2 : (b.toNat + 256 * leVal l) / 256 = leVal l := by omega
    rw [h1, h2, ih]
    simp

theorem take_append {k : Nat} (l rest : List UInt8) (h : l.length = k) :
    take k (l ++ rest) = .ok (l, rest) := by
  subst h
  simp [take]

theorem take_inv {k : Nat} {bs l rest : List UInt8} (h : take k bs = .ok (l, rest)) :
    bs = l ++ rest ∧ l.length = k := by
  unfold take at h
  split at h
  · simp only [Except.ok.injEq, Prod.mk.injEq] at h
    obtain ⟨rfl, rfl⟩ := h
    refine ⟨by simp, by simp; omega⟩
  · cases h

theorem decUInt_leBytes (k n : Nat) (rest : List UInt8) (h : n < 256 ^ k) :
    decUInt k (leBytes k n ++ rest) = .ok (n, rest) := by
  unfold decUInt
  rw [bind_ok (take_append _ _ (leBytes_length k n))]
  simp [Dec.pure, leVal_leBytes k n h]

theorem decUInt_inv {k n : Nat} {bs rest : List UInt8} (h : decUInt k bs = .ok (n, rest)) :
    bs = leBytes k n ++ rest ∧ n < 256 ^ k := by
  obtain ⟨l, mid, h1, h2⟩ := bind_inv h
  obtain ⟨rfl, hl⟩ := take_inv h1
  obtain ⟨rfl, rfl⟩ := pure_inv h2
  subst hl
  exact ⟨by rw [leBytes_leVal], leVal_lt l⟩

theorem RT_u8 : RT encU8 decU8 := by
  intro x rest _
  unfold decU8 encU8
  rw [bind_ok (take_append (k := 1) [x] rest rfl)]
  rfl

theorem EX_u8 : EX encU8 decU8 := by
  intro bs x rest h
  obtain ⟨l, mid, h1, h2⟩ := bind_inv h
  obtain ⟨rfl, hl⟩ := take_inv h1
  obtain ⟨rfl, rfl⟩ := pure_inv h2
  match l, hl with
  | [y], _ => rfl

theorem RT_u16 : RT encU16 decU16 := by
  intro x rest _
  unfold decU16 encU16
  have hx := x.toNat_lt
  rw [bind_ok (decUInt_leBytes 2 _ rest (by omega))]
  simp [Dec.pure]

theorem EX_u16 : EX encU16 decU16 := by
  intro bs x rest h
  obtain ⟨n, mid, h1, h2⟩ := bind_inv h
  obtain ⟨rfl, hn⟩ := decUInt_inv h1
  obtain ⟨rfl, rfl⟩ := pure_inv h2
  unfold encU16
  rw [UInt16.toNat_ofNat_of_lt' (by simpa using hn)]

theorem RT_u64 : RT encU64 decU64 := by
  intro x rest _
  unfold decU64 encU64
  have hx := x.toNat_lt
  rw [bind_ok (decUInt_leBytes 8 _ rest (by omega))]
  simp [Dec.pure]

theorem EX_u64 : EX encU64 decU64 := by
  intro bs x rest h
  obtain ⟨n, mid, h1, h2⟩ := bind_inv h
  obtain ⟨rfl, hn⟩ := decUInt_inv h1
  obtain ⟨rfl, rfl⟩ := pure_inv h2
  unfold encU64
  rw [UInt64.toNat_ofNat_of_lt' (by simpa using hn)]

theorem decTag_encTag (n : Nat) (rest : List UInt8) (h : n < 256 ^ 4 := by decide) :
    decTag (encTag n ++ rest) = .ok (n, rest) := decUInt_leBytes 4 n rest h

theorem decTag_inv {n : Nat} {bs rest : List UInt8} (h : decTag bs = .ok (n, rest)) :
    bs = encTag n ++ rest := (decUInt_inv h).1

theorem RT_bool : RT encBool decBool := by
  intro x rest h
  have := RT_u8 (if x then 1 else 0) rest (by simp [encU8])
  unfold decBool encBool
  rw [show ([if x then (1 : UInt8) else 0]) = encU8 (if x then 1 else 0) from rfl, bind_ok this]
  cases x <;> simp [Dec.pure]

theorem EX_bool : EX encBool decBool := by
  intro bs x rest h
  obtain ⟨b, mid, h1, h2⟩ := bind_inv h
  have := EX_u8 _ _ _ h1
  subst this
  split at h2
  · obtain ⟨rfl, rfl⟩ := pure_inv h2
    simp_all [encU8, encBool]
  · split at h2
    · obtain ⟨rfl, rfl⟩ := pure_inv h2
      simp_all [encU8, encBool]
    · exact (fail_inv h2).elim

theorem RT_opt {α : Type} {e : α → List UInt8} {d : Dec α} (hd : RT e d) : RT (encOpt e) (decOpt d) := by
  intro x rest h
  unfold decOpt encOpt
  cases x with
  | none =>
    rw [show ([0] : List UInt8) ++ rest = encU8 0 ++ rest from rfl, bind_ok (RT_u8 0 rest (by simp [encU8]))]
    rfl
  | some a =>
    simp only [encOpt, List.length_cons] at h
    rw [show (1 :: e a) ++ rest = encU8 1 ++ (e a ++ rest) from rfl,
      bind_ok (RT_u8 1 _ (by simp [encU8]))]
    rw [if_neg (by decide), if_pos rfl, bind_ok (hd a rest (by omega))]
    rfl

theorem EX_opt {α : Type} {e : α → List UInt8} {d : Dec α} (hd : EX e d) : EX (encOpt e) (decOpt d) := by
  intro bs x rest h
  obtain ⟨b, mid, h1, h2⟩ := bind_inv h
  have := EX_u8 _ _ _ h1
  subst this
  split at h2
  · obtain ⟨rfl, rfl⟩ := pure_inv h2
    simp_all [encU8, encOpt]
  · split at h2
    · obtain ⟨a, mid2, h3, h4⟩ := bind_inv h2
      obtain ⟨rfl, rfl⟩ := pure_inv h4
      have := hd _ _ _ h3
      subst this
      simp_all [encU8, encOpt]
    · exact (fail_inv h2).elim

theorem RT_many {α : Type} {e : α → List UInt8} {d : Dec α} (hd : RT e d) (l : List α) (rest : List UInt8)
    (h : ((l.map e).flatten).length < 2 ^ 64) :
    decMany d l.length ((l.map e).flatten ++ rest) = .ok (l, rest) := by
  induction l with
  | nil => rfl
  | cons a l ih =>
    simp only [List.map_cons, List.flatten_cons, List.length_append] at h
    simp only [List.length_cons, decMany, List.map_cons, List.flatten_cons, List.append_assoc]
    rw [bind_ok (hd a _ (by omega)), bind_ok (ih (by omega))]
    rfl

theorem EX_many {α : Type} {e : α → List UInt8} {d : Dec α} (hd : EX e d) (n : Nat) (bs rest : List UInt8)
    (l : List α) (h : decMany d n bs = .ok (l, rest)) :
    bs = (l.map e).flatten ++ rest ∧ l.length = n := by
  induction n generalizing bs l with
  | zero =>
    obtain ⟨rfl, rfl⟩ := pure_inv h
    simp
  | succ n ih =>
    obtain ⟨a, mid, h1, h2⟩ := bind_inv h
    obtain ⟨as, mid2, h3, h4⟩ := bind_inv h2
    obtain ⟨rfl, rfl⟩ := pure_inv h4
    obtain ⟨rfl, h6⟩ := ih _ _ h3
    have := hd _ _ _ h1
    subst this
    simp [h6]

theorem length_le_flatten {α : Type} {e : α → List UInt8} (he : ∀ a, 1 ≤ (e a).length) (l : List α) :
    l.length ≤ ((l.map e).flatten).length := by
  induction l with
  | nil => simp
  | cons a l ih => have := he a; simp at ih ⊢; omega

theorem RT_vec {α : Type} {e : α → List UInt8} {d : Dec α} (he : ∀ a, 1 ≤ (e a).length) (hd : RT e d) :
    RT (encVec e) (decVec d) := by
  intro l rest h
  have hl := length_le_flatten he l
  simp only [encVec, encLen, List.length_append, leBytes_length] at h
  unfold decVec encVec decLen encLen
  rw [List.append_assoc, bind_ok (decUInt_leBytes 8 _ _ (by omega)), RT_many hd l rest (by omega)]

theorem EX_vec {α : Type} {e : α → List UInt8} {d : Dec α} (hd : EX e d) : EX (encVec e) (decVec d) := by
  intro bs l rest h
  obtain ⟨n, mid, h1, h2⟩ := bind_inv h
  obtain ⟨rfl, _⟩ := decUInt_inv h1
  obtain ⟨rfl, rfl⟩ := EX_many hd _ _ _ _ h2
  simp [encVec, encLen]

theorem RT_bytes : RT encBytes decBytes := by
  intro l rest h
  simp only [encBytes, encLen, List.length_append, leBytes_length] at h
  unfold decBytes encBytes decLen encLen
  rw [List.append_assoc, bind_ok (decUInt_leBytes 8 _ _ (by omega)), take_append l rest rfl]

theorem EX_bytes : EX encBytes decBytes := by
  intro bs l rest h
  obtain ⟨n, mid, h1, h2⟩ := bind_inv h
  obtain ⟨rfl, _⟩ := decUInt_inv h1
  obtain ⟨rfl, rfl⟩ := take_inv h2
  simp [encBytes, encLen]

theorem strOfBytes_strBytes (s : String) : strOfBytes (strBytes s) = some s := by
  unfold strOfBytes strBytes
  have h : ByteArray.mk s.toByteArray.data.toList.toArray = s.toByteArray := by
    apply ByteArray.ext; simp
  rw [dif_pos (by rw [h]; exact ByteArray.validateUTF8_eq_true_iff.mpr s.isValidUTF8)]

theorem strBytes_of_strOfBytes {l : List UInt8} {s : String} (h : strOfBytes l = some s) :
    strBytes s = l := by
  unfold strOfBytes at h
  split at h
  · simp only [Option.some.injEq] at h
    subst h
    simp [strBytes]
  · cases h

theorem strBytes_inj {s t : String} (h : strBytes s = strBytes t) : s = t := by
  have h1 := strOfBytes_strBytes s
  rw [h, strOfBytes_strBytes] at h1
  exact (Option.some.inj h1).symm

theorem RT_str : RT encStr decStr := by
  intro s rest h
  unfold encStr at h
  unfold decStr encStr
  rw [bind_ok (RT_bytes _ rest h), strOfBytes_strBytes]
  rfl

theorem EX_str : EX encStr decStr := by
  intro bs s rest h
  obtain ⟨l, mid, h1, h2⟩ := bind_inv h
  have := EX_bytes _ _ _ h1
  subst this
  cases hs : strOfBytes l with
  | some s' =>
    simp only [hs] at h2
    obtain ⟨rfl, rfl⟩ := pure_inv h2
    rw [encStr, strBytes_of_strOfBytes hs]
  | none =>
    simp only [hs] at h2
    exact (fail_inv h2).elim

theorem RT_nz : RT encNZ decNZ := by
  intro x rest h
  unfold decNZ encNZ
  rw [bind_ok (RT_u64 _ rest h), dif_pos x.property]
  rfl

theorem EX_nz : EX encNZ decNZ := by
  intro bs x rest h
  obtain ⟨n, mid, h1, h2⟩ := bind_inv h
  have := EX_u64 _ _ _ h1
  subst this
  split at h2
  · obtain ⟨rfl, rfl⟩ := pure_inv h2
    rfl
  · exact (fail_inv h2).elim

theorem RT_arr (k : Nat) : RT (fun o : { l : List UInt8 // l.length = k } => o.val) (decArr k) := by
  intro x rest _
  unfold decArr
  rw [bind_ok (take_append x.val rest x.property), dif_pos x.property]
  rfl

theorem EX_arr (k : Nat) : EX (fun o : { l : List UInt8 // l.length = k } => o.val) (decArr k) := by
  intro bs x rest h
  obtain ⟨l, mid, h1, h2⟩ := bind_inv h
  obtain ⟨rfl, rfl⟩ := take_inv h1
  split at h2
  · obtain ⟨rfl, rfl⟩ := pure_inv h2
    rfl
  · exact (fail_inv h2).elim

@[simp] theorem encTag_length (n : Nat) : (encTag n).length = 4 := leBytes_length 4 n

theorem RT_reason : RT encReason decReason := by
  intro x rest h
  unfold decReason
  cases x with
  | normal => rw [encReason, bind_ok (decTag_encTag 0 rest)]; rfl
  | kill => rw [encReason, bind_ok (decTag_encTag 1 rest)]; rfl
  | ignore => rw [encReason, bind_ok (decTag_encTag 2 rest)]; rfl
  | custom s =>
    simp only [encReason, List.length_append, encTag_length] at h
    rw [encReason, List.append_assoc, bind_ok (decTag_encTag 3 _)]
    simp only [show (3 : Nat) ≠ 0 by decide, show (3 : Nat) ≠ 1 by decide, show (3 : Nat) ≠ 2 by decide,
      if_false, if_true]
    rw [bind_ok (RT_str s rest (by omega))]; rfl

theorem EX_reason : EX encReason decReason := by
  intro bs x rest h
  obtain ⟨t, mid, h1, h2⟩ := bind_inv h
  have := decTag_inv h1
  subst this
  clear h h1
  split at h2
  · obtain ⟨rfl, rfl⟩ := pure_inv h2; simp_all [encReason]
  split at h2
  · obtain ⟨rfl, rfl⟩ := pure_inv h2; simp_all [encReason]
  split at h2
  · obtain ⟨rfl, rfl⟩ := pure_inv h2; simp_all [encReason]
  split at h2
  · obtain ⟨s, mid2, h3, h4⟩ := bind_inv h2
    obtain ⟨rfl, rfl⟩ := pure_inv h4
    have := EX_str _ _ _ h3
    subst this
    simp_all [encReason]
  · exact (fail_inv h2).elim

theorem RT_addr : RT encAddr decAddr := by
  intro x rest h
  unfold decAddr
  cases x with
  | v4 o p =>
    simp only [encAddr, List.length_append, encTag_length] at h
    simp only [encAddr, List.append_assoc]
    rw [bind_ok (decTag_encTag 0 _), if_pos rfl, bind_ok (RT_arr 4 o _ (by simp only; omega)),
      bind_ok (RT_u16 p rest (by omega))]
    rfl
  | v6 o p =>
    simp only [encAddr, List.length_append, encTag_length] at h
    simp only [encAddr, List.append_assoc]
    rw [bind_ok (decTag_encTag 1 _), if_neg (by decide), if_pos rfl,
      bind_ok (RT_arr 16 o _ (by simp only; omega)), bind_ok (RT_u16 p rest (by omega))]
    rfl

theorem EX_addr : EX encAddr decAddr := by
  intro bs x rest h
  obtain ⟨t, mid, h1, h2⟩ := bind_inv h
  have := decTag_inv h1
  subst this
  clear h h1
  split at h2
  · obtain ⟨o, mid2, h3, h4⟩ := bind_inv h2
    obtain ⟨p, mid3, h5, h6⟩ := bind_inv h4
    obtain ⟨rfl, rfl⟩ := pure_inv h6
    have h7 := EX_arr 4 _ _ _ h3
    have h8 := EX_u16 _ _ _ h5
    subst h7 h8
    simp_all [encAddr]
  split at h2
  · obtain ⟨o, mid2, h3, h4⟩ := bind_inv h2
    obtain ⟨p, mid3, h5, h6⟩ := bind_inv h4
    obtain ⟨rfl, rfl⟩ := pure_inv h6
    have h7 := EX_arr 16 _ _ _ h3
    have h8 := EX_u16 _ _ _ h5
    subst h7 h8
    simp_all [encAddr]
  · exact (fail_inv h2).elim

theorem RT_target : RT encTarget decTarget := by
  intro x rest h
  unfold decTarget
  cases x with
  | pid i =>
    simp only [encTarget, List.length_append, encTag_length] at h
    simp only [encTarget, List.append_assoc]
    rw [bind_ok (decTag_encTag 0 _), if_pos rfl, bind_ok (RT_nz i rest (by omega))]; rfl
  | named s =>
    simp only [encTarget, List.length_append, encTag_length] at h
    simp only [encTarget, List.append_assoc]
    rw [bind_ok (decTag_encTag 1 _), if_neg (by decide), if_pos rfl, bind_ok (RT_str s rest (by omega))]; rfl
  | alias i =>
    simp only [encTarget, List.length_append, encTag_length] at h
    simp only [encTarget, List.append_assoc]
    rw [bind_ok (decTag_encTag 2 _), if_neg (by decide), if_neg (by decide), if_pos rfl,
      bind_ok (RT_nz i rest (by omega))]; rfl

theorem EX_target : EX encTarget decTarget := by
  intro bs x rest h
  obtain ⟨t, mid, h1, h2⟩ := bind_inv h
  have := decTag_inv h1
  subst this
  clear h h1
  split at h2
  · obtain ⟨o, mid2, h3, h4⟩ := bind_inv h2
    obtain ⟨rfl, rfl⟩ := pure_inv h4
    have h7 := EX_nz _ _ _ h3
    subst h7
    simp_all [encTarget]
  split at h2
  · obtain ⟨o, mid2, h3, h4⟩ := bind_inv h2
    obtain ⟨rfl, rfl⟩ := pure_inv h4
    have h7 := EX_str _ _ _ h3
    subst h7
    simp_all [encTarget]
  split at h2
  · obtain ⟨o, mid2, h3, h4⟩ := bind_inv h2
    obtain ⟨rfl, rfl⟩ := pure_inv h4
    have h7 := EX_nz _ _ _ h3
    subst h7
    simp_all [encTarget]
  · exact (fail_inv h2).elim

theorem encTarget_pos (t : SendTarget) : 1 ≤ (encTarget t).length := by
  cases t <;> simp [encTarget] <;> omega

theorem encU64_pos (t : UInt64) : 1 ≤ (encU64 t).length := by simp [encU64]

theorem RT_vecTarget : RT (encVec encTarget) (decVec decTarget) := RT_vec encTarget_pos RT_target
theorem RT_vecU64 : RT (encVec encU64) (decVec decU64) := RT_vec encU64_pos RT_u64
theorem EX_vecTarget : EX (encVec encTarget) (decVec decTarget) := EX_vec EX_target
theorem EX_vecU64 : EX (encVec encU64) (decVec decU64) := EX_vec EX_u64

theorem RT_frame : RT encFrame decFrame := by
  intro x rest h
  unfold decFrame
  cases x <;> simp only [encFrame, List.length_append, encTag_length] at h <;>
    simp only [encFrame, List.append_assoc]
  case hello n a c =>
    rw [bind_ok (decTag_encTag 0 _), if_pos rfl, decHello, bind_ok (RT_str n _ (by omega)),
      bind_ok (RT_addr a _ (by omega)), bind_ok (RT_bytes c _ (by omega))]
    rfl
  case ping => rw [bind_ok (decTag_encTag 1 _)]; rfl
  case pong => rw [bind_ok (decTag_encTag 2 _)]; rfl
  case send ts m =>
    rw [bind_ok (decTag_encTag 3 _)]
    iterate 3 rw [if_neg (by decide)]
    rw [if_pos rfl, decSend, bind_ok (RT_vecTarget ts _ (by omega)), bind_ok (RT_bytes m _ (by omega))]
    rfl
  case monitor i p n f r =>
    rw [bind_ok (decTag_encTag 4 _)]
    iterate 4 rw [if_neg (by decide)]
    rw [if_pos rfl, decMonitor, bind_ok (RT_bool i _ (by omega)), bind_ok (RT_opt RT_u64 p _ (by omega)),
      bind_ok (RT_opt RT_str n _ (by omega)), bind_ok (RT_opt RT_u64 f _ (by omega)),
      bind_ok (RT_u64 r _ (by omega))]
    rfl
  case monitorDown ms r =>
    rw [bind_ok (decTag_encTag 5 _)]
    iterate 5 rw [if_neg (by decide)]
    rw [if_pos rfl, decMonitorDown, bind_ok (RT_vecU64 ms _ (by omega)), bind_ok (RT_reason r _ (by omega))]
    rfl
  case monitorUpdate p f r =>
    rw [bind_ok (decTag_encTag 6 _)]
    iterate 6 rw [if_neg (by decide)]
    rw [if_pos rfl, decMonitorUpdate, bind_ok (RT_u64 p _ (by omega)), bind_ok (RT_u64 f _ (by omega)),
      bind_ok (RT_u64 r _ (by omega))]
    rfl
  case link i p f =>
    rw [bind_ok (decTag_encTag 7 _)]
    iterate 7 rw [if_neg (by decide)]
    rw [if_pos rfl, decLink, bind_ok (RT_bool i _ (by omega)), bind_ok (RT_u64 p _ (by omega)),
      bind_ok (RT_u64 f _ (by omega))]
    rfl
  case linkDown ls f r =>
    rw [bind_ok (decTag_encTag 8 _)]
    iterate 8 rw [if_neg (by decide)]
    rw [if_pos rfl, decLinkDown, bind_ok (RT_vecU64 ls _ (by omega)), bind_ok (RT_u64 f _ (by omega)),
      bind_ok (RT_reason r _ (by omega))]
    rfl
  case exit p f r =>
    rw [bind_ok (decTag_encTag 9 _)]
    iterate 9 rw [if_neg (by decide)]
    rw [if_pos rfl, decExit, bind_ok (RT_u64 p _ (by omega)), bind_ok (RT_u64 f _ (by omega)),
      bind_ok (RT_reason r _ (by omega))]
    rfl

theorem EX_frame : EX encFrame decFrame := by
  intro bs x rest h
  obtain ⟨t, mid, h1, h2⟩ := bind_inv h
  have := decTag_inv h1
  subst this
  clear h h1
  split at h2
  · obtain ⟨n, m1, h3, h4⟩ := bind_inv h2
    obtain ⟨a, m2, h5, h6⟩ := bind_inv h4
    obtain ⟨c, m3, h7, h8⟩ := bind_inv h6
    obtain ⟨rfl, rfl⟩ := pure_inv h8
    have e1 := EX_str _ _ _ h3
    have e2 := EX_addr _ _ _ h5
    have e3 := EX_bytes _ _ _ h7
    subst e1 e2 e3
    simp_all [encFrame]
  split at h2
  · obtain ⟨rfl, rfl⟩ := pure_inv h2; simp_all [encFrame]
  split at h2
  · obtain ⟨rfl, rfl⟩ := pure_inv h2; simp_all [encFrame]
  split at h2
  · obtain ⟨ts, m1, h3, h4⟩ := bind_inv h2
    obtain ⟨c, m3, h7, h8⟩ := bind_inv h4
    obtain ⟨rfl, rfl⟩ := pure_inv h8
    have e1 := EX_vecTarget _ _ _ h3
    have e3 := EX_bytes _ _ _ h7
    subst e1 e3
    simp_all [encFrame]
  split at h2
  · obtain ⟨i, m1, h3, h4⟩ := bind_inv h2
    obtain ⟨p, m2, h5, h6⟩ := bind_inv h4
    obtain ⟨n, m3, h7, h8⟩ := bind_inv h6
    obtain ⟨f, m4, h9, h10⟩ := bind_inv h8
    obtain ⟨r, m5, h11, h12⟩ := bind_inv h10
    obtain ⟨rfl, rfl⟩ := pure_inv h12
    have e1 := EX_bool _ _ _ h3
    have e2 := EX_opt EX_u64 _ _ _ h5
    have e3 := EX_opt EX_str _ _ _ h7
    have e4 := EX_opt EX_u64 _ _ _ h9
    have e5 := EX_u64 _ _ _ h11
    subst e1 e2 e3 e4 e5
    simp_all [encFrame]
  split at h2
  · obtain ⟨ts, m1, h3, h4⟩ := bind_inv h2
    obtain ⟨c, m3, h7, h8⟩ := bind_inv h4
    obtain ⟨rfl, rfl⟩ := pure_inv h8
    have e1 := EX_vecU64 _ _ _ h3
    have e3 := EX_reason _ _ _ h7
    subst e1 e3
    simp_all [encFrame]
  split at h2
  · obtain ⟨n, m1, h3, h4⟩ := bind_inv h2
    obtain ⟨a, m2, h5, h6⟩ := bind_inv h4
    obtain ⟨c, m3, h7, h8⟩ := bind_inv h6
    obtain ⟨rfl, rfl⟩ := pure_inv h8
    have e1 := EX_u64 _ _ _ h3
    have e2 := EX_u64 _ _ _ h5
    have e3 := EX_u64 _ _ _ h7
    subst e1 e2 e3
    simp_all [encFrame]
  split at h2
  · obtain ⟨n, m1, h3, h4⟩ := bind_inv h2
    obtain ⟨a, m2, h5, h6⟩ := bind_inv h4
    obtain ⟨c, m3, h7, h8⟩ := bind_inv h6
    obtain ⟨rfl, rfl⟩ := pure_inv h8
    have e1 := EX_bool _ _ _ h3
    have e2 := EX_u64 _ _ _ h5
    have e3 := EX_u64 _ _ _ h7
    subst e1 e2 e3
    simp_all [encFrame]
  split at h2
  · obtain ⟨n, m1, h3, h4⟩ := bind_inv h2
    obtain ⟨a, m2, h5, h6⟩ := bind_inv h4
    obtain ⟨c, m3, h7, h8⟩ := bind_inv h6
    obtain ⟨rfl, rfl⟩ := pure_inv h8
    have e1 := EX_vecU64 _ _ _ h3
    have e2 := EX_u64 _ _ _ h5
    have e3 := EX_reason _ _ _ h7
    subst e1 e2 e3
    simp_all [encFrame]
  split at h2
  · obtain ⟨n, m1, h3, h4⟩ := bind_inv h2
    obtain ⟨a, m2, h5, h6⟩ := bind_inv h4
    obtain ⟨c, m3, h7, h8⟩ := bind_inv h6
    obtain ⟨rfl, rfl⟩ := pure_inv h8
    have e1 := EX_u64 _ _ _ h3
    have e2 := EX_u64 _ _ _ h5
    have e3 := EX_reason _ _ _ h7
    subst e1 e2 e3
    simp_all [encFrame]
  · exact (fail_inv h2).elim

/-! ### Framing -/

theorem encode_eq (f : Frame) (dst : List UInt8) :
    encode f dst = dst ++ (leBytes 4 ((encFrame f).length % 2 ^ 32) ++ encFrame f) := by
  unfold encode
  have h4 : (leBytes 4 0).length = 4 := leBytes_length 4 0
  simp only [List.append_assoc]
  rw [List.take_append_of_le_length (Nat.le_refl _), List.take_length]
  congr 1
  congr 1
  rw [← List.append_assoc, List.drop_append_of_le_length (by simp)]
  simp [List.drop_of_length_le]

theorem decode_encode_append (f : Frame) (rest : List UInt8) (h : (encFrame f).length < 2 ^ 32) :
    decode (encode f [] ++ rest) = (.frame f, rest) := by
  rw [encode_eq, Nat.mod_eq_of_lt h]
  generalize hb : encFrame f = body at *
  have hl : (leBytes 4 body.length).length = 4 := leBytes_length _ _
  simp only [List.nil_append, List.append_assoc]
  unfold decode
  have ht : List.take 4 (leBytes 4 body.length ++ (body ++ rest)) = leBytes 4 body.length := by
    rw [List.take_append_of_le_length (by simp), List.take_of_length_le (by simp)]
  have hd : List.drop 4 (leBytes 4 body.length ++ (body ++ rest)) = body ++ rest := by
    rw [List.drop_append_of_le_length (by simp), List.drop_of_length_le (by simp)]; rfl
  have hv : leVal (leBytes 4 body.length) = body.length := leVal_leBytes 4 _ (by omega)
  rw [if_neg (by simp), ht, hd]
  dsimp only
  rw [hv, if_neg (by simp)]
  rw [← hb, RT_frame f rest (by rw [hb]; omega)]
  dsimp only
  rw [hb, ← List.drop_drop, hd]
  simp

theorem drain_frame {buf rest : List UInt8} {f : Frame} (h : decode buf = (.frame f, rest)) :
    drain buf = (f :: (drain rest).1, (drain rest).2.1, (drain rest).2.2) := by
  rw [drain]
  split
  · rename_i f' r' h'
    rw [h] at h'
    simp only [Prod.mk.injEq, Decoded.frame.injEq] at h'
    obtain ⟨rfl, rfl⟩ := h'
    rfl
  · rename_i r' h'
    rw [h] at h'; simp at h'
  · rename_i r' h'
    rw [h] at h'; simp at h'

theorem drain_incomplete {buf rest : List UInt8} (h : decode buf = (.incomplete, rest)) :
    drain buf = ([], rest, false) := by
  rw [drain]
  split
  · rename_i f' r' h'
    rw [h] at h'; simp at h'
  · rename_i r' h'
    rw [h] at h'
    simp only [Prod.mk.injEq] at h'
    rw [h'.2]
  · rename_i r' h'
    rw [h] at h'; simp at h'

/-- Bytes that are a proper prefix of one encoded frame. -/
theorem decode_prefix (f : Frame) (h : (encFrame f).length < 2 ^ 32) (pre suf : List UInt8)
    (hp : pre ++ suf = encode f []) (hs : suf ≠ []) : decode pre = (.incomplete, pre) := by
  rw [encode_eq, Nat.mod_eq_of_lt h] at hp
  simp only [List.nil_append] at hp
  have hlen : pre.length + suf.length = 4 + (encFrame f).length := by
    have := congrArg List.length hp
    simpa using this
  have hspos : 0 < suf.length := List.length_pos_iff.mpr hs
  unfold decode
  by_cases h4 : pre.length < 4
  · rw [if_pos h4]
  · rw [if_neg h4]
    have ht : pre.take 4 = leBytes 4 (encFrame f).length := by
      have h1 : (pre ++ suf).take 4 = pre.take 4 := by
        rw [List.take_append_of_le_length (by omega)]
      have h2 : (leBytes 4 (encFrame f).length ++ encFrame f).take 4 = leBytes 4 (encFrame f).length := by
        rw [List.take_append_of_le_length (by simp), List.take_of_length_le (by simp)]
      rw [← h1, hp, h2]
    dsimp only
    rw [ht, leVal_leBytes 4 _ (by omega), if_pos (by omega)]

/-- Decoding one frame of a longer stream: frames come out one after the other. -/
theorem drain_encoded (fs : List Frame) (h : ∀ f ∈ fs, (encFrame f).length < 2 ^ 32) (tail : List UInt8) :
    drain ((fs.map fun f => encode f []).flatten ++ tail)
      = (fs ++ (drain tail).1, (drain tail).2.1, (drain tail).2.2) := by
  induction fs with
  | nil => simp
  | cons f fs ih =>
    simp only [List.map_cons, List.flatten_cons, List.append_assoc]
    rw [drain_frame (decode_encode_append f _ (h f (by simp)))]
    rw [ih (fun g hg => h g (by simp [hg]))]
    simp

/-- Splitting a stream at an arbitrary point: complete frames before the point, then a proper prefix. -/
theorem split_stream (fs : List Frame) (pre suf : List UInt8)
    (hp : pre ++ suf = (fs.map fun f => encode f []).flatten) :
    (∃ fs1 fs2 : List Frame, fs = fs1 ++ fs2 ∧ pre = (fs1.map fun f => encode f []).flatten ∧
        suf = (fs2.map fun f => encode f []).flatten) ∨
    (∃ (fs1 : List Frame) (g : Frame) (fs2 : List Frame) (p q : List UInt8), fs = fs1 ++ g :: fs2 ∧
        p ++ q = encode g [] ∧ p ≠ [] ∧ q ≠ [] ∧
        pre = (fs1.map fun f => encode f []).flatten ++ p ∧
        suf = q ++ (fs2.map fun f => encode f []).flatten) := by
  induction fs generalizing pre with
  | nil =>
    left
    simp only [List.map_nil, List.flatten_nil, List.append_eq_nil_iff] at hp
    exact ⟨[], [], by simp [hp.1, hp.2]⟩
  | cons f fs ih =>
    simp only [List.map_cons, List.flatten_cons] at hp
    rcases List.append_eq_append_iff.mp hp with ⟨q, hq1, hq2⟩ | ⟨p2, hp1, hp2⟩
    · -- encode f = pre ++ q
      by_cases hpre : pre = []
      · left
        refine ⟨[], f :: fs, rfl, by simp [hpre], ?_⟩
        subst hpre
        simp only [List.nil_append] at hq1
        simp [hq2, hq1]
      · by_cases hqe : q = []
        · left
          subst hqe
          refine ⟨[f], fs, rfl, ?_, ?_⟩
          · simpa using hq1.symm
          · simpa using hq2
        · right
          exact ⟨[], f, fs, pre, q, rfl, hq1.symm, hpre, hqe, by simp, by simpa using hq2⟩
    · -- pre = encode f ++ p2
      rcases ih p2 hp2.symm with ⟨a, b, h1, h2, h3⟩ | ⟨a, g, b, p, q, h1, h2, h3, h4, h5, h6⟩
      · left
        exact ⟨f :: a, b, by simp [h1], by simp [hp1, h2], h3⟩
      · right
        exact ⟨f :: a, g, b, p, q, by simp [h1], h2, h3, h4, by simp [hp1, h5], h6⟩

/-- Invariant of a connection: the buffer holds a proper prefix of the next frame (or nothing). -/
theorem readStream_correct (chunks : List (List UInt8)) (buf : List UInt8) (fs : List Frame)
    (h : ∀ f ∈ fs, (encFrame f).length < 2 ^ 32)
    (hs : buf ++ chunks.flatten = (fs.map fun f => encode f []).flatten)
    (hb : decode buf = (.incomplete, buf)) :
    readStream buf chunks = (fs, [], false) := by
  induction chunks generalizing buf fs with
  | nil =>
    simp only [List.flatten_nil, List.append_nil] at hs
    cases fs with
    | nil => simp at hs; simp [readStream, hs]
    | cons f fs =>
      simp only [List.map_cons, List.flatten_cons] at hs
      have := decode_encode_append f (fs.map fun f => encode f []).flatten (h f (by simp))
      rw [← hs, hb] at this
      simp at this
  | cons c cs ih =>
    simp only [List.flatten_cons, ← List.append_assoc] at hs
    rcases split_stream fs (buf ++ c) cs.flatten hs with ⟨fs1, fs2, h1, h2, h3⟩ | ⟨fs1, g, fs2, p, q, h1, h2, h3, h4, h5, h6⟩
    · have hd : drain (buf ++ c) = (fs1, [], false) := by
        have := drain_encoded fs1 (fun f hf => h f (by simp [h1, hf])) []
        have hn : drain [] = ([], [], false) := drain_incomplete (by simp [decode])
        rw [hn] at this
        simpa [h2] using this
      rw [readStream, hd]
      dsimp only
      rw [ih [] fs2 (fun f hf => h f (by simp [h1, hf])) (by simpa using h3) (by simp [decode])]
      simp [h1]
    · have hp := decode_prefix g (h g (by simp [h1])) p q h2 h4
      have hd : drain (buf ++ c) = (fs1, p, false) := by
        have := drain_encoded fs1 (fun f hf => h f (by simp [h1, hf])) p
        rw [drain_incomplete hp] at this
        simpa [h5] using this
      rw [readStream, hd]
      dsimp only
      rw [ih p (g :: fs2) (fun f hf => h f (by simp [h1] at hf ⊢; exact Or.inr hf)) (by simp [h6, ← h2]) hp]
      simp [h1]

end Verif.Codec
