import Verif.Hello
/-!
# Properties C07, C08: cookie authentication of peers

`Ideal E`: the keyed hash is injective (no collisions, no forgeries) and no key hash is the all-zero block. This is
the usual idealisation of HMAC; the theorems about *rejection* assume it, the ones about acceptance do not.
-/
namespace Verif.Hello
open Verif.Codec

structure Ideal (E : Env) : Prop where
  inj : ∀ k m k' m', E.core k m = E.core k' m' → k = k' ∧ m = m'
  hash_len : ∀ k, (E.hash k).length = 32
  hash_nonzero : ∀ k, E.hash k ≠ List.replicate 32 0

/-- C07. Nodes that share the cookie (or both have none) accept each other's hello, whatever name and address. -/
theorem C07_same_cookie_accepts (E : Env) (cookie : Option String) (name : String) (addr : SockAddr) :
    ((HelloMsg.new E cookie name addr).validate E cookie).1 = true := by
  simp [HelloMsg.new, HelloMsg.validate]

/-- C07. After being carried in a frame over the wire the hello still validates: the decoded fields are the sent
ones. -/
theorem C07_same_cookie_accepts_over_wire (E : Env) (cookie : Option String) (name : String) (addr : SockAddr)
    (h : (encFrame (.hello name addr (HelloMsg.new E cookie name addr).challenge)).length < 2 ^ 32) :
    ∃ n a c, decode (encode (.hello name addr (HelloMsg.new E cookie name addr).challenge) [])
        = (.frame (.hello n a c), []) ∧ ((HelloMsg.mk n a c).validate E cookie).1 = true := by
  refine ⟨name, addr, _, ?_, C07_same_cookie_accepts E cookie name addr⟩
  have := decode_encode_append (.hello name addr (HelloMsg.new E cookie name addr).challenge) [] h
  rw [List.append_nil] at this
  exact this

/-- C07, exact acceptance condition with an ideal MAC: a node with cookie `mine` accepts a message whose challenge
was computed under cookie `theirs` for `(name, addr)` iff the keys agree after padding and the *concatenation* of
name and address text is the signed one. -/
theorem C07_accepts_iff_partial (E : Env) (hE : Ideal E) (mine theirs : Option String)
    (name name' : String) (addr addr' : SockAddr) :
    (HelloMsg.validate E mine
        { name := name', addr := addr', challenge := (HelloMsg.new E theirs name addr).challenge }).1 = true ↔
      normKey E.hash (cookieKey mine) = normKey E.hash (cookieKey theirs) ∧
      strBytes name' ++ addrText E.v6 addr' = strBytes name ++ addrText E.v6 addr := by
  simp only [HelloMsg.validate, HelloMsg.new, hmac, beq_iff_eq]
  constructor
  · intro h; exact hE.inj _ _ _ _ h
  · intro ⟨h1, h2⟩; rw [h1, h2]

theorem normKey_inj_of_len {hash : List UInt8 → List UInt8} {k k' : List UInt8} (hk : k.length ≤ 64)
    (hk' : k'.length ≤ 64) (hl : k.length = k'.length)
    (h : normKey hash k = normKey hash k') : k = k' := by
  unfold normKey at h
  rw [if_pos hk, if_pos hk'] at h
  exact (List.append_inj h hl).1

/-- C07. A peer whose cookie differs is rejected: stated for cookies of the same length up to the HMAC block size
(the padding makes `c` and `c ++ "\0"` the same key, so some restriction is necessary). -/
theorem C07_wrong_cookie_rejected_partial (E : Env) (hE : Ideal E) (mine theirs : String)
    (hm : (strBytes mine).length ≤ 64) (ht : (strBytes theirs).length = (strBytes mine).length)
    (hne : mine ≠ theirs) (name name' : String) (addr addr' : SockAddr) :
    (HelloMsg.validate E (some mine)
      { name := name', addr := addr', challenge := (HelloMsg.new E (some theirs) name addr).challenge }).1 = false := by
  rw [Bool.eq_false_iff]
  intro h
  have := ((C07_accepts_iff_partial E hE (some mine) (some theirs) name name' addr addr').mp h).1
  exact hne (strBytes_inj (normKey_inj_of_len hm (by omega) (by simp [cookieKey, ht]) this))

/-- C07. With the right cookie, keeping the name but changing the printed address (or keeping the printed address and
changing the name) is rejected. -/
theorem C07_tampered_field_rejected_partial (E : Env) (hE : Ideal E) (mine theirs : Option String)
    (name name' : String) (addr addr' : SockAddr)
    (h : (name' = name ∧ addrText E.v6 addr' ≠ addrText E.v6 addr) ∨
         (name' ≠ name ∧ addrText E.v6 addr' = addrText E.v6 addr) ∨
         (name' ≠ name ∧ (strBytes name').length = (strBytes name).length)) :
    (HelloMsg.validate E mine
      { name := name', addr := addr', challenge := (HelloMsg.new E theirs name addr).challenge }).1 = false := by
  rw [Bool.eq_false_iff]
  intro hv
  have hc := ((C07_accepts_iff_partial E hE mine theirs name name' addr addr').mp hv).2
  rcases h with ⟨h1, h2⟩ | ⟨h1, h2⟩ | ⟨h1, h2⟩
  · rw [h1] at hc; exact h2 (List.append_cancel_left hc)
  · rw [h2] at hc; exact h1 (strBytes_inj (List.append_cancel_right hc))
  · exact h1 (strBytes_inj (List.append_inj hc h2).1)

/-- Addresses of the witness below. -/
def addrA : SockAddr := .v4 ⟨[2, 3, 4, 5], rfl⟩ 1
def addrB : SockAddr := .v4 ⟨[12, 3, 4, 5], rfl⟩ 1

/-- C07 (violated as a full claim). Name and address are authenticated only as one concatenation: a challenge issued
for the name `x1` at `2.3.4.5:1` is also accepted for the name `x` at `12.3.4.5:1`, whatever the MAC and cookie. -/
theorem C07_binding_violated :
    ∃ (name name' : String) (addr addr' : SockAddr), name ≠ name' ∧ addr ≠ addr' ∧
      ∀ (E : Env) (cookie : Option String),
        (HelloMsg.validate E cookie
          { name := name', addr := addr', challenge := (HelloMsg.new E cookie name addr).challenge }).1 = true := by
  refine ⟨"x1", "x", addrA, addrB, by decide, by decide, ?_⟩
  intro E cookie
  have : strBytes "x" ++ addrText E.v6 addrB = strBytes "x1" ++ addrText E.v6 addrA := by
    have h1 : strBytes "x" ++ addrText (fun _ _ => []) addrB
        = strBytes "x1" ++ addrText (fun _ _ => []) addrA := by decide
    exact h1
  simp [HelloMsg.validate, HelloMsg.new, hmac, this]

/-! ## The printed address determines an IPv4 address -/

/-- The byte of a decimal digit. -/
def Digit (b : UInt8) : Prop := 48 ≤ b.toNat ∧ b.toNat ≤ 57

theorem dec_rec (n : Nat) : dec n = if n < 10 then [UInt8.ofNat (48 + n)] else dec (n / 10) ++ [UInt8.ofNat (48 + n % 10)] := by
  unfold dec
  rw [Nat.toDigits_eq_if (by decide)]
  split
  · rename_i h; simp [Nat.toNat_digitChar_of_lt_ten h]
  · simp [Nat.toNat_digitChar_of_lt_ten (Nat.mod_lt n (by decide : 0 < 10))]

theorem digit_of (d : Nat) (h : d < 10) : Digit (UInt8.ofNat (48 + d)) ∧ (UInt8.ofNat (48 + d)).toNat = 48 + d := by
  have : (UInt8.ofNat (48 + d)).toNat = 48 + d := by simp; omega
  exact ⟨⟨by omega, by omega⟩, this⟩

theorem dec_digits (n : Nat) : ∀ b ∈ dec n, Digit b := by
  induction n using Nat.strongRecOn with
  | ind n ih =>
    intro b hb
    rw [dec_rec] at hb
    split at hb
    · rename_i h
      simp only [List.mem_singleton] at hb; subst hb
      exact (digit_of n h).1
    · rcases List.mem_append.1 hb with hb | hb
      · exact ih (n / 10) (by omega) b hb
      · simp only [List.mem_singleton] at hb; subst hb
        exact (digit_of _ (Nat.mod_lt n (by decide))).1

theorem dec_ne_nil (n : Nat) : dec n ≠ [] := by
  rw [dec_rec]; split <;> simp

theorem dec_inj : ∀ n m, dec n = dec m → n = m := by
  intro n
  induction n using Nat.strongRecOn with
  | ind n ih =>
    intro m h
    rw [dec_rec, dec_rec m] at h
    have hlen : ∀ k (x : UInt8), ([x] : List UInt8) ≠ dec k ++ [UInt8.ofNat (48 + m % 10)] := by
      intro k x hx
      have e := congrArg List.length hx
      have := List.length_pos_iff.2 (dec_ne_nil k)
      rw [List.length_append, List.length_singleton, List.length_singleton] at e; omega
    have hlen' : ∀ k (x : UInt8), dec k ++ [UInt8.ofNat (48 + n % 10)] ≠ [x] := by
      intro k x hx
      have e := congrArg List.length hx
      have := List.length_pos_iff.2 (dec_ne_nil k)
      rw [List.length_append, List.length_singleton, List.length_singleton] at e; omega
    split at h
    · split at h
      · rename_i h1 h2
        have := congrArg (fun l : List UInt8 => l.map UInt8.toNat) h
        simp only [List.map_cons, List.map_nil, (digit_of n h1).2, (digit_of m h2).2, List.cons.injEq, and_true] at this
        omega
      · exact absurd h (hlen _ _)
    · split at h
      · exact absurd h (hlen' _ _)
      · rename_i h1 h2
        obtain ⟨e1, e2⟩ := List.append_inj' h rfl
        have e3 := ih (n / 10) (by omega) _ e1
        have := congrArg (fun l : List UInt8 => l.map UInt8.toNat) e2
        simp only [List.map_cons, List.map_nil, (digit_of _ (Nat.mod_lt n (by decide : 0 < 10))).2, (digit_of _ (Nat.mod_lt m (by decide : 0 < 10))).2,
          List.cons.injEq, and_true] at this
        omega

/-- The last byte that is no digit is at the same place. -/
theorem last_sep {a a' d d' : List UInt8} {c c' : UInt8} (hd : ∀ b ∈ d, Digit b) (hd' : ∀ b ∈ d', Digit b) (hc : ¬ Digit c) (hc' : ¬ Digit c')
    (h : a ++ [c] ++ d = a' ++ [c'] ++ d') : a = a' ∧ c = c' ∧ d = d' := by
  have h := congrArg List.reverse h
  simp only [List.reverse_append, List.reverse_cons, List.reverse_nil, List.nil_append, List.singleton_append] at h
  have hd : ∀ b ∈ d.reverse, Digit b := fun b hb => hd b (by simpa using hb)
  have hd' : ∀ b ∈ d'.reverse, Digit b := fun b hb => hd' b (by simpa using hb)
  have key : ∀ (x y u v : List UInt8), (∀ b ∈ x, Digit b) → (∀ b ∈ y, Digit b) → x ++ c :: u = y ++ c' :: v → x = y ∧ c = c' ∧ u = v := by
    intro x
    induction x with
    | nil =>
      intro y u v _ hy h
      cases y with
      | nil => simp at h; exact ⟨rfl, h⟩
      | cons b y => simp at h; exact absurd (hy b (by simp)) (by rw [← h.1]; exact hc)
    | cons b x ih =>
      intro y u v hx hy h
      cases y with
      | nil => simp at h; exact absurd (hx b (by simp)) (by rw [h.1]; exact hc')
      | cons b' y =>
        simp at h
        obtain ⟨e1, e2, e3⟩ := ih y u v (fun b hb => hx b (.tail _ hb)) (fun b hb => hy b (.tail _ hb)) h.2
        exact ⟨by rw [h.1, e1], e2, e3⟩
  obtain ⟨e1, e2, e3⟩ := key _ _ _ _ hd hd' h
  exact ⟨by simpa using congrArg List.reverse e3, e2, by simpa using congrArg List.reverse e1⟩

theorem dec8_inj {a b : UInt8} (h : dec a.toNat = dec b.toNat) : a = b := UInt8.toNat_inj.1 (dec_inj _ _ h)

theorem dec8_text (a : UInt8) : strBytes (toString a.toNat) = dec a.toNat := by
  have : ∀ n : Fin 256, strBytes (toString n.val) = dec n.val := by decide +kernel
  exact this ⟨a.toNat, a.toNat_lt⟩

/-- C07. What a challenge binds, for IPv4 addresses and an ideal MAC: a hello with the challenge of another name and address is accepted
only if the port and all octets but the first are the signed ones, and digits have at most moved between the end of the name and the first
octet (as in `C07_binding_violated`). -/
theorem C07_binding_partial (E : Env) (hE : Ideal E) (mine theirs : Option String) (name name' : String)
    (a b c d a' b' c' d' : UInt8) (p p' : UInt16)
    (h : (HelloMsg.validate E mine
      { name := name', addr := .v4 ⟨[a', b', c', d'], rfl⟩ p',
        challenge := (HelloMsg.new E theirs name (.v4 ⟨[a, b, c, d], rfl⟩ p)).challenge }).1 = true) :
    p' = p ∧ b' = b ∧ c' = c ∧ d' = d ∧ strBytes name' ++ strBytes (toString a'.toNat) = strBytes name ++ strBytes (toString a.toNat) := by
  have hc := ((C07_accepts_iff_partial E hE mine theirs name name' _ _).mp h).2
  have txt : ∀ (n : String) (a b c d : UInt8) (p : UInt16), strBytes n ++ addrText E.v6 (.v4 ⟨[a, b, c, d], rfl⟩ p) =
      strBytes n ++ dec a.toNat ++ [46] ++ dec b.toNat ++ [46] ++ dec c.toNat ++ [46] ++ dec d.toNat ++ [58] ++ dec p.toNat := by
    intro n a b c d p
    simp [addrText, List.intercalate, List.intersperse]
  rw [txt, txt] at hc
  have n46 : ¬ Digit 46 := by simp [Digit]
  have n58 : ¬ Digit 58 := by simp [Digit]
  obtain ⟨hc, -, e1⟩ := last_sep (dec_digits _) (dec_digits _) n58 n58 hc
  obtain ⟨hc, -, e2⟩ := last_sep (dec_digits _) (dec_digits _) n46 n46 hc
  obtain ⟨hc, -, e3⟩ := last_sep (dec_digits _) (dec_digits _) n46 n46 hc
  obtain ⟨hc, -, e4⟩ := last_sep (dec_digits _) (dec_digits _) n46 n46 hc
  refine ⟨UInt16.toNat_inj.1 (dec_inj _ _ e1), dec8_inj e4, dec8_inj e3, dec8_inj e2, ?_⟩
  rw [dec8_text, dec8_text]; exact hc

/-- C07. With an ideal MAC a hello with the signed name and another IPv4 address is rejected. -/
theorem C07_tampered_address_rejected_partial (E : Env) (hE : Ideal E) (mine theirs : Option String) (name : String)
    (o o' : { l : List UInt8 // l.length = 4 }) (p p' : UInt16) (hne : SockAddr.v4 o' p' ≠ .v4 o p) :
    (HelloMsg.validate E mine { name := name, addr := .v4 o' p', challenge := (HelloMsg.new E theirs name (.v4 o p)).challenge }).1 = false := by
  rw [Bool.eq_false_iff]
  intro h
  obtain ⟨⟨l, hl⟩, hl'⟩ : ∃ x, x = o := ⟨o, rfl⟩
  match l, hl, o', hl', h, hne with
  | [a, b, c, d], _, ⟨[a', b', c', d'], _⟩, rfl, h, hne =>
    obtain ⟨rfl, rfl, rfl, rfl, e⟩ := C07_binding_partial E hE mine theirs name name a b c d a' b' c' d' p p' h
    have := List.append_cancel_left e
    apply hne
    rw [dec8_text, dec8_text] at this
    rw [dec8_inj this]

/-- C07. A hello can be validated once: afterwards its challenge is gone and a second validation fails. -/
theorem C07_validate_consumes (E : Env) (c c' : Option String) (h : HelloMsg)
    (hne : ∀ k m, E.core k m ≠ []) : ((h.validate E c).2.validate E c').1 = false := by
  simp [HelloMsg.validate, hmac, hne]

theorem all_zero_of_pad {k : List UInt8} (hk : k.length ≤ 64)
    (h : k ++ List.replicate (64 - k.length) 0 = List.replicate 64 0) : ∀ b ∈ k, b = 0 := by
  intro b hb
  have : b ∈ List.replicate 64 (0 : UInt8) := by rw [← h]; simp [hb]
  exact (List.mem_replicate.mp this).2

/-- C08. A node without a cookie accepts a peer with cookie `c` exactly when `c` is at most 64 bytes long and has only
zero bytes (in particular the empty cookie): "no cookie" is one fixed shared secret, not "accept anybody". -/
theorem C08_no_cookie_accepts_iff (E : Env) (hE : Ideal E) (c : String) (name : String) (addr : SockAddr) :
    ((HelloMsg.new E (some c) name addr).validate E none).1 = true ↔
      (strBytes c).length ≤ 64 ∧ ∀ b ∈ strBytes c, b = 0 := by
  have hiff := C07_accepts_iff_partial E hE none (some c) name name addr addr
  have : ({ name := name, addr := addr, challenge := (HelloMsg.new E (some c) name addr).challenge } : HelloMsg)
      = HelloMsg.new E (some c) name addr := rfl
  rw [this] at hiff
  rw [hiff]
  have h0 : normKey E.hash (cookieKey none) = List.replicate 64 0 := by
    simp [normKey, cookieKey, ← List.replicate_succ]
  rw [h0]
  simp only [and_true, cookieKey]
  constructor
  · intro h
    unfold normKey at h
    by_cases hl : (strBytes c).length ≤ 64
    · rw [if_pos hl] at h
      exact ⟨hl, all_zero_of_pad hl h.symm⟩
    · exfalso
      rw [if_neg hl] at h
      have hz := all_zero_of_pad (by rw [hE.hash_len]; omega) h.symm
      apply hE.hash_nonzero (strBytes c)
      apply List.eq_replicate_iff.mpr
      exact ⟨hE.hash_len _, hz⟩
  · intro ⟨hl, hz⟩
    unfold normKey
    rw [if_pos hl]
    symm
    apply List.eq_replicate_iff.mpr
    refine ⟨by simp; omega, ?_⟩
    intro b hb
    simp only [List.mem_append, List.mem_replicate] at hb
    rcases hb with h | h
    · exact hz b h
    · exact h.2

/-- C08. Two nodes without cookie accept each other. -/
theorem C08_no_cookie_mutual (E : Env) (name : String) (addr : SockAddr) :
    ((HelloMsg.new E none name addr).validate E none).1 = true := C07_same_cookie_accepts E none name addr

/-! Non-vacuity: an ideal environment exists, and a non-empty cookie is then rejected by a cookie-less node. -/

/-- A toy injective MAC: length-prefixed unary concatenation. -/
def toyEnv : Env where
  core k m := List.replicate k.length 1 ++ [0] ++ k ++ m
  hash _ := List.replicate 32 1
  v6 _ _ := []

theorem replicate_sep_inj {a b : Nat} {x y : List UInt8}
    (h : List.replicate a (1 : UInt8) ++ 0 :: x = List.replicate b 1 ++ 0 :: y) : a = b ∧ x = y := by
  induction a generalizing b with
  | zero =>
    cases b with
    | zero => simpa using h
    | succ b => simp [List.replicate_succ] at h
  | succ a ih =>
    cases b with
    | zero => simp [List.replicate_succ] at h
    | succ b =>
      simp only [List.replicate_succ, List.cons_append, List.cons.injEq, true_and] at h
      have := ih h
      exact ⟨by omega, this.2⟩

theorem toyEnv_ideal : Ideal toyEnv where
  inj k m k' m' h := by
    simp only [toyEnv, List.append_assoc, List.cons_append, List.nil_append] at h
    obtain ⟨h1, h2⟩ := replicate_sep_inj h
    exact List.append_inj h2 h1
  hash_len _ := by simp [toyEnv]
  hash_nonzero _ := by simp only [toyEnv]; decide

example : Ideal toyEnv ∧ ((HelloMsg.new toyEnv (some "secret") "a" addrA).validate toyEnv none).1 = false := by
  refine ⟨toyEnv_ideal, ?_⟩
  rw [Bool.eq_false_iff]
  intro h
  have := ((C08_no_cookie_accepts_iff toyEnv toyEnv_ideal "secret" "a" addrA).mp h).2
  exact absurd (this 115 (by decide)) (by decide)

example : (strBytes "abc").length ≤ 64 ∧ (strBytes "abd").length = (strBytes "abc").length ∧ "abc" ≠ "abd" := by
  decide

example : (HelloMsg.validate toyEnv (some "secret")
    { name := "x", addr := addrB, challenge := (HelloMsg.new toyEnv (some "secret") "x" addrA).challenge }).1 = false :=
  C07_tampered_address_rejected_partial toyEnv toyEnv_ideal _ _ "x" _ _ _ _ (by decide)

/-- `C07_binding_partial` is about something: the witness of `C07_binding_violated`. -/
example : strBytes "x" ++ strBytes (toString 12) = strBytes "x1" ++ strBytes (toString 2) :=
  (C07_binding_partial toyEnv toyEnv_ideal (some "s") (some "s") "x1" "x" 2 3 4 5 12 3 4 5 1 1 (by
    have : strBytes "x" ++ addrText toyEnv.v6 addrB = strBytes "x1" ++ addrText toyEnv.v6 addrA := by decide
    simp only [addrA, addrB] at this
    simp [HelloMsg.validate, HelloMsg.new, hmac, this])).2.2.2.2

end Verif.Hello
