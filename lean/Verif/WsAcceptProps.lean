import Verif.WsAccept
/-!
# C141: a websocket connection gets its handler if and only if it is accepted in time
-/
namespace Verif.WsAccept
variable {H Q A : Type}

/-! ## Specification -/

/-- The time that passes in a history. -/
def ticks : List (Act Q A) → Nat
  | [] => 0
  | .tick :: l => ticks l + 1
  | _ :: l => ticks l

/-- The handler that was started for the connection. -/
def handlerOf (s : St H A) (c : Nat) : Option H :=
  match s.conns c with
  | some ⟨_, .started h⟩ => some h
  | _ => none

/-- There is a process that still works on the handshake of the connection. -/
def InHandshake (s : St H A) (c : Nat) : Prop :=
  ∃ x, s.conns c = some x ∧ ((∃ t u, x.phase = .tls t u) ∨ (∃ u, x.phase = .request u) ∨ ∃ u ok h, x.phase = .answer u ok h)

/-- The process of the connection has panicked. -/
def Panicked (s : St H A) (c : Nat) : Prop := ∃ a, s.conns c = some ⟨a, .panicked⟩

/-- The connection an event belongs to. -/
def Act.conn : Act Q A → Option Nat
  | .incoming c _ | .secured c | .insecure c | .request c _ | .garbage c | .written c | .lost c => some c
  | .failed | .tick => none

/-- An event of connection `c`, or that time passes. -/
def concerns (c : Nat) : Act Q A → Bool
  | .tick => true
  | x => x.conn == some c

/-- The events in the life of a connection that do everything right (and the time that passes): what a client of a server with this configuration has to do. -/
def Well (cfg : Config H Q A) (c : Nat) (a : A) (q : Q) (l : List (Act Q A)) : Prop :=
  l.filter (fun x => x.conn == some c) =
    .incoming c a :: ((if cfg.tls then [.secured c] else []) ++ [.request c q, .written c])

/-! ## Lemmas -/

theorem ticks_append (l l' : List (Act Q A)) : ticks (l ++ l') = ticks l + ticks l' := by
  induction l with
  | nil => simp [ticks]
  | cons x l ih => cases x <;> simp [ticks, ih] <;> omega

theorem run_append (cfg : Config H Q A) (s : St H A) (l l' : List (Act Q A)) : run cfg s (l ++ l') = run cfg (run cfg s l) l' := by
  simp [run, List.foldl_append]

theorem run_cons (cfg : Config H Q A) (s : St H A) (x : Act Q A) (l : List (Act Q A)) : run cfg s (x :: l) = run cfg (step cfg s x) l := rfl

theorem snoc_induction {P : List (Act Q A) → Prop} (h0 : P []) (h1 : ∀ l x, P l → P (l ++ [x])) (l : List (Act Q A)) : P l := by
  have : ∀ n (l : List (Act Q A)), l.length = n → P l := by
    intro n
    induction n with
    | zero => intro l hl; rw [List.length_eq_zero_iff.1 hl]; exact h0
    | succ n ih =>
      intro l hl
      have hne : l ≠ [] := by rintro rfl; simp at hl
      rw [← List.dropLast_concat_getLast hne]
      exact h1 _ _ (ih _ (by simp [hl]))
  exact this _ l rfl

/-- What an event does to the entry of one connection. -/
def move (cfg : Config H Q A) (now : Nat) (c : Nat) (x : Act Q A) (o : Option (Conn H A)) : Option (Conn H A) :=
  match x, o with
  | .tick, some ⟨a, p⟩ => some ⟨a, expire (now + 1) p⟩
  | .incoming d a, none => if d = c then some ⟨a, enter cfg now⟩ else none
  | .secured d, some ⟨a, .tls t u⟩ => if d = c then some ⟨a, secured cfg now t⟩ else some ⟨a, .tls t u⟩
  | .insecure d, some ⟨a, .tls t u⟩ => if d = c then some ⟨a, .over⟩ else some ⟨a, .tls t u⟩
  | .request d q, some ⟨a, .request u⟩ => if d = c then some ⟨a, callback cfg a q u⟩ else some ⟨a, .request u⟩
  | .garbage d, some ⟨a, .request u⟩ => if d = c then some ⟨a, .over⟩ else some ⟨a, .request u⟩
  | .written d, some ⟨a, .answer u ok h⟩ => if d = c then some ⟨a, finish ok h⟩ else some ⟨a, .answer u ok h⟩
  | .lost d, some ⟨a, .answer u ok h⟩ => if d = c then some ⟨a, .over⟩ else some ⟨a, .answer u ok h⟩
  | _, o => o

theorem step_now (cfg : Config H Q A) (s : St H A) (x : Act Q A) : (step cfg s x).now = s.now + ticks [x] := by
  cases x <;> simp only [step] <;> (repeat' split) <;> simp [ticks, setPhase]

theorem step_conns (cfg : Config H Q A) (s : St H A) (x : Act Q A) (c : Nat) : (step cfg s x).conns c = move cfg s.now c x (s.conns c) := by
  cases x with
  | failed => rfl
  | tick => cases h : s.conns c <;> simp [step, move, h]
  | _ d =>
    by_cases hd : d = c
    · subst hd
      rcases h : s.conns d with _ | ⟨a, p⟩
      · simp [step, move, h]
      · cases p <;> simp [step, move, h, setPhase]
    · have hd' : ¬ c = d := fun e => hd e.symm
      rcases h : s.conns d with _ | ⟨a, p⟩ <;> rcases h' : s.conns c with _ | ⟨a', p'⟩ <;> (try cases p) <;> (try cases p') <;>
        simp [step, move, h, h', setPhase, hd, hd']

theorem run_now (cfg : Config H Q A) (s : St H A) (l : List (Act Q A)) : (run cfg s l).now = s.now + ticks l := by
  induction l generalizing s with
  | nil => rfl
  | cons x l ih =>
    rw [run_cons, ih, step_now, show x :: l = [x] ++ l from rfl, ticks_append]; omega

/-- What is known of connection `c` after history `l`. -/
def Inv (cfg : Config H Q A) (c : Nat) (l : List (Act Q A)) : Option (Conn H A) → Prop
  | none => ∀ a, .incoming c a ∉ l
  | some ⟨a, p⟩ => ∃ l0 l1, l = l0 ++ .incoming c a :: l1 ∧ (∀ a', .incoming c a' ∉ l0) ∧
    match p with
    | .tls t u => t = ticks l0 ∧ u = cfg.timeout.map (ticks l0 + ·) ∧ (∀ T, cfg.timeout = some T → ticks l1 ≤ T)
    | .request u => u = cfg.timeout.map (ticks l0 + ·) ∧ (∀ T, cfg.timeout = some T → ticks l1 ≤ T) ∧ (cfg.tls = true → .secured c ∈ l1)
    | .answer u ok h => u = cfg.timeout.map (ticks l0 + ·) ∧ (∀ T, cfg.timeout = some T → ticks l1 ≤ T) ∧
        ∃ q l2 l3, l1 = l2 ++ .request c q :: l3 ∧ (cfg.tls = true → .secured c ∈ l2) ∧ (ok = true → ∃ h', h = some h' ∧ cfg.accept a q = .accept h')
    | .started h => ∃ q l2 l3 l4, l1 = l2 ++ .request c q :: l3 ++ .written c :: l4 ∧ (cfg.tls = true → .secured c ∈ l2) ∧
        (∀ T, cfg.timeout = some T → ticks (l2 ++ l3) ≤ T) ∧ cfg.accept a q = .accept h
    | .over => True
    | .panicked => ∃ q, .request c q ∈ l1 ∧ cfg.accept a q = .panic

theorem inv (cfg : Config H Q A) (c : Nat) (l : List (Act Q A)) : Inv cfg c l ((run cfg start l).conns c) := by
  induction l using snoc_induction with
  | h0 => simp [run, start, Inv]
  | h1 l x ih =>
    rw [run_append, run_cons, show ∀ s : St H A, run cfg s [] = s from fun _ => rfl, step_conns, run_now]
    generalize (run cfg start l).conns c = o at ih
    rw [show (start : St H A).now + ticks l = ticks l by simp [start]]
    match o, ih with
    | none, ih =>
      simp only [Inv] at ih
      by_cases hx : ∃ a, x = .incoming c a
      · obtain ⟨a, rfl⟩ := hx
        simp only [move, if_true, Inv]
        refine ⟨l, [], by simp, ih, ?_⟩
        cases ht : cfg.tls with
        | true =>
          simp only [enter, ht, if_true]
          exact ⟨trivial, trivial, fun _ _ => by simp [ticks]⟩
        | false =>
          simp only [enter, ht, Bool.false_eq_true, if_false]
          exact ⟨trivial, fun _ _ => by simp [ticks], fun h => absurd h (by simp)⟩
      · have : move cfg (ticks l) c x (none : Option (Conn H A)) = none := by
          cases x <;> simp [move]
          rename_i d a
          rintro rfl; exact hx ⟨a, rfl⟩
        rw [this]
        intro a ha
        rcases List.mem_append.1 ha with h | h
        · exact ih a h
        · exact hx ⟨a, (List.mem_singleton.1 h).symm⟩
    | some ⟨a, p⟩, ⟨l0, l1, hl, h0, hp⟩ =>
      have hnow : ticks l = ticks l0 + ticks l1 := by rw [hl, ticks_append]; rfl
      have hap : l ++ [x] = l0 ++ .incoming c a :: (l1 ++ [x]) := by rw [hl]; simp
      have htk : ∀ y : Act Q A, y ≠ .tick → ticks [y] = 0 := by intro y hy; cases y <;> simp_all [ticks]
      have htk' : ∀ T, ticks l1 ≤ T → x ≠ .tick → ticks (l1 ++ [x]) ≤ T := by
        intro T h hx; rw [ticks_append, htk x hx]; omega
      have hlate : ∀ T, late (some (ticks l0 + T)) (ticks l + 1) = false → ticks (l1 ++ [.tick]) ≤ T := by
        intro T h
        simp [late] at h
        rw [ticks_append]; simp [ticks]; omega
      cases p with
      | started h =>
        have : move cfg (ticks l) c x (some ⟨a, .started h⟩) = some ⟨a, .started h⟩ := by cases x <;> simp [move, expire]
        rw [this]
        obtain ⟨q, l2, l3, l4, e, h1⟩ := hp
        exact ⟨l0, l1 ++ [x], hap, h0, q, l2, l3, l4 ++ [x], by rw [e]; simp, h1⟩
      | over =>
        have : move cfg (ticks l) c x (some ⟨a, .over⟩) = some ⟨a, .over⟩ := by cases x <;> simp [move, expire]
        rw [this]
        exact ⟨l0, l1 ++ [x], hap, h0, trivial⟩
      | panicked =>
        have : move cfg (ticks l) c x (some ⟨a, .panicked⟩) = some ⟨a, .panicked⟩ := by cases x <;> simp [move, expire]
        rw [this]
        obtain ⟨q, h1, h2⟩ := hp
        exact ⟨l0, l1 ++ [x], hap, h0, q, by simp [h1], h2⟩
      | tls t u =>
        obtain ⟨rfl, rfl, h3⟩ := hp
        by_cases hx : x = .tick
        · subst hx
          simp only [move, expire]
          split
          · exact ⟨l0, l1 ++ [.tick], hap, h0, trivial⟩
          · rename_i hl'
            refine ⟨l0, l1 ++ [.tick], hap, h0, rfl, rfl, fun T hT => ?_⟩
            simp only [hT, Option.map_some, Bool.not_eq_true] at hl'
            exact hlate T hl'
        · by_cases hs : x = .secured c
          · subst hs
            simp only [move, if_true]
            refine ⟨l0, l1 ++ [.secured c], hap, h0, ?_, fun T hT => htk' T (h3 T hT) hx, fun _ => by simp⟩
            cases hT : cfg.timeout with
            | none => rfl
            | some T =>
              have := h3 T hT
              simp only [Option.map_some, Option.some.injEq]
              omega
          · by_cases hi : x = .insecure c
            · subst hi
              simp only [move, if_true]
              exact ⟨l0, l1 ++ [.insecure c], hap, h0, trivial⟩
            · have : move cfg (ticks l) c x (some ⟨a, .tls (ticks l0) (cfg.timeout.map (ticks l0 + ·))⟩) =
                  some ⟨a, .tls (ticks l0) (cfg.timeout.map (ticks l0 + ·))⟩ := by
                cases x <;> simp [move] <;> simp_all
              rw [this]
              exact ⟨l0, l1 ++ [x], hap, h0, rfl, rfl, fun T hT => htk' T (h3 T hT) hx⟩
      | request u =>
        obtain ⟨rfl, h3, h4⟩ := hp
        have h4' : cfg.tls = true → .secured c ∈ l1 ++ [x] := fun h => List.mem_append_left _ (h4 h)
        by_cases hx : x = .tick
        · subst hx
          simp only [move, expire]
          split
          · exact ⟨l0, l1 ++ [.tick], hap, h0, trivial⟩
          · rename_i hl'
            refine ⟨l0, l1 ++ [.tick], hap, h0, rfl, fun T hT => ?_, h4'⟩
            simp only [hT, Option.map_some, Bool.not_eq_true] at hl'
            exact hlate T hl'
        · by_cases hs : ∃ q, x = .request c q
          · obtain ⟨q, rfl⟩ := hs
            simp only [move, if_true]
            refine ⟨l0, l1 ++ [.request c q], hap, h0, ?_⟩
            rw [callback]
            cases hv : cfg.accept a q with
            | accept h => exact ⟨rfl, fun T hT => htk' T (h3 T hT) hx, q, l1, [], rfl, h4, fun _ => ⟨h, rfl, hv⟩⟩
            | refuse => exact ⟨rfl, fun T hT => htk' T (h3 T hT) hx, q, l1, [], rfl, h4, fun h => by cases h⟩
            | panic => exact ⟨q, by simp, hv⟩
          · by_cases hi : x = .garbage c
            · subst hi
              simp only [move, if_true]
              exact ⟨l0, l1 ++ [.garbage c], hap, h0, trivial⟩
            · have : move cfg (ticks l) c x (some ⟨a, .request (cfg.timeout.map (ticks l0 + ·))⟩) = some ⟨a, .request (cfg.timeout.map (ticks l0 + ·))⟩ := by
                cases x <;> simp [move] <;> simp_all
              rw [this]
              exact ⟨l0, l1 ++ [x], hap, h0, rfl, fun T hT => htk' T (h3 T hT) hx, h4'⟩
      | answer u ok h =>
        obtain ⟨rfl, h3, q, l2, l3, e, h4, h5⟩ := hp
        have e' : l1 ++ [x] = l2 ++ .request c q :: (l3 ++ [x]) := by rw [e]; simp
        by_cases hx : x = .tick
        · subst hx
          simp only [move, expire]
          split
          · exact ⟨l0, l1 ++ [.tick], hap, h0, trivial⟩
          · rename_i hl'
            refine ⟨l0, l1 ++ [.tick], hap, h0, rfl, fun T hT => ?_, q, l2, l3 ++ [.tick], e', h4, h5⟩
            simp only [hT, Option.map_some, Bool.not_eq_true] at hl'
            exact hlate T hl'
        · by_cases hs : x = .written c
          · subst hs
            simp only [move, if_true, finish]
            split
            · rename_i hok
              obtain ⟨h', rfl, hv⟩ := h5 hok
              refine ⟨l0, l1 ++ [.written c], hap, h0, q, l2, l3, [], by rw [e], h4, fun T hT => ?_, hv⟩
              have := h3 T hT
              rw [e, ticks_append, show ∀ l : List (Act Q A), ticks (.request c q :: l) = ticks l from fun _ => rfl] at this
              rw [ticks_append]; exact this
            · exact ⟨l0, l1 ++ [.written c], hap, h0, trivial⟩
          · by_cases hi : x = .lost c
            · subst hi
              simp only [move, if_true]
              exact ⟨l0, l1 ++ [.lost c], hap, h0, trivial⟩
            · have : move cfg (ticks l) c x (some ⟨a, .answer (cfg.timeout.map (ticks l0 + ·)) ok h⟩) =
                  some ⟨a, .answer (cfg.timeout.map (ticks l0 + ·)) ok h⟩ := by
                cases x <;> simp [move] <;> simp_all
              rw [this]
              exact ⟨l0, l1 ++ [x], hap, h0, rfl, fun T hT => htk' T (h3 T hT) hx, q, l2, l3 ++ [x], e', h4, h5⟩

/-! ## The theorems -/

/-- C141. A handler is started only for a connection that came in, completed the TLS handshake (if there is one), sent a request that `accept` accepted with this very handler, and was told so, all within the timeout. -/
theorem C141_only_if_accepted (cfg : Config H Q A) (l : List (Act Q A)) (c : Nat) (h : H) (hs : handlerOf (run cfg start l) c = some h) :
    ∃ l0 a l1 q l2 l3, l = l0 ++ .incoming c a :: l1 ++ .request c q :: l2 ++ .written c :: l3 ∧ cfg.accept a q = .accept h ∧
      (cfg.tls = true → .secured c ∈ l1) ∧ (∀ T, cfg.timeout = some T → ticks (l1 ++ l2) ≤ T) := by
  have := inv cfg c l
  rw [handlerOf] at hs
  split at hs
  · rename_i a h' e
    cases hs
    rw [e] at this
    obtain ⟨l0, l1, rfl, -, q, l2, l3, l4, rfl, h1, h2, h3⟩ := this
    exact ⟨l0, a, l2, q, l3, l4, by simp, h3, h1, h2⟩
  · cases hs

/-- C141. Nothing else keeps a process: when the timeout has passed since the connection came in, its process has started the handler or is gone. -/
theorem C141_no_lingering (cfg : Config H Q A) (T : Nat) (hT : cfg.timeout = some T) (l0 l1 : List (Act Q A)) (c : Nat) (a : A)
    (hnew : ∀ a', .incoming c a' ∉ l0) (ht : T < ticks l1) : ¬ InHandshake (run cfg start (l0 ++ .incoming c a :: l1)) c := by
  have hsplit : ∀ (m0 m1 : List (Act Q A)) a', l0 ++ .incoming c a :: l1 = m0 ++ .incoming c a' :: m1 → (∀ b, .incoming c b ∉ m0) → ticks m1 = ticks l1 := by
    intro m0 m1 a' e hm
    rcases List.append_eq_append_iff.1 e with ⟨k, h1, h2⟩ | ⟨k, h1, h2⟩
    · cases k with
      | nil => simp at h2; rw [h2.2]
      | cons y k =>
        simp only [List.cons_append, List.cons.injEq] at h2
        obtain ⟨rfl, -⟩ := h2
        exact absurd (by rw [h1]; simp) (hm a)
    · cases k with
      | nil => simp at h2; rw [h2.2]
      | cons y k =>
        simp only [List.cons_append, List.cons.injEq] at h2
        obtain ⟨rfl, -⟩ := h2
        exact absurd (by rw [h1]; simp) (hnew a')
  rintro ⟨⟨b, p⟩, e, hp⟩
  have := inv cfg c (l0 ++ .incoming c a :: l1)
  rw [e] at this
  obtain ⟨m0, m1, h1, h2, h3⟩ := this
  have h4 := hsplit m0 m1 b h1 h2
  rcases hp with ⟨t, u, rfl⟩ | ⟨u, rfl⟩ | ⟨u, ok, h, rfl⟩
  · have := h3.2.2 T hT; omega
  · have := h3.2.1 T hT; omega
  · have := h3.2.1 T hT; omega

/-- C141. The process panics only if `accept` does: when the handshake is complete there is a handler. -/
theorem C141_panics_only_in_accept (cfg : Config H Q A) (l : List (Act Q A)) (c : Nat) (h : Panicked (run cfg start l) c) :
    ∃ a q, .incoming c a ∈ l ∧ .request c q ∈ l ∧ cfg.accept a q = .panic := by
  obtain ⟨a, e⟩ := h
  have := inv cfg c l
  rw [e] at this
  obtain ⟨l0, l1, rfl, -, q, h1, h2⟩ := this
  exact ⟨a, q, by simp, by simp [h1], h2⟩

theorem move_other (cfg : Config H Q A) (now c : Nat) (x : Act Q A) (o : Option (Conn H A)) (h : concerns c x = false) : move cfg now c x o = o := by
  rcases o with _ | ⟨a, p⟩
  · cases x <;> simp_all [move, concerns, Act.conn]
  · cases p <;> cases x <;> simp_all [move, concerns, Act.conn]

theorem run_own (cfg : Config H Q A) (c : Nat) (l : List (Act Q A)) (s s' : St H A) (h1 : s.now = s'.now) (h2 : s.conns c = s'.conns c) :
    (run cfg s l).conns c = (run cfg s' (l.filter (concerns c))).conns c := by
  induction l generalizing s s' with
  | nil => exact h2
  | cons x l ih =>
    rw [List.filter_cons]
    split
    · rw [run_cons, run_cons]
      exact ih _ _ (by rw [step_now, step_now, h1]) (by rw [step_conns, step_conns, h1, h2])
    · rename_i h
      have h : concerns c x = false := by simpa using h
      rw [run_cons]
      refine ih _ _ ?_ ?_
      · rw [step_now, h1]
        cases x <;> simp_all [ticks, concerns]
      · rw [step_conns, move_other _ _ _ _ _ h, h2]

/-- C141. Each connection at its own pace: what becomes of one depends only on its own events and on the time, whatever the other clients do (or do not do), and however often the listener fails. -/
theorem C141_on_its_own (cfg : Config H Q A) (c : Nat) (l : List (Act Q A)) :
    (run cfg start l).conns c = (run cfg start (l.filter (concerns c))).conns c :=
  run_own cfg c l start start rfl rfl

/-- What has been decided is final. -/
theorem settled (cfg : Config H Q A) (c : Nat) (l : List (Act Q A)) (s : St H A) (x : Conn H A) (hx : s.conns c = some x)
    (hp : (∃ h, x.phase = .started h) ∨ x.phase = .over ∨ x.phase = .panicked) : (run cfg s l).conns c = some x := by
  induction l generalizing s with
  | nil => exact hx
  | cons y l ih =>
    rw [run_cons]
    refine ih _ ?_
    rw [step_conns, hx]
    obtain ⟨a, p⟩ := x
    rcases hp with ⟨h, rfl⟩ | rfl | rfl <;> cases y <;> simp [move, expire]

/-- C141. A request that `accept` refuses gets no handler, whatever is sent later. -/
theorem C141_refused (cfg : Config H Q A) (l l' : List (Act Q A)) (c : Nat) (a : A) (u : Option Nat) (q : Q) (h : H)
    (hw : (run cfg start l).conns c = some ⟨a, .request u⟩) (hr : ∀ h, cfg.accept a q ≠ .accept h) :
    handlerOf (run cfg start (l ++ .request c q :: l')) c ≠ some h := by
  rw [run_append, run_cons]
  have key : ∀ (l' : List (Act Q A)) (s : St H A), (∃ u o, s.conns c = some ⟨a, .answer u false o⟩) ∨ s.conns c = some ⟨a, .over⟩ ∨ s.conns c = some ⟨a, .panicked⟩ →
      handlerOf (run cfg s l') c ≠ some h := by
    intro l'
    induction l' with
    | nil =>
      intro s hs
      rcases hs with ⟨u, o, hs⟩ | hs | hs <;> simp [run, handlerOf, hs]
    | cons y l' ih =>
      intro s hs
      rw [run_cons]
      refine ih _ ?_
      rw [step_conns]
      rcases hs with ⟨u, o, hs⟩ | hs | hs
      · rw [hs]
        cases y <;> simp only [move, expire, finish] <;> (try split) <;> simp
      · rw [hs]; cases y <;> simp [move, expire]
      · rw [hs]; cases y <;> simp [move, expire]
  refine key l' _ ?_
  rw [step_conns, hw]
  simp only [move, if_true, callback]
  cases hv : cfg.accept a q with
  | accept h => exact absurd hv (hr h)
  | refuse => exact .inl ⟨_, _, rfl⟩
  | panic => exact .inr (.inr rfl)

/-- C141. A handler is started once: it stays the handler of its connection. -/
theorem C141_one_handler (cfg : Config H Q A) (l l' : List (Act Q A)) (c : Nat) (h : H) (hs : handlerOf (run cfg start l) c = some h) :
    handlerOf (run cfg start (l ++ l')) c = some h := by
  rw [run_append]
  rw [handlerOf] at hs
  split at hs
  · rename_i a h' e
    cases hs
    rw [handlerOf, settled cfg c l' _ _ e (.inl ⟨_, rfl⟩)]
  · cases hs

/-- `l` leads a connection with the events `es` still to come, in time, to its handler. -/
theorem goes_on (cfg : Config H Q A) (c : Nat) (a : A) (q : Q) (h : H) (ha : cfg.accept a q = .accept h) (t0 : Nat) (l : List (Act Q A)) (s : St H A)
    (hn : t0 ≤ s.now) (ht : ∀ T, cfg.timeout = some T → s.now + ticks l ≤ t0 + T) :
    (s.conns c = some ⟨a, .tls t0 (cfg.timeout.map (t0 + ·))⟩ → l.filter (fun x => x.conn == some c) = [.secured c, .request c q, .written c] →
      (run cfg s l).conns c = some ⟨a, .started h⟩) ∧
    (s.conns c = some ⟨a, .request (cfg.timeout.map (t0 + ·))⟩ → l.filter (fun x => x.conn == some c) = [.request c q, .written c] →
      (run cfg s l).conns c = some ⟨a, .started h⟩) ∧
    (s.conns c = some ⟨a, .answer (cfg.timeout.map (t0 + ·)) true (some h)⟩ → l.filter (fun x => x.conn == some c) = [.written c] →
      (run cfg s l).conns c = some ⟨a, .started h⟩) := by
  induction l generalizing s with
  | nil => simp
  | cons x l ih =>
    have hs := step_conns cfg s x c
    have hnow := step_now cfg s x
    have ht' : ∀ T, cfg.timeout = some T → (step cfg s x).now + ticks l ≤ t0 + T := by
      intro T hT
      have := ht T hT
      rw [show x :: l = [x] ++ l from rfl, ticks_append] at this
      omega
    have hl : ticks [x] = 1 → late (cfg.timeout.map (t0 + ·)) (s.now + 1) = false := by
      intro h1
      cases hT : cfg.timeout with
      | none => rfl
      | some T =>
        have := ht' T hT
        simp [late]; omega
    obtain ⟨i1, i2, i3⟩ := ih (step cfg s x) (by omega) ht'
    by_cases hc : x.conn = some c
    · simp only [List.filter_cons, hc, beq_self_eq_true, if_true, List.cons.injEq]
      refine ⟨?_, ?_, ?_⟩
      · rintro h1 ⟨rfl, h2⟩
        rw [run_cons]
        refine i2 ?_ h2
        rw [hs, h1]
        simp only [move, if_true, secured]
        cases hT : cfg.timeout with
        | none => rfl
        | some T =>
          have := ht T hT
          simp only [Option.map_some, Option.some.injEq, Conn.mk.injEq, Phase.request.injEq, true_and]
          omega
      · rintro h1 ⟨rfl, h2⟩
        rw [run_cons]
        refine i3 ?_ h2
        rw [hs, h1]
        simp [move, callback, ha]
      · rintro h1 ⟨rfl, h2⟩
        rw [run_cons]
        refine settled cfg c l _ _ ?_ (.inl ⟨h, rfl⟩)
        rw [hs, h1]
        simp [move, finish]
    · have hne : (x.conn == some c) = false := by simpa using hc
      simp only [List.filter_cons, hne]
      by_cases hx : x = .tick
      · subst hx
        have hl := hl rfl
        refine ⟨fun h1 h2 => i1 ?_ h2, fun h1 h2 => i2 ?_ h2, fun h1 h2 => i3 ?_ h2⟩ <;>
          · rw [hs, h1]; simp [move, expire, hl]
      · have : concerns c x = false := by
          cases x <;> simp_all [concerns]
        rw [move_other _ _ _ _ _ this] at hs
        exact ⟨fun h1 h2 => i1 (hs.trans h1) h2, fun h1 h2 => i2 (hs.trans h1) h2, fun h1 h2 => i3 (hs.trans h1) h2⟩

/-- C141. Whatever has happened before, and whatever the other clients do meanwhile: a new connection that makes the handshake in time with a request that `accept` accepts gets its handler. -/
theorem C141_if_accepted (cfg : Config H Q A) (l0 l1 : List (Act Q A)) (c : Nat) (a : A) (q : Q) (h : H) (hnew : ∀ a', .incoming c a' ∉ l0)
    (hw : Well cfg c a q (.incoming c a :: l1)) (ht : ∀ T, cfg.timeout = some T → ticks l1 ≤ T) (ha : cfg.accept a q = .accept h) :
    handlerOf (run cfg start (l0 ++ .incoming c a :: l1)) c = some h := by
  have h0 : (run cfg start l0).conns c = none := by
    have := inv cfg c l0
    rcases e : (run cfg start l0).conns c with _ | ⟨b, p⟩
    · rfl
    · rw [e] at this
      obtain ⟨m0, m1, rfl, -⟩ := this
      exact absurd (by simp) (hnew b)
  rw [run_append, run_cons]
  have hs := step_conns cfg (run cfg start l0) (.incoming c a) c
  have hn := step_now cfg (run cfg start l0) (.incoming c a)
  rw [h0] at hs
  simp only [move, if_true, enter] at hs
  have hn : (step cfg (run cfg start l0) (.incoming c a)).now = (run cfg start l0).now := hn
  obtain ⟨g1, g2, -⟩ := goes_on cfg c a q h ha (run cfg start l0).now l1 (step cfg (run cfg start l0) (.incoming c a)) (by omega)
    (by intro T hT; have := ht T hT; omega)
  simp only [Well, List.filter_cons, Act.conn, beq_self_eq_true, if_true, List.cons.injEq, true_and] at hw
  rw [handlerOf]
  cases htls : cfg.tls with
  | true =>
    simp only [htls, if_true] at hs hw
    rw [g1 hs hw]
  | false =>
    simp only [htls, Bool.false_eq_true, if_false] at hs hw
    rw [g2 hs hw]

/-! ## Examples -/

/-- With TLS and a timeout of 3; requests are numbers, those below 10 are accepted; the handler is the request together with the address. -/
def tlsServer : Config (Nat × Nat) Nat Nat := ⟨some 3, true, fun a q => if q < 10 then .accept (a, q) else if q = 99 then .panic else .refuse⟩

/-- Client 7 is silent, client 8 is slow but in time (the last step at time 3), client 9 refused, and the callback panics on the request of client 6. -/
def fourClients : List (Act Nat Nat) :=
  [.incoming 7 70, .incoming 8 80, .tick, .failed, .secured 8, .incoming 9 90, .secured 9, .incoming 6 60, .secured 6, .request 9 20, .request 6 99, .tick, .request 8 5, .written 9, .tick, .written 8, .tick, .request 7 1]

example : handlerOf (run tlsServer start fourClients) 8 = some (80, 5) ∧ handlerOf (run tlsServer start fourClients) 9 = none ∧
    handlerOf (run tlsServer start fourClients) 7 = none := by decide +kernel
example : Panicked (run tlsServer start fourClients) 6 := ⟨60, rfl⟩
example : Well tlsServer 8 80 5 (.incoming 8 80 :: (fourClients.drop 2)) ∧ ticks (fourClients.drop 2).dropLast = 4 := by
  constructor <;> rfl
example : handlerOf (run tlsServer start ([.incoming 7 70] ++ .incoming 8 80 :: [.tick, .secured 8, .tick, .request 8 5, .incoming 9 90, .tick, .written 8])) 8 = some (80, 5) :=
  C141_if_accepted tlsServer [.incoming 7 70] _ 8 80 5 (80, 5) (by simp) rfl (by intro T h; cases h; decide) rfl
example : ¬ InHandshake (run tlsServer start ([] ++ .incoming 7 70 :: [.tick, .tick, .secured 7, .tick, .tick])) 7 :=
  C141_no_lingering tlsServer 3 rfl [] _ 7 70 (by simp) (by decide)
/-- Just before, it was still there. -/
example : InHandshake (run tlsServer start ([] ++ .incoming 7 70 :: [.tick, .tick, .secured 7, .tick])) 7 :=
  ⟨_, rfl, .inr (.inl ⟨_, rfl⟩)⟩
example : ∀ h, handlerOf (run tlsServer start ([.incoming 9 90, .secured 9] ++ .request 9 20 :: [.request 9 5, .written 9])) 9 ≠ some h :=
  fun h => C141_refused tlsServer [.incoming 9 90, .secured 9] _ 9 90 (some 3) 20 h rfl (by intro h; simp [tlsServer])

end Verif.WsAccept
