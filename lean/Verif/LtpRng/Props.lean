import Verif.LtpRng.Model

/-!
Property C15: LTP session and serial numbers.

The full property includes: no number generated for a new session is taken for a link-ping session.
That part does not hold (`C15_ping_confusion_violated`).
-/

namespace Hdtn.LtpRng

theorem or_add (a b k : Nat) (h : b < 2 ^ k) : a * 2 ^ k ||| b = a * 2 ^ k + b := by
  rw [Nat.mul_comm a, Nat.two_pow_add_eq_or_of_lt h]

theorem or_add' (a b k : Nat) (h : b < 2 ^ k) : b ||| a * 2 ^ k = a * 2 ^ k + b := by
  rw [Nat.or_comm, or_add a b k h]

theorem mask_shift (r k m w : Nat) (hw : k + m ≤ w) :
    (r <<< k) % 2 ^ w &&& (2 ^ m - 1) * 2 ^ k = (r % 2 ^ m) * 2 ^ k := by
  have h1 : (r <<< k) % 2 ^ w = (r % 2 ^ (w - k)) <<< k := by
    rw [Nat.shiftLeft_eq, Nat.shiftLeft_eq]
    conv_lhs => rw [show w = (w - k) + k by omega, pow_add, Nat.mul_mod_mul_right]
  rw [h1, ← Nat.shiftLeft_eq (2 ^ m - 1) k, ← Nat.shiftLeft_and_distrib, Nat.shiftLeft_eq,
    Nat.and_two_pow_sub_one_eq_mod]
  congr 1
  exact Nat.mod_mod_of_dvd _ (pow_dvd_pow 2 (by omega))

theorem shift_mod (e k w : Nat) (h : k ≤ w) : (e <<< k) % 2 ^ w = (e % 2 ^ (w - k)) * 2 ^ k := by
  rw [Nat.shiftLeft_eq]
  conv_lhs => rw [show w = (w - k) + k by omega, pow_add, Nat.mul_mod_mul_right]

theorem session64_eq (g : Rng) (r : Nat) (hi : g.inc < 2 ^ 24) :
    (session64 g r).1 = (g.engineIndex % 8) * 2 ^ 61 + (r % 2 ^ 36) * 2 ^ 24 + g.inc := by
  have h1 : (r <<< 24) % U64 &&& 0xfffffffff000000 = (r % 2 ^ 36) * 2 ^ 24 :=
    mask_shift r 24 36 64 (by norm_num)
  have h2 : (g.engineIndex <<< 61) % U64 = (g.engineIndex % 8) * 2 ^ 61 :=
    shift_mod g.engineIndex 61 64 (by norm_num)
  have hr : r % 2 ^ 36 < 2 ^ 36 := Nat.mod_lt _ (by norm_num)
  simp only [session64, h1, h2]
  rw [or_add' _ _ 61 (by omega)]
  have : (g.engineIndex % 8) * 2 ^ 61 + (r % 2 ^ 36) * 2 ^ 24 =
      ((g.engineIndex % 8) * 2 ^ 37 + r % 2 ^ 36) * 2 ^ 24 := by ring
  rw [this, or_add _ _ 24 hi]

theorem session32_eq (g : Rng) (r : Nat) (hi : g.inc < 2 ^ 21) :
    (session32 g r).1 = (g.engineIndex % 8) * 2 ^ 29 + (r % 2 ^ 7) * 2 ^ 21 + g.inc := by
  have h1 : (r <<< 21) % U64 &&& 0xfe00000 = (r % 2 ^ 7) * 2 ^ 21 :=
    mask_shift r 21 7 64 (by norm_num)
  have h2 : (g.engineIndex <<< 29) % U64 = (g.engineIndex % 2 ^ 35) * 2 ^ 29 :=
    shift_mod g.engineIndex 29 64 (by norm_num)
  have hr : r % 2 ^ 7 < 2 ^ 7 := Nat.mod_lt _ (by norm_num)
  simp only [session32, h1, h2]
  rw [or_add' _ _ 29 (by omega)]
  have : (g.engineIndex % 2 ^ 35) * 2 ^ 29 + (r % 2 ^ 7) * 2 ^ 21 =
      ((g.engineIndex % 2 ^ 35) * 2 ^ 8 + r % 2 ^ 7) * 2 ^ 21 := by ring
  rw [this, or_add _ _ 21 hi, U32]
  omega

theorem ping64_eq (g : Rng) : ping64 g = (g.engineIndex % 8) * 2 ^ 61 + (2 ^ 61 - 1) := by
  have h2 : (g.engineIndex <<< 61) % U64 = (g.engineIndex % 8) * 2 ^ 61 :=
    shift_mod g.engineIndex 61 64 (by norm_num)
  rw [ping64, h2, or_add' _ _ 61 (by norm_num)]
  norm_num

theorem ping32_eq (g : Rng) : ping32 g = (g.engineIndex % 8) * 2 ^ 29 + (2 ^ 29 - 1) := by
  have h2 : (g.engineIndex <<< 29) % U64 = (g.engineIndex % 2 ^ 35) * 2 ^ 29 :=
    shift_mod g.engineIndex 29 64 (by norm_num)
  rw [ping32, h2, or_add' _ _ 29 (by norm_num), U32]
  omega

theorem nextInc24 (i : Nat) (h : 1 ≤ i) (h2 : i < 2 ^ 24) :
    nextInc 0xffffff i = if i = 2 ^ 24 - 1 then 1 else i + 1 := by
  have : ∀ x, x &&& 0xffffff = x % 2 ^ 24 := fun x => Nat.and_two_pow_sub_one_eq_mod x 24
  simp only [nextInc, this, U32]
  split_ifs <;> omega

theorem nextInc21 (i : Nat) (h : 1 ≤ i) (h2 : i < 2 ^ 21) :
    nextInc 0x1fffff i = if i = 2 ^ 21 - 1 then 1 else i + 1 := by
  have : ∀ x, x &&& 0x1fffff = x % 2 ^ 21 := fun x => Nat.and_two_pow_sub_one_eq_mod x 21
  simp only [nextInc, this, U32]
  split_ifs <;> omega

theorem sessions64_get (g : Rng) (hi : 1 ≤ g.inc ∧ g.inc < 2 ^ 24) (rs : List Nat) (i : Nat)
    (r : Nat) (hr : rs[i]? = some r) :
    (sessions64 g rs)[i]? = some ((g.engineIndex % 8) * 2 ^ 61 + (r % 2 ^ 36) * 2 ^ 24 +
      ((g.inc - 1 + i) % (2 ^ 24 - 1) + 1)) := by
  induction rs generalizing g i with
  | nil => simp at hr
  | cons a rs ih =>
    cases i with
    | zero =>
      simp only [List.getElem?_cons_zero, Option.some.injEq] at hr
      subst hr
      simp only [sessions64, List.getElem?_cons_zero, Option.some.injEq, session64_eq g a hi.2]
      omega
    | succ i =>
      simp only [List.getElem?_cons_succ] at hr
      have hn := nextInc24 g.inc hi.1 hi.2
      have := ih (session64 g a).2 (by simp only [session64, hn]; split_ifs <;> omega) i hr
      simp only [sessions64, List.getElem?_cons_succ, this]
      simp only [session64, hn]
      split_ifs <;> (congr 2; omega)

theorem sessions32_get (g : Rng) (hi : 1 ≤ g.inc ∧ g.inc < 2 ^ 21) (rs : List Nat) (i : Nat)
    (r : Nat) (hr : rs[i]? = some r) :
    (sessions32 g rs)[i]? = some ((g.engineIndex % 8) * 2 ^ 29 + (r % 2 ^ 7) * 2 ^ 21 +
      ((g.inc - 1 + i) % (2 ^ 21 - 1) + 1)) := by
  induction rs generalizing g i with
  | nil => simp at hr
  | cons a rs ih =>
    cases i with
    | zero =>
      simp only [List.getElem?_cons_zero, Option.some.injEq] at hr
      subst hr
      simp only [sessions32, List.getElem?_cons_zero, Option.some.injEq, session32_eq g a hi.2]
      omega
    | succ i =>
      simp only [List.getElem?_cons_succ] at hr
      have hn := nextInc21 g.inc hi.1 hi.2
      have := ih (session32 g a).2 (by simp only [session32, hn]; split_ifs <;> omega) i hr
      simp only [sessions32, List.getElem?_cons_succ, this]
      simp only [session32, hn]
      split_ifs <;> (congr 2; omega)

theorem sessions64_length (g : Rng) (rs : List Nat) : (sessions64 g rs).length = rs.length := by
  induction rs generalizing g with
  | nil => rfl
  | cons a rs ih => simp [sessions64, ih]

theorem sessions32_length (g : Rng) (rs : List Nat) : (sessions32 g rs).length = rs.length := by
  induction rs generalizing g with
  | nil => rfl
  | cons a rs ih => simp [sessions32, ih]

/-- The session number produced by the `i`-th call of a fresh generator, as bit fields. -/
theorem fresh64_get (e : Nat) (rs : List Nat) (i s : Nat)
    (h : (sessions64 (Rng.init e) rs)[i]? = some s) :
    ∃ r, rs[i]? = some r ∧
      s = (e % 8) * 2 ^ 61 + (r % 2 ^ 36) * 2 ^ 24 + (i % (2 ^ 24 - 1) + 1) := by
  have hlt : i < rs.length := by
    have := (List.getElem?_eq_some_iff.1 h).1
    rwa [sessions64_length] at this
  have hr : rs[i]? = some rs[i] := List.getElem?_eq_getElem hlt
  have := sessions64_get (Rng.init e) (by simp [Rng.init]) rs i rs[i] hr
  rw [h] at this
  refine ⟨rs[i], hr, ?_⟩
  have := Option.some.inj this
  simp only [Rng.init] at this
  rw [this]; congr 2; simp

theorem fresh32_get (e : Nat) (rs : List Nat) (i s : Nat)
    (h : (sessions32 (Rng.init e) rs)[i]? = some s) :
    ∃ r, rs[i]? = some r ∧
      s = (e % 8) * 2 ^ 29 + (r % 2 ^ 7) * 2 ^ 21 + (i % (2 ^ 21 - 1) + 1) := by
  have hlt : i < rs.length := by
    have := (List.getElem?_eq_some_iff.1 h).1
    rwa [sessions32_length] at this
  have hr : rs[i]? = some rs[i] := List.getElem?_eq_getElem hlt
  have := sessions32_get (Rng.init e) (by simp [Rng.init]) rs i rs[i] hr
  rw [h] at this
  refine ⟨rs[i], hr, ?_⟩
  have := Option.some.inj this
  simp only [Rng.init] at this
  rw [this]; congr 2; simp

theorem isPing64_iff (s : Nat) : isPingSession s false = true ↔ s % 2 ^ 56 = 2 ^ 56 - 1 := by
  have : ∀ x, 0xffffffffffffff &&& x = x % 2 ^ 56 := fun x => by
    rw [Nat.and_comm]; exact Nat.and_two_pow_sub_one_eq_mod x 56
  simp [isPingSession, this]

theorem isPing32_iff (s : Nat) : isPingSession s true = true ↔ s % 2 ^ 24 = 2 ^ 24 - 1 := by
  have : ∀ x, 0x00ffffff &&& x = x % 2 ^ 24 := fun x => by
    rw [Nat.and_comm]; exact Nat.and_two_pow_sub_one_eq_mod x 24
  simp [isPingSession, this]

/-- C15: whatever the draws, two session numbers of one engine are different unless at least
2^24-1 (2^21-1 in 32-bit mode) sessions lie between them. -/
theorem C15_sessions_distinct (e : Nat) (rs : List Nat) (i j a b : Nat) (hij : i < j) :
    ((sessions64 (Rng.init e) rs)[i]? = some a → (sessions64 (Rng.init e) rs)[j]? = some b →
      j - i < 2 ^ 24 - 1 → a ≠ b) ∧
    ((sessions32 (Rng.init e) rs)[i]? = some a → (sessions32 (Rng.init e) rs)[j]? = some b →
      j - i < 2 ^ 21 - 1 → a ≠ b) := by
  constructor
  · intro ha hb hd
    obtain ⟨r1, _, h1⟩ := fresh64_get e rs i a ha
    obtain ⟨r2, _, h2⟩ := fresh64_get e rs j b hb
    omega
  · intro ha hb hd
    obtain ⟨r1, _, h1⟩ := fresh32_get e rs i a ha
    obtain ⟨r2, _, h2⟩ := fresh32_get e rs j b hb
    omega

/-- C15: the engine index of a generated or ping number is recovered, for engine indices 1..7; the
number is not zero and fits its width. -/
theorem C15_engine_index (e : Nat) (he : 1 ≤ e ∧ e ≤ 7) (rs : List Nat) (s : Nat) :
    (s ∈ sessions64 (Rng.init e) rs → engineIndexOf s = e ∧ 0 < s ∧ s < 2 ^ 64) ∧
    (s ∈ sessions32 (Rng.init e) rs → engineIndexOf s = e ∧ 0 < s ∧ s < 2 ^ 32) ∧
    engineIndexOf (ping64 (Rng.init e)) = e ∧ engineIndexOf (ping32 (Rng.init e)) = e := by
  have hidx : ∀ x, engineIndexOf x =
      ((x / 2 ^ 29) % 256 * (if (x / 2 ^ 61) % 256 = 0 then 1 else 0) + (x / 2 ^ 61) % 256) % 256 := by
    intro x; simp only [engineIndexOf, Nat.shiftRight_eq_div_pow]
  refine ⟨fun h => ?_, fun h => ?_, ?_, ?_⟩
  · obtain ⟨i, hi⟩ := List.getElem?_of_mem h
    obtain ⟨r, _, h1⟩ := fresh64_get e rs i s hi
    have hr : r % 2 ^ 36 < 2 ^ 36 := Nat.mod_lt _ (by norm_num)
    refine ⟨?_, by omega, by omega⟩
    have : s / 2 ^ 61 % 256 = e := by omega
    rw [hidx, this, if_neg (by omega)]
    omega
  · obtain ⟨i, hi⟩ := List.getElem?_of_mem h
    obtain ⟨r, _, h1⟩ := fresh32_get e rs i s hi
    have hr : r % 2 ^ 7 < 2 ^ 7 := Nat.mod_lt _ (by norm_num)
    refine ⟨?_, by omega, by omega⟩
    have h2 : s / 2 ^ 61 % 256 = 0 := by omega
    have h3 : s / 2 ^ 29 % 256 = e := by omega
    rw [hidx, h2, h3, if_pos rfl]
    omega
  · rw [hidx, ping64_eq, show (Rng.init e).engineIndex = e from rfl]
    have : (e % 8 * 2 ^ 61 + (2 ^ 61 - 1)) / 2 ^ 61 % 256 = e := by omega
    rw [this, if_neg (by omega)]; omega
  · rw [hidx, ping32_eq, show (Rng.init e).engineIndex = e from rfl]
    have h2 : (e % 8 * 2 ^ 29 + (2 ^ 29 - 1)) / 2 ^ 61 % 256 = 0 := by omega
    have h3 : (e % 8 * 2 ^ 29 + (2 ^ 29 - 1)) / 2 ^ 29 % 256 = e := by omega
    rw [h2, h3, if_pos rfl]; omega

/-- C15: the ping numbers are recognised as such, and no generated session number equals the ping
number of any engine. -/
theorem C15_ping_number_reserved (e e' : Nat) (rs : List Nat) (s : Nat) :
    isPingSession (ping64 (Rng.init e)) false = true ∧
    isPingSession (ping32 (Rng.init e)) true = true ∧
    (s ∈ sessions64 (Rng.init e) rs → s ≠ ping64 (Rng.init e')) ∧
    (s ∈ sessions32 (Rng.init e) rs → s ≠ ping32 (Rng.init e')) := by
  refine ⟨?_, ?_, fun h => ?_, fun h => ?_⟩
  · rw [isPing64_iff, ping64_eq]; simp only [Rng.init]; omega
  · rw [isPing32_iff, ping32_eq]; simp only [Rng.init]; omega
  · obtain ⟨i, hi⟩ := List.getElem?_of_mem h
    obtain ⟨r, _, h1⟩ := fresh64_get e rs i s hi
    have hr : r % 2 ^ 36 < 2 ^ 36 := Nat.mod_lt _ (by norm_num)
    rw [ping64_eq]; simp only [Rng.init]; omega
  · obtain ⟨i, hi⟩ := List.getElem?_of_mem h
    obtain ⟨r, _, h1⟩ := fresh32_get e rs i s hi
    have hr : r % 2 ^ 7 < 2 ^ 7 := Nat.mod_lt _ (by norm_num)
    rw [ping32_eq]; simp only [Rng.init]; omega

/-- C15, the ping test, exactly: the number of the `i`-th session is taken for a ping exactly when
the incremental part is at its last value and the low 32 (in 32-bit mode: low 3) random bits are all
ones. Missing from the full property: that this never happens. -/
theorem C15_ping_test_partial (e : Nat) (rs : List Nat) (i r : Nat) (hr : rs[i]? = some r) :
    (∃ s, (sessions64 (Rng.init e) rs)[i]? = some s ∧
      (isPingSession s false = true ↔
        i % (2 ^ 24 - 1) = 2 ^ 24 - 2 ∧ r % 2 ^ 32 = 2 ^ 32 - 1)) ∧
    (∃ s, (sessions32 (Rng.init e) rs)[i]? = some s ∧
      (isPingSession s true = true ↔
        i % (2 ^ 21 - 1) = 2 ^ 21 - 2 ∧ r % 2 ^ 3 = 2 ^ 3 - 1)) := by
  constructor
  · have := sessions64_get (Rng.init e) (by simp [Rng.init]) rs i r hr
    refine ⟨_, this, ?_⟩
    rw [isPing64_iff]
    simp only [Rng.init]
    omega
  · have := sessions32_get (Rng.init e) (by simp [Rng.init]) rs i r hr
    refine ⟨_, this, ?_⟩
    rw [isPing32_iff]
    simp only [Rng.init]
    omega

/-- C15 is violated: there are draws after which a new session gets a number that is taken for a
link-ping session, in both modes, for every engine. -/
theorem C15_ping_confusion_violated (e : Nat) :
    (∃ rs s, (∀ r ∈ rs, r < 2 ^ 64) ∧ s ∈ sessions64 (Rng.init e) rs ∧
      isPingSession s false = true) ∧
    (∃ rs s, (∀ r ∈ rs, r < 2 ^ 64) ∧ s ∈ sessions32 (Rng.init e) rs ∧
      isPingSession s true = true) := by
  constructor
  · obtain ⟨⟨s, h1, h2⟩, -⟩ := C15_ping_test_partial e
      (List.replicate (2 ^ 24 - 1) (2 ^ 64 - 1)) (2 ^ 24 - 2) (2 ^ 64 - 1)
      (by rw [List.getElem?_replicate, if_pos (by norm_num)])
    refine ⟨_, s, fun r hr => ?_, List.mem_of_getElem? h1, h2.2 (by norm_num)⟩
    rw [List.eq_of_mem_replicate hr]; norm_num
  · obtain ⟨-, s, h1, h2⟩ := C15_ping_test_partial e
      (List.replicate (2 ^ 21 - 1) 7) (2 ^ 21 - 2) 7
      (by rw [List.getElem?_replicate, if_pos (by norm_num)])
    refine ⟨_, s, fun r hr => ?_, List.mem_of_getElem? h1, h2.2 (by norm_num)⟩
    rw [List.eq_of_mem_replicate hr]; norm_num

/-- C15: serial numbers start odd, non-zero, with the top bit clear, so that adding one to them
fewer than 2^63 (2^31) times never gives zero nor leaves the width. -/
theorem C15_serial (r : Nat) :
    serial64 r % 2 ^ 16 = 1 ∧ serial64 r < 2 ^ 63 ∧ serial32 r % 2 ^ 16 = 1 ∧ serial32 r < 2 ^ 31 ∧
    (∀ n, n < 2 ^ 63 → 0 < serial64 r + n ∧ serial64 r + n < 2 ^ 64) ∧
    (∀ n, n < 2 ^ 31 → 0 < serial32 r + n ∧ serial32 r + n < 2 ^ 32) := by
  have h1 : (r <<< 16) % U64 &&& 0x7fffffffffff0000 = (r % 2 ^ 47) * 2 ^ 16 :=
    mask_shift r 16 47 64 (by norm_num)
  have h2 : (r <<< 16) % U64 &&& 0x7fff0000 = (r % 2 ^ 15) * 2 ^ 16 :=
    mask_shift r 16 15 64 (by norm_num)
  have e1 : serial64 r = (r % 2 ^ 47) * 2 ^ 16 + 1 := by
    rw [serial64, h1, or_add _ _ 16 (by norm_num)]
  have e2 : serial32 r = (r % 2 ^ 15) * 2 ^ 16 + 1 := by
    have : r % 2 ^ 15 < 2 ^ 15 := Nat.mod_lt _ (by norm_num)
    rw [serial32, h2, or_add _ _ 16 (by norm_num), U32]
    omega
  have : r % 2 ^ 15 < 2 ^ 15 := Nat.mod_lt _ (by norm_num)
  have : r % 2 ^ 47 < 2 ^ 47 := Nat.mod_lt _ (by norm_num)
  rw [e1, e2]
  refine ⟨by omega, by omega, by omega, by omega, fun n hn => by omega, fun n hn => by omega⟩

example : sessions64 (Rng.init 3) [0x123456789abcdef, 0, 2 ^ 64 - 1] =
    [0x6789abcdef000001, 0x6000000000000002, 0x6fffffffff000003] := by decide +kernel

example : sessions32 (Rng.init 7) [0, 5] = [0xe0000001, 0xe0a00002] ∧
    engineIndexOf 0xe0a00002 = 7 ∧ serial64 (2 ^ 64 - 1) = 0x7fffffffffff0001 := by
  decide +kernel

end Hdtn.LtpRng
