import Verif.Bpv7Crc.Model

/-!
The CRCs: their width, that they detect every error burst no longer than the register, and that the
two implementations of CRC-32C agree (C51).
-/

namespace Hdtn.Bpv7Crc

theorem xorLeftCancel {a b c : Nat} (h : a ^^^ b = a ^^^ c) : b = c := by
  have := congrArg (a ^^^ ·) h
  simpa [← Nat.xor_assoc] using this

theorem xorRightCancel {a b c : Nat} (h : a ^^^ c = b ^^^ c) : a = b := by
  rw [Nat.xor_comm a, Nat.xor_comm b] at h
  exact xorLeftCancel h

theorem bit_lt (w poly r : Nat) (hp : poly < 2 ^ w) (hr : r < 2 ^ w) : bit poly r < 2 ^ w := by
  unfold bit
  split
  · exact Nat.xor_lt_two_pow (by omega) hp
  · omega

theorem bit_inj (w poly r s : Nat) (hp : poly.testBit w = true) (hr : r < 2 ^ (w + 1))
    (hs : s < 2 ^ (w + 1)) (h : bit poly r = bit poly s) : r = s := by
  have key : ∀ x, x < 2 ^ (w + 1) → (bit poly x).testBit w = decide (x % 2 = 1) := by
    intro x hx
    have hx2 : (x / 2).testBit w = false := Nat.testBit_lt_two_pow (by rw [Nat.pow_succ] at hx; omega)
    unfold bit
    split
    · rename_i h1; rw [Nat.testBit_xor, hx2, hp]; simp [h1]
    · rename_i h1; rw [hx2]; simp [h1]
  have h1 : decide (r % 2 = 1) = decide (s % 2 = 1) := by rw [← key r hr, ← key s hs, h]
  have h2 : (r % 2 = 1) ↔ (s % 2 = 1) := by simpa using h1
  unfold bit at h
  by_cases hr1 : r % 2 = 1
  · have hs1 := h2.1 hr1
    rw [if_pos hr1, if_pos hs1] at h
    have : r / 2 = s / 2 := xorRightCancel h
    omega
  · have hs1 : ¬ s % 2 = 1 := fun h' => hr1 (h2.2 h')
    rw [if_neg hr1, if_neg hs1] at h
    omega

theorem bits_lt (w poly n r : Nat) (hp : poly < 2 ^ w) (hr : r < 2 ^ w) : bits poly n r < 2 ^ w := by
  induction n generalizing r with
  | zero => exact hr
  | succ n ih => exact ih _ (bit_lt w poly r hp hr)

theorem bits_inj (w poly n r s : Nat) (hp : poly.testBit w = true) (hl : poly < 2 ^ (w + 1))
    (hr : r < 2 ^ (w + 1)) (hs : s < 2 ^ (w + 1)) (h : bits poly n r = bits poly n s) : r = s := by
  induction n generalizing r s with
  | zero => exact h
  | succ n ih =>
    exact bit_inj w poly r s hp hr hs (ih _ _ (bit_lt _ _ _ hl hr) (bit_lt _ _ _ hl hs) h)

/-- Bits above those already divided out can be added before or after. -/
theorem bit_xor (poly r c : Nat) : bit poly (r ^^^ (2 * c)) = bit poly r ^^^ c := by
  have h1 : (r ^^^ (2 * c)) % 2 = r % 2 := by
    have := Nat.xor_mod_two_eq (m := r) (n := 2 * c)
    omega
  have h2 : (r ^^^ (2 * c)) / 2 = (r / 2) ^^^ c := by
    rw [Nat.xor_div_two]
    congr 1
    omega
  unfold bit
  rw [h1, h2]
  split
  · rw [Nat.xor_assoc, Nat.xor_assoc, Nat.xor_comm c]
  · rfl

theorem bits_xor (poly n r c : Nat) : bits poly n (r ^^^ (2 ^ n * c)) = bits poly n r ^^^ c := by
  induction n generalizing r with
  | zero => simp [bits]
  | succ n ih =>
    rw [bits, bits, show 2 ^ (n + 1) * c = 2 * (2 ^ n * c) by rw [Nat.pow_succ]; ring, bit_xor, ih]

theorem bits_add (poly m n r : Nat) : bits poly (m + n) r = bits poly n (bits poly m r) := by
  induction m generalizing r with
  | zero => simp [bits]
  | succ m ih => rw [show m + 1 + n = (m + n) + 1 by omega, bits, bits, ih]

theorem le_xor (b : UInt8) (x : Nat) : b.toNat + 256 * x = b.toNat ^^^ (2 ^ 8 * x) := by
  have h : b.toNat < 2 ^ 8 := b.toNat_lt
  have := Nat.two_pow_add_eq_or_of_lt h x
  rw [show 2 ^ 8 * x = x * 2 ^ 8 by ring] at *
  apply Nat.eq_of_testBit_eq
  intro i
  rw [Nat.add_comm, show 256 * x = x * 2 ^ 8 by ring, this, Nat.testBit_or, Nat.testBit_xor]
  by_cases hi : i < 8
  · have : (x * 2 ^ 8).testBit i = false := by
      rw [Nat.testBit_mul_two_pow]; simp; omega
    rw [this]; simp
  · have : b.toNat.testBit i = false := Nat.testBit_lt_two_pow (by
      calc b.toNat < 2 ^ 8 := h
        _ ≤ 2 ^ i := Nat.pow_le_pow_right (by decide) (by omega))
    rw [this]; simp

/-- Processing a string of bytes is one division of the register with the string added to it. -/
theorem process_eq (poly r : Nat) (data : Bytes) :
    process poly r data = bits poly (8 * data.length) (r ^^^ leValue data) := by
  induction data generalizing r with
  | nil => simp [process, bits, leValue]
  | cons b data ih =>
    have h1 : process poly r (b :: data) = process poly (byte poly r b) data := rfl
    rw [h1, ih, byte, leValue, le_xor, ← Nat.xor_assoc, List.length_cons,
      show 8 * (data.length + 1) = 8 + 8 * data.length by ring, bits_add, bits_xor]

theorem leValue_lt (data : Bytes) : leValue data < 2 ^ (8 * data.length) := by
  induction data with
  | nil => simp [leValue]
  | cons b data ih =>
    rw [leValue, List.length_cons, show 8 * (data.length + 1) = 8 * data.length + 8 by ring,
      Nat.pow_add]
    have : b.toNat < 256 := b.toNat_lt
    omega

theorem leValue_inj (d e : Bytes) (hl : d.length = e.length) (h : leValue d = leValue e) : d = e := by
  induction d generalizing e with
  | nil => cases e with
    | nil => rfl
    | cons _ _ => simp at hl
  | cons b d ih =>
    cases e with
    | nil => simp at hl
    | cons c e =>
      simp only [leValue] at h
      have h1 : b.toNat < 256 := b.toNat_lt
      have h2 : c.toNat < 256 := c.toNat_lt
      have h3 : b.toNat = c.toNat := by omega
      have h4 : leValue d = leValue e := by omega
      rw [UInt8.toNat_inj.1 h3, ih e (by simpa using hl) h4]

theorem process_append (poly r : Nat) (d e : Bytes) :
    process poly r (d ++ e) = process poly (process poly r d) e := by
  simp [process, List.foldl_append]

theorem byte_lt (w poly r : Nat) (b : UInt8) (hw : 8 ≤ w) (hp : poly < 2 ^ w) (hr : r < 2 ^ w) :
    byte poly r b < 2 ^ w := by
  refine bits_lt w poly 8 _ hp (Nat.xor_lt_two_pow hr ?_)
  calc b.toNat < 2 ^ 8 := b.toNat_lt
    _ ≤ 2 ^ w := Nat.pow_le_pow_right (by decide) hw

theorem process_lt (w poly r : Nat) (d : Bytes) (hw : 8 ≤ w) (hp : poly < 2 ^ w) (hr : r < 2 ^ w) :
    process poly r d < 2 ^ w := by
  induction d generalizing r with
  | nil => exact hr
  | cons b d ih => exact ih _ (byte_lt w poly r b hw hp hr)

/-- From different registers the same bytes lead to different registers. -/
theorem process_inj (w poly r s : Nat) (d : Bytes) (hw : 7 ≤ w) (hp : poly.testBit w = true)
    (hl : poly < 2 ^ (w + 1)) (hr : r < 2 ^ (w + 1)) (hs : s < 2 ^ (w + 1))
    (h : process poly r d = process poly s d) : r = s := by
  induction d generalizing r s with
  | nil => exact h
  | cons b d ih =>
    have hb : b.toNat < 2 ^ (w + 1) := by
      calc b.toNat < 2 ^ 8 := b.toNat_lt
        _ ≤ 2 ^ (w + 1) := Nat.pow_le_pow_right (by decide) (by omega)
    have h1 := ih _ _ (byte_lt _ _ _ b (by omega) hl hr) (byte_lt _ _ _ b (by omega) hl hs) h
    have h2 := bits_inj w poly 8 _ _ hp hl (Nat.xor_lt_two_pow hr hb) (Nat.xor_lt_two_pow hs hb) h1
    exact xorRightCancel h2

/-- An error burst no longer than the register changes the result. -/
theorem process_burst (w poly r : Nat) (pre d e post : Bytes) (hw : 7 ≤ w)
    (hp : poly.testBit w = true) (hl : poly < 2 ^ (w + 1)) (hr : r < 2 ^ (w + 1))
    (hlen : d.length = e.length) (hshort : 8 * d.length ≤ w + 1) (hne : d ≠ e) :
    process poly r (pre ++ d ++ post) ≠ process poly r (pre ++ e ++ post) := by
  intro h
  rw [process_append, process_append, process_append, process_append] at h
  have hpre := process_lt (w + 1) poly r pre (by omega) hl hr
  have h1 := process_inj w poly _ _ post hw hp hl (process_lt _ _ _ d (by omega) hl hpre)
    (process_lt _ _ _ e (by omega) hl hpre) h
  rw [process_eq poly _ d, process_eq poly _ e, ← hlen] at h1
  have hd : leValue d < 2 ^ (w + 1) := Nat.lt_of_lt_of_le (leValue_lt d)
    (Nat.pow_le_pow_right (by decide) hshort)
  have he : leValue e < 2 ^ (w + 1) := Nat.lt_of_lt_of_le (leValue_lt e)
    (Nat.pow_le_pow_right (by decide) (by omega))
  have h2 := bits_inj w poly _ _ _ hp hl (Nat.xor_lt_two_pow hpre hd) (Nat.xor_lt_two_pow hpre he) h1
  exact hne (leValue_inj d e hlen (xorLeftCancel h2))

theorem crc16_lt (d : Bytes) : crc16 d < 2 ^ 16 :=
  Nat.xor_lt_two_pow (process_lt 16 _ _ d (by decide) (by decide) (by decide)) (by decide)

theorem crc32_lt (d : Bytes) : crc32 d < 2 ^ 32 :=
  Nat.xor_lt_two_pow (process_lt 32 _ _ d (by decide) (by decide) (by decide)) (by decide)

/-- The 16-bit CRC is changed by replacing one or two consecutive bytes. -/
theorem crc16_burst (pre d e post : Bytes) (hlen : d.length = e.length) (hshort : d.length ≤ 2)
    (hne : d ≠ e) : crc16 (pre ++ d ++ post) ≠ crc16 (pre ++ e ++ post) := fun h =>
  process_burst 15 poly16 0xffff pre d e post (by decide) (by decide) (by decide) (by decide) hlen
    (by omega) hne (xorRightCancel h)

/-- The 32-bit CRC is changed by replacing up to four consecutive bytes. -/
theorem crc32_burst (pre d e post : Bytes) (hlen : d.length = e.length) (hshort : d.length ≤ 4)
    (hne : d ≠ e) : crc32 (pre ++ d ++ post) ≠ crc32 (pre ++ e ++ post) := fun h =>
  process_burst 31 poly32 0xffffffff pre d e post (by decide) (by decide) (by decide) (by decide)
    hlen (by omega) hne (xorRightCancel h)

theorem hwWords_eq (r : Nat) (data : Bytes) : hwWords r data = process poly32 r data := by
  fun_induction hwWords r data with
  | case1 r data h ih =>
    rw [ih]
    conv_rhs => rw [← List.take_append_drop 8 data, process_append, process_eq _ _ (List.take 8 data)]
    rw [List.length_take, Nat.min_eq_left h]
    rfl
  | case2 r data h => rfl

theorem hwAlign_eq (addr r : Nat) (data : Bytes) : hwAlign addr r data = process poly32 r data := by
  induction data generalizing addr r with
  | nil => exact hwWords_eq r []
  | cons b data ih =>
    rw [hwAlign]
    split
    · exact ih _ _
    · exact hwWords_eq r _

/-- C51: the CRC-32C computed with the processor's instructions equals the one computed in software,
for data of any length at any address. -/
theorem C51_crc32_agree (addr : Nat) (data : Bytes) : crc32Hardware addr data = crc32 data := by
  unfold crc32Hardware crc32; rw [hwAlign_eq]

/-- The check values of the two CRCs: of the digits 1 to 9. -/
example : crc16 [49, 50, 51, 52, 53, 54, 55, 56, 57] = 0x906e ∧
    crc32 [49, 50, 51, 52, 53, 54, 55, 56, 57] = 0xe3069283 ∧
    crc32Hardware 3 [49, 50, 51, 52, 53, 54, 55, 56, 57, 49, 50, 51, 52, 53, 54, 55, 56, 57] =
      crc32 [49, 50, 51, 52, 53, 54, 55, 56, 57, 49, 50, 51, 52, 53, 54, 55, 56, 57] := by
  refine ⟨by decide +kernel, by decide +kernel, C51_crc32_agree _ _⟩

theorem toBe2 (v : Nat) (hv : v < 2 ^ 16) : ∃ a b, toBe 2 v = [a, b] ∧ beValue [a, b] = v := by
  have hl := toBe_length 2 v
  have hv' := (beValue_toBe 2 v).trans (Nat.mod_eq_of_lt (by omega))
  match h : toBe 2 v, hl with
  | [a, b], _ => exact ⟨a, b, rfl, by rw [← h]; exact hv'⟩

theorem toBe4 (v : Nat) (hv : v < 2 ^ 32) :
    ∃ a b c d, toBe 4 v = [a, b, c, d] ∧ beValue [a, b, c, d] = v := by
  have hl := toBe_length 4 v
  have hv' := (beValue_toBe 4 v).trans (Nat.mod_eq_of_lt (by omega))
  match h : toBe 4 v, hl with
  | [a, b, c, d], _ => exact ⟨a, b, c, d, rfl, by rw [← h]; exact hv'⟩

theorem readField16_iff (buf : Bytes) (v : Nat) (rest : Bytes) :
    readField16 buf = some (v, rest) ↔ v < 2 ^ 16 ∧ buf = field16 v ++ rest := by
  constructor
  · intro h
    unfold readField16 at h
    split at h
    · rename_i i a b r
      split at h
      · simp at h
      · rename_i hi
        push Not at hi
        simp only [Option.some.injEq, Prod.mk.injEq] at h
        obtain ⟨rfl, rfl⟩ := h
        have h1 := beValue_lt [a, b]
        refine ⟨by simpa using h1, ?_⟩
        have := toBe_beValue [a, b]
        simp only [List.length_cons, List.length_nil, Nat.zero_add, Nat.reduceAdd] at this
        rw [field16, this, hi]; rfl
    · simp at h
  · rintro ⟨hv, rfl⟩
    obtain ⟨a, b, h1, h2⟩ := toBe2 v hv
    simp [field16, h1, readField16, h2]

theorem readField32_iff (buf : Bytes) (v : Nat) (rest : Bytes) :
    readField32 buf = some (v, rest) ↔ v < 2 ^ 32 ∧ buf = field32 v ++ rest := by
  constructor
  · intro h
    unfold readField32 at h
    split at h
    · rename_i i a b c d r
      split at h
      · simp at h
      · rename_i hi
        push Not at hi
        simp only [Option.some.injEq, Prod.mk.injEq] at h
        obtain ⟨rfl, rfl⟩ := h
        have h1 := beValue_lt [a, b, c, d]
        refine ⟨by simpa using h1, ?_⟩
        have := toBe_beValue [a, b, c, d]
        simp only [List.length_cons, List.length_nil, Nat.zero_add, Nat.reduceAdd] at this
        rw [field32, this, hi]; rfl
    · simp at h
  · rintro ⟨hv, rfl⟩
    obtain ⟨a, b, c, d, h1, h2⟩ := toBe4 v hv
    simp [field32, h1, readField32, h2]

theorem field16_length (v : Nat) : (field16 v).length = 3 := by simp [field16]

theorem field32_length (v : Nat) : (field32 v).length = 5 := by simp [field32]

/-- The CRC field of a block: nothing, or a byte string holding the CRC of the block with that field
zeroed. -/
def IsCrcField (crcType : UInt8) (body field : Bytes) (crcs : Nat × Nat) : Prop :=
  (crcType = 0 ∧ field = [] ∧ crcs = (0, 0)) ∨
  (crcType = 1 ∧ field = 0x42 :: toBe 2 (crc16 (body ++ [0x42, 0, 0])) ∧
    crcs = (crc16 (body ++ [0x42, 0, 0]), 0)) ∨
  (crcType = 2 ∧ field = 0x44 :: toBe 4 (crc32 (body ++ [0x44, 0, 0, 0, 0])) ∧
    crcs = (0, crc32 (body ++ [0x44, 0, 0, 0, 0])))

theorem checkCrc_iff (t : UInt8) (body buf : Bytes) (crcs : Nat × Nat) (rest : Bytes) :
    checkCrc t false body buf = some (crcs, rest) ↔
      ∃ field, buf = field ++ rest ∧ IsCrcField t body field crcs := by
  have z16 : field16 0 = [0x42, 0, 0] := by decide
  have z32 : field32 0 = [0x44, 0, 0, 0, 0] := by decide
  unfold checkCrc IsCrcField
  rw [z16, z32]
  by_cases h0 : t = 0
  · subst h0
    simp only [if_true, Option.some.injEq, Prod.mk.injEq]
    constructor
    · rintro ⟨rfl, rfl⟩; exact ⟨[], rfl, Or.inl ⟨trivial, rfl, rfl⟩⟩
    · rintro ⟨field, rfl, ⟨_, rfl, rfl⟩ | ⟨h, _⟩ | ⟨h, _⟩⟩
      · exact ⟨rfl, rfl⟩
      · exact absurd h (by decide)
      · exact absurd h (by decide)
  rw [if_neg h0]
  by_cases h1 : t = 1
  · subst h1
    simp only [if_true, Bool.false_eq_true, if_false]
    constructor
    · intro h
      split at h
      · simp at h
      · rename_i c r hr
        obtain ⟨hc, hb⟩ := (readField16_iff _ _ _).1 hr
        split at h
        · rename_i he
          simp only [Option.some.injEq, Prod.mk.injEq] at h
          obtain ⟨rfl, rfl⟩ := h
          rw [← he] at hb
          exact ⟨_, hb, Or.inr (Or.inl ⟨trivial, rfl, by rw [he]⟩)⟩
        · simp at h
    · rintro ⟨field, rfl, ⟨h, _⟩ | ⟨_, rfl, rfl⟩ | ⟨h, _⟩⟩
      · exact absurd h (by decide)
      · have := (readField16_iff (field16 (crc16 (body ++ [0x42, 0, 0])) ++ rest) _ _).2
          ⟨crc16_lt _, rfl⟩
        rw [field16] at this
        simp only [this, if_true]
      · exact absurd h (by decide)
  rw [if_neg h1]
  by_cases h2 : t = 2
  · subst h2
    simp only [if_true, Bool.false_eq_true, if_false]
    constructor
    · intro h
      split at h
      · simp at h
      · rename_i c r hr
        obtain ⟨hc, hb⟩ := (readField32_iff _ _ _).1 hr
        split at h
        · rename_i he
          simp only [Option.some.injEq, Prod.mk.injEq] at h
          obtain ⟨rfl, rfl⟩ := h
          rw [← he] at hb
          exact ⟨_, hb, Or.inr (Or.inr ⟨trivial, rfl, by rw [he]⟩)⟩
        · simp at h
    · rintro ⟨field, rfl, ⟨h, _⟩ | ⟨h, _⟩ | ⟨_, rfl, rfl⟩⟩
      · exact absurd h (by decide)
      · exact absurd h (by decide)
      · have := (readField32_iff (field32 (crc32 (body ++ [0x44, 0, 0, 0, 0])) ++ rest) _ _).2
          ⟨crc32_lt _, rfl⟩
        rw [field32] at this
        simp only [this, if_true]
  · rw [if_neg h2]
    constructor
    · intro h; simp at h
    · rintro ⟨field, rfl, ⟨h, _⟩ | ⟨h, _⟩ | ⟨h, _⟩⟩
      · exact absurd h h0
      · exact absurd h h1
      · exact absurd h h2

theorem appendCrc_spec (t : UInt8) (body : Bytes) :
    (t = 0 ∨ t = 1 ∨ t = 2 → ∃ field crcs, IsCrcField t body field crcs ∧
      appendCrc t body = some (body ++ field, crcs) ∧ crcSize t = some field.length) ∧
    (¬ (t = 0 ∨ t = 1 ∨ t = 2) → appendCrc t body = none) := by
  have z16 : field16 0 = [0x42, 0, 0] := by decide
  have z32 : field32 0 = [0x44, 0, 0, 0, 0] := by decide
  unfold appendCrc
  rw [z16, z32]
  constructor
  · rintro (rfl | rfl | rfl)
    · exact ⟨[], (0, 0), Or.inl ⟨rfl, rfl, rfl⟩, by simp, rfl⟩
    · exact ⟨_, _, Or.inr (Or.inl ⟨rfl, rfl, rfl⟩), by simp [field16], by simp [crcSize]⟩
    · exact ⟨_, _, Or.inr (Or.inr ⟨rfl, rfl, rfl⟩), by simp [field32], by simp [crcSize]⟩
  · intro h
    push Not at h
    rw [if_neg h.1, if_neg h.2.1, if_neg h.2.2]

/-- Two blocks of the same length and CRC type, one of them differing from the other in one byte,
cannot both carry their CRC. -/
theorem field_single (t : UInt8) (body field body' field' : Bytes) (crcs crcs' : Nat × Nat)
    (ht : t ≠ 0) (h : IsCrcField t body field crcs) (h' : IsCrcField t body' field' crcs')
    (pre : Bytes) (a b : UInt8) (post : Bytes) (hab : a ≠ b)
    (h1 : body ++ field = pre ++ a :: post) (h2 : body' ++ field' = pre ++ b :: post) : False := by
  have hflen : field.length = field'.length := by
    rcases h with ⟨h, _⟩ | ⟨h, rfl, _⟩ | ⟨h, rfl, _⟩ <;> rcases h' with ⟨h', _⟩ | ⟨h', rfl, _⟩ | ⟨h', rfl, _⟩ <;>
      first | exact absurd h ht | exact absurd h' ht | (rw [h] at h'; exact absurd h' (by decide)) | simp
  have hlen : body.length = body'.length := by
    have e1 := congrArg List.length h1
    have e2 := congrArg List.length h2
    simp only [List.length_append, List.length_cons] at e1 e2
    omega
  by_cases hp : pre.length < body.length
  · -- the byte is in the body
    have hb : body = pre ++ a :: post.take (body.length - pre.length - 1) := by
      have := congrArg (List.take body.length) h1
      rw [List.take_left' rfl, List.take_append, List.take_of_length_le (by omega)] at this
      rw [this]
      congr 1
      cases hn : body.length - pre.length with
      | zero => omega
      | succ n => simp
    have hb' : body' = pre ++ b :: post.take (body.length - pre.length - 1) := by
      have := congrArg (List.take body'.length) h2
      rw [List.take_left' rfl, List.take_append, List.take_of_length_le (by omega)] at this
      rw [this, ← hlen]
      congr 1
      cases hn : body.length - pre.length with
      | zero => omega
      | succ n => simp
    have hff : field = field' := by
      have e1 := congrArg (List.drop body.length) h1
      have e2 := congrArg (List.drop body'.length) h2
      rw [List.drop_left' rfl, List.drop_append, List.drop_of_length_le (by omega)] at e1 e2
      rw [e1, e2, ← hlen]
      cases hn : body.length - pre.length with
      | zero => omega
      | succ n => simp
    set mid := post.take (body.length - pre.length - 1)
    rcases h with ⟨h, _⟩ | ⟨h, rfl, _⟩ | ⟨h, rfl, _⟩
    · exact ht h
    · rcases h' with ⟨h', _⟩ | ⟨_, rfl, _⟩ | ⟨h', _⟩
      · exact ht h'
      · simp only [List.cons.injEq, true_and] at hff
        have := congrArg beValue hff
        rw [beValue_toBe, beValue_toBe, show 256 ^ 2 = 2 ^ 16 by norm_num, Nat.mod_eq_of_lt (crc16_lt _),
          Nat.mod_eq_of_lt (crc16_lt _), hb, hb'] at this
        refine crc16_burst pre [a] [b] (mid ++ [0x42, 0, 0]) rfl (by simp) (by simpa using hab) ?_
        simpa using this
      · rw [h] at h'; exact absurd h' (by decide)
    · rcases h' with ⟨h', _⟩ | ⟨h', _⟩ | ⟨_, rfl, _⟩
      · exact ht h'
      · rw [h] at h'; exact absurd h' (by decide)
      · simp only [List.cons.injEq, true_and] at hff
        have := congrArg beValue hff
        rw [beValue_toBe, beValue_toBe, show 256 ^ 4 = 2 ^ 32 by norm_num, Nat.mod_eq_of_lt (crc32_lt _),
          Nat.mod_eq_of_lt (crc32_lt _), hb, hb'] at this
        refine crc32_burst pre [a] [b] (mid ++ [0x44, 0, 0, 0, 0]) rfl (by simp) (by simpa using hab) ?_
        simpa using this
  · -- the byte is in the CRC field
    have hbb : body = body' := by
      have e1 := congrArg (List.take body.length) h1
      have e2 := congrArg (List.take body'.length) h2
      rw [List.take_left' rfl, List.take_append_of_le_length (by omega)] at e1 e2
      rw [e1, e2, hlen]
    have hff : field = field' := by
      rw [← hbb] at h'
      rcases h with ⟨h, _⟩ | ⟨h, rfl, _⟩ | ⟨h, rfl, _⟩ <;> rcases h' with ⟨h', _⟩ | ⟨h', rfl, _⟩ | ⟨h', rfl, _⟩ <;>
        first | exact absurd h ht | exact absurd h' ht | rfl | (rw [h] at h'; exact absurd h' (by decide))
    rw [← hbb, ← hff, h1] at h2
    have := List.append_cancel_left h2
    simp only [List.cons.injEq] at this
    exact hab this.1

end Hdtn.Bpv7Crc
