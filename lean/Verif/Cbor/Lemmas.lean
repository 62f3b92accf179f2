import Verif.Cbor.Model
import Verif.Cbor.Spec

/-! Lemmas about CBOR unsigned integers and arrays. -/

namespace Hdtn.Cbor
open Spec

theorem u8_eq_iff (b : UInt8) (n : Nat) (hn : n < 256) : b = UInt8.ofNat n ↔ b.toNat = n := by
  rw [← UInt8.toNat_inj, UInt8.toNat_ofNat', Nat.mod_eq_of_lt (by simpa using hn)]

theorem u8_lt_24 (b : UInt8) : b < 24 ↔ b.toNat < 24 := by
  rw [UInt8.lt_iff_toNat_lt]; rfl

theorem decode_cons (t : UInt8) (rest : Bytes) :
    decodeU64Classic (t :: rest) =
      if t.toNat < 24 then (t.toNat, 1)
      else if t.toNat = 24 then if 1 ≤ rest.length then (beValue (rest.take 1), 2) else (0, 0)
      else if t.toNat = 25 then if 2 ≤ rest.length then (beValue (rest.take 2), 3) else (0, 0)
      else if t.toNat = 26 then if 4 ≤ rest.length then (beValue (rest.take 4), 5) else (0, 0)
      else if t.toNat = 27 then if 8 ≤ rest.length then (beValue (rest.take 8), 9) else (0, 0)
      else (0, 0) := by
  have e24 : t = 24 ↔ t.toNat = 24 := u8_eq_iff t 24 (by decide)
  have e25 : t = 25 ↔ t.toNat = 25 := u8_eq_iff t 25 (by decide)
  have e26 : t = 26 ↔ t.toNat = 26 := u8_eq_iff t 26 (by decide)
  have e27 : t = 27 ↔ t.toNat = 27 := u8_eq_iff t 27 (by decide)
  simp only [decodeU64Classic, u8_lt_24, e24, e25, e26, e27, List.length_cons,
    show ∀ n, (2 ≤ n + 1) = (1 ≤ n) from fun n => by simp,
    show ∀ n, (3 ≤ n + 1) = (2 ≤ n) from fun n => by simp,
    show ∀ n, (5 ≤ n + 1) = (4 ≤ n) from fun n => by simp,
    show ∀ n, (9 ≤ n + 1) = (8 ≤ n) from fun n => by simp]

/-- The decoder is exact: it succeeds with a value and a size exactly when the bytes it takes are an
unsigned integer of that value. -/
theorem decode_iff (buf : Bytes) (v k : Nat) :
    (decodeU64Classic buf = (v, k) ∧ k ≠ 0) ↔ k ≤ buf.length ∧ IsUint (buf.take k) v := by
  cases buf with
  | nil =>
    simp only [decodeU64Classic, List.take_nil, List.length_nil]
    constructor
    · rintro ⟨h, hk⟩; simp at h; omega
    · rintro ⟨h, b, rest, hb, _⟩; simp at hb
  | cons t rest =>
    rw [decode_cons]
    -- the code word of length 1 + 2^j
    have key : ∀ j, j < 4 → t.toNat = 24 + j →
        (((if 2 ^ j ≤ rest.length then (beValue (rest.take (2 ^ j)), 2 ^ j + 1) else (0, 0)) =
            (v, k) ∧ k ≠ 0) ↔
          k ≤ (t :: rest).length ∧ IsUint ((t :: rest).take k) v) := by
      intro j hj ht
      constructor
      · rintro ⟨h, hk⟩
        split at h
        · rename_i hl
          simp only [Prod.mk.injEq] at h
          obtain ⟨rfl, rfl⟩ := h
          refine ⟨by simp only [List.length_cons]; omega, t, rest.take (2 ^ j), by simp, Or.inr ⟨j, hj, ht, ?_, rfl⟩⟩
          simp; omega
        · simp at h; omega
      · rintro ⟨hk, b, r, hb, h⟩
        cases k with
        | zero => simp at hb
        | succ k =>
          simp only [List.take_succ_cons, List.cons.injEq] at hb
          obtain ⟨rfl, rfl⟩ := hb
          rcases h with h | ⟨j', hj', hb', hl, hv⟩
          · omega
          · have : j' = j := by omega
            subst this
            have hk' : k = 2 ^ j' := by
              simp only [List.length_take, List.length_cons] at hl hk; omega
            subst hk'
            rw [if_pos (by simp only [List.length_cons] at hk; omega)]
            simp [hv]
    by_cases h0 : t.toNat < 24
    · rw [if_pos h0]
      constructor
      · rintro ⟨h, hk⟩
        simp only [Prod.mk.injEq] at h
        obtain ⟨rfl, rfl⟩ := h
        exact ⟨by simp, t, [], by simp, Or.inl ⟨h0, rfl, rfl⟩⟩
      · rintro ⟨hk, b, r, hb, h⟩
        cases k with
        | zero => simp at hb
        | succ k =>
          simp only [List.take_succ_cons, List.cons.injEq] at hb
          obtain ⟨rfl, rfl⟩ := hb
          rcases h with ⟨_, h1, rfl⟩ | ⟨j', hj', hb', hl, hv⟩
          · have : (List.take k rest).length = 0 := by rw [h1]; rfl
            simp only [List.length_take, List.length_cons] at this hk
            have : k = 0 := by omega
            simp [this]
          · omega
    rw [if_neg h0]
    by_cases h1 : t.toNat = 24
    · rw [if_pos h1]; exact key 0 (by decide) h1
    rw [if_neg h1]
    by_cases h2 : t.toNat = 25
    · rw [if_pos h2]; exact key 1 (by decide) h2
    rw [if_neg h2]
    by_cases h3 : t.toNat = 26
    · rw [if_pos h3]; exact key 2 (by decide) h3
    rw [if_neg h3]
    by_cases h4 : t.toNat = 27
    · rw [if_pos h4]; exact key 3 (by decide) h4
    rw [if_neg h4]
    constructor
    · rintro ⟨h, hk⟩; simp at h; omega
    · rintro ⟨hk, b, r, hb, h⟩
      cases k with
      | zero => simp at hb
      | succ k =>
        simp only [List.take_succ_cons, List.cons.injEq] at hb
        obtain ⟨rfl, rfl⟩ := hb
        omega

theorem isUint_ne_nil {p : Bytes} {v : Nat} (h : IsUint p v) : p.length ≠ 0 := by
  obtain ⟨b, r, rfl, _⟩ := h; simp

theorem readUint_iff (buf : Bytes) (v : Nat) (rest : Bytes) :
    readUint buf = some (v, rest) ↔ ∃ p, buf = p ++ rest ∧ IsUint p v := by
  unfold readUint
  constructor
  · intro h
    simp only at h
    split at h
    · simp at h
    · rename_i hk
      simp only [Option.some.injEq, Prod.mk.injEq] at h
      obtain ⟨hv, hr⟩ := h
      have := (decode_iff buf v (decodeU64Classic buf).2).1 ⟨by rw [← hv], hk⟩
      exact ⟨_, by rw [← hr, List.take_append_drop], this.2⟩
  · rintro ⟨p, rfl, h⟩
    have h1 := (decode_iff (p ++ rest) v p.length).2 ⟨by simp, by simpa using h⟩
    simp only [h1.1, if_neg h1.2]
    simp

theorem isUint_lt {p : Bytes} {v : Nat} (h : IsUint p v) : v < 2 ^ 64 := by
  obtain ⟨b, r, rfl, h | ⟨k, hk, hb, hl, rfl⟩⟩ := h
  · have := b.toNat_lt; omega
  · have h1 := beValue_lt r
    rw [hl] at h1
    have h2 : 256 ^ 2 ^ k ≤ 256 ^ 2 ^ 3 :=
      Nat.pow_le_pow_right (by decide) (Nat.pow_le_pow_right (by decide) (by omega))
    have : (256 : Nat) ^ 2 ^ 3 = 2 ^ 64 := by norm_num
    omega

theorem isUint_det {p : Bytes} {v w : Nat} (h : IsUint p v) (h' : IsUint p w) : v = w := by
  have a := (readUint_iff p v []).2 ⟨p, by simp, h⟩
  have b := (readUint_iff p w []).2 ⟨p, by simp, h'⟩
  rw [a] at b; simpa using b

theorem isUint_encode (v : Nat) (hv : v < 2 ^ 64) : IsUint (encodeU64 v) v := by
  unfold encodeU64
  split_ifs with h1 h2 h3 h4
  · exact ⟨_, [], rfl, Or.inl (by rw [UInt8.toNat_ofNat', Nat.mod_eq_of_lt (by omega)]; simp; exact h1)⟩
  · refine ⟨_, _, rfl, Or.inr ⟨0, by decide, rfl, rfl, ?_⟩⟩
    simp [beValue]; omega
  · refine ⟨_, _, rfl, Or.inr ⟨1, by decide, rfl, by simp, ?_⟩⟩
    rw [beValue_toBe, Nat.mod_eq_of_lt]; norm_num; omega
  · refine ⟨_, _, rfl, Or.inr ⟨2, by decide, rfl, by simp, ?_⟩⟩
    rw [beValue_toBe, Nat.mod_eq_of_lt]; norm_num; omega
  · refine ⟨_, _, rfl, Or.inr ⟨3, by decide, rfl, by simp, ?_⟩⟩
    rw [beValue_toBe, Nat.mod_eq_of_lt]; norm_num at *; omega

theorem encode_length (v : Nat) : (encodeU64 v).length = encodingSizeClassic v := by
  unfold encodeU64 encodingSizeClassic
  split_ifs <;> simp

theorem encode_minimal (v : Nat) (p : Bytes) (h : IsUint p v) :
    (encodeU64 v).length ≤ p.length := by
  rw [encode_length]
  obtain ⟨b, r, rfl, ⟨h1, rfl, rfl⟩ | ⟨k, hk, hb, hl, rfl⟩⟩ := h
  · rw [encodingSizeClassic, if_pos h1]; simp
  · have hlt := beValue_lt r
    rw [hl] at hlt
    rw [List.length_cons, hl]
    unfold encodingSizeClassic
    interval_cases k <;> norm_num at hlt <;> split_ifs <;> first | (simp; done) | omega

theorem encodeClassic_eq (v n : Nat) :
    encodeU64Classic v n = if n < (encodeU64 v).length then [] else encodeU64 v := by
  unfold encodeU64Classic encodeU64
  split_ifs <;> simp_all <;> omega

theorem readUint_encode (v : Nat) (hv : v < 2 ^ 64) (rest : Bytes) :
    readUint (encodeU64 v ++ rest) = some (v, rest) :=
  (readUint_iff _ _ _).2 ⟨_, rfl, isUint_encode v hv⟩

theorem log2_range (v a b : Nat) (h1 : 2 ^ a ≤ v) (h2 : v < 2 ^ b) :
    a ≤ Nat.log2 v ∧ Nat.log2 v < b := by
  have hv : v ≠ 0 := by
    have : 0 < 2 ^ a := Nat.pow_pos (by decide)
    omega
  exact ⟨(Nat.le_log2 hv).2 h1, (Nat.log2_lt hv).2 h2⟩

theorem msbOrZero_cases (v : Nat) (hv : v < 2 ^ 64) :
    (v < 24 ∧ msbOrZero v = 0) ∨
    (24 ≤ v ∧ v ≤ 0xff ∧ 4 ≤ msbOrZero v ∧ msbOrZero v < 8) ∨
    (0xff < v ∧ v ≤ 0xffff ∧ 8 ≤ msbOrZero v ∧ msbOrZero v < 16) ∨
    (0xffff < v ∧ v ≤ 0xffffffff ∧ 16 ≤ msbOrZero v ∧ msbOrZero v < 32) ∨
    (0xffffffff < v ∧ 32 ≤ msbOrZero v ∧ msbOrZero v < 64) := by
  unfold msbOrZero
  by_cases h0 : v < 24
  · left; exact ⟨h0, if_neg (by omega)⟩
  right
  rw [if_pos (by omega)]
  by_cases h1 : v ≤ 0xff
  · left; exact ⟨by omega, h1, log2_range v 4 8 (by omega) (by omega)⟩
  right
  by_cases h2 : v ≤ 0xffff
  · left; exact ⟨by omega, h2, log2_range v 8 16 (by omega) (by omega)⟩
  right
  by_cases h3 : v ≤ 0xffffffff
  · left; exact ⟨by omega, h3, log2_range v 16 32 (by omega) (by omega)⟩
  right
  exact ⟨by omega, log2_range v 32 64 (by omega) (by omega)⟩

theorem encodingSize_eq (v : Nat) (hv : v < 2 ^ 64) :
    encodingSize v = some (encodingSizeClassic v) := by
  have t1 : ∀ i, 4 ≤ i → i < 8 → msbToRequiredEncodingSize[i]? = some 2 := by
    intro i h1 h2; interval_cases i <;> rfl
  have t2 : ∀ i, 8 ≤ i → i < 16 → msbToRequiredEncodingSize[i]? = some 3 := by
    intro i h1 h2; interval_cases i <;> rfl
  have t3 : ∀ i, 16 ≤ i → i < 32 → msbToRequiredEncodingSize[i]? = some 5 := by
    intro i h1 h2; interval_cases i <;> rfl
  have t4 : ∀ i, 32 ≤ i → i < 64 → msbToRequiredEncodingSize[i]? = some 9 := by
    intro i h1 h2; interval_cases i <;> rfl
  unfold encodingSize encodingSizeClassic
  rcases msbOrZero_cases v hv with ⟨h, hm⟩ | ⟨h, h', hm, hm'⟩ | ⟨h, h', hm, hm'⟩ |
    ⟨h, h', hm, hm'⟩ | ⟨h, hm, hm'⟩
  · rw [hm, if_pos h]; rfl
  · rw [t1 _ hm hm', if_neg (by omega), if_pos h']
  · rw [t2 _ hm hm', if_neg (by omega), if_neg (by omega), if_pos h']
  · rw [t3 _ hm hm', if_neg (by omega), if_neg (by omega), if_neg (by omega), if_pos h']
  · rw [t4 _ hm hm', if_neg (by omega), if_neg (by omega), if_neg (by omega), if_neg (by omega)]

/-! ### Accelerated build -/

theorem beValue_shift (w : Bytes) (k : Nat) (hk : k ≤ w.length) :
    beValue w >>> (8 * (w.length - k)) = beValue (w.take k) := by
  have h := beValue_append (w.take k) (w.drop k)
  rw [List.take_append_drop] at h
  have h2 := beValue_lt (w.drop k)
  rw [List.length_drop] at h h2
  rw [h, Nat.shiftRight_eq_div_pow, Nat.pow_mul, show (2 : Nat) ^ 8 = 256 from rfl, Nat.mul_comm,
    Nat.mul_add_div (Nat.pow_pos (by decide)), Nat.div_eq_of_lt h2, Nat.add_zero]

theorem decodeFast_eq (buf : Bytes) : decodeU64Fast buf = decodeU64Classic buf := by
  cases buf with
  | nil => rfl
  | cons t rest =>
    simp only [decodeU64Fast, decodeU64Classic]
    split_ifs <;> try rfl
    · rcases rest with _ | ⟨b1, _ | ⟨b2, rest⟩⟩
      · simp at *
      · simp at *
      · simp only [List.take_succ_cons, List.take_zero, beValue, List.length_cons, List.length_nil]
        have h2 : b2.toNat < 2 ^ 8 := b2.toNat_lt
        rw [← Nat.shiftLeft_add_eq_or_of_lt h2, Nat.shiftLeft_eq]
        simp
    · rcases rest with _ | ⟨b1, _ | ⟨b2, rest⟩⟩ <;> first | rfl | (simp at *)

theorem decodeAccel_eq (buf : Bytes) : decodeU64Accel buf = some (decodeU64Classic buf) := by
  unfold decodeU64Accel
  split
  · rename_i hlen
    cases buf with
    | nil => simp at hlen
    | cons t rest =>
      simp only [List.length_cons] at hlen
      have hl8 : 8 ≤ rest.length := by omega
      rw [decode_cons]
      have hgt : t > 27 ↔ 27 < t.toNat := by
        rw [gt_iff_lt, UInt8.lt_iff_toNat_lt]; rfl
      have hge : t ≥ 24 ↔ 24 ≤ t.toNat := by
        rw [ge_iff_le, UInt8.le_iff_toNat_le]; rfl
      simp only [decodeU64FastBufSize9, List.getElem?_cons_zero, Option.bind_eq_bind,
        Option.bind_some, hgt, hge]
      by_cases h27 : 27 < t.toNat
      · rw [if_pos h27, if_neg (by omega), if_neg (by omega), if_neg (by omega), if_neg (by omega),
          if_neg (by omega)]; rfl
      rw [if_neg h27]
      have hword : ∀ w : Bytes, w.length = 8 → ∀ k, k ≤ 8 → ∀ s, s = 8 * (8 - k) →
          beValue w >>> s = beValue (w.take k) := by
        intro w hw k hk s hs
        have := beValue_shift w k (by omega)
        rw [hw] at this; rw [hs]; exact this
      by_cases h0 : t.toNat < 24
      · have ht : ∀ n, n < 24 → numBytesTable[n]? = some 1 ∧ rightShifts[n]? = some 56 := by
          intro n hn; interval_cases n <;> exact ⟨rfl, rfl⟩
        obtain ⟨e1, e2⟩ := ht t.toNat h0
        have hw : ((t :: rest).take 8).length = 8 := by simp; omega
        simp only [e1, e2, if_neg (show ¬ 24 ≤ t.toNat by omega), Option.bind_some, List.drop_zero,
          hw, if_pos h0]
        rw [hword _ hw 1 (by omega) 56 (by omega)]
        simp [beValue]
      have h24 : 24 ≤ t.toNat := by omega
      have hw : (rest.take 8).length = 8 := by simp; omega
      have htt : ∀ k, k ≤ 8 → (rest.take 8).take k = rest.take k := by
        intro k hk; rw [List.take_take]; congr 1; omega
      simp only [if_pos h24, List.drop_succ_cons, List.drop_zero, hw, if_neg h0]
      have hcases : t.toNat = 24 ∨ t.toNat = 25 ∨ t.toNat = 26 ∨ t.toNat = 27 := by omega
      rcases hcases with h | h | h | h
      · have e1 : numBytesTable[24]? = some 2 := rfl
        have e2 : rightShifts[24]? = some 56 := rfl
        rw [h, e1, e2]
        simp only [Option.bind_some]
        rw [hword _ hw 1 (by omega) 56 (by omega), htt 1 (by omega)]
        rw [if_pos (show 1 ≤ rest.length by omega)]; rfl
      · have e1 : numBytesTable[25]? = some 3 := rfl
        have e2 : rightShifts[25]? = some 48 := rfl
        rw [h, e1, e2]
        simp only [Option.bind_some]
        rw [hword _ hw 2 (by omega) 48 (by omega), htt 2 (by omega)]
        rw [if_pos (show 2 ≤ rest.length by omega)]; rfl
      · have e1 : numBytesTable[26]? = some 5 := rfl
        have e2 : rightShifts[26]? = some 32 := rfl
        rw [h, e1, e2]
        simp only [Option.bind_some]
        rw [hword _ hw 4 (by omega) 32 (by omega), htt 4 (by omega)]
        rw [if_pos (show 4 ≤ rest.length by omega)]; rfl
      · have e1 : numBytesTable[27]? = some 9 := rfl
        have e2 : rightShifts[27]? = some 0 := rfl
        rw [h, e1, e2]
        simp only [Option.bind_some]
        simp [hl8]
  · rw [decodeFast_eq]

theorem toBe_take (n w k : Nat) (hk : k ≤ n) : (toBe n w).take k = toBe k (w >>> (8 * (n - k))) := by
  induction n generalizing k with
  | zero =>
    have : k = 0 := by omega
    subst this; rfl
  | succ n ih =>
    cases k with
    | zero => simp [toBe]
    | succ k =>
      rw [toBe, List.take_succ_cons, ih k (by omega), toBe, ← Nat.shiftRight_add]
      have e1 : n + 1 - (k + 1) = n - k := by omega
      have e2 : 8 * (n - k) + 8 * k = 8 * n := by omega
      rw [e1, e2]

theorem shift_take (v k : Nat) (hk : k ≤ 8) (hv : v < 256 ^ k) :
    (toBe 8 ((v <<< (8 * (8 - k))) % U64)).take k = toBe k v := by
  rw [toBe_take _ _ _ hk]
  congr 1
  have h1 : v <<< (8 * (8 - k)) < 2 ^ 64 := by
    rw [Nat.shiftLeft_eq]
    calc v * 2 ^ (8 * (8 - k)) < 256 ^ k * 2 ^ (8 * (8 - k)) :=
          Nat.mul_lt_mul_of_pos_right hv (Nat.pow_pos (by decide))
      _ = 2 ^ 64 := by
          rw [show (256 : Nat) = 2 ^ 8 from rfl, ← Nat.pow_mul, ← Nat.pow_add]
          congr 1; omega
  rw [Nat.mod_eq_of_lt h1, Nat.shiftLeft_shiftRight]

theorem storeHead_eq (mem : Bytes) (hm : 9 ≤ mem.length) (f v s : Nat) :
    storeHead mem f v s = UInt8.ofNat f :: (toBe 8 ((v <<< s) % U64) ++ mem.drop 9) := by
  simp [storeHead, writeAt]

/-- What a store of the encoding of `v` does to output memory: announced size, first bytes, and
nothing beyond byte 9. -/
def Stored (mem : Bytes) (v : Nat) (r : Option (Bytes × Nat)) : Prop :=
  ∃ mem', r = some (mem', (encodeU64 v).length) ∧ mem'.length = mem.length ∧
    mem'.take (encodeU64 v).length = encodeU64 v ∧ mem'.drop 9 = mem.drop 9

theorem stored_head (mem : Bytes) (hm : 9 ≤ mem.length) (v f s : Nat)
    (h : (UInt8.ofNat f :: toBe 8 ((v <<< s) % U64)).take (encodeU64 v).length = encodeU64 v)
    (hl : (encodeU64 v).length ≤ 9) :
    Stored mem v (some (storeHead mem f v s, (encodeU64 v).length)) := by
  refine ⟨_, rfl, ?_, ?_, ?_⟩
  · rw [storeHead_eq mem hm]; simp; omega
  · rw [storeHead_eq mem hm, ← List.cons_append, List.take_append_of_le_length (by simp; omega), h]
  · rw [storeHead_eq mem hm, ← List.cons_append, List.drop_append]
    simp

theorem fastBufSize9_stored (mem : Bytes) (hm : 9 ≤ mem.length) (v : Nat) (hv : v < 2 ^ 64) :
    Stored mem v (encodeU64FastBufSize9 mem v) := by
  have t0 : msbToAll[0]? = some 1 := rfl
  have t1 : ∀ i, 4 ≤ i → i < 8 → msbToAll[i]? = some (2 ||| es 24 56) := by
    intro i h1 h2; interval_cases i <;> rfl
  have t2 : ∀ i, 8 ≤ i → i < 16 → msbToAll[i]? = some (3 ||| es 25 48) := by
    intro i h1 h2; interval_cases i <;> rfl
  have t3 : ∀ i, 16 ≤ i → i < 32 → msbToAll[i]? = some (5 ||| es 26 32) := by
    intro i h1 h2; interval_cases i <;> rfl
  have t4 : ∀ i, 32 ≤ i → i < 64 → msbToAll[i]? = some (9 ||| es 27 0) := by
    intro i h1 h2; interval_cases i <;> rfl
  have fin : ∀ all size type shift, all % 256 = size → (all >>> 8) % 256 = type →
      (all >>> 16) % 256 = shift → size ≠ 1 → msbToAll[msbOrZero v]? = some all →
      encodeU64FastBufSize9 mem v = some (storeHead mem type v shift, size) := by
    intro all size type shift h1 h2 h3 h4 h5
    simp only [encodeU64FastBufSize9, h5, Option.bind_eq_bind, Option.bind_some, h1, h2, h3,
      if_neg h4, Nat.or_zero]
    rfl
  rcases msbOrZero_cases v hv with ⟨h, hm0⟩ | ⟨h, h', hm1, hm'⟩ | ⟨h, h', hm1, hm'⟩ |
    ⟨h, h', hm1, hm'⟩ | ⟨h, hm1, hm'⟩
  · have he : encodeU64 v = [UInt8.ofNat v] := by rw [encodeU64, if_pos h]
    have := stored_head mem hm v (v % 256) 0 (by rw [he, Nat.mod_eq_of_lt (by omega)]; simp) (by rw [he]; simp)
    unfold encodeU64FastBufSize9
    rw [hm0, t0]
    simp only [he] at this ⊢
    convert this using 1
    simp
  · have he : encodeU64 v = [24, UInt8.ofNat v] := by
      rw [encodeU64, if_neg (by omega), if_pos h']
    have hsh := shift_take v 1 (by omega) (by omega)
    have := stored_head mem hm v 24 56 (by rw [he]; simp only [List.length_cons, List.length_nil, List.take_succ_cons]; rw [hsh]; simp [toBe]) (by rw [he]; simp)
    rw [fin _ 2 24 56 (by decide) (by decide) (by decide) (by decide) (t1 _ hm1 hm')]
    simp only [he, List.length_cons, List.length_nil, toBe_length] at this ⊢
    exact this
  · have he : encodeU64 v = 25 :: toBe 2 v := by
      rw [encodeU64, if_neg (by omega), if_neg (by omega), if_pos h']
    have hsh := shift_take v 2 (by omega) (by omega)
    have := stored_head mem hm v 25 48 (by rw [he]; simp only [List.length_cons, toBe_length, List.take_succ_cons]; rw [hsh]; rfl) (by rw [he]; simp)
    rw [fin _ 3 25 48 (by decide) (by decide) (by decide) (by decide) (t2 _ hm1 hm')]
    simp only [he, List.length_cons, List.length_nil, toBe_length] at this ⊢
    exact this
  · have he : encodeU64 v = 26 :: toBe 4 v := by
      rw [encodeU64, if_neg (by omega), if_neg (by omega), if_neg (by omega), if_pos h']
    have hsh := shift_take v 4 (by omega) (by omega)
    have := stored_head mem hm v 26 32 (by rw [he]; simp only [List.length_cons, toBe_length, List.take_succ_cons]; rw [hsh]; rfl) (by rw [he]; simp)
    rw [fin _ 5 26 32 (by decide) (by decide) (by decide) (by decide) (t3 _ hm1 hm')]
    simp only [he, List.length_cons, List.length_nil, toBe_length] at this ⊢
    exact this
  · have he : encodeU64 v = 27 :: toBe 8 v := by
      rw [encodeU64, if_neg (by omega), if_neg (by omega), if_neg (by omega), if_neg (by omega)]
    have hsh := shift_take v 8 (by omega) (by omega)
    have := stored_head mem hm v 27 0 (by rw [he]; simp only [List.length_cons, toBe_length, List.take_succ_cons]; rw [hsh]; rfl) (by rw [he]; simp)
    rw [fin _ 9 27 0 (by decide) (by decide) (by decide) (by decide) (t4 _ hm1 hm')]
    simp only [he, List.length_cons, List.length_nil, toBe_length] at this ⊢
    exact this

theorem fast_size (v : Nat) (hv : v < 2 ^ 64) :
    msbToRequiredEncodingSize[msbOrZero v]? = some (encodeU64 v).length := by
  rw [encode_length]; exact encodingSize_eq v hv

theorem writeAt_length (mem bs : Bytes) (off : Nat) (h : off + bs.length ≤ mem.length) :
    (writeAt mem off bs).length = mem.length := by
  simp [writeAt]; omega

theorem fast_stored (mem : Bytes) (v : Nat) (hv : v < 2 ^ 64)
    (hm : (encodeU64 v).length ≤ mem.length) : Stored mem v (encodeU64Fast mem v) := by
  have hsz := fast_size v hv
  have hcase : (v < 24 ∧ encodeU64 v = [UInt8.ofNat v]) ∨
      (v ≤ 0xff ∧ encodeU64 v = [24, UInt8.ofNat v]) ∨
      (v ≤ 0xffff ∧ encodeU64 v = 25 :: toBe 2 v) ∨
      (v ≤ 0xffffffff ∧ encodeU64 v = 26 :: toBe 4 v) ∨ encodeU64 v = 27 :: toBe 8 v := by
    unfold encodeU64
    by_cases h1 : v < 24
    · left; exact ⟨h1, if_pos h1⟩
    right; rw [if_neg h1]
    by_cases h2 : v ≤ 0xff
    · left; exact ⟨h2, if_pos h2⟩
    right; rw [if_neg h2]
    by_cases h3 : v ≤ 0xffff
    · left; exact ⟨h3, if_pos h3⟩
    right; rw [if_neg h3]
    by_cases h4 : v ≤ 0xffffffff
    · left; exact ⟨h4, if_pos h4⟩
    right; rw [if_neg h4]
  unfold encodeU64Fast
  simp only [hsz, Option.bind_eq_bind, Option.bind_some]
  by_cases h9 : mem.length ≥ 9
  · rw [if_pos h9]
    rcases hcase with ⟨h, he⟩ | ⟨h, he⟩ | ⟨h, he⟩ | ⟨h, he⟩ | he
    · have := stored_head mem h9 v (v % 256) 0 (by rw [he, Nat.mod_eq_of_lt (by omega)]; simp)
        (by rw [he]; simp)
      rw [he] at this ⊢
      convert this using 1
      simp [encodingSizeToType, encodingSizeToShifts]
    · have hsh := shift_take v 1 (by omega) (by omega)
      have := stored_head mem h9 v 24 56 (by rw [he]; simp only [List.length_cons, List.length_nil, List.take_succ_cons]; rw [hsh]; simp [toBe]) (by rw [he]; simp)
      rw [he] at this ⊢
      convert this using 1
      simp [encodingSizeToType, encodingSizeToShifts]
    · have hsh := shift_take v 2 (by omega) (by omega)
      have := stored_head mem h9 v 25 48 (by rw [he]; simp only [List.length_cons, toBe_length, List.take_succ_cons]; rw [hsh]; rfl) (by rw [he]; simp)
      rw [he] at this ⊢
      convert this using 1
      simp [encodingSizeToType, encodingSizeToShifts]
    · have hsh := shift_take v 4 (by omega) (by omega)
      have := stored_head mem h9 v 26 32 (by rw [he]; simp only [List.length_cons, toBe_length, List.take_succ_cons]; rw [hsh]; rfl) (by rw [he]; simp)
      rw [he] at this ⊢
      convert this using 1
      simp [encodingSizeToType, encodingSizeToShifts]
    · have hsh := shift_take v 8 (by omega) (by omega)
      have := stored_head mem h9 v 27 0 (by rw [he]; simp only [List.length_cons, toBe_length, List.take_succ_cons]; rw [hsh]; rfl) (by rw [he]; simp)
      rw [he] at this ⊢
      convert this using 1
      simp [encodingSizeToType, encodingSizeToShifts]
  · rw [if_neg h9, if_neg (by omega)]
    have hfin : ∀ mem' : Bytes, mem'.length = mem.length →
        mem'.take (encodeU64 v).length = encodeU64 v →
        Stored mem v (some (mem', (encodeU64 v).length)) := by
      intro mem' hl ht
      refine ⟨mem', rfl, hl, ht, ?_⟩
      rw [List.drop_eq_nil_of_le (by omega), List.drop_eq_nil_of_le (by omega)]
    have hshape : ∀ (f : UInt8) (bs : Bytes), 1 + bs.length ≤ mem.length →
        writeAt (writeAt mem 0 [f]) 1 bs = f :: (bs ++ mem.drop (1 + bs.length)) := by
      intro f bs h
      simp only [writeAt, List.take_zero, List.nil_append, List.length_cons, List.length_nil,
        List.cons_append, List.take_succ_cons]
      rw [Nat.add_comm 1 bs.length, List.drop_succ_cons, List.drop_drop]
      congr 2
      congr 1
      omega
    rcases hcase with ⟨h, he⟩ | ⟨h, he⟩ | ⟨h, he⟩ | ⟨h, he⟩ | he
    · have hm1 : 1 ≤ mem.length := by rw [he] at hm; simpa using hm
      have := hfin (writeAt (writeAt mem 0 [0]) 0 [UInt8.ofNat v])
        (by rw [writeAt_length _ _ _ (by simp [writeAt]), writeAt_length _ _ _ (by simp; omega)])
        (by rw [he]; simp [writeAt])
      rw [he] at this ⊢
      exact this
    · have hm1 : 2 ≤ mem.length := by rw [he] at hm; simpa using hm
      have := hfin (writeAt (writeAt mem 0 [24]) 1 [UInt8.ofNat v])
        (by rw [hshape _ _ (by simp; omega)]; simp; omega)
        (by rw [hshape _ _ (by simp; omega), he]; simp)
      rw [he] at this ⊢
      exact this
    · have hm1 : 3 ≤ mem.length := by rw [he] at hm; simpa using hm
      have := hfin (writeAt (writeAt mem 0 [25]) 1 [UInt8.ofNat (v >>> 8), UInt8.ofNat v])
        (by rw [hshape _ _ (by simp; omega)]; simp; omega)
        (by rw [hshape _ _ (by simp; omega), he]; simp [toBe])
      rw [he] at this ⊢
      exact this
    · have hm1 : 5 ≤ mem.length := by rw [he] at hm; simpa using hm
      have := hfin (writeAt (writeAt mem 0 [26]) 1 (toBe 4 v))
        (by rw [hshape _ _ (by simp; omega)]; simp; omega)
        (by rw [hshape _ _ (by simp; omega), he]; simp)
      rw [he] at this ⊢
      exact this
    · have hm1 : 9 ≤ mem.length := by rw [he] at hm; simpa using hm
      omega

/-! ### Arrays -/

theorem readMany_iff (n : Nat) (buf : Bytes) (vs : List Nat) (rest : Bytes) :
    readMany n buf = some (vs, rest) ↔ vs.length = n ∧ ∃ p, buf = p ++ rest ∧ IsUints p vs := by
  induction n generalizing buf vs with
  | zero =>
    simp only [readMany, Option.some.injEq, Prod.mk.injEq, List.length_eq_zero_iff]
    constructor
    · rintro ⟨rfl, rfl⟩; exact ⟨rfl, [], rfl, rfl⟩
    · rintro ⟨rfl, p, rfl, h⟩
      simp only [IsUints] at h
      subst h
      simp
  | succ n ih =>
    simp only [readMany, Option.bind_eq_bind, Option.bind_eq_some_iff, Option.pure_def,
      Option.some.injEq, Prod.exists, Prod.mk.injEq]
    constructor
    · rintro ⟨v, r1, h1, ws, r2, h2, rfl, rfl⟩
      obtain ⟨hl, p2, rfl, hp2⟩ := (ih r1 ws).1 h2
      obtain ⟨p1, rfl, hp1⟩ := (readUint_iff _ _ _).1 h1
      exact ⟨by simp [hl], p1 ++ p2, by simp, p1, p2, rfl, hp1, hp2⟩
    · rintro ⟨hl, p, rfl, hp⟩
      cases vs with
      | nil => simp at hl
      | cons v vs =>
        obtain ⟨p1, p2, rfl, hp1, hp2⟩ := hp
        refine ⟨v, p2 ++ rest, (readUint_iff _ _ _).2 ⟨p1, by simp, hp1⟩, vs, rest, ?_, rfl, rfl⟩
        exact (ih _ _).2 ⟨by simpa using hl, p2, rfl, hp2⟩

theorem isUints_map (vs : List Nat) (hv : ∀ v ∈ vs, v < 2 ^ 64) :
    IsUints (vs.map encodeU64).flatten vs := by
  induction vs with
  | nil => rfl
  | cons v vs ih =>
    exact ⟨_, _, rfl, isUint_encode v (hv v (by simp)), ih fun w hw => hv w (by simp [hw])⟩

theorem or_80 (b : UInt8) (h : b.toNat < 128) : (b ||| 0x80).toNat = b.toNat + 128 := by
  rw [UInt8.toNat_or]
  have h0 : (0x80 : UInt8).toNat = 2 ^ 7 := rfl
  have := Nat.two_pow_add_eq_or_of_lt (i := 7) h 1
  rw [Nat.mul_one] at this
  rw [h0, Nat.or_comm]
  omega

theorem encode_first (v : Nat) : ∃ b rest, encodeU64 v = b :: rest ∧ b.toNat < 28 := by
  unfold encodeU64
  split_ifs with h1 h2 h3 h4
  · exact ⟨_, _, rfl, by rw [UInt8.toNat_ofNat', Nat.mod_eq_of_lt (by omega)]; omega⟩
  · exact ⟨_, _, rfl, by decide⟩
  · exact ⟨_, _, rfl, by decide⟩
  · exact ⟨_, _, rfl, by decide⟩
  · exact ⟨_, _, rfl, by decide⟩

theorem markArray_head (n : Nat) (hn : n < 2 ^ 64) : IsArrayHead (markArray (encodeU64 n)) n := by
  obtain ⟨b, rest, he, hb⟩ := encode_first n
  have h := isUint_encode n hn
  rw [he] at h ⊢
  exact ⟨b ||| 0x80, rest, rfl, b, (or_80 b (by omega)).symm, h⟩

theorem markArray_length (bs : Bytes) : (markArray bs).length = bs.length := by
  cases bs <;> rfl

theorem u8_shr5 (b : UInt8) : (b >>> 5 ≠ 4) ↔ ¬ (128 ≤ b.toNat ∧ b.toNat < 160) := by
  rw [Ne, ← UInt8.toNat_inj, UInt8.toNat_shiftRight]
  have h := b.toNat_lt
  have e : (5 : UInt8).toNat % 8 = 5 := rfl
  have e4 : (4 : UInt8).toNat = 4 := rfl
  rw [e, e4, Nat.shiftRight_eq_div_pow]
  omega

theorem u8_and_1f (b : UInt8) : (b &&& 0x1f).toNat = b.toNat % 32 := by
  rw [UInt8.toNat_and]
  have : (0x1f : UInt8).toNat = 2 ^ 5 - 1 := rfl
  rw [this, Nat.and_two_pow_sub_one_eq_mod]

end Hdtn.Cbor
