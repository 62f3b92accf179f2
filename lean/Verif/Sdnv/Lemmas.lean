import Verif.Sdnv.Model
import Verif.Sdnv.Spec

namespace Hdtn.Sdnv
open Spec

theorem and_7f (b : UInt8) : (b &&& 0x7f).toNat = b.toNat % 128 := by
  rw [UInt8.toNat_and]
  exact Nat.and_two_pow_sub_one_eq_mod b.toNat 7

theorem and_80_eq_zero (b : UInt8) : b &&& 0x80 = 0 ↔ b.toNat < 128 := by
  have h : (b &&& 0x80).toNat = b.toNat / 128 % 2 * 128 := by
    rw [UInt8.toNat_and]
    have h1 : b.toNat &&& 2 ^ 7 = 2 ^ 7 * (b.toNat.testBit 7).toNat := by
      rw [Nat.and_two_pow, Nat.mul_comm]
    have h2 : b.toNat.testBit 7 = decide (b.toNat / 128 % 2 = 1) := by
      rw [Nat.testBit_eq_decide_div_mod_eq]
    show b.toNat &&& 2 ^ 7 = _
    rw [h1, h2]
    rcases Nat.mod_two_eq_zero_or_one (b.toNat / 128) with h | h <;> simp [h]
  rw [← UInt8.toNat_inj, h]
  have := b.toNat_lt
  simp only [UInt8.toNat_zero]
  omega

theorem lowByte_toNat (v : Nat) : (lowByte v).toNat = v % 128 := by
  have h : v &&& 0x7f = v % 2 ^ 7 := Nat.and_two_pow_sub_one_eq_mod v 7
  rw [lowByte, h, UInt8.toNat_ofNat']
  omega

theorem contByte_toNat (v k : Nat) : (contByte v k).toNat = v / 2 ^ k % 128 + 128 := by
  have h : (v >>> k) &&& 0x7f = v / 2 ^ k % 2 ^ 7 := by
    rw [Nat.shiftRight_eq_div_pow]; exact Nat.and_two_pow_sub_one_eq_mod _ 7
  have hlt : v / 2 ^ k % 2 ^ 7 < 2 ^ 7 := Nat.mod_lt _ (by decide)
  have h2 : (v / 2 ^ k % 2 ^ 7) ||| 0x80 = 2 ^ 7 + v / 2 ^ k % 2 ^ 7 := by
    rw [Nat.or_comm]
    have := Nat.two_pow_add_eq_or_of_lt hlt 1
    simpa using this.symm
  rw [contByte, h, h2, UInt8.toNat_ofNat']
  omega

/-- The SDNV with `k + 1` bytes. -/
def enc : Nat → Nat → Bytes
  | 0, v => [lowByte v]
  | k + 1, v => contByte v (7 * (k + 1)) :: enc k v

/-- One less than the number of bytes the encoder uses. -/
def kOf (v : Nat) : Nat :=
  if v ≤ 2 ^ 7 - 1 then 0 else if v ≤ 2 ^ 14 - 1 then 1 else if v ≤ 2 ^ 21 - 1 then 2
  else if v ≤ 2 ^ 28 - 1 then 3 else if v ≤ 2 ^ 35 - 1 then 4 else if v ≤ 2 ^ 42 - 1 then 5
  else if v ≤ 2 ^ 49 - 1 then 6 else if v ≤ 2 ^ 56 - 1 then 7 else if v ≤ 2 ^ 63 - 1 then 8 else 9

theorem enc_length (k v : Nat) : (enc k v).length = k + 1 := by
  induction k with
  | zero => rfl
  | succ k ih => simp [enc, ih]

theorem enc_wellFormed (k v : Nat) : WellFormed (enc k v) := by
  induction k with
  | zero => simp only [enc, WellFormed, lowByte_toNat]; omega
  | succ k ih =>
    cases h : enc k v with
    | nil => have := enc_length k v; simp [h] at this
    | cons x xs =>
      simp only [enc, h, WellFormed, contByte_toNat]
      exact ⟨by omega, h ▸ ih⟩

theorem enc_value (k v : Nat) : value (enc k v) = v % 128 ^ (k + 1) := by
  induction k with
  | zero => simp [enc, value, lowByte_toNat]
  | succ k ih =>
    simp only [enc, value, contByte_toNat, ih, enc_length]
    rw [show 2 ^ (7 * (k + 1)) = 128 ^ (k + 1) by rw [pow_mul]; rfl, Nat.add_mod_right, Nat.mod_mod,
      pow_succ 128 (k + 1), Nat.mod_mul]
    ring

theorem encodeBufSize10_eq (v : Nat) : encodeU64ClassicBufSize10 v = enc (kOf v) v := by
  unfold encodeU64ClassicBufSize10 kOf
  by_cases h1 : v ≤ 2 ^ 7 - 1
  · simp only [if_pos h1]; rfl
  simp only [if_neg h1]
  by_cases h2 : v ≤ 2 ^ 14 - 1
  · simp only [if_pos h2]; rfl
  simp only [if_neg h2]
  by_cases h3 : v ≤ 2 ^ 21 - 1
  · simp only [if_pos h3]; rfl
  simp only [if_neg h3]
  by_cases h4 : v ≤ 2 ^ 28 - 1
  · simp only [if_pos h4]; rfl
  simp only [if_neg h4]
  by_cases h5 : v ≤ 2 ^ 35 - 1
  · simp only [if_pos h5]; rfl
  simp only [if_neg h5]
  by_cases h6 : v ≤ 2 ^ 42 - 1
  · simp only [if_pos h6]; rfl
  simp only [if_neg h6]
  by_cases h7 : v ≤ 2 ^ 49 - 1
  · simp only [if_pos h7]; rfl
  simp only [if_neg h7]
  by_cases h8 : v ≤ 2 ^ 56 - 1
  · simp only [if_pos h8]; rfl
  simp only [if_neg h8]
  by_cases h9 : v ≤ 2 ^ 63 - 1
  · simp only [if_pos h9]; rfl
  simp only [if_neg h9]
  rfl

theorem encodeU64Classic_eq (v n : Nat) :
    encodeU64Classic v n =
      if n < (encodeU64ClassicBufSize10 v).length then [] else encodeU64ClassicBufSize10 v := by
  unfold encodeU64Classic encodeU64ClassicBufSize10
  by_cases h1 : v ≤ 2 ^ 7 - 1
  · simp only [if_pos h1]; rfl
  simp only [if_neg h1]
  by_cases h2 : v ≤ 2 ^ 14 - 1
  · simp only [if_pos h2]; rfl
  simp only [if_neg h2]
  by_cases h3 : v ≤ 2 ^ 21 - 1
  · simp only [if_pos h3]; rfl
  simp only [if_neg h3]
  by_cases h4 : v ≤ 2 ^ 28 - 1
  · simp only [if_pos h4]; rfl
  simp only [if_neg h4]
  by_cases h5 : v ≤ 2 ^ 35 - 1
  · simp only [if_pos h5]; rfl
  simp only [if_neg h5]
  by_cases h6 : v ≤ 2 ^ 42 - 1
  · simp only [if_pos h6]; rfl
  simp only [if_neg h6]
  by_cases h7 : v ≤ 2 ^ 49 - 1
  · simp only [if_pos h7]; rfl
  simp only [if_neg h7]
  by_cases h8 : v ≤ 2 ^ 56 - 1
  · simp only [if_pos h8]; rfl
  simp only [if_neg h8]
  by_cases h9 : v ≤ 2 ^ 63 - 1
  · simp only [if_pos h9]; rfl
  simp only [if_neg h9]
  rfl

theorem encodeU32Classic_eq (v n : Nat) (hv : v < 2 ^ 32) :
    encodeU32Classic v n =
      if n < (encodeU64ClassicBufSize10 v).length then [] else encodeU64ClassicBufSize10 v := by
  unfold encodeU32Classic encodeU64ClassicBufSize10
  by_cases h1 : v ≤ 2 ^ 7 - 1
  · simp only [if_pos h1]; rfl
  simp only [if_neg h1]
  by_cases h2 : v ≤ 2 ^ 14 - 1
  · simp only [if_pos h2]; rfl
  simp only [if_neg h2]
  by_cases h3 : v ≤ 2 ^ 21 - 1
  · simp only [if_pos h3]; rfl
  simp only [if_neg h3]
  by_cases h4 : v ≤ 2 ^ 28 - 1
  · simp only [if_pos h4]; rfl
  simp only [if_neg h4]
  simp only [show v ≤ 2 ^ 35 - 1 by omega, if_true]
  rfl

theorem kOf_bounds (v : Nat) (hv : v < 2 ^ 64) :
    kOf v ≤ 9 ∧ v < 128 ^ (kOf v + 1) ∧ (kOf v = 0 ∨ 128 ^ kOf v ≤ v) := by
  unfold kOf
  by_cases h1 : v ≤ 2 ^ 7 - 1
  · simp only [if_pos h1]; norm_num at *; omega
  simp only [if_neg h1]
  by_cases h2 : v ≤ 2 ^ 14 - 1
  · simp only [if_pos h2]; norm_num at *; omega
  simp only [if_neg h2]
  by_cases h3 : v ≤ 2 ^ 21 - 1
  · simp only [if_pos h3]; norm_num at *; omega
  simp only [if_neg h3]
  by_cases h4 : v ≤ 2 ^ 28 - 1
  · simp only [if_pos h4]; norm_num at *; omega
  simp only [if_neg h4]
  by_cases h5 : v ≤ 2 ^ 35 - 1
  · simp only [if_pos h5]; norm_num at *; omega
  simp only [if_neg h5]
  by_cases h6 : v ≤ 2 ^ 42 - 1
  · simp only [if_pos h6]; norm_num at *; omega
  simp only [if_neg h6]
  by_cases h7 : v ≤ 2 ^ 49 - 1
  · simp only [if_pos h7]; norm_num at *; omega
  simp only [if_neg h7]
  by_cases h8 : v ≤ 2 ^ 56 - 1
  · simp only [if_pos h8]; norm_num at *; omega
  simp only [if_neg h8]
  by_cases h9 : v ≤ 2 ^ 63 - 1
  · simp only [if_pos h9]; norm_num at *; omega
  simp only [if_neg h9]
  norm_num at *; omega

theorem encode_length (v : Nat) : (encodeU64ClassicBufSize10 v).length = kOf v + 1 := by
  rw [encodeBufSize10_eq, enc_length]

theorem encode_wellFormed (v : Nat) : WellFormed (encodeU64ClassicBufSize10 v) := by
  rw [encodeBufSize10_eq]; exact enc_wellFormed _ _

theorem encode_value (v : Nat) (hv : v < 2 ^ 64) : value (encodeU64ClassicBufSize10 v) = v := by
  rw [encodeBufSize10_eq, enc_value, Nat.mod_eq_of_lt (kOf_bounds v hv).2.1]

theorem minimalLength_iff (v k : Nat) (h1 : 1 ≤ k) (h2 : v < 128 ^ k)
    (h3 : k = 1 ∨ 128 ^ (k - 1) ≤ v) : IsMinimalLength v k := by
  refine ⟨h1, h2, fun j hj hjv => ?_⟩
  rcases h3 with h3 | h3
  · omega
  · by_contra hlt
    have : 128 ^ j ≤ 128 ^ (k - 1) := Nat.pow_le_pow_right (by decide) (by omega)
    omega

theorem encode_minimal (v : Nat) (hv : v < 2 ^ 64) :
    IsMinimalLength v (encodeU64ClassicBufSize10 v).length := by
  have := kOf_bounds v hv
  rw [encode_length]
  exact minimalLength_iff _ _ (by omega) this.2.1 (by simpa using this.2.2)

/-- Number of leading bytes with the top bit set. -/
def contLen (bs : Bytes) : Nat := (bs.takeWhile fun b => 128 ≤ b.toNat).length

theorem contLen_nil : contLen [] = 0 := rfl

theorem contLen_cons (b : UInt8) (bs : Bytes) :
    contLen (b :: bs) = if 128 ≤ b.toNat then contLen bs + 1 else 0 := by
  unfold contLen
  by_cases h : 128 ≤ b.toNat <;> simp [h]

theorem contLen_le (bs : Bytes) : contLen bs ≤ bs.length := by
  induction bs with
  | nil => simp [contLen_nil]
  | cons b bs ih => rw [contLen_cons]; split <;> (simp; try omega)

theorem wellFormed_cons (b : UInt8) (bs : Bytes) :
    WellFormed (b :: bs) ↔
      (bs = [] ∧ b.toNat < 128) ∨ (bs ≠ [] ∧ 128 ≤ b.toNat ∧ WellFormed bs) := by
  cases bs <;> simp [WellFormed]

/-- A prefix of a buffer is an SDNV exactly when it ends at the first byte without top bit. -/
theorem wellFormed_take_iff (bs : Bytes) (k : Nat) (hk : k ≤ bs.length) :
    WellFormed (bs.take k) ↔ contLen bs < bs.length ∧ k = contLen bs + 1 := by
  induction bs generalizing k with
  | nil =>
    simp only [List.take_nil, WellFormed, List.length_nil, Nat.not_lt_zero, false_and]
  | cons b bs ih =>
    cases k with
    | zero => simp [WellFormed]
    | succ k =>
      have hk' : k ≤ bs.length := by simpa using hk
      rw [List.take_succ_cons, wellFormed_cons, ih k hk', contLen_cons]
      have hnil : bs.take k = [] ↔ k = 0 := by
        rw [List.take_eq_nil_iff]
        constructor
        · rintro (h | h)
          · exact h
          · subst h; simpa using hk'
        · exact Or.inl
      rw [Ne, hnil]
      simp only [List.length_cons]
      split <;> omega

theorem value_append (a b : Bytes) : value (a ++ b) = value a * 128 ^ b.length + value b := by
  induction a with
  | nil => simp [value]
  | cons x xs ih =>
    simp only [List.cons_append, value, List.length_append, ih]
    ring

theorem value_lt (a : Bytes) : value a < 128 ^ a.length := by
  induction a with
  | nil => simp [value]
  | cons x xs ih =>
    simp only [value, List.length_cons, pow_succ]
    have : x.toNat % 128 ≤ 127 := by omega
    have := Nat.mul_le_mul_right (128 ^ xs.length) this
    omega

/-- The decode loop, solved. -/
theorem decodeLoop_eq (N F W : Nat) (first : UInt8) (bs : Bytes) (bc r : Nat)
    (hbc : 1 ≤ bc) (hbN : bc ≤ N + 1) :
    decodeLoop N F W first bs bc r =
      if bc + contLen bs > N then invalid
      else if contLen bs = bs.length then notEnough
      else if bc + contLen bs = N ∧ first > UInt8.ofNat F then invalid
      else ((r * 128 ^ (contLen bs + 1) + value (bs.take (contLen bs + 1))) % W,
        bc + contLen bs) := by
  induction bs generalizing bc r with
  | nil =>
    rw [decodeLoop, contLen_nil]
    split
    · rw [if_pos (by omega)]
    · rw [if_neg (by omega), if_pos (by simp)]
  | cons b bs ih =>
    rw [decodeLoop]
    by_cases h1 : bc > N
    · rw [if_pos h1, if_pos (by omega), if_pos (by omega)]
    rw [if_neg h1]
    simp only [and_80_eq_zero, and_7f, Nat.shiftLeft_eq, contLen_cons, Nat.reducePow]
    by_cases h2 : b.toNat < 128
    · have hn : ¬ 128 ≤ b.toNat := by omega
      have hl : ¬ 0 = (b :: bs).length := by simp
      have hb : ¬ bc + 0 > N := by omega
      simp only [if_pos h2, if_neg hn, if_neg hb, if_neg hl]
      simp only [Nat.add_zero, Nat.zero_add, List.take_succ_cons, List.take_zero, value,
        List.length_nil, Nat.pow_zero, Nat.pow_one, Nat.mul_one, Nat.mod_add_mod]
    · rw [if_neg h2, if_pos (show 128 ≤ b.toNat by omega)]
      rw [ih (bc + 1) _ (by omega) (by omega)]
      have e : bc + 1 + contLen bs = bc + (contLen bs + 1) := by omega
      rw [e]
      by_cases h3 : bc + (contLen bs + 1) > N
      · rw [if_pos h3, if_pos h3]
      rw [if_neg h3, if_neg h3]
      simp only [List.length_cons, Nat.add_right_cancel_iff]
      by_cases h4 : contLen bs = bs.length
      · rw [if_pos h4, if_pos h4]
      rw [if_neg h4, if_neg h4]
      by_cases h5 : bc + (contLen bs + 1) = N ∧ first > UInt8.ofNat F
      · rw [if_pos h5, if_pos h5]
      rw [if_neg h5, if_neg h5]
      have hle := contLen_le bs
      have hlen : (bs.take (contLen bs + 1)).length = contLen bs + 1 := by
        rw [List.length_take]; omega
      simp only [List.take_succ_cons, value, hlen]
      congr 1
      rw [Nat.mod_add_mod]
      have : ((r * 128 + b.toNat % 128) % W * 128 ^ (contLen bs + 1)
          + value (bs.take (contLen bs + 1))) % W
          = ((r * 128 + b.toNat % 128) * 128 ^ (contLen bs + 1)
          + value (bs.take (contLen bs + 1))) % W := by
        rw [Nat.add_mod, Nat.mod_mul_mod, ← Nat.add_mod]
      rw [this]
      congr 1
      ring

end Hdtn.Sdnv

namespace Hdtn.Sdnv
open Spec

/-- Solved form of the two classic decoders. -/
def solved (N F : Nat) (bs : Bytes) : Nat × Nat :=
  if contLen bs ≥ N then invalid
  else if contLen bs = bs.length then notEnough
  else if contLen bs + 1 = N ∧ 128 ^ (N - 1) * (F - 127) ≤ value (bs.take (contLen bs + 1))
  then invalid
  else (value (bs.take (contLen bs + 1)), contLen bs + 1)

/-- The test on the first byte is the test for a value beyond the word. -/
theorem first_gt_iff (N F : Nat) (hN : 2 ≤ N) (hF : 128 ≤ F) (b : UInt8) (bs : Bytes)
    (h2 : contLen (b :: bs) ≠ (b :: bs).length) (hN1 : contLen (b :: bs) + 1 = N) :
    F < b.toNat ↔
      128 ^ (N - 1) * (F - 127) ≤ value ((b :: bs).take (contLen (b :: bs) + 1)) := by
  have hle := contLen_le (b :: bs)
  have hb : 128 ≤ b.toNat := by
    have h := contLen_cons b bs
    split at h <;> omega
  have hb2 := b.toNat_lt
  rw [List.take_succ_cons, value]
  have hl2 : (bs.take (contLen (b :: bs))).length = N - 1 := by
    rw [List.length_take]; simp at hle h2; omega
  have hv2 := value_lt (bs.take (contLen (b :: bs)))
  rw [hl2] at hv2 ⊢
  constructor
  · intro h
    have : 128 ^ (N - 1) * (F - 127) ≤ 128 ^ (N - 1) * (b.toNat % 128) :=
      Nat.mul_le_mul_left _ (by omega)
    rw [Nat.mul_comm (b.toNat % 128)]
    omega
  · intro h
    by_contra hc
    have : 128 ^ (N - 1) * (b.toNat % 128 + 1) ≤ 128 ^ (N - 1) * (F - 127) :=
      Nat.mul_le_mul_left _ (by omega)
    rw [Nat.mul_add, Nat.mul_one, Nat.mul_comm] at this
    omega

theorem decodeLoop_solved (N F : Nat) (hN : 2 ≤ N) (hF : 128 ≤ F) (hF2 : F < 256)
    (b : UInt8) (bs : Bytes) :
    decodeLoop N F (128 ^ (N - 1) * (F - 127)) b (b :: bs) 1 0 = solved N F (b :: bs) := by
  rw [decodeLoop_eq _ _ _ _ _ _ _ (by omega) (by omega), solved]
  have hle := contLen_le (b :: bs)
  by_cases h1 : contLen (b :: bs) ≥ N
  · rw [if_pos h1, if_pos (by omega)]
  rw [if_neg h1, if_neg (by omega)]
  by_cases h2 : contLen (b :: bs) = (b :: bs).length
  · rw [if_pos h2, if_pos h2]
  rw [if_neg h2, if_neg h2]
  have hlen : ((b :: bs).take (contLen (b :: bs) + 1)).length = contLen (b :: bs) + 1 := by
    rw [List.length_take]; omega
  have hv := value_lt ((b :: bs).take (contLen (b :: bs) + 1))
  rw [hlen] at hv
  have hfirst : b > UInt8.ofNat F ↔ F < b.toNat := by
    rw [gt_iff_lt, UInt8.lt_iff_toNat_lt, UInt8.toNat_ofNat', Nat.mod_eq_of_lt (by omega)]
  have hcond := first_gt_iff N F hN hF b bs h2
  by_cases h3 : contLen (b :: bs) + 1 = N
  · by_cases h4 : F < b.toNat
    · rw [if_pos ⟨by omega, hfirst.2 h4⟩, if_pos ⟨h3, (hcond h3).1 h4⟩]
    · have h5 := mt (hcond h3).2 h4
      rw [if_neg (fun h => h4 (hfirst.1 h.2)), if_neg (fun h => h5 h.2), Nat.zero_mul, Nat.zero_add,
        Nat.mod_eq_of_lt (by omega), Nat.add_comm 1]
  · rw [if_neg (fun h => h3 (by omega)), if_neg (fun h => h3 h.1), Nat.zero_mul, Nat.zero_add,
      Nat.mod_eq_of_lt, Nat.add_comm 1]
    calc _ < 128 ^ (contLen (b :: bs) + 1) := hv
      _ ≤ 128 ^ (N - 1) := Nat.pow_le_pow_right (by decide) (by omega)
      _ ≤ _ := Nat.le_mul_of_pos_right _ (by omega)

theorem decodeU64Classic_solved (bs : Bytes) : decodeU64Classic bs = solved 10 0x81 bs := by
  cases bs with
  | nil => rfl
  | cons b bs => exact decodeLoop_solved 10 0x81 (by decide) (by decide) (by decide) b bs

theorem decodeU32Classic_solved (bs : Bytes) : decodeU32Classic bs = solved 5 0x8f bs := by
  cases bs with
  | nil => rfl
  | cons b bs => exact decodeLoop_solved 5 0x8f (by decide) (by decide) (by decide) b bs

/-- Success of the solved form, in terms of the specification only. -/
theorem solved_success_iff (N F : Nat) (hF : 128 ≤ F) (bs : Bytes) (v k : Nat) :
    (solved N F bs = (v, k) ∧ k ≠ 0) ↔
      k ≤ N ∧ k ≤ bs.length ∧ WellFormed (bs.take k) ∧ value (bs.take k) = v ∧
        v < 128 ^ (N - 1) * (F - 127) := by
  have hle := contLen_le bs
  unfold solved
  constructor
  · rintro ⟨h, hk⟩
    split at h
    · simp [invalid] at h; omega
    split at h
    · simp [notEnough] at h; omega
    split at h
    · simp [invalid] at h; omega
    rename_i h1 h2 h3
    simp only [Prod.mk.injEq] at h
    obtain ⟨hv, rfl⟩ := h
    refine ⟨by omega, by omega, (wellFormed_take_iff bs _ (by omega)).2 ⟨by omega, rfl⟩, hv, ?_⟩
    by_cases h4 : contLen bs + 1 = N
    · by_contra hc; exact h3 ⟨h4, by omega⟩
    · have hv2 := value_lt (bs.take (contLen bs + 1))
      rw [List.length_take, Nat.min_eq_left (by omega), hv] at hv2
      calc v < 128 ^ (contLen bs + 1) := hv2
        _ ≤ 128 ^ (N - 1) := Nat.pow_le_pow_right (by decide) (by omega)
        _ ≤ _ := Nat.le_mul_of_pos_right _ (by omega)
  · rintro ⟨h1, h2, h3, h4, h5⟩
    obtain ⟨h6, rfl⟩ := (wellFormed_take_iff bs k h2).1 h3
    rw [if_neg (by omega), if_neg (by omega), if_neg (fun h => by omega), h4]
    exact ⟨rfl, by omega⟩

theorem contLen_eq_length_iff (bs : Bytes) :
    contLen bs = bs.length ↔ ∀ b ∈ bs, 128 ≤ b.toNat := by
  induction bs with
  | nil => simp [contLen_nil]
  | cons b bs ih =>
    rw [contLen_cons]
    by_cases h : 128 ≤ b.toNat
    · simp [h, ih]
    · simp [h]

theorem solved_notEnough_iff (N F : Nat) (bs : Bytes) :
    solved N F bs = notEnough ↔ bs.length < N ∧ ∀ b ∈ bs, 128 ≤ b.toNat := by
  rw [← contLen_eq_length_iff]
  have hle := contLen_le bs
  unfold solved
  split
  · simp only [invalid, notEnough, Prod.mk.injEq]; omega
  split
  · simp only [true_iff]; omega
  split
  · simp only [invalid, notEnough, Prod.mk.injEq]; omega
  · simp only [notEnough, Prod.mk.injEq]; omega

theorem contLen_append_of_lt (bs rest : Bytes) (h : contLen bs < bs.length) :
    contLen (bs ++ rest) = contLen bs := by
  induction bs with
  | nil => simp at h
  | cons b bs ih =>
    rw [List.cons_append, contLen_cons, contLen_cons]
    rw [contLen_cons] at h
    split at h
    · rename_i hb
      rw [if_pos hb, if_pos hb, ih (by simpa using h)]
    · rename_i hb
      rw [if_neg hb, if_neg hb]

theorem contLen_append_ge (bs rest : Bytes) : contLen bs ≤ contLen (bs ++ rest) := by
  induction bs with
  | nil => simp [contLen_nil]
  | cons b bs ih =>
    rw [List.cons_append, contLen_cons, contLen_cons]
    split <;> omega

/-- Once the verdict is not "not enough", more input does not change it. -/
theorem solved_append (N F : Nat) (bs rest : Bytes) (h : solved N F bs ≠ notEnough) :
    solved N F (bs ++ rest) = solved N F bs := by
  by_cases h1 : contLen bs ≥ N
  · have := contLen_append_ge bs rest
    unfold solved
    rw [if_pos h1, if_pos (by omega)]
  have hle := contLen_le bs
  have h2 : contLen bs ≠ bs.length := by
    intro h2
    apply h
    unfold solved
    rw [if_neg h1, if_pos h2]
  have h3 := contLen_append_of_lt bs rest (by omega)
  unfold solved
  rw [h3, List.take_append_of_le_length (by omega), if_neg h1, if_neg h1, if_neg h2,
    if_neg (by rw [List.length_append]; omega)]

theorem wellFormed_take_append (p rest : Bytes) :
    (p ++ rest).take p.length = p := by simp

theorem decode_encode_append (v : Nat) (hv : v < 2 ^ 64) (rest : Bytes) :
    decodeU64Classic (encodeU64ClassicBufSize10 v ++ rest) =
      (v, (encodeU64ClassicBufSize10 v).length) := by
  rw [decodeU64Classic_solved]
  have hk := kOf_bounds v hv
  refine ((solved_success_iff 10 0x81 (by decide) _ v _).2 ⟨?_, ?_, ?_, ?_, ?_⟩).1
  · rw [encode_length]; omega
  · simp
  · simpa using encode_wellFormed v
  · simpa using encode_value v hv
  · norm_num at *; omega

end Hdtn.Sdnv
