import Verif.Base

/-!
Big-endian numbers in byte lists, used by several wire formats.
-/

namespace Hdtn

/-- Positional value of a big-endian byte string. -/
def beValue : Bytes → Nat
  | [] => 0
  | b :: bs => b.toNat * 256 ^ bs.length + beValue bs

/-- The `n` low bytes of `v`, most significant first: what `native_to_big` plus a byte copy
stores. -/
def toBe : Nat → Nat → Bytes
  | 0, _ => []
  | n + 1, v => UInt8.ofNat (v >>> (8 * n)) :: toBe n v

@[simp] theorem toBe_length (n v : Nat) : (toBe n v).length = n := by
  induction n with
  | zero => rfl
  | succ n ih => simp [toBe, ih]

theorem beValue_lt (bs : Bytes) : beValue bs < 256 ^ bs.length := by
  induction bs with
  | nil => simp [beValue]
  | cons b bs ih =>
    have hb : b.toNat < 256 := b.toNat_lt
    simp only [beValue, List.length_cons, Nat.pow_succ]
    have : b.toNat * 256 ^ bs.length ≤ 255 * 256 ^ bs.length := Nat.mul_le_mul_right _ (by omega)
    omega

theorem beValue_toBe (n v : Nat) : beValue (toBe n v) = v % 256 ^ n := by
  induction n with
  | zero => simp [toBe, beValue, Nat.mod_one]
  | succ n ih =>
    simp only [toBe, beValue, toBe_length, ih]
    have h1 : (UInt8.ofNat (v >>> (8 * n))).toNat = v / 256 ^ n % 256 := by
      rw [UInt8.toNat_ofNat', Nat.shiftRight_eq_div_pow, Nat.pow_mul]
    rw [h1, Nat.pow_succ, Nat.mod_mul, Nat.mul_comm]
    omega

theorem beValue_append (a b : Bytes) : beValue (a ++ b) = beValue a * 256 ^ b.length + beValue b := by
  induction a with
  | nil => simp [beValue]
  | cons x a ih =>
    simp only [List.cons_append, beValue, ih, List.length_append, Nat.pow_add]
    ring

theorem beValue_inj (a b : Bytes) (hl : a.length = b.length) (h : beValue a = beValue b) : a = b := by
  induction a generalizing b with
  | nil => cases b with
    | nil => rfl
    | cons => simp at hl
  | cons x a ih =>
    cases b with
    | nil => simp at hl
    | cons y b =>
      have hl' : a.length = b.length := by simpa using hl
      simp only [beValue, hl'] at h
      have ha := beValue_lt a
      have hb := beValue_lt b
      rw [hl'] at ha
      have hpos : 0 < 256 ^ b.length := Nat.pow_pos (by decide)
      have hx : x.toNat = y.toNat := by
        have h1 : (x.toNat * 256 ^ b.length + beValue a) / 256 ^ b.length = x.toNat := by
          rw [Nat.mul_comm, Nat.mul_add_div hpos, Nat.div_eq_of_lt ha, Nat.add_zero]
        have h2 : (y.toNat * 256 ^ b.length + beValue b) / 256 ^ b.length = y.toNat := by
          rw [Nat.mul_comm, Nat.mul_add_div hpos, Nat.div_eq_of_lt hb, Nat.add_zero]
        rw [← h1, h, h2]
      have hxy : x = y := UInt8.toNat_inj.1 hx
      subst hxy
      rw [ih b hl' (by omega)]

theorem toBe_beValue (bs : Bytes) : toBe bs.length (beValue bs) = bs := by
  apply beValue_inj
  · simp
  · rw [beValue_toBe, Nat.mod_eq_of_lt (beValue_lt bs)]

end Hdtn
