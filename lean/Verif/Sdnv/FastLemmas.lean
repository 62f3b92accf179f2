import Verif.Sdnv.FastModel
import Verif.Sdnv.Lemmas

namespace Hdtn.Sdnv.Fast
open Spec

/-- All entries are bytes. -/
def IsBytes (l : List Nat) : Prop := ∀ x ∈ l, x < 256

theorem toLe_le (l : List Nat) (h : IsBytes l) : toLe l.length (le l) = l := by
  induction l with
  | nil => rfl
  | cons b bs ih =>
    have hb : b < 256 := h b (by simp)
    simp only [List.length_cons, toLe, le]
    rw [show (b + 256 * le bs) % 256 = b by omega, show (b + 256 * le bs) / 256 = le bs by omega,
      ih (fun x hx => h x (by simp [hx]))]

theorem endianReverse_le (l : List Nat) (h : IsBytes l) (h8 : l.length = 8) :
    endianReverse (le l) = le l.reverse := by
  rw [endianReverse, ← h8, toLe_le l h]

theorem isBytes_map (bs : Bytes) : IsBytes (bs.map UInt8.toNat) := by
  intro x hx
  obtain ⟨b, _, rfl⟩ := List.mem_map.1 hx
  exact b.toNat_lt

/-- Byte-wise extraction for masks made of bytes 0x7f and 0. -/
def pextB : List Nat → List Nat → Nat
  | b :: bs, m :: ms => if m = 0x7f then b % 128 + 128 * pextB bs ms else pextB bs ms
  | _, _ => 0

theorem pext_step7f (n s m : Nat) :
    pext (n + 8) s (0x7f + 256 * m) = s % 128 + 128 * pext n (s / 256) m := by
  have e : ∀ k j : Nat, (k + 2 * j) / 2 = k / 2 + j := by intros; omega
  simp only [pext]
  rw [if_pos (by omega), if_pos (by omega), if_pos (by omega), if_pos (by omega),
    if_pos (by omega), if_pos (by omega), if_pos (by omega), if_neg (by omega)]
  rw [show (127 + 256 * m) / 2 / 2 / 2 / 2 / 2 / 2 / 2 / 2 = m by omega,
    show s / 2 / 2 / 2 / 2 / 2 / 2 / 2 / 2 = s / 256 by omega]
  generalize pext n (s / 256) m = p
  omega

theorem pext_step0 (n s m : Nat) : pext (n + 8) s (0 + 256 * m) = pext n (s / 256) m := by
  simp only [pext]
  rw [if_neg (by omega), if_neg (by omega), if_neg (by omega), if_neg (by omega),
    if_neg (by omega), if_neg (by omega), if_neg (by omega), if_neg (by omega)]
  rw [show (0 + 256 * m) / 2 / 2 / 2 / 2 / 2 / 2 / 2 / 2 = m by omega,
    show s / 2 / 2 / 2 / 2 / 2 / 2 / 2 / 2 = s / 256 by omega]

theorem pext_le (bs ms : List Nat) (hb : IsBytes bs) (hl : bs.length = ms.length)
    (hm : ∀ m ∈ ms, m = 0x7f ∨ m = 0) :
    pext (8 * ms.length) (le bs) (le ms) = pextB bs ms := by
  induction ms generalizing bs with
  | nil => cases bs with
    | nil => rfl
    | cons => simp at hl
  | cons m ms ih =>
    cases bs with
    | nil => simp at hl
    | cons b bs =>
      have hb0 : b < 256 := hb b (by simp)
      have ih' := ih bs (fun x hx => hb x (by simp [hx])) (by simpa using hl)
        (fun x hx => hm x (by simp [hx]))
      rw [List.length_cons, Nat.mul_succ]
      simp only [le, pextB]
      rcases hm m (by simp) with rfl | rfl
      · rw [pext_step7f, if_pos rfl, show (b + 256 * le bs) / 256 = le bs by omega, ih']
        omega
      · rw [pext_step0, if_neg (by decide), show (b + 256 * le bs) / 256 = le bs by omega, ih']

/-- Byte-wise deposit. -/
def pdepB : Nat → List Nat → List Nat
  | _, [] => []
  | s, m :: ms => if m = 0x7f then s % 128 :: pdepB (s / 128) ms else 0 :: pdepB s ms

theorem pdep_step7f (n s m : Nat) :
    pdep (n + 8) s (0x7f + 256 * m) = s % 128 + 256 * pdep n (s / 128) m := by
  simp only [pdep]
  rw [if_pos (by omega), if_pos (by omega), if_pos (by omega), if_pos (by omega),
    if_pos (by omega), if_pos (by omega), if_pos (by omega), if_neg (by omega)]
  rw [show (127 + 256 * m) / 2 / 2 / 2 / 2 / 2 / 2 / 2 / 2 = m by omega,
    show s / 2 / 2 / 2 / 2 / 2 / 2 / 2 = s / 128 by omega]
  generalize pdep n (s / 128) m = p
  omega

theorem pdep_step0 (n s m : Nat) : pdep (n + 8) s (0 + 256 * m) = 256 * pdep n s m := by
  simp only [pdep]
  rw [if_neg (by omega), if_neg (by omega), if_neg (by omega), if_neg (by omega),
    if_neg (by omega), if_neg (by omega), if_neg (by omega), if_neg (by omega)]
  rw [show (0 + 256 * m) / 2 / 2 / 2 / 2 / 2 / 2 / 2 / 2 = m by omega]
  omega

theorem pdep_le (s : Nat) (ms : List Nat) (hm : ∀ m ∈ ms, m = 0x7f ∨ m = 0) :
    pdep (8 * ms.length) s (le ms) = le (pdepB s ms) := by
  induction ms generalizing s with
  | nil => rfl
  | cons m ms ih =>
    rw [List.length_cons, Nat.mul_succ]
    have ih' := fun s => ih s (fun x hx => hm x (by simp [hx]))
    simp only [le, pdepB]
    rcases hm m (by simp) with rfl | rfl
    · rw [pdep_step7f, if_pos rfl, ih', le]
    · rw [pdep_step0, if_neg (by decide), ih', le]; omega

theorem pdepB_isBytes (s : Nat) (ms : List Nat) : ∀ x ∈ pdepB s ms, x < 128 := by
  induction ms generalizing s with
  | nil => simp [pdepB]
  | cons m ms ih =>
    simp only [pdepB]
    split
    · intro x hx
      rcases List.mem_cons.1 hx with rfl | hx
      · omega
      · exact ih _ x hx
    · intro x hx
      rcases List.mem_cons.1 hx with rfl | hx
      · omega
      · exact ih _ x hx

theorem pdepB_length (s : Nat) (ms : List Nat) : (pdepB s ms).length = ms.length := by
  induction ms generalizing s with
  | nil => rfl
  | cons m ms ih => simp only [pdepB]; split <;> simp [ih]

theorem or_split (a b : Nat) : a ||| b = (a % 256 ||| b % 256) + 256 * (a / 256 ||| b / 256) := by
  have h1 : (a ||| b) % 2 ^ 8 = a % 2 ^ 8 ||| b % 2 ^ 8 := Nat.or_mod_two_pow
  have h2 : (a ||| b) / 2 ^ 8 = a / 2 ^ 8 ||| b / 2 ^ 8 := Nat.or_div_two_pow
  have h3 := Nat.mod_add_div (a ||| b) 256
  simp only [Nat.reducePow] at h1 h2
  rw [h1, h2] at h3
  exact h3.symm

theorem or_le (as bs : List Nat) (ha : IsBytes as) (hb : IsBytes bs) (h : as.length = bs.length) :
    le as ||| le bs = le (List.zipWith (· ||| ·) as bs) := by
  induction as generalizing bs with
  | nil => cases bs with
    | nil => rfl
    | cons => simp at h
  | cons a as ih =>
    cases bs with
    | nil => simp at h
    | cons b bs =>
      have ha0 : a < 256 := ha a (by simp)
      have hb0 : b < 256 := hb b (by simp)
      simp only [le, List.zipWith_cons_cons]
      rw [or_split, show (a + 256 * le as) % 256 = a by omega,
        show (b + 256 * le bs) % 256 = b by omega,
        show (a + 256 * le as) / 256 = le as by omega,
        show (b + 256 * le bs) / 256 = le bs by omega,
        ih bs (fun x hx => ha x (by simp [hx])) (fun x hx => hb x (by simp [hx]))
          (by simpa using h)]

theorem or_lt_256 (a b : Nat) (ha : a < 256) (hb : b < 256) : a ||| b < 256 :=
  Nat.or_lt_two_pow (n := 8) ha hb

theorem zipWith_or_isBytes (as bs : List Nat) (ha : IsBytes as) (hb : IsBytes bs) :
    IsBytes (List.zipWith (· ||| ·) as bs) := by
  intro x hx
  rw [List.mem_iff_getElem?] at hx
  obtain ⟨i, hi⟩ := hx
  rw [List.getElem?_zipWith] at hi
  cases h1 : as[i]? with
  | none => simp [h1] at hi
  | some a =>
    cases h2 : bs[i]? with
    | none => simp [h1, h2] at hi
    | some b =>
      simp [h1, h2] at hi
      subst hi
      exact or_lt_256 _ _ (ha a (List.mem_of_getElem? h1)) (hb b (List.mem_of_getElem? h2))

theorem store8_endianReverse_le (l : List Nat) (h : IsBytes l) (h8 : l.length = 8) :
    store8 (endianReverse (le l)) = l.reverse.map UInt8.ofNat := by
  rw [endianReverse_le l h h8, store8]
  have : l.reverse.length = 8 := by simpa using h8
  rw [← this, toLe_le l.reverse (fun x hx => h x (by simpa using hx))]

/-- The eight bytes stored by the encoders, as a byte list. -/
theorem store_encoded (s : Nat) (ms os : List Nat) (hm : ∀ m ∈ ms, m = 0x7f ∨ m = 0)
    (hl : ms.length = 8) (ho : os.length = 8) (hob : IsBytes os) :
    store8 (endianReverse (pdep 64 s (le ms) ||| le os)) =
      ((List.zipWith (· ||| ·) (pdepB s ms) os).reverse).map UInt8.ofNat := by
  have h1 : pdep 64 s (le ms) = le (pdepB s ms) := by
    have := pdep_le s ms hm
    rwa [hl] at this
  have hb : IsBytes (pdepB s ms) := fun x hx => by have := pdepB_isBytes s ms x hx; omega
  rw [h1, or_le _ _ hb hob (by rw [pdepB_length, hl, ho]), store8_endianReverse_le]
  · exact zipWith_or_isBytes _ _ hb hob
  · simp [pdepB_length, hl, ho]

theorem table_div (i : Nat) (h : i < 70) : mask0x80Indices[i]? = some (i / 7) := by
  have : ∀ i : Fin 70, mask0x80Indices[i.val]? = some (i.val / 7) := by decide
  exact this ⟨i, h⟩

theorem msbIndex_div (v : Nat) (hv : v < 2 ^ 64) : msbIndex v < 70 ∧ msbIndex v / 7 = kOf v := by
  by_cases h0 : v = 0
  · subst h0; decide
  have e : msbIndex v = v.log2 := by simp [msbIndex, h0]
  rw [e]
  have hk := kOf_bounds v hv
  have h1 : v.log2 < 7 * (kOf v + 1) := by
    rw [Nat.log2_lt h0, pow_mul]; exact hk.2.1
  have h2 : 7 * kOf v ≤ v.log2 := by
    rw [Nat.le_log2 h0, pow_mul]
    rcases hk.2.2 with h | h
    · rw [h]; simp; omega
    · exact h
  omega

theorem maskIndex_eq (v : Nat) (hv : v < 2 ^ 64) :
    mask0x80Indices[msbIndex v]? = some (kOf v) := by
  have h := msbIndex_div v hv
  rw [table_div _ h.1, h.2]

/-- Little-endian bytes of `masksPdepPext1[k]`. -/
def m1 (k : Nat) : List Nat := List.replicate (7 - k) 0 ++ List.replicate (min (k + 1) 8) 0x7f

/-- Little-endian bytes of `masksPdepPext2[k]`. -/
def m2 (k : Nat) : List Nat := List.replicate (8 - (k - 7)) 0 ++ List.replicate (k - 7) 0x7f

/-- Little-endian bytes of `masks0x80[k]`. -/
def o1 (k : Nat) : List Nat :=
  List.replicate (7 - k) 0 ++ 0 :: List.replicate (min k 7) 0x80

/-- Little-endian bytes of `masks0x80_2[k]`. -/
def o2 (k : Nat) : List Nat := List.replicate (8 - (k - 7)) 0 ++ List.replicate (k - 7) 0x80

theorem tables_eq (k : Nat) (hk : k < 10) :
    masksPdepPext1[k]? = some (le (m1 k)) ∧ masksPdepPext2[k]? = some (le (m2 k)) ∧
    masks0x80[k]? = some (le (o1 k)) ∧ masks0x80_2[k]? = some (le (o2 k)) ∧
    memoryOffsets[k]? = some (k - 7) ∧ decodedShifts[k]? = some (7 * (k - 7)) ∧
    (m1 k).length = 8 ∧ (m2 k).length = 8 ∧ (o1 k).length = 8 ∧ (o2 k).length = 8 := by
  have : ∀ k : Fin 10, masksPdepPext1[k.val]? = some (le (m1 k)) ∧
    masksPdepPext2[k.val]? = some (le (m2 k)) ∧
    masks0x80[k.val]? = some (le (o1 k)) ∧ masks0x80_2[k.val]? = some (le (o2 k)) ∧
    memoryOffsets[k.val]? = some (k.val - 7) ∧ decodedShifts[k.val]? = some (7 * (k.val - 7)) ∧
    (m1 k).length = 8 ∧ (m2 k).length = 8 ∧ (o1 k).length = 8 ∧ (o2 k).length = 8 := by
    decide
  exact this ⟨k, hk⟩

theorem m1_mem (k : Nat) : ∀ m ∈ m1 k, m = 0x7f ∨ m = 0 := by
  intro m h; simp [m1, List.mem_replicate] at h; omega

theorem m2_mem (k : Nat) : ∀ m ∈ m2 k, m = 0x7f ∨ m = 0 := by
  intro m h; simp [m2, List.mem_replicate] at h; omega

theorem o1_isBytes (k : Nat) : IsBytes (o1 k) := by
  intro m h; simp [o1, List.mem_replicate] at h; omega

theorem o2_isBytes (k : Nat) : IsBytes (o2 k) := by
  intro m h; simp [o2, List.mem_replicate] at h; omega

theorem ofNat_or80 (v i : Nat) : UInt8.ofNat (v / 2 ^ i % 128 ||| 0x80) = contByte v i := by
  rw [contByte, Nat.shiftRight_eq_div_pow]
  congr 2
  exact (Nat.and_two_pow_sub_one_eq_mod _ 7).symm

theorem ofNat_or0 (v : Nat) : UInt8.ofNat (v % 128 ||| 0) = lowByte v := by
  rw [lowByte, Nat.or_zero]
  congr 1
  exact (Nat.and_two_pow_sub_one_eq_mod _ 7).symm

theorem encodeU32Fast_eq (v : Nat) (hv : v < 2 ^ 32) :
    ∃ mem n, encodeU32FastBufSize8 v = some (mem, n) ∧ mem.length = 8 ∧
      mem.take n = encodeU64ClassicBufSize10 v ∧ n = (encodeU64ClassicBufSize10 v).length := by
  have hk : kOf v < 5 := by
    unfold kOf; split_ifs <;> omega
  have ht := tables_eq (kOf v) (by omega)
  refine ⟨_, _, by
    simp only [encodeU32FastBufSize8, maskIndex_eq v (by omega), ht.1, ht.2.2.1, bind, Option.bind,
      pure]; rfl, ?_, ?_, ?_⟩
  · rw [store_encoded _ _ _ (m1_mem _) ht.2.2.2.2.2.2.1 ht.2.2.2.2.2.2.2.2.1 (o1_isBytes _)]
    simp [pdepB_length, ht]
  · rw [store_encoded _ _ _ (m1_mem _) ht.2.2.2.2.2.2.1 ht.2.2.2.2.2.2.2.2.1 (o1_isBytes _),
      encodeBufSize10_eq]
    generalize kOf v = k at *
    have e0 := ofNat_or0 v
    have e := ofNat_or80 v
    interval_cases k
    all_goals
      simp [m1, o1, List.replicate, pdepB, enc, Nat.div_div_eq_div_mul] at *
      simp [← e, ← e0]
  · rw [encode_length]

theorem encodeU64Fast_eq (mem0 : Bytes) (v : Nat) (hv : v < 2 ^ 64) (hm : mem0.length ≥ 10) :
    ∃ mem n, encodeU64FastBufSize10 mem0 v = some (mem, n) ∧ mem.length = mem0.length ∧
      mem.drop 10 = mem0.drop 10 ∧
      mem.take n = encodeU64ClassicBufSize10 v ∧ n = (encodeU64ClassicBufSize10 v).length := by
  have hk := (kOf_bounds v hv).1
  have ht := tables_eq (kOf v) (by omega)
  have s1 := store_encoded v (m1 (kOf v)) (o1 (kOf v)) (m1_mem _) ht.2.2.2.2.2.2.1
    ht.2.2.2.2.2.2.2.2.1 (o1_isBytes _)
  have s2 := store_encoded (v >>> 56) (m2 (kOf v)) (o2 (kOf v)) (m2_mem _) ht.2.2.2.2.2.2.2.1
    ht.2.2.2.2.2.2.2.2.2 (o2_isBytes _)
  refine ⟨_, _, by
    simp only [encodeU64FastBufSize10, maskIndex_eq v (by omega), ht.1, ht.2.1, ht.2.2.1,
      ht.2.2.2.1, ht.2.2.2.2.1, bind, Option.bind, pure]; rfl, ?_, ?_, ?_, ?_⟩
  · simp [writeAt, store8, toLe]; omega
  · simp only [writeAt, List.take_zero, List.nil_append, Nat.zero_add]
    have hl : ∀ x, (store8 x).length = 8 := by intro x; simp [store8, toLe]
    simp only [hl, List.drop_append, List.length_append, List.length_take, List.length_drop,
      List.drop_drop]
    rw [List.drop_eq_nil_of_le (by simp [hl]; omega)]
    rw [List.drop_eq_nil_of_le (by simp [hl]; omega)]
    rw [List.drop_eq_nil_of_le (by simp [hl]; omega)]
    simp only [List.nil_append]
    congr 1
    omega
  · rw [s1, s2, encodeBufSize10_eq]
    generalize kOf v = k at *
    have e0 := ofNat_or0 v
    have e := ofNat_or80 v
    clear s1 s2 ht hm
    interval_cases k
    all_goals
      simp [m1, o1, m2, o2, List.replicate, pdepB, enc, Nat.div_div_eq_div_mul, writeAt,
        Nat.shiftRight_eq_div_pow] at *
      simp [← e, ← e0]
  · rw [encode_length]

/-! ### Decoding -/

theorem movemask_lt (reg : Bytes) : movemask reg < 2 ^ reg.length := by
  induction reg with
  | nil => simp [movemask]
  | cons b bs ih =>
    have := b.toNat_lt
    simp only [movemask, List.length_cons, pow_succ]
    omega

theorem findLsb_not_movemask (reg : Bytes) (n : Nat) (h : reg.length ≤ n) :
    findLsb n (2 ^ n - 1 - movemask reg) = if contLen reg < n then some (contLen reg) else none := by
  induction reg generalizing n with
  | nil =>
    cases n with
    | zero => rfl
    | succ n =>
      simp only [movemask, findLsb, contLen_nil, pow_succ]
      have : 0 < 2 ^ n := Nat.two_pow_pos n
      rw [if_pos (by omega)]
      simp
  | cons b bs ih =>
    cases n with
    | zero => simp at h
    | succ n =>
      have hl : bs.length ≤ n := by simpa using h
      have hlt := movemask_lt bs
      have hp : 2 ^ bs.length ≤ 2 ^ n := Nat.pow_le_pow_right (by decide) hl
      have hb := b.toNat_lt
      simp only [movemask, findLsb, contLen_cons, pow_succ]
      by_cases hc : 128 ≤ b.toNat
      · rw [if_neg (by omega), if_pos hc,
          show (2 ^ n * 2 - 1 - (b.toNat / 128 + 2 * movemask bs)) / 2 = 2 ^ n - 1 - movemask bs by
            omega, ih n hl]
        by_cases hc2 : contLen bs < n
        · simp [hc2]
        · simp [hc2]
      · rw [if_pos (by omega), if_neg hc, if_pos (by omega)]

theorem maskIndex_reg (reg : Bytes) (h : reg.length ≤ 32) (hc : contLen reg < 32) :
    findLsb 32 (not32 (movemask reg)) = some (contLen reg) := by
  have := findLsb_not_movemask reg 32 h
  rw [if_pos hc] at this
  exact this

theorem validCode_iff (m f lim : Nat) (hm : m < 256) (hf : f < 256) :
    validCode m f lim = decide (m * 256 + f ≤ lim) := by
  have h : (m <<< 8) ||| f = m * 256 + f := by
    have := Nat.two_pow_add_eq_or_of_lt (i := 8) hf m
    rw [Nat.shiftLeft_eq, Nat.mul_comm, ← this]
  rw [validCode, h, Nat.mod_eq_of_lt (by omega)]

theorem exists8 (b : Bytes) (h : b.length = 8) :
    ∃ b0 b1 b2 b3 b4 b5 b6 b7, b = [b0, b1, b2, b3, b4, b5, b6, b7] := by
  match b, h with
  | [b0, b1, b2, b3, b4, b5, b6, b7], _ => exact ⟨b0, b1, b2, b3, b4, b5, b6, b7, rfl⟩

/-- Extraction from the reversed (big-endian) bytes is the SDNV value of the selected prefix. -/
theorem pextB_m1 (b : Bytes) (k : Nat) (hl : b.length = 8) (hk : k ≤ 9) :
    pextB (b.map UInt8.toNat).reverse (m1 k) = value (b.take (k + 1)) := by
  obtain ⟨b0, b1, b2, b3, b4, b5, b6, b7, rfl⟩ := exists8 b hl
  interval_cases k
  all_goals
    simp [m1, List.replicate, pextB, value]
    try omega

theorem pextB_m2 (b : Bytes) (k : Nat) (hl : b.length = 8) (hk : k ≤ 9) :
    pextB (b.map UInt8.toNat).reverse (m2 k) = value (b.take (k - 7)) := by
  obtain ⟨b0, b1, b2, b3, b4, b5, b6, b7, rfl⟩ := exists8 b hl
  interval_cases k
  all_goals
    simp [m2, List.replicate, pextB, value]
    try omega

theorem pext_load (b : Bytes) (ms : List Nat) (hl : b.length = 8) (hm : ms.length = 8)
    (hms : ∀ m ∈ ms, m = 0x7f ∨ m = 0) :
    pext 64 (endianReverse (load b)) (le ms) = pextB (b.map UInt8.toNat).reverse ms := by
  rw [load, endianReverse_le _ (isBytes_map b) (by simpa using hl)]
  have := pext_le (b.map UInt8.toNat).reverse ms
    (fun x hx => isBytes_map b x (by simpa using hx)) (by simp [hl, hm]) hms
  rwa [hm] at this

/-- The two-part extraction of a register gives the value of its first SDNV. -/
theorem extract_value (reg : Bytes) (k : Nat) (hl : 16 ≤ reg.length) (hk : k ≤ 9)
    (hv : value (reg.take (k + 1)) < 2 ^ 64) :
    ((pext 64 (endianReverse (load (reg.take 8))) (le (m1 k))) <<< (7 * (k - 7))) % 2 ^ 64 |||
      pext 64 (endianReverse (load ((reg.drop 8).take 8))) (le (m2 k)) =
    value (reg.take (k + 1)) := by
  have ht := tables_eq k (by omega)
  have l1 : (reg.take 8).length = 8 := by rw [List.length_take]; omega
  have l2 : ((reg.drop 8).take 8).length = 8 := by
    rw [List.length_take, List.length_drop]; omega
  rw [pext_load _ _ l1 ht.2.2.2.2.2.2.1 (m1_mem k), pext_load _ _ l2 ht.2.2.2.2.2.2.2.1 (m2_mem k),
    pextB_m1 _ _ l1 hk, pextB_m2 _ _ l2 hk, List.take_take, List.take_take]
  have hsplit : reg.take (k + 1) =
      reg.take (min (k + 1) 8) ++ (reg.drop 8).take (min (k - 7) 8) := by
    by_cases h : k ≤ 7
    · rw [Nat.min_eq_left (by omega), Nat.sub_eq_zero_of_le h]; simp
    · rw [Nat.min_eq_right (by omega), Nat.min_eq_left (by omega),
        show k + 1 = 8 + (k - 7) by omega, List.take_add]
  have hval := value_append (reg.take (min (k + 1) 8)) ((reg.drop 8).take (min (k - 7) 8))
  rw [← hsplit] at hval
  have l3 : ((reg.drop 8).take (min (k - 7) 8)).length = k - 7 := by
    rw [List.length_take, List.length_drop]; omega
  have hlt := value_lt ((reg.drop 8).take (min (k - 7) 8))
  rw [l3] at hval hlt
  have hp : (128 : Nat) ^ (k - 7) = 2 ^ (7 * (k - 7)) := by rw [pow_mul]; norm_num
  rw [hp] at hval hlt
  rw [Nat.shiftLeft_eq, Nat.mod_eq_of_lt (by omega), ← Nat.shiftLeft_eq,
    ← Nat.shiftLeft_add_eq_or_of_lt hlt, Nat.shiftLeft_eq]
  exact hval.symm

theorem contLen_take (bs : Bytes) (n : Nat) : contLen (bs.take n) = min (contLen bs) n := by
  induction bs generalizing n with
  | nil => simp [contLen_nil]
  | cons b bs ih =>
    cases n with
    | zero => simp [contLen_nil]
    | succ n =>
      rw [List.take_succ_cons, contLen_cons, contLen_cons, ih]
      split <;> omega

/-- Validity of the code word, for a buffer whose first SDNV is complete, is what the portable
decoder checks. -/
theorem validCode_solved (b : UInt8) (bs : Bytes) (hc : contLen (b :: bs) < (b :: bs).length)
    (hm : contLen (b :: bs) < 256) :
    (validCode (contLen (b :: bs)) b.toNat 0x0981 = true →
      solved 10 0x81 (b :: bs) =
        (value ((b :: bs).take (contLen (b :: bs) + 1)), contLen (b :: bs) + 1) ∧
      contLen (b :: bs) ≤ 9 ∧ value ((b :: bs).take (contLen (b :: bs) + 1)) < 2 ^ 64) ∧
    (validCode (contLen (b :: bs)) b.toNat 0x0981 = false → solved 10 0x81 (b :: bs) = invalid) := by
  rw [validCode_iff _ _ _ hm b.toNat_lt]
  have hb := b.toNat_lt
  have hfi := first_gt_iff 10 0x81 (by decide) (by decide) b bs (by omega)
  have hv := value_lt ((b :: bs).take (contLen (b :: bs) + 1))
  rw [List.length_take, Nat.min_eq_left (by omega)] at hv
  constructor
  · intro h
    simp only [decide_eq_true_eq] at h
    have h9 : contLen (b :: bs) ≤ 9 := by omega
    have hlt : value ((b :: bs).take (contLen (b :: bs) + 1)) < 2 ^ 64 := by
      by_cases h10 : contLen (b :: bs) + 1 = 10
      · have := mt (hfi h10).2 (by omega)
        norm_num at *
        omega
      · calc _ < 128 ^ (contLen (b :: bs) + 1) := hv
          _ ≤ 128 ^ 9 := Nat.pow_le_pow_right (by decide) (by omega)
          _ ≤ 2 ^ 64 := by norm_num
    refine ⟨?_, h9, hlt⟩
    rw [solved, if_neg (by omega), if_neg (by omega), if_neg]
    rintro ⟨_, h⟩
    norm_num at *
    omega
  · intro h
    simp only [decide_eq_false_iff_not] at h
    rw [solved]
    by_cases h10 : contLen (b :: bs) ≥ 10
    · rw [if_pos h10]
    · rw [if_neg h10, if_neg (by omega), if_pos ⟨by omega, (hfi (by omega)).1 (by omega)⟩]

theorem masks_bzhi (k : Nat) (hk : k < 10) :
    endianReverse (bzhi 0x7f7f7f7f7f7f7f7f ((k + 1) <<< 3)) = le (m1 k) ∧
    endianReverse (bextr 0x7f7f (2 ^ 32 + 80 - (k + 1) <<< 3) 16) = le (m2 k) ∧
    popcnt 64 (le (m2 k)) = 7 * (k - 7) := by
  have : ∀ k : Fin 10, endianReverse (bzhi 0x7f7f7f7f7f7f7f7f ((k.val + 1) <<< 3)) = le (m1 k) ∧
    endianReverse (bextr 0x7f7f (2 ^ 32 + 80 - (k.val + 1) <<< 3) 16) = le (m2 k) ∧
    popcnt 64 (le (m2 k)) = 7 * (k.val - 7) := by
    decide +kernel
  exact this ⟨k, hk⟩

theorem take_take_of_le (data : Bytes) (i j : Nat) (h : i ≤ j) :
    (data.take j).take i = data.take i := by
  rw [List.take_take, Nat.min_eq_left h]

theorem decodeU64Fast_eq (data : Bytes) (h : 16 ≤ data.length) :
    decodeU64FastBufSize16 data = some (decodeU64Classic data) := by
  rw [decodeU64Classic_solved]
  cases data with
  | nil => simp at h
  | cons b bs =>
    set data := b :: bs with hd
    have hreg : (data.take 16).length = 16 := by rw [List.length_take]; omega
    have hct := contLen_take data 16
    have hmi := maskIndex_reg (data.take 16) (by omega) (by omega)
    have h0 : data[0]? = some b := by simp [hd]
    simp only [decodeU64FastBufSize16, hmi, h0, bind, Option.bind, pure]
    congr 1
    by_cases hc : contLen data < 16
    · rw [hct, Nat.min_eq_left (by omega)]
      have hvs := validCode_solved b bs (by rw [← hd]; omega) (by rw [← hd]; omega)
      rw [← hd] at hvs
      cases hvc : validCode (contLen data) b.toNat 0x0981 with
      | false => rw [hvs.2 hvc]; simp [invalid]
      | true =>
        obtain ⟨h1, h2, h3⟩ := hvs.1 hvc
        rw [h1]
        obtain ⟨e1, e2, e3⟩ := masks_bzhi (contLen data) (by omega)
        have hlt : pext 64 (endianReverse (load (((data.take 16).drop 8).take 8)))
            (le (m2 (contLen data))) < 2 ^ 16 := by
          have ht := tables_eq (contLen data) (by omega)
          have l2 : (((data.take 16).drop 8).take 8).length = 8 := by
            rw [List.length_take, List.length_drop]; omega
          rw [pext_load _ _ l2 ht.2.2.2.2.2.2.2.1 (m2_mem _), pextB_m2 _ _ l2 h2]
          calc _ < _ := value_lt _
            _ ≤ 128 ^ 2 := Nat.pow_le_pow_right (by decide) (by
                rw [List.length_take]; omega)
            _ ≤ _ := by norm_num
        have hev := extract_value (data.take 16) (contLen data) (by omega) h2
          (by rw [take_take_of_le _ _ _ (by omega)]; exact h3)
        rw [take_take_of_le data (contLen data + 1) 16 (by omega)] at hev
        rw [e1, e2, e3, Nat.mod_eq_of_lt hlt, hev]
        simp
    · rw [hct, Nat.min_eq_right (by omega), solved, if_pos (by omega)]
      rw [validCode_iff _ _ _ (by omega) b.toNat_lt]
      simp [invalid]
      omega

theorem contLen_append_zeros (a : Bytes) (n : Nat) :
    contLen (a ++ List.replicate n 0) = contLen a := by
  induction a with
  | nil =>
    cases n with
    | zero => rfl
    | succ n => simp [List.replicate_succ, contLen_cons, contLen_nil]
  | cons b bs ih => rw [List.cons_append, contLen_cons, contLen_cons, ih]

theorem decodeU32Fast_eq (data : Bytes) (h : 8 ≤ data.length) :
    decodeU32FastBufSize8 data = some (decodeU32Classic data) := by
  rw [decodeU32Classic_solved]
  cases data with
  | nil => simp at h
  | cons b bs =>
    set data := b :: bs with hd
    have hb := b.toNat_lt
    have hreg : (data.take 8).length = 8 := by rw [List.length_take]; omega
    have hct := contLen_take data 8
    have hz := contLen_append_zeros (data.take 8) 8
    have hmi := maskIndex_reg (data.take 8 ++ List.replicate 8 0) (by simp) (by omega)
    have h0 : data[0]? = some b := by simp [hd]
    simp only [decodeU32FastBufSize8, hmi, h0, bind, Option.bind, pure]
    rw [hz, hct, validCode_iff _ _ _ (by omega) hb]
    congr 1
    by_cases hc : contLen data < 5
    · rw [Nat.min_eq_left (by omega)]
      have hfi := first_gt_iff 5 0x8f (by decide) (by decide) b bs (by rw [← hd]; omega)
      rw [← hd] at hfi
      have hv := value_lt (data.take (contLen data + 1))
      rw [List.length_take, Nat.min_eq_left (by omega)] at hv
      by_cases hbad : contLen data = 4 ∧ 0x8f < b.toNat
      · rw [solved, if_neg (by omega), if_neg (by omega),
          if_pos ⟨by omega, (hfi (by omega)).1 hbad.2⟩]
        simp [invalid]
        omega
      · have hnot : ¬ (contLen data + 1 = 5 ∧
            128 ^ (5 - 1) * (0x8f - 127) ≤ value (data.take (contLen data + 1))) :=
          fun hh => hbad ⟨by omega, (hfi (by omega)).2 hh.2⟩
        rw [solved, if_neg (by omega), if_neg (by omega), if_neg hnot]
        have hvalid : contLen data * 256 + b.toNat ≤ 0x048f := by omega
        have hlt : value (data.take (contLen data + 1)) < 2 ^ 32 := by
          by_cases h5 : contLen data + 1 = 5
          · by_contra hge
            exact hnot ⟨h5, by norm_num at *; omega⟩
          · calc _ < 128 ^ (contLen data + 1) := hv
              _ ≤ 128 ^ 4 := Nat.pow_le_pow_right (by decide) (by omega)
              _ ≤ 2 ^ 32 := by norm_num
        have ht := tables_eq (contLen data) (by omega)
        rw [(masks_bzhi (contLen data) (by omega)).1,
          pext_load _ _ hreg ht.2.2.2.2.2.2.1 (m1_mem _), pextB_m1 _ _ hreg (by omega),
          take_take_of_le _ _ _ (by omega), Nat.mod_eq_of_lt hlt]
        simp [hvalid]
    · rw [solved, if_pos (by omega)]
      have : ¬ (min (contLen data) 8 * 256 + b.toNat ≤ 0x048f) := by omega
      simp [this, invalid]

/-- Number of values wanted after a run, given the run's values. The register run is a prefix of the
one-at-a-time run. -/
theorem decodeMultipleLoop_eq (width wanted : Nat) (reg buf : Bytes) (br : Nat) (acc acc0 : List Nat)
    (taken : Nat) (hw : 16 ≤ width) (hw2 : width ≤ 32) (hbr : br ≤ width) (hbl : br ≤ buf.length)
    (hreg : reg = buf.take br ++ List.replicate (width - br) 0)
    (hub : contLen reg < 32) :
    match decodeMultipleLoop width wanted reg br acc with
    | none => False
    | some .error =>
      decodeArrayLoop decodeU64Classic wanted (acc0 ++ acc) (taken + (width - br)) buf = ⟨[], 0, true⟩
    | some (.done vs n) =>
      ∃ vs', vs = acc ++ vs' ∧ width - br ≤ n ∧ n ≤ width ∧ vs'.length ≤ wanted ∧
        (vs' = [] → n = width - br) ∧ (vs' ≠ [] → width - br < n) ∧
        (vs' = [] → wanted = 0 ∨ br = 0 ∨ ∀ b ∈ buf.take br, 128 ≤ b.toNat) ∧
        decodeArrayLoop decodeU64Classic wanted (acc0 ++ acc) (taken + (width - br)) buf =
          decodeArrayLoop decodeU64Classic (wanted - vs'.length) (acc0 ++ vs) (taken + n)
            (buf.drop (n - (width - br))) := by
  induction wanted generalizing reg buf br acc with
  | zero =>
    simp only [decodeMultipleLoop]
    exact ⟨[], by simp⟩
  | succ wanted ih =>
    rw [decodeMultipleLoop]
    by_cases h0 : br = 0
    · subst h0
      simp only [if_true]
      exact ⟨[], by simp⟩
    rw [if_neg h0]
    have hlen : reg.length = width := by
      rw [hreg, List.length_append, List.length_replicate, List.length_take]; omega
    have hcr : contLen reg = min (contLen buf) br := by
      rw [hreg, contLen_append_zeros, contLen_take]
    have hmi := maskIndex_reg reg (by omega) hub
    simp only [hmi, bind, Option.bind, pure]
    by_cases hbig : contLen reg + 1 > br
    · rw [if_pos hbig]
      refine ⟨[], by simp, Nat.le_refl _, by omega, by simp, by simp, by simp, ?_, by simp⟩
      intro _
      right; right
      rw [← contLen_eq_length_iff, contLen_take, List.length_take]
      omega
    · rw [if_neg hbig]
      have hc : contLen reg = contLen buf := by omega
      have hclt : contLen buf < br := by omega
      cases hbuf : buf with
      | nil => simp [hbuf] at hbl; omega
      | cons b bs =>
        have hfirst : load (reg.take 8) % 256 = b.toNat := by
          rw [hreg, hbuf]
          obtain ⟨br', rfl⟩ : ∃ br', br = br' + 1 := ⟨br - 1, by omega⟩
          rw [List.take_succ_cons, List.cons_append, List.take_succ_cons]
          simp only [load, List.map_cons, le]
          have := b.toNat_lt
          omega
        rw [hfirst, hc]
        have hvs := validCode_solved b bs (by rw [← hbuf]; omega) (by rw [← hbuf]; omega)
        rw [← hbuf] at hvs ⊢
        cases hvc : validCode (contLen buf) b.toNat 0x0981 with
        | false =>
          have hs := hvs.2 hvc
          simp only [Bool.false_eq_true, not_false_eq_true, if_true]
          rw [decodeArrayLoop, decodeU64Classic_solved, hs]
          simp [invalid]
        | true =>
          obtain ⟨h1, h2, h3⟩ := hvs.1 hvc
          have ht := tables_eq (contLen buf) (by omega)
          simp only [not_true_eq_false, if_false, ht.1, ht.2.1, ht.2.2.2.2.2.1]
          have htk : reg.take (contLen buf + 1) = buf.take (contLen buf + 1) := by
            rw [hreg, List.take_append_of_le_length (by rw [List.length_take]; omega),
              take_take_of_le _ _ _ (by omega)]
          have hev := extract_value reg (contLen buf) (by omega) h2 (by rw [htk]; exact h3)
          rw [hev, htk]
          have hreg' : shiftReg reg (contLen buf + 1) =
              (buf.drop (contLen buf + 1)).take (br - (contLen buf + 1)) ++
                List.replicate (width - (br - (contLen buf + 1))) 0 := by
            rw [shiftReg, hreg, List.drop_append_of_le_length (by rw [List.length_take]; omega),
              List.drop_take, List.append_assoc, List.replicate_append_replicate]
            congr 2
            omega
          have ih' := ih (shiftReg reg (contLen buf + 1)) (buf.drop (contLen buf + 1))
            (br - (contLen buf + 1)) (acc ++ [value (buf.take (contLen buf + 1))])
            (by omega) (by rw [List.length_drop]; omega) hreg'
            (by
              rw [hreg', contLen_append_zeros]
              have := contLen_le ((buf.drop (contLen buf + 1)).take (br - (contLen buf + 1)))
              rw [List.length_take] at this
              omega)
          have hstep : decodeArrayLoop decodeU64Classic (wanted + 1) (acc0 ++ acc)
              (taken + (width - br)) buf =
              decodeArrayLoop decodeU64Classic wanted
                (acc0 ++ (acc ++ [value (buf.take (contLen buf + 1))]))
                (taken + (width - (br - (contLen buf + 1)))) (buf.drop (contLen buf + 1)) := by
            rw [decodeArrayLoop, decodeU64Classic_solved, h1]
            simp only [Nat.add_eq_zero_iff, Nat.one_ne_zero, and_false, if_false]
            rw [List.append_assoc]
            congr 1
            omega
          rw [hstep]
          revert ih'
          cases hrec : decodeMultipleLoop width wanted (shiftReg reg (contLen buf + 1))
            (br - (contLen buf + 1)) (acc ++ [value (buf.take (contLen buf + 1))]) with
          | none => exact id
          | some r =>
            cases r with
            | error => exact id
            | done vs n =>
              rintro ⟨vs', e1, e2, e3, e4, e5, e6, e7, e8⟩
              refine ⟨value (buf.take (contLen buf + 1)) :: vs', by simp [e1], by omega, e3,
                by simp; omega, by simp, by intro _; omega, by simp, ?_⟩
              rw [e8]
              congr 1
              · simp
              · rw [List.drop_drop]; congr 1; omega

/-- A full register of 16 or 32 bytes is decoded as the portable decoder would, unless it is 32
bytes that all have the top bit set (undefined behaviour of `find_lsb(0)`). -/
theorem decodeMultiple_eq (width wanted : Nat) (buf : Bytes) (acc0 : List Nat) (taken : Nat)
    (hw : 16 ≤ width) (hw2 : width ≤ 32) (hbl : width ≤ buf.length) (hwt : wanted ≠ 0)
    (hub : contLen (buf.take width) < 32) :
    match decodeMultiple width wanted buf with
    | none => False
    | some .error =>
      decodeArrayLoop decodeU64Classic wanted acc0 taken buf = ⟨[], 0, true⟩
    | some (.done vs n) =>
      n ≤ width ∧ vs.length ≤ wanted ∧
        (vs = [] → n = 0 ∧ decodeArrayLoop decodeU64Classic wanted acc0 taken buf = ⟨[], 0, true⟩) ∧
        (vs ≠ [] → 0 < n ∧ decodeArrayLoop decodeU64Classic wanted acc0 taken buf =
          decodeArrayLoop decodeU64Classic (wanted - vs.length) (acc0 ++ vs) (taken + n)
            (buf.drop n)) := by
  have h := decodeMultipleLoop_eq width wanted (buf.take width) buf width [] acc0 taken hw hw2
    (Nat.le_refl _) hbl (by simp) hub
  rw [decodeMultiple]
  revert h
  cases decodeMultipleLoop width wanted (buf.take width) width [] with
  | none => exact id
  | some r =>
    cases r with
    | error => simp
    | done vs n =>
      simp only [Nat.sub_self, List.append_nil, Nat.add_zero, Nat.sub_zero]
      rintro ⟨vs', e1, e2, e3, e4, e5, e6, e7, e8⟩
      simp only [List.nil_append] at e1
      subst e1
      refine ⟨e3, e4, fun hv => ⟨e5 hv, ?_⟩, fun hv => ⟨e6 hv, e8⟩⟩
      rcases e7 hv with h | h | h
      · exact absurd h hwt
      · omega
      · rw [← contLen_eq_length_iff, contLen_take, List.length_take] at h
        cases wanted with
        | zero => exact absurd rfl hwt
        | succ w =>
          rw [decodeArrayLoop, decodeU64Classic_solved, solved, if_pos (by omega)]
          simp [invalid]

/-- No run of `n` bytes with the top bit set anywhere in the buffer. -/
def NoRun (n : Nat) (buf : Bytes) : Prop :=
  ∀ i, i + n ≤ buf.length → ∃ b ∈ (buf.drop i).take n, b.toNat < 128

theorem NoRun.drop {n : Nat} {buf : Bytes} (h : NoRun n buf) (k : Nat) : NoRun n (buf.drop k) := by
  intro i hi
  rw [List.length_drop] at hi
  by_cases hk : k ≤ buf.length
  · rw [List.drop_drop]
    exact h (k + i) (by omega)
  · have hn : n = 0 := by omega
    subst hn
    have := h 0 (by omega)
    simp at this

theorem NoRun.contLen_lt {buf : Bytes} {w : Nat} (h : NoRun 32 buf) (hw : w ≤ 32) :
    contLen (buf.take w) < 32 := by
  have h2 := contLen_le (buf.take w)
  rw [List.length_take] at h2
  by_contra hc
  have h3 : contLen (buf.take w) = (buf.take w).length := by rw [List.length_take]; omega
  have hw32 : w = 32 := by omega
  subst hw32
  rw [contLen_eq_length_iff] at h3
  obtain ⟨b, hb, hlt⟩ := h 0 (by omega)
  have := h3 b (by simpa using hb)
  omega

theorem stage_eq (width remaining : Nat) (acc : List Nat) (taken : Nat) (buf : Bytes)
    (hw : 16 ≤ width) (hw2 : width ≤ 32) (hnr : width < 32 ∨ NoRun 32 buf) :
    match stage width remaining acc taken buf with
    | none => False
    | some (.ret r) => decodeArrayLoop decodeU64Classic remaining acc taken buf = r
    | some (.next remaining' acc' taken' buf') =>
      decodeArrayLoop decodeU64Classic remaining acc taken buf =
        decodeArrayLoop decodeU64Classic remaining' acc' taken' buf' := by
  induction remaining using Nat.strong_induction_on generalizing acc taken buf with
  | _ remaining ih =>
    rw [stage]
    by_cases hcond : width ≤ buf.length ∧ remaining ≠ 0
    · rw [dif_pos hcond]
      have hub : contLen (buf.take width) < 32 := by
        rcases hnr with h | h
        · have := contLen_le (buf.take width)
          rw [List.length_take] at this
          omega
        · exact h.contLen_lt hw2
      have hm := decodeMultiple_eq width remaining buf acc taken hw hw2 hcond.1 hcond.2 hub
      revert hm
      cases decodeMultiple width remaining buf with
      | none => exact id
      | some r =>
        cases r with
        | error => exact id
        | done vs n =>
          rintro ⟨h1, h2, h3, h4⟩
          by_cases hv : vs = []
          · obtain ⟨hn, he⟩ := h3 hv
            simp only [hn, if_true]
            exact he
          · obtain ⟨hn, he⟩ := h4 hv
            have hvl : vs.length ≠ 0 := by simpa using hv
            simp only [show n ≠ 0 by omega, if_false, hvl, dite_false]
            rw [he]
            exact ih (remaining - vs.length) (by omega) _ _ _ (hnr.imp id (fun h => h.drop n))
    · rw [dif_neg hcond]

theorem decodeArrayU64Fast_eq (remaining : Nat) (buf : Bytes) (h : NoRun 32 buf) :
    decodeArrayU64Fast remaining buf = some (decodeArrayU64Classic remaining buf) := by
  have h1 := stage_eq 32 remaining [] 0 buf (by decide) (by decide) (Or.inr h)
  rw [decodeArrayU64Fast, decodeArrayU64Classic]
  revert h1
  cases stage 32 remaining [] 0 buf with
  | none => exact False.elim
  | some s =>
    cases s with
    | ret r => intro h1; simp only [bind, Option.bind, pure]; rw [h1]
    | next remaining' acc' taken' buf' =>
      intro h1
      simp only at h1
      rw [h1]
      have h2 := stage_eq 16 remaining' acc' taken' buf' (by decide) (by decide) (Or.inl (by decide))
      simp only [bind, Option.bind, pure]
      revert h2
      cases stage 16 remaining' acc' taken' buf' with
      | none => exact False.elim
      | some s =>
        cases s with
        | ret r => intro h2; simp only; rw [h2]
        | next => intro h2; simp only at h2 ⊢; rw [h2]

end Hdtn.Sdnv.Fast
