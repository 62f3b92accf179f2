import Verif.Sdnv.FastLemmas

/-!
Properties C01-C04: SDNV coding.
-/

namespace Hdtn.Sdnv
open Spec Fast

/-! ### C01 -/

/-- C01 (64 bit, portable build). With room for the encoding, the bytes written form an SDNV of the
value, as short as possible, at most ten bytes, as many as the size query announces; decoding them,
whatever follows, returns the value and that length. Without room nothing is written. -/
theorem C01_sdnv64_round_trip (v : Nat) (hv : v < 2 ^ 64) :
    ∃ e : Bytes, (∀ bufferSize, encodeU64Classic v bufferSize =
        if bufferSize < e.length then [] else e) ∧
      encodeU64ClassicBufSize10 v = e ∧
      1 ≤ e.length ∧ e.length ≤ 10 ∧ IsMinimalLength v e.length ∧ IsSdnv64 e v ∧
      numBytesRequired v = some e.length ∧
      ∀ rest, decodeU64Classic (e ++ rest) = (v, e.length) := by
  have hk := kOf_bounds v hv
  refine ⟨encodeU64ClassicBufSize10 v, encodeU64Classic_eq v, rfl, ?_, ?_, encode_minimal v hv,
    ⟨?_, encode_wellFormed v, encode_value v hv, hv⟩, ?_, decode_encode_append v hv⟩
  · rw [encode_length]; omega
  · rw [encode_length]; omega
  · rw [encode_length]; omega
  · rw [numBytesRequired, maskIndex_eq v hv, encode_length]; rfl

/-- C01 (32 bit, portable build). -/
theorem C01_sdnv32_round_trip (v : Nat) (hv : v < 2 ^ 32) :
    ∃ e : Bytes, (∀ bufferSize, encodeU32Classic v bufferSize =
        if bufferSize < e.length then [] else e) ∧
      1 ≤ e.length ∧ e.length ≤ 5 ∧ IsMinimalLength v e.length ∧ IsSdnv32 e v ∧
      numBytesRequired v = some e.length ∧
      ∀ rest, decodeU32Classic (e ++ rest) = (v, e.length) := by
  have hv64 : v < 2 ^ 64 := by omega
  have hk : kOf v < 5 := by unfold kOf; split_ifs <;> omega
  refine ⟨encodeU64ClassicBufSize10 v, fun n => encodeU32Classic_eq v n hv, ?_, ?_,
    encode_minimal v hv64, ⟨?_, encode_wellFormed v, encode_value v hv64, hv⟩, ?_, ?_⟩
  · rw [encode_length]; omega
  · rw [encode_length]; omega
  · rw [encode_length]; omega
  · rw [numBytesRequired, maskIndex_eq v hv64, encode_length]; rfl
  · intro rest
    rw [decodeU32Classic_solved]
    refine ((solved_success_iff 5 0x8f (by decide) _ v _).2 ⟨?_, ?_, ?_, ?_, ?_⟩).1
    · rw [encode_length]; omega
    · simp
    · simpa using encode_wellFormed v
    · simpa using encode_value v hv64
    · norm_num at *; omega

example : encodeU64Classic 300 5 = [0x82, 0x2c] ∧ decodeU64Classic [0x82, 0x2c, 7] = (300, 2) := by
  decide

/-! ### C02 -/

/-- C02: success. The decoder reports value `v` and `k` bytes exactly when the first `k` bytes of the
buffer, all inside it, are an SDNV of `v` below 2^64. -/
theorem C02_decode64_success_iff (buf : Bytes) (v k : Nat) :
    (decodeU64Classic buf = (v, k) ∧ k ≠ 0) ↔
      ∃ rest, buf = buf.take k ++ rest ∧ (buf.take k).length = k ∧ IsSdnv64 (buf.take k) v := by
  rw [decodeU64Classic_solved, solved_success_iff 10 0x81 (by decide)]
  have e : (128 ^ (10 - 1) * (0x81 - 127) : Nat) = 2 ^ 64 := by norm_num
  rw [e]
  constructor
  · rintro ⟨h1, h2, h3, h4, h5⟩
    have hl : (buf.take k).length = k := by rw [List.length_take]; omega
    exact ⟨buf.drop k, by simp, hl, by omega, h3, h4, h5⟩
  · rintro ⟨rest, _, h2, h3, h4, h5, h6⟩
    rw [List.length_take] at h2
    refine ⟨?_, by omega, h4, h5, h6⟩
    rw [List.length_take] at h3
    omega

/-- C02: "not enough bytes" is reported exactly for a cut-off SDNV. -/
theorem C02_decode64_notEnough_iff (buf : Bytes) :
    decodeU64Classic buf = notEnough ↔ CutOff buf := by
  rw [decodeU64Classic_solved, solved_notEnough_iff, CutOff]

/-- C02: "invalid" is reported exactly when the buffer is not cut off and no continuation of it
starts with a 64-bit SDNV. -/
theorem C02_decode64_invalid_iff (buf : Bytes) :
    decodeU64Classic buf = invalid ↔ ¬ CutOff buf ∧ Malformed buf := by
  constructor
  · intro h
    constructor
    · rw [← C02_decode64_notEnough_iff, h]; decide
    · intro more p v rest hp heq
      have hap : decodeU64Classic (buf ++ more) = invalid := by
        rw [decodeU64Classic_solved] at h ⊢
        rw [solved_append _ _ _ _ (by rw [h]; decide), h]
      rw [heq] at hap
      have hne : p.length ≠ 0 := by
        intro h0
        have : p = [] := List.length_eq_zero_iff.1 h0
        rw [this] at hp
        exact hp.2.1
      have hs := (C02_decode64_success_iff (p ++ rest) v p.length).2
        ⟨rest, by simp, by simp, by simpa using hp⟩
      rw [hap] at hs
      simp [invalid] at hs
      exact hne (by simp [hs.1.2])
  · rintro ⟨h1, h2⟩
    rw [← C02_decode64_notEnough_iff] at h1
    by_contra h3
    rw [decodeU64Classic_solved] at h1 h3
    have hk : (solved 10 0x81 buf).2 ≠ 0 := by
      unfold solved at *
      split_ifs at * <;> simp_all
    have hs := (C02_decode64_success_iff buf (solved 10 0x81 buf).1 (solved 10 0x81 buf).2).1
      ⟨by rw [decodeU64Classic_solved], hk⟩
    obtain ⟨rest, e1, _, e3⟩ := hs
    exact h2 [] _ _ rest e3 (by simpa using e1)

/-- C02 (32 bit): success exactly on SDNVs below 2^32 of at most five bytes. -/
theorem C02_decode32_success_iff (buf : Bytes) (v k : Nat) :
    (decodeU32Classic buf = (v, k) ∧ k ≠ 0) ↔
      ∃ rest, buf = buf.take k ++ rest ∧ (buf.take k).length = k ∧ IsSdnv32 (buf.take k) v := by
  rw [decodeU32Classic_solved, solved_success_iff 5 0x8f (by decide)]
  have e : (128 ^ (5 - 1) * (0x8f - 127) : Nat) = 2 ^ 32 := by norm_num
  rw [e]
  constructor
  · rintro ⟨h1, h2, h3, h4, h5⟩
    have hl : (buf.take k).length = k := by rw [List.length_take]; omega
    exact ⟨buf.drop k, by simp, hl, by omega, h3, h4, h5⟩
  · rintro ⟨rest, _, h2, h3, h4, h5, h6⟩
    rw [List.length_take] at h2
    refine ⟨?_, by omega, h4, h5, h6⟩
    rw [List.length_take] at h3
    omega

/-- C02 (32 bit): "not enough" exactly when fewer than five bytes, all with the top bit set. -/
theorem C02_decode32_notEnough_iff (buf : Bytes) :
    decodeU32Classic buf = notEnough ↔ buf.length < 5 ∧ ∀ b ∈ buf, 128 ≤ b.toNat := by
  rw [decodeU32Classic_solved, solved_notEnough_iff]

example : CutOff [0x80, 0xff] := by
  simp only [CutOff]; decide

example : decodeU64Classic [0x82, 0x80, 0x80, 0x80, 0x80, 0x80, 0x80, 0x80, 0x80, 0x00] = invalid := by
  decide

/-! ### C03 -/

/-- C03: 64-bit encoder of an accelerated build writes what the portable one writes. -/
theorem C03_encode64_agree (mem : Bytes) (v : Nat) (hv : v < 2 ^ 64) :
    encodeU64Dispatch mem v = some (encodeU64Classic v mem.length) := by
  unfold encodeU64Dispatch
  split
  · rename_i h
    obtain ⟨m, n, e1, e2, e3, e4, e5⟩ := encodeU64Fast_eq mem v hv h
    rw [e1, encodeU64Classic_eq]
    have := (kOf_bounds v hv).1
    simp only [Option.map_some, e4, encode_length]
    rw [if_neg (by omega)]
  · rfl

/-- C03: the accelerated 64-bit encoder touches only the first ten bytes of the buffer. -/
theorem C03_encode64_stays_in_ten_bytes (mem : Bytes) (v : Nat) (hv : v < 2 ^ 64)
    (hm : 10 ≤ mem.length) :
    ∃ mem' n, encodeU64FastBufSize10 mem v = some (mem', n) ∧ mem'.length = mem.length ∧
      mem'.drop 10 = mem.drop 10 := by
  obtain ⟨m, n, e1, e2, e3, e4, e5⟩ := encodeU64Fast_eq mem v hv hm
  exact ⟨m, n, e1, e2, e3⟩

/-- C03: 32-bit encoder. -/
theorem C03_encode32_agree (bufferSize v : Nat) (hv : v < 2 ^ 32) :
    encodeU32Dispatch bufferSize v = some (encodeU32Classic v bufferSize) := by
  unfold encodeU32Dispatch
  split
  · rename_i h
    obtain ⟨m, n, e1, e2, e3, e4⟩ := encodeU32Fast_eq v hv
    have hk : kOf v < 5 := by unfold kOf; split_ifs <;> omega
    rw [e1, encodeU32Classic_eq v _ hv]
    simp only [Option.map_some, e3, encode_length]
    rw [if_neg (by omega)]
  · rfl

/-- C03: 64-bit decoder: same value, length and error class on every buffer, no undefined
behaviour. -/
theorem C03_decode64_agree (buf : Bytes) : decodeU64Dispatch buf = some (decodeU64Classic buf) := by
  unfold decodeU64Dispatch
  split
  · rename_i h; exact decodeU64Fast_eq buf h
  · rfl

/-- C03: 32-bit decoder. -/
theorem C03_decode32_agree (buf : Bytes) : decodeU32Dispatch buf = some (decodeU32Classic buf) := by
  unfold decodeU32Dispatch
  split
  · rename_i h; exact decodeU32Fast_eq buf h
  · rfl

/-- C03/C04: the accelerated array decoder equals the portable one on every buffer without 32
consecutive bytes that all have the top bit set. `_partial`: on the excluded buffers the code calls
`find_lsb(0)`, see `C03_array_undefined`. -/
theorem C03_array_agree_partial (count : Nat) (buf : Bytes) (h : NoRun 32 buf) :
    decodeArrayU64Fast count buf = some (decodeArrayU64Classic count buf) :=
  decodeArrayU64Fast_eq count buf h

/-- Why `C03_array_agree_partial` excludes such runs: on them the accelerated build takes the lowest
set bit of zero, undefined behaviour, where the portable build reports an invalid SDNV. -/
theorem C03_array_undefined (more : Bytes) (count : Nat) :
    decodeArrayU64Fast (count + 1) (List.replicate 32 0xff ++ more) = none ∧
      decodeArrayU64Classic (count + 1) (List.replicate 32 0xff ++ more) = ⟨[], 0, true⟩ := by
  constructor
  · rw [decodeArrayU64Fast, stage, dif_pos ⟨by simp, by simp⟩, decodeMultiple, decodeMultipleLoop,
      List.take_left' (by simp)]
    have : findLsb 32 (not32 (movemask (List.replicate 32 0xff))) = none := by decide
    rw [if_neg (by decide), this]
    rfl
  · rw [decodeArrayU64Classic, decodeArrayLoop, decodeU64Classic_solved, solved, if_pos]
    · simp [invalid]
    · have h1 := contLen_append_ge (List.replicate 32 0xff) more
      have h2 : contLen (List.replicate 32 0xff) = 32 := by decide
      omega

example : NoRun 32 [0x81, 0x00, 0x05] := by
  intro i hi; simp at hi

/-! ### C04 -/

theorem decodeArrayLoop_spec (count : Nat) (acc : List Nat) (taken : Nat) (buf : Bytes) :
    (∃ vs rest, decodeArrayLoop decodeU64Classic count acc taken buf =
        ⟨acc ++ vs, taken + (buf.length - rest.length), false⟩ ∧ rest.length ≤ buf.length ∧
        vs.length ≤ count ∧ Split buf vs rest ∧ (vs.length = count ∨ CutOff rest)) ∨
    (∃ vs rest, decodeArrayLoop decodeU64Classic count acc taken buf = ⟨[], 0, true⟩ ∧
        vs.length < count ∧ Split buf vs rest ∧ ¬ CutOff rest ∧ Malformed rest) := by
  induction count generalizing acc taken buf with
  | zero =>
    left
    exact ⟨[], buf, by simp [decodeArrayLoop], Nat.le_refl _, by simp, Split.nil _, Or.inl rfl⟩
  | succ count ih =>
    rw [decodeArrayLoop]
    by_cases hne : decodeU64Classic buf = notEnough
    · left
      refine ⟨[], buf, ?_, Nat.le_refl _, by simp, Split.nil _,
        Or.inr ((C02_decode64_notEnough_iff buf).1 hne)⟩
      simp [hne, notEnough]
    by_cases hin : decodeU64Classic buf = invalid
    · right
      refine ⟨[], buf, ?_, by simp, Split.nil _, (C02_decode64_invalid_iff buf).1 hin⟩
      simp [hin, invalid]
    have hk : (decodeU64Classic buf).2 ≠ 0 := by
      rw [decodeU64Classic_solved] at hne hin ⊢
      unfold solved at *
      split_ifs at * <;> simp_all
    obtain ⟨r, e1, e2, e3⟩ := (C02_decode64_success_iff buf (decodeU64Classic buf).1
      (decodeU64Classic buf).2).1 ⟨rfl, hk⟩
    have hsplit : buf.take (decodeU64Classic buf).2 ++ buf.drop (decodeU64Classic buf).2 = buf :=
      List.take_append_drop _ _
    have hkl : (decodeU64Classic buf).2 ≤ buf.length := by
      rw [List.length_take] at e2; omega
    simp only [hk, if_false]
    rcases ih (acc ++ [(decodeU64Classic buf).1]) (taken + (decodeU64Classic buf).2)
      (buf.drop (decodeU64Classic buf).2) with ⟨vs, rest, h1, h2, h3, h4, h5⟩ | ⟨vs, rest, h1, h2, h3⟩
    · left
      rw [List.length_drop] at h1 h2
      refine ⟨(decodeU64Classic buf).1 :: vs, rest, ?_, by omega, by simp; omega, ?_,
        h5.imp (by simp) id⟩
      · rw [h1]
        simp only [List.append_assoc, List.singleton_append, ArrayResult.mk.injEq, true_and,
          and_true]
        omega
      · have := Split.cons e3 h4
        rwa [hsplit] at this
    · right
      refine ⟨(decodeU64Classic buf).1 :: vs, rest, h1, by simp; omega, ?_, h3.2⟩
      have := Split.cons e3 h3.1
      rwa [hsplit] at this

/-- C04. A call asking for `count` numbers either returns at most `count` values whose SDNVs are
exactly the consumed, leading bytes of the buffer, stopping short only at a cut-off SDNV; or reports
an error, exactly because a malformed SDNV follows fewer than `count` good ones. -/
theorem C04_array_decode_spec (count : Nat) (buf : Bytes) :
    (∃ vs used rest, decodeArrayU64Classic count buf = ⟨vs, used, false⟩ ∧
        used + rest.length = buf.length ∧
        vs.length ≤ count ∧ Split buf vs rest ∧ (vs.length = count ∨ CutOff rest)) ∨
    (∃ vs rest, decodeArrayU64Classic count buf = ⟨[], 0, true⟩ ∧
        vs.length < count ∧ Split buf vs rest ∧ ¬ CutOff rest ∧ Malformed rest) := by
  rcases decodeArrayLoop_spec count [] 0 buf with ⟨vs, rest, h1, h2, h3⟩ | h
  · left
    refine ⟨vs, buf.length - rest.length, rest, ?_, by omega, h3⟩
    rw [decodeArrayU64Classic, h1]; simp
  · right; exact h

/-- C04, completeness: a buffer that starts with `count` SDNVs decodes to exactly their values. -/
theorem C04_array_decode_complete (vs : List Nat) (buf rest : Bytes) (h : Split buf vs rest) :
    decodeArrayU64Classic vs.length buf = ⟨vs, buf.length - rest.length, false⟩ := by
  have key : ∀ acc taken, decodeArrayLoop decodeU64Classic vs.length acc taken buf =
      ⟨acc ++ vs, taken + (buf.length - rest.length), false⟩ ∧ rest.length ≤ buf.length := by
    induction h with
    | nil rest => intro acc taken; simp [decodeArrayLoop]
    | @cons p v buf vs rest hp hs ih =>
      intro acc taken
      have hd := (C02_decode64_success_iff (p ++ buf) v p.length).2
        ⟨buf, by simp, by simp, by simpa using hp⟩
      obtain ⟨ih1, ih2⟩ := ih (acc ++ [v]) (taken + p.length)
      rw [List.length_cons, decodeArrayLoop, hd.1]
      simp only [hd.2, if_false, List.drop_left, ih1]
      simp only [List.append_assoc, List.singleton_append, ArrayResult.mk.injEq, true_and, and_true,
        List.length_append]
      omega
  have := (key [] 0).1
  rw [decodeArrayU64Classic, this]
  simp

example : Split [0x05, 0x82, 0x2c, 0xff] [5, 300] [0xff] :=
  Split.cons (p := [0x05]) ⟨by decide, by decide, by decide, by decide⟩
    (Split.cons (p := [0x82, 0x2c]) ⟨by decide, by decide, by decide, by decide⟩ (Split.nil _))

end Hdtn.Sdnv
