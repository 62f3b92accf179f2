import Verif.Cbor.Lemmas

/-!
Properties C05 and C06: CBOR unsigned integers and arrays of them.
-/

namespace Hdtn.Cbor
open Spec

/-! ### C05 -/

/-- C05: with room for it, the encoding of `v` is written: a CBOR unsigned integer of value `v`, no
longer than any other one, of the size both size queries announce; decoding it, whatever follows,
returns `v` and that size. Without room nothing is written. -/
theorem C05_round_trip (v : Nat) (hv : v < 2 ^ 64) :
    ∃ e : Bytes, (∀ bufferSize, encodeU64Classic v bufferSize =
        if bufferSize < e.length then [] else e) ∧
      encodeU64 v = e ∧ IsUint e v ∧ (∀ p, IsUint p v → e.length ≤ p.length) ∧
      encodingSizeClassic v = e.length ∧ encodingSize v = some e.length ∧
      ∀ rest, decodeU64Classic (e ++ rest) = (v, e.length) := by
  refine ⟨encodeU64 v, encodeClassic_eq v, rfl, isUint_encode v hv, encode_minimal v,
    (encode_length v).symm, ?_, fun rest => ?_⟩
  · rw [encodingSize_eq v hv, encode_length]
  · exact ((decode_iff _ v _).2 ⟨by simp, by simpa using isUint_encode v hv⟩).1

/-- C05: the decoder is exact and stays inside the buffer. It reports value `v` and `k > 0` bytes
exactly when the first `k` bytes, all inside the buffer, are a CBOR unsigned integer of value `v`. -/
theorem C05_decode_iff (buf : Bytes) (v k : Nat) :
    (decodeU64Classic buf = (v, k) ∧ k ≠ 0) ↔ k ≤ buf.length ∧ IsUint (buf.take k) v :=
  decode_iff buf v k

/-- C05: it fails exactly when no prefix of the buffer is a CBOR unsigned integer. -/
theorem C05_decode_fails_iff (buf : Bytes) :
    (decodeU64Classic buf).2 = 0 ↔ ¬ ∃ k v, k ≤ buf.length ∧ IsUint (buf.take k) v := by
  constructor
  · rintro h ⟨k, v, hk⟩
    have := (decode_iff buf v k).2 hk
    rw [this.1] at h
    exact this.2 h
  · intro h
    by_contra hne
    exact h ⟨_, _, (decode_iff buf _ _).1 ⟨rfl, hne⟩⟩

/-- C05: other major types (first byte 0x20 or more) and reserved length codes (28 to 31) are
rejected. -/
theorem C05_decode_rejects (b : UInt8) (rest : Bytes) (hb : 28 ≤ b.toNat) :
    decodeU64Classic (b :: rest) = (0, 0) := by
  rw [decode_cons, if_neg (by omega), if_neg (by omega), if_neg (by omega), if_neg (by omega),
    if_neg (by omega)]

/-- C05: the accelerated decoder returns the same as the portable one on every buffer and never
reads outside it. -/
theorem C05_decode_agree (buf : Bytes) : decodeU64Accel buf = some (decodeU64Classic buf) :=
  decodeAccel_eq buf

/-- C05: the accelerated encoder on a buffer with room for the encoding: it announces the same size,
leaves the same bytes there, and touches nothing beyond the ninth byte; without room it stores
nothing and returns 0. -/
theorem C05_encode_agree (mem : Bytes) (v : Nat) (hv : v < 2 ^ 64) :
    if mem.length < (encodeU64 v).length then encodeU64Accel mem v = some (mem, 0)
    else ∃ mem', encodeU64Accel mem v = some (mem', (encodeU64 v).length) ∧
      mem'.length = mem.length ∧ mem'.take (encodeU64 v).length = encodeU64 v ∧
      mem'.drop 9 = mem.drop 9 := by
  have hlen : (encodeU64 v).length ≤ 9 := by
    rw [encode_length]; unfold encodingSizeClassic; split_ifs <;> omega
  unfold encodeU64Accel
  by_cases h9 : mem.length ≥ 9
  · rw [if_neg (by omega), if_pos h9]
    exact fastBufSize9_stored mem h9 v hv
  · rw [if_neg h9]
    split_ifs with h
    · simp only [encodeU64Fast, fast_size v hv, Option.bind_eq_bind, Option.bind_some, if_neg h9,
        if_pos h]
      rfl
    · exact fast_stored mem v hv (by omega)

example : encodeU64Classic 500 3 = [25, 1, 244] ∧ encodeU64Classic 500 2 = [] ∧
    decodeU64Classic [25, 1, 244, 9] = (500, 3) ∧
    encodeU64Accel [7, 7, 7, 7, 7, 7, 7, 7, 7, 7] 500 =
      some ([25, 1, 244, 0, 0, 0, 0, 0, 0, 7], 3) ∧
    decodeU64Accel [25, 1, 244, 9, 9, 9, 9, 9, 9, 9] = some (500, 3) := by decide +kernel

/-! ### C06 -/

/-- C06: a pair of integers is written as a two-element CBOR array of the announced size and read
back, whatever follows, with that size. -/
theorem C06_two_round_trip (a b : Nat) (ha : a < 2 ^ 64) (hb : b < 2 ^ 64) :
    IsDefiniteArray (twoSerialize a b) [a, b] ∧
      twoSerializationSize a b = some (twoSerialize a b).length ∧
      ∀ rest, twoDeserialize (twoSerialize a b ++ rest) = some (a, b, (twoSerialize a b).length) := by
  refine ⟨⟨[0x82], encodeU64 a ++ encodeU64 b, rfl, ⟨0x82, [], rfl, 2, rfl, 2, [], rfl, Or.inl ⟨by decide, rfl, rfl⟩⟩, ?_⟩, ?_, ?_⟩
  · exact ⟨_, _, rfl, isUint_encode a ha, _, [], by simp, isUint_encode b hb, rfl⟩
  · simp only [twoSerializationSize, encodingSize_eq a ha, encodingSize_eq b hb, twoSerialize,
      List.length_cons, List.length_append, encode_length, Option.bind_eq_bind, Option.bind_some,
      Option.pure_def, Option.some.injEq]
    omega
  · intro rest
    have e1 := readUint_encode a ha (encodeU64 b ++ rest)
    have e2 := readUint_encode b hb rest
    simp only [twoSerialize, List.cons_append, List.append_assoc, twoDeserialize, e1, e2,
      Option.bind_eq_bind, Option.bind_some]
    simp; omega

/-- C06: the pair deserialiser is exact: it succeeds with `a`, `b` and `n` bytes exactly when the
first `n` bytes are a CBOR array of the integers `a` and `b`, with the one-byte definite-length head
or in indefinite-length form. -/
theorem C06_two_iff (buf : Bytes) (a b n : Nat) :
    twoDeserialize buf = some (a, b, n) ↔
      n ≤ buf.length ∧ ((∃ body, buf.take n = 0x82 :: body ∧ IsUints body [a, b]) ∨
        IsIndefiniteArray (buf.take n) [a, b]) := by
  cases buf with
  | nil =>
    simp only [twoDeserialize, List.take_nil, IsIndefiniteArray]
    simp
  | cons i rest =>
    constructor
    · intro h
      simp only [twoDeserialize, Option.bind_eq_bind] at h
      by_cases hi : i ≠ 0x82 ∧ i ≠ 0x9f
      · rw [if_pos hi] at h; simp at h
      rw [if_neg hi] at h
      simp only [Option.bind_eq_some_iff, Prod.exists] at h
      obtain ⟨e1, r1, h1, e2, r2, h2, h⟩ := h
      obtain ⟨p1, hp1, u1⟩ := (readUint_iff _ _ _).1 h1
      obtain ⟨p2, hp2, u2⟩ := (readUint_iff _ _ _).1 h2
      subst hp2 hp1
      split at h
      · rename_i hi9
        subst hi9
        cases r2 with
        | nil => simp at h
        | cons s r =>
          simp only at h
          split at h
          · simp at h
          · rename_i hs
            simp only [ne_eq, not_not] at hs
            subst hs
            simp only [Option.pure_def, Option.some.injEq, Prod.mk.injEq] at h
            obtain ⟨rfl, rfl, rfl⟩ := h
            have hn : (0x9f :: (p1 ++ (p2 ++ 0xff :: r))).length - r.length =
                (0x9f :: (p1 ++ p2 ++ [0xff]) : Bytes).length := by simp; omega
            have he : (0x9f :: (p1 ++ (p2 ++ 0xff :: r)) : Bytes) =
                (0x9f :: (p1 ++ p2 ++ [0xff])) ++ r := by simp
            rw [hn, he]
            refine ⟨by simp, Or.inr ⟨p1 ++ p2, by rw [List.take_left' rfl]; rfl, p1, p2, rfl, u1, p2, [], by simp, u2, rfl⟩⟩
      · rename_i hi9
        have hi8 : i = 0x82 := by
          by_contra hc; exact hi ⟨hc, hi9⟩
        subst hi8
        simp only [Option.pure_def, Option.some.injEq, Prod.mk.injEq] at h
        obtain ⟨rfl, rfl, rfl⟩ := h
        have hn : (0x82 :: (p1 ++ (p2 ++ r2))).length - r2.length =
            (0x82 :: (p1 ++ p2) : Bytes).length := by simp; omega
        have he : (0x82 :: (p1 ++ (p2 ++ r2)) : Bytes) = (0x82 :: (p1 ++ p2)) ++ r2 := by simp
        rw [hn, he]
        exact ⟨by simp, Or.inl ⟨p1 ++ p2, by rw [List.take_left' rfl], p1, p2, rfl, u1, p2, [], by simp, u2, rfl⟩⟩
    · rintro ⟨hn, h⟩
      have hsplit := List.take_append_drop n (i :: rest)
      have hlen : n = ((i :: rest).take n).length := by rw [List.length_take]; omega
      rcases h with ⟨body, hb, p1, q, rfl, u1, p2, q', rfl, u2, hq⟩ |
        ⟨body, hb, p1, q, rfl, u1, p2, q', rfl, u2, hq⟩
      · rw [← hsplit, hb]
        rw [hb] at hlen
        simp only [IsUints] at hq
        subst hq
        simp only [List.append_nil, List.cons_append, List.append_assoc] at hlen ⊢
        have r1 := (readUint_iff (p1 ++ (p2 ++ (i :: rest).drop n)) a _).2 ⟨p1, rfl, u1⟩
        have r2 := (readUint_iff (p2 ++ (i :: rest).drop n) b _).2 ⟨p2, rfl, u2⟩
        generalize hd : (i :: rest).drop n = d at *
        simp only [List.nil_append, twoDeserialize, r1, r2, Option.bind_eq_bind, Option.bind_some]
        simp at hlen ⊢
        omega
      · rw [← hsplit, hb]
        rw [hb] at hlen
        simp only [IsUints] at hq
        subst hq
        simp only [List.append_nil, List.cons_append, List.append_assoc] at hlen ⊢
        generalize hd : (i :: rest).drop n = d at *
        have r1 := (readUint_iff (p1 ++ (p2 ++ (0xff :: d))) a _).2 ⟨p1, rfl, u1⟩
        have r2 := (readUint_iff (p2 ++ (0xff :: d)) b _).2 ⟨p2, rfl, u2⟩
        simp only [List.nil_append, twoDeserialize, r1, r2, Option.bind_eq_bind, Option.bind_some]
        simp at hlen ⊢
        omega

/-- C06: the bounded pair serialiser never writes more than the buffer holds, and writes the same
bytes as the unbounded one when they fit. -/
theorem C06_two_bounded (a b bufferSize : Nat) :
    (twoSerializeBounded a b bufferSize).length ≤ bufferSize ∧
      ((twoSerialize a b).length ≤ bufferSize →
        twoSerializeBounded a b bufferSize = twoSerialize a b) := by
  unfold twoSerializeBounded
  constructor
  · split_ifs with h
    · simp
    · simp only [encodeClassic_eq, List.length_cons, List.length_append]
      split_ifs <;> simp at * <;> omega
  · intro h
    simp only [twoSerialize, List.length_cons, List.length_append] at h
    rw [if_neg (by omega)]
    simp only [encodeClassic_eq, twoSerialize]
    rw [if_neg (by omega), if_neg (by omega)]

/-- C06: a list of integers is written as a definite-length CBOR array of the announced size and,
when the caller's maximum allows it, read back whatever follows. -/
theorem C06_array_round_trip (vs : List Nat) (hv : ∀ v ∈ vs, v < 2 ^ 64) (hl : vs.length < 2 ^ 64) :
    IsDefiniteArray (arraySerialize vs) vs ∧
      arraySerializationSize vs = some (arraySerialize vs).length ∧
      ∀ rest maxElements, vs.length ≤ maxElements →
        arrayDeserialize (arraySerialize vs ++ rest) maxElements =
          some (vs, (arraySerialize vs).length) := by
  refine ⟨⟨_, _, rfl, markArray_head _ hl, isUints_map vs hv⟩, ?_, ?_⟩
  · have hm : vs.mapM encodingSize = some (vs.map fun v => (encodeU64 v).length) := by
      clear hl
      induction vs with
      | nil => rfl
      | cons v vs ih =>
        rw [List.mapM_cons, ih fun w hw => hv w (by simp [hw]), encodingSize_eq v (hv v (by simp)),
          ← encode_length]
        rfl
    simp only [arraySerializationSize, hm, encodingSize_eq _ hl, ← encode_length,
      Option.bind_eq_bind, Option.bind_some, Option.pure_def, Option.some.injEq, arraySerialize,
      List.length_append, markArray_length, List.length_flatten, List.map_map]
    rfl
  · intro rest maxE hmax
    obtain ⟨b, r, he, hb⟩ := encode_first vs.length
    have hor := or_80 b (by omega)
    have hne : (b ||| 0x80) ≠ 0x9f := by
      rw [Ne, ← UInt8.toNat_inj, hor]
      have : (0x9f : UInt8).toNat = 159 := rfl
      omega
    have hmaj : ¬ ((b ||| 0x80) >>> 5 ≠ 4) := by rw [u8_shr5, hor]; omega
    have hand : (b ||| 0x80) &&& 0x1f = b := by
      rw [← UInt8.toNat_inj, u8_and_1f, hor]; omega
    have hread := readUint_encode vs.length hl ((vs.map encodeU64).flatten ++ rest)
    rw [he, List.cons_append] at hread
    have hmany := (readMany_iff vs.length ((vs.map encodeU64).flatten ++ rest) vs rest).2
      ⟨rfl, _, rfl, isUints_map vs hv⟩
    simp only [arraySerialize, he, markArray, List.cons_append, List.append_assoc,
      arrayDeserialize, if_neg hne, if_neg hmaj, hand, hread, hmany, Option.bind_eq_bind,
      Option.bind_some, if_neg (show ¬ vs.length > maxE by omega)]
    simp; omega

/-- C06: the array deserialiser is exact: it succeeds with `vs` and `n` bytes exactly when the first
`n` bytes are either a definite-length array of the integers `vs`, at most the caller's maximum in
number, or an indefinite-length array of exactly the maximum number. -/
theorem C06_array_iff (buf : Bytes) (maxElements : Nat) (vs : List Nat) (n : Nat) :
    arrayDeserialize buf maxElements = some (vs, n) ↔
      n ≤ buf.length ∧
        ((IsDefiniteArray (buf.take n) vs ∧ vs.length ≤ maxElements) ∨
         (IsIndefiniteArray (buf.take n) vs ∧ vs.length = maxElements)) := by
  cases buf with
  | nil =>
    simp only [arrayDeserialize, List.take_nil, IsIndefiniteArray, IsDefiniteArray, IsArrayHead]
    simp
  | cons i rest =>
    constructor
    · intro h
      simp only [arrayDeserialize] at h
      split_ifs at h with h9 h4
      · subst h9
        simp only [Option.bind_eq_bind, Option.bind_eq_some_iff, Prod.exists] at h
        obtain ⟨ws, r, hm, h⟩ := h
        obtain ⟨hl, p, rfl, hp⟩ := (readMany_iff _ _ _ _).1 hm
        cases r with
        | nil => simp at h
        | cons s r =>
          simp only at h
          split at h
          · simp at h
          · rename_i hs
            simp only [ne_eq, not_not] at hs
            subst hs
            simp only [Option.pure_def, Option.some.injEq, Prod.mk.injEq] at h
            obtain ⟨rfl, rfl⟩ := h
            have hn : (0x9f :: (p ++ 0xff :: r)).length - r.length =
                (0x9f :: (p ++ [0xff]) : Bytes).length := by simp; omega
            have he : (0x9f :: (p ++ 0xff :: r) : Bytes) = (0x9f :: (p ++ [0xff])) ++ r := by simp
            rw [hn, he]
            refine ⟨by simp, Or.inr ⟨⟨p, ?_, hp⟩, hl⟩⟩
            rw [List.take_left' rfl]; rfl
      · simp only [Option.bind_eq_bind, Option.bind_eq_some_iff, Prod.exists] at h
        obtain ⟨k, r1, hr, h⟩ := h
        split at h
        · simp at h
        · rename_i hk
          simp only [Option.bind_eq_some_iff, Prod.exists] at h
          obtain ⟨ws, r2, hm, h⟩ := h
          simp only [Option.pure_def, Option.some.injEq, Prod.mk.injEq] at h
          obtain ⟨rfl, rfl⟩ := h
          obtain ⟨hl, p, rfl, hp⟩ := (readMany_iff _ _ _ _).1 hm
          obtain ⟨q, hq, uq⟩ := (readUint_iff _ _ _).1 hr
          obtain ⟨b0, qr, rfl, hq2⟩ := uq
          simp only [List.cons_append, List.cons.injEq] at hq
          obtain ⟨hb0, rfl⟩ := hq
          have h4' : 128 ≤ i.toNat ∧ i.toNat < 160 := by
            by_contra hc; exact h4 ((u8_shr5 i).2 hc)
          have hbt : b0.toNat + 128 = i.toNat := by rw [← hb0, u8_and_1f]; omega
          have hn : (i :: (qr ++ (p ++ r2))).length - r2.length =
              ((i :: qr) ++ p : Bytes).length := by simp; omega
          have he : (i :: (qr ++ (p ++ r2)) : Bytes) = ((i :: qr) ++ p) ++ r2 := by simp
          rw [hn, he]
          refine ⟨by simp, Or.inl ⟨⟨i :: qr, p, by rw [List.take_left' rfl], ⟨i, qr, rfl, b0, hbt, ?_⟩, hp⟩, by omega⟩⟩
          rw [hl]
          exact ⟨b0, qr, rfl, hq2⟩
    · rintro ⟨hn, h⟩
      have hsplit := List.take_append_drop n (i :: rest)
      have hlen : n = ((i :: rest).take n).length := by rw [List.length_take]; omega
      rcases h with ⟨⟨hd, body, hb, ⟨b, r, rfl, b0, hb0, hu⟩, hus⟩, hmax⟩ | ⟨⟨body, hb, hus⟩, hmax⟩
      · rw [hb] at hlen
        rw [← hsplit, hb]
        generalize (i :: rest).drop n = d
        have hb28 : b0.toNat < 28 := by
          obtain ⟨c, r', hc, h | ⟨k, hk, hck, _⟩⟩ := hu
          · simp only [List.cons.injEq] at hc; rw [hc.1]; omega
          · simp only [List.cons.injEq] at hc; rw [hc.1]; omega
        have hne : b ≠ 0x9f := by
          rw [Ne, ← UInt8.toNat_inj]
          have : (0x9f : UInt8).toNat = 159 := rfl
          omega
        have hmaj : ¬ (b >>> 5 ≠ 4) := by rw [u8_shr5]; omega
        have hand : b &&& 0x1f = b0 := by
          rw [← UInt8.toNat_inj, u8_and_1f]; omega
        have r1 := (readUint_iff ((b0 :: r) ++ (body ++ d)) vs.length _).2 ⟨_, rfl, hu⟩
        have r2 := (readMany_iff vs.length (body ++ d) vs d).2 ⟨rfl, _, rfl, hus⟩
        rw [List.cons_append] at r1
        simp only [List.cons_append, List.append_assoc, arrayDeserialize, if_neg hne, if_neg hmaj,
          hand, r1, r2, Option.bind_eq_bind, Option.bind_some,
          if_neg (show ¬ vs.length > maxElements by omega)]
        simp at hlen ⊢
        omega
      · rw [hb] at hlen
        rw [← hsplit, hb]
        generalize (i :: rest).drop n = d
        have r2 := (readMany_iff maxElements (body ++ (0xff :: d)) vs (0xff :: d)).2
          ⟨hmax, _, rfl, hus⟩
        simp only [List.cons_append, List.append_assoc, List.nil_append, arrayDeserialize, r2, Option.bind_eq_bind,
          Option.bind_some]
        simp at hlen ⊢
        omega

/-- C06: definite-length input that announces more elements than the caller's maximum is rejected. -/
theorem C06_array_too_long (h body : Bytes) (n maxElements : Nat) (hh : IsArrayHead h n)
    (hn : maxElements < n) : arrayDeserialize (h ++ body) maxElements = none := by
  obtain ⟨b, r, rfl, b0, hb0, hu⟩ := hh
  have hb28 : b0.toNat < 28 := by
    obtain ⟨c, r', hc, h | ⟨k, hk, hck, _⟩⟩ := hu
    · simp only [List.cons.injEq] at hc; rw [hc.1]; omega
    · simp only [List.cons.injEq] at hc; rw [hc.1]; omega
  have hne : b ≠ 0x9f := by
    rw [Ne, ← UInt8.toNat_inj]
    have : (0x9f : UInt8).toNat = 159 := rfl
    omega
  have hmaj : ¬ (b >>> 5 ≠ 4) := by rw [u8_shr5]; omega
  have hand : b &&& 0x1f = b0 := by
    rw [← UInt8.toNat_inj, u8_and_1f]; omega
  have r1 := (readUint_iff ((b0 :: r) ++ body) n _).2 ⟨_, rfl, hu⟩
  rw [List.cons_append] at r1
  simp only [List.cons_append, arrayDeserialize, if_neg hne, if_neg hmaj, hand, r1,
    Option.bind_eq_bind, Option.bind_some, if_pos (show n > maxElements by omega)]

theorem encodeAllBounded_spec (vs : List Nat) (n : Nat) :
    (encodeAllBounded vs n).length ≤ n ∧
      ((vs.map encodeU64).flatten.length ≤ n → encodeAllBounded vs n = (vs.map encodeU64).flatten) := by
  induction vs generalizing n with
  | nil => simp [encodeAllBounded]
  | cons v vs ih =>
    simp only [encodeAllBounded, encodeClassic_eq]
    constructor
    · split_ifs with h
      · simpa using (ih n).1
      · have := (ih (n - (encodeU64 v).length)).1
        simp only [List.length_append]; omega
    · intro h
      simp only [List.map_cons, List.flatten_cons, List.length_append] at h ⊢
      rw [if_neg (by omega), (ih _).2 (by omega)]

/-- C06: the bounded array serialiser on a non-empty buffer never writes more than the buffer holds,
and writes the same bytes as the unbounded one when they fit. -/
theorem C06_array_bounded (vs : List Nat) (bufferSize : Nat) (hb : 0 < bufferSize) :
    ∃ out, arraySerializeBounded vs bufferSize = some out ∧ out.length ≤ bufferSize ∧
      ((arraySerialize vs).length ≤ bufferSize → out = arraySerialize vs) := by
  refine ⟨_, by rw [arraySerializeBounded, if_neg (by omega)], ?_, ?_⟩
  · have h := (encodeAllBounded_spec vs
      (bufferSize - (encodeU64Classic vs.length bufferSize).length)).1
    simp only [List.length_append, markArray_length]
    have h2 : (encodeU64Classic vs.length bufferSize).length ≤ bufferSize := by
      rw [encodeClassic_eq]; split_ifs <;> simp at * <;> omega
    omega
  · intro h
    simp only [arraySerialize, List.length_append, markArray_length] at h
    rw [encodeClassic_eq, if_neg (by omega), (encodeAllBounded_spec vs _).2 (by omega)]
    rfl

/-- C06: with an empty buffer the bounded array serialiser touches a byte outside it. -/
theorem C06_array_bounded_empty_violated (vs : List Nat) : arraySerializeBounded vs 0 = none := rfl

example : twoSerialize 5 1000 = [0x82, 5, 25, 3, 232] ∧
    twoDeserialize [0x82, 5, 25, 3, 232, 77] = some (5, 1000, 5) ∧
    twoDeserialize [0x9f, 5, 25, 3, 232, 0xff] = some (5, 1000, 6) ∧
    twoDeserialize [0x83, 5, 25, 3, 232, 77] = none ∧
    arraySerialize [1, 300, 2] = [0x83, 1, 25, 1, 44, 2] ∧
    arrayDeserialize [0x83, 1, 25, 1, 44, 2, 9] 5 = some ([1, 300, 2], 6) ∧
    arrayDeserialize [0x83, 1, 25, 1, 44, 2, 9] 2 = none ∧
    arrayDeserialize [0x9f, 1, 2, 0xff] 2 = some ([1, 2], 4) ∧
    arraySerializeBounded [1, 300, 2] 6 = some [0x83, 1, 25, 1, 44, 2] := by decide +kernel

end Hdtn.Cbor
