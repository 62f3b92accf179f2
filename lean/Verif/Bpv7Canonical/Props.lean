import Verif.Bpv7Canonical.Spec
import Verif.Cbhe.Props

/-!
C37 (the BPv7 canonical block survives the wire), the canonical block half of C36, and C52 (extension
blocks survive the wire, and the hop count can be updated in place).
-/

namespace Hdtn.Bpv7Canonical

open Hdtn.HashMap16 Hdtn.Cbor Hdtn.Cbor.Spec Hdtn.Cbhe Hdtn.Cbhe.Spec Hdtn.Bpv7Crc Spec

theorem u8_forall {P : UInt8 → Prop} (h : ∀ k < 256, P (UInt8.ofNat k)) (b : UInt8) : P b := by
  have := h b.toNat b.toNat_lt
  rwa [UInt8.ofNat_toNat] at this

theorem head_iff (b t : UInt8) :
    (b >>> 5 = 4 ∧ (b &&& 0x1f).toNat = arraySize t) ↔ b.toNat = (if t = 0 then 0x85 else 0x86) := by
  unfold arraySize
  by_cases h : t = 0
  · simp only [h, ne_eq, not_true_eq_false, if_true, if_false]
    exact u8_forall (P := fun b => (b >>> 5 = 4 ∧ (b &&& 0x1f).toNat = 5 + 0) ↔ b.toNat = 0x85)
      (by decide +kernel) b
  · simp only [h, ne_eq, not_false_eq_true, if_true, if_false]
    exact u8_forall (P := fun b => (b >>> 5 = 4 ∧ (b &&& 0x1f).toNat = 5 + 1) ↔ b.toNat = 0x86)
      (by decide +kernel) b

theorem strip_iff (b : UInt8) : b >>> 5 = 2 ↔ (b &&& 0x1f).toNat + 0x40 = b.toNat :=
  u8_forall (P := fun b => b >>> 5 = 2 ↔ (b &&& 0x1f).toNat + 0x40 = b.toNat) (by decide +kernel) b

theorem strip_eq (b b0 : UInt8) (h0 : b0.toNat < 32) (h : b0.toNat + 0x40 = b.toNat) : b &&& 0x1f = b0 := by
  have : ∀ k < 32, UInt8.ofNat (k + 0x40) &&& 0x1f = UInt8.ofNat k := by decide +kernel
  have := this b0.toNat h0
  rwa [h, UInt8.ofNat_toNat, UInt8.ofNat_toNat] at this

theorem isUint_head {b : UInt8} {r : Bytes} {n : Nat} (h : IsUint (b :: r) n) : b.toNat < 28 := by
  obtain ⟨b', r', e, h⟩ := h
  simp only [List.cons.injEq] at e
  obtain ⟨rfl, rfl⟩ := e
  rcases h with ⟨h, _⟩ | ⟨k, hk, h, _⟩ <;> omega

theorem readByteString_iff (buf data rest : Bytes) :
    readByteString buf = some (data, rest) ↔ ∃ p, buf = p ++ (data ++ rest) ∧ IsStringHead p data.length := by
  constructor
  · intro h
    unfold readByteString at h
    split at h
    · simp at h
    rename_i b r
    split at h
    · simp at h
    rename_i hb
    push Not at hb
    split at h
    · simp at h
    rename_i n r1 hr
    split at h
    · simp at h
    rename_i hn
    simp only [Option.some.injEq, Prod.mk.injEq] at h
    obtain ⟨rfl, rfl⟩ := h
    obtain ⟨p, hp, hu⟩ := (readUint_iff _ _ _).1 hr
    obtain ⟨b', r', rfl, hcase⟩ := id hu
    simp only [List.cons_append, List.cons.injEq] at hp
    obtain ⟨hb', rfl⟩ := hp
    refine ⟨b :: r', by simp, b, r', rfl, b &&& 0x1f, (strip_iff b).1 hb, ?_⟩
    rw [List.length_take, Nat.min_eq_left (by omega), hb']
    exact hu
  · rintro ⟨p, rfl, b, r, rfl, b0, hb, hu⟩
    have h0 := isUint_head hu
    have hs := strip_eq b b0 (by omega) hb
    unfold readByteString
    simp only [List.cons_append]
    rw [if_neg (by rw [Classical.not_not, strip_iff, hs]; exact hb), hs,
      (readUint_iff (b0 :: (r ++ (data ++ rest))) _ _).2 ⟨b0 :: r, rfl, hu⟩]
    simp

theorem readData_iff (buf data rest : Bytes) :
    readData buf = some (data, rest) ↔ ∃ tag p, buf = tag ++ (p ++ (data ++ rest)) ∧
      (tag = [] ∨ tag = [0xd8]) ∧ IsStringHead p data.length := by
  unfold readData
  constructor
  · intro h
    split at h
    · simp at h
    split at h
    · rename_i hd; subst hd
      obtain ⟨p, rfl, hp⟩ := (readByteString_iff _ _ _).1 h
      exact ⟨[0xd8], p, rfl, Or.inr rfl, hp⟩
    · obtain ⟨p, e, hp⟩ := (readByteString_iff _ _ _).1 h
      exact ⟨[], p, e, Or.inl rfl, hp⟩
  · rintro ⟨tag, p, rfl, rfl | rfl, hp⟩
    · have h := (readByteString_iff _ data rest).2 ⟨p, rfl, hp⟩
      obtain ⟨b, r, rfl, b0, hb, hu⟩ := hp
      have h0 := isUint_head hu
      simp only [List.nil_append, List.cons_append] at h ⊢
      rw [if_neg, h]
      rintro rfl
      have : (0xd8 : UInt8).toNat = 216 := rfl
      omega
    · simp only [List.cons_append, List.nil_append, if_true]
      exact (readByteString_iff _ _ _).2 ⟨p, rfl, hp⟩

theorem checkCrc_skip_iff (t : UInt8) (body buf : Bytes) (c16 c32 : Nat) (rest : Bytes) :
    checkCrc t true body buf = some ((c16, c32), rest) ↔
      ∃ field, buf = field ++ rest ∧
       ((t = 0 ∧ field = [] ∧ c16 = 0 ∧ c32 = 0) ∨
        (t = 1 ∧ field = 0x42 :: toBe 2 c16 ∧ c16 < 2 ^ 16 ∧ c32 = 0) ∨
        (t = 2 ∧ field = 0x44 :: toBe 4 c32 ∧ c32 < 2 ^ 32 ∧ c16 = 0)) := by
  unfold checkCrc
  by_cases h0 : t = 0
  · subst h0
    simp only [if_true, Option.some.injEq, Prod.mk.injEq]
    constructor
    · rintro ⟨⟨rfl, rfl⟩, rfl⟩; exact ⟨[], rfl, Or.inl ⟨trivial, rfl, rfl, rfl⟩⟩
    · rintro ⟨field, rfl, ⟨_, rfl, rfl, rfl⟩ | ⟨h, _⟩ | ⟨h, _⟩⟩
      · exact ⟨⟨rfl, rfl⟩, rfl⟩
      · exact absurd h (by decide)
      · exact absurd h (by decide)
  rw [if_neg h0]
  by_cases h1 : t = 1
  · subst h1
    simp only [if_true]
    constructor
    · intro h
      split at h
      · simp at h
      · rename_i c r hr
        obtain ⟨hc, hb⟩ := (readField16_iff _ _ _).1 hr
        simp only [Option.some.injEq, Prod.mk.injEq] at h
        obtain ⟨⟨rfl, rfl⟩, rfl⟩ := h
        exact ⟨_, hb, Or.inr (Or.inl ⟨trivial, rfl, hc, rfl⟩)⟩
    · rintro ⟨field, rfl, ⟨h, _⟩ | ⟨_, rfl, hc, rfl⟩ | ⟨h, _⟩⟩
      · exact absurd h (by decide)
      · have := (readField16_iff (field16 c16 ++ rest) _ _).2 ⟨hc, rfl⟩
        rw [field16] at this
        simp only [this]
      · exact absurd h (by decide)
  rw [if_neg h1]
  by_cases h2 : t = 2
  · subst h2
    simp only [if_true]
    constructor
    · intro h
      split at h
      · simp at h
      · rename_i c r hr
        obtain ⟨hc, hb⟩ := (readField32_iff _ _ _).1 hr
        simp only [Option.some.injEq, Prod.mk.injEq] at h
        obtain ⟨⟨rfl, rfl⟩, rfl⟩ := h
        exact ⟨_, hb, Or.inr (Or.inr ⟨trivial, rfl, hc, rfl⟩)⟩
    · rintro ⟨field, rfl, ⟨h, _⟩ | ⟨h, _⟩ | ⟨_, rfl, hc, rfl⟩⟩
      · exact absurd h (by decide)
      · exact absurd h (by decide)
      · have := (readField32_iff (field32 c32 ++ rest) _ _).2 ⟨hc, rfl⟩
        rw [field32] at this
        simp only [this]
  · rw [if_neg h2]
    constructor
    · intro h; simp at h
    · rintro ⟨field, rfl, ⟨h, _⟩ | ⟨h, _⟩ | ⟨h, _⟩⟩
      · exact absurd h h0
      · exact absurd h h1
      · exact absurd h h2

/-- Reading, up to the check of the CRC. -/
theorem read_iff (skip : Bool) (buf rest : Bytes) (c : Canonical) :
    read skip buf = some (c, rest) ↔ ∃ tag body r, buf = body ++ r ∧ (tag = [] ∨ tag = [0xd8]) ∧
      IsBody tag body c ∧ checkCrc c.crcType skip body r = some ((c.crc16, c.crc32), rest) := by
  constructor
  · intro h
    unfold read at h
    split at h
    · simp at h
    split at h
    · simp at h
    rename_i initial r0 hlen
    split at h
    · simp at h
    rename_i hini
    unfold readFields at h
    split at h
    · simp at h
    rename_i tc r1 htc
    split at h
    · simp at h
    rename_i htl
    simp only [Option.bind_eq_bind, Option.bind_eq_some_iff, Prod.exists, readUint_iff] at h htc
    obtain ⟨bt, rfl, it⟩ := htc
    obtain ⟨num, _, ⟨bn, rfl, in_⟩, fl, r3, ⟨bf, rfl, if_⟩, h⟩ := h
    unfold readTail at h
    split at h
    · rename_i ct hh rr
      split at h
      · simp at h
      rename_i hsz
      simp only [Option.bind_eq_bind, Option.bind_eq_some_iff, Prod.exists, readData_iff, Option.pure_def,
        Option.some.injEq, Prod.mk.injEq] at h
      obtain ⟨data, r5, ⟨tag, p, he, htag, hp⟩, c16, c32, r6, hcrc, rfl, rfl⟩ := h
      rw [he] at hcrc
      have hform : initial :: (bt ++ (bn ++ (bf ++ ct :: (tag ++ (p ++ (data ++ r5)))))) =
          (initial :: bt ++ bn ++ bf ++ ct :: tag ++ p ++ data) ++ r5 := by simp
      rw [hform, List.take_left' (by simp only [List.length_append]; omega)] at hcrc
      refine ⟨tag, _, r5, by rw [he, hform], htag, ?_, hcrc⟩
      push Not at hini hsz
      have htlt : tc < 256 := by
        have hl : bt.length ≤ 2 := by
          simp only [List.length_append] at htl; omega
        obtain ⟨b, r, rfl, ⟨h1, _, rfl⟩ | ⟨k, hk, _, hl', rfl⟩⟩ := it
        · omega
        · have hk0 : 2 ^ k ≤ 1 := by simp only [List.length_cons] at hl; omega
          have := beValue_lt r
          rw [hl'] at this
          calc beValue r < 256 ^ 2 ^ k := this
            _ ≤ 256 ^ 1 := Nat.pow_le_pow_right (by decide) hk0
      refine ⟨initial, bt, bn, bf, p, rfl, ?_, ?_, ?_, in_, if_, hp⟩
      · exact (head_iff _ _).1 ⟨hini.1, hsz⟩
      · rw [UInt8.toNat_ofNat', Nat.mod_eq_of_lt (by simpa using htlt)]; exact it
      · simp only [List.length_append] at htl; omega
    · simp at h
  · rintro ⟨tag, body, r, rfl, htag, ⟨head, bt, bn, bf, p, hbody, hhead, it, htl, in_, if_, hp⟩, hcrc⟩
    have hp0 : p ≠ [] := by obtain ⟨b, rr, rfl, _⟩ := hp; simp
    have hform : body ++ r = head :: (bt ++ (bn ++ (bf ++ c.crcType :: (tag ++ (p ++ (c.data ++ r)))))) := by
      rw [hbody]; simp
    have hlen : 6 ≤ (body ++ r).length := by
      have l1 := isUint_ne_nil it
      have l2 := isUint_ne_nil in_
      have l3 := isUint_ne_nil if_
      have l4 : p.length ≠ 0 := by simpa using hp0
      rw [hform]
      simp only [List.length_append, List.length_cons]
      omega
    obtain ⟨hh1, hh2⟩ := (head_iff _ _).2 hhead
    have hrange : 5 ≤ arraySize c.crcType ∧ arraySize c.crcType ≤ 6 := by
      unfold arraySize; split_ifs <;> omega
    unfold read
    rw [if_neg (by omega), hform]
    simp only
    rw [if_neg (by push Not; exact ⟨hh1, by omega, by omega⟩)]
    unfold readFields
    rw [(readUint_iff _ _ _).2 ⟨bt, rfl, it⟩]
    simp only
    rw [if_neg (by simp only [List.length_append]; omega)]
    simp only [Option.bind_eq_bind, Option.bind_eq_some_iff, Prod.exists, readUint_iff]
    refine ⟨c.number, _, ⟨bn, rfl, in_⟩, c.flags, _, ⟨bf, rfl, if_⟩, ?_⟩
    obtain ⟨hh, rr, hhr⟩ : ∃ hh rr, tag ++ (p ++ (c.data ++ r)) = hh :: rr := by
      cases hq : tag ++ (p ++ (c.data ++ r)) with
      | nil => simp at hq; exact absurd hq.2.1 hp0
      | cons a b => exact ⟨a, b, rfl⟩
    rw [hhr]
    unfold readTail
    simp only
    rw [if_neg (by rw [hh2]; simp)]
    simp only [Option.bind_eq_bind, Option.bind_eq_some_iff, Prod.exists, readData_iff, Option.pure_def,
        Option.some.injEq, Prod.mk.injEq]
    refine ⟨c.data, r, ⟨tag, p, hhr.symm, htag, hp⟩, c.crc16, c.crc32, rest, ?_, ?_, rfl⟩
    · rw [← hhr, ← hform, List.take_left' (by simp)]
      exact hcrc
    · rw [UInt8.ofNat_toNat]

/-- C37, decoding: it succeeds exactly when the buffer starts with a canonical block, CRC included, and
returns its fields. The byte 0xd8 before the data is tolerated. -/
theorem C37_decode_iff (buf rest : Bytes) (c : Canonical) :
    read false buf = some (c, rest) ↔
      ∃ tag bs, buf = bs ++ rest ∧ (tag = [] ∨ tag = [0xd8]) ∧ IsCanonical tag bs c := by
  rw [read_iff]
  constructor
  · rintro ⟨tag, body, r, rfl, htag, hb, hc⟩
    obtain ⟨crc, rfl, hc'⟩ := (checkCrc_iff _ _ _ _ _).1 hc
    exact ⟨tag, body ++ crc, by simp, htag, body, crc, rfl, hb, hc'⟩
  · rintro ⟨tag, bs, rfl, htag, body, crc, rfl, hb, hc⟩
    exact ⟨tag, body, crc ++ rest, by simp, htag, hb, (checkCrc_iff _ _ _ _ _).2 ⟨crc, rfl, hc⟩⟩

/-- C37, decoding without verifying the CRC: the same with any value in the CRC field. -/
theorem C37_decode_unchecked_iff (buf rest : Bytes) (c : Canonical) :
    read true buf = some (c, rest) ↔
      ∃ tag bs, buf = bs ++ rest ∧ (tag = [] ∨ tag = [0xd8]) ∧ IsCanonicalUnchecked tag bs c := by
  rw [read_iff]
  constructor
  · rintro ⟨tag, body, r, rfl, htag, hb, hc⟩
    obtain ⟨crc, rfl, hc'⟩ := (checkCrc_skip_iff _ _ _ _ _ _).1 hc
    exact ⟨tag, body ++ crc, by simp, htag, body, crc, rfl, hb, hc'⟩
  · rintro ⟨tag, bs, rfl, htag, body, crc, rfl, hb, hc⟩
    exact ⟨tag, body, crc ++ rest, by simp, htag, hb, (checkCrc_skip_iff _ _ _ _ _ _).2 ⟨crc, rfl, hc⟩⟩

theorem isStringHead_encode (n : Nat) (hn : n < 2 ^ 64) :
    IsStringHead (byteStringHead n) n ∧ (byteStringHead n).length = (encodeU64 n).length := by
  have h := isUint_encode n hn
  unfold byteStringHead
  cases he : encodeU64 n with
  | nil => rw [he] at h; exact absurd rfl (isUint_ne_nil h)
  | cons b r =>
    rw [he] at h
    have hb := isUint_head h
    refine ⟨⟨_, r, rfl, b, ?_, h⟩, by simp⟩
    have : ∀ k < 28, (UInt8.ofNat k).toNat + 0x40 = (UInt8.ofNat k ||| 0x40).toNat := by decide +kernel
    have := this b.toNat hb
    rwa [UInt8.ofNat_toNat] at this

theorem serializeBody_isBody (c : Canonical) (hr : InRange c) : IsBody [] (serializeBody c) c := by
  obtain ⟨h1, h2, h3⟩ := hr
  refine ⟨UInt8.ofNat (4 <<< 5 ||| arraySize c.crcType), _, _, _, _, ?_, ?_,
    isUint_encode _ (by have := c.typeCode.toNat_lt; omega), ?_,
    isUint_encode _ h1, isUint_encode _ h2, (isStringHead_encode _ h3).1⟩
  · simp [serializeBody]
  · unfold arraySize
    by_cases h : c.crcType = 0 <;> simp [h]
  · have := c.typeCode.toNat_lt
    rw [encode_length]; unfold encodingSizeClassic
    split_ifs <;> omega

/-- Serialising a block with a known CRC type gives a canonical block of it, with the CRC members set;
any other CRC type makes it return 0. -/
theorem serialize_spec (c : Canonical) (hr : InRange c) :
    (c.crcType = 0 ∨ c.crcType = 1 ∨ c.crcType = 2 → ∃ crc c16 c32,
      serialize c = some (serializeBody c ++ crc, { c with crc16 := c16, crc32 := c32 }) ∧
      IsCrcField c.crcType (serializeBody c) crc (c16, c32) ∧ crcSize c.crcType = some crc.length ∧
      IsCanonical [] (serializeBody c ++ crc) { c with crc16 := c16, crc32 := c32 }) ∧
    (¬ (c.crcType = 0 ∨ c.crcType = 1 ∨ c.crcType = 2) → serialize c = none) := by
  have hc := appendCrc_spec c.crcType (serializeBody c)
  constructor
  · intro h
    obtain ⟨crc, ⟨c16, c32⟩, hcrc, happ, hsize⟩ := hc.1 h
    refine ⟨crc, c16, c32, by rw [serialize, happ], hcrc, hsize, serializeBody c, crc, rfl, ?_, hcrc⟩
    have := serializeBody_isBody c hr
    exact this
  · intro h
    rw [serialize, hc.2 h]

theorem size_eq (c : Canonical) (hr : InRange c) (crc : Bytes) (h : crcSize c.crcType = some crc.length) :
    serializationSize c = some (serializeBody c ++ crc).length := by
  have sz : ∀ v, v < 2 ^ 64 → encodingSize v = some (encodeU64 v).length := fun v hv => by
    rw [encodingSize_eq v hv, encode_length]
  unfold serializationSize
  rw [sz _ (by have := c.typeCode.toNat_lt; omega), sz _ hr.1, sz _ hr.2.1, sz _ hr.2.2, h]
  simp only [Option.bind_eq_bind, Option.bind_some, Option.pure_def, Option.some.injEq, serializeBody,
    List.length_cons, List.length_append, (isStringHead_encode _ hr.2.2).2]
  omega

/-- C37, round trip: a block whose members fit their types and whose CRC type is known is written in
exactly the announced number of bytes, which decode to the same members, with and without verifying the
CRC, whatever follows. -/
theorem C37_round_trip (c : Canonical) (hr : InRange c)
    (hc : c.crcType = 0 ∨ c.crcType = 1 ∨ c.crcType = 2) :
    ∃ bs c16 c32, serialize c = some (bs, { c with crc16 := c16, crc32 := c32 }) ∧
      IsCanonical [] bs { c with crc16 := c16, crc32 := c32 } ∧
      serializationSize c = some bs.length ∧
      ∀ skip rest, read skip (bs ++ rest) = some ({ c with crc16 := c16, crc32 := c32 }, rest) := by
  obtain ⟨crc, c16, c32, hs, hcrc, hsz, hp⟩ := (serialize_spec c hr).1 hc
  refine ⟨_, c16, c32, hs, hp, size_eq c hr crc hsz, fun skip rest => ?_⟩
  cases skip with
  | false => exact (C37_decode_iff _ _ _).2 ⟨[], _, rfl, Or.inl rfl, hp⟩
  | true =>
    refine (C37_decode_unchecked_iff _ _ _).2 ⟨[], _, rfl, Or.inl rfl, serializeBody c, crc, rfl,
      serializeBody_isBody c hr, ?_⟩
    rcases hcrc with ⟨h, rfl, e⟩ | ⟨h, rfl, e⟩ | ⟨h, rfl, e⟩ <;> simp only [Prod.mk.injEq] at e <;>
      obtain ⟨rfl, rfl⟩ := e
    · exact Or.inl ⟨h, rfl, rfl, rfl⟩
    · exact Or.inr (Or.inl ⟨h, rfl, crc16_lt _, rfl⟩)
    · exact Or.inr (Or.inr ⟨h, rfl, crc32_lt _, rfl⟩)

/-- Finding: RFC 9171 allows the data to carry the CBOR tag 24, which is encoded as the two bytes
0xd8 0x18. The decoder skips only the first of them, so that it refuses every such block. -/
theorem C37_tag24_refused (skip : Bool) (bs rest : Bytes) (c : Canonical) (h : IsCanonicalUnchecked [0xd8, 0x18] bs c) :
    read skip (bs ++ rest) = none := by
  obtain ⟨body, crc, rfl, ⟨head, bt, bn, bf, p, hbody, hhead, it, htl, in_, if_, hp⟩, _⟩ := h
  obtain ⟨hh1, hh2⟩ := (head_iff _ _).2 hhead
  have hform : body ++ crc ++ rest = head :: (bt ++ (bn ++ (bf ++ c.crcType :: 0xd8 :: 0x18 ::
      (p ++ (c.data ++ (crc ++ rest)))))) := by
    rw [hbody]; simp
  have hrange : 5 ≤ arraySize c.crcType ∧ arraySize c.crcType ≤ 6 := by
    unfold arraySize; split_ifs <;> omega
  unfold read
  split
  · rfl
  rw [hform]
  simp only
  rw [if_neg (by push Not; exact ⟨hh1, by omega, by omega⟩)]
  unfold readFields
  rw [(readUint_iff _ _ _).2 ⟨bt, rfl, it⟩]
  simp only
  rw [if_neg (by simp only [List.length_append]; omega)]
  rw [(readUint_iff _ _ _).2 ⟨bn, rfl, in_⟩]
  simp only [Option.bind_eq_bind, Option.bind_some]
  rw [(readUint_iff _ _ _).2 ⟨bf, rfl, if_⟩]
  simp only [Option.bind_some]
  unfold readTail
  simp only
  rw [if_neg (by rw [hh2]; simp)]
  have : readData (0xd8 :: 0x18 :: (p ++ (c.data ++ (crc ++ rest)))) = none := by
    simp only [readData, readByteString, if_true]
    rw [if_pos (by decide)]
  rw [this]
  rfl

/-- C36 for canonical blocks: an accepted block with a CRC ends in the byte string holding exactly the
CRC of the block with that field zeroed. -/
theorem C36_canonical_crc (buf rest : Bytes) (c : Canonical) (h : read false buf = some (c, rest))
    (hc : c.crcType ≠ 0) :
    (c.crcType = 1 ∧ ∃ body, buf = body ++ 0x42 :: toBe 2 (Bpv7Crc.crc16 (body ++ [0x42, 0, 0])) ++ rest) ∨
    (c.crcType = 2 ∧
      ∃ body, buf = body ++ 0x44 :: toBe 4 (Bpv7Crc.crc32 (body ++ [0x44, 0, 0, 0, 0])) ++ rest) := by
  obtain ⟨_, _, rfl, _, body, crc, rfl, _, hcrc⟩ := (C37_decode_iff _ _ _).1 h
  rcases hcrc with ⟨h0, _⟩ | ⟨h1, rfl, _⟩ | ⟨h2, rfl, _⟩
  · exact absurd h0 hc
  · exact Or.inl ⟨h1, _, rfl⟩
  · exact Or.inr ⟨h2, _, rfl⟩

/-- C36 for canonical blocks, corruption: a block is written with a CRC, then one byte behind the CRC
type is changed. The decoder cannot accept it with the same extent. -/
theorem C36_canonical_single_byte_partial (c q : Canonical) (hr : InRange c) (bs : Bytes) (c1 : Canonical)
    (hs : serialize c = some (bs, c1)) (hc : c.crcType ≠ 0)
    (pre post : Bytes) (a b : UInt8) (hbs : bs = pre ++ a :: post) (hab : a ≠ b)
    (hpos : 2 + (encodeU64 c.typeCode.toNat).length + (encodeU64 c.number).length +
      (encodeU64 c.flags).length ≤ pre.length) (rest : Bytes) :
    read false (pre ++ b :: post ++ rest) ≠ some (q, rest) := by
  intro hread
  have hct : c.crcType = 0 ∨ c.crcType = 1 ∨ c.crcType = 2 := by
    by_contra hn
    rw [(serialize_spec c hr).2 hn] at hs
    simp at hs
  obtain ⟨crc, c16, c32, hs', hcrc, _, _⟩ := (serialize_spec c hr).1 hct
  rw [hs] at hs'
  simp only [Option.some.injEq, Prod.mk.injEq] at hs'
  obtain ⟨hbs', -⟩ := hs'
  obtain ⟨tag, bs', hb', _, body', crc', rfl, ⟨head, bt, bn, bf, p, hbody, _, it, _, in_, if_, _⟩, hcrc'⟩ :=
    (C37_decode_iff _ _ _).1 hread
  have hb'' := List.append_cancel_right hb'
  have htypes : c.crcType = q.crcType := by
    rw [hbs'] at hbs
    have hl : 2 + (encodeU64 c.typeCode.toNat).length + (encodeU64 c.number).length +
      (encodeU64 c.flags).length = (UInt8.ofNat (4 <<< 5 ||| arraySize c.crcType) ::
        (encodeU64 c.typeCode.toNat ++ (encodeU64 c.number ++ (encodeU64 c.flags ++ [c.crcType])))).length := by
      simp only [List.length_cons, List.length_append, List.length_nil]; omega
    have hform : serializeBody c ++ crc = (UInt8.ofNat (4 <<< 5 ||| arraySize c.crcType) ::
        (encodeU64 c.typeCode.toNat ++ (encodeU64 c.number ++ (encodeU64 c.flags ++ [c.crcType])))) ++
        (byteStringHead c.data.length ++ c.data ++ crc) := by
      simp [serializeBody]
    obtain ⟨pre', hpre⟩ : ∃ pre', pre = (UInt8.ofNat (4 <<< 5 ||| arraySize c.crcType) ::
        (encodeU64 c.typeCode.toNat ++ (encodeU64 c.number ++ (encodeU64 c.flags ++ [c.crcType])))) ++ pre' := by
      rw [hl] at hpos
      generalize (UInt8.ofNat (4 <<< 5 ||| arraySize c.crcType) ::
        (encodeU64 c.typeCode.toNat ++ (encodeU64 c.number ++ (encodeU64 c.flags ++ [c.crcType])))) = hd at hpos hform
      rw [hform] at hbs
      have := congrArg (List.take hd.length) hbs
      rw [List.take_left' rfl, List.take_append_of_le_length hpos] at this
      have h2 := List.take_append_drop hd.length pre
      rw [← this] at h2
      exact ⟨pre.drop hd.length, h2.symm⟩
    rw [hpre, hbody] at hb''
    simp only [List.cons_append, List.append_assoc, List.cons.injEq, List.nil_append] at hb''
    have e := hb''.2
    have r1 := readUint_encode c.typeCode.toNat (by have := c.typeCode.toNat_lt; omega)
      (encodeU64 c.number ++ (encodeU64 c.flags ++ c.crcType :: (pre' ++ b :: post)))
    rw [e, (readUint_iff _ _ _).2 ⟨bt, rfl, it⟩] at r1
    simp only [Option.some.injEq, Prod.mk.injEq] at r1
    have r2 := readUint_encode c.number hr.1 (encodeU64 c.flags ++ c.crcType :: (pre' ++ b :: post))
    rw [← r1.2, (readUint_iff _ _ _).2 ⟨bn, rfl, in_⟩] at r2
    simp only [Option.some.injEq, Prod.mk.injEq] at r2
    have r3 := readUint_encode c.flags hr.2.1 (c.crcType :: (pre' ++ b :: post))
    rw [← r2.2, (readUint_iff _ _ _).2 ⟨bf, rfl, if_⟩] at r3
    simp only [Option.some.injEq, Prod.mk.injEq, List.cons.injEq] at r3
    exact r3.2.1.symm
  rw [← htypes] at hcrc'
  exact field_single _ _ _ _ _ _ _ hc hcrc hcrc' pre a b post hab (hbs'.symm.trans hbs) hb''.symm

/-- What is missing from `C36_canonical_single_byte_partial` is false: when the corrupted byte is the
length of the data, bytes of the data can act as the CRC. Here the length 5 becomes 2; the block is
accepted with the data cut short, and the rest of the data is taken for what follows the block. -/
theorem C36_canonical_moved_end :
    ∃ (c c1 q : Canonical) (bs rest : Bytes), serialize c = some (bs, c1) ∧ c.crcType = 1 ∧
      bs[5]? = some 0x45 ∧ read false (bs.set 5 0x42) = some (q, rest) ∧
      c.data = [7, 8, 0x42, 250, 250] ∧ q.data = [7, 8] := by
  refine ⟨⟨1, 1, 0, 1, [7, 8, 0x42, 250, 250], 0, 0⟩, ⟨1, 1, 0, 1, [7, 8, 0x42, 250, 250], 39517, 0⟩,
    ⟨1, 1, 0, 1, [7, 8], 64250, 0⟩, [134, 1, 1, 0, 1, 69, 7, 8, 66, 250, 250, 66, 154, 93], [66, 154, 93], ?_⟩
  decide +kernel

/-- A payload block with a CRC-16 meets the hypotheses above, and one with the tag 24 those of
`C37_tag24_refused`. -/
example : InRange ⟨1, 1, 0, 1, [7, 8, 0x42, 250, 250], 0, 0⟩ ∧
    (serialize ⟨1, 1, 0, 1, [7, 8, 0x42, 250, 250], 0, 0⟩).isSome ∧
    IsCanonicalUnchecked [0xd8, 0x18] [0x85, 1, 1, 0, 0, 0xd8, 0x18, 0x41, 9] ⟨1, 1, 0, 0, [9], 0, 0⟩ := by
  have h : ∀ v : UInt8, v.toNat < 24 → IsUint [v] v.toNat := fun v hv => ⟨v, [], rfl, Or.inl ⟨hv, rfl, rfl⟩⟩
  refine ⟨by simp [InRange], by decide +kernel, [0x85, 1, 1, 0, 0, 0xd8, 0x18, 0x41, 9], [], rfl,
    ⟨0x85, [1], [1], [0], [0x41], rfl, rfl, h 1 (by decide), by simp, h 1 (by decide), h 0 (by decide),
      0x41, [], rfl, 1, rfl, h 1 (by decide)⟩, Or.inl ⟨rfl, rfl, rfl, rfl⟩⟩

/-! ### Extension blocks -/

/-- C52, reading the content: the class is that of the type code, and the data is exactly one
encoding of the content. -/
theorem C52_read_iff (t : UInt8) (data : Bytes) (x : Ext) :
    Ext.read t data = some x ↔ t = x.typeCode ∧ IsExt x data := by
  have hu : ∀ v, readUint data = some (v, []) ↔ IsUint data v := fun v => by
    rw [readUint_iff]
    constructor
    · rintro ⟨p, rfl, h⟩; simpa using h
    · intro h; exact ⟨data, by simp, h⟩
  have he : ∀ e, read7 data = some (e, []) ↔ IsEid7 data e := fun e => by
    rw [C34_bpv7_decode_iff]
    constructor
    · rintro ⟨p, rfl, h⟩; simpa using h
    · intro h; exact ⟨data, by simp, h⟩
  have ht : ∀ a b, readTwo data = some ((a, b), []) ↔ IsPair data a b := fun a b => by
    rw [readTwo_iff]
    constructor
    · rintro ⟨p, rfl, h⟩; simpa using h
    · intro h; exact ⟨data, by simp, h⟩
  unfold Ext.read
  constructor
  · intro h
    split at h
    · rename_i ht6
      split at h
      · rename_i e hr
        simp only [Option.some.injEq] at h; subst h
        exact ⟨ht6, (he _).1 hr⟩
      · simp at h
    split at h
    · rename_i ht7
      split at h
      · rename_i e hr
        simp only [Option.some.injEq] at h; subst h
        exact ⟨ht7, (hu _).1 hr⟩
      · simp at h
    split at h
    · rename_i ht10
      split at h
      · rename_i l c hr
        simp only [Option.some.injEq] at h; subst h
        exact ⟨ht10, (ht _ _).1 hr⟩
      · simp at h
    split at h
    · rename_i ht13
      split at h
      · rename_i e hr
        simp only [Option.some.injEq] at h; subst h
        exact ⟨ht13, (hu _).1 hr⟩
      · simp at h
    · simp at h
  · rintro ⟨rfl, h⟩
    cases x with
    | previousNode e => simp only [Ext.typeCode, if_true]; rw [(he e).2 h]
    | bundleAge ms =>
      simp only [Ext.typeCode]
      rw [if_neg (by decide), if_pos trivial, (hu ms).2 h]
    | hopCount l c =>
      simp only [Ext.typeCode]
      rw [if_neg (by decide), if_neg (by decide), if_pos trivial, (ht l c).2 h]
    | priority p =>
      simp only [Ext.typeCode]
      rw [if_neg (by decide), if_neg (by decide), if_neg (by decide), if_pos trivial, (hu p).2 h]

/-- The announced size is that of the data written, which is an encoding of the content. -/
theorem write_spec (x : Ext) (hx : Ext.InRange x) :
    ∃ n, x.size = some n ∧ (x.write n).length = n ∧ n < 2 ^ 64 ∧ IsExt x (x.write n) := by
  have hsz : ∀ v, v < 2 ^ 64 → encodingSize v = some (encodeU64 v).length := fun v hv => by
    rw [encodingSize_eq v hv, encode_length]
  have hle : ∀ v, (encodeU64 v).length ≤ 9 := fun v => by
    rw [encode_length]; unfold encodingSizeClassic; split_ifs <;> omega
  cases x with
  | previousNode e =>
    obtain ⟨h1, h2, h3⟩ := hx
    obtain ⟨h4, h5, _⟩ := C34_bpv7_round_trip e h1 h2 h3
    have h6 := (C34_bpv7_bounded e (serialize7 e).length).2 le_rfl
    have h7 := C34_bpv7_length _ _ h4
    exact ⟨_, h5, by rw [Ext.write, h6], by omega, by rw [Ext.write, h6]; exact h4⟩
  | bundleAge ms =>
    have h := encodeClassic_eq ms (encodeU64 ms).length
    rw [if_neg (by omega)] at h
    have := hle ms
    exact ⟨_, hsz ms hx, by rw [Ext.write, h], by omega, by rw [Ext.write, h]; exact isUint_encode ms hx⟩
  | hopCount l c =>
    obtain ⟨h1, h2⟩ := hx
    obtain ⟨h4, h5, _⟩ := C06_two_round_trip l c h1 h2
    have h6 := (C06_two_bounded l c (twoSerialize l c).length).2 le_rfl
    have h7 : (twoSerialize l c).length < 2 ^ 64 := by
      have := hle l
      have := hle c
      simp only [twoSerialize, List.length_cons, List.length_append]; omega
    refine ⟨_, h5, by rw [Ext.write, h6], h7, ?_⟩
    rw [Ext.write, h6]
    exact ⟨_, Or.inl rfl, _, _, rfl, isUint_encode l h1, _, [], by simp, isUint_encode c h2, rfl⟩
  | priority p =>
    have h := encodeClassic_eq p (encodeU64 p).length
    rw [if_neg (by omega)] at h
    have := hle p
    exact ⟨_, hsz p hx, by rw [Ext.write, h], by omega, by rw [Ext.write, h]; exact isUint_encode p hx⟩

/-- Recomputing the CRC over a block whose CRC field holds anything gives the block with its CRC. -/
theorem recompute_spec (c : Canonical) (body field : Bytes)
    (h : (c.crcType = 0 ∧ field = [] ∧ c.crc16 = 0 ∧ c.crc32 = 0) ∨ (c.crcType = 1 ∧ field.length = 3) ∨
      (c.crcType = 2 ∧ field.length = 5)) :
    ∃ crc c16 c32, recompute c (body ++ field) = (body ++ crc, { c with crc16 := c16, crc32 := c32 }) ∧
      IsCrcField c.crcType body crc (c16, c32) := by
  have z16 : field16 0 = [0x42, 0, 0] := by decide
  have z32 : field32 0 = [0x44, 0, 0, 0, 0] := by decide
  unfold recompute
  rcases h with ⟨h, rfl, e1, e2⟩ | ⟨h, hl⟩ | ⟨h, hl⟩
  · rw [if_neg (by rw [h]; decide), if_neg (by rw [h]; decide)]
    refine ⟨[], 0, 0, ?_, Or.inl ⟨h, rfl, rfl⟩⟩
    cases c; simp_all
  · rw [if_pos h]
    have ht : (body ++ field).take ((body ++ field).length - 3) = body :=
      List.take_left' (by simp only [List.length_append]; omega)
    simp only [ht, z16]
    exact ⟨_, _, _, rfl, Or.inr (Or.inl ⟨h, rfl, rfl⟩)⟩
  · rw [if_neg (by rw [h]; decide), if_pos h]
    have ht : (body ++ field).take ((body ++ field).length - 5) = body :=
      List.take_left' (by simp only [List.length_append]; omega)
    simp only [ht, z32]
    exact ⟨_, _, _, rfl, Or.inr (Or.inr ⟨h, rfl, rfl⟩)⟩

theorem splice (a b d f : Bytes) (h : d.length = b.length) :
    ((a ++ b) ++ f).take a.length ++ (d ++ ((a ++ b) ++ f).drop (a.length + d.length)) = (a ++ d) ++ f := by
  rw [h]
  simp

/-- C52, round trip: whatever the output memory held, an extension block is written as a canonical
block that decodes to the same number, flags, CRC type and content. -/
theorem C52_round_trip (x : Ext) (hx : Ext.InRange x) (number flags : Nat) (hn : number < 2 ^ 64)
    (hf : flags < 2 ^ 64) (t : UInt8) (ht : t = 0 ∨ t = 1 ∨ t = 2) (mem : Bytes)
    (hm : ∀ n, x.size = some n → n ≤ mem.length) :
    ∃ bs c, x.serialize number flags t mem = some (bs, c) ∧ IsCanonical [] bs c ∧
      serializationSize c = some bs.length ∧
      c.typeCode = x.typeCode ∧ c.number = number ∧ c.flags = flags ∧ c.crcType = t ∧
      ∀ rest, read false (bs ++ rest) = some (c, rest) ∧ Ext.read c.typeCode c.data = some x := by
  obtain ⟨n, hsz, hwl, hn64, hext⟩ := write_spec x hx
  have hmn := hm n hsz
  have hsp : (mem.take n).length = n := by rw [List.length_take]; omega
  obtain ⟨field, c0, hnull, hc0, hfield⟩ : ∃ field c0,
      serializeNull ⟨x.typeCode, number, flags, t, mem.take n, 0, 0⟩ =
        some (serializeBody ⟨x.typeCode, number, flags, t, mem.take n, 0, 0⟩ ++ field, c0) ∧
      c0 = ⟨x.typeCode, number, flags, t, mem.take n, 0, 0⟩ ∧
      ((t = 0 ∧ field = []) ∨ (t = 1 ∧ field.length = 3) ∨ (t = 2 ∧ field.length = 5)) := by
    unfold serializeNull
    rcases ht with rfl | rfl | rfl
    · exact ⟨[], _, by simp, rfl, Or.inl ⟨rfl, rfl⟩⟩
    · exact ⟨field16 0, _, by simp, rfl, Or.inr (Or.inl ⟨rfl, rfl⟩)⟩
    · exact ⟨field32 0, _, by simp, rfl, Or.inr (Or.inr ⟨rfl, rfl⟩)⟩
  subst hc0
  let front := UInt8.ofNat (4 <<< 5 ||| arraySize t) :: (encodeU64 x.typeCode.toNat ++ (encodeU64 number ++
    (encodeU64 flags ++ t :: byteStringHead n)))
  have hbody : ∀ data : Bytes, data.length = n → ∀ a b, serializeBody ⟨x.typeCode, number, flags, t, data, a, b⟩ =
      front ++ data := by
    intro data hd a b
    simp [serializeBody, front, hd]
  set d := x.write n with hd
  obtain ⟨crc, c16, c32, hrec, hcrc⟩ := recompute_spec ⟨x.typeCode, number, flags, t, d, 0, 0⟩ (front ++ d) field
    (by rcases hfield with ⟨h1, h2⟩ | ⟨h1, h2⟩ | ⟨h1, h2⟩
        · exact Or.inl ⟨h1, h2, rfl, rfl⟩
        · exact Or.inr (Or.inl ⟨h1, h2⟩)
        · exact Or.inr (Or.inr ⟨h1, h2⟩))
  have hser : x.serialize number flags t mem =
      some (front ++ d ++ crc, ⟨x.typeCode, number, flags, t, d, c16, c32⟩) := by
    unfold Ext.serialize
    rw [hsz]
    simp only [Option.bind_eq_bind, Option.bind_some]
    rw [if_neg (by omega), hnull]
    simp only [Option.bind_some, Option.pure_def, Option.some.injEq]
    rw [hbody _ hsp, ← hd]
    have hoff : (front ++ mem.take n).length - n = front.length := by
      rw [List.length_append, hsp]; omega
    rw [hoff, splice _ _ _ _ (hwl.trans hsp.symm),
      show (mem.take n).drop d.length = [] from List.drop_of_length_le (by omega), List.append_nil]
    exact hrec
  have hr : InRange ⟨x.typeCode, number, flags, t, d, c16, c32⟩ := ⟨hn, hf, by simp only; omega⟩
  have hisb := serializeBody_isBody _ hr
  rw [hbody _ hwl] at hisb
  have hcan : IsCanonical [] (front ++ d ++ crc) ⟨x.typeCode, number, flags, t, d, c16, c32⟩ :=
    ⟨_, crc, rfl, hisb, hcrc⟩
  refine ⟨_, _, hser, hcan, ?_, rfl, rfl, rfl, rfl, fun rest =>
    ⟨(C37_decode_iff _ _ _).2 ⟨[], _, rfl, Or.inl rfl, hcan⟩, (C52_read_iff _ _ _).2 ⟨rfl, hext⟩⟩⟩
  have hcs : crcSize t = some crc.length := by
    rcases hcrc with ⟨h, rfl, _⟩ | ⟨h, rfl, _⟩ | ⟨h, rfl, _⟩ <;> (simp only at h; subst h; simp [crcSize])
  have := size_eq ⟨x.typeCode, number, flags, t, d, c16, c32⟩ hr crc hcs
  rw [hbody _ hwl] at this
  exact this

/-- C52, update in place: a received hop count block is rewritten without moving anything exactly when
the new content has the length of the old one, and is then a block of the same number, flags and CRC
type holding the new content, with its CRC. -/
theorem C52_hop_in_place (c : Canonical) (tag body crc : Bytes) (htag : tag = [] ∨ tag = [0xd8])
    (ht : c.typeCode = 10) (hb : IsBody tag body c) (hc : IsCrcField c.crcType body crc (c.crc16, c.crc32))
    (limit count : Nat) (hl : limit < 2 ^ 64) (hk : count < 2 ^ 64) :
    (c.data.length ≠ (twoSerialize limit count).length →
      hopInPlace c limit count (body ++ crc) (body.length - c.data.length) = none) ∧
    (c.data.length = (twoSerialize limit count).length →
      ∃ bs c', hopInPlace c limit count (body ++ crc) (body.length - c.data.length) = some (bs, c') ∧
        bs.length = (body ++ crc).length ∧
        c'.number = c.number ∧ c'.flags = c.flags ∧ c'.crcType = c.crcType ∧
        ∀ rest, read false (bs ++ rest) = some (c', rest) ∧
          Ext.read c'.typeCode c'.data = some (.hopCount limit count)) := by
  constructor
  · intro hne
    simp only [hopInPlace]
    rw [if_neg hne]
  · intro heq
    obtain ⟨head, bt, bn, bf, p, rfl, hhead, it, htl, in_, if_, hp⟩ := hb
    set d := twoSerialize limit count with hd
    have hfl : (c.crcType = 0 ∧ crc = [] ∧ c.crc16 = 0 ∧ c.crc32 = 0) ∨ (c.crcType = 1 ∧ crc.length = 3) ∨
        (c.crcType = 2 ∧ crc.length = 5) := by
      rcases hc with ⟨h, rfl, e⟩ | ⟨h, rfl, e⟩ | ⟨h, rfl, e⟩
      · simp only [Prod.mk.injEq] at e; exact Or.inl ⟨h, rfl, e.1, e.2⟩
      · exact Or.inr (Or.inl ⟨h, by simp⟩)
      · exact Or.inr (Or.inr ⟨h, by simp⟩)
    generalize hfr : head :: bt ++ bn ++ bf ++ c.crcType :: tag ++ p = front at hc
    obtain ⟨crc', c16, c32, hrec, hcrc⟩ :=
      recompute_spec { c with data := d, typeCode := 10 } (front ++ d) crc hfl
    have hoff : (front ++ c.data).length - c.data.length = front.length := by
      rw [List.length_append]; omega
    have hres : hopInPlace c limit count (front ++ c.data ++ crc)
        ((front ++ c.data).length - c.data.length) =
        some (front ++ d ++ crc', { c with data := d, typeCode := 10, crc16 := c16, crc32 := c32 }) := by
      simp only [hopInPlace]
      rw [← hd, if_pos heq, hoff, splice _ _ _ _ heq.symm, hrec]
    have hcan : IsCanonical tag (front ++ d ++ crc')
        { c with data := d, typeCode := 10, crc16 := c16, crc32 := c32 } := by
      refine ⟨front ++ d, crc', rfl, ⟨head, bt, bn, bf, p, ?_, hhead, ?_, htl, in_, if_, ?_⟩, hcrc⟩
      · rw [← hfr]
      · simp only; rw [← ht]; exact it
      · simp only; rw [← heq]; exact hp
    have hcl : crc'.length = crc.length := by
      rcases hcrc with ⟨h, rfl, _⟩ | ⟨h, rfl, _⟩ | ⟨h, rfl, _⟩ <;>
        rcases hc with ⟨h', rfl, _⟩ | ⟨h', rfl, _⟩ | ⟨h', rfl, _⟩ <;>
        first | (simp; done) | (simp only at h; rw [h] at h'; exact absurd h' (by decide))
    refine ⟨_, _, hres, ?_, rfl, rfl, rfl, fun rest =>
      ⟨(C37_decode_iff _ _ _).2 ⟨tag, _, rfl, htag, hcan⟩, (C52_read_iff _ _ _).2 ⟨rfl, ?_⟩⟩⟩
    · simp only [List.length_append]; omega
    · exact ⟨_, Or.inl rfl, _, _, rfl, isUint_encode _ hl, _, [], by simp, isUint_encode _ hk, rfl⟩

/-- A hop count block of limit 30 with CRC-32C: the count 22 can be updated to 23 in place but not to
24, which takes one more byte. -/
example : (Ext.serialize (.hopCount 30 22) 2 0 2 (List.replicate 20 9)).isSome ∧
    ∃ c body crc, IsBody [] body c ∧ IsCrcField c.crcType body crc (c.crc16, c.crc32) ∧ c.typeCode = 10 ∧
      c.data.length = (twoSerialize 30 23).length ∧ c.data.length ≠ (twoSerialize 30 24).length := by
  refine ⟨by decide +kernel, ⟨10, 2, 0, 0, [130, 24, 30, 22], 0, 0⟩, _, [],
    serializeBody_isBody _ (by simp [InRange]), Or.inl ⟨rfl, rfl, rfl⟩, rfl, ?_⟩
  decide +kernel

end Hdtn.Bpv7Canonical
