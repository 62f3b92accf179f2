import Verif.Bpv7Primary.Spec
import Verif.Cbhe.Props

/-!
C35 (the BPv7 primary block survives the wire) and the primary block half of C36.
-/

namespace Hdtn.Bpv7Primary

open Hdtn.HashMap16 Hdtn.Cbor Hdtn.Cbor.Spec Hdtn.Cbhe Hdtn.Cbhe.Spec Hdtn.Bpv7Crc Spec

theorem isFragment_iff (n : Nat) : isFragment n = true ↔ n % 2 = 1 := by
  unfold isFragment
  rw [Nat.and_one_is_mod]
  have := Nat.mod_two_eq_zero_or_one n
  rcases this with h | h <;> simp [h]

theorem arraySize_eq (p : Primary) : arraySize p.flags p.crcType = elements p := by
  unfold arraySize elements
  have h := isFragment_iff p.flags
  by_cases h1 : p.flags % 2 = 1
  · rw [h.2 h1]; by_cases h2 : p.crcType = 0 <;> simp [h1, h2]
  · rw [show isFragment p.flags = false by simpa using mt h.1 h1]
    by_cases h2 : p.crcType = 0 <;> simp [h1, h2]

theorem head_iff (b : UInt8) (n : Nat) (h8 : 8 ≤ n) (h11 : n ≤ 11) :
    (b >>> 5 = 4 ∧ (b &&& 0x1f).toNat = n) ↔ b.toNat = 0x80 + n := by
  have : ∀ k < 256, ∀ n < 12, 8 ≤ n →
      ((UInt8.ofNat k >>> 5 = 4 ∧ (UInt8.ofNat k &&& 0x1f).toNat = n) ↔ (UInt8.ofNat k).toNat = 0x80 + n) := by
    decide +kernel
  have h := this b.toNat b.toNat_lt n (by omega) h8
  rwa [UInt8.ofNat_toNat] at h

theorem elements_range (p : Primary) : 8 ≤ elements p ∧ elements p ≤ 11 := by
  unfold elements
  constructor <;> split_ifs <;> omega

theorem readFrag_iff (old : Primary) (flags : Nat) (buf : Bytes) (o t : Nat) (rest : Bytes) :
    readFrag old flags buf = some ((o, t), rest) ↔
      ∃ frag, buf = frag ++ rest ∧ (flags % 2 = 1 → IsUints frag [o, t]) ∧
        (flags % 2 ≠ 1 → frag = [] ∧ o = old.fragOffset ∧ t = old.totalAdu) := by
  unfold readFrag
  by_cases h : flags % 2 = 1
  · rw [if_pos ((isFragment_iff _).2 h)]
    simp only [Option.bind_eq_bind, Option.bind_eq_some_iff, Prod.exists, Option.pure_def,
      Option.some.injEq, Prod.mk.injEq, readUint_iff, IsUints]
    constructor
    · rintro ⟨a, r1, ⟨p1, rfl, h1⟩, b, r2, ⟨p2, rfl, h2⟩, ⟨rfl, rfl⟩, rfl⟩
      exact ⟨p1 ++ p2, by simp, fun _ => ⟨p1, p2, rfl, h1, p2, [], by simp, h2, rfl⟩,
        fun h' => absurd h h'⟩
    · rintro ⟨frag, rfl, hf, _⟩
      obtain ⟨p1, q, rfl, h1, p2, q2, rfl, h2, rfl⟩ := hf h
      exact ⟨o, p2 ++ rest, ⟨p1, by simp, h1⟩, t, rest, ⟨p2, rfl, h2⟩, ⟨rfl, rfl⟩, rfl⟩
  · rw [if_neg (by simpa using mt (isFragment_iff _).1 h)]
    simp only [Option.some.injEq, Prod.mk.injEq]
    constructor
    · rintro ⟨⟨rfl, rfl⟩, rfl⟩
      exact ⟨[], rfl, fun h' => absurd h' h, fun _ => ⟨rfl, rfl, rfl⟩⟩
    · rintro ⟨frag, rfl, _, hf⟩
      obtain ⟨rfl, rfl, rfl⟩ := hf h
      exact ⟨⟨rfl, rfl⟩, rfl⟩

theorem isPair_len {p : Bytes} {a b : Nat} (h : IsPair p a b) : 3 ≤ p.length := by
  obtain ⟨body, hp, p1, p2, rfl, h1, p3, p4, rfl, h2, rfl⟩ := h
  have := isUint_ne_nil h1
  have := isUint_ne_nil h2
  rcases hp with rfl | rfl <;> simp <;> omega

theorem isEid_len {p : Bytes} {e : Eid} (h : IsEid7 p e) : 3 ≤ p.length := by
  obtain ⟨items, hp, hi⟩ := h
  have : 2 ≤ items.length := by
    rcases hi with ⟨rfl, _⟩ | ⟨q, rfl, hq⟩
    · simp
    · have := isPair_len hq; simp; omega
  rcases hp with rfl | rfl <;> simp <;> omega

/-- A primary block is at least 17 bytes long: the test at the start of the decoder turns no block
away. -/
theorem isPrimary_len {bs : Bytes} {p : Primary} (h : IsPrimary bs p) : 17 ≤ bs.length := by
  obtain ⟨head, flags, dest, source, reportTo, creation, lifetime, frag, crc, rfl, _, h1, h2, h3, h4, h5, h6, _⟩ := h
  have := isUint_ne_nil h1
  have := isEid_len h2
  have := isEid_len h3
  have := isEid_len h4
  have := isPair_len h5
  have := isUint_ne_nil h6
  simp only [List.length_append, List.length_cons]
  omega

/-- C35, decoding: it succeeds exactly when the buffer starts with a primary block, CRC included, and
returns its fields. The fragment fields of a block that is no fragment keep their old values. -/
theorem C35_decode_iff (old p : Primary) (buf rest : Bytes) :
    read old buf = some (p, rest) ↔
      ∃ bs, buf = bs ++ rest ∧ IsPrimary bs p ∧
        (p.flags % 2 ≠ 1 → p.fragOffset = old.fragOffset ∧ p.totalAdu = old.totalAdu) := by
  constructor
  · intro h
    unfold read at h
    split at h
    · simp at h
    rename_i hlen
    split at h
    · rename_i initial version r0
      split at h
      · simp at h
      rename_i hini
      split at h
      · simp at h
      rename_i hver
      unfold readFlags at h
      split at h
      · simp at h
      · simp at h
      rename_i fl ct r1 hfl
      split at h
      · simp at h
      rename_i hsz
      obtain ⟨flags, rfl, iflags⟩ := (readUint_iff _ _ _).1 hfl
      simp only [readFields, Option.bind_eq_bind, Option.bind_eq_some_iff, Prod.exists, Option.pure_def,
        Option.some.injEq, Prod.mk.injEq, C34_bpv7_decode_iff, readTwo_iff, readUint_iff, readFrag_iff,
        checkCrc_iff] at h
      obtain ⟨ed, _, ⟨dest, rfl, idest⟩, es, _, ⟨source, rfl, isource⟩, er, _, ⟨reportTo, rfl, irep⟩,
        ms, seq, _, ⟨creation, rfl, icre⟩, lt, _, ⟨lifetime, rfl, ilt⟩, o, t, _,
        ⟨frag, rfl, ifrag, inofrag⟩, c16, c32, _, ⟨crc, rfl, icrc⟩, rfl, rfl⟩ := h
      rename_i rest
      have hbody : (initial :: version :: (flags ++ ct :: (dest ++ (source ++ (reportTo ++ (creation ++
          (lifetime ++ (frag ++ (crc ++ rest))))))))).take
          ((initial :: version :: (flags ++ ct :: (dest ++ (source ++ (reportTo ++ (creation ++
          (lifetime ++ (frag ++ (crc ++ rest))))))))).length - (crc ++ rest).length) =
          initial :: version :: flags ++ ct :: dest ++ source ++ reportTo ++ creation ++ lifetime ++ frag := by
        have : (initial :: version :: (flags ++ ct :: (dest ++ (source ++ (reportTo ++ (creation ++
          (lifetime ++ (frag ++ (crc ++ rest))))))))) =
          (initial :: version :: flags ++ ct :: dest ++ source ++ reportTo ++ creation ++ lifetime ++ frag)
            ++ (crc ++ rest) := by simp
        rw [this]
        apply List.take_left'
        simp only [List.length_append, List.length_cons]
        omega
      rw [hbody] at icrc
      push Not at hini hver hsz
      subst hver
      refine ⟨_, ?_, ⟨initial, flags, dest, source, reportTo, creation, lifetime, frag, crc, rfl, ?_,
        iflags, idest, isource, irep, icre, ilt, ifrag, fun h => (inofrag h).1, icrc⟩,
        fun h => (inofrag h).2⟩
      · simp
      · rw [← head_iff _ _ (elements_range _).1 (elements_range _).2]
        refine ⟨hini.1, ?_⟩
        rw [hsz]
        exact arraySize_eq ⟨fl, ed, es, er, ms, seq, lt, o, t, ct, c16, c32⟩
    · simp at h
  · rintro ⟨bs, rfl, hp, hold⟩
    have hlen := isPrimary_len hp
    obtain ⟨head, flags, dest, source, reportTo, creation, lifetime, frag, crc, rfl, hh, iflags, idest, isource, irep, icre, ilt, ifrag, inofrag, icrc⟩ := hp
    have he := elements_range p
    rw [← head_iff _ _ he.1 he.2] at hh
    have hform : (head :: 7 :: flags ++ p.crcType :: dest ++ source ++ reportTo ++ creation ++ lifetime ++
        frag) ++ crc ++ rest = head :: 7 :: (flags ++ p.crcType :: (dest ++ (source ++ (reportTo ++
          (creation ++ (lifetime ++ (frag ++ (crc ++ rest)))))))) := by simp
    unfold read
    rw [if_neg (by rw [List.length_append]; omega), hform]
    simp only
    rw [if_neg (by push Not; exact ⟨hh.1, by omega, by omega⟩), if_neg (by simp)]
    unfold readFlags
    rw [(readUint_iff _ _ _).2 ⟨flags, rfl, iflags⟩]
    simp only
    rw [if_neg (by rw [hh.2, arraySize_eq]; simp)]
    simp only [readFields, Option.bind_eq_bind, Option.bind_eq_some_iff, Prod.exists, Option.pure_def,
        Option.some.injEq, Prod.mk.injEq, C34_bpv7_decode_iff, readTwo_iff, readUint_iff, readFrag_iff,
        checkCrc_iff]
    refine ⟨p.dest, _, ⟨dest, rfl, idest⟩, p.source, _, ⟨source, rfl, isource⟩, p.reportTo, _,
      ⟨reportTo, rfl, irep⟩, p.creationMs, p.creationSeq, _, ⟨creation, rfl, icre⟩, p.lifetime, _,
      ⟨lifetime, rfl, ilt⟩, p.fragOffset, p.totalAdu, _,
      ⟨frag, rfl, ifrag, fun h => ⟨inofrag h, hold h⟩⟩, p.crc16, p.crc32, _, ⟨crc, rfl, ?_⟩, rfl, rfl⟩
    rw [← hform]
    rw [List.append_assoc, List.take_left']
    · exact icrc
    · simp only [List.length_append, List.length_cons]
      omega

theorem serializeBody_eq (p : Primary) :
    serializeBody p = UInt8.ofNat (4 <<< 5 ||| arraySize p.flags p.crcType) :: 7 :: encodeU64 p.flags ++
      p.crcType :: serialize7 p.dest ++ serialize7 p.source ++ serialize7 p.reportTo ++
      twoSerialize p.creationMs p.creationSeq ++ encodeU64 p.lifetime ++ fragFields p := by
  simp [serializeBody]

theorem head_ofNat (n : Nat) (h8 : 8 ≤ n) (h11 : n ≤ 11) :
    (UInt8.ofNat (4 <<< 5 ||| n)).toNat = 0x80 + n := by
  interval_cases n <;> rfl

theorem isPair_two (a b : Nat) (ha : a < 2 ^ 64) (hb : b < 2 ^ 64) : IsPair (twoSerialize a b) a b :=
  ⟨_, Or.inl rfl, _, _, rfl, isUint_encode a ha, _, [], by simp, isUint_encode b hb, rfl⟩

/-- Serialising a block with a known CRC type gives a primary block of it, with the CRC members set;
any other CRC type makes it return 0. -/
theorem serialize_spec (p : Primary) (hr : InRange p) :
    (p.crcType = 0 ∨ p.crcType = 1 ∨ p.crcType = 2 → ∃ crc c16 c32,
      serialize p = some (serializeBody p ++ crc, { p with crc16 := c16, crc32 := c32 }) ∧
      IsCrcField p.crcType (serializeBody p) crc (c16, c32) ∧ crcSize p.crcType = some crc.length ∧
      IsPrimary (serializeBody p ++ crc) { p with crc16 := c16, crc32 := c32 }) ∧
    (¬ (p.crcType = 0 ∨ p.crcType = 1 ∨ p.crcType = 2) → serialize p = none) := by
  obtain ⟨hf, hm, hs, hl, ho, ht, he⟩ := hr
  have hc := appendCrc_spec p.crcType (serializeBody p)
  constructor
  · intro h
    obtain ⟨crc, ⟨c16, c32⟩, hcrc, happ, hsize⟩ := hc.1 h
    refine ⟨crc, c16, c32, by rw [serialize, happ], hcrc, hsize, ?_⟩
    have h1 := he p.dest (by simp)
    have h2 := he p.source (by simp)
    have h3 := he p.reportTo (by simp)
    rw [serializeBody_eq] at hcrc ⊢
    refine ⟨_, _, _, _, _, _, _, _, crc, rfl, ?_, isUint_encode _ hf,
      serialize7_isEid _ h1.1 h1.2.1 h1.2.2, serialize7_isEid _ h2.1 h2.2.1 h2.2.2,
      serialize7_isEid _ h3.1 h3.2.1 h3.2.2, isPair_two _ _ hm hs, isUint_encode _ hl, ?_, ?_, hcrc⟩
    · have := elements_range p
      rw [arraySize_eq, head_ofNat _ this.1 this.2]
      rfl
    · intro h
      rw [fragFields, if_pos ((isFragment_iff _).2 h)]
      exact ⟨_, _, rfl, isUint_encode _ ho, _, [], by simp, isUint_encode _ ht, rfl⟩
    · intro h
      rw [fragFields, if_neg (by simpa using mt (isFragment_iff _).1 h)]
  · intro h
    rw [serialize, hc.2 h]

/-- C35, round trip: a block whose members fit their types and whose CRC type is known is written in
exactly the announced number of bytes, which decode to the same members, whatever follows. (The object
decoded into keeps its fragment members when the block is no fragment.) -/
theorem C35_round_trip (p old : Primary) (hr : InRange p)
    (hc : p.crcType = 0 ∨ p.crcType = 1 ∨ p.crcType = 2)
    (hfrag : p.flags % 2 ≠ 1 → p.fragOffset = old.fragOffset ∧ p.totalAdu = old.totalAdu) :
    ∃ bs c16 c32, serialize p = some (bs, { p with crc16 := c16, crc32 := c32 }) ∧
      IsPrimary bs { p with crc16 := c16, crc32 := c32 } ∧
      serializationSize p = some bs.length ∧
      ∀ rest, read old (bs ++ rest) = some ({ p with crc16 := c16, crc32 := c32 }, rest) := by
  obtain ⟨crc, c16, c32, hs, hcrc, hsz, hp⟩ := (serialize_spec p hr).1 hc
  refine ⟨_, c16, c32, hs, hp, ?_, fun rest => (C35_decode_iff _ _ _ _).2 ⟨_, rfl, hp, hfrag⟩⟩
  obtain ⟨hf, hm, hsq, hl, ho, ht, he⟩ := hr
  have h1 := he p.dest (by simp)
  have h2 := he p.source (by simp)
  have h3 := he p.reportTo (by simp)
  have s1 := (C34_bpv7_round_trip _ h1.1 h1.2.1 h1.2.2).2.1
  have s2 := (C34_bpv7_round_trip _ h2.1 h2.2.1 h2.2.2).2.1
  have s3 := (C34_bpv7_round_trip _ h3.1 h3.2.1 h3.2.2).2.1
  have sz : ∀ v, v < 2 ^ 64 → encodingSize v = some (encodeU64 v).length := fun v hv => by
    rw [encodingSize_eq v hv, encode_length]
  have s4 : twoSerializationSize p.creationMs p.creationSeq =
      some (twoSerialize p.creationMs p.creationSeq).length :=
    (C06_two_round_trip p.creationMs p.creationSeq hm hsq).2.1
  have s5 : fragSize p = some (fragFields p).length := by
    unfold fragSize fragFields
    split
    · rw [sz _ ho, sz _ ht]; simp
    · rfl
  unfold serializationSize
  rw [sz _ hf, s1, s2, s3, s4, sz _ hl, s5, hsz]
  simp only [Option.bind_eq_bind, Option.bind_some, Option.pure_def, Option.some.injEq, serializeBody,
    List.length_cons, List.length_append]
  omega

/-- The finding behind the hypothesis of `C35_round_trip`: decoding a block that is no fragment into an
object that held a fragment leaves that fragment's offset and total length in place. -/
theorem C35_stale_fragment_members (old p : Primary) (buf rest : Bytes)
    (h : read old buf = some (p, rest)) (hf : p.flags % 2 ≠ 1) :
    p.fragOffset = old.fragOffset ∧ p.totalAdu = old.totalAdu := by
  obtain ⟨_, _, _, h⟩ := (C35_decode_iff _ _ _ _).1 h
  exact h hf

/-- C36 for the primary block: an accepted block with a CRC ends in the byte string holding exactly
the CRC of the block with that field zeroed. -/
theorem C36_primary_crc (old p : Primary) (buf rest : Bytes) (h : read old buf = some (p, rest))
    (hc : p.crcType ≠ 0) :
    (p.crcType = 1 ∧ ∃ body, buf = body ++ 0x42 :: toBe 2 (crc16 (body ++ [0x42, 0, 0])) ++ rest) ∨
    (p.crcType = 2 ∧
      ∃ body, buf = body ++ 0x44 :: toBe 4 (crc32 (body ++ [0x44, 0, 0, 0, 0])) ++ rest) := by
  obtain ⟨bs, rfl, ⟨_, _, _, _, _, _, _, _, crc, rfl, _, _, _, _, _, _, _, _, _, hcrc⟩, _⟩ :=
    (C35_decode_iff _ _ _ _).1 h
  rcases hcrc with ⟨h0, _⟩ | ⟨h1, rfl, _⟩ | ⟨h2, rfl, _⟩
  · exact absurd h0 hc
  · exact Or.inl ⟨h1, _, rfl⟩
  · exact Or.inr ⟨h2, _, rfl⟩

/-- C36 for the primary block, corruption: a block is written with a CRC, then one byte behind the CRC
type is changed. The decoder cannot accept it with the same extent. -/
theorem C36_primary_single_byte_partial (p old q : Primary) (hr : InRange p) (bs : Bytes) (p1 : Primary)
    (hs : serialize p = some (bs, p1)) (hc : p.crcType ≠ 0)
    (pre post : Bytes) (a b : UInt8) (hbs : bs = pre ++ a :: post) (hab : a ≠ b)
    (hpos : 3 + (encodeU64 p.flags).length ≤ pre.length) (rest : Bytes) :
    read old (pre ++ b :: post ++ rest) ≠ some (q, rest) := by
  intro hread
  have hct : p.crcType = 0 ∨ p.crcType = 1 ∨ p.crcType = 2 := by
    by_contra hn
    rw [(serialize_spec p hr).2 hn] at hs
    simp at hs
  obtain ⟨crc, c16, c32, hs', hcrc, _, _⟩ := (serialize_spec p hr).1 hct
  rw [hs] at hs'
  simp only [Option.some.injEq, Prod.mk.injEq] at hs'
  obtain ⟨hbs', -⟩ := hs'
  obtain ⟨bs', hb', hq, _⟩ := (C35_decode_iff _ _ _ _).1 hread
  have hb'' := List.append_cancel_right hb'
  subst hb''
  obtain ⟨head, flags, dest, source, reportTo, creation, lifetime, frag, crc', hform, _, iflags, _, _, _, _, _, _, _, hcrc'⟩ := hq
  -- the CRC types agree
  have hpre : ∃ pre', pre = UInt8.ofNat (4 <<< 5 ||| arraySize p.flags p.crcType) :: 7 ::
      (encodeU64 p.flags ++ p.crcType :: pre') := by
    rw [hbs'] at hbs
    have := congrArg (List.take (3 + (encodeU64 p.flags).length)) hbs
    rw [List.take_append_of_le_length hpos, serializeBody] at this
    refine ⟨pre.drop (3 + (encodeU64 p.flags).length), ?_⟩
    conv_lhs => rw [← List.take_append_drop (3 + (encodeU64 p.flags).length) pre, ← this]
    have e : 3 + (encodeU64 p.flags).length = ((encodeU64 p.flags).length + 1) + 1 + 1 := by omega
    rw [e]
    simp only [List.cons_append, List.take_succ_cons, List.append_assoc]
    rw [List.take_length_add_append]
    simp
  obtain ⟨pre', hpre⟩ := hpre
  have htypes : p.crcType = q.crcType := by
    rw [hpre] at hform
    simp only [List.cons_append, List.append_assoc, List.cons.injEq] at hform
    have e := hform.2.2
    have r1 := readUint_encode p.flags hr.1 (p.crcType :: (pre' ++ b :: post))
    rw [e, (readUint_iff _ _ _).2 ⟨flags, rfl, iflags⟩] at r1
    simp only [Option.some.injEq, Prod.mk.injEq, List.cons.injEq] at r1
    exact r1.2.1.symm
  rw [← htypes] at hcrc' hform
  exact field_single _ _ _ _ _ _ _ hc hcrc hcrc' pre a b post hab (hbs'.symm.trans hbs) hform.symm

/-- A block of node 1 to node 2 with a CRC-16. -/
def sample : Primary := ⟨0, ⟨2, 1⟩, ⟨1, 1⟩, ⟨0, 0⟩, 1000, 113, 5, 0, 0, 1, 0, 0⟩

/-- What is missing from `C36_primary_single_byte_partial` is false: when the corrupted byte moves the
end of the block, the bytes behind the block can act as its CRC. Here the lifetime byte 5 of `sample`
becomes 0x19, a head for two more bytes, and the block is accepted with the lifetime 17125. -/
theorem C36_primary_moved_end :
    ∃ (bs : Bytes) (p1 q : Primary), serialize sample = some (bs, p1) ∧ bs[23]? = some 5 ∧
      read sample (bs.set 23 0x19 ++ [208, 101, 0x85]) = some (q, [0x85]) ∧
      q.lifetime = 17125 ∧ sample.lifetime = 5 := by
  refine ⟨[137, 7, 0, 1, 130, 2, 130, 2, 1, 130, 2, 130, 1, 1, 130, 1, 0, 130, 25, 3, 232, 24, 113, 5,
    66, 229, 66], { sample with crc16 := 0xe542 },
    { sample with lifetime := 17125, crc16 := 0xd065 }, ?_⟩
  decide +kernel

/-- The hypotheses of the theorems above are met by a fragment with a CRC-32C and by `sample`. -/
example : InRange sample ∧ InRange { sample with flags := 1, fragOffset := 300, totalAdu := 70000, crcType := 2 } ∧
    (read sample ([137, 7, 0, 1, 130, 2, 130, 2, 1, 130, 2, 130, 1, 1, 130, 1, 0, 130, 25, 3, 232, 24, 113,
      5, 66, 229, 66] ++ [1, 2, 3])).isSome ∧
    ∃ bs p1, serialize sample = some (bs, p1) ∧ bs.length = 27 ∧ p1.crcType ≠ 0 := by
  refine ⟨by unfold InRange sample; simp, by unfold InRange sample; simp, by decide +kernel, ?_⟩
  exact ⟨[137, 7, 0, 1, 130, 2, 130, 2, 1, 130, 2, 130, 1, 1, 130, 1, 0, 130, 25, 3, 232, 24, 113, 5,
    66, 229, 66], { sample with crc16 := 0xe542 }, by decide +kernel⟩

end Hdtn.Bpv7Primary
