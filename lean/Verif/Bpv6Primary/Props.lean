import Verif.Bpv6Primary.Model
import Verif.Bpv6Primary.Spec

/-!
C38: the BPv6 primary block.
-/

namespace Hdtn.Bpv6Primary

open Hdtn.HashMap16 Hdtn.Sdnv Hdtn.Sdnv.Spec Hdtn.Cbhe Spec

theorem isFragment_iff (b : Primary) : b.isFragment = true ↔ IsFragment b := by
  unfold Primary.isFragment IsFragment
  rw [Nat.testBit_zero]; simp

theorem length_two {α : Type} {l : List α} (h : l.length = 2) : ∃ a b, l = [a, b] := by
  match l, h with
  | [a, b], _ => exact ⟨a, b, rfl⟩

theorem length_fourteen {α : Type} {l : List α} (h : l.length = 14) :
    ∃ a b c d e f g h i j k m n o, l = [a, b, c, d, e, f, g, h, i, j, k, m, n, o] := by
  match l, h with
  | [a, b, c, d, e, f, g, h, i, j, k, m, n, o], _ =>
    exact ⟨a, b, c, d, e, f, g, h, i, j, k, m, n, o, rfl⟩

theorem readFragment_iff (b c : Primary) (buf rest : Bytes) :
    readFragment b buf = some (c, rest) ↔
      (∃ o t, c = { b with fragmentOffset := o, totalAduLength := t } ∧
        (¬ IsFragment c → o = 0 ∧ t = 0)) ∧
      Split buf (if IsFragment c then [c.fragmentOffset, c.totalAduLength] else []) rest := by
  unfold readFragment
  by_cases hf : IsFragment b
  · rw [if_pos ((isFragment_iff b).2 hf)]
    constructor
    · intro h
      split at h
      · rename_i o t r hr
        simp only [Option.some.injEq, Prod.mk.injEq] at h
        obtain ⟨rfl, rfl⟩ := h
        have hf' : IsFragment { b with fragmentOffset := o, totalAduLength := t } := hf
        exact ⟨⟨o, t, rfl, fun h => absurd hf' h⟩, by simpa [hf'] using ((readN_iff _ _ _ _).1 hr).2⟩
      · simp at h
    · rintro ⟨⟨o, t, rfl, _⟩, h⟩
      have hf' : IsFragment { b with fragmentOffset := o, totalAduLength := t } := hf
      rw [if_pos hf'] at h
      rw [(readN_iff 2 _ _ _).2 ⟨rfl, h⟩]
  · rw [if_neg (fun h => hf ((isFragment_iff b).1 h))]
    constructor
    · intro h
      simp only [Option.some.injEq, Prod.mk.injEq] at h
      obtain ⟨rfl, rfl⟩ := h
      have hf' : ¬ IsFragment { b with fragmentOffset := 0, totalAduLength := 0 } := hf
      exact ⟨⟨0, 0, rfl, fun _ => ⟨rfl, rfl⟩⟩, by rw [if_neg hf']; exact .nil _⟩
    · rintro ⟨⟨o, t, rfl, h0⟩, h⟩
      have hf' : ¬ IsFragment { b with fragmentOffset := o, totalAduLength := t } := hf
      obtain ⟨rfl, rfl⟩ := h0 hf'
      rw [if_neg hf'] at h
      cases h
      rfl

/-- C38: the decoder accepts exactly the buffers that start with a primary block as RFC 5050 and RFC
6260 define it, and returns its fields and what follows. (The block length is returned, not
checked.) -/
theorem C38_decode_iff (buf : Bytes) (b : Primary) (rest : Bytes) :
    read buf = some (b, rest) ↔ ∃ p, buf = p ++ rest ∧ IsPrimary p b := by
  constructor
  · intro h
    unfold read at h
    split at h
    · simp at h
    · rename_i version body
      split at h
      · simp at h
      · rename_i hv
        push Not at hv
        split at h
        · rename_i fl bl dn ds sn ss rn rs cn cs secs seq life dict r hr
          split at h
          · simp at h
          · rename_i hd
            push Not at hd
            subst hd
            obtain ⟨⟨o, t, rfl, h0⟩, hs⟩ := (readFragment_iff _ _ _ _).1 h
            obtain ⟨-, hs1⟩ := (readN_iff _ _ _ _).1 hr
            obtain ⟨p1, rfl, hp1⟩ := split_cut hs1
            obtain ⟨p2, rfl, hp2⟩ := split_cut hs
            refine ⟨6 :: (p1 ++ p2), by simp [hv], ⟨p1 ++ p2, rfl, ?_⟩, h0⟩
            have := split_append hp1 hp2
            simpa [tailFields] using this
        · simp at h
  · rintro ⟨p, rfl, ⟨body, rfl, hs⟩, h0⟩
    have hs' : Split body ([b.flags, b.blockLength, b.dest.node, b.dest.service, b.source.node,
        b.source.service, b.reportTo.node, b.reportTo.service, b.custodian.node, b.custodian.service,
        b.creationSeconds, b.creationSequence, b.lifetime, 0] ++
        (if IsFragment b then [b.fragmentOffset, b.totalAduLength] else [])) [] := by
      simpa [tailFields] using hs
    obtain ⟨p1, p2, rfl, hp1, hp2⟩ := split_unappend hs'
    unfold read
    have hr := (readN_iff 14 (p1 ++ (p2 ++ rest)) _ _).2 ⟨rfl, split_rest hp1 (p2 ++ rest)⟩
    simp only [List.cons_append, ne_eq, not_true_eq_false, if_false, List.append_assoc, hr]
    refine (readFragment_iff _ _ _ _).2 ⟨⟨b.fragmentOffset, b.totalAduLength, rfl, h0⟩, ?_⟩
    exact split_rest hp2 rest

/-! ### Serialisation -/

theorem encode_minimal (v : Nat) (hv : v < 2 ^ 64) :
    IsMinimalLength v (encodeU64ClassicBufSize10 v).length := by
  obtain ⟨e, _, h2, _, _, h, _⟩ := C01_sdnv64_round_trip v hv
  rw [h2]; exact h

theorem encode_len (v : Nat) (hv : v < 2 ^ 64) : (encodeU64ClassicBufSize10 v).length ≤ 10 := by
  obtain ⟨e, _, h2, _, h, _⟩ := C01_sdnv64_round_trip v hv
  rw [h2]; exact h

/-- A row of SDNVs. -/
def encodeAll (vs : List Nat) : Bytes := (vs.map encodeU64ClassicBufSize10).flatten

theorem split_encodeAll (vs : List Nat) (h : ∀ v ∈ vs, v < 2 ^ 64) : Split (encodeAll vs) vs [] := by
  induction vs with
  | nil => exact .nil []
  | cons v vs ih =>
    have := split_append (split_encode v (h v (by simp))) (ih fun w hw => h w (by simp [hw]))
    simpa [encodeAll] using this

theorem encodeAll_lengths (vs : List Nat) (h : ∀ v ∈ vs, v < 2 ^ 64) :
    ∃ ls, List.Forall₂ IsMinimalLength vs ls ∧ (encodeAll vs).length = ls.sum := by
  induction vs with
  | nil => exact ⟨[], .nil, rfl⟩
  | cons v vs ih =>
    obtain ⟨ls, h1, h2⟩ := ih fun w hw => h w (by simp [hw])
    refine ⟨(encodeU64ClassicBufSize10 v).length :: ls, .cons (encode_minimal v (h v (by simp))) h1, ?_⟩
    rw [List.sum_cons, ← h2]
    simp [encodeAll]

/-- The bytes behind the block length. -/
def tailBytes (b : Primary) : Bytes :=
  serialize6 b.dest ++ serialize6 b.source ++ serialize6 b.reportTo ++ serialize6 b.custodian ++
    (encodeU64ClassicBufSize10 b.creationSeconds ++ encodeU64ClassicBufSize10 b.creationSequence) ++
    encodeU64ClassicBufSize10 b.lifetime ++ [0] ++ fragmentPart b

theorem encode_zero : encodeU64ClassicBufSize10 0 = [0] := by decide +kernel

theorem tailBytes_eq (b : Primary) : tailBytes b = encodeAll (tailFields b) := by
  have hb : b.isFragment = decide (IsFragment b) := by
    rw [Bool.eq_iff_iff, isFragment_iff]; simp
  unfold tailBytes tailFields fragmentPart
  rw [hb]
  by_cases hf : IsFragment b <;> simp [hf, encodeAll, serialize6, encode_zero]

theorem serialize_eq (b : Primary) : serialize b =
    (if (tailBytes b).length > 127 then none
      else some (6 :: encodeU64ClassicBufSize10 b.flags ++ [UInt8.ofNat (tailBytes b).length] ++
        tailBytes b), { b with blockLength := (tailBytes b).length }) := by
  unfold serialize
  simp only
  split <;> (rename_i h; unfold tailBytes; simp only [h, if_true, if_false])

theorem size_eq (b : Primary) (hb : InRange b) : serializationSize b =
    some (if (tailBytes b).length > 127 then 0
      else 2 + (encodeU64ClassicBufSize10 b.flags).length + (tailBytes b).length) := by
  obtain ⟨hf, ht⟩ := hb
  have hn : ∀ v, v < 2 ^ 64 → numBytesRequired v = some (encodeU64ClassicBufSize10 v).length :=
    numBytesRequired_eq
  have hr : ∀ v ∈ [b.dest.node, b.dest.service, b.source.node, b.source.service, b.reportTo.node,
      b.reportTo.service, b.custodian.node, b.custodian.service, b.creationSeconds,
      b.creationSequence, b.lifetime], v < 2 ^ 64 := by
    intro v hv
    refine ht v ?_
    have e : tailFields b = [b.dest.node, b.dest.service, b.source.node, b.source.service,
      b.reportTo.node, b.reportTo.service, b.custodian.node, b.custodian.service, b.creationSeconds,
      b.creationSequence, b.lifetime] ++
      ([0] ++ if IsFragment b then [b.fragmentOffset, b.totalAduLength] else []) := rfl
    rw [e]
    exact List.mem_append_left _ hv
  simp only [List.mem_cons, List.not_mem_nil, or_false, forall_eq_or_imp, forall_eq] at hr
  obtain ⟨r1, r2, r3, r4, r5, r6, r7, r8, r9, r10, r11⟩ := hr
  have hfrag : fragmentSize b = some (fragmentPart b).length := by
    unfold fragmentSize fragmentPart
    by_cases hfr : b.isFragment = true
    · have hfr' := (isFragment_iff b).1 hfr
      rw [if_pos hfr, if_pos hfr, hn b.fragmentOffset (ht _ (by simp [tailFields, hfr'])),
        hn b.totalAduLength (ht _ (by simp [tailFields, hfr']))]
      simp
    · rw [if_neg hfr, if_neg hfr]; rfl
  simp only [serializationSize, size6, hn _ hf, hn _ r1, hn _ r2, hn _ r3, hn _ r4, hn _ r5, hn _ r6,
    hn _ r7, hn _ r8, hn _ r9, hn _ r10, hn _ r11, hfrag, Option.bind_eq_bind, Option.bind_some,
    Option.pure_def, Option.some.injEq, tailBytes, serialize6, List.length_append, List.length_cons,
    List.length_nil]
  split_ifs <;> omega

/-- C38: let the SDNVs behind the length byte have their shortest lengths `ls`.
If they fill at most 127 bytes, the serialiser returns the version byte, the flags, one byte with that
number and those SDNVs; it announces exactly this size beforehand; and decoding, whatever follows,
returns the block with that length.
Otherwise it is refused: no bytes, announced size 0. -/
theorem C38_round_trip (b : Primary) (hb : InRange b)
    (h0 : ¬ IsFragment b → b.fragmentOffset = 0 ∧ b.totalAduLength = 0) :
    ∃ ls, List.Forall₂ IsMinimalLength (tailFields b) ls ∧
      (ls.sum ≤ 127 → ∃ out, serialize b = (some out, { b with blockLength := ls.sum }) ∧
        serializationSize b = some out.length ∧
        (∃ flags tail, out = 6 :: flags ++ [UInt8.ofNat ls.sum] ++ tail ∧ IsSdnv64 flags b.flags ∧
          Split tail (tailFields b) [] ∧ tail.length = ls.sum) ∧
        ∀ rest, read (out ++ rest) = some ({ b with blockLength := ls.sum }, rest)) ∧
      (127 < ls.sum → (serialize b).1 = none ∧ serializationSize b = some 0) := by
  obtain ⟨ls, h1, h2⟩ := encodeAll_lengths (tailFields b) hb.2
  have htail := split_encodeAll (tailFields b) hb.2
  rw [← tailBytes_eq] at h2 htail
  refine ⟨ls, h1, ?_, ?_⟩
  · intro hle
    have hlen : ¬ (tailBytes b).length > 127 := by omega
    refine ⟨6 :: encodeU64ClassicBufSize10 b.flags ++ [UInt8.ofNat ls.sum] ++ tailBytes b, ?_, ?_, ?_, ?_⟩
    · rw [serialize_eq, if_neg hlen, h2]
    · rw [size_eq b hb, if_neg hlen, Option.some.injEq]
      simp only [List.length_append, List.length_cons, List.length_nil]
      omega
    · exact ⟨_, _, rfl, isSdnv64_encode _ hb.1, htail, h2⟩
    · intro rest
      refine (C38_decode_iff _ _ _).2 ⟨_, rfl, ⟨_, rfl, ?_⟩, h0⟩
      have hl : IsSdnv64 [UInt8.ofNat ls.sum] ls.sum := by
        have ht : (UInt8.ofNat ls.sum).toNat = ls.sum := by
          rw [UInt8.toNat_ofNat']; exact Nat.mod_eq_of_lt (by omega)
        refine ⟨by simp, ?_, ?_, by omega⟩
        · simp only [WellFormed, ht]; omega
        · simp only [value, ht, List.length_nil]; omega
      have := split_append (split_encode b.flags hb.1)
        (split_append ((split_one _ _).2 hl) htail)
      have e : tailFields { b with blockLength := ls.sum } = tailFields b := rfl
      rw [e]
      simpa using this
  · intro hlt
    have hlen : (tailBytes b).length > 127 := by omega
    rw [serialize_eq, size_eq b hb, if_pos hlen, if_pos hlen]
    exact ⟨rfl, rfl⟩

theorem encodeAll_len (vs : List Nat) (h : ∀ v ∈ vs, v < 2 ^ 64) :
    (encodeAll vs).length ≤ 10 * vs.length := by
  induction vs with
  | nil => simp [encodeAll]
  | cons v vs ih =>
    have h1 := encode_len v (h v (by simp))
    have h2 := ih fun w hw => h w (by simp [hw])
    simp only [encodeAll, List.map_cons, List.flatten_cons, List.length_append,
      List.length_cons] at h2 ⊢
    omega

/-- C38: a block that is not a fragment is never refused. -/
theorem C38_whole_bundle_never_refused (b : Primary) (hb : InRange b) (hf : ¬ IsFragment b) :
    ∃ out, (serialize b).1 = some out ∧ serializationSize b = some out.length := by
  have hlen : ¬ (tailBytes b).length > 127 := by
    rw [tailBytes_eq]
    have := encodeAll_len (tailFields b) hb.2
    simp only [tailFields, hf, if_false, List.append_nil, List.length_cons, List.length_nil] at this
    simp only [tailFields, hf, if_false, List.append_nil]
    omega
  refine ⟨6 :: encodeU64ClassicBufSize10 b.flags ++ [UInt8.ofNat (tailBytes b).length] ++ tailBytes b,
    ?_, ?_⟩
  · rw [serialize_eq, if_neg hlen]
  · rw [size_eq b hb, if_neg hlen, Option.some.injEq]
    simp only [List.length_append, List.length_cons, List.length_nil]
    omega

/-! Instances: a fragment, and a fragment with every field at its maximum, which is refused. -/

example : (serialize ⟨1, 0, ⟨5, 1⟩, ⟨300, 2⟩, ⟨0, 0⟩, ⟨7, 0⟩, 1000, 2, 86400, 12, 4096⟩).1 =
    some [6, 1, 19, 5, 1, 130, 44, 2, 0, 0, 7, 0, 135, 104, 2, 133, 163, 0, 0, 12, 160, 0] := by
  decide +kernel
example : read [6, 1, 19, 5, 1, 130, 44, 2, 0, 0, 7, 0, 135, 104, 2, 133, 163, 0, 0, 12, 160, 0, 99] =
    some (⟨1, 19, ⟨5, 1⟩, ⟨300, 2⟩, ⟨0, 0⟩, ⟨7, 0⟩, 1000, 2, 86400, 12, 4096⟩, [99]) := by
  decide +kernel
example : InRange ⟨1, 0, ⟨5, 1⟩, ⟨300, 2⟩, ⟨0, 0⟩, ⟨7, 0⟩, 1000, 2, 86400, 12, 4096⟩ := by
  unfold InRange; decide +kernel
example : let m := 2 ^ 64 - 1
    (serialize ⟨m, 0, ⟨m, m⟩, ⟨m, m⟩, ⟨m, m⟩, ⟨m, m⟩, m, m, m, m, m⟩).1 = none := by decide +kernel

end Hdtn.Bpv6Primary
