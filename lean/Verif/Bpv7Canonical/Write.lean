import Verif.Bpv7Canonical.Props

/-!
Writing a canonical block whose data the block object produces itself: the space is laid out first, then
the data are written into it, then the CRC is computed.
-/

namespace Hdtn.Bpv7Canonical

open Hdtn.HashMap16 Hdtn.Cbor Hdtn.Cbor.Spec Hdtn.Cbhe Hdtn.Cbhe.Spec Hdtn.Bpv7Crc Spec

/-- The pattern of `SerializeBpv7` of the block classes with content of their own
(Bpv7ExtensionBlocks.cpp:57-81 and alike, Bpv7AdministrativeRecords.cpp:58-108,
Bpv7BpSecExtensionBlocks.cpp:107-248): a block with a space of `n` bytes, which first holds what the
output memory `mem` held, then the data `d` at the start of that space, then the CRC. -/
def serializeWith (typeCode : UInt8) (number flags : Nat) (crcType : UInt8) (n : Nat) (d mem : Bytes) :
    Option (Bytes × Canonical) :=
  let space := mem.take n
  if space.length ≠ n then none
  else do
    let c : Canonical := ⟨typeCode, number, flags, crcType, space, 0, 0⟩
    let (bs, c) ← serializeNull c
    let off := (serializeBody c).length - n
    let bs := bs.take off ++ (d ++ bs.drop (off + d.length))
    return recompute { c with data := d ++ space.drop d.length } bs

theorem ext_serialize_eq (x : Ext) (number flags : Nat) (t : UInt8) (mem : Bytes) :
    x.serialize number flags t mem =
      x.size.bind fun n => serializeWith x.typeCode number flags t n (x.write n) mem := by
  unfold Ext.serialize serializeWith
  rfl

/-- When the data fill the space, the block is laid out as `serialize` lays out a block holding them. -/
theorem serializeWith_spec (typeCode : UInt8) (number flags : Nat) (hn : number < 2 ^ 64)
    (hf : flags < 2 ^ 64) (t : UInt8) (ht : t = 0 ∨ t = 1 ∨ t = 2) (n : Nat) (d mem : Bytes)
    (hd : d.length = n) (hn64 : n < 2 ^ 64) (hmn : n ≤ mem.length) :
    ∃ bs c16 c32, serializeWith typeCode number flags t n d mem =
        some (bs, ⟨typeCode, number, flags, t, d, c16, c32⟩) ∧
      IsCanonical [] bs ⟨typeCode, number, flags, t, d, c16, c32⟩ ∧
      serializationSize ⟨typeCode, number, flags, t, d, c16, c32⟩ = some bs.length := by
  have hsp : (mem.take n).length = n := by rw [List.length_take]; omega
  obtain ⟨field, c0, hnull, hc0, hfield⟩ : ∃ field c0,
      serializeNull ⟨typeCode, number, flags, t, mem.take n, 0, 0⟩ =
        some (serializeBody ⟨typeCode, number, flags, t, mem.take n, 0, 0⟩ ++ field, c0) ∧
      c0 = ⟨typeCode, number, flags, t, mem.take n, 0, 0⟩ ∧
      ((t = 0 ∧ field = []) ∨ (t = 1 ∧ field.length = 3) ∨ (t = 2 ∧ field.length = 5)) := by
    unfold serializeNull
    rcases ht with rfl | rfl | rfl
    · exact ⟨[], _, by simp, rfl, Or.inl ⟨rfl, rfl⟩⟩
    · exact ⟨field16 0, _, by simp, rfl, Or.inr (Or.inl ⟨rfl, rfl⟩)⟩
    · exact ⟨field32 0, _, by simp, rfl, Or.inr (Or.inr ⟨rfl, rfl⟩)⟩
  subst hc0
  let front := UInt8.ofNat (4 <<< 5 ||| arraySize t) :: (encodeU64 typeCode.toNat ++ (encodeU64 number ++
    (encodeU64 flags ++ t :: byteStringHead n)))
  have hbody : ∀ data : Bytes, data.length = n → ∀ a b, serializeBody ⟨typeCode, number, flags, t, data, a, b⟩ =
      front ++ data := by
    intro data hd a b
    simp [serializeBody, front, hd]
  obtain ⟨crc, c16, c32, hrec, hcrc⟩ := recompute_spec ⟨typeCode, number, flags, t, d, 0, 0⟩ (front ++ d) field
    (by rcases hfield with ⟨h1, h2⟩ | ⟨h1, h2⟩ | ⟨h1, h2⟩
        · exact Or.inl ⟨h1, h2, rfl, rfl⟩
        · exact Or.inr (Or.inl ⟨h1, h2⟩)
        · exact Or.inr (Or.inr ⟨h1, h2⟩))
  have hser : serializeWith typeCode number flags t n d mem =
      some (front ++ d ++ crc, ⟨typeCode, number, flags, t, d, c16, c32⟩) := by
    simp only [serializeWith]
    rw [if_neg (by omega), hnull]
    simp only [Option.bind_eq_bind, Option.bind_some, Option.pure_def, Option.some.injEq]
    rw [hbody _ hsp]
    have hoff : (front ++ mem.take n).length - n = front.length := by
      rw [List.length_append, hsp]; omega
    rw [hoff, splice _ _ _ _ (hd.trans hsp.symm),
      show (mem.take n).drop d.length = [] from List.drop_of_length_le (by omega), List.append_nil]
    exact hrec
  have hr : InRange ⟨typeCode, number, flags, t, d, c16, c32⟩ := ⟨hn, hf, by simp only; omega⟩
  have hisb := serializeBody_isBody _ hr
  rw [hbody _ hd] at hisb
  have hcan : IsCanonical [] (front ++ d ++ crc) ⟨typeCode, number, flags, t, d, c16, c32⟩ :=
    ⟨_, crc, rfl, hisb, hcrc⟩
  refine ⟨_, _, _, hser, hcan, ?_⟩
  have hcs : crcSize t = some crc.length := by
    rcases hcrc with ⟨h, rfl, _⟩ | ⟨h, rfl, _⟩ | ⟨h, rfl, _⟩ <;> (simp only at h; subst h; simp [crcSize])
  have := size_eq ⟨typeCode, number, flags, t, d, c16, c32⟩ hr crc hcs
  rw [hbody _ hd] at this
  exact this

end Hdtn.Bpv7Canonical
