import Verif.BpSecBundle.Model
import Verif.BundleView7.Props

/-! The bytes of one block: its header, its data, and overwriting them. -/

namespace Hdtn.BpSecBundle

open Hdtn.HashMap16 Hdtn.Cbor Hdtn.Cbor.Spec Hdtn.Bpv7Crc Hdtn.Bpv7Canonical Hdtn.Bpv7Canonical.Spec Hdtn.BpSec7
open Hdtn.BundleView7 Hdtn.BundleView7.Spec

theorem crcField_length {t : UInt8} {body crc : Bytes} {x : Nat × Nat} (h : IsCrcField t body crc x) :
    crc.length = crcLength t := by
  rcases h with ⟨rfl, rfl, _⟩ | ⟨rfl, rfl, _⟩ | ⟨rfl, rfl, _⟩ <;> simp [crcLength]

theorem crcField_unique {t : UInt8} {body crc crc' : Bytes} {x x' : Nat × Nat} (h : IsCrcField t body crc x)
    (h' : IsCrcField t body crc' x') : crc = crc' ∧ x = x' := by
  rcases h with ⟨rfl, rfl, rfl⟩ | ⟨rfl, rfl, rfl⟩ | ⟨rfl, rfl, rfl⟩ <;>
    rcases h' with ⟨h, rfl, rfl⟩ | ⟨h, rfl, rfl⟩ | ⟨h, rfl, rfl⟩ <;> first | exact ⟨rfl, rfl⟩ | (exact absurd h (by decide))

/-- The parts of a block: the head, the header, the CRC type and the head of the data, the data, the CRC. -/
structure Parts (b : BlockView) (tag front crc : Bytes) : Prop where
  raw : b.raw = (front ++ b.block.data) ++ crc
  tagged : tag = [] ∨ tag = [0xd8]
  body : Bpv7Canonical.Spec.IsBody tag (front ++ b.block.data) b.block
  check : IsCrcField b.block.crcType (front ++ b.block.data) crc (b.block.crc16, b.block.crc32)

theorem parts {b : BlockView} (h : IsBlock false b.raw b.block) : ∃ tag front crc, Parts b tag front crc := by
  obtain ⟨tag, ht, body, crc, hr, hb, hc⟩ := h
  obtain ⟨front, rfl⟩ := isBody_parts hb
  exact ⟨tag, front, crc, hr, ht, hb, hc⟩

theorem Parts.isBlock {b : BlockView} {tag front crc : Bytes} (h : Parts b tag front crc) : IsBlock false b.raw b.block :=
  ⟨tag, h.tagged, _, crc, h.raw, h.body, h.check⟩

theorem Parts.dataAt {b : BlockView} {tag front crc : Bytes} (h : Parts b tag front crc) : dataAt b = front.length := by
  unfold BpSecBundle.dataAt
  rw [h.raw, ← crcField_length h.check]
  simp only [List.length_append]; omega

/-- The data of a block may be replaced by others of the same length. -/
theorem isBody_data {tag front : Bytes} {c : Canonical} (h : Bpv7Canonical.Spec.IsBody tag (front ++ c.data) c) {d : Bytes}
    (hd : d.length = c.data.length) (a b : Nat) : Bpv7Canonical.Spec.IsBody tag (front ++ d) { c with data := d, crc16 := a, crc32 := b } := by
  obtain ⟨head, t, n, f, s, e, h1, h2, h3, h4, h5, h6⟩ := h
  have hf : front = head :: t ++ n ++ f ++ c.crcType :: tag ++ s := List.append_cancel_right e
  exact ⟨head, t, n, f, s, by rw [hf], h1, h2, h3, h4, h5, by rw [hd]; exact h6⟩

theorem writeAt_parts (a b c d : Bytes) (h : d.length = b.length) : writeAt (a ++ b ++ c) a.length d = a ++ d ++ c := by
  unfold writeAt
  have h1 : (a ++ b ++ c).take a.length = a := by rw [List.append_assoc, List.take_left]
  have h2 : (a ++ b ++ c).drop (a.length + d.length) = c := by rw [h, ← List.length_append, List.drop_left]
  rw [h1, h2, List.append_assoc]

theorem withData_parts {b : BlockView} {tag front crc : Bytes} (h : Parts b tag front crc) {d : Bytes}
    (hd : d.length = b.block.data.length) : (withData b d).raw = (front ++ d) ++ crc := by
  simp only [withData]
  rw [h.dataAt, h.raw, writeAt_parts _ _ _ _ hd]

/-- Replacing the data and computing the CRC. -/
theorem withDataCrc_spec {b : BlockView} {tag front crc : Bytes} (h : Parts b tag front crc) {d : Bytes}
    (hd : d.length = b.block.data.length) :
    ∃ crc' c16 c32, withDataCrc b d =
        { b with block := { b.block with data := d, crc16 := c16, crc32 := c32 }, raw := (front ++ d) ++ crc' } ∧ crc'.length = crc.length ∧ Parts (withDataCrc b d) tag front crc' := by
  have hw := withData_parts h hd
  have hl := crcField_length h.check
  obtain ⟨crc', c16, c32, hr, hf⟩ := recompute_spec { b.block with data := d } (front ++ d) crc (by
    rcases h.check with ⟨e, rfl, e'⟩ | ⟨e, rfl, _⟩ | ⟨e, rfl, _⟩
    · simp only [Prod.mk.injEq] at e'; exact Or.inl ⟨e, rfl, e'.1, e'.2⟩
    · exact Or.inr (Or.inl ⟨e, by simp⟩)
    · exact Or.inr (Or.inr ⟨e, by simp⟩))
  have he : withDataCrc b d =
      { b with block := { b.block with data := d, crc16 := c16, crc32 := c32 }, raw := (front ++ d) ++ crc' } := by
    have h2 : (withData b d).block = { b.block with data := d } := rfl
    unfold withDataCrc
    simp only [hw, h2, hr]
    rfl
  refine ⟨crc', c16, c32, he, by rw [crcField_length hf, hl], ?_⟩
  rw [he]
  exact ⟨rfl, h.tagged, isBody_data h.body hd _ _, hf⟩

/-- Writing the old data again gives the old block. -/
theorem withDataCrc_back {b : BlockView} {tag front crc : Bytes} (h : Parts b tag front crc) {d : Bytes}
    (hd : d.length = b.block.data.length) (body : Body) :
    withDataCrc { withDataCrc b d with body := body } b.block.data = { b with body := body } := by
  obtain ⟨crc1, x1, y1, e1, l1, p1⟩ := withDataCrc_spec h hd
  have p1' : Parts { withDataCrc b d with body := body } tag front crc1 := ⟨p1.raw, p1.tagged, p1.body, p1.check⟩
  have hd' : b.block.data.length = ({ withDataCrc b d with body := body } : BlockView).block.data.length := by
    rw [e1]; exact hd.symm
  obtain ⟨crc2, x2, y2, e2, l2, p2⟩ := withDataCrc_spec p1' hd'
  have hc := p2.check
  rw [e2] at hc
  simp only [e1] at hc
  obtain ⟨h1, h2⟩ := crcField_unique hc h.check
  simp only [Prod.mk.injEq] at h2
  rw [e2]
  simp only [e1, h1, h2.1, h2.2, ← h.raw]

/-- The header of a block is not touched. -/
theorem aadSize_some {b : BlockView} {tag front crc : Bytes} (h : Parts b tag front crc) :
    ∃ n, aadSize b.block = some n ∧ 1 + n ≤ front.length ∧ headerOf b = .ok ((front.drop 1).take n) := by
  obtain ⟨head, t, n, f, s, e, h1, h2, h3, h4, h5, h6⟩ := h.body
  have hf : front = head :: t ++ n ++ f ++ b.block.crcType :: tag ++ s := List.append_cancel_right e
  have m1 := encode_minimal _ _ h2
  have m2 := encode_minimal _ _ h4
  have m3 := encode_minimal _ _ h5
  rw [encode_length] at m1 m2 m3
  have hn : aadSize b.block = some (encodingSizeClassic b.block.typeCode.toNat + encodingSizeClassic b.block.number +
      encodingSizeClassic b.block.flags) := by
    simp only [aadSize, encodingSize_eq _ (isUint_lt h2), encodingSize_eq _ (isUint_lt h4), encodingSize_eq _ (isUint_lt h5)]
    rfl
  have hl : front.length = 1 + t.length + n.length + f.length + 1 + tag.length + s.length := by
    rw [hf]; simp only [List.length_append, List.length_cons]; omega
  refine ⟨_, hn, by omega, ?_⟩
  unfold headerOf
  rw [hn]
  simp only
  rw [if_neg (by rw [h.raw]; simp only [List.length_append]; omega), h.raw, List.append_assoc]
  congr 1
  rw [List.drop_append_of_le_length (by omega), List.take_append_of_le_length (by rw [List.length_drop]; omega)]

theorem headerOf_withDataCrc {b : BlockView} {tag front crc : Bytes} (h : Parts b tag front crc) {d : Bytes}
    (hd : d.length = b.block.data.length) (body : Body) :
    headerOf { withDataCrc b d with body := body } = headerOf b := by
  obtain ⟨crc1, x1, y1, e1, l1, p1⟩ := withDataCrc_spec h hd
  obtain ⟨n, a1, a2, a3⟩ := aadSize_some h
  obtain ⟨n', b1, b2, b3⟩ := aadSize_some p1
  have : n' = n := by
    rw [e1] at b1
    have : aadSize b.block = some n' := b1
    rw [a1] at this
    exact (Option.some.inj this).symm
  rw [a3, ← this, ← b3]
  rfl

/-- The header of a block that was just written. -/
theorem serializeWith_front {typeCode : UInt8} {number flags : Nat} {t : UInt8} {n : Nat} {d mem out : Bytes}
    {c : Canonical} (hd : d.length = n) (hm : n ≤ mem.length)
    (h : serializeWith typeCode number flags t n d mem = some (out, c)) :
    ∃ x rest, out = x :: (encodeU64 typeCode.toNat ++ (encodeU64 number ++ (encodeU64 flags ++ rest))) := by
  let front := UInt8.ofNat (4 <<< 5 ||| arraySize t) :: (encodeU64 typeCode.toNat ++ (encodeU64 number ++
    (encodeU64 flags ++ t :: byteStringHead n)))
  have hbody : ∀ data : Bytes, data.length = n → ∀ a b, Bpv7Canonical.serializeBody ⟨typeCode, number, flags, t, data, a, b⟩ =
      front ++ data := by
    intro data hd a b
    simp [Bpv7Canonical.serializeBody, front, hd]
  have hsp : (mem.take n).length = n := by rw [List.length_take]; omega
  have hoff : (front ++ mem.take n).length - n = front.length := by
    rw [List.length_append, hsp]; omega
  have key : ∃ field : Bytes, serializeWith typeCode number flags t n d mem =
      some (recompute ⟨typeCode, number, flags, t, d, 0, 0⟩ (front ++ d ++ field)) ∧
      ((t = 0 ∧ field = []) ∨ (t = 1 ∧ field.length = 3) ∨ (t = 2 ∧ field.length = 5)) := by
    have hdrop : (mem.take n).drop d.length = [] := List.drop_of_length_le (by omega)
    simp only [serializeWith] at h ⊢
    rw [if_neg (by omega)] at h ⊢
    unfold serializeNull at h ⊢
    simp only at h ⊢
    split_ifs at h ⊢ with h0 h1 h2
    · refine ⟨[], ?_, Or.inl ⟨h0, rfl⟩⟩
      simp only [Option.bind_eq_bind, Option.bind_some, Option.pure_def, Option.some.injEq]
      rw [hbody _ hsp, hoff]
      have := splice front (mem.take n) d [] (hd.trans hsp.symm)
      rw [List.append_nil] at this
      rw [this, hdrop, List.append_nil]
    · refine ⟨field16 0, ?_, Or.inr (Or.inl ⟨h1, by decide⟩)⟩
      simp only [Option.bind_eq_bind, Option.bind_some, Option.pure_def, Option.some.injEq]
      rw [hbody _ hsp, hoff, splice front (mem.take n) d _ (hd.trans hsp.symm), hdrop, List.append_nil]
    · refine ⟨field32 0, ?_, Or.inr (Or.inr ⟨h2, by decide⟩)⟩
      simp only [Option.bind_eq_bind, Option.bind_some, Option.pure_def, Option.some.injEq]
      rw [hbody _ hsp, hoff, splice front (mem.take n) d _ (hd.trans hsp.symm), hdrop, List.append_nil]
    · simp at h
  obtain ⟨field, hk, hf⟩ := key
  rw [hk] at h
  obtain ⟨crc, c16, c32, hr, _⟩ := recompute_spec ⟨typeCode, number, flags, t, d, 0, 0⟩ (front ++ d) field (by
    rcases hf with ⟨a, b⟩ | hf | hf
    · exact Or.inl ⟨a, b, rfl, rfl⟩
    · exact Or.inr (Or.inl hf)
    · exact Or.inr (Or.inr hf))
  rw [hr] at h
  simp only [Option.some.injEq, Prod.mk.injEq] at h
  refine ⟨UInt8.ofNat (4 <<< 5 ||| arraySize t), t :: (byteStringHead n ++ (d ++ crc)), ?_⟩
  rw [← h.1]
  simp [front]

theorem headerOf_fresh {b : BlockView} {x : UInt8} {rest : Bytes} (hn : b.block.number < 2 ^ 64) (hf : b.block.flags < 2 ^ 64)
    (h : b.raw = x :: (encodeU64 b.block.typeCode.toNat ++ (encodeU64 b.block.number ++ (encodeU64 b.block.flags ++ rest)))) :
    headerOf b = .ok (headerOfNew b.block) := by
  have ht : b.block.typeCode.toNat < 2 ^ 64 := by have := b.block.typeCode.toNat_lt; omega
  have hs : aadSize b.block = some (headerOfNew b.block).length := by
    simp only [aadSize, encodingSize_eq _ ht, encodingSize_eq _ hn, encodingSize_eq _ hf, headerOfNew, List.length_append,
      encode_length, Option.bind_eq_bind, Option.bind_some, Option.pure_def, Option.some.injEq]
    omega
  have hr : b.raw = x :: (headerOfNew b.block ++ rest) := by
    rw [h]; simp [headerOfNew]
  unfold headerOf
  rw [hs]
  simp only
  rw [if_neg (by rw [hr]; simp only [List.length_append, List.length_cons]; omega), hr]
  simp

end Hdtn.BpSecBundle
