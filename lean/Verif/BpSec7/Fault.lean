import Verif.BpSec7.Write

/-! Lemmas about reading outside a security block. -/

namespace Hdtn.BpSec7

open Hdtn.HashMap16 Hdtn.Cbor Hdtn.Cbor.Spec Hdtn.Cbhe Hdtn.Cbhe.Spec Hdtn.Bpv7Canonical Hdtn.Bpv7Canonical.Spec
  Hdtn.AdminRecord7 Hdtn.AdminRecord7.Spec Spec

theorem fault_bind {α β : Type} (f : α → Out β) : ((Out.fault : Out α) >>= f) = .fault := by
  show Out.bind _ _ = _
  rw [Out.bind]

theorem isUint_small (k : Nat) (h : k < 24) : IsUint [UInt8.ofNat k] k := by
  have h3 : (UInt8.ofNat k).toNat = k := by rw [UInt8.toNat_ofNat']; omega
  exact ⟨_, [], rfl, Or.inl ⟨by omega, rfl, h3.symm⟩⟩

/-- A byte string whose head announces more than the memory holds, while the size allows it. -/
theorem bytesR_fault {c : Cur} {h t : Bytes} {n : Nat} (hc : Fine c) (hm : c.mem = h ++ t) (hh : IsStringHead h n)
    (hs : h.length + n ≤ c.size) (ht : t.length < n) : bytesR c = .fault := by
  unfold bytesR
  rw [if_neg (by omega), reads_head_string.complete h n t c hc hh hm (by omega), ok_bind]
  simp only
  rw [if_neg (by rw [advance_size hc (by omega)]; omega),
    if_pos (by simp only [Cur.advance, hm, List.drop_left]; exact ht)]

theorem results_fault {context : Nat} {c : Cur} {h t : Bytes} {n : Nat} (hc : Fine c)
    (hm : c.mem = 0x81 :: 0x81 :: 0x82 :: 1 :: (h ++ t)) (hx : context % 2 ^ 32 = 1 ∨ context % 2 ^ 32 = 2)
    (hh : IsStringHead h n) (hs : 4 + h.length + n ≤ c.size) (ht : t.length < n) :
    vecR false context maxElements true c = .fault := by
  have hk : kindOf false context 1 = some .bytes := by
    simp only [kindOf, Bool.false_eq_true, if_false]
    rw [if_pos hx, if_pos (by decide)]
  have a1 := reads_head_array.complete [0x81] 1 (0x81 :: 0x82 :: 1 :: (h ++ t)) c hc isArrayHead_81 hm
    (by simp only [List.length_singleton]; omega)
  have hc1 := fine_advance hc 1
  have hs1 := advance_size hc (k := 1) (by omega)
  have hm1 : (c.advance 1).mem = 0x81 :: 0x82 :: 1 :: (h ++ t) := by simp only [Cur.advance, hm]; rfl
  have a2 := (reads_wrap true).complete [0x81] () (0x82 :: 1 :: (h ++ t)) _ hc1 rfl hm1
    (by simp only [List.length_singleton]; omega)
  have hc2 := fine_advance hc1 1
  have hs2 := advance_size hc1 (k := 1) (by omega)
  have hm2 : ((c.advance 1).advance 1).mem = 0x82 :: 1 :: (h ++ t) := by
    rw [show ((c.advance 1).advance 1).mem = (c.advance 1).mem.drop 1 from rfl, hm1]; rfl
  have a3 := reads_checked.complete [0x82] 0x82 (1 :: (h ++ t)) _ hc2 rfl hm2
    (by simp only [List.length_singleton]; omega)
  have hc3 := fine_advance hc2 1
  have hs3 := advance_size hc2 (k := 1) (by omega)
  have hm3 : (((c.advance 1).advance 1).advance 1).mem = 1 :: (h ++ t) := by
    rw [show (((c.advance 1).advance 1).advance 1).mem = ((c.advance 1).advance 1).mem.drop 1 from rfl, hm2]; rfl
  have a4 := reads_uint.complete [1] 1 (h ++ t) _ hc3 (isUint_small 1 (by decide)) hm3
    (by simp only [List.length_singleton]; omega)
  have hc4 := fine_advance hc3 1
  have hs4 := advance_size hc3 (k := 1) (by omega)
  have hm4 : ((((c.advance 1).advance 1).advance 1).advance 1).mem = h ++ t := by
    rw [show ((((c.advance 1).advance 1).advance 1).advance 1).mem = (((c.advance 1).advance 1).advance 1).mem.drop 1
      from rfl, hm3]; rfl
  have a5 := bytesR_fault hc4 hm4 hh (by omega) ht
  simp only [List.length_singleton] at a1 a2 a3 a4
  have a6 : idValueR false context ((c.advance 1).advance 1) = .fault := by
    unfold idValueR
    rw [a3, ok_bind]
    simp only
    rw [if_neg (by decide), a4, ok_bind]
    simp only [hk, valueR]
    rw [a5, fault_bind, fault_bind]
  have a7 : pairsR false context true 1 (c.advance 1) = .fault := by
    unfold pairsR
    rw [a2, ok_bind]
    simp only
    rw [a6, fault_bind]
  have a0 : byteR c = .ok (0x81, c.advance 1) := by simp only [byteR, hm]
  unfold vecR
  rw [if_neg (by omega), a0, ok_bind]
  simp only
  rw [if_neg (by decide), a1, ok_bind]
  simp only
  rw [if_neg (show ¬ maxElements < 1 by decide), a7]

/-- The data end before the source. -/
theorem read_fault (old : Asb) (front source h t : Bytes) (w : Asb) (e : Eid) (n : Nat) (hf : TakenForFront front w)
    (hp : w.flags % 2 = 0) (hx : w.context % 2 ^ 32 = 1 ∨ w.context % 2 ^ 32 = 2) (he : IsEid7 source e)
    (hlen : source.length ≤ front.length) (hh : IsStringHead h n) (ht : t.length < n)
    (hl : (front ++ (source ++ 0x81 :: 0x81 :: 0x82 :: 1 :: (h ++ t))).length + n < 2 ^ 63) :
    read old front (source ++ 0x81 :: 0x81 :: 0x82 :: 1 :: (h ++ t)) = .fault := by
  have hl' := hl
  simp only [List.length_append, List.length_cons] at hl'
  have h3 := isEid7_length he
  have hc : Fine ⟨front ++ (source ++ 0x81 :: 0x81 :: 0x82 :: 1 :: (h ++ t)), front.length⟩ := ⟨by simp only; omega, by simp only; omega⟩
  unfold read
  rw [front_complete (t := source ++ 0x81 :: 0x81 :: 0x82 :: 1 :: (h ++ t)) hc hf rfl (Nat.le_refl _)]
  have hc1 := fine_advance hc front.length
  have hs1 := advance_size hc (Nat.le_refl front.length)
  have hm1 : (Cur.advance ⟨front ++ (source ++ 0x81 :: 0x81 :: 0x82 :: 1 :: (h ++ t)), front.length⟩ front.length).mem =
      source ++ 0x81 :: 0x81 :: 0x82 :: 1 :: (h ++ t) := by simp only [Cur.advance, List.drop_left]
  generalize (Cur.advance ⟨front ++ (source ++ 0x81 :: 0x81 :: 0x82 :: 1 :: (h ++ t)), front.length⟩ front.length) = c1 at *
  simp only [Nat.sub_self] at hs1
  have hc2 := fine_advance hc1 source.length
  have hs2 : (c1.advance source.length).size = 2 ^ 64 - source.length := by
    simp only [Cur.advance, hs1]
    omega
  have hm2 : (c1.advance source.length).mem = 0x81 :: 0x81 :: 0x82 :: 1 :: (h ++ t) := by
    simp only [Cur.advance, hm1, List.drop_left]
  unfold tailR
  rw [sourceR_complete hc1 (by omega) he hm1 hlen, ok_bind]
  simp only [paramsR]
  rw [if_neg (by omega), ok_bind]
  simp only
  rw [results_fault hc2 hm2 hx hh (by rw [hs2]; omega) ht, fault_bind, fault_bind]

/-- The data end where a result should begin, and so does the memory. -/
theorem read_fault_end (old : Asb) (front source : Bytes) (w : Asb) (e : Eid) (hf : TakenForFront front w)
    (hp : w.flags % 2 = 0) (he : IsEid7 source e) (hl : (front ++ (source ++ [0x81])).length < 2 ^ 64) :
    read old (front ++ (source ++ [0x81])) [] = .fault := by
  have hl' := hl
  simp only [List.length_append, List.length_singleton] at hl'
  have hc : Fine ⟨front ++ (source ++ [0x81]) ++ [], (front ++ (source ++ [0x81])).length⟩ :=
    ⟨by rw [List.append_nil]; exact hl, hl⟩
  unfold read
  rw [front_complete (t := source ++ [0x81]) hc hf (by rw [List.append_nil]) (by simp only [List.length_append]; omega)]
  have hc1 := fine_advance hc front.length
  have hs1 := advance_size (k := front.length) hc (by simp only [List.length_append]; omega)
  have hm1 : (Cur.advance ⟨front ++ (source ++ [0x81]) ++ [], (front ++ (source ++ [0x81])).length⟩ front.length).mem =
      source ++ [0x81] := by simp only [Cur.advance, List.append_nil, List.drop_left]
  generalize (Cur.advance ⟨front ++ (source ++ [0x81]) ++ [], (front ++ (source ++ [0x81])).length⟩ front.length) = c1 at *
  simp only [List.length_append, List.length_singleton] at hs1
  have hc2 := fine_advance hc1 source.length
  have hs2 := advance_size (k := source.length) hc1 (by omega)
  have hm2 : (c1.advance source.length).mem = [0x81] := by simp only [Cur.advance, hm1, List.drop_left]
  unfold tailR
  rw [sourceR_complete hc1 (by simp only [List.length_append, List.length_singleton]; omega) he hm1
    (by simp only [List.length_append]; omega), ok_bind]
  simp only [paramsR]
  rw [if_neg (by omega), ok_bind]
  simp only
  generalize c1.advance source.length = c2 at *
  have a1 := reads_head_array.complete [0x81] 1 [] c2 hc2 isArrayHead_81 hm2 (by simp only [List.length_singleton]; omega)
  have a0 : byteR c2 = .ok (0x81, c2.advance 1) := by simp only [byteR, hm2]
  have a2 : pairsR false w.context true 1 (c2.advance 1) = .fault := by
    have : (c2.advance 1).mem = [] := by simp only [Cur.advance, hm2]; rfl
    unfold pairsR wrapR
    simp only [if_true, byteR, this, fault_bind]
  have a3 : vecR false w.context maxElements true c2 = .fault := by
    unfold vecR
    rw [if_neg (by omega), a0, ok_bind]
    simp only
    rw [if_neg (by decide), a1, ok_bind]
    simp only [List.length_singleton]
    rw [if_neg (show ¬ maxElements < 1 by decide), a2]
  rw [a3, fault_bind, fault_bind]

end Hdtn.BpSec7
