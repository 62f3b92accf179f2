import Verif.BpSecProcess.Spec
import Verif.BpSecBundle.Auth

/-! Views that differ in marks and in some blocks. -/

namespace Hdtn.BpSecProcess

open Hdtn.HashMap16 Hdtn.Bpv7Canonical Hdtn.BpSec7 Hdtn.BundleView7 Hdtn.BundleView7.Spec Hdtn.BpSecBundle Spec

/-- Nothing but marks has changed outside of the positions `T`, and no mark has gone from a block that is no security
block. -/
structure Near (T : Nat → Prop) (v w : View) : Prop where
  primary : w.primary = v.primary
  primaryRaw : w.primaryRaw = v.primaryRaw
  length : w.blocks.length = v.blocks.length
  block : ∀ (i : Nat) x, v.blocks[i]? = some x → ∃ y, w.blocks[i]? = some y ∧ y.block.number = x.block.number ∧
    y.block.typeCode = x.block.typeCode ∧ (¬ T i → ∃ d, y = { x with deleted := d }) ∧
    (¬ IsSecType x.block.typeCode → x.deleted = true → y.deleted = true)

theorem Near.refl (T : Nat → Prop) (v : View) : Near T v v :=
  ⟨rfl, rfl, rfl, fun _ x hx => ⟨x, hx, rfl, rfl, fun _ => ⟨x.deleted, rfl⟩, fun _ h => h⟩⟩

theorem Near.trans {T : Nat → Prop} {u v w : View} (h : Near T u v) (g : Near T v w) : Near T u w := by
  refine ⟨g.primary.trans h.primary, g.primaryRaw.trans h.primaryRaw, g.length.trans h.length, fun i x hx => ?_⟩
  obtain ⟨y, y1, y2, y3, y4, y5⟩ := h.block i x hx
  obtain ⟨z, z1, z2, z3, z4, z5⟩ := g.block i y y1
  refine ⟨z, z1, z2.trans y2, z3.trans y3, fun hT => ?_, fun hs hd => z5 (by rw [y3]; exact hs) (y5 hs hd)⟩
  obtain ⟨d, rfl⟩ := y4 hT
  obtain ⟨e, rfl⟩ := z4 hT
  exact ⟨e, rfl⟩

theorem Near.mono {T U : Nat → Prop} {v w : View} (h : Near T v w) (hTU : ∀ i, T i → U i) : Near U v w :=
  ⟨h.primary, h.primaryRaw, h.length, fun i x hx => by
    obtain ⟨y, y1, y2, y3, y4, y5⟩ := h.block i x hx
    exact ⟨y, y1, y2, y3, fun hU => y4 (fun hT => hU (hTU i hT)), y5⟩⟩

theorem Near.numbers {T : Nat → Prop} {v w : View} (h : Near T v w) :
    w.blocks.map (·.block.number) = v.blocks.map (·.block.number) := by
  refine List.ext_getElem? fun i => ?_
  rw [List.getElem?_map, List.getElem?_map]
  cases hx : v.blocks[i]? with
  | none =>
    have : w.blocks[i]? = none := by
      rw [List.getElem?_eq_none_iff] at hx ⊢
      rw [h.length]; exact hx
    rw [this]
  | some x =>
    obtain ⟨y, y1, y2, _⟩ := h.block i x hx
    rw [y1]
    simp [y2]

theorem Near.types {T : Nat → Prop} {v w : View} (h : Near T v w) :
    w.blocks.map (·.block.typeCode) = v.blocks.map (·.block.typeCode) := by
  refine List.ext_getElem? fun i => ?_
  rw [List.getElem?_map, List.getElem?_map]
  cases hx : v.blocks[i]? with
  | none =>
    have : w.blocks[i]? = none := by
      rw [List.getElem?_eq_none_iff] at hx ⊢
      rw [h.length]; exact hx
    rw [this]
  | some x =>
    obtain ⟨y, y1, _, y2, _⟩ := h.block i x hx
    rw [y1]
    simp [y2]

theorem Near.indexOf {T : Nat → Prop} {v w : View} (h : Near T v w) (t : Nat) : View.indexOf w t = View.indexOf v t :=
  indexOf_congr h.numbers t

theorem Near.back {T : Nat → Prop} {v w : View} (h : Near T v w) {i : Nat} {y : BlockView} (hy : w.blocks[i]? = some y) :
    ∃ x, v.blocks[i]? = some x := by
  have : i < v.blocks.length := by
    have := (List.getElem?_eq_some_iff.1 hy).1
    rw [h.length] at this
    exact this
  exact ⟨_, List.getElem?_eq_getElem this⟩

theorem near_setDeleted (v : View) (i : Nat) : Near (fun _ => False) v (View.setDeleted v i true) := by
  refine ⟨rfl, rfl, by simp [View.setDeleted], fun j x hx => ?_⟩
  by_cases hj : i = j
  · subst hj
    refine ⟨{ x with deleted := true }, ?_, rfl, rfl, fun _ => ⟨true, rfl⟩, fun _ _ => rfl⟩
    simp [View.setDeleted, List.getElem?_modify, hx]
  · refine ⟨x, ?_, rfl, rfl, fun _ => ⟨x.deleted, rfl⟩, fun _ h => h⟩
    have hj' : ¬ i = j := hj
    simp [View.setDeleted, List.getElem?_modify, hx, hj']

theorem near_removeTarget (v : View) (n : Nat) : Near (fun _ => False) v (removeTarget v n) := by
  unfold removeTarget
  split
  · exact .refl _ _
  · exact near_setDeleted _ _

theorem removeTarget_marks {v : View} {n i : Nat} (h : View.indexOf v n = some i) {y : BlockView}
    (hy : (removeTarget v n).blocks[i]? = some y) : y.deleted = true := by
  unfold removeTarget at hy
  rw [h] at hy
  simp only [View.setDeleted, List.getElem?_modify] at hy
  cases hx : v.blocks[i]? with
  | none => rw [hx] at hy; simp at hy
  | some x =>
    rw [hx] at hy
    simp only [Option.map_eq_map, Option.map_some, Option.some.injEq] at hy
    rw [← hy]
    simp

/-- One block is replaced by one of the same number, type and mark. -/
theorem near_set {v : View} {r : Bytes} {i : Nat} {x y : BlockView} (hx : v.blocks[i]? = some x) (h1 : y.block.number = x.block.number)
    (h2 : y.block.typeCode = x.block.typeCode) (h3 : ¬ IsSecType x.block.typeCode → x.deleted = true → y.deleted = true) :
    Near (fun k => k = i) v { v with blocks := v.blocks.set i y, rendered := r } := by
  have hi := (List.getElem?_eq_some_iff.1 hx).1
  refine ⟨rfl, rfl, by simp, fun j z hz => ?_⟩
  by_cases hj : i = j
  · subst hj
    rw [hx] at hz
    simp only [Option.some.injEq] at hz
    subst hz
    exact ⟨y, by simp [hi], h1, h2, fun h => absurd rfl h, h3⟩
  · exact ⟨z, by simp [hj, hz], rfl, rfl, fun _ => ⟨z.deleted, rfl⟩, fun _ h => h⟩

end Hdtn.BpSecProcess
