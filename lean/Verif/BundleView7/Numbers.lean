import Verif.BundleView7.Render
import Mathlib.Data.List.Nodup

/-! The block numbers of a view. -/

namespace Hdtn.BundleView7

open Hdtn.HashMap16 Hdtn.Bpv7Canonical Hdtn.Bpv7Crc Hdtn.Bpv7Primary Hdtn.BpSec7 Spec

theorem release_testBit (free number n : Nat) :
    (release free number).testBit n = true ↔ free.testBit n = true ∨ (number ≤ 63 ∧ n = number) := by
  unfold release
  split_ifs with h
  · rw [Nat.testBit_or, Bool.or_eq_true, Nat.testBit_two_pow]
    simp only [decide_eq_true_eq, h, true_and]
    constructor
    · rintro (h1 | h1)
      · exact Or.inl h1
      · exact Or.inr h1.symm
    · rintro (h1 | h1)
      · exact Or.inl h1
      · exact Or.inr h1.symm
  · simp [h]

theorem releaseAll_testBit (ns : List Nat) : ∀ (free n : Nat),
    (ns.foldl release free).testBit n = true ↔ free.testBit n = true ∨ (n ≤ 63 ∧ n ∈ ns) := by
  induction ns with
  | nil => intro free n; simp
  | cons m ns ih =>
    intro free n
    rw [List.foldl_cons, ih, release_testBit]
    simp only [List.mem_cons]
    constructor
    · rintro ((h | ⟨h, rfl⟩) | ⟨h1, h2⟩)
      · exact Or.inl h
      · exact Or.inr ⟨h, Or.inl rfl⟩
      · exact Or.inr ⟨h1, Or.inr h2⟩
    · rintro (h | ⟨h1, rfl | h2⟩)
      · exact Or.inl (Or.inl h)
      · exact Or.inl (Or.inr ⟨h1, rfl⟩)
      · exact Or.inr ⟨h1, h2⟩

/-- The free numbers are unused. -/
def FreeUnused (v : View) : Prop := ∀ n, v.free.testBit n = true → n ≤ 63 ∧ Unused v.blocks n

theorem FreeUnused.lt {v : View} (h : FreeUnused v) : v.free < 2 ^ 64 := by
  refine Nat.lt_pow_two_of_testBit _ (fun i hi => ?_)
  rcases Bool.eq_false_or_eq_true (v.free.testBit i) with hb | hb
  · have := (h i hb).1; omega
  · exact hb

theorem exists_bit {x : Nat} (h : x ≠ 0) (hl : x < 2 ^ 64) : ∃ i, i < 64 ∧ x.testBit i = true := by
  obtain ⟨i, hi⟩ := Nat.exists_testBit_of_ne_zero h
  refine ⟨i, ?_, hi⟩
  by_contra hc
  have := Nat.testBit_lt_two_pow (x := x) (i := i) (lt_of_lt_of_le hl (Nat.pow_le_pow_right (by decide) (by omega)))
  rw [this] at hi; simp at hi

theorem find_lowest {x : Nat} (h : x ≠ 0) (hl : x < 2 ^ 64) :
    ∃ i, (List.range 64).find? (fun i => x.testBit i) = some i ∧ i < 64 ∧ x.testBit i = true ∧ ∀ j < i, x.testBit j = false := by
  obtain ⟨k, hk, hb⟩ := exists_bit h hl
  have hs : ((List.range 64).find? fun i => x.testBit i).isSome = true := by
    rw [List.find?_isSome]
    exact ⟨k, List.mem_range.2 hk, hb⟩
  obtain ⟨i, hi⟩ := Option.isSome_iff_exists.1 hs
  refine ⟨i, hi, List.mem_range.1 (List.mem_of_find?_eq_some hi), by simpa using List.find?_some hi, fun j hj => ?_⟩
  rw [List.find?_range_eq_some] at hi
  simpa using hi.2.2 j hj

theorem largest_spec (bs : List BlockView) : ∀ l : Nat,
    l ≤ bs.foldl (fun l b => if l < b.block.number then b.block.number else l) l ∧
    (∀ b ∈ bs, b.block.number ≤ bs.foldl (fun l b => if l < b.block.number then b.block.number else l) l) ∧
    (bs.foldl (fun l b => if l < b.block.number then b.block.number else l) l = l ∨
      ∃ b ∈ bs, bs.foldl (fun l b => if l < b.block.number then b.block.number else l) l = b.block.number) := by
  induction bs with
  | nil => intro l; simp
  | cons b bs ih =>
    intro l
    rw [List.foldl_cons]
    obtain ⟨h1, h2, h3⟩ := ih (if l < b.block.number then b.block.number else l)
    refine ⟨?_, ?_, ?_⟩
    · refine le_trans ?_ h1
      split_ifs <;> omega
    · intro x hx
      rcases List.mem_cons.1 hx with rfl | hx
      · refine le_trans ?_ h1
        split_ifs <;> omega
      · exact h2 x hx
    · rcases h3 with h3 | ⟨x, hx, h3⟩
      · rw [h3]
        split_ifs
        · exact Or.inr ⟨b, by simp, rfl⟩
        · exact Or.inl rfl
      · exact Or.inr ⟨x, by simp [hx], h3⟩

/-- All numbers leave room for a larger one. -/
def Room (v : View) : Prop := ∀ b ∈ v.blocks, b.block.number + 1 < 2 ^ 64

/-- The next number is unused. -/
theorem nextFree_unused (v : View) (h : FreeUnused v) (hr : v.free = 0 → Room v) :
    Unused v.blocks v.nextFree ∧ (v.free ≠ 0 → v.nextFree ≤ 63 ∧ ∀ m, m < v.nextFree → v.free.testBit m = false) ∧
      (v.free = 0 → 63 < v.nextFree ∧ ∀ b ∈ v.blocks, b.block.number < v.nextFree) := by
  unfold View.nextFree
  by_cases h0 : v.free = 0
  · simp only [h0, ne_eq, not_true_eq_false, if_false, false_implies, true_implies, true_and]
    obtain ⟨h1, h2, h3⟩ := largest_spec v.blocks 63
    have hlt : largest v.blocks + 1 < 2 ^ 64 := by
      unfold largest
      rcases h3 with h3 | ⟨b, hb, h3⟩
      · rw [h3]; decide
      · rw [h3]; exact hr h0 b hb
    rw [Nat.mod_eq_of_lt hlt]
    unfold largest at *
    refine ⟨⟨by omega, fun b hb hn => ?_⟩, by omega, fun b hb => ?_⟩
    · have := h2 b hb; omega
    · have := h2 b hb; omega
  · obtain ⟨i, hi, hi64, hb, hj⟩ := find_lowest h0 h.lt
    simp only [h0, ne_eq, not_false_eq_true, if_true, false_implies, true_implies, and_true, hi]
    exact ⟨(h i hb).2, (h i hb).1, hj⟩

/-! ### Numbers survive rendering -/

theorem recompute_number (c : Canonical) (bs : Bytes) : (recompute c bs).2.number = c.number := by
  unfold recompute
  split_ifs <;> rfl

theorem serializeWith_number {typeCode : UInt8} {number flags : Nat} {t : UInt8} {n : Nat} {d mem out : Bytes} {c : Canonical}
    (h : serializeWith typeCode number flags t n d mem = some (out, c)) : c.number = number := by
  simp only [serializeWith] at h
  split at h
  · simp at h
  · simp only [Option.bind_eq_bind, Option.bind_eq_some_iff, Prod.exists, Option.pure_def, Option.some.injEq] at h
    obtain ⟨bs, c1, hc, hr⟩ := h
    have h1 : c1.number = number := by
      unfold serializeNull at hc
      split_ifs at hc <;> simp only [Option.some.injEq, Prod.mk.injEq] at hc <;> rw [← hc.2]
    have h2 := recompute_number { c1 with data := d ++ (List.take n mem).drop d.length }
      (bs.take ((Bpv7Canonical.serializeBody c1).length - n) ++ (d ++ bs.drop ((Bpv7Canonical.serializeBody c1).length - n + d.length)))
    rw [hr] at h2
    rw [← h1]; exact h2

theorem stored_some {α : Type} {mem out : Bytes} {r : Option (Bytes × α)} {a : α} (h : stored mem r = .ok (out, a)) : r = some (out, a) := by
  unfold stored at h
  split at h
  · simp at h
  · split at h
    · simp at h
    · simp only [Out.ok.injEq, Prod.mk.injEq] at h
      rw [h.1, h.2]

theorem storedWith_some {mem out : Bytes} {n : Option Nat} {r : Option (Bytes × Canonical)} {a : Canonical}
    (h : storedWith mem n r = .ok (out, a)) : r = some (out, a) := by
  unfold storedWith at h
  split at h
  · simp at h
  · split at h
    · simp at h
    · exact stored_some h

theorem writeBlock_number {mem out : Bytes} {c c' : Canonical} {body : Body} (h : writeBlock mem c body = .ok (out, c')) :
    c'.number = c.number := by
  have hs : ∀ o : Bytes, Bpv7Canonical.serialize c = some (o, c') → c'.number = c.number := by
    intro o h
    unfold Bpv7Canonical.serialize at h
    split at h
    · simp at h
    · simp only [Option.some.injEq, Prod.mk.injEq] at h
      rw [← h.2]
  cases body with
  | plain => exact hs _ (stored_some h)
  | hidden => exact hs _ (stored_some h)
  | ext x =>
    have h := storedWith_some h
    rw [ext_serialize_eq] at h
    obtain ⟨n, _, h⟩ := Option.bind_eq_some_iff.1 h
    exact serializeWith_number h
  | sec a =>
    have h := storedWith_some h
    unfold Asb.serialize at h
    simp only [Option.bind_eq_bind, Option.bind_eq_some_iff] at h
    obtain ⟨n, _, d, _, h⟩ := h
    exact serializeWith_number h
  | admin r =>
    have h := storedWith_some h
    unfold AdminRecord7.Record.serialize at h
    simp only [Option.bind_eq_bind, Option.bind_eq_some_iff] at h
    obtain ⟨n, _, d, _, h⟩ := h
    exact serializeWith_number h

theorem render_number {mem out : Bytes} {b w : BlockView} (h : b.render mem = .ok (out, w)) :
    w.block.number = b.block.number ∧ w.deleted = b.deleted := by
  unfold BlockView.render at h
  split at h
  · rw [obind_ok] at h
    obtain ⟨⟨o, c⟩, hw, h⟩ := h
    simp only at h
    split at h
    · simp at h
    · simp only [Out.ok.injEq, Prod.mk.injEq] at h
      rw [← h.2]
      exact ⟨writeBlock_number hw, rfl⟩
  · have := stored_some h
    simp only [Option.some.injEq, Prod.mk.injEq] at this
    rw [← this.2]; exact ⟨rfl, rfl⟩

/-- The same numbers and marks. -/
def SameNumbers (b w : BlockView) : Prop := w.block.number = b.block.number ∧ w.deleted = b.deleted

theorem renderBlocks_number (bs : List BlockView) : ∀ {mem out : Bytes} {ws : List BlockView},
    renderBlocks mem bs = .ok (out, ws) → List.Forall₂ SameNumbers bs ws := by
  induction bs with
  | nil =>
    intro mem out ws h
    rw [renderBlocks] at h
    split at h
    · simp at h
    · simp only [Out.ok.injEq, Prod.mk.injEq] at h
      rw [← h.2]; exact List.Forall₂.nil
  | cons b bs ih =>
    intro mem out ws h
    rw [renderBlocks] at h
    split at h
    · simp at h
    · rw [obind_ok] at h
      obtain ⟨⟨o, w⟩, hw, h⟩ := h
      simp only at h
      rw [obind_ok] at h
      obtain ⟨⟨os, ws'⟩, hws, h⟩ := h
      simp only [Out.ok.injEq, Prod.mk.injEq] at h
      rw [← h.2]
      exact List.Forall₂.cons (render_number hw) (ih hws)

theorem renderFront_number (bs : List BlockView) : ∀ {mem out : Bytes} {ws : List BlockView},
    renderFront mem bs = .ok (out, ws) → List.Forall₂ SameNumbers bs ws := by
  induction bs with
  | nil =>
    intro mem out ws h
    rw [renderFront] at h
    split at h
    · simp at h
    · simp only [Out.ok.injEq, Prod.mk.injEq] at h
      rw [← h.2]; exact List.Forall₂.nil
  | cons b bs ih =>
    intro mem out ws h
    rw [renderFront] at h
    split at h
    · rename_i he
      split at h
      · simp at h
      · simp only [Out.ok.injEq, Prod.mk.injEq] at h
        rw [← h.2, List.isEmpty_iff.1 he]
        exact List.Forall₂.cons ⟨rfl, rfl⟩ List.Forall₂.nil
    · rw [obind_ok] at h
      obtain ⟨⟨o, w⟩, hw, h⟩ := h
      simp only at h
      rw [obind_ok] at h
      obtain ⟨⟨os, ws'⟩, hws, h⟩ := h
      simp only [Out.ok.injEq, Prod.mk.injEq] at h
      rw [← h.2]
      exact List.Forall₂.cons (render_number hw) (ih hws)

/-- Rendering removes the marked blocks and frees their numbers. -/
theorem renderWith_number {loop : Bytes → List BlockView → Out (Bytes × List BlockView)}
    (hloop : ∀ bs mem out ws, loop mem bs = .ok (out, ws) → List.Forall₂ SameNumbers bs ws) {mem out : Bytes} {v v' : View}
    (h : v.renderWith loop mem = .ok (out, v')) :
    List.Forall₂ SameNumbers (kept v.blocks) v'.blocks ∧ v'.free = freed v.free v.blocks := by
  unfold View.renderWith at h
  rw [obind_ok] at h
  obtain ⟨⟨pOut, p⟩, _, h⟩ := h
  simp only at h
  rw [obind_ok] at h
  obtain ⟨⟨o, ws⟩, hw, h⟩ := h
  simp only [Out.ok.injEq, Prod.mk.injEq] at h
  rw [← h.2]
  exact ⟨hloop _ _ _ _ hw, rfl⟩

theorem render_numbers {mem : Bytes} {v v' : View} (h : v.render mem = .ok v') :
    List.Forall₂ SameNumbers (kept v.blocks) v'.blocks ∧ v'.free = freed v.free v.blocks := by
  unfold View.render at h
  rw [obind_ok] at h
  obtain ⟨⟨o, v1⟩, hw, h⟩ := h
  simp only [Out.ok.injEq] at h
  have := renderWith_number (fun bs mem out ws => renderBlocks_number bs) hw
  rw [← h]; exact this

theorem renderInPlace_numbers {paddingLeft : Nat} {v v' : View} (h : v.renderInPlace paddingLeft = .done v') :
    List.Forall₂ SameNumbers (kept v.blocks) v'.blocks ∧ v'.free = freed v.free v.blocks := by
  unfold View.renderInPlace at h
  split at h
  · simp at h
  · split at h
    · simp at h
    · simp only at h
      split at h
      · simp at h
      · split at h
        · simp at h
        · simp at h
        · rename_i hw
          split at h
          · simp at h
          · simp only [InPlace.done.injEq] at h
            have := renderWith_number (fun bs mem out ws => renderFront_number bs) hw
            rw [← h]; exact this

/-! ### The invariant -/

/-- The numbers are distinct, a block marked for deletion has neither number 0 nor 1, and the free numbers are unused. -/
def NumbersOk (v : View) : Prop :=
  (v.blocks.map (·.block.number)).Nodup ∧ (∀ b ∈ v.blocks, b.deleted = true → 2 ≤ b.block.number) ∧ FreeUnused v

theorem sameNumbers_map {bs ws : List BlockView} (h : List.Forall₂ SameNumbers bs ws) :
    ws.map (·.block.number) = bs.map (·.block.number) ∧ ws.map (·.deleted) = bs.map (·.deleted) := by
  induction h with
  | nil => exact ⟨rfl, rfl⟩
  | cons h _ ih => exact ⟨by simp [h.1, ih.1], by simp [h.2, ih.2]⟩

theorem unused_iff (bs : List BlockView) (n : Nat) : Unused bs n ↔ 2 ≤ n ∧ n ∉ bs.map (·.block.number) := by
  simp [Unused]

/-- Blocks are taken out and their numbers freed. -/
theorem remove_ok (v : View) (p : BlockView → Bool) (h : NumbersOk v) (hp : ∀ b ∈ v.blocks, p b = true → 2 ≤ b.block.number) :
    ((v.blocks.filter fun b => !p b).map (·.block.number)).Nodup ∧
    ∀ n, (((v.blocks.filter p).map (·.block.number)).foldl release v.free).testBit n = true →
      n ≤ 63 ∧ Unused (v.blocks.filter fun b => !p b) n := by
  obtain ⟨h1, h2, h3⟩ := h
  refine ⟨h1.sublist (List.filter_sublist.map _), fun n hn => ?_⟩
  rw [releaseAll_testBit] at hn
  rcases hn with hn | ⟨hn, hm⟩
  · obtain ⟨g1, g2, g3⟩ := h3 n hn
    exact ⟨g1, g2, fun b hb => g3 b (List.mem_filter.1 hb).1⟩
  · obtain ⟨b, hb, rfl⟩ := List.mem_map.1 hm
    obtain ⟨hb1, hb2⟩ := List.mem_filter.1 hb
    refine ⟨hn, hp b hb1 hb2, fun c hc he => ?_⟩
    obtain ⟨hc1, hc2⟩ := List.mem_filter.1 hc
    have := List.inj_on_of_nodup_map h1 hc1 hb1 he
    rw [this, hb2] at hc2
    simp at hc2

theorem insert_ok (v : View) (b : BlockView) (bs : List BlockView) (hbs : bs.Perm (b :: v.blocks)) (hd : b.deleted = false)
    (hb : Unused v.blocks b.block.number) (h : NumbersOk v) :
    NumbersOk { v with blocks := bs, free := reserve v.free b.block.number } := by
  obtain ⟨h1, h2, h3⟩ := h
  refine ⟨?_, ?_, ?_⟩
  · refine ((hbs.map _).nodup_iff).2 ?_
    rw [List.map_cons, List.nodup_cons]
    exact ⟨((unused_iff _ _).1 hb).2, h1⟩
  · intro x hx hxd
    rcases List.mem_cons.1 (hbs.mem_iff.1 hx) with rfl | hx
    · rw [hd] at hxd; simp at hxd
    · exact h2 x hx hxd
  · intro n hn
    simp only at hn
    rw [reserve_testBit _ _ _ h3.lt] at hn
    obtain ⟨g1, g2, g3⟩ := h3 n hn.1
    refine ⟨g1, g2, fun x hx => ?_⟩
    rcases List.mem_cons.1 (hbs.mem_iff.1 hx) with rfl | hx
    · exact fun he => hn.2 he.symm
    · exact g3 x hx

theorem insertAt_perm (behind : Bool) (number : Nat) (b : BlockView) (xs : List BlockView) : ∀ {ys},
    insertAt behind number b xs = some ys → ys.Perm (b :: xs) := by
  induction xs with
  | nil => intro ys h; simp [insertAt] at h
  | cons x xs ih =>
    intro ys h
    rw [insertAt] at h
    split at h
    · simp only [Option.some.injEq] at h
      cases behind
      · simp only [Bool.false_eq_true, if_false] at h
        rw [← h]
      · simp only [if_true] at h
        rw [← h]
        exact List.Perm.swap _ _ _
    · obtain ⟨zs, hz, rfl⟩ := Option.map_eq_some_iff.1 h
      exact ((ih hz).cons x).trans (List.Perm.swap _ _ _)

theorem rendered_ok (v v' : View) (h : NumbersOk v) (h' : List.Forall₂ SameNumbers (kept v.blocks) v'.blocks ∧
    v'.free = freed v.free v.blocks) : NumbersOk v' := by
  obtain ⟨h1, h2⟩ := h'
  obtain ⟨m1, m2⟩ := sameNumbers_map h1
  obtain ⟨r1, r2⟩ := remove_ok v (·.deleted) h (fun b hb hd => h.2.1 b hb hd)
  refine ⟨by rw [m1]; exact r1, fun b hb hd => ?_, fun n hn => ?_⟩
  · have : true ∈ (kept v.blocks).map (·.deleted) := by
      rw [← m2]
      exact List.mem_map.2 ⟨b, hb, hd⟩
    obtain ⟨x, hx, hxd⟩ := List.mem_map.1 this
    have := (List.mem_filter.1 hx).2
    rw [hxd] at this; simp at this
  · rw [h2] at hn
    have := r2 n hn
    rw [unused_iff] at this ⊢
    rw [m1]; exact this

end Hdtn.BundleView7
