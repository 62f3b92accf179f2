import Verif.BpSecProcess.Bib
import Verif.BpSecProcess.Spec
import Verif.BpSecBundle.Props
import Verif.Iv.Props
import Mathlib.Data.List.Perm.Subperm

/-! Sending a bundle and receiving it again. -/

namespace Hdtn.BpSecProcess

open Hdtn.HashMap16 Hdtn.Bpv7Canonical Hdtn.Bpv7Canonical.Spec Hdtn.BpSec7 Hdtn.BundleView7 Hdtn.BundleView7.Spec
open Hdtn.BpSecBundle Hdtn.BpSecBundle.Spec Hdtn.BpSecProcess.Spec
open Hdtn.BpSecPolicy (Policy roleSource roleVerifier roleAcceptor typeBib)

theorem crc_toNat {c : Nat} (h : c = 0 ∨ c = 1 ∨ c = 2) : (UInt8.ofNat c).toNat = c := by
  rcases h with rfl | rfl | rfl <;> rfl

/-! ### The targets -/

theorem toNat_ofNat {t : Nat} (h : t ≤ 63) (c : UInt8) : c = UInt8.ofNat t ↔ c.toNat = t := by
  constructor
  · rintro rfl
    rw [UInt8.toNat_ofNat']
    omega
  · intro he
    rw [← he, UInt8.ofNat_toNat]

theorem mem_byType {v : View} {t : Nat} (ht : t ≤ 63) {n : Nat} :
    n ∈ (v.byType (UInt8.ofNat t)).map (·.block.number) ↔ ∃ b ∈ v.blocks, b.block.number = n ∧ b.block.typeCode.toNat = t := by
  unfold View.byType
  simp only [List.mem_map, List.mem_filter, decide_eq_true_eq, toNat_ofNat ht]
  constructor
  · rintro ⟨b, ⟨h1, h2⟩, h3⟩; exact ⟨b, h1, h3, h2⟩
  · rintro ⟨b, h1, h3, h2⟩; exact ⟨b, ⟨h1, h2⟩, h3⟩

theorem nodup_byType {v : View} (hn : (v.blocks.map (·.block.number)).Nodup) (t : UInt8) :
    ((v.byType t).map (·.block.number)).Nodup := by
  unfold View.byType
  exact hn.sublist (List.Sublist.map _ List.filter_sublist)

theorem mem_numbersOf {v : View} {types : List Nat} (ht : ∀ t ∈ types, t ≤ 63) {n : Nat} :
    n ∈ numbersOf v types ↔ ∃ b ∈ v.blocks, b.block.number = n ∧ b.block.typeCode.toNat ∈ types := by
  unfold numbersOf
  rw [List.mem_flatMap]
  constructor
  · rintro ⟨t, h1, h2⟩
    obtain ⟨b, h3, h4, h5⟩ := (mem_byType (ht t h1)).1 h2
    exact ⟨b, h3, h4, h5 ▸ h1⟩
  · rintro ⟨b, h1, h2, h3⟩
    exact ⟨_, h3, (mem_byType (ht _ h3)).2 ⟨b, h1, h2, rfl⟩⟩

theorem nodup_numbersOf {v : View} {types : List Nat} (ht : ∀ t ∈ types, t ≤ 63) (hd : types.Nodup)
    (hn : (v.blocks.map (·.block.number)).Nodup) : (numbersOf v types).Nodup := by
  unfold numbersOf
  rw [List.nodup_flatMap]
  refine ⟨fun t _ => nodup_byType hn _, ?_⟩
  refine (List.Pairwise.and_mem.1 hd).imp fun {a b} hab => ?_
  obtain ⟨ha, hb, hne⟩ := hab
  intro n h1 h2
  obtain ⟨x, x1, x2, x3⟩ := (mem_byType (ht a ha)).1 h1
  obtain ⟨y, y1, y2, y3⟩ := (mem_byType (ht b hb)).1 h2
  have := number_inj hn x1 y1 (by rw [x2, y2])
  subst this
  exact hne (x3.symm.trans y3)

theorem subset_length {xs ys : List Nat} (hd : xs.Nodup) (h : ∀ x ∈ xs, x ∈ ys) : xs.length ≤ ys.length :=
  (List.subperm_of_subset hd h).length_le

/-- The numbers of the targets of the confidentiality block. -/
def sealNumbers (v : View) (types : List Nat) (number : Nat) : List Nat := (sealTargets v types).map fun t => t.getD number

theorem sealNumbers_eq (v : View) (types : List Nat) (number : Nat) :
    sealNumbers v types number = types.flatMap fun t => if t = 11 then [number] else (v.byType (UInt8.ofNat t)).map (·.block.number) := by
  unfold sealNumbers sealTargets
  rw [List.map_flatMap]
  congr 1
  funext t
  by_cases h : t = typeBib
  · rw [if_pos h, if_pos (show t = 11 from h)]; rfl
  · rw [if_neg h, if_neg (show ¬ t = 11 from h), List.map_map]; rfl

/-- In a bundle with a new integrity block in front, or without. -/
theorem mem_sealNumbers {v : View} {types : List Nat} (ht : ∀ t ∈ types, t ≤ 63) {number : Nat} {secs : List BlockView}
    (hu : ∀ b ∈ v.blocks, b.block.typeCode ≠ 11)
    (hs : (∀ s ∈ secs, s.block.typeCode = 11 ∧ s.block.number = number) ∧ (11 ∈ types → secs ≠ [])) {n : Nat} :
    n ∈ sealNumbers v types number ↔ ∃ b ∈ secs ++ v.blocks, b.block.number = n ∧ b.block.typeCode.toNat ∈ types := by
  rw [sealNumbers_eq, List.mem_flatMap]
  constructor
  · rintro ⟨t, h1, h2⟩
    by_cases h : t = 11
    · rw [if_pos h] at h2
      subst h
      obtain ⟨s, r, hsr⟩ := List.exists_cons_of_ne_nil (hs.2 h1)
      obtain ⟨e1, e2⟩ := hs.1 s (by rw [hsr]; exact List.mem_cons_self)
      refine ⟨s, by rw [hsr]; simp, ?_, ?_⟩
      · rw [e2]; exact (List.mem_singleton.1 h2).symm
      · rw [e1]; exact h1
    · rw [if_neg h] at h2
      obtain ⟨b, h3, h4, h5⟩ := (mem_byType (ht t h1)).1 h2
      exact ⟨b, List.mem_append_right _ h3, h4, h5 ▸ h1⟩
  · rintro ⟨b, h1, h2, h3⟩
    rcases List.mem_append.1 h1 with h1 | h1
    · obtain ⟨e1, e2⟩ := hs.1 b h1
      refine ⟨11, by rw [e1] at h3; exact h3, ?_⟩
      rw [if_pos rfl, ← h2, e2]
      exact List.mem_singleton_self _
    · refine ⟨_, h3, ?_⟩
      rw [if_neg (fun he => hu b h1 (by rw [← UInt8.toNat_inj, he]; rfl))]
      exact (mem_byType (ht _ h3)).2 ⟨b, h1, h2, rfl⟩

theorem nodup_sealNumbers {v : View} {types : List Nat} (ht : ∀ t ∈ types, t ≤ 63) (hd : types.Nodup)
    (hn : (v.blocks.map (·.block.number)).Nodup) {number : Nat} (hnum : ∀ b ∈ v.blocks, b.block.number ≠ number) :
    (sealNumbers v types number).Nodup := by
  rw [sealNumbers_eq, List.nodup_flatMap]
  refine ⟨fun t _ => ?_, ?_⟩
  · split_ifs
    · simp
    · exact nodup_byType hn _
  refine (List.Pairwise.and_mem.1 hd).imp fun {a b} hab => ?_
  obtain ⟨ha, hb, hne⟩ := hab
  intro n h1 h2
  simp only at h1 h2
  split_ifs at h1 h2 with c1 c2 c2
  · exact hne (c1.trans c2.symm)
  · obtain ⟨y, y1, y2, y3⟩ := (mem_byType (ht b hb)).1 h2
    exact hnum y y1 (by rw [y2, List.mem_singleton.1 h1])
  · obtain ⟨x, x1, x2, x3⟩ := (mem_byType (ht a ha)).1 h1
    exact hnum x x1 (by rw [x2, List.mem_singleton.1 h2])
  · obtain ⟨x, x1, x2, x3⟩ := (mem_byType (ht a ha)).1 h1
    obtain ⟨y, y1, y2, y3⟩ := (mem_byType (ht b hb)).1 h2
    have := number_inj hn x1 y1 (by rw [x2, y2])
    subst this
    exact hne (x3.symm.trans y3)

theorem sealNumbers_length {v : View} {types : List Nat} (ht : ∀ t ∈ types, t ≤ 63) {number : Nat}
    (hd : (sealNumbers v types number).Nodup) : (sealNumbers v types number).length ≤ v.blocks.length + 1 := by
  have := subset_length (ys := number :: v.blocks.map (·.block.number)) hd fun n hn => by
    rw [sealNumbers_eq, List.mem_flatMap] at hn
    obtain ⟨t, h1, h2⟩ := hn
    split_ifs at h2
    · rw [List.mem_singleton.1 h2]; exact List.mem_cons_self
    · obtain ⟨b, h3, h4, _⟩ := (mem_byType (ht t h1)).1 h2
      exact List.mem_cons_of_mem _ (List.mem_map.2 ⟨b, h3, h4⟩)
  simpa using this

theorem maskOf_testBit (types : List Nat) (n : Nat) : (maskOf types).testBit n = true ↔ n ∈ types := by
  have : ∀ (ts : List Nat) (m : Nat), (ts.foldl (fun m t => m ||| 2 ^ t) m).testBit n = true ↔ m.testBit n = true ∨ n ∈ ts := by
    intro ts
    induction ts with
    | nil => intro m; simp
    | cons t ts ih =>
      intro m
      rw [List.foldl_cons, ih, Nat.testBit_or, Nat.testBit_two_pow]
      simp only [Bool.or_eq_true, decide_eq_true_eq, List.mem_cons]
      constructor
      · rintro ((h | h) | h)
        · exact Or.inl h
        · exact Or.inr (Or.inl h.symm)
        · exact Or.inr (Or.inr h)
      · rintro (h | h | h)
        · exact Or.inl (Or.inl h)
        · exact Or.inl (Or.inr h.symm)
        · exact Or.inr h
  unfold maskOf
  rw [this]
  simp

theorem keyOf_some {k : Bytes} (h : k ≠ []) : keyOf k = some k := by unfold keyOf; rw [if_neg h]

theorem keyOf_eq_some {k x : Bytes} (h : keyOf k = some x) : k ≠ [] ∧ x = k := by
  unfold keyOf at h
  split_ifs at h with h0
  exact ⟨h0, (Option.some.inj h).symm⟩

theorem keyOf_none {k : Bytes} (h : keyOf k = none) : k = [] := by
  unfold keyOf at h
  split_ifs at h with h0
  exact h0

theorem crc_ofNat {c : Nat} (h : c = 0 ∨ c = 1 ∨ c = 2) : UInt8.ofNat c = 0 ∨ UInt8.ofNat c = 1 ∨ UInt8.ofNat c = 2 := by
  rcases h with rfl | rfl | rfl
  · exact Or.inl rfl
  · exact Or.inr (Or.inl rfl)
  · exact Or.inr (Or.inr rfl)

theorem number_lt {v : View} {buf : Bytes} (hv : IsViewOf false v buf) : v.encrypted = allTargets v.blocks := hv.2.2.2.2.2.2.2.1

theorem allTargets_nil {bs : List BlockView} (h : ∀ b ∈ bs, b.block.typeCode ≠ 12) : allTargets bs = [] := by
  unfold allTargets
  rw [List.flatten_eq_nil_iff]
  intro l hl
  obtain ⟨b, hb, rfl⟩ := List.mem_map.1 hl
  exact targetsOf_other (h b hb)

theorem nextFree_lt {v : View} {buf : Bytes} (hv : IsViewOf false v buf) (hr : ∀ b ∈ v.blocks, b.block.number + 2 < 2 ^ 64) :
    v.nextFree + 1 < 2 ^ 64 := by
  have hfu : FreeUnused v := fun n hn => (hv.2.2.2.2.2.2.2.2.2.2.1 n).1 hn
  obtain ⟨_, h2, h3⟩ := nextFree_unused v hfu (fun _ b hb => by have := hr b hb; omega)
  by_cases h0 : v.free = 0
  · unfold View.nextFree
    rw [if_neg (by simpa using h0)]
    obtain ⟨_, _, h3⟩ := largest_spec v.blocks 63
    have : largest v.blocks + 2 < 2 ^ 64 := by
      unfold largest
      rcases h3 with h3 | ⟨b, hb, h3⟩
      · rw [h3]; decide
      · rw [h3]; exact hr b hb
    have := Nat.mod_le (largest v.blocks + 1) (2 ^ 64)
    omega
  · have := (h2 h0).1
    omega

theorem maySign_signable {v : View} {buf : Bytes} (hv : IsViewOf false v buf) (hu : Unprotected v) {source : Eid} {p : Policy}
    (h : MaySign source v p.bib) : Signable v (signParams p source (numbersOf v p.bib.targets)) p.bib.key := by
  have henc : v.encrypted = [] := by rw [number_lt hv]; exact allTargets_nil fun b hb => (hu.without b hb).2
  have ht := h.small
  refine ⟨keyOf_some h.key, fun k hk => ?_, h.variant, h.scope, crc_ofNat h.crc, h.source, ⟨?_, ?_⟩, fun t htt => ?_, ?_⟩
  · obtain ⟨h1, rfl⟩ := keyOf_eq_some hk
    exact h.kek h1
  · obtain ⟨b, hb, hbt⟩ := h.some
    exact List.ne_nil_of_mem ((mem_numbersOf ht).2 ⟨b, hb, rfl, hbt⟩)
  · have := subset_length (nodup_numbersOf ht h.different hu.different) (ys := v.blocks.map (·.block.number)) fun n hn => by
      obtain ⟨b, hb, e, _⟩ := (mem_numbersOf ht).1 hn
      exact List.mem_map.2 ⟨b, hb, e⟩
    rw [List.length_map] at this
    have := hu.few
    show (numbersOf v p.bib.targets).length ≤ 1000
    omega
  · obtain ⟨b, hb, e, _⟩ := (mem_numbersOf ht).1 htt
    right
    refine ⟨?_, by rw [henc]; simp, b, hb, e⟩
    have := hu.room b hb
    omega
  · rw [henc]; simp

theorem agree_verifies {v : View} (hu : Unprotected v) {source : Eid} {p q : Policy} (hd : p.doBib = true)
    (h : MaySign source v p.bib) (hall : AllThere v false p.bib.targets) (hq : Agree p q) :
    Verifies v (signParams p source (numbersOf v p.bib.targets)) (verifyParams q) := by
  obtain ⟨h1, h2, h3, h4, h5⟩ := hq.bib hd
  have ht := h.small
  refine ⟨h1, h2, fun n => ?_, fun hk => ?_, fun k hk => ?_⟩
  · show (maskOf q.bib.targets).testBit n = true ↔ _
    rw [maskOf_testBit, h3]
    constructor
    · intro hn
      refine ⟨ht n hn, Or.inr ?_⟩
      obtain ⟨_, h0⟩ | ⟨b, hb, hbt⟩ := hall n hn
      · exact absurd h0 Bool.false_ne_true
      exact ⟨b, hb, hu.nonzero b hb, (mem_numbersOf ht).2 ⟨b, hb, rfl, hbt ▸ hn⟩, hbt⟩
    · rintro ⟨_, ⟨_, h0⟩ | ⟨b, hb, _, hbm, e⟩⟩
      · obtain ⟨b, hb, e, _⟩ := (mem_numbersOf ht).1 h0
        exact absurd e (hu.nonzero b hb)
      · obtain ⟨c, hc, e1, e2⟩ := (mem_numbersOf ht).1 hbm
        have := number_inj hu.different hc hb e1
        subst this
        rw [← e]; exact e2
  · show keyOf q.bib.key = keyOf p.bib.key
    rw [h4 (keyOf_none hk)]
  · obtain ⟨k1, rfl⟩ := keyOf_eq_some hk
    show keyOf q.bib.kek = _
    rw [h5 k1]
    exact keyOf_some k1

/-- For a bundle that has perhaps got an integrity block in front. -/
theorem maySeal_sealable {v v1 : View} {buf : Bytes} (hv : IsViewOf false v1 buf) (hu : Unprotected v) {source : Eid} {p : Policy}
    (h : MaySeal source v p.doBib p.bcb) {secs : List BlockView} {number : Nat} (hb : v1.blocks = secs ++ v.blocks)
    (hs : ∀ s ∈ secs, s.block.typeCode = 11 ∧ s.block.number = number) (hne : p.doBib = true → secs ≠ [])
    (hnum : ∀ b ∈ v.blocks, b.block.number ≠ number) (hlt : number < 2 ^ 64) (iv : Bytes) (hiv : iv ≠ [] ∧ iv.length ≤ 2 ^ 32) :
    Sealable v1 (sealParams p source (sealNumbers v p.bcb.targets number) iv) p.bcb.key := by
  have ht := h.small
  have h11 : 11 ∈ p.bcb.targets → secs ≠ [] := fun h' => hne (h.integrity h')
  have hmem := fun {n : Nat} => mem_sealNumbers (n := n) (number := number) (secs := secs) ht (fun b hb => (hu.without b hb).1) ⟨hs, h11⟩
  have hno12 : ∀ b ∈ v1.blocks, b.block.typeCode ≠ 12 := by
    rw [hb]
    intro b hb
    rcases List.mem_append.1 hb with hb | hb
    · rw [(hs b hb).1]; decide
    · exact (hu.without b hb).2
  have henc : v1.encrypted = [] := by rw [number_lt hv]; exact allTargets_nil hno12
  have hnd := nodup_sealNumbers ht h.different hu.different hnum
  have hkey : p.bcb.key ≠ [] := by
    intro h0
    have := h.key
    rw [h0] at this
    simp at this
  refine ⟨keyOf_some hkey, h.key, fun k hk => ?_, hiv, h.variant, h.scope, crc_ofNat h.crc, h.source, ⟨?_, hnd, ?_⟩, fun t htt => ?_⟩
  · obtain ⟨h1, rfl⟩ := keyOf_eq_some hk
    exact h.kek h1
  · rcases h.some with htm | ⟨b, hb, e⟩
    · obtain ⟨s, r', hsr⟩ := List.exists_cons_of_ne_nil (h11 htm)
      refine List.ne_nil_of_mem (hmem.2 ⟨s, by rw [hsr]; simp, rfl, ?_⟩)
      rw [(hs s (by rw [hsr]; exact List.mem_cons_self)).1]
      exact htm
    · exact List.ne_nil_of_mem (hmem.2 ⟨b, List.mem_append_right _ hb, rfl, e⟩)
  · have := sealNumbers_length (number := number) ht hnd
    have := hu.few
    show (sealNumbers v p.bcb.targets number).length ≤ 1000
    omega
  · obtain ⟨b, hbm, e, _⟩ := hmem.1 htt
    rw [← hb] at hbm
    refine ⟨?_, by rw [henc]; simp, b, hbm, e, hno12 b hbm⟩
    rw [hb] at hbm
    rcases List.mem_append.1 hbm with hbm | hbm
    · rw [← e, (hs b hbm).2]; exact hlt
    · have := hu.room b hbm
      omega

theorem agree_opens {v v1 : View} (hu : Unprotected v) {source : Eid} {p q : Policy} (hd : p.doBcb = true)
    (h : MaySeal source v p.doBib p.bcb) (hall : AllThere v p.doBib p.bcb.targets) (hq : Agree p q) {secs : List BlockView} {number : Nat} (hb : v1.blocks = secs ++ v.blocks)
    (hs : ∀ s ∈ secs, s.block.typeCode = 11 ∧ s.block.number = number) (hne : p.doBib = true → secs ≠ [])
    (hn : (v1.blocks.map (·.block.number)).Nodup) (iv : Bytes) (hiv : iv.length = if p.bcb.short then 12 else 16) :
    Opens v1 (sealParams p source (sealNumbers v p.bcb.targets number) iv) (openParams q) := by
  obtain ⟨h1, h2, h3, h4, h5, h6⟩ := hq.bcb hd
  have ht := h.small
  have h11 : 11 ∈ p.bcb.targets → secs ≠ [] := fun h' => hne (h.integrity h')
  have hmem := fun {n : Nat} => mem_sealNumbers (n := n) (number := number) (secs := secs) ht (fun b hb => (hu.without b hb).1) ⟨hs, h11⟩
  refine ⟨h1, ?_, h3, fun n => ?_, fun hk => ?_, fun k hk => ?_⟩
  · show (if q.bcb.short then 12 else 16) = iv.length
    rw [hiv, h2]
  · show (maskOf q.bcb.targets).testBit n = true ↔ _
    rw [maskOf_testBit, h4]
    constructor
    · intro hn'
      refine ⟨ht n hn', ?_⟩
      have : ∃ b ∈ secs ++ v.blocks, b.block.typeCode.toNat = n := by
        rcases hall n hn' with ⟨rfl, hd⟩ | ⟨b, hb, e⟩
        · obtain ⟨s, r', hsr⟩ := List.exists_cons_of_ne_nil (hne hd)
          refine ⟨s, by rw [hsr]; simp, ?_⟩
          rw [(hs s (by rw [hsr]; exact List.mem_cons_self)).1]
          rfl
        · exact ⟨b, List.mem_append_right _ hb, e⟩
      obtain ⟨b, hbm, e⟩ := this
      exact ⟨b, by rw [hb]; exact hbm, hmem.2 ⟨b, hbm, rfl, e ▸ hn'⟩, e⟩
    · rintro ⟨_, b, hbm, hbt, e⟩
      obtain ⟨c, hc, e1, e2⟩ := hmem.1 hbt
      rw [← hb] at hc
      have := number_inj hn hc hbm e1
      subst this
      rw [← e]; exact e2
  · show keyOf q.bcb.key = keyOf p.bcb.key
    rw [h5 (keyOf_none hk)]
  · obtain ⟨k1, rfl⟩ := keyOf_eq_some hk
    show keyOf q.bcb.kek = _
    rw [h6 k1]
    exact keyOf_some k1

/-! ### The steps -/

theorem positions_one {v : View} {t : UInt8} {pre post : List BlockView} {b : BlockView} (hb : v.blocks = pre ++ b :: post)
    (ht : b.block.typeCode = t) (ho : ∀ x ∈ pre ++ post, x.block.typeCode ≠ t) : positions v t = [pre.length] := by
  have hmem : ∀ i, i ∈ positions v t ↔ i ∈ [pre.length] := by
    intro i
    rw [positions_spec, List.mem_singleton, hb]
    constructor
    · rintro ⟨x, hx, hxt⟩
      by_contra hne
      rcases Nat.lt_or_gt_of_ne hne with h | h
      · rw [List.getElem?_append_left h] at hx
        exact ho x (List.mem_append_left _ (List.mem_of_getElem? hx)) hxt
      · rw [List.getElem?_append_right (by omega), show i - pre.length = (i - pre.length - 1) + 1 by omega, List.getElem?_cons_succ] at hx
        exact ho x (List.mem_append_right _ (List.mem_of_getElem? hx)) hxt
    · rintro rfl
      exact ⟨b, by simp, ht⟩
  exact List.perm_singleton.1 ((List.perm_ext_iff_of_nodup (positions_nodup v t) (List.nodup_singleton _)).2 hmem)

theorem positions_none {v : View} {t : UInt8} (h : ∀ b ∈ v.blocks, b.block.typeCode ≠ t) : positions v t = [] := by
  refine List.eq_nil_iff_forall_not_mem.2 fun i hi => ?_
  obtain ⟨b, hb, ht⟩ := positions_spec.1 hi
  exact h b (List.mem_of_getElem? hb) ht

/-- The integrity block that is made. -/
structure IsBib (C : Crypto) (p : Policy) (source : Eid) (v : View) (bib : BlockView) : Prop where
  type : bib.block.typeCode = 11
  number : bib.block.number = v.nextFree
  unused : Unused v.blocks v.nextFree
  crc : bib.block.crcType = UInt8.ofNat p.bib.crc
  deleted : bib.deleted = false
  body : bib.body = .sec (bibAsb (signParams p source (numbersOf v p.bib.targets)) ((keyOf p.bib.kek).map fun k => C.wrap k p.bib.key)
    ((numbersOf v p.bib.targets).map fun t => mac C p.bib.variant p.bib.key p.bib.scope v.primaryRaw
      (headerOfNew (bibOf (signParams p source (numbersOf v p.bib.targets)) v.nextFree)) (named v t)))
  header : headerOf bib = .ok (headerOfNew (bibOf (signParams p source (numbersOf v p.bib.targets)) v.nextFree))

theorem signStep_full {C : Crypto} (hC : Lawful C) {v : View} {buf : Bytes} (hv : IsViewOf false v buf) (hu : Unprotected v)
    (hlen : buf.length < 2 ^ 61) {p : Policy} {source : Eid} (hm : p.doBib = true → MaySign source v p.bib) {room : Nat} {v1 : View}
    {room1 number : Nat} (h : signStep C p source v room = .ok (v1, room1, number)) :
    ∃ secs : List BlockView, IsViewOf false v1 v1.rendered ∧ v1.primaryRaw = v.primaryRaw ∧ v1.primary = v.primary ∧
      v1.blocks = secs ++ v.blocks ∧ v1.rendered.length ≤ buf.length + 256 ∧ number + 1 < 2 ^ 64 ∧
      (∀ b ∈ v.blocks, b.block.number ≠ number) ∧ (∀ s ∈ secs, s.block.number = number ∧ IsBib C p source v s) ∧
      (p.doBib = true → ∃ s, secs = [s]) ∧ (p.doBib = false → secs = [] ∧ v1 = v ∧ room1 = room) := by
  unfold signStep at h
  by_cases hd : p.doBib = true
  · rw [if_pos hd] at h
    obtain ⟨u', w, bib, _, _, _, _, b1, b2, _, b4, b5, b6, b7, b8, ⟨g1, g2, g3, g4⟩, hs⟩ :=
      sign_full_view hC hv (fun b hb => by have := hu.room b hb; omega) (by omega) (maySign_signable hv hu (hm hd))
    rw [hs room] at h
    by_cases h1 : buf.length + 256 < u'.rendered.length
    · rw [if_pos h1] at h; simp [Out.bind] at h
    rw [if_neg h1] at h
    by_cases h2 : buf.length + room < u'.rendered.length
    · rw [if_pos h2] at h; simp [Out.bind] at h
    rw [if_neg h2] at h
    simp only [Out.bind, g4, Out.ok.injEq, Prod.mk.injEq] at h
    obtain ⟨rfl, rfl, rfl⟩ := h
    refine ⟨[bib], g1, g2, g3, g4, by omega, ?_, ?_, ?_, fun _ => ⟨bib, rfl⟩, fun h0 => ?_⟩
    · rw [b2]; exact nextFree_lt hv hu.room
    · rw [b2]; exact b8.2
    · intro s hs'
      rw [List.mem_singleton.1 hs']
      exact ⟨rfl, b1, b2, b8, b4, b5, b6, b7⟩
    · rw [hd] at h0; simp at h0
  · rw [if_neg hd] at h
    simp only [Out.ok.injEq, Prod.mk.injEq] at h
    obtain ⟨rfl, rfl, rfl⟩ := h
    have hren : v.rendered = buf := hv.2.2.2.2.2.2.2.2.2.2.2
    refine ⟨[], by rw [hren]; exact hv, rfl, rfl, rfl, by rw [hren]; omega, by decide, hu.nonzero, by simp,
      fun h0 => absurd h0 hd, fun _ => ⟨rfl, rfl, rfl⟩⟩

theorem stepBcb_ok {E : Env} {ghost : Nat → Asb} {pad : Bytes} {w w1 : View} {bcb : BlockView} {rest : List BlockView} {a : Asb}
    {q : Policy} (hb : w.blocks = bcb :: rest) (ht : bcb.block.typeCode = 12) (hr : ∀ b ∈ rest, b.block.typeCode ≠ 12)
    (ha : bcb.body = .sec a) (hs : E.search w.primary a.source = .acceptor q) (hd : q.doBcb = true)
    (ho : decrypt E.crypto false (openParams q) pad 0 w = .ok ([], w1)) :
    steps (stepBcb E ghost pad) (positions w 12) w = .ok (.keep w1) := by
  rw [positions_one (pre := []) hb ht (by simpa using hr)]
  have h0 : w.blocks[0]? = some bcb := by rw [hb]; rfl
  have hse : settle ghost 0 w = w := settle_sec h0 (by rw [ha]; simp)
  simp only [List.length_nil, steps]
  have : stepBcb E ghost pad 0 w = .ok (.keep w1) := by
    unfold stepBcb
    rw [hse]
    simp only
    rw [h0]
    simp only [asbOf, ha, hs]
    unfold openBy
    simp only [hd, Bool.not_true, Bool.false_eq_true, if_false, ho, Out.bind, if_true]
  rw [this]
  rfl

theorem stepBib_ok {E : Env} {ghost : Nat → Asb} {w : View} {bib : BlockView} {pre rest : List BlockView} {a : Asb}
    {q : Policy} (hb : w.blocks = pre ++ bib :: rest) (ht : bib.block.typeCode = 11) (hr : ∀ b ∈ pre ++ rest, b.block.typeCode ≠ 11)
    (ha : bib.body = .sec a) (hs : E.search w.primary a.source = .acceptor q) (hd : q.doBib = true)
    (ho : verify E.crypto true (verifyParams q) pre.length w = .ok ([], View.setDeleted w pre.length true)) :
    steps (stepBib E ghost) (positions w 11) w = .ok (.keep (View.setDeleted w pre.length true)) := by
  rw [positions_one hb ht hr]
  have h0 : w.blocks[pre.length]? = some bib := by rw [hb]; simp
  have hse : settle ghost pre.length w = w := settle_sec h0 (by rw [ha]; simp)
  simp only [steps]
  have : stepBib E ghost pre.length w = .ok (.keep (View.setDeleted w pre.length true)) := by
    unfold stepBib
    rw [hse]
    simp only
    rw [h0]
    simp only [asbOf, ha, hs]
    unfold verifyBy
    simp only [hd, Bool.not_true, Bool.false_eq_true, if_false, ho, Out.bind, if_true]
  rw [this]
  rfl

theorem modify_mid {α : Type} (f : α → α) (pre post : List α) (b : α) : (pre ++ b :: post).modify pre.length f = pre ++ f b :: post := by
  induction pre with
  | nil => rfl
  | cons x xs ih => simp [List.modify_succ_cons, ih]

theorem setDeleted_at (w : View) (pre post : List BlockView) (b : BlockView) :
    View.setDeleted (putBlocks w (pre ++ b :: post)) pre.length true = putBlocks w ((pre ++ [{ b with deleted := true }]) ++ post) := by
  unfold View.setDeleted putBlocks layout
  simp [modify_mid, raws]

/-- The integrity block of a bundle whose confidentiality block, if any, was accepted. -/
theorem bibPart {C : Crypto} (hC : Lawful C) {E : Env} (hE : E.crypto = C) {ghost : Nat → Asb} {v : View} {buf : Bytes}
    (hv : IsViewOf false v buf) (hu : Unprotected v) {p q : Policy} {source : Eid} (hm : p.doBib = true → MaySign source v p.bib)
    (hall : p.doBib = true → AllThere v false p.bib.targets) (hq : Agree p q) (hf : E.search v.primary source = .acceptor q) {w : View} (hwp : w.primaryRaw = v.primaryRaw)
    (hwq : w.primary = v.primary) {pre secs : List BlockView}
    (hpre : ∀ b ∈ pre, b.block.typeCode ≠ 11 ∧ Unused v.blocks b.block.number) (hpd : ∀ b ∈ pre, b.deleted = true ∧ IsSecType b.block.typeCode)
    (hs : ∀ s ∈ secs, IsBib C p source v s) (h1 : p.doBib = true → ∃ s, secs = [s]) (h0 : p.doBib = false → secs = []) :
    ∃ del : List BlockView, steps (stepBib E ghost) (positions (putBlocks w (pre ++ (secs ++ v.blocks))) 11)
        (putBlocks w (pre ++ (secs ++ v.blocks))) = .ok (.keep (putBlocks w (del ++ v.blocks))) ∧
      (∀ d ∈ del, d.deleted = true ∧ IsSecType d.block.typeCode) ∧ raws del = raws (pre ++ secs) := by
  rcases Bool.eq_false_or_eq_true p.doBib with hd | hd
  · obtain ⟨s, rfl⟩ := h1 hd
    have hs := hs s (List.mem_singleton_self _)
    refine ⟨pre ++ [{ s with deleted := true }], ?_, ?_, by simp [raws]⟩
    · have := stepBib_ok (E := E) (ghost := ghost) (w := putBlocks w (pre ++ s :: v.blocks)) (q := q) rfl hs.type
        (fun b hb => (List.mem_append.1 hb).elim (fun h => (hpre b h).1) (fun h => (hu.without b h).1)) hs.body
        (by show E.search w.primary source = _; rw [hwq]; exact hf) (by rw [hq.doBib]; exact hd) (by
          rw [hE]
          exact verify_at (w := putBlocks w (pre ++ s :: v.blocks)) hC hv hu.different (maySign_signable hv hu (hm hd)) (agree_verifies hu hd (hm hd) (hall hd) hq) hwp rfl
            (fun b hb => (hpre b hb).2) hs.number hs.unused hs.body hs.header true)
      rw [setDeleted_at] at this
      exact this
    · intro d hd'
      rcases List.mem_append.1 hd' with h | h
      · exact hpd d h
      · rw [List.mem_singleton.1 h]
        exact ⟨rfl, Or.inl hs.type⟩
  · have := h0 hd
    subst this
    refine ⟨pre, ?_, hpd, by simp⟩
    rw [List.nil_append, positions_none (t := 11)]
    · rfl
    · intro b hb
      exact (List.mem_append.1 hb).elim (fun h => (hpre b h).1) (fun h => (hu.without b h).1)

/-- All about sending a bundle and receiving it again. -/
theorem send_full {C : Crypto} (hC : Lawful C) {v : View} {buf : Bytes} (hv : IsViewOf false v buf) (hu : Unprotected v)
    (hlen : buf.length < 2 ^ 61) {p : Policy} {source : Eid} (hm : p.doBib = true → MaySign source v p.bib)
    (hm' : p.doBcb = true → MaySeal source v p.doBib p.bcb) {g g' : Iv.Gen} {room left : Nat} {v' : View}
    (h : send C p source g v room = .ok (v', left, g')) :
    g' = (if p.doBcb then (g.next p.bcb.short).1 else g) ∧ v'.rendered.length ≤ buf.length + 512 ∧
    ∃ w : View, IsViewOf false w v'.rendered ∧ IsProtected C p source (g.next p.bcb.short).2 v w ∧
      ∀ (E : Env) (ghost : Nat → Asb) (pad : Bytes) (q : Policy), E.crypto = C → Agree p q →
        (p.doBib = true → AllThere v false p.bib.targets) → (p.doBcb = true → AllThere v p.doBib p.bcb.targets) → E.search v.primary source = .acceptor q →
        (v'.rendered ++ pad).length < 2 ^ 64 →
        ∃ del : List BlockView, receive E ghost pad w = .ok (.keep (putBlocks w (del ++ v.blocks))) ∧
          (∀ d ∈ del, d.deleted = true ∧ IsSecType d.block.typeCode) ∧
          (raws del).length + buf.length = v'.rendered.length := by
  unfold send at h
  obtain ⟨⟨v1, room1, number⟩, hsign, h⟩ := obind_ok.1 h
  obtain ⟨secs, hv1, hp1, hq1, hb1, hl1, hn1, hnum, hsecs, hone, hnone⟩ := signStep_full hC hv hu hlen hm hsign
  have hbuf : buf = layout v.primaryRaw v.blocks := by
    have := isView_layout hv
    rw [hv.2.2.2.2.2.2.2.2.2.2.2] at this
    exact this
  have hlv1 := isView_layout hv1
  have hraw1 : v1.rendered.length = (raws secs).length + buf.length := by
    rw [hlv1, hbuf, hp1, hb1]
    simp only [layout, raws_append, List.length_append, List.length_cons]
    omega
  have hmade : if p.doBib then ∃ bib a, secs = [bib] ∧ Covers 11 p.bib.crc source p.bib.targets v.blocks bib a else secs = [] := by
    split_ifs with hd
    · obtain ⟨s, rfl⟩ := hone hd
      obtain ⟨_, hs⟩ := hsecs s (List.mem_singleton_self _)
      exact ⟨s, _, rfl, hs.type, by rw [hs.crc]; exact crc_toNat (hm hd).crc, hs.body, rfl, fun n => mem_numbersOf (hm hd).small⟩
    · exact (hnone (by simpa using hd)).1
  simp only at h
  by_cases hd : p.doBcb = true
  · rw [if_pos hd] at h
    obtain ⟨⟨v2, room2⟩, henc, h⟩ := obind_ok.1 h
    simp only [Out.ok.injEq, Prod.mk.injEq] at h
    obtain ⟨rfl, rfl, rfl⟩ := h
    have hivl := Iv.C89_length g p.bcb.short
    have hs1 : ∀ s ∈ secs, s.block.typeCode = 11 ∧ s.block.number = number := fun s hs => ⟨(hsecs s hs).2.type, (hsecs s hs).1⟩
    have hne : p.doBib = true → secs ≠ [] := by
      intro hb
      obtain ⟨s, rfl⟩ := hone hb
      simp
    have hsealable := maySeal_sealable hv1 hu (hm' hd) hb1 hs1 hne hnum (by omega) (g.next p.bcb.short).2 ⟨by
      intro h0
      rw [h0] at hivl
      split_ifs at hivl <;> simp at hivl, by
      rw [hivl]
      split_ifs <;> omega⟩
    have hn1' : (v1.blocks.map (·.block.number)).Nodup := by
      rw [hb1]
      rcases Bool.eq_false_or_eq_true p.doBib with hb | hb
      · obtain ⟨s, rfl⟩ := hone hb
        rw [List.cons_append, List.nil_append, List.map_cons, List.nodup_cons]
        refine ⟨fun hmem => ?_, hu.different⟩
        obtain ⟨b, hb, e⟩ := List.mem_map.1 hmem
        rw [(hsecs s (List.mem_singleton_self _)).1] at e
        exact hnum b hb e
      · rw [(hnone hb).1]
        exact hu.different
    have hr1 : ∀ b ∈ v1.blocks, b.block.number + 1 < 2 ^ 64 := by
      rw [hb1]
      intro b hb
      rcases List.mem_append.1 hb with hb | hb
      · rw [(hsecs b hb).1]; exact hn1
      · have := hu.room b hb; omega
    have hno12 : ∀ b ∈ secs ++ v.blocks, b.block.typeCode ≠ 12 := by
      intro b hb
      rcases List.mem_append.1 hb with hb | hb
      · rw [(hsecs b hb).2.type]; decide
      · exact (hu.without b hb).2
    obtain ⟨u', w, bcb, xs, h1, h2, h3, h4, h5, h6, h7, h8, h9, h10, h11, h12, h13, h14⟩ :=
      encrypt_full hC hv1 hn1' hr1 (by omega) hsealable
    have henc' := henc
    rw [if_pos hd] at henc
    rw [show (List.map (fun t => t.getD number) (sealTargets v p.bcb.targets)) = sealNumbers v p.bcb.targets number from rfl, h14 room1] at henc
    by_cases hg1 : v1.rendered.length + 256 < u'.rendered.length
    · rw [if_pos hg1] at henc; simp at henc
    rw [if_neg hg1] at henc
    by_cases hg2 : v1.rendered.length + room1 < u'.rendered.length
    · rw [if_pos hg2] at henc; simp at henc
    rw [if_neg hg2] at henc
    simp only [Out.ok.injEq, Prod.mk.injEq] at henc
    obtain ⟨rfl, rfl⟩ := henc
    have hclean1 := isView_clean hv1
    have ht := (hm' hd).small
    have h11' : 11 ∈ p.bcb.targets → secs ≠ [] := fun h' => hne ((hm' hd).integrity h')
    have hmem := fun {n : Nat} => mem_sealNumbers (n := n) (number := number) (secs := secs) ht (fun b hb => (hu.without b hb).1)
      ⟨hs1, h11'⟩
    have hwr : w.rendered = u'.rendered := h1.2.2.2.2.2.2.2.2.2.2.2
    have hsz : u'.rendered.length = bcb.raw.length + v1.rendered.length := by
      rw [← hwr, isView_layout h1, h4, h2, hlv1]
      have e1 := mix_length
        (p := fun n => decide (n ∈ (sealParams p source (sealNumbers v p.bcb.targets number) (g.next p.bcb.short).2).targets))
        (f := sealB C p.bcb.key (sealParams p source (sealNumbers v p.bcb.targets number) (g.next p.bcb.short).2).iv) (bs := v1.blocks)
        (fun b hb => (sealB_spec hC _ _ (hclean1 b hb).1).2.1) v1.primaryRaw
      simp only [layout, raws_cons, List.length_append, List.length_cons] at e1 ⊢
      omega
    refine ⟨by rw [if_pos hd], by omega, w, h1, ⟨by rw [h3, hq1], by rw [h2, hp1], secs, [bcb], _, h4, hmade, ?_, ?_⟩,
      fun E ghost pad q hE hq ha1 ha2 hf hpad => ?_⟩
    · rw [if_pos hd]
      exact ⟨bcb, _, rfl, ⟨h6, by rw [h9]; exact crc_toNat (hm' hd).crc, h11, rfl, fun n => hmem⟩, List.mem_cons_self⟩
    · rw [← hb1]
      refine List.forall₂_map_right_iff.2 (List.forall₂_same.2 fun b hb => ?_)
      obtain ⟨_, _, s3, s4, s5, s6, s7, _⟩ := sealB_spec hC p.bcb.key (g.next p.bcb.short).2 (hclean1 b hb).1
      have hiff : b.block.number ∈ sealNumbers v p.bcb.targets number ↔ b.block.typeCode.toNat ∈ p.bcb.targets := by
        rw [hmem]
        constructor
        · rintro ⟨c, hc, e1, e2⟩
          rw [← hb1] at hc
          have := number_inj hn1' hc hb e1
          subst this
          exact e2
        · intro h'
          exact ⟨b, by rw [← hb1]; exact hb, rfl, h'⟩
      by_cases hin : b.block.typeCode.toNat ∈ p.bcb.targets
      · rw [if_pos ⟨hd, hin⟩]
        simp only [sealParams, hiff, hin, decide_true, if_true]
        exact ⟨s3, s4, s5, s6, s7⟩
      · rw [if_neg (fun h => hin h.2)]
        simp only [sealParams, hiff, hin, decide_false, Bool.false_eq_true, if_false]
    · have hopens := agree_opens (v1 := v1) hu hd (hm' hd) (ha2 hd) hq hb1 hs1 hne hn1' (source := source) (g.next p.bcb.short).2 hivl
      obtain ⟨_, hdec⟩ := decrypt_full hC hv1 hn1' hsealable hopens h1 h2 h3 h4 h5 h7 h13 h10 h11 h12 hpad
      have hstep := stepBcb_ok (E := E) (ghost := ghost) (q := q) h4 h6 (by
        intro b hb
        obtain ⟨c, hc, rfl⟩ := List.mem_map.1 hb
        rw [hb1] at hc
        split_ifs
        · rw [(sealB_spec hC _ _ (hclean1 c (by rw [hb1]; exact hc)).1).2.2.1]
          exact hno12 c hc
        · exact hno12 c hc) h11 (by rw [h3, hq1]; exact hf) (by rw [hq.doBcb]; exact hd) (by rw [hE]; exact hdec)
      have hun : Unused v.blocks bcb.block.number := by
        rw [h7]
        exact ⟨h13.1, fun b hb => h13.2 b (by rw [hb1]; exact List.mem_append_right _ hb)⟩
      obtain ⟨del, hdel, hdd, hdr⟩ := bibPart hC hE (ghost := ghost) hv hu hm ha1 hq hf (w := w) (by rw [h2, hp1]) (by rw [h3, hq1])
        (pre := [{ bcb with deleted := true }]) (secs := secs) (by
          intro b hb
          rw [List.mem_singleton.1 hb]
          exact ⟨by show bcb.block.typeCode ≠ 11; rw [h6]; decide, hun⟩) (by
          intro b hb
          rw [List.mem_singleton.1 hb]
          exact ⟨rfl, Or.inr h6⟩) (fun s hs => (hsecs s hs).2) hone (fun h => (hnone h).1)
      refine ⟨del, ?_, hdd, ?_⟩
      · unfold receive
        rw [hstep]
        simp only [Out.bind]
        rw [hb1]
        exact hdel
      · rw [hdr, raws_append, List.length_append]
        have : (raws [({ bcb with deleted := true } : BlockView)]).length = bcb.raw.length := by simp [raws]
        omega
  · rw [if_neg hd] at h
    simp only [Out.ok.injEq, Prod.mk.injEq] at h
    obtain ⟨rfl, rfl, rfl⟩ := h
    refine ⟨by rw [if_neg hd], by omega, v1, hv1, ⟨hq1, hp1, secs, [], _, hb1, hmade, by rw [if_neg hd], ?_⟩,
      fun E ghost pad q hE hq ha1 ha2 hf hpad => ?_⟩
    · refine List.forall₂_same.2 fun b hb => ?_
      rw [if_neg (fun h => hd h.1)]
    · obtain ⟨del, hdel, hdd, hdr⟩ := bibPart hC hE (ghost := ghost) hv hu hm ha1 hq hf (w := v1) hp1 hq1
        (pre := []) (secs := secs) (by simp) (by simp) (fun s hs => (hsecs s hs).2) hone (fun h => (hnone h).1)
      refine ⟨del, ?_, hdd, ?_⟩
      · unfold receive
        rw [positions_none (t := 12)]
        · simp only [steps, Out.bind]
          rw [List.nil_append, ← hb1, putBlocks_self _ hlv1] at hdel
          exact hdel
        · rw [hb1]
          intro b hb
          rcases List.mem_append.1 hb with hb | hb
          · rw [(hsecs b hb).2.type]; decide
          · exact (hu.without b hb).2
      · rw [hdr, List.nil_append]
        omega

end Hdtn.BpSecProcess
