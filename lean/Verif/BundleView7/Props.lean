import Verif.BundleView7.Numbers

/-! C77 and C78: loading, editing and rendering BPv7 bundles. -/

namespace Hdtn.BundleView7

open Hdtn.HashMap16 Hdtn.Cbor Hdtn.Cbor.Spec Hdtn.Bpv7Canonical Hdtn.Bpv7Canonical.Spec Hdtn.Bpv7Crc Hdtn.Bpv7Primary
open Hdtn.Cbhe.Spec Hdtn.Bpv7Primary.Spec Hdtn.BpSec7 Hdtn.BpSec7.Spec Spec

/-! ### Sample bundles -/

/-- A primary block, its bytes, a bundle age block and a payload block. -/
def samplePrimary : Primary := ⟨0, ⟨2, 1⟩, ⟨1, 1⟩, ⟨0, 0⟩, 1, 0, 1, 0, 0, 0, 0, 0⟩

def samplePrimaryRaw : Bytes := [0x88, 7, 0, 0, 0x82, 2, 0x82, 2, 1, 0x82, 2, 0x82, 1, 1, 0x82, 1, 0, 0x82, 1, 0, 1]

def ageBytes (number age : UInt8) : Bytes := [0x85, 7, number, 0, 0, 0x41, age]

def payloadBytes : Bytes := [0x85, 1, 1, 0, 0, 0x42, 9, 8]

def bundleOf (blocks : List Bytes) : Bytes := 0x9f :: samplePrimaryRaw ++ blocks.flatten ++ [0xff]

def ageBlock (number age : UInt8) : BlockView :=
  ⟨⟨7, number.toNat, 0, 0, [age], 0, 0⟩, .ext (.bundleAge age.toNat), ageBytes number age, false, false⟩

def payloadBlock : BlockView := ⟨⟨1, 1, 0, 0, [9, 8], 0, 0⟩, .plain, payloadBytes, false, false⟩

/-- The view of the bundle with a bundle age block and a payload block. -/
def sampleView : View :=
  ⟨samplePrimary, samplePrimaryRaw, false, [ageBlock 2 5, payloadBlock], freeInit - 4, [], bundleOf [ageBytes 2 5, payloadBytes]⟩

theorem sample_loads : load ⟨[], []⟩ false (bundleOf [ageBytes 2 5, payloadBytes]) [] = .ok sampleView := by decide +kernel

/-! ### C77: loading -/

/-- C77, loading: a bundle loads, into a view without recycled objects, exactly if it is a primary block that is no
fragment and canonical blocks, the last and only the last a payload block with number 1, each with the right CRC and
the content of its type, no block named twice by confidentiality blocks; and the view shows exactly these blocks. -/
theorem C77_load_iff (skip : Bool) (buf pad : Bytes) (v : View) (hl : (buf ++ pad).length < 2 ^ 64) :
    load ⟨[], []⟩ skip buf pad = .ok v ↔ IsViewOf skip v buf :=
  load_iff skip buf pad v hl

theorem sample_isView : IsViewOf false sampleView (bundleOf [ageBytes 2 5, payloadBytes]) :=
  (C77_load_iff false _ [] _ (by decide)).1 sample_loads

/-- C77, loading: what recycled block objects held before does not matter, except for security parameters that the
block does not have. -/
theorem C77_recycled (b1 b2 : Bin) (skip : Bool) (buf pad : Bytes) (hl : (buf ++ pad).length < 2 ^ 64) (v : View)
    (h : load b1 skip buf pad = .ok v) :
    ∃ bs, load b2 skip buf pad = .ok { v with blocks := bs } ∧
      List.Forall₂ (fun x y : BlockView => x.block = y.block ∧ x.raw = y.raw ∧ x.dirty = y.dirty ∧ x.deleted = y.deleted ∧
        SameContent x.body y.body) v.blocks bs :=
  load_same b1 b2 skip buf pad hl v h

example : (bundleOf [ageBytes 2 5, payloadBytes] ++ []).length < 2 ^ 64 ∧
    load ⟨[], []⟩ false (bundleOf [ageBytes 2 5, payloadBytes]) [] = .ok sampleView := ⟨by decide, sample_loads⟩

/-- C77, memory: loading a bundle that has no security block reads no memory outside the bundle, whatever its bytes.
Missing: bundles with security blocks, see `C77_fault_violated`. -/
theorem C77_no_fault_partial (bin : Bin) (skip : Bool) (buf pad : Bytes)
    (h : ∀ pre raw post c, buf = pre ++ (raw ++ post) → IsBlock skip raw c → ¬ IsSecType c.typeCode) :
    load bin skip buf pad ≠ .fault :=
  load_safe bin skip buf pad h

/-- The bytes of a block are preceded by no byte 11 or 12 in the bundle with a payload block alone, so none of its
substrings is a security block. -/
example (bin : Bin) (pad : Bytes) : load bin false (bundleOf [payloadBytes]) pad ≠ .fault := by
  refine C77_no_fault_partial bin false _ pad (fun pre raw post c h hb hs => ?_)
  have hmem : ∀ x ∈ bundleOf [payloadBytes], x ≠ 11 ∧ x ≠ 12 := by decide +kernel
  have hin : ∀ x ∈ raw, x ∈ bundleOf [payloadBytes] := by
    intro x hx
    rw [h]
    simp [hx]
  obtain ⟨tag, _, hc⟩ := hb
  simp only [Bool.false_eq_true, if_false] at hc
  obtain ⟨body, crc, rfl, ⟨head, t, n, f, s, rfl, _, ht, _⟩, _⟩ := hc
  have htn : c.typeCode.toNat = 11 ∨ c.typeCode.toNat = 12 := by
    rcases hs with hs | hs <;> rw [hs]
    · exact Or.inl rfl
    · exact Or.inr rfl
  obtain ⟨x, w, rfl, hx⟩ := ht
  have hxm : x ∈ bundleOf [payloadBytes] := hin x (by simp)
  have hxs : ∀ x ∈ bundleOf [payloadBytes], x.toNat ≤ 2 ∨ 7 ≤ x.toNat ∧ x.toNat ≤ 9 ∨ 60 ≤ x.toNat := by decide +kernel
  have hxx := hxs x hxm
  rcases hx with ⟨h1, h2, h3⟩ | ⟨j, h1, h2, h3, h4⟩
  · omega
  · have : x.toNat = 0x18 + j := by rw [← h2]
    omega

/-- C77, memory, violated: loading reads behind the memory there is, whatever was loaded before, when the first block of
the bundle is a confidentiality block whose source lies behind it and whose result announces more bytes than there
are. -/
theorem C77_fault_violated (bin : Bin) (skip : Bool) (pRaw raw tail pad source head more : Bytes) (p : Primary) (c : Canonical)
    (w : Asb) (e : Eid) (n : Nat) (hp : IsPrimary pRaw p) (hpf : p.flags % 2 ≠ 1) (hp1 : p.fragOffset = 0) (hp2 : p.totalAdu = 0)
    (hc : IsBlock skip raw c) (hty : c.typeCode = 12) (hcrc : c.crcType = 0)
    (hbehind : tail ++ pad = source ++ 0x81 :: 0x81 :: 0x82 :: 1 :: (head ++ more))
    (hf : TakenForFront c.data w) (hfl : w.flags % 2 = 0) (hx : w.context % 2 ^ 32 = 1 ∨ w.context % 2 ^ 32 = 2)
    (he : IsEid7 source e) (hlen : source.length ≤ c.data.length) (hh : IsStringHead head n) (hm : more.length < n)
    (hl : (c.data ++ (tail ++ pad)).length + n < 2 ^ 63) :
    load bin skip (0x9f :: (pRaw ++ (raw ++ tail))) pad = .fault := by
  obtain ⟨front, crc, hraw, hcs⟩ := isBlock_parts hc
  rw [hcrc] at hcs
  have hcrc0 : crc = [] := by
    rw [show crcSize 0 = some 0 from rfl, Option.some.injEq] at hcs
    exact List.length_eq_zero_iff.1 hcs.symm
  subst hcrc0
  have hitem : readItem skip bin pad (raw ++ tail) = some (⟨c, raw, tail ++ pad, bin.old c.typeCode⟩, tail) :=
    (readItem_iff _ _ _ _ _ _).2 ⟨rfl, hc, rfl, front, [], hraw, by rw [hcrc]; rfl, by simp⟩
  have hsec : readTargets ⟨c, raw, tail ++ pad, bin.old c.typeCode⟩ [] = .fault := by
    unfold readTargets
    rw [if_pos hty, obind_fault]
    refine Or.inl ?_
    unfold readSec
    rw [hbehind] at hl ⊢
    exact C75_overread_violated _ c.data source head more w e n hf hfl hx he hlen hh hm hl
  unfold load
  rw [(readPrimary_iff _ p pRaw (raw ++ tail)).2 ⟨rfl, hp, hpf, hp1, hp2⟩, obind_fault]
  refine Or.inr ⟨_, rfl, ?_⟩
  simp only
  rw [readItems, hitem, obind_fault]
  refine Or.inl ?_
  simp only
  rw [hsec]
  rfl

/-- Such a bundle. -/
def faultBundle : Bytes := 0x9f :: samplePrimaryRaw ++ [0x85, 12, 2, 0, 0, 0x45, 0x82, 1, 2, 1, 0] ++
  [0x82, 2, 0x82, 1, 1, 0x81, 0x81, 0x82, 1, 0x58, 0xff]

example (bin : Bin) : load bin false faultBundle [] = .fault := by
  have hp : IsPrimary samplePrimaryRaw samplePrimary := sample_isView.2.1
  have hc : Bpv7Canonical.read false [0x85, 12, 2, 0, 0, 0x45, 0x82, 1, 2, 1, 0] = some (⟨12, 2, 0, 0, [0x82, 1, 2, 1, 0], 0, 0⟩, []) := by
    decide +kernel
  obtain ⟨raw, h1, h2⟩ := (read_block_iff _ _ _ _).1 hc
  rw [List.append_nil] at h1
  subst h1
  have he : faultBundle = 0x9f :: (samplePrimaryRaw ++ ([0x85, 12, 2, 0, 0, 0x45, 0x82, 1, 2, 1, 0] ++
      [0x82, 2, 0x82, 1, 1, 0x81, 0x81, 0x82, 1, 0x58, 0xff])) := by decide
  rw [he]
  exact C77_fault_violated bin false samplePrimaryRaw _ [0x82, 2, 0x82, 1, 1, 0x81, 0x81, 0x82, 1, 0x58, 0xff] []
    [0x82, 2, 0x82, 1, 1] [0x58, 0xff] [] samplePrimary _ _ ⟨1, 1⟩ 255 hp (by decide) rfl rfl h2 rfl rfl rfl
    (front_small 1 2 1 0 (by decide) (by decide) (by decide) (by decide) Asb.zero) rfl (Or.inl rfl) (eid_small 1 1 (by decide) (by decide))
    (by decide) ⟨0x58, [0xff], rfl, 0x18, rfl, 0x18, [0xff], rfl, Or.inr ⟨0, by decide, rfl, rfl, rfl⟩⟩ (by decide) (by decide)

/-- A bundle with an integrity block that has no parameters. -/
def bibBundle : Bytes := bundleOf [[0x85, 11, 2, 0, 0, 0x4f, 0x81, 1, 1, 0, 0x82, 2, 0x82, 2, 1, 0x81, 0x81, 0x82, 1, 0x41, 9],
  payloadBytes]

/-- C77, violated: an integrity block without parameters shows those of a block of the bundle loaded before. -/
theorem C77_stale_violated :
    (∃ v, load ⟨[⟨1, .uint 7⟩], []⟩ false bibBundle [] = .ok v ∧ ∃ b ∈ v.blocks, ∃ a, b.body = .sec a ∧ a.hasParams = false ∧
      getUint a.params 1 = some 7) ∧
    ∃ v, load ⟨[], []⟩ false bibBundle [] = .ok v ∧ ∀ b ∈ v.blocks, ∀ a, b.body = .sec a → a.params = [] := by
  refine ⟨⟨⟨samplePrimary, samplePrimaryRaw, false, [⟨⟨11, 2, 0, 0, [0x81, 1, 1, 0, 0x82, 2, 0x82, 2, 1, 0x81, 0x81, 0x82, 1, 0x41, 9],
    0, 0⟩, .sec ⟨[1], 1, 0, ⟨2, 1⟩, [⟨1, .uint 7⟩], [⟨1, .bytes [9]⟩]⟩, [0x85, 11, 2, 0, 0, 0x4f, 0x81, 1, 1, 0, 0x82, 2, 0x82, 2, 1, 0x81,
    0x81, 0x82, 1, 0x41, 9], false, false⟩, payloadBlock], freeInit - 4, [], bibBundle⟩, by decide +kernel, _, List.mem_cons_self, _, rfl,
    by decide, by decide⟩, ⟨samplePrimary, samplePrimaryRaw, false, [⟨⟨11, 2, 0, 0, [0x81, 1, 1, 0, 0x82, 2, 0x82, 2, 1, 0x81, 0x81, 0x82,
    1, 0x41, 9], 0, 0⟩, .sec ⟨[1], 1, 0, ⟨2, 1⟩, [], [⟨1, .bytes [9]⟩]⟩, [0x85, 11, 2, 0, 0, 0x4f, 0x81, 1, 1, 0, 0x82, 2, 0x82, 2, 1, 0x81,
    0x81, 0x82, 1, 0x41, 9], false, false⟩, payloadBlock], freeInit - 4, [], bibBundle⟩, by decide +kernel, ?_⟩
  intro b hb a ha
  simp only [List.mem_cons, List.not_mem_nil, or_false] at hb
  rcases hb with rfl | rfl
  · simp only [Body.sec.injEq] at ha
    rw [← ha]
  · simp [payloadBlock] at ha

/-- C77, violated: two blocks with the same number, and a block with the number of the payload block, are accepted
(RFC 9171 section 4.1: the number uniquely identifies the block). -/
theorem C77_numbers_violated :
    (∃ v, load ⟨[], []⟩ false (bundleOf [ageBytes 2 5, ageBytes 2 6, payloadBytes]) [] = .ok v ∧
      v.blocks.map (·.block.number) = [2, 2, 1]) ∧
    ∃ v, load ⟨[], []⟩ false (bundleOf [ageBytes 1 5, ageBytes 0 6, payloadBytes]) [] = .ok v ∧
      v.blocks.map (·.block.number) = [1, 0, 1] :=
  ⟨⟨⟨samplePrimary, samplePrimaryRaw, false, [ageBlock 2 5, ageBlock 2 6, payloadBlock], freeInit - 4, [],
    bundleOf [ageBytes 2 5, ageBytes 2 6, payloadBytes]⟩, by decide +kernel, rfl⟩,
    ⟨samplePrimary, samplePrimaryRaw, false, [ageBlock 1 5, ageBlock 0 6, payloadBlock], freeInit, [],
    bundleOf [ageBytes 1 5, ageBytes 0 6, payloadBytes]⟩, by decide +kernel, rfl⟩

/-! ### C77: rendering -/

theorem loaded_done (skip : Bool) (v : View) (buf : Bytes) (h : IsViewOf skip v buf) :
    List.Forall₂ (Done skip (v.primary.flags.testBit 1) v.encrypted) v.blocks v.blocks := by
  obtain ⟨_, _, _, _, _, _, _, _, _, hb, _⟩ := h
  have : ∀ bs : List BlockView, (∀ b ∈ bs, b ∈ v.blocks) → List.Forall₂ (Done skip (v.primary.flags.testBit 1) v.encrypted) bs bs := by
    intro bs
    induction bs with
    | nil => intro _; exact List.Forall₂.nil
    | cons b bs ih =>
      intro hm
      refine List.Forall₂.cons ?_ (ih fun x hx => hm x (by simp [hx]))
      obtain ⟨h1, h2, h3, h4, h5⟩ := hb b (hm b (by simp))
      have hr : Ready skip (v.primary.flags.testBit 1) v.encrypted b := by
        refine ⟨⟨h4, fun hh => ?_⟩, fun _ => ⟨h1, fun hh => h5 (fun he => hh (h4 he))⟩, by rw [h2]; simp⟩
        by_contra hc
        have := h5 hc
        rw [hh] at this
        exact this
      obtain ⟨w, hw⟩ := block_done skip _ _ b hr h3
      have := hw.2.2.2.1 h2
      subst this
      exact hw
  exact this v.blocks (fun _ h => h)

/-- A view that was just loaded may be rendered. -/
theorem loaded_ready (skip : Bool) (v : View) (buf : Bytes) (h : IsViewOf skip v buf) : ViewReady skip v := by
  obtain ⟨_, h1, h2, h3, h4, h5, h6, h7, h8, hb, _⟩ := h
  have hst : staying v.blocks = v.blocks := by
    unfold staying
    rw [List.filter_eq_self]
    intro b hbm
    simp [(hb b hbm).2.2.1]
  refine ⟨⟨h2, h3, h4, fun _ => h1, by rw [h5]; simp⟩, ?_, by rw [hst]; exact h6, by rw [hst, ← h7]; exact h8, ?_⟩
  · obtain ⟨init, last, he, _⟩ := h6
    have hne : v.blocks ≠ [] := by
      intro h0
      rw [h0] at he
      simp at he
    refine ⟨v.blocks.dropLast, v.blocks.getLast hne, (List.dropLast_append_getLast hne).symm, (hb _ (List.getLast_mem hne)).2.2.1⟩
  · rw [hst, ← h7]
    intro b hbm
    obtain ⟨g1, g2, g3, g4, g5⟩ := hb b hbm
    refine ⟨⟨g4, fun hh => ?_⟩, fun _ => ⟨g1, fun hh => g5 (fun he => hh (g4 he))⟩, by rw [g2]; simp⟩
    by_contra hc
    have := g5 hc
    rw [hh] at this
    exact this

/-- C77, rendering: a bundle that was loaded and not changed is rendered as it was, byte for byte, into any buffer that
holds it, and the view stays as it is. -/
theorem C77_render_unchanged (skip : Bool) (v : View) (buf mem : Bytes) (h : IsViewOf skip v buf) (hm : buf.length ≤ mem.length) :
    v.render mem = .ok v := by
  have hd := loaded_done skip v buf h
  have hr := loaded_ready skip v buf h
  obtain ⟨hbuf, h1, h2, h3, h4, h5, h6, h7, h8, hb, h9, h10⟩ := h
  have hnf : isFragment v.primary.flags = false := by
    rcases Bool.eq_false_or_eq_true (isFragment v.primary.flags) with hh | hh
    · exact absurd ((isFragment_iff _).1 hh) h2
    · exact hh
  have hlen : buf.length = 2 + v.primaryRaw.length + (raws v.blocks).length := by
    rw [hbuf]
    simp only [List.length_append, List.length_cons, List.length_nil, raws]
    omega
  have hk : kept v.blocks = v.blocks := by
    unfold kept
    rw [List.filter_eq_self]
    intro b hbm
    simp [(hb b hbm).2.2.1]
  have hfr : freed v.free v.blocks = v.free := by
    have : v.blocks.filter (·.deleted) = [] := by
      rw [List.filter_eq_nil_iff]
      intro b hbm
      simp [(hb b hbm).2.2.1]
    unfold freed
    rw [this]; rfl
  have hprim : renderPrimary mem v = .ok (v.primaryRaw, v.primary) := by
    unfold renderPrimary
    rw [if_neg (by omega)]
    simp only [h5, Bool.false_eq_true, if_false, stored]
    rw [if_neg (by rw [List.length_drop]; omega)]
    simp only [Out.bind, hnf, Bool.false_eq_true, if_false]
  unfold View.render View.renderWith
  rw [hprim]
  simp only [Out.bind]
  rw [hk, renderBlocks_done skip _ _ hd _ (Or.inr h6) (by rw [List.length_drop]; omega)]
  simp only [hfr]
  have hout : 0x9f :: (v.primaryRaw ++ (raws v.blocks ++ [0xff])) = v.rendered := by
    rw [h10, hbuf]
    simp [raws]
  rw [hout]
  obtain ⟨a, b, c, d, e, f, g⟩ := v
  simp only at h5
  subst h5
  rfl

example : sampleView.render (List.replicate 50 0) = .ok sampleView :=
  C77_render_unchanged false sampleView _ _ sample_isView (by decide)

/-- C77, rendering: a view whose blocks may be written (see `ViewReady`) has the announced size; rendering gives the same
bytes into every buffer that holds them; and loading these bytes gives the blocks that were not deleted, in order, the
unchanged ones with their bytes, the changed and new ones with their content and the right CRC. -/
theorem C77_render_reload (skip : Bool) (v : View) (h : ViewReady skip v) :
    ∃ v' : View, v.size = some v'.rendered.length ∧
      (∀ mem : Bytes, v'.rendered.length ≤ mem.length → v.render mem = .ok v') ∧
      ∀ pad : Bytes, (v'.rendered ++ pad).length < 2 ^ 64 →
        ∃ w, load ⟨[], []⟩ skip v'.rendered pad = .ok w ∧ SamePrimary v w.primary ∧
          List.Forall₂ SameBlock (staying v.blocks) w.blocks := by
  obtain ⟨v', h1, h2, _, ⟨w, h4, h5, h6⟩, _⟩ := render_ready skip v h
  exact ⟨v', h1, h2, fun pad hpad => ⟨w, (C77_load_iff skip _ pad w hpad).2 h4, h5, h6⟩⟩

/-- The sample with a higher age, a hop count block in front and a new payload; a priority block is deleted. -/
def editedView : View :=
  { sampleView with
    blocks := [newBlock ⟨10, 3, 0, 1, [], 0, 0⟩ (.ext (.hopCount 30 4)),
      ⟨⟨7, 2, 0, 0, [5], 0, 0⟩, .ext (.bundleAge 900), ageBytes 2 5, true, false⟩,
      ⟨⟨13, 4, 0, 0, [5], 0, 0⟩, .ext (.priority 1), [], true, true⟩,
      ⟨⟨1, 1, 0, 2, [1, 2, 3], 0, 0⟩, .plain, payloadBytes, true, false⟩] }

theorem edited_ready : ViewReady false editedView := by
  refine ⟨⟨by decide, rfl, rfl, fun _ => sample_isView.2.1, fun h => ?_⟩, ⟨editedView.blocks.take 3, _, rfl, rfl⟩,
    ⟨[⟨10, 3, 0, 1, [], 0, 0⟩, ⟨7, 2, 0, 0, [5], 0, 0⟩], ⟨1, 1, 0, 2, [1, 2, 3], 0, 0⟩, by decide, rfl, rfl, by decide⟩,
    by decide, ?_⟩
  · exact absurd h (by decide)
  · have hst : staying editedView.blocks = [newBlock ⟨10, 3, 0, 1, [], 0, 0⟩ (.ext (.hopCount 30 4)),
      ⟨⟨7, 2, 0, 0, [5], 0, 0⟩, .ext (.bundleAge 900), ageBytes 2 5, true, false⟩,
      ⟨⟨1, 1, 0, 2, [1, 2, 3], 0, 0⟩, .plain, payloadBytes, true, false⟩] := by decide
    have ht : allTargets (staying editedView.blocks) = [] := by rw [hst]; decide
    rw [ht, hst]
    intro b hb
    simp only [List.mem_cons, List.not_mem_nil, or_false] at hb
    rcases hb with rfl | rfl | rfl
    · exact ⟨by simp [IsEncrypted, newBlock], by simp [newBlock], fun _ => ⟨by decide, by decide, Or.inr (Or.inl rfl), rfl, by
        simp [Ext.InRange]⟩⟩
    · exact ⟨by simp [IsEncrypted], by simp, fun _ => ⟨by decide, by decide, Or.inl rfl, rfl, by simp [Ext.InRange]⟩⟩
    · exact ⟨by simp [IsEncrypted], by simp, fun _ => ⟨by decide, by decide, Or.inr (Or.inr rfl), by decide, by decide,
        by simp [IsExtType], by simp [IsSecType]⟩⟩

/-- What the sample is rendered as. -/
example : ∃ v', editedView.render (List.replicate 80 0) = .ok v' ∧ v'.rendered = 0x9f :: samplePrimaryRaw ++
    [0x86, 10, 3, 0, 1, 0x44, 0x82, 0x18, 30, 4, 0x42, 26, 5] ++ [0x85, 7, 2, 0, 0, 0x43, 0x19, 3, 0x84] ++
    [0x86, 1, 1, 0, 2, 0x43, 1, 2, 3, 0x44, 49, 23, 250, 231] ++ [0xff] := by
  have h : (match editedView.render (List.replicate 80 0) with | .ok v' => some v'.rendered | _ => none) = some (0x9f :: samplePrimaryRaw ++
    [0x86, 10, 3, 0, 1, 0x44, 0x82, 0x18, 30, 4, 0x42, 26, 5] ++ [0x85, 7, 2, 0, 0, 0x43, 0x19, 3, 0x84] ++
    [0x86, 1, 1, 0, 2, 0x43, 1, 2, 3, 0x44, 49, 23, 250, 231] ++ [0xff]) := by decide +kernel
  cases hr : editedView.render (List.replicate 80 0) with
  | ok v' => rw [hr] at h; exact ⟨v', rfl, by simpa using h⟩
  | fail => rw [hr] at h; simp at h
  | fault => rw [hr] at h; simp at h

/-- C77, memory, violated: into a buffer that is too small for the bundle, rendering any such view stores behind the
buffer. -/
theorem C77_overflow_violated (skip : Bool) (v : View) (h : ViewReady skip v) (n : Nat) (hn : v.size = some n) (mem : Bytes)
    (hm : mem.length < n) : v.render mem = .fault := by
  obtain ⟨v', h1, _, h3, _⟩ := render_ready skip v h
  rw [hn, Option.some.injEq] at h1
  exact h3 mem (by omega)

example : sampleView.size = some 38 ∧ sampleView.render (List.replicate 37 0) = .fault :=
  ⟨by decide +kernel, C77_overflow_violated false sampleView (loaded_ready _ _ _ sample_isView) 38 (by decide +kernel) _ (by decide)⟩

/-- C77, violated: when all blocks are deleted, or only the primary block was loaded, rendering succeeds with something
that is no bundle. -/
theorem C77_empty_violated :
    ∃ v v' : View, loadPrimary (bundleOf [payloadBytes]) = some v ∧ v.render (List.replicate 50 0) = .ok v' ∧
      v'.rendered = bundleOf [] ∧ load ⟨[], []⟩ false v'.rendered [] = .fail :=
  ⟨⟨samplePrimary, samplePrimaryRaw, false, [], freeInit, [], bundleOf [payloadBytes]⟩,
    ⟨samplePrimary, samplePrimaryRaw, false, [], freeInit, [], bundleOf []⟩, by decide +kernel, by decide +kernel, rfl, by decide +kernel⟩

/-- C77, violated: a second payload block with number 1 may be appended; the bundle is rendered but does not load. -/
theorem C77_two_payloads_violated :
    ∃ v' : View, (sampleView.append (newBlock ⟨1, 1, 0, 0, [7], 0, 0⟩ .plain)).render (List.replicate 50 0) = .ok v' ∧
      load ⟨[], []⟩ false v'.rendered [] = .fail :=
  ⟨⟨samplePrimary, samplePrimaryRaw, false, [ageBlock 2 5, payloadBlock, ⟨⟨1, 1, 0, 0, [7], 0, 0⟩, .plain,
    [0x85, 1, 1, 0, 0, 0x41, 7], false, false⟩], freeInit - 4, [],
    bundleOf [ageBytes 2 5, payloadBytes, [0x85, 1, 1, 0, 0, 0x41, 7]]⟩, by decide +kernel, by decide +kernel⟩

/-- C77, violated: a view whose last block is deleted and no payload block can be rendered, but has no size. -/
theorem C77_size_violated :
    ∃ v v' : View, v = (sampleView.append (newBlock ⟨6, 3, 0, 0, [], 0, 0⟩ (.ext (.previousNode ⟨1, 1⟩)))).mark 2 ∧
      v.render (List.replicate 50 0) = .ok v' ∧ v'.rendered = sampleView.rendered ∧ v.size = none :=
  ⟨_, { sampleView with free := freeInit - 4 }, rfl, by decide +kernel, rfl, by decide +kernel⟩

/-! ### C77: rendering in place -/

/-- C77, in place: if the last block is unchanged, and the bundle has not grown beyond the padding in front of it,
rendering in place gives the same bundle and view as rendering into a buffer. -/
theorem C77_in_place (skip : Bool) (v v' : View) (h : ViewReady skip v) (paddingLeft : Nat) (front mem : Bytes) (last : BlockView)
    (hlast : v.blocks.getLast? = some last) (hclean : last.dirty = false) (hren : v.rendered = front ++ last.raw ++ [0xff])
    (hmem : v.render mem = .ok v') (hpad : v'.rendered.length ≤ v.rendered.length + paddingLeft)
    (h1 : v'.rendered.length < 2 ^ 63) (h2 : v.rendered.length < 2 ^ 63) : v.renderInPlace paddingLeft = .done v' := by
  obtain ⟨u, g1, g2, g3, _, g5⟩ := render_ready skip v h
  by_cases hm : mem.length < u.rendered.length
  · rw [g3 mem hm] at hmem; simp at hmem
  · rw [g2 mem (by omega), Out.ok.injEq] at hmem
    subst hmem
    exact g5 paddingLeft front last hlast hclean hren hpad h1 h2

/-- The sample with a new block in front, in 7 bytes of padding. -/
def grownView : View := sampleView.prepend (newBlock ⟨7, 3, 0, 0, [], 0, 0⟩ (.ext (.bundleAge 4)))

theorem grown_ready : ViewReady false grownView := by
  obtain ⟨h0, ⟨init, last, h1, h2⟩, h3, h4, h5⟩ := loaded_ready _ _ _ sample_isView
  have hst : staying grownView.blocks = newBlock ⟨7, 3, 0, 0, [], 0, 0⟩ (.ext (.bundleAge 4)) :: staying sampleView.blocks := by decide
  have ht : allTargets (staying grownView.blocks) = allTargets (staying sampleView.blocks) := by decide
  have ht0 : allTargets (staying sampleView.blocks) = [] := by decide
  refine ⟨h0, ⟨_ :: init, last, by rw [grownView, View.prepend, h1]; rfl, h2⟩, ?_, by rw [ht]; exact h4, ?_⟩
  · exact ⟨[⟨7, 3, 0, 0, [], 0, 0⟩, ⟨7, 2, 0, 0, [5], 0, 0⟩], ⟨1, 1, 0, 0, [9, 8], 0, 0⟩, by decide, rfl, rfl, by decide⟩
  · rw [ht, hst]
    intro b hb
    rcases List.mem_cons.1 hb with rfl | hb
    · rw [ht0]
      exact ⟨by simp [IsEncrypted, newBlock], by simp [newBlock], fun _ => ⟨by decide, by decide, Or.inl rfl, rfl, by
        simp [Ext.InRange]⟩⟩
    · exact h5 b hb

/-- The result. -/
def grownDone : View :=
  ⟨samplePrimary, samplePrimaryRaw, false, [ageBlock 3 4, ageBlock 2 5, payloadBlock], freeInit - 12, [],
    bundleOf [ageBytes 3 4, ageBytes 2 5, payloadBytes]⟩

example : grownView.renderInPlace 7 = .done grownDone :=
  C77_in_place false grownView grownDone grown_ready 7 (0x9f :: samplePrimaryRaw ++ ageBytes 2 5) (List.replicate 60 0) payloadBlock
    rfl rfl (by decide) (by decide +kernel) (by decide) (by decide) (by decide)

/-- The sample with a new payload. -/
def newPayloadView : View :=
  { sampleView with blocks := [ageBlock 2 5, ⟨⟨1, 1, 0, 0, [1, 2], 0, 0⟩, .plain, payloadBytes, true, false⟩] }

/-- C77, in place, violated: a view with a changed payload, which can be rendered, has a size and room, is refused after
its other parts were written to temporary memory that the view then points to. -/
theorem C77_in_place_dangling_violated :
    (∃ v', newPayloadView.render (List.replicate 50 0) = .ok v') ∧ newPayloadView.size = some 38 ∧
      newPayloadView.renderInPlace 10 = .dangling :=
  ⟨⟨⟨samplePrimary, samplePrimaryRaw, false, [ageBlock 2 5, ⟨⟨1, 1, 0, 0, [1, 2], 0, 0⟩, .plain,
    [0x85, 1, 1, 0, 0, 0x42, 1, 2], false, false⟩], freeInit - 4, [], bundleOf [ageBytes 2 5, [0x85, 1, 1, 0, 0, 0x42, 1, 2]]⟩,
    by decide +kernel⟩, by decide +kernel, by decide +kernel⟩

/-- A loaded bundle with a payload of 40 bytes, whose payload was then shortened and which was given two more blocks. -/
def shrunkView : View :=
  { sampleView with
    blocks := [newBlock ⟨13, 3, 0, 0, [], 0, 0⟩ (.ext (.priority 1)), newBlock ⟨10, 4, 0, 0, [], 0, 0⟩ (.ext (.hopCount 30 4)), ageBlock 2 5,
      ⟨⟨1, 1, 0, 0, [], 0, 0⟩, .plain, [0x85, 1, 1, 0, 0, 0x58, 40] ++ List.replicate 40 0, true, false⟩]
    rendered := bundleOf [ageBytes 2 5, [0x85, 1, 1, 0, 0, 0x58, 40] ++ List.replicate 40 0] }

/-- C77, in place, violated: the temporary memory may be too small when the payload was shortened. -/
theorem C77_in_place_overflow_violated :
    load ⟨[], []⟩ false shrunkView.rendered [] = .ok { shrunkView with blocks := [ageBlock 2 5,
      ⟨⟨1, 1, 0, 0, List.replicate 40 0, 0, 0⟩, .plain, [0x85, 1, 1, 0, 0, 0x58, 40] ++ List.replicate 40 0, false, false⟩] } ∧
    shrunkView.renderInPlace 0 = .overflow :=
  ⟨by decide +kernel, by decide +kernel⟩

/-! ### C78: block numbers -/

/-- C78, after loading: the next number is unused; it is the smallest unused one, if that is at most 63, and otherwise
one above all the others. -/
theorem C78_next_loaded (skip : Bool) (v : View) (buf : Bytes) (h : IsViewOf skip v buf)
    (hr : ∀ b ∈ v.blocks, b.block.number + 1 < 2 ^ 64) :
    Unused v.blocks v.nextFree ∧ ((∃ m ≤ 63, Unused v.blocks m) → ∀ m, Unused v.blocks m → v.nextFree ≤ m) ∧
      ((∀ m ≤ 63, ¬ Unused v.blocks m) → 63 < v.nextFree ∧ ∀ b ∈ v.blocks, b.block.number < v.nextFree) := by
  obtain ⟨_, _, _, _, _, _, _, _, _, _, hfree, _⟩ := h
  have hfu : FreeUnused v := fun n hn => (hfree n).1 hn
  obtain ⟨h1, h2, h3⟩ := nextFree_unused v hfu (fun _ => hr)
  refine ⟨h1, ?_, ?_⟩
  · rintro ⟨m, hm, hu⟩
    have hne : v.free ≠ 0 := by
      intro h0
      have := (hfree m).2 ⟨hm, hu⟩
      rw [h0] at this
      simp at this
    intro k hk
    by_contra hc
    have hk63 : k ≤ 63 := by have := (h2 hne).1; omega
    have := (h2 hne).2 k (by omega)
    rw [(hfree k).2 ⟨hk63, hk⟩] at this
    simp at this
  · intro hn
    refine h3 ?_
    by_contra hc
    obtain ⟨i, hi, hb⟩ := exists_bit hc hfu.lt
    exact hn i (by omega) ((hfree i).1 hb).2

example : IsViewOf false sampleView (bundleOf [ageBytes 2 5, payloadBytes]) ∧ (∀ b ∈ sampleView.blocks, b.block.number + 1 < 2 ^ 64) ∧
    sampleView.nextFree = 3 := ⟨sample_isView, by decide, by decide +kernel⟩

/-- What a program may do with a view: add a block with the next number (in front, behind, or at a place), remove the
blocks of a type, mark a block for deletion, change a block or the primary block, render. It does not remove blocks
with the number 0 or 1 (the payload block), nor change numbers, and there is room for a larger number when it asks
for the next one. -/
inductive Edit : View → View → Prop
  | append (v : View) (c : Canonical) (body : Body) : Room v → c.number = v.nextFree → Edit v (v.append (newBlock c body))
  | prepend (v : View) (c : Canonical) (body : Body) : Room v → c.number = v.nextFree → Edit v (v.prepend (newBlock c body))
  | insert (v v' : View) (c : Canonical) (body : Body) (behind : Bool) (number : Nat) : Room v → c.number = v.nextFree →
      v.insert behind number (newBlock c body) = some v' → Edit v v'
  | delete (v : View) (t : UInt8) : (∀ b ∈ v.blocks, b.block.typeCode = t → 2 ≤ b.block.number) → Edit v (v.deleteByType t).2
  | mark (v : View) (i : Nat) : (∀ b, v.blocks[i]? = some b → 2 ≤ b.block.number) → Edit v (v.mark i)
  | change (v : View) (blocks : List BlockView) (p : Primary) (d : Bool) : List.Forall₂ SameNumbers v.blocks blocks →
      Edit v { v with blocks := blocks, primary := p, primaryDirty := d }
  | render (v v' : View) (mem : Bytes) : v.render mem = .ok v' → Edit v v'
  | inPlace (v v' : View) (paddingLeft : Nat) : v.renderInPlace paddingLeft = .done v' → Edit v v'

/-- The views that a program reaches from a bundle whose block numbers are distinct. -/
inductive Reach (skip : Bool) : View → Prop
  | load (v : View) (buf : Bytes) : IsViewOf skip v buf → (v.blocks.map (·.block.number)).Nodup → Reach skip v
  | edit (v v' : View) : Reach skip v → Edit v v' → Reach skip v'

theorem edit_ok {v v' : View} (he : Edit v v') (h : NumbersOk v) : NumbersOk v' := by
  cases he with
  | append c body hr hc =>
    refine insert_ok v (newBlock c body) _ ?_ rfl ?_ h
    · exact List.perm_append_singleton _ _
    · simp only [newBlock, hc]
      exact (nextFree_unused v h.2.2 (fun _ => hr)).1
  | prepend c body hr hc =>
    refine insert_ok v (newBlock c body) _ (List.Perm.refl _) rfl ?_ h
    simp only [newBlock, hc]
    exact (nextFree_unused v h.2.2 (fun _ => hr)).1
  | insert _ c body behind number hr hc hi =>
    obtain ⟨bs, hbs, rfl⟩ := Option.map_eq_some_iff.1 hi
    refine insert_ok v (newBlock c body) _ (insertAt_perm _ _ _ _ hbs) rfl ?_ h
    simp only [newBlock, hc]
    exact (nextFree_unused v h.2.2 (fun _ => hr)).1
  | delete t ht =>
    have hf : (v.blocks.filter fun b => decide (b.block.typeCode ≠ t)) = v.blocks.filter fun b => !decide (b.block.typeCode = t) := by
      congr 1
      funext b
      simp
    obtain ⟨r1, r2⟩ := remove_ok v (fun b => decide (b.block.typeCode = t)) h (fun b hb hp => ht b hb (by simpa using hp))
    refine ⟨?_, fun b hb hd => ?_, ?_⟩
    · simp only [View.deleteByType, hf]; exact r1
    · simp only [View.deleteByType] at hb
      exact h.2.1 b (List.mem_filter.1 hb).1 hd
    · intro n hn
      have := r2 n hn
      simp only [View.deleteByType, hf]
      exact this
  | mark i hi =>
    obtain ⟨h1, h2, h3⟩ := h
    have hmem : ∀ b ∈ (v.mark i).blocks, ∃ c ∈ v.blocks, c.block = b.block ∧
        (b.deleted = true → c.deleted = true ∨ v.blocks[i]? = some c) := by
      intro b hb
      obtain ⟨j, hj⟩ := List.mem_iff_getElem?.1 hb
      simp only [View.mark, List.getElem?_modify] at hj
      cases hv : v.blocks[j]? with
      | none => rw [hv] at hj; split_ifs at hj <;> simp at hj
      | some c =>
        rw [hv] at hj
        refine ⟨c, List.mem_of_getElem? hv, ?_⟩
        split_ifs at hj with hij
        · simp only [Option.map_eq_map, Option.map_some, Option.some.injEq] at hj
          subst hij
          rw [← hj]
          exact ⟨rfl, fun _ => Or.inr hv⟩
        · simp only [Option.map_eq_map, Option.map_some, Option.some.injEq, id_eq] at hj
          rw [← hj]
          exact ⟨rfl, fun hd => Or.inl hd⟩
    have hmap : (v.mark i).blocks.map (·.block.number) = v.blocks.map (·.block.number) := by
      apply List.ext_getElem?
      intro j
      simp only [View.mark, List.getElem?_map, List.getElem?_modify]
      cases v.blocks[j]? <;> split_ifs <;> rfl
    refine ⟨by rw [hmap]; exact h1, fun b hb hd => ?_, fun n hn => ?_⟩
    · obtain ⟨c, hc, he, hdc⟩ := hmem b hb
      rw [← he]
      rcases hdc hd with hd' | hg
      · exact h2 c hc hd'
      · exact hi c hg
    · have := h3 n hn
      rw [unused_iff] at this ⊢
      rw [hmap]; exact this
  | change blocks p d hs =>
    obtain ⟨h1, h2, h3⟩ := h
    obtain ⟨m1, m2⟩ := sameNumbers_map hs
    refine ⟨by simp only [m1]; exact h1, fun b hb hd => ?_, fun n hn => ?_⟩
    · obtain ⟨j, hj, hjb⟩ := List.mem_iff_getElem.1 hb
      have hjv : j < v.blocks.length := by rw [hs.length_eq]; exact hj
      have hsj := hs.get hjv hj
      simp only [List.get_eq_getElem] at hsj
      rw [hjb] at hsj
      rw [hsj.1]
      exact h2 _ (List.getElem_mem hjv) (by rw [← hsj.2]; exact hd)
    · have := h3 n hn
      simp only at *
      rw [unused_iff] at this ⊢
      rw [m1]; exact this
  | render _ mem hr => exact rendered_ok v v' h (render_numbers hr)
  | inPlace _ pl hr => exact rendered_ok v v' h (renderInPlace_numbers hr)

/-- C78: whatever is done with the view (see `Edit`), block numbers stay distinct, and the next number is one that no
block has, and neither 0 nor 1. -/
theorem C78_numbers_partial (skip : Bool) (v : View) (h : Reach skip v) :
    (v.blocks.map (·.block.number)).Nodup ∧
    ((∀ b ∈ v.blocks, b.block.number + 1 < 2 ^ 64) → 2 ≤ v.nextFree ∧ ∀ b ∈ v.blocks, b.block.number ≠ v.nextFree) := by
  have hok : NumbersOk v := by
    induction h with
    | load v buf hv hn =>
      obtain ⟨_, _, _, _, _, _, _, _, _, hb, hfree, _⟩ := hv
      refine ⟨hn, fun b hbm hd => ?_, fun n h => (hfree n).1 h⟩
      rw [(hb b hbm).2.2.1] at hd
      simp at hd
    | edit v v' _ he ih => exact edit_ok he ih
  exact ⟨hok.1, fun hr => (nextFree_unused v hok.2.2 (fun _ => hr)).1⟩

/-- A block is added, the age block marked for deletion, the bundle rendered, and another block added. -/
example : ∃ v1 v2 v3 v4, Edit sampleView v1 ∧ Edit v1 v2 ∧ Edit v2 v3 ∧ Edit v3 v4 ∧ Reach false v4 ∧
    v4.blocks.map (·.block.number) = [2, 3, 1] := by
  have h1 : Edit sampleView grownView := Edit.prepend sampleView ⟨7, 3, 0, 0, [], 0, 0⟩ _
    (by show ∀ b ∈ sampleView.blocks, b.block.number + 1 < 2 ^ 64; decide) (by decide +kernel)
  have h2 : Edit grownView (grownView.mark 1) := Edit.mark grownView 1 (fun b hb => by
    have : grownView.blocks[1]? = some (ageBlock 2 5) := rfl
    rw [this, Option.some.injEq] at hb
    rw [← hb]; decide)
  let v3 : View := ⟨samplePrimary, samplePrimaryRaw, false, [ageBlock 3 4, payloadBlock], freeInit - 8, [],
    bundleOf [ageBytes 3 4, payloadBytes]⟩
  have h3 : Edit (grownView.mark 1) v3 := Edit.render _ v3 (List.replicate 50 0) (by decide +kernel)
  have h4 : Edit v3 (v3.prepend (newBlock ⟨7, 2, 0, 0, [], 0, 0⟩ (.ext (.bundleAge 4)))) := Edit.prepend v3 ⟨7, 2, 0, 0, [], 0, 0⟩ _
    (by show ∀ b ∈ v3.blocks, b.block.number + 1 < 2 ^ 64; decide) (by decide +kernel)
  exact ⟨_, _, _, _, h1, h2, h3, h4, .edit _ _ (.edit _ _ (.edit _ _ (.edit _ _ (.load _ _ sample_isView (by decide)) h1) h2) h3) h4,
    by decide⟩

/-- C78, violated: when the blocks of a type are removed, their numbers are given out again although another block of the
bundle has one of them. -/
theorem C78_shared_violated :
    ∃ v : View, load ⟨[], []⟩ false (bundleOf [[0x85, 13, 2, 0, 0, 0x41, 1], ageBytes 2 6, payloadBytes]) [] = .ok v ∧
      (v.deleteByType 13).1 = 1 ∧ (v.deleteByType 13).2.nextFree = 2 ∧ ∃ b ∈ (v.deleteByType 13).2.blocks, b.block.number = 2 :=
  ⟨⟨samplePrimary, samplePrimaryRaw, false, [⟨⟨13, 2, 0, 0, [1], 0, 0⟩, .ext (.priority 1), [0x85, 13, 2, 0, 0, 0x41, 1], false, false⟩,
    ageBlock 2 6, payloadBlock], freeInit - 4, [],
    bundleOf [[0x85, 13, 2, 0, 0, 0x41, 1], ageBytes 2 6, payloadBytes]⟩, by decide +kernel, by decide +kernel, by decide +kernel,
    ageBlock 2 6, by decide, rfl⟩

/-- C78, violated: after the payload block was removed, its number, 1, is the next for any block. -/
theorem C78_payload_violated : (sampleView.deleteByType 1).2.nextFree = 1 := by decide +kernel

/-- C78, violated: with no number up to 63 left and a block with the largest number there is, the next number is 0, that
of the primary block. -/
theorem C78_wrap_violated (v : View) (hf : v.free = 0) (b : BlockView) (hb : b ∈ v.blocks) (hn : b.block.number = 2 ^ 64 - 1)
    (hr : ∀ c ∈ v.blocks, c.block.number < 2 ^ 64) : v.nextFree = 0 := by
  obtain ⟨_, h2, h3⟩ := largest_spec v.blocks 63
  have : largest v.blocks = 2 ^ 64 - 1 := by
    unfold largest
    have hge := h2 b hb
    rcases h3 with h3 | ⟨c, hc, h3⟩
    · rw [h3] at hge; omega
    · rw [h3] at hge ⊢
      have := hr c hc
      omega
  unfold View.nextFree
  rw [if_neg (by simp [hf]), this]
  decide

/-- A view with the numbers 2 to 63, the largest number and the payload block. -/
def fullView : View :=
  { sampleView with
    blocks := ((List.range 62).map fun i => ageBlock (UInt8.ofNat (i + 2)) 0) ++ [newBlock ⟨7, 2 ^ 64 - 1, 0, 0, [], 0, 0⟩ .plain, payloadBlock]
    free := 0 }

example : fullView.nextFree = 0 ∧ (∀ n ≤ 63, ¬ Unused fullView.blocks n) := by
  refine ⟨C78_wrap_violated fullView rfl _ (List.mem_append_right _ List.mem_cons_self) rfl ?_, ?_⟩
  · intro c hc
    rcases List.mem_append.1 hc with hc | hc
    · obtain ⟨i, hi, rfl⟩ := List.mem_map.1 hc
      simp only [ageBlock]
      have := (UInt8.ofNat (i + 2)).toNat_lt
      omega
    · simp only [List.mem_cons, List.not_mem_nil, or_false] at hc
      rcases hc with rfl | rfl
      · simp [newBlock]
      · decide
  · rintro n hn ⟨h1, h2⟩
    refine h2 (ageBlock (UInt8.ofNat n) 0) (List.mem_append_left _ (List.mem_map.2 ⟨n - 2, List.mem_range.2 (by omega), ?_⟩)) ?_
    · rw [Nat.sub_add_cancel h1]
    · simp only [ageBlock, UInt8.toNat_ofNat']
      omega

end Hdtn.BundleView7
