import Verif.BpSecBundle.Layout
import Verif.BpSecBundle.Spec

/-! Encrypting and decrypting the targets of a confidentiality block. -/

namespace Hdtn.BpSecBundle

open Hdtn.HashMap16 Hdtn.Cbor Hdtn.Cbor.Spec Hdtn.Bpv7Crc Hdtn.Bpv7Canonical Hdtn.Bpv7Canonical.Spec Hdtn.BpSec7
open Hdtn.BundleView7 Hdtn.BundleView7.Spec Spec

/-- The header of a block, as a value. -/
def hdr (b : BlockView) : Bytes :=
  match headerOf b with
  | .ok h => h
  | _ => []

theorem headerOf_ok {b : BlockView} (h : IsBlock false b.raw b.block) : headerOf b = .ok (hdr b) := by
  obtain ⟨tag, front, crc, hp⟩ := parts h
  obtain ⟨n, _, _, h3⟩ := aadSize_some hp
  unfold hdr
  rw [h3]

theorem aadOf_part (scope : Nat) (primary target security : Bytes) :
    aadOf scope primary (if scope.testBit 1 then target else []) security = aadOf scope primary target security := by
  unfold aadOf
  split_ifs <;> rfl

theorem aadOf_part2 (scope : Nat) (primary target security : Bytes) :
    aadOf scope primary target (if scope.testBit 2 then security else []) = aadOf scope primary target security := by
  unfold aadOf
  split_ifs <;> rfl

theorem part_ok (scope bit : Nat) (x : Bytes) : part scope bit (.ok x) = .ok (if scope.testBit bit then x else []) := by
  unfold part
  split_ifs <;> rfl

/-- The encrypted block. -/
def sealB (C : Crypto) (key iv : Bytes) (b : BlockView) : BlockView :=
  { withDataCrc b (C.ctr key iv b.block.data) with body := .hidden }

/-- Its tag. -/
def tagB (C : Crypto) (key iv : Bytes) (scope : Nat) (primary header : Bytes) (b : BlockView) : Bytes :=
  C.tag key iv (aadOf scope primary (hdr b) header) (C.ctr key iv b.block.data)

theorem sealB_spec {C : Crypto} (hC : Lawful C) (key iv : Bytes) {b : BlockView} (h : IsBlock false b.raw b.block) :
    IsBlock false (sealB C key iv b).raw (sealB C key iv b).block ∧
    (sealB C key iv b).raw.length = b.raw.length ∧
    (sealB C key iv b).block.typeCode = b.block.typeCode ∧ (sealB C key iv b).block.number = b.block.number ∧
    (sealB C key iv b).block.flags = b.block.flags ∧ (sealB C key iv b).block.crcType = b.block.crcType ∧
    (sealB C key iv b).block.data = C.ctr key iv b.block.data ∧ (sealB C key iv b).body = .hidden ∧
    (sealB C key iv b).dirty = b.dirty ∧ (sealB C key iv b).deleted = b.deleted ∧
    hdr (sealB C key iv b) = hdr b ∧ withDataCrc (sealB C key iv b) b.block.data = { b with body := .hidden } := by
  obtain ⟨tag, front, crc, hp⟩ := parts h
  have hd := hC.ctr_length key iv b.block.data
  obtain ⟨crc', c16, c32, he, hl, hp'⟩ := withDataCrc_spec hp hd
  have hh := headerOf_withDataCrc hp hd .hidden
  have hb := withDataCrc_back hp hd .hidden
  refine ⟨hp'.isBlock, ?_, ?_, ?_, ?_, ?_, ?_, rfl, ?_, ?_, ?_, hb⟩
  · simp only [sealB, he, hp.raw, List.length_append, hl, hd]
  · simp only [sealB, he]
  · simp only [sealB, he]
  · simp only [sealB, he]
  · simp only [sealB, he]
  · simp only [sealB, he]
  · simp only [sealB, he]
  · simp only [sealB, he]
  · unfold hdr
    have : headerOf (sealB C key iv b) = headerOf b := hh
    rw [this]

/-- All blocks of the view are as they were read. -/
def Clean (v : View) : Prop := ∀ b ∈ v.blocks, IsBlock false b.raw b.block ∧ b.dirty = false

theorem raw_ne_nil {b : BlockView} (h : IsBlock false b.raw b.block) : b.raw ≠ [] := by
  intro h0
  have := isBlock_pos h
  rw [h0] at this
  simp at this

/-- A choice extended by one number. -/
def plus (p : Nat → Bool) (t : Nat) : Nat → Bool := fun n => p n || decide (n = t)

/-- A choice without a number. -/
def minus (p : Nat → Bool) (t : Nat) : Nat → Bool := fun n => p n && !decide (n = t)

theorem sealTarget_ok {C : Crypto} (hC : Lawful C) (P : SealParams) (key header : Bytes) (v : View) (hv : Clean v)
    (hn : (v.blocks.map (·.block.number)).Nodup) (hk : isAesKey key = true) (hiv : P.iv ≠ []) (p : Nat → Bool) (t : Nat)
    (hp : p t = false) (b : BlockView) (hb : b ∈ v.blocks) (ht : b.block.number = t) :
    sealTarget C P key header t (putBlocks v (mix p (sealB C key P.iv) v.blocks)) =
      .ok (putBlocks v (mix (plus p t) (sealB C key P.iv) v.blocks), tagB C key P.iv P.scope v.primaryRaw header b) := by
  obtain ⟨pre, post, he, h1, h2⟩ := split_number hn hb ht
  have hnum : ∀ x ∈ v.blocks, (sealB C key P.iv x).block.number = x.block.number := fun x hx =>
    (sealB_spec hC key P.iv (hv x hx).1).2.2.2.1
  have hm : mix p (sealB C key P.iv) v.blocks = mix p (sealB C key P.iv) pre ++ b :: mix p (sealB C key P.iv) post := by
    rw [he, mix_append, mix_cons, ht, hp]; rfl
  have hm' : mix (plus p t) (sealB C key P.iv) v.blocks =
      mix p (sealB C key P.iv) pre ++ sealB C key P.iv b :: mix p (sealB C key P.iv) post := by
    rw [he, mix_append, mix_cons, ht, mix_congr (p := plus p t) (q := p) (bs := pre) (fun x hx => by simp [plus, h1 x hx]),
      mix_congr (p := plus p t) (q := p) (bs := post) (fun x hx => by simp [plus, h2 x hx])]
    simp [plus]
  have hpre := mix_number (p := p) (f := sealB C key P.iv) (bs := pre) (n := t)
    (fun x hx => hnum x (by rw [he]; exact List.mem_append_left _ hx)) h1
  have hbb := hv b hb
  obtain ⟨s1, s2, _⟩ := sealB_spec hC key P.iv hbb.1
  rw [hm, hm']
  unfold sealTarget
  rw [indexOf_split v _ b _ t ht hpre]
  simp only
  rw [get_split]
  simp only
  rw [if_neg (by rw [hbb.2]; simpa using raw_ne_nil hbb.1), headerOf_ok hbb.1, part_ok]
  have hg : gcmEncrypt C key P.iv (aadOf P.scope v.primaryRaw (if P.scope.testBit 1 then hdr b else []) header) b.block.data =
      some (C.ctr key P.iv b.block.data, tagB C key P.iv P.scope v.primaryRaw header b) := by
    unfold gcmEncrypt
    rw [if_pos ⟨hk, hiv⟩, aadOf_part]
    rfl
  simp only [Out.bind]
  rw [show (putBlocks v (mix p (sealB C key P.iv) pre ++ b :: mix p (sealB C key P.iv) post)).primaryRaw = v.primaryRaw from rfl,
    hg]
  simp only [ofOption]
  congr 1
  have := store_split v (mix p (sealB C key P.iv) pre) b (mix p (sealB C key P.iv) post) (sealB C key P.iv b) s2
  rw [← this]
  rfl

theorem sealLoop_ok {C : Crypto} (hC : Lawful C) (P : SealParams) (key header : Bytes) (v : View) (hv : Clean v)
    (hn : (v.blocks.map (·.block.number)).Nodup) (hk : isAesKey key = true) (hiv : P.iv ≠ []) :
    ∀ (ts : List Nat) (p : Nat → Bool), ts.Nodup → (∀ t ∈ ts, p t = false) → (∀ t ∈ ts, ∃ b ∈ v.blocks, b.block.number = t) →
      ∃ bs : List BlockView, List.Forall₂ (fun t b => b ∈ v.blocks ∧ b.block.number = t) ts bs ∧
        sealLoop C P key header ts (putBlocks v (mix p (sealB C key P.iv) v.blocks)) =
          .ok (putBlocks v (mix (fun n => p n || decide (n ∈ ts)) (sealB C key P.iv) v.blocks),
            bs.map (tagB C key P.iv P.scope v.primaryRaw header)) := by
  intro ts
  induction ts with
  | nil =>
    intro p _ _ _
    refine ⟨[], List.Forall₂.nil, ?_⟩
    simp [sealLoop]
  | cons t ts ih =>
    intro p hnd hpt hex
    rw [List.nodup_cons] at hnd
    obtain ⟨b, hb, hbt⟩ := hex t List.mem_cons_self
    obtain ⟨bs, hbs, hl⟩ := ih (plus p t) hnd.2 (fun x hx => by
      have hne : x ≠ t := fun h => hnd.1 (h ▸ hx)
      simp [plus, hpt x (List.mem_cons_of_mem _ hx), hne]) (fun x hx => hex x (List.mem_cons_of_mem _ hx))
    refine ⟨b :: bs, List.Forall₂.cons ⟨hb, hbt⟩ hbs, ?_⟩
    rw [sealLoop, sealTarget_ok hC P key header v hv hn hk hiv p t (hpt t List.mem_cons_self) b hb hbt]
    simp only [Out.bind]
    rw [hl]
    have : (fun n => plus p t n || decide (n ∈ ts)) = fun n => p n || decide (n ∈ t :: ts) := by
      funext n
      by_cases h1 : n = t <;> by_cases h2 : n ∈ ts <;> simp [plus, h1, h2]
    rw [this]
    rfl

end Hdtn.BpSecBundle
