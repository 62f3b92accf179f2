import Verif.BpSecBundle.Seal

/-! Decrypting the targets of a confidentiality block that were encrypted with the same key. -/

namespace Hdtn.BpSecBundle

open Hdtn.HashMap16 Hdtn.Cbor Hdtn.Cbor.Spec Hdtn.Bpv7Crc Hdtn.Bpv7Canonical Hdtn.Bpv7Canonical.Spec Hdtn.BpSec7
open Hdtn.BundleView7 Hdtn.BundleView7.Spec Spec

/-- The types of targets that were seen. -/
def addType (m : Nat) (t : UInt8) : Nat := if t.toNat ≤ 63 then m ||| 2 ^ t.toNat else m

theorem admit_ok (s : Loop) (expected : Nat) (t : UInt8) (h : t.toNat ≤ 63 → expected.testBit t.toNat = true) :
    s.admit expected t = some { s with mask := addType s.mask t } := by
  unfold Loop.admit addType
  split_ifs with h1 h2
  · rfl
  · exact absurd (h h1) h2
  · rfl

theorem gcmDecrypt_ok {C : Crypto} (hC : Lawful C) {key iv aad : Bytes} (hk : isAesKey key = true) (hiv : iv ≠ []) (data : Bytes) :
    gcmDecrypt C key iv aad (C.ctr key iv data) (C.tag key iv aad (C.ctr key iv data)) = .ok (data, true) := by
  unfold gcmDecrypt
  have hl := hC.tag_length key iv aad (C.ctr key iv data)
  rw [if_pos ⟨hk, hiv⟩, if_neg (by omega), hC.ctr_ctr, List.take_of_length_le (by omega)]
  simp

theorem raws_length_mem {bs : List BlockView} {b : BlockView} (h : b ∈ bs) : b.raw.length ≤ (raws bs).length := by
  obtain ⟨pre, post, rfl⟩ := List.append_of_mem h
  simp only [raws_append, raws_cons, List.length_append]
  omega

/-- The content is read again. -/
theorem reread_ok (pad : Bytes) (v : View) (pre : List BlockView) (b : BlockView) (post : List BlockView)
    (hb : IsBlock false b.raw b.block) (body : Body) (hbody : IsBody (v.primary.flags.testBit 1) b.block body)
    (hl : (layout v.primaryRaw (pre ++ b :: post) ++ pad).length < 2 ^ 64) :
    reread pad (putBlocks v (pre ++ b :: post)) pre.length b = .ok body := by
  unfold reread
  refine (readBody_iff _ _ rfl ?_ body).2 hbody
  rw [offset_split]
  obtain ⟨tag, front, crc, hp⟩ := parts hb
  rw [hp.dataAt]
  simp only [putBlocks, layout, List.length_append, List.length_drop, List.length_cons, raws_append, raws_cons, hp.raw] at hl ⊢
  omega

/-- One target of a block in front of the bundle. -/
theorem openTarget_ok {C : Crypto} (hC : Lawful C) (verifyOnly : Bool) (expected : Nat) (o : Opening) (pad : Bytes) (st t : Nat)
    (w : View) (fr : BlockView) (bs : List BlockView) (hbs : ∀ b ∈ bs, IsBlock false b.raw b.block)
    (hn : (bs.map (·.block.number)).Nodup) (hk : isAesKey o.key = true) (hiv : o.iv ≠ []) (p : Nat → Bool) (m : Nat)
    (hp : p t = true) (hfr : fr.block.number ≠ t) (b : BlockView) (hb : b ∈ bs) (ht : b.block.number = t)
    (hbody : IsBody (w.primary.flags.testBit 1) b.block b.body)
    (hex : b.block.typeCode.toNat ≤ 63 → expected.testBit b.block.typeCode.toNat = true)
    (hl : ∀ q, (layout w.primaryRaw (fr :: mix q (sealB C o.key o.iv) bs) ++ pad).length < 2 ^ 64) :
    openTarget C verifyOnly expected o pad 0 st t (tagB C o.key o.iv o.scope w.primaryRaw o.header b)
        ⟨putBlocks w (fr :: mix p (sealB C o.key o.iv) bs), [], m⟩ =
      .ok ⟨putBlocks w (fr :: mix (if verifyOnly then p else minus p t) (sealB C o.key o.iv) bs), [],
        addType m b.block.typeCode⟩ := by
  obtain ⟨pre, post, he, h1, h2⟩ := split_number hn hb ht
  have hnum : ∀ x ∈ bs, (sealB C o.key o.iv x).block.number = x.block.number := fun x hx =>
    (sealB_spec hC o.key o.iv (hbs x hx)).2.2.2.1
  have hm : fr :: mix p (sealB C o.key o.iv) bs =
      (fr :: mix p (sealB C o.key o.iv) pre) ++ sealB C o.key o.iv b :: mix p (sealB C o.key o.iv) post := by
    rw [he, mix_append, mix_cons, ht, hp]; rfl
  have hm' : fr :: mix (minus p t) (sealB C o.key o.iv) bs =
      (fr :: mix p (sealB C o.key o.iv) pre) ++ b :: mix p (sealB C o.key o.iv) post := by
    rw [he, mix_append, mix_cons, ht, mix_congr (p := minus p t) (q := p) (bs := pre) (fun x hx => by simp [minus, h1 x hx]),
      mix_congr (p := minus p t) (q := p) (bs := post) (fun x hx => by simp [minus, h2 x hx])]
    simp [minus]
  have hpre : ∀ x ∈ fr :: mix p (sealB C o.key o.iv) pre, x.block.number ≠ t := by
    intro x hx
    rcases List.mem_cons.1 hx with rfl | hx
    · exact hfr
    · exact mix_number (p := p) (f := sealB C o.key o.iv) (bs := pre) (n := t)
        (fun x hx => hnum x (by rw [he]; exact List.mem_append_left _ hx)) h1 x hx
  have hbb := hbs b hb
  obtain ⟨s1, s2, s3, s4, _, _, s7, _, _, _, s11, s12⟩ := sealB_spec hC o.key o.iv hbb
  have hsn : (sealB C o.key o.iv b).block.number = t := by rw [s4, ht]
  unfold openTarget
  rw [hm]
  simp only [indexOf_split w _ (sealB C o.key o.iv b) _ t hsn hpre, get_split]
  rw [admit_ok _ expected _ (by rw [s3]; exact hex), headerOf_ok s1, part_ok, s3, s7, s11]
  simp only [Out.bind]
  rw [aadOf_part, show (putBlocks w ((fr :: mix p (sealB C o.key o.iv) pre) ++ sealB C o.key o.iv b ::
    mix p (sealB C o.key o.iv) post)).primaryRaw = w.primaryRaw from rfl]
  have hg := gcmDecrypt_ok hC (aad := aadOf o.scope w.primaryRaw (hdr b) o.header) hk hiv b.block.data
  rw [show tagB C o.key o.iv o.scope w.primaryRaw o.header b = C.tag o.key o.iv (aadOf o.scope w.primaryRaw (hdr b) o.header)
    (C.ctr o.key o.iv b.block.data) from rfl, hg]
  cases verifyOnly with
  | true =>
    simp only [if_true]
    rw [hm]
  | false =>
    simp only [Bool.false_eq_true, if_false, Bool.not_true]
    rw [if_neg (by simp), hm', s12]
    have e1 : ({ b with body := .hidden } : BlockView).raw.length = (sealB C o.key o.iv b).raw.length := s2.symm
    rw [store_split w _ _ _ _ e1]
    have hr := reread_ok pad w (fr :: mix p (sealB C o.key o.iv) pre) { b with body := .hidden } (mix p (sealB C o.key o.iv) post)
      hbb b.body hbody (by
        have := hl p
        rw [hm] at this
        simp only [layout, raws_append, raws_cons, List.length_append, List.length_cons] at this ⊢
        rw [s2] at this
        exact this)
    rw [hr]
    simp only
    rw [store_split w (fr :: mix p (sealB C o.key o.iv) pre) { b with body := .hidden } _ { b with body := b.body } rfl]

/-- The loop. -/
theorem openLoop_ok {C : Crypto} (hC : Lawful C) (verifyOnly : Bool) (expected : Nat) (o : Opening) (pad : Bytes)
    (w : View) (fr : BlockView) (bs : List BlockView) (hbs : ∀ b ∈ bs, IsBlock false b.raw b.block)
    (hn : (bs.map (·.block.number)).Nodup) (hk : isAesKey o.key = true) (hiv : o.iv ≠ [])
    (hl : ∀ q, (layout w.primaryRaw (fr :: mix q (sealB C o.key o.iv) bs) ++ pad).length < 2 ^ 64) :
    ∀ (ts : List Nat) (xs : List BlockView), List.Forall₂ (fun t b => b ∈ bs ∧ b.block.number = t) ts xs →
      ∀ (st : Nat) (p : Nat → Bool) (m : Nat), ts.Nodup → (∀ t ∈ ts, p t = true ∧ fr.block.number ≠ t) →
      (∀ b ∈ xs, IsBody (w.primary.flags.testBit 1) b.block b.body ∧
        (b.block.typeCode.toNat ≤ 63 → expected.testBit b.block.typeCode.toNat = true)) →
      openLoop C verifyOnly expected o pad 0 st (ts.zip (xs.map (tagB C o.key o.iv o.scope w.primaryRaw o.header)))
          ⟨putBlocks w (fr :: mix p (sealB C o.key o.iv) bs), [], m⟩ =
        .ok ⟨putBlocks w (fr :: mix (fun n => p n && (verifyOnly || !decide (n ∈ ts))) (sealB C o.key o.iv) bs), [],
          (xs.map (·.block.typeCode)).foldl addType m⟩ := by
  intro ts xs h
  induction h with
  | nil =>
    intro st p m _ _ _
    simp [openLoop]
  | @cons t b ts xs hb _ ih =>
    intro st p m hnd hp hx
    rw [List.nodup_cons] at hnd
    rw [List.map_cons, List.zip_cons_cons, openLoop, openTarget_ok hC verifyOnly expected o pad st t w fr bs hbs hn hk hiv p m
      (hp t List.mem_cons_self).1 (hp t List.mem_cons_self).2 b hb.1 hb.2 (hx b List.mem_cons_self).1 (hx b List.mem_cons_self).2 hl]
    simp only [Out.bind]
    rw [ih (st + 1) _ _ hnd.2 (fun x hxm => ⟨by
      have hne : x ≠ t := fun h => hnd.1 (h ▸ hxm)
      cases verifyOnly <;> simp [minus, (hp x (List.mem_cons_of_mem _ hxm)).1, hne], (hp x (List.mem_cons_of_mem _ hxm)).2⟩)
      (fun x hxm => hx x (List.mem_cons_of_mem _ hxm))]
    have : (fun n => (if verifyOnly = true then p else minus p t) n && (verifyOnly || !decide (n ∈ ts))) =
        fun n => p n && (verifyOnly || !decide (n ∈ t :: ts)) := by
      funext n
      cases verifyOnly <;> by_cases h1 : n = t <;> by_cases h2 : n ∈ ts <;> simp [minus, h1, h2]
    rw [this]
    rfl

/-- The types that are seen. -/
theorem addTypes_testBit (ts : List UInt8) : ∀ (m n : Nat),
    (ts.foldl addType m).testBit n = true ↔ m.testBit n = true ∨ (n ≤ 63 ∧ ∃ t ∈ ts, t.toNat = n) := by
  induction ts with
  | nil => intro m n; simp
  | cons t ts ih =>
    intro m n
    rw [List.foldl_cons, ih]
    have : (addType m t).testBit n = true ↔ m.testBit n = true ∨ (n ≤ 63 ∧ t.toNat = n) := by
      unfold addType
      split_ifs with h
      · rw [Nat.testBit_or, Nat.testBit_two_pow]
        simp only [Bool.or_eq_true, decide_eq_true_eq]
        constructor
        · rintro (h1 | h1)
          · exact Or.inl h1
          · exact Or.inr ⟨h1 ▸ h, h1⟩
        · rintro (h1 | h1)
          · exact Or.inl h1
          · exact Or.inr h1.2
      · constructor
        · exact Or.inl
        · rintro (h1 | h1)
          · exact h1
          · exact absurd (h1.2 ▸ h1.1) h
    rw [this]
    simp only [List.mem_cons, exists_eq_or_imp]
    constructor
    · rintro ((h | h) | ⟨h1, h2⟩)
      · exact Or.inl h
      · exact Or.inr ⟨h.1, Or.inl h.2⟩
      · exact Or.inr ⟨h1, Or.inr h2⟩
    · rintro (h | ⟨h1, h2 | h2⟩)
      · exact Or.inl (Or.inl h)
      · exact Or.inl (Or.inr ⟨h1, h2⟩)
      · exact Or.inr ⟨h1, h2⟩

end Hdtn.BpSecBundle
