import Verif.BpSecBundle.Conf
import Verif.BpSecBundle.Integrity

/-! C92: encrypting and decrypting blocks of a bundle. -/

namespace Hdtn.BpSecBundle

open Hdtn.HashMap16 Hdtn.Cbor Hdtn.Cbor.Spec Hdtn.Bpv7Canonical Hdtn.Bpv7Canonical.Spec Hdtn.BpSec7
open Hdtn.BundleView7 Hdtn.BundleView7.Spec Spec

/-! ### Cryptographic functions for the examples -/

/-- Functions that have the properties assumed, and no others. -/
def toy : Crypto where
  hmac := fun _ key text => List.replicate 32 ((key ++ text).foldl (fun a b => 3 * a + b) 7)
  ctr := fun key iv data => data.map (· ^^^ (key ++ iv).foldl (fun a b => 5 * a + b) 1)
  tag := fun key iv aad text => List.replicate 16 ((key ++ iv ++ aad ++ text).foldl (fun a b => 3 * a + b) 9)
  wrap := fun _ key => key ++ List.replicate 8 0xa6
  unwrap := fun _ w => some (w.take (w.length - 8))

theorem toy_lawful : Lawful toy where
  ctr_length := fun _ _ _ => by simp [toy]
  ctr_ctr := fun key iv data => by
    simp only [toy, List.map_map]
    conv => rhs; rw [← List.map_id data]
    refine List.map_congr_left fun x _ => ?_
    simp only [Function.comp, id_eq, UInt8.xor_assoc, UInt8.xor_self, UInt8.xor_zero]
  tag_length := fun _ _ _ _ => by simp [toy]
  wrap_length := fun _ _ => by simp [toy]
  unwrap_wrap := fun _ key => by simp [toy]
  hmac_length := fun _ _ _ => by simp [toy]

/-! ### Encrypting -/

theorem hdr_short {b : BlockView} (hb : IsBlock false b.raw b.block) (h : ShortHeader b.raw b.block) : hdr b = header b.block := by
  obtain ⟨first, rest, hr⟩ := h
  obtain ⟨tag, front, crc, hp⟩ := parts hb
  obtain ⟨hd, t, n, f, s, _, _, h2, _, h4, h5, _⟩ := hp.body
  have hh := headerOf_fresh (b := b) (x := first) (rest := rest) (isUint_lt h4) (isUint_lt h5) (by
    rw [hr]; simp [header])
  unfold hdr
  rw [hh]
  simp [headerOfNew, header]

theorem aadOf_isAad (scope : Nat) (primary target security : Bytes) :
    IsAad scope primary target security (aadOf scope primary target security) := by
  refine ⟨if scope.testBit 0 then primary else [], if scope.testBit 1 then target else [],
    if scope.testBit 2 then security else [], by simp [aadOf], ?_, ?_, ?_⟩
  · have : scope.testBit 0 = true ↔ scope % 2 = 1 := by simp [Nat.testBit_zero]
    by_cases h : scope % 2 = 1
    · rw [if_pos h, if_pos (this.2 h)]
    · rw [if_neg h, if_neg (fun x => h (this.1 x))]
  · have : scope.testBit 1 = true ↔ scope / 2 % 2 = 1 := by simp [Nat.testBit_eq_decide_div_mod_eq]
    by_cases h : scope / 2 % 2 = 1
    · rw [if_pos h, if_pos (this.2 h)]
    · rw [if_neg h, if_neg (fun x => h (this.1 x))]
  · have : scope.testBit 2 = true ↔ scope / 4 % 2 = 1 := by simp [Nat.testBit_eq_decide_div_mod_eq]
    by_cases h : scope / 4 % 2 = 1
    · rw [if_pos h, if_pos (this.2 h)]
    · rw [if_neg h, if_neg (fun x => h (this.1 x))]

/-- C92, encrypting: the result is a bundle that loads, in which a confidentiality block with an unused number comes
first, the data of the targets are encrypted, and nothing else has changed. The block names the targets, the
initialization vector, the variant, the wrapped key and the scope, and has for each target the tag over the ciphertext and
the additional data of RFC 9173, if the header of the target has its shortest encoding. The call fails if the bundle grows
by more than 256 bytes. It writes before the memory if the bundle grows by less than that but by more than the room in
front of it. -/
theorem C92_encrypt_partial (C : Crypto) (hC : Lawful C) (v : View) (buf : Bytes) (hv : IsViewOf false v buf)
    (hn : (v.blocks.map (·.block.number)).Nodup) (hr : ∀ b ∈ v.blocks, b.block.number + 1 < 2 ^ 64) (hlen : buf.length < 2 ^ 62)
    (P : SealParams) (key : Bytes) (hs : Sealable v P key) :
    ∃ (bundle : Bytes) (w : View) (bcb : BlockView) (others : List BlockView) (a : Asb),
      IsViewOf false w bundle ∧ w.primary = v.primary ∧ w.primaryRaw = v.primaryRaw ∧ w.blocks = bcb :: others ∧
      List.Forall₂ (fun b s => if b.block.number ∈ P.targets then IsSealed C key P.iv b s else s = b) v.blocks others ∧
      bcb.block.typeCode = 12 ∧ Unused v.blocks bcb.block.number ∧ bcb.block.flags = (if 1 ∈ P.targets then 1 else 0) ∧
      bcb.block.crcType = P.crcType ∧ bcb.body = .sec a ∧
      a.targets = P.targets ∧ a.context = 2 ∧ a.flags = 1 ∧ a.source = P.source ∧
      a.params = [⟨1, .bytes P.iv⟩, ⟨2, .uint P.variant⟩] ++ (P.kek.toList.map fun k => ⟨3, .bytes (C.wrap k key)⟩) ++
        [⟨4, .uint P.scope⟩] ∧
      List.Forall₂ (fun t r => ∃ b ∈ v.blocks, b.block.number = t ∧ ∃ tag, r = ⟨1, .bytes tag⟩ ∧ tag.length = 16 ∧
        (ShortHeader b.raw b.block → ∃ aad, IsAad P.scope v.primaryRaw (header b.block) (header bcb.block) aad ∧
          tag = C.tag key P.iv aad (C.ctr key P.iv b.block.data))) P.targets a.results ∧
      ∀ room,
        (buf.length + 256 < bundle.length → encrypt C P v room = .fail) ∧
        (bundle.length ≤ buf.length + 256 → buf.length + room < bundle.length → encrypt C P v room = .fault) ∧
        (bundle.length ≤ buf.length + 256 → bundle.length ≤ buf.length + room →
          ∃ v', encrypt C P v room = .ok (v', buf.length + room - bundle.length) ∧ v'.rendered = bundle) := by
  have hclean := isView_clean hv
  obtain ⟨u', w, bcb, xs, h1, h2, h3, h4, h5, h6, h7, h8, h9, h10, h11, h12, h13, h14⟩ := encrypt_full hC hv hn hr hlen hs
  refine ⟨u'.rendered, w, bcb, _, _, h1, h3, h2, h4, ?_, h6, by rw [h7]; exact h13, h8, h9, h11, rfl, rfl, rfl, rfl, ?_, ?_, ?_⟩
  · unfold mix
    refine List.forall₂_map_right_iff.2 (List.forall₂_same.2 fun b hb => ?_)
    obtain ⟨_, _, s3, s4, s5, s6, s7, _⟩ := sealB_spec hC key P.iv (hclean b hb).1
    by_cases h : b.block.number ∈ P.targets
    · rw [if_pos h]
      simp only [h, decide_true, if_true]
      exact ⟨s3, s4, s5, s6, s7⟩
    · rw [if_neg h]
      simp [h]
  · cases P.kek <;> rfl
  · have hnew : headerOfNew (bcbOf P v.nextFree) = header bcb.block := by
      simp [headerOfNew, header, bcbOf, h6, h7, h8]
    unfold bcbAsb
    simp only
    rw [List.map_map]
    refine List.forall₂_map_right_iff.2 (h5.imp fun t b hb => ⟨b, hb.1, hb.2, _, rfl, hC.tag_length _ _ _ _, fun hsh => ?_⟩)
    refine ⟨_, aadOf_isAad _ _ _ _, ?_⟩
    rw [← hdr_short (hclean b hb.1).1 hsh, ← hnew]
    rfl
  · intro room
    rw [h14 room]
    refine ⟨fun h => if_pos h, fun g h => ?_, fun g h => ?_⟩
    · rw [if_neg (by omega), if_pos h]
    · rw [if_neg (by omega), if_neg (by omega)]
      exact ⟨u', rfl, rfl⟩

/-- C92, round trip: what `encrypt` has made, loaded by a receiver who expects it and has the key, is decrypted without an
error; rendering the view, in place or not, then gives the bundle as it was before. A receiver who only verifies finds no
error and changes nothing. -/
theorem C92_round_trip (C : Crypto) (hC : Lawful C) (v : View) (buf : Bytes) (hv : IsViewOf false v buf)
    (hn : (v.blocks.map (·.block.number)).Nodup) (hr : ∀ b ∈ v.blocks, b.block.number + 1 < 2 ^ 64) (hlen : buf.length < 2 ^ 62 - 256)
    (P : SealParams) (key : Bytes) (hs : Sealable v P key) (Q : OpenParams) (hq : Opens v P Q) (room left : Nat) (v' : View)
    (he : encrypt C P v room = .ok (v', left)) (pad : Bytes) (hpad : (v'.rendered ++ pad).length < 2 ^ 64) :
    ∃ w w' u : View, load ⟨[], []⟩ false v'.rendered pad = .ok w ∧
      decrypt C true Q pad 0 w = .ok ([], w) ∧
      decrypt C false Q pad 0 w = .ok ([], w') ∧
      u.rendered = buf ∧ u.primary = v.primary ∧ u.blocks = v.blocks ∧
      (∀ mem : Bytes, buf.length ≤ mem.length → w'.render mem = .ok u) ∧
      ∀ room', renderHere room' w' = .ok (u, v'.rendered.length - buf.length + room') := by
  obtain ⟨u', w, bcb, xs, h1, h2, h3, h4, h5, h6, h7, h8, h9, h10, h11, h12, h13, h14⟩ :=
    encrypt_full hC hv hn hr (by omega) hs
  rw [h14 room] at he
  have hgrow : ¬ buf.length + 256 < u'.rendered.length := by
    intro h; rw [if_pos h] at he; simp at he
  rw [if_neg hgrow] at he
  have hu : u' = v' := by
    split_ifs at he
    simp only [Out.ok.injEq, Prod.mk.injEq] at he
    exact he.1
  subst hu
  obtain ⟨d1, d2⟩ := decrypt_full hC hv hn hs hq h1 h2 h3 h4 h5 h7 h13 h10 h11 h12 hpad
  have hlay := isView_layout h1
  have hwr : w.rendered = u'.rendered := h1.2.2.2.2.2.2.2.2.2.2.2
  have hvl := isView_layout hv
  rw [hv.2.2.2.2.2.2.2.2.2.2.2] at hvl
  have hclean := isView_clean hv
  have hsz : u'.rendered.length = (layout v.primaryRaw (bcb :: v.blocks)).length := by
    rw [← hwr, hlay, h4, h2]
    have e1 := mix_length (p := fun n => decide (n ∈ P.targets)) (f := sealB C key P.iv) (bs := v.blocks)
      (fun b hb => (sealB_spec hC key P.iv (hclean b hb).1).2.1) v.primaryRaw
    simp only [layout, raws_cons, List.length_append, List.length_cons] at e1 ⊢
    omega
  have hbl : u'.rendered.length = bcb.raw.length + buf.length := by
    rw [hsz, hvl]
    simp only [layout, raws_cons, List.length_append, List.length_cons]
    omega
  obtain ⟨u, r1, r2, r3, r4, r5⟩ := render_without hv (w := w) (sec := { bcb with deleted := true }) h2 h3 h1.2.2.2.2.2.1 rfl (by
    show (layout v.primaryRaw ({ bcb with deleted := true } :: v.blocks)).length < 2 ^ 62
    simp only [layout, raws_cons] at hsz ⊢
    rw [← hsz]
    omega)
  refine ⟨w, _, u, (C77_load_iff false _ pad w hpad).2 h1, d1, d2, r1, r3, r2, r4, fun room' => ?_⟩
  rw [r5 room', hbl]
  congr 2
  show bcb.raw.length + room' = _
  omega

/-! ### An example -/

/-- Encrypting the bundle age and the payload of the sample with a wrapped key. -/
def sampleSeal : SealParams :=
  ⟨7, 1, 2, ⟨2, 1⟩, [1, 2], List.replicate 12 3, some (List.replicate 16 8), some (List.replicate 16 5)⟩

def sampleOpen : OpenParams := ⟨1, 12, 7, 2 ^ 1 + 2 ^ 7, some (List.replicate 16 8), none⟩

theorem sample_sealable : Sealable sampleView sampleSeal (List.replicate 16 5) where
  hasKey := rfl
  size := Or.inl (by decide)
  kek := fun k h => by
    simp only [sampleSeal, Option.some.injEq] at h
    rw [← h]
    decide
  iv := ⟨by decide, by decide⟩
  variant := Or.inl rfl
  scope := by decide
  crc := Or.inr (Or.inr rfl)
  source := ⟨by decide, by decide, by decide⟩
  targets := ⟨by decide, by decide, by decide⟩
  there := by
    intro t ht
    simp only [sampleSeal, List.mem_cons, List.not_mem_nil, or_false] at ht
    rcases ht with rfl | rfl
    · exact ⟨by decide, by decide, payloadBlock, by simp [sampleView], rfl, by decide⟩
    · exact ⟨by decide, by decide, ageBlock 2 5, by simp [sampleView], by decide, by decide⟩

theorem sample_opens : Opens sampleView sampleSeal sampleOpen where
  variant := rfl
  iv := by decide
  scope := rfl
  mask := by
    intro n
    have h1 : ∀ n, (2 ^ 1 ||| 2 ^ 7 : Nat).testBit n = true ↔ n = 1 ∨ n = 7 := by
      intro n
      rw [Nat.testBit_or, Nat.testBit_two_pow, Nat.testBit_two_pow]
      simp only [Bool.or_eq_true, decide_eq_true_eq]
      omega
    have h2 : sampleOpen.mask = (2 ^ 1 ||| 2 ^ 7 : Nat) := by decide
    rw [h2, h1]
    constructor
    · rintro (rfl | rfl)
      · exact ⟨by decide, payloadBlock, by simp [sampleView], by decide, rfl⟩
      · exact ⟨by decide, ageBlock 2 5, by simp [sampleView], by decide, rfl⟩
    · rintro ⟨_, b, hb, _, rfl⟩
      simp only [sampleView, List.mem_cons, List.not_mem_nil, or_false] at hb
      rcases hb with rfl | rfl
      · exact Or.inr rfl
      · exact Or.inl rfl
  key := fun h => by simp [sampleSeal] at h
  kek := fun k h => by
    simp only [sampleSeal, Option.some.injEq] at h
    rw [← h]
    rfl

/-- The sample is encrypted; it grows by 113 bytes. -/
theorem sample_sealed : ∃ v' : View, encrypt toy sampleSeal sampleView 256 = .ok (v', 256 - 113) ∧ v'.rendered.length = 38 + 113 ∧
    ∃ w w' u : View, load ⟨[], []⟩ false v'.rendered [] = .ok w ∧ decrypt toy true sampleOpen [] 0 w = .ok ([], w) ∧
      decrypt toy false sampleOpen [] 0 w = .ok ([], w') ∧ u.rendered = sampleView.rendered ∧
      w'.render (List.replicate 38 0) = .ok u := by
  have hn : (sampleView.blocks.map (·.block.number)).Nodup := by decide
  have hr : ∀ b ∈ sampleView.blocks, b.block.number + 1 < 2 ^ 64 := by decide
  have he : (match encrypt toy sampleSeal sampleView 256 with
      | .ok x => x.2 == 143 && x.1.rendered.length == 151
      | _ => false) = true := by decide +kernel
  have he2 : ∃ x : View × Nat, encrypt toy sampleSeal sampleView 256 = .ok x ∧ x.2 = 143 ∧ x.1.rendered.length = 151 := by
    split at he
    · simp only [Bool.and_eq_true, beq_iff_eq] at he
      exact ⟨_, by assumption, he⟩
    · simp at he
  obtain ⟨⟨v', left⟩, h1, h2, h3⟩ := he2
  obtain ⟨w, w', u, g1, g2, g3, g4, _, _, g5, _⟩ := C92_round_trip toy toy_lawful sampleView _ sample_isView hn hr (by decide) sampleSeal _
    sample_sealable sampleOpen sample_opens 256 left v' h1 [] (by simp only [List.append_nil]; simp only at h3; omega)
  simp only at h2
  subst h2
  exact ⟨v', h1, h3, w, w', u, g1, g2, g3, g4, g5 _ (by decide)⟩

/-! ## C94: a decryption without errors -/

theorem zip_forall2 {α β γ : Type} {R : α → β → γ → Prop} {as : List α} {bs : List β} {cs : List γ} (hl : bs.length = as.length)
    (h : List.Forall₂ (fun p c => R p.1 p.2 c) (as.zip bs) cs) :
    (as.length = cs.length ∧ bs.length = cs.length) ∧ ∀ (i : Nat) a b c, as[i]? = some a → bs[i]? = some b → cs[i]? = some c → R a b c := by
  induction as generalizing bs cs with
  | nil =>
    cases bs with
    | nil => cases h; exact ⟨⟨rfl, rfl⟩, fun i a b c ha => by simp at ha⟩
    | cons b bs => simp at hl
  | cons a as ih =>
    cases bs with
    | nil => simp at hl
    | cons b bs =>
      rw [List.zip_cons_cons] at h
      cases h with
      | cons h1 h2 =>
        rename_i c cs
        obtain ⟨⟨g1, g2⟩, g3⟩ := ih (by simpa using hl) h2
        refine ⟨⟨by simp [g1], by simp [g2]⟩, fun i a' b' c' ha hb hc => ?_⟩
        cases i with
        | zero =>
          simp only [List.getElem?_cons_zero, Option.some.injEq] at ha hb hc
          subst ha hb hc
          exact h1
        | succ i =>
          simp only [List.getElem?_cons_succ] at ha hb hc
          exact g3 i a' b' c' ha hb hc

theorem getBytes_some {ps : List Pair} {id : Nat} {x : Bytes} (h : getBytes ps id = some x) : ps.find? (·.id = id) = some ⟨id, .bytes x⟩ := by
  unfold getBytes at h
  split at h
  · rename_i i b hf
    have := List.find?_some hf
    simp only [decide_eq_true_eq] at this
    simp only [Option.some.injEq] at h
    rw [hf, h, this]
  · simp at h

theorem allResults_eq (rs : List Pair) :
    allResults rs 1 = rs.filterMap fun r => match r with | ⟨1, .bytes x⟩ => some x | _ => none := by
  unfold allResults
  refine List.filterMap_congr fun r _ => ?_
  obtain ⟨id, val⟩ := r
  cases val with
  | uint n =>
    simp only
    split_ifs <;> rfl
  | bytes x =>
    by_cases hid : id = 1
    · subst hid; rfl
    · simp only [hid, if_false]
      split
      · rename_i he
        simp only [Pair.mk.injEq] at he
        exact absurd he.1 hid
      · rfl

theorem decrypt_clean {C : Crypto} {verifyOnly : Bool} {P : OpenParams} {pad : Bytes} {self : Nat} {w w' : View}
    (hn : ∀ sec a, w.blocks[self]? = some sec → sec.body = .sec a → a.targets.Nodup)
    (h : decrypt C verifyOnly P pad self w = .ok ([], w')) :
    ∃ sec a o, w.blocks[self]? = some sec ∧ sec.body = .sec a ∧ openingOf C P sec = .ok (.good o) ∧
      (∃ xs, List.Forall₂ (fun p x => w.byNumber p.1 = some x ∧ Checked C P.mask o w.primaryRaw x p.2) o.work xs ∧
        P.mask = (xs.map (·.block.typeCode)).foldl addType 0) ∧
      (if verifyOnly then w' = View.setDeleted w self false
        else ∃ v, After C o w v a.targets ∧
          (∀ t ∈ a.targets, View.indexOf w t ≠ some self) ∧ w' = View.setDeleted v self true) := by
  unfold decrypt at h
  cases hsec : w.blocks[self]? with
  | none => rw [hsec] at h; simp at h
  | some sec =>
  rw [hsec] at h
  simp only at h
  cases ho : openingOf C P sec with
  | fail => rw [ho] at h; simp [Out.bind] at h
  | fault => rw [ho] at h; simp [Out.bind] at h
  | ok k =>
  rw [ho] at h
  simp only [Out.bind] at h
  cases k with
  | bad c => simp at h
  | good o =>
  simp only at h
  obtain ⟨a, tags, ha, ht, rfl, hl, hwork, _⟩ := openingOf_good ho
  cases hloop : openLoop C verifyOnly P.mask o pad self 0 o.work ⟨w, [], 0⟩ with
  | fail => rw [hloop] at h; simp at h
  | fault => rw [hloop] at h; simp at h
  | ok s =>
  rw [hloop] at h
  simp only [Out.ok.injEq] at h
  unfold finish at h
  by_cases hes : s.errors = []
  swap
  · rw [if_neg hes] at h
    simp only [Prod.mk.injEq] at h
    exact absurd h.1 hes
  rw [if_pos hes] at h
  by_cases hm : s.mask ≠ P.mask
  · rw [if_pos hm] at h; simp at h
  rw [if_neg hm] at h
  simp only [Prod.mk.injEq, true_and] at h
  push Not at hm
  have hfst : o.work.map (·.1) = a.targets := by
    rw [hwork, List.map_fst_zip (by omega)]
  obtain ⟨_, g2, xs, g3, g4⟩ := openLoop_clean (w := w) o.work 0 ⟨w, [], 0⟩ s [] (by
    cases verifyOnly
    · exact ⟨rfl, rfl, fun i x hx _ => hx, fun i x _ hx => by simp at hx⟩
    · rfl) (by rw [List.nil_append, hfst]; exact hn sec a hsec ha) hloop hes
  refine ⟨sec, a, o, rfl, ha, ho, ⟨xs, g3, by rw [← hm, g4]⟩, ?_⟩
  cases verifyOnly with
  | true =>
    simp only [if_true] at g2 ⊢
    rw [← h, g2]
    rfl
  | false =>
    simp only [Bool.false_eq_true, if_false] at g2 ⊢
    rw [List.nil_append, hfst] at g2
    refine ⟨s.view, g2.1, fun t ht => ?_, h.symm⟩
    have : t ∈ o.work.map (·.1) := by rw [hfst]; exact ht
    obtain ⟨p, hp, rfl⟩ := List.mem_map.1 this
    exact g2.2 p hp

theorem setDeleted_same {w : View} {i : Nat} (h : ∀ b, w.blocks[i]? = some b → b.deleted = false) : View.setDeleted w i false = w := by
  have : w.blocks.modify i (fun b => { b with deleted := false }) = w.blocks := by
    refine List.ext_getElem? fun j => ?_
    rw [List.getElem?_modify]
    by_cases hj : i = j
    · subst hj
      cases hb : w.blocks[i]? with
      | none => rfl
      | some b =>
        have := h b hb
        obtain ⟨b1, b2, b3, b4, b5⟩ := b
        simp only at this
        subst this
        simp
    · simp [hj]
  unfold View.setDeleted
  rw [this]

theorem indexOf_nodup {w : View} (hn : (w.blocks.map (·.block.number)).Nodup) {i : Nat} {x : BlockView} (h : w.blocks[i]? = some x) :
    View.indexOf w x.block.number = some i := by
  unfold View.indexOf
  obtain ⟨hi, rfl⟩ := List.getElem?_eq_some_iff.1 h
  refine List.findIdx?_eq_some_iff_getElem.2 ⟨hi, by simp, fun j hj => ?_⟩
  simp only [decide_eq_true_eq]
  intro he
  have := (List.nodup_iff_injective_get.1 hn) (a₁ := ⟨j, by simp; omega⟩) (a₂ := ⟨i, by simpa using hi⟩) (by simpa using he)
  simp only [Fin.mk.injEq] at this
  omega

theorem withDataCrc_deleted (b : BlockView) (d : Bytes) : (withDataCrc b d).deleted = b.deleted := rfl

theorem withDataCrc_fields (b : BlockView) (d : Bytes) :
    (withDataCrc b d).block.typeCode = b.block.typeCode ∧ (withDataCrc b d).block.number = b.block.number ∧
    (withDataCrc b d).block.flags = b.block.flags ∧ (withDataCrc b d).block.crcType = b.block.crcType ∧
    (withDataCrc b d).block.data = d := by
  unfold withDataCrc recompute withData
  simp only
  split_ifs <;> exact ⟨rfl, rfl, rfl, rfl, rfl⟩

/-- C94, decryption: if no error is reported, the block at `self` is a security block with targets, the key is the one
given or the one that the block carries wrapped, and for every target the bundle has a block with that number whose
ciphertext and additional data have the tag that the security block carries for it (of which the first 16 bytes count).
The types of these blocks up to 63 are those of the mask. If the block is only verified nothing has changed; otherwise it
is marked for deletion, the data of the targets are decrypted, and the other blocks are as they were. -/
theorem C94_decrypted (C : Crypto) (verifyOnly : Bool) (P : OpenParams) (pad : Bytes) (self : Nat) (w w' : View)
    (hb : ∀ b ∈ w.blocks, IsBlock false b.raw b.block)
    (hn : ∀ sec a, w.blocks[self]? = some sec → sec.body = .sec a → a.targets.Nodup)
    (h : decrypt C verifyOnly P pad self w = .ok ([], w')) :
    ∃ (sec : BlockView) (a : Asb) (iv key : Bytes) (tags : List Bytes) (xs : List BlockView), w.blocks[self]? = some sec ∧ sec.body = .sec a ∧ a.targets ≠ [] ∧
      a.params.find? (·.id = 1) = some ⟨1, .bytes iv⟩ ∧ iv.length = P.ivLength ∧
      ((∃ wrapped kek, a.params.find? (·.id = 3) = some ⟨3, .bytes wrapped⟩ ∧ P.kek = some kek ∧ C.unwrap kek wrapped = some key) ∨
        P.key = some key) ∧
      (key.length = 16 ∨ key.length = 32) ∧
      tags = a.results.filterMap (fun r => match r with | ⟨1, .bytes x⟩ => some x | _ => none) ∧
      (a.targets.length = xs.length ∧ tags.length = xs.length) ∧
      (∀ (i : Nat) t tag x, a.targets[i]? = some t → tags[i]? = some tag → xs[i]? = some x →
        w.blocks.find? (·.block.number = t) = some x ∧ 16 ≤ tag.length ∧
        (ShortHeader x.raw x.block → ShortHeader sec.raw sec.block →
          ∃ aad, IsAad P.scope w.primaryRaw (header x.block) (header sec.block) aad ∧ tag.take 16 = C.tag key iv aad x.block.data)) ∧
      (∀ n, P.mask.testBit n = true ↔ n ≤ 63 ∧ ∃ x ∈ xs, x.block.typeCode.toNat = n) ∧
      (verifyOnly = true → (∀ b ∈ w.blocks, b.deleted = false) → w' = w) ∧
      (verifyOnly = false → (w.blocks.map (·.block.number)).Nodup → w'.primaryRaw = w.primaryRaw ∧
        w'.blocks.length = w.blocks.length ∧ ∀ (i : Nat) x, w.blocks[i]? = some x → ∃ y, w'.blocks[i]? = some y ∧
          y.deleted = (x.deleted || decide (i = self)) ∧
          if x.block.number ∈ a.targets then
            i ≠ self ∧ y.block.typeCode = x.block.typeCode ∧ y.block.number = x.block.number ∧ y.block.flags = x.block.flags ∧
            y.block.crcType = x.block.crcType ∧ y.block.data = C.ctr key iv x.block.data
          else { y with deleted := x.deleted } = x) := by
  obtain ⟨sec, a, o, h1, h2, h3, ⟨xs, h4, h5⟩, h6⟩ := decrypt_clean hn h
  obtain ⟨a', tags, g1, g2, g3, g4, g5, g6, g7, g8, g9, g10⟩ := openingOf_good h3
  rw [h2] at g1
  simp only [Body.sec.injEq] at g1
  subst g1
  rw [g5] at h4
  obtain ⟨z1, z2⟩ := zip_forall2 (R := fun t tag x => w.byNumber t = some x ∧ Checked C P.mask o w.primaryRaw x tag) g4 h4
  have hpos : ∃ x, x ∈ xs := by
    cases xs with
    | nil => exact absurd (List.length_eq_zero_iff.1 z1.1) g2
    | cons x xs => exact ⟨x, List.mem_cons_self⟩
  have hsize : isAesKey o.key = true := by
    obtain ⟨x, hx⟩ := hpos
    obtain ⟨i, hi, rfl⟩ := List.mem_iff_getElem.1 hx
    exact (z2 i _ _ _ (List.getElem?_eq_getElem (by omega)) (List.getElem?_eq_getElem (by omega)) (List.getElem?_eq_getElem hi)).2.size
  refine ⟨sec, a, o.iv, o.key, tags, xs, h1, h2, g2, getBytes_some g6, g7, ?_, by simpa [isAesKey] using hsize, ?_, z1, ?_, ?_, ?_, ?_⟩
  · rcases g10 with ⟨wr, kek, hw, k1, k2⟩ | ⟨_, k1⟩
    · exact Or.inl ⟨wr, kek, getBytes_some hw, k1, k2⟩
    · exact Or.inr k1
  · rw [g3]
    exact allResults_eq _
  · intro i t tag x q1 q2 q3
    obtain ⟨y1, y2⟩ := z2 i t tag x q1 q2 q3
    refine ⟨y1, y2.long, fun s1 s2 => ?_⟩
    obtain ⟨hd, e1, e2⟩ := y2.same
    have hxm : x ∈ w.blocks := List.mem_of_find?_eq_some y1
    have hsm : sec ∈ w.blocks := List.mem_of_getElem? h1
    rw [headerOf_ok (hb x hxm), part_ok] at e1
    rw [headerOf_ok (hb sec hsm), part_ok] at g9
    simp only [Out.ok.injEq] at e1 g9
    refine ⟨_, aadOf_isAad _ _ _ _, ?_⟩
    rw [e2, ← e1, ← g9, aadOf_part, aadOf_part2, hdr_short (hb x hxm) s1, hdr_short (hb sec hsm) s2, g8]
  · intro n
    rw [h5, addTypes_testBit]
    simp
  · intro hv hd
    rw [hv] at h6
    simp only [if_true] at h6
    rw [h6, setDeleted_same]
    intro b hb'
    rw [h1] at hb'
    simp only [Option.some.injEq] at hb'
    rw [← hb']
    exact hd sec (List.mem_of_getElem? h1)
  · intro hv hnd
    rw [hv] at h6
    simp only [Bool.false_eq_true, if_false] at h6
    obtain ⟨v, k1, k2, rfl⟩ := h6
    refine ⟨k1.primary, ?_, ?_⟩
    · have := congrArg List.length k1.numbers
      simpa [View.setDeleted] using this
    intro i x hx
    have hix := indexOf_nodup hnd hx
    by_cases hin : x.block.number ∈ a.targets
    · obtain ⟨body, hv1⟩ := k1.target i x hx hin hix
      have hne : i ≠ self := fun he => k2 _ hin (he ▸ hix)
      refine ⟨openB C o.key o.iv x body, ?_, ?_, ?_⟩
      · simp only [View.setDeleted, List.getElem?_modify]
        rw [hv1]
        have hne' : ¬ self = i := fun h => hne h.symm
        simp [hne']
      · simp [openB, withDataCrc_deleted, hne]
      · rw [if_pos hin]
        exact ⟨hne, withDataCrc_fields x _⟩
    · have hv1 := k1.other i x hx (fun hh => hin hh.1)
      refine ⟨if i = self then { x with deleted := true } else x, ?_, ?_, ?_⟩
      · simp only [View.setDeleted, List.getElem?_modify]
        rw [hv1]
        by_cases he : self = i
        · simp [he]
        · have he' : ¬ i = self := fun h => he h.symm
          simp [he, he']
      · split_ifs with he <;> simp [he]
      · rw [if_neg hin]
        split_ifs <;> rfl

/-! ## C93: integrity -/

theorem ipptPrimary_spec (scope : Nat) (primary security : Bytes) (hp : primary.length < 2 ^ 64) :
    IsIpptPrimary scope primary security (ipptPrimary scope primary security) := by
  obtain ⟨h1, h2⟩ := isStringHead_encode primary.length hp
  refine ⟨aadOf scope [] [] security, byteStringHead primary.length ++ primary, ?_, aadOf_isAad _ _ _ _, _, rfl, h1, fun o ho => ?_⟩
  · simp [ipptPrimary, aadOf]
  · rw [h2, encode_length]
    exact stringHead_minimal ho

theorem ipptOf_spec {b : BlockView} (hb : IsBlock false b.raw b.block) (h1 : ShortHeader b.raw b.block) (h2 : ShortData b.raw b.block)
    (scope : Nat) (primary security : Bytes) : IsIppt scope primary security b.block (ipptOf scope primary (hdr b) security (strB b)) :=
  ⟨_, _, rfl, by rw [hdr_short hb h1]; exact aadOf_isAad _ _ _ _, strB_short hb h2⟩

/-- C93, signing: the result is a bundle that loads, in which an integrity block with an unused number comes first and
nothing else has changed. The block names the targets, the variant, the wrapped key and the scope, and has for each target
the HMAC of the plaintext of RFC 9173, if the header and the length of the data of the target have their shortest encoding.
The call fails if the bundle grows by more than 256 bytes. It writes before the memory if the bundle grows by less than
that but by more than the room in front of it. -/
theorem C93_sign_partial (C : Crypto) (hC : Lawful C) (v : View) (buf : Bytes) (hv : IsViewOf false v buf)
    (hr : ∀ b ∈ v.blocks, b.block.number + 1 < 2 ^ 64) (hlen : buf.length < 2 ^ 62)
    (P : SignParams) (key : Bytes) (hs : Signable v P key) :
    ∃ (bundle : Bytes) (w : View) (bib : BlockView) (a : Asb),
      IsViewOf false w bundle ∧ w.primary = v.primary ∧ w.primaryRaw = v.primaryRaw ∧ w.blocks = bib :: v.blocks ∧
      bib.block.typeCode = 11 ∧ Unused v.blocks bib.block.number ∧ bib.block.flags = 0 ∧
      bib.block.crcType = P.crcType ∧ bib.body = .sec a ∧
      a.targets = P.targets ∧ a.context = 1 ∧ a.flags = 1 ∧ a.source = P.source ∧
      a.params = [⟨1, .uint P.variant⟩] ++ (P.kek.toList.map fun k => ⟨2, .bytes (C.wrap k key)⟩) ++ [⟨3, .uint P.scope⟩] ∧
      List.Forall₂ (fun t r => ∃ m, r = ⟨1, .bytes m⟩ ∧
        (t = 0 → ∃ ippt, IsIpptPrimary P.scope v.primaryRaw (header bib.block) ippt ∧ m = C.hmac P.variant key ippt) ∧
        (t ≠ 0 → ∃ b ∈ v.blocks, b.block.number = t ∧ (ShortHeader b.raw b.block → ShortData b.raw b.block →
          ∃ ippt, IsIppt P.scope v.primaryRaw (header bib.block) b.block ippt ∧ m = C.hmac P.variant key ippt))) P.targets a.results ∧
      ∀ room,
        (buf.length + 256 < bundle.length → sign C P v room = .fail) ∧
        (bundle.length ≤ buf.length + 256 → buf.length + room < bundle.length → sign C P v room = .fault) ∧
        (bundle.length ≤ buf.length + 256 → bundle.length ≤ buf.length + room →
          ∃ v', sign C P v room = .ok (v', buf.length + room - bundle.length) ∧ v'.rendered = bundle) := by
  obtain ⟨u', w, bib, h1, h2, h3, h4, h6, h7, h8, h9, h10, h11, h12, h13, h14⟩ := sign_full hC hv hr hlen hs
  refine ⟨u'.rendered, w, bib, _, h1, h3, h2, h4, h6, by rw [h7]; exact h13, h8, h9, h11, rfl, rfl, rfl, rfl, ?_, ?_, ?_⟩
  · cases P.kek <;> rfl
  · have hnew : headerOfNew (bibOf P v.nextFree) = header bib.block := by
      simp [headerOfNew, header, bibOf, h6, h7, h8]
    have hpl : v.primaryRaw.length < 2 ^ 64 := by
      have hlay := isView_layout hv
      rw [hv.2.2.2.2.2.2.2.2.2.2.2] at hlay
      rw [hlay] at hlen
      simp only [layout, List.length_append, List.length_cons] at hlen
      omega
    unfold bibAsb
    simp only
    rw [List.map_map]
    refine List.forall₂_map_right_iff.2 (List.forall₂_same.2 fun t ht => ⟨_, rfl, fun h0 => ?_, fun h0 => ?_⟩)
    · refine ⟨_, ipptPrimary_spec _ _ _ hpl, ?_⟩
      subst h0
      rw [← hnew]
      rfl
    · obtain ⟨b, e, hb, _⟩ := there_ok hv hs t ht h0
      refine ⟨b, List.mem_of_find?_eq_some e, by simpa using List.find?_some e, fun s1 s2 => ⟨_, ipptOf_spec hb s1 s2 _ _ _, ?_⟩⟩
      simp only [named]
      rw [if_neg h0, e, ← hnew]
      rfl
  · intro room
    rw [h14 room]
    refine ⟨fun h => if_pos h, fun g h => ?_, fun g h => ?_⟩
    · rw [if_neg (by omega), if_pos h]
    · rw [if_neg (by omega), if_neg (by omega)]
      exact ⟨u', rfl, rfl⟩

/-- C93, round trip: what `sign` has made, loaded by a receiver who expects it and has the key, is verified without an
error; an acceptor renders the bundle as it was before, a verifier has changed nothing. -/
theorem C93_round_trip (C : Crypto) (hC : Lawful C) (v : View) (buf : Bytes) (hv : IsViewOf false v buf)
    (hn : (v.blocks.map (·.block.number)).Nodup) (hr : ∀ b ∈ v.blocks, b.block.number + 1 < 2 ^ 64) (hlen : buf.length < 2 ^ 62 - 256)
    (P : SignParams) (key : Bytes) (hs : Signable v P key) (Q : VerifyParams) (hq : Verifies v P Q) (room left : Nat) (v' : View)
    (he : sign C P v room = .ok (v', left)) (pad : Bytes) (hpad : (v'.rendered ++ pad).length < 2 ^ 64) :
    ∃ w w' u : View, load ⟨[], []⟩ false v'.rendered pad = .ok w ∧
      verify C false Q 0 w = .ok ([], w) ∧
      verify C true Q 0 w = .ok ([], w') ∧
      u.rendered = buf ∧ u.primary = v.primary ∧ u.blocks = v.blocks ∧
      (∀ mem : Bytes, buf.length ≤ mem.length → w'.render mem = .ok u) ∧
      ∀ room', renderHere room' w' = .ok (u, v'.rendered.length - buf.length + room') := by
  obtain ⟨u', w, bib, h1, h2, h3, h4, h6, h7, h8, h9, h10, h11, h12, h13, h14⟩ := sign_full hC hv hr (by omega) hs
  rw [h14 room] at he
  have hgrow : ¬ buf.length + 256 < u'.rendered.length := by
    intro h; rw [if_pos h] at he; simp at he
  rw [if_neg hgrow] at he
  have hu : u' = v' := by
    split_ifs at he
    simp only [Out.ok.injEq, Prod.mk.injEq] at he
    exact he.1
  subst hu
  obtain ⟨d1, d2⟩ := verify_full hC hv hn hs hq h1 h2 h4 h7 h13 h10 h11 h12
  have hlay := isView_layout h1
  have hwr : w.rendered = u'.rendered := h1.2.2.2.2.2.2.2.2.2.2.2
  have hvl := isView_layout hv
  rw [hv.2.2.2.2.2.2.2.2.2.2.2] at hvl
  have hsz : u'.rendered.length = (layout v.primaryRaw (bib :: v.blocks)).length := by rw [← hwr, hlay, h4, h2]
  have hbl : u'.rendered.length = bib.raw.length + buf.length := by
    rw [hsz, hvl]
    simp only [layout, raws_cons, List.length_append, List.length_cons]
    omega
  obtain ⟨u, r1, r2, r3, r4, r5⟩ := render_without hv (w := w) (sec := { bib with deleted := true }) h2 h3 h1.2.2.2.2.2.1 rfl (by
    show (layout v.primaryRaw ({ bib with deleted := true } :: v.blocks)).length < 2 ^ 62
    simp only [layout, raws_cons] at hsz ⊢
    rw [← hsz]
    omega)
  refine ⟨w, _, u, (C77_load_iff false _ pad w hpad).2 h1, d1, d2, r1, r3, r2, r4, fun room' => ?_⟩
  rw [r5 room', hbl]
  congr 2
  show bib.raw.length + room' = _
  omega

/-! ### An example -/

/-- Signing the primary block, the bundle age and the payload of the sample. -/
def sampleSign : SignParams := ⟨7, 5, 1, ⟨2, 1⟩, [0, 1, 2], none, some [1, 2, 3]⟩

def sampleVerify : VerifyParams := ⟨5, 7, 2 ^ 0 + 2 ^ 1 + 2 ^ 7, none, some [1, 2, 3]⟩

theorem sample_signable : Signable sampleView sampleSign [1, 2, 3] where
  hasKey := rfl
  kek := fun k h => by simp [sampleSign] at h
  variant := Or.inl rfl
  scope := by decide
  crc := Or.inr (Or.inl rfl)
  source := ⟨by decide, by decide, by decide⟩
  targets := ⟨by decide, by decide⟩
  there := by
    intro t ht
    simp only [sampleSign, List.mem_cons, List.not_mem_nil, or_false] at ht
    rcases ht with rfl | rfl | rfl
    · exact Or.inl rfl
    · exact Or.inr ⟨by decide, by decide, payloadBlock, by simp [sampleView], rfl⟩
    · exact Or.inr ⟨by decide, by decide, ageBlock 2 5, by simp [sampleView], by decide⟩
  named := fun t h => by
    have : sampleView.encrypted = [] := rfl
    rw [this] at h
    simp at h

theorem sample_verifies : Verifies sampleView sampleSign sampleVerify where
  variant := rfl
  scope := rfl
  mask := by
    intro n
    have h1 : ∀ n, (2 ^ 0 ||| 2 ^ 1 ||| 2 ^ 7 : Nat).testBit n = true ↔ n = 0 ∨ n = 1 ∨ n = 7 := by
      intro n
      rw [Nat.testBit_or, Nat.testBit_or, Nat.testBit_two_pow, Nat.testBit_two_pow, Nat.testBit_two_pow]
      simp only [Bool.or_eq_true, decide_eq_true_eq]
      omega
    have h2 : sampleVerify.mask = (2 ^ 0 ||| 2 ^ 1 ||| 2 ^ 7 : Nat) := by decide
    rw [h2, h1]
    constructor
    · rintro (rfl | rfl | rfl)
      · exact ⟨by decide, Or.inl ⟨rfl, by decide⟩⟩
      · exact ⟨by decide, Or.inr ⟨payloadBlock, by simp [sampleView], by decide, by decide, rfl⟩⟩
      · exact ⟨by decide, Or.inr ⟨ageBlock 2 5, by simp [sampleView], by decide, by decide, rfl⟩⟩
    · rintro ⟨_, ⟨rfl, _⟩ | ⟨b, hb, _, _, rfl⟩⟩
      · exact Or.inl rfl
      · simp only [sampleView, List.mem_cons, List.not_mem_nil, or_false] at hb
        rcases hb with rfl | rfl
        · exact Or.inr (Or.inr rfl)
        · exact Or.inr (Or.inl rfl)
  key := fun _ => rfl
  kek := fun k h => by simp [sampleSign] at h

/-- The sample is signed; it grows by 140 bytes. -/
theorem sample_signed : ∃ v' : View, sign toy sampleSign sampleView 256 = .ok (v', 256 - 140) ∧ v'.rendered.length = 38 + 140 ∧
    ∃ w w' u : View, load ⟨[], []⟩ false v'.rendered [] = .ok w ∧ verify toy false sampleVerify 0 w = .ok ([], w) ∧
      verify toy true sampleVerify 0 w = .ok ([], w') ∧ u.rendered = sampleView.rendered ∧
      w'.render (List.replicate 38 0) = .ok u := by
  have hn : (sampleView.blocks.map (·.block.number)).Nodup := by decide
  have hr : ∀ b ∈ sampleView.blocks, b.block.number + 1 < 2 ^ 64 := by decide
  have he : (match sign toy sampleSign sampleView 256 with
      | .ok x => x.2 == 116 && x.1.rendered.length == 178
      | _ => false) = true := by decide +kernel
  have he2 : ∃ x : View × Nat, sign toy sampleSign sampleView 256 = .ok x ∧ x.2 = 116 ∧ x.1.rendered.length = 178 := by
    split at he
    · simp only [Bool.and_eq_true, beq_iff_eq] at he
      exact ⟨_, by assumption, he⟩
    · simp at he
  obtain ⟨⟨v', left⟩, h1, h2, h3⟩ := he2
  obtain ⟨w, w', u, g1, g2, g3, g4, _, _, g5, _⟩ := C93_round_trip toy toy_lawful sampleView _ sample_isView hn hr (by decide) sampleSign _
    sample_signable sampleVerify sample_verifies 256 left v' h1 [] (by simp only [List.append_nil]; simp only at h3; omega)
  simp only at h2
  subst h2
  exact ⟨v', h1, h3, w, w', u, g1, g2, g3, g4, g5 _ (by decide)⟩

/-! ## C94: a verification without errors -/

/-- C94, integrity: if no error is reported, the block at `self` is a security block with targets, the key is the one given
or the one that the block carries wrapped, and for every target, the primary block or a block of the bundle that is not
encrypted, the HMAC of its plaintext is the one that the security block carries for it. The types of these blocks up to 63
are those of the mask. Nothing has changed, except that an acceptor marks the security block for deletion. -/
theorem C94_verified (C : Crypto) (accept : Bool) (P : VerifyParams) (self : Nat) (w w' : View)
    (hb : ∀ b ∈ w.blocks, IsBlock false b.raw b.block) (hp : w.primaryRaw.length < 2 ^ 64)
    (h : verify C accept P self w = .ok ([], w')) :
    ∃ (sec : BlockView) (a : Asb) (key : Bytes) (macs : List Bytes) (xs : List (Option BlockView)),
      w.blocks[self]? = some sec ∧ sec.body = .sec a ∧ a.targets ≠ [] ∧
      ((∃ wrapped kek, a.params.find? (·.id = 2) = some ⟨2, .bytes wrapped⟩ ∧ P.kek = some kek ∧ C.unwrap kek wrapped = some key) ∨
        P.key = some key) ∧
      macs = a.results.filterMap (fun r => match r with | ⟨1, .bytes x⟩ => some x | _ => none) ∧
      (a.targets.length = xs.length ∧ macs.length = xs.length) ∧
      (∀ (i : Nat) t m x, a.targets[i]? = some t → macs[i]? = some m → xs[i]? = some x →
        (t = 0 → x = none ∧ (ShortHeader sec.raw sec.block →
          ∃ ippt, IsIpptPrimary P.scope w.primaryRaw (header sec.block) ippt ∧ m = C.hmac P.variant key ippt)) ∧
        (t ≠ 0 → ∃ b, x = some b ∧ w.blocks.find? (·.block.number = t) = some b ∧ b.body ≠ .hidden ∧
          (ShortHeader b.raw b.block → ShortData b.raw b.block → ShortHeader sec.raw sec.block →
            ∃ ippt, IsIppt P.scope w.primaryRaw (header sec.block) b.block ippt ∧ m = C.hmac P.variant key ippt))) ∧
      (∀ n, P.mask.testBit n = true ↔ n ≤ 63 ∧ ∃ x ∈ xs, (match x with | none => 0 | some b => b.block.typeCode.toNat) = n) ∧
      w'.primaryRaw = w.primaryRaw ∧ w'.blocks = w.blocks.modify self fun b => { b with deleted := accept } := by
  obtain ⟨sec, g, h1, h3, ⟨xs, h4, h5⟩, rfl⟩ := verify_clean h
  obtain ⟨a, macs, g1, g2, g3, g4, g5, g7, g8, g9, g10⟩ := verifyingOf_good h3
  rw [g5] at h4
  obtain ⟨z1, z2⟩ := zip_forall2 (R := fun t m x => MacOk C P.mask g w t m x) g4 h4
  have hsm : sec ∈ w.blocks := List.mem_of_getElem? h1
  rw [headerOf_ok (hb sec hsm), part_ok] at g9
  simp only [Out.ok.injEq] at g9
  have hmac : ∀ x : Option BlockView, ShortHeader sec.raw sec.block →
      mac C g.variant g.key g.scope w.primaryRaw g.header x = mac C P.variant g.key P.scope w.primaryRaw (header sec.block) x := by
    intro x hs
    rw [← g9, mac_part, hdr_short (hb sec hsm) hs, g7, g8]
  refine ⟨sec, a, g.key, macs, xs, h1, g1, g2, ?_, ?_, z1, ?_, ?_, rfl, rfl⟩
  · rcases g10 with ⟨wr, kek, hw, k1, k2⟩ | ⟨_, k1⟩
    · exact Or.inl ⟨wr, kek, getBytes_some hw, k1, k2⟩
    · exact Or.inr k1
  · rw [g3]
    exact allResults_eq _
  · intro i t m x q1 q2 q3
    obtain ⟨y1, y2, _, y4⟩ := z2 i t m x q1 q2 q3
    refine ⟨fun h0 => ⟨y1 h0, fun hs => ?_⟩, fun h0 => ?_⟩
    · have hx := y1 h0
      subst hx
      rw [hmac _ hs] at y4
      exact ⟨_, ipptPrimary_spec _ _ _ hp, (y4 (fun b h => by simp at h)).symm⟩
    · obtain ⟨b, hx, hby, hnh⟩ := y2 h0
      subst hx
      have hbm : b ∈ w.blocks := List.mem_of_find?_eq_some hby
      refine ⟨b, rfl, hby, hnh, fun s1 s2 s3 => ?_⟩
      rw [hmac _ s3] at y4
      exact ⟨_, ipptOf_spec (hb b hbm) s1 s2 _ _ _, (y4 (fun b' h => by
        simp only [Option.some.injEq] at h
        rw [← h]; exact hb b hbm)).symm⟩
  · intro n
    rw [h5, addTypes_testBit]
    simp only [Nat.zero_testBit, Bool.false_eq_true, false_or, List.mem_map]
    constructor
    · rintro ⟨q1, _, ⟨x, hx, rfl⟩, q2⟩
      refine ⟨q1, x, hx, ?_⟩
      cases x <;> exact q2
    · rintro ⟨q1, x, hx, q2⟩
      refine ⟨q1, _, ⟨x, hx, rfl⟩, ?_⟩
      cases x <;> exact q2

/-! ### Examples -/

/-- The targets of a confidentiality block in a bundle that was loaded are different. -/
theorem loaded_targets {w : View} {buf : Bytes} (hw : IsViewOf false w buf) {sec : BlockView} {a : Asb} (hs : sec ∈ w.blocks)
    (ht : sec.block.typeCode = 12) (ha : sec.body = .sec a) : a.targets.Nodup := by
  have h1 := hw.2.2.2.2.2.2.2.1
  have h2 := hw.2.2.2.2.2.2.2.2.1
  rw [h1] at h2
  unfold allTargets at h2
  have h3 := (List.nodup_flatten.1 h2).1 (targetsOf sec) (List.mem_map_of_mem hs)
  have h4 : targetsOf sec = a.targets := by simp [targetsOf, ht, ha]
  rw [h4] at h3
  exact h3

example : ∃ w w' : View, decrypt toy false sampleOpen [] 0 w = .ok ([], w') ∧ (∀ b ∈ w.blocks, IsBlock false b.raw b.block) ∧
    (w.blocks.map (·.block.number)).Nodup ∧
    ∀ sec a, w.blocks[0]? = some sec → sec.body = .sec a → a.targets.Nodup := by
  obtain ⟨v', he, hl, w, w', u, g1, g2, g3, _⟩ := sample_sealed
  have hw := (C77_load_iff false _ [] w (by rw [List.append_nil, hl]; decide)).1 g1
  have hc : (match encrypt toy sampleSeal sampleView 256 with
      | .ok x => match load ⟨[], []⟩ false x.1.rendered [] with
        | .ok w => w.blocks.map (fun b => (b.block.typeCode, b.block.number)) == [(12, 3), (7, 2), (1, 1)]
        | _ => false
      | _ => false) = true := by decide +kernel
  rw [he] at hc
  simp only [g1, beq_iff_eq] at hc
  refine ⟨w, w', g3, fun b hb => (isView_clean hw b hb).1, ?_, fun sec a h1 h2 => ?_⟩
  · have : w.blocks.map (·.block.number) = [3, 2, 1] := by
      have := congrArg (List.map Prod.snd) hc
      rw [List.map_map] at this
      exact this
    rw [this]
    decide
  · refine loaded_targets hw (List.mem_of_getElem? h1) ?_ h2
    cases hb : w.blocks with
    | nil => rw [hb] at h1; simp at h1
    | cons x xs =>
      rw [hb] at h1 hc
      simp only [List.getElem?_cons_zero, Option.some.injEq] at h1
      rw [← h1]
      simp only [List.map_cons, List.cons.injEq, Prod.mk.injEq] at hc
      exact hc.1.1

example : ∃ w w' : View, verify toy true sampleVerify 0 w = .ok ([], w') ∧ (∀ b ∈ w.blocks, IsBlock false b.raw b.block) ∧
    w.primaryRaw.length < 2 ^ 64 := by
  obtain ⟨v', he, hl, w, w', u, g1, g2, g3, _⟩ := sample_signed
  have hw := (C77_load_iff false _ [] w (by rw [List.append_nil, hl]; decide)).1 g1
  refine ⟨w, w', g3, fun b hb => (isView_clean hw b hb).1, ?_⟩
  have hlay := isView_layout hw
  rw [hw.2.2.2.2.2.2.2.2.2.2.2] at hlay
  have := congrArg List.length hlay
  rw [hl] at this
  simp only [layout, List.length_append, List.length_cons] at this
  omega

theorem variantOf_spec {a : Asb} {id dflt : Nat} :
    (∀ n, a.params.find? (·.id = id) = some ⟨id, .uint n⟩ → (variantOf a id dflt).1 = n % 2 ^ 32) ∧
    (a.params.find? (·.id = id) = none → (variantOf a id dflt).1 = dflt) := by
  unfold variantOf getUint
  constructor
  · intro n h
    rw [h]
  · intro h
    rw [h]

theorem getScope_spec {ps : List Pair} {id : Nat} :
    (∀ n, ps.find? (·.id = id) = some ⟨id, .uint n⟩ → getScope ps id = n) ∧ (ps.find? (·.id = id) = none → getScope ps id = 7) := by
  unfold getScope getUint
  constructor
  · intro n h
    rw [h]
    rfl
  · intro h
    rw [h]
    rfl

/-- C94, the parameters: if no error is reported, the variant and the scope of the confidentiality block are those that
the receiver expects. A block without them has AES-256-GCM (3) and all scope flags (7); of the variant the lower 32 bits
count. -/
theorem C94_decrypted_parameters (C : Crypto) (verifyOnly : Bool) (P : OpenParams) (pad : Bytes) (self : Nat) (w w' : View)
    (sec : BlockView) (a : Asb) (hs : w.blocks[self]? = some sec) (ha : sec.body = .sec a)
    (h : decrypt C verifyOnly P pad self w = .ok ([], w')) :
    (∀ n, a.params.find? (·.id = 2) = some ⟨2, .uint n⟩ → P.variant = n % 2 ^ 32 ∧ (P.variant = 1 ∨ P.variant = 3)) ∧
    (a.params.find? (·.id = 2) = none → P.variant = 3) ∧
    (∀ n, a.params.find? (·.id = 4) = some ⟨4, .uint n⟩ → P.scope = n) ∧
    (a.params.find? (·.id = 4) = none → P.scope = 7) := by
  unfold decrypt at h
  rw [hs] at h
  simp only at h
  unfold openingOf at h
  simp only [ha] at h
  by_cases h1 : (variantOf a 2 3).2 = true ∧ (variantOf a 2 3).1 ≠ 1 ∧ (variantOf a 2 3).1 ≠ 3
  · rw [if_pos h1] at h; simp [Out.bind] at h
  rw [if_neg h1] at h
  by_cases h2 : (variantOf a 2 3).1 ≠ P.variant
  · rw [if_pos h2] at h; simp [Out.bind] at h
  rw [if_neg h2] at h
  split at h
  · simp [Out.bind] at h
  rename_i iv _
  by_cases h3 : List.length iv ≠ P.ivLength
  · rw [if_pos h3] at h; simp [Out.bind] at h
  rw [if_neg h3] at h
  by_cases h4 : getScope a.params 4 ≠ P.scope
  · rw [if_pos h4] at h; simp [Out.bind] at h
  push Not at h2 h4
  have hv := variantOf_spec (a := a) (id := 2) (dflt := 3)
  have hsc := getScope_spec (ps := a.params) (id := 4)
  refine ⟨fun n hn => ⟨by rw [← h2, hv.1 n hn], ?_⟩, fun hn => by rw [← h2, hv.2 hn], fun n hn => by rw [← h4, hsc.1 n hn],
    fun hn => by rw [← h4, hsc.2 hn]⟩
  have hg : (variantOf a 2 3).2 = true := by
    unfold variantOf getUint
    rw [hn]
  rw [← h2]
  by_contra hc
  push Not at hc
  exact h1 ⟨hg, hc⟩

/-- The same for an integrity block, with HMAC 384 (6). -/
theorem C94_verified_parameters (C : Crypto) (accept : Bool) (P : VerifyParams) (self : Nat) (w w' : View)
    (sec : BlockView) (a : Asb) (hs : w.blocks[self]? = some sec) (ha : sec.body = .sec a)
    (h : verify C accept P self w = .ok ([], w')) :
    (∀ n, a.params.find? (·.id = 1) = some ⟨1, .uint n⟩ →
      P.variant = n % 2 ^ 32 ∧ (P.variant = 5 ∨ P.variant = 6 ∨ P.variant = 7)) ∧
    (a.params.find? (·.id = 1) = none → P.variant = 6) ∧
    (∀ n, a.params.find? (·.id = 3) = some ⟨3, .uint n⟩ → P.scope = n) ∧
    (a.params.find? (·.id = 3) = none → P.scope = 7) := by
  unfold verify at h
  rw [hs] at h
  simp only at h
  unfold verifyingOf at h
  simp only [ha] at h
  by_cases h1 : (variantOf a 1 6).2 = true ∧ (variantOf a 1 6).1 ≠ 5 ∧ (variantOf a 1 6).1 ≠ 6 ∧ (variantOf a 1 6).1 ≠ 7
  · rw [if_pos h1] at h; simp [Out.bind] at h
  rw [if_neg h1] at h
  by_cases h2 : (variantOf a 1 6).1 ≠ P.variant
  · rw [if_pos h2] at h; simp [Out.bind] at h
  rw [if_neg h2] at h
  by_cases h4 : getScope a.params 3 ≠ P.scope
  · rw [if_pos h4] at h; simp [Out.bind] at h
  push Not at h2 h4
  have hv := variantOf_spec (a := a) (id := 1) (dflt := 6)
  have hsc := getScope_spec (ps := a.params) (id := 3)
  refine ⟨fun n hn => ⟨by rw [← h2, hv.1 n hn], ?_⟩, fun hn => by rw [← h2, hv.2 hn], fun n hn => by rw [← h4, hsc.1 n hn],
    fun hn => by rw [← h4, hsc.2 hn]⟩
  have hg : (variantOf a 1 6).2 = true := by
    unfold variantOf getUint
    rw [hn]
  rw [← h2]
  by_contra hc
  push Not at hc
  exact h1 ⟨hg, hc⟩

/-- A confidentiality block without variant and scope, with an integrity block behind it; nothing but the cryptographic
functions has to be right. -/
def defaults : View :=
  { sampleView with blocks := [⟨⟨12, 3, 1, 0, [], 0, 0⟩, .sec ⟨[1], 2, 1, ⟨2, 1⟩, [⟨1, .bytes (List.replicate 12 3)⟩],
      [⟨1, .bytes (List.replicate 16 0)⟩]⟩, [0x86, 0x0c, 0x03, 0x01, 0x00, 0x40], false, false⟩,
    ⟨⟨11, 4, 1, 0, [], 0, 0⟩, .sec ⟨[1], 1, 1, ⟨2, 1⟩, [], [⟨1, .bytes [5]⟩]⟩,
      [0x86, 0x0b, 0x04, 0x01, 0x00, 0x40], false, false⟩] ++ sampleView.blocks }

/-- Functions for the example. -/
def constant : Crypto where
  ctr := fun _ _ d => d
  tag := fun _ _ _ _ => List.replicate 16 0
  wrap := fun _ k => k
  unwrap := fun _ k => some k
  hmac := fun _ _ _ => [5]

example : ∃ w', decrypt constant true ⟨3, 12, 7, 2, none, some (List.replicate 32 1)⟩ [] 0 defaults = .ok ([], w') := by
  have hc : (match decrypt constant true ⟨3, 12, 7, 2, none, some (List.replicate 32 1)⟩ [] 0 defaults with
      | .ok (es, _) => es == []
      | _ => false) = true := by decide +kernel
  split at hc
  · rename_i es w' he
    simp only [beq_iff_eq] at hc
    exact ⟨w', by rw [he, hc]⟩
  · simp at hc

example : ∃ w', verify constant true ⟨6, 7, 2, none, some [1]⟩ 1 defaults = .ok ([], w') := by
  have hc : (match verify constant true ⟨6, 7, 2, none, some [1]⟩ 1 defaults with
      | .ok (es, _) => es == []
      | _ => false) = true := by decide +kernel
  split at hc
  · rename_i es w' he
    simp only [beq_iff_eq] at hc
    exact ⟨w', by rw [he, hc]⟩
  · simp at hc

/-! ## Where the code does not do what the properties say -/

/-- Both targets of a confidentiality block are encrypted with the same key and the same initialization vector, which
AES-GCM does not allow: equal data become equal ciphertexts. -/
theorem C92_same_iv_violated (C : Crypto) (hC : Lawful C) (v : View) (buf : Bytes) (hv : IsViewOf false v buf)
    (hn : (v.blocks.map (·.block.number)).Nodup) (hr : ∀ b ∈ v.blocks, b.block.number + 1 < 2 ^ 64) (hlen : buf.length < 2 ^ 62)
    (P : SealParams) (key : Bytes) (hs : Sealable v P key) (room left : Nat) (v' : View)
    (he : encrypt C P v room = .ok (v', left)) (i j : Nat) (x y : BlockView) (hx : v.blocks[i]? = some x)
    (hy : v.blocks[j]? = some y) (hxt : x.block.number ∈ P.targets) (hyt : y.block.number ∈ P.targets)
    (hd : x.block.data = y.block.data) :
    ∃ (w : View) (s t : BlockView), IsViewOf false w v'.rendered ∧ w.blocks[i + 1]? = some s ∧ w.blocks[j + 1]? = some t ∧
      s.block.data = t.block.data := by
  obtain ⟨bundle, w, bcb, others, a, h1, _, _, h4, h5, h6⟩ := C92_encrypt_partial C hC v buf hv hn hr hlen P key hs
  obtain ⟨q1, q2, q3⟩ := h6.2.2.2.2.2.2.2.2.2.2.2 room
  have hren : v'.rendered = bundle := by
    by_cases c1 : buf.length + 256 < bundle.length
    · rw [q1 c1] at he; simp at he
    by_cases c2 : buf.length + room < bundle.length
    · rw [q2 (by omega) c2] at he; simp at he
    obtain ⟨v2, e1, e2⟩ := q3 (by omega) (by omega)
    rw [e1] at he
    simp only [Out.ok.injEq, Prod.mk.injEq] at he
    rw [← he.1, e2]
  have hget : ∀ (k : Nat) (b : BlockView), v.blocks[k]? = some b → b.block.number ∈ P.targets →
      ∃ s, others[k]? = some s ∧ s.block.data = C.ctr key P.iv b.block.data := by
    intro k b hb ht
    have := h5.get
    obtain ⟨hk, rfl⟩ := List.getElem?_eq_some_iff.1 hb
    have hk' : k < others.length := by rw [← h5.length_eq]; exact hk
    refine ⟨others[k], List.getElem?_eq_getElem hk', ?_⟩
    have h := h5.get hk hk'
    simp only [List.get_eq_getElem] at h
    rw [if_pos ht] at h
    exact h.2.2.2.2
  obtain ⟨s, s1, s2⟩ := hget i x hx hxt
  obtain ⟨t, t1, t2⟩ := hget j y hy hyt
  exact ⟨w, s, t, hren ▸ h1, by rw [h4]; simpa using s1, by rw [h4]; simpa using t1, by rw [s2, t2, hd]⟩

/-- A bundle that an attacker can send: the tag in its confidentiality block has 3 bytes. -/
def shortTag : Bytes :=
  match renderHere 256 (sampleView.prepend (newBlock ⟨12, 3, 1, 0, [], 0, 0⟩
    (.sec ⟨[1], 2, 1, ⟨2, 1⟩, [⟨1, .bytes (List.replicate 12 3)⟩, ⟨2, .uint 1⟩, ⟨4, .uint 7⟩], [⟨1, .bytes [1, 2, 3]⟩]⟩))) with
  | .ok x => x.1.rendered
  | _ => []

/-- It is loaded, and a receiver whose policy it meets reads beyond the tag. -/
theorem C94_short_tag_violated : ∃ w : View, load ⟨[], []⟩ false shortTag [] = .ok w ∧
    ∀ verifyOnly : Bool, decrypt toy verifyOnly ⟨1, 12, 7, 2, none, some (List.replicate 16 5)⟩ [] 0 w = .fault := by
  have hc : (match load ⟨[], []⟩ false shortTag [] with
      | .ok w => [true, false].all fun vo => decrypt toy vo ⟨1, 12, 7, 2, none, some (List.replicate 16 5)⟩ [] 0 w == .fault
      | _ => false) = true := by decide +kernel
  split at hc
  · rename_i w hw
    simp only [List.all_cons, List.all_nil, Bool.and_true, Bool.and_eq_true, beq_iff_eq] at hc
    exact ⟨w, hw, fun vo => by cases vo; exacts [hc.2, hc.1]⟩
  · simp at hc

/-- A wrapped key of more than 50 bytes overflows the array that it is unwrapped into, before anything is known about it. -/
theorem C94_wrapped_key_violated (C : Crypto) (kek wrapped : Bytes) (hk : kek.length = 16 ∨ kek.length = 32)
    (h8 : wrapped.length % 8 = 0) (hl : 50 < wrapped.length) (key : Option Bytes) :
    chooseKey C (some wrapped) (some kek) key = .fault := by
  unfold chooseKey unwrapKey
  simp only
  rw [if_neg (by simp [isAesKey, hk]), if_neg (by omega), if_pos (by omega)]

example : chooseKey toy (some (List.replicate 56 1)) (some (List.replicate 16 1)) none = .fault :=
  C94_wrapped_key_violated toy _ _ (Or.inl (by decide)) (by decide) (by decide) none

end Hdtn.BpSecBundle
