import Verif.BpSecBundle.Security

/-! Adding a confidentiality block and removing it. -/

namespace Hdtn.BpSecBundle

open Hdtn.HashMap16 Hdtn.Cbor Hdtn.Cbor.Spec Hdtn.Bpv7Crc Hdtn.Bpv7Canonical Hdtn.Bpv7Canonical.Spec Hdtn.BpSec7 Hdtn.Cbhe
open Hdtn.BundleView7 Hdtn.BundleView7.Spec Hdtn.BpSec7.Spec Spec

theorem isView_layout {v : View} {buf : Bytes} (h : IsViewOf false v buf) : v.rendered = layout v.primaryRaw v.blocks := by
  obtain ⟨h1, _, _, _, _, _, _, _, _, _, _, h2⟩ := h
  rw [h2, h1]; rfl

theorem isView_clean {v : View} {buf : Bytes} (h : IsViewOf false v buf) : Clean v := by
  obtain ⟨_, _, _, _, _, _, _, _, _, h1, _, _⟩ := h
  exact fun b hb => ⟨(h1 b hb).1, (h1 b hb).2.1⟩

theorem allTargets_mix {p : Nat → Bool} {f : BlockView → BlockView} {bs : List BlockView}
    (h : ∀ b ∈ bs, p b.block.number = true → b.block.typeCode ≠ 12 ∧ (f b).block.typeCode = b.block.typeCode) :
    allTargets (mix p f bs) = allTargets bs := by
  unfold allTargets mix
  rw [List.map_map]
  congr 1
  refine List.map_congr_left fun b hb => ?_
  simp only [Function.comp]
  split_ifs with hp
  · obtain ⟨h1, h2⟩ := h b hb hp
    rw [targetsOf_other h1, targetsOf_other (by rw [h2]; exact h1)]
  · rfl

/-- Block numbers determine blocks. -/
theorem number_inj {bs : List BlockView} (hn : (bs.map (·.block.number)).Nodup) {b b' : BlockView} (hb : b ∈ bs) (hb' : b' ∈ bs)
    (h : b.block.number = b'.block.number) : b = b' := by
  obtain ⟨pre, post, rfl, h1, h2⟩ := split_number hn hb rfl
  rcases List.mem_append.1 hb' with hm | hm
  · exact absurd h.symm (h1 b' hm)
  · rcases List.mem_cons.1 hm with rfl | hm
    · rfl
    · exact absurd h.symm (h2 b' hm)

theorem mix_map {γ : Type} {p : Nat → Bool} {f : BlockView → BlockView} {bs : List BlockView} (g : BlockView → γ)
    (h : ∀ b ∈ bs, g (f b) = g b) : (mix p f bs).map g = bs.map g := by
  unfold mix
  rw [List.map_map]
  refine List.map_congr_left fun b hb => ?_
  simp only [Function.comp]
  split_ifs
  · exact h b hb
  · rfl

theorem payloadLast_congr {cs ds : List Canonical} (h : cs.map (fun c => (c.typeCode, c.number)) = ds.map fun c => (c.typeCode, c.number))
    (hp : PayloadLast cs) : PayloadLast ds := by
  obtain ⟨init, last, rfl, h1, h2, h3⟩ := hp
  rw [List.map_append] at h
  obtain ⟨xs, ys, rfl, hx, hy⟩ := List.map_eq_append_iff.1 h.symm
  obtain ⟨y, rfl, hy2⟩ : ∃ y, ys = [y] ∧ (y.typeCode, y.number) = (last.typeCode, last.number) := by
    cases ys with
    | nil => simp at hy
    | cons y ys =>
      cases ys with
      | nil => exact ⟨y, rfl, by simpa using hy⟩
      | cons z zs => simp at hy
  have hy := Prod.mk.inj hy2
  refine ⟨xs, y, rfl, hy.1.trans h1, hy.2.trans h2, fun c hc => ?_⟩
  have : (c.typeCode, c.number) ∈ init.map fun c => (c.typeCode, c.number) := by
    rw [← hx]; exact List.mem_map_of_mem hc
  obtain ⟨d, hd, e⟩ := List.mem_map.1 this
  have e1 : d.typeCode = c.typeCode := (Prod.mk.inj e).1
  rw [← e1]
  exact h3 d hd

/-- The bundle rendered in place, once it is known how it is rendered. -/
theorem renderHere_ready {u u' : View} {front : Bytes} {last : BlockView} (room : Nat) (hsz : u.size = some u'.rendered.length)
    (hlast : u.blocks.getLast? = some last)
    (hdone : ∀ paddingLeft, u'.rendered.length ≤ u.rendered.length + paddingLeft →
        u'.rendered.length < 2 ^ 63 → u.rendered.length < 2 ^ 63 → u.renderInPlace paddingLeft = .done u')
    (hl : u.rendered.length < 2 ^ 62) :
    renderHere room u = if u.rendered.length + 256 < u'.rendered.length then .fail
      else if u.rendered.length + room < u'.rendered.length then .fault
      else .ok (u', u.rendered.length + room - u'.rendered.length) := by
  unfold renderHere paddingBefore
  by_cases h : u.rendered.length + 256 < u'.rendered.length
  · rw [if_pos h]
    have : u.renderInPlace 256 = .refused := by
      unfold View.renderInPlace
      rw [hsz, hlast]
      simp only
      rw [if_pos ⟨by omega, by omega⟩]
    rw [this]
  · rw [if_neg h, hdone 256 (by omega) (by omega) (by omega)]

/-- The confidentiality block. -/
def bcbAsb (P : SealParams) (wrapped : Option Bytes) (tags : List Bytes) : Asb :=
  ⟨P.targets, 2, 1, P.source, ⟨1, .bytes P.iv⟩ :: ⟨2, .uint P.variant⟩ ::
    ((wrapped.map fun w => (⟨3, .bytes w⟩ : Pair)).toList ++ [⟨4, .uint P.scope⟩]), tags.map fun t => ⟨1, .bytes t⟩⟩

/-- The bundle with encrypted targets. -/
def sealedView (C : Crypto) (P : SealParams) (key : Bytes) (v : View) : View :=
  putBlocks v (mix (fun n => decide (n ∈ P.targets)) (sealB C key P.iv) v.blocks)

theorem bcb_writable (admin : Bool) {v : View} {P : SealParams} {key : Bytes} (hs : Sealable v P key) (number : Nat)
    {wrapped : Option Bytes} {tags : List Bytes} (ht : tags.length = P.targets.length) (htag : ∀ t ∈ tags, t.length = 16)
    (hw : ∀ w, wrapped = some w → w.length ≤ 40) : Writable admin (bcbOf P number) (.sec (bcbAsb P wrapped tags)) := by
  refine writable_sec admin _ _ (Or.inr rfl) rfl (Or.inr rfl) hs.source hs.targets.2.2 (fun t h => (hs.there t h).1) ?_ ?_ ?_ ?_
  · cases wrapped <;> simp [bcbAsb]
  · have hvar := hs.variant
    have hsc := hs.scope
    intro x hx
    have hx' : x = ⟨1, .bytes P.iv⟩ ∨ x = ⟨2, .uint P.variant⟩ ∨ (∃ w, wrapped = some w ∧ x = ⟨3, .bytes w⟩) ∨ x = ⟨4, .uint P.scope⟩ := by
      cases hwr : wrapped with
      | none => simp [bcbAsb, hwr] at hx; tauto
      | some w => simp [bcbAsb, hwr] at hx; simpa using hx
    rcases hx' with rfl | rfl | ⟨w, hw', rfl⟩ | rfl
    · exact ⟨hs.iv.2, Or.inl rfl⟩
    · exact ⟨show P.variant < 2 ^ 64 by omega, Or.inl rfl⟩
    · refine ⟨?_, Or.inr rfl⟩
      have := hw w hw'
      show w.length ≤ 2 ^ 32
      omega
    · exact ⟨show P.scope < 2 ^ 64 by omega, Or.inr rfl⟩
  · simp only [bcbAsb, List.length_map, ht]; exact hs.targets.2.2
  · intro x hx
    simp only [bcbAsb, List.mem_map] at hx
    obtain ⟨t, hm, rfl⟩ := hx
    refine ⟨?_, rfl⟩
    have := htag t hm
    show t.length ≤ 2 ^ 32
    omega

theorem sealed_ready {C : Crypto} (hC : Lawful C) {v : View} {buf : Bytes} (hv : IsViewOf false v buf)
    (hn : (v.blocks.map (·.block.number)).Nodup) {P : SealParams} {key : Bytes} (hs : Sealable v P key) (number : Nat)
    (hnum : number < 2 ^ 64) {wrapped : Option Bytes} {tags : List Bytes} (ht : tags.length = P.targets.length)
    (htag : ∀ t ∈ tags, t.length = 16) (hw : ∀ w, wrapped = some w → w.length ≤ 40) :
    ViewReady false ((sealedView C P key v).prepend (newBlock (bcbOf P number) (.sec (bcbAsb P wrapped tags)))) ∧
    staying ((sealedView C P key v).prepend (newBlock (bcbOf P number) (.sec (bcbAsb P wrapped tags)))).blocks =
      newBlock (bcbOf P number) (.sec (bcbAsb P wrapped tags)) ::
        mix (fun n => decide (n ∈ P.targets)) (sealB C key P.iv) v.blocks := by
  have hclean := isView_clean hv
  obtain ⟨_, h1, h2, h3, h4, h5, h6, h7, h8, hb, _⟩ := hv
  have hsp := fun b hbm => sealB_spec hC key P.iv (hclean b hbm).1
  have htgt : ∀ b ∈ v.blocks, b.block.number ∈ P.targets → b.block.typeCode ≠ 12 ∧ b.block.number ∉ v.encrypted := by
    intro b hbm ht
    obtain ⟨_, h1, b', hb', e, h2⟩ := hs.there _ ht
    rw [number_inj hn hbm hb' e.symm]
    rw [e]
    exact ⟨h2, h1⟩
  have hmem : ∀ x ∈ mix (fun n => decide (n ∈ P.targets)) (sealB C key P.iv) v.blocks, ∃ b ∈ v.blocks,
      (b.block.number ∈ P.targets ∧ x = sealB C key P.iv b) ∨ (b.block.number ∉ P.targets ∧ x = b) := by
    intro x hx
    obtain ⟨b, hbm, rfl⟩ := List.mem_map.1 hx
    refine ⟨b, hbm, ?_⟩
    by_cases h : b.block.number ∈ P.targets
    · left; simp [h]
    · right; simp [h]
  have hst : staying ((sealedView C P key v).prepend (newBlock (bcbOf P number) (.sec (bcbAsb P wrapped tags)))).blocks =
      newBlock (bcbOf P number) (.sec (bcbAsb P wrapped tags)) ::
        mix (fun n => decide (n ∈ P.targets)) (sealB C key P.iv) v.blocks := by
    unfold staying
    refine List.filter_eq_self.2 fun x hx => ?_
    rcases List.mem_cons.1 hx with rfl | hx
    · rfl
    · obtain ⟨b, hbm, ⟨_, rfl⟩ | ⟨_, rfl⟩⟩ := hmem x hx
      · rw [(hsp b hbm).2.2.2.2.2.2.2.2.2.1, (hb b hbm).2.2.1]; rfl
      · rw [(hb x hbm).2.2.1]; rfl
  have hall : allTargets (newBlock (bcbOf P number) (.sec (bcbAsb P wrapped tags)) ::
      mix (fun n => decide (n ∈ P.targets)) (sealB C key P.iv) v.blocks) = P.targets ++ v.encrypted := by
    have : allTargets (mix (fun n => decide (n ∈ P.targets)) (sealB C key P.iv) v.blocks) = v.encrypted := by
      rw [h7]
      exact allTargets_mix fun b hbm hp => ⟨(htgt b hbm (by simpa using hp)).1, (hsp b hbm).2.2.1⟩
    rw [← this]
    rfl
  have hlastmem : ∃ init last, v.blocks = init ++ [last] := by
    obtain ⟨init, last, he, _⟩ := h6
    obtain ⟨xs, ys, e, _, hy⟩ := List.map_eq_append_iff.1 he
    cases ys with
    | nil => simp at hy
    | cons y ys =>
      cases ys with
      | nil => exact ⟨xs, y, e⟩
      | cons z zs => simp at hy
  refine ⟨⟨⟨h2, h3, h4, fun _ => h1, fun h => ?_⟩, ?_, ?_, ?_, ?_⟩, hst⟩
  · rw [show ((sealedView C P key v).prepend (newBlock (bcbOf P number) (.sec (bcbAsb P wrapped tags)))).primaryDirty = v.primaryDirty
      from rfl, h5] at h
    simp at h
  · obtain ⟨init, last, e⟩ := hlastmem
    have hlm : last ∈ v.blocks := by rw [e]; simp
    refine ⟨newBlock (bcbOf P number) (.sec (bcbAsb P wrapped tags)) :: mix (fun n => decide (n ∈ P.targets)) (sealB C key P.iv) init,
      if decide (last.block.number ∈ P.targets) then sealB C key P.iv last else last, ?_, ?_⟩
    · show newBlock (bcbOf P number) (.sec (bcbAsb P wrapped tags)) ::
        mix (fun n => decide (n ∈ P.targets)) (sealB C key P.iv) v.blocks = _
      rw [e, mix_append]
      rfl
    · split_ifs
      · rw [(hsp last hlm).2.2.2.2.2.2.2.2.2.1]; exact (hb last hlm).2.2.1
      · exact (hb last hlm).2.2.1
  · rw [hst]
    have hne : ∃ x xs, mix (fun n => decide (n ∈ P.targets)) (sealB C key P.iv) v.blocks = x :: xs := by
      obtain ⟨init, last, e⟩ := hlastmem
      cases hv' : mix (fun n => decide (n ∈ P.targets)) (sealB C key P.iv) v.blocks with
      | nil => rw [e] at hv'; simp [mix] at hv'
      | cons x xs => exact ⟨x, xs, rfl⟩
    have hpl : PayloadLast ((mix (fun n => decide (n ∈ P.targets)) (sealB C key P.iv) v.blocks).map (·.block)) := by
      refine payloadLast_congr ?_ h6
      rw [List.map_map, List.map_map, mix_map]
      intro b hbm
      simp only [Function.comp, (hsp b hbm).2.2.1, (hsp b hbm).2.2.2.1]
    obtain ⟨x, xs, e⟩ := hne
    rw [e] at hpl ⊢
    rw [List.map_cons, List.map_cons, payloadLast_cons]
    exact ⟨show (12 : UInt8) ≠ 1 by decide, hpl⟩
  · rw [hst, hall, List.nodup_append]
    refine ⟨hs.targets.2.1, h8, ?_⟩
    intro a ha b hb' e
    exact (hs.there a ha).2.1 (e ▸ hb')
  · rw [hst, hall]
    intro x hx
    rcases List.mem_cons.1 hx with rfl | hx
    · refine ⟨⟨fun h => absurd rfl h.1, fun h => by simp [newBlock] at h⟩, fun h => by simp [newBlock] at h, fun _ =>
        ⟨hnum, ?_, hs.crc, bcb_writable _ hs number ht htag hw⟩⟩
      show (if 1 ∈ P.targets then 1 else 0) < 2 ^ 64
      split_ifs <;> omega
    · obtain ⟨b, hbm, ⟨hp, rfl⟩ | ⟨hp, rfl⟩⟩ := hmem x hx
      · obtain ⟨s1, s2, s3, s4, s5, s6, s7, s8, s9, s10, _⟩ := hsp b hbm
        refine ⟨⟨fun _ => s8, fun _ => ⟨by rw [s3]; exact (htgt b hbm hp).1, by rw [s4]; exact List.mem_append_left _ hp⟩⟩,
          fun _ => ⟨s1, fun h => absurd s8 h⟩, fun h => ?_⟩
        rw [s9, (hb b hbm).2.1] at h
        simp at h
      · obtain ⟨g1, g2, g3, g4, g5⟩ := hb x hbm
        have hiff : IsEncrypted (P.targets ++ v.encrypted) x.block ↔ IsEncrypted v.encrypted x.block := by
          unfold IsEncrypted
          rw [List.mem_append]
          constructor
          · rintro ⟨a, b | b⟩
            · exact absurd b hp
            · exact ⟨a, b⟩
          · rintro ⟨a, b⟩; exact ⟨a, Or.inr b⟩
        rw [Ready, hiff]
        refine ⟨⟨g4, fun h => ?_⟩, fun _ => ⟨g1, fun h => ?_⟩, fun h => ?_⟩
        · by_contra hne
          have := g5 hne
          rw [h] at this
          exact this
        · exact g5 (fun he => h (g4 he))
        · rw [g2] at h; simp at h


theorem wrapIf_ok {C : Crypto} (hC : Lawful C) {kek : Option Bytes} {key : Bytes} (hk : key.length = 16 ∨ key.length = 32)
    (h : ∀ k, kek = some k → k.length = key.length) :
    wrapIf C kek key = .ok (kek.map fun k => C.wrap k key) := by
  cases hkek : kek with
  | none => rfl
  | some k =>
    have hl := h k hkek
    have hw := hC.wrap_length k key
    have hk' : isAesKey key = true := by simpa [isAesKey] using hk
    simp only [wrapIf, wrapKey]
    rw [if_neg (by simp [hk']), if_neg (by omega), List.take_of_length_le (by omega), if_pos (by omega)]
    rfl

theorem getLast_mem_layout {v : View} {bs : List BlockView} {last : BlockView} (h : bs.getLast? = some last) :
    ∃ front, layout v.primaryRaw bs = front ++ last.raw ++ [0xff] := by
  obtain ⟨init, rfl⟩ := List.getLast?_eq_some_iff.1 h
  exact ⟨0x9f :: v.primaryRaw ++ raws init, by simp [layout, raws_append, raws]⟩

theorem mix_length {p : Nat → Bool} {f : BlockView → BlockView} {bs : List BlockView}
    (h : ∀ b ∈ bs, (f b).raw.length = b.raw.length) (primary : Bytes) :
    (layout primary (mix p f bs)).length = (layout primary bs).length := by
  have : (raws (mix p f bs)).length = (raws bs).length := by
    unfold raws
    rw [List.length_flatten, List.length_flatten, List.map_map, List.map_map, mix_map]
    exact h
  simp only [layout, List.length_append, this]

/-- All about encrypting: the bundle that is made, the loaded view of it, and how the call ends. -/
theorem encrypt_full {C : Crypto} (hC : Lawful C) {v : View} {buf : Bytes} (hv : IsViewOf false v buf)
    (hn : (v.blocks.map (·.block.number)).Nodup) (hr : ∀ b ∈ v.blocks, b.block.number + 1 < 2 ^ 64) (hlen : buf.length < 2 ^ 62)
    {P : SealParams} {key : Bytes} (hs : Sealable v P key) :
    ∃ (u' w : View) (bcb : BlockView) (xs : List BlockView), IsViewOf false w u'.rendered ∧ w.primaryRaw = v.primaryRaw ∧
      w.primary = v.primary ∧
      w.blocks = bcb :: mix (fun n => decide (n ∈ P.targets)) (sealB C key P.iv) v.blocks ∧
      List.Forall₂ (fun t b => b ∈ v.blocks ∧ b.block.number = t) P.targets xs ∧
      bcb.block.typeCode = 12 ∧ bcb.block.number = v.nextFree ∧ bcb.block.flags = (if 1 ∈ P.targets then 1 else 0) ∧
      bcb.block.crcType = P.crcType ∧ bcb.deleted = false ∧
      bcb.body = .sec (bcbAsb P (P.kek.map fun k => C.wrap k key)
        (xs.map (tagB C key P.iv P.scope v.primaryRaw (headerOfNew (bcbOf P v.nextFree))))) ∧
      headerOf bcb = .ok (headerOfNew (bcbOf P v.nextFree)) ∧ Unused v.blocks v.nextFree ∧
      ∀ room, encrypt C P v room = if buf.length + 256 < u'.rendered.length then .fail
        else if buf.length + room < u'.rendered.length then .fault
        else .ok (u', buf.length + room - u'.rendered.length) := by
  have hclean := isView_clean hv
  have hlay := isView_layout hv
  have hren : v.rendered = buf := hv.2.2.2.2.2.2.2.2.2.2.2
  have hpd : v.primaryDirty = false := hv.2.2.2.2.2.1
  have hb := hv.2.2.2.2.2.2.2.2.2.1
  have hpl := hv.2.2.2.2.2.2.1
  have hsp := fun b hbm => sealB_spec hC key P.iv (hclean b hbm).1
  obtain ⟨hun, _, _⟩ := C78_next_loaded false v buf hv hr
  have hnf : v.nextFree < 2 ^ 64 := by
    have hfu : FreeUnused v := fun n hn => (hv.2.2.2.2.2.2.2.2.2.2.1 n).1 hn
    obtain ⟨_, h2, h3⟩ := nextFree_unused v hfu (fun _ => hr)
    by_cases h0 : v.free = 0
    · unfold View.nextFree
      rw [if_neg (by simpa using h0)]
      exact Nat.mod_lt _ (by decide)
    · have := (h2 h0).1
      omega
  have hk : isAesKey key = true := by simpa [isAesKey] using hs.size
  have hput : putBlocks v (mix (fun _ => false) (sealB C key P.iv) v.blocks) = v := by
    rw [mix_none (fun _ _ => rfl), putBlocks_self v hlay]
  obtain ⟨xs, hxs, hloop⟩ := sealLoop_ok hC P key (headerOfNew (bcbOf P v.nextFree)) v hclean hn hk hs.iv.1 P.targets (fun _ => false)
    hs.targets.2.1 (fun _ _ => rfl) (fun t ht => by
      obtain ⟨_, _, b, hb, e, _⟩ := hs.there t ht
      exact ⟨b, hb, e⟩)
  rw [hput] at hloop
  simp only [Bool.false_or] at hloop
  let tags := xs.map (tagB C key P.iv P.scope v.primaryRaw (headerOfNew (bcbOf P v.nextFree)))
  have htl : tags.length = P.targets.length := by simp [tags, hxs.length_eq]
  have htag : ∀ t ∈ tags, t.length = 16 := by
    intro t ht
    obtain ⟨b, _, rfl⟩ := List.mem_map.1 ht
    exact hC.tag_length _ _ _ _
  have hwl : ∀ w, (P.kek.map fun k => C.wrap k key) = some w → w.length ≤ 40 := by
    intro w hw
    obtain ⟨k, _, rfl⟩ := Option.map_eq_some_iff.1 hw
    rw [hC.wrap_length]
    rcases hs.size with h | h <;> omega
  obtain ⟨hready, hst⟩ := sealed_ready hC hv hn hs v.nextFree hnf htl htag hwl
  have hwrit := bcb_writable (v.primary.flags.testBit 1) hs v.nextFree htl htag hwl
  obtain ⟨u', g1, _, _, ⟨w, ⟨w1, w2, w3⟩, w4, w5, w6, w7⟩, ⟨d1, d2, d3, d4, d5⟩, g6⟩ := render_ready_full false _ hready
  rw [hst] at w3 d5
  obtain ⟨bcb, ws, hbw, hws, hwb⟩ := List.forall₂_cons_left_iff.1 w3
  obtain ⟨x0, us, hx0, hus, hub⟩ := List.forall₂_cons_left_iff.1 d5
  have hws' : ws = mix (fun n => decide (n ∈ P.targets)) (sealB C key P.iv) v.blocks := by
    have : ∀ (as bs : List BlockView), List.Forall₂ SameBlock as bs → (∀ a ∈ as, a.dirty = false) → bs = as := by
      intro as bs h
      induction h with
      | nil => intro _; rfl
      | cons h _ ih =>
        intro hd
        rw [h.2.2.2.2.1 (hd _ List.mem_cons_self), ih (fun a ha => hd a (List.mem_cons_of_mem _ ha))]
    refine this _ _ hws fun a ha => ?_
    obtain ⟨b, hbm, rfl⟩ := List.mem_map.1 ha
    split_ifs
    · rw [(hsp b hbm).2.2.2.2.2.2.2.2.1]; exact (hclean b hbm).2
    · exact (hclean b hbm).2
  obtain ⟨b1, b2, b3, b4, _, b6, _⟩ := hbw
  have hraw : bcb.raw = x0.raw := by
    rw [hwb, hub] at w5
    simp only [List.map_cons, List.cons.injEq] at w5
    exact w5.1
  have hprim : w.primaryRaw = v.primaryRaw := by
    rw [w6]; exact d2 hpd
  have hlast : ∃ last, v.blocks.getLast? = some last := by
    cases hg : v.blocks.getLast? with
    | none =>
      rw [List.getLast?_eq_none_iff] at hg
      rw [hg] at hpl
      exact absurd hpl payloadLast_nil
    | some l => exact ⟨l, rfl⟩
  obtain ⟨last, hlast⟩ := hlast
  have hlm : last ∈ v.blocks := List.mem_of_getLast? hlast
  let last' := if decide (last.block.number ∈ P.targets) then sealB C key P.iv last else last
  have hlast' : (mix (fun n => decide (n ∈ P.targets)) (sealB C key P.iv) v.blocks).getLast? = some last' := by
    unfold mix
    rw [List.getLast?_map, hlast]
    rfl
  have hlast'' : ((sealedView C P key v).prepend (newBlock (bcbOf P v.nextFree) (.sec (bcbAsb P (P.kek.map fun k => C.wrap k key)
      tags)))).blocks.getLast? = some last' := by
    show (newBlock _ _ :: mix (fun n => decide (n ∈ P.targets)) (sealB C key P.iv) v.blocks).getLast? = some last'
    rw [List.getLast?_cons, hlast']
    rfl
  have hdirty : last'.dirty = false := by
    simp only [last']
    split_ifs
    · rw [(hsp last hlm).2.2.2.2.2.2.2.2.1]; exact (hclean last hlm).2
    · exact (hclean last hlm).2
  obtain ⟨front, hfront⟩ := getLast_mem_layout (v := v) hlast'
  have hlen' : (layout v.primaryRaw (mix (fun n => decide (n ∈ P.targets)) (sealB C key P.iv) v.blocks)).length = buf.length := by
    rw [mix_length (fun b hbm => (hsp b hbm).2.1), ← hlay, hren]
  refine ⟨u', w, bcb, xs, w1, hprim, ?_, by rw [hwb, hws'], hxs, b1, b2, b3, b4, ?_, ?_, ?_, hun, ?_⟩
  · exact w2.2 hpd
  · exact (w1.2.2.2.2.2.2.2.2.2.1 bcb (by rw [hwb]; exact List.mem_cons_self)).2.2.1
  · rw [b6 rfl]; rfl
  · refine header_done hx0 hwrit hnf ?_ hraw b1 b2 b3
    show (if 1 ∈ P.targets then 1 else 0) < 2 ^ 64
    split_ifs <;> omega
  · intro room
    have hrh := renderHere_ready (u := (sealedView C P key v).prepend (newBlock (bcbOf P v.nextFree)
      (.sec (bcbAsb P (P.kek.map fun k => C.wrap k key) tags)))) (u' := u') (front := front) (last := last') room g1 hlast''
      (fun pad h1 h2 h3 => g6 pad front last' hlast'' hdirty hfront h1 h2 h3) (by
        show (layout v.primaryRaw (mix (fun n => decide (n ∈ P.targets)) (sealB C key P.iv) v.blocks)).length < 2 ^ 62
        rw [hlen']; exact hlen)
    rw [show ((sealedView C P key v).prepend (newBlock (bcbOf P v.nextFree) (.sec (bcbAsb P (P.kek.map fun k => C.wrap k key)
      tags)))).rendered = layout v.primaryRaw (mix (fun n => decide (n ∈ P.targets)) (sealB C key P.iv) v.blocks) from rfl,
      hlen'] at hrh
    unfold encrypt
    simp only
    rw [hs.hasKey]
    simp only
    rw [wrapIf_ok hC hs.size hs.kek]
    simp only [Out.bind]
    rw [bcbParams_eq]
    simp only [ofOption]
    rw [if_neg hs.targets.1, hloop]
    simp only
    rw [results_eq, List.nil_append]
    exact hrh


theorem unwrap_ok {C : Crypto} (hC : Lawful C) {kek key : Bytes} (hk : key.length = 16 ∨ key.length = 32)
    (h : kek.length = key.length) : unwrapKey C kek (C.wrap kek key) = .ok key := by
  have hk' : isAesKey kek = true := by simpa [isAesKey, h] using hk
  have hl := hC.wrap_length kek key
  unfold unwrapKey
  rw [if_neg (by simp [hk']), if_neg (by rw [hl]; rcases hk with e | e <;> rw [e] <;> simp), if_neg (by omega), hC.unwrap_wrap]
  simp only
  rw [if_pos h.symm]

theorem opening_ok {C : Crypto} (hC : Lawful C) {v : View} {P : SealParams} {Q : OpenParams} {key : Bytes} (hs : Sealable v P key)
    (hq : Opens v P Q) {bcb : BlockView} {tags : List Bytes} {h : Bytes} (ht : tags.length = P.targets.length)
    (hb : bcb.body = .sec (bcbAsb P (P.kek.map fun k => C.wrap k key) tags)) (hh : headerOf bcb = .ok h) :
    openingOf C Q bcb = .ok (.good ⟨P.scope, P.iv, key, if P.scope.testBit 2 then h else [], P.targets.zip tags⟩) := by
  have hvar : variantOf (bcbAsb P (P.kek.map fun k => C.wrap k key) tags) 2 3 = (P.variant, true) := by
    have : P.variant < 4294967296 := by rcases hs.variant with e | e <;> omega
    simp [variantOf, bcbAsb, getUint, Nat.mod_eq_of_lt this]
  have hiv : getBytes (bcbAsb P (P.kek.map fun k => C.wrap k key) tags).params 1 = some P.iv := by simp [bcbAsb, getBytes]
  have hsc : getScope (bcbAsb P (P.kek.map fun k => C.wrap k key) tags).params 4 = P.scope := by
    cases hk : P.kek <;> simp [bcbAsb, getScope, getUint, hk]
  have hwr : getBytes (bcbAsb P (P.kek.map fun k => C.wrap k key) tags).params 3 = P.kek.map fun k => C.wrap k key := by
    cases hk : P.kek <;> simp [bcbAsb, getBytes, hk]
  have hres : allResults (bcbAsb P (P.kek.map fun k => C.wrap k key) tags).results 1 = tags := allResults_map tags
  have hkey : chooseKey C (P.kek.map fun k => C.wrap k key) Q.kek Q.key = .ok (.good key) := by
    cases hk : P.kek with
    | none =>
      rw [hq.key hk, hs.hasKey]
      rfl
    | some k =>
      rw [hq.kek k hk]
      simp only [chooseKey, Option.map_some]
      rw [unwrap_ok hC hs.size (hs.kek k hk)]
  unfold openingOf
  rw [hb]
  simp only [hvar]
  rw [if_neg (by rcases hs.variant with e | e <;> rw [e] <;> simp), if_neg (by rw [hq.variant]; simp)]
  simp only [hiv]
  rw [if_neg (by rw [hq.iv]; simp)]
  simp only [hsc, hwr, hres]
  rw [if_neg (by rw [hq.scope]; simp), hh, part_ok]
  simp only [Out.bind]
  rw [hkey]
  simp only
  rw [if_neg (by simp [bcbAsb, ht]), if_neg (show (bcbAsb P (P.kek.map fun k => C.wrap k key) tags).targets ≠ [] from hs.targets.1)]
  rfl

theorem forall2_mem {α β : Type} {R : α → β → Prop} {as : List α} {bs : List β} (h : List.Forall₂ R as bs) {b : β} (hb : b ∈ bs) :
    ∃ a ∈ as, R a b := by
  induction h with
  | nil => simp at hb
  | cons hab _ ih =>
    rcases List.mem_cons.1 hb with rfl | hb
    · exact ⟨_, List.mem_cons_self, hab⟩
    · obtain ⟨a, ha, hr⟩ := ih hb
      exact ⟨a, List.mem_cons_of_mem _ ha, hr⟩

theorem forall2_mem_left {α β : Type} {R : α → β → Prop} {as : List α} {bs : List β} (h : List.Forall₂ R as bs) {a : α} (ha : a ∈ as) :
    ∃ b ∈ bs, R a b := by
  induction h with
  | nil => simp at ha
  | cons hab _ ih =>
    rcases List.mem_cons.1 ha with rfl | ha
    · exact ⟨_, List.mem_cons_self, hab⟩
    · obtain ⟨b, hb, hr⟩ := ih ha
      exact ⟨b, List.mem_cons_of_mem _ hb, hr⟩

theorem putBlocks_primaryRaw (v : View) (bs : List BlockView) : (putBlocks v bs).primaryRaw = v.primaryRaw := rfl

/-- All about decrypting what was encrypted. -/
theorem decrypt_full {C : Crypto} (hC : Lawful C) {v : View} {buf : Bytes} (hv : IsViewOf false v buf)
    (hn : (v.blocks.map (·.block.number)).Nodup) {P : SealParams} {key : Bytes} (hs : Sealable v P key) {Q : OpenParams}
    (hq : Opens v P Q) {sealed pad : Bytes} {w : View} {bcb : BlockView} {xs : List BlockView}
    (hw : IsViewOf false w sealed) (hwp : w.primaryRaw = v.primaryRaw) (hwq : w.primary = v.primary)
    (hwb : w.blocks = bcb :: mix (fun n => decide (n ∈ P.targets)) (sealB C key P.iv) v.blocks)
    (hxs : List.Forall₂ (fun t b => b ∈ v.blocks ∧ b.block.number = t) P.targets xs)
    (hnum : bcb.block.number = v.nextFree) (hun : Unused v.blocks v.nextFree) (hdel : bcb.deleted = false)
    (hbody : bcb.body = .sec (bcbAsb P (P.kek.map fun k => C.wrap k key)
        (xs.map (tagB C key P.iv P.scope v.primaryRaw (headerOfNew (bcbOf P v.nextFree))))))
    (hhead : headerOf bcb = .ok (headerOfNew (bcbOf P v.nextFree))) (hlen : (sealed ++ pad).length < 2 ^ 64) :
    decrypt C true Q pad 0 w = .ok ([], w) ∧
    decrypt C false Q pad 0 w = .ok ([], putBlocks w ({ bcb with deleted := true } :: v.blocks)) := by
  have hclean := isView_clean hv
  have hwlay := isView_layout hw
  have hren : w.rendered = sealed := hw.2.2.2.2.2.2.2.2.2.2.2
  have hvb := hv.2.2.2.2.2.2.2.2.2.1
  have hk : isAesKey key = true := by simpa [isAesKey] using hs.size
  have hsp := fun b hbm => sealB_spec hC key P.iv (hclean b hbm).1
  let tags := xs.map (tagB C key P.iv P.scope v.primaryRaw (headerOfNew (bcbOf P v.nextFree)))
  have htl : tags.length = P.targets.length := by simp [tags, hxs.length_eq]
  have hop := opening_ok hC hs hq htl hbody hhead
  let o : Opening := ⟨P.scope, P.iv, key, if P.scope.testBit 2 then headerOfNew (bcbOf P v.nextFree) else [], P.targets.zip tags⟩
  have htags : xs.map (tagB C o.key o.iv o.scope w.primaryRaw o.header) = tags := by
    refine List.map_congr_left fun b _ => ?_
    simp only [tagB, o, aadOf_part2, hwp]
  have hput : putBlocks w (bcb :: mix (fun n => decide (n ∈ P.targets)) (sealB C key P.iv) v.blocks) = w := by
    rw [← hwb]; exact putBlocks_self w hwlay
  have hxm : ∀ b ∈ xs, b ∈ v.blocks ∧ b.block.number ∈ P.targets := by
    intro b hb
    obtain ⟨t, ht, h1, h2⟩ := forall2_mem hxs hb
    exact ⟨h1, h2 ▸ ht⟩
  have hmask : (xs.map (·.block.typeCode)).foldl addType 0 = Q.mask := by
    refine Nat.eq_of_testBit_eq fun n => ?_
    rw [Bool.eq_iff_iff, addTypes_testBit, hq.mask]
    simp only [Nat.zero_testBit, Bool.false_eq_true, false_or, List.mem_map]
    constructor
    · rintro ⟨h1, t, ⟨b, hb, rfl⟩, h2⟩
      exact ⟨h1, b, (hxm b hb).1, (hxm b hb).2, h2⟩
    · rintro ⟨h1, b, hb, ht, h2⟩
      obtain ⟨b', hb', hbm, e⟩ := forall2_mem_left hxs ht
      have := number_inj hn hbm hb e
      subst this
      exact ⟨h1, _, ⟨b', hb', rfl⟩, h2⟩
  have hloop := fun vo => openLoop_ok hC vo Q.mask o pad w bcb v.blocks (fun b hb => (hclean b hb).1) hn hk hs.iv.1 (by
      intro q
      have h1 : (layout w.primaryRaw (bcb :: mix q (sealB C key P.iv) v.blocks)).length = sealed.length := by
        rw [← hren, hwlay, hwb]
        have e1 := mix_length (p := q) (f := sealB C key P.iv) (bs := v.blocks) (fun b hb => (hsp b hb).2.1) w.primaryRaw
        have e2 := mix_length (p := fun n => decide (n ∈ P.targets)) (f := sealB C key P.iv) (bs := v.blocks)
          (fun b hb => (hsp b hb).2.1) w.primaryRaw
        simp only [layout, raws_cons, List.length_append, List.length_cons] at e1 e2 ⊢
        omega
      rw [List.length_append] at hlen ⊢
      show (layout w.primaryRaw (bcb :: mix q (sealB C key P.iv) v.blocks)).length + pad.length < 2 ^ 64
      rw [h1]
      exact hlen) P.targets xs hxs 0 (fun n => decide (n ∈ P.targets)) 0 hs.targets.2.1 (fun t ht => ⟨by simpa using ht, by
        rw [hnum]
        obtain ⟨_, _, b, hb, e, _⟩ := hs.there t ht
        intro h
        exact hun.2 b hb (by rw [e, h])⟩) (fun b hb => ⟨by
        rw [hwq]
        refine (hvb b (hxm b hb).1).2.2.2.2 fun he => ?_
        exact (hs.there _ (hxm b hb).2).2.1 he.2, fun h => by
        rw [hq.mask]
        exact ⟨h, b, (hxm b hb).1, (hxm b hb).2, rfl⟩⟩)
  have hb0 : w.blocks[0]? = some bcb := by rw [hwb]; rfl
  have hgen : ∀ vo bs, mix (fun n => decide (n ∈ P.targets) && (vo || !decide (n ∈ P.targets))) (sealB C key P.iv) v.blocks = bs →
      decrypt C vo Q pad 0 w = .ok ([], View.setDeleted (putBlocks w (bcb :: bs)) 0 (!vo)) := by
    intro vo bs hbs
    have hl := hloop vo
    rw [htags] at hl
    have hl' : openLoop C vo Q.mask o pad 0 0 (P.targets.zip tags) ⟨w, [], 0⟩ = .ok ⟨putBlocks w (bcb :: bs), [], Q.mask⟩ := by
      rw [hmask] at hl
      rw [← hbs]
      conv at hl => lhs; rw [show o.key = key from rfl, show o.iv = P.iv from rfl, hput]
      exact hl
    unfold decrypt
    rw [hb0]
    simp only
    rw [hop]
    simp only [Out.bind]
    rw [show (⟨P.scope, P.iv, key, if P.scope.testBit 2 then headerOfNew (bcbOf P v.nextFree) else [], P.targets.zip tags⟩ : Opening) = o
      from rfl, hl']
    simp only [finish]
    rw [if_pos trivial, if_neg (by simp)]
  refine ⟨?_, ?_⟩
  · rw [hgen true (mix (fun n => decide (n ∈ P.targets)) (sealB C key P.iv) v.blocks) (mix_congr (fun b _ => by simp)), hput]
    unfold View.setDeleted
    rw [hwb]
    simp only [List.modify_zero_cons, Bool.not_true]
    have : ({ bcb with deleted := false } : BlockView) = bcb := by rw [← hdel]
    rw [this, ← hwb]
  · rw [hgen false v.blocks (mix_none (fun b _ => by simp))]
    congr 1


/-- Rendering after blocks in front were marked: the bundle without them. -/
theorem render_without_all {v : View} {buf : Bytes} (hv : IsViewOf false v buf) {w : View} {secs : List BlockView}
    (hwp : w.primaryRaw = v.primaryRaw) (hwq : w.primary = v.primary) (hwd : w.primaryDirty = false) (hdel : ∀ s ∈ secs, s.deleted = true)
    (hraw : (layout v.primaryRaw (secs ++ v.blocks)).length < 2 ^ 62) :
    ∃ u : View, u.rendered = buf ∧ u.blocks = v.blocks ∧ u.primary = v.primary ∧
      (∀ mem : Bytes, buf.length ≤ mem.length → (putBlocks w (secs ++ v.blocks)).render mem = .ok u) ∧
      ∀ room, renderHere room (putBlocks w (secs ++ v.blocks)) = .ok (u, (raws secs).length + room) := by
  have hr := loaded_ready false v buf hv
  have hclean := isView_clean hv
  have hbuf : buf = layout v.primaryRaw v.blocks := by
    have h := isView_layout hv
    rw [hv.2.2.2.2.2.2.2.2.2.2.2] at h
    exact h
  have hnodel : ∀ b ∈ v.blocks, b.deleted = false := fun b hb => (hv.2.2.2.2.2.2.2.2.2.1 b hb).2.2.1
  have hst : staying v.blocks = v.blocks := by
    unfold staying
    exact List.filter_eq_self.2 fun b hb => by simp [hnodel b hb]
  have hst' : staying (secs ++ v.blocks) = v.blocks := by
    conv => rhs; rw [← hst]
    unfold staying
    rw [List.filter_append, List.filter_eq_nil_iff.2 (fun s hs => by simp [hdel s hs]), List.nil_append]
  obtain ⟨⟨p1, p2, p3, p4, p5⟩, ⟨init, last, e, hl⟩, h3, h4, h5⟩ := hr
  have hready : ViewReady false (putBlocks w (secs ++ v.blocks)) := by
    refine ⟨⟨?_, ?_, ?_, fun _ => ?_, fun h => ?_⟩, ⟨secs ++ init, last, ?_, hl⟩, ?_, ?_, ?_⟩
    · show w.primary.flags % 2 ≠ 1; rw [hwq]; exact p1
    · show w.primary.fragOffset = 0; rw [hwq]; exact p2
    · show w.primary.totalAdu = 0; rw [hwq]; exact p3
    · show Bpv7Primary.Spec.IsPrimary w.primaryRaw w.primary
      rw [hwq, hwp]; exact p4 hv.2.2.2.2.2.1
    · have : w.primaryDirty = true := h
      rw [hwd] at this; simp at this
    · show secs ++ v.blocks = _
      rw [e, List.append_assoc]
    · show PayloadLast ((staying (secs ++ v.blocks)).map (·.block))
      rw [hst']; rw [hst] at h3; exact h3
    · show (allTargets (staying (secs ++ v.blocks))).Nodup
      rw [hst']; rw [hst] at h4; exact h4
    · show ∀ b ∈ staying (secs ++ v.blocks), Ready false (w.primary.flags.testBit 1) (allTargets (staying (secs ++ v.blocks))) b
      rw [hst', hwq]; rw [hst] at h5; exact h5
  have hlast : (putBlocks w (secs ++ v.blocks)).blocks.getLast? = some last := by
    show (secs ++ v.blocks).getLast? = some last
    rw [e]; simp
  have hdirty : last.dirty = false := (hclean last (by rw [e]; simp)).2
  obtain ⟨front, hfront⟩ := getLast_mem_layout (v := w) hlast
  obtain ⟨u, g1, g2, _, ⟨x, ⟨x1, x2, x3⟩, x4, x5, x6, x7⟩, ⟨d1, d2, d3, d4, d5⟩, g6⟩ := render_ready_full false _ hready
  rw [show staying (putBlocks w (secs ++ v.blocks)).blocks = v.blocks from hst'] at x3 d5
  have hsame : ∀ (as bs : List BlockView) (R : BlockView → BlockView → Prop), List.Forall₂ R as bs →
      (∀ a b, R a b → a.dirty = false → b = a) → (∀ a ∈ as, a.dirty = false) → bs = as := by
    intro as bs R h hR
    induction h with
    | nil => intro _; rfl
    | cons h _ ih =>
      intro hd
      rw [hR _ _ h (hd _ List.mem_cons_self), ih (fun a ha => hd a (List.mem_cons_of_mem _ ha))]
  have hxb : x.blocks = v.blocks := hsame _ _ _ x3 (fun a b h => h.2.2.2.2.1) (fun a ha => (hclean a ha).2)
  have hub : u.blocks = v.blocks := hsame _ _ _ d5 (fun a b h => h.2.2.2.1) (fun a ha => (hclean a ha).2)
  have hxp : x.primaryRaw = v.primaryRaw := by
    rw [x6, d2 hwd]
    exact hwp
  have hur : u.rendered = buf := by
    have h := isView_layout x1
    rw [x1.2.2.2.2.2.2.2.2.2.2.2, hxp, hxb] at h
    rw [h, hbuf]
  have hup : u.primary = v.primary := by
    rw [← x7, x2.2 hwd]
    exact hwq
  have hwl : (putBlocks w (secs ++ v.blocks)).rendered.length = (raws secs).length + buf.length := by
    rw [hbuf]
    simp only [putBlocks, layout, raws_append, hwp, List.length_append, List.length_cons]
    omega
  refine ⟨u, hur, hub, hup, fun mem hm => g2 mem (by rw [hur]; exact hm), fun room => ?_⟩
  have hsl : (layout v.primaryRaw (secs ++ v.blocks)).length = (raws secs).length + buf.length := by
    rw [hbuf]
    simp only [layout, raws_append, List.length_append, List.length_cons]
    omega
  rw [renderHere_ready (u := putBlocks w (secs ++ v.blocks)) (u' := u) (front := front) (last := last) room g1 hlast
    (fun pad h1 h2 h3 => g6 pad front last hlast hdirty hfront h1 h2 h3) (by rw [hwl]; omega), hwl, hur,
    if_neg (by omega), if_neg (by omega)]
  congr 2
  omega

theorem render_without {v : View} {buf : Bytes} (hv : IsViewOf false v buf) {w : View} {sec : BlockView}
    (hwp : w.primaryRaw = v.primaryRaw) (hwq : w.primary = v.primary) (hwd : w.primaryDirty = false) (hdel : sec.deleted = true)
    (hraw : (layout v.primaryRaw (sec :: v.blocks)).length < 2 ^ 62) :
    ∃ u : View, u.rendered = buf ∧ u.blocks = v.blocks ∧ u.primary = v.primary ∧
      (∀ mem : Bytes, buf.length ≤ mem.length → (putBlocks w (sec :: v.blocks)).render mem = .ok u) ∧
      ∀ room, renderHere room (putBlocks w (sec :: v.blocks)) = .ok (u, sec.raw.length + room) := by
  have h := render_without_all hv (secs := [sec]) hwp hwq hwd (by simpa using hdel) hraw
  simpa [raws] using h

end Hdtn.BpSecBundle
