import Verif.BpSecBundle.Conf
import Verif.BpSecBundle.Auth

/-! Adding an integrity block and removing it. -/

namespace Hdtn.BpSecBundle

open Hdtn.HashMap16 Hdtn.Cbor Hdtn.Cbor.Spec Hdtn.Bpv7Crc Hdtn.Bpv7Canonical Hdtn.Bpv7Canonical.Spec Hdtn.BpSec7 Hdtn.Cbhe
open Hdtn.BundleView7 Hdtn.BundleView7.Spec Hdtn.BpSec7.Spec Spec

/-- The data with their head, of a block that was read. -/
def strB (b : BlockView) : Bytes :=
  match dataWithHead b with
  | .ok d => d
  | _ => []

theorem stringHead_minimal {p : Bytes} {n : Nat} (h : IsStringHead p n) : encodingSizeClassic n ≤ p.length := by
  obtain ⟨b, rest, rfl, b0, _, hu⟩ := h
  have := encode_minimal _ _ hu
  rw [encode_length] at this
  simpa using this

theorem stringHead_lt {p : Bytes} {n : Nat} (h : IsStringHead p n) : n < 2 ^ 64 := by
  obtain ⟨b, rest, rfl, b0, _, hu⟩ := h
  exact isUint_lt hu

theorem dataWithHead_ok {b : BlockView} (h : IsBlock false b.raw b.block) : dataWithHead b = .ok (strB b) := by
  obtain ⟨tag, front, crc, hp⟩ := parts h
  obtain ⟨head, t, n, f, s, e, h1, h2, h3, h4, h5, h6⟩ := hp.body
  have hf : front = head :: t ++ n ++ f ++ b.block.crcType :: tag ++ s := List.append_cancel_right e
  have hm := stringHead_minimal h6
  have : ∃ d, dataWithHead b = .ok d := by
    unfold dataWithHead
    rw [encodingSize_eq _ (stringHead_lt h6)]
    simp only
    rw [if_neg]
    · exact ⟨_, rfl⟩
    · rw [hp.dataAt, hp.raw, hf]
      simp only [List.length_append, List.length_cons]
      omega
  obtain ⟨d, hd⟩ := this
  unfold strB
  rw [hd]

theorem strB_short {b : BlockView} (h : IsBlock false b.raw b.block) (hs : ShortData b.raw b.block) : IsString b.block.data (strB b) := by
  obtain ⟨front, s, crc, hr, ⟨head, rfl, hh, hmin⟩, hc⟩ := hs
  obtain ⟨hw, hwl⟩ := isStringHead_encode b.block.data.length (stringHead_lt hh)
  have hlen : head.length = encodingSizeClassic b.block.data.length := by
    have h1 := hmin _ hw
    rw [hwl, encode_length] at h1
    have h2 := stringHead_minimal hh
    omega
  have hda : dataAt b = (front ++ head).length := by
    unfold dataAt crcLength
    rw [hr, ← hc]
    simp only [List.length_append]
    omega
  have : dataWithHead b = .ok (head ++ b.block.data) := by
    unfold dataWithHead
    rw [encodingSize_eq _ (stringHead_lt hh)]
    simp only
    rw [hda, if_neg (by rw [hr]; simp only [List.length_append]; omega), hr]
    have e1 : (front ++ head).length - encodingSizeClassic b.block.data.length = front.length := by
      simp only [List.length_append]; omega
    rw [e1]
    have e2 : (front ++ (head ++ b.block.data) ++ crc).drop front.length = head ++ b.block.data ++ crc := by
      rw [List.append_assoc, List.drop_left]
    rw [e2, ← hlen]
    congr 1
    rw [← List.length_append, List.take_left]
  unfold strB
  rw [this]
  exact ⟨head, rfl, hh, hmin⟩

/-- The HMAC of a block, or of the primary block. -/
def mac (C : Crypto) (variant : Nat) (key : Bytes) (scope : Nat) (primary security : Bytes) : Option BlockView → Bytes
  | none => C.hmac variant key (ipptPrimary scope primary security)
  | some b => C.hmac variant key (ipptOf scope primary (hdr b) security (strB b))

/-- The block that a target names, `none` for the primary block. -/
def named (v : View) (t : Nat) : Option BlockView := if t = 0 then none else v.byNumber t

theorem ipptBlock_ok {b : BlockView} (h : IsBlock false b.raw b.block) (scope : Nat) (primary security : Bytes) :
    ipptBlock scope primary security b = .ok (ipptOf scope primary (hdr b) security (strB b)) := by
  unfold ipptBlock
  rw [headerOf_ok h, part_ok, dataWithHead_ok h]
  simp only [Out.bind, ipptOf, aadOf_part]

theorem signLoop_ok {C : Crypto} (P : SignParams) (key header : Bytes) (v : View) : ∀ (ts : List Nat),
    (∀ t ∈ ts, t ≠ 0 → ∃ b, v.byNumber t = some b ∧ IsBlock false b.raw b.block ∧ b.body ≠ .hidden) →
      signLoop C P key header v ts = .ok (ts.map fun t => mac C P.variant key P.scope v.primaryRaw header (named v t)) := by
  intro ts
  induction ts with
  | nil => intro _; rfl
  | cons t ts ih =>
    intro h
    have h1 : signTarget C P key header v t = .ok (mac C P.variant key P.scope v.primaryRaw header (named v t)) := by
      unfold signTarget named
      by_cases ht : t = 0
      · rw [if_pos ht, if_pos ht]; rfl
      · rw [if_neg ht, if_neg ht]
        obtain ⟨b, e, hb, hn⟩ := h t List.mem_cons_self ht
        rw [e]
        simp only
        rw [if_neg hn, ipptBlock_ok hb]
        rfl
    simp only [signLoop]
    rw [h1, ih (fun t ht => h t (List.mem_cons_of_mem _ ht))]
    rfl

/-- The type of a target. -/
def typeOf (x : Option BlockView) : UInt8 :=
  match x with
  | none => 0
  | some b => b.block.typeCode

theorem verifyLoop_ok {C : Crypto} (expected : Nat) (g : Verifying) (w : View) : ∀ (ts : List Nat) (st m : Nat),
    (∀ t ∈ ts, t ≠ 0 → ∃ b, w.byNumber t = some b ∧ IsBlock false b.raw b.block ∧ b.body ≠ .hidden) →
    (∀ t ∈ ts, (typeOf (named w t)).toNat ≤ 63 → expected.testBit (typeOf (named w t)).toNat = true) →
      verifyLoop C expected g st (ts.zip (ts.map fun t => mac C g.variant g.key g.scope w.primaryRaw g.header (named w t))) ⟨w, [], m⟩ =
        .ok ⟨w, [], (ts.map fun t => typeOf (named w t)).foldl addType m⟩ := by
  intro ts
  induction ts with
  | nil => intro st m _ _; rfl
  | cons t ts ih =>
    intro st m h hm
    have h1 : verifyTarget C expected g st t (mac C g.variant g.key g.scope w.primaryRaw g.header (named w t)) ⟨w, [], m⟩ =
        .ok ⟨w, [], addType m (typeOf (named w t))⟩ := by
      have hmt := hm t List.mem_cons_self
      unfold verifyTarget
      by_cases ht : t = 0
      · have hn : named w t = none := by unfold named; rw [if_pos ht]
        rw [hn] at hmt ⊢
        rw [if_pos ht, admit_ok _ _ 0 hmt]
        simp only [mac, compareHmac, if_true]
        rfl
      · obtain ⟨b, e, hb, hnh⟩ := h t List.mem_cons_self ht
        have hn : named w t = some b := by unfold named; rw [if_neg ht, e]
        rw [hn] at hmt ⊢
        rw [if_neg ht]
        simp only [e]
        rw [if_neg hnh, ipptBlock_ok hb]
        simp only [Out.bind]
        rw [admit_ok _ _ b.block.typeCode hmt]
        simp only [mac, compareHmac, if_true]
        rfl
    simp only [List.map_cons, List.zip_cons_cons, verifyLoop]
    rw [h1]
    simp only [Out.bind]
    rw [ih _ _ (fun t ht => h t (List.mem_cons_of_mem _ ht)) (fun t ht => hm t (List.mem_cons_of_mem _ ht))]
    rfl

/-- The integrity block. -/
def bibAsb (P : SignParams) (wrapped : Option Bytes) (macs : List Bytes) : Asb :=
  ⟨P.targets, 1, 1, P.source, ⟨1, .uint P.variant⟩ ::
    ((wrapped.map fun w => (⟨2, .bytes w⟩ : Pair)).toList ++ [⟨3, .uint P.scope⟩]), macs.map fun t => ⟨1, .bytes t⟩⟩

theorem bib_writable (admin : Bool) {v : View} {P : SignParams} {key : Bytes} (hs : Signable v P key) (number : Nat)
    {wrapped : Option Bytes} {macs : List Bytes} (ht : macs.length = P.targets.length) (hmac : ∀ t ∈ macs, t.length ≤ 64)
    (hw : ∀ w, wrapped = some w → w.length ≤ 40) : Writable admin (bibOf P number) (.sec (bibAsb P wrapped macs)) := by
  refine writable_sec admin _ _ (Or.inl rfl) rfl (Or.inl rfl) hs.source hs.targets.2 (fun t h => ?_) ?_ ?_ ?_ ?_
  · rcases hs.there t h with rfl | h
    · decide
    · exact h.1
  · cases wrapped <;> simp [bibAsb]
  · have hvar := hs.variant
    have hsc := hs.scope
    intro x hx
    have hx' : x = ⟨1, .uint P.variant⟩ ∨ (∃ w, wrapped = some w ∧ x = ⟨2, .bytes w⟩) ∨ x = ⟨3, .uint P.scope⟩ := by
      cases hwr : wrapped with
      | none => simpa [bibAsb, hwr] using hx
      | some w => simpa [bibAsb, hwr] using hx
    rcases hx' with rfl | ⟨w, hw', rfl⟩ | rfl
    · exact ⟨show P.variant < 2 ^ 64 by omega, Or.inl rfl⟩
    · refine ⟨?_, rfl⟩
      have := hw w hw'
      show w.length ≤ 2 ^ 32
      omega
    · exact ⟨show P.scope < 2 ^ 64 by omega, Or.inr rfl⟩
  · simp only [bibAsb, List.length_map, ht]; exact hs.targets.2
  · intro x hx
    simp only [bibAsb, List.mem_map] at hx
    obtain ⟨t, hm, rfl⟩ := hx
    refine ⟨?_, rfl⟩
    have := hmac t hm
    show t.length ≤ 2 ^ 32
    omega

theorem signed_ready {v : View} {buf : Bytes} (hv : IsViewOf false v buf) {P : SignParams} {key : Bytes} (hs : Signable v P key)
    (number : Nat) (hnum : number < 2 ^ 64) (hun : Unused v.blocks number) {wrapped : Option Bytes} {macs : List Bytes}
    (ht : macs.length = P.targets.length) (hmac : ∀ t ∈ macs, t.length ≤ 64) (hw : ∀ w, wrapped = some w → w.length ≤ 40) :
    ViewReady false (v.prepend (newBlock (bibOf P number) (.sec (bibAsb P wrapped macs)))) ∧
    staying (v.prepend (newBlock (bibOf P number) (.sec (bibAsb P wrapped macs)))).blocks =
      newBlock (bibOf P number) (.sec (bibAsb P wrapped macs)) :: v.blocks := by
  have hr := loaded_ready false v buf hv
  have hnodel : ∀ b ∈ v.blocks, b.deleted = false := fun b hb => (hv.2.2.2.2.2.2.2.2.2.1 b hb).2.2.1
  have henc : v.encrypted = allTargets v.blocks := hv.2.2.2.2.2.2.2.1
  have hst : staying v.blocks = v.blocks := by
    unfold staying
    exact List.filter_eq_self.2 fun b hb => by simp [hnodel b hb]
  have hst' : staying (v.prepend (newBlock (bibOf P number) (.sec (bibAsb P wrapped macs)))).blocks =
      newBlock (bibOf P number) (.sec (bibAsb P wrapped macs)) :: v.blocks := by
    conv => rhs; rw [← hst]
    show staying (_ :: v.blocks) = _
    unfold staying
    rw [List.filter_cons, if_pos (by simp [newBlock])]
  have hall : allTargets (newBlock (bibOf P number) (.sec (bibAsb P wrapped macs)) :: v.blocks) = allTargets v.blocks := by
    unfold allTargets
    rw [List.map_cons, List.flatten_cons, targetsOf_other (show (11 : UInt8) ≠ 12 by decide), List.nil_append]
  obtain ⟨⟨p1, p2, p3, p4, p5⟩, ⟨init, last, e, hl⟩, h3, h4, h5⟩ := hr
  rw [hst] at h3 h4 h5
  refine ⟨⟨⟨p1, p2, p3, p4, p5⟩, ⟨newBlock (bibOf P number) (.sec (bibAsb P wrapped macs)) :: init, last, ?_, hl⟩, ?_, ?_, ?_⟩, hst'⟩
  · show _ :: v.blocks = _
    rw [e]; rfl
  · rw [hst']
    cases hvb : v.blocks with
    | nil => rw [hvb] at e; simp at e
    | cons x xs =>
      rw [hvb] at h3
      rw [List.map_cons, List.map_cons, payloadLast_cons]
      exact ⟨show (11 : UInt8) ≠ 1 by decide, h3⟩
  · rw [hst', hall]; exact h4
  · rw [hst', hall]
    intro x hx
    rcases List.mem_cons.1 hx with rfl | hx
    · refine ⟨⟨fun h => ?_, fun h => by simp [newBlock] at h⟩, fun h => by simp [newBlock] at h, fun _ =>
        ⟨hnum, show 0 < 2 ^ 64 by omega, hs.crc, bib_writable _ hs number ht hmac hw⟩⟩
      obtain ⟨b, hb, hbn⟩ := hs.named _ (henc ▸ h.2)
      exact absurd hbn (hun.2 b hb)
    · exact h5 x hx

theorem there_ok {v : View} {buf : Bytes} (hv : IsViewOf false v buf) {P : SignParams} {key : Bytes} (hs : Signable v P key) :
    ∀ t ∈ P.targets, t ≠ 0 → ∃ b, v.byNumber t = some b ∧ IsBlock false b.raw b.block ∧ b.body ≠ .hidden := by
  intro t ht h0
  rcases hs.there t ht with h | ⟨_, h2, b, hb, e⟩
  · exact absurd h h0
  have hsome : (v.byNumber t).isSome := by
    unfold View.byNumber
    rw [List.find?_isSome]
    exact ⟨b, hb, by simpa using e⟩
  obtain ⟨x, hx⟩ := Option.isSome_iff_exists.1 hsome
  have hxm : x ∈ v.blocks := List.mem_of_find?_eq_some hx
  have hxn : x.block.number = t := by simpa using List.find?_some hx
  obtain ⟨g1, _, _, _, g5⟩ := hv.2.2.2.2.2.2.2.2.2.1 x hxm
  refine ⟨x, hx, g1, fun hh => ?_⟩
  have := g5 (fun he => h2 (hxn ▸ he.2))
  rw [hh] at this
  exact this

theorem done_rest {skip admin : Bool} {enc : List Nat} {b w : BlockView} (h : Done skip admin enc b w) :
    w.body = b.body ∧ w.dirty = false ∧ w.deleted = b.deleted := by
  have hr := h.2.1 (List.replicate w.raw.length 0) (by simp)
  unfold BlockView.render at hr
  by_cases hd : b.dirty = true
  · rw [if_pos hd] at hr
    obtain ⟨⟨out, c⟩, _, h2⟩ := obind_ok.1 hr
    simp only at h2
    split_ifs at h2
    simp only [Out.ok.injEq, Prod.mk.injEq] at h2
    rw [← h2.2]
    exact ⟨rfl, rfl, rfl⟩
  · rw [h.2.2.2.1 (by simpa using hd)]
    exact ⟨rfl, by simpa using hd, rfl⟩

theorem forall2_clean {R : BlockView → BlockView → Prop} (hR : ∀ a b, R a b → a.dirty = false → b = a) {as bs : List BlockView}
    (h : List.Forall₂ R as bs) (hd : ∀ a ∈ as, a.dirty = false) : bs = as := by
  induction h with
  | nil => rfl
  | cons h _ ih =>
    rw [hR _ _ h (hd _ List.mem_cons_self), ih (fun a ha => hd a (List.mem_cons_of_mem _ ha))]

theorem free_lt {v : View} {buf : Bytes} {skip : Bool} (hv : IsViewOf skip v buf) : v.free < 2 ^ 64 := by
  apply Nat.lt_pow_two_of_testBit
  intro i hi
  by_contra h
  have := ((hv.2.2.2.2.2.2.2.2.2.2.1 i).1 (by simpa using h)).1
  omega

/-- All about signing: the bundle that is made, the loaded view of it, and how the call ends. -/
theorem sign_full_view {C : Crypto} (hC : Lawful C) {v : View} {buf : Bytes} (hv : IsViewOf false v buf)
    (hr : ∀ b ∈ v.blocks, b.block.number + 1 < 2 ^ 64) (hlen : buf.length < 2 ^ 62)
    {P : SignParams} {key : Bytes} (hs : Signable v P key) :
    ∃ (u' w : View) (bib : BlockView), IsViewOf false w u'.rendered ∧ w.primaryRaw = v.primaryRaw ∧
      w.primary = v.primary ∧ w.blocks = bib :: v.blocks ∧
      bib.block.typeCode = 11 ∧ bib.block.number = v.nextFree ∧ bib.block.flags = 0 ∧
      bib.block.crcType = P.crcType ∧ bib.deleted = false ∧
      bib.body = .sec (bibAsb P (P.kek.map fun k => C.wrap k key)
        (P.targets.map fun t => mac C P.variant key P.scope v.primaryRaw (headerOfNew (bibOf P v.nextFree)) (named v t))) ∧
      headerOf bib = .ok (headerOfNew (bibOf P v.nextFree)) ∧ Unused v.blocks v.nextFree ∧
      (IsViewOf false u' u'.rendered ∧ u'.primaryRaw = v.primaryRaw ∧ u'.primary = v.primary ∧ u'.blocks = bib :: v.blocks) ∧
      ∀ room, sign C P v room = if buf.length + 256 < u'.rendered.length then .fail
        else if buf.length + room < u'.rendered.length then .fault
        else .ok (u', buf.length + room - u'.rendered.length) := by
  have hclean := isView_clean hv
  have hlay := isView_layout hv
  have hren : v.rendered = buf := hv.2.2.2.2.2.2.2.2.2.2.2
  have hpd : v.primaryDirty = false := hv.2.2.2.2.2.1
  have hpl := hv.2.2.2.2.2.2.1
  obtain ⟨hun, _, _⟩ := C78_next_loaded false v buf hv hr
  have hnf : v.nextFree < 2 ^ 64 := by
    have hfu : FreeUnused v := fun n hn => (hv.2.2.2.2.2.2.2.2.2.2.1 n).1 hn
    obtain ⟨_, h2, h3⟩ := nextFree_unused v hfu (fun _ => hr)
    by_cases h0 : v.free = 0
    · unfold View.nextFree
      rw [if_neg (by simpa using h0)]
      exact Nat.mod_lt _ (by decide)
    · have := (h2 h0).1
      omega
  let macs := P.targets.map fun t => mac C P.variant key P.scope v.primaryRaw (headerOfNew (bibOf P v.nextFree)) (named v t)
  have hloop : signLoop C P key (headerOfNew (bibOf P v.nextFree)) v P.targets = .ok macs :=
    signLoop_ok P key _ v P.targets (there_ok hv hs)
  have htl : macs.length = P.targets.length := by simp [macs]
  have hmac : ∀ t ∈ macs, t.length ≤ 64 := by
    intro t ht
    obtain ⟨b, _, rfl⟩ := List.mem_map.1 ht
    cases named v b <;> exact hC.hmac_length _ _ _
  have hwl : ∀ w, (P.kek.map fun k => C.wrap k key) = some w → w.length ≤ 40 := by
    intro w hw
    obtain ⟨k, hk, rfl⟩ := Option.map_eq_some_iff.1 hw
    rw [hC.wrap_length]
    rcases (hs.kek k hk).1 with h | h <;> omega
  obtain ⟨hready, hst⟩ := signed_ready hv hs v.nextFree hnf hun htl hmac hwl
  have hwrit := bib_writable (v.primary.flags.testBit 1) hs v.nextFree htl hmac hwl
  obtain ⟨u', g1, _, _, ⟨w, ⟨w1, w2, w3⟩, w4, w5, w6, w7⟩, ⟨d1, d2, d3, d4, d5⟩, g6⟩ := render_ready_full false _ hready
  rw [hst] at w3 d5
  obtain ⟨bib, ws, hbw, hws, hwb⟩ := List.forall₂_cons_left_iff.1 w3
  obtain ⟨x0, us, hx0, hus, hub⟩ := List.forall₂_cons_left_iff.1 d5
  have hws' : ws = v.blocks := by
    have : ∀ (as bs : List BlockView), List.Forall₂ SameBlock as bs → (∀ a ∈ as, a.dirty = false) → bs = as := by
      intro as bs h
      induction h with
      | nil => intro _; rfl
      | cons h _ ih =>
        intro hd
        rw [h.2.2.2.2.1 (hd _ List.mem_cons_self), ih (fun a ha => hd a (List.mem_cons_of_mem _ ha))]
    exact this _ _ hws fun a ha => (hclean a ha).2
  obtain ⟨b1, b2, b3, b4, _, b6, _⟩ := hbw
  have hraw : bib.raw = x0.raw := by
    rw [hwb, hub] at w5
    simp only [List.map_cons, List.cons.injEq] at w5
    exact w5.1
  have hprim : w.primaryRaw = v.primaryRaw := by
    rw [w6]; exact d2 hpd
  have hlast : ∃ last, v.blocks.getLast? = some last := by
    cases hg : v.blocks.getLast? with
    | none =>
      rw [List.getLast?_eq_none_iff] at hg
      rw [hg] at hpl
      exact absurd hpl payloadLast_nil
    | some l => exact ⟨l, rfl⟩
  obtain ⟨last, hlast⟩ := hlast
  have hlm : last ∈ v.blocks := List.mem_of_getLast? hlast
  have hlast'' : (v.prepend (newBlock (bibOf P v.nextFree) (.sec (bibAsb P (P.kek.map fun k => C.wrap k key)
      macs)))).blocks.getLast? = some last := by
    show (newBlock _ _ :: v.blocks).getLast? = some last
    rw [List.getLast?_cons, hlast]
    rfl
  obtain ⟨front, hfront⟩ := getLast_mem_layout (v := v) hlast
  refine ⟨u', w, bib, w1, hprim, w2.2 hpd, by rw [hwb, hws'], b1, b2, b3, b4, ?_, ?_, ?_, hun, ?_, ?_⟩
  · exact (w1.2.2.2.2.2.2.2.2.2.1 bib (by rw [hwb]; exact List.mem_cons_self)).2.2.1
  · rw [b6 rfl]; rfl
  · exact header_done hx0 hwrit hnf (show 0 < 2 ^ 64 by omega) hraw b1 b2 b3
  · have hx : x0 = bib := by
      obtain ⟨r1, r2, r3⟩ := done_rest hx0
      have hbl := w1.2.2.2.2.2.2.2.2.2.1 bib (by rw [hwb]; exact List.mem_cons_self)
      rw [hwb, hub] at w4
      simp only [List.map_cons, List.cons.injEq] at w4
      have hbb : bib.body = x0.body := by rw [r1, b6 rfl]; rfl
      have h3 : bib.deleted = x0.deleted := by rw [r3, hbl.2.2.1]; rfl
      have h4 : bib.dirty = x0.dirty := by rw [r2, hbl.2.1]
      have h5 := w4.1
      cases x0; cases bib
      simp only at hbb h3 h4 h5 hraw
      rw [hbb, h3, h4, h5, hraw]
    have hus' : us = v.blocks := forall2_clean (fun a b h hd => h.2.2.2.1 hd) hus fun a ha => (hclean a ha).2
    have hub' : u'.blocks = bib :: v.blocks := by rw [hub, hx, hus']
    have hwb' : w.blocks = bib :: v.blocks := by rw [hwb, hws']
    have henc : allTargets (bib :: v.blocks) = v.encrypted := by
      rw [hv.2.2.2.2.2.2.2.1]
      simp only [allTargets, List.map_cons, List.flatten_cons]
      have b1' : bib.block.typeCode = 11 := b1
      rw [targetsOf_other (by rw [b1']; decide)]
      rfl
    have hfree : u'.free = reserve v.free v.nextFree := by
      rw [d3]
      unfold freed
      have : (v.prepend (newBlock (bibOf P v.nextFree) (.sec (bibAsb P (P.kek.map fun k => C.wrap k key) macs)))).blocks.filter
          (·.deleted) = [] := by
        rw [List.filter_eq_nil_iff]
        intro b hb
        rcases List.mem_cons.1 hb with rfl | hb
        · simp [newBlock]
        · have := (hv.2.2.2.2.2.2.2.2.2.1 b hb).2.2.1
          rw [this]; exact Bool.false_ne_true
      rw [this]
      rfl
    have hw := w1
    obtain ⟨i1, i2, i3, i4, i5, i6, i7, i8, i9, i10, i11, i12⟩ := w1
    rw [w6, hwb'] at i1
    rw [w6, w7] at i2
    rw [w7] at i3 i4 i5 i10
    rw [hwb'] at i7 i8 i10
    have he' : u'.encrypted = w.encrypted := by
      rw [d4, i8, henc]
      rfl
    refine ⟨⟨?_, i2, i3, i4, i5, d1, ?_, ?_, ?_, ?_, ?_, rfl⟩, d2 hpd, by rw [← w7]; exact w2.2 hpd, hub'⟩
    · rw [hub']; exact i1
    · rw [hub']; exact i7
    · rw [hub', he']; exact i8
    · rw [he']; exact i9
    · rw [hub', he']; exact i10
    · intro n
      rw [hub', hfree, reserve_testBit _ _ _ (free_lt hv), hv.2.2.2.2.2.2.2.2.2.2.1 n]
      unfold Unused
      simp only [List.forall_mem_cons, b2]
      constructor
      · rintro ⟨⟨h1, h2, h3⟩, h4⟩
        exact ⟨h1, h2, Ne.symm h4, h3⟩
      · rintro ⟨h1, h2, h4, h3⟩
        exact ⟨⟨h1, h2, h3⟩, Ne.symm h4⟩
  · intro room
    have hrh := renderHere_ready (u := v.prepend (newBlock (bibOf P v.nextFree)
      (.sec (bibAsb P (P.kek.map fun k => C.wrap k key) macs)))) (u' := u') (front := front) (last := last) room g1 hlast''
      (fun pad h1 h2 h3 => g6 pad front last hlast'' (hclean last hlm).2 (by
        show v.rendered = _
        rw [hlay]; exact hfront) h1 h2 h3) (by
        show v.rendered.length < 2 ^ 62
        rw [hren]; exact hlen)
    rw [show (v.prepend (newBlock (bibOf P v.nextFree) (.sec (bibAsb P (P.kek.map fun k => C.wrap k key)
      macs)))).rendered = buf from hren] at hrh
    unfold sign
    simp only
    rw [if_neg (by rcases hs.variant with h | h | h <;> simp [h]), hs.hasKey]
    simp only
    have hwrap : wrapIf C P.kek key = .ok (P.kek.map fun k => C.wrap k key) := by
      cases hk : P.kek with
      | none => rfl
      | some k =>
        have := hs.kek k hk
        rw [← hk]
        exact wrapIf_ok hC this.1 (fun k' hk' => (hs.kek k' hk').2)
    rw [hwrap]
    simp only [Out.bind]
    rw [bibParams_eq]
    simp only [ofOption]
    rw [if_neg hs.targets.1, hloop]
    simp only
    rw [results_eq, List.nil_append]
    exact hrh

/-- The same without the view that the call leaves. -/
theorem sign_full {C : Crypto} (hC : Lawful C) {v : View} {buf : Bytes} (hv : IsViewOf false v buf)
    (hr : ∀ b ∈ v.blocks, b.block.number + 1 < 2 ^ 64) (hlen : buf.length < 2 ^ 62)
    {P : SignParams} {key : Bytes} (hs : Signable v P key) :
    ∃ (u' w : View) (bib : BlockView), IsViewOf false w u'.rendered ∧ w.primaryRaw = v.primaryRaw ∧
      w.primary = v.primary ∧ w.blocks = bib :: v.blocks ∧
      bib.block.typeCode = 11 ∧ bib.block.number = v.nextFree ∧ bib.block.flags = 0 ∧
      bib.block.crcType = P.crcType ∧ bib.deleted = false ∧
      bib.body = .sec (bibAsb P (P.kek.map fun k => C.wrap k key)
        (P.targets.map fun t => mac C P.variant key P.scope v.primaryRaw (headerOfNew (bibOf P v.nextFree)) (named v t))) ∧
      headerOf bib = .ok (headerOfNew (bibOf P v.nextFree)) ∧ Unused v.blocks v.nextFree ∧
      ∀ room, sign C P v room = if buf.length + 256 < u'.rendered.length then .fail
        else if buf.length + room < u'.rendered.length then .fault
        else .ok (u', buf.length + room - u'.rendered.length) := by
  obtain ⟨u', w, bib, h1, h2, h3, h4, h5, h6, h7, h8, h9, h10, h11, h12, _, h13⟩ := sign_full_view hC hv hr hlen hs
  exact ⟨u', w, bib, h1, h2, h3, h4, h5, h6, h7, h8, h9, h10, h11, h12, h13⟩

theorem verifying_ok {C : Crypto} (hC : Lawful C) {v : View} {P : SignParams} {Q : VerifyParams} {key : Bytes} (hs : Signable v P key)
    (hq : Verifies v P Q) {bib : BlockView} {macs : List Bytes} {h : Bytes} (ht : macs.length = P.targets.length)
    (hb : bib.body = .sec (bibAsb P (P.kek.map fun k => C.wrap k key) macs)) (hh : headerOf bib = .ok h) :
    verifyingOf C Q bib = .ok (.good ⟨P.variant, P.scope, key, if P.scope.testBit 2 then h else [], P.targets.zip macs⟩) := by
  have hvar : variantOf (bibAsb P (P.kek.map fun k => C.wrap k key) macs) 1 6 = (P.variant, true) := by
    have : P.variant < 4294967296 := by rcases hs.variant with e | e | e <;> omega
    simp [variantOf, bibAsb, getUint, Nat.mod_eq_of_lt this]
  have hsc : getScope (bibAsb P (P.kek.map fun k => C.wrap k key) macs).params 3 = P.scope := by
    cases hk : P.kek <;> simp [bibAsb, getScope, getUint, hk]
  have hwr : getBytes (bibAsb P (P.kek.map fun k => C.wrap k key) macs).params 2 = P.kek.map fun k => C.wrap k key := by
    cases hk : P.kek <;> simp [bibAsb, getBytes, hk]
  have hres : allResults (bibAsb P (P.kek.map fun k => C.wrap k key) macs).results 1 = macs := allResults_map macs
  have hkey : chooseKey C (P.kek.map fun k => C.wrap k key) Q.kek Q.key = .ok (.good key) := by
    cases hk : P.kek with
    | none =>
      rw [hq.key hk, hs.hasKey]
      rfl
    | some k =>
      rw [hq.kek k hk]
      simp only [chooseKey, Option.map_some]
      rw [unwrap_ok hC (hs.kek k hk).1 (hs.kek k hk).2]
  unfold verifyingOf
  rw [hb]
  simp only [hvar]
  rw [if_neg (by rcases hs.variant with e | e | e <;> rw [e] <;> simp), if_neg (by rw [hq.variant]; simp)]
  simp only [hsc, hwr, hres]
  rw [if_neg (by rw [hq.scope]; simp), hh, part_ok]
  simp only [Out.bind]
  rw [hkey]
  simp only
  rw [if_neg (by simp [bibAsb, ht]), if_neg (show (bibAsb P (P.kek.map fun k => C.wrap k key) macs).targets ≠ [] from hs.targets.1)]
  rfl

theorem ipptOf_part2 (scope : Nat) (primary target security d : Bytes) :
    ipptOf scope primary target (if scope.testBit 2 then security else []) d = ipptOf scope primary target security d := by
  unfold ipptOf
  rw [aadOf_part2]

theorem ipptPrimary_part (scope : Nat) (primary security : Bytes) :
    ipptPrimary scope primary (if scope.testBit 2 then security else []) = ipptPrimary scope primary security := by
  unfold ipptPrimary
  split_ifs <;> rfl

theorem mac_part (C : Crypto) (variant : Nat) (key : Bytes) (scope : Nat) (primary security : Bytes) (x : Option BlockView) :
    mac C variant key scope primary (if scope.testBit 2 then security else []) x = mac C variant key scope primary security x := by
  cases x with
  | none => simp only [mac, ipptPrimary_part]
  | some b => simp only [mac, ipptOf_part2]

/-- All about verifying what was signed, also behind other blocks that are not targets. -/
theorem verify_at {C : Crypto} (hC : Lawful C) {v : View} {buf : Bytes} (hv : IsViewOf false v buf)
    (hn : (v.blocks.map (·.block.number)).Nodup) {P : SignParams} {key : Bytes} (hs : Signable v P key) {Q : VerifyParams}
    (hq : Verifies v P Q) {w : View} {pre : List BlockView} {bib : BlockView}
    (hwp : w.primaryRaw = v.primaryRaw) (hwb : w.blocks = pre ++ bib :: v.blocks)
    (hpre : ∀ x ∈ pre, Unused v.blocks x.block.number)
    (hnum : bib.block.number = v.nextFree) (hun : Unused v.blocks v.nextFree)
    (hbody : bib.body = .sec (bibAsb P (P.kek.map fun k => C.wrap k key)
        (P.targets.map fun t => mac C P.variant key P.scope v.primaryRaw (headerOfNew (bibOf P v.nextFree)) (named v t))))
    (hhead : headerOf bib = .ok (headerOfNew (bibOf P v.nextFree))) :
    ∀ accept, verify C accept Q pre.length w = .ok ([], View.setDeleted w pre.length accept) := by
  have hthere := there_ok hv hs
  have hnone : ∀ t ∈ P.targets, t ≠ 0 → ∀ x ∈ pre ++ [bib], x.block.number ≠ t := by
    intro t ht h0 x hx e
    rcases hs.there t ht with h | ⟨_, _, b, hb, e'⟩
    · exact absurd h h0
    · rcases List.mem_append.1 hx with hx | hx
      · exact (hpre x hx).2 b hb (by rw [e', ← e])
      · rw [List.mem_singleton.1 hx] at e
        exact hun.2 b hb (by rw [e', ← e, hnum])
  have hby : ∀ t ∈ P.targets, t ≠ 0 → w.byNumber t = v.byNumber t := by
    intro t ht h0
    unfold View.byNumber
    rw [hwb, show pre ++ bib :: v.blocks = (pre ++ [bib]) ++ v.blocks by simp, List.find?_append,
      List.find?_eq_none.2 (fun x hx => by simpa using hnone t ht h0 x hx)]
    rfl
  have hnamed : ∀ t ∈ P.targets, named w t = named v t := by
    intro t ht
    unfold named
    split_ifs with h0
    · rfl
    · exact hby t ht h0
  let macs := P.targets.map fun t => mac C P.variant key P.scope v.primaryRaw (headerOfNew (bibOf P v.nextFree)) (named v t)
  have hop := verifying_ok hC hs hq (macs := macs) (by simp [macs]) hbody hhead
  let g : Verifying := ⟨P.variant, P.scope, key, if P.scope.testBit 2 then headerOfNew (bibOf P v.nextFree) else [], P.targets.zip macs⟩
  have hmacs : (P.targets.map fun t => mac C g.variant g.key g.scope w.primaryRaw g.header (named w t)) = macs := by
    refine List.map_congr_left fun t ht => ?_
    rw [hnamed t ht, hwp]
    exact mac_part _ _ _ _ _ _ _
  have hmem : ∀ t ∈ P.targets, t ≠ 0 → ∃ b ∈ v.blocks, named v t = some b ∧ b.block.number = t := by
    intro t ht h0
    obtain ⟨b, hb, _⟩ := hthere t ht h0
    exact ⟨b, List.mem_of_find?_eq_some hb, by unfold named; rw [if_neg h0, hb], by simpa using List.find?_some hb⟩
  have hmask : (P.targets.map fun t => typeOf (named w t)).foldl addType 0 = Q.mask := by
    refine Nat.eq_of_testBit_eq fun n => ?_
    rw [Bool.eq_iff_iff, addTypes_testBit, hq.mask]
    simp only [Nat.zero_testBit, Bool.false_eq_true, false_or, List.mem_map]
    constructor
    · rintro ⟨h1, _, ⟨t, ht, rfl⟩, h2⟩
      refine ⟨h1, ?_⟩
      rw [hnamed t ht] at h2
      by_cases h0 : t = 0
      · subst h0
        exact Or.inl ⟨h2.symm, ht⟩
      · obtain ⟨b, hb, e1, e2⟩ := hmem t ht h0
        rw [e1] at h2
        exact Or.inr ⟨b, hb, by rw [e2]; exact h0, by rw [e2]; exact ht, h2⟩
    · rintro ⟨h1, ⟨rfl, h0⟩ | ⟨b, hb, h0, ht, h2⟩⟩
      · exact ⟨h1, 0, ⟨0, h0, by simp [named, typeOf]⟩, rfl⟩
      · obtain ⟨b', hb', e1, e2⟩ := hmem _ ht h0
        have := number_inj hn hb' hb e2
        subst this
        exact ⟨h1, _, ⟨_, ht, rfl⟩, by rw [hnamed _ ht, e1]; exact h2⟩
  have hloop := verifyLoop_ok (C := C) Q.mask g w P.targets 0 0 (fun t ht h0 => by rw [hby t ht h0]; exact hthere t ht h0) (by
    intro t ht hle
    rw [hnamed t ht] at hle ⊢
    rw [hq.mask]
    refine ⟨hle, ?_⟩
    by_cases h0 : t = 0
    · subst h0
      exact Or.inl ⟨rfl, ht⟩
    · obtain ⟨b, hb, e1, e2⟩ := hmem t ht h0
      rw [e1]
      exact Or.inr ⟨b, hb, by rw [e2]; exact h0, by rw [e2]; exact ht, rfl⟩)
  rw [hmacs, hmask] at hloop
  have hb0 : w.blocks[pre.length]? = some bib := by rw [hwb]; simp
  intro accept
  unfold verify
  rw [hb0]
  simp only
  rw [hop]
  simp only [Out.bind]
  rw [show (⟨P.variant, P.scope, key, if P.scope.testBit 2 then headerOfNew (bibOf P v.nextFree) else [], P.targets.zip macs⟩ : Verifying) = g
    from rfl, hloop]
  simp only [finish]
  rw [if_pos trivial, if_neg (by simp)]

/-- All about verifying what was signed. -/
theorem verify_full {C : Crypto} (hC : Lawful C) {v : View} {buf : Bytes} (hv : IsViewOf false v buf)
    (hn : (v.blocks.map (·.block.number)).Nodup) {P : SignParams} {key : Bytes} (hs : Signable v P key) {Q : VerifyParams}
    (hq : Verifies v P Q) {signed : Bytes} {w : View} {bib : BlockView}
    (hw : IsViewOf false w signed) (hwp : w.primaryRaw = v.primaryRaw) (hwb : w.blocks = bib :: v.blocks)
    (hnum : bib.block.number = v.nextFree) (hun : Unused v.blocks v.nextFree) (hdel : bib.deleted = false)
    (hbody : bib.body = .sec (bibAsb P (P.kek.map fun k => C.wrap k key)
        (P.targets.map fun t => mac C P.variant key P.scope v.primaryRaw (headerOfNew (bibOf P v.nextFree)) (named v t))))
    (hhead : headerOf bib = .ok (headerOfNew (bibOf P v.nextFree))) :
    verify C false Q 0 w = .ok ([], w) ∧
    verify C true Q 0 w = .ok ([], putBlocks w ({ bib with deleted := true } :: v.blocks)) := by
  have hgen := verify_at hC hv hn hs hq (pre := []) hwp hwb (by simp) hnum hun hbody hhead
  simp only [List.length_nil] at hgen
  refine ⟨?_, ?_⟩
  · rw [hgen]
    unfold View.setDeleted
    rw [hwb]
    simp only [List.modify_zero_cons]
    have : ({ bib with deleted := false } : BlockView) = bib := by rw [← hdel]
    rw [this, ← hwb]
  · rw [hgen]
    unfold View.setDeleted putBlocks
    have : layout w.primaryRaw ({ bib with deleted := true } :: v.blocks) = w.rendered := by
      rw [isView_layout hw, hwb]
      simp only [layout, raws_cons]
    rw [this, hwb]
    rfl

/-! ### A verification without errors -/

/-- The check of a target that ended without an error. -/
def MacOk (C : Crypto) (expected : Nat) (g : Verifying) (w : View) (t : Nat) (m : Bytes) (x : Option BlockView) : Prop :=
  (t = 0 → x = none) ∧ (t ≠ 0 → ∃ b, x = some b ∧ w.byNumber t = some b ∧ b.body ≠ .hidden) ∧
  ((typeOf x).toNat ≤ 63 → expected.testBit (typeOf x).toNat = true) ∧
  ((∀ b, x = some b → IsBlock false b.raw b.block) → mac C g.variant g.key g.scope w.primaryRaw g.header x = m)

theorem compareHmac_clean {C : Crypto} {g : Verifying} {st : Nat} {ippt hmac : Bytes} {s : Loop}
    (h : (compareHmac C g st ippt hmac s).errors = []) : C.hmac g.variant g.key ippt = hmac ∧ compareHmac C g st ippt hmac s = s := by
  unfold compareHmac at h ⊢
  by_cases he : C.hmac g.variant g.key ippt = hmac
  · exact ⟨he, if_pos he⟩
  · rw [if_neg he] at h
    simp [Loop.error] at h

theorem verifyTarget_clean {C : Crypto} {expected : Nat} {g : Verifying} {st t : Nat} {hm : Bytes} {s s' : Loop}
    (h : verifyTarget C expected g st t hm s = .ok s') (he : s'.errors = []) :
    s.errors = [] ∧ ∃ x, MacOk C expected g s.view t hm x ∧ s' = { s with mask := addType s.mask (typeOf x) } := by
  unfold verifyTarget at h
  by_cases h0 : t = 0
  · rw [if_pos h0] at h
    split at h
    · simp only [Loop.error, Out.ok.injEq] at h
      rw [← h] at he; simp at he
    · rename_i s1 hs1
      obtain ⟨rfl, hadm⟩ := admit_some hs1
      simp only [Out.ok.injEq] at h
      subst h
      obtain ⟨c1, c2⟩ := compareHmac_clean he
      rw [c2] at he ⊢
      exact ⟨he, none, ⟨fun _ => rfl, fun h => absurd h0 h, hadm, fun _ => c1⟩, rfl⟩
  · rw [if_neg h0] at h
    split at h
    · simp only [Loop.error, Out.ok.injEq] at h
      rw [← h] at he; simp at he
    · rename_i b hb
      by_cases hh : b.body = .hidden
      · rw [if_pos hh] at h
        simp only [Loop.error, Out.ok.injEq] at h
        rw [← h] at he; simp at he
      rw [if_neg hh] at h
      cases hip : ipptBlock g.scope s.view.primaryRaw g.header b with
      | fail => rw [hip] at h; simp [Out.bind] at h
      | fault => rw [hip] at h; simp [Out.bind] at h
      | ok ippt =>
      rw [hip] at h
      simp only [Out.bind] at h
      split at h
      · simp only [Loop.error, Out.ok.injEq] at h
        rw [← h] at he; simp at he
      · rename_i s1 hs1
        obtain ⟨rfl, hadm⟩ := admit_some hs1
        simp only [Out.ok.injEq] at h
        subst h
        obtain ⟨c1, c2⟩ := compareHmac_clean he
        rw [c2] at he ⊢
        refine ⟨he, some b, ⟨fun h => absurd h h0, fun _ => ⟨b, rfl, hb, hh⟩, hadm, fun hB => ?_⟩, rfl⟩
        rw [ipptBlock_ok (hB b rfl)] at hip
        simp only [Out.ok.injEq] at hip
        simp only [mac]
        rw [hip, c1]

theorem verifyLoop_clean {C : Crypto} {expected : Nat} {g : Verifying} : ∀ (work : List (Nat × Bytes)) (st : Nat) (s s' : Loop),
    verifyLoop C expected g st work s = .ok s' → s'.errors = [] →
    s.errors = [] ∧ s'.view = s.view ∧ ∃ xs : List (Option BlockView),
      List.Forall₂ (fun p x => MacOk C expected g s.view p.1 p.2 x) work xs ∧ s'.mask = (xs.map typeOf).foldl addType s.mask := by
  intro work
  induction work with
  | nil =>
    intro st s s' h he
    simp only [verifyLoop, Out.ok.injEq] at h
    subst h
    exact ⟨he, rfl, [], .nil, rfl⟩
  | cons p work ih =>
    obtain ⟨t, hm⟩ := p
    intro st s s' h he
    simp only [verifyLoop] at h
    cases ho : verifyTarget C expected g st t hm s with
    | fail => rw [ho] at h; simp [Out.bind] at h
    | fault => rw [ho] at h; simp [Out.bind] at h
    | ok s1 =>
      rw [ho] at h
      simp only [Out.bind] at h
      obtain ⟨g1, g2, xs, g3, g4⟩ := ih _ _ _ h he
      obtain ⟨k1, x, k2, rfl⟩ := verifyTarget_clean ho g1
      exact ⟨k1, g2, x :: xs, .cons k2 g3, by rw [g4]; rfl⟩

/-- The checks before the loop. -/
theorem verifyingOf_good {C : Crypto} {P : VerifyParams} {b : BlockView} {o : Verifying} (h : verifyingOf C P b = .ok (.good o)) :
    ∃ a macs, b.body = .sec a ∧ a.targets ≠ [] ∧ macs = allResults a.results 1 ∧ macs.length = a.targets.length ∧
      o.work = a.targets.zip macs ∧ o.variant = P.variant ∧ o.scope = P.scope ∧
      part o.scope 2 (headerOf b) = .ok o.header ∧
      KeyFrom C (getBytes a.params 2) P.kek P.key o.key := by
  unfold verifyingOf at h
  split at h
  · simp at h
  swap
  · simp at h
  rename_i a ha
  simp only at h
  split at h
  · simp at h
  rename_i h1
  split at h
  · simp at h
  rename_i h2
  split at h
  · simp at h
  rename_i h4
  cases hp : part (getScope a.params 3) 2 (headerOf b) with
  | fail => rw [hp] at h; simp [Out.bind] at h
  | fault => rw [hp] at h; simp [Out.bind] at h
  | ok hd =>
  rw [hp] at h
  simp only [Out.bind] at h
  cases hk : chooseKey C (getBytes a.params 2) P.kek P.key with
  | fail => rw [hk] at h; simp at h
  | fault => rw [hk] at h; simp at h
  | ok k =>
  rw [hk] at h
  simp only at h
  cases k with
  | bad c => simp at h
  | good key =>
  simp only at h
  split at h
  · simp at h
  rename_i h5
  split at h
  · simp at h
  rename_i h6
  simp only [Out.ok.injEq, Check.good.injEq] at h
  subst h
  push Not at h2 h4 h5
  exact ⟨a, _, ha, h6, rfl, h5, rfl, h2, h4, hp, chooseKey_good hk⟩

theorem verify_clean {C : Crypto} {accept : Bool} {P : VerifyParams} {self : Nat} {w w' : View}
    (h : verify C accept P self w = .ok ([], w')) :
    ∃ sec g, w.blocks[self]? = some sec ∧ verifyingOf C P sec = .ok (.good g) ∧
      (∃ xs, List.Forall₂ (fun p x => MacOk C P.mask g w p.1 p.2 x) g.work xs ∧ P.mask = (xs.map typeOf).foldl addType 0) ∧
      w' = View.setDeleted w self accept := by
  unfold verify at h
  cases hsec : w.blocks[self]? with
  | none => rw [hsec] at h; simp at h
  | some sec =>
  rw [hsec] at h
  simp only at h
  cases ho : verifyingOf C P sec with
  | fail => rw [ho] at h; simp [Out.bind] at h
  | fault => rw [ho] at h; simp [Out.bind] at h
  | ok k =>
  rw [ho] at h
  simp only [Out.bind] at h
  cases k with
  | bad c => simp at h
  | good g =>
  simp only at h
  cases hloop : verifyLoop C P.mask g 0 g.work ⟨w, [], 0⟩ with
  | fail => rw [hloop] at h; simp at h
  | fault => rw [hloop] at h; simp at h
  | ok s =>
  rw [hloop] at h
  simp only [Out.ok.injEq] at h
  unfold finish at h
  by_cases hes : s.errors = []
  swap
  · rw [if_neg hes] at h
    simp only [Prod.mk.injEq] at h
    exact absurd h.1 hes
  rw [if_pos hes] at h
  by_cases hm : s.mask ≠ P.mask
  · rw [if_pos hm] at h; simp at h
  rw [if_neg hm] at h
  simp only [Prod.mk.injEq, true_and] at h
  push Not at hm
  obtain ⟨_, g2, xs, g3, g4⟩ := verifyLoop_clean _ _ _ _ hloop hes
  exact ⟨sec, g, rfl, ho, ⟨xs, g3, by rw [← hm, g4]⟩, by rw [← h, g2]⟩

end Hdtn.BpSecBundle
