import Verif.BundleView7.Load

/-! Rendering what is ready to be rendered. -/

namespace Hdtn.BundleView7

open Hdtn.HashMap16 Hdtn.Cbor Hdtn.Cbor.Spec Hdtn.Bpv7Canonical Hdtn.Bpv7Canonical.Spec Hdtn.Bpv7Crc Hdtn.Bpv7Primary
open Hdtn.Bpv7Primary.Spec Hdtn.BpSec7 Hdtn.BpSec7.Spec Spec

theorem isBlock_of_canonical (skip : Bool) {bs : Bytes} {c : Canonical} (h : IsCanonical [] bs c) : IsBlock skip bs c := by
  refine ⟨[], Or.inl rfl, ?_⟩
  cases skip
  · exact h
  · obtain ⟨body, crc, rfl, hb, hc⟩ := h
    refine ⟨body, crc, rfl, hb, ?_⟩
    rcases hc with ⟨h1, h2, h3⟩ | ⟨h1, h2, h3⟩ | ⟨h1, h2, h3⟩ <;> simp only [Prod.mk.injEq] at h3
    · exact Or.inl ⟨h1, h2, h3.1, h3.2⟩
    · refine Or.inr (Or.inl ⟨h1, ?_, ?_, h3.2⟩)
      · rw [h3.1]; exact h2
      · rw [h3.1]; exact crc16_lt _
    · refine Or.inr (Or.inr ⟨h1, ?_, ?_, h3.1⟩)
      · rw [h3.2]; exact h2
      · rw [h3.2]; exact crc32_lt _

theorem canonical_min {tag bs : Bytes} {c : Canonical} (h : IsCanonical tag bs c) : 6 ≤ bs.length := by
  obtain ⟨body, crc, rfl, ⟨head, t, n, f, s, rfl, _, ht, _, hn, hf, b, r, rfl, _⟩, _⟩ := h
  have h1 := isUint_ne_nil ht
  have h2 := isUint_ne_nil hn
  have h3 := isUint_ne_nil hf
  simp only [List.length_append, List.length_cons]
  omega

/-- What was in the space for the data does not matter when the data fill it. -/
theorem serializeWith_mem (typeCode : UInt8) (number flags : Nat) (t : UInt8) (n : Nat) (d m1 m2 : Bytes)
    (hd : d.length = n) (h1 : n ≤ m1.length) (h2 : n ≤ m2.length) :
    serializeWith typeCode number flags t n d m1 = serializeWith typeCode number flags t n d m2 := by
  let front := UInt8.ofNat (4 <<< 5 ||| arraySize t) :: (encodeU64 typeCode.toNat ++ (encodeU64 number ++
    (encodeU64 flags ++ t :: byteStringHead n)))
  have hbody : ∀ data : Bytes, data.length = n → ∀ a b, Bpv7Canonical.serializeBody ⟨typeCode, number, flags, t, data, a, b⟩ =
      front ++ data := by
    intro data hd a b
    simp [Bpv7Canonical.serializeBody, front, hd]
  have key : ∀ m : Bytes, n ≤ m.length → serializeWith typeCode number flags t n d m =
      if t = 0 then some (recompute ⟨typeCode, number, flags, t, d, 0, 0⟩ (front ++ d ++ []))
      else if t = 1 then some (recompute ⟨typeCode, number, flags, t, d, 0, 0⟩ (front ++ d ++ field16 0))
      else if t = 2 then some (recompute ⟨typeCode, number, flags, t, d, 0, 0⟩ (front ++ d ++ field32 0))
      else none := by
    intro m hm
    have hsp : (m.take n).length = n := by rw [List.length_take]; omega
    have hoff : (front ++ m.take n).length - n = front.length := by
      rw [List.length_append, hsp]; omega
    have hdrop : (m.take n).drop d.length = [] := List.drop_of_length_le (by omega)
    simp only [serializeWith]
    rw [if_neg (by omega)]
    unfold serializeNull
    simp only
    split_ifs
    · simp only [Option.bind_eq_bind, Option.bind_some, Option.pure_def, Option.some.injEq]
      rw [hbody _ hsp, hoff]
      have := splice front (m.take n) d [] (hd.trans hsp.symm)
      rw [List.append_nil] at this
      rw [this, hdrop, List.append_nil]
    · simp only [Option.bind_eq_bind, Option.bind_some, Option.pure_def, Option.some.injEq]
      rw [hbody _ hsp, hoff, splice front (m.take n) d _ (hd.trans hsp.symm), hdrop, List.append_nil]
    · simp only [Option.bind_eq_bind, Option.bind_some, Option.pure_def, Option.some.injEq]
      rw [hbody _ hsp, hoff, splice front (m.take n) d _ (hd.trans hsp.symm), hdrop, List.append_nil]
    · simp
  rw [key m1 h1, key m2 h2]

/-- Writing a block with data `d`. -/
theorem storedWith_spec (typeCode : UInt8) (number flags : Nat) (hn : number < 2 ^ 64) (hf : flags < 2 ^ 64) (t : UInt8)
    (ht : t = 0 ∨ t = 1 ∨ t = 2) (d : Bytes) (hd : d.length < 2 ^ 64) :
    ∃ out c16 c32, IsCanonical [] out ⟨typeCode, number, flags, t, d, c16, c32⟩ ∧
      Bpv7Canonical.serializationSize ⟨typeCode, number, flags, t, d, c16, c32⟩ = some out.length ∧
      (∀ mem : Bytes, out.length ≤ mem.length →
        storedWith mem (some d.length) (serializeWith typeCode number flags t d.length d mem) =
          .ok (out, ⟨typeCode, number, flags, t, d, c16, c32⟩)) ∧
      ∀ mem : Bytes, mem.length < out.length →
        storedWith mem (some d.length) (serializeWith typeCode number flags t d.length d mem) = .fault := by
  obtain ⟨out, c16, c32, hs, hc, hz⟩ := serializeWith_spec typeCode number flags hn hf t ht d.length d
    (List.replicate d.length 0) rfl hd (by simp)
  have hlen : d.length ≤ out.length := by
    obtain ⟨front, crc, h, _⟩ := isBlock_parts (isBlock_of_canonical false hc)
    rw [h]
    simp only [List.length_append]; omega
  refine ⟨out, c16, c32, hc, hz, fun mem hm => ?_, fun mem hm => ?_⟩
  · rw [serializeWith_mem _ _ _ _ _ d mem (List.replicate d.length 0) rfl (by omega) (by simp), hs]
    simp only [storedWith, stored]
    rw [if_neg (by omega), if_neg (by omega)]
  · simp only [storedWith]
    by_cases hml : mem.length < d.length
    · rw [if_pos hml]
    · rw [if_neg hml, serializeWith_mem _ _ _ _ _ d mem (List.replicate d.length 0) rfl (by omega) (by simp), hs]
      simp only [stored]
      rw [if_pos hm]

theorem size_congr (c c' : Canonical) (n : Nat) (h1 : c'.typeCode = c.typeCode) (h2 : c'.number = c.number)
    (h3 : c'.flags = c.flags) (h4 : c'.crcType = c.crcType) (h5 : c'.data.length = n) :
    Bpv7Canonical.serializationSize { c with data := List.replicate n 0 } = Bpv7Canonical.serializationSize c' := by
  unfold Bpv7Canonical.serializationSize
  simp only [List.length_replicate, h1, h2, h3, h4, h5]

/-- Writing a block that is `Writable`. -/
theorem writeBlock_spec (admin : Bool) (c : Canonical) (body : Body) (hn : c.number < 2 ^ 64) (hf : c.flags < 2 ^ 64)
    (ht : c.crcType = 0 ∨ c.crcType = 1 ∨ c.crcType = 2) (h : Writable admin c body) :
    ∃ out c', IsCanonical [] out c' ∧ bodySize c body = some c'.data.length ∧ Bpv7Canonical.serializationSize c' = some out.length ∧
      c'.typeCode = c.typeCode ∧ c'.number = c.number ∧ c'.flags = c.flags ∧ c'.crcType = c.crcType ∧
      (∀ mem : Bytes, out.length ≤ mem.length → writeBlock mem c body = .ok (out, c')) ∧
      (∀ mem : Bytes, mem.length < out.length → writeBlock mem c body = .fault) ∧
      (body ≠ .hidden → IsBody admin c' (carriedBody body)) ∧ (body = .plain ∨ body = .hidden → c'.data = c.data) := by
  have hplain : c.data.length < 2 ^ 64 → ∃ out c', IsCanonical [] out c' ∧ c'.data = c.data ∧ Bpv7Canonical.serializationSize c' = some out.length ∧
      c'.typeCode = c.typeCode ∧ c'.number = c.number ∧ c'.flags = c.flags ∧ c'.crcType = c.crcType ∧
      (∀ mem : Bytes, out.length ≤ mem.length → stored mem (Bpv7Canonical.serialize c) = .ok (out, c')) ∧
      (∀ mem : Bytes, mem.length < out.length → stored mem (Bpv7Canonical.serialize c) = .fault) := by
    intro hd
    obtain ⟨bs, c16, c32, hs, hc, hz, _⟩ := C37_round_trip c ⟨hn, hf, hd⟩ ht
    refine ⟨bs, _, hc, rfl, ?_, rfl, rfl, rfl, rfl, fun mem hm => ?_, fun mem hm => ?_⟩
    · rw [← hz]; rfl
    · rw [hs]
      simp only [stored]
      rw [if_neg (by omega)]
    · rw [hs]
      simp only [stored]
      rw [if_pos hm]
  cases body with
  | plain =>
    obtain ⟨out, c', h1, h2, h3, h4, h5, h6, h7, h8, h9⟩ := hplain h.1
    refine ⟨out, c', h1, by simp [bodySize, h2], h3, h4, h5, h6, h7, h8, h9, fun _ => ?_, fun _ => h2⟩
    obtain ⟨_, g1, g2, g3⟩ := h
    rw [← h4] at g1 g2 g3
    exact ⟨g1, g2, g3⟩
  | hidden =>
    obtain ⟨out, c', h1, h2, h3, h4, h5, h6, h7, h8, h9⟩ := hplain h
    exact ⟨out, c', h1, by simp [bodySize, h2], h3, h4, h5, h6, h7, h8, h9, fun h => absurd rfl h, fun _ => h2⟩
  | ext x =>
    obtain ⟨htc, hx⟩ := h
    obtain ⟨n, hsz, hwl, hn64, hext⟩ := write_spec x hx
    obtain ⟨out, c16, c32, h1, h2, h3, h4⟩ := storedWith_spec x.typeCode c.number c.flags hn hf c.crcType ht (x.write n) (by omega)
    refine ⟨out, _, h1, by rw [bodySize, hsz]; simp [hwl], h2, htc.symm, rfl, rfl, rfl, fun mem hm => ?_, fun mem hm => ?_,
      fun _ => ⟨rfl, hext⟩, by simp⟩
    · rw [writeBlock, ext_serialize_eq, hsz, Option.bind_some]
      have := h3 mem hm
      rw [hwl] at this
      exact this
    · rw [writeBlock, ext_serialize_eq, hsz, Option.bind_some]
      have := h4 mem hm
      rw [hwl] at this
      exact this
  | sec a =>
    obtain ⟨hty, hr, hip, hir, hlt, hlp, hlr, hfl, hp, hs, hsz64⟩ := h
    have ha : AllInRange a := ⟨hr, hip, hir, by omega, by omega, by omega⟩
    have hsz := asb_size a ha
    have h64 := hsz64 _ hsz
    obtain ⟨out, c16, c32, h1, h2, h3, h4⟩ := storedWith_spec c.typeCode c.number c.flags hn hf c.crcType ht (asbBytes a) h64
    refine ⟨out, _, h1, by rw [bodySize, hsz], h2, rfl, rfl, rfl, rfl, fun mem hm => ?_, fun mem hm => ?_, fun _ =>
      ⟨hty, asb_taken a hr hip hir hlt hlp hlr hfl hp hs⟩, by simp⟩
    · rw [writeBlock, hsz]
      simp only [Asb.serialize, hsz, asb_write a ha _ (Nat.le_refl _), Option.bind_eq_bind, Option.bind_some]
      exact h3 mem hm
    · rw [writeBlock, hsz]
      simp only [Asb.serialize, hsz, asb_write a ha _ (Nat.le_refl _), Option.bind_eq_bind, Option.bind_some]
      exact h4 mem hm
  | admin r =>
    obtain ⟨had, hty, hr, has⟩ := h
    obtain ⟨d, hsz, hw, hd64, _, htk, _⟩ := AdminRecord7.record_write r hr
    obtain ⟨out, c16, c32, h1, h2, h3, h4⟩ := storedWith_spec 1 c.number c.flags hn hf c.crcType ht d hd64
    refine ⟨out, _, h1, by rw [bodySize, hsz], h2, hty.symm, rfl, rfl, rfl, fun mem hm => ?_, fun mem hm => ?_, fun _ =>
      ⟨had, rfl, Or.inl ⟨[], Or.inl rfl, htk has⟩⟩, by simp⟩
    · rw [writeBlock, hsz]
      simp only [AdminRecord7.Record.serialize, hsz, hw, Option.bind_eq_bind, Option.bind_some]
      exact h3 mem hm
    · rw [writeBlock, hsz]
      simp only [AdminRecord7.Record.serialize, hsz, hw, Option.bind_eq_bind, Option.bind_some]
      exact h4 mem hm

/-- The block `b` has been rendered as `w`. -/
def Done (skip admin : Bool) (enc : List Nat) (b w : BlockView) : Prop :=
  b.size = some w.raw.length ∧ (∀ mem : Bytes, w.raw.length ≤ mem.length → b.render mem = .ok (w.raw, w)) ∧
  (∀ mem : Bytes, mem.length < w.raw.length → b.render mem = .fault) ∧
  (b.dirty = false → w = b) ∧
  ∃ u : BlockView, u.block = w.block ∧ u.raw = w.raw ∧ Loaded skip admin enc u ∧ SameBlock b u ∧ targetsOf u = targetsOf b

theorem hidden_carried (b : Body) : carriedBody b = .hidden ↔ b = .hidden := by
  cases b <;> simp [carriedBody]

theorem block_done (skip admin : Bool) (enc : List Nat) (b : BlockView) (hb : Ready skip admin enc b) (hd : b.deleted = false) :
    ∃ w, Done skip admin enc b w := by
  obtain ⟨h1, h2, h3⟩ := hb
  rcases Bool.eq_false_or_eq_true b.dirty with hdirty | hdirty
  · obtain ⟨hn, hf, ht, hw⟩ := h3 hdirty
    obtain ⟨out, c', g1, g2, g3, g4, g5, g6, g7, g8, g11, g9, g10⟩ := writeBlock_spec admin b.block b.body hn hf ht hw
    have hmin := canonical_min g1
    refine ⟨{ b with block := c', raw := out, dirty := false }, ?_, ?_, ?_, ?_, ⟨c', carriedBody b.body, out, false, false⟩, rfl, rfl, ?_, ?_, ?_⟩
    · unfold BlockView.size
      simp only [hd, Bool.false_eq_true, if_false, hdirty, if_true, g2, Option.bind_eq_bind, Option.bind_some]
      rw [size_congr b.block c' _ g4 g5 g6 g7 rfl, g3]
      simp only [Option.bind_some]
      rw [if_neg (by omega)]
      rfl
    · intro mem hm
      unfold BlockView.render
      simp only [hdirty, if_true]
      rw [g8 mem hm]
      simp only [Out.bind]
      rw [if_neg (by omega)]
    · intro mem hm
      unfold BlockView.render
      simp only [hdirty, if_true]
      rw [g11 mem hm]
      rfl
    · rw [hdirty]; simp
    · have he : IsEncrypted enc c' ↔ IsEncrypted enc b.block := by simp [IsEncrypted, g4, g5]
      refine ⟨isBlock_of_canonical skip g1, rfl, rfl, fun he' => ?_, fun he' => ?_⟩
      · exact (hidden_carried _).2 (h1.1 (he.1 he'))
      · exact g9 (fun hh => he' (he.2 (h1.2 hh)))
    · exact ⟨g4, g5, g6, g7, by rw [hdirty]; simp, fun _ => rfl, g10⟩
    · unfold targetsOf
      cases b.body <;> simp only [carriedBody]
      simp only [g4]
      rename_i a
      congr 1
      unfold content; split <;> rfl
  · obtain ⟨hblk, hbody⟩ := h2 hdirty
    refine ⟨b, ?_, ?_, ?_, fun _ => rfl, b, rfl, rfl, ?_, ?_, rfl⟩
    · unfold BlockView.size
      simp [hd, hdirty]
    · intro mem hm
      unfold BlockView.render
      simp only [hdirty, Bool.false_eq_true, if_false, stored]
      rw [if_neg (by omega)]
    · intro mem hm
      unfold BlockView.render
      simp only [hdirty, Bool.false_eq_true, if_false, stored]
      rw [if_pos hm]
    · exact ⟨hblk, hdirty, hd, h1.1, fun he => hbody (fun hh => he (h1.2 hh))⟩
    · exact ⟨rfl, rfl, rfl, rfl, fun _ => rfl, by rw [hdirty]; simp, fun _ => rfl⟩

theorem blocks_done (skip admin : Bool) (enc : List Nat) (bs : List BlockView) (hb : ∀ b ∈ bs, Ready skip admin enc b)
    (hd : ∀ b ∈ bs, b.deleted = false) : ∃ ws, List.Forall₂ (Done skip admin enc) bs ws := by
  induction bs with
  | nil => exact ⟨[], List.Forall₂.nil⟩
  | cons b bs ih =>
    obtain ⟨w, hw⟩ := block_done skip admin enc b (hb b (by simp)) (hd b (by simp))
    obtain ⟨ws, hws⟩ := ih (fun x hx => hb x (by simp [hx])) (fun x hx => hd x (by simp [hx]))
    exact ⟨w :: ws, List.Forall₂.cons hw hws⟩

/-- The bytes of blocks. -/
def raws (ws : List BlockView) : Bytes := (ws.map (·.raw)).flatten

theorem raws_cons (w : BlockView) (ws : List BlockView) : raws (w :: ws) = w.raw ++ raws ws := by simp [raws]

theorem isPayload_iff (c : Canonical) : isPayload c = true ↔ c.typeCode = 1 ∧ c.number = 1 := by simp [isPayload]

theorem payload_tail {b : BlockView} {bs : List BlockView} (h : PayloadLast ((b :: bs).map (·.block))) :
    (bs = [] ∧ b.block.typeCode = 1 ∧ b.block.number = 1) ∨ (bs ≠ [] ∧ PayloadLast (bs.map (·.block))) := by
  cases bs with
  | nil =>
    simp only [List.map_cons, List.map_nil] at h
    exact Or.inl ⟨rfl, (payloadLast_single _).1 h⟩
  | cons c cs =>
    simp only [List.map_cons] at h
    rw [payloadLast_cons] at h
    exact Or.inr ⟨by simp, h.2⟩

theorem renderBlocks_done (skip admin : Bool) (enc : List Nat) {bs ws : List BlockView}
    (h : List.Forall₂ (Done skip admin enc) bs ws) : ∀ (mem : Bytes), (bs = [] ∨ PayloadLast (bs.map (·.block))) →
    (raws ws).length + 1 ≤ mem.length → renderBlocks mem bs = .ok (raws ws ++ [0xff], ws) := by
  induction h with
  | nil =>
    intro mem _ hm
    simp only [raws, List.map_nil, List.flatten_nil, List.length_nil] at hm
    rw [renderBlocks, if_neg (by omega)]
    rfl
  | @cons b w bs ws hbw _ ih =>
    intro mem hP hm
    rw [raws_cons, List.length_append] at hm
    rw [renderBlocks]
    have hP' := hP.resolve_left (by simp)
    have hcond : ¬ (bs.isEmpty = true ∧ (!isPayload b.block) = true) := by
      rintro ⟨he, hp⟩
      rcases payload_tail hP' with ⟨_, h1⟩ | ⟨h1, _⟩
      · rw [(isPayload_iff _).2 h1] at hp; simp at hp
      · exact h1 (List.isEmpty_iff.1 he)
    rw [if_neg hcond, hbw.2.1 mem (by omega)]
    simp only [Out.bind]
    rw [ih (mem.drop w.raw.length) (by
      rcases payload_tail hP' with ⟨h1, _⟩ | ⟨_, h1⟩
      · exact Or.inl h1
      · exact Or.inr h1) (by rw [List.length_drop]; omega)]
    simp only [raws_cons, List.append_assoc]

theorem renderBlocks_short (skip admin : Bool) (enc : List Nat) {bs ws : List BlockView}
    (h : List.Forall₂ (Done skip admin enc) bs ws) : ∀ (mem : Bytes), (bs = [] ∨ PayloadLast (bs.map (·.block))) →
    mem.length < (raws ws).length + 1 → renderBlocks mem bs = .fault := by
  induction h with
  | nil =>
    intro mem _ hm
    simp only [raws, List.map_nil, List.flatten_nil, List.length_nil] at hm
    rw [renderBlocks, if_pos (by omega)]
  | @cons b w bs ws hbw _ ih =>
    intro mem hP hm
    rw [raws_cons, List.length_append] at hm
    rw [renderBlocks]
    have hP' := hP.resolve_left (by simp)
    have hcond : ¬ (bs.isEmpty = true ∧ (!isPayload b.block) = true) := by
      rintro ⟨he, hp⟩
      rcases payload_tail hP' with ⟨_, h1⟩ | ⟨h1, _⟩
      · rw [(isPayload_iff _).2 h1] at hp; simp at hp
      · exact h1 (List.isEmpty_iff.1 he)
    rw [if_neg hcond]
    by_cases hs : mem.length < w.raw.length
    · rw [hbw.2.2.1 mem hs]
      rfl
    · rw [hbw.2.1 mem (by omega)]
      simp only [Out.bind]
      rw [ih (mem.drop w.raw.length) (by
        rcases payload_tail hP' with ⟨h1, _⟩ | ⟨_, h1⟩
        · exact Or.inl h1
        · exact Or.inr h1) (by rw [List.length_drop]; omega)]

theorem renderFront_done (skip admin : Bool) (enc : List Nat) {bs ws : List BlockView}
    (h : List.Forall₂ (Done skip admin enc) bs ws) : ∀ (mem : Bytes), PayloadLast (bs.map (·.block)) →
    (∀ l, bs.getLast? = some l → l.dirty = false) →
    (raws ws).length ≤ mem.length + (bs.getLast?.map (·.raw.length)).getD 0 →
    ∃ front, raws ws = front ++ (bs.getLast?.map (·.raw)).getD [] ∧ renderFront mem bs = .ok (front, ws) := by
  induction h with
  | nil => intro mem hP; exact absurd hP payloadLast_nil
  | @cons b w bs ws hbw hbs ih =>
    intro mem hP hl hm
    rw [raws_cons, List.length_append] at hm
    rw [renderFront]
    rcases payload_tail hP with ⟨rfl, h1⟩ | ⟨hne, h1⟩
    · cases hbs
      have hbd := hl b (by simp)
      have := hbw.2.2.2.1 hbd
      subst this
      refine ⟨[], by simp [raws], ?_⟩
      rw [if_pos (by simp), if_neg (by simp [(isPayload_iff _).2 h1, hbd])]
    · have hemp : ¬ bs.isEmpty = true := by simpa using hne
      have hgl : (b :: bs).getLast? = bs.getLast? := by
        cases bs with
        | nil => exact absurd rfl hne
        | cons c cs => simp
      rw [hgl] at hl hm
      obtain ⟨front, hf, hr⟩ := ih (mem.drop w.raw.length) h1 hl (by
        rw [List.length_drop]; omega)
      rw [hgl]
      refine ⟨w.raw ++ front, by rw [raws_cons, hf, List.append_assoc], ?_⟩
      have hfl : (raws ws).length = front.length + ((bs.getLast?.map (·.raw)).getD []).length := by
        rw [hf, List.length_append]
      have hgd : ((bs.getLast?.map (·.raw)).getD []).length = (bs.getLast?.map (·.raw.length)).getD 0 := by
        cases bs.getLast? <;> simp
      rw [if_neg hemp, hbw.2.1 mem (by omega)]
      simp only [Out.bind]
      rw [hr]

theorem staying_eq (bs : List BlockView) : kept bs = staying bs := by
  unfold kept staying
  congr 1
  funext b
  cases b.deleted <;> simp

theorem blocksSize_done (skip admin : Bool) (enc : List Nat) : ∀ (bs ws : List BlockView),
    (∀ l, bs.getLast? = some l → l.block.typeCode = 1) → List.Forall₂ (Done skip admin enc) (staying bs) ws →
    blocksSize bs = some (raws ws).length := by
  intro bs
  induction bs with
  | nil => intro ws _ h; cases h; rfl
  | cons b bs ih =>
    intro ws hl h
    have hcond : ¬ (bs.isEmpty = true ∧ b.block.typeCode ≠ 1) := by
      rintro ⟨he, hn⟩
      rw [List.isEmpty_iff] at he
      subst he
      exact hn (hl b (by simp))
    have hl' : ∀ l, bs.getLast? = some l → l.block.typeCode = 1 := by
      intro l hgl
      refine hl l ?_
      cases bs with
      | nil => simp at hgl
      | cons c cs => simpa using hgl
    rw [blocksSize, if_neg hcond]
    rcases Bool.eq_false_or_eq_true b.deleted with hd | hd
    · have : staying (b :: bs) = staying bs := by simp [staying, hd]
      rw [this] at h
      rw [ih ws hl' h]
      simp [BlockView.size, hd]
    · have : staying (b :: bs) = b :: staying bs := by simp [staying, hd]
      rw [this] at h
      cases h with
      | @cons _ w _ ws hw hws =>
        rw [ih ws hl' hws, hw.1]
        simp [raws_cons]

theorem primary_pos {bs : Bytes} {p : Primary} (h : IsPrimary bs p) : 0 < bs.length := by
  obtain ⟨_, _, _, _, _, _, _, _, _, rfl, _⟩ := h
  simp only [List.length_append, List.length_cons]; omega

theorem primary_done (v : View) (h : PrimaryReady v) : ∃ out p, IsPrimary out p ∧ primarySize v = some out.length ∧
    SamePrimary v p ∧ (v.primaryDirty = false → out = v.primaryRaw) ∧ p.flags % 2 ≠ 1 ∧ p.fragOffset = 0 ∧ p.totalAdu = 0 ∧
    p.flags = v.primary.flags ∧
    (∀ mem : Bytes, 1 + out.length ≤ mem.length → renderPrimary mem v = .ok (out, p)) ∧
    ∀ mem : Bytes, mem.length < 1 + out.length → renderPrimary mem v = .fault := by
  obtain ⟨hf, hz1, hz2, h1, h2⟩ := h
  have hnf : isFragment v.primary.flags = false := by
    rcases Bool.eq_false_or_eq_true (isFragment v.primary.flags) with h | h
    · exact absurd ((isFragment_iff _).1 h) hf
    · exact h
  rcases Bool.eq_false_or_eq_true v.primaryDirty with hd | hd
  · obtain ⟨hr, hc⟩ := h2 hd
    obtain ⟨bs, c16, c32, hs, hp, hsz, _⟩ := C35_round_trip v.primary zeroPrimary hr hc (fun _ => ⟨hz1, hz2⟩)
    have hpos := primary_pos hp
    refine ⟨bs, _, hp, ?_, ⟨rfl, by rw [hd]; simp⟩, by rw [hd]; simp, hf, hz1, hz2, rfl, fun mem hm => ?_, fun mem hm => ?_⟩
    · unfold primarySize
      simp only [hd, if_true, hsz]
      rw [if_neg (by omega)]
    · unfold renderPrimary
      rw [if_neg (by omega)]
      simp only [hd, if_true, hs, stored]
      rw [if_neg (by rw [List.length_drop]; omega)]
      simp only [Out.bind, hnf, Bool.false_eq_true, if_false]
    · unfold renderPrimary
      split_ifs
      · rfl
      · simp only [hs, stored]
        rw [if_pos (by rw [List.length_drop]; omega)]
        rfl
  · have hp := h1 hd
    refine ⟨v.primaryRaw, v.primary, hp, ?_, ⟨rfl, fun _ => rfl⟩, fun _ => rfl, hf, hz1, hz2, rfl, fun mem hm => ?_, fun mem hm => ?_⟩
    · simp [primarySize, hd]
    · unfold renderPrimary
      rw [if_neg (by omega)]
      simp only [hd, Bool.false_eq_true, if_false, stored]
      rw [if_neg (by rw [List.length_drop]; omega)]
      simp only [Out.bind, hnf, Bool.false_eq_true, if_false]
    · unfold renderPrimary
      simp only [hd, Bool.false_eq_true, if_false, stored]
      split_ifs with h3 h4
      · rfl
      · rfl
      · rw [List.length_drop] at h4; omega

/-- The blocks of the view that the rendered bundle loads to. -/
theorem reloaded (skip admin : Bool) (enc : List Nat) {bs ws : List BlockView} (h : List.Forall₂ (Done skip admin enc) bs ws) :
    ∃ us : List BlockView, us.map (·.block) = ws.map (·.block) ∧ us.map (·.raw) = ws.map (·.raw) ∧
      (∀ u ∈ us, Loaded skip admin enc u) ∧ List.Forall₂ SameBlock bs us ∧ allTargets us = allTargets bs := by
  induction h with
  | nil => exact ⟨[], rfl, rfl, by simp, List.Forall₂.nil, rfl⟩
  | @cons b w bs ws hbw _ ih =>
    obtain ⟨us, h1, h2, h3, h4, h5⟩ := ih
    obtain ⟨_, _, _, _, u, e1, e2, e3, e4, e5⟩ := hbw
    refine ⟨u :: us, by simp [e1, h1], by simp [e2, h2], ?_, List.Forall₂.cons e4 h4, by
      simp only [allTargets, List.map_cons, List.flatten_cons, e5] at h5 ⊢; rw [h5]⟩
    intro x hx
    rcases List.mem_cons.1 hx with rfl | hx
    · exact e3
    · exact h3 x hx

theorem sameBlock_payloadLast {bs us : List BlockView} (h : List.Forall₂ SameBlock bs us) (hP : PayloadLast (bs.map (·.block))) :
    PayloadLast (us.map (·.block)) := by
  induction h with
  | nil => exact hP
  | @cons b u bs us hbu hs ih =>
    rcases payload_tail hP with ⟨rfl, h1⟩ | ⟨hne, h1⟩
    · cases hs
      simp only [List.map_cons, List.map_nil]
      rw [payloadLast_single, hbu.1, hbu.2.1]
      exact h1
    · have h2 := ih h1
      cases hs with
      | nil => exact absurd rfl hne
      | @cons b' u' bs' us' _ _ =>
        simp only [List.map_cons] at hP h2 ⊢
        rw [payloadLast_cons] at hP ⊢
        exact ⟨by rw [hbu.1]; exact hP.1, h2⟩

theorem staying_last {bs init : List BlockView} {last : BlockView} (h : bs = init ++ [last]) (hd : last.deleted = false) :
    staying bs = staying init ++ [last] := by
  subst h
  simp [staying, hd]

/-- All about rendering a view that is ready. -/
theorem render_ready_full (skip : Bool) (v : View) (h : ViewReady skip v) :
    ∃ v' : View, v.size = some v'.rendered.length ∧ (∀ mem : Bytes, v'.rendered.length ≤ mem.length → v.render mem = .ok v') ∧
      (∀ mem : Bytes, mem.length < v'.rendered.length → v.render mem = .fault) ∧
      (∃ w, (IsViewOf skip w v'.rendered ∧ SamePrimary v w.primary ∧ List.Forall₂ SameBlock (staying v.blocks) w.blocks) ∧
        w.blocks.map (·.block) = v'.blocks.map (·.block) ∧ w.blocks.map (·.raw) = v'.blocks.map (·.raw) ∧
        w.primaryRaw = v'.primaryRaw ∧ w.primary = v'.primary) ∧
      (v'.primaryDirty = false ∧ (v.primaryDirty = false → v'.primaryRaw = v.primaryRaw) ∧ v'.free = freed v.free v.blocks ∧
        v'.encrypted = v.encrypted ∧
        List.Forall₂ (Done skip (v.primary.flags.testBit 1) (allTargets (staying v.blocks))) (staying v.blocks) v'.blocks) ∧
      ∀ (paddingLeft : Nat) (front : Bytes) (last : BlockView), v.blocks.getLast? = some last → last.dirty = false →
        v.rendered = front ++ last.raw ++ [0xff] → v'.rendered.length ≤ v.rendered.length + paddingLeft →
        v'.rendered.length < 2 ^ 63 → v.rendered.length < 2 ^ 63 → v.renderInPlace paddingLeft = .done v' := by
  obtain ⟨hp, ⟨init, last, hbs, hdel⟩, hP, hnd, hr⟩ := h
  obtain ⟨pOut, p, q1, q2, q3, q0, q4, q5, q6, q7, q8, q9⟩ := primary_done v hp
  obtain ⟨ws, hws⟩ := blocks_done skip (v.primary.flags.testBit 1) _ (staying v.blocks) hr
    (fun b hb => by simpa [staying] using (List.mem_filter.1 hb).2)
  have hgl : v.blocks.getLast? = some last := by rw [hbs]; simp
  have hst := staying_last hbs hdel
  have hgl' : (staying v.blocks).getLast? = some last := by rw [hst]; simp
  have hlast : last.block.typeCode = 1 := by
    obtain ⟨i, l, e, e1, _⟩ := hP
    rw [hst, List.map_append] at e
    simp only [List.map_cons, List.map_nil] at e
    have := List.append_inj_right' e rfl
    simp only [List.cons.injEq, and_true] at this
    rw [this]; exact e1
  have hsz := blocksSize_done skip _ _ v.blocks ws (fun l hl => by rw [hgl] at hl; simp only [Option.some.injEq] at hl; rw [← hl]; exact hlast) hws
  have hsize : v.size = some (0x9f :: (pOut ++ (raws ws ++ [0xff]))).length := by
    simp only [View.size, q2, hsz, Option.bind_eq_bind, Option.bind_some, Option.pure_def, Option.some.injEq, List.length_cons,
      List.length_append, List.length_nil]
    omega
  refine ⟨⟨p, pOut, false, ws, freed v.free v.blocks, v.encrypted, 0x9f :: (pOut ++ (raws ws ++ [0xff]))⟩, hsize, ?_, ?_, ?_,
    ⟨rfl, q0, rfl, rfl, hws⟩, ?_⟩
  · intro mem hm
    simp only [List.length_cons, List.length_append, List.length_nil] at hm
    unfold View.render View.renderWith
    rw [q8 mem (by omega)]
    simp only [Out.bind]
    rw [staying_eq, renderBlocks_done skip _ _ hws _ (Or.inr hP) (by rw [List.length_drop]; omega)]
  · intro mem hm
    simp only [List.length_cons, List.length_append, List.length_nil] at hm
    unfold View.render View.renderWith
    by_cases hs : mem.length < 1 + pOut.length
    · rw [q9 mem hs]
      rfl
    · rw [q8 mem (by omega)]
      simp only [Out.bind]
      rw [staying_eq, renderBlocks_short skip _ _ hws _ (Or.inr hP) (by rw [List.length_drop]; omega)]
  · obtain ⟨us, u1, u2, u3, u4, u5⟩ := reloaded skip _ _ hws
    let free := (us.map (·.block.number)).foldl reserve freeInit
    refine ⟨⟨p, pOut, false, us, free, allTargets (staying v.blocks), 0x9f :: (pOut ++ (raws ws ++ [0xff]))⟩, ⟨?_, q3, u4⟩,
      u1, u2, rfl, rfl⟩
    refine ⟨?_, q1, q4, q5, q6, rfl, sameBlock_payloadLast u4 hP, u5.symm, hnd, ?_, ?_, rfl⟩
    · simp only [u2]
      simp [raws]
    · simp only [q7]
      exact u3
    · intro n
      simp only [free]
      rw [(reserveAll_testBit _ freeInit n freeInit_lt).2, freeInit_testBit]
      simp only [Unused, List.mem_map, not_exists, not_and]
      constructor
      · rintro ⟨⟨h1, h2⟩, h3⟩; exact ⟨h2, h1, h3⟩
      · rintro ⟨h2, h1, h3⟩; exact ⟨⟨h1, h2⟩, h3⟩
  · intro paddingLeft front last' hl' hclean hren hpad hb1 hb2
    rw [hgl] at hl'
    simp only [Option.some.injEq] at hl'
    subst hl'
    simp only at hpad hb1
    have hn : (0x9f :: (pOut ++ (raws ws ++ [0xff]))).length = 2 + pOut.length + (raws ws).length := by
      simp only [List.length_cons, List.length_append, List.length_nil]; omega
    rw [hn] at hpad hb1 hsize
    have hfr := fun mem => renderFront_done skip (v.primary.flags.testBit 1) _ hws mem hP
      (fun l hl => by rw [hgl'] at hl; simp only [Option.some.injEq] at hl; rw [← hl]; exact hclean)
    rw [hgl'] at hfr
    simp only [Option.map_some, Option.getD_some] at hfr
    have hlr : last.raw.length ≤ (raws ws).length := by
      obtain ⟨f, hf, _⟩ := hfr (List.replicate (raws ws).length 0) (by simp)
      rw [hf, List.length_append]; omega
    have hrl : v.rendered.length = front.length + last.raw.length + 1 := by
      rw [hren]; simp only [List.length_append, List.length_cons, List.length_nil]
    unfold View.renderInPlace
    rw [hsize, hgl]
    simp only
    rw [if_neg (by omega)]
    have hspace : (max (2 + pOut.length + (raws ws).length) v.rendered.length + 2 ^ 64 - last.raw.length + 10) % 2 ^ 64 =
        max (2 + pOut.length + (raws ws).length) v.rendered.length - last.raw.length + 10 := by
      rw [show max (2 + pOut.length + (raws ws).length) v.rendered.length + 2 ^ 64 - last.raw.length + 10 =
        (max (2 + pOut.length + (raws ws).length) v.rendered.length - last.raw.length + 10) + 2 ^ 64 by omega,
        Nat.add_mod_right, Nat.mod_eq_of_lt (by omega)]
    rw [hspace]
    set space := max (2 + pOut.length + (raws ws).length) v.rendered.length - last.raw.length + 10 with hsp
    obtain ⟨f, hf, hrf⟩ := hfr ((List.replicate space 0).drop (1 + pOut.length)) (by
      rw [List.length_drop, List.length_replicate]; omega)
    have hfl : (raws ws).length = f.length + last.raw.length := by rw [hf, List.length_append]
    have hw : v.renderWith renderFront (List.replicate space 0) =
        .ok (0x9f :: (pOut ++ f), ⟨p, pOut, false, ws, freed v.free v.blocks, v.encrypted, v.rendered⟩) := by
      unfold View.renderWith
      rw [q8 _ (by rw [List.length_replicate]; omega)]
      simp only [Out.bind]
      rw [staying_eq, hrf]
    rw [hw]
    simp only
    have hol : (0x9f :: (pOut ++ f)).length = 1 + pOut.length + f.length := by
      simp only [List.length_cons, List.length_append]; omega
    rw [hol, if_neg (by omega)]
    have hdrop : v.rendered.drop (v.rendered.length + (1 + pOut.length + f.length) - (2 + pOut.length + (raws ws).length)) =
        last.raw ++ [0xff] := by
      rw [show v.rendered.length + (1 + pOut.length + f.length) - (2 + pOut.length + (raws ws).length) = front.length by omega,
        hren, List.append_assoc, List.drop_left]
    rw [hdrop, hf]
    simp

/-- What is used most. -/
theorem render_ready (skip : Bool) (v : View) (h : ViewReady skip v) :
    ∃ v' : View, v.size = some v'.rendered.length ∧ (∀ mem : Bytes, v'.rendered.length ≤ mem.length → v.render mem = .ok v') ∧
      (∀ mem : Bytes, mem.length < v'.rendered.length → v.render mem = .fault) ∧
      (∃ w, IsViewOf skip w v'.rendered ∧ SamePrimary v w.primary ∧ List.Forall₂ SameBlock (staying v.blocks) w.blocks) ∧
      ∀ (paddingLeft : Nat) (front : Bytes) (last : BlockView), v.blocks.getLast? = some last → last.dirty = false →
        v.rendered = front ++ last.raw ++ [0xff] → v'.rendered.length ≤ v.rendered.length + paddingLeft →
        v'.rendered.length < 2 ^ 63 → v.rendered.length < 2 ^ 63 → v.renderInPlace paddingLeft = .done v' := by
  obtain ⟨v', h1, h2, h3, ⟨w, h4, _⟩, _, h6⟩ := render_ready_full skip v h
  exact ⟨v', h1, h2, h3, ⟨w, h4⟩, h6⟩

end Hdtn.BundleView7
