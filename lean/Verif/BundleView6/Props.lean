import Verif.BundleView6.Spec
import Verif.AdminRecord6.Props
import Verif.Bpv6Canonical.Props
import Verif.Bpv6Primary.Props

/-! C56: loading, editing and rendering BPv6 bundles. -/

namespace Hdtn.BundleView6

open Hdtn.Bpv6Canonical Hdtn.Bpv6Canonical.Spec Hdtn.Bpv6Primary.Spec Hdtn.Sdnv Hdtn.Sdnv.Spec Spec

/-! ### Loading -/

theorem reader_none_iff (t : UInt8) : reader t = none ↔ ¬ IsExtType t := by
  unfold reader IsExtType
  constructor
  · intro h
    split at h
    · simp at h
    · split at h
      · simp at h
      · split at h
        · simp at h
        · split at h
          · simp at h
          · rename_i a b c d
            simp [a, b, c, d]
  · intro h
    simp only [not_or] at h
    simp [h]

theorem ext_isExtType (x : Ext) : IsExtType x.typeCode := by
  cases x <;> simp [IsExtType, Ext.typeCode]

theorem readBody_iff (admin : Bool) (b : Block) (body : Body) :
    readBody admin b = some body ↔ IsBody admin b body := by
  unfold readBody
  split
  · rename_i h
    constructor
    · intro hb
      obtain ⟨r, hr, rfl⟩ := Option.map_eq_some_iff.1 hb
      exact ⟨h.1, h.2, hr⟩
    · intro hb
      match body, hb with
      | .admin r, hb => simp [hb.2.2]
      | .plain, hb => exact absurd h hb.1
      | .ext x, hb =>
        have := ext_isExtType x
        rw [hb.1, h.2] at this
        simp [IsExtType] at this
  · rename_i h
    split
    · rename_i r hr
      have hne : IsExtType b.typeCode := by
        by_contra hc
        rw [(reader_none_iff _).2 hc] at hr; simp at hr
      constructor
      · intro hb
        obtain ⟨x, hx, rfl⟩ := Option.map_eq_some_iff.1 hb
        exact (C54_ext_read_iff _ _ hr _ _).1 hx
      · intro hb
        match body, hb with
        | .admin r, hb => exact absurd ⟨hb.1, hb.2.1⟩ h
        | .plain, hb => exact absurd hne hb.2
        | .ext x, hb =>
          rw [(C54_ext_read_iff _ _ hr _ _).2 hb]; rfl
    · rename_i hr
      have hne := (reader_none_iff _).1 hr
      constructor
      · intro hb
        simp only [Option.some.injEq] at hb
        subst hb
        exact ⟨h, hne⟩
      · intro hb
        match body, hb with
        | .admin r, hb => exact absurd ⟨hb.1, hb.2.1⟩ h
        | .plain, hb => rfl
        | .ext x, hb =>
          have := ext_isExtType x
          rw [hb.1] at this
          exact absurd this hne

theorem take_front (p rest : Bytes) : (p ++ rest).take ((p ++ rest).length - rest.length) = p := by
  simp

theorem readBlock_iff (admin : Bool) (buf : Bytes) (v : BlockView) (rest : Bytes) :
    readBlock admin buf = some (v, rest) ↔
      buf = v.raw ++ rest ∧ IsBlock v.raw v.block ∧ IsBody admin v.block v.body ∧
        v.dirty = false ∧ v.deleted = false := by
  simp only [readBlock, Option.bind_eq_bind, Option.bind_eq_some_iff, Prod.exists, Option.pure_def,
    Option.some.injEq, Prod.mk.injEq, C54_decode_iff, readBody_iff]
  constructor
  · rintro ⟨b, rest', ⟨p, rfl, hp⟩, body, hb, rfl, rfl⟩
    rw [take_front]
    exact ⟨rfl, hp, hb, rfl, rfl⟩
  · rintro ⟨rfl, h2, h3, h4, h5⟩
    refine ⟨v.block, rest, ⟨_, rfl, h2⟩, v.body, h3, ?_, rfl⟩
    rw [take_front]
    obtain ⟨_, _, _, _, _⟩ := v
    simp only at h4 h5
    subst h4; subst h5; rfl

theorem isBlock_length {p : Bytes} {b : Block} (h : IsBlock p b) : 0 < p.length := by
  obtain ⟨q, rfl, _⟩ := h
  simp

theorem readBlocks_iff (admin : Bool) (fuel : Nat) (buf : Bytes) (hf : buf.length < fuel)
    (vs : List BlockView) :
    readBlocks admin fuel buf = some vs ↔
      buf = (vs.map (·.raw)).flatten ∧ LastMarked (vs.map (·.block)) ∧
        ∀ v ∈ vs, IsBlock v.raw v.block ∧ IsBody admin v.block v.body ∧ v.dirty = false ∧
          v.deleted = false := by
  induction fuel generalizing buf vs with
  | zero => omega
  | succ fuel ih =>
    rw [readBlocks]
    cases hr : readBlock admin buf with
    | none =>
      simp only [reduceCtorEq, false_iff]
      rintro ⟨h1, h2, h3⟩
      cases vs with
      | nil => simp [LastMarked] at h2
      | cons v vs =>
        have := (readBlock_iff admin buf v (vs.map (·.raw)).flatten).2
          ⟨by simpa using h1, h3 v (by simp)⟩
        rw [hr] at this; simp at this
    | some w =>
      obtain ⟨w, rest⟩ := w
      obtain ⟨hb, hw⟩ := (readBlock_iff _ _ _ _).1 hr
      have hlen := isBlock_length hw.1
      simp only
      have key : ∀ v vs', vs = v :: vs' → buf = (vs.map (·.raw)).flatten →
          (∀ v ∈ vs, IsBlock v.raw v.block ∧ IsBody admin v.block v.body ∧ v.dirty = false ∧
            v.deleted = false) → v = w ∧ rest = (vs'.map (·.raw)).flatten := by
        intro v vs' hvs h1 h3
        subst hvs
        have := (readBlock_iff admin buf v (vs'.map (·.raw)).flatten).2
          ⟨by simpa using h1, h3 v (by simp)⟩
        rw [hr] at this
        simp only [Option.some.injEq, Prod.mk.injEq] at this
        exact ⟨this.1.symm, this.2⟩
      by_cases hl : isLast w.block = true
      · rw [if_pos hl]
        constructor
        · intro h
          split at h
          · rename_i h0
            simp only [Option.some.injEq] at h
            subst h
            have h0 := List.length_eq_zero_iff.1 h0
            refine ⟨by simp [hb, h0], by simpa [LastMarked, isLast] using hl, ?_⟩
            simpa using hw
          · simp at h
        · rintro ⟨h1, h2, h3⟩
          match vs, h2 with
          | [v], h2 =>
            obtain ⟨rfl, h⟩ := key v [] rfl h1 h3
            simp [h]
          | v :: c :: vs', h2 =>
            obtain ⟨rfl, _⟩ := key v _ rfl h1 h3
            have := h2.1
            unfold isLast at hl
            rw [hl] at this; simp at this
      · rw [if_neg hl]
        constructor
        · intro h
          split at h
          · simp at h
          · obtain ⟨vs', h', rfl⟩ := Option.map_eq_some_iff.1 h
            obtain ⟨i1, i2, i3⟩ := (ih rest (by rw [hb] at hf; simp at hf; omega) vs').1 h'
            refine ⟨by simp [hb, i1], ?_, ?_⟩
            · cases vs' with
              | nil => simp [LastMarked] at i2
              | cons c cs =>
                refine ⟨?_, i2⟩
                simpa [isLast] using hl
            · intro v hv
              simp only [List.mem_cons] at hv
              rcases hv with rfl | hv
              · exact hw
              · exact i3 v hv
        · rintro ⟨h1, h2, h3⟩
          match vs, h2 with
          | [v], h2 =>
            obtain ⟨rfl, _⟩ := key v _ rfl h1 h3
            exact absurd h2 (by simpa [isLast, LastMarked] using hl)
          | v :: c :: vs', h2 =>
            obtain ⟨rfl, h⟩ := key v _ rfl h1 h3
            have hne : rest.length ≠ 0 := by
              rw [h]
              have := isBlock_length (h3 c (by simp)).1
              simp only [List.map_cons, List.flatten_cons, List.length_append]
              omega
            rw [if_neg hne]
            rw [(ih rest (by rw [hb] at hf; simp at hf; omega) (c :: vs')).2
              ⟨h, h2.2, fun v hv => h3 v (by simp [hv])⟩]
            rfl

/-- C56: a byte string loads exactly if it is a primary block followed by blocks of which the last and
only the last is marked as last, up to the end; the view shows these blocks and their contents. -/
theorem C56_load_iff (buf : Bytes) (v : View) : load buf = some v ↔ IsViewOf v buf := by
  simp only [load, Option.bind_eq_bind, Option.bind_eq_some_iff, Prod.exists, Option.pure_def,
    Option.some.injEq, Bpv6Primary.C38_decode_iff]
  constructor
  · rintro ⟨p, rest, ⟨pr, rfl, hp⟩, vs, hvs, rfl⟩
    obtain ⟨h1, h2, h3⟩ := (readBlocks_iff _ _ _ (by omega) _).1 hvs
    rw [take_front]
    exact ⟨by simp [← h1], hp, rfl, h3, h2⟩
  · rintro ⟨h1, h2, h3, h4, h5⟩
    refine ⟨v.primary, _, ⟨_, h1, h2⟩, v.blocks,
      (readBlocks_iff _ _ _ (by omega) _).2 ⟨rfl, h5, h4⟩, ?_⟩
    rw [h1, take_front]
    obtain ⟨_, _, _, _⟩ := v
    simp only at h3
    subst h3; rfl

/-! ### Flags -/

theorem testBit_8 (i : Nat) : (8 : Nat).testBit i = decide (i = 3) := by
  have := @Nat.testBit_two_pow 3 i
  rw [show (2 : Nat) ^ 3 = 8 from rfl] at this
  rw [this]
  simp [eq_comm]

theorem lastFlag_testBit (last : Bool) (f i : Nat) :
    (lastFlag last f).testBit i = if i = 3 then last else f.testBit i := by
  unfold lastFlag
  cases last <;> simp only [Bool.false_eq_true, if_true, if_false, Nat.testBit_or, Nat.testBit_xor,
    Nat.testBit_and, testBit_8] <;> split <;> simp_all

theorem lastFlag_same (last : Bool) (f : Nat) (h : f.testBit 3 = last) : lastFlag last f = f := by
  apply Nat.eq_of_testBit_eq
  intro i
  rw [lastFlag_testBit]
  split
  · rename_i hi; rw [hi, h]
  · rfl

theorem lastFlag_lt (last : Bool) (f n : Nat) (h : f < 2 ^ n) (hn : 4 ≤ n) : lastFlag last f < 2 ^ n := by
  apply Nat.lt_pow_two_of_testBit
  intro i hi
  rw [lastFlag_testBit, if_neg (by omega)]
  exact Nat.testBit_lt_two_pow (Nat.lt_of_lt_of_le h (Nat.pow_le_pow_right (by omega) hi))

theorem lastFlag_le (last : Bool) (f : Nat) (h : f ≤ 127) : lastFlag last f ≤ 127 := by
  have := lastFlag_lt last f 7 (by omega) (by omega)
  omega

theorem ofNat_toNat (f : Nat) (h : f ≤ 127) : (UInt8.ofNat f).toNat = f := by
  rw [UInt8.toNat_ofNat']; exact Nat.mod_eq_of_lt (by omega)

/-- With one byte of flags, another one-byte value can be put in its place. -/
theorem isBlock_set {p : Bytes} {b : Block} (h : IsBlock p b) (ho : OneByteFlags p b) (f : Nat)
    (hf : f ≤ 127) :
    IsBlock (p.set 1 (UInt8.ofNat f)) { b with flags := f } ∧ 2 ≤ p.length := by
  obtain ⟨q, rfl, hq⟩ := h
  obtain ⟨h1, h2⟩ := ho
  cases hq with
  | @cons p v buf vs rest hp hr =>
    cases p with
    | nil => exact absurd rfl (isSdnv64_ne_nil hp)
    | cons c cs =>
      have hc : c = UInt8.ofNat b.flags := by simpa using h2
      have hcl : c.toNat ≤ 127 := by rw [hc, ofNat_toNat _ h1]; exact h1
      obtain ⟨rfl, _⟩ := isSdnv64_small hp hcl
      refine ⟨⟨UInt8.ofNat f :: buf, by simp, ?_⟩, by simp⟩
      have := isSdnv64_byte (UInt8.ofNat f) (by rw [ofNat_toNat _ hf]; exact hf)
      rw [ofNat_toNat _ hf] at this
      exact Split.cons this hr

/-! ### Sizes -/

theorem numBytesRequired_congr (f g : Nat) (hf : f < 2 ^ 64) (hg : g < 2 ^ 64) (h : f / 128 = g / 128) :
    numBytesRequired f = numBytesRequired g := by
  obtain ⟨e, _, _, _, _, he, _, h7, _⟩ := C01_sdnv64_round_trip f hf
  obtain ⟨e', _, _, _, _, he', _, h7', _⟩ := C01_sdnv64_round_trip g hg
  have key : ∀ n, 1 ≤ n → (f < 128 ^ n ↔ g < 128 ^ n) := by
    intro n hn
    obtain ⟨m, rfl⟩ : ∃ m, n = m + 1 := ⟨n - 1, by omega⟩
    rw [Nat.pow_succ, ← Nat.div_lt_iff_lt_mul (by omega), ← Nat.div_lt_iff_lt_mul (by omega), h]
  rw [h7, h7', Option.some.injEq]
  exact minimal_det he ⟨he'.1, (key _ he'.1).2 he'.2.1, fun j h1 h2 => he'.2.2 j h1 ((key j h1).1 h2)⟩

theorem div128_eq (f g : Nat) (h : ∀ i, 7 ≤ i → f.testBit i = g.testBit i) : f / 128 = g / 128 := by
  have : ∀ a : Nat, a / 128 = a >>> 7 := fun a => (Nat.shiftRight_eq_div_pow a 7).symm
  rw [this, this]
  apply Nat.eq_of_testBit_eq
  intro i
  rw [Nat.testBit_shiftRight, Nat.testBit_shiftRight]
  exact h _ (by omega)

theorem ext_flags_testBit (x : Ext) (f i : Nat) : (x.flags f).testBit i =
    (f.testBit i || (decide (x.typeCode = 5) && decide (i = 4)) ||
      (decide (x.typeCode = 20) && decide (i = 0))) := by
  have h16 : (16 : Nat).testBit i = decide (i = 4) := by
    have := @Nat.testBit_two_pow 4 i
    rw [show (2 : Nat) ^ 4 = 16 from rfl] at this
    rw [this]; simp [eq_comm]
  have h1 : (1 : Nat).testBit i = decide (i = 0) := by
    have := @Nat.testBit_two_pow 0 i
    rw [show (2 : Nat) ^ 0 = 1 from rfl] at this
    rw [this]; simp [eq_comm]
  cases x <;> simp [Ext.flags, Ext.typeCode, Nat.testBit_or, h16, h1]

theorem ext_flags_lt (x : Ext) (f : Nat) (h : f < 2 ^ 64) : x.flags f < 2 ^ 64 := by
  apply Nat.lt_pow_two_of_testBit
  intro i hi
  rw [ext_flags_testBit, Nat.testBit_lt_two_pow (Nat.lt_of_lt_of_le h (Nat.pow_le_pow_right (by omega) hi))]
  simp only [Bool.false_or, Bool.or_eq_false_iff, Bool.and_eq_false_iff, decide_eq_false_iff_not]
  exact ⟨.inr (by omega), .inr (by omega)⟩

theorem size_congr (f g n : Nat) (hf : f < 2 ^ 64) (hg : g < 2 ^ 64)
    (h : ∀ i, 7 ≤ i → f.testBit i = g.testBit i) : serializationSize f n = serializationSize g n := by
  unfold serializationSize
  rw [numBytesRequired_congr f g hf hg (div128_eq f g h)]

/-! ### Rendering -/

/-- Everything that is needed about one rendered block. -/
structure BlockDone (admin last : Bool) (v : BlockView) (out : Bytes) (v' : BlockView) : Prop where
  render : (v.withLast last).render = some (out, v')
  raw : v'.raw = out
  wire : IsBlock out v'.block
  body : IsBody admin v'.block v'.body
  dirty : v'.dirty = false
  deleted : v'.deleted = v.deleted
  last : v'.block.flags.testBit 3 = last
  same : SameBlock v v'
  size : v.deleted = false → v.size = some out.length

theorem isBlock_lt {p : Bytes} {b : Block} (h : IsBlock p b) :
    b.flags < 2 ^ 64 ∧ b.data.length < 2 ^ 64 := by
  obtain ⟨q, -, hsp⟩ := h
  cases hsp with
  | cons hp hr =>
    cases hr with
    | cons hp' hr' => exact ⟨hp.2.2.2, hp'.2.2.2⟩

theorem withLast_dirty (last : Bool) (v : BlockView) (h : v.dirty = true) :
    ∃ raw, v.withLast last =
      ⟨{ v.block with flags := lastFlag last v.block.flags }, v.body, raw, true, v.deleted⟩ := by
  obtain ⟨b, body, raw, d, del⟩ := v
  simp only at h
  subst h
  unfold BlockView.withLast
  split
  · exact ⟨_, rfl⟩
  · exact ⟨raw, rfl⟩

theorem isBody_congr {admin : Bool} {b b' : Block} {body : Body} (ht : b'.typeCode = b.typeCode)
    (hd : b'.data = b.data) (h : IsBody admin b body) : IsBody admin b' body := by
  cases body <;> simpa [IsBody, ht, hd] using h

theorem block_done_dirty (admin last : Bool) (v : BlockView) (h : v.dirty = true)
    (hw : Writable admin v.block v.body) : ∃ out v', BlockDone admin last v out v' := by
  obtain ⟨raw, hl⟩ := withLast_dirty last v h
  -- enough: the block object is laid out as a block `b'` with the right flags and data
  have finish : ∀ b' : Block, serializeBody { v.block with flags := lastFlag last v.block.flags } v.body =
        some (Bpv6Canonical.serialize b', b') → b'.flags < 2 ^ 64 → b'.data.length < 2 ^ 64 →
      IsBody admin b' v.body → b'.typeCode = v.block.typeCode → v.block.flags < 2 ^ 64 →
      (∀ i, i ≠ 3 → b'.flags.testBit i = (v.block.flags.testBit i ||
        (decide (v.block.typeCode = 5) && decide (i = 4)) ||
          (decide (v.block.typeCode = 20) && decide (i = 0))) ∨
        b'.flags.testBit i = v.block.flags.testBit i) → b'.flags.testBit 3 = last →
      (v.body = .plain → b'.data = v.block.data) →
      bodySize v.block v.body = serializationSize v.block.flags b'.data.length →
      ∃ out v', BlockDone admin last v out v' := by
    intro b' hs hf hd hbody ht hvf hbits h3 hdata hsize
    obtain ⟨r1, r2, r3⟩ := C54_round_trip b' hf hd
    have hlen : ¬ (Bpv6Canonical.serialize b').length ≤ 2 := by
      obtain ⟨q, hq, hsp⟩ := r1
      have h1 : 2 ≤ q.length := by
        cases hsp with
        | @cons p _ buf _ _ hp hr =>
          cases hr with
          | @cons p' _ buf' _ _ hp' hr' =>
            have := isSdnv64_ne_nil hp
            have := isSdnv64_ne_nil hp'
            simp only [List.length_append]; omega
      rw [hq]
      simp only [List.cons_append, List.length_cons, List.length_append]; omega
    have hsz : bodySize v.block v.body = some (Bpv6Canonical.serialize b').length := by
      rw [hsize, ← r2]
      refine size_congr _ _ _ hvf hf fun i hi => ?_
      rcases hbits i (by omega) with e | e
      · rw [e]
        have h4 : decide (i = 4) = false := by simp; omega
        have h0 : decide (i = 0) = false := by simp; omega
        simp [h4, h0]
      · exact e.symm
    refine ⟨Bpv6Canonical.serialize b', ⟨b', v.body, Bpv6Canonical.serialize b', false, v.deleted⟩,
      ?_, rfl, r1, hbody, rfl, rfl, h3, ⟨ht, rfl, ?_, ?_, ?_, fun _ => rfl⟩, ?_⟩
    · rw [hl]
      simp only [BlockView.render, if_true]
      rw [hs]
      simp only [if_neg hlen]
    · intro i hi hb
      simp only
      rcases hbits i hi with e | e
      · rw [e, hb]; simp
      · rw [e, hb]
    · intro i hi hb
      simp only at hb
      rcases hbits i hi with e | e
      · rw [e] at hb
        simp only [Bool.or_eq_true, Bool.and_eq_true, decide_eq_true_eq] at hb
        rcases hb with (hb | hb) | hb
        · exact .inl hb
        · exact .inr ⟨h, .inl hb⟩
        · exact .inr ⟨h, .inr hb⟩
      · exact .inl (e ▸ hb)
    · rintro (hc | hc)
      · rw [h] at hc; simp at hc
      · exact hdata hc
    · intro hdel
      simp only [BlockView.size, hdel, h, Bool.false_eq_true, if_false, if_true, hsz,
        Option.bind_eq_bind, Option.bind_some, if_neg hlen, Option.pure_def]
  cases hb : v.body with
  | plain =>
    rw [hb] at hw
    obtain ⟨w1, w2, w3, w4⟩ := hw
    refine finish { v.block with flags := lastFlag last v.block.flags } (by rw [hb]; rfl)
      (lastFlag_lt _ _ _ w1 (by omega)) w2 (by rw [hb]; exact ⟨w3, w4⟩) rfl w1 ?_ ?_ (fun _ => rfl)
      (by rw [hb]; rfl)
    · intro i hi
      exact .inr (by simp only [lastFlag_testBit, if_neg hi])
    · simp [lastFlag_testBit]
  | ext x =>
    rw [hb] at hw
    obtain ⟨w1, w2, w3, w4⟩ := hw
    obtain ⟨n, d, s1, s2, s3, s4⟩ := write_spec x w3
    subst s3
    obtain ⟨w5, w6⟩ := w4 d s1 s2
    refine finish ⟨x.typeCode, x.flags (lastFlag last v.block.flags), d⟩ ?_
      (ext_flags_lt _ _ (lastFlag_lt _ _ _ w1 (by omega))) w5 (by rw [hb]; exact ⟨rfl, s4, w6⟩) w2 w1 ?_ ?_
      ?_ ?_
    · rw [hb]
      simp [serializeBody, Ext.serialize, s1, s2]
    · intro i hi
      refine .inl ?_
      simp only [ext_flags_testBit, lastFlag_testBit, if_neg hi, w2]
    · simp [ext_flags_testBit, lastFlag_testBit]
    · rw [hb]; simp
    · rw [hb]; simp [bodySize, s1]
  | admin r =>
    rw [hb] at hw
    obtain ⟨w1, w2, w3, d, w4, w5, w6, w7⟩ := hw
    refine finish ⟨1, lastFlag last v.block.flags, d⟩ ?_ (lastFlag_lt _ _ _ w1 (by omega)) w6
      (by rw [hb]; exact ⟨w3, rfl, w7⟩) w2.symm w1 ?_ ?_ ?_ ?_
    · rw [hb]
      simp [serializeBody, AdminRecord6.Record.serialize, w4]
    · intro i hi
      exact .inr (by simp only [lastFlag_testBit, if_neg hi])
    · simp [lastFlag_testBit]
    · rw [hb]; simp
    · rw [hb]; simp [bodySize, w5]

/-- A block with long flags is written anew although it was not changed. -/
theorem block_done_long (admin last : Bool) (v : BlockView) (hd : v.dirty = false)
    (h1 : IsBlock v.raw v.block) (h2 : IsBody admin v.block v.body) (h3 : LongFlags v) :
    ∃ out v', BlockDone admin last v out v' := by
  obtain ⟨l1, l2, l3⟩ := h3
  have hlt : v.block.flags < 2 ^ 64 ∧ v.block.data.length < 2 ^ 64 := isBlock_lt h1
  rw [l2] at h2
  have hw : Writable admin v.block ({ v with dirty := true } : BlockView).body := by
    show Writable admin v.block v.body
    rw [l2]
    exact ⟨hlt.1, hlt.2, h2.1, h2.2⟩
  obtain ⟨out, v', b⟩ := block_done_dirty admin last { v with dirty := true } rfl hw
  have hl : v.withLast last = ({ v with dirty := true } : BlockView).withLast last := by
    unfold BlockView.withLast
    rw [if_neg fun h => absurd h.1 (Nat.not_le.2 l1), if_neg fun h => absurd h.1 (Nat.not_le.2 l1)]
  refine ⟨out, v', by rw [hl]; exact b.render, b.raw, b.wire, b.body, b.dirty, b.deleted, b.last,
    ⟨b.same.1, b.same.2.1, b.same.2.2.1, ?_, fun _ => b.same.2.2.2.2.1 (.inr l2), ?_⟩, ?_⟩
  · intro i hi hb
    rcases b.same.2.2.2.1 i hi hb with h | ⟨_, h⟩
    · exact .inl h
    · exfalso
      apply h2.2
      simp only [IsExtType]
      rcases h with h | h
      · exact .inl h.1
      · exact .inr (.inr (.inr h.1))
  · intro h; rw [hd] at h; simp at h
  · intro hdel
    have hs := b.size hdel
    simp only [BlockView.size, hdel, hd, Bool.false_eq_true, if_false]
    simp only [BlockView.size, hdel, Bool.false_eq_true, if_false, if_true, l2, bodySize,
      (C54_round_trip v.block hlt.1 hlt.2).2.1, Option.bind_eq_bind, Option.bind_some] at hs
    rw [l3]
    split at hs
    · simp at hs
    · exact hs

theorem block_done (admin last : Bool) (v : BlockView) (h : Ready admin v) :
    ∃ out v', BlockDone admin last v out v' := by
  unfold Ready at h
  split at h
  · rename_i hd
    exact block_done_dirty admin last v hd h
  · rename_i hd
    simp only [Bool.not_eq_true] at hd
    obtain ⟨h1, h2, h3 | h3⟩ := h
    rotate_left
    · exact block_done_long admin last v hd h1 h2 h3
    obtain ⟨s1, s2⟩ := isBlock_set h1 h3 (lastFlag last v.block.flags) (lastFlag_le _ _ h3.1)
    have hl : v.withLast last = ⟨{ v.block with flags := lastFlag last v.block.flags }, v.body,
        v.raw.set 1 (UInt8.ofNat (lastFlag last v.block.flags)), false, v.deleted⟩ := by
      unfold BlockView.withLast
      rw [if_pos ⟨h3.1, s2⟩, hd]
    refine ⟨v.raw.set 1 (UInt8.ofNat (lastFlag last v.block.flags)),
      ⟨{ v.block with flags := lastFlag last v.block.flags }, v.body,
        v.raw.set 1 (UInt8.ofNat (lastFlag last v.block.flags)), false, v.deleted⟩,
      ⟨by rw [hl]; rfl, rfl, s1, isBody_congr rfl rfl h2, rfl, rfl, ?_, ⟨rfl, rfl, ?_, ?_, ?_, ?_⟩, ?_⟩⟩
    · simp [lastFlag_testBit]
    · intro i hi hb
      simp only [lastFlag_testBit, if_neg hi]; exact hb
    · intro i hi hb
      simp only [lastFlag_testBit, if_neg hi] at hb; exact .inl hb
    · intro _; rfl
    · intro h; rw [hd] at h; simp at h
    · intro hdel
      simp [BlockView.size, hdel, hd]

theorem renderBlocks_done (admin : Bool) (vs : List BlockView) (hne : vs ≠ [])
    (h : ∀ v ∈ vs, Ready admin v ∧ v.deleted = false) :
    ∃ out vs', renderBlocks vs = some (out, vs') ∧ out = (vs'.map (·.raw)).flatten ∧
      LastMarked (vs'.map (·.block)) ∧
      (∀ v ∈ vs', IsBlock v.raw v.block ∧ IsBody admin v.block v.body ∧ v.dirty = false ∧
        v.deleted = false) ∧
      List.Forall₂ SameBlock vs vs' ∧ blocksSize vs = some out.length := by
  induction vs with
  | nil => exact absurd rfl hne
  | cons v vs ih =>
    obtain ⟨hr, hdel⟩ := h v (by simp)
    obtain ⟨o, w, hd⟩ := block_done admin vs.isEmpty v hr
    have hsz := hd.size hdel
    cases vs with
    | nil =>
      refine ⟨o, [w], ?_, ?_, ?_, ?_, ?_, ?_⟩
      · have := hd.render
        simp only [renderBlocks, this, Option.bind_eq_bind, Option.bind_some, Option.pure_def,
          List.append_nil]
      · simp [hd.raw]
      · simpa [LastMarked] using hd.last
      · intro x hx
        simp only [List.mem_singleton] at hx
        subst hx
        exact ⟨hd.raw ▸ hd.wire, hd.body, hd.dirty, hd.deleted.trans hdel⟩
      · exact .cons hd.same .nil
      · simp [blocksSize, hsz]
    | cons c cs =>
      obtain ⟨out, vs', i1, i2, i3, i4, i5, i6⟩ := ih (by simp) fun x hx => h x (by simp [hx])
      refine ⟨o ++ out, w :: vs', ?_, ?_, ?_, ?_, ?_, ?_⟩
      · have := hd.render
        rw [renderBlocks, this, i1]
        rfl
      · simp [hd.raw, i2]
      · cases vs' with
        | nil => cases i5
        | cons x xs => exact ⟨by simpa using hd.last, i3⟩
      · intro x hx
        simp only [List.mem_cons] at hx
        rcases hx with rfl | hx
        · exact ⟨hd.raw ▸ hd.wire, hd.body, hd.dirty, hd.deleted.trans hdel⟩
        · exact i4 x hx
      · exact .cons hd.same i5
      · rw [blocksSize, hsz, i6]
        simp

theorem blocksSize_filter (vs : List BlockView) :
    blocksSize (vs.filter fun b => !b.deleted) = blocksSize vs := by
  induction vs with
  | nil => rfl
  | cons v vs ih =>
    cases hd : v.deleted with
    | true =>
      rw [List.filter_cons_of_neg (by simp [hd]), ih]
      simp only [blocksSize, BlockView.size, hd, if_true, Option.bind_eq_bind, Option.bind_some,
        Option.pure_def, Nat.zero_add]
      cases blocksSize vs <;> rfl
    | false =>
      rw [List.filter_cons_of_pos (by simp [hd])]
      simp only [blocksSize, ih]

theorem primary_done (v : View) (h : PrimaryReady v) :
    ∃ out p, renderPrimary v = some (out, p) ∧ IsPrimary out p ∧
      p = { v.primary with blockLength := p.blockLength } ∧ primarySize v = some out.length := by
  unfold PrimaryReady at h
  split at h
  · rename_i hd
    obtain ⟨h1, h2, h3⟩ := h
    obtain ⟨ls, _, r1, r2⟩ := Bpv6Primary.C38_round_trip v.primary h1 h3
    by_cases hl : ls.sum ≤ 127
    · obtain ⟨out, s1, s2, s3, s4⟩ := r1 hl
      have s5 := s4 []
      rw [List.append_nil] at s5
      obtain ⟨p, hp1, hp2⟩ := (Bpv6Primary.C38_decode_iff _ _ _).1 s5
      rw [List.append_nil] at hp1
      subst hp1
      have hne : out.length ≠ 0 := by
        obtain ⟨_, _, ho, _⟩ := s3
        rw [ho]; simp
      refine ⟨out, _, by simp only [renderPrimary, hd, if_true, s1], hp2, rfl, ?_⟩
      simp only [primarySize, hd, if_true, s2, if_neg hne]
    · rw [(r2 (by omega)).1] at h2
      simp at h2
  · rename_i hd
    simp only [Bool.not_eq_true] at hd
    exact ⟨v.primaryRaw, v.primary, by simp [renderPrimary, hd], h, rfl, by simp [primarySize, hd]⟩

/-- C56: take a view whose blocks were read, changed or added, some of them marked for deletion, with
at least one left. Rendering writes as many bytes as announced, these bytes load, and the loaded view
is the view after rendering: it has the primary block (up to the block length member, which is
computed), and the blocks that were not deleted, in order, with the same type, content and flags,
except for the mark of the last block, which is on the last block only. -/
theorem C56_render_reload (v : View) (hp : PrimaryReady v)
    (hne : ∃ b ∈ v.blocks, b.deleted = false)
    (hb : ∀ b ∈ v.blocks, b.deleted = false → Ready (v.primary.flags.testBit 1) b) :
    ∃ out v', v.render = some (out, v') ∧ v.size = some out.length ∧ load out = some v' ∧
      v'.primary = { v.primary with blockLength := v'.primary.blockLength } ∧
      List.Forall₂ SameBlock (v.blocks.filter fun b => !b.deleted) v'.blocks := by
  obtain ⟨pOut, p, p1, p2, p3, p4⟩ := primary_done v hp
  have hadm : p.flags = v.primary.flags := by rw [p3]
  obtain ⟨out, vs', r1, r2, r3, r4, r5, r6⟩ := renderBlocks_done (v.primary.flags.testBit 1)
    (v.blocks.filter fun b => !b.deleted)
    (by
      obtain ⟨b, h1, h2⟩ := hne
      intro h0
      have : b ∈ v.blocks.filter fun b => !b.deleted := List.mem_filter.2 ⟨h1, by simp [h2]⟩
      rw [h0] at this; simp at this)
    (by
      intro b hbm
      obtain ⟨h1, h2⟩ := List.mem_filter.1 hbm
      simp only [Bool.not_eq_eq_eq_not, Bool.not_true] at h2
      exact ⟨hb b h1 h2, h2⟩)
  refine ⟨pOut ++ out, ⟨p, pOut, false, vs'⟩, ?_, ?_, ?_, p3, r5⟩
  · simp [View.render, p1, r1]
  · rw [blocksSize_filter] at r6
    simp [View.size, p4, r6]
  · exact (C56_load_iff _ _).2 ⟨by simp [r2], p2, rfl, by simpa only [hadm] using r4, r3⟩

theorem lastMarked_cons {b : Block} {bs : List Block} (h : LastMarked (b :: bs)) :
    b.flags.testBit 3 = bs.isEmpty ∧ (bs ≠ [] → LastMarked bs) := by
  cases bs with
  | nil => exact ⟨h, fun h => absurd rfl h⟩
  | cons c cs => exact ⟨h.1, fun _ => h.2⟩

theorem renderBlocks_same (vs : List BlockView) (hl : vs = [] ∨ LastMarked (vs.map (·.block)))
    (h : ∀ v ∈ vs, OneByteFlags v.raw v.block ∧ v.dirty = false) :
    renderBlocks vs = some ((vs.map (·.raw)).flatten, vs) := by
  induction vs with
  | nil => rfl
  | cons v vs ih =>
    rcases hl with hl | hl
    · simp at hl
    obtain ⟨h1, h2⟩ := lastMarked_cons hl
    obtain ⟨⟨o1, o2⟩, hd⟩ := h v (by simp)
    have hf : lastFlag vs.isEmpty v.block.flags = v.block.flags := by
      apply lastFlag_same
      rw [h1]
      cases vs <;> rfl
    have hlen : 2 ≤ v.raw.length := by
      have := (List.getElem?_eq_some_iff.1 o2).1
      omega
    have hw : v.withLast vs.isEmpty = v := by
      unfold BlockView.withLast
      rw [if_pos ⟨o1, hlen⟩, hf]
      have : v.raw.set 1 (UInt8.ofNat v.block.flags) = v.raw := by
        obtain ⟨hlt, he⟩ := List.getElem?_eq_some_iff.1 o2
        rw [← he, List.set_getElem_self]
      rw [this]
    have ih' := ih (by
      by_cases h0 : vs = []
      · exact .inl h0
      · exact .inr (h2 (by simpa using h0))) fun x hx => h x (by simp [hx])
    rw [renderBlocks, hw, ih']
    simp [BlockView.render, hd]

/-- C56: loading a bundle and rendering it without changes gives back the same bytes, provided that
every block spells its flags in one byte. -/
theorem C56_render_unchanged (buf : Bytes) (v : View) (h : load buf = some v)
    (ho : ∀ b ∈ v.blocks, OneByteFlags b.raw b.block) (max : Nat) (hmax : buf.length ≤ max) :
    v.renderMax max = .done buf v ∧ v.size = some buf.length := by
  obtain ⟨h1, h2, h3, h4, h5⟩ := (C56_load_iff _ _).1 h
  have hfil : (v.blocks.filter fun b => !b.deleted) = v.blocks :=
    List.filter_eq_self.2 fun b hb => by simp [(h4 b hb).2.2.2]
  have hr := renderBlocks_same v.blocks (.inr h5) fun b hb => ⟨ho b hb, (h4 b hb).2.2.1⟩
  have hren : v.render = some (buf, v) := by
    simp only [View.render, renderPrimary, h3, Bool.false_eq_true, if_false, Option.bind_eq_bind,
      Option.bind_some, hfil, hr, Option.pure_def, ← h1]
    obtain ⟨_, _, _, _⟩ := v
    simp only at h3
    subst h3; rfl
  have hs : ∀ vs : List BlockView, (∀ b ∈ vs, b.dirty = false ∧ b.deleted = false) →
      blocksSize vs = some (vs.map (·.raw)).flatten.length := by
    intro vs hvs
    induction vs with
    | nil => rfl
    | cons b bs ih =>
      obtain ⟨d1, d2⟩ := hvs b (by simp)
      simp [blocksSize, ih fun x hx => hvs x (by simp [hx]), BlockView.size, d1, d2]
  refine ⟨?_, ?_⟩
  · rw [View.renderMax, hren]
    simp only
    rw [if_neg (by omega)]
  · simp only [View.size, primarySize, h3, Bool.false_eq_true, if_false, Option.bind_eq_bind,
      Option.bind_some, hs v.blocks fun b hb => (h4 b hb).2.2, Option.pure_def]
    conv_rhs => rw [h1]
    simp

/-- A bundle whose only block spells its flags in two bytes. -/
def longFlags : Bytes := [6, 0, 12, 1, 1, 2, 1, 0, 0, 0, 0, 9, 1, 60, 0, 1, 0x80, 8, 1, 77]

/-- The bundle `longFlags` loads, and rendering it unchanged yields bytes that do not load. The second
byte of the block, taken to be the flags, is overwritten. -/
theorem C56_long_flags_corrupted :
    ∃ v out v', load longFlags = some v ∧ v.render = some (out, v') ∧
      out.length = longFlags.length ∧ load out = none := by
  have hl : ∃ v, load longFlags = some v ∧
      (v.render.map (·.1)) = some (longFlags.set 16 8) := by
    refine ⟨⟨⟨0, 12, ⟨1, 1⟩, ⟨2, 1⟩, ⟨0, 0⟩, ⟨0, 0⟩, 9, 1, 60, 0, 0⟩, longFlags.take 15, false,
      [⟨⟨1, 8, [77]⟩, .plain, [1, 0x80, 8, 1, 77], false, false⟩]⟩, by decide +kernel, by decide +kernel⟩
  obtain ⟨v, h1, h2⟩ := hl
  obtain ⟨⟨out, v'⟩, h3, h4⟩ := Option.map_eq_some_iff.1 h2
  simp only at h4
  subst h4
  exact ⟨v, _, v', h1, h3, by decide, by decide +kernel⟩

/-! Instances: a bundle with a previous hop block and a payload; it is loaded, the hop block replaced,
an age block appended, and the bundle rendered. -/

def sample : Bytes :=
  [6, 16, 12, 1, 1, 2, 1, 0, 0, 0, 0, 9, 1, 60, 0] ++
    [5, 16, 8, 105, 112, 110, 0, 50, 46, 51, 0] ++ [1, 8, 2, 104, 105]

def sampleView : View :=
  ⟨⟨16, 12, ⟨1, 1⟩, ⟨2, 1⟩, ⟨0, 0⟩, ⟨0, 0⟩, 9, 1, 60, 0, 0⟩, sample.take 15, false,
    [⟨⟨5, 16, [105, 112, 110, 0, 50, 46, 51, 0]⟩, .ext (.previousHop ⟨2, 3⟩),
      [5, 16, 8, 105, 112, 110, 0, 50, 46, 51, 0], false, false⟩,
     ⟨⟨1, 8, [104, 105]⟩, .plain, [1, 8, 2, 104, 105], false, false⟩]⟩

example : load sample = some sampleView := by decide +kernel
example : sampleView.renderMax 31 = .done sample sampleView ∧ sampleView.renderMax 30 = .overflow := by
  decide +kernel
example : ∀ b ∈ sampleView.blocks, OneByteFlags b.raw b.block := by
  intro b hb
  simp only [sampleView, List.mem_cons, List.not_mem_nil, or_false] at hb
  rcases hb with rfl | rfl <;> exact ⟨by decide, by decide⟩

def edited : View :=
  ((⟨sampleView.primary, sampleView.primaryRaw, false,
    [⟨⟨5, 16, [105, 112, 110, 0, 50, 46, 51, 0]⟩, .ext (.previousHop ⟨2, 3⟩),
      [5, 16, 8, 105, 112, 110, 0, 50, 46, 51, 0], false, true⟩,
     ⟨⟨1, 8, [104, 105]⟩, .plain, [1, 8, 2, 104, 105], false, false⟩]⟩ : View).prepend
    (newBlock 5 0 [] (.ext (.previousHop ⟨10, 0⟩)))).append (newBlock 20 0 [] (.ext (.age 300)))

example : (edited.render.map fun r => r.1) = some
    ([6, 16, 12, 1, 1, 2, 1, 0, 0, 0, 0, 9, 1, 60, 0] ++
      [5, 16, 9, 105, 112, 110, 0, 49, 48, 46, 48, 0] ++ [1, 0, 2, 104, 105] ++ [20, 9, 2, 0x82, 44]) ∧
    edited.size = some 37 ∧ (edited.deleteByType 5).1 = 2 ∧ edited.payloadSize = some 2 := by
  decide +kernel

/-- A block with long flags that may be rendered; as the last block it is written with bit 3 set. -/
example : LongFlags ⟨⟨192, 129, [7]⟩, .plain, [192, 0x81, 1, 1, 7], false, false⟩ ∧
    (((⟨⟨192, 129, [7]⟩, .plain, [192, 0x81, 1, 1, 7], false, false⟩ : BlockView).withLast true).render.map
      fun r => r.1) = some [192, 0x81, 9, 1, 7] := by
  refine ⟨⟨by decide, rfl, by decide +kernel⟩, by decide +kernel⟩

/-- The hypotheses of `C56_render_reload` hold of this view. -/
example : PrimaryReady edited ∧ (∃ b ∈ edited.blocks, b.deleted = false) ∧
    ∀ b ∈ edited.blocks, b.deleted = false → Ready (edited.primary.flags.testBit 1) b := by
  have hl := (C56_load_iff sample sampleView).1 (by decide +kernel)
  refine ⟨?_, by decide, ?_⟩
  · exact hl.2.1
  · intro b hb hd
    simp only [edited, View.append, View.prepend, newBlock,
      List.mem_append, List.mem_cons, List.not_mem_nil, or_false] at hb
    rcases hb with (rfl | rfl | rfl) | rfl
    · refine ⟨by decide, rfl, ⟨by decide, by decide⟩, ?_⟩
      intro d h1 _
      have : d.length = 9 := by
        have h2 : (Ext.previousHop ⟨10, 0⟩).size = some 9 := by decide +kernel
        rw [h2] at h1
        simpa using h1.symm
      exact ⟨by omega, by show d.length ≤ 45; omega⟩
    · simp at hd
    · exact ⟨(hl.2.2.2.1 ⟨⟨1, 8, [104, 105]⟩, .plain, [1, 8, 2, 104, 105], false, false⟩
        (by simp [sampleView])).1, ⟨by decide, by simp [IsExtType]⟩, .inl ⟨by decide, by decide⟩⟩
    · refine ⟨by decide, rfl, by show (300 : Nat) < 2 ^ 64; omega, ?_⟩
      intro d h1 _
      have : d.length = 2 := by
        have h2 : (Ext.age 300).size = some 2 := by decide +kernel
        rw [h2] at h1
        simpa using h1.symm
      exact ⟨by omega, trivial⟩

end Hdtn.BundleView6
