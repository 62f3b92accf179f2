import Verif.Bpv6Canonical.Model
import Verif.Bpv6Canonical.Spec
import Verif.Uri.Props

/-!
C54: BPv6 blocks and extension blocks.
-/

namespace Hdtn.Bpv6Canonical

open Hdtn.HashMap16 Hdtn.Sdnv Hdtn.Sdnv.Spec Hdtn.Uri Hdtn.Uri.Spec Spec

theorem isSdnv64_byte (f : UInt8) (h : f.toNat ≤ 127) : IsSdnv64 [f] f.toNat := by
  refine ⟨by simp, ?_, ?_, by omega⟩
  · simp only [WellFormed]; omega
  · simp only [Sdnv.Spec.value, List.length_nil]; omega

theorem isSdnv64_small {f : UInt8} {r : Bytes} {v : Nat} (h : IsSdnv64 (f :: r) v)
    (hf : f.toNat ≤ 127) : r = [] ∧ v = f.toNat := by
  obtain ⟨_, h1, h2, _⟩ := h
  cases r with
  | nil => refine ⟨rfl, ?_⟩; rw [← h2]; simp only [Sdnv.Spec.value, List.length_nil]; omega
  | cons c cs => exact absurd h1.1 (by omega)

theorem readFlags_iff (buf : Bytes) (v : Nat) (rest : Bytes) :
    readFlags buf = some (v, rest) ↔ Split buf [v] rest := by
  rw [← readSdnv_iff_split]
  cases buf with
  | nil =>
    simp only [readFlags, reduceCtorEq, false_iff]
    intro h
    obtain ⟨p, h1, h2⟩ := (readSdnv_iff _ _ _).1 h
    have : p = [] := by simpa using (List.append_eq_nil_iff.1 h1.symm).1
    exact isSdnv64_ne_nil h2 (by simp [this])
  | cons f r =>
    simp only [readFlags]
    split
    · rename_i hf
      rw [readSdnv_iff]
      constructor
      · intro h
        simp only [Option.some.injEq, Prod.mk.injEq] at h
        obtain ⟨rfl, rfl⟩ := h
        exact ⟨[f], rfl, isSdnv64_byte f hf⟩
      · rintro ⟨p, h1, h2⟩
        cases p with
        | nil => exact absurd rfl (isSdnv64_ne_nil h2)
        | cons c cs =>
          simp only [List.cons_append, List.cons.injEq] at h1
          obtain ⟨rfl, rfl⟩ := h1
          obtain ⟨rfl, rfl⟩ := isSdnv64_small h2 hf
          rfl
    · rfl

/-- C54: the block decoder accepts exactly the buffers that start with a block as RFC 5050 defines it
(without endpoint references) and returns type, flags, data and what follows. -/
theorem C54_decode_iff (buf : Bytes) (b : Block) (rest : Bytes) :
    read buf = some (b, rest) ↔ ∃ p, buf = p ++ rest ∧ IsBlock p b := by
  constructor
  · intro h
    unfold read at h
    split at h
    · simp at h
    · cases buf with
      | nil => simp at h
      | cons t buf =>
        simp only [Option.bind_eq_bind, Option.bind_eq_some_iff, Prod.exists, readFlags_iff,
          readSdnv_iff_split] at h
        obtain ⟨f, b1, h1, n, b2, h2, h3⟩ := h
        split at h3
        · simp at h3
        · rename_i hn
          simp only [Option.pure_def, Option.some.injEq, Prod.mk.injEq] at h3
          obtain ⟨rfl, rfl⟩ := h3
          obtain ⟨p1, rfl, hp1⟩ := split_cut h1
          obtain ⟨p2, rfl, hp2⟩ := split_cut h2
          have hlen : (b2.take n).length = n := by rw [List.length_take]; omega
          refine ⟨t :: (p1 ++ p2) ++ b2.take n, ?_, p1 ++ p2, rfl, ?_⟩
          · simp [List.take_append_drop]
          · simp only [hlen]
            simpa using split_append hp1 hp2
  · rintro ⟨p, rfl, q, rfl, hq⟩
    obtain ⟨p1, p2, rfl, hp1, hp2⟩ := split_unappend (vs := [b.flags]) hq
    have hf := (readFlags_iff (p1 ++ (p2 ++ (b.data ++ rest))) _ _).2 (split_rest hp1 _)
    have hl := (readSdnv_iff_split (p2 ++ (b.data ++ rest)) _ _).2 (split_rest hp2 _)
    have h1 := isSdnv64_ne_nil ((split_one _ _).1 hp1)
    unfold read
    rw [if_neg (by simp; omega)]
    simp only [List.cons_append, List.append_assoc, hf, Option.bind_eq_bind, Option.bind_some, hl]
    rw [if_neg (by simp)]
    simp

theorem split_flagBytes (f : Nat) (hf : f < 2 ^ 64) : Split (flagBytes f) [f] [] := by
  unfold flagBytes
  split
  · rename_i h
    have ht : (UInt8.ofNat f).toNat = f := by
      rw [UInt8.toNat_ofNat']; exact Nat.mod_eq_of_lt (by omega)
    have := isSdnv64_byte (UInt8.ofNat f) (by omega)
    rw [ht] at this
    exact (split_one _ _).2 this
  · exact split_encode f hf

theorem minimal_det {v a b : Nat} (ha : IsMinimalLength v a) (hb : IsMinimalLength v b) : a = b :=
  Nat.le_antisymm (ha.2.2 b hb.1 hb.2.1) (hb.2.2 a ha.1 ha.2.1)

theorem flagBytes_length (f : Nat) (hf : f < 2 ^ 64) :
    numBytesRequired f = some (flagBytes f).length := by
  rw [numBytesRequired_eq f hf]
  unfold flagBytes
  split
  · rename_i h
    obtain ⟨e, _, h2, _, _, h3, _⟩ := C01_sdnv64_round_trip f hf
    rw [h2, Option.some.injEq]
    exact minimal_det h3 ⟨by simp, by simpa using (by omega : f < 128), fun j hj _ => by simpa using hj⟩
  · rfl

/-- C54: a block serialises to bytes of the announced number that decode, whatever follows, to the
block. -/
theorem C54_round_trip (b : Block) (hf : b.flags < 2 ^ 64) (hd : b.data.length < 2 ^ 64) :
    IsBlock (serialize b) b ∧
    serializationSize b.flags b.data.length = some (serialize b).length ∧
    ∀ rest, read (serialize b ++ rest) = some (b, rest) := by
  have hb : IsBlock (serialize b) b := by
    refine ⟨flagBytes b.flags ++ encodeU64ClassicBufSize10 b.data.length, by simp [serialize], ?_⟩
    simpa using split_append (split_flagBytes _ hf) (split_encode _ hd)
  refine ⟨hb, ?_, fun rest => (C54_decode_iff _ _ _).2 ⟨_, rfl, hb⟩⟩
  simp only [serializationSize, flagBytes_length _ hf, numBytesRequired_eq _ hd, Option.bind_eq_bind,
    Option.bind_some, Option.pure_def, Option.some.injEq, serialize, List.length_append,
    List.length_cons]
  omega

/-! ### Extension blocks: reading -/

theorem readCteb_iff (data : Bytes) (x : Ext) : readCteb data = some x ↔
    ∃ i s, x = .cteb i s ∧ s.length ≤ 45 ∧ ∃ q, data = q ++ s ∧ IsSdnv64 q i := by
  unfold readCteb
  constructor
  · intro h
    split at h
    · simp at h
    · rename_i i s hr
      split at h
      · simp at h
      · rename_i hl
        simp only [Option.some.injEq] at h
        exact ⟨i, s, h.symm, by omega, (readSdnv_iff _ _ _).1 hr⟩
  · rintro ⟨i, s, rfl, hl, hq⟩
    rw [(readSdnv_iff _ _ _).2 hq]
    simp only
    rw [if_neg (by omega)]

theorem readAge_iff (data : Bytes) (x : Ext) : readAge data = some x ↔
    ∃ t, x = .age t ∧ IsSdnv64 data t := by
  unfold readAge
  constructor
  · intro h
    split at h
    · rename_i t hr
      simp only [Option.some.injEq] at h
      obtain ⟨p, rfl, hp⟩ := (readSdnv_iff _ _ _).1 hr
      exact ⟨t, h.symm, by simpa using hp⟩
    · simp at h
  · rintro ⟨t, rfl, hp⟩
    rw [(readSdnv_iff data t []).2 ⟨data, by simp, hp⟩]

theorem readPreviousHop_iff (data : Bytes) (x : Ext) : readPreviousHop data = some x ↔
    ∃ e, x = .previousHop e ∧ data.length ≤ 45 ∧
      ∃ a b, data = [105, 112, 110, 0] ++ a ++ [46] ++ b ++ [0] ∧
        IsSignedNumeral a e.node ∧ IsSignedNumeral b e.service := by
  unfold readPreviousHop
  constructor
  · intro h
    split at h
    · simp at h
    · rename_i hc
      push Not at hc
      obtain ⟨h1, h2, h3⟩ := hc
      split at h
      · simp at h
      · rename_i hl
        split at h
        · rename_i n s hp
          simp only [Option.some.injEq] at h
          obtain ⟨a, b, h4, h5, h6⟩ := (parseSsp_iff _ _ _ _).1 hp
          refine ⟨⟨n, s⟩, h.symm, by omega, a, b, ?_, h5, ?_⟩
          · have e1 : data = data.dropLast ++ [0] := by
              obtain ⟨ys, rfl⟩ := List.getLast?_eq_some_iff.1 h3
              simp
            have e2 : (data.drop 4).take (data.length - 5) = data.dropLast.drop 4 := by
              rw [List.dropLast_eq_take, List.drop_take]
              congr 1
            have e3 : data.dropLast.take 4 = [105, 112, 110, 0] := by
              rw [← h2, List.dropLast_eq_take, List.take_take]
              congr 1
              omega
            rw [e2] at h4
            rw [e1, ← List.take_append_drop 4 data.dropLast, e3, h4]
            simp
          · rcases h6 with ⟨h, _⟩ | ⟨v, hv, h⟩
            · simp at h
            · simp only [Option.some.injEq] at hv
              rw [hv]; exact h
        · simp at h
  · rintro ⟨⟨n, s⟩, rfl, hl, a, b, rfl, ha, hb⟩
    have na := (signed_no ha 46 (by simp [IsDigit]) (by decide) (by decide)).2
    have nb := (signed_no hb 46 (by simp [IsDigit]) (by decide) (by decide)).2
    have la := List.length_pos_iff.2 na
    have lb := List.length_pos_iff.2 nb
    rw [if_neg, if_neg (by omega)]
    · have e : (([105, 112, 110, 0] ++ a ++ [46] ++ b ++ [0] : Bytes).drop 4).take
          (([105, 112, 110, 0] ++ a ++ [46] ++ b ++ [0] : Bytes).length - 5) = a ++ [46] ++ b := by
        have : ([105, 112, 110, 0] ++ a ++ [46] ++ b ++ [0] : Bytes).drop 4 = a ++ [46] ++ b ++ [0] := by
          simp
        rw [this]
        have hlen : ([105, 112, 110, 0] ++ a ++ [46] ++ b ++ [0] : Bytes).length - 5 =
            (a ++ [46] ++ b).length := by simp
        rw [hlen, List.take_left]
      rw [e, (parseSsp_iff false _ n (some s)).2 ⟨a, b, rfl, ha, .inr ⟨s, rfl, hb⟩⟩]
    · simp only [not_or, not_lt, ne_eq, not_not]
      refine ⟨?_, by simp, List.getLast?_concat⟩
      simp; omega

theorem parseCstring_uri (buf : Bytes) (n : Nat) (s : Nat) (rest : Bytes) :
    parseCstring false buf = some ((n, some s), rest) ↔
      ∃ a b, buf = ipn a b ++ [0] ++ rest ∧ IsSignedNumeral a n ∧ IsSignedNumeral b s := by
  rw [C53_cstring_iff]
  constructor
  · rintro ⟨text, h0, rfl, h⟩
    obtain ⟨a, b, rfl, h1, h2⟩ := (parseUri_iff _ _ _ _).1 h
    rcases h2 with ⟨h, _⟩ | ⟨v, hv, h2⟩
    · simp at h
    · simp only [Option.some.injEq] at hv
      exact ⟨a, b, rfl, h1, hv ▸ h2⟩
  · rintro ⟨a, b, rfl, h1, h2⟩
    refine ⟨ipn a b, ?_, rfl, (parseUri_iff _ _ _ _).2 ⟨a, b, rfl, h1, .inr ⟨s, rfl, h2⟩⟩⟩
    have z1 := (signed_no h1 0 (by simp [IsDigit]) (by decide) (by decide)).1
    have z2 := (signed_no h2 0 (by simp [IsDigit]) (by decide) (by decide)).1
    simp [ipn, z1, z2]

theorem readUris_iff (fuel : Nat) (buf : Bytes) (hfuel : buf.length < fuel) (es : List Eid) :
    readUris fuel buf = some es ↔ es ≠ [] ∧ IsUris buf es := by
  induction fuel generalizing buf es with
  | zero => omega
  | succ fuel ih =>
    rw [readUris]
    constructor
    · intro h
      split at h
      · rename_i n s rest hp
        obtain ⟨a, b, rfl, h1, h2⟩ := (parseCstring_uri _ _ _ _).1 hp
        split at h
        · rename_i h0
          simp only [Option.some.injEq] at h
          obtain rfl := List.length_eq_zero_iff.1 h0
          subst h
          exact ⟨by simp, .cons h1 h2 .nil⟩
        · simp only [Option.map_eq_some_iff] at h
          obtain ⟨fs, h3, rfl⟩ := h
          have hl : rest.length < fuel := by
            simp only [ipn, List.length_append, List.length_cons] at hfuel
            omega
          exact ⟨by simp, .cons h1 h2 ((ih rest hl fs).1 h3).2⟩
      · simp at h
    · rintro ⟨hne, h⟩
      cases h with
      | nil => exact absurd rfl hne
      | @cons a b p e es h1 h2 h3 =>
        rw [(parseCstring_uri _ e.node e.service p).2 ⟨a, b, rfl, h1, h2⟩]
        simp only
        by_cases h0 : p.length = 0
        · obtain rfl := List.length_eq_zero_iff.1 h0
          cases h3 with
          | nil => simp
        · have hl : p.length < fuel := by
            simp only [ipn, List.length_append, List.length_cons] at hfuel
            omega
          have hes : es ≠ [] := by
            rintro rfl
            cases h3
            simp at h0
          rw [if_neg h0, (ih p hl es).2 ⟨hes, h3⟩]
          rfl

theorem readMetadata_iff (data : Bytes) (x : Ext) : readMetadata data = some x ↔
    (∃ es, es ≠ [] ∧ x = .metadata 1 (.uris es) ∧ ∃ q r, data = q ++ r ∧ IsSdnv64 q 1 ∧ IsUris r es) ∨
    (∃ t bytes, t ≠ 1 ∧ x = .metadata t (.raw bytes) ∧ ∃ q, data = q ++ bytes ∧ IsSdnv64 q t) := by
  unfold readMetadata
  constructor
  · intro h
    split at h
    · simp at h
    · rename_i t rest hr
      obtain ⟨q, rfl, hq⟩ := (readSdnv_iff _ _ _).1 hr
      split at h
      · rename_i ht
        subst ht
        simp only [Option.map_eq_some_iff] at h
        obtain ⟨es, h1, rfl⟩ := h
        obtain ⟨h2, h3⟩ := (readUris_iff _ _ (by omega) _).1 h1
        exact .inl ⟨es, h2, rfl, q, rest, rfl, hq, h3⟩
      · rename_i ht
        simp only [Option.some.injEq] at h
        exact .inr ⟨t, rest, ht, h.symm, q, rfl, hq⟩
  · rintro (⟨es, h1, rfl, q, r, rfl, hq, hr⟩ | ⟨t, bytes, ht, rfl, q, rfl, hq⟩)
    · rw [(readSdnv_iff _ _ _).2 ⟨q, rfl, hq⟩]
      simp only [if_true, (readUris_iff _ _ (by omega : r.length < r.length + 1) es).2 ⟨h1, hr⟩]
      rfl
    · rw [(readSdnv_iff _ _ _).2 ⟨q, rfl, hq⟩]
      simp only [ht, if_false]

/-- C54: the reader of an extension block accepts data of the block's format that is also `Readable`,
and nothing else. -/
theorem C54_ext_read_iff (typeCode : UInt8) (r : Bytes → Option Ext) (hr : reader typeCode = some r)
    (data : Bytes) (x : Ext) :
    r data = some x ↔ x.typeCode = typeCode ∧ IsExtData data x ∧ Readable data x := by
  unfold reader at hr
  split at hr
  · rename_i h; subst h
    simp only [Option.some.injEq] at hr; subst hr
    rw [readPreviousHop_iff]
    constructor
    · rintro ⟨e, rfl, h1, h2⟩; exact ⟨rfl, h2, h1⟩
    · rintro ⟨h1, h2, h3⟩
      cases x with
      | previousHop e => exact ⟨e, rfl, h3, h2⟩
      | _ => exact absurd h1 (by simp [Ext.typeCode])
  · split at hr
    · rename_i h; subst h
      simp only [Option.some.injEq] at hr; subst hr
      rw [readMetadata_iff]
      constructor
      · rintro (⟨es, h1, rfl, h2⟩ | ⟨t, bytes, ht, rfl, h2⟩)
        · exact ⟨rfl, h2, rfl, h1⟩
        · exact ⟨rfl, h2, ht⟩
      · rintro ⟨h1, h2, h3⟩
        cases x with
        | metadata t c =>
          cases c with
          | none => exact h3.elim
          | uris es =>
            obtain ⟨rfl, h4⟩ := h3
            exact .inl ⟨es, h4, rfl, h2⟩
          | raw bytes => exact .inr ⟨t, bytes, h3, rfl, h2⟩
        | _ => exact absurd h1 (by simp [Ext.typeCode])
    · split at hr
      · rename_i h; subst h
        simp only [Option.some.injEq] at hr; subst hr
        rw [readCteb_iff]
        constructor
        · rintro ⟨i, s, rfl, h1, h2⟩; exact ⟨rfl, h2, h1⟩
        · rintro ⟨h1, h2, h3⟩
          cases x with
          | cteb i s => exact ⟨i, s, rfl, h3, h2⟩
          | _ => exact absurd h1 (by simp [Ext.typeCode])
      · split at hr
        · rename_i h; subst h
          simp only [Option.some.injEq] at hr; subst hr
          rw [readAge_iff]
          constructor
          · rintro ⟨t, rfl, h2⟩; exact ⟨rfl, h2, trivial⟩
          · rintro ⟨h1, h2, _⟩
            cases x with
            | age t => exact ⟨t, rfl, h2⟩
            | _ => exact absurd h1 (by simp [Ext.typeCode])
        · simp at hr

/-! ### Extension blocks: writing -/

theorem classic_full (v : Nat) (hv : v < 2 ^ 64) (k : Nat) :
    encodeU64Classic v ((encodeU64ClassicBufSize10 v).length + k) = encodeU64ClassicBufSize10 v := by
  rw [encodeClassic64_eq v hv, if_neg (by omega)]

theorem uris_write (es : List Eid) (h : ∀ e ∈ es, e.node < 2 ^ 64 ∧ e.service < 2 ^ 64) :
    ∃ n, urisSize es = some n ∧ (writeUris es n).length = n ∧ IsUris (writeUris es n) es := by
  induction es with
  | nil => exact ⟨0, rfl, rfl, .nil⟩
  | cons e es ih =>
    obtain ⟨n, h1, h2, h3⟩ := ih fun f hf => h f (by simp [hf])
    obtain ⟨hn, hs⟩ := h e (by simp)
    obtain ⟨c1, c2, _⟩ := C53_cstring e.node e.service hn hs
    have hw : writeIpnUriCstring e.node e.service ((getIpnUriString e.node e.service).length + 1 + n) =
        getIpnUriString e.node e.service ++ [0] := by
      rw [c2, if_pos (by omega)]
    have hl : (getIpnUriString e.node e.service).length + 1 + n -
        (getIpnUriString e.node e.service ++ [0]).length = n := by
      simp
    refine ⟨(getIpnUriString e.node e.service).length + 1 + n, ?_, ?_, ?_⟩
    · simp only [urisSize, c1, h1, Option.bind_eq_bind, Option.bind_some, Option.pure_def]
    · simp only [writeUris, hw, hl]
      rw [List.length_append, h2]
      simp
    · simp only [writeUris, hw, hl]
      exact .cons (signed_decimal _ hn) (signed_decimal _ hs) h3

theorem write_spec (x : Ext) (hx : InRange x) :
    ∃ n d, x.size = some n ∧ x.write n = some d ∧ d.length = n ∧ IsExtData d x := by
  cases x with
  | cteb i s =>
    refine ⟨(encodeU64ClassicBufSize10 i).length + s.length, encodeU64ClassicBufSize10 i ++ s,
      ?_, ?_, ?_, ?_⟩
    · simp [Ext.size, numBytesRequired_eq i hx]
    · simp [Ext.write, classic_full i hx]
    · simp
    · exact ⟨_, rfl, isSdnv64_encode i hx⟩
  | previousHop e =>
    obtain ⟨hn, hs⟩ := hx
    have hl : (getIpnUriString e.node e.service).length + 1 =
        4 + (decimal e.node).length + 1 + (decimal e.service).length + 1 := by
      simp [getIpnUriString]; omega
    refine ⟨(getIpnUriString e.node e.service).length + 1,
      (getIpnUriString e.node e.service).set 3 0 ++ [0], ?_, ?_, ?_, ?_⟩
    · simp [Ext.size, C53_uint_length _ hn, C53_uint_length _ hs, hl]
    · simp [Ext.write]
    · simp
    · refine ⟨decimal e.node, decimal e.service, ?_, signed_decimal _ hn, signed_decimal _ hs⟩
      simp [getIpnUriString]
  | age t =>
    refine ⟨(encodeU64ClassicBufSize10 t).length, encodeU64ClassicBufSize10 t, ?_, ?_, rfl, ?_⟩
    · exact numBytesRequired_eq t hx
    · have := classic_full t hx 0
      simpa [Ext.write] using this
    · exact isSdnv64_encode t hx
  | metadata t c =>
    have ht : t < 2 ^ 64 := by
      cases c with
      | none => exact hx
      | uris es => exact hx.1
      | raw b => exact hx
    have hc : ∃ n, c.size = some n ∧ (c.write n).length = n ∧
        ∀ q, IsSdnv64 q t → IsExtData (q ++ c.write n) (.metadata t c) := by
      cases c with
      | none => exact ⟨0, rfl, rfl, fun q hq => by simpa [IsExtData, Content.write] using hq⟩
      | uris es =>
        obtain ⟨n, h1, h2, h3⟩ := uris_write es hx.2
        exact ⟨n, h1, h2, fun q hq => ⟨q, _, rfl, hq, h3⟩⟩
      | raw b =>
        refine ⟨b.length, rfl, by simp [Content.write], fun q hq => ⟨q, by simp [Content.write], hq⟩⟩
    obtain ⟨n, h1, h2, h3⟩ := hc
    refine ⟨(encodeU64ClassicBufSize10 t).length + n, encodeU64ClassicBufSize10 t ++ c.write n,
      ?_, ?_, ?_, h3 _ (isSdnv64_encode t ht)⟩
    · simp [Ext.size, numBytesRequired_eq t ht, h1]
    · simp [Ext.write, classic_full t ht]
    · simp [h2]

theorem reader_typeCode (x : Ext) : ∃ r, reader x.typeCode = some r := by
  cases x <;> exact ⟨_, rfl⟩

/-- C54: an extension block is laid out with its type code, its flags (with the ones that its standard
demands), and data of its format whose length is the announced one; and decoding, whatever follows,
returns the members, provided the data is `Readable`. -/
theorem C54_ext_round_trip (flags : Nat) (hf : flags < 2 ^ 64) (x : Ext) (hx : InRange x) :
    ∃ n d out, x.size = some n ∧ d.length = n ∧ IsExtData d x ∧
      x.serialize flags = some (out, ⟨x.typeCode, x.flags flags, d⟩) ∧
      out = serialize ⟨x.typeCode, x.flags flags, d⟩ ∧
      (n < 2 ^ 64 → ∀ rest,
        (Readable d x → Ext.read (out ++ rest) = some (x, ⟨x.typeCode, x.flags flags, d⟩, rest)) ∧
        (¬ Readable d x → ∀ b r, Ext.read (out ++ rest) ≠ some (x, b, r))) := by
  obtain ⟨n, d, h1, h2, h3, h4⟩ := write_spec x hx
  refine ⟨n, d, _, h1, h3, h4, ?_, rfl, ?_⟩
  · simp [Ext.serialize, h1, h2, h3]
  · intro hn rest
    have hfl : x.flags flags < 2 ^ 64 := by
      cases x with
      | previousHop e => exact Nat.or_lt_two_pow hf (by norm_num)
      | age t => exact Nat.or_lt_two_pow hf (by norm_num)
      | _ => exact hf
    have hr := (C54_round_trip ⟨x.typeCode, x.flags flags, d⟩ hfl (by rw [h3]; exact hn)).2.2 rest
    obtain ⟨r, hrd⟩ := reader_typeCode x
    have key := C54_ext_read_iff x.typeCode r hrd d x
    constructor
    · intro hR
      simp only [Ext.read, hr, Option.bind_eq_bind, Option.bind_some, hrd, key.2 ⟨rfl, h4, hR⟩,
        Option.pure_def]
    · intro hR b r' h
      simp only [Ext.read, hr, Option.bind_eq_bind, Option.bind_some, hrd, Option.pure_def,
        Option.bind_eq_some_iff, Option.some.injEq, Prod.mk.injEq] at h
      obtain ⟨y, hy, rfl, _⟩ := h
      exact hR (key.1 hy).2.2

/-- C54 fails for the largest endpoints: a previous-hop block with two 20-digit numbers has 46 bytes
of data, one more than its reader allows. -/
theorem C54_previous_hop_largest_refused :
    ((Ext.serialize 0 (.previousHop ⟨2 ^ 64 - 1, 2 ^ 64 - 1⟩)).map fun r => Ext.read r.1) =
      some none := by decide +kernel

/-! Instances. -/

example : (Ext.serialize 0 (.previousHop ⟨12, 3⟩)).map (·.1) =
    some [5, 16, 9, 105, 112, 110, 0, 49, 50, 46, 51, 0] := by decide +kernel
example : Ext.read [5, 16, 9, 105, 112, 110, 0, 49, 50, 46, 51, 0, 77] =
    some (.previousHop ⟨12, 3⟩, ⟨5, 16, [105, 112, 110, 0, 49, 50, 46, 51, 0]⟩, [77]) := by
  decide +kernel
example : InRange (.metadata 1 (.uris [⟨1, 2⟩, ⟨300, 4⟩])) ∧
    ((Ext.serialize 0 (.metadata 1 (.uris [⟨1, 2⟩, ⟨300, 4⟩]))).bind fun r => Ext.read r.1).map (·.1) =
      some (.metadata 1 (.uris [⟨1, 2⟩, ⟨300, 4⟩])) := by
  constructor
  · simp [InRange]
  · decide +kernel

end Hdtn.Bpv6Canonical
