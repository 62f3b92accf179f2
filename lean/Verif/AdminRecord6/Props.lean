import Verif.AdminRecord6.Lemmas
import Verif.Bpv6Canonical.Props

/-!
C41: aggregate custody signals. C55: status reports and custody signals.
-/

namespace Hdtn.AdminRecord6

open Hdtn.Sdnv Hdtn.Sdnv.Spec Hdtn.FragmentSet Spec

/-! ### Fills -/

/-- The ranges as the code computes them, modulo 2^64. -/
def wrapRanges : Nat → List (Nat × Nat) → List Frag
  | _, [] => []
  | prev, (d, l) :: ps =>
    let le := (d + prev) % 2 ^ 64
    let re := (le + l + 2 ^ 64 - 1) % 2 ^ 64
    ⟨le, re⟩ :: wrapRanges re ps

theorem foldl_wrap (prev d l : Nat) (ps : List (Nat × Nat)) (fills : List Frag) :
    (wrapRanges prev ((d, l) :: ps)).foldl (fun s k => (insertFragment s k).1) fills =
      (wrapRanges (((d + prev) % 2 ^ 64 + l + 2 ^ 64 - 1) % 2 ^ 64) ps).foldl
        (fun s k => (insertFragment s k).1)
        (insertFragment fills ⟨(d + prev) % 2 ^ 64,
          ((d + prev) % 2 ^ 64 + l + 2 ^ 64 - 1) % 2 ^ 64⟩).1 := by
  simp only [wrapRanges, List.foldl_cons]

theorem readFills_iff (fuel prev : Nat) (fills : List Frag) (buf : Bytes) (hf : buf.length < fuel)
    (out : List Frag) :
    readFills fuel prev fills buf = some out ↔
      ∃ ps, ps ≠ [] ∧ Row buf (pairNums ps) ∧
        out = (wrapRanges prev ps).foldl (fun s k => (insertFragment s k).1) fills := by
  induction fuel generalizing prev fills buf with
  | zero => omega
  | succ fuel ih =>
    simp only [readFills]
    constructor
    · intro h
      split at h
      · simp at h
      · rename_i d b1 h1
        split at h
        · simp at h
        · split at h
          · simp at h
          · rename_i l b2 h2
            obtain ⟨p1, rfl, hp1⟩ := (readSdnv_iff _ _ _).1 h1
            obtain ⟨p2, rfl, hp2⟩ := (readSdnv_iff _ _ _).1 h2
            have := isSdnv64_ne_nil hp1
            split at h
            · rename_i hb
              simp only [Option.some.injEq] at h
              have hb2 : b2 = [] := List.length_eq_zero_iff.1 hb
              subst hb2
              exact ⟨[(d, l)], by simp, .cons (x := .u64 d) hp1 (.cons (x := .u64 l) hp2 .nil),
                by rw [foldl_wrap, wrapRanges, List.foldl_nil, h]⟩
            · obtain ⟨ps, hps, hrow, hout⟩ := (ih _ _ _ (by simp at hf; omega)).1 h
              exact ⟨(d, l) :: ps, by simp, .cons (x := .u64 d) hp1 (.cons (x := .u64 l) hp2 hrow),
                by rw [foldl_wrap, hout]⟩
    · rintro ⟨ps, hps, hrow, rfl⟩
      match ps, hps with
      | (d, l) :: ps, _ =>
        obtain ⟨p1, b1, rfl, hp1, hrow⟩ := (row_cons_iff _ _ _).1 hrow
        obtain ⟨p2, b2, rfl, hp2, hrow⟩ := (row_cons_iff _ _ _).1 hrow
        have e1 := (readSdnv_iff (p1 ++ (p2 ++ b2)) d (p2 ++ b2)).2 ⟨p1, rfl, hp1⟩
        have e2 := (readSdnv_iff (p2 ++ b2) l b2).2 ⟨p2, rfl, hp2⟩
        have n1 := isSdnv64_ne_nil hp1
        have n2 := isSdnv64_ne_nil hp2
        rw [e1]
        simp only
        rw [if_neg (by simp; intro h; simp [h] at n2), e2]
        simp only
        cases ps with
        | nil =>
          have : b2 = [] := (row_nil_iff _).1 hrow
          subst this
          rw [if_pos List.length_nil, foldl_wrap, wrapRanges, List.foldl_nil]
        | cons q ps =>
          have hb : b2.length ≠ 0 := by
            obtain ⟨dq, lq⟩ := q
            obtain ⟨p3, b3, rfl, hp3, _⟩ := (row_cons_iff _ _ _).1 hrow
            have := isSdnv64_ne_nil hp3
            simp; intro h; simp [h] at this
          rw [if_neg hb]
          exact (ih _ _ _ (by simp at hf; omega)).2 ⟨q :: ps, by simp, hrow, by rw [foldl_wrap prev d l (q :: ps)]⟩

theorem wrapRanges_eq (prev : Nat) (ps : List (Nat × Nat)) (h1 : ∀ q ∈ ps, 1 ≤ q.2)
    (h2 : ∀ f ∈ ranges prev ps, f.Valid) : wrapRanges prev ps = ranges prev ps := by
  induction ps generalizing prev with
  | nil => rfl
  | cons q ps ih =>
    obtain ⟨d, l⟩ := q
    have hl : 1 ≤ l := h1 (d, l) (by simp)
    have hv := h2 ⟨prev + d, prev + d + l - 1⟩ (by simp [ranges])
    obtain ⟨v1, v2⟩ := hv
    simp only at v1 v2
    have e1 : (d + prev) % 2 ^ 64 = prev + d := by
      rw [Nat.mod_eq_of_lt (by omega)]; omega
    have e2 : (prev + d + l + 2 ^ 64 - 1) % 2 ^ 64 = prev + d + l - 1 := by omega
    simp only [wrapRanges, ranges, e1, e2]
    rw [ih _ (fun q hq => h1 q (by simp [hq])) (fun f hf => h2 f (by simp [ranges, hf]))]

theorem readAggregate_eq (st : UInt8) (buf : Bytes) :
    readAggregate (st :: buf) = (readFills (buf.length + 1) 0 [] buf).map fun f => (st, f) := by
  simp only [readAggregate]
  split <;> rename_i h <;> simp [h]

theorem read_aggregate (st : UInt8) (buf : Bytes) :
    read (0x40 :: st :: buf) = (readFills (buf.length + 1) 0 [] buf).map
      fun f => ⟨4, false, some (.aggregate st f)⟩ := by
  have e1 : (0x40 : UInt8) >>> 4 = 4 := by decide
  have e2 : ((0x40 : UInt8) &&& 1 != 0) = false := by decide
  have e3 : ¬ (4 : UInt8) = 1 := by decide
  have e4 : ¬ (4 : UInt8) = 2 := by decide
  simp only [read, e1, e2, readContent, e3, e4, if_false, if_true, readAggregate_eq]
  cases readFills (buf.length + 1) 0 [] buf <;> rfl

/-- C41: the bytes behind the status byte of an aggregate custody signal are accepted exactly if they
are a row of at least one pair of SDNVs. -/
theorem C41_accepted_iff (st : UInt8) (p : Bytes) :
    (∃ r, read (0x40 :: st :: p) = some r) ↔ ∃ ps, ps ≠ [] ∧ Row p (pairNums ps) := by
  rw [read_aggregate]
  constructor
  · rintro ⟨r, h⟩
    obtain ⟨f, hf, _⟩ := Option.map_eq_some_iff.1 h
    obtain ⟨ps, h1, h2, _⟩ := (readFills_iff _ _ _ _ (by omega) _).1 hf
    exact ⟨ps, h1, h2⟩
  · rintro ⟨ps, h1, h2⟩
    have := (readFills_iff (p.length + 1) 0 [] p (by omega) _).2 ⟨ps, h1, h2, rfl⟩
    rw [this]
    exact ⟨_, rfl⟩

/-- C41: the decoded set contains exactly the identifiers in the fills, provided that no fill is empty
or reaches 2^64-1. -/
theorem C41_decode (st : UInt8) (p : Bytes) (ps : List (Nat × Nat)) (hps : ps ≠ [])
    (hrow : Row p (pairNums ps)) (hlen : ∀ q ∈ ps, 1 ≤ q.2) (hv : ∀ f ∈ ranges 0 ps, f.Valid) :
    ∃ fills, read (0x40 :: st :: p) = some ⟨4, false, some (.aggregate st fills)⟩ ∧
      Canonical fills ∧ ∀ x, Covers fills x ↔ ∃ f ∈ ranges 0 ps, f.Has x := by
  rw [read_aggregate]
  have := (readFills_iff (p.length + 1) 0 [] p (by omega) _).2 ⟨ps, hps, hrow, rfl⟩
  rw [wrapRanges_eq 0 ps hlen hv] at this
  have hu := C07_insert_is_union (ranges 0 ps) hv
  exact ⟨insertAll (ranges 0 ps), by rw [this]; rfl, hu.1, hu.2⟩

/-! ### Writing fills -/

/-- The pairs for a canonical set. -/
def pairsOf : Nat → List Frag → List (Nat × Nat)
  | _, [] => []
  | prev, f :: fs => (f.b - prev, f.e + 1 - f.b) :: pairsOf f.e fs

theorem fills_pairs (prev : Nat) (s : List Frag) (hs : Canonical s) (hp : ∀ f ∈ s, prev ≤ f.b) :
    fillNums prev s = pairNums (pairsOf prev s) ∧ ranges prev (pairsOf prev s) = s ∧
      (∀ q ∈ pairsOf prev s, 1 ≤ q.2) ∧ InRange (fillNums prev s) := by
  induction s generalizing prev with
  | nil => exact ⟨rfl, rfl, by simp [pairsOf], trivial⟩
  | cons f fs ih =>
    obtain ⟨hc1, hc2, hc3⟩ := (canonical_cons f fs).1 hs
    have hb := hp f (by simp)
    obtain ⟨v1, v2⟩ := hc1
    have hnext : ∀ g ∈ fs, f.e ≤ g.b := fun g hg => by have := hc2 g hg; omega
    obtain ⟨i1, i2, i3, i4⟩ := ih f.e hc3 hnext
    have e1 : (f.b + 2 ^ 64 - prev) % 2 ^ 64 = f.b - prev := by omega
    have e2 : ((f.e + 1) % 2 ^ 64 + 2 ^ 64 - f.b) % 2 ^ 64 = f.e + 1 - f.b := by omega
    refine ⟨?_, ?_, ?_, ?_⟩
    · simp only [fillNums, e1, e2, i1, pairsOf, pairNums]
    · have e3 : prev + (f.b - prev) = f.b := by omega
      have e4 : f.b + (f.e + 1 - f.b) - 1 = f.e := by omega
      simp only [pairsOf, ranges, e3, e4, i2]
    · intro q hq
      simp only [pairsOf, List.mem_cons] at hq
      rcases hq with rfl | hq
      · simp only; omega
      · exact i3 q hq
    · simp only [fillNums, e1, e2]
      exact ⟨by omega, by omega, i4⟩

/-- C41: take any non-empty ranges of custody identifiers below 2^64-1 and add them, in any order, to
an aggregate custody signal. The record is written with the size announced; its bytes are the type,
the status and the fills, which are exactly the ranges of the set; and reading returns the same
record, whose set contains exactly the identifiers added. -/
theorem C41_round_trip (st : UInt8) (added : List Frag) (hne : added ≠ []) (hv : ∀ k ∈ added, k.Valid) :
    ∃ fills p ps, insertAll added = fills ∧ (∀ x, Covers fills x ↔ ∃ k ∈ added, k.Has x) ∧
      Record.data ⟨4, false, some (.aggregate st fills)⟩ = some (0x40 :: st :: p) ∧
      Record.size ⟨4, false, some (.aggregate st fills)⟩ = some (2 + p.length) ∧
      Row p (pairNums ps) ∧ ranges 0 ps = fills ∧
      read (0x40 :: st :: p) = some ⟨4, false, some (.aggregate st fills)⟩ := by
  obtain ⟨hc, hcov⟩ := C07_insert_is_union added hv
  generalize hs : insertAll added = s at hc hcov
  obtain ⟨i1, i2, i3, i4⟩ := fills_pairs 0 s hc (fun _ _ => Nat.zero_le _)
  have hsize := numsSize_eq _ i4
  have hrow := row_rowBytes _ i4
  have hsz : Record.size ⟨4, false, some (.aggregate st s)⟩ =
      some (2 + (rowBytes (fillNums 0 s)).length) := by
    simp only [Record.size, Content.size, hsize, Option.bind_eq_bind, Option.bind_some, Option.pure_def,
      Option.some.injEq]
    omega
  have hsne : pairsOf 0 s ≠ [] := by
    cases s with
    | nil =>
      obtain ⟨k, hk⟩ := List.exists_mem_of_ne_nil _ hne
      have := (hcov k.b).2 ⟨k, hk, Nat.le_refl _, (hv k hk).1⟩
      exact absurd this (covers_nil _)
    | cons f fs => simp [pairsOf]
  refine ⟨s, rowBytes (fillNums 0 s), pairsOf 0 s, rfl, hcov, ?_, hsz, i1 ▸ hrow, i2, ?_⟩
  · have e : (0x40 : UInt8) = Record.firstByte ⟨4, false, some (.aggregate st s)⟩ := by
      
      have e : (0x40 : UInt8) = (4 : UInt8) <<< 4 ||| (if false = true then 1 else 0) := by decide
      simpa only [Record.firstByte] using e
    simp only [Record.data, hsz, Option.bind_eq_bind, Option.bind_some, Content.write]
    rw [if_neg (by omega), Option.bind_some,
      writeNums_eq _ i4 _ (by omega), if_neg (by simp; omega), ← e]
    rfl
  · rw [i1] at hrow
    have hd := (readFills_iff ((rowBytes (pairNums (pairsOf 0 s))).length + 1) 0 []
      (rowBytes (pairNums (pairsOf 0 s))) (by omega) _).2 ⟨_, hsne, hrow, rfl⟩
    have hval : ∀ f ∈ ranges 0 (pairsOf 0 s), f.Valid := by rw [i2]; exact hc.1
    rw [wrapRanges_eq 0 _ i3 hval, i2] at hd
    have hu := C07_insert_is_union s hc.1
    have heq : insertAll s = s := canonical_unique _ _ hu.1 hc (fun x => by rw [hu.2]; rfl)
    rw [i1, read_aggregate, hd]
    have : List.foldl (fun s k => (insertFragment s k).1) [] s = insertAll s := rfl
    rw [this, heq]
    rfl

/-! ### Status reports and custody signals -/

theorem shift_iff (b : UInt8) (t : Nat) (ht : t < 16) : b >>> 4 = UInt8.ofNat t ↔ b.toNat / 16 = t := by
  have e : (4 : UInt8).toNat % 8 = 4 := rfl
  have e2 : t % 2 ^ 8 = t := Nat.mod_eq_of_lt (by omega)
  rw [← UInt8.toNat_inj, UInt8.toNat_shiftRight, UInt8.toNat_ofNat', e, e2, Nat.shiftRight_eq_div_pow]

theorem low_bit (b : UInt8) : (b &&& 1 != 0) = decide (b.toNat % 2 = 1) := by
  have h : ∀ k < 256, (UInt8.ofNat k &&& 1 != 0) = decide ((UInt8.ofNat k).toNat % 2 = 1) := by
    decide +kernel
  have := h b.toNat b.toNat_lt
  simpa using this

/-- C55: the bytes read as a status report are exactly: a byte with the type 1 in its upper half and
the fragment flag as lowest bit, then a status report of RFC 5050 up to the end. -/
theorem C55_status_read_iff (data : Bytes) (r : StatusReport) :
    (∃ rec, read data = some rec ∧ rec.content = some (.status r)) ↔
      ∃ b p, data = b :: p ∧ b.toNat / 16 = 1 ∧ (b.toNat % 2 = 1 ↔ r.isFragment = true) ∧
        IsStatusReport p r ∧ StatusNormal r ∧ EidOk r.eid := by
  constructor
  · rintro ⟨rec, h, hc⟩
    match data, h with
    | b :: p, h =>
      simp only [read] at h
      split at h
      · simp at h
      · rename_i c hrc
        simp only [Option.some.injEq] at h
        subst h
        simp only [Option.some.injEq] at hc
        subst hc
        unfold readContent at hrc
        split at hrc
        · rename_i h1
          split at hrc
          · rename_i r' hr
            simp only [Option.some.injEq, Content.status.injEq] at hrc
            subst hrc
            obtain ⟨q, hq, hs, hf, hn, he⟩ := (readStatus_iff _ _ _ _).1 hr
            rw [List.append_nil] at hq
            subst hq
            rw [low_bit] at hf
            exact ⟨b, p, rfl, (shift_iff b 1 (by omega)).1 h1, by rw [hf]; simp, hs, hn, he⟩
          · simp at hrc
        · split at hrc
          · split at hrc <;> simp at hrc
          · split at hrc
            · split at hrc <;> simp at hrc
            · simp at hrc
    | [], h => simp [read] at h
  · rintro ⟨b, p, rfl, h1, h2, hs, hn, he⟩
    have hb := (shift_iff b 1 (by omega)).2 h1
    have hf : (b &&& 1 != 0) = r.isFragment := by
      rw [low_bit, Bool.eq_iff_iff]; simpa using h2
    have hr := (readStatus_iff r.isFragment p r []).2 ⟨p, by simp, hs, rfl, hn, he⟩
    refine ⟨⟨b >>> 4, b &&& 1 != 0, some (.status r)⟩, ?_, rfl⟩
    simp only [read, hf]
    rw [hb]
    simp only [readContent, hr]
    rfl

/-- C55: the bytes read as a custody signal are exactly: a byte with the type 2 in its upper half and
the fragment flag as lowest bit, then a custody signal of RFC 5050 up to the end. -/
theorem C55_custody_read_iff (data : Bytes) (c : CustodySignal) :
    (∃ rec, read data = some rec ∧ rec.content = some (.custody c)) ↔
      ∃ b p, data = b :: p ∧ b.toNat / 16 = 2 ∧ (b.toNat % 2 = 1 ↔ c.isFragment = true) ∧
        IsCustodySignal p c ∧ CustodyNormal c ∧ EidOk c.eid := by
  constructor
  · rintro ⟨rec, h, hc⟩
    match data, h with
    | b :: p, h =>
      simp only [read] at h
      split at h
      · simp at h
      · rename_i c' hrc
        simp only [Option.some.injEq] at h
        subst h
        simp only [Option.some.injEq] at hc
        subst hc
        unfold readContent at hrc
        split at hrc
        · split at hrc <;> simp at hrc
        · split at hrc
          · rename_i h1
            split at hrc
            · rename_i r' hr
              simp only [Option.some.injEq, Content.custody.injEq] at hrc
              subst hrc
              obtain ⟨q, hq, hs, hf, hn, he⟩ := (readCustody_iff _ _ _ _).1 hr
              rw [List.append_nil] at hq
              subst hq
              rw [low_bit] at hf
              exact ⟨b, p, rfl, (shift_iff b 2 (by omega)).1 h1, by rw [hf]; simp, hs, hn, he⟩
            · simp at hrc
          · split at hrc
            · split at hrc <;> simp at hrc
            · simp at hrc
    | [], h => simp [read] at h
  · rintro ⟨b, p, rfl, h1, h2, hs, hn, he⟩
    have hb := (shift_iff b 2 (by omega)).2 h1
    have hf : (b &&& 1 != 0) = c.isFragment := by
      rw [low_bit, Bool.eq_iff_iff]; simpa using h2
    have hr := (readCustody_iff c.isFragment p c []).2 ⟨p, by simp, hs, rfl, hn, he⟩
    refine ⟨⟨b >>> 4, b &&& 1 != 0, some (.custody c)⟩, ?_, rfl⟩
    simp only [read, hf]
    rw [hb]
    have e : ¬ UInt8.ofNat 2 = 1 := by decide
    simp only [readContent, hr, e, if_false]
    rfl

theorem writeEid_eq (eid : Bytes) (h : EidOk eid) (n : Nat)
    (hn : (encodeU64ClassicBufSize10 eid.length).length + eid.length ≤ n) :
    writeEid eid n = some (encodeU64ClassicBufSize10 eid.length ++ eid) := by
  have h2 := h.2
  have hm : eid.length % 2 ^ 32 = eid.length := Nat.mod_eq_of_lt (by omega)
  simp only [writeEid, hm]
  split
  · rename_i hle
    have e : encodeU64ClassicBufSize10 eid.length = [UInt8.ofNat eid.length] := by
      unfold encodeU64ClassicBufSize10
      rw [if_pos (by omega), lowByte, show (127 : Nat) = 2 ^ 7 - 1 from rfl, Nat.and_two_pow_sub_one_eq_mod, Nat.mod_eq_of_lt (by omega)]
    rw [e] at hn ⊢
    simp only [List.length_cons, List.length_nil] at hn
    rw [if_neg (by omega), if_neg (by omega)]
    simp
  · rw [encodeU32Classic_eq _ _ (by omega), if_neg (c := n < _) (by omega), if_neg (by omega)]
    simp

theorem nums_status (r : StatusReport) : r.nums = statusFields r := by
  obtain ⟨f1, f2, f3, f4, f5⟩ := flag_bit r.flags
  simp only [StatusReport.nums, statusFields, timeIf, f1, f2, f3, f4, f5, opt, DtnTime.nums, time,
    decide_eq_true_eq]

theorem nums_custody (c : CustodySignal) : c.nums = custodyFields c := rfl

theorem rowBytes_length (xs : List Num) (h : InRange xs) : (rowBytes xs).length ≤ 10 * xs.length := by
  induction xs with
  | nil => simp [rowBytes]
  | cons x xs ih =>
    cases x with
    | u64 v =>
      have h1 := (isSdnv64_encode v h.1).1
      have h2 := ih h.2
      simp only [rowBytes, List.map_cons, List.flatten_cons, List.length_append, List.length_cons] at h2 ⊢
      omega
    | u32 v =>
      have h1 := (isSdnv32_encode v h.1).1
      have h2 := ih h.2
      simp only [rowBytes, List.map_cons, List.flatten_cons, List.length_append, List.length_cons] at h2 ⊢
      omega

theorem statusFields_length (r : StatusReport) : (statusFields r).length ≤ 14 := by
  have h : ∀ (c : Prop) [Decidable c] (l : List Num), (opt c l).length ≤ l.length := by
    intro c _ l; unfold opt; split <;> simp
  have h0 := h (r.isFragment = true) [.u64 r.fragmentOffset, .u64 r.fragmentLength]
  have h1 := h (Flag r.flags 0) (time r.received)
  have h2 := h (Flag r.flags 1) (time r.custody)
  have h3 := h (Flag r.flags 2) (time r.forwarded)
  have h4 := h (Flag r.flags 3) (time r.delivered)
  have h5 := h (Flag r.flags 4) (time r.deleted)
  simp only [time, List.length_cons, List.length_nil] at h0 h1 h2 h3 h4 h5
  simp only [statusFields, time, List.length_append, List.length_cons, List.length_nil]
  omega

theorem custodyFields_length (c : CustodySignal) : (custodyFields c).length ≤ 6 := by
  have h0 : (opt (c.isFragment = true) [Num.u64 c.fragmentOffset, .u64 c.fragmentLength]).length ≤ 2 := by
    unfold opt; split <;> simp
  simp only [custodyFields, time, List.length_append, List.length_cons, List.length_nil]
  omega

theorem first_status : ∀ f : Bool,
    ((1 : UInt8) <<< 4 ||| if f = true then 1 else 0) = if f = true then 0x11 else 0x10 := by decide

theorem first_custody : ∀ f : Bool,
    ((2 : UInt8) <<< 4 ||| if f = true then 1 else 0) = if f = true then 0x21 else 0x20 := by decide

/-- C55: a status report whose numbers fit their types and whose endpoint text has an acceptable length
is written with the size announced, and reading returns it. Written as a block, with any flags and
whatever follows, it is read as a payload block with these data. -/
theorem C55_status_round_trip (r : StatusReport) (hr : InRange (statusFields r)) (hn : StatusNormal r)
    (he : EidOk r.eid) (flags : Nat) (hfl : flags < 2 ^ 64) :
    ∃ d out, Record.data ⟨1, r.isFragment, some (.status r)⟩ = some d ∧
      Record.size ⟨1, r.isFragment, some (.status r)⟩ = some d.length ∧
      read d = some ⟨1, r.isFragment, some (.status r)⟩ ∧
      Record.serialize flags ⟨1, r.isFragment, some (.status r)⟩ = some (out, ⟨1, flags, d⟩) ∧
      ∀ rest, Bpv6Canonical.read (out ++ rest) = some (⟨1, flags, d⟩, rest) := by
  have h2 := he.2
  have hr' := hr
  rw [← nums_status] at hr'
  have hbound := rowBytes_length _ hr'
  have hcount := statusFields_length r
  rw [← nums_status] at hcount
  have hl32 := (isSdnv32_encode r.eid.length (by omega)).1
  have hsz : Record.size ⟨1, r.isFragment, some (.status r)⟩ =
      some (3 + (rowBytes r.nums).length + (encodeU64ClassicBufSize10 r.eid.length).length +
        r.eid.length) := by
    simp only [Record.size, Content.size, numsSize_eq _ hr', numBytesRequired_eq r.eid.length (by omega),
      Option.bind_eq_bind, Option.bind_some, Option.pure_def, Option.some.injEq]
    omega
  have hdata : Record.data ⟨1, r.isFragment, some (.status r)⟩ =
      some ((if r.isFragment then 0x11 else 0x10) :: r.flags :: r.reason ::
        (rowBytes r.nums ++ (encodeU64ClassicBufSize10 r.eid.length ++ r.eid))) := by
    simp only [Record.data, hsz, Option.bind_eq_bind, Option.bind_some, Content.write]
    rw [if_neg (by omega), writeNums_eq _ hr' _ (by omega), writeEid_eq _ he _ (by omega)]
    simp only [Option.bind_some, Option.pure_def]
    rw [if_neg (by simp; omega), Record.firstByte, first_status]
  have hread : read ((if r.isFragment then 0x11 else 0x10) :: r.flags :: r.reason ::
        (rowBytes r.nums ++ (encodeU64ClassicBufSize10 r.eid.length ++ r.eid))) =
      some ⟨1, r.isFragment, some (.status r)⟩ := by
    have hs := (readStatus_iff r.isFragment (r.flags :: r.reason ::
        (rowBytes r.nums ++ (encodeU64ClassicBufSize10 r.eid.length ++ r.eid))) r []).2
      ⟨_, (List.append_nil _).symm, ⟨_, _, rfl, by rw [nums_status]; exact row_rowBytes _ hr, _, rfl,
        isSdnv32_encode _ (by omega)⟩, rfl, hn, he⟩
    have e1 : (if r.isFragment = true then (0x11 : UInt8) else 0x10) >>> 4 = 1 := by
      cases r.isFragment <;> decide
    have e2 : ((if r.isFragment = true then (0x11 : UInt8) else 0x10) &&& 1 != 0) = r.isFragment := by
      cases r.isFragment <;> decide
    simp only [read, e1, e2, readContent, hs, if_true]
  have hlen : ((if r.isFragment = true then (0x11 : UInt8) else 0x10) :: r.flags :: r.reason ::
      (rowBytes r.nums ++ (encodeU64ClassicBufSize10 r.eid.length ++ r.eid))).length =
      3 + (rowBytes r.nums).length + (encodeU64ClassicBufSize10 r.eid.length).length +
        r.eid.length := by
    simp only [List.length_cons, List.length_append]
    omega
  generalize (if r.isFragment = true then (0x11 : UInt8) else 0x10) :: r.flags :: r.reason ::
    (rowBytes r.nums ++ (encodeU64ClassicBufSize10 r.eid.length ++ r.eid)) = d at hdata hread hlen
  refine ⟨d, Bpv6Canonical.serialize ⟨1, flags, d⟩, hdata, by rw [hsz, hlen], hread, ?_, ?_⟩
  · simp only [Record.serialize, hdata, Option.bind_eq_bind, Option.bind_some, Option.pure_def]
  · intro rest
    refine (Bpv6Canonical.C54_round_trip ⟨1, flags, d⟩ hfl ?_).2.2 rest
    simp only
    omega

/-- C55: the same for custody signals. -/
theorem C55_custody_round_trip (c : CustodySignal) (hr : InRange (custodyFields c)) (hn : CustodyNormal c)
    (he : EidOk c.eid) (flags : Nat) (hfl : flags < 2 ^ 64) :
    ∃ d out, Record.data ⟨2, c.isFragment, some (.custody c)⟩ = some d ∧
      Record.size ⟨2, c.isFragment, some (.custody c)⟩ = some d.length ∧
      read d = some ⟨2, c.isFragment, some (.custody c)⟩ ∧
      Record.serialize flags ⟨2, c.isFragment, some (.custody c)⟩ = some (out, ⟨1, flags, d⟩) ∧
      ∀ rest, Bpv6Canonical.read (out ++ rest) = some (⟨1, flags, d⟩, rest) := by
  have h2 := he.2
  have hr' : InRange c.nums := hr
  have hbound := rowBytes_length _ hr'
  have hcount : c.nums.length ≤ 6 := custodyFields_length c
  have hl32 := (isSdnv32_encode c.eid.length (by omega)).1
  have hsz : Record.size ⟨2, c.isFragment, some (.custody c)⟩ =
      some (2 + (rowBytes c.nums).length + (encodeU64ClassicBufSize10 c.eid.length).length +
        c.eid.length) := by
    simp only [Record.size, Content.size, numsSize_eq _ hr', numBytesRequired_eq c.eid.length (by omega),
      Option.bind_eq_bind, Option.bind_some, Option.pure_def, Option.some.injEq]
    omega
  have hdata : Record.data ⟨2, c.isFragment, some (.custody c)⟩ =
      some ((if c.isFragment then 0x21 else 0x20) :: c.status ::
        (rowBytes c.nums ++ (encodeU64ClassicBufSize10 c.eid.length ++ c.eid))) := by
    simp only [Record.data, hsz, Option.bind_eq_bind, Option.bind_some, Content.write]
    rw [if_neg (by omega), writeNums_eq _ hr' _ (by omega), writeEid_eq _ he _ (by omega)]
    simp only [Option.bind_some, Option.pure_def]
    rw [if_neg (by simp; omega), Record.firstByte, first_custody]
  have hread : read ((if c.isFragment then 0x21 else 0x20) :: c.status ::
        (rowBytes c.nums ++ (encodeU64ClassicBufSize10 c.eid.length ++ c.eid))) =
      some ⟨2, c.isFragment, some (.custody c)⟩ := by
    have hs := (readCustody_iff c.isFragment (c.status ::
        (rowBytes c.nums ++ (encodeU64ClassicBufSize10 c.eid.length ++ c.eid))) c []).2
      ⟨_, (List.append_nil _).symm, ⟨_, _, rfl, row_rowBytes _ hr, _, rfl,
        isSdnv32_encode _ (by omega)⟩, rfl, hn, he⟩
    have e1 : (if c.isFragment = true then (0x21 : UInt8) else 0x20) >>> 4 = 2 := by
      cases c.isFragment <;> decide
    have e2 : ((if c.isFragment = true then (0x21 : UInt8) else 0x20) &&& 1 != 0) = c.isFragment := by
      cases c.isFragment <;> decide
    have e3 : ¬ (2 : UInt8) = 1 := by decide
    simp only [read, e1, e2, e3, readContent, hs, if_true, if_false]
  have hlen : ((if c.isFragment = true then (0x21 : UInt8) else 0x20) :: c.status ::
      (rowBytes c.nums ++ (encodeU64ClassicBufSize10 c.eid.length ++ c.eid))).length =
      2 + (rowBytes c.nums).length + (encodeU64ClassicBufSize10 c.eid.length).length +
        c.eid.length := by
    simp only [List.length_cons, List.length_append]
    omega
  generalize (if c.isFragment = true then (0x21 : UInt8) else 0x20) :: c.status ::
    (rowBytes c.nums ++ (encodeU64ClassicBufSize10 c.eid.length ++ c.eid)) = d at hdata hread hlen
  refine ⟨d, Bpv6Canonical.serialize ⟨1, flags, d⟩, hdata, by rw [hsz, hlen], hread, ?_, ?_⟩
  · simp only [Record.serialize, hdata, Option.bind_eq_bind, Option.bind_some, Option.pure_def]
  · intro rest
    refine (Bpv6Canonical.C54_round_trip ⟨1, flags, d⟩ hfl ?_).2.2 rest
    simp only
    omega

/-- C55: the status byte of a custody signal returns the verdict and the 7-bit reason put into it. -/
theorem C55_custody_status (succeeded : Bool) (reason : UInt8) (h : reason.toNat < 128) :
    custodySucceeded (custodyStatus succeeded reason) = succeeded ∧
      custodyReason (custodyStatus succeeded reason) = reason := by
  have hh : ∀ s : Bool, ∀ k < 128, custodySucceeded (custodyStatus s (UInt8.ofNat k)) = s ∧
      custodyReason (custodyStatus s (UInt8.ofNat k)) = UInt8.ofNat k := by decide +kernel
  have := hh succeeded reason.toNat h
  simpa using this

/-! Instances. -/

example : (Record.data ⟨4, false, some (.aggregate 0x81
      (insertAll [⟨7, 7⟩, ⟨300, 310⟩, ⟨8, 9⟩, ⟨1, 2⟩]))⟩) =
    some [0x40, 0x81, 1, 2, 5, 3, 0x82, 0x23, 11] := by decide +kernel
example : (read [0x40, 0x81, 1, 2, 5, 3, 0x82, 0x23, 11]) =
    some ⟨4, false, some (.aggregate 0x81 [⟨1, 2⟩, ⟨7, 9⟩, ⟨300, 310⟩])⟩ := by decide +kernel
example : ∀ f ∈ ranges 0 [(1, 2), (5, 3), (291, 11)], f.Valid := by decide +kernel

/-- A report that a fragment was received and deleted. -/
def sampleReport : StatusReport :=
  ⟨0x11, 1, true, 1000, 500, ⟨700000000, 999999999⟩, ⟨0, 0⟩, ⟨0, 0⟩, ⟨0, 0⟩, ⟨700000001, 5⟩, 699999000, 3,
    [105, 112, 110, 58, 49, 46, 49]⟩

example : StatusNormal sampleReport ∧ EidOk sampleReport.eid := by
  unfold StatusNormal EidOk; decide +kernel
example : InRange (statusFields sampleReport) := by
  have e : statusFields sampleReport = [.u64 1000, .u64 500, .u64 700000000, .u32 999999999,
    .u64 700000001, .u32 5, .u64 699999000, .u64 3] := by decide +kernel
  rw [e]; simp [InRange]
example : ((Record.data ⟨1, true, some (.status sampleReport)⟩).bind read) =
    some ⟨1, true, some (.status sampleReport)⟩ := by decide +kernel

end Hdtn.AdminRecord6
