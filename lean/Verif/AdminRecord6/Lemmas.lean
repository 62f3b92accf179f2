import Verif.AdminRecord6.Spec

/-!
Reading and writing of the parts of administrative records.
-/

namespace Hdtn.AdminRecord6

open Hdtn.Sdnv Hdtn.Sdnv.Spec Hdtn.FragmentSet Spec

/-! ### Rows -/

theorem row_append {p q : Bytes} {xs ys : List Num} (h : Row p xs) (h' : Row q ys) :
    Row (p ++ q) (xs ++ ys) := by
  induction h with
  | nil => simpa using h'
  | cons hp _ ih => rw [List.append_assoc]; exact .cons hp ih

theorem row_unappend {p : Bytes} {xs ys : List Num} (h : Row p (xs ++ ys)) :
    ∃ a b, p = a ++ b ∧ Row a xs ∧ Row b ys := by
  induction xs generalizing p with
  | nil => exact ⟨[], p, rfl, .nil, h⟩
  | cons x xs ih =>
    cases h with
    | @cons p q _ _ hp h =>
      obtain ⟨a, b, rfl, ha, hb⟩ := ih h
      exact ⟨p ++ a, b, by simp, .cons hp ha, hb⟩

theorem row_append_iff (p : Bytes) (xs ys : List Num) :
    Row p (xs ++ ys) ↔ ∃ a b, p = a ++ b ∧ Row a xs ∧ Row b ys :=
  ⟨row_unappend, fun ⟨_, _, h, ha, hb⟩ => h ▸ row_append ha hb⟩

theorem row_nil_iff (p : Bytes) : Row p [] ↔ p = [] :=
  ⟨fun h => by cases h; rfl, fun h => h ▸ .nil⟩

theorem row_cons_iff (p : Bytes) (x : Num) (xs : List Num) :
    Row p (x :: xs) ↔ ∃ a b, p = a ++ b ∧ IsNum a x ∧ Row b xs :=
  ⟨fun h => by cases h with | cons h1 h2 => exact ⟨_, _, rfl, h1, h2⟩,
    fun ⟨_, _, h, ha, hb⟩ => h ▸ .cons ha hb⟩

theorem row_one_iff (p : Bytes) (x : Num) : Row p [x] ↔ IsNum p x := by
  rw [row_cons_iff]
  constructor
  · rintro ⟨a, b, rfl, h, hb⟩
    rw [(row_nil_iff b).1 hb]; simpa using h
  · intro h; exact ⟨p, [], by simp, h, .nil⟩

/-! ### Writing rows -/

/-- The SDNVs of the numbers, one behind the other. -/
def rowBytes (xs : List Num) : Bytes :=
  (xs.map fun x => match x with
    | .u64 v => encodeU64ClassicBufSize10 v
    | .u32 v => encodeU64ClassicBufSize10 v).flatten

theorem isSdnv32_encode (v : Nat) (hv : v < 2 ^ 32) : IsSdnv32 (encodeU64ClassicBufSize10 v) v := by
  obtain ⟨e, h1, _, _, _, h6, h7, _⟩ := C01_sdnv32_round_trip v hv
  have e1 := h1 e.length
  rw [if_neg (by omega)] at e1
  have hl : (encodeU64ClassicBufSize10 v).length = e.length := by
    have := numBytesRequired_eq v (by omega)
    rw [this] at h7
    exact Option.some.inj h7
  have e2 := encodeU32Classic_eq v e.length hv
  rw [if_neg (by omega), e1] at e2
  rw [← e2]; exact h6

theorem row_rowBytes (xs : List Num) (h : InRange xs) : Row (rowBytes xs) xs := by
  induction xs with
  | nil => exact .nil
  | cons x xs ih =>
    cases x with
    | u64 v => exact .cons (x := .u64 v) (isSdnv64_encode v h.1) (ih h.2)
    | u32 v => exact .cons (x := .u32 v) (isSdnv32_encode v h.1) (ih h.2)

theorem numsSize_eq (xs : List Num) (h : InRange xs) : numsSize xs = some (rowBytes xs).length := by
  induction xs with
  | nil => rfl
  | cons x xs ih =>
    cases x with
    | u64 v =>
      simp [numsSize, Num.size, ih h.2, numBytesRequired_eq v h.1, rowBytes]
    | u32 v =>
      have hv : v < 2 ^ 64 := by have := h.1; omega
      simp [numsSize, Num.size, ih h.2, numBytesRequired_eq v hv, rowBytes]

theorem writeNums_eq (xs : List Num) (h : InRange xs) (n : Nat) (hn : (rowBytes xs).length ≤ n) :
    writeNums xs n = rowBytes xs := by
  induction xs generalizing n with
  | nil => rfl
  | cons x xs ih =>
    cases x with
    | u64 v =>
      simp only [rowBytes, List.map_cons, List.flatten_cons, List.length_append] at hn ⊢
      simp only [writeNums, Num.write]
      rw [encodeClassic64_eq v h.1, if_neg (by omega), ih h.2 _ (by simp only [rowBytes]; omega)]
      rfl
    | u32 v =>
      simp only [rowBytes, List.map_cons, List.flatten_cons, List.length_append] at hn ⊢
      simp only [writeNums, Num.write]
      rw [encodeU32Classic_eq v _ h.1, if_neg (by omega), ih h.2 _ (by simp only [rowBytes]; omega)]
      rfl

/-! ### Reading pieces -/

theorem readSdnv32_iff (buf : Bytes) (v : Nat) (rest : Bytes) :
    readSdnv32 buf = some (v, rest) ↔ ∃ p, buf = p ++ rest ∧ IsSdnv32 p v := by
  unfold readSdnv32
  constructor
  · intro h
    cases hd : decodeU32Classic buf with
    | mk w k =>
      rw [hd] at h
      simp only at h
      split at h
      · simp at h
      · rename_i hk
        injection h with h
        injection h with h1 h2
        subst h1
        obtain ⟨r, h3, h4, h5⟩ := (C02_decode32_success_iff buf w k).1 ⟨hd, hk⟩
        exact ⟨buf.take k, by rw [← h2, List.take_append_drop], h5⟩
  · rintro ⟨p, rfl, hp⟩
    have hne : p.length ≠ 0 := by
      intro h0
      have := hp.2.1
      rw [List.length_eq_zero_iff.1 h0] at this
      exact this
    obtain ⟨h1, h2⟩ := (C02_decode32_success_iff (p ++ rest) v p.length).2
      ⟨rest, by simp, by simp, by simpa using hp⟩
    simp [h1, hne]

theorem readTime_iff (buf : Bytes) (t : DtnTime) (rest : Bytes) :
    readTime buf = some (t, rest) ↔ ∃ p, buf = p ++ rest ∧ Row p (time t) := by
  unfold readTime
  simp only [Option.bind_eq_bind, Option.bind_eq_some_iff, Prod.exists, Option.pure_def,
    Option.some.injEq, Prod.mk.injEq, readSdnv_iff, readSdnv32_iff, time, row_cons_iff, row_nil_iff]
  constructor
  · rintro ⟨s, b1, ⟨p1, rfl, h1⟩, ns, b2, ⟨p2, rfl, h2⟩, rfl, rfl⟩
    exact ⟨p1 ++ p2, by simp, p1, p2, rfl, h1, p2, [], by simp, h2, rfl⟩
  · rintro ⟨p, rfl, p1, p2', rfl, h1, p2, _, rfl, h2, rfl⟩
    exact ⟨t.seconds, p2 ++ rest, ⟨p1, by simp, h1⟩, t.nanoseconds, rest, ⟨p2, by simp, h2⟩, rfl, rfl⟩

theorem readTimeIf_iff (flags flag : UInt8) (i : Nat) (hi : (flag &&& flags != 0) = decide (Flag flags i))
    (buf : Bytes) (t : DtnTime) (rest : Bytes) :
    readTimeIf flags flag buf = some (t, rest) ↔
      ∃ p, buf = p ++ rest ∧ Row p (opt (Flag flags i) (time t)) ∧ (¬ Flag flags i → t = ⟨0, 0⟩) := by
  unfold readTimeIf
  rw [hi]
  by_cases h : Flag flags i
  · simp [h, readTime_iff, opt]
  · simp only [h, decide_false, Bool.false_eq_true, if_false, Option.some.injEq, Prod.mk.injEq, opt,
      row_nil_iff, not_false_eq_true, true_implies]
    constructor
    · rintro ⟨rfl, rfl⟩; exact ⟨[], rfl, rfl, rfl⟩
    · rintro ⟨p, rfl, rfl, rfl⟩; exact ⟨rfl, rfl⟩

theorem flag_bit (f : UInt8) :
    ((1 &&& f != 0) = decide (Flag f 0)) ∧ ((2 &&& f != 0) = decide (Flag f 1)) ∧
    ((4 &&& f != 0) = decide (Flag f 2)) ∧ ((8 &&& f != 0) = decide (Flag f 3)) ∧
    ((16 &&& f != 0) = decide (Flag f 4)) := by
  have h : ∀ k < 256, ((1 &&& UInt8.ofNat k != 0) = decide (Flag (UInt8.ofNat k) 0)) ∧
      ((2 &&& UInt8.ofNat k != 0) = decide (Flag (UInt8.ofNat k) 1)) ∧
      ((4 &&& UInt8.ofNat k != 0) = decide (Flag (UInt8.ofNat k) 2)) ∧
      ((8 &&& UInt8.ofNat k != 0) = decide (Flag (UInt8.ofNat k) 3)) ∧
      ((16 &&& UInt8.ofNat k != 0) = decide (Flag (UInt8.ofNat k) 4)) := by decide +kernel
  have := h f.toNat f.toNat_lt
  simpa using this

theorem readFragmentIf_iff (c : Bool) (buf : Bytes) (o l : Nat) (rest : Bytes) :
    readFragmentIf c buf = some ((o, l), rest) ↔
      ∃ p, buf = p ++ rest ∧ Row p (opt c [.u64 o, .u64 l]) ∧ (c = false → o = 0 ∧ l = 0) := by
  unfold readFragmentIf
  cases c with
  | false =>
    simp only [Bool.false_eq_true, if_false, Option.some.injEq, Prod.mk.injEq, opt, row_nil_iff,
      true_implies]
    constructor
    · rintro ⟨⟨rfl, rfl⟩, rfl⟩; exact ⟨[], rfl, rfl, rfl, rfl⟩
    · rintro ⟨p, rfl, rfl, rfl, rfl⟩; exact ⟨⟨rfl, rfl⟩, rfl⟩
  | true =>
    simp only [if_true, Option.bind_eq_bind, Option.bind_eq_some_iff, Prod.exists, Option.pure_def,
      Option.some.injEq, Prod.mk.injEq, readSdnv_iff, opt, row_cons_iff, row_nil_iff,
      Bool.true_eq_false, false_implies, and_true]
    constructor
    · rintro ⟨_, b1, ⟨p1, rfl, h1⟩, _, b2, ⟨p2, rfl, h2⟩, ⟨rfl, rfl⟩, rfl⟩
      exact ⟨p1 ++ p2, by simp, p1, p2, rfl, h1, p2, [], by simp, h2, rfl⟩
    · rintro ⟨p, rfl, p1, p2', rfl, h1, p2, _, rfl, h2, rfl⟩
      exact ⟨o, p2 ++ rest, ⟨p1, by simp, h1⟩, l, rest, ⟨p2, by simp, h2⟩, ⟨rfl, rfl⟩, rfl⟩

theorem readEid_iff (buf eid rest : Bytes) :
    readEid buf = some (eid, rest) ↔ ∃ p, buf = p ++ rest ∧ IsEidText p eid ∧ EidOk eid := by
  unfold readEid
  constructor
  · intro h
    split at h
    · simp at h
    · rename_i n b hr
      split_ifs at h with h1 h2
      simp only [Option.some.injEq, Prod.mk.injEq] at h
      obtain ⟨rfl, rfl⟩ := h
      obtain ⟨p, rfl, hp⟩ := (readSdnv32_iff _ _ _).1 hr
      have hl : (b.take n).length = n := by rw [List.length_take]; omega
      refine ⟨p ++ b.take n, by simp, ⟨p, rfl, by rw [hl]; exact hp⟩, ?_⟩
      unfold EidOk; rw [hl]; omega
  · rintro ⟨p, rfl, ⟨len, rfl, hl⟩, h1, h2⟩
    have hr := (readSdnv32_iff (len ++ (eid ++ rest)) eid.length (eid ++ rest)).2 ⟨len, rfl, hl⟩
    rw [List.append_assoc, hr]
    simp only
    rw [if_neg (by omega), if_neg (by simp)]
    simp

theorem row_two_iff (p : Bytes) (a b : Nat) :
    Row p [.u64 a, .u64 b] ↔ ∃ p1 p2, p = p1 ++ p2 ∧ IsSdnv64 p1 a ∧ IsSdnv64 p2 b := by
  rw [row_cons_iff]
  simp only [row_one_iff]; rfl

theorem readStatus_iff (c : Bool) (buf : Bytes) (r : StatusReport) (rest : Bytes) :
    readStatus c buf = some (r, rest) ↔
      ∃ p, buf = p ++ rest ∧ IsStatusReport p r ∧ r.isFragment = c ∧ StatusNormal r ∧ EidOk r.eid := by
  constructor
  · intro h
    match buf, h with
    | flags :: reason :: buf, h =>
      obtain ⟨f1, f2, f3, f4, f5⟩ := flag_bit flags
      simp only [readStatus, Option.bind_eq_bind, Option.bind_eq_some_iff, Prod.exists,
        Option.pure_def, Option.some.injEq, Prod.mk.injEq, readSdnv_iff, readFragmentIf_iff,
        readTimeIf_iff flags 1 0 f1, readTimeIf_iff flags 2 1 f2, readTimeIf_iff flags 4 2 f3,
        readTimeIf_iff flags 8 3 f4, readTimeIf_iff flags 16 4 f5, readEid_iff] at h
      obtain ⟨o, l, b0, ⟨p0, rfl, h0, n0⟩, t1, b1, ⟨p1, rfl, h1, n1⟩, t2, b2, ⟨p2, rfl, h2, n2⟩,
        t3, b3, ⟨p3, rfl, h3, n3⟩, t4, b4, ⟨p4, rfl, h4, n4⟩, t5, b5, ⟨p5, rfl, h5, n5⟩,
        s, b6, ⟨p6, rfl, h6⟩, q, b7, ⟨p7, rfl, h7⟩, eid, b8, ⟨p8, rfl, h8, n8⟩, rfl, rfl⟩ := h
      refine ⟨flags :: reason :: ((p0 ++ p1 ++ p2 ++ p3 ++ p4 ++ p5 ++ (p6 ++ p7)) ++ p8), by simp,
        ⟨_, p8, rfl, ?_, h8⟩, rfl, ⟨n0, n1, n2, n3, n4, n5⟩, n8⟩
      exact row_append (row_append (row_append (row_append (row_append (row_append h0 h1) h2) h3) h4) h5)
        ((row_two_iff _ _ _).2 ⟨p6, p7, rfl, h6, h7⟩)
    | [], h => simp [readStatus] at h
    | [_], h => simp [readStatus] at h
  · rintro ⟨p, rfl, ⟨nums, et, rfl, hrow, he⟩, rfl, ⟨n0, n1, n2, n3, n4, n5⟩, n8⟩
    obtain ⟨a6, c6, rfl, hrow, hc6⟩ := row_unappend hrow
    obtain ⟨a5, p5, rfl, hrow, h5⟩ := row_unappend hrow
    obtain ⟨a4, p4, rfl, hrow, h4⟩ := row_unappend hrow
    obtain ⟨a3, p3, rfl, hrow, h3⟩ := row_unappend hrow
    obtain ⟨a2, p2, rfl, hrow, h2⟩ := row_unappend hrow
    obtain ⟨p0, p1, rfl, h0, h1⟩ := row_unappend hrow
    obtain ⟨p6, p7, rfl, h6, h7⟩ := (row_two_iff _ _ _).1 hc6
    obtain ⟨f1, f2, f3, f4, f5⟩ := flag_bit r.flags
    simp only [List.cons_append, readStatus, Option.bind_eq_bind, Option.bind_eq_some_iff, Prod.exists,
        Option.pure_def, Option.some.injEq, Prod.mk.injEq, readSdnv_iff, readFragmentIf_iff,
        readTimeIf_iff r.flags 1 0 f1, readTimeIf_iff r.flags 2 1 f2, readTimeIf_iff r.flags 4 2 f3,
        readTimeIf_iff r.flags 8 3 f4, readTimeIf_iff r.flags 16 4 f5, readEid_iff]
    exact ⟨_, _, _, ⟨p0, by simp only [List.append_assoc], h0, n0⟩, _, _, ⟨p1, rfl, h1, n1⟩,
      _, _, ⟨p2, rfl, h2, n2⟩, _, _, ⟨p3, rfl, h3, n3⟩, _, _, ⟨p4, rfl, h4, n4⟩,
      _, _, ⟨p5, rfl, h5, n5⟩, _, _, ⟨p6, rfl, h6⟩, _, _, ⟨p7, rfl, h7⟩, _, _, ⟨et, rfl, he, n8⟩,
      rfl, rfl⟩

theorem readCustody_iff (c : Bool) (buf : Bytes) (r : CustodySignal) (rest : Bytes) :
    readCustody c buf = some (r, rest) ↔
      ∃ p, buf = p ++ rest ∧ IsCustodySignal p r ∧ r.isFragment = c ∧ CustodyNormal r ∧ EidOk r.eid := by
  constructor
  · intro h
    match buf, h with
    | status :: buf, h =>
      simp only [readCustody, Option.bind_eq_bind, Option.bind_eq_some_iff, Prod.exists,
        Option.pure_def, Option.some.injEq, Prod.mk.injEq, readSdnv_iff, readFragmentIf_iff,
        readTime_iff, readEid_iff] at h
      obtain ⟨o, l, b0, ⟨p0, rfl, h0, n0⟩, t1, b1, ⟨p1, rfl, h1⟩, s, b6, ⟨p6, rfl, h6⟩,
        q, b7, ⟨p7, rfl, h7⟩, eid, b8, ⟨p8, rfl, h8, n8⟩, rfl, rfl⟩ := h
      refine ⟨status :: ((p0 ++ p1 ++ (p6 ++ p7)) ++ p8), by simp, ⟨_, p8, rfl, ?_, h8⟩, rfl, n0, n8⟩
      exact row_append (row_append h0 h1) ((row_two_iff _ _ _).2 ⟨p6, p7, rfl, h6, h7⟩)
    | [], h => simp [readCustody] at h
  · rintro ⟨p, rfl, ⟨nums, et, rfl, hrow, he⟩, rfl, n0, n8⟩
    obtain ⟨a6, c6, rfl, hrow, hc6⟩ := row_unappend hrow
    obtain ⟨p0, p1, rfl, h0, h1⟩ := row_unappend hrow
    obtain ⟨p6, p7, rfl, h6, h7⟩ := (row_two_iff _ _ _).1 hc6
    simp only [List.cons_append, readCustody, Option.bind_eq_bind, Option.bind_eq_some_iff,
        Prod.exists, Option.pure_def, Option.some.injEq, Prod.mk.injEq, readSdnv_iff,
        readFragmentIf_iff, readTime_iff, readEid_iff]
    exact ⟨_, _, _, ⟨p0, by simp only [List.append_assoc], h0, n0⟩, _, _, ⟨p1, rfl, h1⟩,
      _, _, ⟨p6, rfl, h6⟩, _, _, ⟨p7, rfl, h7⟩, _, _, ⟨et, rfl, he, n8⟩, rfl, rfl⟩

end Hdtn.AdminRecord6
