import Verif.AdminRecord7.Lemmas

/-! Lemmas about writing administrative records. -/

namespace Hdtn.AdminRecord7

open Hdtn.HashMap16 Hdtn.Cbor Hdtn.Cbor.Spec Hdtn.Cbhe Hdtn.Cbhe.Spec Hdtn.Bpv7Canonical Hdtn.Bpv7Canonical.Spec Spec

/-- The bounded writer `w` stores `e` whenever there is room for it. -/
def Stores (w : Nat → Bytes) (e : Bytes) : Prop := ∀ n, e.length ≤ n → w n = e

theorem writeAll_eq {ws : List (Nat → Bytes)} {es : List Bytes} (h : List.Forall₂ Stores ws es) (n : Nat)
    (hn : es.flatten.length ≤ n) : writeAll ws n = es.flatten := by
  induction h generalizing n with
  | nil => rfl
  | cons h1 _ ih =>
    rename_i w e ws es _
    simp only [List.flatten_cons, List.length_append] at hn
    have hw := h1 n (by omega)
    rw [writeAll, hw, ih _ (by omega)]
    rfl

theorem stores_uint (v : Nat) : Stores (encodeU64Classic v) (encodeU64 v) := fun n hn => by
  rw [encodeClassic_eq, if_neg (by omega)]

theorem stores_eid (e : Eid) : Stores (serialize7Bounded e) (serialize7 e) := fun n hn => (C34_bpv7_bounded e n).2 hn

theorem stores_two (a b : Nat) : Stores (twoSerializeBounded a b) (twoSerialize a b) := fun n hn => (C06_two_bounded a b n).2 hn

theorem stores_head (v : Nat) (hv : v < 2 ^ 64) : Stores (stringHeadBounded v) (byteStringHead v) := fun n hn => by
  rw [(isStringHead_encode v hv).2] at hn
  unfold stringHeadBounded byteStringHead
  rw [stores_uint v n hn]
  cases encodeU64 v <;> rfl

theorem size_uint (v : Nat) (hv : v < 2 ^ 64) : encodingSize v = some (encodeU64 v).length := by
  rw [encodingSize_eq v hv, encode_length]

theorem uint_length (v : Nat) : (encodeU64 v).length ≤ 9 := by
  rw [encode_length]; unfold encodingSizeClassic; split_ifs <;> omega

/-- The bytes of a status. -/
def statusBytes (f : Bool) (s : Status) : Bytes :=
  (if (f && s.asserted) = true then 0x82 else 0x81) :: (if s.asserted then 0xf5 else 0xf4) ::
    (if (f && s.asserted) = true then encodeU64 s.time else [])

theorem isStatus_bytes (f : Bool) (s : Status) (hs : s.time < 2 ^ 64) : IsStatus f (statusBytes f s) (carriedStatus f s) := by
  obtain ⟨a, t⟩ := s
  cases f <;> cases a
  · exact ⟨[0xf4], Or.inr ⟨by simp [Stamped], rfl, rfl⟩, Or.inr ⟨by simp [Stamped], Or.inl rfl⟩⟩
  · exact ⟨[0xf5], Or.inr ⟨by simp [Stamped], rfl, rfl⟩, Or.inr ⟨by simp [Stamped], Or.inl rfl⟩⟩
  · exact ⟨[0xf4], Or.inr ⟨by simp [Stamped, carriedStatus], rfl, rfl⟩, Or.inr ⟨by simp [Stamped, carriedStatus], Or.inl rfl⟩⟩
  · exact ⟨0xf5 :: encodeU64 t, Or.inl ⟨by simp [Stamped, carriedStatus], _, rfl, isUint_encode t hs⟩,
      Or.inl ⟨by simp [Stamped, carriedStatus], Or.inl rfl⟩⟩

theorem isStatuses_bytes (f : Bool) (ss : List Status) (hs : ∀ s ∈ ss, s.time < 2 ^ 64) :
    Each (IsStatus f) (ss.map (statusBytes f)).flatten (ss.map (carriedStatus f)) := by
  induction ss with
  | nil => rfl
  | cons s ss ih =>
    exact ⟨_, _, rfl, isStatus_bytes f s (hs s (by simp)), ih fun x hx => hs x (by simp [hx])⟩

theorem Spec.Each.imp {α : Type} {P Q : Bytes → α → Prop} (h : ∀ p a, P p a → Q p a) {p : Bytes} {l : List α}
    (he : Each P p l) : Each Q p l := by
  induction l generalizing p with
  | nil => exact he
  | cons a l ih =>
    obtain ⟨q, r, rfl, h1, h2⟩ := he
    exact ⟨q, r, rfl, h _ _ h1, ih h2⟩

theorem writeStatus_eq (f : Bool) (s : Status) (n : Nat) (hn : (statusBytes f s).length ≤ n) :
    writeStatus f s n = some (statusBytes f s) := by
  simp only [statusBytes, List.length_cons] at hn
  simp only [writeStatus]
  rw [if_neg (by omega)]
  unfold statusBytes
  by_cases hc : (f && s.asserted) = true
  · rw [if_pos hc] at hn
    rw [if_pos hc, if_pos hc, if_pos hc, stores_uint _ _ (by omega)]
  · rw [if_neg hc, if_neg hc, if_neg hc]

theorem writeStatuses_eq (f : Bool) (ss : List Status) (n : Nat) (hn : (ss.map (statusBytes f)).flatten.length ≤ n) :
    writeStatuses f ss n = some (ss.map (statusBytes f)).flatten := by
  induction ss generalizing n with
  | nil => rfl
  | cons s ss ih =>
    simp only [List.map_cons, List.flatten_cons, List.length_append] at hn ⊢
    simp only [writeStatuses, writeStatus_eq f s n (by omega), Option.bind_eq_bind, Option.bind_some, ih _ (Nat.le_sub_of_add_le' hn),
      Option.pure_def]

theorem timesSize_eq (f : Bool) (ss : List Status) (hs : ∀ s ∈ ss, s.time < 2 ^ 64) :
    ∃ k, (if f then timesSize ss else some 0) = some k ∧
      (ss.map (statusBytes f)).flatten.length = 2 * ss.length + k ∧ k ≤ 9 * ss.length := by
  induction ss with
  | nil => cases f <;> exact ⟨0, rfl, rfl, by simp⟩
  | cons s ss ih =>
    obtain ⟨k, h1, h2, h3⟩ := ih fun x hx => hs x (by simp [hx])
    have hl := uint_length s.time
    cases f with
    | false =>
      refine ⟨k, by simpa using h1, ?_, by simp; omega⟩
      simp only [List.map_cons, List.flatten_cons, List.length_append, h2, List.length_cons, statusBytes, Bool.false_and,
        Bool.false_eq_true, if_false, List.length_nil]
      omega
    | true =>
      simp only [if_true] at h1 ⊢
      rcases Bool.eq_false_or_eq_true s.asserted with ha | ha
      · refine ⟨(encodeU64 s.time).length + k, ?_, ?_, by simp; omega⟩
        · simp [timesSize, h1, ha, size_uint _ (hs s (by simp))]
        · simp only [List.map_cons, List.flatten_cons, List.length_append, h2, List.length_cons, statusBytes, ha, Bool.and_self,
            if_true]
          omega
      · refine ⟨k, ?_, ?_, by simp; omega⟩
        · simp [timesSize, h1, ha]
        · simp only [List.map_cons, List.flatten_cons, List.length_append, h2, List.length_cons, statusBytes, ha, Bool.and_false,
            Bool.false_eq_true, if_false, List.length_nil]
          omega

/-- The bytes behind the statuses. -/
def tailBytes (r : Report) : List Bytes :=
  [encodeU64 r.reason, serialize7 r.source, twoSerialize r.ms r.seq] ++
    if r.isFragment then [encodeU64 r.offset, encodeU64 r.length] else []

/-- The bytes of a report. -/
def reportBytes (r : Report) : Bytes :=
  (if r.isFragment then 0x86 else 0x84) :: 0x84 :: ((r.info.map (statusBytes r.timeFlag)).flatten ++ (tailBytes r).flatten)

theorem report_write (r : Report) (n : Nat) (hn : (reportBytes r).length ≤ n) : r.write n = some (reportBytes r) := by
  simp only [reportBytes, List.length_cons, List.length_append] at hn
  unfold Report.write
  rw [if_neg (by omega), writeStatuses_eq _ _ _ (by omega)]
  have hf : List.Forall₂ Stores r.items (tailBytes r) := by
    unfold Report.items tailBytes
    cases r.isFragment
    · exact .cons (stores_uint _) (.cons (stores_eid _) (.cons (stores_two _ _) .nil))
    · exact .cons (stores_uint _) (.cons (stores_eid _) (.cons (stores_two _ _) (.cons (stores_uint _) (.cons (stores_uint _) .nil))))
  simp only [Option.bind_eq_bind, Option.bind_some, Option.pure_def]
  rw [writeAll_eq hf _ (by omega)]
  rfl

theorem report_size (r : Report) (hr : ReportInRange r) :
    r.size = some (reportBytes r).length ∧ (reportBytes r).length < 2 ^ 62 := by
  obtain ⟨h4, ht, hre, hn, hs, h0, hms, hseq, ho, hl⟩ := hr
  obtain ⟨k, hk, hk2, hk3⟩ := timesSize_eq r.timeFlag r.info ht
  have he := C34_bpv7_round_trip r.source hn hs h0
  have h7 := C34_bpv7_length _ _ he.1
  have htw := C06_two_round_trip r.ms r.seq hms hseq
  have l1 := uint_length r.reason
  have l2 := uint_length r.offset
  have l3 := uint_length r.length
  have l4 : (twoSerialize r.ms r.seq).length ≤ 19 := by
    have := uint_length r.ms
    have := uint_length r.seq
    simp only [twoSerialize, List.length_cons, List.length_append]; omega
  unfold Report.size
  rw [hk, size_uint _ hre, he.2.1, htw.2.1]
  simp only [reportBytes, tailBytes, List.length_cons, List.length_append, hk2, h4]
  cases hf : r.isFragment
  · simp only [Bool.false_eq_true, if_false, Option.bind_eq_bind, Option.bind_some, Option.pure_def, Option.some.injEq,
      List.append_nil, List.flatten_cons, List.flatten_nil, List.length_append, List.length_nil]
    omega
  · simp only [if_true, fragmentSize, size_uint _ ho, size_uint _ hl, Option.bind_eq_bind, Option.bind_some, Option.pure_def, Option.some.injEq,
      List.cons_append, List.nil_append, List.flatten_cons, List.flatten_nil, List.length_append, List.length_nil]
    omega

theorem report_items (r : Report) (hr : ReportInRange r) (Info : Bytes → Prop) (info : Bytes) (hi : Info info) :
    IsReportItems Info (info ++ (tailBytes r).flatten) (carried r) := by
  obtain ⟨h4, ht, hre, hn, hs, h0, hms, hseq, ho, hl⟩ := hr
  have hpair : IsPair (twoSerialize r.ms r.seq) r.ms r.seq :=
    ⟨_, Or.inl rfl, _, _, rfl, isUint_encode _ hms, _, [], by simp, isUint_encode _ hseq, rfl⟩
  cases hf : r.isFragment
  · refine ⟨info, encodeU64 r.reason, serialize7 r.source, twoSerialize r.ms r.seq, [], by simp [tailBytes, hf], hi,
      isUint_encode _ hre, serialize7_isEid _ hn hs h0, hpair, Or.inr ⟨hf, rfl, ?_, ?_⟩⟩ <;> simp [carried, hf]
  · refine ⟨info, encodeU64 r.reason, serialize7 r.source, twoSerialize r.ms r.seq, encodeU64 r.offset ++ encodeU64 r.length,
      by simp [tailBytes, hf], hi, isUint_encode _ hre, serialize7_isEid _ hn hs h0, hpair, Or.inl ⟨hf, ?_⟩⟩
    simp only [carried, hf, if_true]
    exact ⟨_, _, rfl, isUint_encode _ ho, _, [], by simp, isUint_encode _ hl, rfl⟩

theorem isReport_bytes (r : Report) (hr : ReportInRange r) : IsReport (reportBytes r) (carried r) := by
  have h := isStatuses_bytes r.timeFlag r.info hr.2.1
  refine ⟨by simp [carried, hr.1], 0x84 :: (r.info.map (statusBytes r.timeFlag)).flatten ++ (tailBytes r).flatten, Or.inl ?_,
    report_items r hr _ _ ⟨_, Or.inl rfl, h⟩⟩
  unfold reportBytes
  simp only [carried]
  rcases Bool.eq_false_or_eq_true r.isFragment with hf | hf <;> simp [hf]

theorem taken_bytes (r : Report) (hr : ReportInRange r) (ha : ∃ s ∈ r.info, s.asserted = true) :
    TakenForReport (reportBytes r) (carried r) := by
  have h := isStatuses_bytes r.timeFlag r.info hr.2.1
  refine ⟨by simp [carried, hr.1], ?_, 0x84 :: (r.info.map (statusBytes r.timeFlag)).flatten ++ (tailBytes r).flatten,
    Or.inl ?_, report_items r hr _ _ ⟨_, Or.inl rfl, h.imp fun _ _ h => Or.inl h⟩⟩
  · obtain ⟨s, hs, hsa⟩ := ha
    refine ⟨carriedStatus r.timeFlag s, by simp only [carried]; exact List.mem_map_of_mem hs, ?_⟩
    unfold carriedStatus
    split <;> exact hsa
  unfold reportBytes
  simp only [carried]
  rcases Bool.eq_false_or_eq_true r.isFragment with hf | hf <;> simp [hf]

/-- The bytes of an encapsulated bundle. -/
def pduBytes (p : Pdu) : Bytes :=
  0x83 :: (encodeU64 p.transmissionId ++ (encodeU64 p.retransmission ++ (byteStringHead p.bundle.length ++ p.bundle)))

theorem pdu_write (p : Pdu) (hp : PduInRange p) (n : Nat) (hn : (pduBytes p).length ≤ n) : p.write n = some (pduBytes p) := by
  have hl : p.bundle.length < 2 ^ 64 := by have := hp.2.2; omega
  simp only [pduBytes, List.length_cons, List.length_append] at hn
  unfold Pdu.write
  rw [if_neg (by omega), writeAll_eq (es := [encodeU64 p.transmissionId, encodeU64 p.retransmission, byteStringHead p.bundle.length])
    (.cons (stores_uint _) (.cons (stores_uint _) (.cons (stores_head _ hl) .nil))) _ (by simp; omega)]
  simp [pduBytes]

theorem pdu_size (p : Pdu) (hp : PduInRange p) : p.size = some (pduBytes p).length ∧ (pduBytes p).length < 2 ^ 63 + 2 ^ 62 := by
  obtain ⟨h1, h2, h3⟩ := hp
  have l1 := uint_length p.transmissionId
  have l2 := uint_length p.retransmission
  have l3 := uint_length p.bundle.length
  have h4 := (isStringHead_encode p.bundle.length (by omega)).2
  unfold Pdu.size
  rw [size_uint _ h1, size_uint _ h2, size_uint _ (by omega)]
  simp only [Option.bind_eq_bind, Option.bind_some, Option.pure_def, Option.some.injEq, pduBytes, List.length_cons,
    List.length_append, h4]
  omega

theorem isPdu_bytes (p : Pdu) (hp : PduInRange p) : IsPdu [] (pduBytes p) p := by
  obtain ⟨h1, h2, h3⟩ := hp
  exact ⟨_, _, _, Or.inl (by simp [pduBytes]), isUint_encode _ h1, isUint_encode _ h2, (isStringHead_encode _ (by omega)).1⟩

/-- The data of a record in range, and what they are. -/
theorem record_write (r : Record) (hr : RecordInRange r) :
    ∃ d, r.size = some d.length ∧ r.write d.length = some d ∧ d.length < 2 ^ 64 ∧ IsRecord d (carriedRecord r) ∧
      (Asserts r → IsSupported TakenForReport [] d (carriedRecord r)) ∧
      ∀ x, r.content = some (.report x) → d = 0x82 :: (encodeU64 1 ++ reportBytes x) := by
  rcases hr with ⟨x, hc, hx, hxr⟩ | ⟨u, hc, hu, hur⟩
  · obtain ⟨code, content⟩ := r
    simp only at hc hx
    subst hc hx
    obtain ⟨h1, h2⟩ := report_size x hxr
    refine ⟨0x82 :: (encodeU64 1 ++ reportBytes x), ?_, ?_, ?_, ?_, ?_, ?_⟩
    · simp only [Record.size, Content.size, h1, size_uint 1 (by decide), Option.bind_eq_bind, Option.bind_some, Option.pure_def,
        Option.some.injEq, List.length_cons, List.length_append]
      omega
    · simp only [Record.write, List.length_cons, List.length_append]
      rw [if_neg (by omega), stores_uint 1 _ (by omega), Content.write, report_write x _ (by omega)]
      rfl
    · have := uint_length 1
      simp only [List.length_cons, List.length_append]; omega
    · exact ⟨encodeU64 1, reportBytes x, Or.inl rfl, isUint_encode 1 (by decide), Or.inl ⟨carried x, rfl, rfl, isReport_bytes x hxr⟩⟩
    · intro ha
      exact ⟨encodeU64 1, reportBytes x, Or.inl rfl, isUint_encode 1 (by decide),
        Or.inl ⟨carried x, rfl, rfl, taken_bytes x hxr (ha x rfl)⟩⟩
    · intro y hy
      simp only [Option.some.injEq, Content.report.injEq] at hy
      rw [hy]
  · obtain ⟨code, content⟩ := r
    simp only at hc hu
    subst hc hu
    obtain ⟨h1, h2⟩ := pdu_size u hur
    refine ⟨0x82 :: (encodeU64 3 ++ pduBytes u), ?_, ?_, ?_, ?_, ?_, ?_⟩
    · simp only [Record.size, Content.size, h1, size_uint 3 (by decide), Option.bind_eq_bind, Option.bind_some, Option.pure_def,
        Option.some.injEq, List.length_cons, List.length_append]
      omega
    · simp only [Record.write, List.length_cons, List.length_append]
      rw [if_neg (by omega), stores_uint 3 _ (by omega), Content.write, pdu_write u hur _ (by omega)]
      rfl
    · have := uint_length 3
      simp only [List.length_cons, List.length_append]; omega
    · exact ⟨encodeU64 3, pduBytes u, Or.inl rfl, isUint_encode 3 (by decide), Or.inr ⟨u, rfl, rfl, isPdu_bytes u hur⟩⟩
    · intro _
      exact ⟨encodeU64 3, pduBytes u, Or.inl rfl, isUint_encode 3 (by decide), Or.inr ⟨u, rfl, rfl, isPdu_bytes u hur⟩⟩
    · intro y hy; simp at hy

/-- A report in which nothing is asserted is not read. -/
theorem unasserted_not_read (x : Report) (hx : ReportInRange x) (ha : ¬ ∃ s ∈ x.info, s.asserted = true) :
    readReport (reportBytes x) = none := by
  have h := (isStatuses_bytes x.timeFlag x.info hx.2.1).imp (Q := TakenForStatus x.timeFlag) fun _ _ h => Or.inl h
  have h2 : 2 ≤ (tailBytes x).flatten.length := by
    have := isUint_ne_nil (isUint_encode x.reason hx.2.2.1)
    simp only [tailBytes, twoSerialize, List.flatten_append, List.flatten_cons, List.length_append, List.length_cons]; omega
  have h3 := readStatuses_complete h h2 (known := none) (Or.inl rfl)
  have hany : (x.info.map (carriedStatus x.timeFlag)).any (·.asserted) = false := by
    rw [Bool.eq_false_iff]
    intro hc
    obtain ⟨s, hs, hsa⟩ := List.any_eq_true.1 hc
    obtain ⟨s', hs', rfl⟩ := List.mem_map.1 hs
    refine ha ⟨s', hs', ?_⟩
    revert hsa
    unfold carriedStatus
    split <;> exact id
  rw [hany, List.length_map, hx.1] at h3
  simp only [Bool.false_eq_true, if_false] at h3
  have hd : ∀ y : UInt8, y = 0x86 ∨ y = 0x84 → readReport (y :: 0x84 ::
      ((x.info.map (statusBytes x.timeFlag)).flatten ++ (tailBytes x).flatten)) = none := by
    rintro y (rfl | rfl) <;> simp only [readReport, h3] <;> rfl
  unfold reportBytes
  exact hd _ (by cases x.isFragment <;> simp)

end Hdtn.AdminRecord7
