import Verif.AdminRecord7.Write

/-! C74: BPv7 administrative records. -/

namespace Hdtn.AdminRecord7

open Hdtn.HashMap16 Hdtn.Cbor Hdtn.Cbor.Spec Hdtn.Cbhe Hdtn.Cbhe.Spec Hdtn.Bpv7Canonical Hdtn.Bpv7Canonical.Spec Spec

/-! ### Reading -/

/-- C74, reports: exactly this is read. -/
theorem C74_report_iff (buf rest : Bytes) (r : Report) :
    readReport buf = some (r, rest) ↔ ∃ p, buf = p ++ rest ∧ TakenForReport p r := by
  constructor
  · intro h
    unfold readReport at h
    split at h
    case h_2 => simp at h
    rename_i x i buf
    simp only at h
    by_cases h4 : x >>> 5 = 4
    case neg => rw [if_pos h4] at h; simp at h
    rw [if_neg (by simpa using h4)] at h
    by_cases hn : x &&& 0x1f ≠ 4 ∧ x &&& 0x1f ≠ 6 ∧ x &&& 0x1f ≠ 31
    · rw [if_pos hn] at h; simp at h
    rw [if_neg hn] at h
    by_cases hi : i ≠ 0x84 ∧ i ≠ 0x9f
    · rw [if_pos hi] at h; simp at h
    rw [if_neg hi] at h
    have hn' : x &&& 0x1f = 4 ∨ x &&& 0x1f = 6 ∨ x &&& 0x1f = 31 := by
      by_cases h1 : x &&& 0x1f = 4
      · exact Or.inl h1
      by_cases h2 : x &&& 0x1f = 6
      · exact Or.inr (Or.inl h2)
      by_cases h3 : x &&& 0x1f = 31
      · exact Or.inr (Or.inr h3)
      exact absurd ⟨h1, h2, h3⟩ hn
    have hi' : i = 0x84 ∨ i = 0x9f := by
      by_cases h1 : i = 0x84
      · exact Or.inl h1
      by_cases h2 : i = 0x9f
      · exact Or.inr h2
      exact absurd ⟨h1, h2⟩ hi
    simp only [Option.bind_eq_bind, Option.bind_eq_some_iff, Option.pure_def, Option.some.injEq, Prod.mk.injEq,
      Prod.exists] at h
    obtain ⟨info, known, b1, h1, f, rfl, reason, b2, h2, source, b3, h3, ms, seq, b4, h5, frag, h6, o, l, b5, h7, b6, h8,
      rfl, rfl⟩ := h
    obtain ⟨hlen, ss, rfl, _, hf⟩ := readStatuses_sound h1
    obtain ⟨-, heach, has⟩ := hf f rfl
    obtain ⟨pr, rfl, hpr⟩ := (readUint_iff _ _ _).1 h2
    obtain ⟨ps, rfl, hps⟩ := (C34_bpv7_decode_iff _ _ _).1 h3
    obtain ⟨pt, rfl, hpt⟩ := (readTwo_iff _ _ _ _).1 h5
    obtain ⟨pf, rfl, hpf⟩ := (readFragment_iff _ _ _ _ _).1 h7
    rw [readBreak_iff] at h8
    have has' : ∃ s ∈ info, s.asserted = true := by simpa using has
    have hitems : IsReportItems (fun info' => ∃ ss, (info' = 0x84 :: ss ∨ info' = 0x9f :: ss) ∧
        Each (TakenForStatus f) ss info) (i :: ss ++ pr ++ ps ++ pt ++ pf)
        ⟨info, reason, source, ms, seq, frag, o, l, f⟩ :=
      ⟨i :: ss, pr, ps, pt, pf, rfl, ⟨ss, by rcases hi' with rfl | rfl <;> simp, heach⟩, hpr, hps, hpt, hpf⟩
    rw [detectFragment_iff hn'] at h6
    rcases hn' with hx | hx | hx
    · have := head_of h4 _ hx
      rcases h8 with ⟨h8, _⟩ | ⟨_, rfl⟩
      · rw [hx] at h8; exact absurd h8 (by decide)
      have hfr : frag = false := by
        rw [hx] at h6
        rcases h6 with ⟨_, h6⟩ | ⟨h6, _⟩ | ⟨h6, _⟩
        · exact h6
        · exact absurd h6 (by decide)
        · exact absurd h6 (by decide)
      refine ⟨x :: (i :: ss ++ pr ++ ps ++ pt ++ pf), by simp, hlen, has', _, Or.inl ?_, hitems⟩
      rw [hfr, this]; rfl
    · have := head_of h4 _ hx
      rcases h8 with ⟨h8, _⟩ | ⟨_, rfl⟩
      · rw [hx] at h8; exact absurd h8 (by decide)
      have hfr : frag = true := by
        rw [hx] at h6
        rcases h6 with ⟨h6, _⟩ | ⟨_, h6⟩ | ⟨h6, _⟩
        · exact absurd h6 (by decide)
        · exact h6
        · exact absurd h6 (by decide)
      refine ⟨x :: (i :: ss ++ pr ++ ps ++ pt ++ pf), by simp, hlen, has', _, Or.inl ?_, hitems⟩
      rw [hfr, this]; rfl
    · have := head_of h4 _ hx
      rcases h8 with ⟨_, rfl⟩ | ⟨h8, _⟩
      swap
      · rw [hx] at h8; exact absurd h8 (by decide)
      refine ⟨x :: (i :: ss ++ pr ++ ps ++ pt ++ pf) ++ [0xff], by simp, hlen, has', _, Or.inr ?_, hitems⟩
      rw [this]; rfl
  · rintro ⟨p, rfl, hlen, ⟨s0, hs0, hs0a⟩, items, harr, info, pr, ps, pt, pf, rfl, ⟨ss, hinfo, heach⟩, hpr, hps, hpt, hpf⟩
    obtain ⟨rinfo, reason, source, ms, seq, frag, o, l, f⟩ := r
    simp only at *
    have hany : rinfo.any (·.asserted) = true := List.any_eq_true.2 ⟨s0, hs0, hs0a⟩
    have hps2 : 2 ≤ ps.length := by
      obtain ⟨it, h1, h2⟩ := hps
      obtain ⟨a, b, r, rfl⟩ := items_ne _ _ h2
      rcases h1 with rfl | rfl <;> simp
    have hst : ∀ r, readStatuses 4 none (ss ++ (pr ++ (ps ++ r))) = some ((rinfo, some f), pr ++ (ps ++ r)) := fun r => by
      have := readStatuses_complete (rest := pr ++ (ps ++ r)) heach (by simp; omega) (known := none) (Or.inl rfl)
      rwa [hlen, hany, if_pos rfl] at this
    have hre : ∀ r, readUint (pr ++ r) = some (reason, r) := fun r => (readUint_iff _ _ _).2 ⟨_, rfl, hpr⟩
    have hso : ∀ r, read7 (ps ++ r) = some (source, r) := fun r => (C34_bpv7_decode_iff _ _ _).2 ⟨_, rfl, hps⟩
    have htw : ∀ r, readTwo (pt ++ r) = some ((ms, seq), r) := fun r => (readTwo_iff _ _ _ _).2 ⟨_, rfl, hpt⟩
    have hfr : ∀ r, readFragment frag (pf ++ r) = some ((o, l), r) := fun r => (readFragment_iff _ _ _ _ _).2 ⟨_, rfl, hpf⟩
    obtain ⟨i, hi, rfl⟩ : ∃ i, (i = (0x84 : UInt8) ∨ i = 0x9f) ∧ info = i :: ss := by
      rcases hinfo with h | h
      · exact ⟨_, Or.inl rfl, h⟩
      · exact ⟨_, Or.inr rfl, h⟩
    have hi' : ¬ (i ≠ 0x84 ∧ i ≠ 0x9f) := by rintro ⟨h1, h2⟩; rcases hi with h | h <;> contradiction
    have key : ∀ (n : UInt8) (tail : Bytes), (n = 4 ∨ n = 6 ∨ n = 31) →
        detectFragment n (pf ++ tail) = some frag → readBreak (n = 31) tail = some rest →
        readReport ((0x80 + n) :: (i :: ss ++ pr ++ ps ++ pt ++ pf ++ tail)) =
          some (⟨rinfo, reason, source, ms, seq, frag, o, l, f⟩, rest) := by
      intro n tail hn hd hb
      have h1 : (0x80 + n) >>> 5 = 4 ∧ (0x80 + n) &&& 0x1f = n := by rcases hn with rfl | rfl | rfl <;> decide
      have h2 : ¬ (n ≠ 4 ∧ n ≠ 6 ∧ n ≠ 31) := by
        rintro ⟨a, b, c⟩; rcases hn with h | h | h <;> contradiction
      simp only [readReport, List.cons_append, List.append_assoc, h1.1, h1.2]
      rw [if_neg (by simp), if_neg h2, if_neg hi', hst]
      simp only [Option.bind_eq_bind, Option.bind_some, hre, hso, htw, hd, hfr, hb, Option.pure_def]
    rcases harr with rfl | rfl
    · cases frag with
      | false =>
        have := key 4 rest (Or.inl rfl) rfl rfl
        simpa using this
      | true =>
        have := key 6 rest (Or.inr (Or.inl rfl)) rfl rfl
        simpa using this
    · have hd : detectFragment 31 (pf ++ 0xff :: rest) = some frag := by
        rw [detectFragment_iff (Or.inr (Or.inr rfl))]
        refine Or.inr (Or.inr ⟨rfl, ?_⟩)
        rcases hpf with ⟨rfl, a, b, rfl, ha, _⟩ | ⟨rfl, rfl, _⟩
        · obtain ⟨x, y, rfl, hx⟩ := uint_first_ne ha
          exact ⟨x, _, rfl, by simpa using hx⟩
        · exact ⟨0xff, rest, rfl, by simp⟩
      have := key 31 (0xff :: rest) (Or.inr (Or.inr rfl)) hd (by simp [readBreak])
      simpa using this

/-- C74, encapsulated bundles: exactly this is read. -/
theorem C74_pdu_iff (buf rest : Bytes) (u : Pdu) :
    readPdu buf = some (u, rest) ↔ ∃ tag p, buf = p ++ rest ∧ (tag = [] ∨ tag = [0xd8]) ∧ IsPdu tag p u := by
  constructor
  · intro h
    unfold readPdu at h
    split at h
    · simp at h
    rename_i x buf
    by_cases hx : x ≠ 0x83 ∧ x ≠ 0x9f
    · rw [if_pos hx] at h; simp at h
    rw [if_neg hx] at h
    simp only [Option.bind_eq_bind, Option.bind_eq_some_iff, Option.pure_def, Option.some.injEq, Prod.mk.injEq,
      Prod.exists] at h
    obtain ⟨i, b1, h1, t, b2, h2, d, b3, h3, b4, h4, rfl, rfl⟩ := h
    obtain ⟨pi, rfl, hpi⟩ := (readUint_iff _ _ _).1 h1
    obtain ⟨pt, rfl, hpt⟩ := (readUint_iff _ _ _).1 h2
    obtain ⟨tag, ph, rfl, htag, hph⟩ := (readData_iff _ _ _).1 h3
    rw [readBreak_iff] at h4
    have hx' : x = 0x83 ∨ x = 0x9f := by
      by_cases h1 : x = 0x83
      · exact Or.inl h1
      by_cases h2 : x = 0x9f
      · exact Or.inr h2
      exact absurd ⟨h1, h2⟩ hx
    rcases hx' with rfl | rfl
    · rcases h4 with ⟨h4, _⟩ | ⟨_, rfl⟩
      · exact absurd h4 (by decide)
      exact ⟨tag, 0x83 :: (pi ++ pt ++ tag ++ ph ++ d), by simp, htag, pi, pt, ph, Or.inl rfl, hpi, hpt, hph⟩
    · rcases h4 with ⟨_, rfl⟩ | ⟨h4, _⟩
      · exact ⟨tag, 0x9f :: (pi ++ pt ++ tag ++ ph ++ d) ++ [0xff], by simp, htag, pi, pt, ph, Or.inr rfl, hpi, hpt, hph⟩
      · exact absurd h4 (by decide)
  · rintro ⟨tag, p, rfl, htag, pi, pt, ph, harr, hpi, hpt, hph⟩
    obtain ⟨i, t, d⟩ := u
    simp only at *
    have hi : ∀ r, readUint (pi ++ r) = some (i, r) := fun r => (readUint_iff _ _ _).2 ⟨_, rfl, hpi⟩
    have ht : ∀ r, readUint (pt ++ r) = some (t, r) := fun r => (readUint_iff _ _ _).2 ⟨_, rfl, hpt⟩
    have hd : ∀ r, readData (tag ++ (ph ++ (d ++ r))) = some (d, r) := fun r => (readData_iff _ _ _).2 ⟨tag, ph, rfl, htag, hph⟩
    rcases harr with rfl | rfl
    · simp [readPdu, hi, ht, hd, readBreak]
    · simp [readPdu, hi, ht, hd, readBreak]

/-- C74, records: exactly this is read. -/
theorem C74_record_iff (data : Bytes) (r : Record) :
    Record.read data = some r ↔
      (∃ tag, (tag = [] ∨ tag = [0xd8]) ∧ IsSupported TakenForReport tag data r) ∨ IsUnsupported data r := by
  constructor
  · intro h
    unfold Record.read at h
    split at h
    · simp at h
    rename_i x buf
    by_cases hx : x ≠ 0x82 ∧ x ≠ 0x9f
    · rw [if_pos hx] at h; simp at h
    rw [if_neg hx] at h
    have hx' : x = 0x82 ∨ x = 0x9f := by
      by_cases h1 : x = 0x82
      · exact Or.inl h1
      by_cases h2 : x = 0x9f
      · exact Or.inr h2
      exact absurd ⟨h1, h2⟩ hx
    simp only [Option.bind_eq_bind, Option.bind_eq_some_iff, Prod.exists] at h
    obtain ⟨code, b1, h1, h⟩ := h
    obtain ⟨pc, rfl, hpc⟩ := (readUint_iff _ _ _).1 h1
    have harr : ∀ (content rest : Bytes), b1 = content ++ rest → readBreak (x = 0x9f) rest = some [] →
        IsArray 2 (x :: (pc ++ b1)) (pc ++ content) := by
      intro content rest hb hbr
      rw [readBreak_iff] at hbr
      subst hb
      rcases hx' with rfl | rfl
      · rcases hbr with ⟨h, _⟩ | ⟨_, rfl⟩
        · exact absurd h (by decide)
        · left; simp
      · rcases hbr with ⟨_, rfl⟩ | ⟨h, _⟩
        · right; simp
        · exact absurd h (by decide)
    unfold readContent at h
    by_cases hc1 : code = 1
    · subst hc1
      simp only [if_true, Option.bind_eq_some_iff, Option.map_eq_some_iff, Prod.exists] at h
      obtain ⟨c, b2, ⟨rep, b2', hrep, he⟩, b3, hbr, h⟩ := h
      simp only [Prod.mk.injEq] at he
      obtain ⟨rfl, rfl⟩ := he
      split at h
      case isFalse => simp at h
      rename_i h0
      simp only [Option.pure_def, Option.some.injEq] at h
      subst h
      rw [List.length_eq_zero_iff] at h0
      subst h0
      obtain ⟨p, hp, htk⟩ := (C74_report_iff _ _ _).1 hrep
      exact Or.inl ⟨[], Or.inl rfl, pc, p, harr _ _ hp hbr, hpc, Or.inl ⟨rep, rfl, rfl, htk⟩⟩
    rw [if_neg hc1] at h
    by_cases hc3 : code = 3
    · subst hc3
      simp only [if_true, Option.bind_eq_some_iff, Option.map_eq_some_iff, Prod.exists] at h
      obtain ⟨c, b2, ⟨rep, b2', hrep, he⟩, b3, hbr, h⟩ := h
      simp only [Prod.mk.injEq] at he
      obtain ⟨rfl, rfl⟩ := he
      split at h
      case isFalse => simp at h
      rename_i h0
      simp only [Option.pure_def, Option.some.injEq] at h
      subst h
      rw [List.length_eq_zero_iff] at h0
      subst h0
      obtain ⟨tag, p, hp, htag, htk⟩ := (C74_pdu_iff _ _ _).1 hrep
      exact Or.inl ⟨tag, htag, pc, p, harr _ _ hp hbr, hpc, Or.inr ⟨rep, rfl, rfl, htk⟩⟩
    rw [if_neg hc3] at h
    simp only [Option.pure_def, Option.some.injEq] at h
    subst h
    exact Or.inr ⟨hc1, hc3, rfl, pc, b1, by rcases hx' with rfl | rfl <;> simp, hpc⟩
  · rintro (⟨tag, htag, pc, p, harr, hpc, hcont⟩ | ⟨h1, h3, hn, pc, rest, hdata, hpc⟩)
    · obtain ⟨code, content⟩ := r
      simp only at *
      have hread : ∀ r, readUint (pc ++ r) = some (code, r) := fun r => (readUint_iff _ _ _).2 ⟨_, rfl, hpc⟩
      have hrc : ∃ c, content = some c ∧ ∀ rest, readContent code (p ++ rest) = some (some (c, rest)) := by
        rcases hcont with ⟨x, rfl, rfl, hx⟩ | ⟨u, rfl, rfl, hu⟩
        · refine ⟨_, rfl, fun rest => ?_⟩
          simp [readContent, (C74_report_iff _ _ _).2 ⟨p, rfl, hx⟩]
        · refine ⟨_, rfl, fun rest => ?_⟩
          simp [readContent, (C74_pdu_iff _ _ _).2 ⟨tag, p, rfl, htag, hu⟩]
      obtain ⟨c, rfl, hrc⟩ := hrc
      rcases harr with rfl | rfl
      · have := hrc []
        rw [List.append_nil] at this
        simp [Record.read, hread, this, readBreak]
      · simp [Record.read, hread, hrc, readBreak]
    · obtain ⟨code, content⟩ := r
      simp only at *
      subst hn
      have hread : ∀ r, readUint (pc ++ r) = some (code, r) := fun r => (readUint_iff _ _ _).2 ⟨_, rfl, hpc⟩
      have hrc : ∀ r, readContent code r = none := fun r => by simp [readContent, h1, h3]
      rcases hdata with rfl | rfl
      · simp [Record.read, hread, hrc]
      · simp [Record.read, hread, hrc]

/-- A report about a fragment, with times, and a status that is asserted and one that is not; the arrays of the report
and of the last two statuses are of indefinite length. -/
def sampleReport : Report := ⟨[⟨true, 1000⟩, ⟨false, 0⟩, ⟨true, 7⟩, ⟨false, 0⟩], 5, ⟨10, 1⟩, 300, 2, true, 20, 40, true⟩

example : readReport [0x9f, 0x84, 0x82, 0xf5, 25, 3, 232, 0x81, 0xf4, 0x9f, 0xf5, 7, 0xff, 0x9f, 0xf4, 0xff, 5,
    0x82, 2, 0x82, 10, 1, 0x82, 25, 1, 44, 2, 20, 24, 40, 0xff, 77] = some (sampleReport, [77]) ∧
    Record.read [0x9f, 3, 0x83, 7, 0, 0x42, 1, 2, 0xff] = some ⟨3, some (.pdu ⟨7, 0, [1, 2]⟩)⟩ ∧
    Record.read [0x82, 9, 1, 2, 3] = some ⟨9, none⟩ ∧
    Record.read [0x82, 3, 0x83, 7, 0, 0x42, 1, 2, 3] = none := by decide +kernel

/-- C74, conformance: an administrative record as the RFC has it, with a status asserted if it is a report, is read as
what it is, provided the array of statuses is not of indefinite length. -/
theorem C74_conforming_partial (data : Bytes) (r : Record)
    (h : IsSupported (fun p x => (∃ s ∈ x.info, s.asserted = true) ∧ x.info.length = 4 ∧
      ∃ items, IsArray (if x.isFragment then 6 else 4) p items ∧
        IsReportItems (fun info => ∃ ss, info = 0x84 :: ss ∧ Each (IsStatus x.timeFlag) ss x.info) items x) [] data r) :
    Record.read data = some r := by
  rw [C74_record_iff]
  obtain ⟨pc, p, harr, hpc, ⟨x, h1, h2, ha, hlen, items, hi, info, pr, ps, pt, pf, he, ⟨ss, hss, heach⟩, hrest⟩ | hu⟩ := h
  · refine Or.inl ⟨[], Or.inl rfl, pc, p, harr, hpc, Or.inl ⟨x, h1, h2, hlen, ha, items, hi, info, pr, ps, pt, pf, he,
      ⟨ss, Or.inl hss, heach.imp fun _ _ h => Or.inl h⟩, hrest⟩⟩
  · exact Or.inl ⟨[], Or.inl rfl, pc, p, harr, hpc, Or.inr hu⟩

/-! ### Writing -/

/-- C74, round trip: whatever the output memory held, a record is written as a canonical block of the announced size
whose data are the record as the RFC has it; the block is read back, and so is the record if it is not a report without
any asserted status. -/
theorem C74_round_trip_partial (r : Record) (hr : RecordInRange r) (number flags : Nat) (hn : number < 2 ^ 64)
    (hf : flags < 2 ^ 64) (t : UInt8) (ht : t = 0 ∨ t = 1 ∨ t = 2) (mem : Bytes)
    (hm : ∀ n, r.size = some n → n ≤ mem.length) :
    ∃ bs c, r.serialize number flags t mem = some (bs, c) ∧ IsCanonical [] bs c ∧
      serializationSize c = some bs.length ∧ r.size = some c.data.length ∧
      c.typeCode = 1 ∧ c.number = number ∧ c.flags = flags ∧ c.crcType = t ∧
      IsRecord c.data (carriedRecord r) ∧
      (∀ rest, Bpv7Canonical.read false (bs ++ rest) = some (c, rest)) ∧
      (Asserts r → Record.read c.data = some (carriedRecord r)) := by
  obtain ⟨d, hsz, hw, hd64, hrec, htk, _⟩ := record_write r hr
  obtain ⟨bs, c16, c32, hs, hcan, hcs⟩ := serializeWith_spec 1 number flags hn hf t ht d.length d mem rfl hd64 (hm _ hsz)
  refine ⟨bs, _, ?_, hcan, hcs, hsz, rfl, rfl, rfl, rfl, hrec, fun rest => ?_, fun ha => ?_⟩
  · simp only [Record.serialize, hsz, hw, Option.bind_eq_bind, Option.bind_some, hs]
  · exact (C37_decode_iff _ _ _).2 ⟨[], bs, rfl, Or.inl rfl, hcan⟩
  · exact (C74_record_iff _ _).2 (Or.inl ⟨[], Or.inl rfl, htk ha⟩)

example : RecordInRange ⟨1, some (.report sampleReport)⟩ ∧ Asserts ⟨1, some (.report sampleReport)⟩ ∧
    RecordInRange ⟨3, some (.pdu ⟨7, 0, [1, 2]⟩)⟩ := by
  refine ⟨Or.inl ⟨_, rfl, rfl, by simp [ReportInRange, sampleReport]⟩, ?_, Or.inr ⟨_, rfl, rfl, by simp [PduInRange]⟩⟩
  intro x hx
  simp only [Option.some.injEq, Content.report.injEq] at hx
  subst hx
  exact ⟨⟨true, 1000⟩, by simp [sampleReport], rfl⟩

/-- C74 is false: a report in which no status is asserted is written, and never read back. -/
theorem C74_unasserted_violated (x : Report) (hx : ReportInRange x) (ha : ¬ ∃ s ∈ x.info, s.asserted = true) :
    ∃ d, (Record.mk 1 (some (.report x))).size = some d.length ∧ (Record.mk 1 (some (.report x))).write d.length = some d ∧
      IsRecord d (carriedRecord ⟨1, some (.report x)⟩) ∧ Record.read d = none := by
  obtain ⟨d, hsz, hw, _, hrec, _, hd⟩ := record_write ⟨1, some (.report x)⟩ (Or.inl ⟨x, rfl, rfl, hx⟩)
  refine ⟨d, hsz, hw, hrec, ?_⟩
  rw [hd x rfl]
  have h1 : readUint (encodeU64 1 ++ reportBytes x) = some (1, reportBytes x) := readUint_encode 1 (by decide) _
  simp [Record.read, h1, readContent, unasserted_not_read x hx ha]

example : ReportInRange ⟨[⟨false, 0⟩, ⟨false, 0⟩, ⟨false, 0⟩, ⟨false, 0⟩], 0, ⟨1, 1⟩, 0, 0, false, 0, 0, false⟩ := by
  simp [ReportInRange]

/-- C74 is false: with an array of statuses of indefinite length the proper report is refused, and the same bytes without
the break are taken for it. -/
theorem C74_indefinite_violated :
    ∃ (x : Report) (p q : Bytes), IsReport p x ∧ (∃ s ∈ x.info, s.asserted = true) ∧ readReport p = none ∧
      p = [0x84] ++ ([0x9f, 0x81, 0xf5, 0x81, 0xf4, 0x81, 0xf4, 0x81, 0xf4] ++ 0xff :: q) ∧
      readReport ([0x84] ++ ([0x9f, 0x81, 0xf5, 0x81, 0xf4, 0x81, 0xf4, 0x81, 0xf4] ++ q)) = some (x, []) := by
  have hs : ∀ a, IsStatus false [0x81, if a then 0xf5 else 0xf4] ⟨a, 0⟩ := fun a =>
    ⟨[if a then 0xf5 else 0xf4], Or.inr ⟨by simp [Stamped], rfl, rfl⟩, Or.inr ⟨by simp [Stamped], Or.inl rfl⟩⟩
  have hu : ∀ k, k < 24 → IsUint [UInt8.ofNat k] k := fun k hk => by
    have := isUint_encode k (by omega)
    rwa [encodeU64, if_pos hk] at this
  refine ⟨⟨[⟨true, 0⟩, ⟨false, 0⟩, ⟨false, 0⟩, ⟨false, 0⟩], 0, ⟨0, 0⟩, 1, 2, false, 0, 0, false⟩, _, [0, 0x82, 1, 0, 0x82, 1, 2], ?_,
    ⟨⟨true, 0⟩, by simp, rfl⟩, ?_, rfl, by decide +kernel⟩
  · refine ⟨rfl, _, Or.inl rfl, [0x9f, 0x81, 0xf5, 0x81, 0xf4, 0x81, 0xf4, 0x81, 0xf4, 0xff], [0], [0x82, 1, 0], [0x82, 1, 2], [], rfl,
      ⟨[0x81, 0xf5, 0x81, 0xf4, 0x81, 0xf4, 0x81, 0xf4], Or.inr rfl, [0x81, 0xf5], _, rfl, hs true, [0x81, 0xf4], _, rfl, hs false,
        [0x81, 0xf4], _, rfl, hs false, [0x81, 0xf4], _, rfl, hs false, rfl⟩, hu 0 (by decide), ⟨[1, 0], Or.inl rfl, Or.inl ⟨rfl, rfl⟩⟩,
      ⟨[1, 2], Or.inl rfl, [1], [2], rfl, hu 1 (by decide), [2], [], rfl, hu 2 (by decide), rfl⟩, Or.inr ⟨rfl, rfl, rfl, rfl⟩⟩
  · decide +kernel

/-- C74 is false: a status of two items of which one is missing is taken for one that is not asserted. -/
theorem C74_short_status_violated :
    readReport [0x84, 0x84, 0x81, 0xf5, 0x82, 0xf4, 0x81, 0xf4, 0x81, 0xf4, 0, 0x82, 1, 0, 0x82, 1, 2] =
      some (⟨[⟨true, 0⟩, ⟨false, 0⟩, ⟨false, 0⟩, ⟨false, 0⟩], 0, ⟨0, 0⟩, 1, 2, false, 0, 0, false⟩, []) ∧
    ∀ f s, ¬ IsStatus f [0x82, 0xf4] s := by
  refine ⟨by decide +kernel, ?_⟩
  rintro f s ⟨items, hit, ⟨hst, harr⟩ | ⟨hst, harr⟩⟩
  · rcases hit with ⟨_, t, rfl, _⟩ | ⟨hn, _⟩
    · rcases harr with h | h <;> simp at h
    · exact hn hst
  · rcases harr with h | h <;> simp at h

/-- C74 is false: a bundle tagged as the RFC has it (tag 24 is two bytes) is refused. -/
theorem C74_tag_violated (p rest : Bytes) (u : Pdu) (h : IsPdu [0xd8, 0x18] p u) : readPdu (p ++ rest) = none := by
  obtain ⟨pi, pt, ph, harr, hpi, hpt, _⟩ := h
  have hi : ∀ r, readUint (pi ++ r) = some (u.transmissionId, r) := fun r => (readUint_iff _ _ _).2 ⟨_, rfl, hpi⟩
  have ht : ∀ r, readUint (pt ++ r) = some (u.retransmission, r) := fun r => (readUint_iff _ _ _).2 ⟨_, rfl, hpt⟩
  have hd : ∀ r : Bytes, readData (0xd8 :: 0x18 :: r) = none := fun r => rfl
  rcases harr with rfl | rfl <;> simp [readPdu, hi, ht, hd]

example : IsPdu [0xd8, 0x18] [0x83, 7, 0, 0xd8, 0x18, 0x42, 1, 2] ⟨7, 0, [1, 2]⟩ := by
  refine ⟨[7], [0], [0x42], Or.inl rfl, ?_, ?_, 0x42, [], rfl, 2, by decide, ?_⟩
  · exact isUint_encode 7 (by decide)
  · exact isUint_encode 0 (by decide)
  · exact isUint_encode 2 (by decide)

/-- C74 is false: a record with a code that is not supported is read, and written anew without its content. -/
theorem C74_unsupported_violated (code : Nat) (h1 : code ≠ 1) (h3 : code ≠ 3) (h64 : code < 2 ^ 64) (content : Bytes) :
    Record.read (0x82 :: (encodeU64 code ++ content)) = some ⟨code, none⟩ ∧
      ∀ n, (encodeU64 code).length < n → (Record.mk code none).write n = some (0x82 :: encodeU64 code) := by
  refine ⟨(C74_record_iff _ _).2 (Or.inr ⟨h1, h3, rfl, encodeU64 code, content, Or.inl rfl, isUint_encode code h64⟩), fun n hn => ?_⟩
  simp only [Record.write]
  rw [if_neg (by omega), stores_uint code _ (by omega)]

/-! ### Comparing -/

/-- C74, comparison: two reports compare equal exactly if they carry the same, apart from the times. -/
theorem C74_equal_partial (a b : Report) (hl : a.info.length = b.info.length) :
    a.isEqual b = true ↔
      carried { a with info := a.info.map fun s => { s with time := 0 } } = carried { b with info := b.info.map fun s => { s with time := 0 } } := by
  have hss : ∀ (x y : List Status), x.length = y.length → (sameStatuses x y = true ↔ x.map (·.asserted) = y.map (·.asserted)) := by
    intro x
    induction x with
    | nil => intro y hy; cases y with
      | nil => simp [sameStatuses]
      | cons _ _ => simp at hy
    | cons s x ih => intro y hy; cases y with
      | nil => simp at hy
      | cons u y => simp [sameStatuses, ih y (by simpa using hy)]
  have hmap : ∀ (f : Bool) (x : List Status), (x.map fun s => ({ s with time := 0 } : Status)).map (carriedStatus f) =
      x.map fun s => ⟨s.asserted, 0⟩ := by
    intro f x
    rw [List.map_map]
    apply List.map_congr_left
    intro s _
    simp [carriedStatus]
  have hinj : ∀ x y : List Status, (x.map fun s => (⟨s.asserted, 0⟩ : Status)) = (y.map fun s => ⟨s.asserted, 0⟩) ↔
      x.map (·.asserted) = y.map (·.asserted) := by
    intro x
    induction x with
    | nil => intro y; cases y <;> simp
    | cons s x ih => intro y; cases y with
      | nil => simp
      | cons u y => simp [ih y]
  obtain ⟨ai, ar, as, am, aq, af, ao, al, at'⟩ := a
  obtain ⟨bi, br, bs, bm, bq, bf, bo, bl, bt⟩ := b
  simp only [Report.isEqual, carried, Bool.and_eq_true, beq_iff_eq, Report.mk.injEq, hmap, hinj, hss _ _ hl, Bool.or_eq_true,
    Bool.not_eq_true']
  constructor
  · rintro ⟨⟨⟨⟨⟨⟨rfl, rfl⟩, rfl, rfl⟩, rfl⟩, rfl⟩, hfr⟩, hin⟩
    refine ⟨hin, rfl, rfl, rfl, rfl, rfl, ?_, ?_, rfl⟩ <;> rcases hfr with rfl | ⟨rfl, rfl⟩ <;> simp
  · rintro ⟨hin, rfl, rfl, rfl, rfl, rfl, ho, hl', rfl⟩
    refine ⟨⟨⟨⟨⟨⟨rfl, rfl⟩, rfl, rfl⟩, rfl⟩, rfl⟩, ?_⟩, hin⟩
    cases af
    · exact Or.inl rfl
    · simp only [if_true] at ho hl'
      exact Or.inr ⟨ho.symm, hl'.symm⟩

example : Report.isEqual sampleReport sampleReport = true ∧
    Report.isEqual sampleReport { sampleReport with offset := 21 } = false := by decide

/-- C74 is false: reports that differ in a time they carry compare equal. -/
theorem C74_times_violated (x : Report) (i : Nat) (hi : i < x.info.length) (t : Nat) :
    Report.isEqual x { x with info := x.info.set i ⟨(x.info[i]).asserted, t⟩ } = true := by
  rw [C74_equal_partial _ _ (by simp)]
  have : (x.info.set i ⟨(x.info[i]).asserted, t⟩).map (fun s => ({ s with time := 0 } : Status)) =
      x.info.map fun s => { s with time := 0 } := by
    apply List.ext_getElem (by simp)
    intro j h1 h2
    simp only [List.getElem_map, List.getElem_set]
    split
    · rename_i h; subst h; rfl
    · rfl
  rw [this]

example : ∃ i : Nat, ∃ hi : i < sampleReport.info.length, (sampleReport.info[i]).asserted = true ∧ sampleReport.timeFlag = true :=
  ⟨0, by decide, rfl, rfl⟩

/-- C74, comparison: encapsulated bundles compare equal exactly if they are. -/
theorem C74_pdu_equal (a b : Pdu) : a.isEqual b = true ↔ a = b := by
  obtain ⟨ai, at', ab⟩ := a
  obtain ⟨bi, bt, bb⟩ := b
  simp only [Pdu.isEqual, Bool.and_eq_true, beq_iff_eq, Pdu.mk.injEq]
  constructor
  · rintro ⟨⟨⟨rfl, rfl⟩, _⟩, rfl⟩; exact ⟨rfl, rfl, rfl⟩
  · rintro ⟨rfl, rfl, rfl⟩; exact ⟨⟨⟨rfl, rfl⟩, rfl⟩, rfl⟩

end Hdtn.AdminRecord7
