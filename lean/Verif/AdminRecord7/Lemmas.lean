import Verif.AdminRecord7.Spec

/-! Lemmas about reading administrative records. -/

namespace Hdtn.AdminRecord7

open Hdtn.HashMap16 Hdtn.Cbor Hdtn.Cbor.Spec Hdtn.Cbhe Hdtn.Cbhe.Spec Hdtn.Bpv7Canonical Hdtn.Bpv7Canonical.Spec Spec

theorem readBreak_iff (i : Bool) (buf rest : Bytes) :
    readBreak i buf = some rest ↔ (i = true ∧ buf = 0xff :: rest) ∨ (i = false ∧ buf = rest) := by
  cases i <;> rcases buf with _ | ⟨b, r⟩ <;> simp [readBreak]

theorem and81 : (0x81 : UInt8) &&& 31 = 1 := by decide
theorem and82 : (0x82 : UInt8) &&& 31 = 2 := by decide
theorem and9f : (0x9f : UInt8) &&& 31 = 31 := by decide
theorem shr81 : (0x81 : UInt8) >>> 5 = 4 := by decide
theorem shr82 : (0x82 : UInt8) >>> 5 = 4 := by decide
theorem shr9f : (0x9f : UInt8) >>> 5 = 4 := by decide

theorem head_of {h : UInt8} (h4 : h >>> 5 = 4) (n : UInt8) (hn : h &&& 0x1f = n) : h = 0x80 + n := by
  have := u8_forall (P := fun h => h >>> 5 = 4 → h = 0x80 + (h &&& 0x1f)) (by decide +kernel) h h4
  rw [← hn]; exact this

theorem detect_some {known : Option Bool} {n : UInt8} {r : Bytes} {f : Bool} (h : detect known n r = some f) :
    known = some f ∨ (known = none ∧ ((n = 31 ∧ ∃ x y, r = x :: y ∧ (f = true ↔ x ≠ 0xff)) ∨ (n ≠ 31 ∧ (f = true ↔ n = 2)))) := by
  unfold detect at h
  cases known with
  | some g => left; simpa using h
  | none =>
    right
    refine ⟨rfl, ?_⟩
    simp only at h
    split at h
    · rename_i x y z
      by_cases hn : n = 31
      · rw [if_pos hn] at h
        left
        refine ⟨hn, x, _, rfl, ?_⟩
        simp only [Option.some.injEq] at h
        rw [← h]; simp
      · rw [if_neg hn] at h
        right
        simp only [Option.some.injEq] at h
        rw [← h]; simp [hn]
    · simp at h

theorem readStatus_sound {known known' : Option Bool} {buf rest : Bytes} {s : Status}
    (h : readStatus known buf = some ((s, known'), rest)) :
    ∃ p, buf = p ++ rest ∧
      ((s.asserted = false ∧ known' = known ∧ ∀ f, TakenForStatus f p s) ∨
       (s.asserted = true ∧ ∃ f, known' = some f ∧ (known = none ∨ known = some f) ∧ TakenForStatus f p s)) := by
  unfold readStatus at h
  split at h
  case h_2 => simp at h
  rename_i x b r
  simp only at h
  by_cases h4 : x >>> 5 = 4
  case neg => rw [if_pos h4] at h; simp at h
  rw [if_neg (by simpa using h4)] at h
  by_cases hn : x &&& 0x1f ≠ 1 ∧ x &&& 0x1f ≠ 2 ∧ x &&& 0x1f ≠ 31
  · rw [if_pos hn] at h; simp at h
  rw [if_neg hn] at h
  have hcase : x = 0x81 ∨ x = 0x82 ∨ x = 0x9f := by
    by_cases h1 : x &&& 0x1f = 1
    · exact Or.inl (head_of h4 1 h1)
    by_cases h2 : x &&& 0x1f = 2
    · exact Or.inr (Or.inl (head_of h4 2 h2))
    by_cases h3 : x &&& 0x1f = 31
    · exact Or.inr (Or.inr (head_of h4 31 h3))
    exact absurd ⟨h1, h2, h3⟩ hn
  by_cases hb : b = 0xf4
  · subst hb
    rw [if_pos rfl] at h
    simp only [Option.bind_eq_bind, Option.bind_eq_some_iff, Option.pure_def, Option.some.injEq, Prod.mk.injEq] at h
    obtain ⟨r', hbr, ⟨rfl, rfl⟩, rfl⟩ := h
    rw [readBreak_iff] at hbr
    have hns : ∀ f, ¬ Stamped f ⟨false, 0⟩ := fun f hf => by simp [Stamped] at hf
    have hit : ∀ f, IsStatusItems f [0xf4] ⟨false, 0⟩ := fun f => Or.inr ⟨hns f, rfl, rfl⟩
    rcases hcase with rfl | rfl | rfl
    · rcases hbr with ⟨h1, _⟩ | ⟨_, rfl⟩
      · exact absurd h1 (by decide)
      · exact ⟨[0x81, 0xf4], rfl, Or.inl ⟨rfl, rfl, fun f => Or.inl ⟨_, hit f, Or.inr ⟨hns f, Or.inl rfl⟩⟩⟩⟩
    · rcases hbr with ⟨h1, _⟩ | ⟨_, rfl⟩
      · exact absurd h1 (by decide)
      · exact ⟨[0x82, 0xf4], rfl, Or.inl ⟨rfl, rfl, fun f => Or.inr ⟨rfl, rfl⟩⟩⟩
    · rcases hbr with ⟨_, rfl⟩ | ⟨h1, _⟩
      · exact ⟨[0x9f, 0xf4, 0xff], rfl, Or.inl ⟨rfl, rfl, fun f => Or.inl ⟨_, hit f, Or.inr ⟨hns f, Or.inr rfl⟩⟩⟩⟩
      · exact absurd h1 (by decide)
  · rw [if_neg hb] at h
    by_cases hb5 : b = 0xf5
    case neg => rw [if_neg hb5] at h; simp at h
    subst hb5
    rw [if_pos rfl] at h
    simp only [Option.bind_eq_bind, Option.bind_eq_some_iff] at h
    obtain ⟨f, hdet, h⟩ := h
    have hk : known = none ∨ known = some f := by
      rcases detect_some hdet with h1 | h1
      · exact Or.inr h1
      · exact Or.inl h1.1
    by_cases hbad : (f = false ∧ x &&& 0x1f = 2) ∨ (f = true ∧ x &&& 0x1f = 1)
    · rw [if_pos hbad] at h; simp at h
    rw [if_neg hbad] at h
    cases f with
    | true =>
      simp only [if_true, Option.bind_eq_some_iff, Option.pure_def, Option.some.injEq, Prod.mk.injEq, Prod.exists] at h
      obtain ⟨t, r1, hr1, r2, hbr, ⟨rfl, rfl⟩, rfl⟩ := h
      obtain ⟨pt, rfl, ht⟩ := (readUint_iff _ _ _).1 hr1
      rw [readBreak_iff] at hbr
      have hst : Stamped true ⟨true, t⟩ := ⟨rfl, rfl⟩
      have hit : IsStatusItems true (0xf5 :: pt) ⟨true, t⟩ := Or.inl ⟨hst, pt, rfl, ht⟩
      rcases hcase with rfl | rfl | rfl
      · exact absurd (Or.inr ⟨rfl, by decide⟩) hbad
      · rcases hbr with ⟨h1, _⟩ | ⟨_, rfl⟩
        · exact absurd h1 (by decide)
        · exact ⟨0x82 :: 0xf5 :: pt, rfl, Or.inr ⟨rfl, true, rfl, hk, Or.inl ⟨_, hit, Or.inl ⟨hst, Or.inl rfl⟩⟩⟩⟩
      · rcases hbr with ⟨_, rfl⟩ | ⟨h1, _⟩
        · exact ⟨0x9f :: (0xf5 :: pt) ++ [0xff], by simp, Or.inr ⟨rfl, true, rfl, hk, Or.inl ⟨_, hit, Or.inl ⟨hst, Or.inr rfl⟩⟩⟩⟩
        · exact absurd h1 (by decide)
    | false =>
      simp only [Bool.false_eq_true, if_false, Option.bind_eq_some_iff, Option.pure_def, Option.some.injEq, Prod.mk.injEq] at h
      obtain ⟨r2, hbr, ⟨rfl, rfl⟩, rfl⟩ := h
      rw [readBreak_iff] at hbr
      have hst : ¬ Stamped false ⟨true, 0⟩ := fun hf => by simp [Stamped] at hf
      have hit : IsStatusItems false [0xf5] ⟨true, 0⟩ := Or.inr ⟨hst, rfl, rfl⟩
      rcases hcase with rfl | rfl | rfl
      · rcases hbr with ⟨h1, _⟩ | ⟨_, rfl⟩
        · exact absurd h1 (by decide)
        · exact ⟨[0x81, 0xf5], rfl, Or.inr ⟨rfl, false, rfl, hk, Or.inl ⟨_, hit, Or.inr ⟨hst, Or.inl rfl⟩⟩⟩⟩
      · exact absurd (Or.inl ⟨rfl, by decide⟩) hbad
      · rcases hbr with ⟨_, rfl⟩ | ⟨h1, _⟩
        · exact ⟨[0x9f, 0xf5, 0xff], rfl, Or.inr ⟨rfl, false, rfl, hk, Or.inl ⟨_, hit, Or.inr ⟨hst, Or.inr rfl⟩⟩⟩⟩
        · exact absurd h1 (by decide)

theorem uint_first_ne {t : Bytes} {v : Nat} (h : IsUint t v) : ∃ x y, t = x :: y ∧ x ≠ 0xff := by
  obtain ⟨x, y, rfl, hx⟩ := h
  refine ⟨x, y, rfl, ?_⟩
  rintro rfl
  rcases hx with ⟨h1, _⟩ | ⟨k, hk, h1, _⟩
  · exact absurd h1 (by decide)
  · have : (0xff : UInt8).toNat = 255 := rfl
    omega

theorem detect_of {known : Option Bool} {f : Bool} (hk : known = none ∨ known = some f) {n : UInt8} {r : Bytes}
    (hl : 2 ≤ r.length) (h : ∀ x y, r = x :: y → (if n = 31 then (x != 0xff) else (n == 2)) = f) : detect known n r = some f := by
  rcases hk with rfl | rfl
  · rcases r with _ | ⟨x, _ | ⟨y, z⟩⟩
    · simp at hl
    · simp at hl
    · have := h x _ rfl
      simp only [detect]
      split at this <;> rename_i hn <;> simp [hn, this]
  · rfl

theorem readStatus_complete {known : Option Bool} {f : Bool} {p rest : Bytes} {s : Status} (h : TakenForStatus f p s)
    (hl : 2 ≤ rest.length) (hk : known = none ∨ known = some f) :
    readStatus known (p ++ rest) = some ((s, if s.asserted then some f else known), rest) := by
  have hb : ∀ r : Bytes, readBreak true (0xff :: r) = some r := fun r => by simp [readBreak]
  have hb' : ∀ r : Bytes, readBreak false r = some r := fun r => by simp [readBreak]
  rcases h with ⟨items, hit, harr⟩ | ⟨rfl, rfl⟩
  · obtain ⟨a, time⟩ := s
    rcases hit with ⟨hst, t, rfl, ht⟩ | ⟨hst, htime, rfl⟩
    · rcases harr with ⟨_, harr⟩ | ⟨hns, _⟩
      swap
      · exact absurd hst hns
      obtain ⟨rfl, ha⟩ := hst
      simp only at ha
      subst ha
      obtain ⟨x, y, hxy, hx⟩ := uint_first_ne ht
      have hread : ∀ r, readUint (t ++ r) = some (time, r) := fun r => (readUint_iff _ _ _).2 ⟨t, rfl, ht⟩
      rcases harr with rfl | rfl
      · have hd : detect known 2 (t ++ rest) = some true := detect_of hk (by simp; omega) (fun _ _ _ => by simp)
        simp [readStatus, and81, and82, and9f, shr81, shr82, shr9f, hd, hread, hb']
      · have hd : detect known 31 (t ++ 0xff :: rest) = some true :=
          detect_of hk (by simp; omega) (fun x' y' e => by
            rw [hxy, List.cons_append, List.cons.injEq] at e
            rw [← e.1]; simpa using hx)
        simp [readStatus, and81, and82, and9f, shr81, shr82, shr9f, hd, hread, hb]
    · rcases harr with ⟨h1, _⟩ | ⟨_, harr⟩
      · exact absurd h1 hst
      simp only at htime
      subst htime
      cases a with
      | false =>
        rcases harr with rfl | rfl
        · simp [readStatus, and81, and82, and9f, shr81, shr82, shr9f, hb']
        · simp [readStatus, and81, and82, and9f, shr81, shr82, shr9f, hb]
      | true =>
        have hf : f = false := by
          cases f with
          | false => rfl
          | true => exact absurd ⟨rfl, rfl⟩ hst
        subst hf
        rcases harr with rfl | rfl
        · have hd : detect known 1 rest = some false := detect_of hk hl (fun _ _ _ => by simp)
          simp [readStatus, and81, and82, and9f, shr81, shr82, shr9f, hd, hb']
        · have hd : detect known 31 (0xff :: rest) = some false :=
            detect_of hk (by simp; omega) (fun x' y' e => by rw [List.cons.injEq] at e; rw [← e.1]; decide)
          simp [readStatus, and81, and82, and9f, shr81, shr82, shr9f, hd, hb]
  · simp [readStatus, and81, and82, and9f, shr81, shr82, shr9f, hb']

theorem readStatuses_sound {k : Nat} {known known' : Option Bool} {buf rest : Bytes} {ss : List Status}
    (h : readStatuses k known buf = some ((ss, known'), rest)) :
    ss.length = k ∧ ∃ p, buf = p ++ rest ∧ (known' = none → known = none) ∧
      ∀ f, known' = some f → (known = none ∨ known = some f) ∧ Each (TakenForStatus f) p ss ∧
        (known = some f ∨ ∃ s ∈ ss, s.asserted = true) := by
  induction k generalizing known buf ss with
  | zero =>
    simp only [readStatuses, Option.some.injEq, Prod.mk.injEq] at h
    obtain ⟨⟨rfl, rfl⟩, rfl⟩ := h
    exact ⟨rfl, [], rfl, id, fun f hf => ⟨Or.inr hf, rfl, Or.inl hf⟩⟩
  | succ k ih =>
    simp only [readStatuses, Option.bind_eq_bind, Option.bind_eq_some_iff, Option.pure_def, Option.some.injEq,
      Prod.mk.injEq, Prod.exists] at h
    obtain ⟨s, kn, b1, h1, ss', kn', b2, h2, ⟨rfl, rfl⟩, rfl⟩ := h
    obtain ⟨hl, p2, rfl, hn, hf⟩ := ih h2
    obtain ⟨p1, rfl, hs⟩ := readStatus_sound h1
    refine ⟨by simp [hl], p1 ++ p2, by simp, ?_, ?_⟩
    · intro hk
      have := hn hk
      rcases hs with ⟨_, h3, _⟩ | ⟨_, f, h3, _⟩
      · rw [← h3]; exact this
      · rw [this] at h3; simp at h3
    · intro f hk
      obtain ⟨h3, h4, h5⟩ := hf f hk
      rcases hs with ⟨ha, rfl, ht⟩ | ⟨ha, g, rfl, hg, ht⟩
      · refine ⟨h3, ⟨p1, p2, rfl, ht f, h4⟩, ?_⟩
        rcases h5 with h5 | ⟨x, hx, hxa⟩
        · exact Or.inl h5
        · exact Or.inr ⟨x, by simp [hx], hxa⟩
      · have : g = f := by rcases h3 with h3 | h3 <;> simpa using h3
        subst this
        exact ⟨hg, ⟨p1, p2, rfl, ht, h4⟩, Or.inr ⟨s, by simp, ha⟩⟩

theorem readStatuses_complete {f : Bool} {ss : List Status} {p rest : Bytes} (h : Each (TakenForStatus f) p ss)
    (hl : 2 ≤ rest.length) {known : Option Bool} (hk : known = none ∨ known = some f) :
    readStatuses ss.length known (p ++ rest) = some ((ss, if ss.any (·.asserted) then some f else known), rest) := by
  induction ss generalizing p known with
  | nil => simp only [Each] at h; subst h; simp [readStatuses]
  | cons s ss ih =>
    obtain ⟨q, r, rfl, hq, hr⟩ := h
    have h1 := readStatus_complete (rest := r ++ rest) hq (by simp; omega) hk
    have hk' : (if s.asserted then some f else known) = none ∨ (if s.asserted then some f else known) = some f := by
      split
      · exact Or.inr rfl
      · exact hk
    have h2 := ih hr hk'
    simp only [List.length_cons, readStatuses, List.append_assoc, h1, Option.bind_eq_bind, Option.bind_some, h2,
      Option.pure_def, List.any_cons]
    rcases Bool.eq_false_or_eq_true s.asserted with ha | ha <;> simp [ha]

theorem detectFragment_iff {n : UInt8} (hn : n = 4 ∨ n = 6 ∨ n = 31) {buf : Bytes} {f : Bool} :
    detectFragment n buf = some f ↔
      (n = 4 ∧ f = false) ∨ (n = 6 ∧ f = true) ∨ (n = 31 ∧ ∃ x y, buf = x :: y ∧ (f = true ↔ x ≠ 0xff)) := by
  rcases hn with rfl | rfl | rfl
  · simp [detectFragment, eq_comm]
  · simp [detectFragment, eq_comm]
  · rcases buf with _ | ⟨x, y⟩
    · simp [detectFragment]
    · have : detectFragment 31 (x :: y) = some (x != 0xff) := rfl
      rw [this]
      cases f <;> simp

theorem readFragment_iff (f : Bool) (buf rest : Bytes) (o l : Nat) :
    readFragment f buf = some ((o, l), rest) ↔ ∃ p, buf = p ++ rest ∧
      ((f = true ∧ IsUints p [o, l]) ∨ (f = false ∧ p = [] ∧ o = 0 ∧ l = 0)) := by
  cases f with
  | false =>
    simp only [readFragment, Bool.false_eq_true, if_false, Option.some.injEq, Prod.mk.injEq, false_and, false_or, true_and]
    constructor
    · rintro ⟨⟨rfl, rfl⟩, rfl⟩; exact ⟨[], rfl, rfl, rfl, rfl⟩
    · rintro ⟨p, rfl, rfl, rfl, rfl⟩; simp
  | true =>
    simp only [readFragment, if_true, Option.bind_eq_bind, Option.bind_eq_some_iff, Option.pure_def, Option.some.injEq,
      Prod.mk.injEq, Prod.exists, true_and, Bool.true_eq_false, false_and, or_false]
    constructor
    · rintro ⟨a, b1, h1, b, b2, h2, ⟨rfl, rfl⟩, rfl⟩
      obtain ⟨p2, rfl, hp2⟩ := (readUint_iff _ _ _).1 h2
      obtain ⟨p1, rfl, hp1⟩ := (readUint_iff _ _ _).1 h1
      exact ⟨p1 ++ p2, by simp, p1, p2, rfl, hp1, p2, [], by simp, hp2, rfl⟩
    · rintro ⟨p, rfl, p1, q, rfl, hp1, p2, r, rfl, hp2, rfl⟩
      refine ⟨o, p2 ++ rest, (readUint_iff _ _ _).2 ⟨p1, by simp, hp1⟩, l, rest, (readUint_iff _ _ _).2 ⟨p2, by simp, hp2⟩,
        ⟨rfl, rfl⟩, rfl⟩

end Hdtn.AdminRecord7
