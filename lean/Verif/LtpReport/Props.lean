import Verif.LtpReport.Lemmas
import Mathlib.Data.List.Induction

/-!
Properties C11 and C12: LTP report segments.
-/

namespace Hdtn.LtpReport
open Hdtn.FragmentSet

/-! ### C11 -/

/-- The scope `PopulateReportSegment` is asked for: a bound of 2^64-1 stands for the first received
byte, respectively the end of the last received byte. -/
def requestedScope (first last : Frag) (lowerBound upperBound : Nat) : Nat × Nat :=
  (if lowerBound = 2 ^ 64 - 1 then first.b else lowerBound,
   if upperBound = 2 ^ 64 - 1 then last.e + 1 else upperBound)

/-- C11: a report is produced exactly when something was received and the scope is not empty; it has
the requested scope, it is well formed, and it claims exactly the bytes of its scope that were
received. -/
theorem C11_report_claims_exactly (s : List Frag) (hs : Canonical s) (lowerBound upperBound : Nat)
    (hu : upperBound < 2 ^ 64) :
    (s = [] → populate s lowerBound upperBound = none) ∧
    ∀ first last, s.head? = some first → s.getLast? = some last →
      let scope := requestedScope first last lowerBound upperBound
      (scope.2 ≤ scope.1 → populate s lowerBound upperBound = none) ∧
      (scope.1 < scope.2 → ∃ r, populate s lowerBound upperBound = some r ∧
        r.lower = scope.1 ∧ r.upper = scope.2 ∧ r.WellFormed ∧
        ∀ x, r.Claims x ↔ r.InScope x ∧ Covers s x) := by
  refine ⟨fun h => by simp [h, populate], ?_⟩
  intro first last hfirst hlast
  cases s with
  | nil => simp at hfirst
  | cons f fs =>
    simp only [List.head?_cons, Option.some.injEq] at hfirst
    subst hfirst
    have hlv : last.Valid := hs.valid (List.mem_of_getLast? hlast)
    have hu2 : (if upperBound = U64 - 1 then add64 last.e 1 else upperBound) =
        (requestedScope f last lowerBound upperBound).2 := by
      simp only [requestedScope, U64]
      split
      · exact add64_eq _ _ hlv.2
      · rfl
    have hl2 : (if lowerBound = U64 - 1 then f.b else lowerBound) =
        (requestedScope f last lowerBound upperBound).1 := rfl
    have hub : (requestedScope f last lowerBound upperBound).2 < 2 ^ 64 := by
      simp only [requestedScope]; split
      · exact hlv.2
      · exact hu
    simp only [populate, hlast]
    rw [hu2, hl2]
    set lo := (requestedScope f last lowerBound upperBound).1
    set up := (requestedScope f last lowerBound upperBound).2
    refine ⟨fun h => by rw [if_pos h], fun h => ?_⟩
    rw [if_neg (by omega)]
    refine ⟨_, rfl, rfl, rfl, ?_⟩
    set from_ := (if lowerBound = U64 - 1 then f :: fs else
      (f :: fs).dropWhile fun g => g.lt ⟨lo, lo⟩) with hfrom
    have hcan : Canonical from_ := by
      rw [hfrom]; split
      · exact hs
      · exact canonical_drop _ hs _
    have hge : ∀ g ∈ from_, lo ≤ g.e + 1 := by
      rw [hfrom]; split
      · rename_i hauto
        intro g hg
        have hfb : lo = f.b := by rw [← hl2, if_pos hauto]
        have hgv := (hs.valid hg).1
        rw [canonical_cons] at hs
        rcases List.mem_cons.1 hg with rfl | hg'
        · omega
        · have := hs.2.1 g hg'
          have := hs.1.1
          omega
      · exact dropWhile_ge _ hs ⟨lo, lo⟩
    have hcov : ∀ x, lo ≤ x → (Covers from_ x ↔ Covers (f :: fs) x) := by
      intro x hx
      rw [hfrom]; split
      · rfl
      · exact covers_drop _ hs lo x hx
    obtain ⟨c1, c2, c3⟩ := claimLoop_spec lo up h hub from_ hcan hge
    refine ⟨⟨h, fun c hc => ⟨(c2 c hc).1, (c2 c hc).2.1⟩, c3⟩, fun x => ?_⟩
    simp only [Report.Claims, Report.InScope]
    rw [c1 x]
    constructor
    · rintro ⟨h1, h2⟩; exact ⟨h2, (hcov x h2.1).1 h1⟩
    · rintro ⟨h1, h2⟩; exact ⟨(hcov x h1.1).2 h2, h1⟩

example : Canonical [⟨0, 9⟩, ⟨20, 29⟩, ⟨40, 49⟩] ∧
    populate [⟨0, 9⟩, ⟨20, 29⟩, ⟨40, 49⟩] 5 45 = some ⟨5, 45, [⟨0, 5⟩, ⟨15, 10⟩, ⟨35, 5⟩]⟩ ∧
    populate [⟨0, 9⟩, ⟨20, 29⟩] 10 (2 ^ 64 - 1) = some ⟨10, 30, [⟨10, 10⟩]⟩ ∧
    populate [⟨0, 9⟩, ⟨20, 29⟩] 10 20 = some ⟨10, 20, []⟩ := by decide +kernel

/-- C11: splitting a report with at least one claim, for any positive limit: the pieces' scopes tile
the original scope, every piece is well formed and has between one and `max` claims, and within its
own scope each piece claims exactly what the original did. -/
theorem C11_split (r : Report) (hr : r.WellFormed) (hu : r.upper < 2 ^ 64) (hne : r.claims ≠ [])
    (max : Nat) (hmax : 0 < max) :
    ∃ pieces, split r max = .ok pieces ∧ Tiles r.lower r.upper pieces ∧
      (∀ p ∈ pieces, p.WellFormed ∧ 1 ≤ p.claims.length ∧ p.claims.length ≤ max) ∧
      (∀ p ∈ pieces, ∀ x, p.InScope x → (p.Claims x ↔ r.Claims x)) ∧
      (∀ x, (∃ p ∈ pieces, p.Claims x) ↔ r.Claims x) := by
  obtain ⟨last, h1, h2, h3, h4, h5⟩ := splitLoop_spec max hmax r.lower r.lower r.upper r.claims hu
    (Nat.le_refl _) (by have := hr.1; omega) hne
    (fun c hc => ⟨(hr.2.1 c hc).1, (hr.2.1 c hc).2, by omega⟩) hr.2.2
  set ps := splitLoop max hmax r.lower r.lower r.claims with hps
  have hpsne : ps ≠ [] := by intro h; rw [h] at h3; exact h3
  obtain ⟨ini, q, hq⟩ : ∃ ini q, ps = ini ++ [q] :=
    ⟨_, _, (List.dropLast_concat_getLast hpsne).symm⟩
  have hsplit : split r max = .ok (ini ++ [{ q with upper := r.upper }]) := by
    rw [split, dif_neg (by omega)]
    change setLastUpper r.upper ps = _
    rw [hq]
    exact setLastUpper_concat r.upper ini q
  rw [hq] at h3 h4 h5
  have ht := tiles_setLast r.lower last r.upper ini q h3
  have hwfq := h4 q (by simp)
  have hwf : ∀ p ∈ ini ++ [{ q with upper := r.upper }], p.WellFormed ∧ 1 ≤ p.claims.length ∧
      p.claims.length ≤ max ∧ r.lower ≤ p.lower := by
    intro p hp
    rcases List.mem_append.1 hp with hp | hp
    · have := h4 p (by simp [hp])
      exact ⟨this.1, List.length_pos_iff.2 this.2.1, this.2.2⟩
    · simp only [List.mem_singleton] at hp
      subst hp
      refine ⟨⟨?_, fun c hc => ?_, hwfq.1.2.2⟩, List.length_pos_iff.2 hwfq.2.1, hwfq.2.2⟩
      · have := hwfq.1.1; have := ht.2; simp only; omega
      · have h6 := hwfq.1.2.1 c hc
        have := ht.2
        simp only; omega
  have hclaims : ∀ x, (∃ p ∈ ini ++ [{ q with upper := r.upper }], p.Claims x) ↔ r.Claims x := by
    intro x
    have hcc : (∃ p ∈ ini ++ [{ q with upper := r.upper }], p.Claims x) ↔
        ∃ p ∈ ini ++ [q], p.Claims x := by
      simp only [List.mem_append, List.mem_singleton]
      constructor
      · rintro ⟨p, hp | rfl, h⟩
        · exact ⟨p, Or.inl hp, h⟩
        · exact ⟨q, Or.inr rfl, h⟩
      · rintro ⟨p, hp | rfl, h⟩
        · exact ⟨p, Or.inl hp, h⟩
        · exact ⟨_, Or.inr rfl, h⟩
    rw [hcc]
    have : r.Claims x ↔ ∃ c ∈ (ini ++ [q]).flatMap (fun r' => r'.claims.map fun c =>
        (⟨r'.lower + c.offset - r.lower, c.length⟩ : Claim)),
        r.lower + c.offset ≤ x ∧ x < r.lower + c.offset + c.length := by
      rw [h5]; rfl
    rw [this]
    constructor
    · rintro ⟨p, hp, c, hc, hx⟩
      have := (h4 p hp).2.2.2
      exact ⟨_, List.mem_flatMap.2 ⟨p, hp, List.mem_map.2 ⟨c, hc, rfl⟩⟩, by simp only; omega⟩
    · rintro ⟨c, hc, hx⟩
      obtain ⟨p, hp, hc⟩ := List.mem_flatMap.1 hc
      obtain ⟨d, hd, rfl⟩ := List.mem_map.1 hc
      have := (h4 p hp).2.2.2
      simp only at hx
      exact ⟨p, hp, d, hd, by omega⟩
  refine ⟨_, hsplit, ht.1, fun p hp => ⟨(hwf p hp).1, (hwf p hp).2.1, (hwf p hp).2.2.1⟩, ?_, hclaims⟩
  intro p hp x hx
  refine ⟨fun h => (hclaims x).1 ⟨p, hp, h⟩, fun h => ?_⟩
  obtain ⟨p', hp', h'⟩ := (hclaims x).2 h
  have hx' : p'.InScope x := by
    obtain ⟨c, hc, hx⟩ := h'
    have := (hwf p' hp').1.2.1 c hc
    simp only [Report.InScope]; omega
  have hpw := tiles_pairwise _ _ _ ht.1 fun p hp => (hwf p hp).1
  have heq : p = p' := by
    simp only [Report.InScope] at hx hx'
    rcases pairwise_cases hpw hp hp' with h | h | h
    · exact h
    · omega
    · omega
  rw [heq]; exact h'

/-- C11: the limit 0 is refused. -/
theorem C11_split_zero (r : Report) : split r 0 = .refused := by simp [split]

/-- C11: splitting a report without claims reads past an empty vector; the receiver never does
(it splits only when there are more claims than the limit). -/
theorem C11_split_no_claims (r : Report) (h : r.claims = []) (max : Nat) (hmax : 0 < max) :
    split r max = .undefined := by
  rw [split, dif_neg (by omega), h, splitLoop]; rfl

example : Report.WellFormed ⟨5, 100, [⟨0, 5⟩, ⟨15, 10⟩, ⟨35, 5⟩]⟩ ∧
    split ⟨5, 100, [⟨0, 5⟩, ⟨15, 10⟩, ⟨35, 5⟩]⟩ 2 =
      .ok [⟨5, 30, [⟨0, 5⟩, ⟨15, 10⟩]⟩, ⟨30, 100, [⟨10, 5⟩]⟩] := by
  refine ⟨by decide, ?_⟩
  simp [split, splitLoop, setLastUpper, nextLower, add64, sub64, U64]

/-! ### C12 -/

/-- The sender's record of acknowledged bytes after a sequence of reports. -/
def ackedAfter (s : List Frag) (reports : List Report) : List Frag :=
  reports.foldl (fun s r => (addReport s r).1) s

/-- A report whose claims are not empty and end below 2^64. -/
def Report.InRange (r : Report) : Prop :=
  ∀ c ∈ r.claims, 1 ≤ c.length ∧ r.lower + c.offset + c.length < 2 ^ 64

instance (r : Report) : Decidable r.InRange := inferInstanceAs (Decidable (∀ _, _))

/-- C12: one report adds exactly its claims to the record, and is reported as new exactly when it
claims a byte that was not acknowledged before. -/
theorem C12_report_added (s : List Frag) (hs : Canonical s) (r : Report) (hr : r.InRange) :
    Canonical (addReport s r).1 ∧
      (∀ x, Covers (addReport s r).1 x ↔ Covers s x ∨ r.Claims x) ∧
      ((addReport s r).2 = true ↔ ∃ x, r.Claims x ∧ ¬ Covers s x) :=
  addClaims_spec r.lower r.claims s hs hr

/-- C12: after any sequence of reports the record covers exactly the bytes claimed by one of them. -/
theorem C12_acked_is_union (reports : List Report) (hr : ∀ r ∈ reports, r.InRange) :
    Canonical (ackedAfter [] reports) ∧
      ∀ x, Covers (ackedAfter [] reports) x ↔ ∃ r ∈ reports, r.Claims x := by
  suffices ∀ s, Canonical s → Canonical (ackedAfter s reports) ∧
      ∀ x, Covers (ackedAfter s reports) x ↔ Covers s x ∨ ∃ r ∈ reports, r.Claims x by
    have := this [] canonical_nil
    simpa [covers_nil] using this
  induction reports with
  | nil => intro s hs; simpa [ackedAfter] using hs
  | cons r rs ih =>
    intro s hs
    have h := C12_report_added s hs r (hr r (by simp))
    have := ih (fun r hr' => hr r (by simp [hr'])) _ h.1
    refine ⟨this.1, fun x => ?_⟩
    rw [ackedAfter, List.foldl_cons]
    rw [ackedAfter] at this
    rw [this.2 x, h.2.1 x]
    simp only [List.mem_cons, exists_eq_or_imp]
    exact or_assoc

/-- C12: the record does not depend on the order or repetition of the reports. -/
theorem C12_acked_order_independent (r1 r2 : List Report) (h1 : ∀ r ∈ r1, r.InRange)
    (h2 : ∀ r ∈ r2, r.InRange) (h : ∀ x, (∃ r ∈ r1, r.Claims x) ↔ ∃ r ∈ r2, r.Claims x) :
    ackedAfter [] r1 = ackedAfter [] r2 := by
  have a := C12_acked_is_union r1 h1
  have b := C12_acked_is_union r2 h2
  exact canonical_unique _ _ a.1 b.1 fun x => by rw [a.2, b.2, h]

/-- C12 is violated outside that range: a claim that runs past 2^64, which nothing on the receive
path rejects, is recorded as a backwards range, and the record no longer covers what it claimed. -/
theorem C12_wrapping_claim_violated :
    ∃ r : Report, (∀ c ∈ r.claims, 1 ≤ c.length) ∧ r.Claims (2 ^ 64 - 1) ∧
      ¬ Covers (addReport [] r).1 (2 ^ 64 - 1) ∧ ¬ Canonical (addReport [] r).1 := by
  refine ⟨⟨2 ^ 64 - 5, 2 ^ 64 - 1, [⟨0, 10⟩]⟩, by decide, ⟨⟨0, 10⟩, by decide, by decide⟩, ?_, ?_⟩
  · have : (addReport [] ⟨2 ^ 64 - 5, 2 ^ 64 - 1, [⟨0, 10⟩]⟩).1 = [⟨2 ^ 64 - 5, 4⟩] := by
      decide +kernel
    rw [this]; rintro ⟨f, hf, h⟩; simp at hf; subst hf; exact absurd h (by decide)
  · decide +kernel

example : Report.InRange ⟨5, 45, [⟨0, 5⟩, ⟨15, 10⟩]⟩ ∧
    addReport [⟨0, 6⟩] ⟨5, 45, [⟨0, 5⟩, ⟨15, 10⟩]⟩ = ([⟨0, 9⟩, ⟨20, 29⟩], true) ∧
    ackedAfter [] [⟨5, 45, [⟨15, 10⟩]⟩, ⟨0, 20, [⟨0, 20⟩]⟩] = [⟨0, 29⟩] := by decide +kernel

/-- C12: the bytes to send again after a report: the scope of the report minus everything
acknowledged so far. -/
theorem C12_resend_gaps (acked : List Frag) (hs : Canonical acked) (r : Report)
    (hr : r.lower < r.upper) (hu : r.upper < 2 ^ 64) :
    Canonical (boundsMinusFragments ⟨r.lower, r.upper - 1⟩ acked) ∧
      ∀ x, Covers (boundsMinusFragments ⟨r.lower, r.upper - 1⟩ acked) x ↔
        r.InScope x ∧ ¬ Covers acked x := by
  have h := boundsMinus_spec ⟨r.lower, r.upper - 1⟩ (by simp only [Frag.Valid]; omega) acked hs
  refine ⟨h.1, fun x => ?_⟩
  rw [h.2 x]
  simp only [Frag.Has, Report.InScope]
  constructor
  · rintro ⟨h1, h2⟩; exact ⟨by omega, h2⟩
  · rintro ⟨h1, h2⟩; exact ⟨by omega, h2⟩

/-- C12: `AddReportSegmentToFragmentSetNeedingResent` adds exactly the bytes of the scope that a
well-formed report does not claim, and tells whether that changed the set. -/
theorem C12_needing_resent (s : List Frag) (hs : Canonical s) (r : Report) (hr : r.WellFormed)
    (hu : r.upper < 2 ^ 64) (hne : r.claims ≠ []) :
    Canonical (addNeedingResent s r).1 ∧
      (∀ x, Covers (addNeedingResent s r).1 x ↔ Covers s x ∨ (r.InScope x ∧ ¬ r.Claims x)) ∧
      ((addNeedingResent s r).2 = true ↔ ∃ x, r.InScope x ∧ ¬ r.Claims x ∧ ¬ Covers s x) := by
  obtain ⟨lower, upper, claims⟩ := r
  obtain ⟨c, cs, rfl⟩ := List.exists_cons_of_ne_nil hne
  obtain ⟨h1, h2, h3⟩ := hr
  simp only at h1 h2 h3 hu
  have hc := h2 c (by simp)
  have he : c.offset > 0 → sub64 (add64 lower c.offset) 1 = lower + c.offset - 1 := by
    intro h
    rw [add64_eq _ _ (by omega), sub64_eq _ _ (by omega) (by omega)]
  simp only [addNeedingResent]
  set r1 := (if c.offset > 0 then
    insertFragment s ⟨lower, sub64 (add64 lower c.offset) 1⟩ else (s, false)) with hr1
  have hr1s : Canonical r1.1 ∧
      (∀ x, Covers r1.1 x ↔ Covers s x ∨ (lower ≤ x ∧ x < lower + c.offset)) ∧
      (r1.2 = true ↔ ∃ x, Covers r1.1 x ∧ ¬ Covers s x) := by
    rw [hr1]; split
    · rename_i hpos
      rw [he hpos]
      have hi := insertLoop_spec s ⟨lower, lower + c.offset - 1⟩ false hs
        (by simp only [Frag.Valid]; omega)
      have hcov : ∀ x, Covers (insertFragment s ⟨lower, lower + c.offset - 1⟩).1 x ↔
          Covers s x ∨ (lower ≤ x ∧ x < lower + c.offset) := by
        intro x
        rw [insertFragment, hi.2.1]
        simp only [Frag.Has]
        constructor <;> (rintro (h | h); exact Or.inl h; exact Or.inr (by omega))
      refine ⟨hi.1, hcov, ?_⟩
      rw [insertFragment, hi.2.2.1]
      constructor
      · rintro (h | ⟨x, h1, h2⟩)
        · simp at h
        · exact ⟨x, (hi.2.1 x).2 (Or.inr h1), h2⟩
      · rintro ⟨x, h1, h2⟩
        exact Or.inr ⟨x, ((hi.2.1 x).1 h1).resolve_left h2, h2⟩
    · refine ⟨hs, fun x => ⟨Or.inl, fun h => h.elim id fun h => by omega⟩, by simp⟩
  obtain ⟨n1, n2⟩ := needLoop_spec lower upper hu cs c r1.1 hr1s.1 h2 h3
  have n3 := needLoop_flag lower upper hu cs c r1.1 hr1s.1 h2 h3
  have hcov : ∀ x, Covers (needLoop lower upper c cs r1.1).1 x ↔ Covers s x ∨
      (Report.InScope ⟨lower, upper, c :: cs⟩ x ∧ ¬ Report.Claims ⟨lower, upper, c :: cs⟩ x) := by
    intro x
    rw [n2 x, hr1s.2.1 x]
    simp only [Report.InScope, Report.Claims, List.mem_cons, exists_eq_or_imp, not_or]
    have hlt : (∃ d ∈ cs, lower + d.offset ≤ x ∧ x < lower + d.offset + d.length) →
        lower + c.offset + c.length < x := by
      rintro ⟨d, hd, hx⟩
      have := (List.pairwise_cons.1 h3).1 d hd
      omega
    constructor
    · rintro ((h | h) | ⟨h4, h5, h6⟩)
      · exact Or.inl h
      · refine Or.inr ⟨by omega, by omega, fun h7 => ?_⟩
        have := hlt h7; omega
      · exact Or.inr ⟨by omega, by omega, h6⟩
    · rintro (h | ⟨h4, h5, h6⟩)
      · exact Or.inl (Or.inl h)
      · by_cases hx : x < lower + c.offset
        · exact Or.inl (Or.inr ⟨h4.1, hx⟩)
        · exact Or.inr ⟨by omega, h4.2, h6⟩
  refine ⟨n1, hcov, ?_⟩
  rw [Bool.or_eq_true, hr1s.2.2, n3]
  constructor
  · rintro (⟨x, h4, h5⟩ | ⟨x, h4, h5⟩)
    · have := ((hcov x).1 ((n2 x).2 (Or.inl h4))).resolve_left h5
      exact ⟨x, this.1, this.2, h5⟩
    · have h6 : ¬ Covers s x := fun h => h5 ((hr1s.2.1 x).2 (Or.inl h))
      have := ((hcov x).1 h4).resolve_left h6
      exact ⟨x, this.1, this.2, h6⟩
  · rintro ⟨x, h4, h5, h6⟩
    by_cases hx : Covers r1.1 x
    · exact Or.inl ⟨x, hx, h6⟩
    · exact Or.inr ⟨x, (hcov x).2 (Or.inr ⟨h4, h5⟩), hx⟩

example : Report.WellFormed ⟨5, 100, [⟨0, 5⟩, ⟨15, 10⟩, ⟨35, 5⟩]⟩ ∧
    addNeedingResent [] ⟨5, 100, [⟨0, 5⟩, ⟨15, 10⟩, ⟨35, 5⟩]⟩ =
      ([⟨10, 19⟩, ⟨30, 39⟩, ⟨45, 99⟩], true) := by decide +kernel

/-- C12, deferred retransmission: the last pending report adds an entry exactly when some byte of its
scope was neither acknowledged nor in the scope of an earlier pending report; the entry carries its
report serial number and covers exactly those bytes. By recursion on the list this determines the
whole result. -/
theorem C12_reduce_last (received : List Frag) (hs : Canonical received)
    (pre : List (Frag × Nat)) (hp : ∀ p ∈ pre, p.1.Valid) (b : Frag) (hb : b.Valid) (rsn : Nat) :
    ∃ gaps, Canonical gaps ∧
      (∀ x, Covers gaps x ↔ b.Has x ∧ ¬ Covers received x ∧ ¬ ∃ p ∈ pre, p.1.Has x) ∧
      reduce (pre ++ [(b, rsn)]) received =
        reduce pre received ++ if gaps = [] then [] else [(rsn, gaps)] := by
  induction pre generalizing received with
  | nil =>
    have h := boundsMinus_spec b hb received hs
    refine ⟨_, h.1, fun x => by simpa using h.2 x, ?_⟩
    simp only [reduce, reduceLoop, List.nil_append]
  | cons p pre ih =>
    have hi := insertLoop_spec received p.1 false hs (hp p (by simp))
    obtain ⟨gaps, g1, g2, g3⟩ := ih _ hi.1 fun q hq => hp q (by simp [hq])
    refine ⟨gaps, g1, fun x => ?_, ?_⟩
    · rw [g2 x, hi.2.1 x]
      simp only [List.mem_cons, exists_eq_or_imp, not_or]
      tauto
    · obtain ⟨k, n⟩ := p
      simp only [reduce, List.cons_append, reduceLoop, insertFragment] at g3 ⊢
      rw [g3]
      split <;> simp

theorem reduce_nil (received : List Frag) : reduce [] received = [] := rfl

/-- C12, deferred retransmission: together the entries cover exactly the bytes of the pending scopes
that were not acknowledged; no byte is in two entries; every entry is non-empty and carries the
serial number of a pending report whose scope contains it. -/
theorem C12_reduce (received : List Frag) (hs : Canonical received)
    (pending : List (Frag × Nat)) (hp : ∀ p ∈ pending, p.1.Valid) :
    (∀ x, (∃ e ∈ reduce pending received, Covers e.2 x) ↔
      (∃ p ∈ pending, p.1.Has x) ∧ ¬ Covers received x) ∧
    (reduce pending received).Pairwise (fun e f => ∀ x, ¬ (Covers e.2 x ∧ Covers f.2 x)) ∧
    (∀ e ∈ reduce pending received, Canonical e.2 ∧ (∃ x, Covers e.2 x) ∧
      ∃ p ∈ pending, p.2 = e.1 ∧ ∀ x, Covers e.2 x → p.1.Has x) := by
  induction pending using List.reverseRecOn with
  | nil => simp [reduce_nil]
  | append_singleton pre p ih =>
    obtain ⟨b, rsn⟩ := p
    have hpre : ∀ p ∈ pre, p.1.Valid := fun q hq => hp q (by simp [hq])
    obtain ⟨i1, i2, i3⟩ := ih hpre
    obtain ⟨gaps, g1, g2, g3⟩ := C12_reduce_last received hs pre hpre b
      (hp (b, rsn) (by simp)) rsn
    rw [g3]
    have hcov : ∀ x, (∃ e ∈ (if gaps = [] then [] else [(rsn, gaps)] : List (Nat × List Frag)),
        Covers e.2 x) ↔ Covers gaps x := by
      intro x; split
      · rename_i h; simp [h, covers_nil]
      · simp
    refine ⟨fun x => ?_, ?_, ?_⟩
    · simp only [List.mem_append, or_and_right, exists_or]
      rw [i1 x, hcov x, g2 x]
      simp only [List.mem_singleton, exists_eq_left]
      by_cases hA : ∃ p ∈ pre, p.1.Has x
      · simp only [hA, true_and, not_true_eq_false, and_false, or_false]
        exact ⟨Or.inl, fun h => h.elim id And.right⟩
      · simp only [hA, false_and, not_false_eq_true, and_true, false_or]
    · rw [List.pairwise_append]
      refine ⟨i2, by split <;> simp, ?_⟩
      intro e he f hf x hx
      have h1 := (i1 x).1 ⟨e, he, hx.1⟩
      have h2 := (g2 x).1 ((hcov x).1 ⟨f, hf, hx.2⟩)
      exact h2.2.2 h1.1
    · intro e he
      rcases List.mem_append.1 he with he | he
      · obtain ⟨a, b', q, hq, c⟩ := i3 e he
        exact ⟨a, b', q, by simp [hq], c⟩
      · split at he
        · simp at he
        · rename_i hne
          simp only [List.mem_singleton] at he
          subst he
          exact ⟨g1, covers_of_ne_nil gaps g1 hne, (b, rsn), by simp, rfl,
            fun x hx => ((g2 x).1 hx).1⟩

example : Canonical [⟨0, 9⟩, ⟨30, 34⟩] ∧
    reduce [(⟨0, 19⟩, 7), (⟨5, 15⟩, 8), (⟨10, 39⟩, 9)] [⟨0, 9⟩, ⟨30, 34⟩] =
      [(7, [⟨10, 19⟩]), (9, [⟨20, 29⟩, ⟨35, 39⟩])] := by decide +kernel

end Hdtn.LtpReport
