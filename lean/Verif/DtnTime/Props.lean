import Verif.DtnTime.Lemmas

/-!
# C180: conversion between times of DTN and of the clock
-/

namespace Hdtn.DtnTime

/-- **C180 (exact).** A time of the clock from the year 2000 on becomes a proper time of DTN that stands for the
same number of nanoseconds. -/
theorem C180_exact_partial (t : Int) (h : covered t) :
    (ofPtime t).proper ∧ ((ofPtime t).nanos : Int) = t * 1000 := by
  obtain ⟨n, rfl⟩ := Int.eq_ofNat_of_zero_le h.1
  have hn : n < 2 ^ 64 * 1000000 := by have := h.2; omega
  rw [ofPtime_nat n hn]
  simp only [DtnTime.proper, DtnTime.nanos]
  omega

/-- **C180 (there and back).** It comes back unchanged. Missing: earlier times (`C180_before_violated`). -/
theorem C180_round_trip_partial (t : Int) (h : covered t) : toPtime (ofPtime t) = t := by
  obtain ⟨n, rfl⟩ := Int.eq_ofNat_of_zero_le h.1
  have hn : n < 2 ^ 64 * 1000000 := by have := h.2; omega
  rw [ofPtime_nat n hn]
  simp only [toPtime]
  omega

/-- **C180 (loss).** A proper time of DTN taken to the clock and back is the greatest whole number of
microseconds that is not later: it loses less than one microsecond and never gains. -/
theorem C180_lossy (d : DtnTime) (h : d.proper) :
    (ofPtime (toPtime d)).proper ∧ (ofPtime (toPtime d)).nanos ≤ d.nanos ∧
      d.nanos < (ofPtime (toPtime d)).nanos + 1000 ∧ (ofPtime (toPtime d)).nanos % 1000 = 0 := by
  obtain ⟨s, n⟩ := d
  obtain ⟨h1, h2⟩ := h
  simp only at h1 h2
  have e : toPtime ⟨s, n⟩ = ((s * 1000000 + n / 1000 : Nat) : Int) := by simp [toPtime]
  rw [e, ofPtime_nat _ (by omega)]
  simp only [DtnTime.proper, DtnTime.nanos]
  omega

/-- **C180 (order).** Proper times of DTN are compared as what they stand for. -/
theorem C180_order (a b : DtnTime) (ha : a.proper) (hb : b.proper) : lt a b = true ↔ a.nanos < b.nanos := by
  obtain ⟨_, ha⟩ := ha
  obtain ⟨_, hb⟩ := hb
  simp only [lt, DtnTime.nanos]
  split_ifs with h <;> simp only [decide_eq_true_eq] <;> omega

/-- **C180, violated before the year 2000.** One microsecond before, as on a machine whose clock is not set, is
taken for a time with more than four seconds of nanoseconds, after the start of the year. -/
theorem C180_before_violated :
    ¬ (ofPtime (-1)).proper ∧ 0 < toPtime (ofPtime (-1)) ∧ toPtime (ofPtime (-1)) ≠ -1 := by
  simp only [DtnTime.proper]
  decide +kernel

/-- A time in November 2026. -/
example : covered 848188800123456 ∧ ofPtime 848188800123456 = ⟨848188800, 123456000⟩ := by
  simp only [covered]; decide +kernel
example : (⟨848188800, 123456789⟩ : DtnTime).proper ∧
    ofPtime (toPtime ⟨848188800, 123456789⟩) = ⟨848188800, 123456000⟩ ∧
    lt ⟨848188800, 123456789⟩ ⟨848188801, 5⟩ = true := by
  simp only [DtnTime.proper]; decide +kernel

end Hdtn.DtnTime
