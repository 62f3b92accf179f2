import Verif.Expiration.Model

/-!
Properties C48 (expiration times) and C49 (priority classes). Both are violated by the code; the
violations are shown next to the parts that hold.
-/

namespace Hdtn.Expiration

open Hdtn.HashMap16 Hdtn.Catalog

theorem v6_priority_lt (b : V6) : b.priority < 4 := by
  unfold V6.priority
  exact Nat.lt_of_le_of_lt Nat.and_le_right (by decide)

theorem filed_eq (p : Primary) (h : p.priority < 4) : filedExpiration p = p.expiration % 2 ^ 60 :=
  encode_expiration p h

/-- C48, BPv6 (partial): while creation time plus lifetime stays below 2^60 seconds, the bundle is
filed under exactly their sum, so a longer lifetime never expires earlier. Missing: larger sums, for
which the claim is false (`C48_violated`). -/
theorem C48_expiration_v6_partial (b : V6) (h : b.seconds + b.lifetimeSeconds < 2 ^ 60) :
    b.expirationSeconds = b.seconds + b.lifetimeSeconds ∧
      filedExpiration b.toPrimary = b.seconds + b.lifetimeSeconds ∧
      ∀ l, l ≤ b.lifetimeSeconds →
        filedExpiration { b with lifetimeSeconds := l }.toPrimary ≤ filedExpiration b.toPrimary := by
  have key : ∀ b' : V6, b'.seconds + b'.lifetimeSeconds < 2 ^ 60 →
      b'.expirationSeconds = b'.seconds + b'.lifetimeSeconds ∧
      filedExpiration b'.toPrimary = b'.seconds + b'.lifetimeSeconds := by
    intro b' h'
    have h1 : b'.expirationSeconds = b'.seconds + b'.lifetimeSeconds := by
      unfold V6.expirationSeconds U64; rw [Nat.mod_eq_of_lt (by omega)]
    refine ⟨h1, ?_⟩
    rw [filed_eq _ (v6_priority_lt b')]
    show b'.expirationSeconds % 2 ^ 60 = _
    rw [h1, Nat.mod_eq_of_lt h']
  refine ⟨(key b h).1, (key b h).2, fun l hl => ?_⟩
  rw [(key b h).2, (key { b with lifetimeSeconds := l } (by simp only; omega)).2]
  simp only; omega

/-- C48, BPv7 (partial): while creation time plus lifetime stays below 2^64 milliseconds, the bundle
is filed under the whole second in which it expires, so a longer lifetime never expires earlier and
a bundle is never filed under a second that ends its lifetime early by more than the rounding.
Missing: larger sums (`C48_violated`). -/
theorem C48_expiration_v7_partial (b : V7) (h : b.milliseconds + b.lifetimeMilliseconds < 2 ^ 64) :
    b.expirationMilliseconds = b.milliseconds + b.lifetimeMilliseconds ∧
      filedExpiration b.toPrimary = (b.milliseconds + b.lifetimeMilliseconds) / 1000 ∧
      ∀ l, l ≤ b.lifetimeMilliseconds →
        filedExpiration { b with lifetimeMilliseconds := l }.toPrimary ≤
          filedExpiration b.toPrimary := by
  have key : ∀ b' : V7, b'.milliseconds + b'.lifetimeMilliseconds < 2 ^ 64 →
      filedExpiration b'.toPrimary = (b'.milliseconds + b'.lifetimeMilliseconds) / 1000 := by
    intro b' h'
    rw [filed_eq _ (show (2 : Nat) < 4 by decide)]
    show b'.expirationSeconds % 2 ^ 60 = _
    unfold V7.expirationSeconds U64
    rw [Nat.mod_eq_of_lt h', Nat.mod_eq_of_lt (by omega)]
  refine ⟨?_, key b h, fun l hl => ?_⟩
  · unfold V7.expirationMilliseconds U64; rw [Nat.mod_eq_of_lt h]
  · rw [key b h, key { b with lifetimeMilliseconds := l } (by simp only; omega)]
    exact Nat.div_le_div_right (by simp only; omega)

/-- C48 fails: a BPv6 bundle created at second 800000000 with the largest lifetime is filed as
expired one second before its creation; one whose lifetime is 2^60 seconds is filed as expiring at
its creation although the sum fits in 64 bits; and a BPv7 bundle with the largest lifetime is filed
under its creation second. In each case a one second lifetime would be filed later. -/
theorem C48_violated :
    (let b : V6 := ⟨0, ⟨2, 1⟩, ⟨1, 1⟩, 800000000, 0, 2 ^ 64 - 1, 0⟩
     filedExpiration b.toPrimary = b.seconds - 1 ∧
       filedExpiration b.toPrimary < filedExpiration { b with lifetimeSeconds := 1 }.toPrimary) ∧
    (let b : V6 := ⟨0, ⟨2, 1⟩, ⟨1, 1⟩, 800000000, 0, 2 ^ 60, 0⟩
     b.expirationSeconds = b.seconds + b.lifetimeSeconds ∧ filedExpiration b.toPrimary = b.seconds) ∧
    (let b : V7 := ⟨false, ⟨2, 1⟩, ⟨1, 1⟩, 800000000001, 0, 2 ^ 64 - 1, 0⟩
     filedExpiration b.toPrimary = b.milliseconds / 1000 ∧
       filedExpiration b.toPrimary <
         filedExpiration { b with lifetimeMilliseconds := 1000 }.toPrimary) := by
  decide +kernel

/-- The entry made for a bundle keeps its priority. -/
theorem init_priority (p : Primary) (bs ps : Nat) (segs : List Nat) (mask : Option Eid)
    (h : p.priority < 4) : (Entry.init p bs ps segs mask).priority = p.priority :=
  encode_priority p h

/-- C49 (partial): a BPv6 bundle selects one of the three queues of its destination, that is,
adding it to the waiting bundles is defined, exactly when bits 7 and 8 of its flags are not both
set; a BPv7 bundle always does. Missing: the other BPv6 bundles (`C49_violated`). -/
theorem C49_priority_partial (c : Catalog) (id bs ps : Nat) (segs : List Nat) (mask : Option Eid)
    (order : Order) :
    (∀ b : V6, (c.addAwaiting (Entry.init b.toPrimary bs ps segs mask) id order ≠ none ↔
      ¬ (b.flags.testBit 7 = true ∧ b.flags.testBit 8 = true))) ∧
    (∀ b : V7, c.addAwaiting (Entry.init b.toPrimary bs ps segs mask) id order ≠ none) := by
  have hdef : ∀ e : Entry, c.addAwaiting e id order ≠ none ↔ e.priority < 3 := by
    intro e; unfold Catalog.addAwaiting; split <;> simp [*]
  constructor
  · intro b
    rw [hdef, init_priority _ _ _ _ _ (v6_priority_lt b)]
    show b.priority < 3 ↔ _
    unfold V6.priority
    have h7 : b.flags.testBit 7 = (b.flags >>> 7).testBit 0 := by rw [Nat.testBit_shiftRight]
    have h8 : b.flags.testBit 8 = (b.flags >>> 7).testBit 1 := by rw [Nat.testBit_shiftRight]
    rw [h7, h8]
    generalize b.flags >>> 7 = n
    have e : n &&& 3 = n % 4 := Nat.and_two_pow_sub_one_eq_mod n 2
    rw [e]
    have t0 : n.testBit 0 = decide (n % 2 = 1) := Nat.testBit_zero n
    have t1 : n.testBit 1 = decide (n / 2 % 2 = 1) := by
      rw [Nat.testBit_succ, Nat.testBit_zero]
    rw [t0, t1]
    simp only [decide_eq_true_eq]
    omega
  · intro b
    rw [hdef, init_priority _ _ _ _ _ (show (2 : Nat) < 4 by decide)]
    show (2 : Nat) < 3
    decide

/-- C49 fails: the flag word 0x180 gives priority 3, and the bundle cannot be stored in any catalog:
the code indexes its array of three priorities at 3. -/
theorem C49_violated (c : Catalog) (id : Nat) (order : Order) :
    let b : V6 := ⟨0x180, ⟨2, 1⟩, ⟨1, 1⟩, 800000000, 0, 1000, 0⟩
    b.priority = 3 ∧ c.store (Entry.init b.toPrimary 100 50 [0] none) b.toPrimary id order = none := by
  refine ⟨by decide, ?_⟩
  rfl

/-- Bundles that meet the hypotheses. -/
example : (let b : V6 := ⟨0x98, ⟨2, 1⟩, ⟨1, 1⟩, 800000000, 0, 3600, 0⟩
    b.seconds + b.lifetimeSeconds < 2 ^ 60 ∧ filedExpiration b.toPrimary = 800003600 ∧
      b.priority = 1 ∧ b.toPrimary.custody = true) ∧
    (let b : V7 := ⟨false, ⟨2, 1⟩, ⟨1, 1⟩, 800000000001, 0, 3600999, 0⟩
     b.milliseconds + b.lifetimeMilliseconds < 2 ^ 64 ∧
       filedExpiration b.toPrimary = 800003601) := by
  decide +kernel

end Hdtn.Expiration
