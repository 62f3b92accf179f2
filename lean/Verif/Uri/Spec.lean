import Verif.Base

/-!
ipn URIs as text, independent of the code. Text is a list of ASCII codes.
-/

namespace Hdtn.Uri.Spec

/-- The digits '0' to '9'. -/
def IsDigit (c : UInt8) : Prop := 48 ≤ c.toNat ∧ c.toNat ≤ 57

/-- The number that a string of digits denotes. -/
def value : Bytes → Nat
  | [] => 0
  | c :: cs => (c.toNat - 48) * 10 ^ cs.length + value cs

/-- `s` is a decimal numeral of `v`. -/
def IsDecimal (s : Bytes) (v : Nat) : Prop := s ≠ [] ∧ (∀ c ∈ s, IsDigit c) ∧ value s = v

/-- No leading zero, unless it is the only digit. -/
def Shortest (s : Bytes) : Prop := ∀ c cs, s = c :: cs → cs ≠ [] → c ≠ 48

/-- `s` is what `boost::lexical_cast` to a 64-bit unsigned number takes for `v`: a decimal numeral
below 2^64, a plus sign before it, or a minus sign, which yields the two's complement. -/
def IsSignedNumeral (s : Bytes) (v : Nat) : Prop :=
  ∃ ds w, IsDecimal ds w ∧ w < 2 ^ 64 ∧
    ((s = ds ∧ v = w) ∨ (s = 43 :: ds ∧ v = w) ∨ (s = 45 :: ds ∧ v = (2 ^ 64 - w) % 2 ^ 64))

/-- `ipn:` followed by two texts with a dot between them. -/
def ipn (a b : Bytes) : Bytes := [105, 112, 110, 58] ++ a ++ [46] ++ b

end Hdtn.Uri.Spec
