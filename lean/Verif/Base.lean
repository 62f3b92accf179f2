import Mathlib.Tactic.SplitIfs
import Mathlib.Data.Nat.Bitwise
import Mathlib.Tactic.Ring
import Mathlib.Tactic.Linarith
import Mathlib.Tactic.NormNum
import Mathlib.Tactic.IntervalCases
import Mathlib.Tactic.Set

/-!
Shared vocabulary: byte strings.
-/

namespace Hdtn

/-- A byte string (a C++ `uint8_t` buffer). -/
abbrev Bytes := List UInt8

/-- Number of distinct values of a `uint64_t`; arithmetic on it is modulo this. -/
abbrev U64 : Nat := 2 ^ 64

/-- Number of distinct values of a `uint32_t`. -/
abbrev U32 : Nat := 2 ^ 32

end Hdtn
