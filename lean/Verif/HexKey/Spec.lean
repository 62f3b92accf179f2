import Verif.HexKey.Model

/-!
Hexadecimal text.
-/

namespace Hdtn.HexKey.Spec

/-- The place of a character in "0123456789abcdef", or else in "0123456789ABCDEF". -/
def value (c : UInt8) : Option Nat :=
  ([48, 49, 50, 51, 52, 53, 54, 55, 56, 57, 97, 98, 99, 100, 101, 102].idxOf? c).or ([48, 49, 50, 51, 52, 53, 54, 55, 56, 57, 65, 66, 67, 68, 69, 70].idxOf? c)

/-- Text that stands for bytes: two digits for each byte, the higher first. -/
inductive Represents : Bytes → Bytes → Prop
  | nil : Represents [] []
  | cons {a b : UInt8} {s bs : Bytes} {byte : UInt8} {x y : Nat} (hx : value a = some x) (hy : value b = some y) (hb : byte.toNat = 16 * x + y) (h : Represents s bs) :
      Represents (a :: b :: s) (byte :: bs)

/-- White space. -/
def Blank (s : Bytes) : Prop := ∀ c ∈ s, c = 32 ∨ c = 9 ∨ c = 10 ∨ c = 11 ∨ c = 12 ∨ c = 13

end Hdtn.HexKey.Spec
