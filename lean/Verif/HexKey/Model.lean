import Verif.Base

/-!
Model of the conversion between bytes and hexadecimal text, and of reading the key files of BPSec.

 - BinaryConversions.cpp is in /repo/common/util/src, BpSecPolicyManager.cpp in /repo/common/bpsec/src.

Simplifications: text is a list of character codes; `boost::algorithm::hex` and `unhex` and `boost::trim` (in the "C" locale) are modelled after their documentation.
-/

namespace Hdtn.HexKey

/-- A digit of `boost::algorithm::hex` (upper case). -/
def hexDigit (n : Nat) : UInt8 := if n < 10 then UInt8.ofNat (48 + n) else UInt8.ofNat (55 + n)

/-- `BytesToHexString`, BinaryConversions.cpp:46-51. -/
def hex : Bytes → Bytes
  | [] => []
  | b :: bs => hexDigit (b.toNat / 16) :: hexDigit (b.toNat % 16) :: hex bs

/-- `BytesToHexString` for several buffers, BinaryConversions.cpp:52-64. -/
def hexParts : List Bytes → Bytes
  | [] => []
  | p :: ps => hex p ++ hexParts ps

/-- The value of a digit in `boost::algorithm::unhex`; other characters throw. -/
def unhexDigit (c : UInt8) : Option Nat :=
  if 48 ≤ c ∧ c ≤ 57 then some (c.toNat - 48)
  else if 65 ≤ c ∧ c ≤ 70 then some (c.toNat - 55)
  else if 97 ≤ c ∧ c ≤ 102 then some (c.toNat - 87)
  else none

/-- `HexStringToBytes`, BinaryConversions.cpp:84-98; an odd number of digits throws. -/
def unhex : Bytes → Option Bytes
  | [] => some []
  | [_] => none
  | a :: b :: s =>
    match unhexDigit a, unhexDigit b, unhex s with
    | some x, some y, some bs => some (UInt8.ofNat (16 * x + y) :: bs)
    | _, _, _ => none

/-- `std::isspace`. -/
def isSpace (c : UInt8) : Bool := c == 32 || (9 ≤ c && c ≤ 13)

/-- `boost::trim`. -/
def trim (s : Bytes) : Bytes := ((s.dropWhile isSpace).reverse.dropWhile isSpace).reverse

/-- The key in a key file, BpSecPolicyManager.cpp:1100-1112. -/
def loadKey (contents : Bytes) : Option Bytes :=
  match unhex (trim contents) with
  | none => none
  | some [] => none
  | some key => some key

end Hdtn.HexKey
