import Verif.Base

/-!
Model of `common/util/src/Uri.cpp`. A string is the list of its bytes. The overload of
`ParseIpnSspString` for iterators (Uri.cpp:77-103) is called nowhere in /repo and is not modelled.
-/

namespace Hdtn.Uri

/-- Decimal digits as printed by `%d` and `PRIu64`. -/
def decimal (v : Nat) : Bytes :=
  if v < 10 then [UInt8.ofNat (48 + v)] else decimal (v / 10) ++ [UInt8.ofNat (48 + v % 10)]

/-- `Uri::GetIpnUriString`, Uri.cpp:24-29. -/
def getIpnUriString (node service : Nat) : Bytes :=
  [105, 112, 110, 58] ++ decimal node ++ [46] ++ decimal service

/-- `Uri::GetIpnUriStringAnyServiceNumber`, Uri.cpp:30-35. -/
def getIpnUriStringAny (node : Nat) : Bytes :=
  [105, 112, 110, 58] ++ decimal node ++ [46, 42]

/-- `Uri::WriteIpnUriCstring`, Uri.cpp:38-45: the bytes that count as written, the null character
included. Too small a buffer gives 0; that `snprintf` then has stored a cut-off text is left out. -/
def writeIpnUriCstring (node service maxBufferSize : Nat) : Bytes :=
  let text := getIpnUriString node service
  if text.length ≥ maxBufferSize then [] else text ++ [0]

/-- Digits only, at least one, most significant first: the loop of `boost::lexical_cast`. -/
def digitsValue : Nat → Bytes → Option Nat
  | acc, [] => some acc
  | acc, c :: cs =>
    if 48 ≤ c.toNat ∧ c.toNat ≤ 57 then digitsValue (acc * 10 + (c.toNat - 48)) cs else none

/-- The part of `boost::lexical_cast<uint64_t>` behind the sign: at least one digit, no overflow. -/
def castDigits (negative : Bool) (digits : Bytes) : Option Nat :=
  match digits, digitsValue 0 digits with
  | [], _ => none
  | _ :: _, none => none
  | _ :: _, some v =>
    if v ≥ 2 ^ 64 then none else some (if negative then (2 ^ 64 - v) % 2 ^ 64 else v)

/-- `boost::lexical_cast<uint64_t>` on a stretch of characters: optional sign, digits, no overflow;
the result for a minus sign is `0 - value` modulo 2^64. (Boost is not in /repo: this is its
documented behaviour in the C locale.) -/
def lexicalCast (s : Bytes) : Option Nat :=
  match s with
  | [] => none
  | c :: cs =>
    if c = 45 then castDigits true cs
    else if c = 43 then castDigits false cs
    else castDigits false (c :: cs)

/-- What `ParseIpnSspString` reports for the service: a number, or `none` for the wildcard (the
number is left as it was and `*serviceNumberIsWildCard` is true). -/
abbrev Service := Option Nat

/-- `Uri::ParseIpnSspString(const char*, ...)`, Uri.cpp:105-151. `wildWanted` says whether a pointer
for the wildcard flag is passed. -/
def parseSsp (wildWanted : Bool) (data : Bytes) : Option (Nat × Service) :=
  if data.count 46 ≠ 1 then none
  else
    let str1 := data.takeWhile (· ≠ 46)
    let str2 := data.drop (str1.length + 1)
    if str1 = [] ∨ str2 = [] then none
    else
      match lexicalCast str1 with
      | none => none
      | some node =>
        if wildWanted = true ∧ str2 = [42] then some (node, none)
        else
          match lexicalCast str2 with
          | none => none
          | some service => some (node, some service)

/-- `Uri::ParseIpnUriString`, Uri.cpp:50-56. -/
def parseUri (wildWanted : Bool) (uri : Bytes) : Option (Nat × Service) :=
  if uri.length < 7 ∨ uri.take 4 ≠ [105, 112, 110, 58] then none
  else parseSsp wildWanted (uri.drop 4)

/-- `Uri::ParseIpnUriCstring`, Uri.cpp:57-75: result and what is left behind the null character. -/
def parseCstring (wildWanted : Bool) (data : Bytes) : Option ((Nat × Service) × Bytes) :=
  if 0 ∈ data then
    let text := data.takeWhile (· ≠ 0)
    match parseUri wildWanted text with
    | none => none
    | some r => some (r, data.drop (text.length + 1))
  else none

/-- `bitScanIndexMinValStrLengths`, Uri.cpp:153-218. -/
def minLengths : List Nat :=
  [1, 1, 1, 1, 2, 2, 2, 3, 3, 3, 4, 4, 4, 4, 5, 5, 5, 6, 6, 6, 7, 7, 7, 7, 8, 8, 8, 9, 9, 9, 10, 10,
   10, 10, 11, 11, 11, 12, 12, 12, 13, 13, 13, 13, 14, 14, 14, 15, 15, 15, 16, 16, 16, 16, 17, 17,
   17, 18, 18, 18, 19, 19, 19, 19]

/-- `tenToThe`, Uri.cpp:219-240. -/
def tenToThe : List Nat :=
  [1, 10, 100, 1000, 10000, 100000, 1000000, 10000000, 100000000, 1000000000, 10000000000,
   100000000000, 1000000000000, 10000000000000, 100000000000000, 1000000000000000,
   10000000000000000, 100000000000000000, 1000000000000000000, 10000000000000000000]

/-- `Uri::GetStringLengthOfUint`, Uri.cpp:242-250; `none` for a read outside a table. `find_msb` is
`Nat.log2`. -/
def getStringLengthOfUint (val : Nat) : Option Nat := do
  let msb := Nat.log2 (val + if val = 0 then 1 else 0)
  let low ← minLengths[msb]?
  let ten ← tenToThe[low]?
  return low + if val ≥ ten then 1 else 0

/-- `Uri::GetIpnUriCstringLengthRequiredIncludingNullTerminator`, Uri.cpp:46-48. -/
def cstringLength (node service : Nat) : Option Nat := do
  return 6 + (← getStringLengthOfUint node) + (← getStringLengthOfUint service)

end Hdtn.Uri
