import Verif.FragmentSet.Model

/-!
Model of `common/ltp/src/LtpFragmentSet.cpp`: building report segments from the set of received
ranges, splitting them, and what the sender derives from them. Numbers are `uint64_t`, so additions
and subtractions wrap.
-/

namespace Hdtn.LtpReport
open Hdtn.FragmentSet

/-- `Ltp::reception_claim_t`, Ltp.h:135-151. -/
structure Claim where
  offset : Nat
  length : Nat
deriving DecidableEq, Repr

/-- The scope and claims of `Ltp::report_segment_t`, Ltp.h:153-181 (the two serial numbers, which
these functions do not touch, are left out). -/
structure Report where
  lower : Nat
  upper : Nat
  claims : List Claim
deriving DecidableEq, Repr

/-- Addition on `uint64_t`. -/
def add64 (a b : Nat) : Nat := (a + b) % U64

/-- Subtraction on `uint64_t`. -/
def sub64 (a b : Nat) : Nat := (a + U64 - b) % U64

/-- The loop of `PopulateReportSegment` from its current element, LtpFragmentSet.cpp:52-77. -/
def claimLoop (lower upper : Nat) : List Frag → List Claim
  | [] => []
  | f :: fs =>
    let begin := max f.b lower
    if begin ≥ upper then []
    else
      let length := min (min (sub64 (add64 f.e 1) begin) (upper - lower)) (upper - begin)
      if length = 0 then claimLoop lower upper fs
      else ⟨begin - lower, length⟩ :: claimLoop lower upper fs

/-- `LtpFragmentSet::PopulateReportSegment`, LtpFragmentSet.cpp:19-79. `none` when it returns false.
A bound of 2^64-1 asks for automatic detection. -/
def populate (s : List Frag) (lowerBound upperBound : Nat) : Option Report :=
  match s, s.getLast? with
  | first :: _, some last =>
    let auto := lowerBound = U64 - 1
    let lower := if auto then first.b else lowerBound
    let from_ := if auto then s else s.dropWhile fun f => f.lt ⟨lower, lower⟩
    let upper := if upperBound = U64 - 1 then add64 last.e 1 else upperBound
    if lower ≥ upper then none
    else some ⟨lower, upper, claimLoop lower upper from_⟩
  | _, _ => none

/-- What `SplitReportSegment` can do: refuse, evaluate `back()` of an empty vector, or succeed. -/
inductive SplitResult where
  | refused
  | undefined
  | ok (pieces : List Report)
deriving DecidableEq, Repr

/-- The next lower bound after the claims of one piece, LtpFragmentSet.cpp:112-113. -/
def nextLower (origLower : Nat) (cur : Nat) (cs : List Claim) : Nat :=
  cs.foldl (fun _ c => add64 (add64 origLower c.offset) c.length) cur

/-- The `while` loop of `SplitReportSegment`, LtpFragmentSet.cpp:104-116. -/
def splitLoop (max : Nat) (hmax : 0 < max) (origLower cur : Nat) (claims : List Claim) :
    List Report :=
  match _h : claims with
  | [] => []
  | _ :: _ =>
    let now := claims.take max
    let next := nextLower origLower cur now
    ⟨cur, next, now.map fun c => ⟨sub64 c.offset (sub64 cur origLower), c.length⟩⟩ ::
      splitLoop max hmax origLower next (claims.drop max)
termination_by claims.length
decreasing_by subst _h; simp only [List.length_drop, List.length_cons]; omega

/-- `reportSegmentsVec.back().upperBound = ...`, LtpFragmentSet.cpp:117. -/
def setLastUpper (upper : Nat) : List Report → SplitResult
  | [] => .undefined
  | rs@(_ :: _) =>
    .ok (rs.dropLast ++ (rs.getLast?.map fun r => { r with upper := upper }).toList)

/-- `LtpFragmentSet::SplitReportSegment`, LtpFragmentSet.cpp:81-119. -/
def split (r : Report) (max : Nat) : SplitResult :=
  if h : max = 0 then .refused
  else setLastUpper r.upper (splitLoop max (Nat.pos_of_ne_zero h) r.lower r.lower r.claims)

/-- The loop of `AddReportSegmentToFragmentSet`. -/
def addClaims (lower : Nat) : List Claim → List Frag → List Frag × Bool
  | [], s => (s, false)
  | c :: cs, s =>
    let begin := add64 lower c.offset
    let r := insertFragment s ⟨begin, sub64 (add64 begin c.length) 1⟩
    let r2 := addClaims lower cs r.1
    (r2.1, r.2 || r2.2)

/-- `LtpFragmentSet::AddReportSegmentToFragmentSet`, LtpFragmentSet.cpp:121-129 (the 32-bit counter
of modifications is modelled as "some claim modified the set"). -/
def addReport (s : List Frag) (r : Report) : List Frag × Bool := addClaims r.lower r.claims s

/-- The loop of `AddReportSegmentToFragmentSetNeedingResent` over the claims after the first,
LtpFragmentSet.cpp:144-152, and the trailing gap, :153-156. -/
def needLoop (lower upper : Nat) (prev : Claim) : List Claim → List Frag → List Frag × Bool
  | [], s =>
    let begin := add64 (add64 lower prev.offset) prev.length
    if begin < upper then insertFragment s ⟨begin, sub64 upper 1⟩ else (s, false)
  | c :: cs, s =>
    let r := insertFragment s ⟨add64 (add64 lower prev.offset) prev.length,
      sub64 (add64 lower c.offset) 1⟩
    let r2 := needLoop lower upper c cs r.1
    (r2.1, r.2 || r2.2)

/-- `LtpFragmentSet::AddReportSegmentToFragmentSetNeedingResent`, LtpFragmentSet.cpp:131-158. -/
def addNeedingResent (s : List Frag) (r : Report) : List Frag × Bool :=
  match r.claims with
  | [] => (s, false)
  | c :: cs =>
    let r1 := if c.offset > 0 then
        insertFragment s ⟨r.lower, sub64 (add64 r.lower c.offset) 1⟩
      else (s, false)
    let r2 := needLoop r.lower r.upper c cs r1.1
    (r2.1, r1.2 || r2.2)

/-- The loop of `ReduceReportSegments`, LtpFragmentSet.cpp:167-177, over the pending reports in map
order; `acc` is `allReceivedPlusJustNowSentFragmentsSet`. -/
def reduceLoop : List (Frag × Nat) → List Frag → List (Nat × List Frag)
  | [], _ => []
  | (bounds, rsn) :: rest, acc =>
    let gaps := boundsMinusFragments bounds acc
    let acc' := (insertFragment acc bounds).1
    if gaps = [] then reduceLoop rest acc' else (rsn, gaps) :: reduceLoop rest acc'

/-- `LtpFragmentSet::ReduceReportSegments`, LtpFragmentSet.cpp:160-178. -/
def reduce (pending : List (Frag × Nat)) (received : List Frag) : List (Nat × List Frag) :=
  reduceLoop pending received

end Hdtn.LtpReport
