import Verif.LtpReport.Model
import Verif.FragmentSet.Spec

/-!
Vocabulary for the report-segment properties.
-/

namespace Hdtn.LtpReport
open Hdtn.FragmentSet

/-- The report claims that block byte `x` was received. -/
def Report.Claims (r : Report) (x : Nat) : Prop :=
  ∃ c ∈ r.claims, r.lower + c.offset ≤ x ∧ x < r.lower + c.offset + c.length

/-- Block byte `x` is inside the report's scope. -/
def Report.InScope (r : Report) (x : Nat) : Prop := r.lower ≤ x ∧ x < r.upper

/-- A report as RFC 5326 section 3.2.2 wants it: non-empty scope, every claim non-empty and inside
the scope, claims in increasing order with a gap between any two. -/
def Report.WellFormed (r : Report) : Prop :=
  r.lower < r.upper ∧
  (∀ c ∈ r.claims, 1 ≤ c.length ∧ r.lower + c.offset + c.length ≤ r.upper) ∧
  r.claims.Pairwise fun c d => c.offset + c.length < d.offset

/-- The pieces are in order, each starts where the one before ends, the first at `cur`, and the last
ends at `last`. -/
def Tiles (cur last : Nat) : List Report → Prop
  | [] => False
  | [r] => r.lower = cur ∧ r.upper = last
  | r :: rs => r.lower = cur ∧ Tiles r.upper last rs

instance (r : Report) : Decidable r.WellFormed := inferInstanceAs (Decidable (_ ∧ _))

end Hdtn.LtpReport
