import Verif.Iv.Model

/-!
What is meant by the number of vectors an object has issued.
-/

namespace Hdtn.Iv.Spec

/-- The number of vectors of a length that an object has issued. -/
def issuedBy (p : Process) (i : Nat) (short : Bool) : Nat :=
  (p.issued.filter fun x => x.1 = i ∧ x.2.1 = short).length

/-- The clock shows 64-bit numbers. -/
def ClockOk (es : List Event) : Prop :=
  ∀ clock, Event.create clock ∈ es → ∀ t ∈ clock, t < 2 ^ 64

end Hdtn.Iv.Spec
