import Verif.FragmentSet.Model

/-!
Vocabulary for the fragment-set properties: which indices a set of ranges covers, and what it means
to be in canonical form. (`Frag` is just a pair of indices.)
-/

namespace Hdtn.FragmentSet

/-- Index `x` lies in the range. -/
def Frag.Has (f : Frag) (x : Nat) : Prop := f.b ≤ x ∧ x ≤ f.e

/-- Index `x` lies in one of the ranges. -/
def Covers (s : List Frag) (x : Nat) : Prop := ∃ f ∈ s, f.Has x

/-- A range that is not empty and whose end is below the largest 64-bit number. -/
def Frag.Valid (f : Frag) : Prop := f.b ≤ f.e ∧ f.e + 1 < 2 ^ 64

/-- Canonical form: non-empty ranges, in increasing order, with at least one uncovered index between
any two of them. -/
def Canonical (s : List Frag) : Prop :=
  (∀ f ∈ s, f.Valid) ∧ s.Pairwise fun f g => f.e + 1 < g.b

instance (f : Frag) (x : Nat) : Decidable (f.Has x) := inferInstanceAs (Decidable (_ ∧ _))
instance (f : Frag) : Decidable f.Valid := inferInstanceAs (Decidable (_ ∧ _))
instance (s : List Frag) : Decidable (Canonical s) := inferInstanceAs (Decidable (_ ∧ _))

end Hdtn.FragmentSet
