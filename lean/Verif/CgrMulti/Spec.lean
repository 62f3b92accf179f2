import Verif.Cgr.Spec
import Verif.CgrMulti.Model

/-!
The plans multigraph routing is made for.  Journeys and arrival times are those of `Cgr.Spec`.
-/

namespace Hdtn.CgrMulti.Spec

open Hdtn.Cgr Hdtn.Cgr.Spec

/-- The contacts between two nodes follow one another, and take equally long. -/
def Separate (plan : List Contact) : Prop :=
  ∀ (i j : Nat) (c d : Contact), plan[i]? = some c → plan[j]? = some d → i ≠ j → c.frm = d.frm → c.dst = d.dst →
    (c.stop ≤ d.start ∨ d.stop ≤ c.start) ∧ c.owlt = d.owlt

/-- A contact starts before it ends, and both times are times. -/
def Proper (plan : List Contact) : Prop := ∀ c ∈ plan, c.start < c.stop ∧ c.stop ≤ maxTime

/-- From every node but the destination some contact goes on. -/
def NoDeadEnd (plan : List Contact) (dest : Nat) : Prop :=
  ∀ c ∈ plan, c.dst = dest ∨ ∃ d ∈ plan, d.frm = c.dst

/-- No contact ends at the very moment a bundle could get to it. -/
def NoTie (plan : List Contact) (source : Nat) (start : Int) : Prop :=
  ∀ cs, Journey plan source start cs → ∀ c ∈ plan, c.frm = endNode source cs →
    arrival start cs ≠ c.stop

/-- The source has the smallest node number. -/
def SourceFirst (plan : List Contact) (source : Nat) : Prop :=
  ∀ c ∈ plan, source ≤ c.frm ∧ source ≤ c.dst

/-- What multigraph routing takes for granted of a plan. -/
structure Good (plan : List Contact) (source : Nat) (start : Int) (dest : Nat) : Prop where
  separate : Separate plan
  proper : Proper plan
  causal : Causal plan
  inTime : InTime plan source start
  usable : ∀ c ∈ plan, Usable c
  noDeadEnd : NoDeadEnd plan dest
  noTie : NoTie plan source start

end Hdtn.CgrMulti.Spec
