import Verif.Cgr.Model

/-!
What a contact plan allows, without reference to any search.
-/

namespace Hdtn.Cgr.Spec

open Hdtn.Cgr

/-- A contact that may carry data at all: not administratively suppressed, and with some volume
left. -/
def Usable (c : Contact) : Prop := c.suppressed = false ∧ ∃ m ∈ c.mav, m ≠ 0

/-- A bundle that is at the near end of a contact at time `t` waits for the contact to start and
then takes its one way light time. -/
def arrive (t : Int) (c : Contact) : Int := max t c.start + c.owlt

/-- When a bundle that follows the contacts one after the other gets to the end. -/
def arrival (t : Int) : List Contact → Int
  | [] => t
  | c :: cs => arrival (arrive t c) cs

/-- Where it is then. -/
def endNode (a : Nat) : List Contact → Nat
  | [] => a
  | c :: cs => endNode c.dst cs

/-- A bundle at node `a` at time `t` can follow these contacts of the plan: each one leaves from
where the bundle is, is usable, and has not ended when the bundle gets there. -/
def Journey (plan : List Contact) (a : Nat) (t : Int) : List Contact → Prop
  | [] => True
  | c :: cs => c ∈ plan ∧ Usable c ∧ c.frm = a ∧ t < c.stop ∧ Journey plan c.dst (arrive t c) cs

/-- The nodes a bundle passes, with the first one. -/
def nodesOf (a : Nat) (cs : List Contact) : List Nat := a :: cs.map (·.dst)

/-- Nothing takes longer than a `time_t` can tell. -/
def InTime (plan : List Contact) (a : Nat) (t : Int) : Prop :=
  -(2 ^ 63) ≤ t ∧ ∀ cs, Journey plan a t cs → arrival t cs < maxTime

/-- A light time is not negative. -/
def Causal (plan : List Contact) : Prop := ∀ c ∈ plan, 0 ≤ c.owlt

end Hdtn.Cgr.Spec
