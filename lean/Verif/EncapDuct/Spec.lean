import Verif.EncapDuct.Model
import Verif.Encap.Spec

/-!
What is expected of bundles over encapsulation packets.
-/

namespace Hdtn.EncapDuct.Spec

/-- The bundles for which `Forward` returned true, with their user data. -/
def accepted (s : Out) : List (Nat × Bytes) := s.results.filterMap fun r => if r.2.2 then some (r.1, r.2.1) else none

/-- The bundles that are neither acknowledged nor returned. -/
def waiting (s : Out) : List (Nat × Bytes) := s.ring.map fun e => (e.user, e.bundle)

/-- The bytes that were written on a connection. -/
def onConnection (s : Out) (c : Nat) : Bytes := ((s.wire.filter fun x => x.1 = c).map Prod.snd).flatten

/-- A bundle that fits into an encapsulation packet. -/
def Fits (b : Bytes) : Prop := b.length ≤ 4294967287

/-- No bundle that is handed to the outduct is too long. -/
def AllFit (evs : List Ev) : Prop := ∀ u b, Ev.forward u b ∈ evs → Fits b

/-- No write fails. -/
def NoError (evs : List Ev) : Prop := ∀ k, Ev.broken k ∉ evs

/-- The bundles that were taken for the way back. -/
def taken (s : Opp) : List Bytes := s.results.filterMap fun r => if r.2 then some r.1 else none

end Hdtn.EncapDuct.Spec
