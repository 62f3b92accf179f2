import Verif.LtpSource.Model

/-!
What is expected of the bundle source over LTP.
-/

namespace Hdtn.LtpSource.Spec

/-- The number of bundles that were accepted, or are about to be, and have not been answered for by the engine. -/
def underWay (s : Src) : Nat :=
  s.posted.length + s.sessions.length + (match s.pc with | .admitted _ => 1 | _ => 0)

/-- The sizes of the bundles for which `Forward` returned true. -/
def accepted (s : Src) : List Nat := s.results.filterMap fun r => if r.2 then some r.1 else none

/-- The engine starts no sessions to receive. -/
def NoForeign (as : List Act) : Prop := Act.foreign ∉ as

/-- The engine gives up no request. -/
def NoDrop (as : List Act) : Prop := Act.drop ∉ as

/-- `Forward` from beginning to end while the engine does nothing. -/
def forward (s : Src) (size : Nat) (ready : Bool) : Src := s.run [.call size ready, .next, .next, .next]

end Hdtn.LtpSource.Spec
