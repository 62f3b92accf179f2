import Verif.CustodyTimers.Model

/-!
Specification for C32: the timers that are running, as seen from the calls and their answers.
-/

namespace Hdtn.CustodyTimers

open Hdtn.HashMap16

/-- A timer: the bundle, its destination and when it is due. -/
structure Timer where
  id : Nat
  dest : Eid
  due : Nat
deriving DecidableEq, Repr

/-- The timers left when a poll answered `r`. -/
def left (run : List Timer) : Option Nat → List Timer
  | none => run
  | some id => run.filter fun t => t.id ≠ id

/-- One call. `clock` is the time of the last start; it does not go back. The running timers are
those whose start answered true, without those whose cancellation answered true and those a poll
answered with. -/
inductive Step : State × List Timer × Nat → State × List Timer × Nat → Prop
  | start (s s' : State) (run : List Timer) (clock now : Nat) (dest : Eid) (id : Nat) (ok : Bool)
      (hclock : clock ≤ now) (h : start s now dest id = (s', ok)) :
      Step (s, run, clock)
        (s', if ok then run ++ [⟨id, dest, now + s.timeout⟩] else run, now)
  | cancel (s s' : State) (run : List Timer) (clock : Nat) (dest : Eid) (id : Nat) (ok : Bool)
      (h : cancel s dest id = some (s', ok)) :
      Step (s, run, clock) (s', if ok then run.filter (fun t => t.id ≠ id) else run, clock)
  | poll (s s' : State) (run : List Timer) (clock now : Nat) (avail : List Eid) (r : Option Nat)
      (h : poll s avail now = (s', r)) :
      Step (s, run, clock) (s', left run r, clock)
  | pollAny (s s' : State) (run : List Timer) (clock now : Nat) (r : Option Nat)
      (h : pollAny s now = (s', r)) :
      Step (s, run, clock) (s', left run r, clock)

/-- What a history leads to. -/
inductive Reachable (timeout : Nat) : State × List Timer × Nat → Prop
  | new : Reachable timeout (State.new timeout, [], 0)
  | step (s s' : State × List Timer × Nat) (h : Reachable timeout s) (hs : Step s s') :
      Reachable timeout s'

end Hdtn.CustodyTimers
