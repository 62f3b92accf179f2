import Verif.HashMap16.Props

/-!
Model of `module/storage/src/CustodyTimers.cpp`: retransmission timers of bundles in custody, one
list of (identifier, expiry) per final destination.

Times are numbers; the infinite time is the absence of a number. A `std::list` iterator is the
destination whose list it points into: erasing through an iterator of another list is undefined
behaviour and yields `none`.
-/

namespace Hdtn.CustodyTimers

open Hdtn.HashMap16

/-- The members, CustodyTimers.h:53-56. -/
structure State where
  lists : List (Eid × List (Nat × Nat))
  places : List (Nat × Eid)
  timeout : Nat

/-- The constructor, CustodyTimers.cpp:20. -/
def State.new (timeout : Nat) : State := ⟨[], [], timeout⟩

/-- `StartCustodyTransferTimer`, CustodyTimers.cpp:77-91, at time `now`. -/
def start (s : State) (now : Nat) (dest : Eid) (id : Nat) : State × Bool :=
  match OrdMap.lookup s.places id with
  | some _ => (s, false)
  | none =>
    let q := match OrdMap.lookup s.lists dest with
      | none => []
      | some q => q
    ({ s with
        lists := OrdMap.upsert Eid.lt dest (q ++ [(id, now + s.timeout)]) s.lists
        places := OrdMap.upsert natLt id dest s.places }, true)

/-- Put back a list that lost an element: it is dropped when empty; CustodyTimers.cpp:50-52,
:67-69, :99-101. -/
def putBack (s : State) (dest : Eid) (q : List (Nat × Nat)) : State :=
  { s with
    lists := if q = [] then OrdMap.erase dest s.lists else OrdMap.upsert Eid.lt dest q s.lists }

/-- `CancelCustodyTransferTimer`, CustodyTimers.cpp:92-108. -/
def cancel (s : State) (dest : Eid) (id : Nat) : Option (State × Bool) :=
  match OrdMap.lookup s.places id with
  | none => some (s, false)
  | some place =>
    match OrdMap.lookup s.lists dest with
    | none => some (s, false)
    | some q =>
      if place ≠ dest then none
      else
        let s1 := putBack s dest (q.eraseP fun p => p.1 = id)
        some ({ s1 with places := OrdMap.erase id s.places }, true)

/-- Take the front of a list and forget its iterator, CustodyTimers.cpp:46-53, :65-70. -/
def popFront (s : State) (dest : Eid) : State × Option Nat :=
  match OrdMap.lookup s.lists dest with
  | some ((id, _) :: q) =>
    let s1 := putBack s dest q
    ({ s1 with places := OrdMap.erase id s.places },
      if (OrdMap.lookup s.places id).isSome then some id else none)
  | _ => (s, none)

/-- The body of the loop of `PollOneAndPopExpiredCustodyTimer`, CustodyTimers.cpp:31-43: the lowest
expiry so far and the list it was found in. -/
def better (s : State) (best : Option (Nat × Eid)) (d : Eid) : Option (Nat × Eid) :=
  match OrdMap.lookup s.lists d with
  | some ((_, x) :: _) =>
    match best with
    | none => some (x, d)
    | some (y, _) => if y > x then some (x, d) else best
  | _ => best

/-- `PollOneAndPopExpiredCustodyTimer`, CustodyTimers.cpp:27-56: the identifier when it returns
true. -/
def poll (s : State) (avail : List Eid) (now : Nat) : State × Option Nat :=
  match avail.foldl (better s) none with
  | none => (s, none)
  | some (x, d) => if x ≤ now then popFront s d else (s, none)

/-- `PollOneAndPopAnyExpiredCustodyTimer`, CustodyTimers.cpp:58-75, from the current element on. -/
def pollAnyLoop (s : State) (now : Nat) : List (Eid × List (Nat × Nat)) → State × Option Nat
  | [] => (s, none)
  | (d, q) :: rest =>
    match q with
    | [] => pollAnyLoop s now rest
    | (_, x) :: _ => if x ≤ now then popFront s d else pollAnyLoop s now rest

/-- `PollOneAndPopAnyExpiredCustodyTimer`, CustodyTimers.cpp:58-75. -/
def pollAny (s : State) (now : Nat) : State × Option Nat := pollAnyLoop s now s.lists

/-- `GetNumCustodyTransferTimers()`, CustodyTimers.cpp:110-116. -/
def count (s : State) : Nat := (s.lists.map fun p => p.2.length).sum

/-- `GetNumCustodyTransferTimers(finalDestEid)`, CustodyTimers.cpp:118-124. -/
def countFor (s : State) (dest : Eid) : Nat :=
  match OrdMap.lookup s.lists dest with
  | some q => q.length
  | none => 0

end Hdtn.CustodyTimers
