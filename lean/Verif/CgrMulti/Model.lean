import Verif.Cgr.Model

/-!
Multigraph routing: `cgr::cmr_dijkstra`, `ContactMultigraph` and the binary searches
(common/cgr/src/libcgr.cpp:258-296, 551-766, common/cgr/include/libcgr.h:79-136).

`Contact`, `Route` and `Result` are those of `Verif.Cgr.Model`.
-/

namespace Hdtn.CgrMulti

open Hdtn.Cgr

/-- An entry of an adjacency list: a contact and its index in the plan. -/
abbrev Link := Contact × Nat

/-- libcgr.cpp:565-575: the loop of `contact_search_index`.  `none`: a read past the end, or (for
`fuel`) a loop without end. -/
def bisect (l : List Link) (t : Int) : Nat → Nat → Nat → Option Nat
  | 0, _, _ => none
  | fuel + 1, left, right =>
    if left + 1 < right then
      match l[(left + right) / 2]? with
      | none => none
      | some c =>
        if c.1.stop > t then bisect l t fuel left ((left + right) / 2)
        else bisect l t fuel ((left + right) / 2) right
    else some right

/-- `contact_search_index` (libcgr.cpp:559-576). -/
def searchIndex (l : List Link) (t : Int) : Option Nat :=
  match l[0]? with
  | none => none
  | some c => if c.1.stop > t then some 0 else bisect l t (l.length + 1) 0 (l.length - 1)

/-- `contact_search` and `contact_search_predecessor` (libcgr.cpp:554-557, 578-595): the same
search, one giving the contact and the other its index. -/
def searchLink (l : List Link) (t : Int) : Option Link :=
  match searchIndex l t with
  | none => none
  | some k => l[k]?

/-- libcgr.cpp:276-287: adding a contact to the adjacency list of its pair of nodes.  (For a new
vertex, 270-274, the list is empty.)  `none`: a read past the end. -/
def addLink (l : List Link) (ci : Link) : Option (List Link) :=
  match l.getLast? with
  | none => some [ci]
  | some last =>
    if ci.1.start > last.1.start then some (l ++ [ci])
    else
      match searchIndex l ci.1.start with
      | none => none
      | some k => some (l.take k ++ ci :: l.drop k)

/-- Adding several, in order. -/
def addLinks : List Link → List Link → Option (List Link)
  | l, [] => some l
  | l, ci :: rest =>
    match addLink l ci with
    | none => none
    | some l' => addLinks l' rest

/-- `adjacencies[b]` of vertex `a` after the constructor of `ContactMultigraph`
(libcgr.cpp:262-289).  The loop works on each pair of nodes by itself, so the list of a pair is
given by the contacts of the pair, in plan order. -/
def links (plan : List Contact) (a b : Nat) : Option (List Link) :=
  addLinks [] (plan.zipIdx.filter (fun ci => ci.1.frm == a && ci.1.dst == b))

/-- The keys of `adjacencies` of vertex `a`.  The order in which the code goes through them is that
of a hash map; every order gives the same result. -/
def neighbours (plan : List Contact) (a : Nat) : List Nat :=
  ((plan.filter (fun c => c.frm == a)).map (·.dst)).dedup

/-- The keys of `m_nodeMap`: the near ends of all contacts, and the destination
(libcgr.cpp:262-295). -/
def vertices (plan : List Contact) (dest : Nat) : List Nat :=
  (dest :: plan.map (·.frm)).dedup

/-- The variable part of `m_nodeMap` (`CmrMapData`, libcgr.h:106-114), and the queue.
`pred` is `none` for the initial `UINT64_MAX` (libcgr.cpp:299). -/
structure State where
  arrival : Nat → Int
  visited : Nat → Bool
  pred : Nat → Option Nat
  queue : List (Int × Nat)

/-- `CompareArrivals` (libcgr.h:125-136): earlier first, and the smaller id of equals. -/
def before (x y : Int × Nat) : Bool := decide (x.1 < y.1) || (decide (x.1 = y.1) && decide (x.2 < y.2))

/-- The first entry of the queue. -/
def top : List (Int × Nat) → Option (Int × Nat)
  | [] => none
  | x :: rest =>
    match top rest with
    | none => some x
    | some y => if before y x then some y else some x

/-- `PQ.top()` and `PQ.pop()`. -/
def pop (q : List (Int × Nat)) : Option ((Int × Nat) × List (Int × Nat)) :=
  match top q with
  | none => none
  | some x => some (x, q.erase x)

/-- Assigning to an entry of a map. -/
def put {α : Type} (f : Nat → α) (k : Nat) (x : α) : Nat → α := fun n => if n = k then x else f n

/-- What one turn of a loop ends with. -/
inductive Turn (α : Type) where
  | go (x : α)
  | stop (r : Result)

/-- libcgr.cpp:625-692: one neighbour `u` of the vertex `v`. -/
def relax (plan : List Contact) (dest : Nat) (v : Nat) (s : State) (u : Nat) : Turn State :=
  if u ∉ vertices plan dest then .stop (.route Route.empty)
  else if s.visited u then .go s
  else
    match links plan v u with
    | none => .stop .broken
    | some l =>
      match l.getLast? with
      | none => .go s
      | some last =>
        if last.1.stop < s.arrival v ∧ s.arrival v ≠ maxTime then .go s
        else
          match searchLink l (s.arrival v) with
          | none => .stop .broken
          | some best =>
            if best.1.owlt < 0 then .stop .overflow
            else
              let t0 := max best.1.start (s.arrival v)
              let t := if t0 ≤ maxTime - best.1.owlt then t0 + best.1.owlt else t0
              if t < s.arrival u then
                match searchLink l (s.arrival v) with
                | none => .stop .broken
                | some p => .go { s with
                    arrival := put s.arrival u t
                    pred := put s.pred u (some p.2)
                    queue := (t, u) :: s.queue }
              else .go s

/-- libcgr.cpp:625-692: all neighbours. -/
def relaxAll (plan : List Contact) (dest : Nat) (v : Nat) : List Nat → State → Turn State
  | [], s => .go s
  | u :: us, s =>
    match relax plan dest v s u with
    | .stop r => .stop r
    | .go s' => relaxAll plan dest v us s'

/-- libcgr.cpp:623-712: the main loop.  `fuel` bounds the number of turns. -/
def run (plan : List Contact) (dest : Nat) : Nat → Nat → State → Turn State
  | 0, _, _ => .stop .broken
  | fuel + 1, v, s =>
    match relaxAll plan dest v (neighbours plan v) s with
    | .stop r => .stop r
    | .go s1 =>
      let s2 := { s1 with visited := put s1.visited v true }
      match pop s2.queue with
      | none => .stop (.route Route.empty)
      | some (x, q) =>
        let s3 := { s2 with queue := q }
        if x.2 = dest then .go s3 else run plan dest fuel x.2 s3

/-- libcgr.cpp:724-750: the contacts from the last to the first.  `none`: no end. -/
def traceBack (plan : List Contact) (source : Nat) (pred : Nat → Option Nat) :
    Nat → Nat → Option (List Contact)
  | 0, _ => none
  | fuel + 1, u =>
    match pred u with
    | none => some []
    | some i =>
      match plan[i]? with
      | none => some []
      | some c =>
        if c.frm = c.dst then some []
        else if c.frm = source then some [c]
        else (traceBack plan source pred fuel c.frm).map (c :: ·)

/-- libcgr.cpp:601-616: before the main loop.  `start` is `root_contact->start`; the arrival time
of the root vertex is set in the map, the keys in the queue are all `MAX_TIME_T`. -/
def init (plan : List Contact) (dest source : Nat) (start : Int) : State where
  arrival := put (fun _ => maxTime) source start
  visited := fun _ => false
  pred := fun _ => none
  queue := (vertices plan dest).map (fun v => (maxTime, v))

/-- A number of turns that is always enough. -/
def turns (plan : List Contact) (dest : Nat) : Nat :=
  (vertices plan dest).length +
    ((vertices plan dest).map (fun v => (neighbours plan v).length)).sum + 1

/-- `cmr_dijkstra` (libcgr.cpp:598-766).  If the root vertex is not in the map, the code makes one
with an uninitialised id (libcgr.cpp:206-209, 300, 603): undefined behaviour. -/
def cmrDijkstra (plan : List Contact) (source : Nat) (start : Int) (dest : Nat) : Result :=
  if source ∉ vertices plan dest then .broken
  else
    match pop (init plan dest source start).queue with
    | none => .route Route.empty
    | some (x, q) =>
      match run plan dest (turns plan dest) x.2 { init plan dest source start with queue := q } with
      | .stop r => r
      | .go s =>
        match traceBack plan source s.pred (plan.length + 1) dest with
        | none => .broken
        | some back =>
          match Route.empty.appendAll back.reverse with
          | none => .aborted
          | some r => .route r

/-- `ComputeOptimalRoute` with multigraph routing (router.cpp:1686-1706): the root contact starts
at 0; the present time is only written to its `arrival_time`, which `cmr_dijkstra` does not read. -/
def routerNextHop (plan : List Contact) (source : Nat) (_now : Int) (dest : Nat) : Option Nat :=
  nextHop (cmrDijkstra plan source 0 dest)

end Hdtn.CgrMulti
