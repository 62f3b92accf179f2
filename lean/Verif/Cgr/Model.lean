import Verif.Base

/-!
Contact graph routing: `cgr::dijkstra` and the `Route` class
(common/cgr/src/libcgr.cpp, common/cgr/include/libcgr.h), as called by
`Router::Impl::ComputeOptimalRoute` (module/router/src/router.cpp:1674-1706).

Times are `time_t` (signed 64 bit).  They are integers here; the one addition of the search
whose operands are not constants of the plan is checked against the range of `time_t` and its
overflow is an outcome of its own.

Simplifications: `suppressed_next_hop` is left out (nothing in the code base ever fills it);
`rate`, `confidence`, `id` and the volume bookkeeping of a route do not take part in the search
and are left out, except that `mav` (what is left of the volume of a contact) is kept.
-/

namespace Hdtn.Cgr

/-- `MAX_TIME_T` (libcgr.h:16). -/
def maxTime : Int := 2 ^ 63 - 1

/-- The range of `time_t`. -/
def fits (t : Int) : Bool := decide (-(2 ^ 63) ≤ t) && decide (t ≤ maxTime)

/-- `Contact` (libcgr.h:21-51): the fields the search reads.  `stop` is `end`, `dst` is `to`. -/
structure Contact where
  frm : Nat
  dst : Nat
  start : Int
  stop : Int
  owlt : Int
  mav : List Nat
  suppressed : Bool
  deriving DecidableEq, Repr

/-- `Contact::Contact` (libcgr.cpp:38-63): the volume is a product of unsigned 64 bit numbers. -/
def Contact.make (frm dst : Nat) (start stop : Int) (rate : Nat) (owlt : Int) : Contact :=
  let volume := ((rate : Int) * (stop - start) % (U64 : Int)).toNat
  ⟨frm, dst, start, stop, owlt, [volume, volume, volume], false⟩

/-- A pointer to a contact: the root contact, or a contact of the plan. -/
inductive Ref where
  | root
  | leg (i : Nat)
  deriving DecidableEq, Repr

/-- The route search working area of a contact (libcgr.h:33-37). -/
structure Work where
  arrival : Int
  visited : Bool
  pred : Option Ref
  nodes : List Nat
  deriving Repr

/-- `Contact::clear_dijkstra_working_area` (libcgr.cpp:16-21). -/
def Work.clear : Work := ⟨maxTime, false, none, []⟩

/-- The local variables of `dijkstra` (libcgr.cpp:389-398) and the working areas of all contacts. -/
structure Search where
  work : Ref → Work
  final : Option Nat
  finTime : Int

/-- libcgr.cpp:370-398.  The root contact goes from `source` to itself and its `arrival_time` is
the present time `now` (router.cpp:1686-1688).  Simplification: a contact of the plan equal to the
root contact keeps its working area in the code; here it is cleared like the others (contacts of a
plan are made with a cleared area, libcgr.cpp:48-52). -/
def Search.init (source : Nat) (now : Int) : Search where
  work := fun r => match r with
    | .root => ⟨now, false, none, [source]⟩
    | .leg _ => Work.clear
  final := none
  finTime := maxTime

/-- `current`: a pointer and the two nodes the search reads through it. -/
structure Cursor where
  ref : Ref
  frm : Nat
  dst : Nat
  deriving Repr

/-- The seven `continue` conditions (libcgr.cpp:403-423). -/
def skip (cur : Cursor) (w : Work) (c : Contact) (wc : Work) : Bool :=
  c.suppressed || wc.visited || w.nodes.contains c.dst || decide (c.stop ≤ w.arrival) ||
    c.mav.all (· == 0) || (cur.frm == c.dst && cur.dst == c.frm)

/-- libcgr.cpp:426-431. -/
def arrivalVia (now : Int) (c : Contact) : Int :=
  if c.start < now then now + c.owlt else c.start + c.owlt

/-- Assigning to the working area of one contact. -/
def setWork (f : Ref → Work) (r : Ref) (w : Work) : Ref → Work :=
  fun x => if x = r then w else f x

/-- One turn of the inner loop (libcgr.cpp:402-444).  `none`: the addition overflowed. -/
def relax (dest : Nat) (cur : Cursor) (s : Search) (ci : Contact × Nat) : Option Search :=
  let c := ci.1
  let i := ci.2
  let w := s.work cur.ref
  let wc := s.work (.leg i)
  if skip cur w c wc then some s
  else
    let t := arrivalVia w.arrival c
    if fits t = false then none
    else if t ≤ wc.arrival then
      let s' := { s with
        work := setWork s.work (.leg i)
          { wc with arrival := t, pred := some cur.ref, nodes := w.nodes ++ [c.dst] } }
      if c.dst = dest ∧ t < s.finTime then some { s' with finTime := t, final := some i }
      else some s'
    else some s

/-- `contact_plan_hash[node]` (libcgr.cpp:378-387): the contacts leaving a node, in plan order. -/
def leaving (plan : List Contact) (node : Nat) : List (Contact × Nat) :=
  plan.zipIdx.filter (fun ci => ci.1.frm == node)

/-- The inner loop (libcgr.cpp:402-444). -/
def relaxAll (dest : Nat) (cur : Cursor) : List (Contact × Nat) → Search → Option Search
  | [], s => some s
  | ci :: rest, s =>
    match relax dest cur s ci with
    | none => none
    | some s' => relaxAll dest cur rest s'

/-- libcgr.cpp:446. -/
def markVisited (s : Search) (r : Ref) : Search :=
  { s with work := setWork s.work r { s.work r with visited := true } }

/-- libcgr.cpp:448-466: the choice of the next contact. -/
def nextBest (s : Search) : List (Contact × Nat) → Int → Option (Contact × Nat) →
    Option (Contact × Nat)
  | [], _, best => best
  | ci :: rest, t, best =>
    let w := s.work (.leg ci.2)
    if ci.1.suppressed || w.visited then nextBest s rest t best
    else if w.arrival > s.finTime then nextBest s rest t best
    else if w.arrival < t then nextBest s rest w.arrival (some ci)
    else nextBest s rest t best

/-- What the outer loop ends with. -/
inductive Ended where
  | overflow
  | outOfFuel
  | done (s : Search)

/-- The outer loop (libcgr.cpp:400-473).  `fuel` bounds the number of turns. -/
def search (plan : List Contact) (dest : Nat) : Nat → Cursor → Search → Ended
  | 0, _, _ => .outOfFuel
  | fuel + 1, cur, s =>
    match relaxAll dest cur (leaving plan cur.dst) s with
    | none => .overflow
    | some s1 =>
      let s2 := markVisited s1 cur.ref
      match nextBest s2 plan.zipIdx maxTime none with
      | none => .done s2
      | some (c, i) => search plan dest fuel ⟨.leg i, c.frm, c.dst⟩ s2

/-- libcgr.cpp:476-480: following `predecessor` back to the root; the last contact comes first.
`none`: a null pointer is followed, or the chain never ends. -/
def traceBack (plan : List Contact) (work : Ref → Work) : Nat → Ref → Option (List Contact)
  | _, .root => some []
  | 0, .leg _ => none
  | fuel + 1, .leg i =>
    match plan[i]?, (work (.leg i)).pred with
    | some c, some r => (traceBack plan work fuel r).map (c :: ·)
    | _, _ => none

/-- `Route` (libcgr.h:54-76), without volume, confidence and parent. -/
structure Route where
  hops : List Contact
  toNode : Nat
  nextNode : Nat
  fromTime : Int
  toTime : Int
  bestDelivery : Int
  visited : List Nat
  deriving DecidableEq, Repr

/-- `Route::Route()` (libcgr.cpp:67-78). -/
def Route.empty : Route := ⟨[], U64 - 1, U64 - 1, 0, maxTime, 0, []⟩

/-- `Route::valid` (libcgr.cpp:123-126). -/
def Route.valid (r : Route) : Bool := !r.hops.isEmpty

/-- `Route::eligible` (libcgr.cpp:186-194). -/
def Route.eligible (r : Route) (c : Contact) : Bool :=
  match r.hops.getLast? with
  | none => true
  | some last => !r.visited.contains c.dst && decide (c.stop > last.start + last.owlt)

/-- `Route::refresh_metrics` (libcgr.cpp:137-150).  Simplification: unbounded sums. -/
def Route.refresh (r : Route) : Route :=
  match r.hops.getLast?, r.hops.head? with
  | some l, some f =>
    { r with
      toNode := l.dst
      nextNode := f.dst
      fromTime := f.start
      toTime := r.hops.foldl (fun t c => min t c.stop) maxTime
      bestDelivery := r.hops.foldl (fun t c => max (t + c.owlt) (c.start + c.owlt)) 0 }
  | _, _ => r

/-- `Route::append` (libcgr.cpp:128-135).  `none`: the assertion fails. -/
def Route.append (r : Route) (c : Contact) : Option Route :=
  if r.eligible c then
    some ({ r with hops := r.hops ++ [c], visited := r.visited ++ [c.frm, c.dst] } : Route).refresh
  else none

/-- libcgr.cpp:482-487 (and 758-763): the hops are appended from the first to the last. -/
def Route.appendAll : Route → List Contact → Option Route
  | r, [] => some r
  | r, c :: cs =>
    match r.append c with
    | none => none
    | some r' => r'.appendAll cs

/-- What a call of `dijkstra` (or `cmr_dijkstra`) ends with. -/
inductive Result where
  /-- signed overflow: undefined behaviour -/
  | overflow
  /-- the search does not end, or reads through an invalid pointer -/
  | broken
  /-- an assertion fails -/
  | aborted
  | route (r : Route)
  deriving DecidableEq, Repr

/-- `dijkstra` (libcgr.cpp:367-491). -/
def dijkstra (plan : List Contact) (source : Nat) (now : Int) (dest : Nat) : Result :=
  match search plan dest (plan.length + 1) ⟨.root, source, source⟩ (Search.init source now) with
  | .overflow => .overflow
  | .outOfFuel => .broken
  | .done s =>
    match s.final with
    | none => .route Route.empty
    | some i =>
      match traceBack plan s.work (plan.length + 1) (.leg i) with
      | none => .broken
      | some back =>
        match Route.empty.appendAll back.reverse with
        | none => .aborted
        | some r => .route r

/-- `Router::Impl::ComputeOptimalRoute` (router.cpp:1674-1706), after the plan has been filtered:
the next hop, or `HDTN_NOROUTE`. -/
def nextHop : Result → Option Nat
  | .route r => if r.valid then some r.nextNode else none
  | _ => none

end Hdtn.Cgr
