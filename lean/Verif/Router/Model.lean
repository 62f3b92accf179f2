import Verif.Cgr.Model
import Verif.CgrMulti.Model
import Mathlib.Data.List.Basic

/-!
Model of the router around the route search: links, the contact plan, routes and neighbours with depleted storage.

 - router.cpp = /repo/module/router/src/router.cpp
 - libcgr.cpp = /repo/common/cgr/src/libcgr.cpp

A state is what the router holds; an action is one handler that runs on the thread of the io service, with the time at which it runs.
The messages that the router sends are collected in the state.

Simplifications:
 - The handlers of the API commands for links run on the other thread, without a lock (router.cpp:1003-1024). Here they are handlers like
   the others.
 - Messages are not lost. Bundles for the router, telemetry and the reading of JSON are left out; numbers of a contact plan are natural
   numbers.
 - Times are microseconds since 1970, and the clock does not go back.
 - A search for a route that fails (see `Cgr.Result`) finds none.
-/

namespace Hdtn.Router

/-- `OutductInfo_t`, router.cpp:140-197. -/
structure Outduct where
  hop : Nat
  byTime : Bool
  physical : Bool
  storage : Bool
  dests : List Nat
deriving DecidableEq, Repr

/-- `IsUp`, router.cpp:183-185. -/
def Outduct.isUp (o : Outduct) : Bool := o.byTime && o.physical && o.storage

/-- A contact of a contact plan. -/
structure Planned where
  contact : Nat
  source : Nat
  dest : Nat
  start : Nat
  stop : Nat
  rate : Nat
  owlt : Nat
deriving DecidableEq, Repr

/-- `contactPlan_t`, router.cpp:126-139: the start or the end of a contact. -/
structure Event where
  contact : Nat
  source : Nat
  dest : Nat
  start : Nat
  rate : Nat
  outduct : Nat
  up : Bool
deriving DecidableEq, Repr

/-- What `operator<` compares, router.cpp:321-335. -/
def Event.key (e : Event) : Nat × Nat × Nat × Bool × Nat := (e.contact, e.source, e.dest, e.up, e.start)

/-- What the router sends: to ingress and storage that a link is up or down, router.cpp:579-608 and 630-651; to egress that the contact plan
has a link up or down, router.cpp:609-629; to egress a route, `none` for `HDTN_NOROUTE`, router.cpp:1468-1489. -/
inductive Msg
  | link (i : Nat) (up : Bool)
  | schedule (i rate : Nat) (up : Bool)
  | route (dest : Nat) (hop : Option Nat)
deriving DecidableEq, Repr

/-- The configuration: the node, `neighborDepletedStorageDelaySeconds`, whether contact plans are in Unix time, and which search is used. -/
structure Config where
  me : Nat
  delay : Nat
  unix : Bool
  mgr : Bool

/-- The router, router.cpp:247-313. `outducts` and `index` are `m_mapOutductArrayIndexToOutductInfo` and
`m_mapNextHopNodeIdToOutductArrayIndex`; `events` is `m_ptimeToContactPlanBimap`, with the times, in its order; `timer` is when the timer for
it ends, `queued` how often it has ended without its handler having run; `full` is `m_storageExpirationTimes` in its order, `fullTimer` is
when the timer for it ends or has ended; `indices` are the keys of `outducts`. Simplification: the flag `m_contactPlanTimerIsRunning` is false whenever it is read. -/
structure State where
  ready : Bool
  clock : Nat
  outducts : Nat → Option Outduct
  indices : List Nat
  index : Nat → Option Nat
  events : List (Nat × Event)
  epoch : Nat
  plan : List Cgr.Contact
  routes : List (Nat × Option Nat)
  latest : Nat
  timer : Option Nat
  queued : Nat
  full : List (Nat × Nat)
  fullTimer : Option Nat
  msgs : List Msg

/-- A router that has just started. -/
def start : State := ⟨false, 0, fun _ => none, [], fun _ => none, [], 0, [], [], 0, none, 0, [], none, []⟩

/-- A message is sent. -/
def State.send (s : State) (m : Msg) : State := { s with msgs := s.msgs ++ [m] }

/-- Other information about outduct `i`. -/
def State.setOutduct (s : State) (i : Nat) (o : Outduct) : State :=
  { s with outducts := fun j => if j = i then some o else s.outducts j }

/-- `FilterContactPlan`, router.cpp:1523-1562. -/
def State.filtered (C : Config) (s : State) : List Cgr.Contact :=
  s.plan.filter fun c =>
    !(decide (c.start ≤ s.latest) && decide ((s.latest : Int) ≤ c.stop) && c.frm == C.me &&
      match s.index c.dst with
      | none => false
      | some i => match s.outducts i with
        | none => true
        | some o => !o.isUp)

/-- `ComputeOptimalRoute` of this node, router.cpp:1675-1706. -/
def State.best (C : Config) (s : State) (dest : Nat) : Option Nat :=
  if C.mgr then CgrMulti.routerNextHop (s.filtered C) C.me s.latest dest
  else Cgr.nextHop (Cgr.dijkstra (s.filtered C) C.me s.latest dest)

/-- The destination no longer belongs to the outduct of a next hop, router.cpp:1574-1586. -/
def State.leave (s : State) (hop : Option Nat) (dest : Nat) : State :=
  match hop.bind s.index with
  | none => s
  | some i => match s.outducts i with
    | none => s
    | some o => s.setOutduct i { o with dests := o.dests.filter (· != dest) }

/-- The destination belongs to the outduct of a next hop, router.cpp:1587-1597. -/
def State.join (s : State) (hop : Option Nat) (dest : Nat) : State :=
  match hop.bind s.index with
  | none => s
  | some i => match s.outducts i with
    | none => s
    | some o => s.setOutduct i { o with dests := if o.dests.contains dest then o.dests else o.dests ++ [dest] }

/-- `m_routes[dest] = hop`. -/
def setRoute (r : List (Nat × Option Nat)) (dest : Nat) (hop : Option Nat) : List (Nat × Option Nat) :=
  if r.any (·.1 == dest) then r.map fun p => if p.1 = dest then (dest, hop) else p else r ++ [(dest, hop)]

/-- `UpdateRouteState`, router.cpp:1572-1598. -/
def State.updateRoute (s : State) (old new : Option Nat) (dest : Nat) : State :=
  (({ s with routes := setRoute s.routes dest new }.leave old dest).join new dest)

/-- One destination in the loops of router.cpp:1607-1627 and 1647-1664. -/
def State.reroute (C : Config) (s : State) (dest : Nat) (old : Option Nat) : State :=
  let new := s.best C dest
  if new = old then s else (s.updateRoute old new dest).send (.route dest new)

/-- `ComputeAllRoutes`, router.cpp:1605-1628. The order is that of the list here. -/
def State.allRoutes (C : Config) (s : State) : State :=
  s.routes.foldl (fun s p => s.reroute C p.1 p.2) s

/-- `ComputeOptimalRoutesForOutductIndex`, router.cpp:1636-1665. -/
def State.routesOf (C : Config) (s : State) (i : Nat) : State :=
  match s.outducts i with
  | none => s
  | some o => o.dests.foldl (fun s d => s.reroute C d (some o.hop)) s

/-- The time for routes, router.cpp:1494 and 1503; the subtrahend is set at router.cpp:1246-1255. -/
def State.setTime (s : State) (now : Nat) : State := { s with latest := now / 1000000 - s.epoch / 1000000 }

/-- A link changes its state: a message is sent and routes are computed, router.cpp:1356-1365 and others. -/
def State.linkChanged (C : Config) (s : State) (now i : Nat) (up : Bool) : State :=
  let s := (s.send (.link i up)).setTime now
  if s.ready then if up then s.allRoutes C else s.routesOf C i else s

/-- The state of an outduct is updated, and what depends on it if it is now up or no longer up: `updateLinkStateTimeBased` and others,
router.cpp:152-168, with what is done when they return true. -/
def State.update (C : Config) (s : State) (now i : Nat) (o new : Outduct) (up : Bool) (first : List Msg) : State :=
  let s := s.setOutduct i new
  let s := { s with msgs := s.msgs ++ first }
  if o.isUp != new.isUp then s.linkChanged C now i up else s

/-- `PopulateMapsFromAllOutductCapabilitiesTelemetry`, router.cpp:1403-1422: outducts with their next hops and `assumedInitiallyDown`. The
indices are positions in a vector, so there are no two with the same. -/
def State.init (s : State) (l : List (Nat × Nat × Bool)) : State :=
  { s with
    ready := true
    indices := l.map (·.1)
    index := l.foldl (fun f p => fun h => if h = p.2.1 then some p.1 else f h) fun _ => none
    outducts := l.foldl (fun f p => fun j => if j = p.1 then some ⟨p.2.1, false, !p.2.2, true, []⟩ else f j) fun _ => none }

/-- The event goes behind all that are not later: the second part of `ptime_index_pair_t`, router.cpp:1380-1383. -/
def place (t : Nat) (e : Event) : List (Nat × Event) → List (Nat × Event)
  | [] => [(t, e)]
  | x :: l => if x.1 ≤ t then x :: place t e l else (t, e) :: x :: l

/-- Inserting into the bimap, router.cpp:1385-1387. -/
def insert (l : List (Nat × Event)) (t : Nat) (e : Event) : List (Nat × Event) :=
  if l.any (·.2.key == e.key) then l else place t e l

/-- `AddContact_NotThreadSafe`, router.cpp:1378-1400. -/
def addContact (epoch : Nat) (l : List (Nat × Event)) (c : Planned) (i : Nat) : List (Nat × Event) :=
  let e : Event := ⟨c.contact, c.source, c.dest, c.start, c.rate, i, true⟩
  if l.any (·.2.key == e.key) then l
  else insert (insert l (epoch + c.start * 1000000) e) (epoch + c.stop * 1000000) { e with up := false }

/-- A contact for the search, libcgr.cpp:331-346; `DEFAULT_RATE_BPS` is 1000000000. -/
def Planned.toCgr (c : Planned) : Cgr.Contact :=
  Cgr.Contact.make c.source c.dest c.start c.stop (if c.rate = 0 then 1000000000 else c.rate) c.owlt

/-- The loop over the contacts of a plan, router.cpp:1261-1297. -/
def loadContacts (C : Config) (index : Nat → Option Nat) (epoch : Nat) (l : List Planned) : List (Nat × Event) :=
  l.foldl (fun events c =>
    if c.dest = C.me ∨ c.source ≠ C.me then events
    else match index c.dest with
      | some i => addContact epoch events c i
      | none => events) []

/-- `TryRestartContactPlanTimer`, router.cpp:1314-1327. -/
def State.restart (s : State) : State := { s with timer := s.events.head?.map (·.1) }

/-- The destinations of a plan without a route, router.cpp:1275. -/
def loadRoutes (C : Config) (l : List Planned) : List (Nat × Option Nat) :=
  l.foldl (fun r c => if c.dest = C.me then r else setRoute r c.dest none) []

/-- `ProcessContacts`, router.cpp:1211-1310. -/
def State.load (C : Config) (s : State) (now : Nat) (l : List Planned) : State :=
  let down := (s.indices.filter fun i => (s.outducts i).any Outduct.isUp).map fun i => Msg.link i false
  let cleared := (s.routes.filter (·.2.isSome)).map fun p => Msg.route p.1 none
  let routes := loadRoutes C l
  let epoch := if C.unix then 0 else now
  State.restart { s with
    outducts := fun i => (s.outducts i).map fun o => { o with byTime := false, dests := [] }
    events := loadContacts C s.index epoch l
    epoch := epoch
    plan := (l.filter fun c => !(c.source == C.me && (s.index c.dest).isNone)).map Planned.toCgr
    routes := routes
    msgs := s.msgs ++ down ++ cleared ++ routes.map fun p => Msg.route p.1 none }

/-- A contact starts or ends, router.cpp:1340-1366. -/
def State.contact (C : Config) (s : State) (now : Nat) (e : Event) : State :=
  match s.outducts e.outduct with
  | none => s
  | some o => s.update C now e.outduct o { o with byTime := e.up } e.up [.schedule e.outduct e.rate e.up]

/-- `OnContactPlan_TimerExpired`, router.cpp:1329-1376. -/
def State.contactEvent (C : Config) (s : State) (now : Nat) : State :=
  match s.events with
  | [] => s
  | x :: rest => State.restart { s.contact C now x.2 with events := rest }

/-- `HandlePhysicalLinkStatusChange`, router.cpp:1431-1461. -/
def State.physical (C : Config) (s : State) (now i : Nat) (up : Bool) : State :=
  match s.outducts i with
  | none => s
  | some o => s.update C now i o { o with physical := up } up []

/-- The API commands for links, router.cpp:1003-1024. -/
def State.api (C : Config) (s : State) (now i : Nat) (up : Bool) : State :=
  match s.outducts i with
  | none => s
  | some o => s.update C now i o { o with byTime := up } up []

/-- An entry goes behind all that are not later, router.cpp:807-811. -/
def placeFull (t i : Nat) : List (Nat × Nat) → List (Nat × Nat)
  | [] => [(t, i)]
  | x :: l => if x.1 ≤ t then x :: placeFull t i l else (t, i) :: x :: l

/-- `TryRestartStorageTimer`, router.cpp:789-802. -/
def State.restartFull (s : State) : State :=
  match s.fullTimer with
  | none => { s with fullTimer := s.full.head?.map (·.1) }
  | some _ => s

/-- `HandleNodeWithDepletedStorage`, router.cpp:830-857, with `AddStorageExpirationTime`, router.cpp:804-828. -/
def State.depleted (C : Config) (s : State) (now node : Nat) : State :=
  match s.index node with
  | none => s
  | some i => match s.outducts i with
    | none => s
    | some o =>
      let full := placeFull (now + C.delay * 1000000) i (s.full.filter (·.2 != i))
      ({ s with full := full }.restartFull).update C now i o { o with storage := false } false []

/-- The neighbour of an outduct is taken to have storage again, router.cpp:774-783. -/
def State.release (C : Config) (s : State) (now i : Nat) : State :=
  match s.outducts i with
  | none => s
  | some o => s.update C now i o { o with storage := true } true []

/-- `OnStorageFull_TimerExpired`, router.cpp:750-788: when the first entry is not due yet the timer is started again, and then the entry is
treated as if it were. -/
def State.storageEvent (C : Config) (s : State) (now : Nat) : State :=
  match s.full with
  | [] => { s with fullTimer := none }
  | x :: rest =>
    let s := if x.1 > now then { s with fullTimer := none }.restartFull else { s with fullTimer := none }
    State.restartFull { s.release C now x.2 with full := rest }

/-- What can happen. -/
inductive Act
  /-- The first message of egress about its outducts: indices, next hops and `assumedInitiallyDown`. -/
  | init (outducts : List (Nat × Nat × Bool))
  /-- A contact plan is loaded. -/
  | load (plan : List Planned)
  /-- The timer for the contact plan ends. -/
  | fire
  /-- The handler for the end of this timer runs. -/
  | event
  /-- Egress tells that a link went up or down. -/
  | physical (i : Nat) (up : Bool)
  /-- A user sets a link up or down. -/
  | api (i : Nat) (up : Bool)
  /-- Storage tells that a node has no storage left. -/
  | depleted (node : Nat)
  /-- The timer for depleted nodes has ended and its handler runs. -/
  | storageTimer

/-- One handler runs at the time `now`; `none` if this cannot happen. Outducts are told once, router.cpp:686-690. A handler for the contact plan
that is queued when a plan is loaded is not cancelled with the timer. -/
def State.step (C : Config) (s : State) (now : Nat) (a : Act) : Option State :=
  if now < s.clock then none
  else
    let s := { s with clock := now }
    match a with
    | .init l => if s.ready || !decide (l.map (·.1)).Nodup then none else some (s.init l)
    | .load l => some (s.load C now l)
    | .fire => match s.timer with
      | none => none
      | some t => if t ≤ now then some { s with timer := none, queued := s.queued + 1 } else none
    | .event => if s.queued = 0 then none else some ({ s with queued := s.queued - 1 }.contactEvent C now)
    | .physical i up => some (s.physical C now i up)
    | .api i up => some (s.api C now i up)
    | .depleted node => some (s.depleted C now node)
    | .storageTimer => match s.fullTimer with
      | none => none
      | some t => if t ≤ now then some (s.storageEvent C now) else none

/-- Handlers run one after the other, at these times. -/
def run (C : Config) (s : State) : List (Nat × Act) → Option State
  | [] => some s
  | (now, a) :: l => match s.step C now a with
    | none => none
    | some s => run C s l

end Hdtn.Router
