import Verif.Catalog.Model

/-!
Specification for C25, C26, C27: what can be observed of a catalog, and the histories considered.
-/

namespace Hdtn.Catalog

open Hdtn.HashMap16

/-- The queue stored under an expiration; none means nothing waits. -/
def queueAt (m : Expirations) (x : Nat) : List Nat :=
  match OrdMap.lookup m x with
  | none => []
  | some q => q

/-- The custody identifiers waiting for destination `d` with priority `p` and expiration `x`, next
to be sent first. -/
def Catalog.waiting (c : Catalog) (d : Eid) (p x : Nat) : List Nat :=
  match OrdMap.lookup c.dests d with
  | none => []
  | some a => queueAt (a p) x

/-- The queues after replacing one of them. -/
def updQueue (w : Eid → Nat → Nat → List Nat) (d : Eid) (p x : Nat) (q : List Nat) :
    Eid → Nat → Nat → List Nat :=
  fun d' p' x' => if d' = d ∧ p' = p ∧ x' = x then q else w d' p' x'

/-- How the caller names the destinations it can send to: endpoints, nodes, or endpoints with a
flag that is true for "any service of this node". -/
inductive Selection where
  | eids (l : List Eid)
  | nodes (l : List Nat)
  | wildcard (l : List (Eid × Bool))

/-- A destination is meant by the selection. -/
def Selection.Accepts : Selection → Eid → Prop
  | .eids l, d => d ∈ l
  | .nodes l, d => d.node ∈ l
  | .wildcard l, d => ∃ q ∈ l, if q.2 then q.1.node = d.node else q.1 = d

/-- The destinations the code goes through. -/
def Catalog.select (c : Catalog) : Selection → List Eid
  | .eids l => c.byEid l
  | .nodes l => c.byNode l
  | .wildcard l => c.byWildcard l

/-- What a user does with the catalog. -/
inductive Op where
  | store (p : Primary) (bundleSize payloadSize : Nat) (segments : List Nat) (mask : Option Eid)
      (id : Nat) (toFront : Bool)
  | take (sel : Selection)
  | giveBack (id : Nat)
  | remove (id : Nat)

/-- One operation on a catalog and the list of bundles taken and not yet given back or removed. A
user gives back what it took, and asks for removal from the waiting bundles as well exactly for a
bundle it has not taken. -/
inductive Step : Catalog × List Nat → Op → Catalog × List Nat → Prop
  | store (c c' : Catalog) (fl : List Nat) (p : Primary) (bs ps : Nat) (segs : List Nat)
      (mask : Option Eid) (id : Nat) (toFront ok : Bool)
      (hfresh : c.entry id = none) (hprio : p.priority < 3)
      (h : c.store (Entry.init p bs ps segs mask) p id (if toFront then .filo else .fifo) =
        some (c', ok)) :
      Step (c, fl) (.store p bs ps segs mask id toFront) (c', fl)
  | take (c c' : Catalog) (fl : List Nat) (sel : Selection) (id : Nat) (e : Option Entry)
      (h : c.pop (c.select sel) = .taken id e c') :
      Step (c, fl) (.take sel) (c', id :: fl)
  | takeNothing (c : Catalog) (fl : List Nat) (sel : Selection)
      (h : c.pop (c.select sel) = .nothing) :
      Step (c, fl) (.take sel) (c, fl)
  | giveBack (c c' : Catalog) (fl : List Nat) (id : Nat) (e : Entry) (ok : Bool) (hid : id ∈ fl)
      (he : c.entry id = some e) (h : c.giveBack e id = some (c', ok)) :
      Step (c, fl) (.giveBack id) (c', fl.erase id)
  | remove (c c' : Catalog) (fl : List Nat) (id : Nat) (ok : Bool) (n : Nat)
      (hid : (c.entry id).isSome = true) (h : c.remove id (decide (id ∉ fl)) = some (c', ok, n)) :
      Step (c, fl) (.remove id) (c', fl.erase id)

/-- The catalogs reached by a history of operations, with the bundles taken. -/
inductive Reachable : Catalog × List Nat → Prop
  | empty : Reachable (Catalog.empty, [])
  | step (s s' : Catalog × List Nat) (op : Op) (h : Reachable s) (hs : Step s op s') : Reachable s'

end Hdtn.Catalog
