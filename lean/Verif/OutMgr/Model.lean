import Verif.Base

/-!
Model of the outducts of a node, and of the routes to them.

 - OutductManager.cpp is in /repo/common/outduct_manager/src, message.hpp in /repo/common/include.

Simplifications: an outduct is its configuration, the number of bundles that it says are unacknowledged, and what was handed to it; whether `Init` succeeds is
part of the configuration. The maps are lists without an order.
-/

namespace Hdtn.OutMgr

/-- The convergence layers that are known, OutductManager.cpp:75-117. -/
inductive Layer
  | tcpclV3 | tcpclV4 | slip | bpEncap | stcp | udp | ltpUdp | ltpIpc | ltpEncap
deriving DecidableEq, Repr

/-- `outduct_element_config_t` as far as it is used here, and what `Init` returns. -/
structure Config where
  layer : Option Layer
  nextHop : Nat
  maxSum : Nat
  maxBundles : Nat
  tls : Bool
  initOk : Bool
deriving DecidableEq, Repr

/-- What others see while outducts are loaded: a link is announced as down, an outduct connects. -/
inductive Note
  | down (uuid : Nat)
  | connect (uuid : Nat)
deriving DecidableEq, Repr

/-- `m_finalDestNodeIdToOutductMap`, `m_nextHopNodeIdToOutductMap` (outducts by their uuid), `m_outductsVec`; for each outduct the unacknowledged bundles;
what was handed to outducts, and the notes. -/
structure Mgr where
  routes : List (Nat × Nat)
  hops : List (Nat × Nat)
  ducts : List Config
  unacked : Nat → Nat
  handed : List (Nat × Bytes)
  notes : List Note

/-- `HDTN_NOROUTE`, message.hpp:79. -/
def noRoute : Nat := U64 - 1

/-- `std::map::find`. -/
def find (m : List (Nat × Nat)) (k : Nat) : Option Nat := (m.find? fun x => x.1 == k).map Prod.snd

/-- `std::map::erase`. -/
def erase (m : List (Nat × Nat)) (k : Nat) : List (Nat × Nat) := m.filter fun x => x.1 != k

/-- Is the layer one with connections, OutductManager.cpp:140. -/
def oriented (l : Layer) : Bool := l == .tcpclV3 || l == .tcpclV4 || l == .stcp

/-- One turn of the loop of `LoadOutductsFromConfig`, OutductManager.cpp:59-165; `openssl`: HDTN is compiled with it. -/
def loadOne (openssl : Bool) (maxBundle : Nat) (m : Mgr) (c : Config) : Bool × Mgr :=
  if maxBundle * 2 % U64 > c.maxSum then (false, m)
  else match c.layer with
    | none => (false, m)
    | some l =>
      if l == .tcpclV4 && !openssl && c.tls then (false, m)
      else if !c.initOk then (false, m)
      else if (find m.hops c.nextHop).isSome then (false, m)
      else (true, { m with
        hops := (c.nextHop, m.ducts.length) :: m.hops
        ducts := m.ducts ++ [c]
        notes := m.notes ++ (if oriented l then [.down m.ducts.length] else []) ++ [.connect m.ducts.length] })

def loadAll (openssl : Bool) (maxBundle : Nat) : Mgr → List Config → Bool × Mgr
  | m, [] => (true, m)
  | m, c :: cs => match loadOne openssl maxBundle m c with
    | (true, m) => loadAll openssl maxBundle m cs
    | (false, m) => (false, m)

/-- `LoadOutductsFromConfig`, OutductManager.cpp:44-167. -/
def load (openssl : Bool) (maxBundle : Nat) (m : Mgr) (cs : List Config) : Bool × Mgr :=
  loadAll openssl maxBundle { m with routes := [], hops := [], ducts := [] } cs

/-- As constructed. -/
def Mgr.init : Mgr := ⟨[], [], [], fun _ => 0, [], []⟩

/-- `Reroute_ThreadSafe`, OutductManager.cpp:232-253. -/
def Mgr.reroute (m : Mgr) (dest hop : Nat) : Bool × Mgr :=
  if hop = noRoute then (true, { m with routes := erase m.routes dest })
  else match find m.hops hop with
    | none => (false, m)
    | some i => (true, { m with routes := (dest, i) :: erase m.routes dest })

/-- `Forward` (three of them), OutductManager.cpp:186-230; `GetOutductByFinalDestinationEid_ThreadSafe`, :280-287. What the outduct's own `Forward` returns is
taken to be true. -/
def Mgr.forward (m : Mgr) (dest : Nat) (bundle : Bytes) : Bool × Mgr :=
  match find m.routes dest with
  | none => (false, m)
  | some i => match m.ducts[i]? with
    | none => (false, m)
    | some c =>
      if m.unacked i > c.maxBundles then (false, m)
      else (true, { m with handed := m.handed ++ [(i, bundle)], unacked := fun j => if j = i then m.unacked i + 1 else m.unacked j })

/-- An outduct got an acknowledgement for a bundle. -/
def Mgr.acked (m : Mgr) (i : Nat) : Mgr := { m with unacked := fun j => if j = i then m.unacked i - 1 else m.unacked j }

/-- Things that happen after the outducts were loaded. -/
inductive Op
  | reroute (dest hop : Nat)
  | forward (dest : Nat) (bundle : Bytes)
  | acked (uuid : Nat)
deriving DecidableEq, Repr

def Mgr.step (m : Mgr) : Op → Mgr
  | .reroute d h => (m.reroute d h).2
  | .forward d b => (m.forward d b).2
  | .acked i => m.acked i

def Mgr.run (m : Mgr) (ops : List Op) : Mgr := ops.foldl Mgr.step m

/-- `GetAllOutductCapabilitiesTelemetry_ThreadSafe`, OutductManager.cpp:255-278: for each outduct its index, its next hop, its limits, and the destinations that
are routed to it. -/
def Mgr.capabilities (m : Mgr) : List (Nat × Nat × Nat × Nat × List Nat) :=
  (m.ducts.zipIdx).map fun x => (x.2, x.1.nextHop, x.1.maxBundles, x.1.maxSum, (m.routes.filter fun r => r.2 == x.2).map Prod.fst)

end Hdtn.OutMgr
