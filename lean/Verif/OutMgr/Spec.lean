import Verif.OutMgr.Model

/-!
What is expected of the outducts and routes.
-/

namespace Hdtn.OutMgr.Spec

open Hdtn.OutMgr

/-- An entry with which the node can work: the pipeline holds two of the longest bundles, the layer is known and can be used, and it starts. -/
structure Usable (openssl : Bool) (maxBundle : Nat) (c : Config) : Prop where
  room : 2 * maxBundle ≤ c.maxSum
  known : ∃ l, c.layer = some l
  tls : c.layer = some .tcpclV4 → c.tls = true → openssl = true
  starts : c.initOk = true

/-- A configuration with which the node can work: also, no two outducts have the same next hop. -/
def Valid (openssl : Bool) (maxBundle : Nat) (cs : List Config) : Prop :=
  (∀ c ∈ cs, Usable openssl maxBundle c) ∧ (cs.map Config.nextHop).Nodup

/-- What an operation makes of the next hop for a destination: a router that names 2^64 - 1 means that there is no route; told of a next hop that is no
outduct's, the node keeps what it has. -/
def told (cs : List Config) (dest : Nat) (now : Option Nat) : Op → Option Nat
  | .reroute d h => if d ≠ dest then now else if h = 2 ^ 64 - 1 then none else if h ∈ cs.map Config.nextHop then some h else now
  | _ => now

/-- The next hop for a destination, as the router last told it. -/
def nextHop (cs : List Config) (dest : Nat) (ops : List Op) : Option Nat := ops.foldl (told cs dest) none

/-- What is seen of an outduct that is loaded: with connections, its link is down until it is connected. -/
def seen (c : Config) (i : Nat) : List Note :=
  if c.layer = some .tcpclV3 ∨ c.layer = some .tcpclV4 ∨ c.layer = some .stcp then [.down i, .connect i] else [.connect i]

/-- The destinations listed for an outduct. -/
def listed (m : Mgr) (i : Nat) : List Nat := ((m.capabilities)[i]?.map fun x => x.2.2.2.2).getD []

end Hdtn.OutMgr.Spec
