import Verif.BpSecProcess.Model

/-!
Model of the processing of BPv7 bundles by the ingress, /repo/module/ingress/src/receive.cpp ("receive.cpp" below),
lines 1193-1330: `ProcessPaddedData` up to the decision where the bundle goes. The bundles are those that come from a
convergence layer (`needsProcessing`), which puts 256 bytes of padding in front of them; BPSec support is compiled in, masking
is not.
-/

namespace Hdtn.Ingress7

open Hdtn.HashMap16 Hdtn.Bpv7Canonical Hdtn.BpSec7 Hdtn.BundleView7 Hdtn.BpSecBundle Hdtn.BpSecProcess

/-- What the ingress is configured with: the policies, with the number of the node, and the services of the node,
receive.cpp:443-451. -/
structure Node where
  env : Env
  custody : Nat
  echo : Nat
  ping : Nat

/-- `M_HDTN_EID_CUSTODY`, receive.cpp:443. -/
def Node.custodyEid (n : Node) : Eid := ⟨n.env.node, n.custody⟩

/-- `M_HDTN_EID_ECHO`, receive.cpp:447. -/
def Node.echoEid (n : Node) : Eid := ⟨n.env.node, n.echo⟩

/-- `M_HDTN_EID_PING`, receive.cpp:449. -/
def Node.pingEid (n : Node) : Eid := ⟨n.env.node, n.ping⟩

/-- `M_HDTN_EID_SECURITY_SOURCE`, receive.cpp:445. -/
def Node.securityEid (n : Node) : Eid := ⟨n.env.node, 1⟩

/-- New content for the blocks of a type, of which there is one, and the mark that it was changed. An encrypted block is
written as it is. -/
def setBody (t : UInt8) (body : Body) (v : View) : View :=
  { v with blocks := v.blocks.map fun b =>
      if b.block.typeCode = t then { b with body := if b.body = .hidden then .hidden else body, dirty := true } else b }

/-- The previous node block, receive.cpp:1241-1276; `none` when the bundle is dropped. The flag is
`REMOVE_BLOCK_IF_IT_CANT_BE_PROCESSED`, the CRC is CRC-32C. -/
def setPrevious (me : Eid) (v : View) : Option View :=
  match v.byType 6 with
  | [] => some (v.prepend (newBlock ⟨6, v.nextFree, 0x10, 2, [], 0, 0⟩ (.ext (.previousNode me))))
  | [_] => some (setBody 6 (.ext (.previousNode me)) v)
  | _ => none

/-- The hop count block, receive.cpp:1278-1306; `none` when the bundle is dropped. `ghost` is the limit and the count that
the object of a block holds whose content was not read: what a bundle before has left there, or anything. -/
def countHop (ghost : Nat × Nat) (v : View) : Option View :=
  match v.byType 10 with
  | [] => some v
  | [b] =>
    let (limit, count) := match b.body with
      | .ext (.hopCount l c) => (l, c)
      | _ => ghost
    let new := (count + 1) % 2 ^ 64
    if new > limit ∨ new > 255 then none
    else some (setBody 10 (.ext (.hopCount limit new)) v)
  | _ => none

/-- A bundle to the echo service goes back, receive.cpp:1313-1319. -/
def turnBack (echo : Eid) (v : View) : View :=
  { v with primary := { v.primary with dest := v.primary.source, source := echo }, primaryDirty := true }

/-- What becomes of a bundle that is not dropped: its payload is logged as the answer to a ping; it is passed on as it came;
it is passed on changed, to this destination. -/
inductive Result
  | pinged (payload : Bytes)
  | asItCame
  | passed (bytes : Bytes) (dest : Eid)
deriving DecidableEq, Repr

/-- After the security blocks were processed, receive.cpp:1241-1325. `g` are the initialization vectors. -/
def passOn (N : Node) (ghost : Nat × Nat) (g : Iv.Gen) (v : View) : Out (Result × Iv.Gen) :=
  match setPrevious ⟨N.env.node, 0⟩ v with
  | none => .fail
  | some v =>
    match countHop ghost v with
    | none => .fail
    | some v =>
      (findAndSend N.env N.securityEid g v paddingBefore).bind fun (v, room, g) =>
        let v := if v.primary.dest = N.echoEid then turnBack N.echoEid v else v
        (renderHere room v).bind fun (v, _) => .ok (.passed v.rendered v.primary.dest, g)

/-- Receive.cpp:1206-1330, with the bundle loaded; `.fail` when it is dropped. `asb` and `hop` is what is in objects whose
content was not read, `pad` the memory behind the bundle. -/
def process (N : Node) (asb : Nat → Asb) (hop : Nat × Nat) (pad : Bytes) (g : Iv.Gen) (v : View) : Out (Result × Iv.Gen) :=
  if v.primary.dest = N.pingEid then
    match v.byType 1 with
    | [b] => .ok (.pinged b.block.data, g)
    | _ => .ok (.pinged [], g)
  else if isAdmin v.primary ∧ v.primary.dest = N.custodyEid then .ok (.asItCame, g)
  else
    (receive N.env asb pad v).bind fun r =>
      match r with
      | .drop => .fail
      | .keep v => passOn N hop g v

end Hdtn.Ingress7
