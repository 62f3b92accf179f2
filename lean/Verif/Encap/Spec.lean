import Verif.Encap.Model

/-!
What it means that packets get through.
-/

namespace Hdtn.Encap.Spec

open Hdtn.Encap

/-- The bytes that came in these events. -/
def received : List Op → Bytes
  | [] => []
  | .bytes l :: ops => l ++ received ops
  | _ :: ops => received ops

/-- The events without a reconnection. -/
def connected (ops : List Op) : Prop := ∀ op ∈ ops, op ≠ .reconnect

/-- What the callback gets for a payload and its header. -/
def handed (keepHeader : Bool) (header payload : Bytes) : Packet :=
  ⟨if keepHeader then header ++ payload else payload, payload.length, header.length⟩

/-- Payloads with their headers as the encoder makes them; none of them idle. -/
structure Framed (kind : Kind) (x : Bytes × Bytes) : Prop where
  header : encode kind x.2.length = some x.1
  real : kind ≠ .idle

/-- The bytes of framed payloads. -/
def stream (l : List (Bytes × Bytes)) : Bytes := (l.map fun x => x.1 ++ x.2).flatten

end Hdtn.Encap.Spec
