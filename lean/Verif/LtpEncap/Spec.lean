import Verif.LtpEncap.Model
import Verif.Encap.Spec

/-!
What is expected of LTP over encapsulation packets.
-/

namespace Hdtn.LtpEncap.Spec

open Hdtn.LtpEncap

/-- The elements that were taken from the engine, in order: those that were written and those that wait. -/
def taken (s : Tx) : List Bytes := s.done ++ s.queue

/-- The bytes that were written on a connection. -/
def onConnection (s : Tx) (c : Nat) : Bytes := ((s.wire.filter fun x => x.1 == c).map Prod.snd).flatten

/-- What the engine had to send, call by call. -/
def given (evs : List Ev) : List (List Bytes) := evs.filterMap fun e => match e with
  | .send ps => some ps
  | _ => none

/-- Packets that fit into encapsulation packets; LTP makes no others. -/
def AllFit (evs : List Ev) : Prop := ∀ ps, Ev.send ps ∈ evs → ∀ p ∈ ps, 0 < p.length ∧ p.length ≤ 4294967287

/-- The stream is connected at the beginning and never lost, and no write fails. -/
def Steady (evs : List Ev) : Prop := ∃ rest, evs = .connection true :: rest ∧ (∀ u, Ev.connection u ∉ rest) ∧ ∀ k, Ev.written (some k) ∉ rest

end Hdtn.LtpEncap.Spec
