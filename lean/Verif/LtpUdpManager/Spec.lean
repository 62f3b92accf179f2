import Verif.LtpWire.Spec
import Verif.LtpUdpManager.Model

/-!
What is expected of LTP engines that share a UDP port, in terms of the segments that arrive (`IsSegment`, see LtpWire) and of what each engine is given.
-/

namespace Hdtn.LtpUdpManager.Spec

open Hdtn.LtpWire Hdtn.LtpWire.Spec

/-- The segment was sent by the sender of a block: data, the acknowledgement of a report, a cancellation by the sender, or the acknowledgement of a cancellation
by the receiver. The others were sent by the receiver of a block. -/
def bySender : Content → Bool
  | .data .. => true
  | .report .. => false
  | .reportAck _ => true
  | .cancel _ fromSender => fromSender
  | .cancelAck toSender => !toSender

/-- All packets the engine was given and could keep, in order. -/
def given (e : Engine) : List Bytes := e.done ++ e.inbox

/-- The engine, after it was given the packet: it kept it, or counted an overrun because its ring was full. -/
def Got (d : Bytes) (e e' : Engine) : Prop :=
  e'.remote = e.remote ∧ e'.index = e.index ∧ e'.size = e.size ∧ e'.done = e.done ∧
    ((e.inbox.length + 1 < e.size ∧ given e' = given e ++ [d] ∧ e'.overruns = e.overruns) ∨
     (e.size ≤ e.inbox.length + 1 ∧ given e' = given e ∧ e'.inbox = e.inbox ∧ e'.overruns = e.overruns + 1))

/-- Exactly the engine for `remote` in the list was given the packet. -/
def OnlyTo (d : Bytes) (remote : Nat) (l l' : List Engine) : Prop :=
  List.Forall₂ (fun e e' => if e.remote = remote then Got d e e' else e' = e) l l'

/-- The datagrams of a history. -/
def datagrams (es : List Ev) : List Bytes := es.filterMap fun
  | .datagram d _ => some d
  | _ => none

/-- No datagram of the history has an unknown type. -/
def KnownTypes (es : List Ev) : Prop :=
  ∀ d ∈ datagrams es, d.length ≤ 2 ∨ (d.headD 0).toNat ∈ [0, 1, 2, 3, 4, 7, 8, 9, 12, 13, 14, 15]

end Hdtn.LtpUdpManager.Spec
