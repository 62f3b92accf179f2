import Verif.LtpSender.Model
import Verif.LtpSender.Spec
import Verif.LtpReceiver.Model

/-!
A sending and a receiving LTP session joined by a network that may lose, delay, reorder and repeat
segments but does not invent or change them. That a segment arrives as it was sent is C18. The sessions
are called by `LtpEngine` (LtpEngine.cpp:1258-1290 for reports, :1216-1256 for acknowledgements, :1382-1493
for data), whose bookkeeping of sessions is not modelled here: a session that has asked to be
deleted may go on in the model.
-/

namespace Hdtn.LtpLink
open Hdtn.LtpReport
open Hdtn.LtpReceiver (Seg)

/-- Both sessions: what happened to them, their states and what they did. -/
structure Sys where
  sevs : List LtpSender.Event
  s : LtpSender.State
  seffs : List LtpSender.Eff
  revs : List LtpReceiver.Event
  r : LtpReceiver.State
  reffs : List LtpReceiver.Eff

/-- What can happen: something local to the sender or the receiver, or the arrival of a segment. -/
inductive Action where
  | sender (e : LtpSender.Event)
  | receiver (e : LtpReceiver.Event)

/-- An action is possible: reports, data and acknowledgements arrive only if they were sent, at
any time after that and any number of times; the other events are possible at any time. -/
def Possible (sys : Sys) : Action → Prop
  | .sender (.report n c r) => LtpReceiver.Eff.send n c r ∈ sys.reffs
  | .sender _ => True
  | .receiver (.data s) => s ∈ LtpSender.segments sys.seffs
  | .receiver (.ack n) => LtpSender.Eff.ack n ∈ sys.seffs
  | .receiver _ => True

/-- One action. -/
def act (cs : LtpSender.Cfg) (cr : LtpReceiver.Cfg) (sys : Sys) : Action → Option Sys
  | .sender e =>
    match LtpSender.step cs sys.s e with
    | none => none
    | some (s, effs) =>
      some { sys with
        sevs := sys.sevs ++ [e]
        s := s
        seffs := sys.seffs ++ effs }
  | .receiver e =>
    match LtpReceiver.step cr sys.r e with
    | none => none
    | some (r, effs) =>
      some { sys with
        revs := sys.revs ++ [e]
        r := r
        reffs := sys.reffs ++ effs }

/-- Both sessions at the start. -/
def start (cs : LtpSender.Cfg) (csn rsn : Nat) : Sys where
  sevs := []
  s := LtpSender.init cs csn
  seffs := []
  revs := []
  r := LtpReceiver.init rsn
  reffs := []

/-- The system can get from one state to the other. -/
inductive Leads (cs : LtpSender.Cfg) (cr : LtpReceiver.Cfg) : Sys → Sys → Prop
  | refl (sys) : Leads cs cr sys sys
  | step (a b c : Sys) (x : Action) : Leads cs cr a b → Possible b x → act cs cr b x = some c →
      Leads cs cr a c

/-- The state can be reached. -/
def Reach (cs : LtpSender.Cfg) (cr : LtpReceiver.Cfg) (csn rsn : Nat) (sys : Sys) : Prop :=
  Leads cs cr (start cs csn rsn) sys

end Hdtn.LtpLink
