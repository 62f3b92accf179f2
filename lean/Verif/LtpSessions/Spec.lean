import Verif.LtpSessions.Model

/-!
# What is expected of the engine's bookkeeping

In terms of the events, of the packets handed over and of what the users are told.
-/

namespace Hdtn.LtpSessions

/-- How often the user's bundle `u` was given to the engine. -/
def requestsOf (u : Nat) (es : List Ev) : Nat :=
  es.countP fun e => match e with
    | .request _ r _ => r.user == u
    | _ => false

/-- The call answers for the bundle `u`: it was sent, or here it is back. -/
def Call.answers (u : Nat) : Call → Bool
  | .success v _ => v == u
  | .failed v _ => v == u
  | _ => false

/-- The call tells the end of the session of bundle `u`. -/
def Call.tells (u : Nat) : Call → Bool
  | .completed v => v == u
  | .stopped v => v == u
  | _ => false

/-- How many sessions for the bundle `u` there are. -/
def openFor (u : Nat) (s : Eng) : Nat := s.tx.countP fun x => x.2.user == u

/-- The numbers drawn for new sessions. -/
def numbers (es : List Ev) : List Nat :=
  es.filterMap fun e => match e with
    | .request n _ _ => some n
    | .written _ n => some n
    | _ => none

/-- Every request has something to send. -/
def NonEmpty (es : List Ev) : Prop :=
  ∀ e ∈ es, ∀ n r ok, e = Ev.request n r ok → r.first ≠ []

/-- A checkpoint of session `n` was sent as often as allowed, without an answer. -/
def Exhausted (es : List Ev) (n : Nat) : Prop := ∃ p skip, Ev.checkpoint n p false skip ∈ es

/-- The receiver claimed all the red data of session `n`. -/
def Claimed (es : List Ev) (n : Nat) : Prop :=
  ∃ ack extra, Ev.report n ack true true extra ∈ es

/-- The user or the receiver cancelled session `n`. -/
def Cancelled (es : List Ev) (n : Nat) : Prop := Ev.cancel n ∈ es ∨ ∃ p, Ev.cancelIn n p ∈ es

/-- The packets of the first pass of session `n` among those handed over. -/
def firstOf (n : Nat) (sent : List Out) : List Nat :=
  sent.filterMap fun o => match o with
    | .first m p => if m = n then some p else none
    | _ => none

/-- Nothing waits in the engine's queues. -/
def Quiet (s : Eng) : Prop :=
  s.qDelete = [] ∧ s.qRxDelete = [] ∧ s.cancels = [] ∧ s.closed = [] ∧
  s.qCritical = [] ∧ s.qRx = [] ∧ s.qFirst = []

/-- A posted call runs, or a system call ends. -/
def Ev.effective (s : Eng) : Ev → Prop
  | .posted => s.posted ≠ 0
  | .completed => s.flight ≠ 0
  | _ => False

/-- A history in which nothing happens but that posted calls run and system calls end. -/
def Effective (c : Cfg) : Eng → List Ev → Prop
  | _, [] => True
  | s, e :: es => e.effective s ∧ Effective c (s.step c e) es

end Hdtn.LtpSessions
