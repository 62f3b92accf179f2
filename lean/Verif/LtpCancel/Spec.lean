import Verif.LtpCancel.Model

/-!
Vocabulary for the properties of cancel segments and pings.
-/

namespace Hdtn.LtpCancel

/-- How often a cancellation of the session was started. -/
def begun (sid : Sid) (effs : List Eff) : Nat :=
  effs.countP fun
    | .started s => decide (s = sid)
    | .pingStarted s => decide (s = sid)
    | _ => false

/-- How many cancel segments of the session were sent. -/
def sends (sid : Sid) (effs : List Eff) : Nat :=
  effs.countP fun
    | .sent s _ _ => decide (s = sid)
    | _ => false

/-- How many cancellations of the session ended, by an acknowledgement or by giving up. -/
def ended (sid : Sid) (effs : List Eff) : Nat :=
  effs.countP fun
    | .acked s => decide (s = sid)
    | .failed s => decide (s = sid)
    | _ => false

/-- A cancel segment of the session waits to be sent. -/
def Queued (st : State) (sid : Sid) : Prop := ∃ i ∈ st.queue, i.sid = sid

/-- The timer of a cancel segment of the session runs. -/
def Timed (st : State) (sid : Sid) : Prop := ∃ i ∈ st.timers, i.sid = sid

/-- The session of a ping. -/
def Cfg.pingSid (cfg : Cfg) : Sid := ⟨cfg.me, cfg.pingNumber⟩

/-- The session is not taken for a ping. -/
def Ordinary (cfg : Cfg) (sid : Sid) : Prop :=
  isPing cfg (decide (sid.engine = cfg.me)) sid = false

/-- No session that looks like a ping is cancelled. -/
def NoLookalike (cfg : Cfg) (evs : List Event) : Prop :=
  ∀ number reason, Event.cancelTx number reason ∈ evs →
    LtpRng.isPingSession number cfg.force32 = false

/-- What there is to see of pings. -/
inductive Signal where
  | start
  | probe
  | up
  | down
deriving DecidableEq, Repr

/-- The pings' part in what the engine did. -/
def signals (cfg : Cfg) (effs : List Eff) : List Signal :=
  effs.filterMap fun
    | .pingStarted s => if s = cfg.pingSid then some .start else none
    | .sent s _ _ => if s = cfg.pingSid then some .probe else none
    | .linkUp => some .up
    | .linkDown => some .down
    | _ => none

/-- A finished ping: how many segments were sent, and whether the link was reported up. -/
structure Round where
  probes : Nat
  up : Bool
deriving DecidableEq, Repr

/-- A finished ping is as it should be: at least one and at most `maxRetries + 1` segments, and all of
these if the link is reported down. -/
def Round.Ok (cfg : Cfg) (r : Round) : Prop :=
  1 ≤ r.probes ∧ r.probes ≤ cfg.maxRetries + 1 ∧ (r.up = false → r.probes = cfg.maxRetries + 1)

/-- What there is to see of a finished ping. -/
def Round.signals (r : Round) : List Signal :=
  .start :: List.replicate r.probes .probe ++ [if r.up then .up else .down]

end Hdtn.LtpCancel
