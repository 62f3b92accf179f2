import Verif.LtpTimers.Model

/-!
Vocabulary for the properties of the timer manager.
-/

namespace Hdtn.LtpTimers
variable {α : Type} [DecidableEq α]

/-- The ids the user starts timers with, anywhere in the history. -/
def usesOp (id : α) : Op α → Prop
  | .start i => i = id
  | .delete _ => False

/-- The history starts a timer with the id. -/
def Uses (id : α) (evs : List (Event α)) : Prop :=
  (∃ o, Event.op o ∈ evs ∧ usesOp id o) ∨ ∃ inner, Event.handler inner ∈ evs ∧ ∃ o ∈ inner, usesOp id o

/-- How often a timer with the id was started. -/
def starts (id : α) (effs : List (Eff α)) : Nat :=
  effs.countP fun
    | .started i _ => decide (i = id)
    | _ => false

/-- How often a timer with the id was deleted. -/
def deletes (id : α) (effs : List (Eff α)) : Nat :=
  effs.countP fun
    | .deleted i => decide (i = id)
    | _ => false

/-- How often a timer with the id called back. -/
def fires (id : α) (effs : List (Eff α)) : Nat :=
  effs.countP fun
    | .fired i _ => decide (i = id)
    | _ => false

/-- How many timers with the id are running. -/
def pending (id : α) (st : State α) : Nat := st.timers.countP (fun p => decide (p.1 = id))

/-- The duration is never changed without adjusting the running timers. -/
def Adjusted (evs : List (Event α)) : Prop := ∀ rtt late, Event.setRtt rtt false late ∉ evs

/-- The duration is never changed. -/
def Constant (evs : List (Event α)) : Prop := ∀ rtt update late, Event.setRtt rtt update late ∉ evs

/-- No running timers are adjusted when a handler is already due. -/
def NoRace (evs : List (Event α)) : Prop := ∀ rtt update, Event.setRtt rtt update true ∉ evs

end Hdtn.LtpTimers
