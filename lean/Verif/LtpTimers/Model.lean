import Verif.Base

/-!
# Model of the LTP timer manager (`LtpTimerManager`)

One operating system timer serves any number of timers of equal duration.

What is modelled: starting, deleting and adjusting timers, and the handler of the operating system
timer, which calls the user back and arms the operating system timer again.
What is simplified: the list of timers and the map into it are one list; user data are left out; the
type of the ids is any type with a distinguished value, which the code writes 0. Of
`boost::asio::deadline_timer` this is assumed: the handler of a wait runs once, not before the
deadline unless the wait is cancelled; cancelling a wait whose handler is already due has no effect.
`Reset` and the destructor are left out.
-/

namespace Hdtn.LtpTimers

/-- A wait of the operating system timer whose handler has not run. -/
inductive Wait where
  /-- It ends at the deadline. -/
  | armed (deadline : Int)
  /-- It was cancelled. -/
  | aborted
deriving DecidableEq, Repr

/-- `m_transmissionToAckReceivedTimeRef`, `m_listTimerData` (ids and expiries),
`m_activeSerialNumberBeingTimed`, and `m_isTimerActive` with the wait of `m_deadlineTimerRef`;
LtpTimerManager.h:168-209. `now` is the time. -/
structure State (α : Type) where
  now : Int
  rtt : Int
  timers : List (α × Int)
  active : α
  wait : Option Wait
deriving DecidableEq, Repr

variable {α : Type} [DecidableEq α]

/-- The state after construction, LtpTimerManager.cpp:21-61. -/
def State.init (zero : α) (rtt : Int) : State α := ⟨0, rtt, [], zero, none⟩

/-- What the manager's user sees: a timer was started or deleted as asked, or its callback is called;
`undefined`: the code uses an uninitialised pointer. -/
inductive Eff (α : Type) where
  | started (id : α) (at_ : Int)
  | deleted (id : α)
  | fired (id : α) (at_ : Int)
  | undefined
deriving DecidableEq, Repr

/-- What the manager's user may do, also while being called back. -/
inductive Op (α : Type) where
  | start (id : α)
  | delete (id : α)
deriving DecidableEq, Repr

/-- What happens. `setRtt`: `LtpEngine::SetDelays`, LtpEngine.cpp:1717-1728, with `late` if the handler
of the operating system timer is already due. `handler`: the handler runs, and if it calls the user
back, the user does `inner`. -/
inductive Event (α : Type) where
  | tick (d : Nat)
  | op (o : Op α)
  | setRtt (rtt : Int) (update late : Bool)
  | handler (inner : List (Op α))
deriving DecidableEq, Repr

/-- The timer with the id is running. -/
def running (st : State α) (id : α) : Bool := st.timers.any (fun p => p.1 = id)

/-- `StartTimer`, LtpTimerManager.cpp:64-83. -/
def start (st : State α) (id : α) : State α × List (Eff α) :=
  if running st id then (st, [])
  else
    let expiry := st.now + st.rtt
    let st := { st with timers := st.timers ++ [(id, expiry)] }
    match st.wait with
    | none => ({ st with active := id, wait := some (.armed expiry) }, [.started id st.now])
    | some _ => (st, [.started id st.now])

/-- `DeleteTimer`, LtpTimerManager.cpp:102-124. -/
def delete (zero : α) (st : State α) (id : α) : State α × List (Eff α) :=
  if running st id then
    let st := { st with timers := st.timers.filter (fun p => p.1 ≠ id) }
    if st.wait ≠ none ∧ st.active = id then ({ st with active := zero }, [.deleted id])
    else (st, [.deleted id])
  else (st, [])

/-- What the user does. -/
def doOp (zero : α) (st : State α) : Op α → State α × List (Eff α)
  | .start id => start st id
  | .delete id => delete zero st id

/-- What the user does while being called back. -/
def doOps (zero : α) : State α → List (Op α) → State α × List (Eff α)
  | st, [] => (st, [])
  | st, o :: os =>
    let (st, out) := doOp zero st o
    let (st, outs) := doOps zero st os
    (st, out ++ outs)

/-- Arms the operating system timer for the first timer, LtpTimerManager.cpp:151-164. -/
def rearm (st : State α) : State α :=
  match st.timers with
  | [] => { st with wait := none }
  | (id, expiry) :: _ => { st with active := id, wait := some (.armed expiry) }

/-- `OnTimerExpired`, LtpTimerManager.cpp:126-165, of a wait that was not cancelled. -/
def expire (zero : α) (st : State α) (inner : List (Op α)) : State α × List (Eff α) :=
  if st.active ≠ zero then
    let id := st.active
    if running st id then
      let st := { st with active := zero, timers := st.timers.filter (fun p => p.1 ≠ id) }
      let (st, outs) := doOps zero st inner
      (rearm st, .fired id st.now :: outs)
    else (st, [.undefined])
  else (rearm st, [])

/-- `AdjustRunningTimers`, LtpTimerManager.cpp:167-175. -/
def adjust (st : State α) (diff : Int) (late : Bool) : State α :=
  match st.wait with
  | none => st
  | some w =>
    { st with
      timers := st.timers.map (fun p => (p.1, p.2 + diff))
      wait := some (if late then w else .aborted) }

/-- The handler of the operating system timer may run now. -/
def due (st : State α) : Bool :=
  match st.wait with
  | none => false
  | some .aborted => true
  | some (.armed d) => decide (d ≤ st.now)

/-- One event. `none`: it cannot happen: the handler of a wait that is not over, or `late` without a
handler that is due. -/
def step (zero : α) (st : State α) : Event α → Option (State α × List (Eff α))
  | .tick d => some ({ st with now := st.now + d }, [])
  | .op o => some (doOp zero st o)
  | .setRtt rtt update late =>
    if late && !due st then none
    else
      let diff := rtt - st.rtt
      let st := { st with rtt := rtt }
      some (if update then adjust st diff late else st, [])
  | .handler inner =>
    match st.wait with
    | none => none
    | some .aborted => some (rearm st, [])
    | some (.armed d) => if d ≤ st.now then some (expire zero st inner) else none

/-- A history of events: the state reached and everything seen. -/
def run (zero : α) : State α → List (Event α) → Option (State α × List (Eff α))
  | st, [] => some (st, [])
  | st, e :: es => do
    let (st, out) ← step zero st e
    let (st, outs) ← run zero st es
    pure (st, out ++ outs)

end Hdtn.LtpTimers
