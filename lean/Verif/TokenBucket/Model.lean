import Verif.Base

/-!
Model of `common/util/src/TokenRateLimiter.cpp`. Durations are numbers of ticks; the special values of
boost durations (which `SetRate` and `AddTime` ignore) are left out. Signed 64-bit overflow is
undefined behaviour and is modelled as `none`.
-/

namespace Hdtn.TokenBucket

/-- Members of `TokenRateLimiter`, TokenRateLimiter.h. -/
structure Limiter where
  rate : Int
  interval : Int
  limit : Int
  remain : Int
deriving DecidableEq, Repr

/-- A result of signed 64-bit arithmetic: defined only if it fits. -/
def fit (x : Int) : Option Int := if -2 ^ 63 ≤ x ∧ x < 2 ^ 63 then some x else none

/-- `SetRate`, TokenRateLimiter.cpp:25-34. -/
def setRate (tokens interval window : Int) : Option Limiter := do
  let limit ← fit (tokens * window)
  some ⟨tokens, interval, limit, limit⟩

/-- `AddTime`, TokenRateLimiter.cpp:36-45. -/
def addTime (l : Limiter) (ticks : Int) : Option Limiter := do
  let delta ← fit (l.rate * ticks)
  let r ← fit (l.remain + delta)
  some { l with remain := if r > l.limit then l.limit else r }

/-- Conversion of a `uint64_t` to `int64_t`. -/
def toSigned (x : Nat) : Int := if x % 2 ^ 64 < 2 ^ 63 then (x % 2 ^ 64 : Nat) else (x % 2 ^ 64 : Nat) - 2 ^ 64

/-- `TakeTokens`, TokenRateLimiter.cpp:55-62: granted or not, and the new state. `tokens *
interval.ticks()` is an unsigned product (modulo 2^64), converted back to signed. -/
def takeTokens (l : Limiter) (tokens : Nat) : Option (Bool × Limiter) :=
  if l.remain < 0 then some (false, l)
  else do
    let delta := toSigned (((tokens : Int) * l.interval) % 2 ^ 64).toNat
    let r ← fit (l.remain - delta)
    some (true, { l with remain := r })

/-- `CanTakeTokens`, TokenRateLimiter.cpp:64-66. -/
def canTake (l : Limiter) : Bool := l.remain ≥ 0

/-- `HasFullBucketOfTokens`, TokenRateLimiter.cpp:51-53. -/
def isFull (l : Limiter) : Bool := l.remain = l.limit

/-- A call, as a user of the limiter issues it. -/
inductive Call where
  | add (ticks : Nat)
  | take (tokens : Nat)
deriving DecidableEq, Repr

/-- What one call does: the new state and, for a request, whether it was granted. -/
def step (l : Limiter) : Call → Option (Option Bool × Limiter)
  | .add t => (addTime l t).map fun l' => (none, l')
  | .take n => (takeTokens l n).map fun p => (some p.1, p.2)

/-- A history: every call with its answer, and the final state. -/
def run (l : Limiter) : List Call → Option (List (Call × Option Bool) × Limiter)
  | [] => some ([], l)
  | c :: cs => do
    let (a, l') ← step l c
    let (as, l'') ← run l' cs
    some ((c, a) :: as, l'')

end Hdtn.TokenBucket
