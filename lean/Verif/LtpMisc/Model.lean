import Verif.Base

/-!
Model of `common/ltp/src/LtpSessionRecreationPreventer.cpp`: the memory of recently received LTP
sessions, a hash set together with a ring of the numbers in it.
-/

namespace Hdtn.LtpMisc

/-- `LtpSessionRecreationPreventer`, LtpSessionRecreationPreventer.h, and its constructor,
LtpSessionRecreationPreventer.cpp:18-26. `set` holds the elements of the `std::unordered_set`
(each at most once, in no particular order) and `queue` the `std::vector`. -/
structure Preventer where
  num : Nat
  set : List Nat
  queue : List Nat
  full : Bool
  next : Nat
deriving DecidableEq, Repr

/-- The constructor, LtpSessionRecreationPreventer.cpp:18-26: the vector is filled with zeros. -/
def Preventer.init (n : Nat) : Preventer := ⟨n, [], List.replicate n 0, false, 0⟩

/-- `LtpSessionRecreationPreventer.cpp:38-43`: store in the ring and advance. Writing outside the vector
is undefined (`none`). -/
def Preventer.store (p : Preventer) (set : List Nat) (x : Nat) : Option Preventer :=
  if p.next < p.queue.length then
    let next := p.next + 1
    some (if p.num ≤ next then ⟨p.num, set, p.queue.set p.next x, true, 0⟩
      else ⟨p.num, set, p.queue.set p.next x, p.full, next⟩)
  else none

/-- `AddSession`, LtpSessionRecreationPreventer.cpp:30-47. -/
def Preventer.add (p : Preventer) (x : Nat) : Option (Preventer × Bool) :=
  if x ∈ p.set then some (p, false)
  else
    let set := x :: p.set
    if p.full then
      match p.queue[p.next]? with
      | none => none
      | some old =>
        if old ∈ set then (p.store (set.erase old) x).map fun q => (q, true)
        else some ({ p with set := set }, false)
    else (p.store set x).map fun q => (q, true)

/-- `ContainsSession`, LtpSessionRecreationPreventer.cpp:48-50. -/
def Preventer.contains (p : Preventer) (x : Nat) : Bool := p.set.count x != 0

end Hdtn.LtpMisc
