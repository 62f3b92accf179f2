import Verif.Base

/-!
# The bin of user data for reuse (`common/util/include/UserDataRecycler.h`)

`UserDataRecycler<std::vector<uint8_t>>`.  Other types of user data, and the memory of the list's nodes
(`FreeListAllocatorDynamic`), are not modelled.
-/

namespace Hdtn.Recycler

/-- A `std::vector<uint8_t>`: its elements and `capacity()` (UserDataRecycler.h:71, 118). -/
structure Vec where
  data : List UInt8
  cap : Nat
  deriving DecidableEq, Repr

/-- A vector after its contents were moved (UserDataRecycler.h:62; simplification: the standard library's usual choice, neither
elements nor memory). -/
def Vec.moved : Vec := ⟨[], 0⟩

/-- `m_list`, `m_currentSize`, `m_maxSize` (UserDataRecycler.h:111-115). -/
structure Bin where
  list : List Vec
  cur : Nat
  max : Nat
  deriving DecidableEq, Repr

/-- The constructor (UserDataRecycler.h:46-51). -/
def Bin.init (max : Nat) : Bin := ⟨[], 0, max⟩

/-- `IsReturnable` for vectors (UserDataRecycler.h:70-72). -/
def returnable (v : Vec) : Bool := v.data.length != 0 || v.cap != 0

/-- `ReturnUserData` (UserDataRecycler.h:59-68): the answer, what is left in the caller's vector, and the bin. -/
def Bin.giveBack (b : Bin) (v : Vec) : Bool × Vec × Bin :=
  if b.cur < b.max then
    if returnable v then (true, Vec.moved, { b with list := v :: b.list, cur := b.cur + 1 })
    else (false, v, b)
  else (false, v, b)

/-- `GetRecycledOrCreateNewUserData` (UserDataRecycler.h:84-90): the caller's vector afterwards, and the bin.  `front` of an empty list,
which has no defined result in the code, is taken as leaving the vector (`C179_bound` excludes the case). -/
def Bin.obtain (b : Bin) (v : Vec) : Vec × Bin :=
  if b.cur ≠ 0 then
    match b.list with
    | x :: r => (x, { b with list := r, cur := b.cur - 1 })
    | [] => (v, b)
  else (v, b)

end Hdtn.Recycler
