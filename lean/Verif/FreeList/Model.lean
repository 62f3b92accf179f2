import Verif.Base

/-!
# The allocator that keeps unused nodes (`common/util/include/FreeListAllocator.h`)

`FreeListAllocator<T, MaxListSize>`.  The chain of kept nodes, linked in the code through `node::next`,
is the list of their addresses (simplification).  The operating system's allocator is the list `mem` of
addresses that have been obtained and not given back; giving back any other address is a fault.
`FreeListAllocatorDynamic`, in the same file, is not modelled.
-/

namespace Hdtn.FreeList

/-- One allocator: `list` and `listSize` (FreeListAllocator.h:80-82); `alive` until `~FreeListAllocator`.
`listSizeCopy`, for tests only, is left out. -/
structure Alloc where
  list : List Nat
  size : Nat
  alive : Bool
  deriving DecidableEq, Repr

/-- A new allocator (FreeListAllocator.h:80-82, 90). -/
def Alloc.new : Alloc := ⟨[], 0, true⟩

/-- All allocators of the program, and the memory of the process. -/
structure World where
  allocs : List Alloc
  mem : List Nat
  fault : Bool
  deriving DecidableEq, Repr

/-- Allocator `i` (simplification: an allocator object is known by its number). -/
def World.get (w : World) (i : Nat) : Alloc := w.allocs.getD i ⟨[], 0, false⟩

/-- Allocator `i` gets a new state (the assignments to `list` and `listSize`, FreeListAllocator.h:98-99, 119-122,
134-135, 153-155). -/
def World.put (w : World) (i : Nat) (a : Alloc) : World := { w with allocs := w.allocs.set i a }

/-- `delete` / `::operator delete` (FreeListAllocator.h:73, 159): an address that is not in use is a fault. -/
def World.release (w : World) (p : Nat) : World :=
  if p ∈ w.mem then { w with mem := w.mem.erase p } else { w with fault := true }

/-- `clear` (FreeListAllocator.h:68-77). -/
def World.clear (w : World) (i : Nat) : World :=
  ((w.get i).list.foldl World.release w).put i { w.get i with list := [], size := 0 }

/-- `allocate` (FreeListAllocator.h:128-146): `fresh` is what `new` answers, if it is asked. -/
def World.allocate (w : World) (i n fresh : Nat) : Nat × World :=
  if n = 1 then
    match (w.get i).list with
    | p :: r => (p, w.put i { w.get i with list := r, size := (w.get i).size - 1 })
    | [] => (fresh, { w with mem := fresh :: w.mem })
  else (fresh, { w with mem := fresh :: w.mem })

/-- `deallocate` (FreeListAllocator.h:148-161). -/
def World.deallocate (max : Nat) (w : World) (i p n : Nat) : World :=
  if n = 1 ∧ (w.get i).size < max then
    w.put i { w.get i with list := p :: (w.get i).list, size := (w.get i).size + 1 }
  else w.release p

/-- Construction without arguments, and by copy: nothing is copied (FreeListAllocator.h:90-95). -/
def World.create (w : World) : World := { w with allocs := w.allocs ++ [Alloc.new] }

/-- Construction by move (FreeListAllocator.h:97-101). -/
def World.moveNew (w : World) (j : Nat) : World :=
  let o := w.get j
  let w1 := w.put j { o with list := [], size := 0 }
  { w1 with allocs := w1.allocs ++ [⟨o.list, o.size, true⟩] }

/-- Assignment by copy: no effect (FreeListAllocator.h:111-115). -/
def World.copyAssign (w : World) (_i _j : Nat) : World := w

/-- Assignment by move, `i` from `j` (FreeListAllocator.h:117-124). -/
def World.moveAssign (w : World) (i j : Nat) : World :=
  let w1 := w.clear i
  let o := w1.get j
  let w2 := w1.put i { w1.get i with list := o.list, size := o.size }
  w2.put j { w2.get j with list := [], size := 0 }

/-- Destruction (FreeListAllocator.h:126). -/
def World.destroy (w : World) (i : Nat) : World :=
  let w1 := w.clear i
  w1.put i { w1.get i with alive := false }

end Hdtn.FreeList
