import Verif.FreeList.Model

/-!
# What the user of the allocators does

A record of the blocks the user holds, kept outside the model of the code, and the rules the user and the
operating system follow.
-/

namespace Hdtn.FreeList

/-- The program and the blocks in the user's hands, each with the number of elements asked for. -/
structure Sys where
  w : World
  held : List (Nat × Nat)
  deriving DecidableEq, Repr

/-- What can happen. -/
inductive Ev where
  | create
  | moveNew (j : Nat)
  | copyAssign (i j : Nat)
  | moveAssign (i j : Nat)
  | destroy (i : Nat)
  /-- The user asks allocator `i` for `n` elements; the operating system would answer `fresh`. -/
  | allocate (i n fresh : Nat)
  /-- The user gives the block `p` of `n` elements back, to any allocator. -/
  | deallocate (i p n : Nat)
  deriving DecidableEq, Repr

def Sys.init : Sys := ⟨⟨[], [], false⟩, []⟩

def Sys.step (max : Nat) (s : Sys) : Ev → Sys
  | .create => { s with w := s.w.create }
  | .moveNew j => { s with w := s.w.moveNew j }
  | .copyAssign i j => { s with w := s.w.copyAssign i j }
  | .moveAssign i j => { s with w := s.w.moveAssign i j }
  | .destroy i => { s with w := s.w.destroy i }
  | .allocate i n fresh => ⟨(s.w.allocate i n fresh).2, ((s.w.allocate i n fresh).1, n) :: s.held⟩
  | .deallocate i p n => ⟨s.w.deallocate max i p n, s.held.erase (p, n)⟩

/-- Allocator `i` exists and has not been destroyed. -/
def Sys.live (s : Sys) (i : Nat) : Prop := i < s.w.allocs.length ∧ (s.w.get i).alive = true

/-- The rules: only live allocators are used, the operating system answers with memory that is not in use,
and the user gives back only blocks they hold, with the size they asked for. -/
def Sys.allowed (s : Sys) : Ev → Prop
  | .create => True
  | .moveNew j => s.live j
  | .copyAssign i j => s.live i ∧ s.live j
  | .moveAssign i j => s.live i ∧ s.live j
  | .destroy i => s.live i
  | .allocate i _ fresh => s.live i ∧ fresh ∉ s.w.mem
  | .deallocate i p n => s.live i ∧ (p, n) ∈ s.held

/-- The situations that histories by the rules lead to. -/
inductive Reach (max : Nat) : Sys → Prop
  | init : Reach max Sys.init
  | step {s : Sys} {e : Ev} : Reach max s → s.allowed e → Reach max (s.step max e)

/-- The addresses of the blocks the user holds. -/
def Sys.addrs (s : Sys) : List Nat := s.held.map Prod.fst

end Hdtn.FreeList
