import Verif.Recycler.Model

/-!
# What users of the bin see: the vectors taken in, and the vectors given out
-/

namespace Hdtn.Recycler

/-- A call, with the caller's vector. -/
inductive Call where
  | giveBack (v : Vec)
  | obtain (v : Vec)
  deriving DecidableEq, Repr

/-- The bin, the vectors it has accepted, and the vectors it has given out, newest first. -/
structure Hist where
  bin : Bin
  accepted : List Vec
  out : List Vec
  deriving DecidableEq, Repr

def Hist.step (h : Hist) : Call → Hist
  | .giveBack v =>
    { h with bin := (h.bin.giveBack v).2.2,
             accepted := if (h.bin.giveBack v).1 then v :: h.accepted else h.accepted }
  | .obtain v =>
    { h with bin := (h.bin.obtain v).2,
             out := if h.bin.cur ≠ 0 then (h.bin.obtain v).1 :: h.out else h.out }

def Hist.run (max : Nat) (l : List Call) : Hist := l.foldl Hist.step ⟨Bin.init max, [], []⟩

/-- A vector that brings memory with it. -/
def Vec.useful (v : Vec) : Prop := v.data ≠ [] ∨ v.cap ≠ 0

end Hdtn.Recycler
