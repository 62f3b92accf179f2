import Verif.DirScan.Model

/-!
What is expected of the directory scanner.
-/

namespace Hdtn.DirScan.Spec

open Hdtn.DirScan

/-- The program waits for a file only while at most one is in the list. -/
def Calm (s : Scan) (evs : List Ev) : Prop := ∀ evs1 evs2, evs = evs1 ++ .tryWait :: evs2 → (s.run evs1).list.length ≤ 1

/-- A file was seen with this size, nothing happened to it later, and when the timer expired it had this size and could be opened. -/
def Stable (p : Nat) (evs : List Ev) : Prop :=
  ∃ n a b c, evs = a ++ .changed p (some n) :: (b ++ .timer (some n) true :: c) ∧ ∀ m, Ev.changed p (some m) ∉ b

end Hdtn.DirScan.Spec
