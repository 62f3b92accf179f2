import Verif.CustodyId.Model

/-!
Specification for C31: which histories are considered and which identifiers are in use.
-/

namespace Hdtn.CustodyId

open Hdtn.HashMap16

/-- Calls to the allocator. -/
inductive Op where
  | restore (b e : Nat)
  | alloc (src : Eid)
  | free (id : Nat)
  | freeRange (b e : Nat)

/-- One call on an allocator; `live` are the identifiers in use, of restored and of new bundles.
A bundle is freed when it is in use. Restores happen before the first allocation. -/
inductive Step : State × (Nat → Prop) → Op → State × (Nat → Prop) → Prop
  | restore (s : State) (live : Nat → Prop) (b e : Nat) (hbe : b ≤ e) (hinit : s.next = 2 ^ 64 - 1) :
      Step (s, live) (.restore b e) (restore s b e, fun x => live x ∨ (b ≤ x ∧ x ≤ e))
  | alloc (s : State) (live : Nat → Prop) (src : Eid) :
      Step (s, live) (.alloc src) ((alloc s src).1, fun x => live x ∨ x = (alloc s src).2)
  | free (s : State) (live : Nat → Prop) (id : Nat) (h : live id) :
      Step (s, live) (.free id) ((free s id).1, fun x => live x ∧ x ≠ id)
  | freeRange (s : State) (live : Nat → Prop) (b e : Nat) (hbe : b ≤ e)
      (h : ∀ x, b ≤ x → x ≤ e → live x) :
      Step (s, live) (.freeRange b e) ((freeRange s b e).1, fun x => live x ∧ ¬ (b ≤ x ∧ x ≤ e))

/-- The allocator reached by a history, with the identifiers in use. -/
inductive Run : List Op → State × (Nat → Prop) → Prop
  | nil : Run [] (State.new, fun _ => False)
  | snoc (ops : List Op) (op : Op) (s s' : State × (Nat → Prop)) (h : Run ops s) (hs : Step s op s') :
      Run (ops ++ [op]) s'

/-- Restored identifiers lie below `256 * r`. -/
def Op.Below (r : Nat) : Op → Prop
  | .restore _ e => e < 256 * r
  | _ => True

end Hdtn.CustodyId
