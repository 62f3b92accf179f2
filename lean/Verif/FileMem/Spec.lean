import Verif.FileMem.Model

/-!
What memory is: a byte that is read is the one that was written last. Independent of files and fragments; of the model only the calls and their results
are used.
-/

namespace Hdtn.FileMem.Spec

/-- The byte at `o` of the block `id` that one write request puts there. -/
def put (id o : Nat) (r : Nat × Nat × Bytes) : Option UInt8 :=
  if r.1 = id ∧ r.2.1 ≤ o then r.2.2[o - r.2.1]? else none

/-- The byte that several write requests put there: the last one counts. -/
def putAll (id o : Nat) : List (Nat × Nat × Bytes) → Option UInt8
  | [] => none
  | r :: rs =>
    match putAll id o rs with
    | some b => some b
    | none => put id o r

/-- The byte at `o` of the block `id` after all these calls, the last of which is the first in the list: the one that was written last. It is not known if
nothing was written there, or if a request to write there was not accepted. -/
def content (id o : Nat) : List (Api × Res) → Option UInt8
  | [] => none
  | (.write reqs, .request _ ok) :: older =>
    match putAll id o reqs with
    | some b => if ok then some b else none
    | none => content id o older
  | _ :: older => content id o older

/-- A read request with this handler was accepted, and position `i` of its `k`th part should hold the byte `b`: it is what was there when the request was
made. -/
def Wanted (trace : List (Api × Res)) (h k i : Nat) (b : UInt8) : Prop :=
  ∃ newer older reqs id off len, trace = newer ++ (.read reqs, .request h true) :: older ∧ reqs[k]? = some (id, off, len) ∧ i < len ∧
    content id (off + i) older = some b

/-- A request for at least one byte. -/
def ForBytes : Api → Prop
  | .write reqs => ∃ r ∈ reqs, r.2.2 ≠ []
  | .read reqs => ∃ r ∈ reqs, r.2.2 ≠ 0
  | _ => False

/-- No operation on a file ends with an error. -/
def NoErrors (es : List Ev) : Prop := ∀ e ∈ es, ∀ file error inner, e = .complete file error inner → error = false

/-- Positions in memory do not go beyond 64 bits. -/
def Small : Api → Prop
  | .write reqs => ∀ r ∈ reqs, r.2.1 + r.2.2.length < 2 ^ 64
  | .read reqs => ∀ r ∈ reqs, r.2.1 + r.2.2 < 2 ^ 64
  | _ => True

/-- The same for all calls of a history, also those from handlers. -/
def AllSmall (es : List Ev) : Prop :=
  ∀ e ∈ es, match e with
    | .call a => Small a
    | .complete _ _ inner => ∀ a ∈ inner, Small a
    | _ => True

end Hdtn.FileMem.Spec
