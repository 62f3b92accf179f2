import Verif.FileTransfer.Model

/-!
What it means that files arrive.
-/

namespace Hdtn.FileTransfer.Spec

open Hdtn.FileTransfer

/-- A sender that is to send these files. -/
def sending (files : List (Bytes × Bytes)) : Sender := ⟨files.map fun f => (f.1, some f.2), none⟩

/-- A file, as the sender reads it. -/
abbrev File := Bytes × Bytes

/-- Files that can be sent: different paths of at most 255 bytes, and at most eight gigabytes. -/
structure Sendable (files : List File) : Prop where
  distinct : (files.map (·.1)).Nodup
  paths : ∀ f ∈ files, f.1.length ≤ 255
  sizes : ∀ f ∈ files, f.2.length ≤ 8000000000

/-- A receiver that saves files, has none of these files and got nothing of them, in a system that lets it create them. -/
structure Ready (env : Env) (r : Receiver) (files : List File) : Prop where
  saving : r.saving = true
  absent : ∀ f ∈ files, r.files f.1 = none
  fresh : ∀ f ∈ files, (r.info f.1).1 = []
  allowed : ∀ f ∈ files, env.mkdir f.1 = true ∧ env.canOpen f.1 = true

/-- A way to cut a file: the pieces together are the file, there is at least one, none is longer than `max`, and none is empty unless the file is. -/
structure Cut (max : Nat) (content : Bytes) (pieces : List Bytes) : Prop where
  whole : pieces.flatten = content
  some : pieces ≠ []
  short : ∀ p ∈ pieces, p.length ≤ max
  filled : content ≠ [] → ∀ p ∈ pieces, p ≠ []

/-- The payloads for the pieces of a file: a header with the size of the file, the offset of the piece, its length, and the length of the path;
the path; the piece. -/
def packed (unused : Bytes) (path : Bytes) (total : Nat) : Nat → List Bytes → List Bytes
  | _, [] => []
  | offset, p :: l =>
    (Header.encode ⟨total, offset, p.length, path.length⟩ unused ++ path ++ p) :: packed unused path total (offset + p.length) l

/-- A payload from which the receiver reads no byte that is not there: its header, path and data fit in. -/
def Fits (b : Bytes) : Prop :=
  b.length < 24 ∨ 24 + (Header.decode b).pathLen + (Header.decode b).length ≤ b.length

/-- The path in a payload. -/
def pathOf (b : Bytes) : Bytes := (b.drop 24).take (Header.decode b).pathLen

end Hdtn.FileTransfer.Spec
