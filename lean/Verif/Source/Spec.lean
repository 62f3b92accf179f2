import Verif.Source.Model

/-!
What is said about a source of bundles.
-/

namespace Hdtn.Source.Spec

open Hdtn.Source

/-- The clock is never set back. -/
def Forwards (times : List Nat) : Prop := times.Pairwise (· ≤ ·)

/-- A timestamp is before another: at an earlier time, or at the same time with a smaller number. -/
def Before (a b : Nat × Nat) : Prop := a.1 < b.1 ∨ (a.1 = b.1 ∧ a.2 < b.2)

/-- A bundle that the source still has, or has given away and may get back. -/
def Kept (s : Src) (b : Bundle) : Prop := b ∈ s.pc.held ∨ b ∈ s.duct ∨ b ∈ s.failed

/-- The outduct has said at some time that the bundle was sent. -/
def Reported (s : Src) (b : Bundle) : Prop := b ∈ s.acked ∨ b ∈ s.late

/-- No failure is reported between the moment when the thread has found no failed bundles and its next step. -/
def Quiet (C : Cfg) : Src → List Ev → Prop
  | _, [] => True
  | s, e :: es => (s.pc = .checked → ∀ id, e ≠ .fail id) ∧ Quiet C (s.step C e) es

/-- A custody signal that tells of success for the bundle with this identity, sent to this node. -/
def SignalFor (custodian : HashMap16.Eid) (id : Id) (v : BundleView6.View) : Prop :=
  v.primary.dest = custodian ∧ BundleView6.isAdmin v.primary = true ∧ v.primary.isFragment = false ∧
  ∃ b t f c, v.byType 1 = [b] ∧ b.body = .admin ⟨t, f, some (.custody c)⟩ ∧ AdminRecord6.custodySucceeded c.status = true ∧
    c.isFragment = false ∧ Uri.parseUri false c.eid = some (id.source.node, some id.source.service) ∧
    c.creationSeconds = id.creationSeconds ∧ c.creationSequence = id.creationSequence

/-- An aggregate custody signal. -/
def IsAggregate (v : BundleView6.View) : Prop :=
  ∃ b ∈ v.byType 1, ∃ t f status fills, b.body = .admin ⟨t, f, some (.aggregate status fills)⟩

end Hdtn.Source.Spec
