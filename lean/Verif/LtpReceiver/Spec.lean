import Verif.LtpReceiver.Model
import Verif.LtpReport.Spec

/-!
Vocabulary for the properties of a receiving LTP session: what a history of events has brought, and
which histories an honest sender of a given block can cause.
-/

namespace Hdtn.LtpReceiver
open Hdtn.LtpReport

/-- RFC 5326 section 3.1.1: types 0 to 3 are red data. -/
def Seg.IsRed (s : Seg) : Prop := s.flags ≤ 3

/-- RFC 5326 section 3.1.1: types 1, 2 and 3 are checkpoints. -/
def Seg.IsCheckpoint (s : Seg) : Prop := s.flags = 1 ∨ s.flags = 2 ∨ s.flags = 3

/-- RFC 5326 section 3.1.1: types 2 and 3 end the red part. -/
def Seg.EndsRed (s : Seg) : Prop := s.flags = 2 ∨ s.flags = 3

/-- RFC 5326 section 3.1.1: types 3 and 7 end the block. -/
def Seg.EndsBlock (s : Seg) : Prop := s.flags = 3 ∨ s.flags = 7

instance (s : Seg) : Decidable s.IsRed := inferInstanceAs (Decidable (_ ≤ _))
instance (s : Seg) : Decidable s.IsCheckpoint := inferInstanceAs (Decidable (_ ∨ _))
instance (s : Seg) : Decidable s.EndsRed := inferInstanceAs (Decidable (_ ∨ _))
instance (s : Seg) : Decidable s.EndsBlock := inferInstanceAs (Decidable (_ ∨ _))

/-- Byte `x` of the block lies in the segment. -/
def Seg.Has (s : Seg) (x : Nat) : Prop := s.offset ≤ x ∧ x < s.offset + s.length

/-- Byte `x` has arrived in some red segment of the history. -/
def Got (evs : List Event) (x : Nat) : Prop := ∃ s, Event.data s ∈ evs ∧ s.IsRed ∧ s.Has x

/-- A segment that ends the red part has arrived. -/
def EndKnown (evs : List Event) : Prop := ∃ s, Event.data s ∈ evs ∧ s.EndsRed

/-- All of the red part, and where it ends, has arrived. -/
def Arrived (red : Bytes) (pre : List Event) : Prop :=
  (∀ x < red.length, Got pre x) ∧ EndKnown pre

/-- The last segment so far that ends the block is red. -/
def EndedByRed (evs : List Event) : Prop :=
  ∃ a s b, evs = a ++ Event.data s :: b ∧ s.EndsBlock ∧ s.IsRed ∧
    ∀ t, Event.data t ∈ b → ¬ t.EndsBlock

/-- A segment whose numbers fit together: it is not empty, its end is a 64-bit number and it comes
with its bytes. -/
structure Seg.Sane (s : Seg) : Prop where
  flags : s.flags ≤ 7
  nonempty : 1 ≤ s.length
  noWrap : s.offset + s.length < 2 ^ 64
  bytes : ∃ d, s.data = some d ∧ d.length = s.length

/-- A segment that an honest sender of a block with this red part can send. -/
structure Seg.PieceOf (red : Bytes) (s : Seg) : Prop extends s.Sane where
  red_inside : s.IsRed → s.offset + s.length ≤ red.length
  red_bytes : s.IsRed → s.data = some ((red.drop s.offset).take s.length)
  red_end : s.EndsRed → s.offset + s.length = red.length
  green_after : ¬ s.IsRed → red.length ≤ s.offset
  serials : s.IsCheckpoint → s.checkpoint ≠ none

/-- Checkpoints with the same checkpoint serial number are copies of one segment. -/
def Consistent (evs : List Event) : Prop :=
  ∀ s t a b c, Event.data s ∈ evs → Event.data t ∈ evs → s.IsCheckpoint → t.IsCheckpoint →
    s.checkpoint = some (a, b) → t.checkpoint = some (a, c) →
    s.flags = t.flags ∧ s.offset = t.offset ∧ s.length = t.length

/-- The red parts handed to the client: bytes and length. -/
def deliveries (effs : List Eff) : List (Bytes × Nat) :=
  effs.filterMap fun
    | .red d n _ _ => some (d, n)
    | _ => none

/-- Every segment in the history is an honest piece of the block. -/
def Faithful (red : Bytes) (evs : List Event) : Prop :=
  (∀ s, Event.data s ∈ evs → s.PieceOf red) ∧ Consistent evs

/-- Every segment in the history is sane. -/
def AllSane (evs : List Event) : Prop := ∀ s, Event.data s ∈ evs → s.Sane

/-- How often the report with this serial number was sent. -/
def transmissions (effs : List Eff) (serial : Nat) : Nat :=
  effs.countP fun
    | .send n _ _ => n == serial
    | _ => false

/-- How often the engine was asked to delete the session. -/
def deletions (effs : List Eff) : Nat :=
  effs.countP fun
    | .delete _ _ => true
    | _ => false

/-- Settings under which the engine works at all: at least one claim fits a report, and the limit on
the red part is below the largest 64-bit number. -/
structure Cfg.Sane (cfg : Cfg) : Prop where
  claims : 1 ≤ cfg.maxClaims
  red : cfg.maxRedRx < 2 ^ 64 - 1

end Hdtn.LtpReceiver
