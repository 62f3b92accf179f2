import Verif.LtpSender.Model
import Verif.LtpReceiver.Spec

/-!
Vocabulary for the properties of a sending LTP session.
-/

namespace Hdtn.LtpSender
open Hdtn.LtpReport
open Hdtn.LtpReceiver (Seg)

/-- Settings under which a session makes sense: a packet holds at least one byte, the red part is a
part of the block, and the numbers have 64 bits. -/
structure Cfg.Sane (cfg : Cfg) : Prop where
  mtu : 1 ≤ cfg.mtu
  red : cfg.red ≤ cfg.block.length
  block : cfg.block.length < 2 ^ 64 - 1
  period : cfg.period < 2 ^ 64

/-- The bytes of the red part. -/
def Cfg.redBytes (cfg : Cfg) : Bytes := cfg.block.take cfg.red

/-- A report an honest receiver of the block can send. -/
def FairReport (cfg : Cfg) (r : Report) : Prop := r.WellFormed ∧ r.upper ≤ cfg.red

/-- All reports of the history are fair. -/
def Fair (cfg : Cfg) (evs : List Event) : Prop :=
  ∀ n c r, Event.report n c r ∈ evs → FairReport cfg r

/-- The report arrived, and was the first with its serial number. -/
def Accepted (evs : List Event) (r : Report) : Prop :=
  ∃ pre n c post, evs = pre ++ .report n c r :: post ∧ ∀ c' r', Event.report n c' r' ∉ pre

/-- Byte `x` is claimed by a report that arrived. -/
def Claimed (evs : List Event) (x : Nat) : Prop := ∃ r, Accepted evs r ∧ r.Claims x

/-- The segments of the first pass. -/
def firstSegments (effs : List Eff) : List Seg :=
  effs.filterMap fun
    | .first s => some s
    | _ => none

/-- All data segments sent. -/
def segments (effs : List Eff) : List Seg :=
  effs.filterMap fun
    | .first s => some s
    | .again s => some s
    | _ => none

/-- The segments follow each other without gap or overlap from byte `a` to byte `b`. -/
def Chain : Nat → Nat → List Seg → Prop
  | a, b, [] => a = b
  | a, b, s :: ss => s.offset = a ∧ Chain (a + s.length) b ss

/-- The `i`-th segment of the first pass is as it should be: neither empty nor too long, red or green
throughout, with its bytes of the block, marked as a checkpoint if it ends the red part or is
due, and marked as the end of the red part or the block if and only if it is that. -/
structure FirstOk (cfg : Cfg) (i : Nat) (s : Seg) : Prop where
  size : 1 ≤ s.length ∧ s.length ≤ cfg.mtu
  inside : s.offset + s.length ≤ cfg.block.length
  data : s.data = some ((cfg.block.drop s.offset).take s.length)
  service : s.service = cfg.service
  red : s.IsRed ↔ s.offset < cfg.red
  apart : s.IsRed → s.offset + s.length ≤ cfg.red
  checkpoint : s.IsCheckpoint ↔
    s.IsRed ∧ (s.offset + s.length = cfg.red ∨ (cfg.period ≠ 0 ∧ cfg.period ∣ i + 1))
  endsRed : s.EndsRed ↔ s.IsRed ∧ s.offset + s.length = cfg.red
  endsBlock : s.EndsBlock ↔ s.offset + s.length = cfg.block.length
  serials : ∀ n, (s.checkpoint = some n → s.IsCheckpoint ∧ n.2 = 0)
  serial : s.IsCheckpoint → s.checkpoint ≠ none
  known : s.flags ∈ [0, 1, 2, 3, 4, 7]

/-- How often the checkpoint with this serial number was sent. -/
def transmissions (effs : List Eff) (csn : Nat) : Nat :=
  (segments effs).countP fun s => s.checkpoint.map Prod.fst == some csn

/-- How often the engine was asked to delete the session. -/
def deletions (effs : List Eff) : Nat :=
  effs.countP fun
    | .delete _ _ => true
    | _ => false

/-- A report arrived with a new serial number and claimed a byte that was not claimed before. -/
def News (pre : List Event) (n : Nat) (r : Report) : Prop :=
  (∀ c' r', Event.report n c' r' ∉ pre) ∧ ∃ y, r.Claims y ∧ ¬ Claimed pre y

/-- Byte `x` is in the scope of a report with news that arrived since the delay for retransmission
last ran out. -/
def Waiting (evs : List Event) (x : Nat) : Prop :=
  ∃ pre n c r post, evs = pre ++ .report n c r :: post ∧ News pre n r ∧ r.InScope x ∧
    Event.delayExpired ∉ post

/-- The segments are in order, and the last one and only that is a checkpoint, which answers the
report `n`. -/
structure Group (n : Nat) (segs : List Seg) : Prop where
  ordered : segs.Pairwise fun s t => s.offset + s.length ≤ t.offset
  last : ∃ ini s csn, segs = ini ++ [s] ∧ s.IsCheckpoint ∧ s.checkpoint = some (csn, n) ∧
    ∀ t ∈ ini, ¬ t.IsCheckpoint

end Hdtn.LtpSender
