import Verif.BundleView6.Spec
import Verif.CustodyManager.Model

/-!
Custody signalling of BPv6 (RFC 5050 sections 5.10 and 6.1, CCSDS 734.2 annex D), independent of the code:
which bundles carry a valid custody transfer enhancement block, what a signalling bundle looks like on
the wire, and the calls a node makes to its custody manager.
-/

namespace Hdtn.CustodyManager.Spec

open Hdtn.HashMap16 Hdtn.FragmentSet Hdtn.Bpv6Primary Hdtn.BundleView6
open Hdtn.AdminRecord6 (DtnTime CustodySignal StatusReport Content Record)

/-- An endpoint whose numbers fit in 64 bits. -/
def EidFits (e : Eid) : Prop := e.node < 2 ^ 64 ∧ e.service < 2 ^ 64

/-- A time whose numbers fit their types. -/
def TimeFits (t : DtnTime) : Prop := t.seconds < 2 ^ 64 ∧ t.nanoseconds < 2 ^ 32

/-- A primary block whose numbers fit in 64 bits. -/
def PrimaryFits (p : Primary) : Prop :=
  p.flags < 2 ^ 64 ∧ EidFits p.dest ∧ EidFits p.source ∧ EidFits p.reportTo ∧ EidFits p.custodian ∧
    p.creationSeconds < 2 ^ 64 ∧ p.creationSequence < 2 ^ 64 ∧ p.lifetime < 2 ^ 64 ∧
    p.fragmentOffset < 2 ^ 64 ∧ p.totalAduLength < 2 ^ 64

/-- The only CTEB of the bundle has this identifier, and names this custodian. -/
def HasCteb (v : View) (custodyId : Nat) (custodian : Eid) : Prop :=
  ∃ b eid, v.byType 10 = [b] ∧ b.body = .ext (.cteb custodyId eid) ∧
    Uri.parseUri false eid = some (custodian.node, some custodian.service)

/-- The bundle has a valid CTEB: it names the custodian of the primary block. -/
def ValidCteb (v : View) (custodyId : Nat) : Prop := HasCteb v custodyId v.primary.custodian

/-- The bundle cannot be processed: it has not exactly one payload block, or the node knows CTEBs and
the bundle has several, or one that does not name an endpoint. -/
def Malformed (aware : Bool) (v : View) : Prop :=
  (v.byType 1).length ≠ 1 ∨
    aware = true ∧ v.byType 10 ≠ [] ∧ ¬ ∃ custodyId custodian, HasCteb v custodyId custodian

/-- The bytes are a bundle from `source` to `dest`, created at the given time and with the given
sequence number, of the given priority (bits 7 and 8 of the flags), flagged as administrative record,
as not to be fragmented and as having a single destination, whose only block is a payload block with
the record `r`. -/
def IsAdminBundle (out : Bytes) (source dest : Eid) (priority : Nat) (seconds sequence : Nat)
    (r : Record) : Prop :=
  ∃ v b, load out = some v ∧ v.blocks = [b] ∧ b.block.typeCode = 1 ∧ b.body = .admin r ∧
    v.primary.source = source ∧ v.primary.dest = dest ∧ v.primary.creationSeconds = seconds ∧
    v.primary.creationSequence = sequence ∧
    v.primary.flags = priority * 128 + 16 + 4 + 2

/-- The reason codes of RFC 5050, section 6.3, and of CCSDS 734.2, in the order of the indices. Index 0
is success. -/
def reason : Fin 7 → Nat
  | 0 => 0
  | 1 => 3
  | 2 => 4
  | 3 => 5
  | 4 => 6
  | 5 => 7
  | 6 => 8

/-- The status byte: success in the highest bit, the reason below. -/
def status (i : Fin 7) : UInt8 := UInt8.ofNat ((if i = 0 then 128 else 0) + reason i)

/-- The custody signal for a bundle with primary block `p` and a payload of `n` bytes: it names the
bundle by source, creation time and sequence number, and a fragment also by offset and length. -/
def signalFor (p : Primary) (n : Nat) (i : Fin 7) (time : DtnTime) : Record :=
  ⟨2, p.flags.testBit 0, some (.custody
    ⟨status i, p.flags.testBit 0, if p.flags.testBit 0 then p.fragmentOffset else 0,
      if p.flags.testBit 0 then n else 0, time, p.creationSeconds, p.creationSequence,
      Uri.getIpnUriString p.source.node p.source.service⟩)⟩

/-- The aggregate custody signal with these identifiers. -/
def aggregateFor (i : Fin 7) (fills : List Frag) : Record := ⟨4, false, some (.aggregate (status i) fills)⟩

/-- The report that a bundle was deleted because its lifetime expired. -/
def deletionFor (p : Primary) (n : Nat) (time : DtnTime) : Record :=
  ⟨1, p.flags.testBit 0, some (.status
    { flags := 16, reason := 1, isFragment := p.flags.testBit 0
      fragmentOffset := if p.flags.testBit 0 then p.fragmentOffset else 0
      fragmentLength := if p.flags.testBit 0 then n else 0
      received := ⟨0, 0⟩, custody := ⟨0, 0⟩, forwarded := ⟨0, 0⟩, delivered := ⟨0, 0⟩, deleted := time
      creationSeconds := p.creationSeconds, creationSequence := p.creationSequence
      eid := Uri.getIpnUriString p.source.node p.source.service })⟩

/-! ### Calls -/

/-- A call to the manager, with what the clock shows. -/
inductive Op
  | process (v : View) (accept : Bool) (custodyId : Nat) (i : Fin 7) (now : Nat) (time : DtnTime)
  | flush (clock : Nat → Nat)
  | one (custodian : Eid) (i : Fin 7) (copyOnly : Bool) (now : Nat)
  | report (p : Primary) (payloadSize : Nat) (now : Nat) (time : DtnTime)

/-- What a call gives to the caller to send. -/
inductive Out
  | signal (r : Rendered)
  | acs (custodian : Eid) (i : Fin 7) (r : Rendered)
  | report (r : Rendered)

/-- One call. -/
def step (m : Mgr) : Op → Mgr × List Out
  | .process v accept id i now time =>
    match process m v accept id i now time with
    | none => (m, [])
    | some (_, none, m') => (m', [])
    | some (_, some r, m') => (m', [.signal r])
  | .flush clock => ((generateAll m clock).2.2, (generateAll m clock).2.1.map fun x => .acs x.1 x.2.1 x.2.2)
  | .one c i copyOnly now =>
    match generateOne m c i copyOnly now with
    | none => (m, [])
    | some (r, m') => (m', [.acs c i r])
  | .report p n now time => ((deletionReport m p n now time).2, [.report (deletionReport m p n now time).1])

/-- A history of calls. -/
def run : Mgr → List Op → Mgr × List Out
  | m, [] => (m, [])
  | m, op :: ops => ((run (step m op).1 ops).1, (step m op).2 ++ (run (step m op).1 ops).2)

/-- The call owes custodian `c` a notice with index `j` about identifier `x`: the node knows CTEBs and
was given a bundle with a valid one. -/
def Owes (aware : Bool) : Op → Eid → Fin 7 → Nat → Prop
  | .process v accept _ i _ _, c, j, x =>
    aware = true ∧ (v.byType 1).length = 1 ∧ ValidCteb v x ∧ c = v.primary.custodian ∧
      j = if accept = true then 0 else i
  | _, _, _, _ => False

/-- The numbers given to the call fit their types; identifiers are below 2^64-1. -/
def Op.Fits : Op → Prop
  | .process v _ id _ now time => PrimaryFits v.primary ∧ (∀ b ∈ v.blocks, b.block.data.length < 2 ^ 64) ∧
      id < 2 ^ 64 ∧ (∀ x, ValidCteb v x → x + 1 < 2 ^ 64) ∧ now < 2 ^ 64 ∧ TimeFits time
  | .flush clock => ∀ k, clock k < 2 ^ 64
  | .one c _ _ now => EidFits c ∧ now < 2 ^ 64
  | .report p n now time => PrimaryFits p ∧ n < 2 ^ 64 ∧ now < 2 ^ 64 ∧ TimeFits time

/-- The clock of the call never shows 0 (the start of the year 2000). -/
def Op.Ticking : Op → Prop
  | .process _ _ _ _ now _ => now ≠ 0
  | .flush clock => ∀ k, clock k ≠ 0
  | .one _ _ _ now => now ≠ 0
  | .report _ _ now _ => now ≠ 0

/-- What was rendered. -/
def Out.rendered : Out → Rendered
  | .signal r => r
  | .acs _ _ r => r
  | .report r => r

/-- The clock shows `t` to the call. -/
def Op.Shows : Op → Nat → Prop
  | .process _ _ _ _ now _, t => t = now
  | .flush clock, t => ∃ k, t = clock k
  | .one _ _ _ now, t => t = now
  | .report _ _ now _, t => t = now

/-- Among the bundles sent is an aggregate custody signal from `me` to custodian `c` with index `j` that
contains identifier `x`. -/
def Carries (me : Eid) (outs : List Out) (c : Eid) (j : Fin 7) (x : Nat) : Prop :=
  ∃ out w seconds sequence fills, Out.acs c j (.done out w) ∈ outs ∧
    IsAdminBundle out me c 0 seconds sequence (aggregateFor j fills) ∧ Covers fills x

/-- At no time during the calls does a pending set have more than `n` ranges, as told by
`GetLargestNumberOfFills`. -/
def Below (n : Nat) (m : Mgr) (ops : List Op) : Prop :=
  ∀ before, before <+: ops → (run m before).1.largest ≤ n

/-- The caller sends everything as soon as `GetLargestNumberOfFills` is more than `n`. -/
def SendsAbove (n : Nat) (m : Mgr) (ops : List Op) : Prop :=
  ∀ before op, before ++ [op] <+: ops → n < (run m before).1.largest → ∃ clock, op = .flush clock

/-- A manager after some calls with numbers that fit, of which none found more than 101 ranges in a
pending set. -/
def Reached (aware : Bool) (me : Eid) (m : Mgr) : Prop :=
  ∃ ops, (∀ op ∈ ops, op.Fits) ∧ Below 101 (init aware me) ops ∧ m = (run (init aware me) ops).1

end Hdtn.CustodyManager.Spec
