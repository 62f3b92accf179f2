import Verif.BpSecPolicy.Model

/-!
What a search for a policy should give, in terms of the calls that created policies.
-/

namespace Hdtn.BpSecPolicy.Spec

open HashMap16 (Eid)

/-- An endpoint is among those that a pattern selects. -/
def Matches : Pat → Eid → Prop
  | .exact e, e' => e = e'
  | .node n, e' => n = e'.node
  | .any, _ => True

/-- How strict a pattern is: the endpoint before the node before everything. -/
def rank : Pat → Nat
  | .exact _ => 0
  | .node _ => 1
  | .any => 2

/-- `p` is the strictest pattern with property `S` that selects `e`. -/
def Strictest (S : Pat → Prop) (e : Eid) (p : Pat) : Prop :=
  S p ∧ Matches p e ∧ ∀ q, S q → Matches q e → rank p ≤ rank q

/-- A place: patterns for security source, bundle source and destination, and a role. -/
structure Place where
  sec : Pat
  src : Pat
  dst : Pat
  role : Nat
  deriving DecidableEq, Repr

/-- The call is for this place: all three URIs are valid and the role exists. -/
def IsFor (c : Call) (p : Place) : Prop :=
  parsePat c.sec = some p.sec ∧ parsePat c.src = some p.src ∧ parsePat c.dst = some p.dst ∧
    c.role = p.role ∧ p.role < 3

/-- A rule at this place applies to what is looked up. -/
def Applies (p : Place) (q : Query) : Prop :=
  Matches p.sec q.sec ∧ Matches p.src q.src ∧ Matches p.dst q.dst ∧ p.role = q.role

/-- The place a search arrives at: the strictest pattern for the security source that any call names;
the strictest one for the source of those named together with it; the strictest one for the
destination of those named together with both; and a policy for the role there. -/
def Arrives (calls : List Call) (q : Query) (p : Place) : Prop :=
  Strictest (fun x => ∃ c ∈ calls, parsePat c.sec = some x) q.sec p.sec ∧
  Strictest (fun x => ∃ c ∈ calls, parsePat c.sec = some p.sec ∧ parsePat c.src = some x) q.src p.src ∧
  Strictest (fun x => ∃ c ∈ calls, parsePat c.sec = some p.sec ∧ parsePat c.src = some p.src ∧
    parsePat c.dst = some x) q.dst p.dst ∧
  p.role = q.role ∧ ∃ c ∈ calls, IsFor c p

/-! ### The configuration -/

/-- The last of the parameters that `f` reads, or a default. -/
def lastOf {α : Type} (f : Param → Option α) (d : α) (ps : List Param) : α :=
  ((ps.filterMap f).getLast?).getD d

/-- The parameter can be used for the service and its value is one of those allowed. -/
def Allowed : Service → Param → Prop
  | .confidentiality, .aes v => v = 128 ∨ v = 256
  | .integrity, .sha v => v = 256 ∨ v = 384 ∨ v = 512
  | .confidentiality, .ivSize v => v = 12 ∨ v = 16
  | _, .scope v => v ≤ 7
  | _, .crc v => v ≤ 2
  | _, .kek file => ∃ b bs, file = some (b :: bs)
  | _, .key file => ∃ b bs, file = some (b :: bs)
  | _, _ => False

/-- Reading a parameter. -/
def aes? : Param → Option Nat | .aes v => some (if v = 128 then 1 else 3) | _ => none
/-- Reading a parameter. -/
def sha? : Param → Option Nat
  | .sha v => some (if v = 256 then 5 else if v = 384 then 6 else 7)
  | _ => none
/-- Reading a parameter. -/
def short? : Param → Option Bool | .ivSize v => some (v == 12) | _ => none
/-- Reading a parameter. -/
def scope? : Param → Option Nat | .scope v => some v | _ => none
/-- Reading a parameter. -/
def crc? : Param → Option Nat | .crc v => some v | _ => none
/-- Reading a parameter. -/
def kek? : Param → Option Bytes | .kek f => f | _ => none
/-- Reading a parameter. -/
def key? : Param → Option Bytes | .key f => f | _ => none

/-- The integrity settings that a rule asks for. -/
def bib (r : Rule) : Bib where
  variant := lastOf sha? 6 r.params
  scope := lastOf scope? 7 r.params
  crc := lastOf crc? 0 r.params
  targets := r.targets
  kek := lastOf kek? [] r.params
  key := lastOf key? [] r.params
  events := r.events

/-- The confidentiality settings that a rule asks for. -/
def bcb (r : Rule) : Bcb where
  variant := lastOf aes? 3 r.params
  short := lastOf short? true r.params
  scope := lastOf scope? 7 r.params
  crc := lastOf crc? 0 r.params
  targets := r.targets
  kek := lastOf kek? [] r.params
  key := lastOf key? [] r.params
  events := r.events

/-- A rule that can be used: role and service are known, the parameters are allowed, there is a key or
a key encryption key but not both, and the URIs are valid. -/
structure Usable (r : Rule) : Prop where
  role : r.role ≠ none
  service : ∃ s, r.service = some s ∧ ∀ p ∈ r.params, Allowed s p
  oneKey : (∃ p ∈ r.params, kek? p ≠ none) ↔ ¬ ∃ p ∈ r.params, key? p ≠ none
  uris : ∀ src ∈ r.srcs, ∀ dst ∈ r.dsts, parsePat r.sec ≠ none ∧ parsePat src ≠ none ∧ parsePat dst ≠ none

/-- The places a rule speaks of, one for each pair of a source and a destination. -/
def places (r : Rule) : List Place :=
  r.srcs.flatMap fun src => r.dsts.filterMap fun dst =>
    match parsePat r.sec, parsePat src, parsePat dst, r.role with
    | some a, some b, some c, some role => some ⟨a, b, c, role.val⟩
    | _, _, _, _ => none

/-- The places of the rules for a service, in order. -/
def placesOf (s : Service) (rs : List Rule) : List Place :=
  (rs.filter (fun r => decide (r.service = some s))).flatMap places

/-- The calls that the rules amount to. -/
def callsOf (rs : List Rule) : List Call :=
  rs.flatMap fun r =>
    match r.role with
    | none => []
    | some role => r.srcs.flatMap fun src => r.dsts.map fun dst => ⟨r.sec, src, dst, role.val⟩

/-- A policy does what the rules say for a place. -/
structure Does (rs : List Rule) (pl : Place) (p : Policy) : Prop where
  bib : (p.doBib = true ↔ pl ∈ placesOf .integrity rs) ∧
    ∀ r ∈ rs, r.service = some .integrity → pl ∈ places r → p.bib = Spec.bib r
  bcb : (p.doBcb = true ↔ pl ∈ placesOf .confidentiality rs) ∧
    ∀ r ∈ rs, r.service = some .confidentiality → pl ∈ places r → p.bcb = Spec.bcb r

end Hdtn.BpSecPolicy.Spec
