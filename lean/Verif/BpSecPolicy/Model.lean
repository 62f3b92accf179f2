import Verif.Uri.Model
import Verif.HashMap16.Model

/-!
BPSec policies: how they are stored and found, and how they are read from the configuration
(`common/bpsec/src/BpSecPolicyManager.cpp`).
-/

namespace Hdtn.BpSecPolicy

open HashMap16 (Eid)

/-- What a URI of a rule selects: one endpoint, all services of a node, everything. -/
inductive Pat where
  | exact (e : Eid)
  | node (n : Nat)
  | any
  deriving DecidableEq, Repr

/-- The text `ipn:*.*` (BpSecPolicyManager.cpp:100). -/
def anyUri : Bytes := [105, 112, 110, 58, 42, 46, 42]

/-- The reading of the URI in `Internal_AddPolicyFilterToThisFilter`
(BpSecPolicyManager.cpp:99-124). -/
def parsePat (uri : Bytes) : Option Pat :=
  if uri = anyUri then some .any
  else
    match Uri.parseUri true uri with
    | none => none
    | some (n, none) => some (.node n)
    | some (n, some s) => some (.exact ⟨n, s⟩)

/-- `BpSecPolicyFilter` (BpSecPolicyManager.h:76-84): what follows for an endpoint, for a node, for
everything.  The three levels of filters have three types here; maps are functions. -/
structure Level (α : Type) where
  exact : Eid → Option α
  node : Nat → Option α
  any : Option α

/-- A new filter. -/
def Level.empty {α : Type} : Level α := ⟨fun _ => none, fun _ => none, none⟩

/-- The entry of a filter that a rule names. -/
def Level.get {α : Type} (l : Level α) : Pat → Option α
  | .exact e => l.exact e
  | .node n => l.node n
  | .any => l.any

/-- Writing the entry of a filter that a rule names. -/
def Level.set {α : Type} (l : Level α) (p : Pat) (a : α) : Level α :=
  match p with
  | .exact e => { l with exact := fun e' => if e' = e then some a else l.exact e' }
  | .node n => { l with node := fun n' => if n' = n then some a else l.node n' }
  | .any => { l with any := some a }

/-- `Internal_GetPolicyFilterFromThisFilter` (BpSecPolicyManager.cpp:179-195): endpoint, then node,
then everything. -/
def Level.lookup {α : Type} (l : Level α) (e : Eid) : Option α :=
  match l.exact e with
  | some a => some a
  | none =>
    match l.node e.node with
    | some a => some a
    | none => l.any

/-- `m_policiesByRoleArray`: the number of the policy of each role. -/
abbrev Roles := Nat → Option Nat

/-- `m_policyFilterSecuritySource`: security source, bundle source, final destination, role. -/
abbrev Root := Level (Level (Level Roles))

/-- `BPSEC_ROLE` (BpSecPolicyManager.h:38-43). -/
def roleSource : Nat := 0

/-- See `roleSource`. -/
def roleVerifier : Nat := 1

/-- See `roleSource`. -/
def roleAcceptor : Nat := 2

/-- `RESERVED_MAX_ROLE_TYPES`. -/
def roleCount : Nat := 3

/-- The arguments of `CreateOrGetNewPolicy`. -/
structure Call where
  sec : Bytes
  src : Bytes
  dst : Bytes
  role : Nat
  deriving DecidableEq, Repr

/-- `CreateOrGetNewPolicy` (BpSecPolicyManager.cpp:125-154) on the filters; `next` is the number that a new
policy gets.  The result is the number and whether the policy is new, `none` for `NULL`. -/
def Root.create (root : Root) (next : Nat) (c : Call) : Root × Option (Nat × Bool) :=
  match parsePat c.sec with
  | none => (root, none)
  | some p1 =>
    let l1 := (root.get p1).getD .empty
    match parsePat c.src with
    | none => (root.set p1 l1, none)
    | some p2 =>
      let l2 := (l1.get p2).getD .empty
      match parsePat c.dst with
      | none => (root.set p1 (l1.set p2 l2), none)
      | some p3 =>
        let l3 := (l2.get p3).getD (fun _ => none)
        if roleCount ≤ c.role then (root.set p1 (l1.set p2 (l2.set p3 l3)), none)
        else
          match l3 c.role with
          | some id => (root.set p1 (l1.set p2 (l2.set p3 l3)), some (id, false))
          | none =>
            (root.set p1 (l1.set p2 (l2.set p3 (fun r => if r = c.role then some next else l3 r))),
              some (next, true))

/-- What a policy is looked up with. -/
structure Query where
  sec : Eid
  src : Eid
  dst : Eid
  role : Nat
  deriving DecidableEq, Repr

/-- `FindPolicy` (BpSecPolicyManager.cpp:196-216). -/
def Root.find (root : Root) (q : Query) : Option Nat :=
  match root.lookup q.sec with
  | none => none
  | some l1 =>
    match l1.lookup q.src with
    | none => none
    | some l2 =>
      match l2.lookup q.dst with
      | none => none
      | some l3 => if roleCount ≤ q.role then none else l3 q.role

/-- `PolicySearchCache` (BpSecPolicyManager.h:85-93). -/
structure Cache where
  last : Query
  hit : Bool
  found : Option Nat
  deriving Repr

/-- The constructor of `PolicySearchCache` (BpSecPolicyManager.cpp:87-93). -/
def Cache.init : Cache := ⟨⟨⟨0, 0⟩, ⟨0, 0⟩, ⟨0, 0⟩, roleCount⟩, false, none⟩

/-- `FindPolicyWithCacheSupport` (BpSecPolicyManager.cpp:218-243). -/
def Root.findCached (root : Root) (q : Query) (c : Cache) : Option Nat × Cache :=
  if q.role = c.last.role ∧ q.sec = c.last.sec ∧ q.src = c.last.src ∧ q.dst = c.last.dst then
    match c.found with
    | some id => (some id, { c with hit := true })
    | none => (none, { c with hit := false })
  else (root.find q, ⟨q, false, root.find q⟩)

/-! ### Histories -/

/-- The filters, the number of policies and the results of the calls so far. -/
structure Run where
  root : Root
  count : Nat
  results : List (Option (Nat × Bool))

/-- One call. -/
def Run.step (r : Run) (c : Call) : Run :=
  let (root, res) := r.root.create r.count c
  ⟨root, r.count + (match res with | some (_, true) => 1 | _ => 0), r.results ++ [res]⟩

/-- Several calls, from the start. -/
def Run.run (calls : List Call) : Run := calls.foldl Run.step ⟨.empty, 0, []⟩

/-- Several searches with one cache. -/
def Root.findAll (root : Root) (c : Cache) : List Query → List (Option Nat × Bool)
  | [] => []
  | q :: qs =>
    let (res, c') := root.findCached q c
    (res, c'.hit) :: root.findAll c' qs

/-! ### Reading the configuration -/

/-- The integrity part of `BpSecPolicy` (BpSecPolicyManager.h:55-62).  The targets are the block types of
the fragment set. -/
structure Bib where
  variant : Nat
  scope : Nat
  crc : Nat
  targets : List Nat
  kek : Bytes
  key : Bytes
  events : Nat
  deriving DecidableEq, Repr

/-- The confidentiality part of `BpSecPolicy` (BpSecPolicyManager.h:64-72). -/
structure Bcb where
  variant : Nat
  short : Bool
  scope : Nat
  crc : Nat
  targets : List Nat
  kek : Bytes
  key : Bytes
  events : Nat
  deriving DecidableEq, Repr

/-- `BpSecPolicy` (BpSecPolicyManager.h:44-73). -/
structure Policy where
  doBib : Bool
  doBcb : Bool
  bcbPayload : Bool
  bibEncrypt : Bool
  bib : Bib
  bcb : Bcb
  deriving DecidableEq, Repr

/-- `COSE_ALGORITHMS` (Cose.h:45-49): A128GCM, A256GCM, HMAC_256_256, HMAC_384_384, HMAC_512_512. -/
def a128gcm : Nat := 1

/-- See `a128gcm`. -/
def a256gcm : Nat := 3

/-- See `a128gcm`. -/
def hmac256 : Nat := 5

/-- See `a128gcm`. -/
def hmac384 : Nat := 6

/-- See `a128gcm`. -/
def hmac512 : Nat := 7

/-- The constructor of `BpSecPolicy` (BpSecPolicyManager.cpp:25-47); event set 0 is `NULL`. -/
def Policy.init : Policy :=
  ⟨false, false, false, false, ⟨hmac384, 7, 0, [], [], [], 0⟩, ⟨a256gcm, true, 7, 0, [], [], [], 0⟩⟩

/-- The block types of the payload and of the integrity block. -/
def typePayload : Nat := 1

/-- See `typePayload`. -/
def typeBib : Nat := 11

/-- `ValidateAndFinalize` (BpSecPolicyManager.cpp:48-85); `none` if it refuses. -/
def Policy.validate (p : Policy) : Option Policy :=
  let p1 : Policy := { p with bcbPayload := p.doBcb && p.bcb.targets.contains typePayload, bibEncrypt := false }
  if p1.doBib && p1.doBcb then
    if p1.bcb.targets.any (fun t => p1.bib.targets.contains t) then
      if p1.bcb.targets.contains typeBib then some { p1 with bibEncrypt := true } else none
    else some p1
  else some p1

/-- `security_context_param_t`: names and values.  A key is what the file holds, in bytes: `none` if the
file cannot be read or is not hexadecimal. -/
inductive Param where
  | aes (v : Nat)
  | sha (v : Nat)
  | ivSize (v : Nat)
  | scope (v : Nat)
  | crc (v : Nat)
  | kek (file : Option Bytes)
  | key (file : Option Bytes)
  deriving DecidableEq, Repr

/-- `m_securityService`; other texts are refused. -/
inductive Service where
  | confidentiality
  | integrity
  deriving DecidableEq, Repr

/-- `policy_rules_t`: role and service as read from their texts, `none` if the text is none of those known.
The sets are lists. -/
structure Rule where
  role : Option (Fin 3)
  service : Option Service
  sec : Bytes
  srcs : List Bytes
  dsts : List Bytes
  targets : List Nat
  events : Nat
  params : List Param
  deriving Repr

/-- One turn of the loop over the parameters (BpSecPolicyManager.cpp:1023-1135). -/
def Policy.param (s : Service) (p : Policy) : Param → Option Policy
  | .aes v =>
    match s with
    | .integrity => none
    | .confidentiality =>
      if v = 128 then some { p with bcb := { p.bcb with variant := a128gcm } }
      else if v = 256 then some { p with bcb := { p.bcb with variant := a256gcm } }
      else none
  | .sha v =>
    match s with
    | .confidentiality => none
    | .integrity =>
      if v = 256 then some { p with bib := { p.bib with variant := hmac256 } }
      else if v = 384 then some { p with bib := { p.bib with variant := hmac384 } }
      else if v = 512 then some { p with bib := { p.bib with variant := hmac512 } }
      else none
  | .ivSize v =>
    match s with
    | .integrity => none
    | .confidentiality =>
      if v ≠ 12 ∧ v ≠ 16 then none else some { p with bcb := { p.bcb with short := v == 12 } }
  | .scope v =>
    if v > 7 then none
    else
      match s with
      | .integrity => some { p with bib := { p.bib with scope := v } }
      | .confidentiality => some { p with bcb := { p.bcb with scope := v } }
  | .crc v =>
    if v > 2 then none
    else
      match s with
      | .integrity => some { p with bib := { p.bib with crc := v } }
      | .confidentiality => some { p with bcb := { p.bcb with crc := v } }
  | .kek file =>
    match file with
    | none => none
    | some bytes =>
      if bytes = [] then none
      else
        match s with
        | .integrity => some { p with bib := { p.bib with kek := bytes } }
        | .confidentiality => some { p with bcb := { p.bcb with kek := bytes } }
  | .key file =>
    match file with
    | none => none
    | some bytes =>
      if bytes = [] then none
      else
        match s with
        | .integrity => some { p with bib := { p.bib with key := bytes } }
        | .confidentiality => some { p with bcb := { p.bcb with key := bytes } }

/-- The loop over the parameters. -/
def Policy.params (s : Service) (p : Policy) : List Param → Option Policy
  | [] => some p
  | x :: xs =>
    match p.param s x with
    | none => none
    | some p' => p'.params s xs

/-- `policyToCopy` of a rule (BpSecPolicyManager.cpp:1015-1162): defaults, targets, parameters, the
check for a source, exactly one of the two keys.  `none`: loading fails. -/
def Rule.template (r : Rule) (role : Nat) (s : Service) : Option Policy :=
  let p0 : Policy :=
    match s with
    | .confidentiality => { Policy.init with bcb := { Policy.init.bcb with targets := r.targets } }
    | .integrity => { Policy.init with bib := { Policy.init.bib with targets := r.targets } }
  match p0.params s r.params with
  | none => none
  | some p1 =>
    match if role = roleSource then p1.validate else some p1 with
    | none => none
    | some p2 =>
      let (kek, key) := match s with
        | .integrity => (p2.bib.kek, p2.bib.key)
        | .confidentiality => (p2.bcb.kek, p2.bcb.key)
      if kek = [] ∧ key = [] then none
      else if kek ≠ [] ∧ key ≠ [] then none
      else some p2

/-- The policies with the filters that lead to them. -/
structure Manager where
  root : Root
  policies : List Policy

/-- A new manager. -/
def Manager.init : Manager := ⟨.empty, []⟩

/-- What a rule writes into a policy (BpSecPolicyManager.cpp:1191-1216). -/
def Policy.copy (p : Policy) (s : Service) (template : Policy) (events : Nat) : Policy :=
  let p1 : Policy :=
    match s with
    | .confidentiality => { p with doBcb := true, bcb := { template.bcb with events := events } }
    | .integrity => { p with doBib := true, bib := { template.bib with events := events } }
  { p1 with bcbPayload := template.bcbPayload, bibEncrypt := template.bibEncrypt }

/-- The body of the two loops over sources and destinations (BpSecPolicyManager.cpp:1170-1216); false if
loading fails. -/
def Manager.place (m : Manager) (c : Call) (s : Service) (template : Policy) (events : Nat) : Manager × Bool :=
  match m.root.create m.policies.length c with
  | (root, none) => (⟨root, m.policies⟩, false)
  | (root, some (id, isNew)) =>
    let policies := if isNew then m.policies ++ [.init] else m.policies
    match policies[id]? with
    | none => (⟨root, policies⟩, false)
    | some p =>
      if isNew = false ∧ s = .confidentiality ∧ p.doBcb = true then (⟨root, policies⟩, false)
      else if isNew = false ∧ s = .integrity ∧ p.doBib = true then (⟨root, policies⟩, false)
      else (⟨root, policies.set id (p.copy s template events)⟩, true)

/-- The loops over sources and destinations, for the calls they make. -/
def Manager.placeAll (m : Manager) (s : Service) (template : Policy) (events : Nat) : List Call → Manager × Bool
  | [] => (m, true)
  | c :: cs =>
    match m.place c s template events with
    | (m', false) => (m', false)
    | (m', true) => m'.placeAll s template events cs

/-- The calls that the loops over sources and destinations of a rule make
(BpSecPolicyManager.cpp:1164-1175). -/
def Rule.calls (r : Rule) (role : Nat) : List Call :=
  r.srcs.flatMap (fun src => r.dsts.map (fun dst => ⟨r.sec, src, dst, role⟩))

/-- One turn of the loop of `LoadFromConfig` (BpSecPolicyManager.cpp:984-1219). -/
def Manager.rule (m : Manager) (r : Rule) : Manager × Bool :=
  match r.role with
  | none => (m, false)
  | some role =>
    match r.service with
    | none => (m, false)
    | some s =>
      match r.template role.val s with
      | none => (m, false)
      | some t => m.placeAll s t r.events (r.calls role.val)

/-- `LoadFromConfig` (BpSecPolicyManager.cpp:981-1221). -/
def Manager.load (m : Manager) : List Rule → Manager × Bool
  | [] => (m, true)
  | r :: rs =>
    match m.rule r with
    | (m', false) => (m', false)
    | (m', true) => m'.load rs

/-- `FindPolicy` with what the pointer leads to. -/
def Manager.find (m : Manager) (q : Query) : Option Policy :=
  match m.root.find q with
  | none => none
  | some id => m.policies[id]?

end Hdtn.BpSecPolicy
