import Verif.TcpclV4Link.Model

/-!
When two entities suit each other, what can happen between them, and when there is nothing left to happen.
-/

namespace Hdtn.TcpclV4Link.Spec

/-- The largest segment that an entity with these settings takes. -/
def segment (d : Cfg) : Nat := min d.segMru d.xferMru

/-- The number of segments of the largest bundle, at most. -/
def perBundle (d : Cfg) : Nat := d.xferMru / segment d + 1

/-- The entity `c` works with a peer `d`: the settings of `d` fit the fields of the messages and are not zero,
`d` has the name that `c` expects, TLS is not required, and there is memory for the acknowledgements that
are outstanding. -/
structure Suits (c d : Cfg) : Prop where
  keep : d.keep < 2 ^ 16
  segMru : 0 < d.segMru ∧ d.segMru < 2 ^ 64
  xferMru : 0 < d.xferMru ∧ d.xferMru < 2 ^ 64
  node : d.nodeId < 2 ^ 64
  expected : c.expected = [] ∨ ∃ service < 2 ^ 64, c.expected = Uri.getIpnUriString d.nodeId service
  tls : c.tlsRequired = false
  room : c.maxUnacked * perBundle d + 10 ≤ c.room
  small : c.maxUnacked * perBundle d + 10 < 2 ^ 32

/-- The active entity `a` and the passive entity `b`, without TLS. -/
structure Agree (a b : Cfg) : Prop where
  active : a.active = true
  passive : b.active = false
  plain : (a.tryTls && b.tryTls) = false
  ab : Suits a b
  ba : Suits b a

/-- What the application and the timers may do: bundles are not empty (see `C69_empty_violated`), a session is
terminated only once it is established. A careful application also observes the limits: no bundle
is larger than what the peer takes, and no bundle is forwarded while the maximum number is outstanding. -/
def Possible (careful : Bool) (c d : Cfg) (x : Side) : Act → Prop
  | .forward b _ => b ≠ [] ∧ b.length < 2 ^ 64 ∧
    (careful = true → b.length ≤ d.xferMru ∧ x.forwarded.length - x.succeeded.length < c.maxUnacked)
  | .terminate _ => x.link.ready = true
  | _ => True

/-- The entity an action belongs to. -/
def side (s : Sys) (who : Bool) : Side := if who then s.a else s.b

/-- The system can get from one state to the other. -/
inductive Leads (careful : Bool) (ca cb : Cfg) : Sys → Sys → Prop
  | refl (s : Sys) : Leads careful ca cb s s
  | step (s t u : Sys) (who : Bool) (x : Act) : Leads careful ca cb s t →
    Possible careful (if who then ca else cb) (if who then cb else ca) (side t who) x →
    step ca cb t who x = .ok u → Leads careful ca cb s u

/-- The state can be reached. -/
def Reach (careful : Bool) (ca cb : Cfg) (s : Sys) : Prop := Leads careful ca cb ⟨newSide ca, newSide cb⟩ s

/-- Everything that was to be sent has been written and read. -/
def Drained (s : Sys) : Prop :=
  s.a.outbox = [] ∧ s.b.outbox = [] ∧ s.a.posted = [] ∧ s.b.posted = [] ∧ s.a.read = s.b.out.length ∧
    s.b.read = s.a.out.length

instance (s : Sys) : Decidable (Drained s) := by unfold Drained; infer_instance

/-- The bundles that were accepted from the application, in order. -/
def bundles (x : Side) : List Bytes := x.forwarded.map Prod.fst

/-- The user data of these bundles. -/
def users (x : Side) : List Bytes := x.forwarded.map Prod.snd

/-- A run of the two entities. -/
def run (ca cb : Cfg) : Sys → List (Bool × Act) → Except Crash Sys
  | s, [] => .ok s
  | s, (who, x) :: rest =>
    match step ca cb s who x with
    | .error c => .error c
    | .ok s => run ca cb s rest

/-! ### One entity and any peer -/

/-- The bundles among the effects. -/
def deliveries (effs : List Eff) : List Bytes :=
  effs.filterMap fun e => match e with
    | .deliver b => some b
    | _ => none

/-- The user data of the bundles that are reported as sent. -/
def successes (effs : List Eff) : List Bytes :=
  effs.filterMap fun e => match e with
    | .success u => some u
    | _ => none

/-- The messages that are queued. -/
def posts (effs : List Eff) : List Bytes :=
  effs.filterMap fun e => match e with
    | .post m => some m
    | _ => none

/-- The segments among messages, without their extensions. -/
def segmentsOf (es : List TcpclV4.Event) : List TcpclV4.Event :=
  es.filterMap fun e => match e with
    | .data c s e id _ => some (.data c s e id [])
    | _ => none

/-- The segments of a transfer from the second one on: its identifier, the contents of the segments. -/
def later (id : Nat) : List Bytes → List TcpclV4.Event
  | [] => []
  | [c] => [.data c false true id []]
  | c :: cs => .data c false false id [] :: later id cs

/-- A transfer: its identifier, and the contents of its segments. -/
structure Transfer where
  id : Nat
  first : Bytes
  more : List Bytes

/-- The segments of a transfer. -/
def Transfer.segments (t : Transfer) : List TcpclV4.Event :=
  .data t.first true t.more.isEmpty t.id [] :: later t.id t.more

/-- The bundle. -/
def Transfer.bundle (t : Transfer) : Bytes := t.first ++ t.more.flatten

/-- The acknowledgements from the second segment on, when `n` bytes have been received before. -/
def laterAcks (id : Nat) : Nat → List Bytes → List TcpclV4.Event
  | _, [] => []
  | n, [c] => [.ack false true id (n + c.length)]
  | n, c :: cs => .ack false false id (n + c.length) :: laterAcks id (n + c.length) cs

/-- The acknowledgements of a transfer: the flags and the identifier of the segment, and the number of bytes received so
far. -/
def Transfer.acks (t : Transfer) : List TcpclV4.Event :=
  .ack true t.more.isEmpty t.id t.first.length :: laterAcks t.id t.first.length t.more

end Hdtn.TcpclV4Link.Spec
