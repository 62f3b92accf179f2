import Verif.Node.Model

/-!
What the properties of a node speak about: the bundles that are in some place, and what an action that goes wrong is.
-/

namespace Hdtn.Node

/-- The routes of the configuration lead to outducts that exist. -/
def RoutesOk (C : Config) (r : Routes) : Prop := ∀ n i, r n = some i → i < C.outducts

/-- The limits are numbers of 64 bits. -/
def Config.Ok (C : Config) : Prop := ∀ i, C.maxBytes i < 2 ^ 64

/-- The node can get into this state. -/
def Reachable (C : Config) (r : Routes) (s : State) : Prop := ∃ as, run C (start r) as = .ok s

/-- The size of bundles together. -/
def bytes (l : List Bundle) : Nat := (l.map (·.size)).sum

/-- The bundles that outduct `i` holds. -/
def inOutduct (s : State) (i : Nat) : List Bundle :=
  (s.flights.filter (·.outduct == i)).map (·.hdr.bundle)

/-- The bundles that egress holds, or that are in the queues to egress, and that were sent there for outduct `i`. -/
def atEgress (s : State) (i : Nat) : List Bundle :=
  ((s.ie ++ s.se ++ s.flights.map (·.hdr)).filter (·.outduct == i)).map (·.bundle)

/-- The bundles that are on the way to storage because they are cut through to outduct `i`, or wait there. -/
def cutWaiting (s : State) (i : Nat) : List Bundle :=
  (s.is.filter (·.outduct == some i)).map (·.bundle) ++ (s.storage.infos i).queue.map (·.bundle)

/-- The bundles that threads of ingress hold for outduct `i`. -/
def atIngress (s : State) (i : Nat) : List Bundle :=
  (s.ingress.threads.filter (fun t => t.place == .egress i || t.place == .cut i)).map (·.bundle)

/-- The bundles that are on the way from ingress to the disk. -/
def onTheWayToDisk (s : State) : List Bundle :=
  (s.ingress.threads.filter (·.place == .store)).map (·.bundle) ++ (s.is.filter (·.outduct == none)).map (·.bundle)

/-- The bundles that ingress sends, or has sent, directly to egress for outduct `i` and has no answer for. -/
def direct (s : State) (i : Nat) : List Bundle :=
  (s.ingress.threads.filter (·.place == .egress i)).map (·.bundle) ++ (s.ie.filter (·.outduct == i)).map (·.bundle)
    ++ (s.flights.filter (fun f => !f.fromStorage && f.hdr.outduct == i)).map (·.hdr.bundle)
    ++ s.ei.filterMap fun
      | .ack a => if a.hdr.outduct == i then some a.hdr.bundle else none
      | .capabilities _ => none

/-- The bundles that are, or were, cut through storage to outduct `i` and that ingress has no answer for. -/
def cutThrough (s : State) (i : Nat) : List Bundle :=
  (s.ingress.threads.filter (·.place == .cut i)).map (·.bundle) ++ cutWaiting s i
    ++ (s.se.filter (fun m => m.cut && m.outduct == i)).map (·.bundle)
    ++ (s.flights.filter (fun f => f.fromStorage && f.hdr.cut && f.hdr.outduct == i)).map (·.hdr.bundle)
    ++ (s.es.filterMap fun
      | .ack a => if a.hdr.cut && a.hdr.outduct == i then some a.hdr.bundle else none
      | _ => none)
    ++ (s.si.filter (·.outduct == some i)).map (·.bundle) ++ (s.stuck.filter (·.1 == i)).map (·.2.2)

/-- The bundles for the disk that ingress has no answer for yet. -/
def unanswered (s : State) : List Bundle :=
  onTheWayToDisk s ++ (s.si.filter (·.outduct == none)).map (·.bundle)

/-- The bundles that egress could not send and gives back to storage. -/
def givenBack (s : State) : List Bundle :=
  s.es.filterMap fun
    | .failed _ b => some b
    | .ack a => if a.hdr.cut && a.error != .noErrors then some a.hdr.bundle else none
    | .capabilities _ => none

/-- A bundle can go together with others when half of the limits are not exceeded. -/
def fits (others : List Bundle) (maxBundles maxBytes : Nat) (b : Bundle) : Bool :=
  decide (others.length < maxBundles / 2) && decide (bytes others + b.size ≤ maxBytes / 2)

/-- Where ingress sends a bundle: directly to egress if it may and the bundle fits, else through storage if the bundle fits,
else to the disk; `none` if storage does not answer. -/
def path (C : Config) (s : State) (b : Bundle) : Option Place :=
  let disk := if (unanswered s).length < 5 ∧ bytes (unanswered s) + b.size ≤ C.maxBundleSize then some Place.store else none
  match s.ingress.routes b.node with
  | none => disk
  | some i =>
    if (s.ingress.sets i).up = false ∨ b.custody then disk
    else if C.enforcePriority = false ∧ fits (direct s i) (C.maxBundles i) (C.maxBytes i) b then some (.egress i)
    else if fits (cutThrough s i) (C.maxBundles i) (C.maxBytes i) b then some (.cut i)
    else disk

/-- All bundles that the modules hold in memory for outduct `i`, or that are in queues between them. -/
def inMemory (s : State) (i : Nat) : List Bundle := atIngress s i ++ cutWaiting s i ++ atEgress s i

/-- The action is not a new route. -/
def Act.keepsRoutes : Act → Bool
  | .reroute _ _ => false
  | _ => true

/-- Nothing is under way: no thread has a bundle, no message is in a queue and no outduct has a bundle. -/
structure Quiet (s : State) : Prop where
  threads : s.ingress.threads = []
  ie : s.ie = []
  is : s.is = []
  se : s.se = []
  ei : s.ei = []
  es : s.es = []
  si : s.si = []
  flights : s.flights = []
  queues : ∀ i, (s.storage.infos i).queue = []

/-- What goes wrong in an action, if it does: a message cannot be sent, a bundle cannot be written, or storage does not
answer, so that a bundle for the disk finds five bundles, or `maxBundleSizeBytes`, without an answer. -/
def Fails (C : Config) (s : State) : Act → Prop
  | .arrive b => 5 ≤ (unanswered s).length ∨ C.maxBundleSize < bytes (unanswered s) + b.size
  | .push _ ok => ok = false
  | .storageFromIngress w => w = none
  | .storageFromEgress w ws => w = none ∨ none ∈ ws
  | .linkStorage _ _ ws => none ∈ ws
  | .release _ _ ok w => ok = false ∨ w = none
  | _ => False

/-- A run in which nothing goes wrong. -/
def SoundRun (C : Config) (s : State) : List Act → Prop
  | [] => True
  | a :: as => ¬ Fails C s a ∧ ∀ s', step C s a = .ok s' → SoundRun C s' as

/-- How many copies of a bundle the node holds. -/
def copies (s : State) (outducts : Nat) (b : Bundle) : Nat :=
  (s.ingress.threads.map (·.bundle)).count b + (s.ie.map (·.bundle)).count b + (s.is.map (·.bundle)).count b
    + ((List.range outducts).map fun i => ((s.storage.infos i).queue.map (·.bundle)).count b).sum
    + ((s.se.filter (·.cut)).map (·.bundle)).count b
    + ((s.flights.filter (fun f => !f.fromStorage || f.hdr.cut)).map (·.hdr.bundle)).count b
    + (givenBack s).count b
    + (s.storage.disk.map (·.bundle)).count b

end Hdtn.Node
