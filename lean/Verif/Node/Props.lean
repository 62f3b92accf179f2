import Verif.Node.Order

/-! C100 to C107: bundles on their way through the node, for every interleaving of its modules. -/

namespace Hdtn.Node

theorem reach_full {C r s} (hC : C.Ok) (hr : RoutesOk C r) (h : Reachable C r s) : Full C s := by
  obtain ⟨as, h⟩ := h
  exact run_full hC (full_start hr) h

/-- A run and a check of the state after it. -/
theorem by_run {C : Config} {r : Routes} (as : List Act) (P : State → Prop) [DecidablePred P]
    (h : (match run C (start r) as with | .ok s => decide (P s) | _ => false) = true) : ∃ s, run C (start r) as = .ok s ∧ P s := by
  split at h
  · rename_i s hs
    exact ⟨s, hs, of_decide_eq_true h⟩
  · cases h

/-! ### Concrete nodes -/

namespace Demo

/-- Two outducts with at most two bundles of ten bytes each. -/
def two : Config := ⟨2, fun _ => 2, fun _ => 20, 10, false⟩

/-- Node 1 is reached by outduct 0, node 2 by outduct 1. -/
def routes : Routes := fun n => if n = 1 then some 0 else if n = 2 then some 1 else none

theorem two_ok : two.Ok := fun _ => by simp [two]

theorem routes_ok : RoutesOk two routes := by
  intro n i h
  unfold routes at h
  split at h
  · cases h; decide
  · split at h
    · cases h; decide
    · cases h

/-- A bundle of ten bytes. -/
def b (key node : Nat) : Bundle := ⟨key, 10, node, 0, false⟩

/-- A bundle that asks for custody. -/
def c (key node : Nat) : Bundle := ⟨key, 10, node, 0, true⟩

/-- Ingress and storage know the outducts, and both links are up. -/
def up : List Act := [.ingressFromEgress, .storageFromEgress none [], .linkIngress 0 true, .linkIngress 1 true,
  .linkStorage 0 true [], .linkStorage 1 true []]

/-- A bundle comes in and its thread sends it on. -/
def inn (x : Bundle) : List Act := [.arrive x, .push 0 true]

/-- Storage sends a bundle of its queue: its second turn. -/
def cut (i : Nat) : List Act := [.storageFromIngress none, .release i none true none, .release i none true none]

/-- A bundle that asks for custody is stored, acknowledged and read again. -/
def viaDisk (x : Bundle) (i cid : Nat) : List Act :=
  inn x ++ [.storageFromIngress (some cid), .ingressFromStorage, .release i (some ⟨cid, x, .awaiting⟩) true none]

/-- Bundles go the three ways, one is sent. -/
def day : List Act := up ++ inn (b 1 1) ++ inn (b 2 1) ++ cut 0 ++ viaDisk (c 3 2) 1 7 ++ [.egressFromIngress true, .egressFromStorage true,
  .egressFromStorage true, .sent 0, .sent 0, .sent 0, .ingressFromEgress, .storageFromEgress none [], .storageFromEgress none [],
  .ingressFromStorage]

/-- All of it goes well. -/
theorem day_runs : ∃ s, run two (start routes) day = .ok s ∧ (s.delivered = [b 1 1, b 2 1, c 3 2] ∧
    s.storage.disk = [⟨7, c 3 2, .sent⟩] ∧ s.accepted = [b 1 1, b 2 1, c 3 2] ∧ s.lost = []) :=
  by_run day _ (by decide +kernel)

end Demo

/-! ### C100: the limits of the pipelines -/

/-- What egress holds, or is on its way there, for an outduct never exceeds the limits of that outduct, in number nor in bytes, for every
interleaving and whatever fails. -/
theorem C100_egress (C : Config) (r : Routes) (s : State) (hC : C.Ok) (hr : RoutesOk C r) (h : Reachable C r s) (i : Nat) :
    (atEgress s i).length ≤ C.maxBundles i ∧ bytes (atEgress s i) ≤ C.maxBytes i :=
  atEgress_bound (reach_full hC hr h).inv i

/-- As long as the router does not change a route, an outduct never holds more than its limits. -/
theorem C100_outduct_partial (C : Config) (r : Routes) (as : List Act) (s : State) (hC : C.Ok) (hr : RoutesOk C r)
    (hk : ∀ a ∈ as, a.keepsRoutes = true) (h : run C (start r) as = .ok s) (i : Nat) :
    (inOutduct s i).length ≤ C.maxBundles i ∧ bytes (inOutduct s i) ≤ C.maxBytes i :=
  inOutduct_bound (run_full hC (full_start hr) h).inv (run_straight (straight_start r) hk h) i

/-- With changes of routes this is false: an outduct with the limit two holds four bundles. The new route is known to egress before the
bundles that were accepted for the old outduct get there. -/
theorem C100_outduct_violated : ∃ (C : Config) (r : Routes) (s : State), C.Ok ∧ RoutesOk C r ∧ Reachable C r s ∧
    C.maxBundles 1 < (inOutduct s 1).length ∧ C.maxBytes 1 < bytes (inOutduct s 1) := by
  obtain ⟨s, h1, h2⟩ := by_run (C := Demo.two) (r := Demo.routes) (Demo.up ++ Demo.inn (Demo.b 1 1) ++ Demo.inn (Demo.b 2 1) ++ Demo.cut 0
    ++ Demo.inn (Demo.b 3 2) ++ Demo.inn (Demo.b 4 2) ++ Demo.cut 1 ++ [.reroute 1 (some 1), .egressFromIngress true,
      .egressFromIngress true, .egressFromStorage true, .egressFromStorage true])
    (fun s => Demo.two.maxBundles 1 < (inOutduct s 1).length ∧ Demo.two.maxBytes 1 < bytes (inOutduct s 1)) (by decide +kernel)
  exact ⟨_, _, s, Demo.two_ok, Demo.routes_ok, ⟨_, h1⟩, h2⟩

/-- The bundles on the way from ingress to the disk are at most five, and no more bytes than the largest bundle may have. -/
theorem C100_disk (C : Config) (r : Routes) (s : State) (hC : C.Ok) (hr : RoutesOk C r) (h : Reachable C r s) :
    (onTheWayToDisk s).length ≤ 5 ∧ bytes (onTheWayToDisk s) ≤ C.maxBundleSize :=
  disk_bound (reach_full hC hr h).inv

example : ∃ s, run Demo.two (start Demo.routes) (Demo.up ++ Demo.inn (Demo.b 1 1) ++ Demo.inn (Demo.b 2 1) ++ Demo.cut 0) = .ok s ∧
    (atEgress s 0 = [Demo.b 1 1, Demo.b 2 1] ∧ (Demo.up ++ Demo.inn (Demo.b 1 1) ++ Demo.inn (Demo.b 2 1) ++ Demo.cut 0).all Act.keepsRoutes) :=
  by_run _ _ (by decide +kernel)

/-! ### C101: memory -/

/-- What the three modules hold for an outduct, with what is in the queues between them, is at most one and a half times the limits of the
outduct. Not counted are the bundles that egress could not send and gives back to storage. -/
theorem C101_memory_partial (C : Config) (r : Routes) (s : State) (hC : C.Ok) (hr : RoutesOk C r) (h : Reachable C r s) (i : Nat) :
    (inMemory s i).length ≤ 3 * (C.maxBundles i / 2) ∧ bytes (inMemory s i) ≤ 3 * (C.maxBytes i / 2) :=
  memory_bound (reach_full hC hr h).inv i

/-- One outduct with room for a hundred bundles and eight bytes; bundles have one byte at most. -/
def Demo.small : Config := ⟨1, fun _ => 100, fun _ => 8, 1, false⟩

/-- A bundle of one byte for node 1. -/
def Demo.tiny (key : Nat) : Bundle := ⟨key, 1, 1, 0, false⟩

/-- Four bundles are on the disk and are read; four are sent directly; four wait in the queue of storage. -/
def Demo.full : List Act :=
  [.ingressFromEgress, .storageFromEgress none []]
    ++ ([0, 1, 2, 3].flatMap fun k => Demo.inn (Demo.tiny k) ++ [.storageFromIngress (some k), .ingressFromStorage])
    ++ [.linkStorage 0 true []]
    ++ ([0, 1, 2, 3].map fun k => .release 0 (some ⟨k, Demo.tiny k, .awaiting⟩) true none)
    ++ [.linkIngress 0 true] ++ ([4, 5, 6, 7].flatMap fun k => Demo.inn (Demo.tiny k))
    ++ [8, 9, 10, 11].flatMap fun k => Demo.inn (Demo.tiny k) ++ [.storageFromIngress none]

/-- The documented bound, the limit of the outduct and the size of the largest bundle, does not hold: here the node has one outduct with a
limit of eight bytes, bundles have at most one byte, and twelve bytes of bundles are in memory. -/
theorem C101_memory_violated : ∃ (C : Config) (r : Routes) (s : State), C.Ok ∧ RoutesOk C r ∧ Reachable C r s ∧ C.outducts = 1 ∧
    C.maxBundleSize * 2 ≤ C.maxBytes 0 ∧ C.maxBytes 0 + C.maxBundleSize < bytes (inMemory s 0) := by
  obtain ⟨s, h1, h2⟩ := by_run (C := Demo.small) (r := fun _ => some 0) Demo.full
    (fun s => Demo.small.maxBytes 0 + Demo.small.maxBundleSize < bytes (inMemory s 0)) (by decide +kernel)
  exact ⟨_, _, s, fun _ => by simp [Demo.small], fun n i h => by cases h; decide, ⟨_, h1⟩, rfl, by decide, h2⟩

/-- What the rounds below keep. -/
structure Idle (b : Bundle) (s : State) : Prop where
  ready : s.ingress.ready = true
  routes : s.ingress.routes b.node = some 0
  egress : (s.ingress.sets 0).egress = []
  bytes : (s.ingress.sets 0).egressBytes = 0
  threads : s.ingress.threads = []
  ie : s.ie = []
  ei : s.ei = []
  out : s.routes b.node = some 0

/-- A link goes up, a bundle comes in and is sent to egress, and the outduct does not take it. -/
def round (b : Bundle) : List Act := [.linkIngress 0 true, .arrive b, .push 0 true, .egressFromIngress false, .ingressFromEgress]

theorem round_idle {C : Config} {b : Bundle} {s : State} (hi : 0 < C.outducts) (hp : C.enforcePriority = false) (hb : b.size ≤ C.maxBundleSize)
    (hc : b.custody = false) (hm : 2 ≤ C.maxBundles 0) (hy : b.size ≤ C.maxBytes 0 / 2) (h : Idle b s) :
    ∃ s', run C s (round b) = .ok s' ∧ Idle b s' ∧ s'.es = s.es ++ [.failed 0 b] := by
  have hroom : hasRoom (s.ingress.sets 0).egress (s.ingress.sets 0).egressBytes (C.maxBundles 0) (C.maxBytes 0) b.size = true := by
    simp only [hasRoom, h.egress, h.bytes, List.length_nil, Bool.and_eq_true, decide_eq_true_eq]; omega
  simp only [h.egress, h.bytes] at hroom
  simp only [round, run, step, Ingress.link, hi, if_true, Ingress.arrive, Ingress.setSet, h.ready, hb, and_self, h.routes, hc, Bool.not_false,
    Bool.and_self, AckSet.reserve, hp, h.egress, h.bytes, hroom, h.threads, List.nil_append, List.getElem?_cons_zero, State.push,
    h.ie, State.forward, h.out, State.onFailed, h.ei, Ingress.egressAck, List.eraseIdx_cons_zero, Bool.false_eq_true, if_false]
  refine ⟨_, rfl, ?_, rfl⟩
  refine ⟨rfl, h.routes, ?_, ?_, rfl, rfl, rfl, h.out⟩
  · simp [AckSet.popEgress, Map.emplace, Map.lookup, Map.remove]
  · simp [AckSet.popEgress, Map.emplace, Map.lookup]

/-- The bundles that egress gives back to storage are not limited at all: ingress takes the reservation back when egress has answered, and
storage may not yet have taken the bundle. Whatever the limits are, there can be any number of bundles in that queue. -/
theorem C101_given_back_violated (C : Config) (b : Bundle) (hi : 0 < C.outducts) (hp : C.enforcePriority = false)
    (hb : b.size ≤ C.maxBundleSize) (hc : b.custody = false) (hm : 2 ≤ C.maxBundles 0) (hy : b.size ≤ C.maxBytes 0 / 2) (n : Nat) :
    ∃ s, Reachable C (fun _ => some 0) s ∧ (givenBack s).count b = n := by
  suffices h : ∃ s, Reachable C (fun _ => some 0) s ∧ Idle b s ∧ (givenBack s).count b = n by
    obtain ⟨s, h1, _, h2⟩ := h
    exact ⟨s, h1, h2⟩
  induction n with
  | zero =>
    refine ⟨_, ⟨[.ingressFromEgress], rfl⟩, ⟨rfl, rfl, rfl, rfl, rfl, rfl, rfl, rfl⟩, ?_⟩
    simp [givenBack, start]
  | succ n ih =>
    obtain ⟨s, ⟨as, h1⟩, h2, h3⟩ := ih
    obtain ⟨s', g1, g2, g3⟩ := round_idle hi hp hb hc hm hy h2
    refine ⟨s', ⟨as ++ round b, ?_⟩, g2, ?_⟩
    · rw [run_append, h1]; exact g1
    · simp only [givenBack, g3, List.filterMap_append, List.count_append]
      simp only [givenBack] at h3
      rw [h3]
      simp

example : ∃ s, Reachable Demo.two (fun _ => some 0) s ∧ (givenBack s).count (Demo.b 1 1) = 1000000 :=
  C101_given_back_violated Demo.two (Demo.b 1 1) (by decide) rfl (by decide) rfl (by decide) (by decide) _

/-! ### C102: the way of a bundle -/

/-- Where a bundle that comes in goes: directly to egress if the link is up, the bundle does not ask for custody, priority is not enforced and
the bundle fits into half of the limits of the outduct together with the bundles that were sent so and are not answered; else through storage
if it fits into half of the limits with the bundles that go this way; else to the disk, and it is lost only if storage has not answered for
five bundles or for as many bytes as the largest bundle may have. -/
theorem C102_way (C : Config) (r : Routes) (s s' : State) (b : Bundle) (hC : C.Ok) (hr : RoutesOk C r) (h : Reachable C r s)
    (hs : step C s (.arrive b) = .ok s') :
    s'.ingress.threads = s.ingress.threads ++ ((path C s b).map fun p => (⟨b, s.ingress.nextId, p⟩ : Thread)).toList ∧
    s'.lost = s.lost ++ (if (path C s b).isNone then [b] else []) := by
  simp only [step] at hs
  split at hs
  · split at hs
    · rename_i g lost ha
      simp only [Res.ok.injEq] at hs
      subst hs
      obtain ⟨h1, h2⟩ := arrive_path (reach_full hC hr h).inv ha
      exact ⟨h1, by rw [h2]⟩
    · simp at hs
    · simp at hs
  · simp at hs

example : ∃ s, run Demo.two (start Demo.routes) (Demo.up ++ Demo.inn (Demo.b 1 1)) = .ok s ∧ (path Demo.two s (Demo.b 2 1) = some (.cut 0) ∧
    path Demo.two s (Demo.b 2 2) = some (.egress 1) ∧ path Demo.two s (Demo.c 2 2) = some .store ∧ path Demo.two s (Demo.b 2 5) = some .store) :=
  by_run _ _ (by decide +kernel)

/-- A bundle that asks for custody reaches egress only from the disk. -/
theorem C102_custody (C : Config) (r : Routes) (s : State) (hC : C.Ok) (hr : RoutesOk C r) (h : Reachable C r s) :
    (∀ m ∈ s.ie, m.bundle.custody = false) ∧ (∀ m ∈ s.se, m.bundle.custody = true → ∃ e ∈ s.storage.disk, e.bundle = m.bundle) ∧
    (∀ f ∈ s.flights, f.hdr.bundle.custody = true → ∃ e ∈ s.storage.disk, e.bundle = f.hdr.bundle) := by
  have hi := (reach_full hC hr h).inv
  obtain ⟨_, h2, _, _, h5, h6⟩ := plain_direct hi
  have hdisk : ∀ x ∈ fromDisk s, ∃ e ∈ s.storage.disk, e.bundle = x.2 := by
    intro x hx
    have : x ∈ given s := (given_perm hi).mem_iff.1 (List.mem_append_left _ hx)
    obtain ⟨e, he, rfl⟩ := List.mem_map.1 this
    exact ⟨e, (List.mem_filter.1 he).1, rfl⟩
  refine ⟨h2, ?_, ?_⟩
  · intro m hm hc
    have hcut : m.cut = false := by
      by_contra hn
      rw [Bool.not_eq_false] at hn
      rw [h5 m hm hn] at hc
      cases hc
    exact hdisk m.pair (List.mem_append_left _ (List.mem_map.2 ⟨m, List.mem_filter.2 ⟨hm, by simp [hcut]⟩, rfl⟩))
  · intro f hf hc
    have hor : ¬ (f.fromStorage = false ∨ f.hdr.cut = true) := by
      intro hn
      rw [h6 f hf hn] at hc
      cases hc
    rw [not_or, Bool.not_eq_false, Bool.not_eq_true] at hor
    exact hdisk f.hdr.pair (List.mem_append_right _ (List.mem_map.2 ⟨f, List.mem_filter.2 ⟨hf, by simp [hor.1, hor.2]⟩, rfl⟩))

/-- When priority is enforced all bundles go through storage. -/
theorem C102_enforced (C : Config) (r : Routes) (s : State) (hC : C.Ok) (hr : RoutesOk C r) (he : C.enforcePriority = true)
    (h : Reachable C r s) : s.ie = [] ∧ ∀ f ∈ s.flights, f.fromStorage = true := by
  have hi := (reach_full hC hr h).inv
  obtain ⟨as, h⟩ := h
  exact (via_empty hi (run_via he (fun _ => rfl) h)).2

/-- The node of the demonstration with priorities. -/
def Demo.strict : Config := { Demo.two with enforcePriority := true }

example : ∃ s, run Demo.strict (start Demo.routes) (Demo.up ++ Demo.inn (Demo.b 1 1) ++ [.storageFromIngress none,
    .release 0 none true none, .egressFromStorage true]) = .ok s ∧ (inOutduct s 0 = [Demo.b 1 1]) := by_run _ _ (by decide +kernel)

/-! ### C103: no bundle disappears and none appears -/

/-- For every bundle, however often the same bundle comes in: as often as it was accepted it is lost, expired, done with or still held; and it
is lost, expired and done with no more often than it was accepted. Done with means delivered, or, for a bundle that asks for custody, released
by a custody signal. -/
theorem C103_account (C : Config) (r : Routes) (s : State) (hC : C.Ok) (hr : RoutesOk C r) (h : Reachable C r s) (b : Bundle) :
    s.accepted.count b ≤ s.lost.count b + s.expired.count b + (if b.custody then s.released.count b else s.delivered.count b)
      + copies s C.outducts b ∧
    s.lost.count b + s.expired.count b + (if b.custody then s.released.count b else s.delivered.count b) ≤ s.accepted.count b :=
  account (reach_full hC hr h).inv b

/-- When nothing is under way what was accepted is on the disk, or lost, expired or done with. -/
theorem C103_quiet (C : Config) (r : Routes) (s : State) (hC : C.Ok) (hr : RoutesOk C r) (h : Reachable C r s) (hq : Quiet s) (b : Bundle) :
    s.accepted.count b = s.lost.count b + s.expired.count b + (if b.custody then s.released.count b else s.delivered.count b)
      + (s.storage.disk.map (·.bundle)).count b := by
  have h7 := (reach_full hC hr h).inv.i7 b
  have h0 : queued C s.storage b = 0 := by
    unfold queued
    simp [hq.queues]
  simp only [hq.threads, hq.ie, hq.is, hq.se, hq.es, hq.flights, h0, List.countP_nil] at h7
  have hd : (s.storage.disk.map (·.bundle)).count b = s.storage.disk.countP (·.bundle == b) := by
    rw [List.count, List.countP_map]
    rfl
  rw [hd]
  omega

/-- Only what was accepted is delivered. -/
theorem C103_delivered (C : Config) (r : Routes) (s : State) (hC : C.Ok) (hr : RoutesOk C r) (h : Reachable C r s) :
    ∀ b ∈ s.delivered, b ∈ s.accepted := by
  obtain ⟨as, h⟩ := h
  exact (run_grows hC (full_start hr) h (fun b hb => by cases hb)).2

/-- In a run in which no message is lost between modules, the disk can be written and storage answers in time, no bundle is lost. -/
theorem C103_lost_partial (C : Config) (r : Routes) (as : List Act) (s : State) (hC : C.Ok) (hr : RoutesOk C r)
    (hs : SoundRun C (start r) as) (h : run C (start r) as = .ok s) : s.lost = [] :=
  (run_lost hC (full_start hr) hs h).1

/-- A bundle that storage cannot write is lost although ingress is told that it was stored: no module keeps it. -/
theorem C103_write_violated : ∃ (C : Config) (r : Routes) (s : State), C.Ok ∧ RoutesOk C r ∧ Reachable C r s ∧
    s.lost = [Demo.c 1 1] ∧ copies s C.outducts (Demo.c 1 1) = 0 ∧ (s.si.map (fun a => (a.bundle, a.error))) = [(Demo.c 1 1, false)] := by
  obtain ⟨s, h1, h2⟩ := by_run (C := Demo.two) (r := Demo.routes) (Demo.up ++ Demo.inn (Demo.c 1 1) ++ [.storageFromIngress none])
    (fun s => s.lost = [Demo.c 1 1] ∧ copies s Demo.two.outducts (Demo.c 1 1) = 0 ∧
      (s.si.map (fun a => (a.bundle, a.error))) = [(Demo.c 1 1, false)]) (by decide +kernel)
  exact ⟨_, _, s, Demo.two_ok, Demo.routes_ok, ⟨_, h1⟩, h2⟩

/-- A bundle that waits in the queue of storage is lost when the message to egress cannot be sent, although the disk is free. -/
theorem C103_queue_violated : ∃ (C : Config) (r : Routes) (s : State), C.Ok ∧ RoutesOk C r ∧ Reachable C r s ∧
    Demo.b 2 1 ∈ s.lost ∧ copies s C.outducts (Demo.b 2 1) = 0 := by
  obtain ⟨s, h1, h2⟩ := by_run (C := Demo.two) (r := Demo.routes) (Demo.up ++ Demo.inn (Demo.b 1 1) ++ Demo.inn (Demo.b 2 1)
    ++ [.storageFromIngress none, .release 0 none true none, .release 0 none false none])
    (fun s => Demo.b 2 1 ∈ s.lost ∧ copies s Demo.two.outducts (Demo.b 2 1) = 0) (by decide +kernel)
  exact ⟨_, _, s, Demo.two_ok, Demo.routes_ok, ⟨_, h1⟩, h2⟩

/-- The same action, with a disk that can be written. -/
def Demo.writes : Act → Act
  | .storageFromIngress w => .storageFromIngress (w.or (some 90))
  | .storageFromEgress w ws => .storageFromEgress (w.or (some 91)) ws
  | .release i top ok w => .release i top ok (w.or (some 92))
  | a => a

/-- The same day, with a disk that can be written, and then a custody signal. -/
def Demo.fine : List Act := (Demo.day ++ [Act.linkStorage 0 false [], Act.custodySignal 7]).map Demo.writes

instance (C : Config) (s : State) (a : Act) : Decidable (Fails C s a) := by
  cases a <;> unfold Fails <;> infer_instance

/-- `SoundRun` as a computation. -/
def soundCheck (C : Config) (s : State) : List Act → Bool
  | [] => true
  | a :: as => !decide (Fails C s a) && match step C s a with
    | .ok s' => soundCheck C s' as
    | _ => true

theorem sound_of_check {C : Config} {as : List Act} : ∀ {s}, soundCheck C s as = true → SoundRun C s as := by
  induction as with
  | nil => intro s _; trivial
  | cons a as ih =>
    intro s h
    simp only [soundCheck, Bool.and_eq_true, Bool.not_eq_true', decide_eq_false_iff_not] at h
    refine ⟨h.1, fun s' hs => ?_⟩
    have h2 := h.2
    rw [hs] at h2
    exact ih h2

/-- A day in which nothing goes wrong, with nothing under way at its end and the reservation of no bundle stuck. -/
theorem Demo.fine_runs : SoundRun Demo.two (start Demo.routes) Demo.fine ∧ ∃ s, run Demo.two (start Demo.routes) Demo.fine = .ok s ∧
    Quiet s ∧ s.delivered = [Demo.b 1 1, Demo.b 2 1, Demo.c 3 2] ∧ s.released = [Demo.c 3 2] ∧ s.storage.disk = [] := by
  refine ⟨sound_of_check (by decide +kernel), ?_⟩
  obtain ⟨s, h1, h2⟩ := by_run (C := Demo.two) (r := Demo.routes) Demo.fine (fun s => (s.ingress.threads = [] ∧ s.ie = [] ∧ s.is = [] ∧
    s.se = [] ∧ s.ei.length = 0 ∧ s.es.length = 0 ∧ s.si = [] ∧ s.flights = [] ∧ (s.storage.infos 0).queue = [] ∧
    (s.storage.infos 1).queue = []) ∧
    (s.delivered = [Demo.b 1 1, Demo.b 2 1, Demo.c 3 2] ∧ s.released = [Demo.c 3 2] ∧ s.storage.disk = [])) (by decide +kernel)
  obtain ⟨⟨a1, a2, a3, a4, a5, a6, a7, a8, a9, a10⟩, h2⟩ := h2
  have hf := run_full Demo.two_ok (full_start Demo.routes_ok) h1
  refine ⟨s, h1, ⟨a1, a2, a3, a4, List.eq_nil_of_length_eq_zero a5, List.eq_nil_of_length_eq_zero a6, a7, a8, fun i => ?_⟩, h2⟩
  match i with
  | 0 => exact a9
  | 1 => exact a10
  | n + 2 => exact (hf.inv.st.out (n + 2) (by show 2 ≤ n + 2; omega)).1

/-! ### C104: reservations -/

/-- No action makes a module read outside its vectors of outducts. -/
theorem C104_no_fault (C : Config) (r : Routes) (as : List Act) (hC : C.Ok) (hr : RoutesOk C r) : run C (start r) as ≠ .fault :=
  run_no_fault hC (full_start hr)

/-- When nothing is under way, everything that was reserved for bundles is free again, in number and in bytes: in ingress for the direct way,
and for the disk; in storage for each outduct; and no bundle on the disk is taken to be at egress. If no message to egress failed that storage
sent from its queue, this is also true of what ingress reserves for the way through storage. -/
theorem C104_quiet (C : Config) (r : Routes) (s : State) (hC : C.Ok) (hr : RoutesOk C r) (h : Reachable C r s) (hq : Quiet s) :
    (∀ i, (s.ingress.sets i).egress = [] ∧ (s.ingress.sets i).egressBytes = 0) ∧
    (s.stuck = [] → ∀ i, (s.ingress.sets i).storage = [] ∧ (s.ingress.sets i).storageBytes = 0) ∧
    (s.ingress.single.storage = [] ∧ s.ingress.single.storageBytes = 0) ∧
    (∀ i, (s.storage.infos i).cut = [] ∧ (s.storage.infos i).opened = [] ∧ (s.storage.infos i).bytes = 0) ∧
    (∀ e ∈ s.storage.disk, e.status ≠ .given) :=
  quiet_empty (reach_full hC hr h).inv hq

/-- In a run in which nothing goes wrong no reservation gets stuck. -/
theorem C104_stuck_partial (C : Config) (r : Routes) (as : List Act) (s : State) (hC : C.Ok) (hr : RoutesOk C r)
    (hs : SoundRun C (start r) as) (h : run C (start r) as = .ok s) : s.stuck = [] :=
  (run_lost hC (full_start hr) hs h).2

/-- A reservation that got stuck stays for ever, whatever happens afterwards. -/
theorem C104_forever_violated (C : Config) (r : Routes) (as : List Act) (s s' : State) (i id : Nat) (b : Bundle) (hC : C.Ok)
    (hr : RoutesOk C r) (h : Reachable C r s) (hx : (i, id, b) ∈ s.stuck) (hs : run C s as = .ok s') :
    (id, b) ∈ (s'.ingress.sets i).storage := by
  have hf := reach_full hC hr h
  refine stuck_reserved (run_full hC hf hs).inv ?_
  have hd := C103_delivered C r s hC hr h
  exact (run_grows hC hf hs hd).1 _ hx

/-- One message that could not be sent is enough to close the way through storage to an outduct with the limit two for ever. -/
theorem C104_closed_violated : ∃ (C : Config) (r : Routes) (s : State), C.Ok ∧ RoutesOk C r ∧ Reachable C r s ∧
    ∀ as s', run C s as = .ok s' → ∀ b, fits (cutThrough s' 0) (C.maxBundles 0) (C.maxBytes 0) b = false := by
  obtain ⟨s, h1, h2⟩ := by_run (C := Demo.two) (r := Demo.routes) (Demo.up ++ Demo.inn (Demo.b 1 1) ++ Demo.inn (Demo.b 2 1)
    ++ [.storageFromIngress none, .release 0 none true none, .release 0 none false none])
    (fun s => (0, 1, Demo.b 2 1) ∈ s.stuck) (by decide +kernel)
  refine ⟨Demo.two, Demo.routes, s, Demo.two_ok, Demo.routes_ok, ⟨_, h1⟩, ?_⟩
  intro as s' hs b
  have hm := C104_forever_violated Demo.two Demo.routes as s s' 0 1 (Demo.b 2 1) Demo.two_ok Demo.routes_ok ⟨_, h1⟩ h2 hs
  have hf := run_full Demo.two_ok (run_full Demo.two_ok (full_start Demo.routes_ok) h1) hs
  have hl : 1 ≤ (cutThrough s' 0).length := by
    rw [← (cutThrough_eq hf.inv 0).1]
    exact List.length_pos_of_mem hm
  unfold fits
  have : ¬ ((cutThrough s' 0).length < Demo.two.maxBundles 0 / 2) := by
    show ¬ ((cutThrough s' 0).length < 1)
    omega
  simp [this]

/-! ### C105: links -/

/-- Ingress takes a link to be down exactly when egress answers for a bundle sent directly that its link is down. -/
theorem C105_ingress (C : Config) (s s' : State) (a : EgressAck) (rest : List EgressToIngress) (he : s.ei = .ack a :: rest)
    (hs : step C s .ingressFromEgress = .ok s') (j : Nat) :
    (s'.ingress.sets j).up = if j = a.hdr.outduct ∧ a.error = .linkDown then false else (s.ingress.sets j).up := by
  simp only [step, he] at hs
  split at hs
  · rename_i g hg
    simp only [Res.ok.injEq] at hs
    subst hs
    exact egressAck_up hg j
  · simp at hs
  · simp at hs

/-- Storage takes a link to be down exactly when egress answers for a bundle from storage that its link is down; in particular not when
there is no outduct for the bundle. -/
theorem C105_storage_partial (C : Config) (r : Routes) (s s' : State) (a : EgressAck) (rest : List EgressToStorage) (w : Option Nat)
    (ws : List (Option Nat)) (hC : C.Ok) (hr : RoutesOk C r) (h : Reachable C r s) (he : s.es = .ack a :: rest)
    (hs : step C s (.storageFromEgress w ws) = .ok s') (j : Nat) :
    (s'.storage.infos j).up = if j = a.hdr.outduct ∧ a.error = .linkDown then false else (s.storage.infos j).up := by
  have hi := (reach_full hC hr h).inv
  simp only [step, he] at hs
  obtain ⟨st, e, h1, rfl⟩ := after_ok hs
  have hready : s.storage.ready = true := by
    rcases hi.ready with h | ⟨r', es, h⟩
    · exact h
    · rw [he] at h; cases h
  exact ack_up h1 hready (by have := ack_known hi he; split <;> simp_all) j

/-- When storage learns from the router that a link is down it takes it to be down, and the bundles that wait to be cut through are written
to the disk in their order. -/
theorem C105_down (C : Config) (s s' : State) (i : Nat) (ws : List (Option Nat)) (hr : s.storage.ready = true) (hi : i < C.outducts)
    (hw : none ∉ ws) (hu : (s.storage.infos i).up = true) (hs : step C s (.linkStorage i false ws) = .ok s') :
    (∀ j, (s'.storage.infos j).up = if j = i then false else (s.storage.infos j).up) ∧ (s'.storage.infos i).queue = [] ∧
    s'.storage.disk.map (·.bundle) = s.storage.disk.map (·.bundle) ++ (s.storage.infos i).queue.map (·.bundle) := by
  obtain ⟨st, e, h1, rfl⟩ := after_ok hs
  unfold Storage.link at h1
  simp only [hr, hi, if_true, Bool.false_eq_true, if_false] at h1
  exact ⟨fun j => setLinkDown_up h1 j, setLinkDown_written h1 hw hu⟩

/-- Storage sends to a link only while it takes it to be up. -/
theorem C105_sends (C : Config) (s s' : State) (i : Nat) (top : Option Entry) (ok : Bool) (w : Option Nat)
    (hs : step C s (.release i top ok w) = .ok s') : (s.storage.infos i).up = true ∧
    ∃ l, s'.se = s.se ++ l ∧ ∀ m ∈ l, m.outduct = i := by
  obtain ⟨st, e, h1, rfl⟩ := after_ok hs
  exact ⟨(release_up h1).1, e.toEgress, rfl, fun m hm => ((release_sends h1).egress m hm).1⟩

/-- What egress answers: to a bundle for which it has no outduct, that there is none; to one that the outduct does not take, or that it later
could not send, that the link is down. The answer goes to the module that sent the bundle. -/
theorem C105_answers (C : Config) (s s' : State) :
    (∀ h rest moved, s.ie = h :: rest → step C s (.egressFromIngress moved) = .ok s' →
      s'.ei = s.ei ++ (if s.routes h.bundle.node = none then [.ack ⟨h, .noOutduct⟩] else if moved then [] else [.ack ⟨h, .linkDown⟩])) ∧
    (∀ h rest moved, s.se = h :: rest → step C s (.egressFromStorage moved) = .ok s' →
      s'.ei = s.ei ∧
      s'.es = s.es ++ (if s.routes h.bundle.node = none then [.ack ⟨h, .noOutduct⟩] else if moved then [] else [.ack ⟨h, .linkDown⟩])) ∧
    (∀ f k, s.flights[k]? = some f → step C s (.unsent k) = .ok s' →
      if f.fromStorage then s'.es = s.es ++ [.ack ⟨f.hdr, .linkDown⟩] ∧ s'.ei = s.ei else s'.ei = s.ei ++ [.ack ⟨f.hdr, .linkDown⟩]) ∧
    (∀ f k, s.flights[k]? = some f → step C s (.sent k) = .ok s' →
      if f.fromStorage then s'.es = s.es ++ [.ack ⟨f.hdr, .noErrors⟩] ∧ s'.ei = s.ei
      else s'.ei = s.ei ++ [.ack ⟨f.hdr, .noErrors⟩] ∧ s'.es = s.es) := by
  refine ⟨fun h rest moved he hs => ?_, fun h rest moved he hs => ?_, fun f k hf hs => ?_, fun f k hf hs => ?_⟩
  · simp only [step, he, Res.ok.injEq] at hs
    subst hs
    unfold State.forward State.onFailed
    cases hr : s.routes h.bundle.node <;> cases moved <;> simp [hr]
  · simp only [step, he, Res.ok.injEq] at hs
    subst hs
    unfold State.forward State.onFailed
    cases hr : s.routes h.bundle.node <;> cases moved <;> simp [hr]
  · simp only [step, hf, Res.ok.injEq] at hs
    subst hs
    unfold State.onFailed
    cases f.fromStorage <;> simp
  · simp only [step, hf, Res.ok.injEq] at hs
    subst hs
    unfold State.onSuccess
    cases f.fromStorage <;> simp

/-- A bundle from ingress that outduct 1 could not send makes storage take outduct 0 to be down, and outduct 1 to be up. -/
theorem C105_failed_violated : ∃ (C : Config) (r : Routes) (s : State), C.Ok ∧ RoutesOk C r ∧ Reachable C r s ∧
    (s.storage.infos 0).up = true ∧ (s.storage.infos 1).up = true ∧ s.flights.map (fun f => (f.hdr.bundle, f.outduct)) = [(Demo.b 1 2, 1)] ∧
    ∃ s', run C s [.unsent 0, .storageFromEgress (some 0) []] = .ok s' ∧ (s'.storage.infos 0).up = false ∧
      (s'.storage.infos 1).up = true := by
  obtain ⟨s', h1, h2⟩ := by_run (C := Demo.two) (r := Demo.routes) ((Demo.up ++ Demo.inn (Demo.b 1 2) ++ [.egressFromIngress true])
      ++ [.unsent 0, .storageFromEgress (some 0) []])
    (fun s => (s.storage.infos 0).up = false ∧ (s.storage.infos 1).up = true) (by decide +kernel)
  obtain ⟨s, g1, g2⟩ := by_run (C := Demo.two) (r := Demo.routes) (Demo.up ++ Demo.inn (Demo.b 1 2) ++ [.egressFromIngress true])
    (fun s => (s.storage.infos 0).up = true ∧ (s.storage.infos 1).up = true ∧
      s.flights.map (fun f => (f.hdr.bundle, f.outduct)) = [(Demo.b 1 2, 1)]) (by decide +kernel)
  rw [run_append, g1] at h1
  exact ⟨_, _, s, Demo.two_ok, Demo.routes_ok, ⟨_, g1⟩, g2.1, g2.2.1, g2.2.2, s', h1, h2⟩

/-- A bundle for which egress has no outduct makes storage take outduct 0 to be down. -/
theorem C105_no_outduct_violated : ∃ (C : Config) (r : Routes) (s : State), C.Ok ∧ RoutesOk C r ∧ Reachable C r s ∧
    (s.storage.infos 0).up = true ∧ s.routes 2 = none ∧ s.ie.map (·.bundle) = [Demo.b 1 2] ∧
    ∃ s', run C s [.egressFromIngress true, .storageFromEgress none [], .storageFromEgress (some 0) []] = .ok s' ∧
      (s'.storage.infos 0).up = false := by
  obtain ⟨s', h1, h2⟩ := by_run (C := Demo.two) (r := Demo.routes) ((Demo.up ++ Demo.inn (Demo.b 1 2) ++ [.reroute 2 none])
      ++ [.egressFromIngress true, .storageFromEgress none [], .storageFromEgress (some 0) []])
    (fun s => (s.storage.infos 0).up = false) (by decide +kernel)
  obtain ⟨s, g1, g2⟩ := by_run (C := Demo.two) (r := Demo.routes) (Demo.up ++ Demo.inn (Demo.b 1 2) ++ [.reroute 2 none])
    (fun s => (s.storage.infos 0).up = true ∧ s.routes 2 = none ∧ s.ie.map (·.bundle) = [Demo.b 1 2]) (by decide +kernel)
  rw [run_append, g1] at h1
  exact ⟨_, _, s, Demo.two_ok, Demo.routes_ok, ⟨_, g1⟩, g2.1, g2.2.1, g2.2.2, s', h1, h2⟩

/-- A bundle that is cut through and for which egress has no outduct makes ingress take the link to be down. -/
theorem C105_cut_violated : ∃ (C : Config) (r : Routes) (s : State), C.Ok ∧ RoutesOk C r ∧ Reachable C r s ∧
    (s.ingress.sets 0).up = true ∧ s.routes 1 = none ∧ s.se.map (·.bundle) = [Demo.b 2 1] ∧
    ∃ s', run C s [.egressFromStorage true, .storageFromEgress none [], .storageFromEgress (some 0) [], .ingressFromStorage] = .ok s' ∧
      (s'.ingress.sets 0).up = false := by
  obtain ⟨s', h1, h2⟩ := by_run (C := Demo.two) (r := Demo.routes)
    ((Demo.up ++ Demo.inn (Demo.b 1 1) ++ Demo.inn (Demo.b 2 1) ++ Demo.cut 0 ++ [.reroute 1 none])
      ++ [.egressFromStorage true, .storageFromEgress none [], .storageFromEgress (some 0) [], .ingressFromStorage])
    (fun s => (s.ingress.sets 0).up = false) (by decide +kernel)
  obtain ⟨s, g1, g2⟩ := by_run (C := Demo.two) (r := Demo.routes)
    (Demo.up ++ Demo.inn (Demo.b 1 1) ++ Demo.inn (Demo.b 2 1) ++ Demo.cut 0 ++ [.reroute 1 none])
    (fun s => (s.ingress.sets 0).up = true ∧ s.routes 1 = none ∧ s.se.map (·.bundle) = [Demo.b 2 1]) (by decide +kernel)
  rw [run_append, g1] at h1
  exact ⟨_, _, s, Demo.two_ok, Demo.routes_ok, ⟨_, g1⟩, g2.1, g2.2.1, g2.2.2, s', h1, h2⟩

/-- If the message of the router that a link is down comes to storage before the first message of egress, storage takes the link to be up. -/
theorem C105_early_violated : ∃ (C : Config) (r : Routes) (s : State), C.Ok ∧ RoutesOk C r ∧
    run C (start r) [.linkStorage 0 false [], .storageFromEgress none []] = .ok s ∧ (s.storage.infos 0).up = true := by
  obtain ⟨s, h1, h2⟩ := by_run (C := Demo.two) (r := Demo.routes) [.linkStorage 0 false [], .storageFromEgress none []]
    (fun s => (s.storage.infos 0).up = true) (by decide +kernel)
  exact ⟨_, _, s, Demo.two_ok, Demo.routes_ok, h1, h2⟩

/-! ### C106: strict priority -/

/-- When priority is enforced and the catalog gives the bundle with the highest priority on the disk (C26), what is sent to a link has at least
the priority of every bundle on the disk that waits for this link and of the first bundle that waits to be cut through. -/
theorem C106_priority_partial (C : Config) (s s' : State) (i : Nat) (top : Option Entry) (ok : Bool) (w : Option Nat)
    (he : C.enforcePriority = true)
    (ht : ∀ e ∈ s.storage.disk, e.status = .awaiting → s.storage.routes e.bundle.node = some i →
      ∃ t, top = some t ∧ e.bundle.priority ≤ t.bundle.priority)
    (hs : step C s (.release i top ok w) = .ok s') :
    ∃ l, s'.se = s.se ++ l ∧ ∀ m ∈ l,
      (∀ e ∈ s.storage.disk, e.status = .awaiting → s.storage.routes e.bundle.node = some i → e.bundle.priority ≤ m.bundle.priority) ∧
      (∀ q, (s.storage.infos i).queue.head? = some q → q.bundle.priority ≤ m.bundle.priority) := by
  obtain ⟨st, e, h1, rfl⟩ := after_ok hs
  refine ⟨e.toEgress, rfl, fun m hm => ?_⟩
  obtain ⟨h2, h3⟩ := release_order he h1 m hm
  refine ⟨fun x hx hw hn => ?_, h3⟩
  obtain ⟨t, ht1, ht2⟩ := ht x hx hw hn
  exact Nat.le_trans ht2 (h2 t ht1)

/-- And when there is room for them, storage does send one of the bundles that wait. -/
theorem C106_sends (C : Config) (r : Routes) (s s' : State) (i : Nat) (top : Option Entry) (w : Option Nat) (hC : C.Ok) (hr : RoutesOk C r)
    (he : C.enforcePriority = true) (h : Reachable C r s) (hs : step C s (.release i top true w) = .ok s')
    (hn : (s.storage.infos i).opened.length + (s.storage.infos i).cut.length < C.maxBundles i / 2)
    (hwait : top.isSome ∨ (s.storage.infos i).queue ≠ [])
    (ht : ∀ t, top = some t → (s.storage.infos i).bytes + t.bundle.size ≤ C.maxBytes i / 2)
    (hq : ∀ q, (s.storage.infos i).queue.head? = some q → (s.storage.infos i).bytes + q.bundle.size ≤ C.maxBytes i / 2) :
    ∃ m, s'.se = s.se ++ [m] := by
  have hf := reach_full hC hr h
  obtain ⟨st, e, h1, rfl⟩ := after_ok hs
  unfold Storage.release at h1
  rw [room_eq hf.inv.st hC i] at h1
  obtain ⟨room, hroom⟩ : ∃ room, room = C.maxBytes i / 2 - (s.storage.infos i).bytes := ⟨_, rfl⟩
  rw [← hroom] at h1
  simp only [he, if_true, hn] at h1
  split at h1
  · obtain ⟨m, hm⟩ := prioritySend_one h1 hwait (fun t h => by have := ht t h; omega) (fun q h => by have := hq q h; omega)
    exact ⟨m, congrArg (s.se ++ ·) hm⟩
  · simp at h1

/-- The node with priorities and room for more bundles. -/
def Demo.ranked : Config := ⟨1, fun _ => 10, fun _ => 100, 10, true⟩

/-- A bundle of this priority. -/
def Demo.p (key priority : Nat) : Bundle := ⟨key, 10, 1, priority, false⟩

example : ∃ s, run Demo.ranked (start fun _ => some 0) ([.ingressFromEgress, .storageFromEgress none []] ++ Demo.inn (Demo.p 1 2)
    ++ [.storageFromIngress (some 0), .linkIngress 0 true, .linkStorage 0 true []] ++ Demo.inn (Demo.p 2 1)
    ++ [.storageFromIngress none, .release 0 (some ⟨0, Demo.p 1 2, .awaiting⟩) true (some 1)]) = .ok s ∧
    (s.se.map (·.bundle) = [Demo.p 1 2] ∧ s.storage.disk.map (·.bundle) = [Demo.p 1 2, Demo.p 2 1]) := by_run _ _ (by decide +kernel)

/-- The order is not strict: a bundle of priority 0 is sent while one of priority 2 for the same link waits behind it in the queue. -/
theorem C106_priority_violated : ∃ (C : Config) (r : Routes) (s s' : State), C.Ok ∧ RoutesOk C r ∧ C.enforcePriority = true ∧
    Reachable C r s ∧ (s.storage.infos 0).queue.map (·.bundle) = [Demo.p 1 0, Demo.p 2 2] ∧
    step C s (.release 0 none true none) = .ok s' ∧ s'.se.map (·.bundle) = [Demo.p 1 0] := by
  obtain ⟨s, h1, h2⟩ := by_run (C := Demo.ranked) (r := fun _ => some 0) ([.ingressFromEgress, .storageFromEgress none [], .linkIngress 0 true,
    .linkStorage 0 true []] ++ Demo.inn (Demo.p 1 0) ++ Demo.inn (Demo.p 2 2) ++ [.storageFromIngress none, .storageFromIngress none])
    (fun s => (s.storage.infos 0).queue.map (·.bundle) = [Demo.p 1 0, Demo.p 2 2] ∧
      (match step Demo.ranked s (.release 0 none true none) with
        | .ok s' => decide (s'.se.map (·.bundle) = [Demo.p 1 0])
        | _ => false) = true) (by decide +kernel)
  obtain ⟨h2, h3⟩ := h2
  split at h3
  · rename_i s' hs
    exact ⟨_, _, s, s', fun _ => by simp [Demo.ranked], fun n i h => by cases h; decide, rfl, ⟨_, h1⟩, h2, hs, of_decide_eq_true h3⟩
  · cases h3

/-! ### C107: the disk and the queue in turns -/

/-- When there is room, the message can be sent, and both a bundle of the queue and one of the disk could be sent, storage sends one of them;
of two looks at the same link, with anything else in between, one sends from the disk and the other from the queue. -/
theorem C107_turns (C : Config) (r : Routes) (s s₁ s₂ s₃ : State) (i : Nat) (t t' : Entry) (q q' : ToStorage) (qs qs' : List ToStorage)
    (as : List Act) (w w' : Option Nat) (hC : C.Ok) (hr : RoutesOk C r) (hp : C.enforcePriority = false) (h : Reachable C r s)
    (hs₁ : step C s (.release i (some t) true w) = .ok s₁)
    (has : run C s₁ as = .ok s₂) (hno : ∀ a ∈ as, ∀ top ok w, a ≠ .release i top ok w)
    (hs₃ : step C s₂ (.release i (some t') true w') = .ok s₃)
    (hq : (s.storage.infos i).queue = q :: qs) (hq' : (s₂.storage.infos i).queue = q' :: qs')
    (hn : (s.storage.infos i).opened.length + (s.storage.infos i).cut.length < C.maxBundles i / 2)
    (hn' : (s₂.storage.infos i).opened.length + (s₂.storage.infos i).cut.length < C.maxBundles i / 2)
    (hb : (s.storage.infos i).bytes + t.bundle.size ≤ C.maxBytes i / 2 ∧ (s.storage.infos i).bytes + q.bundle.size ≤ C.maxBytes i / 2)
    (hb' : (s₂.storage.infos i).bytes + t'.bundle.size ≤ C.maxBytes i / 2 ∧ (s₂.storage.infos i).bytes + q'.bundle.size ≤ C.maxBytes i / 2) :
    (s₁.se = s.se ++ [⟨t.bundle, t.cid, i, false⟩] ∧ s₃.se = s₂.se ++ [⟨q'.bundle, q'.id, i, true⟩]) ∨
    (s₁.se = s.se ++ [⟨q.bundle, q.id, i, true⟩] ∧ s₃.se = s₂.se ++ [⟨t'.bundle, t'.cid, i, false⟩]) := by
  have hf := reach_full hC hr h
  have hf₂ := run_full hC (step_full hC hf hs₁) has
  have look : ∀ {s s' : State} {t q qs w}, Full C s → step C s (.release i (some t) true w) = .ok s' → (s.storage.infos i).queue = q :: qs →
      (s.storage.infos i).opened.length + (s.storage.infos i).cut.length < C.maxBundles i / 2 →
      (s.storage.infos i).bytes + t.bundle.size ≤ C.maxBytes i / 2 ∧ (s.storage.infos i).bytes + q.bundle.size ≤ C.maxBytes i / 2 →
      ((s'.storage.infos i).tryCut = !(s.storage.infos i).tryCut) ∧
      s'.se = s.se ++ (if (s.storage.infos i).tryCut then [⟨q.bundle, q.id, i, true⟩] else [⟨t.bundle, t.cid, i, false⟩]) := by
    intro s s' t q qs w hf hs hq hn hb
    obtain ⟨st, e, h1, rfl⟩ := after_ok hs
    unfold Storage.release at h1
    rw [room_eq hf.inv.st hC i] at h1
    obtain ⟨room, hroom⟩ : ∃ room, room = C.maxBytes i / 2 - (s.storage.infos i).bytes := ⟨_, rfl⟩
    rw [← hroom] at h1
    simp only [hp, Bool.false_eq_true, if_false, hn, if_true] at h1
    split at h1
    · simp only [Res.ok.injEq] at h1
      have ht := defaultSend_turn (st := s.storage) (i := i) (top := some t) (room := room) (ok := true)
      rw [h1] at ht
      refine ⟨ht, ?_⟩
      show s.se ++ e.toEgress = _
      cases hc : (s.storage.infos i).tryCut with
      | true =>
        have := defaultSend_cut (top := some t) (room := room) hc hq (by omega)
        rw [h1] at this
        exact congrArg (s.se ++ ·) this
      | false =>
        have := defaultSend_disk (t := t) (room := room) hc (by omega)
        rw [h1] at this
        exact congrArg (s.se ++ ·) this
    · simp at h1
  obtain ⟨a1, a2⟩ := look hf hs₁ hq hn hb
  obtain ⟨b1, b2⟩ := look hf₂ hs₃ hq' hn' hb'
  have hmid := run_try hp hno has
  rw [a1] at hmid
  rw [hmid] at b2
  cases hc : (s.storage.infos i).tryCut with
  | true =>
    rw [hc] at a2 b2
    exact Or.inr ⟨by simpa using a2, by simpa using b2⟩
  | false =>
    rw [hc] at a2 b2
    exact Or.inl ⟨by simpa using a2, by simpa using b2⟩

/-- One outduct with much room. -/
def Demo.wide : Config := ⟨1, fun _ => 4, fun _ => 100, 10, false⟩

/-- Two bundles on the disk; two direct, two in the queue. -/
def Demo.queued : List Act := [.ingressFromEgress, .storageFromEgress none []]
  ++ ([0, 1].flatMap fun k => Demo.inn (Demo.b k 1) ++ [.storageFromIngress (some k), .ingressFromStorage])
  ++ [.linkStorage 0 true [], .linkIngress 0 true] ++ ([2, 3].flatMap fun k => Demo.inn (Demo.b k 1))
  ++ [4, 5].flatMap fun k => Demo.inn (Demo.b k 1) ++ [.storageFromIngress none]

example : ∃ s, run Demo.wide (start fun _ => some 0) (Demo.queued ++ [.release 0 (some ⟨0, Demo.b 0 1, .awaiting⟩) true none,
    .release 0 (some ⟨1, Demo.b 1 1, .awaiting⟩) true none]) = .ok s ∧ (s.se.map (fun m => (m.bundle.key, m.cut)) = [(0, false), (4, true)]) :=
  by_run _ _ (by decide +kernel)

end Hdtn.Node
