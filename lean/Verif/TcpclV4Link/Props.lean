import Verif.TcpclV4Link.AnyPeer

/-!
The properties C69 to C73: two entities that forward bundles to each other, and one entity with any peer.
-/

namespace Hdtn.TcpclV4Link

open TcpclV4 (Event)
open TcpclV4.Spec (generate)
open Spec

variable {careful : Bool} {ca cb : Cfg} {s t : Sys}

/-! ### Two entities to look at -/

namespace Sample

/-- An active entity that wants at most two bundles outstanding. -/
def alice : Cfg := ⟨true, 30, 2, 4, 10, 1, [], false, false, 1000, fun _ => []⟩

/-- A passive entity that takes segments of 3 and bundles of 7 bytes. -/
def bob : Cfg := ⟨false, 20, 2, 3, 7, 2, Uri.getIpnUriString 1 5, true, false, 1000, fun b => b⟩

theorem agree : Agree alice bob where
  active := rfl
  passive := rfl
  plain := rfl
  ab := ⟨by decide, by decide, by decide, by decide, .inl rfl, rfl, by decide, by decide⟩
  ba := ⟨by decide, by decide, by decide, by decide, .inr ⟨5, by decide, rfl⟩, rfl, by decide, by decide⟩

/-- The session is set up. -/
def opening : List (Bool × Act) :=
  [(true, .write), (false, .recv 100), (false, .write), (true, .recv 100), (false, .recv 100), (true, .recv 100)]

/-- Bundles are exchanged, with a keep-alive. -/
def talk : List (Bool × Act) :=
  [(true, .forward [1, 2, 3, 4, 5, 6, 7] [50]), (true, .hand), (true, .write), (false, .forward [9, 9] [70]),
    (true, .keepAlive), (true, .forward [8] [51]), (false, .recv 5), (true, .hand), (true, .hand), (true, .hand), (true, .write),
    (true, .write), (true, .write), (false, .recv 7), (false, .recv 1000), (false, .hand), (false, .write), (false, .write),
    (false, .write), (false, .write), (false, .write), (true, .recv 1000), (true, .write), (false, .recv 1000)]

/-- What the application may do, as a check. -/
def possible (careful : Bool) (c d : Cfg) (x : Side) : Act → Bool
  | .forward b _ => b != [] && decide (b.length < 2 ^ 64) &&
    (!careful || (decide (b.length ≤ d.xferMru) && decide (x.forwarded.length - x.succeeded.length < c.maxUnacked)))
  | .terminate _ => x.link.ready
  | _ => true

/-- A run in which the application does only what it may do. -/
def proper (careful : Bool) (ca cb : Cfg) : Sys → List (Bool × Act) → Option Sys
  | s, [] => some s
  | s, (who, x) :: rest =>
    if possible careful (if who then ca else cb) (if who then cb else ca) (side s who) x then
      match step ca cb s who x with
      | .error _ => none
      | .ok s => proper careful ca cb s rest
    else none

theorem leads_proper (careful : Bool) (ca cb : Cfg) (l : List (Bool × Act)) : ∀ {s t u : Sys}, Leads careful ca cb s t →
    proper careful ca cb t l = some u → Leads careful ca cb s u := by
  induction l with
  | nil => intro s t u h hp; cases hp; exact h
  | cons x l ih =>
    intro s t u h hp
    obtain ⟨who, x⟩ := x
    unfold proper at hp
    by_cases hc : possible careful (if who then ca else cb) (if who then cb else ca) (side t who) x = true
    · rw [if_pos hc] at hp
      split at hp
      · simp at hp
      · rename_i t' hst
        refine ih (.step s t t' who x h ?_ hst) hp
        cases x with
        | forward b u =>
          simp only [possible, Bool.and_eq_true, bne_iff_ne, decide_eq_true_eq, Bool.or_eq_true, Bool.not_eq_true'] at hc
          refine ⟨hc.1.1, hc.1.2, fun h' => ?_⟩
          rcases hc.2 with h'' | h''
          · simp [h'] at h''
          · exact h''
        | terminate r => exact hc
        | _ => trivial
    · rw [if_neg hc] at hp
      simp at hp

theorem exists_run (l : List (Bool × Act)) (p : Sys → Prop) [DecidablePred p]
    (h : (match run alice bob ⟨newSide alice, newSide bob⟩ l with
      | .ok s => decide (p s)
      | .error _ => false) = true) :
    ∃ l : List (Bool × Act), ∃ s, run alice bob ⟨newSide alice, newSide bob⟩ l = .ok s ∧ p s := by
  refine ⟨l, ?_⟩
  split at h
  · rename_i s hs
    exact ⟨s, hs, by simpa using h⟩
  · simp at h

theorem exists_proper (careful : Bool) (l : List (Bool × Act)) (p : Sys → Prop) [DecidablePred p]
    (h : (match proper careful alice bob ⟨newSide alice, newSide bob⟩ l with
      | some s => decide (p s)
      | none => false) = true) : ∃ s, Reach careful alice bob s ∧ p s := by
  split at h
  · rename_i s hs
    exact ⟨s, leads_proper careful alice bob _ (.refl _) hs, by simpa using h⟩
  · simp at h

end Sample

open Sample (alice bob)

/-! ### C69: bundles arrive -/

/-- Two entities of this kind with suitable settings, any applications (bundles are not empty), any schedule: what has been
delivered at one entity is the first of the bundles accepted at the other one, unchanged, in order, each once. -/
theorem C69_order (hag : Agree ca cb) (h : Reach careful ca cb s) :
    s.b.delivered <+: bundles s.a ∧ s.a.delivered <+: bundles s.b := by
  obtain ⟨va, vb, hi⟩ := inv_reach hag h
  exact ⟨delivered_prefix hag.ab hag.ba hi.a hi.b, delivered_prefix hag.ba hag.ab hi.b hi.a⟩

/-- When everything that was to be sent has been written and read, all bundles have been delivered. -/
theorem C69_complete (hag : Agree ca cb) (h : Reach careful ca cb s) (hd : Drained s) :
    s.b.delivered = bundles s.a ∧ s.a.delivered = bundles s.b := by
  obtain ⟨va, vb, hi⟩ := inv_reach hag h
  obtain ⟨h1, h2, h3, h4, h5, h6⟩ := hd
  exact ⟨(delivered_all hag.ab hi.a hi.b hi.rb h1 h3 h6).1, (delivered_all hag.ba hi.b hi.a hi.ra h2 h4 h5).1⟩

/-- The two never get stuck: from every state everything can be written and read, without a new bundle, and with that all
bundles arrive. -/
theorem C69_progress (hag : Agree ca cb) (h : Reach careful ca cb s) :
    ∃ t, Leads careful ca cb s t ∧ Drained t ∧ t.b.delivered = bundles s.a ∧ t.a.delivered = bundles s.b := by
  obtain ⟨va, vb, hi⟩ := inv_reach hag h
  obtain ⟨t, h1, h2, h3, h4⟩ := drain hag _ s va vb hi (Nat.le_refl _)
  have hr : Reach careful ca cb t := by
    clear h2 h3 h4
    induction h1 with
    | refl => exact h
    | step t' u who x _ hp hs ih => exact .step _ t' u who x ih hp hs
  obtain ⟨k1, k2⟩ := C69_complete hag hr h2
  refine ⟨t, h1, h2, k1.trans ?_, k2.trans ?_⟩
  · rw [bundles, h3]; rfl
  · rw [bundles, h4]; rfl

/-- Three bundles in two directions, one of them in three segments; all is drained. -/
example : ∃ s, Reach true alice bob s ∧ Drained s ∧ bundles s.a = [[1, 2, 3, 4, 5, 6, 7], [8]] ∧ bundles s.b = [[9, 9]] ∧
    s.b.delivered = [[1, 2, 3, 4, 5, 6, 7], [8]] ∧ s.a.succeeded = [[50], [51]] := by
  exact Sample.exists_proper true (Sample.opening ++ Sample.talk) _ (by decide +kernel)

/-- Violated for empty bundles: the entity accepts one, the parser of the peer gives up on its segment, and the bundles
that follow it never arrive, although all has been written and read. (Until it sees the start of another contact header the
peer skips everything.) -/
theorem C69_empty_violated : ∃ l : List (Bool × Act), ∃ s, run alice bob ⟨newSide alice, newSide bob⟩ l = .ok s ∧ Drained s ∧
    bundles s.a = [[], [1, 2]] ∧ s.b.delivered = [] ∧ s.a.link.ready = true := by
  exact Sample.exists_run (Sample.opening ++ [(true, .forward [] [50]), (true, .forward [1, 2] [51]), (true, .hand), (true, .hand),
    (true, .write), (true, .write), (false, .recv 1000), (false, .write), (true, .recv 1000)])
    (fun s => Drained s ∧ bundles s.a = [[], [1, 2]] ∧ s.b.delivered = [] ∧ s.a.link.ready = true) (by decide +kernel)

/-! ### C70: what is reported as sent -/

/-- When the applications observe the limits: the bundles reported as sent are the first of the accepted ones, in order, each
once, and each has been delivered at the peer by then. -/
theorem C70_order (hag : Agree ca cb) (h : Reach true ca cb s) :
    s.a.succeeded <+: users s.a ∧ s.a.succeeded.length ≤ s.b.delivered.length ∧
      s.b.succeeded <+: users s.b ∧ s.b.succeeded.length ≤ s.a.delivered.length := by
  obtain ⟨va, vb, hi⟩ := inv_reach hag h
  exact ⟨succeeded_prefix hag.ab hi.a, succeeded_le hag.ab hi.a hi.b, succeeded_prefix hag.ba hi.b,
    succeeded_le hag.ba hi.b hi.a⟩

/-- When everything has been written and read, all bundles have been reported. -/
theorem C70_complete_partial (hag : Agree ca cb) (h : Reach true ca cb s) (hd : Drained s) :
    s.a.succeeded = users s.a ∧ s.b.succeeded = users s.b := by
  obtain ⟨va, vb, hi⟩ := inv_reach hag h
  obtain ⟨h1, h2, h3, h4, h5, h6⟩ := hd
  exact ⟨succeeded_all hag.ab hi.a hi.b hi.ra hi.rb h1 h3 h6 h4 h5,
    succeeded_all hag.ba hi.b hi.a hi.rb hi.ra h2 h4 h5 h3 h6⟩

/-- With any peer, whatever it sends: the bundles reported as sent are the first of the outstanding ones, in order, each once,
and the peer has sent, in this order, the acknowledgements of all segments up to and including their last one, with the
flags, the identifier and the number of bytes that were sent. -/
theorem C70_any_peer {cfg : Cfg} {l l' : Link} {r : Ring} {es : List Event} {effs : List Eff} (hr : l.ring = some r)
    (h : handleAll cfg l es = .ok (l', effs)) :
    ∃ k, successes effs = ((r.items.take k).filter fun q => q.1.isEnd).map Prod.snd ∧
      List.Sublist ((r.items.take k).map fun q => Event.ack q.1.isStart q.1.isEnd q.1.id q.1.total) es := by
  obtain ⟨k, h1, h2⟩ := handleAll_ring es l h
  have : outstanding l = r.items := by simp [outstanding, hr]
  rw [this] at h1 h2
  exact ⟨k, h1, h2⟩

/-- A link that waits for the acknowledgements of a bundle in two segments and of one more. -/
def waiting : Link := { newLink with
  ready := true
  remoteSeg := 4
  ring := some ⟨13, [(⟨true, false, 0, 4⟩, []), (⟨false, true, 0, 6⟩, [50]), (⟨true, true, 1, 2⟩, [51])]⟩ }

example : handleAll alice waiting [.ack true true 1 2, .ack true false 0 4, .keepAlive, .ack false true 0 5, .ack false true 0 6] =
    .ok ({ waiting with ring := some ⟨13, [(⟨true, true, 1, 2⟩, [51])]⟩, acked := 1 }, [.success [50]]) := by decide +kernel

/-- Violated: when the peer refuses a transfer, the bundle is reported neither as sent nor as failed, and what follows it is
not reported either, although it is acknowledged. -/
theorem C70_refused_violated :
    handleAll alice waiting [.refusal 2 0, .ack true true 1 2] = .ok (waiting, []) := by decide +kernel

/-- Violated: a peer that initialises the session again makes the link forget all outstanding bundles: they are never reported,
and the acknowledgements that come are ignored. -/
theorem C70_init_violated :
    ∃ l, handleAll alice waiting [.init 20 3 7 (Uri.getIpnUriString 2 0) [], .ack true false 0 4, .ack false true 0 6, .ack true true 1 2] =
      .ok (l, [.linkUp]) ∧ l.ready = true ∧ outstanding l = [] := by
  refine ⟨{ waiting with remoteNode := 2, remoteSeg := 3, remoteXfer := 7, ring := some ⟨15, []⟩, keep := 20 }, ?_, rfl, rfl⟩
  decide +kernel

/-! ### C71: what is accepted -/

/-- An application that forwards no bundle larger than what the peer takes, and none while the maximum number of
bundles is outstanding, is never refused on an established session. -/
theorem C71_accepts_partial (hag : Agree ca cb) (h : Reach true ca cb s) (b u : Bytes) :
    (s.a.link.ready = true → Possible true ca cb s.a (.forward b u) →
      ∃ l messages, forward s.a.link b u = .ok (l, some messages)) ∧
    (s.b.link.ready = true → Possible true cb ca s.b (.forward b u) →
      ∃ l messages, forward s.b.link b u = .ok (l, some messages)) := by
  obtain ⟨va, vb, hi⟩ := inv_reach hag h
  exact ⟨fun h1 h2 => forward_accepts hag.ab hi.a h1 b u h2, fun h1 h2 => forward_accepts hag.ba hi.b h1 b u h2⟩

/-- The application may forward a second bundle, in three segments, while the first one is outstanding. -/
example : ∃ s, Reach true alice bob s ∧ s.a.link.ready = true ∧ s.a.forwarded.length = 1 ∧ s.a.succeeded = [] ∧
    Possible true alice bob s.a (.forward [1, 2, 3, 4, 5, 6, 7] [50]) := by
  obtain ⟨s, h1, h2, h3, h4⟩ := Sample.exists_proper true (Sample.opening ++ [(true, .forward [8] [51])])
    (fun s => s.a.link.ready = true ∧ s.a.forwarded.length = 1 ∧ s.a.succeeded = []) (by decide +kernel)
  exact ⟨s, h1, h2, h3, h4, by simp, by simp, fun _ => ⟨by decide, by rw [h3, h4]; decide⟩⟩

/-- Violated when the application does not observe the number of outstanding bundles: the eighth bundle is refused, but
the acknowledgement of its first segment stays in the queue. So the bundle after it is delivered but never reported, the
same holds for all that follow, and the refused bundle counts as sent. -/
theorem C71_overflow_violated : ∃ s, Reach false alice bob s ∧ Drained s ∧ s.a.link.ready = true ∧
    (bundles s.a).length = 8 ∧ s.b.delivered = bundles s.a ∧ s.a.succeeded.length = 7 ∧ s.a.link.sent = 9 ∧
    s.a.link.ring = some ⟨15, [(⟨true, false, 7, 3⟩, []), (⟨true, true, 8, 1⟩, [60])]⟩ :=
  Sample.exists_proper false (Sample.opening ++ List.replicate 8 (true, .forward [1, 2, 3, 4] [50]) ++
    List.replicate 14 (true, .hand) ++ List.replicate 14 (true, .write) ++ [(false, .recv 1000)] ++
    List.replicate 14 (false, .write) ++ [(true, .recv 1000), (true, .forward [5] [60]), (true, .hand), (true, .write),
      (false, .recv 1000), (false, .write), (true, .recv 1000)]) _ (by decide +kernel)

/-- Violated: the entity accepts, and sends, a bundle larger than what the peer said it takes. -/
theorem C71_mru_violated : ∃ s, Reach false alice bob s ∧ bob.xferMru = 7 ∧
    bundles s.a = [[1, 2, 3, 4, 5, 6, 7, 8, 9]] ∧ s.b.delivered = bundles s.a :=
  Sample.exists_proper false (Sample.opening ++ [(true, .forward [1, 2, 3, 4, 5, 6, 7, 8, 9] [50]), (true, .hand), (true, .hand),
    (true, .hand), (true, .write), (true, .write), (true, .write), (false, .recv 1000)]) _ (by decide +kernel)

/-! ### C72: receiving from any peer -/

/-- Whatever the state of the link and whatever other messages there are: when the segments among the messages are those of
transfers one after the other, then the bundles delivered are those of the transfers, in order, each once. When
there is no contact header among the messages, what is queued for the peer is exactly one acknowledgement for each segment, in order,
with its flags, its identifier, and the number of bytes received so far. -/
theorem C72_receive_partial {cfg : Cfg} {l l' : Link} {es : List Event} {effs : List Eff} {ts : List Transfer}
    (h : handleAll cfg l es = .ok (l', effs)) (hs : segmentsOf es = ts.flatMap Transfer.segments) :
    deliveries effs = ts.map Transfer.bundle ∧
      ((∀ tls, Event.contact tls ∉ es) → posts effs = (ts.flatMap Transfer.acks).map generate) := by
  obtain ⟨h1, h2⟩ := handleAll_asm es l h
  obtain ⟨k, hk⟩ := asm_transfers cfg.leaves ts l.concat
  rw [← hs, asm_segmentsOf] at hk
  rw [hk] at h1 h2
  refine ⟨h1, fun hc => h2 fun e he => ?_⟩
  cases e with
  | contact tls => exact absurd he (hc tls)
  | _ => rfl

/-- Two transfers with other messages among them. -/
example : segmentsOf [.data [1, 2] true false 5 [⟨0, 1, [9]⟩], .keepAlive, .data [3] false true 5 [], .ack true true 0 9,
      .data [7] true true 6 []] = [(⟨5, [1, 2], [[3]]⟩ : Transfer), ⟨6, [7], []⟩].flatMap Transfer.segments ∧
    [(⟨5, [1, 2], [[3]]⟩ : Transfer), ⟨6, [7], []⟩].flatMap Transfer.acks =
      [.ack true false 5 2, .ack false true 5 3, .ack true true 6 1] ∧
    ∃ l, handleAll alice waiting [.data [1, 2] true false 5 [⟨0, 1, [9]⟩], .keepAlive, .data [3] false true 5 [],
      .ack true true 0 9, .data [7] true true 6 []] = .ok (l, [.post (generate (.ack true false 5 2)), .deliver [1, 2, 3],
        .post (generate (.ack false true 5 3)), .deliver [7], .post (generate (.ack true true 6 1))]) :=
  ⟨by decide +kernel, by decide +kernel, _, rfl⟩

/-- Violated when the peer mixes transfers: the identifiers are not looked at, and a bundle is delivered that was never sent. -/
theorem C72_mixed_violated : ∃ l, handleAll alice waiting [.data [1] true false 0 [], .data [2] false true 1 []] =
    .ok (l, [.post (generate (.ack true false 0 1)), .deliver [1, 2], .post (generate (.ack false true 1 2))]) := ⟨_, rfl⟩

/-- Violated when the first segment is missing: what the callback for the last bundle has left in the vector, or nothing, is taken
for the first part, and a bundle is delivered that was never sent. -/
theorem C72_stray_violated : ∃ l, handleAll bob waiting
      [.data [1] true false 0 [], .data [2] false true 0 [], .data [3] false true 1 []] =
    .ok (l, [.post (generate (.ack true false 0 1)), .deliver [1, 2], .post (generate (.ack false true 0 2)),
      .deliver [1, 2, 3], .post (generate (.ack false true 1 3))]) := ⟨_, rfl⟩

/-- Violated: transfers larger than what the entity has said it takes are delivered, in segments of that size. So the memory a
peer can claim has no bound. -/
theorem C72_mru_violated (n : Nat) : ∃ l effs bundle,
    handleAll alice waiting (Transfer.segments ⟨0, [1], List.replicate (n + 1) [1]⟩) = .ok (l, effs) ∧
      deliveries effs = [bundle] ∧ bundle.length = n + 2 ∧ alice.xferMru = 10 := by
  have hok : ∀ (es : List Event) (l : Link), (∀ e ∈ es, isData e = true) → ∃ l' effs, handleAll alice l es = .ok (l', effs) := by
    intro es
    induction es with
    | nil => intro l _; exact ⟨l, [], rfl⟩
    | cons e es ih =>
      intro l h
      cases e with
      | data cont s e id xs =>
        obtain ⟨l', effs, h'⟩ := ih (onData alice l cont s e id).1 fun x hx => h x (by simp [hx])
        refine ⟨l', (onData alice l cont s e id).2 ++ effs, ?_⟩
        simp only [handleAll, handle, h']
      | _ => exact absurd (h _ List.mem_cons_self) (by simp [isData])
  have hdata : ∀ (id : Nat) (cs : List Bytes), (∀ e ∈ later id cs, isData e = true) ∧ segmentsOf (later id cs) = later id cs := by
    intro id cs
    induction cs with
    | nil => simp [later, segmentsOf]
    | cons c cs ih =>
      rcases cs with _ | ⟨c', cs⟩
      · simp [later, segmentsOf, isData]
      · refine ⟨fun e he => ?_, ?_⟩
        · have he : e ∈ .data c false false id [] :: later id (c' :: cs) := he
          rcases List.mem_cons.1 he with rfl | he
          · rfl
          · exact ih.1 e he
        · show segmentsOf (.data c false false id [] :: later id (c' :: cs)) = .data c false false id [] :: later id (c' :: cs)
          have := ih.2
          simp only [segmentsOf, List.filterMap_cons] at this ⊢
          rw [this]
  obtain ⟨l, effs, h⟩ := hok (Transfer.segments ⟨0, [1], List.replicate (n + 1) [1]⟩) waiting (by
    intro e he
    rcases List.mem_cons.1 he with rfl | he
    · rfl
    · exact (hdata _ _).1 e he)
  have h1 := (C72_receive_partial (ts := [⟨0, [1], List.replicate (n + 1) [1]⟩]) h (by
    rw [List.flatMap_singleton]
    unfold Transfer.segments
    have := (hdata 0 (List.replicate (n + 1) [1])).2
    simp only [segmentsOf, List.filterMap_cons] at this ⊢
    rw [this])).1
  refine ⟨l, effs, _, h, h1, ?_, rfl⟩
  simp [Transfer.bundle]

/-! ### C73: setting up the session -/

/-- Between two entities with suitable settings nothing that can happen is fatal, whatever the applications and the
schedule. -/
theorem C73_safe_partial (hag : Agree ca cb) (h : Reach careful ca cb s) (who : Bool) (x : Act)
    (hp : Possible careful (if who then ca else cb) (if who then cb else ca) (side s who) x) :
    ∃ t, step ca cb s who x = .ok t := by
  obtain ⟨va, vb, hi⟩ := inv_reach hag h
  obtain ⟨t, _, _, h1, _⟩ := step_inv hag hi who x hp
  exact ⟨t, h1⟩

/-- What the name of the peer has to be: an `ipn` name with service number 0; and when a name is configured that can be
understood, the node of that name (written in the shortest way). -/
def Welcome (cfg : Cfg) (node : Bytes) : Prop :=
  (∃ n, Uri.parseUri false node = some (n, some 0)) ∧
    ∀ n service, cfg.expected ≠ [] → Uri.parseUri false cfg.expected = some (n, service) → node = Uri.getIpnUriString n 0

/-- The session initialisation of any peer whose sizes are not zero and not too large for the memory: the session is
established exactly when the name of the peer is right; otherwise the only effect is that the session is terminated as a
contact failure. An established session uses the smaller interval for keep-alives, none when either side wants none;
segments no larger than the peer takes, and no larger than the bundles it takes; and nothing is outstanding. -/
theorem C73_init_partial (cfg : Cfg) (l : Link) (keep segMru xferMru : Nat) (node : Bytes) (exts : List TcpclV4.Ext)
    (h1 : 0 < segMru) (h2 : 0 < xferMru)
    (h3 : cfg.maxUnacked * (xferMru / min segMru xferMru + 1) + 10 ≤ cfg.room)
    (h4 : cfg.maxUnacked * (xferMru / min segMru xferMru + 1) + 10 < 2 ^ 32) :
    (Welcome cfg node → ∃ l', handle cfg l (.init keep segMru xferMru node exts) =
        .ok (l', (if cfg.active then [] else [.write (sessInit cfg)]) ++ [.linkUp]) ∧
      l'.ready = true ∧ l'.keep = (if cfg.keep = 0 ∨ keep = 0 then 0 else min cfg.keep keep) ∧
      l'.remoteSeg = min segMru xferMru ∧ l'.ring = some ⟨cfg.maxUnacked * (xferMru / min segMru xferMru + 1) + 9, []⟩ ∧
      ∃ n, Uri.parseUri false node = some (n, some 0) ∧ l'.remoteNode = n) ∧
    (¬ Welcome cfg node → handle cfg l (.init keep segMru xferMru node exts) = .ok (l, [.shutdown 4 false])) := by
  have hexp : ∀ n, Uri.parseUri false node = some (n, some 0) →
      (Welcome cfg node ↔ ¬ (expectedEid cfg ≠ [] ∧ node ≠ expectedEid cfg)) := by
    intro n hn
    unfold Welcome expectedEid
    by_cases he : cfg.expected = []
    · simp [he, hn]
    · rw [if_neg he]
      rcases hp : Uri.parseUri false cfg.expected with _ | ⟨m, sv⟩
      · simp [hn]
      · have hne : Uri.getIpnUriString m 0 ≠ [] := by simp [Uri.getIpnUriString]
        simp [hn, he, hne]
  have hseg : (if segMru > xferMru then xferMru else segMru) = min segMru xferMru := by
    split <;> omega
  have hseg0 : min segMru xferMru ≠ 0 := by omega
  have hsz : ((xferMru / min segMru xferMru + 1) % 2 ^ 64 * cfg.maxUnacked % 2 ^ 64 + 10) % 2 ^ 64 =
      cfg.maxUnacked * (xferMru / min segMru xferMru + 1) + 10 := by
    rw [Nat.mod_mul_mod, Nat.mul_comm (xferMru / min segMru xferMru + 1)]
    rw [Nat.mod_eq_of_lt (a := cfg.maxUnacked * (xferMru / min segMru xferMru + 1)) (by omega), Nat.mod_eq_of_lt (by omega)]
  have hkeep : negotiate cfg.keep keep = if cfg.keep = 0 ∨ keep = 0 then 0 else min cfg.keep keep := by
    unfold negotiate
    split_ifs <;> omega
  constructor
  · intro hw
    obtain ⟨n, hn⟩ := hw.1
    have he := (hexp n hn).1 hw
    refine ⟨{ l with
      remoteNode := n
      remoteSeg := min segMru xferMru
      remoteXfer := xferMru
      ring := some ⟨cfg.maxUnacked * (xferMru / min segMru xferMru + 1) + 9, []⟩
      keep := negotiate cfg.keep keep
      ready := true }, ?_, rfl, hkeep, rfl, rfl, n, hn, rfl⟩
    simp only [handle, onInit, hn, ne_eq, not_true_eq_false, if_false]
    rw [if_neg he, if_neg (by omega), hseg, if_neg hseg0, hsz, if_neg (by omega),
      Nat.mod_eq_of_lt (a := cfg.maxUnacked * (xferMru / min segMru xferMru + 1) + 10) h4]
    simp
  · intro hw
    simp only [handle, onInit]
    rcases hn : Uri.parseUri false node with _ | ⟨n, sv⟩
    · rfl
    · simp only
      by_cases hs : sv ≠ some 0
      · rw [if_pos hs]
      · push Not at hs
        subst hs
        have he : expectedEid cfg ≠ [] ∧ node ≠ expectedEid cfg := by
          by_contra hc
          exact hw ((hexp n hn).2 hc)
        simp only [ne_eq, not_true_eq_false, if_false]
        rw [if_pos he]

/-- Bob welcomes node 1, and no one else. -/
example : Welcome bob (Uri.getIpnUriString 1 0) ∧ ¬ Welcome bob (Uri.getIpnUriString 3 0) ∧ ¬ Welcome bob (Uri.getIpnUriString 1 7) ∧
    (bob.maxUnacked * (10 / min 4 10 + 1) + 10 ≤ bob.room) := by
  refine ⟨⟨⟨1, by decide +kernel⟩, ?_⟩, ?_, ?_, by decide⟩
  · intro n sv _ h
    have : Uri.parseUri false bob.expected = some (1, some 5) := by decide +kernel
    rw [this] at h
    cases h
    rfl
  · intro h
    have := h.2 1 (some 5) (by decide +kernel) (by decide +kernel)
    exact absurd this (by decide +kernel)
  · rintro ⟨⟨n, hn⟩, -⟩
    have : Uri.parseUri false (Uri.getIpnUriString 1 7) = some (1, some 7) := by decide +kernel
    rw [this] at hn
    cases hn

/-- Violated: a peer that says it takes bundles of 0 bytes makes the process divide by zero. -/
theorem C73_zero_violated : ∀ node, Welcome alice node → ∀ l keep segMru exts, 0 < segMru →
    handle alice l (.init keep segMru 0 node exts) = .error .divisionByZero := by
  intro node hw l keep segMru exts h0
  obtain ⟨n, hn⟩ := hw.1
  have he : expectedEid alice = [] := rfl
  simp only [handle, onInit, hn, he]
  simp only [ne_eq, not_true_eq_false, if_false, false_and]
  rw [if_neg (by omega)]
  simp [h0]

/-- Violated: an acknowledgement that comes before the session is initialised makes the process use a null pointer. -/
theorem C73_ack_violated (s e : Bool) (id n : Nat) : handleAll bob newLink [.contact false, .ack s e id n] =
    .error .nullPointer := rfl

/-- Violated: a peer that says it takes bundles of 2^40 bytes in segments of one byte makes the process allocate vectors for
that many acknowledgements, and run out of memory. -/
theorem C73_memory_violated : handle { alice with room := 2 ^ 36 } newLink (.init 20 1 (2 ^ 40) (Uri.getIpnUriString 2 0) []) =
    .error .outOfMemory := by decide +kernel

/-- Violated: an entity that requires TLS, and that has refused a peer without TLS, still delivers what this peer sends. -/
theorem C73_tls_violated : ∃ l effs, handleAll { bob with tlsRequired := true } newLink
      [.contact false, .data [1, 2] true true 0 []] = .ok (l, effs) ∧ deliveries effs = [[1, 2]] ∧ l.usingTls = false :=
  ⟨_, _, rfl, rfl, rfl⟩

/-- Violated: a peer that never initialises the session has its bundles delivered all the same. -/
theorem C73_early_violated : ∃ l effs, handleAll bob newLink [.contact false, .data [1, 2] true true 0 []] = .ok (l, effs) ∧
    deliveries effs = [[1, 2]] ∧ l.ready = false := ⟨_, _, rfl, rfl, rfl⟩

/-- Violated: when the configured name of the peer cannot be understood, every peer is welcome, instead of none (the log
says that the connection will fail). -/
theorem C73_expected_violated (n : Nat) (hn : n < 2 ^ 64) : Welcome { bob with expected := [105, 112, 110, 58, 49] }
    (Uri.getIpnUriString n 0) := by
  refine ⟨⟨n, (Uri.C53_round_trip n 0 hn (by decide)).2 false⟩, ?_⟩
  intro m sv _ h
  have : Uri.parseUri false [105, 112, 110, 58, 49] = none := by decide +kernel
  rw [this] at h
  cases h

/-- Violated: a critical extension that is unknown does not make the session fail, although the log says so. -/
theorem C73_critical_violated (l : Link) (exts : List TcpclV4.Ext) (keep segMru xferMru : Nat) (node : Bytes) (cfg : Cfg) :
    handle cfg l (.init keep segMru xferMru node exts) = handle cfg l (.init keep segMru xferMru node []) := rfl

end Hdtn.TcpclV4Link
