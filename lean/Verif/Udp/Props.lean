import Verif.Udp.Rate
import Mathlib.Data.List.Induction

/-!
C86: every bundle given to a UDP source is accounted for.  C87: a UDP source keeps to its rate.
C88: datagrams are given to the user of a UDP sink as they came.
-/

namespace Hdtn.Udp

open Spec TokenBucket

/-- **C86**, for bundles given in one form only (vectors or ZeroMQ messages): in every history, those
taken are, in order, the ones sent (`good`), the ones that failed (`lost`) and the ones pending.
Those sent are reported as such, in order and once; their datagrams are what was sent.  While the
source is ready none has failed. -/
theorem C86_accounted_partial (cfg : Cfg) (zmq : Bool) {es : List Event} (hk : OneKind zmq es) {s : Source}
    (hs : Source.init.run cfg es = some s) :
    ∃ good lost, taken cfg Source.init es = good ++ lost ++ pending s ∧
      s.notes = good.map (fun p => .sent p.tag) ∧ s.wire = good.map (·.bytes) ∧
      (s.ready = true → lost = []) := by
  obtain ⟨good, lost, h⟩ := run_inv es hk (init_inv zmq) hs
  rw [List.nil_append] at h
  exact ⟨good, lost, h.whole, h.notes, h.wire, fun hr => (h.good (.inl hr)).1⟩

/-- With a rate of 1000 bytes per second and a bucket of 100 bytes: two packets wait for tokens. -/
def exampleCfg : Cfg := ⟨5, 100000, 20000⟩

def pkt (n tag : Nat) : Pkt := ⟨true, List.replicate n 7, tag⟩

def exampleEvents : List Event :=
  [.setRate 8000, .resolved, .forward (pkt 120 1), .forward (pkt 10 2), .forward (pkt 10 3), .runPost,
    .runPost, .runPost, .done, .passes 20000, .expire, .done]

example : (Source.init.run exampleCfg exampleEvents).map (fun s => (s.notes, s.zmqQ.length, s.ready)) =
    some ([.sent 1, .sent 2], 1, true) := by decide +kernel

example : OneKind true exampleEvents := by
  intro p hp
  simp only [exampleEvents, List.mem_cons, List.not_mem_nil, reduceCtorEq, Event.forward.injEq, false_or,
    or_false] at hp
  rcases hp with rfl | rfl | rfl <;> rfl

/-- **C86**, the call: it takes the bundle exactly if the source is ready and fewer than the allowed
number wait to be acknowledged. -/
theorem C86_takes (cfg : Cfg) (s : Source) (p : Pkt) :
    (s.forward cfg p).2 = true ↔ s.ready = true ∧ s.toAck.length < cfg.maxUnacked + 9 := by
  unfold Source.forward
  split
  · rename_i h; simp [h]
  · rename_i h
    split
    · rename_i h'
      simp only [Bool.false_eq_true, false_iff, not_and]
      intro _; omega
    · rename_i h'
      simp only [true_iff]
      exact ⟨by simpa using h, by omega⟩

/-- **C86 fails** when both forms are mixed and tokens run short: vectors go before messages, so that
a message that was given first is acknowledged when the vector is sent (1 is reported sent, 2
was), or, if the sizes differ, the source closes its socket for good. -/
theorem C86_mixed_violated :
    let es := fun n : Nat => [.setRate 8000, .resolved, .forward (pkt 200 0), .runPost, .done, .forward (pkt 10 1),
      .forward ⟨false, List.replicate n 8, 2⟩, .runPost, .runPost, .passes 120000, .expire, .done]
    ((Source.init.run exampleCfg (es 10)).map (fun s => (s.notes, s.wire.drop 1))) =
      some ([.sent 0, .sent 1], [List.replicate 10 8]) ∧
    ((Source.init.run exampleCfg (es 11)).map (fun s => (s.notes, s.wire.drop 1, s.ready))) =
      some ([.sent 0], [List.replicate 11 8], false) := by decide +kernel

/-- **C86 fails** for bundles whose sending fails: nobody is ever told of a failure, in any history. -/
theorem C86_failed_violated (cfg : Cfg) (es : List Event) {s : Source}
    (hs : Source.init.run cfg es = some s) : ∀ b tag, .failed b tag ∉ s.notes := by
  have key : ∀ (es : List Event) (s s' : Source), (∀ b tag, .failed b tag ∉ s.notes) →
      s.run cfg es = some s' → ∀ b tag, .failed b tag ∉ s'.notes := by
    intro es
    induction es with
    | nil => intro s s' h hs; rw [← Option.some.inj hs]; exact h
    | cons e es ih =>
      intro s s' h hs
      simp only [Source.run, Option.bind_eq_bind, Option.bind_eq_some_iff] at hs
      obtain ⟨s1, h1, h2⟩ := hs
      refine ih s1 s' ?_ h2
      cases e with
      | setRate r => obtain ⟨l, rfl⟩ := setRate_eq h1; exact h
      | resolved =>
        rw [← Option.some.inj h1]
        unfold Source.resolved
        split <;> exact h
      | forward p =>
        rw [← Option.some.inj h1]
        unfold Source.forward
        split
        · exact h
        · split <;> exact h
      | runPost =>
        rcases runPost_cases h1 with ⟨_, rfl⟩ | ⟨p, rest, q, s2, hp, h3, h4⟩
        · exact h
        · obtain ⟨pre, _, hsent⟩ := sendFront_sent h3
          rw [h4, restart_eq, hsent]
          split <;> exact h
      | expire =>
        simp only [Source.step, Source.expire] at h1
        split at h1
        · split at h1
          · rw [← Option.some.inj h1]; exact h
          · simp only [Option.bind_eq_bind, Option.bind_eq_some_iff] at h1
            obtain ⟨l, _, h1⟩ := h1
            obtain ⟨q, s2, h3, h4⟩ := drainAll_cases h1
            obtain ⟨pre, _, hsent⟩ := drain_sent h3
            rcases h4 with ⟨_, h4⟩ | ⟨_, q', s3, h5, h6⟩
            · rw [h4, restart_eq, hsent]; exact h
            · obtain ⟨pre', _, hsent'⟩ := drain_sent h5
              rcases h6 with h6 | ⟨_, h6, _⟩
              · rw [h6, restart_eq, hsent', hsent]; exact h
              · rw [h6, hsent', hsent]; exact h
        · rw [← Option.some.inj h1]; exact h
      | done =>
        rw [← Option.some.inj h1]
        split
        · unfold Source.done
          split
          · exact h
          · unfold Source.processSent
            cases s.toAck with
            | nil => exact h
            | cons x l =>
              obtain ⟨size, tag⟩ := x
              rename_i p rest _
              by_cases hx : size = p.bytes.length
              · simp only [hx, if_true]
                intro b tag hm
                rcases List.mem_append.mp hm with hm | hm
                · exact h b tag hm
                · simp at hm
              · simp only [hx, if_false]
                exact h
        · exact h
      | fails =>
        rw [← Option.some.inj h1]
        unfold Source.fails
        split <;> exact h
      | passes d => rw [← Option.some.inj h1]; exact h
  exact key es _ _ (by simp [Source.init]) hs

/-- Such a bundle: it was taken, it is not pending, and there is no note of it. -/
example : (Source.init.run exampleCfg [.resolved, .forward (pkt 1 1), .runPost, .fails]).map
    (fun s => (s.notes, (pending s).length, s.ready)) = some ([], 0, false) := by decide +kernel

/-- **C87**, the rate.  From the moment a rate is set, in any history without another change of it,
with packets of at most `P` bytes: in any period before a send is started, the bytes started are at
most two full buckets, one packet, and the rate times the length of the period.  (All terms are
multiplied by the ticks of a second; a bucket is the rate times the window.) -/
theorem C87_rate_partial (cfg : Cfg) (P r : Nat) {es es' : List Event} {s0 s1 s : Source} (hr : 0 < r)
    (hP : P * 1000000 < 2 ^ 63) (h1 : ∀ p, .forward p ∈ es ++ es' → p.bytes.length ≤ P)
    (hs0 : Source.init.run cfg es = some s0) (hs1 : s0.setRate cfg r = some s1) (hk : RateKept es')
    (hs : s1.run cfg es' = some s) {before period after : List Mark} {n : Nat}
    (hl : s.log = s1.log ++ before ++ period ++ .started n :: after) :
    bytesOf period * 1000000 ≤
      2 * (r / 8 * cfg.window) + P * 1000000 + r / 8 * timeOf period := by
  have hb0 := basic_run (P := P) es (fun p hp => h1 p (List.mem_append_left _ hp))
    (basic_init cfg P) hs0
  have hb1 : Basic cfg P s1 := basic_step (.setRate r) (fun p hp => by cases hp) hb0 hs1
  have hI : ((second : Nat) : Int) = 1000000 := rfl
  have hM : ((P : Nat) : Int) * (second : Nat) < 2 ^ 63 := by rw [hI]; omega
  obtain ⟨l, hl1, hl2⟩ : ∃ l, TokenBucket.setRate ((r / 8 : Nat) : Int) second cfg.window = some l ∧
      s1 = { s0 with rate := r, limiter := l } := by
    unfold Source.setRate at hs1
    cases hl : TokenBucket.setRate ((r / 8 : Nat) : Int) second cfg.window with
    | none => rw [hl] at hs1; cases hs1
    | some l => rw [hl] at hs1; exact ⟨l, rfl, (Option.some.inj hs1).symm⟩
  have hl3 : l = ⟨((r / 8 : Nat) : Int), second, ((r / 8 : Nat) : Int) * cfg.window,
      ((r / 8 : Nat) : Int) * cfg.window⟩ := by
    unfold TokenBucket.setRate at hl1
    simp only [Option.bind_eq_bind, Option.bind_eq_some_iff, Option.some.injEq] at hl1
    obtain ⟨x, hx, hl1⟩ := hl1
    rw [← hl1, fit_eq _ _ hx]
  have hL : (0 : Int) ≤ ((r / 8 : Nat) : Int) * cfg.window := by positivity
  have hinv : RateInv (second : Nat) (((r / 8 : Nat) : Int) * cfg.window) ((r / 8 : Nat) : Int)
      (P * (second : Nat)) s1.log s1 := by
    refine ⟨?_, ?_, ?_, ?_, ?_, ?_, hb1.last, [], by simp, ?_, ?_⟩
    · rw [hl2]
      show r ≠ 0
      omega
    · rw [hl2, hl3]
    · rw [hl2, hl3]
    · rw [hl2, hl3]
    · rw [hl2, hl3]
    · rw [hl2, hl3]
      have : (0 : Int) ≤ (P : Int) * (second : Nat) := by positivity
      show -((P : Int) * (second : Nat)) ≤ ((r / 8 : Nat) : Int) * cfg.window
      omega
    · intro a b hab
      have := (List.append_eq_nil_iff.mp hab.symm).2
      subst this
      refine fair_nil ?_
      rw [hl2, hl3]
    · intro a b n c hc
      have := congrArg List.length hc
      simp at this
  have := rate_run (by rw [hI]; decide) hL (by omega) hM es' hk
    (fun p hp => h1 p (List.mem_append_right _ hp)) hb1 hinv hs
  obtain ⟨more, m1, _, m3⟩ := this.more
  rw [m1, List.append_assoc, List.append_assoc] at hl
  have hmore := List.append_cancel_left hl
  rw [← List.append_assoc] at hmore
  have hfin := m3 before period n after hmore
  rw [hI] at hfin
  have : ((bytesOf period * 1000000 : Nat) : Int) ≤
      ((2 * (r / 8 * cfg.window) + P * 1000000 + r / 8 * timeOf period : Nat) : Int) := by
    push_cast at hfin ⊢
    exact hfin
  exact_mod_cast this

/-- **C87**, nothing is stuck: in every history, if a packet is queued then the refresh timer runs
and is due within one refresh interval; and when it expires, all queued packets are handed to the
operating system unless the tokens are used up. -/
theorem C87_refresh (cfg : Cfg) {es : List Event} {s : Source} (hs : Source.init.run cfg es = some s) :
    (s.vecQ ≠ [] ∨ s.zmqQ ≠ [] → ∃ due, s.timer = some due ∧ due ≤ s.now + cfg.refresh) ∧
    (∀ due s', s.timer = some due → due ≤ s.now → s.expire cfg = some s' →
      (s'.vecQ = [] ∧ s'.zmqQ = []) ∨ (s'.rate ≠ 0 ∧ s'.limiter.remain < 0)) := by
  obtain ⟨P, hP⟩ : ∃ P, ∀ p, .forward p ∈ es → p.bytes.length ≤ P := by
    clear hs
    induction es with
    | nil => exact ⟨0, fun p hp => by cases hp⟩
    | cons e es ih =>
      obtain ⟨P, hP⟩ := ih
      cases e with
      | forward q =>
        refine ⟨max P q.bytes.length, fun p hp => ?_⟩
        rcases List.mem_cons.mp hp with hp | hp
        · injection hp with hp
          rw [hp]; exact Nat.le_max_right ..
        · exact (hP p hp).trans (Nat.le_max_left ..)
      | _ =>
        refine ⟨P, fun p hp => ?_⟩
        rcases List.mem_cons.mp hp with hp | hp
        · cases hp
        · exact hP p hp
  have hb := basic_run (P := P) es hP (basic_init cfg P) hs
  constructor
  · intro hq
    have := hb.runs hq
    cases ht : s.timer with
    | none => exact absurd ht this
    | some d => exact ⟨d, rfl, (hb.due d ht).1⟩
  · intro due s' ht hd he
    cases hl : s.last with
    | none => exact absurd hl (hb.due due ht).2
    | some t =>
      unfold Source.expire at he
      rw [ht, hl] at he
      simp only at he
      rw [if_neg (by omega)] at he
      simp only [Option.bind_eq_bind, Option.bind_eq_some_iff] at he
      obtain ⟨l, _, he⟩ := he
      obtain ⟨q, s1, h1, h2⟩ := drainAll_cases he
      rcases h2 with ⟨hne, h2⟩ | ⟨rfl, q', s3, h3, h4⟩
      · right
        rcases drain_end h1 with hq | hq
        · exact absurd hq hne
        · rw [h2, restart_eq]; exact hq
      · rcases drain_end h3 with hq | hq
        · left
          obtain ⟨pre, _, hsent⟩ := drain_sent h3
          rcases h4 with h4 | ⟨_, h4, _⟩
          · rw [h4, restart_eq, hsent]
            exact ⟨rfl, hq⟩
          · rw [h4, hsent]
            exact ⟨rfl, rfl⟩
        · right
          rcases h4 with h4 | ⟨_, h4, _⟩
          · rw [h4, restart_eq]; exact hq
          · rw [h4]; exact hq

example : ((Source.init.run exampleCfg (exampleEvents.take 8)).map (fun s => (s.zmqQ.length, s.timer))) =
    some (2, some 20000) := by decide +kernel

/-- **C87 fails**: after a pause (the timer does not run while the bucket is full, and its last run
is counted from) the next refresh fills the bucket, whatever its time.  With 1000 bytes per second
and a bucket of 100 bytes, 300 bytes are started within 20 milliseconds before the last send, where
one bucket, one packet and the rate would allow 100 + 100 + 20. -/
def burst : List Event :=
  [.setRate 8000, .resolved, .forward (pkt 1 0), .runPost, .done, .passes 20000, .expire,
    .passes 1000000, .forward (pkt 100 1), .runPost, .forward (pkt 100 2), .runPost, .forward (pkt 100 3),
    .runPost, .passes 20000, .expire, .forward (pkt 100 4), .runPost]

theorem C87_burst_violated : (Source.init.run exampleCfg burst).map (fun s => s.log.drop 4) =
    some [.started 100, .started 100, .passed 20000, .refreshed, .started 100, .started 100] := by
  decide +kernel

/-- **C87 fails** at high rates: after a pause the time is multiplied with the rate before it is cut
to the bucket, which overflows.  At 8 Gbit/s a pause of three hours is enough. -/
theorem C87_pause_violated : Source.init.run exampleCfg
    [.setRate 8000000000, .resolved, .forward (pkt 1 0), .runPost, .done, .passes 20000, .expire,
      .passes 10800000000, .forward (pkt 1 1), .runPost, .passes 20000, .expire] = none := by
  have h : (Source.init.run exampleCfg
    [.setRate 8000000000, .resolved, .forward (pkt 1 0), .runPost, .done, .passes 20000, .expire,
      .passes 10800000000, .forward (pkt 1 1), .runPost, .passes 20000, .expire]).isNone = true := by
    decide +kernel
  exact Option.isNone_iff_eq_none.mp h

/-- The datagrams kept in a history: all but those that arrive while the ring is full. -/
theorem sink_run (cfg : SinkCfg) (es : List SinkEvent) :
    ∃ keep : List Bytes, keep.Sublist (arrivals es) ∧
      keep.length + (Sink.run cfg es).overruns = (arrivals es).length ∧
      (Sink.run cfg es).delivered ++ (Sink.run cfg es).ring = keep.map (·.take cfg.maxSize) ∧
      (0 < cfg.slots → (Sink.run cfg es).ring.length < cfg.slots) ∧
      ((arrivals es).length < cfg.slots → (Sink.run cfg es).overruns = 0) := by
  induction es using List.reverseRecOn with
  | nil => exact ⟨[], by simp [arrivals], by simp [arrivals, Sink.run], by simp [Sink.run],
      by simp [Sink.run], by simp [Sink.run]⟩
  | append_singleton es e ih =>
    obtain ⟨keep, h1, h2, h3, h4, h5⟩ := ih
    have harr : ∀ e', arrivals (es ++ [e']) = arrivals es ++ arrivals [e'] := by
      intro e'
      clear h1 h2 h3 h4 h5
      induction es with
      | nil => rfl
      | cons a es ih => cases a <;> simp [arrivals, ih]
    have hrun : Sink.run cfg (es ++ [e]) = (Sink.run cfg es).step cfg e := by
      simp [Sink.run, List.foldl_append]
    rw [hrun, harr]
    have hring : (Sink.run cfg es).ring.length ≤ keep.length := by
      have := congrArg List.length h3
      simp only [List.length_append, List.length_map] at this
      omega
    cases e with
    | datagram d =>
      simp only [Sink.step, Sink.receive, arrivals]
      split
      · rename_i hf
        refine ⟨keep, h1.trans (List.sublist_append_left _ _), ?_, h3, h4, ?_⟩
        · simp only [List.length_append, List.length_cons, List.length_nil]; omega
        · simp only [List.length_append, List.length_cons, List.length_nil]
          intro hlt
          have := h5 (by omega)
          omega
      · rename_i hf
        refine ⟨keep ++ [d], h1.append (List.Sublist.refl _), ?_, ?_, ?_, ?_⟩
        · simp only [List.length_append, List.length_cons, List.length_nil]; omega
        · rw [← List.append_assoc, h3]; simp
        · simp only [List.length_append, List.length_cons, List.length_nil]
          intro _; omega
        · simp only [List.length_append, List.length_cons, List.length_nil]
          intro hlt
          exact h5 (by omega)
    | pop =>
      simp only [Sink.step, Sink.pop, arrivals, List.append_nil]
      cases hr : (Sink.run cfg es).ring with
      | nil => exact ⟨keep, h1, h2, h3, h4, h5⟩
      | cons d rest =>
        refine ⟨keep, h1, h2, ?_, ?_, h5⟩
        · rw [← h3, hr]; simp
        · intro h0
          have := h4 h0
          rw [hr, List.length_cons] at this
          show rest.length < _
          omega

/-- **C88**, for datagrams no larger than the limit: in every history, what the user was given and
what waits in the ring are datagrams that arrived (`keep`), unchanged and in order, and the
others are counted as overruns.  There are none as long as fewer datagrams than the ring has slots
have arrived. -/
theorem C88_delivered_partial (cfg : SinkCfg) (es : List SinkEvent)
    (hsize : ∀ d ∈ arrivals es, d.length ≤ cfg.maxSize) :
    ∃ keep : List Bytes, keep.Sublist (arrivals es) ∧
      (Sink.run cfg es).delivered ++ (Sink.run cfg es).ring = keep ∧
      keep.length + (Sink.run cfg es).overruns = (arrivals es).length ∧
      ((arrivals es).length < cfg.slots → (Sink.run cfg es).overruns = 0) := by
  obtain ⟨keep, h1, h2, h3, _, h5⟩ := sink_run cfg es
  refine ⟨keep, h1, ?_, h2, h5⟩
  rw [h3]
  have : keep.map (·.take cfg.maxSize) = keep.map id :=
    List.map_congr_left fun d hd => List.take_of_length_le (hsize d (h1.subset hd))
  rw [this, List.map_id]

/-- **C88**, a datagram is lost only while the ring is full, and then the counter goes up. -/
theorem C88_lost (cfg : SinkCfg) (s : Sink) (d : Bytes) :
    (s.receive cfg d).delivered = s.delivered ∧
    (if s.ring.length + 1 < cfg.slots
     then (s.receive cfg d).ring = s.ring ++ [d.take cfg.maxSize] ∧ (s.receive cfg d).overruns = s.overruns
     else (s.receive cfg d).ring = s.ring ∧ (s.receive cfg d).overruns = s.overruns + 1) := by
  unfold Sink.receive
  split <;> split <;> first | omega | simp

example : (fun s : Sink => (s.delivered, s.ring, s.overruns))
    (Sink.run ⟨3, 4⟩ [.datagram [1, 2], .datagram [3], .datagram [4], .pop, .datagram [5, 6, 7, 8], .pop]) =
      ([[1, 2], [3]], [[5, 6, 7, 8]], 1) := by decide +kernel

/-- **C88 fails** for larger datagrams: the user is given the first bytes as if they were all. -/
theorem C88_cut_violated (cfg : SinkCfg) (d : Bytes) (hs : 1 < cfg.slots) (hd : cfg.maxSize < d.length) :
    (Sink.run cfg [.datagram d, .pop]).delivered = [d.take cfg.maxSize] ∧ d.take cfg.maxSize ≠ d ∧
    (Sink.run cfg [.datagram d, .pop]).overruns = 0 := by
  have h : ¬ cfg.slots ≤ 1 := by omega
  refine ⟨?_, ?_, ?_⟩
  · simp [Sink.run, Sink.step, Sink.receive, Sink.pop, h]
  · intro he
    have := congrArg List.length he
    rw [List.length_take] at this
    omega
  · simp [Sink.run, Sink.step, Sink.receive, Sink.pop, h]

end Hdtn.Udp
