import Verif.LtpReceiver.Answer

/-!
C13: delivery of the red part. C14: no access outside the buffers. C20 (receiving side): bounded
retransmission of reports. C57: reports. C58: answers to checkpoints. C59: the end of a session.
-/

namespace Hdtn.LtpReceiver
open Hdtn.FragmentSet Hdtn.LtpReport

theorem AllSane.events {evs : List Event} (h : AllSane evs) : ∀ e ∈ evs, e.Sane := by
  intro e he
  cases e with
  | data s => exact h s he
  | _ => exact trivial

theorem Faithful.sane {red : Bytes} {evs : List Event} (h : Faithful red evs) : AllSane evs :=
  fun s hs => (h.1 s hs).toSane

/-! ### C13 -/

open Classical in
/-- C13: however the segments of a block arrive, the red part is delivered exactly if all of it and its
end have arrived, once, with the sender's bytes. -/
theorem C13_delivery (cfg : Cfg) (hc : cfg.Sane) (red : Bytes) (hpos : 1 ≤ red.length)
    (hmax : red.length ≤ cfg.maxRedRx) (serial : Nat) (evs : List Event) (hf : Faithful red evs) :
    ∃ st effs, run cfg (init serial) evs = some (st, effs) ∧
      deliveries effs = if Arrived red evs then [(red, red.length)] else [] := by
  obtain ⟨st, effs, h1, h2⟩ := honest_run cfg hc red hpos hmax serial evs hf.1 hf.2
  refine ⟨st, effs, h1, ?_⟩
  rw [h2.delivered]
  simp only [h2.tracks.done]

/-- C13: it is delivered by the red segment with which everything has arrived, with the service number of
that segment, and marked as the whole block exactly if the block was by then known to end in red. -/
theorem C13_delivery_moment (cfg : Cfg) (hc : cfg.Sane) (red : Bytes) (hpos : 1 ≤ red.length)
    (hmax : red.length ≤ cfg.maxRedRx) (serial : Nat) (evs : List Event) (hf : Faithful red evs)
    (st : State) (effs : List Eff) (hr : run cfg (init serial) evs = some (st, effs))
    (d : Bytes) (n v : Nat) (b : Bool) (he : Eff.red d n v b ∈ effs) :
    d = red ∧ n = red.length ∧
    ∃ pre s post, evs = pre ++ Event.data s :: post ∧ s.IsRed ∧ v = s.service ∧
      Arrived red (pre ++ [Event.data s]) ∧ ¬ Arrived red pre ∧
      (b = true ↔ EndedByRed (pre ++ [Event.data s])) := by
  obtain ⟨st', effs', h1, h2⟩ := honest_run cfg hc red hpos hmax serial evs hf.1 hf.2
  rw [hr] at h1
  simp only [Option.some.injEq, Prod.mk.injEq] at h1
  obtain ⟨rfl, rfl⟩ := h1
  have hm : (d, n) ∈ deliveries effs := List.mem_filterMap.2 ⟨_, he, rfl⟩
  rw [h2.delivered] at hm
  split at hm
  · simp only [List.mem_singleton, Prod.mk.injEq] at hm
    obtain ⟨pre, s, post, w1, w2, w3, w4, w5, w6⟩ := h2.service d n v b he
    exact ⟨hm.1, hm.2, pre, s, post, w1, w2, w3, w5, w6, w4⟩
  · simp at hm

def exRed : Bytes := [10, 11, 12, 13, 14, 15, 16, 17, 18, 19]
def exCfg : Cfg := ⟨2, 1000, 2, true⟩
def exSeg (flags offset length : Nat) (cp : Option (Nat × Nat)) : Seg :=
  ⟨flags, 1, offset, length, cp, some ((exRed.drop offset).take length)⟩

/-- Out of order, overlapping, with a copy. -/
def exEvs : List Event :=
  [.data (exSeg 3 6 4 (some (5, 0))), .data (exSeg 0 2 5 none), .data (exSeg 3 6 4 (some (5, 0))),
   .next, .data (exSeg 0 0 3 none), .next, .ack 100]

theorem exSane : exCfg.Sane := ⟨by decide, by decide⟩

theorem exFaithful : Faithful exRed exEvs := by
  constructor
  · intro s hs
    simp only [exEvs, List.mem_cons, Event.data.injEq, reduceCtorEq, List.not_mem_nil, or_false,
      false_or] at hs
    rcases hs with rfl | rfl | rfl | rfl <;>
      exact { flags := by decide, nonempty := by decide, noWrap := by decide,
              bytes := ⟨_, rfl, by decide⟩, red_inside := by decide, red_bytes := fun _ => rfl,
              red_end := by decide, green_after := by decide, serials := by decide }
  · intro s t a b c hs ht h1 h2 _ _
    simp only [exEvs, List.mem_cons, Event.data.injEq, reduceCtorEq, List.not_mem_nil, or_false,
      false_or] at hs ht
    rcases hs with rfl | rfl | rfl | rfl <;> rcases ht with rfl | rfl | rfl | rfl <;>
      first
        | exact ⟨rfl, rfl, rfl⟩
        | exact absurd h1 (by decide)
        | exact absurd h2 (by decide)

example : (run exCfg (init 100) exEvs).map Prod.snd = some
    [.producible, .red exRed 10 1 true, .send 100 5 ⟨0, 10, [⟨0, 10⟩]⟩, .delete false .reserved] := by
  decide +kernel

example : 1 ≤ exRed.length ∧ exRed.length ≤ exCfg.maxRedRx := by decide

/-! ### C14 -/

/-- C14, for segments that come with their bytes and whose end is a 64-bit number: whatever their
offsets, lengths, colours, flags and serial numbers, in whatever order they arrive, every copy stays
inside its buffers and the data held never exceeds the limit. Missing: segments whose end
exceeds 64 bits, and segments reported without their data. -/
theorem C14_safe_partial (cfg : Cfg) (hc : cfg.Sane) (serial : Nat) (evs : List Event)
    (hs : AllSane evs) :
    ∃ st effs, run cfg (init serial) evs = some (st, effs) ∧ st.data.length ≤ cfg.maxRedRx := by
  obtain ⟨st, effs, h1, h2⟩ := run_inv cfg hc _ (init_inv cfg serial) evs hs.events
  exact ⟨st, effs, h1, h2.max⟩

/-- The segments of the example are sane, and so is one that claims a huge offset. -/
example : AllSane (.data ⟨0, 1, 2 ^ 64 - 30, 20, none, some (List.replicate 20 7)⟩ :: exEvs) := by
  intro s hs
  rcases List.mem_cons.1 hs with h | h
  · simp only [Event.data.injEq] at h
    subst h
    exact ⟨by decide, by decide, by decide, _, rfl, by decide⟩
  · exact exFaithful.sane s h

example : (run exCfg (init 100) [.data ⟨0, 1, 2 ^ 64 - 30, 20, none, some (List.replicate 20 7)⟩]).map
    Prod.snd = some [.delete true .systemCancelled] := by decide +kernel

/-- C14 is violated: the end of a segment at offset 2^64 - 10 with 20 bytes is taken to be 10, so the
size limit does not apply, and the bytes are copied far outside the buffer. -/
theorem C14_wrap_violated :
    step exCfg (init 100) (.data ⟨0, 1, 2 ^ 64 - 10, 20, none, some (List.replicate 20 7)⟩) = none := by
  decide +kernel

/-- C14 is violated: a data segment reported without its data (see `C19_missing_data`) is copied from a
null pointer. -/
theorem C14_missing_data_violated :
    step exCfg (init 100) (.data ⟨0, 1, 0, 20, none, none⟩) = none := by
  decide +kernel

/-! ### C57 -/

/-- C57: whatever arrives, a report that is sent has the form RFC 5326 asks for, has at most the configured
number of claims, and claims only bytes that have arrived. -/
theorem C57_reports_honest (cfg : Cfg) (hc : cfg.Sane) (serial : Nat) (evs : List Event)
    (hs : AllSane evs) :
    ∃ st effs, run cfg (init serial) evs = some (st, effs) ∧
      ∀ n c r, Eff.send n c r ∈ effs →
        r.WellFormed ∧ r.claims.length ≤ cfg.maxClaims ∧ ∀ x, r.Claims x → Got evs x := by
  obtain ⟨st, effs, h1, h2⟩ := story_run cfg hc serial evs hs.events
  refine ⟨st, effs, h1, fun n c r he => ?_⟩
  obtain ⟨w1, -, w3, w4⟩ := h2.inv.sent_ok _ (h2.sends n c r he)
  exact ⟨w1, w3, fun x hx => h2.got x (w4 x hx)⟩

/-- C57: for the segments of one block, a report claims exactly the bytes of its scope that had arrived at
some moment. -/
theorem C57_reports_exact (cfg : Cfg) (hc : cfg.Sane) (red : Bytes) (hpos : 1 ≤ red.length)
    (hmax : red.length ≤ cfg.maxRedRx) (serial : Nat) (evs : List Event) (hf : Faithful red evs) :
    ∃ st effs, run cfg (init serial) evs = some (st, effs) ∧
      ∀ n c r, Eff.send n c r ∈ effs → ∃ pre, pre <+: evs ∧
        r.WellFormed ∧ r.claims.length ≤ cfg.maxClaims ∧ r.upper ≤ red.length ∧
        ∀ x, r.Claims x ↔ r.InScope x ∧ Got pre x := by
  obtain ⟨st, effs, h1, h2⟩ := honest_run cfg hc red hpos hmax serial evs hf.1 hf.2
  refine ⟨st, effs, h1, fun n c r he => ?_⟩
  obtain ⟨pre, w1, w2, w3, w4⟩ := h2.exact_ _ (h2.sends n c r he)
  obtain ⟨-, w5, -⟩ := h2.inv.sent_ok _ (h2.sends n c r he)
  have h3 := h2.inv.le
  have h4 := h2.tracks.curRed
  exact ⟨pre, w1, w2, w3, by simp only at w5; omega, w4⟩

/-- A report in two pieces with the two claims each that fit. -/
example : (run ⟨2, 1000, 2, false⟩ (init 100)
      [.data (exSeg 0 0 1 none), .data (exSeg 0 2 1 none), .data (exSeg 0 5 1 none),
       .data (exSeg 3 8 2 (some (5, 0))), .next, .next]).map Prod.snd =
    some [.producible, .producible, .send 100 5 ⟨0, 3, [⟨0, 1⟩, ⟨2, 1⟩]⟩,
      .send 101 5 ⟨3, 10, [⟨2, 1⟩, ⟨5, 2⟩]⟩] := by
  decide +kernel

/-! ### C58 -/

/-- C58, for the segments of one block: a new checkpoint that arrives before the red part is complete is
answered. Once its timer has expired and the engine has asked often enough for packets, reports
carrying its serial number have been sent whose scopes tile the stretch from a lower bound to the end of the
checkpoint. The lower bound is that of the report the checkpoint answers, or else the end of an earlier
report, sent or held back. Exceptions: a report reaching as far was sent or is held back; or a report held back
overlaps (see `C58_violated`). -/
theorem C58_checkpoint_answered_partial (cfg : Cfg) (hc : cfg.Sane) (red : Bytes)
    (hpos : 1 ≤ red.length) (hmax : red.length ≤ cfg.maxRedRx) (serial : Nat)
    (hserial : serial < 2 ^ 64) (evs : List Event) (s : Seg) (hf : Faithful red (evs ++ [.data s]))
    (hcp : s.IsCheckpoint) (csn rsn : Nat) (hck : s.checkpoint = some (csn, rsn))
    (hfresh : ∀ t r, Event.data t ∈ evs → t.IsCheckpoint → t.checkpoint ≠ some (csn, r))
    (hopen : ¬ Arrived red evs) :
    ∃ st effs, run cfg (init serial) evs = some (st, effs) ∧
    ∃ m st' effs', run cfg (init serial)
        (evs ++ .data s :: .delayExpired csn :: List.replicate m .next) = some (st', effs') ∧
      (effs'.count .producible ≤ 2 ^ 64 →
        (∃ l ps, Tiles l (s.offset + s.length) ps ∧ (∀ p ∈ ps, ∃ n, Eff.send n csn p ∈ effs') ∧
          (rsn ≠ 0 → ∀ c r, Eff.send rsn c r ∈ effs → l = r.lower) ∧
          (rsn = 0 → l = 0 ∨ (∃ n c r, Eff.send n c r ∈ effs' ∧ l = r.upper) ∨
            ∃ p ∈ st.pending, l = p.range.e + 1)) ∨
        (∃ n c r, Eff.send n c r ∈ effs' ∧ s.offset + s.length ≤ r.upper) ∨
        (∃ p ∈ st.pending, s.offset + s.length ≤ p.range.e + 1) ∨
        (cfg.deferral = true ∧ ∃ p ∈ st.pending, p.range.b < s.offset + s.length)) :=
  checkpoint_answered cfg hc red hpos hmax serial hserial evs s hf.1 hf.2 hcp csn rsn hck hfresh hopen

/-- The first segment of the example is such a checkpoint. -/
example : Faithful exRed ([] ++ [.data (exSeg 3 6 4 (some (5, 0)))]) ∧
    (exSeg 3 6 4 (some (5, 0))).IsCheckpoint ∧ ¬ Arrived exRed [] := by
  refine ⟨⟨fun s hs => exFaithful.1 s ?_, fun s t a b c hs ht => exFaithful.2 s t a b c ?_ ?_⟩,
    by decide, fun h => ?_⟩
  · simp only [List.nil_append, List.mem_singleton, Event.data.injEq] at hs
    subst hs; simp [exEvs]
  · simp only [List.nil_append, List.mem_singleton, Event.data.injEq] at hs
    subst hs; simp [exEvs]
  · simp only [List.nil_append, List.mem_singleton, Event.data.injEq] at ht
    subst ht; simp [exEvs]
  · obtain ⟨s, hs, -⟩ := h.2
    simp at hs

example : (run exCfg (init 100)
      [.data (exSeg 3 6 4 (some (5, 0))), .delayExpired 5, .next]).map Prod.snd =
    some [.producible, .send 100 5 ⟨0, 10, [⟨6, 4⟩]⟩] := by decide +kernel

/-- Two checkpoints that answer the same report, both with gaps before them. -/
def exDropped : List Event :=
  [.data (exSeg 3 8 2 (some (1, 0))), .delayExpired 1, .next, .ack 100,
   .data (exSeg 1 1 2 (some (2, 100))), .data (exSeg 1 4 2 (some (3, 100))),
   .delayExpired 2, .next, .ack 101, .delayExpired 3, .next,
   .data (exSeg 1 4 2 (some (3, 100))), .delayExpired 3, .next]

/-- C58 is violated: the second checkpoint finds the report for the first held back, and is dropped. As
its serial number was noted, it is ignored when it is sent again: no report carries it, and nothing is
left to be sent. -/
theorem C58_violated :
    Faithful exRed exDropped ∧
    (run exCfg (init 100) exDropped).map (fun p => (p.1.pending, p.1.queue, p.1.rsnTimers, p.2)) =
      some ([], [], [], [.producible, .send 100 1 ⟨0, 10, [⟨8, 2⟩]⟩, .producible,
        .send 101 2 ⟨0, 3, [⟨1, 2⟩]⟩]) := by
  refine ⟨⟨?_, ?_⟩, by decide +kernel⟩
  · intro s hs
    simp only [exDropped, List.mem_cons, Event.data.injEq, reduceCtorEq, List.not_mem_nil, or_false,
      false_or] at hs
    rcases hs with rfl | rfl | rfl | rfl <;>
      exact { flags := by decide, nonempty := by decide, noWrap := by decide,
              bytes := ⟨_, rfl, by decide⟩, red_inside := by decide, red_bytes := fun _ => rfl,
              red_end := by decide, green_after := by decide, serials := by decide }
  · intro s t a b c hs ht h1 h2 h3 h4
    simp only [exDropped, List.mem_cons, Event.data.injEq, reduceCtorEq, List.not_mem_nil, or_false,
      false_or] at hs ht
    rcases hs with rfl | rfl | rfl | rfl <;> rcases ht with rfl | rfl | rfl | rfl <;>
      first
        | exact ⟨rfl, rfl, rfl⟩
        | (simp only [exSeg, Option.some.injEq, Prod.mk.injEq] at h3 h4; omega)

/-! ### C20, receiving side -/

/-- C20 (receiving side): a report is sent at most once more than the configured number of retries. -/
theorem C20_report_transmissions (cfg : Cfg) (hc : cfg.Sane) (serial : Nat)
    (hserial : serial < 2 ^ 64) (evs : List Event) (hs : AllSane evs) :
    ∃ st effs, run cfg (init serial) evs = some (st, effs) ∧
      (effs.count .producible ≤ 2 ^ 64 → ∀ n, transmissions effs n ≤ cfg.maxRetries + 1) := by
  obtain ⟨st, effs, h1, -, h3⟩ := retry_run cfg hc serial hserial evs hs.events
  refine ⟨st, effs, h1, fun hk => ?_⟩
  obtain ⟨⟨k, -, hr⟩, -⟩ := h3 hk
  exact hr.bound

/-- C20 (receiving side): the session is given up for the retry limit only after some report was sent
as often as allowed, and the engine is asked at most once to delete the session. -/
theorem C20_receiver_gives_up (cfg : Cfg) (hc : cfg.Sane) (serial : Nat)
    (hserial : serial < 2 ^ 64) (evs : List Event) (hs : AllSane evs) :
    ∃ st effs, run cfg (init serial) evs = some (st, effs) ∧ deletions effs ≤ 1 ∧
      (effs.count .producible ≤ 2 ^ 64 → ∀ c, Eff.delete c .rlexc ∈ effs →
        ∃ n, transmissions effs n = cfg.maxRetries + 1) := by
  obtain ⟨st, effs, h1, -, h3⟩ := retry_run cfg hc serial hserial evs hs.events
  obtain ⟨st', effs', h1', h4⟩ := story_run cfg hc serial evs hs.events
  rw [h1] at h1'
  simp only [Option.some.injEq, Prod.mk.injEq] at h1'
  obtain ⟨rfl, rfl⟩ := h1'
  exact ⟨st, effs, h1, h4.deletes.2, fun hk => (h3 hk).2⟩

/-- C20 (receiving side): when the timer of a report runs out, the report is sent again, or, if it has been
sent as often as allowed, the session is given up. -/
theorem C20_report_timeout (cfg : Cfg) (hc : cfg.Sane) (serial : Nat)
    (hserial : serial < 2 ^ 64) (evs : List Event) (hs : AllSane evs) :
    ∃ st effs, run cfg (init serial) evs = some (st, effs) ∧
      (effs.count .producible ≤ 2 ^ 64 → ∀ n k, (n, k) ∈ st.rsnTimers →
        ∃ st' effs', step cfg st (.reportExpired n) = some (st', effs') ∧
          if transmissions effs n ≤ cfg.maxRetries then
            effs' = [.producible] ∧ st'.queue = st.queue ++ [(n, transmissions effs n + 1)]
          else st'.didNotify = true ∧ (st.didNotify = false → effs' = [.delete true .rlexc])) := by
  obtain ⟨st, effs, h1, -, h3⟩ := retry_run cfg hc serial hserial evs hs.events
  refine ⟨st, effs, h1, fun hk n k hm => ?_⟩
  obtain ⟨⟨_, -, hr⟩, -⟩ := h3 hk
  have hnd : (st.rsnTimers.map Prod.fst).Nodup := by
    have := hr.nodup
    rw [List.map_append, List.nodup_append] at this
    exact this.2.1
  have hfind : ∀ l : List (Nat × Nat), (l.map Prod.fst).Nodup → (n, k) ∈ l →
      l.find? (fun t => t.1 == n) = some (n, k) := by
    intro l
    induction l with
    | nil => intro _ h; simp at h
    | cons a l ih =>
      intro hn hm
      simp only [List.map_cons, List.nodup_cons] at hn
      rw [List.find?_cons]
      rcases List.mem_cons.1 hm with h | h
      · rw [← h]; simp
      · have hne : a.1 ≠ n := fun hh => hn.1 (hh ▸ List.mem_map_of_mem (f := Prod.fst) h)
        have : (a.1 == n) = false := by simpa using hne
        rw [this]
        exact ih hn.2 h
  have hkt := (hr.timer _ hm).1
  simp only at hkt
  rw [step, reportExpired, hfind _ hnd hm]
  simp only
  rw [hkt]
  split
  · exact ⟨_, _, rfl, rfl, rfl⟩
  · rw [notifyDelete_spec]
    refine ⟨_, _, rfl, rfl, fun h => ?_⟩
    simp only [h]
    rfl

/-- Three transmissions with two retries, and then the end. -/
example : (run exCfg (init 100) [.data (exSeg 3 6 4 (some (5, 0))), .delayExpired 5, .next,
      .reportExpired 100, .next, .reportExpired 100, .next, .reportExpired 100]).map Prod.snd =
    some [.producible, .send 100 5 ⟨0, 10, [⟨6, 4⟩]⟩, .producible, .send 100 5 ⟨0, 10, [⟨6, 4⟩]⟩,
      .producible, .send 100 5 ⟨0, 10, [⟨6, 4⟩]⟩, .delete true .rlexc] := by decide +kernel

/-! ### C59 -/

/-- C59, for blocks whose segments are all red: when a session asks to be deleted without a
cancellation, the red part has been delivered and every report that was sent has been acknowledged. -/
theorem C59_closed_partial (cfg : Cfg) (hc : cfg.Sane) (red : Bytes) (hpos : 1 ≤ red.length)
    (hmax : red.length ≤ cfg.maxRedRx) (serial : Nat) (hserial : serial < 2 ^ 64)
    (evs : List Event) (e : Event) (hf : Faithful red (evs ++ [e]))
    (hred : ∀ s, Event.data s ∈ evs ++ [e] → s.IsRed) :
    ∃ st effs st' effs', run cfg (init serial) evs = some (st, effs) ∧
      run cfg (init serial) (evs ++ [e]) = some (st', effs ++ effs') ∧
      (effs.count .producible ≤ 2 ^ 64 → ∀ r, Eff.delete false r ∈ effs' →
        deliveries effs = [(red, red.length)] ∧
        ∀ n c r, Eff.send n c r ∈ effs → Event.ack n ∈ evs ++ [e]) := by
  have hf' : Faithful red evs := ⟨fun s hs => hf.1 s (List.mem_append_left _ hs),
    fun s t a b c h1 h2 => hf.2 s t a b c (List.mem_append_left _ h1) (List.mem_append_left _ h2)⟩
  obtain ⟨st, effs, h1, h2⟩ := honest_run cfg hc red hpos hmax serial evs hf'.1 hf'.2
  have hes : e.Sane := hf.sane.events e (by simp)
  obtain ⟨st', effs', g1, -⟩ := step_inv cfg hc st h2.inv e hes
  refine ⟨st, effs, st', effs', h1, by rw [run_snoc _ _ _ _ _ _ h1, g1], fun hk r hd => ?_⟩
  cases e with
  | data s =>
    obtain ⟨st1, effs1, e1, -, -, -, -, -, -, e7⟩ := data_report cfg hc st h2.inv s hes
    rw [step, e1] at g1
    simp only [Option.some.injEq, Prod.mk.injEq] at g1
    obtain ⟨rfl, rfl⟩ := g1
    exact absurd (hred s (by simp)) (e7 r hd).1
  | delayExpired n =>
    obtain ⟨st1, effs1, -, -, -, -, -, -, e1, -, e2, -⟩ := delayExpired_spec cfg hc st h2.inv n
    rw [step, e1] at g1
    simp only [Option.some.injEq, Prod.mk.injEq] at g1
    obtain ⟨rfl, rfl⟩ := g1
    exact absurd hd (e2.noDelete _ _)
  | reportExpired n =>
    simp only [step, Option.some.injEq] at g1
    have g2 : (reportExpired cfg st n).2 = effs' := by rw [g1]
    rw [← g2, reportExpired] at hd
    split at hd
    · simp at hd
    · simp only at hd
      split at hd
      · simp at hd
      · rw [notifyDelete_spec] at hd
        simp only at hd
        split at hd <;> simp at hd
  | next =>
    rw [step, nextDataToSend] at g1
    split at g1
    · simp only [Option.some.injEq, Prod.mk.injEq] at g1
      rw [← g1.2] at hd; simp at hd
    · split at g1
      · cases g1
      · simp only [Option.some.injEq, Prod.mk.injEq] at g1
        rw [← g1.2] at hd; simp at hd
  | ack n =>
    simp only [step, Option.some.injEq] at g1
    have g2 : (reportAck st n).2 = effs' := by rw [g1]
    rw [← g2] at hd
    simp only [reportAck] at hd
    split at hd
    · rename_i hcond
      obtain ⟨k1, k2, -, k4⟩ := hcond
      rw [notifyDelete_spec] at hd
      simp only at hd
      split at hd
      · simp at hd
      · rename_i hnn
        refine ⟨by rw [h2.delivered, if_pos k4], fun m c r' hs => ?_⟩
        obtain ⟨st2, effs2, w1, -, w2⟩ := ledger_run cfg hc serial hserial evs hf'.sane.events
        rw [h1] at w1
        simp only [Option.some.injEq, Prod.mk.injEq] at w1
        obtain ⟨rfl, rfl⟩ := w1
        rcases (w2 hk).2.acked _ (h2.sends m c r' hs) with h | ⟨q, h⟩ | ⟨q, h⟩ | h
        · exact absurd h hnn
        · rw [k1] at h; simp at h
        · by_cases hmn : m = n
          · rw [hmn]; simp
          · have : (m, q) ∈ st.rsnTimers.filter fun t => t.1 ≠ n :=
              List.mem_filter.2 ⟨h, by simpa using hmn⟩
            rw [k2] at this; simp at this
        · exact List.mem_append_left _ h
    · simp at hd

/-- The example closes with its last event. -/
example : (∀ s, Event.data s ∈ exEvs → s.IsRed) ∧
    ∃ effs, (run exCfg (init 100) exEvs).map Prod.snd = some (effs ++ [.delete false .reserved]) := by
  refine ⟨?_, [.producible, .red exRed 10 1 true, .send 100 5 ⟨0, 10, [⟨0, 10⟩]⟩], by decide +kernel⟩
  intro s hs
  simp only [exEvs, List.mem_cons, Event.data.injEq, reduceCtorEq, List.not_mem_nil, or_false,
    false_or] at hs
  rcases hs with rfl | rfl | rfl | rfl <;> decide

/-- C59 is violated: when a green segment that ends the block arrives before any red one, the session ends
although its red part is still to come. -/
theorem C59_green_first_violated :
    let s : Seg := ⟨7, 1, 10, 3, none, some [20, 21, 22]⟩
    s.PieceOf exRed ∧
    (step exCfg (init 100) (.data s)).map Prod.snd =
      some [.green [20, 21, 22] 10 1 true, .delete false .reserved] := by
  refine ⟨?_, by decide +kernel⟩
  exact { flags := by decide, nonempty := by decide, noWrap := by decide,
          bytes := ⟨_, rfl, by decide⟩, red_inside := by decide,
          red_bytes := fun h => absurd h (by decide),
          red_end := by decide, green_after := by decide, serials := by decide }

/-- C59 is violated: when the green segment that ends the block arrives after the red part is complete, the
session ends although its report was not acknowledged, or not even sent. -/
theorem C59_unacknowledged_violated :
    (run exCfg (init 100) [.data (exSeg 2 0 10 (some (5, 0))),
      .data ⟨7, 1, 10, 3, none, some [20, 21, 22]⟩]).map Prod.snd =
      some [.producible, .red exRed 10 1 false, .green [20, 21, 22] 10 1 true,
        .delete false .reserved] := by decide +kernel

end Hdtn.LtpReceiver
