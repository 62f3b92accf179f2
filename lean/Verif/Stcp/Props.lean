import Verif.Stcp.Send

/-!
C84: bundles over an STCP connection arrive as they were sent.  C85: every bundle given to an STCP
source is accounted for.
-/

namespace Hdtn.Stcp

open Spec

/-- **C84**, the sink.  Of a stream of data units, any part of which has arrived in pieces of any
sizes, with the user taking bundles and the threads running at any times, the bundles put out are
the first ones, in order.  Once all of it has arrived and nothing is left to do, they are all of
them, up to the first one over the limit. -/
theorem C84_delivery (cfg : Cfg) {bs : List Bytes} {w : Bytes} (hu : Units bs w)
    {es : List SinkEvent} (ha : arrived es <+: w) :
    received ((Sink.init cfg).run cfg es) <+: upToLimit cfg bs ∧
    (2 ≤ cfg.slots → arrived es = w → AtRest ((Sink.init cfg).run cfg es) →
      received ((Sink.init cfg).run cfg es) = upToLimit cfg bs) := by
  have h := run_inv es (init_inv cfg)
  rw [List.nil_append] at h
  refine ⟨sink_prefix h hu ha, fun hs he hr => ?_⟩
  rw [he] at h
  exact sink_complete h hs hu hr

/-- A size, then more than the rest of it, then a keepalive and another bundle. -/
def exampleEvents : List SinkEvent :=
  [.arrive [0, 0], .read, .arrive [0, 2], .read, .arrive [7, 8, 0, 0, 0], .read, .read, .pop, .arrive [0],
    .posted, .read, .arrive [0, 0, 0, 1, 9], .read, .read, .pop, .posted]

example : Units [[7, 8], [9]] (arrived exampleEvents) :=
  .unit (size := [0, 0, 0, 2]) (by decide) rfl rfl
    (.keepAlive (.unit (size := [0, 0, 0, 1]) (by decide) rfl rfl .nil))

example : AtRest ((Sink.init ⟨2, 5⟩).run ⟨2, 5⟩ exampleEvents) :=
  ⟨by decide +kernel, by decide +kernel, show ([] : Bytes).length < 4 by decide⟩

example : received ((Sink.init ⟨2, 5⟩).run ⟨2, 5⟩ exampleEvents) = [[7, 8], [9]] := by decide +kernel

/-- **C84**, safety: whatever bytes arrive, nothing is put out that is empty or over the limit, the
ring never holds more than it has room for, and what is put out was a data unit of the stream. -/
theorem C84_limits (cfg : Cfg) (es : List SinkEvent) :
    (∀ b ∈ received ((Sink.init cfg).run cfg es), b ≠ [] ∧ b.length ≤ cfg.maxSize) ∧
    ((Sink.init cfg).run cfg es).ring.length ≤ cfg.slots - 1 ∧
    ∃ w, Units (received ((Sink.init cfg).run cfg es)) w ∧ w <+: arrived es := by
  have h := run_inv es (init_inv cfg)
  rw [List.nil_append] at h
  refine ⟨h.limit, ?_, ?_⟩
  · have := h.cap; omega
  · obtain ⟨w, hw, h1⟩ := h.wire
    refine ⟨w, hw, ?_⟩
    rcases h1 with ⟨_, _, c⟩ | ⟨_, size, _, _, _, _, f⟩ | ⟨_, size, _, _, f⟩
    · rw [c]; exact List.prefix_append ..
    · rw [f]; exact List.prefix_append ..
    · rw [f]; exact List.prefix_append ..

/-- **C84**, both ends.  A source has had any history, with failures and reconnections; a sink has
got any part of what was written to the present connection.  The bundles taken are those of earlier
connections (`before`), those written to this one (`here`), those that failed on it (`lost`) and
those queued.  The sink has put out the first of `here` and `lost` that are not empty; if no write
failed and all has arrived and been dealt with, all of `here`, up to the first one over the
limit.  Bundles have less than 4 GiB. -/
theorem C84_end_to_end (m : Nat) (cfg : Cfg) {ts : List SourceEvent} {rs : List SinkEvent}
    (hs : ∀ e ∈ taken m Source.init ts, e.1.length < 2 ^ 32)
    (ha : arrived rs <+: (Source.init.run m ts).wire) :
    ∃ (before here : List ((Bytes × Nat) × Fate)) (lost : List (Bytes × Nat)),
      taken m Source.init ts = before.map (·.1) ++ here.map (·.1) ++ lost ++
        bundles (Source.init.run m ts).queue ∧
      (Source.init.run m ts).notes = before.flatMap report ++ here.flatMap report ++
        lost.flatMap (fun e => report (e, .failed)) ∧
      (∀ x ∈ here, x.2 ≠ .failed) ∧
      received ((Sink.init cfg).run cfg rs) <+: upToLimit cfg (nonempty (here.map (·.1) ++ lost)) ∧
      ((Source.init.run m ts).err = false → 2 ≤ cfg.slots →
        arrived rs = (Source.init.run m ts).wire → AtRest ((Sink.init cfg).run cfg rs) →
        lost = [] ∧
          received ((Sink.init cfg).run cfg rs) = upToLimit cfg (nonempty (here.map (·.1)))) := by
  obtain ⟨before, here, done, lost, h⟩ := source_run (m := m) ts source_init
  rw [List.nil_append] at h
  have hdone : ∀ e ∈ bundles done, e.1.length < 2 ^ 32 := by
    intro e he
    rw [← h.these] at he
    refine hs e ?_
    rw [h.whole]
    simp only [List.mem_append]
    exact .inl (.inl (.inr he))
  have hu := units_items done hdone
  refine ⟨before, here, lost, h.whole, h.notes, h.fates, ?_, ?_⟩
  · rcases Bool.eq_false_or_eq_true (Source.init.run m ts).err with he | he
    · obtain ⟨_, i, k, hw, hi⟩ := h.bad he
      rw [hw] at ha
      have hap : ∀ l l' : List (Bytes × Nat), nonempty (l ++ l') = nonempty l ++ nonempty l' := by
        intro l l'
        simp [nonempty]
      rcases hi with hi | ⟨e, l, hl, hi⟩
      · have hu' := units_append hu (Units.keepAlive .nil)
        have := (C84_delivery cfg hu' (ha.trans ?_)).1
        · rw [h.these, hap]
          unfold upToLimit at this ⊢
          rw [List.append_nil] at this
          exact this.trans (takeWhile_mono (List.prefix_append ..))
        · rw [hi]
          exact (List.prefix_append_right_inj _).mpr (List.take_prefix _ _)
      · have he' : e.1.length < 2 ^ 32 := by
          refine hs e ?_
          rw [h.whole, hl]
          simp
        have hu' := units_append hu (units_bundle e.2 he')
        have := (C84_delivery cfg hu' (ha.trans ?_)).1
        · rw [h.these, hl, hap, show e :: l = [e] ++ l from rfl, hap, ← List.append_assoc]
          exact this.trans (takeWhile_mono (List.prefix_append ..))
        · rw [hi]
          exact (List.prefix_append_right_inj _).mpr (List.take_prefix _ _)
    · obtain ⟨hl, hw⟩ := h.good he
      rw [hw] at ha
      rw [h.these, hl, List.append_nil]
      exact (C84_delivery cfg hu ha).1
  · intro he h2 ha' hr
    obtain ⟨hl, hw⟩ := h.good he
    rw [hw] at ha'
    rw [h.these]
    exact ⟨hl, (C84_delivery cfg hu (by rw [ha']; exact List.prefix_refl _)).2 h2 ha' hr⟩

/-- A failure, a new connection, two bundles and a keepalive. -/
def exampleSource : List SourceEvent :=
  [.connect, .forward [1, 1, 1] 1, .broke 5, .shutdown, .connect, .forward [7, 8] 2, .timer, .timer,
    .forward [9] 3, .written, .written, .written]

example : (Source.init.run 5 exampleSource).wire = arrived exampleEvents := by decide +kernel

example := C84_end_to_end 5 ⟨2, 5⟩ (ts := exampleSource) (rs := exampleEvents) (by decide +kernel)
  ⟨[], by decide +kernel⟩

/-- **C84 fails** for a ring with one slot: nothing is ever received. -/
theorem C84_one_slot_violated (max : Nat) (es : List SinkEvent) :
    received ((Sink.init ⟨1, max⟩).run ⟨1, max⟩ es) = [] := by
  have key : ∀ (es : List SinkEvent) (s : Sink), s.phase = .room → received s = [] →
      received (s.run ⟨1, max⟩ es) = [] := by
    intro es
    induction es with
    | nil => intro s _ h; exact h
    | cons e es ih =>
      intro s hp hr
      have hring : s.ring = [] := (List.append_eq_nil_iff.mp hr).2
      have hdel : s.delivered = [] := (List.append_eq_nil_iff.mp hr).1
      refine ih (s.step ⟨1, max⟩ e) ?_ ?_
      · cases e with
        | arrive b => exact hp
        | read =>
          simp only [Sink.step, Sink.read, hp]
          split <;> exact hp
        | pop => simp only [Sink.step, Sink.pop, hring]; exact hp
        | posted =>
          simp only [Sink.step]
          split
          · exact hp
          · simp only [Sink.tryStart]
            split
            · rw [if_pos (by simp)]; exact hp
            · exact hp
      · cases e with
        | arrive b => exact hr
        | read =>
          simp only [Sink.step, Sink.read, hp]
          split <;> exact hr
        | pop => simp only [Sink.step, Sink.pop, hring]; exact hr
        | posted =>
          simp only [Sink.step]
          split
          · exact hr
          · simp only [Sink.tryStart]
            split
            · rw [if_pos (by simp)]; exact hr
            · exact hr
  exact key es _ (by simp [Sink.init, Sink.tryStart]) (by simp [Sink.init, Sink.tryStart, received])

/-- **C85**, all histories: every bundle taken has one fate or is queued; the notes are the reports
of the fates, in the order of the calls, so that no bundle is reported twice and none that was not
taken. -/
theorem C85_accounted_partial (m : Nat) (es : List SourceEvent) :
    ∃ out : List ((Bytes × Nat) × Fate),
      taken m Source.init es = out.map (·.1) ++ bundles (Source.init.run m es).queue ∧
      (Source.init.run m es).notes = out.flatMap report := by
  obtain ⟨before, here, done, lost, h⟩ := source_run (m := m) es source_init
  rw [List.nil_append] at h
  refine ⟨before ++ here ++ lost.map (fun e => (e, .failed)), ?_, ?_⟩
  · rw [h.whole]
    simp only [List.map_append, List.map_map]
    congr 2
    exact (List.map_id lost).symm
  · rw [h.notes, List.flatMap_append, List.flatMap_append, report_failed]

/-- **C85**, without failing writes and for bundles of less than 4 GiB - 4: every bundle taken has
been reported sent or is queued, the reports are in the order of the calls, and the sizes waited
for are those of the queued bundles. -/
theorem C85_smooth_partial (m : Nat) {es : List SourceEvent} (hn : NoFailure es)
    (hs : ∀ e ∈ taken m Source.init es, e.1.length + 4 < 2 ^ 32) :
    ∃ sent, taken m Source.init es = sent ++ bundles (Source.init.run m es).queue ∧
      (Source.init.run m es).notes = sent.map (fun e => .sent e.2) ∧
      (Source.init.run m es).toAck =
        (bundles (Source.init.run m es).queue).map (fun e => e.1.length + 4) := by
  obtain ⟨sent, h⟩ := smooth_run (m := m) es hn hs
    (show SmoothInv [] Source.init [] from ⟨rfl, rfl, rfl, rfl⟩)
  rw [List.nil_append] at h
  exact ⟨sent, h.whole, h.notes, h.sizes⟩

example : (Source.init.run 5 [.connect, .forward [7] 1, .timer, .timer, .forward [] 2, .written,
    .written, .written, .forward [1] 3]).notes = [.sent 1, .sent 2] := by decide +kernel

example : NoFailure [.connect, .forward [7] 1, .timer, .timer, .written] := by
  intro k; simp

/-- **C85**, the call: it takes the bundle exactly if there is a connection and fewer than the
allowed number of bundles wait to be acknowledged. -/
theorem C85_takes (m : Nat) (s : Source) (b : Bytes) (tag : Nat) :
    (s.forward m b tag).2 = true ↔ s.ready = true ∧ s.toAck.length + 1 < m := by
  unfold Source.forward
  split
  · rename_i h; simp [h]
  · rename_i h
    split
    · rename_i h'
      simp only [Bool.false_eq_true, false_iff, not_and]
      intro _; omega
    · rename_i h'
      simp only [true_iff]
      exact ⟨by simpa using h, by omega⟩

/-- **C85 fails** after a failed write: the sizes waited for are not dropped.  Once the first of them
is not that of a bundle queued or forwarded later, no bundle is ever reported sent again, whether
it is written or not, and no more than the allowed number are ever taken, whatever is reconnected. -/
theorem C85_stale_violated (m n : Nat) {old : List Nat} {s : Source} (h : s.toAck = n :: old)
    (hq : ∀ e ∈ bundles s.queue, e.1.length + 4 ≠ n) {es : List SourceEvent}
    (hf : ∀ b tag, .forward b tag ∈ es → b.length + 4 ≠ n) :
    (∀ tag, .sent tag ∈ (s.run m es).notes → .sent tag ∈ s.notes) ∧
    (taken m s es).length ≤ m - (old.length + 2) := by
  obtain ⟨h1, h2⟩ := stuck_run (m := m) (old := old) (sents := s.notes) es (a := 0) hf (by omega)
    (show Stuck n old s.notes s 0 from ⟨⟨[], by simp [h], rfl⟩, hq, fun _ h => h⟩)
  refine ⟨h1.sent, ?_⟩
  omega

/-- One failed bundle of three bytes is enough: with room for three bundles, all others of other
sizes are written but not reported, and then no more are taken. -/
theorem C85_wedged_violated :
    let es := [.connect, .forward [1, 1, 1] 1, .broke 5, .shutdown, .connect]
    let more := [.forward [7, 8] 2, .written, .forward [9] 3, .written, .forward [9] 4]
    (Source.init.run 4 es).toAck = [7] ∧ (Source.init.run 4 es).queue = [] ∧
    (Source.init.run 4 es).notes = [.failed [1, 1, 1] 1] ∧
    (Source.init.run 4 (es ++ more)).wire = [0, 0, 0, 2, 7, 8, 0, 0, 0, 1, 9] ∧
    (Source.init.run 4 (es ++ more)).ready = true ∧
    (Source.init.run 4 (es ++ more)).notes = [.failed [1, 1, 1] 1] ∧
    taken 4 Source.init (es ++ more) = [([1, 1, 1], 1), ([7, 8], 2), ([9], 3)] := by decide +kernel

/-- **C85 fails** for bundles of 4 GiB - 4 bytes or more: one is written and never reported; and
from 4 GiB on what is written is not its data unit. -/
theorem C85_large_violated (b : Bytes) (h : 2 ^ 32 ≤ b.length + 4) :
    (Source.init.run 5 [.connect, .forward b 1, .written]).notes = [] ∧
    (Source.init.run 5 [.connect, .forward b 1, .written]).queue = [] ∧
    taken 5 Source.init [.connect, .forward b 1, .written] = [(b, 1)] ∧
    (2 ^ 32 ≤ b.length → ¬ Units [b] (Source.init.run 5 [.connect, .forward b 1, .written]).wire) := by
  have hne : ¬ (b.length + 4) % U32 = (header b.length).length + b.length := by
    rw [header_length]
    have : (b.length + 4) % U32 < 2 ^ 32 := Nat.mod_lt _ (by decide)
    omega
  refine ⟨?_, ?_, ?_, fun hl hu => ?_⟩
  · simp [Source.run, Source.step, Source.init, Source.connect, Source.forward, Source.enqueue,
      Source.written, Source.acked, hne]
  · simp [Source.run, Source.step, Source.init, Source.connect, Source.forward, Source.enqueue,
      Source.written, Source.acked, hne]
  · simp [taken, Source.step, Source.init, Source.connect, Source.forward]
  · have hw : (Source.init.run 5 [.connect, .forward b 1, .written]).wire = header b.length ++ b := by
      simp [Source.run, Source.step, Source.init, Source.connect, Source.forward, Source.enqueue,
        Source.written, Source.acked, hne, Item.bytes]
    rw [hw] at hu
    have hlt : beValue (header b.length) < 2 ^ 32 := by
      have := beValue_lt (header b.length)
      rw [header_length] at this
      have e : (256 : Nat) ^ 4 = 2 ^ 32 := by norm_num
      omega
    rcases units_head hu (header_length _) with ⟨_, hu⟩ | ⟨_, b', _, _, e, e2, _⟩
    · have key : ∀ {bs : List Bytes} {w : Bytes}, Units bs w →
          ∀ c ∈ bs, c.length + 4 ≤ w.length := by
        intro bs w h
        induction h with
        | nil => intro c hc; cases hc
        | keepAlive _ ih =>
          intro c hc
          have := ih c hc
          simp only [List.length_append]
          omega
        | unit h0 h1 h2 _ ih =>
          intro c hc
          simp only [List.length_append]
          rcases List.mem_cons.mp hc with hc | hc
          · rw [hc]; omega
          · have := ih c hc
            omega
      have := key hu b (List.mem_singleton.mpr rfl)
      omega
    · injection e with e _
      rw [← e] at e2
      omega

/-- **C85 fails** for an empty bundle: it is written as a keepalive and reported sent, and the sink
puts nothing out; if its write fails, nobody is told. -/
theorem C85_empty_violated :
    (Source.init.run 5 [.connect, .forward [] 1, .written]).notes = [.sent 1] ∧
    (Source.init.run 5 [.connect, .forward [] 1, .written]).wire = [0, 0, 0, 0] ∧
    Units [] [0, 0, 0, 0] ∧
    (Source.init.run 5 [.connect, .forward [] 1, .broke 0]).notes = [] ∧
    (Source.init.run 5 [.connect, .forward [] 1, .broke 0]).queue = [] :=
  ⟨by decide +kernel, by decide +kernel, .keepAlive .nil, by decide +kernel, by decide +kernel⟩

end Hdtn.Stcp
