import Verif.Slip.Send
import Mathlib.Data.List.Infix

/-!
C82: bundles over a serial line arrive as they were sent.  C83: every bundle given to the serial
interface is accounted for.
-/

namespace Hdtn.Slip

open Spec

/-- **C82**, the encoder: what `SlipEncode` writes is the packet of RFC 1055, whose only two END
characters are the first and the last; it has at most 2n + 2 bytes, and no two inputs have the
same packet. -/
theorem C82_encode (data : Bytes) :
    Packet data (slipEncode data data.length) ∧
    (∀ w, Packet data w → w = slipEncode data data.length) ∧
    (slipEncode data data.length).length ≤ 2 * data.length + 2 ∧
    (∃ m, slipEncode data data.length = 0xC0 :: (m ++ [0xC0]) ∧ (0xC0 : UInt8) ∉ m) ∧
    (∀ data', slipEncode data' data'.length = slipEncode data data.length → data' = data) := by
  have hs := encodeChars_stuffed data
  have hen : ∀ data, slipEncode data data.length = 0xC0 :: (encodeChars data ++ [0xC0]) := by
    intro data
    unfold slipEncode; rw [List.take_length]; rfl
  have he := hen data
  refine ⟨⟨_, hs, he⟩, ?_, ?_, ⟨_, he, stuffed_no_fin hs⟩, ?_⟩
  · rintro w ⟨m, hm, rfl⟩
    rw [he, stuffed_unique hm]
  · have := (stuffed_length hs).2
    rw [he]
    simp only [List.length_cons, List.length_append, List.length_nil]
    omega
  · intro data' h
    rw [he, hen data'] at h
    exact encodeChars_inj (List.append_cancel_right (List.cons.inj h).2)

example : slipEncode [1, 0xC0, 0xDB, 2] 4 = [0xC0, 1, 0xDB, 0xDC, 0xDB, 0xDD, 2, 0xC0] := by decide

/-- **C82**, delivery: the receiver may be in any state, after any noise.  Packets that now come
in, in chunks of any sizes and with the user taking bundles at any times between, are put out in
order, exactly those that are neither empty nor too large, after what the first END completes;
if the user does not keep up, some of them may be missing. -/
theorem C82_delivery (cfg : Cfg) (s : Rx) {b : Bytes} {bs : List Bytes} {ws : Bytes}
    (hp : Packets (b :: bs) ws) {es : List RxEvent} (he : bytesOf es = ws) :
    ∃ l, received (s.run cfg es) = received (s.step cfg (.byte 0xC0)) ++ l ∧
      List.Sublist l ((b :: bs).filter (fits cfg)) ∧
      (KeepsUp cfg s es → l = (b :: bs).filter (fits cfg)) :=
  packets_any cfg hp s es he

/-- From the start, there is nothing before. -/
theorem C82_from_start (cfg : Cfg) {bs : List Bytes} {ws : Bytes} (hp : Packets bs ws)
    {es : List RxEvent} (he : bytesOf es = ws) :
    List.Sublist (received ((Rx.init cfg).run cfg es)) (bs.filter (fits cfg)) ∧
    (KeepsUp cfg (Rx.init cfg) es →
      received ((Rx.init cfg).run cfg es) = bs.filter (fits cfg)) := by
  have hc : Clean (Rx.init cfg) := by
    refine ⟨rfl, rfl, ?_⟩
    simp only [Rx.init, Rx.reset]
    split
    · exact .inl rfl
    · exact .inr rfl
  obtain ⟨l, h1, h2, h3⟩ := packets_run cfg hp (Rx.init cfg) es hc he
  have h0 : received (Rx.init cfg) = [] := rfl
  rw [h0, List.nil_append] at h1
  rw [h1]
  exact ⟨h2, h3⟩

/-- Noise that ends in an escape, then three packets: one with both special characters, an empty
one, one that is too large, and one more. -/
example : received ((Rx.init ⟨5, 4⟩).run ⟨5, 4⟩ ([7, 0xDB].map .byte ++
    ((slipEncode [0xDC, 0xC0, 0xDB, 2] 4 ++ slipEncode [] 0 ++ slipEncode [1, 2, 3, 4, 5] 5 ++
      slipEncode [9] 1).map .byte))) = [[7], [0xDC, 0xC0, 0xDB, 2], [9]] := by decide +kernel

example := C82_from_start ⟨5, 4⟩ (frames_packets (es := [([1, 0xC0], 0), ([3], 1)]) (by decide))
  (es := (frames [([1, 0xC0], 0), ([3], 1)]).map .byte) (by decide +kernel)

/-- The user of the last example keeps up. -/
example : KeepsUp ⟨5, 4⟩ (Rx.init ⟨5, 4⟩) ((frames [([1, 0xC0], 0), ([3], 1)]).map .byte) := by
  have h : ∀ pre ∈ ((frames [([1, 0xC0], 0), ([3], 1)]).map RxEvent.byte).inits,
      ((Rx.init ⟨5, 4⟩).run ⟨5, 4⟩ pre).ring.length + 1 < 5 := by decide +kernel
  intro pre hp
  exact h pre (List.mem_inits _ _ |>.mpr hp)

/-- **C82**, safety: whatever comes in, no bundle is put out that is empty or larger than the
limit, and the ring never holds more than it has room for. -/
theorem C82_limits (cfg : Cfg) (es : List RxEvent) :
    (∀ b ∈ received ((Rx.init cfg).run cfg es), b ≠ [] ∧ b.length ≤ cfg.maxSize) ∧
    ((Rx.init cfg).run cfg es).ring.length ≤ cfg.slots - 1 := by
  obtain ⟨h1, h2, _⟩ := run_sane cfg es _ (init_sane cfg)
  exact ⟨h1, by omega⟩

/-- **C82 fails** for a ring with one slot: nothing is ever received. -/
theorem C82_one_slot_violated (max : Nat) (es : List RxEvent) :
    received ((Rx.init ⟨1, max⟩).run ⟨1, max⟩ es) = [] := by
  have key : ∀ (es : List RxEvent) (s : Rx), s.cur = none → received s = [] →
      received (s.run ⟨1, max⟩ es) = [] := by
    intro es
    induction es with
    | nil => intro s _ h; exact h
    | cons e es ih =>
      intro s hc hr
      refine ih (s.step ⟨1, max⟩ e) ?_ ?_
      · cases e with
        | pop =>
          have := pop_core s
          simp only [core, Core.mk.injEq] at this
          exact this.2.1.trans hc
        | byte c =>
          by_cases h : c = 0xC0
          · subst h
            obtain ⟨_, _, _, h4⟩ := fin_received ⟨1, max⟩ s
            exact h4.trans (if_pos (by simp))
          · obtain ⟨a, _, _⟩ := byte_core ⟨1, max⟩ s h
            have a2 : (s.byte ⟨1, max⟩ c).cur = ((core s).byte max c).cur :=
              congrArg Core.cur a
            refine a2.trans ?_
            unfold Core.byte core
            rw [hc]
            cases (decodeChar s.prev c).2 <;> rfl
      · cases e with
        | pop => exact (pop_received s).trans hr
        | byte c =>
          by_cases h : c = 0xC0
          · subst h
            obtain ⟨h1, _⟩ := fin_received ⟨1, max⟩ s
            refine h1.trans ?_
            rw [hr]
            unfold flush core
            rw [hc]; rfl
          · obtain ⟨_, b, d⟩ := byte_core ⟨1, max⟩ s h
            show received (s.byte ⟨1, max⟩ c) = []
            unfold received at hr ⊢
            rw [b, d]
            exact hr
  exact key es _ rfl rfl

/-- **C83.**  In every history of calls, writes and failures: the bundles taken are, in this order,
those whose sending was reported (`sent`), those that failed (`lost`) and those still queued; each
is reported exactly once, a failed one with its contents unless it is empty; what is on the line
are the packets of the bundles reported sent, and of the first failed one a part; nothing fails
before a write has failed and nothing is queued after.  If bundles are queued, a write is in
progress or a call that starts one is due. -/
theorem C83_accounted (maxTx : Nat) (es : List TxEvent) :
    ∃ sent lost, taken maxTx Tx.init es = sent ++ lost ++ (Tx.init.run maxTx es).queue ∧
      (Tx.init.run maxTx es).notes = sent.map (fun e => .sent e.2) ++
        (lost.filter (fun e => decide (e.1 ≠ []))).map (fun e => .failed e.1 e.2) ∧
      ((Tx.init.run maxTx es).failed = false →
        lost = [] ∧ (Tx.init.run maxTx es).wire = sent.flatMap (fun e => frame e.1)) ∧
      ((Tx.init.run maxTx es).failed = true → (Tx.init.run maxTx es).queue = [] ∧
        ∃ e l k, lost = e :: l ∧ (Tx.init.run maxTx es).wire =
          sent.flatMap (fun e => frame e.1) ++ (frame e.1).take k) ∧
      ((Tx.init.run maxTx es).queue ≠ [] →
        (Tx.init.run maxTx es).writing = true ∨ 0 < (Tx.init.run maxTx es).posts) ∧
      (Tx.init.run maxTx es).queue.length ≤ maxTx ∧
      (Tx.init.run maxTx es).unacked = (Tx.init.run maxTx es).queue.length + lost.length := by
  obtain ⟨sent, lost, h⟩ := run_inv es (txInit_inv maxTx)
  rw [List.nil_append] at h
  refine ⟨sent, lost, h.whole, ?_, h.good, h.bad, h.live, h.room, ?_⟩
  · rw [h.notes]
    congr 1
    clear h
    induction lost with
    | nil => rfl
    | cons e l ih =>
      rw [List.flatMap_cons, ih, failNote]
      by_cases he : e.1 = []
      · simp [he]
      · simp [he]
  · unfold Tx.unacked
    rw [h.totalSent, h.totalAcked, h.whole]
    simp only [List.length_append]
    omega

/-- Two bundles, the second of which fails. -/
example : (Tx.init.run 5 [.forward [1] 1, .forward [2, 3] 2, .posted, .done, .posted, .broke 2]).notes =
    [.sent 1, .failed [2, 3] 2] := by decide +kernel

/-- **C83**, the call: it takes the bundle exactly if no write has failed and fewer than the
allowed number of bundles are queued. -/
theorem C83_takes (maxTx : Nat) (s : Tx) (b : Bytes) (tag : Nat) :
    (s.forward maxTx b tag).2 = true ↔ s.failed = false ∧ s.queue.length < maxTx := by
  unfold Tx.forward
  split
  · rename_i h; simp [h]
  · rename_i h
    split
    · rename_i h'; simp; intro _; omega
    · rename_i h'
      simp only [true_iff]
      exact ⟨by simpa using h, by omega⟩

/-- **C83**, both ends: what is received of a line on which bundles of less than 4 GiB are sent are
bundles that were taken, in order and none twice; and if no write failed, everything written has
arrived and the user keeps up, then they are all the bundles reported sent, except for empty ones
and those that are too large for the receiver. -/
theorem C83_end_to_end (maxTx : Nat) (cfg : Cfg) {ts : List TxEvent} {rs : List RxEvent}
    (hs : ∀ e ∈ taken maxTx Tx.init ts, e.1.length < 2 ^ 32)
    (hw : bytesOf rs <+: (Tx.init.run maxTx ts).wire) :
    List.Sublist (received ((Rx.init cfg).run cfg rs))
      (((taken maxTx Tx.init ts).map (·.1)).filter (fits cfg)) ∧
    ((Tx.init.run maxTx ts).failed = false → bytesOf rs = (Tx.init.run maxTx ts).wire →
      KeepsUp cfg (Rx.init cfg) rs →
      ∃ sent, taken maxTx Tx.init ts = sent ++ (Tx.init.run maxTx ts).queue ∧
        (Tx.init.run maxTx ts).notes = sent.map (fun e => .sent e.2) ∧
        received ((Rx.init cfg).run cfg rs) = (sent.map (·.1)).filter (fits cfg)) := by
  obtain ⟨sent, lost, h⟩ := run_inv ts (txInit_inv maxTx)
  rw [List.nil_append] at h
  have hmem : ∀ l : List (Bytes × Nat), List.Sublist l (taken maxTx Tx.init ts) →
      ∀ e ∈ l, e.1.length < 2 ^ 32 := fun l hl e he => hs e (hl.subset he)
  constructor
  · -- the line is a prefix of the packets of some of the bundles taken
    obtain ⟨l, hl, hpre⟩ : ∃ l, List.Sublist l (taken maxTx Tx.init ts) ∧
        bytesOf rs <+: frames l := by
      rcases Bool.eq_false_or_eq_true (Tx.init.run maxTx ts).failed with hf | hf
      · obtain ⟨_, e, l, k, hl, hwire⟩ := h.bad hf
        refine ⟨sent ++ [e], ?_, ?_⟩
        · rw [h.whole, hl]
          simp only [List.append_assoc, List.cons_append]
          exact (List.Sublist.refl _).append ((List.nil_sublist _).cons_cons e)
        · refine hw.trans ?_
          rw [hwire]
          simp only [frames, List.flatMap_append, List.flatMap_cons, List.flatMap_nil,
            List.append_nil]
          exact (List.prefix_append_right_inj _).mpr (List.take_prefix _ _)
      · obtain ⟨hl, hwire⟩ := h.good hf
        refine ⟨sent, ?_, ?_⟩
        · rw [h.whole, hl]
          simp
        · rw [← hwire]; exact hw
    obtain ⟨rest, hrest⟩ := hpre
    have hall : bytesOf (rs ++ rest.map RxEvent.byte) = frames l := by
      rw [bytesOf_append, ← hrest]
      congr 1
      clear hrest
      induction rest with
      | nil => rfl
      | cons c cs ih => simp [bytesOf, ih]
    have hsub := (C82_from_start cfg (frames_packets (hmem l hl)) hall).1
    rw [run_append] at hsub
    refine (run_grows cfg _ _).sublist.trans (hsub.trans ?_)
    exact (hl.map _).filter _
  · intro hf hb hk
    obtain ⟨hl, hwire⟩ := h.good hf
    refine ⟨sent, ?_, ?_, ?_⟩
    · rw [h.whole, hl]; simp
    · rw [h.notes, hl]; simp
    · rw [hwire] at hb
      have hsub : List.Sublist sent (taken maxTx Tx.init ts) := by
        rw [h.whole, List.append_assoc]; exact List.sublist_append_left ..
      exact (C82_from_start cfg (frames_packets (hmem sent hsub)) hb).2 hk

example : (Tx.init.run 5 [.forward [1] 1, .forward [2, 3] 2, .posted, .done, .done]).wire =
    [0xC0, 1, 0xC0, 0xC0, 2, 3, 0xC0] := by decide +kernel

example := C83_end_to_end 5 ⟨5, 4⟩ (ts := [.forward [1] 1, .forward [2, 3] 2, .posted, .done, .done])
  (rs := [0xC0, 1, 0xC0, 0xC0, 2, 3, 0xC0].map .byte) (by decide +kernel)
  ⟨[], by decide +kernel⟩

/-- **C83 fails** for an empty bundle whose sending fails: nobody is told. -/
theorem C83_empty_violated :
    (Tx.init.run 5 [.forward [] 1, .posted, .broke 0]).notes = [] ∧
    (Tx.init.run 5 [.forward [] 1, .posted, .broke 0]).queue = [] ∧
    taken 5 Tx.init [.forward [] 1, .posted, .broke 0] = [([], 1)] := by decide +kernel

/-- **C83 fails** for the number of bundles without acknowledgement: those that failed are counted
in it for ever, and stopping waits for them. -/
theorem C83_unacked_violated :
    (Tx.init.run 5 [.forward [1] 1, .posted, .broke 0]).queue = [] ∧
    (Tx.init.run 5 [.forward [1] 1, .posted, .broke 0]).unacked = 1 := by decide +kernel

/-- **C83 fails** for bundles of 4 GiB and more: only the size modulo 2³² is sent, and success is
reported. -/
theorem C83_large_violated (b : Bytes) (h : 2 ^ 32 ≤ b.length) :
    (Tx.init.run 1 [.forward b 1, .posted, .done]).notes = [.sent 1] ∧
    (Tx.init.run 1 [.forward b 1, .posted, .done]).wire =
      slipEncode (b.take (b.length % 2 ^ 32)) (b.length % 2 ^ 32) ∧
    ¬ Packet b (Tx.init.run 1 [.forward b 1, .posted, .done]).wire := by
  have hw : (Tx.init.run 1 [.forward b 1, .posted, .done]).wire = frame b := by
    simp [Tx.run, Tx.step, Tx.forward, Tx.init, Tx.trySend, Tx.done]
  refine ⟨by simp [Tx.run, Tx.step, Tx.forward, Tx.init, Tx.trySend, Tx.done], ?_, ?_⟩
  · rw [hw]
    unfold frame slipEncode
    rw [List.take_take, Nat.min_self]
  · rw [hw]
    rintro ⟨m, hm, he⟩
    unfold frame slipEncode at he
    have e2 : encodeChars (b.take (b.length % U32)) = m := by
      have := (List.cons.inj he).2
      exact List.append_cancel_right this
    rw [stuffed_unique hm] at e2
    have := congrArg List.length (encodeChars_inj e2)
    rw [List.length_take] at this
    have : b.length % U32 < 2 ^ 32 := Nat.mod_lt _ (by decide)
    omega

end Hdtn.Slip
