import Verif.LtpEncap.Lemmas

/-!
C169 and C170: LTP over encapsulation packets.
-/

namespace Hdtn.LtpEncap

open Hdtn.LtpEncap.Spec

/-- A stream that is lost in the middle of a write and connected again. -/
def example1 : List Ev :=
  [.connection true, .send [[1], [2, 3]], .send [[4]], .written none, .send [[5, 6]], .written (some 2), .connection false, .connection true, .send [[7]], .written none]

theorem example1_fit : AllFit example1 := by
  intro ps hp p hq
  simp only [example1, List.mem_cons, List.mem_nil_iff, Ev.send.injEq, reduceCtorEq, false_or, or_false] at hp
  rcases hp with h | h | h | h <;> subst h <;> simp at hq <;> (first | (rcases hq with hq | hq <;> subst hq <;> simp) | (subst hq; simp))

/-! ### C169: what goes out -/

/-- C169: what is taken from the engine is a part of what it has to send, in order, and each call as a whole; what was written comes first, what waits
behind it, and nothing is lost in between. -/
theorem C169_taken (evs : List Ev) :
    ∃ l : List (List Bytes), l.Sublist (given evs) ∧ ((Tx.init.run evs).done ++ (Tx.init.run evs).queue).map some = l.map encodeAll := by
  obtain ⟨l, h1, h2⟩ := taken_run evs Tx.init
  exact ⟨l, h1, by simpa [taken, Tx.init] using h2⟩

example : (Tx.init.run example1).done = [[0xe5, 3, 1, 0xe5, 4, 2, 3], [0xe5, 3, 4]] ∧ (Tx.init.run example1).queue = [[0xe5, 4, 5, 6], [0xe5, 3, 7]] := by decide +kernel

/-- C169: what counts as written was written whole, in order. -/
theorem C169_written (evs : List Ev) : (Tx.init.run evs).done.Sublist ((Tx.init.run evs).wire.map Prod.snd) :=
  done_run evs Tx.init (by simp [Tx.init])

example : (Tx.init.run example1).wire = [(1, [0xe5, 3, 1, 0xe5, 4, 2, 3]), (1, [0xe5, 3]), (2, [0xe5, 3, 4])] := by decide +kernel

/-- C169: each connection begins with the first byte of what the engine gave in one call, and goes on with what it gave next, without a gap. -/
theorem C169_connections (evs : List Ev) (c : Nat) :
    let s := Tx.init.run evs
    ∃ a, onConnection s c <+: ((s.done ++ s.queue).drop a).flatten := (inv evs).old c

example : onConnection (Tx.init.run example1) 1 = [0xe5, 3, 1, 0xe5, 4, 2, 3, 0xe5, 3] ∧ onConnection (Tx.init.run example1) 2 = [0xe5, 3, 4] := by decide +kernel

/-- C169: on the connection that is open, what counts as written since it was opened is there, and behind it at most a part of the next. -/
theorem C169_current (evs : List Ev) :
    let s := Tx.init.run evs
    ∃ a cut, a ≤ s.done.length ∧ onConnection s s.conn = (s.done.drop a).flatten ++ cut ∧ (cut = [] ∨ ∃ b, s.queue.head? = some b ∧ cut <+: b) := by
  intro s
  obtain ⟨a, cut, h1, h2, h3⟩ := (inv evs).cur
  refine ⟨a, cut, h1, h2, ?_⟩
  rcases h3 with h3 | ⟨_, _, b, q, hq, hp⟩
  · exact Or.inl h3
  · refine Or.inr ⟨b, ?_, hp⟩
    show (Tx.init.run evs).queue.head? = some b
    rw [hq]; rfl

/-- C169: a receiver that reads what was written on a connection, in whatever pieces, gets packets that the engine had to send, unchanged, in order, and
without a gap from some call on. -/
theorem C169_received (evs : List Ev) (hf : AllFit evs) :
    ∃ l : List (List Bytes), l.Sublist (given evs) ∧ ∀ (c : Nat) (keep auto : Bool) (ops : List Encap.Op), Encap.Spec.connected ops →
      Encap.Spec.received ops <+: onConnection (Tx.init.run evs) c →
      ∃ a k, ((Encap.Rx.connected .ltp keep auto).run ops).out.map (fun p => if keep then p.buffer.drop p.headerSize else p.buffer) = ((l.drop a).flatten).take k := by
  obtain ⟨l, h1, h2⟩ := C169_taken evs
  refine ⟨l, h1, ?_⟩
  intro c keep auto ops hc hr
  obtain ⟨a, ha⟩ := C169_connections evs c
  have hl : ∀ ps ∈ l.drop a, ∀ p ∈ ps, p.length ≤ 4294967287 := by
    intro ps hps p hp
    have : ps ∈ given evs := h1.subset (List.mem_of_mem_drop hps)
    unfold given at this
    obtain ⟨e, he, hx⟩ := List.mem_filterMap.mp this
    cases e with
    | send q =>
      simp only [Option.some.injEq] at hx
      subst hx
      exact (hf q he p hp).2
    | written er => cases hx
    | connection u => cases hx
  obtain ⟨sent, s1, s2, s3⟩ := framed_all (l.drop a) (((Tx.init.run evs).done ++ (Tx.init.run evs).queue).drop a)
    (by rw [List.map_drop, h2, List.map_drop]) hl
  obtain ⟨k, _, hk⟩ := Encap.C120_in_order_partial .ltp keep auto (by decide) sent s1 ops hc (by rw [s3]; exact hr.trans ha)
  refine ⟨a, k, ?_⟩
  rw [hk, ← s2, ← List.map_take, List.map_map]
  apply List.map_congr_left
  intro x _
  cases keep <;> simp [Encap.Spec.handed]

example : ((Encap.Rx.connected .ltp true true).run [.bytes [0xe5, 3, 1, 0xe5, 4], .bytes [2, 3, 0xe5, 3]]).out.map (fun p => p.buffer.drop p.headerSize) = [[1], [2, 3]] ∧
    AllFit example1 := ⟨by decide +kernel, example1_fit⟩

/-! ### C170: nothing is forgotten -/

/-- C170: there is always room for what the engine sends: it counts what waits, at most five, and nothing is dropped. -/
theorem C170_room (evs : List Ev) (hf : AllFit evs) :
    let s := Tx.init.run evs
    s.queue.length = s.queued ∧ s.queued ≤ 5 ∧ s.dropped = 0 := by
  intro s
  have h0 : s.dropped = 0 := dropped_run evs Tx.init inv_init rfl hf
  have hc := (inv evs).count
  have hm := (inv evs).max
  have hd : (Tx.init.run evs).dropped = 0 := h0
  rw [hd] at hc
  exact ⟨hc, hm, h0⟩

example : AllFit example1 ∧ (Tx.init.run example1).queued = 2 := ⟨example1_fit, by decide +kernel⟩

/-- C170: whatever the engine sends while it may is taken. -/
theorem C170_takes (evs : List Ev) (ps : List Bytes) (hf : AllFit (evs ++ [.send ps])) (hq : (Tx.init.run evs).queued < 5) :
    ∃ b, encodeAll ps = some b ∧ taken (Tx.init.run (evs ++ [.send ps])) = taken (Tx.init.run evs) ++ [b] := by
  obtain ⟨b, hb⟩ := encodeAll_ok ps (hf ps (by simp))
  refine ⟨b, hb, ?_⟩
  have hr := (C170_room evs (fun q hq => hf q (List.mem_append_left _ hq))).1
  have ht := taken_step (Tx.init.run evs) (.send ps)
  simp only at ht
  rw [if_pos hq, if_pos (by omega), hb] at ht
  have : Tx.init.run (evs ++ [.send ps]) = (Tx.init.run evs).step (.send ps) := by simp [Tx.run, List.foldl_append]
  rw [this, ht]; rfl

example : AllFit (example1 ++ [.send [[8]]]) ∧ (Tx.init.run example1).queued < 5 := by
  refine ⟨?_, by decide +kernel⟩
  intro ps hp p hq
  rcases List.mem_append.mp hp with h | h
  · exact example1_fit ps h p hq
  · simp at h; subst h; simp at hq; subst hq; simp

/-- C170 (partial: as long as the stream is not lost and no write fails): a write is in progress whenever something waits. -/
theorem C170_going_partial (evs : List Ev) (h : Steady evs) (hw : (Tx.init.run evs).queue ≠ []) : (Tx.init.run evs).writing.isSome = true := by
  obtain ⟨rest, he, h1, h2⟩ := h
  subst he
  exact (going_run rest h1 h2 (Tx.init.step (.connection true)) ⟨rfl, fun x => absurd rfl x⟩).2 hw

example : (Tx.init.run [.connection true, .send [[1]], .send [[2]], .written none]).queue ≠ [] := by decide +kernel

/-- C170 (partial: the same): when the writes end, everything that was taken was written, on the one connection. -/
theorem C170_drain_partial (evs : List Ev) (h : Steady evs) :
    let s := Tx.init.run evs
    let s' := s.run (List.replicate s.queue.length (.written none))
    s'.done = s.done ++ s.queue ∧ s'.queue = [] := by
  intro s s'
  obtain ⟨rest, he, h1, h2⟩ := h
  subst he
  have hg : Going s := going_run rest h1 h2 (Tx.init.step (.connection true)) ⟨rfl, fun x => absurd rfl x⟩
  obtain ⟨a, b⟩ := drain _ s hg (Nat.le_refl _)
  have a' : s'.queue = [] := a
  refine ⟨?_, a'⟩
  have b' : s'.done ++ s'.queue = s.done ++ s.queue := b
  rw [a', List.append_nil] at b'
  exact b'

example : Steady [.connection true, .send [[1]], .send [[2]], .written none] := ⟨_, rfl, by simp, by simp⟩

/-- C170 (partial: if fewer than five wait and the engine has something more to send): once the stream is connected again everything is sent, first what was
cut off. -/
theorem C170_resumes_partial (evs : List Ev) (ps : List Bytes) (hf : AllFit (evs ++ [.send ps])) (hw : (Tx.init.run evs).writing = none) (hq : (Tx.init.run evs).queued < 5) :
    let s := Tx.init.run (evs ++ [.connection true, .send ps])
    s.writing = some s.conn ∧ s.queue.head? = ((Tx.init.run evs).queue ++ (encodeAll ps).toList).head? ∧
      (s.run (List.replicate s.queue.length (.written none))).done = (Tx.init.run evs).done ++ (Tx.init.run evs).queue ++ (encodeAll ps).toList := by
  obtain ⟨b, hb⟩ := encodeAll_ok ps (hf ps (by simp))
  have hr := (C170_room evs (fun q hq => hf q (List.mem_append_left _ hq))).1
  have hs : Tx.init.run (evs ++ [.connection true, .send ps]) = (((Tx.init.run evs).step (.connection true)).step (.send ps)) := by simp [Tx.run, List.foldl_append]
  intro s
  have hinv : Inv s := inv _
  have hss : s = Tx.trySend { (Tx.init.run evs) with err := false, conn := (Tx.init.run evs).conn + 1, queued := (Tx.init.run evs).queued + 1, queue := (Tx.init.run evs).queue ++ [b] } := by
    show Tx.init.run (evs ++ [.connection true, .send ps]) = _
    rw [hs]
    generalize Tx.init.run evs = r at hw hq hr ⊢
    simp only [Tx.step, Tx.connection]
    rw [if_pos trivial, if_pos (by rw [hw]; rfl)]
    simp only [Tx.send]
    rw [if_pos hq, if_pos (by omega), hb]
  have hg : Going s := by rw [hss]; exact going_trySend _ rfl
  have hqu : s.queue = (Tx.init.run evs).queue ++ [b] := by rw [hss, (trySend_fields _).1]
  have hdo : s.done = (Tx.init.run evs).done := by rw [hss, (trySend_fields _).2.2.2.2.1]
  refine ⟨?_, by rw [hqu, hb]; rfl, ?_⟩
  · obtain ⟨c, hc⟩ := Option.isSome_iff_exists.mp (hg.2 (by rw [hqu]; simp))
    rw [hc, (hinv.busy c hc).1]
  · obtain ⟨x, y⟩ := drain _ s hg (Nat.le_refl _)
    unfold taken at y
    rw [x, List.append_nil, hqu, hdo] at y
    rw [hqu, y, hb]
    simp

example : (Tx.init.run (example1.take 7)).writing = none ∧ (Tx.init.run (example1.take 7)).queued = 2 := by decide +kernel

/-- C170 is false if five calls wait when the stream is lost: whatever happens then, with whatever connections, nothing is ever written again. -/
theorem C170_stuck_violated (evs evs' : List Ev) (h1 : (Tx.init.run evs).queued = 5) (h2 : (Tx.init.run evs).writing = none) :
    let s := Tx.init.run evs
    (s.run evs').wire = s.wire ∧ (s.run evs').queue = s.queue ∧ (s.run evs').done = s.done := stuck_run evs' _ h1 h2

/-- C170: this comes about whenever the engine has five packets to send while the stream is lost, for instance because it sends reports and checkpoints again. -/
theorem C170_stuck_reached (p : Bytes) (h1 : 0 < p.length) (h2 : p.length ≤ 4294967287) :
    let s := Tx.init.run ([.connection true, .connection false] ++ List.replicate 5 (.send [p]) ++ [.connection true])
    s.queued = 5 ∧ s.writing = none ∧ s.err = false ∧ s.queue.length = 5 ∧ s.wire = [] := by
  obtain ⟨b, hb⟩ := encodeAll_ok [p] (by simpa using ⟨h1, h2⟩)
  simp [Tx.run, List.replicate, Tx.step, Tx.connection, Tx.send, Tx.trySend, Tx.init, hb]

example : ∃ p : Bytes, 0 < p.length ∧ p.length ≤ 4294967287 := ⟨[1], by simp⟩

end Hdtn.LtpEncap
