import Verif.LtpSessions.Drain

/-!
# Properties of the LTP engine's bookkeeping (C147-C149)

A history is a list of events from the engine at its start.  The numbers of new sessions are
random 64-bit numbers in the code; the theorems suppose that none is drawn twice.
-/

namespace Hdtn.LtpSessions

/-! ## A history for the examples

A bundle in three packets, one in two packets all green, and one in two packets.  The second
ends by itself; the receiver claims the first; the third is cancelled by its receiver. -/

/-- The events of the example. -/
def sampleEvents : List Ev :=
  [.request 7 ⟨1, false, [10, 11, 12]⟩ true, .request 8 ⟨2, true, [20, 21]⟩ true,
   .request 9 ⟨3, false, [30, 31]⟩ true, .completed, .completed, .completed, .completed, .posted,
   .report 7 100 true true [], .completed, .completed, .completed, .posted, .posted, .posted,
   .cancelIn 9 200, .completed, .completed, .posted, .posted]

theorem sample_numbers : (numbers sampleEvents).Nodup := by decide +kernel

theorem sample_nonEmpty : NonEmpty sampleEvents := by
  intro e he n r ok h
  subst h
  simp only [sampleEvents, List.mem_cons, Ev.request.injEq, reduceCtorEq, List.not_mem_nil, or_false, false_or] at he
  rcases he with ⟨_, h, _⟩ | ⟨_, h, _⟩ | ⟨_, h, _⟩ <;> rw [h] <;> exact List.cons_ne_nil _ _

/-! ## C147: every bundle is answered for -/

/-- **C147** (partial: blocks in memory, none of them empty).  For every user's bundle, the
number of answers, "it was sent" or "here it is back", and the number of its sessions that still
go on are together the number of times it was given to the engine: no bundle is lost and none
is answered twice. -/
theorem C147_once_partial (c : Cfg) (hd : c.disk = false) (es : List Ev) (hn : (numbers es).Nodup)
    (hr : NonEmpty es) (u : Nat) :
    (Eng.run c es).calls.countP (Call.answers u) + openFor u (Eng.run c es) = requestsOf u es := by
  obtain ⟨used, _, h⟩ := inv_run hd es hn hr
  exact h.count u

example : ((Eng.run {} sampleEvents).calls.countP (Call.answers 1) = 1 ∧
    (Eng.run {} sampleEvents).calls.countP (Call.answers 2) = 1 ∧
    (Eng.run {} sampleEvents).calls.countP (Call.answers 3) = 1) := by decide +kernel

/-- **C147**.  "It was sent" is told only when all packets of the bundle have been handed over in
their order, and, unless all is green, the receiver has claimed all red data. -/
theorem C147_success (c : Cfg) (hd : c.disk = false) (es : List Ev) (hn : (numbers es).Nodup)
    (hr : NonEmpty es) (u : Nat) (x : Option (Nat × Tx))
    (h : Call.success u x ∈ (Eng.run c es).calls) :
    ∃ n r ok, Ev.request n r ok ∈ es ∧ r.user = u ∧ firstOf n (Eng.run c es).sent = r.first ∧
      (r.green = true ∨ Claimed es n) := by
  obtain ⟨used, _, hi⟩ := inv_run hd es hn hr
  have g := hi.gone _ h
  cases x with
  | none => exact False.elim g
  | some x =>
    obtain ⟨g1, _, _, g4, g5, ok, g6⟩ := g
    exact ⟨x.1, _, ok, g6, g1.symm, g4, g5⟩

example : Call.success 1 (some (7, ⟨1, false, true, [], [], [], [10, 11, 12], true, false, true, true⟩)) ∈
    (Eng.run {} sampleEvents).calls := by decide +kernel

/-- **C147**.  A bundle comes back only when a checkpoint went unanswered as often as allowed, or
when the user or the receiver cancelled its session. -/
theorem C147_back (c : Cfg) (hd : c.disk = false) (es : List Ev) (hn : (numbers es).Nodup)
    (hr : NonEmpty es) (u : Nat) (x : Nat × Tx) (h : Call.failed u x ∈ (Eng.run c es).calls) :
    ∃ n r ok, Ev.request n r ok ∈ es ∧ r.user = u ∧ (Exhausted es n ∨ Cancelled es n) := by
  obtain ⟨used, _, hi⟩ := inv_run hd es hn hr
  obtain ⟨g1, _, _, _, g5, ok, g6⟩ := hi.gone _ h
  exact ⟨x.1, _, ok, g6, g1.symm, g5⟩

example : Call.failed 3 (9, ⟨3, false, true, [], [], [], [30, 31], false, false, false, false⟩) ∈
    (Eng.run {} sampleEvents).calls := by decide +kernel

/-- **C147**.  The end of a session, complete or stopped, is told at most once for each time the
bundle was given. -/
theorem C147_told (c : Cfg) (hd : c.disk = false) (es : List Ev) (hn : (numbers es).Nodup)
    (hr : NonEmpty es) (u : Nat) :
    (Eng.run c es).calls.countP (Call.tells u) ≤ requestsOf u es := by
  obtain ⟨used, _, h⟩ := inv_run hd es hn hr
  have := h.tells u
  omega

example : (Eng.run {} sampleEvents).calls.countP (Call.tells 1) = 1 := by decide +kernel

/-- **C147, violated.**  The user was told that the session is complete, and yet the bundle comes
back as failed: the session waits to be deleted while the system is busy, and in that time a
cancel segment of the receiver arrives. -/
theorem C147_completed_violated : ∃ es, (numbers es).Nodup ∧ NonEmpty es ∧
    Call.completed 1 ∈ (Eng.run {} es).calls ∧
    ∃ x, Call.failed 1 x ∈ (Eng.run {} es).calls := by
  refine ⟨[.request 7 ⟨1, true, [10, 11, 12, 13, 14]⟩ true, .cancelIn 7 200], by decide +kernel, ?_,
    by decide +kernel, (7, ⟨1, true, true, [], [], [], [10, 11, 12, 13, 14], false, false, true, true⟩), by decide +kernel⟩
  intro e he n r ok h
  subst h
  simp only [List.mem_cons, Ev.request.injEq, reduceCtorEq, List.not_mem_nil, or_false] at he
  rw [he.2.1]; exact List.cons_ne_nil _ _

/-- **C147, violated.**  With blocks on the disk, the user is told "it was sent" when the block is
on the disk; the session then fails, as no checkpoint is answered, and the bundle does not come
back. -/
theorem C147_disk_violated : ∃ es, (numbers es).Nodup ∧ NonEmpty es ∧
    (∃ x, Call.success 1 x ∈ (Eng.run { disk := true, limit := 5 } es).calls) ∧
    (Eng.run { disk := true, limit := 5 } es).tx = [] ∧ Exhausted es 7 ∧ ¬ Claimed es 7 ∧
    ∀ x, Call.failed 1 x ∉ (Eng.run { disk := true, limit := 5 } es).calls := by
  refine ⟨[.request 6 ⟨1, false, [10]⟩ true, .written 0 7, .checkpoint 7 10 false false, .posted], by decide +kernel, ?_,
    ⟨none, by decide +kernel⟩, by decide +kernel, ⟨10, false, by decide +kernel⟩, ?_, ?_⟩
  · intro e he n r ok h
    subst h
    simp only [List.mem_cons, Ev.request.injEq, reduceCtorEq, List.not_mem_nil, or_false] at he
    rw [he.2.1]; exact List.cons_ne_nil _ _
  · rintro ⟨ack, extra, h⟩
    simp at h
  · intro x
    have : (Eng.run { disk := true, limit := 5 }
      [.request 6 ⟨1, false, [10]⟩ true, .written 0 7, .checkpoint 7 10 false false, .posted]).calls =
      [.success 1 none, .stopped 1] := by decide +kernel
    rw [this]; simp

/-- **C147, violated.**  A request for an empty block makes a session which sends nothing, and the
user is never answered, not even when they cancel it. -/
theorem C147_empty_violated :
    (Eng.run {} [.request 7 ⟨1, false, []⟩ true]).sent = [] ∧
    (Eng.run {} [.request 7 ⟨1, false, []⟩ true]).posted = 0 ∧
    (Eng.run {} [.request 7 ⟨1, false, []⟩ true]).calls = [] ∧
    (Eng.run {} [.request 7 ⟨1, false, []⟩ true]).tx ≠ [] ∧
    (Eng.run {} [.request 7 ⟨1, false, []⟩ true, .cancel 7]).calls = [] ∧
    (Eng.run {} [.request 7 ⟨1, false, []⟩ true, .cancel 7]).tx = [] := by
  refine ⟨by decide +kernel, by decide +kernel, by decide +kernel, by decide +kernel, by decide +kernel, by decide +kernel⟩

/-! ## C148: nothing is left behind -/

/-- **C148** (partial: blocks in memory).  When no system call is under way and no call is posted,
no session has anything to send, none waits to be deleted, and no cancel segment, acknowledgement
or report waits. -/
theorem C148_nothing_left_partial (c : Cfg) (hc : c.min < c.max) (hd : c.disk = false) (es : List Ev)
    (hn : (numbers es).Nodup) (hr : NonEmpty es) (hp : (Eng.run c es).posted = 0)
    (hf : (Eng.run c es).flight = 0) :
    (∀ x ∈ (Eng.run c es).tx, x.2.first = [] ∧ x.2.acks = [] ∧
      (x.2.done = true ∨ x.2.resend = []) ∧ x.2.notified = false) ∧
    (∀ x ∈ (Eng.run c es).rx, x.2 = []) ∧
    (Eng.run c es).cancels = [] ∧ (Eng.run c es).closed = [] := by
  obtain ⟨used, _, h⟩ := inv_run hd es hn hr
  have hpipe := pipe_run hc hd es
  have hfl := hpipe.flight
  have hq : Quiet (Eng.run c es) := by
    rcases hpipe.settled with k | k | k
    · omega
    · omega
    · exact k
  obtain ⟨q1, q2, q3, q4, q5, q6, q7⟩ := hq
  refine ⟨fun x hx => ?_, fun x hx => ?_, q3, q4⟩
  · have g := h.good x hx
    have hcrit : x.2.takeCritical = none := by
      by_contra k
      rcases g.crit k with k | k
      · rw [q5] at k; cases k
      · rw [q1] at k; cases k
    have hfirst : x.2.first = [] := by
      by_contra k
      rcases g.pass k with k | k
      · rw [q7] at k; cases k
      · rw [q1] at k; cases k
    have hu := urgent_iff hcrit
    unfold Tx.urgent at hu
    simp only [Bool.or_eq_false_iff, Bool.not_eq_false', List.isEmpty_iff, Bool.and_eq_false_iff] at hu
    refine ⟨hfirst, hu.1, hu.2, ?_⟩
    cases hnot : x.2.notified with
    | false => rfl
    | true =>
      have := g.del.mpr hnot
      rw [q1] at this; cases this
  · by_contra k
    rcases h.rx x hx k with k | k
    · rw [q6] at k; cases k
    · rw [q2] at k; cases k

example : (Eng.run {} (sampleEvents.take 7)).tx.length = 3 ∧
    (Eng.run {} (sampleEvents ++ [.request 5 ⟨4, false, [40]⟩ true, .completed, .completed, .posted, .posted, .posted, .posted])).posted = 0 ∧
    (Eng.run {} (sampleEvents ++ [.request 5 ⟨4, false, [40]⟩ true, .completed, .completed, .posted, .posted, .posted, .posted])).flight = 0 ∧
    (Eng.run {} (sampleEvents ++ [.request 5 ⟨4, false, [40]⟩ true, .completed, .completed, .posted, .posted, .posted, .posted])).tx.length = 1 := by
  decide +kernel

/-- **C148**.  At most `max` system calls are under way. -/
theorem C148_bound (c : Cfg) (hc : c.min < c.max) (es : List Ev) :
    (Eng.run c es).flight ≤ c.max := by
  obtain ⟨k, h⟩ := pipe_run_any hc es
  have := h.queued
  have := h.flight
  omega

example : (Eng.run {} [.request 7 ⟨1, false, [10, 11, 12, 13, 14, 15, 16]⟩ true]).flight = 5 := by
  decide +kernel

/-- **C148** (partial: blocks in memory).  From every state, if nothing happens but that system
calls end and posted calls run, then after a bounded number of such events no more of them can
happen, whatever their order. -/
theorem C148_ends_partial (c : Cfg) (hd : c.disk = false) (es : List Ev) (hn : (numbers es).Nodup)
    (hr : NonEmpty es) :
    ∃ bound, ∀ es', Effective c (Eng.run c es) es' → es'.length ≤ bound := by
  obtain ⟨used, _, h⟩ := inv_run hd es hn hr
  exact ⟨_, fun es' he => effective_length es' _ ⟨h.keys, h.rxk⟩ he⟩

example : Effective {} (Eng.run {} [.request 7 ⟨1, true, [10]⟩ true]) [.completed, .posted, .posted] := by
  unfold Effective Effective Effective Effective Ev.effective
  refine ⟨by decide +kernel, by decide +kernel, by decide +kernel, trivial⟩

/-- **C148** (partial: blocks in memory).  And they lead to a state in which none is left; see
`C148_nothing_left_partial` for what that means. -/
theorem C148_drains_partial (c : Cfg) (hd : c.disk = false) (es : List Ev) (hn : (numbers es).Nodup)
    (hr : NonEmpty es) :
    ∃ es', Effective c (Eng.run c es) es' ∧ (Eng.run c (es ++ es')).posted = 0 ∧
      (Eng.run c (es ++ es')).flight = 0 := by
  obtain ⟨used, _, h⟩ := inv_run hd es hn hr
  obtain ⟨es', a, b⟩ := drains_aux (c := c) _ (Eng.run c es) ⟨h.keys, h.rxk⟩ (Nat.le_refl _)
  refine ⟨es', a, ?_⟩
  have e : Eng.run c (es ++ es') = es'.foldl (Eng.step c) (Eng.run c es) := by
    unfold Eng.run; rw [List.foldl_append]
  rw [e]; exact b

example : (Eng.run {} ([.request 7 ⟨1, true, [10]⟩ true] ++ [.completed, .posted, .posted])).tx = [] ∧
    (Eng.run {} ([.request 7 ⟨1, true, [10]⟩ true] ++ [.completed, .posted, .posted])).calls =
      [.completed 1, .success 1 (some (7, ⟨1, true, true, [], [], [], [10], false, false, true, true⟩))] := by
  decide +kernel

/-- **C148, violated.**  With blocks on the disk, five reads that fail stop the engine: whatever
happens afterwards, no packet is ever sent again, although a session has packets to send. -/
theorem C148_stall_violated : ∃ es, (∃ x ∈ (Eng.run { disk := true, limit := 5 } es).tx, x.2.first ≠ []) ∧
    ∀ es', (Eng.run { disk := true, limit := 5 } (es ++ es')).sent =
      (Eng.run { disk := true, limit := 5 } es).sent := by
  refine ⟨[.request 6 ⟨1, false, [10, 11, 12, 13, 14, 15]⟩ true, .written 0 7, .readFailed,
    .readFailed, .readFailed, .readFailed, .readFailed],
    ⟨(7, ⟨1, false, false, [], [], [15], [10, 11, 12, 13, 14, 15], false, false, false, false⟩),
      by decide +kernel, by decide +kernel⟩, fun es' => ?_⟩
  unfold Eng.run
  rw [List.foldl_append]
  exact stuck_run es' _ ⟨by decide +kernel, by decide +kernel⟩

/-! ## C149: what goes first -/

/-- **C149** (partial: blocks in memory).  No packet of a first pass is ever handed over while an
acknowledgement of a report, data to send again, a report, a cancel segment or the
acknowledgement of one waits. -/
theorem C149_urgent_first_partial (c : Cfg) (hd : c.disk = false) (es : List Ev)
    (hn : (numbers es).Nodup) (hr : NonEmpty es) : (Eng.run c es).late = [] := by
  obtain ⟨used, _, h⟩ := inv_run hd es hn hr
  exact h.late

/-- The claim bites: a packet of a first pass and a report wait at the same time, and the report
goes out first. -/
example : (Eng.run {} [.request 7 ⟨1, false, [10, 11, 12, 13, 14, 15]⟩ true,
      .report 7 100 false false []]).urgent = true ∧
    (Eng.run {} [.request 7 ⟨1, false, [10, 11, 12, 13, 14, 15]⟩ true, .report 7 100 false false [],
      .completed, .posted]).sent.drop 5 = [.critical 7 100] := by
  decide +kernel

/-- **C149** (partial: blocks in memory).  The packets of the first pass of a bundle go out in
their order, each once. -/
theorem C149_order_partial (c : Cfg) (hd : c.disk = false) (es : List Ev) (hn : (numbers es).Nodup)
    (hr : NonEmpty es) (n : Nat) (t : Tx) (h : (n, t) ∈ (Eng.run c es).tx) :
    ∃ r ok, Ev.request n r ok ∈ es ∧ r.user = t.user ∧
      firstOf n (Eng.run c es).sent ++ t.first = r.first := by
  obtain ⟨used, _, hi⟩ := inv_run hd es hn hr
  have g := hi.good _ h
  obtain ⟨ok, hq⟩ := g.req
  exact ⟨_, ok, hq, rfl, g.order⟩

example : firstOf 7 (Eng.run {} (sampleEvents.take 3)).sent = [10, 11, 12] ∧
    firstOf 8 (Eng.run {} (sampleEvents.take 3)).sent = [20, 21] ∧
    firstOf 9 (Eng.run {} (sampleEvents.take 3)).sent = [] := by decide +kernel

end Hdtn.LtpSessions
