import Verif.UdpBatch.Lemmas

/-!
C171 and C172: many UDP packets per system call.
-/

namespace Hdtn.UdpBatch

open Hdtn.UdpBatch.Spec

/-- Three batches; the operating system takes some messages of the first, then the others; it refuses one of the second. -/
def example1 : List Ev :=
  [.send [[[1], [2, 3]], [[4]], [[5]]], .send [[[6]], [[7]]], .sys (.messages 2), .sys .again, .send [[[8]]], .sys .interrupted, .sys (.messages 4), .sys (.messages 1), .sys .error]

theorem example1_full : AllFull example1 := by
  intro b hb
  simp only [example1, given, List.mem_cons, List.mem_nil_iff, or_false] at hb
  rcases hb with h | h | h <;> subst h <;> simp [Full]

/-! ### C171: what is sent, and what is reported -/

/-- C171: each batch is answered at most once, in the order in which the batches were handed over; those that are not answered wait. -/
theorem C171_once (evs : List Ev) : (Tx.init.run evs).answers.map Prod.fst ++ (Tx.init.run evs).queue = given evs := all_init evs

example : (Tx.init.run example1).answers = [([[[1], [2, 3]], [[4]], [[5]]], true, 3), ([[[6]], [[7]]], false, 1)] ∧ (Tx.init.run example1).queue = [[[[8]]]] := by decide +kernel

/-- C171: what was sent is, batch by batch, as many datagrams as were reported, from the first on, each whole; behind them some of the batch that waits
first. No datagram is sent twice, none is left out before one that was sent. -/
theorem C171_sent (evs : List Ev) (hf : AllFull evs) :
    let s := Tx.init.run evs
    ∃ k, s.sent = (s.answers.map fun a => (datagrams a.1).take a.2.2).flatten ++ (datagrams (s.queue.headD [])).take k := by
  intro s
  have hi : Inv s := inv evs
  have hg : s.answers.map Prod.fst ++ s.queue = given evs := all_init evs
  have ha : answered s.answers = (s.answers.map fun a => (datagrams a.1).take a.2.2).flatten := by
    unfold answered
    congr 1
    apply List.map_congr_left
    intro a haa
    rw [elements_full a.1 (hf a.1 (by rw [← hg]; exact List.mem_append_left _ (List.mem_map_of_mem haa))).2]
  cases ho : s.op with
  | none =>
    refine ⟨0, ?_⟩
    rw [hi.sent, ho, ha]; simp [part]
  | some o =>
    obtain ⟨_, _, b, q, hq, he⟩ := hi.op o ho
    refine ⟨o.total, ?_⟩
    rw [hi.sent, ho, ha, hq]
    simp only [part, List.headD_cons]
    rw [he, elements_full b (hf b (by rw [← hg, hq]; exact List.mem_append_right _ List.mem_cons_self)).2]

example : (Tx.init.run example1).sent = [[1, 2, 3], [4], [5], [6]] ∧ AllFull example1 := ⟨by decide +kernel, example1_full⟩

/-- C171: success is reported exactly if all packets of the batch were sent; the number that is reported is never more than the batch has. -/
theorem C171_success_partial (evs : List Ev) (hf : AllFull evs) (b : Batch) (ok : Bool) (n : Nat) (h : (b, ok, n) ∈ (Tx.init.run evs).answers) :
    (ok = true ↔ n = b.length) ∧ n ≤ b.length := by
  have ha := (inv evs).ans _ h
  have hg := all_init evs
  have hb : b ∈ given evs := by rw [← hg]; exact List.mem_append_left _ (List.mem_map.mpr ⟨_, h, rfl⟩)
  exact ⟨⟨fun hx => (ha.ok hx).1, fun hx => ha.all hx (hf b hb).1⟩, Nat.le_trans ha.le (elements_length_le b)⟩

example : (([[[6]], [[7]]] : Batch), false, 1) ∈ (Tx.init.run example1).answers := by decide +kernel

/-- C171: as long as the operating system does not refuse a message for good, every answer is success: a full socket or a signal loses nothing. -/
theorem C171_reliable (evs : List Ev) (hf : AllFull evs) (hn : Ev.sys .error ∉ evs) (b : Batch) (ok : Bool) (n : Nat) (h : (b, ok, n) ∈ (Tx.init.run evs).answers) :
    ok = true ∧ n = b.length := by
  have h1 := reliable_run evs Tx.init inv_init hn (fun b hb => (hf b (by simpa [all, Tx.init] using hb)).2) (by simp [Tx.init]) _ h
  exact ⟨h1, (C171_success_partial evs hf b ok n h).1.mp h1⟩

example : Ev.sys .error ∉ example1.dropLast ∧ (Tx.init.run example1.dropLast).answers = [([[[1], [2, 3]], [[4]], [[5]]], true, 3)] := by decide +kernel

/-- C171: even for packets without buffers success is never reported unless all packets were sent. -/
theorem C171_no_false_success (evs : List Ev) (b : Batch) (n : Nat) (h : (b, true, n) ∈ (Tx.init.run evs).answers) : n = b.length ∧ Full b := by
  have ha := (inv evs).ans _ h
  obtain ⟨h1, h2⟩ := ha.ok rfl
  refine ⟨h1, ?_⟩
  intro p hp hn
  have h3 : (b.filter fun p => !p.isEmpty).length = b.length := by
    have : (elements b).length = b.length := h2
    unfold elements at this; rwa [List.length_map] at this
  have := (List.length_filter_eq_length_iff.mp h3) p hp
  rw [hn] at this
  simp at this

/-- C171 is false for a batch with a packet without buffers: the others are all sent, and failure is reported. -/
theorem C171_holes_violated (d : Bytes) :
    let s := Tx.init.run [.send [[], [d]], .sys (.messages 1)]
    s.sent = [d] ∧ s.answers = [([[], [d]], false, 1)] := by
  simp [Tx.run, Tx.step, Tx.send, Tx.trySend, Tx.sys, Tx.completed, elements, Tx.init]

/-! ### C172: every batch is answered -/

/-- C172 (partial: every batch has a packet with a buffer): an operation is in progress whenever a batch waits. -/
theorem C172_going_partial (evs : List Ev) (hf : AllFull evs) (hq : (Tx.init.run evs).queue ≠ []) : (Tx.init.run evs).op.isSome = true := by
  have hi := inv evs
  have hg := all_init evs
  cases ho : (Tx.init.run evs).op with
  | some o => rfl
  | none =>
    exfalso
    cases hb : (Tx.init.run evs).busy with
    | false => exact hq (hi.idle hb)
    | true =>
      obtain ⟨b, q, h1, h2⟩ := hi.busy hb ho
      have hm := hf b (by rw [← hg]; unfold all; rw [h1]; exact List.mem_append_right _ List.mem_cons_self)
      rw [elements_full b hm.2] at h2
      unfold datagrams at h2
      exact hm.1 (List.map_eq_nil_iff.mp h2)

example : (Tx.init.run example1).queue ≠ [] ∧ (Tx.init.run example1).op = some ⟨[[8]], 0⟩ := by decide +kernel

/-- C172 (partial: the same): whatever the operating system answers, every batch is answered after as many calls as packets wait that take a message or fail. -/
theorem C172_drain_partial (evs : List Ev) (hf : AllFull evs) (rs : List Result) (hr : ∀ r ∈ rs, Spec.Result.progress r = true)
    (hl : ((Tx.init.run evs).queue.map List.length).sum ≤ rs.length) :
    let s' := (Tx.init.run evs).run (rs.map Ev.sys)
    s'.queue = [] ∧ s'.answers.map Prod.fst = given evs := by
  intro s'
  have hg := all_init evs
  have hmem : ∀ b ∈ (Tx.init.run evs).queue, b ≠ [] ∧ Full b := fun b hb => hf b (by rw [← hg]; exact List.mem_append_right _ hb)
  have hle : left (Tx.init.run evs) ≤ rs.length := by
    refine Nat.le_trans ?_ hl
    unfold left
    refine Nat.le_trans (Nat.sub_le _ _) ?_
    generalize (Tx.init.run evs).queue = l
    induction l with
    | nil => exact Nat.le_refl _
    | cons b l ih =>
      simp only [List.map_cons, List.sum_cons]
      have := elements_length_le b
      omega
  have hd : s'.queue = [] := by
    refine drain rs (Tx.init.run evs) (inv evs) ?_ hr hle
    intro b hb hx
    rw [elements_full b (hmem b hb).2] at hx
    unfold datagrams at hx
    exact (hmem b hb).1 (List.map_eq_nil_iff.mp hx)
  refine ⟨hd, ?_⟩
  have h3 : given (rs.map Ev.sys) = [] := by
    clear hr hl hle hd s'
    induction rs with
    | nil => rfl
    | cons r rs ih => simpa [given] using ih
  have h2 : all s' = given evs := by
    have : s' = Tx.init.run (evs ++ rs.map Ev.sys) := by simp [s', Tx.run, List.foldl_append]
    rw [this, all_init, given_append, h3, List.append_nil]
  unfold all at h2
  rw [hd, List.append_nil] at h2
  exact h2

example : AllFull example1 ∧ ((Tx.init.run example1).queue.map List.length).sum = 1 ∧ Spec.Result.progress (.messages 1) = true := ⟨example1_full, by decide +kernel, rfl⟩

/-- C172 is false for a batch without packets, or whose packets have no buffers: it is never answered, and nothing that is handed over afterwards is sent. -/
theorem C172_empty_violated (b : Batch) (h : ∀ p ∈ b, p = []) (evs : List Ev) :
    let s := Tx.init.run (.send b :: evs)
    s.answers = [] ∧ s.sent = [] := by
  have he : elements b = [] := by
    unfold elements
    rw [List.filter_eq_nil_iff.mpr, List.map_nil]
    intro p hp
    rw [h p hp]; simp
  have h1 : (Tx.init.send b).busy = true ∧ (Tx.init.send b).op = none ∧ (Tx.init.send b).answers = [] ∧ (Tx.init.send b).sent = [] := by
    simp [Tx.send, Tx.trySend, Tx.init, he]
  obtain ⟨x, y⟩ := stuck_run evs (Tx.init.send b) h1.1 h1.2.1
  exact ⟨x.trans h1.2.2.1, y.trans h1.2.2.2⟩

example : ∀ p ∈ ([] : Batch), p = [] := by simp

end Hdtn.UdpBatch
