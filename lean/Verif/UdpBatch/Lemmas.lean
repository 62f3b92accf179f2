import Verif.UdpBatch.Spec
import Mathlib.Tactic.SplitIfs

namespace Hdtn.UdpBatch

open Hdtn.UdpBatch.Spec

theorem elements_full (b : Batch) (h : Full b) : elements b = datagrams b := by
  unfold elements datagrams
  rw [List.filter_eq_self.mpr]
  intro p hp
  have := h p hp
  simp [this]

theorem elements_length_le (b : Batch) : (elements b).length ≤ b.length := by
  unfold elements; rw [List.length_map]; exact List.length_filter_le _ _

theorem given_append (a b : List Ev) : given (a ++ b) = given a ++ given b := by
  induction a with
  | nil => rfl
  | cons e a ih => cases e <;> simp [given, ih]

/-- The messages of the operation in progress that were taken. -/
def part : Option Op → List Bytes
  | none => []
  | some o => o.elements.take o.total

/-- What the messages of the answered batches are. -/
def answered (l : List (Batch × Bool × Nat)) : List Bytes := (l.map fun a => (elements a.1).take a.2.2).flatten

/-- What holds of an answer. -/
structure Ans (a : Batch × Bool × Nat) : Prop where
  le : a.2.2 ≤ (elements a.1).length
  ok : a.2.1 = true → a.2.2 = a.1.length ∧ (elements a.1).length = a.1.length
  all : a.2.2 = a.1.length → a.1 ≠ [] → a.2.1 = true

/-- What always holds. -/
structure Inv (s : Tx) : Prop where
  op : ∀ o, s.op = some o → s.busy = true ∧ o.total < o.elements.length ∧ ∃ b q, s.queue = b :: q ∧ o.elements = elements b
  sent : s.sent = answered s.answers ++ part s.op
  ans : ∀ a ∈ s.answers, Ans a
  idle : s.busy = false → s.queue = []
  busy : s.busy = true → s.op = none → ∃ b q, s.queue = b :: q ∧ elements b = []

/-- The same before a new operation is tried. -/
structure Pre (s : Tx) : Prop where
  op : s.busy = false → s.op = none
  op' : ∀ o, s.op = some o → s.busy = true ∧ o.total < o.elements.length ∧ ∃ b q, s.queue = b :: q ∧ o.elements = elements b
  sent : s.sent = answered s.answers ++ part s.op
  ans : ∀ a ∈ s.answers, Ans a
  busy : s.busy = true → s.op = none → ∃ b q, s.queue = b :: q ∧ elements b = []

theorem trySend_fields (s : Tx) : s.trySend.queue = s.queue ∧ s.trySend.sent = s.sent ∧ s.trySend.answers = s.answers := by
  unfold Tx.trySend
  split
  · exact ⟨rfl, rfl, rfl⟩
  · split_ifs <;> exact ⟨rfl, rfl, rfl⟩

theorem inv_trySend (s : Tx) (h : Pre s) : Inv s.trySend := by
  unfold Tx.trySend
  split
  · rename_i hq
    exact ⟨h.op', h.sent, h.ans, fun _ => hq, h.busy⟩
  · rename_i b q hq
    cases hb : s.busy with
    | true =>
      rw [if_pos rfl]
      exact ⟨h.op', h.sent, h.ans, (fun x => by rw [hb] at x; cases x), h.busy⟩
    | false =>
      rw [if_neg (by decide)]
      have h0 := h.op hb
      by_cases he : (elements b).isEmpty = true
      · rw [if_pos he]
        refine ⟨(fun o ho => by cases ho), ?_, h.ans, (fun x => by cases x), fun _ _ => ⟨b, q, hq, List.isEmpty_iff.mp he⟩⟩
        have := h.sent; rw [h0] at this; exact this
      · rw [if_neg he]
        refine ⟨?_, ?_, h.ans, (fun x => by cases x), (fun _ x => by cases x)⟩
        · intro o ho
          have ho' : (⟨elements b, 0⟩ : Op) = o := Option.some.inj ho
          subst ho'
          refine ⟨rfl, ?_, b, q, hq, rfl⟩
          have : elements b ≠ [] := fun x => he (by rw [x]; rfl)
          exact List.length_pos_iff.mpr this
        · have := h.sent; rw [h0] at this
          show s.sent = answered s.answers ++ (elements b).take 0
          rw [this]; simp [part]

theorem inv_send (s : Tx) (b : Batch) (h : Inv s) : Inv (s.send b) := by
  unfold Tx.send
  apply inv_trySend
  refine ⟨?_, ?_, h.sent, h.ans, ?_⟩
  · intro hb
    have hb' : s.busy = false := hb
    show s.op = none
    cases ho : s.op with
    | none => rfl
    | some o => have := (h.op o ho).1; rw [hb'] at this; cases this
  · intro o ho
    obtain ⟨a, c, b', q, h1, h2⟩ := h.op o ho
    exact ⟨a, c, b', q ++ [b], by simp [h1], h2⟩
  · intro hb ho
    obtain ⟨b', q, h1, h2⟩ := h.busy hb ho
    exact ⟨b', q ++ [b], by simp [h1], h2⟩

/-- An operation ends. -/
theorem inv_completed (s : Tx) (er : Bool) (n : Nat) (b : Batch) (q : List Batch) (hq : s.queue = b :: q) (hs : s.sent = answered s.answers ++ (elements b).take n)
    (ha : ∀ a ∈ s.answers, Ans a) (hn : n ≤ (elements b).length) (h1 : er = false → n = (elements b).length) (h2 : er = true → n < (elements b).length) :
    Inv (s.completed er n) := by
  unfold Tx.completed
  rw [hq]
  apply inv_trySend
  refine ⟨fun _ => rfl, (fun o ho => by cases ho), ?_, ?_, (fun x => by cases x)⟩
  · show s.sent = answered (s.answers ++ [_]) ++ []
    rw [hs]
    simp [answered]
  · intro a haa
    rcases List.mem_append.mp haa with haa | haa
    · exact ha a haa
    · rw [List.mem_singleton] at haa
      subst haa
      refine ⟨hn, ?_, ?_⟩
      · intro hx
        simp only [Bool.and_eq_true, Bool.not_eq_true', beq_iff_eq] at hx
        exact ⟨hx.2, by rw [← h1 hx.1]; exact hx.2⟩
      · intro hx _
        simp only [Bool.and_eq_true, Bool.not_eq_true', beq_iff_eq]
        refine ⟨?_, hx⟩
        cases er with
        | false => rfl
        | true =>
          have := h2 rfl
          have hl := elements_length_le b
          simp only at hx
          omega

theorem inv_sys (s : Tx) (r : Result) (h : Inv s) : Inv (s.sys r) := by
  unfold Tx.sys
  cases ho : s.op with
  | none => exact h
  | some o =>
    obtain ⟨hb, hlt, b, q, hq, he⟩ := h.op o ho
    have hs := h.sent
    rw [ho] at hs
    cases r with
    | again => exact h
    | interrupted => exact h
    | error =>
      exact inv_completed s true o.total b q hq (by rw [hs, ← he]; rfl) h.ans (by rw [← he]; omega) (by simp) (fun _ => by rw [← he]; exact hlt)
    | messages n =>
      simp only
      have htake : o.elements.take o.total ++ (o.elements.drop o.total).take (min n (o.elements.length - o.total)) = o.elements.take (o.total + min n (o.elements.length - o.total)) := by
        rw [List.take_add]
      by_cases hd : o.total + min n (o.elements.length - o.total) = o.elements.length
      · rw [if_pos hd]
        refine inv_completed _ false _ b q hq ?_ h.ans (by rw [← he]; omega) (fun _ => by rw [← he]; exact hd) (by simp)
        show s.sent ++ _ = _
        rw [hs, ← he, ← htake, List.append_assoc]; rfl
      · rw [if_neg hd]
        refine ⟨?_, ?_, h.ans, h.idle, (fun _ x => by cases x)⟩
        · intro o' ho'
          have ho'' : (⟨o.elements, o.total + min n (o.elements.length - o.total)⟩ : Op) = o' := Option.some.inj ho'
          subst ho''
          exact ⟨hb, by show o.total + min n (o.elements.length - o.total) < o.elements.length; omega, b, q, hq, he⟩
        · show s.sent ++ _ = answered s.answers ++ o.elements.take _
          rw [hs, ← htake, List.append_assoc]; rfl

theorem inv_init : Inv Tx.init :=
  ⟨(fun o ho => by cases ho), rfl, (fun a ha => by cases ha), fun _ => rfl, (fun x => by cases x)⟩

theorem inv_run (evs : List Ev) : ∀ s : Tx, Inv s → Inv (s.run evs) := by
  induction evs with
  | nil => intro s h; exact h
  | cons e evs ih =>
    intro s h
    refine ih (s.step e) ?_
    cases e with
    | send b => exact inv_send s b h
    | sys r => exact inv_sys s r h

theorem inv (evs : List Ev) : Inv (Tx.init.run evs) := inv_run evs _ inv_init

/-! ### Each batch once -/

/-- The batches that were handed over, as the state has them. -/
def all (s : Tx) : List Batch := s.answers.map Prod.fst ++ s.queue

theorem all_completed (s : Tx) (er : Bool) (n : Nat) : all (s.completed er n) = all s := by
  unfold Tx.completed
  split
  · rfl
  · rename_i b q hq
    unfold all
    rw [(trySend_fields _).1, (trySend_fields _).2.2, hq]
    simp

theorem all_sys (s : Tx) (r : Result) : all (s.sys r) = all s := by
  unfold Tx.sys
  split
  · rfl
  · cases r with
    | again => rfl
    | interrupted => rfl
    | error => exact all_completed _ _ _
    | messages n =>
      simp only
      split_ifs
      · rw [all_completed]; rfl
      · rfl

theorem all_run (evs : List Ev) : ∀ s : Tx, all (s.run evs) = all s ++ given evs := by
  induction evs with
  | nil => intro s; simp [given, Tx.run]
  | cons e evs ih =>
    intro s
    show all ((s.step e).run evs) = _
    rw [ih]
    cases e with
    | send b =>
      have : all (s.send b) = all s ++ [b] := by
        unfold Tx.send all
        rw [(trySend_fields _).1, (trySend_fields _).2.2]
        simp
      simp only [Tx.step, given]
      rw [this]; simp
    | sys r => simp only [Tx.step, given]; rw [all_sys]

theorem all_init (evs : List Ev) : all (Tx.init.run evs) = given evs := by
  rw [all_run]; rfl

/-! ### Without errors -/

theorem reliable_sys (s : Tx) (r : Result) (h : Inv s) (hr : r ≠ .error) (hf : ∀ b ∈ all s, Full b) (ha : ∀ a ∈ s.answers, a.2.1 = true) :
    ∀ a ∈ (s.sys r).answers, a.2.1 = true := by
  unfold Tx.sys
  cases ho : s.op with
  | none => exact ha
  | some o =>
    obtain ⟨_, _, b, q, hq, he⟩ := h.op o ho
    cases r with
    | again => exact ha
    | interrupted => exact ha
    | error => exact absurd rfl hr
    | messages n =>
      simp only
      split_ifs with hd
      · unfold Tx.completed
        simp only [hq]
        intro a haa
        rw [(trySend_fields _).2.2] at haa
        rcases List.mem_append.mp haa with haa | haa
        · exact ha a haa
        · rw [List.mem_singleton] at haa
          rw [haa]
          have hb := hf b (by unfold all; rw [hq]; exact List.mem_append_right _ List.mem_cons_self)
          rw [he, elements_full b hb, datagrams, List.length_map] at hd
          simp only [Bool.not_false, Bool.true_and, beq_iff_eq]
          rw [he, elements_full b hb, datagrams, List.length_map]
          exact hd
      · exact ha

theorem reliable_run (evs : List Ev) : ∀ s : Tx, Inv s → Ev.sys .error ∉ evs → (∀ b ∈ all s ++ given evs, Full b) → (∀ a ∈ s.answers, a.2.1 = true) →
    ∀ a ∈ (s.run evs).answers, a.2.1 = true := by
  induction evs with
  | nil => intro s _ _ _ h; exact h
  | cons e evs ih =>
    intro s hi hn hf h
    have hall : all (s.step e) ++ given evs = all s ++ given (e :: evs) := by
      have h1 := all_run evs (s.step e)
      have h2 := all_run (e :: evs) s
      rw [← h1, ← h2]; rfl
    refine ih (s.step e) ?_ (fun x => hn (List.mem_cons_of_mem _ x)) (by rw [hall]; exact hf) ?_
    · cases e with
      | send b => exact inv_send s b hi
      | sys r => exact inv_sys s r hi
    · cases e with
      | send b =>
        simp only [Tx.step, Tx.send]
        rw [(trySend_fields _).2.2]; exact h
      | sys r =>
        exact reliable_sys s r hi (fun hx => hn (by rw [hx]; exact List.mem_cons_self)) (fun b hb => hf b (List.mem_append_left _ hb)) h

/-! ### Draining -/

/-- The messages that are still to be taken. -/
def left (s : Tx) : Nat := ((s.queue.map fun b => (elements b).length).sum) - (match s.op with | none => 0 | some o => o.total)

theorem left_trySend (s : Tx) (h : s.op = none) : left s.trySend = left s := by
  unfold Tx.trySend
  split
  · rfl
  · split_ifs
    · rfl
    · unfold left; rw [h]
    · unfold left; rw [h]

theorem left_completed (s : Tx) (er : Bool) (n : Nat) (b : Batch) (q : List Batch) (hq : s.queue = b :: q) :
    left (s.completed er n) = (q.map fun b => (elements b).length).sum := by
  unfold Tx.completed
  rw [hq]
  simp only
  rw [left_trySend _ rfl]
  unfold left
  simp

theorem left_sys (s : Tx) (r : Result) (h : Inv s) (hr : Spec.Result.progress r = true) (ho : s.op ≠ none) : left (s.sys r) < left s := by
  unfold Tx.sys
  cases hop : s.op with
  | none => exact absurd hop ho
  | some o =>
    obtain ⟨hb, hlt, b, q, hq, he⟩ := h.op o hop
    have hls : left s = (elements b).length + (q.map fun b => (elements b).length).sum - o.total := by
      unfold left; rw [hop, hq]; simp
    rw [← he] at hls
    cases r with
    | again => cases hr
    | interrupted => cases hr
    | error =>
      simp only
      rw [left_completed s true _ b q hq]; omega
    | messages n =>
      have hn : n ≠ 0 := by simpa [Spec.Result.progress] using hr
      simp only
      split_ifs
      · refine lt_of_eq_of_lt (left_completed _ false _ b q ?_) ?_
        · exact hq
        · omega
      · have : left { s with sent := s.sent ++ (o.elements.drop o.total).take (min n (o.elements.length - o.total)), op := some ⟨o.elements, o.total + min n (o.elements.length - o.total)⟩ } =
            (elements b).length + (q.map fun b => (elements b).length).sum - (o.total + min n (o.elements.length - o.total)) := by
          unfold left; simp [hq]
        rw [this, ← he, hls]
        omega

theorem drain (rs : List Result) : ∀ s : Tx, Inv s → (∀ b ∈ s.queue, elements b ≠ []) → (∀ r ∈ rs, Spec.Result.progress r = true) → left s ≤ rs.length →
    (s.run (rs.map Ev.sys)).queue = [] := by
  induction rs with
  | nil =>
    intro s hi hf _ hl
    show s.queue = []
    cases hq : s.queue with
    | nil => rfl
    | cons b q =>
      exfalso
      have hb : s.busy = true := by
        cases hb : s.busy with
        | true => rfl
        | false => have := hi.idle hb; rw [hq] at this; cases this
      cases ho : s.op with
      | none =>
        obtain ⟨b', q', h1, h2⟩ := hi.busy hb ho
        exact hf b' (by rw [h1]; exact List.mem_cons_self) h2
      | some o =>
        obtain ⟨_, hlt, b', q', h1, h2⟩ := hi.op o ho
        unfold left at hl
        rw [ho, h1] at hl
        simp only [List.map_cons, List.sum_cons, List.length_nil, ← h2] at hl
        omega
  | cons r rs ih =>
    intro s hi hf hr hl
    show ((s.sys r).run (rs.map Ev.sys)).queue = []
    have hsub : ∀ b ∈ (s.sys r).queue, elements b ≠ [] := by
      intro b hb
      have h1 := all_sys s r
      unfold all at h1
      unfold Tx.sys at hb
      split at hb
      · exact hf b hb
      · have hcomp : ∀ (t : Tx) (er : Bool) (n : Nat), t.queue = s.queue → b ∈ (t.completed er n).queue → elements b ≠ [] := by
          intro t er n ht hx
          unfold Tx.completed at hx
          split at hx
          · rw [ht] at hx; exact hf b hx
          · rename_i b' q' hq'
            rw [(trySend_fields _).1] at hx
            exact hf b (by rw [← ht, hq']; exact List.mem_cons_of_mem _ hx)
        cases r with
        | again => exact hf b hb
        | interrupted => exact hf b hb
        | error => exact hcomp s _ _ rfl hb
        | messages n =>
          simp only at hb
          split_ifs at hb
          · exact hcomp _ _ _ (by rfl) hb
          · exact hf b hb
    refine ih (s.sys r) (inv_sys s r hi) hsub (fun x hx => hr x (List.mem_cons_of_mem _ hx)) ?_
    by_cases ho : s.op = none
    · have : s.sys r = s := by unfold Tx.sys; rw [ho]
      rw [this]
      have hz : s.queue = [] := by
        cases hb : s.busy with
        | false => exact hi.idle hb
        | true =>
          obtain ⟨b', q', h1, h2⟩ := hi.busy hb ho
          exact absurd h2 (hf b' (by rw [h1]; exact List.mem_cons_self))
      unfold left; rw [hz]; simp
    · have := left_sys s r hi (hr r List.mem_cons_self) ho
      rw [List.length_cons] at hl
      omega

/-! ### Stuck -/

theorem stuck_run (evs : List Ev) : ∀ s : Tx, s.busy = true → s.op = none → (s.run evs).answers = s.answers ∧ (s.run evs).sent = s.sent := by
  induction evs with
  | nil => intro s _ _; exact ⟨rfl, rfl⟩
  | cons e evs ih =>
    intro s h1 h2
    have hs : (s.step e).busy = true ∧ (s.step e).op = none ∧ (s.step e).answers = s.answers ∧ (s.step e).sent = s.sent := by
      cases e with
      | send b =>
        simp only [Tx.step, Tx.send, Tx.trySend]
        split
        · exact ⟨h1, h2, rfl, rfl⟩
        · rw [if_pos h1]; exact ⟨h1, h2, rfl, rfl⟩
      | sys r => simp [Tx.step, Tx.sys, h1, h2]
    obtain ⟨a, b, c, d⟩ := hs
    obtain ⟨x, y⟩ := ih _ a b
    exact ⟨x.trans c, y.trans d⟩

end Hdtn.UdpBatch
