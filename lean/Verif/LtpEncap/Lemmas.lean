import Verif.LtpEncap.Spec
import Verif.Encap.Props
import Mathlib.Tactic.SplitIfs

namespace Hdtn.LtpEncap

open Hdtn.LtpEncap.Spec

theorem trySend_fields (s : Tx) : s.trySend.queue = s.queue ∧ s.trySend.err = s.err ∧ s.trySend.conn = s.conn ∧ s.trySend.queued = s.queued ∧ s.trySend.done = s.done ∧
    s.trySend.wire = s.wire ∧ s.trySend.dropped = s.dropped := by
  unfold Tx.trySend; split_ifs <;> simp

theorem trySend_writing (s : Tx) (c : Nat) (h : s.trySend.writing = some c) : s.writing = some c ∨ (c = s.conn ∧ s.err = false ∧ s.queue ≠ []) := by
  unfold Tx.trySend at h
  split_ifs at h with h1
  · simp only [Bool.and_eq_true, Bool.not_eq_true', List.isEmpty_eq_false_iff] at h1
    right
    simp at h
    exact ⟨h.symm, h1.1.2, h1.2⟩
  · exact Or.inl h

theorem trySend_isSome (s : Tx) (h1 : s.err = false) (h2 : s.queue ≠ []) : s.trySend.writing.isSome = true := by
  unfold Tx.trySend
  cases hw : s.writing with
  | none => simp [h1, h2]
  | some c => simp [hw]

theorem on_append (s : Tx) (w : List (Nat × Bytes)) (c d : Nat) (b : Bytes) (h : s.wire = w ++ [(d, b)]) :
    onConnection s c = ((w.filter fun x => x.1 == c).map Prod.snd).flatten ++ (if d = c then b else []) := by
  unfold onConnection
  rw [h, List.filter_append, List.map_append, List.flatten_append]
  by_cases hc : d = c
  · simp [hc]
  · simp [hc]

/-- What always holds. -/
structure Inv (s : Tx) : Prop where
  busy : ∀ c, s.writing = some c → c = s.conn ∧ s.queue ≠ []
  cur : ∃ a cut, a ≤ s.done.length ∧ onConnection s s.conn = (s.done.drop a).flatten ++ cut ∧
    (cut = [] ∨ (s.writing = none ∧ s.err = true ∧ ∃ b q, s.queue = b :: q ∧ cut <+: b))
  old : ∀ c, ∃ a, onConnection s c <+: ((taken s).drop a).flatten
  new : ∀ c, s.conn < c → onConnection s c = []
  count : s.queue.length + s.dropped = s.queued
  max : s.queued ≤ 5

theorem drop_append_flatten (l m : List Bytes) (a : Nat) : (l.drop a).flatten <+: ((l ++ m).drop a).flatten := by
  rw [List.drop_append, List.flatten_append]; exact List.prefix_append _ _

/-- The statement for the current connection gives that for it among all. -/
theorem cur_old (s : Tx) (h : ∃ a cut, a ≤ s.done.length ∧ onConnection s s.conn = (s.done.drop a).flatten ++ cut ∧
    (cut = [] ∨ (s.writing = none ∧ s.err = true ∧ ∃ b q, s.queue = b :: q ∧ cut <+: b))) : ∃ a, onConnection s s.conn <+: ((taken s).drop a).flatten := by
  obtain ⟨a, cut, ha, h1, h2⟩ := h
  refine ⟨a, ?_⟩
  rw [h1]
  unfold taken
  rw [List.drop_append_of_le_length ha, List.flatten_append]
  rcases h2 with h2 | ⟨_, _, b, q, hq, hp⟩
  · rw [h2, List.append_nil]; exact List.prefix_append _ _
  · rw [hq, List.flatten_cons]
    exact (List.prefix_append_right_inj _).mpr (hp.trans (List.prefix_append _ _))

theorem inv_init : Inv Tx.init := by
  refine ⟨by simp [Tx.init], ⟨0, [], by simp [Tx.init], by simp [Tx.init, onConnection], Or.inl rfl⟩, ?_, ?_, rfl, by simp [Tx.init]⟩
  · intro c; exact ⟨0, by simp [Tx.init, onConnection]⟩
  · intro c _; simp [Tx.init, onConnection]

theorem inv_trySend (s : Tx) (h : Inv s) : Inv s.trySend := by
  obtain ⟨f1, f2, f3, f4, f5, f6, f7⟩ := trySend_fields s
  have ho : ∀ c, onConnection s.trySend c = onConnection s c := fun c => by unfold onConnection; rw [f6]
  constructor
  · intro c hc
    rw [f3, f1]
    rcases trySend_writing s c hc with h1 | ⟨h1, _, h2⟩
    · exact h.busy c h1
    · exact ⟨h1, h2⟩
  · obtain ⟨a, cut, h1, h2, h3⟩ := h.cur
    refine ⟨a, cut, by rw [f5]; exact h1, by rw [f3, f5, ho]; exact h2, ?_⟩
    rcases h3 with h3 | ⟨h3, h4, h5⟩
    · exact Or.inl h3
    · right
      refine ⟨?_, by rw [f2]; exact h4, by rw [f1]; exact h5⟩
      unfold Tx.trySend
      simp [h4, h3]
  · intro c
    obtain ⟨a, ha⟩ := h.old c
    exact ⟨a, by unfold taken at ha ⊢; rw [f1, f5, ho]; exact ha⟩
  · intro c hc
    rw [ho]; rw [f3] at hc; exact h.new c hc
  · rw [f1, f4, f7]; exact h.count
  · rw [f4]; exact h.max

theorem inv_send (s : Tx) (ps : List Bytes) (h : Inv s) : Inv (s.send ps) := by
  have hdrop : s.queued < 5 → Inv { s with queued := s.queued + 1, dropped := s.dropped + 1 } := by
    intro hq
    refine ⟨h.busy, h.cur, h.old, h.new, ?_, ?_⟩
    · have := h.count; show s.queue.length + (s.dropped + 1) = s.queued + 1; omega
    · show s.queued + 1 ≤ 5; omega
  unfold Tx.send
  by_cases hq : s.queued < 5
  · rw [if_pos hq]
    simp only
    by_cases hl : s.queue.length < 6 - 1
    · rw [if_pos hl]
      cases he : encodeAll ps with
      | none => exact hdrop hq
      | some b =>
        apply inv_trySend
        refine ⟨?_, ?_, ?_, h.new, ?_, ?_⟩
        · intro c hc; exact ⟨(h.busy c hc).1, by simp⟩
        · obtain ⟨a, cut, h1, h2, h3⟩ := h.cur
          refine ⟨a, cut, h1, h2, ?_⟩
          rcases h3 with h3 | ⟨h3, h4, b', q, h5, h6⟩
          · exact Or.inl h3
          · exact Or.inr ⟨h3, h4, b', q ++ [b], by simp [h5], h6⟩
        · intro c
          obtain ⟨a, ha⟩ := h.old c
          refine ⟨a, ha.trans ?_⟩
          have := drop_append_flatten (taken s) [b] a
          unfold taken at this ⊢
          simpa using this
        · have := h.count
          show (s.queue ++ [b]).length + s.dropped = s.queued + 1
          rw [List.length_append, List.length_singleton]; omega
        · show s.queued + 1 ≤ 5; omega
    · rw [if_neg hl]; exact hdrop hq
  · rw [if_neg hq]; exact h

theorem inv_handleSend (s : Tx) (er : Option Nat) (h : Inv s) : Inv (s.handleSend er) := by
  unfold Tx.handleSend
  cases hw : s.writing with
  | none => exact h
  | some c =>
    cases hq : s.queue with
    | nil => exact h
    | cons b queue =>
      have hc := (h.busy c hw).1
      obtain ⟨a, cut, h1, h2, h3⟩ := h.cur
      have hcut : cut = [] := by
        rcases h3 with h3 | ⟨h3, _⟩
        · exact h3
        · rw [hw] at h3; cases h3
      rw [hcut, List.append_nil] at h2
      cases er with
      | some k =>
        simp only
        generalize ht : ({ s with queue := b :: queue, writing := none, err := true, wire := s.wire ++ [(c, b.take k)] } : Tx) = t
        have hon : ∀ d, onConnection t d = onConnection s d ++ (if c = d then b.take k else []) := fun d => on_append t s.wire d c _ (by rw [← ht])
        have e1 : t.done = s.done := by rw [← ht]
        have e2 : t.conn = s.conn := by rw [← ht]
        have e3 : t.queue = b :: queue := by rw [← ht]
        have htk : taken t = taken s := by unfold taken; rw [e1, e3, hq]
        have hcur : ∃ a cut, a ≤ t.done.length ∧ onConnection t t.conn = (t.done.drop a).flatten ++ cut ∧
            (cut = [] ∨ (t.writing = none ∧ t.err = true ∧ ∃ b q, t.queue = b :: q ∧ cut <+: b)) := by
          refine ⟨a, b.take k, by rw [e1]; exact h1, ?_, Or.inr ⟨by rw [← ht], by rw [← ht], b, queue, e3, List.take_prefix _ _⟩⟩
          rw [hon, e2, e1, if_pos hc, h2]
        refine ⟨(by intro d hd; rw [← ht] at hd; cases hd), hcur, ?_, ?_, ?_, ?_⟩
        · intro d
          by_cases hd : d = t.conn
          · rw [hd]; exact cur_old t hcur
          · rw [hon, if_neg (by rw [hc]; rw [e2] at hd; exact fun x => hd x.symm), List.append_nil, htk]
            exact h.old d
        · intro d hd
          rw [e2] at hd
          rw [hon, if_neg (by omega), List.append_nil]
          exact h.new d hd
        · rw [← ht]; show (b :: queue).length + s.dropped = s.queued; rw [← hq]; exact h.count
        · rw [← ht]; exact h.max
      | none =>
        simp only
        apply inv_trySend
        generalize ht : ({ s with writing := none, err := false, queue := queue, queued := s.queued - 1, done := s.done ++ [b], wire := s.wire ++ [(c, b)] } : Tx) = t
        have hon : ∀ d, onConnection t d = onConnection s d ++ (if c = d then b else []) := fun d => on_append t s.wire d c _ (by rw [← ht])
        have e1 : t.done = s.done ++ [b] := by rw [← ht]
        have e2 : t.conn = s.conn := by rw [← ht]
        have e3 : t.queue = queue := by rw [← ht]
        have htk : taken t = taken s := by unfold taken; rw [e1, e3, hq]; simp
        have hcur : ∃ a cut, a ≤ t.done.length ∧ onConnection t t.conn = (t.done.drop a).flatten ++ cut ∧
            (cut = [] ∨ (t.writing = none ∧ t.err = true ∧ ∃ b q, t.queue = b :: q ∧ cut <+: b)) := by
          refine ⟨a, [], by rw [e1]; simp; omega, ?_, Or.inl rfl⟩
          rw [hon, e2, e1, if_pos hc, h2, List.drop_append_of_le_length h1]
          simp
        have hcnt := h.count
        rw [hq, List.length_cons] at hcnt
        refine ⟨(by intro d hd; rw [← ht] at hd; cases hd), hcur, ?_, ?_, ?_, ?_⟩
        · intro d
          by_cases hd : d = t.conn
          · rw [hd]; exact cur_old t hcur
          · rw [hon, if_neg (by rw [hc]; rw [e2] at hd; exact fun x => hd x.symm), List.append_nil, htk]
            exact h.old d
        · intro d hd
          rw [e2] at hd
          rw [hon, if_neg (by omega), List.append_nil]
          exact h.new d hd
        · rw [← ht]; show queue.length + s.dropped = s.queued - 1; omega
        · rw [← ht]; have := h.max; show s.queued - 1 ≤ 5; omega

theorem inv_connection (s : Tx) (up : Bool) (h : Inv s) : Inv (s.connection up) := by
  unfold Tx.connection
  cases up with
  | false =>
    rw [if_neg (by decide)]
    refine ⟨h.busy, ?_, h.old, h.new, h.count, h.max⟩
    obtain ⟨a, cut, h1, h2, h3⟩ := h.cur
    refine ⟨a, cut, h1, h2, ?_⟩
    rcases h3 with h3 | ⟨h3, _, h5⟩
    · exact Or.inl h3
    · exact Or.inr ⟨h3, rfl, h5⟩
  | true =>
    rw [if_pos rfl]
    cases hw : s.writing with
    | some c => simpa [hw] using h
    | none =>
      rw [if_pos (by rfl)]
      refine ⟨(by intro c hc; cases hc), ?_, h.old, ?_, h.count, h.max⟩
      · refine ⟨s.done.length, [], Nat.le_refl _, ?_, Or.inl rfl⟩
        simp only [List.drop_length, List.flatten_nil, List.append_nil]
        exact h.new (s.conn + 1) (by omega)
      · intro c hc
        exact h.new c (by have : s.conn + 1 < c := hc; omega)

theorem inv_step (s : Tx) (e : Ev) (h : Inv s) : Inv (s.step e) := by
  cases e with
  | send p => exact inv_send s p h
  | written e => exact inv_handleSend s e h
  | connection up => exact inv_connection s up h

theorem inv_run (evs : List Ev) : ∀ s : Tx, Inv s → Inv (s.run evs) := by
  induction evs with
  | nil => intro s h; exact h
  | cons e evs ih => intro s h; exact ih _ (inv_step s e h)

theorem inv (evs : List Ev) : Inv (Tx.init.run evs) := inv_run evs _ inv_init

/-! ### What is taken -/

theorem frame_ok (p : Bytes) (h1 : 0 < p.length) (h2 : p.length ≤ 4294967287) : ∃ x, Encap.frame .ltp p = some x := by
  unfold Encap.frame
  rw [Nat.mod_eq_of_lt (by rw [show U32 = 4294967296 from rfl]; omega)]
  unfold Encap.encode
  rw [if_neg (by omega), if_neg (by omega), if_neg (by decide)]
  split_ifs <;> simp

theorem encodeAll_ok (ps : List Bytes) (h : ∀ p ∈ ps, 0 < p.length ∧ p.length ≤ 4294967287) : ∃ x, encodeAll ps = some x := by
  induction ps with
  | nil => exact ⟨[], rfl⟩
  | cons p ps ih =>
    obtain ⟨y, hy⟩ := ih (fun q hq => h q (List.mem_cons_of_mem _ hq))
    obtain ⟨x, hx⟩ := frame_ok p (h p List.mem_cons_self).1 (h p List.mem_cons_self).2
    exact ⟨x ++ y, by simp [encodeAll, hx, hy]⟩

theorem dropped_step (s : Tx) (e : Ev) (hi : Inv s) (h0 : s.dropped = 0) (h : ∀ ps, e = .send ps → ∀ p ∈ ps, 0 < p.length ∧ p.length ≤ 4294967287) : (s.step e).dropped = 0 := by
  cases e with
  | send ps =>
    simp only [Tx.step, Tx.send]
    by_cases hq : s.queued < 5
    · have hc := hi.count
      rw [if_pos hq, if_pos (by omega)]
      obtain ⟨x, hx⟩ := encodeAll_ok ps (h ps rfl)
      rw [hx]
      simp only
      rw [(trySend_fields _).2.2.2.2.2.2]; exact h0
    · rw [if_neg hq]; exact h0
  | written er =>
    simp only [Tx.step, Tx.handleSend]
    split
    · cases er with
      | none => simp only; rw [(trySend_fields _).2.2.2.2.2.2]; exact h0
      | some k => exact h0
    · exact h0
  | connection up =>
    simp only [Tx.step, Tx.connection]
    split_ifs <;> exact h0

theorem dropped_run (evs : List Ev) : ∀ s : Tx, Inv s → s.dropped = 0 → AllFit evs → (s.run evs).dropped = 0 := by
  induction evs with
  | nil => intro s _ h _; exact h
  | cons e evs ih =>
    intro s hi h hf
    refine ih (s.step e) (inv_step s e hi) (dropped_step s e hi h ?_) (fun ps hp => hf ps (List.mem_cons_of_mem _ hp))
    intro ps he
    exact hf ps (he ▸ List.mem_cons_self)

theorem taken_step (s : Tx) (e : Ev) : taken (s.step e) = taken s ++ (match e with
    | .send ps => (if s.queued < 5 then (if s.queue.length < 5 then (encodeAll ps).toList else []) else [])
    | _ => []) := by
  cases e with
  | send ps =>
    simp only [Tx.step, Tx.send]
    by_cases hq : s.queued < 5
    · rw [if_pos hq, if_pos hq]
      by_cases hl : s.queue.length < 5
      · rw [if_pos hl, if_pos hl]
        cases he : encodeAll ps with
        | none => simp [taken]
        | some b =>
          unfold taken
          rw [(trySend_fields _).1, (trySend_fields _).2.2.2.2.1]
          simp
      · rw [if_neg hl, if_neg hl]; simp [taken]
    · rw [if_neg hq, if_neg hq]; simp
  | written er =>
    simp only [Tx.step, Tx.handleSend, List.append_nil]
    split
    · rename_i c b queue hw hq
      cases er with
      | none =>
        simp only
        unfold taken
        rw [(trySend_fields _).1, (trySend_fields _).2.2.2.2.1, hq]
        simp
      | some k => rfl
    · rfl
  | connection up =>
    simp only [Tx.step, Tx.connection, List.append_nil]
    split_ifs <;> rfl

/-! ### A steady connection -/

/-- A write is in progress while something waits. -/
def Going (s : Tx) : Prop := s.err = false ∧ (s.queue ≠ [] → s.writing.isSome = true)

theorem going_trySend (s : Tx) (h : s.err = false) : Going s.trySend := by
  obtain ⟨f1, f2, _⟩ := trySend_fields s
  exact ⟨by rw [f2]; exact h, fun hq => trySend_isSome s h (by rwa [f1] at hq)⟩

theorem going_step (s : Tx) (e : Ev) (h : Going s) (h1 : ∀ u, e ≠ .connection u) (h2 : ∀ k, e ≠ .written (some k)) : Going (s.step e) := by
  cases e with
  | send ps =>
    simp only [Tx.step, Tx.send]
    split_ifs
    · split
      · exact going_trySend _ h.1
      · exact h
    · exact h
    · exact h
  | written er =>
    cases er with
    | some k => exact absurd rfl (h2 k)
    | none =>
      simp only [Tx.step, Tx.handleSend]
      split
      · exact going_trySend _ rfl
      · exact h
  | connection up => exact absurd rfl (h1 up)

theorem going_run (evs : List Ev) (h1 : ∀ u, Ev.connection u ∉ evs) (h2 : ∀ k, Ev.written (some k) ∉ evs) : ∀ s : Tx, Going s → Going (s.run evs) := by
  induction evs with
  | nil => intro s h; exact h
  | cons e evs ih =>
    intro s h
    exact ih (fun u hu => h1 u (List.mem_cons_of_mem _ hu)) (fun k hk => h2 k (List.mem_cons_of_mem _ hk)) _
      (going_step s e h (fun u he => h1 u (he ▸ List.mem_cons_self)) (fun k he => h2 k (he ▸ List.mem_cons_self)))

theorem drain (n : Nat) : ∀ s : Tx, Going s → s.queue.length ≤ n →
    (s.run (List.replicate n (.written none))).queue = [] ∧ taken (s.run (List.replicate n (.written none))) = taken s := by
  induction n with
  | zero =>
    intro s _ h
    exact ⟨List.length_eq_zero_iff.mp (by simpa [Tx.run] using h), rfl⟩
  | succ n ih =>
    intro s hg h
    rw [List.replicate_succ]
    show ((s.step (.written none)).run _).queue = [] ∧ taken ((s.step (.written none)).run _) = _
    have hg' := going_step s (.written none) hg (by simp) (by simp)
    have ht := taken_step s (.written none)
    simp only [List.append_nil] at ht
    have hl : (s.step (.written none)).queue.length ≤ n := by
      simp only [Tx.step, Tx.handleSend]
      cases hq : s.queue with
      | nil => split <;> simp_all
      | cons b queue =>
        obtain ⟨c, hc⟩ := Option.isSome_iff_exists.mp (hg.2 (by rw [hq]; simp))
        rw [hc]
        simp only
        rw [(trySend_fields _).1]
        rw [hq] at h; simp at h; exact h
    obtain ⟨a, b⟩ := ih _ hg' hl
    exact ⟨a, b.trans ht⟩

/-! ### Stuck -/

theorem stuck_run (evs : List Ev) : ∀ s : Tx, s.queued = 5 → s.writing = none →
    (s.run evs).wire = s.wire ∧ (s.run evs).queue = s.queue ∧ (s.run evs).done = s.done := by
  induction evs with
  | nil => intro s _ _; exact ⟨rfl, rfl, rfl⟩
  | cons e evs ih =>
    intro s h1 h2
    have hs : (s.step e).queued = 5 ∧ (s.step e).writing = none ∧ (s.step e).wire = s.wire ∧ (s.step e).queue = s.queue ∧ (s.step e).done = s.done := by
      cases e with
      | send ps => simp [Tx.step, Tx.send, h1, h2]
      | written er => simp [Tx.step, Tx.handleSend, h1, h2]
      | connection u => cases u <;> simp [Tx.step, Tx.connection, h1, h2]
    obtain ⟨a, b, c, d, e'⟩ := hs
    obtain ⟨x, y, z⟩ := ih _ a b
    exact ⟨x.trans c, y.trans d, z.trans e'⟩

theorem done_run (evs : List Ev) : ∀ s : Tx, s.done.Sublist (s.wire.map Prod.snd) → (s.run evs).done.Sublist ((s.run evs).wire.map Prod.snd) := by
  induction evs with
  | nil => intro s h; exact h
  | cons e evs ih =>
    intro s h
    refine ih (s.step e) ?_
    cases e with
    | send ps =>
      simp only [Tx.step, Tx.send]
      split_ifs
      · split
        · rw [(trySend_fields _).2.2.2.2.1, (trySend_fields _).2.2.2.2.2.1]; exact h
        · exact h
      · exact h
      · exact h
    | written er =>
      simp only [Tx.step, Tx.handleSend]
      split
      · cases er with
        | none =>
          simp only
          rw [(trySend_fields _).2.2.2.2.1, (trySend_fields _).2.2.2.2.2.1, List.map_append]
          exact h.append (List.Sublist.refl _)
        | some k =>
          simp only
          rw [List.map_append]
          exact h.trans (List.sublist_append_left _ _)
      · exact h
    | connection up =>
      simp only [Tx.step, Tx.connection]
      split_ifs <;> exact h

theorem given_cons (e : Ev) (evs : List Ev) : given (e :: evs) = given [e] ++ given evs := by
  cases e <;> simp [given]

theorem taken_run (evs : List Ev) : ∀ s : Tx, ∃ l : List (List Bytes), l.Sublist (given evs) ∧ (taken (s.run evs)).map some = (taken s).map some ++ l.map encodeAll := by
  induction evs with
  | nil => intro s; exact ⟨[], by simp [given], by simp [Tx.run]⟩
  | cons e evs ih =>
    intro s
    obtain ⟨l, h1, h2⟩ := ih (s.step e)
    have ht := taken_step s e
    have : ∃ m : List (List Bytes), m.Sublist (given [e]) ∧ (taken (s.step e)).map some = (taken s).map some ++ m.map encodeAll := by
      cases e with
      | send ps =>
        simp only at ht
        by_cases hx : s.queued < 5 ∧ s.queue.length < 5 ∧ (encodeAll ps).isSome = true
        · obtain ⟨b, hb⟩ := Option.isSome_iff_exists.mp hx.2.2
          rw [if_pos hx.1, if_pos hx.2.1, hb] at ht
          exact ⟨[ps], by simp [given], by rw [ht]; simp [hb]⟩
        · refine ⟨[], by simp, ?_⟩
          rw [ht]
          split_ifs with a b
          · have : encodeAll ps = none := by
              cases hh : encodeAll ps with
              | none => rfl
              | some y => exact absurd ⟨a, b, by simp [hh]⟩ hx
            rw [this]; simp
          · simp
          · simp
      | written er => exact ⟨[], by simp, by rw [ht]; simp⟩
      | connection up => exact ⟨[], by simp, by rw [ht]; simp⟩
    obtain ⟨m, h3, h4⟩ := this
    refine ⟨m ++ l, ?_, ?_⟩
    · rw [given_cons]; exact h3.append h1
    · show (taken ((s.step e).run evs)).map some = _
      rw [h2, h4, List.map_append, List.append_assoc]

/-- The packets of an element with their headers. -/
theorem framed_one (ps : List Bytes) (b : Bytes) (hb : encodeAll ps = some b) (hf : ∀ p ∈ ps, p.length ≤ 4294967287) :
    ∃ sent : List (Bytes × Bytes), (∀ x ∈ sent, Encap.Spec.Framed .ltp x) ∧ sent.map Prod.snd = ps ∧ Encap.Spec.stream sent = b := by
  induction ps generalizing b with
  | nil =>
    simp only [encodeAll, Option.some.injEq] at hb
    exact ⟨[], by simp, rfl, by simp [Encap.Spec.stream, ← hb]⟩
  | cons p ps ih =>
    have hl := hf p List.mem_cons_self
    have hfr : Encap.frame .ltp p = (Encap.encode .ltp p.length).map (· ++ p) := by
      unfold Encap.frame
      rw [Nat.mod_eq_of_lt (by rw [show U32 = 4294967296 from rfl]; omega)]
    cases he : Encap.encode .ltp p.length with
    | none => rw [he] at hfr; simp [encodeAll, hfr] at hb
    | some hd =>
      rw [he] at hfr
      cases hy : encodeAll ps with
      | none => simp [encodeAll, hy] at hb
      | some y =>
        simp only [encodeAll, hfr, hy, Option.map_some, Option.some.injEq] at hb
        obtain ⟨sent, h1, h2, h3⟩ := ih y hy (fun q hq => hf q (List.mem_cons_of_mem _ hq))
        refine ⟨(hd, p) :: sent, ?_, by simp [h2], ?_⟩
        · intro x hx
          rcases List.mem_cons.mp hx with hx | hx
          · rw [hx]; exact ⟨he, by decide⟩
          · exact h1 x hx
        · rw [← hb, ← h3]; simp [Encap.Spec.stream]

theorem framed_all (l : List (List Bytes)) : ∀ t : List Bytes, t.map some = l.map encodeAll → (∀ ps ∈ l, ∀ p ∈ ps, p.length ≤ 4294967287) →
    ∃ sent : List (Bytes × Bytes), (∀ x ∈ sent, Encap.Spec.Framed .ltp x) ∧ sent.map Prod.snd = l.flatten ∧ Encap.Spec.stream sent = t.flatten := by
  induction l with
  | nil =>
    intro t h _
    have : t = [] := by simpa using h
    exact ⟨[], by simp, rfl, by simp [Encap.Spec.stream, this]⟩
  | cons ps l ih =>
    intro t h hf
    cases t with
    | nil => simp at h
    | cons b t =>
      simp only [List.map_cons, List.cons.injEq] at h
      obtain ⟨s1, a1, a2, a3⟩ := framed_one ps b h.1.symm (hf ps List.mem_cons_self)
      obtain ⟨s2, b1, b2, b3⟩ := ih t h.2 (fun q hq => hf q (List.mem_cons_of_mem _ hq))
      refine ⟨s1 ++ s2, ?_, by simp [a2, b2], ?_⟩
      · intro x hx
        rcases List.mem_append.mp hx with hx | hx
        · exact a1 x hx
        · exact b1 x hx
      · rw [List.flatten_cons, ← a3, ← b3]; simp [Encap.Spec.stream]

end Hdtn.LtpEncap
