import Verif.DelaySim.Spec
import Verif.CircularIndex.Props

/-!
Lemmas about the simulator of a delayed link.
-/

namespace Hdtn.DelaySim

open Spec Hdtn.CircularIndex

/-- What holds of the ring and the sender; `kept` are the packets that were accepted. -/
structure Inv (c : Cfg) (s : Sim) (kept : List (Nat × Bytes)) : Prop where
  first : s.first = s.sent.length % c.vectors
  last : s.last = kept.length % c.vectors
  le : s.sent.length ≤ kept.length
  room : kept.length ≤ s.sent.length + (c.vectors - 1)
  sent : List.Forall₂ (Delayed c.delay) (kept.take s.sent.length) s.sent
  slots : ∀ k x, s.sent.length ≤ k → kept[k]? = some x →
    (s.slots (k % c.vectors)).buffer.take (s.slots (k % c.vectors)).bytes = x.2 ∧ (s.slots (k % c.vectors)).expiry = x.1 + c.delay
  sizes : ∀ i, (s.slots i).buffer.length = c.maxPacket
  size : s.buffer.length = c.maxPacket
  timer : ∀ i t, s.timer = some (i, t) → s.running = true ∧ s.sent.length < kept.length ∧ i = s.sent.length % c.vectors ∧ t = (s.slots i).expiry ∧
    s.sending = none
  sending : ∀ i, s.sending = some i → s.running = true ∧ s.sent.length < kept.length ∧ i = s.sent.length % c.vectors ∧ (s.slots i).expiry ≤ s.now ∧
    s.timer = none
  stopped : s.closed = false → s.running = false → s.sent.length = kept.length
  goes : s.closed = false → s.running = true → s.timer ≠ none ∨ s.sending ≠ none

theorem rel_snoc {α β : Type} {R : α → β → Prop} {a : List α} {b : List β} {x : α} {y : β} (h : List.Forall₂ R a b) (hx : R x y) :
    List.Forall₂ R (a ++ [x]) (b ++ [y]) := by
  induction h with
  | nil => exact .cons hx .nil
  | cons h _ ih => exact .cons h ih

theorem inv_start (c : Cfg) : Inv c (Sim.start c) [] := by
  constructor <;> simp [Sim.start]

theorem inv_restart {c : Cfg} {s : Sim} {kept : List (Nat × Bytes)} (h2 : 2 ≤ c.vectors)
    (first : s.first = s.sent.length % c.vectors)
    (last : s.last = kept.length % c.vectors)
    (le : s.sent.length ≤ kept.length)
    (room : kept.length ≤ s.sent.length + (c.vectors - 1))
    (sent : List.Forall₂ (Delayed c.delay) (kept.take s.sent.length) s.sent)
    (slots : ∀ k x, s.sent.length ≤ k → kept[k]? = some x →
      (s.slots (k % c.vectors)).buffer.take (s.slots (k % c.vectors)).bytes = x.2 ∧ (s.slots (k % c.vectors)).expiry = x.1 + c.delay)
    (sizes : ∀ i, (s.slots i).buffer.length = c.maxPacket)
    (size : s.buffer.length = c.maxPacket)
    (timer : ∀ i t, s.timer = some (i, t) → s.running = true ∧ s.sent.length < kept.length ∧ i = s.sent.length % c.vectors ∧ t = (s.slots i).expiry ∧
      s.sending = none)
    (sending : ∀ i, s.sending = some i → s.running = true ∧ s.sent.length < kept.length ∧ i = s.sent.length % c.vectors ∧ (s.slots i).expiry ≤ s.now ∧
      s.timer = none)
    (goes : s.closed = false → s.running = true → s.timer ≠ none ∨ s.sending ≠ none) : Inv c s.restart kept := by
  unfold Sim.restart
  cases hr : s.running with
  | true =>
    show Inv c s kept
    exact ⟨first, last, le, room, sent, slots, sizes, size, timer, sending, fun _ hf => absurd (hr.symm.trans hf) (by decide), goes⟩
  | false =>
    simp only [Bool.false_eq_true, if_false]
    have htn : s.timer = none := by
      cases ht : s.timer with
      | none => rfl
      | some x => have := (timer x.1 x.2 ht).1; rw [hr] at this; exact nomatch this
    have hsn : s.sending = none := by
      cases ht : s.sending with
      | none => rfl
      | some x => have := (sending x ht).1; rw [hr] at this; exact nomatch this
    unfold indexForRead
    by_cases he : s.last = s.first
    · rw [if_pos he]
      have heq : s.sent.length = kept.length := by
        rw [first, last] at he
        exact mod_inj c.vectors _ _ le (by omega) he
      exact ⟨first, last, le, room, sent, slots, sizes, size, timer, sending, fun _ _ => heq, fun h1 h2 => goes h1 h2⟩
    · rw [if_neg he]
      have hlt : s.sent.length < kept.length := by
        by_contra hcon
        apply he
        rw [first, last, show kept.length = s.sent.length by omega]
      refine ⟨first, last, le, room, sent, slots, sizes, size, ?_, ?_, ?_, ?_⟩
      · intro i t h
        have := Option.some.inj h
        cases this
        exact ⟨rfl, hlt, first, rfl, hsn⟩
      · intro i h
        rw [show s.sending = some i from h] at hsn
        exact nomatch hsn
      · intro _ h; exact nomatch h
      · intro _ _; exact .inl (fun h => nomatch h)

theorem full_iff {c : Cfg} {s : Sim} {kept : List (Nat × Bytes)} (h2 : 2 ≤ c.vectors) (h32 : c.vectors < 2 ^ 32) (h : Inv c s kept) :
    indexForWrite c.vectors s.last s.first = if kept.length - s.sent.length < c.vectors - 1 then some (kept.length % c.vectors) else none := by
  unfold indexForWrite
  simp only
  rw [h.first, h.last, wrapInc_mod _ _ (by omega) h32]
  have h1 := h.le
  have h3 := h.room
  by_cases hl : kept.length - s.sent.length < c.vectors - 1
  · rw [if_pos hl, if_neg]
    intro he
    have := mod_inj c.vectors s.sent.length (kept.length + 1) (by omega) (by omega) he.symm
    omega
  · rw [if_neg hl, if_pos]
    rw [show kept.length + 1 = s.sent.length + c.vectors by omega, Nat.add_mod_right]

theorem inv_queue {c : Cfg} {s : Sim} {kept : List (Nat × Bytes)} (h2 : 2 ≤ c.vectors) (h32 : c.vectors < 2 ^ 32) (h : Inv c s kept) (bytes : Nat)
    (ho : s.closed = false) :
    Inv c (s.queue c bytes) (if kept.length - s.sent.length < c.vectors - 1 then kept ++ [(s.now, s.buffer.take bytes)] else kept) := by
  unfold Sim.queue
  rw [full_iff h2 h32 h]
  have hle := h.le
  have hroom := h.room
  by_cases hl : kept.length - s.sent.length < c.vectors - 1
  · rw [if_pos hl, if_pos hl]
    simp only
    have hnew : ∀ k, s.sent.length ≤ k → k < kept.length → k % c.vectors ≠ kept.length % c.vectors := by
      intro k hk1 hk2 he
      have := mod_inj c.vectors k kept.length (by omega) (by omega) he.symm
      omega
    apply inv_restart h2
    · exact h.first
    · show wrapInc c.vectors s.last = _
      rw [h.last, wrapInc_mod _ _ (by omega) h32]; simp
    · simp; omega
    · simp; omega
    · show List.Forall₂ _ ((kept ++ _).take s.sent.length) s.sent
      rw [List.take_append_of_le_length hle]; exact h.sent
    · intro k x hk hx
      have hk : s.sent.length ≤ k := hk
      show ((if k % c.vectors = kept.length % c.vectors then _ else _ : Slot)).buffer.take ((if k % c.vectors = kept.length % c.vectors then _ else _ : Slot)).bytes
        = x.2 ∧ ((if k % c.vectors = kept.length % c.vectors then _ else _ : Slot)).expiry = _
      by_cases hkl : k < kept.length
      · rw [if_neg (hnew k hk hkl)]
        rw [List.getElem?_append_left hkl] at hx
        exact h.slots k x hk hx
      · have hk' : k = kept.length := by
          have := (List.getElem?_eq_some_iff.mp hx).1
          simp at this
          omega
        subst hk'
        simp only [List.getElem?_concat_length, Option.some.injEq] at hx
        subst hx
        rw [if_pos rfl]
        exact ⟨rfl, rfl⟩
    · intro i
      show ((if i = kept.length % c.vectors then _ else _ : Slot)).buffer.length = _
      split
      · exact h.size
      · exact h.sizes i
    · exact h.sizes _
    · intro i t ht
      obtain ⟨a, b, d, e, f⟩ := h.timer i t ht
      refine ⟨a, by simp; omega, d, ?_, f⟩
      show t = ((if i = kept.length % c.vectors then _ else _ : Slot)).expiry
      rw [if_neg (by rw [d]; exact hnew _ (Nat.le_refl _) b)]
      exact e
    · intro i ht
      obtain ⟨a, b, d, e, f⟩ := h.sending i ht
      refine ⟨a, by simp; omega, d, ?_, f⟩
      show ((if i = kept.length % c.vectors then _ else _ : Slot)).expiry ≤ s.now
      rw [if_neg (by rw [d]; exact hnew _ (Nat.le_refl _) b)]
      exact e
    · exact h.goes
  · rw [if_neg hl, if_neg hl]
    exact ⟨h.first, h.last, h.le, h.room, h.sent, h.slots, h.sizes, h.size, h.timer, h.sending, h.stopped, h.goes⟩

theorem inv_receive {c : Cfg} {s : Sim} {kept : List (Nat × Bytes)} (h2 : 2 ≤ c.vectors) (h32 : c.vectors < 2 ^ 32) (h : Inv c s kept) (p : Bytes) (drop : Bool)
    (ho : s.closed = false) :
    Inv c (s.receive c p drop) (if drop = false ∧ s.closed = false ∧ s.los = false ∧ kept.length - s.sent.length < c.vectors - 1
      then kept ++ [(s.now, p.take c.maxPacket)] else kept) := by
  unfold Sim.receive
  simp only
  have hb : (p.take s.buffer.length ++ s.buffer.drop (p.take s.buffer.length).length).length = c.maxPacket := by
    rw [List.length_append, List.length_drop, List.length_take, h.size]
    omega
  generalize hbuf : p.take s.buffer.length ++ s.buffer.drop (p.take s.buffer.length).length = buf at hb
  have htake : buf.take (p.take s.buffer.length).length = p.take c.maxPacket := by
    rw [← hbuf, List.take_left, h.size]
  have h1 : Inv c { s with buffer := buf } kept :=
    ⟨h.first, h.last, h.le, h.room, h.sent, h.slots, h.sizes, hb, h.timer, h.sending, h.stopped, h.goes⟩
  have key : ∀ s1 : Sim, s1.closed = s.closed → s1.sent = s.sent → s1.now = s.now → s1.buffer = buf → s1.los = s.los → Inv c s1 kept →
      Inv c (if drop then s1 else if s1.los then s1 else s1.queue c (p.take s.buffer.length).length)
        (if drop = false ∧ s.closed = false ∧ s.los = false ∧ kept.length - s.sent.length < c.vectors - 1
          then kept ++ [(s.now, p.take c.maxPacket)] else kept) := by
    intro s1 e1 e2 e3 e4 e5 hi
    cases drop with
    | true => simpa using hi
    | false =>
      rw [e5]
      cases hl : s.los with
      | true => simpa using hi
      | false =>
        have := inv_queue h2 h32 hi (p.take s.buffer.length).length (by rw [e1]; exact ho)
        rw [e2, e3, e4, htake] at this
        simpa [ho] using this
  by_cases hc : c.losStart ≠ 0 ∧ s.losStarts = 0
  · rw [if_pos hc]
    exact key _ rfl rfl rfl rfl rfl ⟨h.first, h.last, h.le, h.room, h.sent, h.slots, h.sizes, hb, h.timer, h.sending, h.stopped, h.goes⟩
  · rw [if_neg hc]
    exact key _ rfl rfl rfl rfl rfl h1

theorem inv_expired {c : Cfg} {s : Sim} {kept : List (Nat × Bytes)} (h : Inv c s kept) : Inv c s.expired kept := by
  unfold Sim.expired
  split
  · exact h
  · rename_i i t ht
    obtain ⟨a, b, d, e, f⟩ := h.timer i t ht
    by_cases hle : t ≤ s.now
    · rw [if_pos hle]
      refine ⟨h.first, h.last, h.le, h.room, h.sent, h.slots, h.sizes, h.size, (fun _ _ hx => nomatch hx), ?_, h.stopped, fun _ _ => .inr (fun hx => nomatch hx)⟩
      intro j hj
      have := Option.some.inj hj
      subst this
      exact ⟨a, b, d, by show (s.slots i).expiry ≤ s.now; omega, rfl⟩
    · rw [if_neg hle]; exact h

theorem inv_shutdown {c : Cfg} {s : Sim} {kept : List (Nat × Bytes)} (h : Inv c s kept) : Inv c s.shutdown kept := by
  unfold Sim.shutdown
  refine ⟨h.first, h.last, h.le, h.room, h.sent, h.slots, h.sizes, h.size, (fun _ _ hx => nomatch hx), ?_, (fun hx => nomatch hx), (fun hx => nomatch hx)⟩
  intro i hi
  obtain ⟨a, b, d, e, f⟩ := h.sending i hi
  exact ⟨a, b, d, e, rfl⟩

theorem inv_handleSend {c : Cfg} {s : Sim} {kept : List (Nat × Bytes)} (h2 : 2 ≤ c.vectors) (h32 : c.vectors < 2 ^ 32) (h : Inv c s kept) (ok : Bool) :
    Inv c (s.handleSend c ok) kept := by
  unfold Sim.handleSend
  split
  · exact h
  · rename_i i hi
    obtain ⟨a, b, d, e, f⟩ := h.sending i hi
    cases ok with
    | false =>
      simp only [Bool.false_eq_true, if_false]
      unfold Sim.shutdown
      exact ⟨h.first, h.last, h.le, h.room, h.sent, h.slots, h.sizes, h.size, (fun _ _ hx => nomatch hx), (fun _ hx => nomatch hx), (fun hx => nomatch hx),
        (fun hx => nomatch hx)⟩
    | true =>
      simp only [if_true]
      have hx := List.getElem?_eq_getElem b
      obtain ⟨g1, g2⟩ := h.slots _ _ (Nat.le_refl _) hx
      rw [← d] at g1 g2
      have hroom := h.room
      apply inv_restart h2
      · show wrapInc c.vectors s.first = (s.sent ++ [_]).length % _
        rw [h.first, wrapInc_mod _ _ (by omega) h32]; simp
      · exact h.last
      · show (s.sent ++ [_]).length ≤ _
        simp; omega
      · show _ ≤ (s.sent ++ [_]).length + _
        simp; omega
      · show List.Forall₂ _ (kept.take (s.sent ++ [_]).length) (s.sent ++ [_])
        rw [List.length_append, List.length_singleton, List.take_add_one, hx, Option.toList_some]
        refine rel_snoc h.sent ⟨g1, ?_⟩
        show _ ≤ s.now
        omega
      · intro k x hk
        have hk : (s.sent ++ [_]).length ≤ k := hk
        rw [List.length_append, List.length_singleton] at hk
        exact h.slots k x (by omega)
      · exact h.sizes
      · exact h.size
      · intro j t ht
        rw [show s.timer = some (j, t) from ht] at f
        exact nomatch f
      · intro j hj; exact nomatch hj
      · intro _ hr; exact nomatch hr

theorem inv_losExpired {c : Cfg} {s : Sim} {kept : List (Nat × Bytes)} (h : Inv c s kept) : Inv c (s.losExpired c) kept := by
  unfold Sim.losExpired
  split
  · exact h
  · split
    · exact ⟨h.first, h.last, h.le, h.room, h.sent, h.slots, h.sizes, h.size, h.timer, h.sending, h.stopped, h.goes⟩
    · exact h

theorem inv_step {c : Cfg} {s : Sim} {kept : List (Nat × Bytes)} (h2 : 2 ≤ c.vectors) (h32 : c.vectors < 2 ^ 32) (h : Inv c s kept) (e : Ev) :
    Inv c (s.step c e) (kept ++ accepted c s kept.length [e]) := by
  cases e with
  | clock d =>
    simp only [accepted, List.append_nil]
    refine ⟨h.first, h.last, h.le, h.room, h.sent, h.slots, h.sizes, h.size, h.timer, ?_, h.stopped, h.goes⟩
    intro i hi
    obtain ⟨a, b, d', e, f⟩ := h.sending i hi
    refine ⟨a, b, d', ?_, f⟩
    show _ ≤ s.now + d
    have : (s.slots i).expiry ≤ s.now := e
    exact Nat.le_trans this (Nat.le_add_right _ _)
  | receive p drop =>
    unfold Sim.step
    cases hc : s.closed with
    | true => simp only [accepted, hc]; simpa using h
    | false =>
      have := inv_receive h2 h32 h p drop hc
      simp only [accepted]
      rw [hc] at this ⊢
      simp only [Bool.false_eq_true, if_false]
      simp only [true_and] at this ⊢
      by_cases hh : drop = false ∧ s.los = false ∧ kept.length - s.sent.length < c.vectors - 1
      · rw [if_pos hh] at this ⊢; exact this
      · rw [if_neg hh] at this ⊢; rw [List.append_nil]; exact this
  | expired =>
    simp only [accepted, List.append_nil]
    unfold Sim.step
    simp only
    split
    · exact h
    · exact inv_expired h
  | handleSend ok =>
    simp only [accepted, List.append_nil]
    unfold Sim.step
    simp only
    split
    · exact h
    · exact inv_handleSend h2 h32 h ok
  | losExpired =>
    simp only [accepted, List.append_nil]
    unfold Sim.step
    simp only
    split
    · exact h
    · exact inv_losExpired h
  | error => simp only [accepted, List.append_nil]; exact inv_shutdown h

theorem accepted_cons (c : Cfg) (s : Sim) (n : Nat) (e : Ev) (es : List Ev) :
    accepted c s n (e :: es) = accepted c s n [e] ++ accepted c (s.step c e) (n + (accepted c s n [e]).length) es := by
  cases e with
  | receive p drop => simp only [accepted]; split <;> simp
  | _ => simp [accepted]

theorem inv_run {c : Cfg} (h2 : 2 ≤ c.vectors) (h32 : c.vectors < 2 ^ 32) (es : List Ev) : ∀ {s : Sim} {kept : List (Nat × Bytes)}, Inv c s kept →
    Inv c (s.run c es) (kept ++ accepted c s kept.length es) := by
  induction es with
  | nil => intro s kept h; simpa [accepted, Sim.run] using h
  | cons e es ih =>
    intro s kept h
    have h1 := ih (inv_step h2 h32 h e)
    rw [accepted_cons, ← List.append_assoc]
    rw [List.length_append] at h1
    exact h1

theorem inv_of {c : Cfg} (h2 : 2 ≤ c.vectors) (h32 : c.vectors < 2 ^ 32) (es : List Ev) :
    Inv c ((Sim.start c).run c es) (accepted c (Sim.start c) 0 es) := by
  have := inv_run h2 h32 es (inv_start c)
  simpa using this

theorem restart_now (s : Sim) : s.restart.now = s.now ∧ s.restart.los = s.los ∧ s.restart.losTimer = s.losTimer ∧ s.restart.losStarts = s.losStarts ∧
    s.restart.closed = s.closed ∧ s.restart.overruns = s.overruns ∧ s.restart.sent = s.sent := by
  unfold Sim.restart
  split
  · exact ⟨rfl, rfl, rfl, rfl, rfl, rfl, rfl⟩
  · split <;> exact ⟨rfl, rfl, rfl, rfl, rfl, rfl, rfl⟩

end Hdtn.DelaySim
