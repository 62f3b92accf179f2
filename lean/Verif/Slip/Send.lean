import Verif.Slip.Lemmas

/-!
The sending side.
-/

namespace Hdtn.Slip

open Spec

theorem frame_packet {b : Bytes} (h : b.length < 2 ^ 32) : Packet b (frame b) := by
  refine ⟨encodeChars b, encodeChars_stuffed b, ?_⟩
  unfold frame slipEncode
  rw [Nat.mod_eq_of_lt h, List.take_length]
  rfl

/-- The frames of some bundles. -/
def frames (es : List (Bytes × Nat)) : Bytes := es.flatMap (fun e => frame e.1)

theorem frames_packets : ∀ {es : List (Bytes × Nat)}, (∀ e ∈ es, e.1.length < 2 ^ 32) →
    Packets (es.map (·.1)) (frames es) := by
  intro es
  induction es with
  | nil => intro _; exact .nil
  | cons e es ih =>
    intro h
    have h1 := h e (List.mem_cons_self ..)
    have h2 := ih (fun x hx => h x (List.mem_cons_of_mem _ hx))
    exact .cons (frame_packet h1) h2

/-- The invariant of the sending side: `sent` were sent, `lost` failed. -/
structure TxInv (maxTx : Nat) (all sent lost : List (Bytes × Nat)) (s : Tx) : Prop where
  whole : all = sent ++ lost ++ s.queue
  notes : s.notes = sent.map (fun e => .sent e.2) ++ lost.flatMap failNote
  totalSent : s.totalSent = all.length
  totalAcked : s.totalAcked = sent.length
  good : s.failed = false → lost = [] ∧ s.wire = frames sent
  bad : s.failed = true → s.queue = [] ∧ ∃ e l k, lost = e :: l ∧
    s.wire = frames sent ++ (frame e.1).take k
  writing : s.writing = true → s.queue ≠ [] ∧ s.failed = false
  live : s.queue ≠ [] → s.writing = true ∨ 0 < s.posts
  room : s.queue.length ≤ maxTx

theorem txInit_inv (maxTx : Nat) : TxInv maxTx [] [] [] Tx.init := by
  constructor <;> simp [Tx.init, frames]

theorem trySend_inv {maxTx : Nat} {all sent lost : List (Bytes × Nat)} {s : Tx}
    (h1 : all = sent ++ lost ++ s.queue)
    (h2 : s.notes = sent.map (fun e => .sent e.2) ++ lost.flatMap failNote)
    (h3 : s.totalSent = all.length) (h4 : s.totalAcked = sent.length)
    (h5 : s.failed = false → lost = [] ∧ s.wire = frames sent)
    (h6 : s.failed = true → s.queue = [] ∧ ∃ e l k, lost = e :: l ∧
      s.wire = frames sent ++ (frame e.1).take k)
    (h7 : s.writing = true → s.queue ≠ [] ∧ s.failed = false)
    (h8 : s.queue.length ≤ maxTx) : TxInv maxTx all sent lost s.trySend := by
  unfold Tx.trySend
  split
  · rename_i hw
    exact ⟨h1, h2, h3, h4, h5, h6, h7, fun _ => .inl hw, h8⟩
  · rename_i hw
    split
    · rename_i hf
      have hq := (h6 hf).1
      unfold Tx.drain
      rw [hq]
      refine ⟨by rw [h1, hq], by simpa using h2, h3, h4, h5, fun h => ⟨rfl, (h6 h).2⟩, ?_, ?_, by simp⟩
      · intro h
        exact absurd h hw
      · intro h
        exact absurd rfl h
    · rename_i hf
      split
      · rename_i hq
        refine ⟨h1, h2, h3, h4, h5, h6, h7, fun h => absurd hq h, h8⟩
      · rename_i hq
        refine ⟨h1, h2, h3, h4, h5, h6, ?_, fun _ => .inl rfl, h8⟩
        intro _
        exact ⟨by simp [hq], by simpa using hf⟩

theorem step_inv {maxTx : Nat} {all sent lost : List (Bytes × Nat)} {s : Tx} (e : TxEvent)
    (h : TxInv maxTx all sent lost s) :
    ∃ sent' lost', TxInv maxTx (all ++ taken maxTx s [e]) sent' lost' (s.step maxTx e) := by
  obtain ⟨h1, h2, h3, h4, h5, h6, h7, h9, h8⟩ := h
  cases e with
  | forward b tag =>
    refine ⟨sent, lost, ?_⟩
    simp only [taken, Tx.step, Tx.forward]
    split
    · simp only [Bool.false_eq_true, if_false, List.append_nil]
      exact ⟨h1, h2, h3, h4, h5, h6, h7, h9, h8⟩
    · rename_i hf
      split
      · simp only [Bool.false_eq_true, if_false, List.append_nil]
        exact ⟨h1, h2, h3, h4, h5, h6, h7, h9, h8⟩
      · rename_i hroom
        simp only [if_true]
        refine ⟨?_, h2, ?_, h4, h5, fun h => absurd h hf, ?_, ?_, ?_⟩
        · rw [h1]; simp
        · simp [h3]
        · intro hw; exact ⟨by simp, (h7 hw).2⟩
        · intro _; right; simp
        · simp only [List.length_append, List.length_singleton]; omega
  | posted =>
    refine ⟨sent, lost, ?_⟩
    simp only [taken, Tx.step, List.append_nil]
    split
    · exact ⟨h1, h2, h3, h4, h5, h6, h7, h9, h8⟩
    · exact trySend_inv h1 h2 h3 h4 h5 h6 h7 h8
  | done =>
    simp only [taken, Tx.step, List.append_nil]
    split
    · rename_i hw
      obtain ⟨hq, hf⟩ := h7 hw
      unfold Tx.done
      cases hqq : s.queue with
      | nil => exact absurd hqq hq
      | cons e rest =>
        obtain ⟨b, tag⟩ := e
        rw [hqq] at h1 h8
        obtain ⟨hl, hwire⟩ := h5 hf
        subst hl
        refine ⟨sent ++ [(b, tag)], [], trySend_inv ?_ ?_ h3 ?_ ?_ ?_ ?_ ?_⟩
        · rw [h1]; simp
        · simp [h2]
        · simp [h4]
        · intro _
          refine ⟨rfl, ?_⟩
          simp [hwire, frames]
        · intro h
          rw [show s.failed = true from h] at hf
          cases hf
        · intro h; cases h
        · simp only [List.length_cons] at h8 ⊢; omega
    · exact ⟨sent, lost, h1, h2, h3, h4, h5, h6, h7, h9, h8⟩
  | broke k =>
    simp only [taken, Tx.step, List.append_nil]
    split
    · rename_i hw
      obtain ⟨hq, hf⟩ := h7 hw
      unfold Tx.broke
      cases hqq : s.queue with
      | nil => exact absurd hqq hq
      | cons e rest =>
        rw [hqq] at h1
        obtain ⟨hl, hwire⟩ := h5 hf
        subst hl
        refine ⟨sent, e :: rest, ?_⟩
        refine ⟨?_, ?_, h3, h4, ?_, ?_, ?_, ?_, ?_⟩
        · rw [h1]; simp [Tx.drain]
        · simp [Tx.drain, h2, hqq]
        · intro h; cases h
        · intro _
          refine ⟨rfl, e, rest, k, rfl, ?_⟩
          simp [Tx.drain, hwire]
        · intro h; cases h
        · intro h; exact absurd rfl h
        · simp [Tx.drain]
    · exact ⟨sent, lost, h1, h2, h3, h4, h5, h6, h7, h9, h8⟩

theorem taken_cons (maxTx : Nat) (s : Tx) (e : TxEvent) (es : List TxEvent) :
    taken maxTx s (e :: es) = taken maxTx s [e] ++ taken maxTx (s.step maxTx e) es := by
  cases e with
  | forward b tag =>
    simp only [taken]
    split <;> simp
  | posted => simp [taken]
  | done => simp [taken]
  | broke k => simp [taken]

theorem run_inv {maxTx : Nat} (es : List TxEvent) : ∀ {all sent lost : List (Bytes × Nat)} {s : Tx},
    TxInv maxTx all sent lost s →
    ∃ sent' lost', TxInv maxTx (all ++ taken maxTx s es) sent' lost' (s.run maxTx es) := by
  induction es with
  | nil =>
    intro all sent lost s h
    refine ⟨sent, lost, ?_⟩
    rw [show taken maxTx s [] = [] from rfl, List.append_nil]
    exact h
  | cons e es ih =>
    intro all sent lost s h
    obtain ⟨s1, l1, h1⟩ := step_inv e h
    obtain ⟨s2, l2, h2⟩ := ih h1
    refine ⟨s2, l2, ?_⟩
    rw [taken_cons, ← List.append_assoc]
    exact h2

end Hdtn.Slip
