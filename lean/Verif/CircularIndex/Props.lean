import Verif.CircularIndex.Model

/-!
Property C33: the single-producer single-consumer ring is safe under every interleaving.
-/

namespace Hdtn.CircularIndex

theorem mod_inj (n a b : Nat) (h1 : a ≤ b) (h2 : b < a + n) (h : b % n = a % n) : a = b := by
  have hd : (b - a) % n = 0 := Nat.sub_mod_eq_zero_of_mod_eq h
  have := Nat.eq_zero_of_dvd_of_lt (Nat.dvd_of_mod_eq_zero hd) (by omega)
  omega

theorem wrapInc_mod (n w : Nat) (h1 : 1 ≤ n) (h2 : n < 2 ^ 32) : wrapInc n (w % n) = (w + 1) % n := by
  have hlt := Nat.mod_lt w h1
  unfold wrapInc
  have e : (w + 1) % n = (w % n + 1) % n := (Nat.mod_add_mod w n 1).symm
  rw [e, Nat.mod_eq_of_lt (show w % n + 1 < 2 ^ 32 by omega)]
  split
  · have : w % n + 1 = n := by omega
    rw [this, Nat.mod_self]
  · exact (Nat.mod_eq_of_lt (by omega)).symm

variable {α : Type}

/-- The values of an index after `k` commits. -/
def hist (n k : Nat) : List Nat := (List.range (k + 1)).map (· % n)

theorem hist_last (n k : Nat) : (hist n k).getLast? = some (k % n) := by
  simp [hist, List.range_succ]

theorem hist_get (n k j v : Nat) (h : (hist n k)[j]? = some v) : j ≤ k ∧ v = j % n := by
  unfold hist at h
  rw [List.getElem?_map, Option.map_eq_some_iff] at h
  obtain ⟨a, h1, h2⟩ := h
  rw [List.getElem?_eq_some_iff] at h1
  obtain ⟨h3, h4⟩ := h1
  simp only [List.length_range] at h3
  simp only [List.getElem_range] at h4
  subst h4
  exact ⟨by omega, h2.symm⟩

theorem hist_succ (n k : Nat) (h1 : 1 ≤ n) (h2 : n < 2 ^ 32) :
    hist n k ++ [wrapInc n (k % n)] = hist n (k + 1) := by
  rw [wrapInc_mod n k h1 h2]
  simp only [hist, List.range_succ, List.map_append, List.map_cons, List.map_nil, List.append_assoc]

/-- The invariant, with `w` and `r` the number of commits of the producer and of the consumer. -/
structure Inv (n : Nat) (s : State α) : Prop where
  starts : s.starts = hist n s.consumed.length
  ends : s.ends = hist n s.produced.length
  consumed : s.consumed = (s.produced.take s.consumed.length).map some
  seenEndLow : s.consumed.length ≤ s.seenEnd
  seenEndHigh : s.seenEnd ≤ s.produced.length
  seenStart : s.seenStart ≤ s.consumed.length
  room : s.produced.length ≤ s.seenStart + (n - 1)
  slots : ∀ k, s.consumed.length ≤ k → k < s.produced.length → s.slots (k % n) = s.produced[k]?
  prodLoaded : ∀ fin, s.prod = .loaded fin → fin = s.produced.length % n
  prodWriting : ∀ idx, s.prod = .writing idx →
    idx = s.produced.length % n ∧ s.produced.length + 1 ≤ s.seenStart + (n - 1)
  prodWritten : ∀ idx v, s.prod = .written idx v →
    idx = s.produced.length % n ∧ s.produced.length + 1 ≤ s.seenStart + (n - 1) ∧
      s.slots idx = some v
  consLoaded : ∀ st, s.cons = .loaded st → st = s.consumed.length % n
  consReading : ∀ idx, s.cons = .reading idx →
    idx = s.consumed.length % n ∧ s.consumed.length < s.seenEnd
  consRead : ∀ idx v, s.cons = .read idx v →
    idx = s.consumed.length % n ∧ s.consumed.length < s.seenEnd ∧ v = s.produced[s.consumed.length]?

theorem init_inv (n : Nat) : Inv n (init α) := by
  constructor <;> simp [init, hist]

theorem step_inv (n : Nat) (h2 : 2 ≤ n) (h32 : n < 2 ^ 32) (s s' : State α) (hi : Inv n s)
    (hs : Step n s s') : Inv n s' := by
  obtain ⟨i1, i2, i3, i4, i5, i6, i7, i8, i9, i10, i11, i12, i13, i14⟩ := hi
  cases hs with
  | loadEnd fin hp h =>
    refine ⟨i1, i2, i3, i4, i5, i6, i7, i8, ?_, by simp, by simp, i12, i13, i14⟩
    intro f hf
    simp only [Prod.loaded.injEq] at hf
    rw [i2, hist_last, Option.some.injEq] at h
    simp only
    rw [← hf, ← h]
  | full fin j start hp hj hs h =>
    rw [i1] at hs
    obtain ⟨h3, h4⟩ := hist_get n _ j start hs
    refine ⟨i1, i2, i3, i4, i5, h3, ?_, i8, by simp, by simp, by simp, i12, i13, i14⟩
    simp only; omega
  | giveWrite fin j start idx hp hj hs h =>
    rw [i1] at hs
    obtain ⟨h3, h4⟩ := hist_get n _ j start hs
    have hfin := i9 fin hp
    refine ⟨i1, i2, i3, i4, i5, h3, ?_, i8, by simp, ?_, by simp, i12, i13, i14⟩
    · simp only; omega
    · intro idx' hidx
      simp only [Prod.writing.injEq] at hidx
      subst hidx
      simp only [indexForWrite] at h
      split at h
      · simp at h
      · rename_i hne
        simp only [Option.some.injEq] at h
        refine ⟨by rw [← h]; exact hfin, ?_⟩
        simp only
        by_contra hcon
        apply hne
        rw [hfin, wrapInc_mod n _ (by omega) h32, h4]
        have : s.produced.length + 1 = j + n := by omega
        rw [this, Nat.add_mod_right]
  | write idx v hp =>
    obtain ⟨h3, h4⟩ := i10 idx hp
    refine ⟨i1, i2, i3, i4, i5, i6, i7, ?_, by simp, by simp, ?_, i12, i13, i14⟩
    · intro k hk1 hk2
      simp only at hk1 hk2 ⊢
      rw [if_neg]
      · exact i8 k hk1 hk2
      · intro he
        rw [h3] at he
        have := mod_inj n k s.produced.length (by omega) (by omega) he.symm
        omega
    · intro idx' v' hv
      simp only [Prod.written.injEq] at hv
      obtain ⟨rfl, rfl⟩ := hv
      refine ⟨h3, h4, by simp⟩
  | commitWrite idx v fin hp h =>
    obtain ⟨h3, h4, h5⟩ := i11 idx v hp
    rw [i2, hist_last, Option.some.injEq] at h
    refine ⟨i1, ?_, ?_, i4, ?_, i6, ?_, ?_, by simp, by simp, by simp, i12, i13, ?_⟩
    · simp only [List.length_append, List.length_cons, List.length_nil, Nat.zero_add]
      rw [i2, ← h, hist_succ n _ (by omega) h32]
    · simp only
      rw [List.take_append_of_le_length (by omega)]
      exact i3
    · simp; omega
    · simp only [List.length_append, List.length_cons, List.length_nil]; omega
    · intro k hk1 hk2
      simp only [List.length_append, List.length_cons, List.length_nil] at hk1 hk2 ⊢
      by_cases hk : k < s.produced.length
      · rw [List.getElem?_append_left hk]; exact i8 k hk1 hk
      · have hk' : k = s.produced.length := by omega
        subst hk'
        rw [← h3, h5]; simp
    · intro idx' v' hv
      obtain ⟨h6, h7, h8⟩ := i14 idx' v' hv
      refine ⟨h6, h7, ?_⟩
      simp only
      rw [List.getElem?_append_left (by omega)]; exact h8
  | loadStart start hc h =>
    refine ⟨i1, i2, i3, i4, i5, i6, i7, i8, i9, i10, i11, ?_, by simp, by simp⟩
    intro f hf
    simp only [Cons.loaded.injEq] at hf
    rw [i1, hist_last, Option.some.injEq] at h
    simp only
    rw [← hf, ← h]
  | empty start j fin hc hj hs h =>
    rw [i2] at hs
    obtain ⟨h3, h4⟩ := hist_get n _ j fin hs
    refine ⟨i1, i2, i3, ?_, h3, i6, i7, i8, i9, i10, i11, by simp, by simp, by simp⟩
    simp only; omega
  | giveRead start j fin idx hc hj hs h =>
    rw [i2] at hs
    obtain ⟨h3, h4⟩ := hist_get n _ j fin hs
    have hst := i12 start hc
    refine ⟨i1, i2, i3, ?_, h3, i6, i7, i8, i9, i10, i11, by simp, ?_, by simp⟩
    · simp only; omega
    · intro idx' hidx
      simp only [Cons.reading.injEq] at hidx
      subst hidx
      simp only [indexForRead] at h
      split at h
      · simp at h
      · rename_i hne
        simp only [Option.some.injEq] at h
        refine ⟨by rw [← h]; exact hst, ?_⟩
        simp only
        by_contra hcon
        apply hne
        have : j = s.consumed.length := by omega
        rw [h4, hst, this]
  | read idx hc =>
    obtain ⟨h3, h4⟩ := i13 idx hc
    refine ⟨i1, i2, i3, i4, i5, i6, i7, i8, i9, i10, i11, by simp, by simp, ?_⟩
    intro idx' v hv
    simp only [Cons.read.injEq] at hv
    obtain ⟨rfl, rfl⟩ := hv
    refine ⟨h3, h4, ?_⟩
    rw [h3]
    exact i8 _ (Nat.le_refl _) (by omega)
  | commitRead idx v start hc h =>
    obtain ⟨h3, h4, h5⟩ := i14 idx v hc
    rw [i1, hist_last, Option.some.injEq] at h
    refine ⟨?_, i2, ?_, ?_, i5, ?_, i7, ?_, i9, i10, i11, by simp, by simp, by simp⟩
    · simp only [List.length_append, List.length_cons, List.length_nil, Nat.zero_add]
      rw [i1, ← h, hist_succ n _ (by omega) h32]
    · simp only [List.length_append, List.length_cons, List.length_nil, Nat.zero_add]
      rw [List.take_add_one, List.map_append, ← i3, h5]
      have hlt : s.consumed.length < s.produced.length := by omega
      simp [List.getElem?_eq_getElem hlt]
    · simp only [List.length_append, List.length_cons, List.length_nil]; omega
    · simp only [List.length_append, List.length_cons, List.length_nil]; omega
    · intro k hk1 hk2
      simp only [List.length_append, List.length_cons, List.length_nil] at hk1 hk2 ⊢
      exact i8 k (by omega) hk2

theorem reachable_inv (n : Nat) (h2 : 2 ≤ n) (h32 : n < 2 ^ 32) (s : State α)
    (h : Reachable n s) : Inv n s := by
  induction h with
  | init => exact init_inv n
  | step s s' _ hs ih => exact step_inv n h2 h32 s s' ih hs

/-- C33: in every interleaving, what has been consumed is exactly the first items produced, in
order: nothing is lost, invented, reordered or read twice; and at most `size - 1` items are in the
ring. -/
theorem C33_fifo (n : Nat) (h2 : 2 ≤ n) (h32 : n < 2 ^ 32) (s : State α) (h : Reachable n s) :
    s.consumed = (s.produced.take s.consumed.length).map some ∧
      s.consumed.length ≤ s.produced.length ∧
      s.produced.length ≤ s.consumed.length + (n - 1) := by
  have hi := reachable_inv n h2 h32 s h
  have h1 := hi.seenEndLow
  have h3 := hi.seenEndHigh
  have h4 := hi.seenStart
  have h5 := hi.room
  exact ⟨hi.consumed, by omega, by omega⟩

/-- The slot the producer holds, between being given an index and committing it. -/
def State.writeSlot (s : State α) : Option Nat :=
  match s.prod with
  | .writing i => some i
  | .written i _ => some i
  | _ => none

/-- The slot the consumer holds. -/
def State.readSlot (s : State α) : Option Nat :=
  match s.cons with
  | .reading i => some i
  | .read i _ => some i
  | _ => none

/-- C33: the two threads never hold the same slot, and every slot held is inside the ring. -/
theorem C33_slots_disjoint (n : Nat) (h2 : 2 ≤ n) (h32 : n < 2 ^ 32) (s : State α)
    (h : Reachable n s) :
    (∀ i, s.writeSlot = some i → i < n) ∧ (∀ i, s.readSlot = some i → i < n) ∧
      ∀ i, s.writeSlot = some i → s.readSlot ≠ some i := by
  have hi := reachable_inv n h2 h32 s h
  have hw : ∀ i, s.writeSlot = some i →
      i = s.produced.length % n ∧ s.produced.length + 1 ≤ s.seenStart + (n - 1) := by
    intro i hw
    unfold State.writeSlot at hw
    split at hw
    · rename_i j hp; rw [Option.some.injEq] at hw; subst hw; exact hi.prodWriting j hp
    · rename_i j v hp; rw [Option.some.injEq] at hw; subst hw
      exact ⟨(hi.prodWritten j v hp).1, (hi.prodWritten j v hp).2.1⟩
    · simp at hw
  have hr : ∀ i, s.readSlot = some i →
      i = s.consumed.length % n ∧ s.consumed.length < s.seenEnd := by
    intro i hr
    unfold State.readSlot at hr
    split at hr
    · rename_i j hp; rw [Option.some.injEq] at hr; subst hr; exact hi.consReading j hp
    · rename_i j v hp; rw [Option.some.injEq] at hr; subst hr
      exact ⟨(hi.consRead j v hp).1, (hi.consRead j v hp).2.1⟩
    · simp at hr
  refine ⟨fun i h' => ?_, fun i h' => ?_, fun i h' h'' => ?_⟩
  · rw [(hw i h').1]; exact Nat.mod_lt _ (by omega)
  · rw [(hr i h').1]; exact Nat.mod_lt _ (by omega)
  · obtain ⟨h3, h4⟩ := hw i h'
    obtain ⟨h5, h6⟩ := hr i h''
    have h7 := hi.seenEndHigh
    have h8 := hi.seenStart
    have := mod_inj n s.consumed.length s.produced.length (by omega) (by omega) (by rw [← h3, ← h5])
    omega

/-- C33: the accesses to a slot are ordered by the indices and not only by luck. When the consumer
holds the slot of item number `k`, it has already loaded an index stored after item `k` was
committed; when the producer holds the slot for item number `k`, it has already loaded an index
stored after the previous item in that slot, number `k - size`, had been consumed. -/
theorem C33_synchronised (n : Nat) (h2 : 2 ≤ n) (h32 : n < 2 ^ 32) (s : State α)
    (h : Reachable n s) :
    (s.readSlot.isSome → s.consumed.length + 1 ≤ s.seenEnd) ∧
      (s.writeSlot.isSome → n ≤ s.produced.length → s.produced.length - n + 1 ≤ s.seenStart) := by
  have hi := reachable_inv n h2 h32 s h
  constructor
  · intro hr
    unfold State.readSlot at hr
    split at hr
    · rename_i j hp; exact (hi.consReading j hp).2
    · rename_i j v hp; exact (hi.consRead j v hp).2.1
    · simp at hr
  · intro hw hn
    unfold State.writeSlot at hw
    split at hw
    · rename_i j hp; have := (hi.prodWriting j hp).2; omega
    · rename_i j v hp; have := (hi.prodWritten j v hp).2.1; omega
    · simp at hw

/-- C33: with the current values of both indices, full, empty and the count are right: the ring is
reported full exactly when it holds `size - 1` items, empty exactly when it holds none, and the
count is the number of items produced and not yet consumed. -/
theorem C33_status (n : Nat) (h2 : 2 ≤ n) (h32 : n < 2 ^ 32) (s : State α) (h : Reachable n s)
    (start fin : Nat) (hs : s.starts.getLast? = some start) (he : s.ends.getLast? = some fin) :
    (isFull n start fin = true ↔ s.produced.length = s.consumed.length + (n - 1)) ∧
      (isEmpty start fin = true ↔ s.produced.length = s.consumed.length) ∧
      numInBuffer n start fin = s.produced.length - s.consumed.length ∧
      (indexForWrite n fin start = none ↔ isFull n start fin = true) ∧
      (indexForRead start fin = none ↔ isEmpty start fin = true) := by
  have hi := reachable_inv n h2 h32 s h
  rw [hi.starts, hist_last, Option.some.injEq] at hs
  rw [hi.ends, hist_last, Option.some.injEq] at he
  have h1 := hi.seenEndLow
  have h3 := hi.seenEndHigh
  have h4 := hi.seenStart
  have h5 := hi.room
  generalize s.produced.length = w at *
  generalize s.consumed.length = r at *
  subst hs; subst he
  have hrl := Nat.mod_lt r (show n > 0 by omega)
  have hwl := Nat.mod_lt w (show n > 0 by omega)
  refine ⟨?_, ?_, ?_, ?_, ?_⟩
  · simp only [isFull, decide_eq_true_eq]
    rw [wrapInc_mod n w (by omega) h32]
    constructor
    · intro h'
      by_contra hne
      have := mod_inj n r (w + 1) (by omega) (by omega) h'.symm
      omega
    · intro h'
      have : w + 1 = r + n := by omega
      rw [this, Nat.add_mod_right]
  · simp only [isEmpty, decide_eq_true_eq]
    constructor
    · intro h'
      have := mod_inj n r w (by omega) (by omega) h'
      omega
    · intro h'; rw [h']
  · unfold numInBuffer
    have hd : (w - r) % n = w - r := Nat.mod_eq_of_lt (by omega)
    have key : w % n = (r % n + (w - r)) % n := by
      rw [Nat.mod_add_mod]; congr 1; omega
    by_cases hge : r % n + (w - r) < n
    · rw [Nat.mod_eq_of_lt hge] at key
      simp only
      rw [if_neg (by omega)]
      omega
    · have : (r % n + (w - r)) % n = r % n + (w - r) - n := by
        rw [Nat.mod_eq_sub_mod (by omega), Nat.mod_eq_of_lt (by omega)]
      rw [this] at key
      simp only
      rw [if_pos (by omega)]
      omega
  · simp only [indexForWrite, isFull, decide_eq_true_eq]
    split <;> simp_all
  · simp only [indexForRead, isEmpty, decide_eq_true_eq]
    split <;> simp_all

/-- A concrete run: with three slots, two items are produced, one is consumed, and the producer is
writing the third while the consumer is reading the second. -/
example : ∃ s : State Nat, Reachable 3 s ∧ s.produced = [10, 20] ∧ s.consumed = [some 10] ∧
    s.writeSlot = some 2 ∧ s.readSlot = some 1 := by
  have h0 : Reachable 3 (init Nat) := .init
  have h1 := h0.step _ _ (.loadEnd _ 0 rfl rfl)
  have h2 := h1.step _ _ (.giveWrite _ 0 0 0 0 rfl (Nat.le_refl _) rfl rfl)
  have h3 := h2.step _ _ (.write _ 0 10 rfl)
  have h4 := h3.step _ _ (.commitWrite _ 0 10 0 rfl rfl)
  have h5 := h4.step _ _ (.loadEnd _ 1 rfl rfl)
  have h6 := h5.step _ _ (.giveWrite _ 1 0 0 1 rfl (Nat.le_refl _) rfl rfl)
  have h7 := h6.step _ _ (.loadStart _ 0 rfl rfl)
  have h8 := h7.step _ _ (.giveRead _ 0 1 1 0 rfl (by decide) rfl rfl)
  have h9 := h8.step _ _ (.write _ 1 20 rfl)
  have h10 := h9.step _ _ (.read _ 0 rfl)
  have h11 := h10.step _ _ (.commitWrite _ 1 20 1 rfl rfl)
  have h12 := h11.step _ _ (.commitRead _ 0 (some 10) 0 rfl rfl)
  have h13 := h12.step _ _ (.loadEnd _ 2 rfl rfl)
  have h14 := h13.step _ _ (.giveWrite _ 2 1 1 2 rfl (by decide) rfl rfl)
  have h15 := h14.step _ _ (.loadStart _ 1 rfl rfl)
  have h16 := h15.step _ _ (.giveRead _ 1 2 2 1 rfl (by decide) rfl rfl)
  exact ⟨_, h16, rfl, rfl, rfl, rfl⟩

end Hdtn.CircularIndex
