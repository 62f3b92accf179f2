import Verif.MemoryManager.Lemmas

/-!
C22 and C23.
-/

namespace Hdtn.MemoryManager

theorem mem_freeIds (max : Nat) (used : List Nat) (k : Nat) :
    k ∈ freeIds max used ↔ k < max ∧ k ∉ used := by simp [freeIds]

theorem inv_new (max : Nat) (h : max < 64 ^ 6) : Inv (Tree.new max) [] := by
  have hone : ∀ b, b < 64 → (2 ^ 64 - 1 : Nat).testBit b = true := fun b hb => by
    rw [Nat.testBit_two_pow_sub_one]; simp [hb]
  constructor
  · refine ⟨fun h => ?_, fun _ _ => by show 2 ^ 64 - 1 < 2 ^ 64; omega⟩
    show max >>> (6 * (h + 1)) + 1 = max / 64 ^ (h + 1) + 1
    rw [Nat.shiftRight_eq_div_pow, Nat.pow_mul]
  · refine ⟨fun id _ => ?_, fun id hid => by simp at hid⟩
    simp only [Fr, Tree.new, List.not_mem_nil, not_false_eq_true, iff_true]
    exact hone _ (Nat.mod_lt _ (by decide))
  · intro h' _ j _
    simp only [Fr, Tree.new]
    rw [hone _ (Nat.mod_lt _ (by decide))]
    simp
  · exact h
  · exact List.nodup_nil
  · rfl

theorem freeIds_cons (max : Nat) (used : List Nat) (id : Nat) (rest : List Nat)
    (h : freeIds max used = id :: rest) : freeIds max (id :: used) = rest := by
  have e : freeIds max (id :: used) = (freeIds max used).filter fun k => decide (k ≠ id) := by
    unfold freeIds
    rw [List.filter_filter]
    congr 1
    funext k
    simp only [List.mem_cons, not_or]
    by_cases h1 : k = id <;> by_cases h2 : k ∈ used <;> simp [h1, h2]
  have hn : (freeIds max used).Nodup := (List.nodup_range).sublist List.filter_sublist
  rw [e, h]
  rw [h] at hn
  obtain ⟨h1, _⟩ := List.nodup_cons.1 hn
  rw [List.filter_cons_of_neg (by simp), List.filter_eq_self]
  intro k hk
  simp only [decide_eq_true_eq]
  rintro rfl
  exact h1 hk

theorem freeEach_spec (got : List Nat) (t : Tree) (used : List Nat) (hi : Inv t used) :
    ∃ t', freeEach t got = some t' ∧ Inv t' (got.foldl List.erase used) ∧ t'.max = t.max := by
  induction got generalizing t used with
  | nil => exact ⟨t, rfl, hi, rfl⟩
  | cons id ids ih =>
    obtain ⟨t1, h1, h2, h3⟩ := freeId_spec t used hi id
    have hu : ((Op.freeId id).spec t.max used).1 = used.erase id := by
      simp only [Op.spec]; split
      · rfl
      · rename_i h; exact (List.erase_of_not_mem h).symm
    rw [hu] at h1
    obtain ⟨t2, g1, g2, g3⟩ := ih t1 (used.erase id) h1
    cases hf : freeId t id with
    | none => rw [hf] at h3; simp at h3
    | some r =>
      rw [hf] at h3
      simp only [Option.map_some, Option.some.injEq, Prod.mk.injEq] at h3
      simp only [freeEach, hf, h3.1]
      exact ⟨t2, g1, g2, g3.trans h2⟩

/-- The invariant depends only on which identifiers are in use. -/
theorem foldl_erase (got used : List Nat) (hn : (got.reverse ++ used).Nodup) :
    got.foldl List.erase (got.reverse ++ used) = used := by
  induction got generalizing used with
  | nil => rfl
  | cons id ids ih =>
    rw [List.foldl_cons, List.reverse_cons, List.append_assoc]
    rw [List.reverse_cons, List.append_assoc] at hn
    have hd := List.nodup_append.1 hn
    have hnot : id ∉ ids.reverse := fun hh => hd.2.2 id hh id (by simp) rfl
    have e : (ids.reverse ++ ([id] ++ used)).erase id = ids.reverse ++ used := by
      rw [List.erase_append_right _ hnot]
      simp
    rw [e]
    refine ih used ?_
    refine List.nodup_append.2 ⟨hd.1, (List.nodup_append.1 hd.2.1).2.1, fun a ha b hb => ?_⟩
    exact hd.2.2 a ha b (by simp [hb])

theorem allocLoop_spec (n : Nat) (t : Tree) (got used : List Nat)
    (hi : Inv t (got.reverse ++ used)) :
    ∃ t', t'.max = t.max ∧
      (n ≤ (freeIds t.max (got.reverse ++ used)).length →
        allocLoop n t got =
          some (t', got ++ (freeIds t.max (got.reverse ++ used)).take n, true) ∧
        Inv t' (((freeIds t.max (got.reverse ++ used)).take n).reverse ++ (got.reverse ++ used))) ∧
      (¬ n ≤ (freeIds t.max (got.reverse ++ used)).length →
        allocLoop n t got = some (t', [], false) ∧ Inv t' used) := by
  induction n generalizing t got with
  | zero => exact ⟨t, rfl, by simp [allocLoop, hi]⟩
  | succ n ih =>
    obtain ⟨t1, h1, h2, h3⟩ := allocFirst_spec t _ hi
    cases ha : allocFirst t with
    | none => rw [ha] at h3; simp at h3
    | some r =>
      obtain ⟨ta, ra⟩ := r
      rw [ha] at h3
      simp only [Option.map_some, Option.some.injEq, Prod.mk.injEq] at h3
      obtain ⟨e1, e2⟩ := h3
      subst e1
      simp only [allocLoop, ha]
      cases hf : freeIds t.max (got.reverse ++ used) with
      | nil =>
        simp only [Op.spec, hf] at h1 e2
        injection e2 with e2
        subst e2
        obtain ⟨t2, g1, g2, g3⟩ := freeEach_spec got ta _ h1
        rw [foldl_erase got used h1.nodup] at g2
        refine ⟨t2, g3.trans h2, ?_⟩
        simp only [g1, Option.map_some]
        exact ⟨fun hh => by simp at hh, fun _ => ⟨trivial, g2⟩⟩
      | cons id rest =>
        simp only [Op.spec, hf] at h1 e2
        injection e2 with e2
        subst e2
        have hrev : id :: (got.reverse ++ used) = (got ++ [id]).reverse ++ used := by simp
        rw [hrev] at h1
        obtain ⟨t2, g1, g2⟩ := ih ta (got ++ [id]) h1
        have hrest := freeIds_cons t.max _ id rest hf
        rw [hrev] at hrest
        rw [h2, hrest] at g2
        refine ⟨t2, g1.trans h2, ?_⟩
        simp only [List.length_cons, Nat.add_le_add_iff_right, List.take_succ_cons]
        refine ⟨fun hle => ?_, g2.2⟩
        obtain ⟨q1, q2⟩ := g2.1 hle
        exact ⟨by simpa using q1, by simpa using q2⟩

theorem freeSegments_spec (ids : List Nat) (t : Tree) (used : List Nat) (hi : Inv t used) :
    ∃ t', freeSegments t ids = some (t', (specFree used ids).2) ∧ Inv t' (specFree used ids).1 ∧
      t'.max = t.max := by
  induction ids generalizing t used with
  | nil => exact ⟨t, rfl, hi, rfl⟩
  | cons id ids ih =>
    obtain ⟨t1, h1, h2, h3⟩ := freeId_spec t used hi id
    have hu : ((Op.freeId id).spec t.max used) = (used.erase id, .flag (decide (id ∈ used))) := by
      simp only [Op.spec]; split
      · rename_i h; simp [h]
      · rename_i h; simp [h, List.erase_of_not_mem h]
    rw [hu] at h1 h3
    obtain ⟨t2, g1, g2, g3⟩ := ih t1 (used.erase id) h1
    cases hf : freeId t id with
    | none => rw [hf] at h3; simp at h3
    | some r =>
      obtain ⟨ra, rb⟩ := r
      rw [hf] at h3
      simp only [Option.map_some, Option.some.injEq, Prod.mk.injEq, Answer.flag.injEq] at h3
      simp only [freeSegments, hf, h3.1, g1, h3.2, specFree]
      exact ⟨t2, rfl, g2, g3.trans h2⟩

theorem isFree_spec (t : Tree) (used : List Nat) (hi : Inv t used) (id : Nat) :
    isFree t id = some (decide (id < t.max ∧ id ∉ used)) := by
  unfold isFree
  by_cases hge : id ≥ t.max
  · rw [if_pos hge]
    have : ¬ id < t.max := by omega
    simp [this]
  · have hlt : id < t.max := by omega
    have hil : id / 64 < t.len 0 := by
      have := max_div t hi.shape
      have : id / 64 ≤ t.max / 64 := Nat.div_le_div_right (by omega)
      omega
    rw [if_neg hge, shr6, and63, word_eq t 0 _ hil]
    have h1 := and_bit_ne_zero (t.words 0 (id / 64)) (id % 64)
    have h2 := hi.leaf.iff id hil
    rw [Fr, ← h1] at h2
    simp only [Option.map_some, Option.some.injEq, hlt, true_and]
    rw [Bool.eq_iff_iff]
    simpa using h2

theorem op_spec (t : Tree) (used : List Nat) (hi : Inv t used) (op : Op) :
    ∃ t', op.run t = some (t', (op.spec t.max used).2) ∧ Inv t' (op.spec t.max used).1 ∧
      t'.max = t.max := by
  cases op with
  | allocFirst => obtain ⟨t', h1, h2, h3⟩ := allocFirst_spec t used hi; exact ⟨t', h3, h1, h2⟩
  | allocId id => obtain ⟨t', h1, h2, h3⟩ := allocId_spec t used hi id; exact ⟨t', h3, h1, h2⟩
  | freeId id => obtain ⟨t', h1, h2, h3⟩ := freeId_spec t used hi id; exact ⟨t', h3, h1, h2⟩
  | isFree id => exact ⟨t, by simp [Op.run, Op.spec, isFree_spec t used hi id], hi, rfl⟩
  | allocSegments n =>
    obtain ⟨t', h1, h2⟩ := allocLoop_spec n t [] used hi
    refine ⟨t', ?_⟩
    simp only [List.reverse_nil, List.nil_append] at h2
    simp only [Op.run, Op.spec, allocSegments]
    split
    · rename_i hle; replace h2 := h2.1 hle
      rw [h2.1]; exact ⟨rfl, h2.2, h1⟩
    · rename_i hle; replace h2 := h2.2 hle
      rw [h2.1]; exact ⟨rfl, h2.2, h1⟩
  | freeSegments ids =>
    obtain ⟨t', h1, h2, h3⟩ := freeSegments_spec ids t used hi
    exact ⟨t', by simp [Op.run, Op.spec, h1], h2, h3⟩
  | count => exact ⟨t, by simp [Op.run, Op.spec, hi.num], hi, rfl⟩

theorem run_spec (ops : List Op) (t : Tree) (used : List Nat) (hi : Inv t used) :
    ∃ t', treeRun t ops = some (t', (specRun t.max used ops).2) ∧
      Inv t' (specRun t.max used ops).1 ∧ t'.max = t.max := by
  induction ops generalizing t used with
  | nil => exact ⟨t, rfl, hi, rfl⟩
  | cons op ops ih =>
    obtain ⟨t1, h1, h2, h3⟩ := op_spec t used hi op
    obtain ⟨t2, g1, g2, g3⟩ := ih t1 _ h2
    rw [h3] at g1 g2
    refine ⟨t2, ?_, g2, g3.trans h3⟩
    simp only [treeRun, h1, g1, specRun]

/-- C22. On an allocator of any capacity below 64^6 and for any history of operations, nothing
undefined happens (no row is accessed outside its bounds, no zero word is searched) and every answer
is the one of the specification: an allocation returns the lowest identifier not in use and fails
exactly when all are in use, a given identifier is allocated exactly when it is below the capacity
and free, a free succeeds exactly for an identifier in use, and the count is the number in use. -/
theorem C22_allocator (max : Nat) (hmax : max < 64 ^ 6) (ops : List Op) :
    ∃ t, treeRun (Tree.new max) ops = some (t, (specRun max [] ops).2) := by
  obtain ⟨t, h, _⟩ := run_spec ops (Tree.new max) [] (inv_new max hmax)
  exact ⟨t, h⟩

/-- C22, the specification itself: the identifiers in use are distinct and below the capacity at
every point of a history. -/
theorem C22_in_use (max : Nat) (hmax : max < 64 ^ 6) (ops : List Op) :
    (specRun max [] ops).1.Nodup ∧ ∀ id ∈ (specRun max [] ops).1, id < max := by
  obtain ⟨t, _, hi, hm⟩ := run_spec ops (Tree.new max) [] (inv_new max hmax)
  exact ⟨hi.nodup, fun id hid => by have := hi.leaf.lt id hid; rw [hm] at this; exact this⟩

/-- C22, one allocation after any history: the answer is the least identifier below the capacity
that is not in use, or "full", in which case every identifier is in use. -/
theorem C22_lowest (max : Nat) (hmax : max < 64 ^ 6) (ops : List Op) :
    ∃ t t' r, treeRun (Tree.new max) ops = some (t, (specRun max [] ops).2) ∧
      allocFirst t = some (t', r) ∧
      match r with
      | some id => id < max ∧ id ∉ (specRun max [] ops).1 ∧
          ∀ k < id, k ∈ (specRun max [] ops).1
      | none => ∀ k < max, k ∈ (specRun max [] ops).1 := by
  obtain ⟨t, h, hi, hm⟩ := run_spec ops (Tree.new max) [] (inv_new max hmax)
  obtain ⟨t', h1, h2, h3⟩ := allocFirst_spec t _ hi
  cases ha : allocFirst t with
  | none => rw [ha] at h3; simp at h3
  | some r =>
    obtain ⟨ta, ra⟩ := r
    rw [ha, hm] at h3
    change Option.map _ _ = some (t', (Op.allocFirst.spec max (specRun max [] ops).1).2) at h3
    simp only [Option.map_some, Option.some.injEq, Prod.mk.injEq] at h3
    refine ⟨t, ta, ra, h, ha, ?_⟩
    have h4 := h3.2
    cases hf : freeIds max (specRun max [] ops).1 with
    | nil =>
      simp only [Op.spec, hf] at h4
      injection h4 with h4
      subst h4
      intro k hk
      by_contra hn
      have := (mem_freeIds _ _ k).2 ⟨hk, hn⟩
      rw [hf] at this; simp at this
    | cons id rest =>
      simp only [Op.spec, hf] at h4
      injection h4 with h4
      subst h4
      have hid := (mem_freeIds _ _ id).1 (by rw [hf]; simp)
      refine ⟨hid.1, hid.2, fun k hk => ?_⟩
      by_contra hn
      have hmem := (mem_freeIds max _ k).2 ⟨by omega, hn⟩
      have hsorted : (freeIds max (specRun max [] ops).1).Pairwise (· < ·) :=
        List.Pairwise.filter _ List.pairwise_lt_range
      rw [hf] at hmem hsorted
      rcases List.mem_cons.1 hmem with hmem | hmem
      · omega
      · have := (List.pairwise_cons.1 hsorted).1 k hmem
        omega

/-- C23. After any history, asking for `n` segments at once either returns `n` distinct identifiers
that were free, the lowest ones in increasing order, and exactly these are in use in addition; or
fails, with an empty vector, exactly when fewer than `n` are free, and then every later history
answers as if the call had not been made. -/
theorem C23_all_or_nothing (max : Nat) (hmax : max < 64 ^ 6) (ops later : List Op) (n : Nat) :
    let used := (specRun max [] ops).1
    ∃ t t' ids ok, treeRun (Tree.new max) ops = some (t, (specRun max [] ops).2) ∧
      allocSegments t n = some (t', ids, ok) ∧
      (ok = true ↔ n ≤ ((List.range max).filter fun id => decide (id ∉ used)).length) ∧
      (ok = true → ids.length = n ∧ ids.Pairwise (· < ·) ∧ (∀ id ∈ ids, id < max ∧ id ∉ used) ∧
        (∀ k id, k < max → k ∉ used → id ∈ ids → k < id → k ∈ ids) ∧
        ∃ t'', treeRun t' later = some (t'', (specRun max (ids.reverse ++ used) later).2)) ∧
      (ok = false → ids = [] ∧ ∃ t'', treeRun t' later = some (t'', (specRun max used later).2) ∧
        ∃ t''', treeRun t later = some (t''', (specRun max used later).2)) := by
  intro used
  obtain ⟨t, h, hi, hm⟩ := run_spec ops (Tree.new max) [] (inv_new max hmax)
  have hm' : t.max = max := hm
  have hi' : Inv t used := hi
  obtain ⟨t', h1, h2⟩ := allocLoop_spec n t [] used hi'
  simp only [List.reverse_nil, List.nil_append] at h2
  rw [hm'] at h1 h2
  have hsorted : (freeIds max used).Pairwise (· < ·) :=
    List.Pairwise.filter _ List.pairwise_lt_range
  by_cases hle : n ≤ (freeIds max used).length
  · replace h2 := h2.1 hle
    refine ⟨t, t', _, true, h, h2.1, ⟨fun _ => hle, fun _ => rfl⟩, fun _ => ?_, fun hh => by simp at hh⟩
    refine ⟨by simp [hle], hsorted.sublist (List.take_sublist _ _),
      fun id hid => (mem_freeIds _ _ id).1 (List.mem_of_mem_take hid), ?_, ?_⟩
    · intro k id hk hku hid hlt
      have hmem := (mem_freeIds _ _ k).2 ⟨hk, hku⟩
      rw [← List.take_append_drop n (freeIds max used)] at hmem hsorted
      rcases List.mem_append.1 hmem with hmem | hmem
      · exact hmem
      · have := (List.pairwise_append.1 hsorted).2.2 id hid k hmem
        omega
    · obtain ⟨t'', g1, _⟩ := run_spec later t' _ h2.2
      rw [h1] at g1
      exact ⟨t'', g1⟩
  · replace h2 := h2.2 hle
    refine ⟨t, t', _, false, h, h2.1, ⟨fun hh => by simp at hh, fun hh => absurd hh hle⟩,
      fun hh => by simp at hh, fun _ => ⟨rfl, ?_⟩⟩
    obtain ⟨t'', g1, _⟩ := run_spec later t' _ h2.2
    obtain ⟨t''', g2, _⟩ := run_spec later t _ hi'
    rw [h1] at g1
    rw [hm'] at g2
    exact ⟨t'', g1, t''', g2⟩

/-- A capacity that is not a multiple of 64, a failing bulk allocation and freeing out of order. -/
example : (treeRun (Tree.new 67) [.allocSegments 66, .freeId 3, .allocSegments 3, .allocId 66,
      .allocFirst, .allocFirst, .count, .freeId 66, .freeId 66, .isFree 66, .isFree 67]).map
        (fun r => r.2.drop 1) =
    some [.flag true, .segments [] false, .flag true, .id (some 3), .id none, .number 67,
      .flag true, .flag false, .flag true, .flag false] := by decide +kernel

end Hdtn.MemoryManager
