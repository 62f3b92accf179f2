import Verif.FragmentSet.Lemmas

/-!
Properties C07-C10: fragment sets.
-/

namespace Hdtn.FragmentSet

/-! ### C07 -/

/-- The set built by inserting the given ranges one after the other into an empty set. -/
def insertAll (ranges : List Frag) : List Frag :=
  ranges.foldl (fun s k => (insertFragment s k).1) []

theorem insertAll_from (s : List Frag) (hs : Canonical s) (ranges : List Frag)
    (hv : ∀ k ∈ ranges, k.Valid) :
    Canonical (ranges.foldl (fun s k => (insertFragment s k).1) s) ∧
      ∀ x, Covers (ranges.foldl (fun s k => (insertFragment s k).1) s) x ↔
        Covers s x ∨ ∃ k ∈ ranges, k.Has x := by
  induction ranges generalizing s with
  | nil => simpa using hs
  | cons k ks ih =>
    have h := insertLoop_spec s k false hs (hv k (by simp))
    have := ih (insertFragment s k).1 h.1 (fun j hj => hv j (by simp [hj]))
    refine ⟨this.1, fun x => ?_⟩
    rw [List.foldl_cons, this.2 x, insertFragment, h.2.1 x]
    simp only [List.mem_cons, exists_eq_or_imp]
    exact or_assoc

/-- C07: one insertion. A set in canonical form stays in canonical form, covers in addition exactly
the inserted range, and the call returns true exactly when some index of the range was not covered
before; when it returns false the set is untouched. -/
theorem C07_insert (s : List Frag) (key : Frag) (hs : Canonical s) (hk : key.Valid) :
    Canonical (insertFragment s key).1 ∧
      (∀ x, Covers (insertFragment s key).1 x ↔ Covers s x ∨ key.Has x) ∧
      ((insertFragment s key).2 = true ↔ ∃ x, key.Has x ∧ ¬ Covers s x) ∧
      ((insertFragment s key).2 = false → (insertFragment s key).1 = s) := by
  have h := insertLoop_spec s key false hs hk
  simpa [insertFragment] using h

/-- C07: any sequence of insertions gives the union of the ranges, in canonical form. -/
theorem C07_insert_is_union (ranges : List Frag) (hv : ∀ k ∈ ranges, k.Valid) :
    Canonical (insertAll ranges) ∧
      ∀ x, Covers (insertAll ranges) x ↔ ∃ k ∈ ranges, k.Has x := by
  have := insertAll_from [] canonical_nil ranges hv
  simpa [covers_nil, insertAll] using this

/-- C07: two insertion histories that cover the same indices give the same set, whatever their
order, overlaps and repetitions. -/
theorem C07_insert_order_independent (r1 r2 : List Frag) (h1 : ∀ k ∈ r1, k.Valid)
    (h2 : ∀ k ∈ r2, k.Valid) (h : ∀ x, (∃ k ∈ r1, k.Has x) ↔ ∃ k ∈ r2, k.Has x) :
    insertAll r1 = insertAll r2 := by
  have a := C07_insert_is_union r1 h1
  have b := C07_insert_is_union r2 h2
  exact canonical_unique _ _ a.1 b.1 fun x => by rw [a.2, b.2, h]

example : insertAll [⟨10, 19⟩, ⟨30, 39⟩, ⟨5, 9⟩, ⟨15, 29⟩] = [⟨5, 39⟩] ∧
    insertAll [⟨0, 4⟩, ⟨10, 19⟩, ⟨6, 7⟩, ⟨10, 12⟩] = [⟨0, 4⟩, ⟨6, 7⟩, ⟨10, 19⟩] ∧
    (∀ k ∈ ([⟨10, 19⟩, ⟨30, 39⟩, ⟨5, 9⟩] : List Frag), k.Valid) := by
  decide +kernel

/-- Insertions and removals, as a caller issues them. -/
inductive Op where
  | insert (k : Frag)
  | remove (k : Frag)

/-- The effect of one call. -/
def Op.run (s : List Frag) : Op → List Frag
  | .insert k => (insertFragment s k).1
  | .remove k => (removeFragment s k).1

/-- The inserted ranges of a history are non-empty and end below 2^64-1. -/
def Op.Ok : Op → Prop
  | .insert k => k.Valid
  | .remove _ => True

/-- C07/C09: canonical form survives every history of insertions and removals; so the hypothesis
`Canonical` of the theorems below holds in every reachable state. -/
theorem C07_histories_canonical (ops : List Op) (h : ∀ o ∈ ops, o.Ok) :
    Canonical (ops.foldl Op.run []) := by
  suffices ∀ s, Canonical s → Canonical (ops.foldl Op.run s) from this [] canonical_nil
  induction ops with
  | nil => intro s hs; exact hs
  | cons o ops ih =>
    intro s hs
    refine ih (fun o' ho' => h o' (by simp [ho'])) _ ?_
    have ho := h o (by simp)
    cases o with
    | insert k => exact (C07_insert s k hs ho).1
    | remove k =>
      simp only [Op.run]
      by_cases hk : k.b ≤ k.e
      · by_cases hab : ∃ f ∈ s, f.e + 1 = k.b
        · obtain ⟨f, hf, hfe⟩ := hab
          rw [removeFragment_stuck s k hs f hf hfe]; exact hs
        · push Not at hab
          exact (removeFragment_exact s k hs hk hab).1
      · rw [removeFragment, if_pos (by omega)]; exact hs

/-! ### C08 -/

/-- C08: containment. -/
theorem C08_containsEntirely (s : List Frag) (key : Frag) (hs : Canonical s) (hk : key.Valid) :
    containsEntirely s key = true ↔ ∀ x, key.Has x → Covers s x :=
  containsEntirely_iff s key hs hk

/-- C08: absence of any overlap with one range. -/
theorem C08_doesNotContain (s : List Frag) (key : Frag) (hs : Canonical s) (hk : key.b ≤ key.e) :
    doesNotContainEntirely s key = true ↔ ∀ x, key.Has x → ¬ Covers s x :=
  doesNotContainEntirely_iff s key hs hk

/-- C08: overlap of two sets. -/
theorem C08_haveOverlap (s t : List Frag) (hs : Canonical s) (ht : Canonical t) :
    haveOverlap s t = true ↔ ∃ x, Covers s x ∧ Covers t x :=
  haveOverlap_iff s t hs ht

/-- C08: overlap of two ranges: when reported, the range returned is exactly the intersection; it is
reported exactly when the intersection is not empty. -/
theorem C08_getOverlap (k1 k2 : Frag) (h1 : k1.b ≤ k1.e) (h2 : k2.b ≤ k2.e) :
    (∀ o, k1.getOverlap k2 = some o → ∀ x, o.Has x ↔ k1.Has x ∧ k2.Has x) ∧
    (k1.getOverlap k2 = none ↔ ¬ ∃ x, k1.Has x ∧ k2.Has x) :=
  ⟨(getOverlap_iff k1 k2).1, (getOverlap_iff k1 k2).2 h1 h2⟩

example : Canonical [⟨0, 4⟩, ⟨6, 10⟩] ∧ containsEntirely [⟨0, 4⟩, ⟨6, 10⟩] ⟨7, 10⟩ = true ∧
    containsEntirely [⟨0, 4⟩, ⟨6, 10⟩] ⟨4, 6⟩ = false ∧
    doesNotContainEntirely [⟨0, 4⟩, ⟨6, 10⟩] ⟨5, 5⟩ = true ∧
    haveOverlap [⟨0, 4⟩, ⟨6, 10⟩] [⟨5, 5⟩, ⟨10, 12⟩] = true ∧
    Frag.getOverlap ⟨0, 4⟩ ⟨4, 9⟩ = some ⟨4, 4⟩ := by decide +kernel

/-! ### C09

The full property, for every canonical set `s` and every non-empty range `key`:
`Covers (removeFragment s key).1 x ↔ Covers s x ∧ ¬ key.Has x`. It does not hold. -/

/-- C09 is violated: with `[0,4]` and `[6,10]` stored, removing `[5,7]` removes nothing. -/
theorem C09_remove_violated :
    ∃ s key, Canonical s ∧ key.Valid ∧ ∃ x, key.Has x ∧ Covers s x ∧
      Covers (removeFragment s key).1 x ∧ (removeFragment s key) = (s, false) :=
  ⟨[⟨0, 4⟩, ⟨6, 10⟩], ⟨5, 7⟩, by decide, by decide, 7, by decide,
    ⟨⟨6, 10⟩, by decide, by decide⟩, ⟨⟨6, 10⟩, by decide +kernel, by decide⟩, by decide +kernel⟩

/-- C09, what does hold: removal is exact, keeps canonical form, and reports whether something was
removed, unless a stored range ends right before the removed one. Missing: the case in which one
does, where the property fails (`C09_remove_stuck` says what happens instead). -/
theorem C09_remove_exact_partial (s : List Frag) (key : Frag) (hs : Canonical s)
    (hk : key.b ≤ key.e) (hna : ∀ f ∈ s, f.e + 1 ≠ key.b) :
    Canonical (removeFragment s key).1 ∧
      (∀ x, Covers (removeFragment s key).1 x ↔ Covers s x ∧ ¬ key.Has x) ∧
      ((removeFragment s key).2 = true ↔ ∃ x, Covers s x ∧ key.Has x) :=
  removeFragment_exact s key hs hk hna

/-- C09: if a stored range ends right before the removed range, nothing is removed and false is
returned. -/
theorem C09_remove_stuck (s : List Frag) (key : Frag) (hs : Canonical s)
    (f : Frag) (hf : f ∈ s) (hfe : f.e + 1 = key.b) : removeFragment s key = (s, false) :=
  removeFragment_stuck s key hs f hf hfe

/-- C09: removing a single index is always exact. -/
theorem C09_remove_single (s : List Frag) (i : Nat) (hs : Canonical s) :
    Canonical (removeFragment s ⟨i, i⟩).1 ∧
      (∀ x, Covers (removeFragment s ⟨i, i⟩).1 x ↔ Covers s x ∧ x ≠ i) ∧
      ((removeFragment s ⟨i, i⟩).2 = true ↔ Covers s i) := by
  have hhas : ∀ x, (Frag.Has ⟨i, i⟩ x ↔ x = i) := by intro x; simp only [Frag.Has]; omega
  by_cases hab : ∃ f ∈ s, f.e + 1 = i
  · obtain ⟨f, hf, hfe⟩ := hab
    rw [removeFragment_stuck s ⟨i, i⟩ hs f hf hfe]
    have hni : ¬ Covers s i := by
      rintro ⟨k, hk, hk1, hk2⟩
      have h1 := (hs.valid hf).1
      rcases hs.apart hk hf with rfl | h | h <;> omega
    refine ⟨hs, fun x => ⟨fun h => ⟨h, ?_⟩, fun h => h.1⟩, by simp [hni]⟩
    rintro rfl; exact hni h
  · push Not at hab
    obtain ⟨r1, r2, r3⟩ := removeFragment_exact s ⟨i, i⟩ hs (Nat.le_refl _) hab
    refine ⟨r1, fun x => by rw [r2 x, hhas x], ?_⟩
    rw [r3]
    constructor
    · rintro ⟨x, h1, h2⟩; rwa [(hhas x).1 h2] at h1
    · intro h; exact ⟨i, h, (hhas i).2 rfl⟩

/-- C09: an empty range removes nothing. -/
theorem C09_remove_empty (s : List Frag) (key : Frag) (hk : key.e < key.b) :
    removeFragment s key = (s, false) := by rw [removeFragment, if_pos hk]

example : Canonical [⟨0, 4⟩, ⟨6, 10⟩, ⟨20, 30⟩] ∧
    removeFragment [⟨0, 4⟩, ⟨6, 10⟩, ⟨20, 30⟩] ⟨8, 25⟩ = ([⟨0, 4⟩, ⟨6, 7⟩, ⟨26, 30⟩], true) ∧
    (∀ f ∈ ([⟨0, 4⟩, ⟨6, 10⟩, ⟨20, 30⟩] : List Frag), f.e + 1 ≠ 8) ∧
    removeFragment [⟨0, 4⟩, ⟨6, 10⟩] ⟨8, 8⟩ = ([⟨0, 4⟩, ⟨6, 7⟩, ⟨9, 10⟩], true) := by
  decide +kernel

/-! ### C10 -/

/-- C10: the gaps of a set within bounds: exactly the indices inside the bounds that are not
covered, in canonical form. -/
theorem C10_gaps_exact (bounds : Frag) (hb : bounds.Valid) (s : List Frag) (hs : Canonical s) :
    Canonical (boundsMinusFragments bounds s) ∧
      ∀ x, Covers (boundsMinusFragments bounds s) x ↔ bounds.Has x ∧ ¬ Covers s x :=
  boundsMinus_spec bounds hb s hs

example : (Frag.Valid ⟨3, 12⟩) ∧ Canonical [⟨0, 4⟩, ⟨6, 7⟩, ⟨10, 20⟩] ∧
    boundsMinusFragments ⟨3, 12⟩ [⟨0, 4⟩, ⟨6, 7⟩, ⟨10, 20⟩] = [⟨5, 5⟩, ⟨8, 9⟩] := by
  decide +kernel

end Hdtn.FragmentSet
