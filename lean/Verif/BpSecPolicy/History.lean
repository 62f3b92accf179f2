import Verif.BpSecPolicy.Lemmas
import Mathlib.Data.List.Induction

/-!
The filters after a history of calls.
-/

namespace Hdtn.BpSecPolicy

open Spec

/-- What holds of the filters after a list of calls. -/
structure RInv (calls : List Call) (root : Root) (count : Nat) : Prop where
  named1 : ∀ a, (∃ y, root.get a = some y) ↔ ∃ c ∈ calls, parsePat c.sec = some a
  named2 : ∀ a b, (∃ y, at2 root a b = some y) ↔ ∃ c ∈ calls, parsePat c.sec = some a ∧ parsePat c.src = some b
  named3 : ∀ a b d, (∃ y, at3 root a b d = some y) ↔
    ∃ c ∈ calls, parsePat c.sec = some a ∧ parsePat c.src = some b ∧ parsePat c.dst = some d
  has : ∀ p, p.role < 3 → ((∃ id, idAt root p = some id) ↔ ∃ c ∈ calls, IsFor c p)
  lt : ∀ p id, p.role < 3 → idAt root p = some id → id < count
  inj : ∀ p p' id, p.role < 3 → p'.role < 3 → idAt root p = some id → idAt root p' = some id → p = p'

theorem RInv.init : RInv [] .empty 0 := by
  have h1 : ∀ a, (Level.empty : Root).get a = none := Level.get_empty
  have h2 : ∀ a b, at2 (Level.empty : Root) a b = none := by intro a b; simp [at2, h1]
  have h3 : ∀ a b d, at3 (Level.empty : Root) a b d = none := by intro a b d; simp [at3, h2]
  constructor
  · simp [h1]
  · simp [h2]
  · simp [h3]
  · simp [idAt, h3]
  · simp [idAt, h3]
  · simp [idAt, h3]

/-- The number of policies after a call. -/
def countAfter (count : Nat) (res : Option (Nat × Bool)) : Nat :=
  count + (match res with | some (_, true) => 1 | _ => 0)

theorem RInv.step {calls : List Call} {root : Root} {count : Nat} (h : RInv calls root count) (c : Call) :
    RInv (calls ++ [c]) (root.create count c).1 (countAfter count (root.create count c).2) := by
  obtain ⟨c1, c2, c3, c4, c5, c6⟩ := create_eq root count c
  have hge : count ≤ countAfter count (root.create count c).2 := by unfold countAfter; omega
  have hnew : ∀ p, IsFor c p → idAt root p = none → count < countAfter count (root.create count c).2 := by
    intro p hp hn
    rw [c6 p hp, hn]
    show count < count + 1
    omega
  constructor
  · intro a; rw [c1, h.named1]; simp [or_and_right, exists_or]
  · intro a b; rw [c2, h.named2]; simp [or_and_right, exists_or]
  · intro a b d; rw [c3, h.named3]; simp [or_and_right, exists_or]
  · intro p hp
    rw [c4 p hp]
    by_cases hf : IsFor c p
    · simp [hf]
    · rw [if_neg hf, h.has p hp]; simp [or_and_right, exists_or, hf]
  · intro p id hp hi
    rw [c4 p hp] at hi
    by_cases hf : IsFor c p
    · rw [if_pos hf] at hi
      cases he : idAt root p with
      | none =>
        rw [he] at hi
        have : count = id := Option.some.inj hi
        have := hnew p hf he
        omega
      | some id' =>
        rw [he] at hi
        have : id' = id := Option.some.inj hi
        have := h.lt p id' hp he
        omega
    · rw [if_neg hf] at hi
      have := h.lt p id hp hi
      omega
  · intro p p' id hp hp' hi hi'
    rw [c4 p hp] at hi
    rw [c4 p' hp'] at hi'
    have main : ∀ p p' : Place, p.role < 3 → p'.role < 3 → IsFor c p → ¬ IsFor c p' →
        some ((idAt root p).getD count) = some id → idAt root p' = some id → p = p' := by
      intro p p' hp hp' _ _ hi hi'
      cases he : idAt root p with
      | none =>
        rw [he] at hi
        have : count = id := Option.some.inj hi
        have := h.lt p' id hp' hi'
        omega
      | some id' =>
        rw [he] at hi
        have e : id' = id := Option.some.inj hi
        exact h.inj p p' id hp hp' (by rw [he, e]) hi'
    by_cases hf : IsFor c p
    · by_cases hf' : IsFor c p'
      · exact IsFor.unique hf hf'
      · rw [if_pos hf] at hi; rw [if_neg hf'] at hi'
        exact main p p' hp hp' hf hf' hi hi'
    · by_cases hf' : IsFor c p'
      · rw [if_neg hf] at hi; rw [if_pos hf'] at hi'
        exact (main p' p hp' hp hf' hf hi' hi).symm
      · rw [if_neg hf] at hi; rw [if_neg hf'] at hi'
        exact h.inj p p' id hp hp' hi hi'

theorem run_snoc (calls : List Call) (c : Call) : Run.run (calls ++ [c]) = (Run.run calls).step c := by
  simp [Run.run, List.foldl_append]

theorem run_inv (calls : List Call) : RInv calls (Run.run calls).root (Run.run calls).count := by
  induction calls using List.reverseRecOn with
  | nil => exact RInv.init
  | append_singleton calls c ih => rw [run_snoc]; exact ih.step c

theorem run_length (calls : List Call) : (Run.run calls).results.length = calls.length := by
  induction calls using List.reverseRecOn with
  | nil => rfl
  | append_singleton calls c ih => rw [run_snoc]; simp [Run.step, ih]

/-- Where a search arrives, from the calls. -/
theorem arrives_iff {calls : List Call} {root : Root} {count : Nat} (h : RInv calls root count) (q : Query) (id : Nat) :
    root.find q = some id ↔ ∃ p, Arrives calls q p ∧ idAt root p = some id := by
  rw [find_eq]
  simp only [h.named1, h.named2, h.named3]
  constructor
  · rintro ⟨hr, a, b, d, ha, hb, hd, hi⟩
    exact ⟨⟨a, b, d, q.role⟩, ⟨ha, hb, hd, rfl, (h.has _ hr).mp ⟨id, hi⟩⟩, hi⟩
  · rintro ⟨⟨a, b, d, r⟩, ⟨ha, hb, hd, hr, c, _, hf⟩, hi⟩
    simp only at ha hb hd hr
    subst hr
    exact ⟨hf.2.2.2.2, a, b, d, ha, hb, hd, hi⟩

theorem Strictest.unique_rank {S : Pat → Prop} {e : HashMap16.Eid} {p p' : Pat} (h : Strictest S e p) (h' : Strictest S e p') :
    p = p' := by
  have h1 := h.2.2 p' h'.1 h'.2.1
  have h2 := h'.2.2 p h.1 h.2.1
  have m1 := h.2.1
  have m2 := h'.2.1
  cases p <;> cases p' <;> simp only [rank, Matches] at h1 h2 m1 m2 <;> first | omega | simp_all

theorem Arrives.unique {calls : List Call} {q : Query} {p p' : Place} (h : Arrives calls q p) (h' : Arrives calls q p') :
    p = p' := by
  obtain ⟨a1, b1, d1, r1, _⟩ := h
  obtain ⟨a2, b2, d2, r2, _⟩ := h'
  have ea := Strictest.unique_rank a1 a2
  rw [ea] at b1 d1
  have eb := Strictest.unique_rank b1 b2
  rw [eb] at d1
  have ed := Strictest.unique_rank d1 d2
  cases p; cases p'
  simp only at ea eb ed r1 r2
  simp [ea, eb, ed, r1, r2]

/-- The result of a call is about the place it is for. -/
theorem results_inv (calls : List Call) : ∀ i c, calls[i]? = some c →
    ((Run.run calls).results[i]? = some none ↔ ∀ p, ¬ IsFor c p) ∧
    (∀ p, IsFor c p → ∃ id b, idAt (Run.run calls).root p = some id ∧
      (Run.run calls).results[i]? = some (some (id, b)) ∧
      (b = true ↔ ∀ (j : Nat) c', j < i → calls[j]? = some c' → ¬ IsFor c' p)) := by
  induction calls using List.reverseRecOn with
  | nil => simp
  | append_singleton calls c0 ih =>
    intro i c hi
    have hinv := run_inv calls
    obtain ⟨-, -, -, c4, c5, c6⟩ := create_eq (Run.run calls).root (Run.run calls).count c0
    rw [run_snoc]
    have hres : ((Run.run calls).step c0).results =
        (Run.run calls).results ++ [((Run.run calls).root.create (Run.run calls).count c0).2] := rfl
    have hroot : ((Run.run calls).step c0).root = ((Run.run calls).root.create (Run.run calls).count c0).1 := rfl
    rw [hres, hroot]
    by_cases hlt : i < calls.length
    · rw [List.getElem?_append_left hlt] at hi
      rw [List.getElem?_append_left (by rw [run_length]; exact hlt)]
      obtain ⟨ih1, ih2⟩ := ih i c hi
      refine ⟨ih1, fun p hp => ?_⟩
      obtain ⟨id, b, h1, h2, h3⟩ := ih2 p hp
      refine ⟨id, b, ?_, h2, ?_⟩
      · rw [c4 p hp.2.2.2.2]
        split
        · rw [h1]; rfl
        · exact h1
      · rw [h3]
        constructor
        · intro h j c' hj hc'
          rw [List.getElem?_append_left (by omega)] at hc'
          exact h j c' hj hc'
        · intro h j c' hj hc'
          exact h j c' hj (by rw [List.getElem?_append_left (by omega)]; exact hc')
    · have hie : i = calls.length := by
        have := (List.getElem?_eq_some_iff.mp hi).1
        simp only [List.length_append, List.length_cons, List.length_nil] at this
        omega
      subst hie
      have hc : c0 = c := by
        rw [List.getElem?_append_right (Nat.le_refl _)] at hi
        simpa using hi
      subst hc
      have hget : ((Run.run calls).results ++ [((Run.run calls).root.create (Run.run calls).count c0).2])[calls.length]? =
          some ((Run.run calls).root.create (Run.run calls).count c0).2 := by
        rw [List.getElem?_append_right (by rw [run_length])]
        simp [run_length]
      rw [hget]
      refine ⟨by rw [Option.some.injEq]; exact c5, fun p hp => ?_⟩
      refine ⟨(idAt (Run.run calls).root p).getD (Run.run calls).count, _, ?_, by rw [c6 p hp], ?_⟩
      · rw [c4 p hp.2.2.2.2, if_pos hp]
      · have hh := hinv.has p hp.2.2.2.2
        cases he : idAt (Run.run calls).root p with
        | none =>
          rw [he] at hh
          simp only [Option.isNone_none, true_iff]
          intro j c' hj hc' hf
          rw [List.getElem?_append_left hj] at hc'
          obtain ⟨id, h⟩ := hh.mpr ⟨c', List.mem_of_getElem? hc', hf⟩
          simp at h
        | some id =>
          rw [he] at hh
          simp only [Option.isNone_some, Bool.false_eq_true, false_iff]
          obtain ⟨c', hc', hf⟩ := hh.mp ⟨id, rfl⟩
          obtain ⟨j, hj⟩ := List.getElem?_of_mem hc'
          intro h
          have hjl := (List.getElem?_eq_some_iff.mp hj).1
          exact h j c' hjl (by rw [List.getElem?_append_left hjl]; exact hj) hf

end Hdtn.BpSecPolicy
