import Verif.Base

/-!
`std::map` as a list of pairs in strictly increasing key order, and strict total orders given by a
Boolean comparison such as a C++ `operator<`.
-/

namespace Hdtn

/-- A comparison that is a strict total order. -/
structure StrictTotal {κ : Type} (lt : κ → κ → Bool) : Prop where
  irrefl : ∀ a, lt a a = false
  trans : ∀ a b c, lt a b = true → lt b c = true → lt a c = true
  total : ∀ a b, lt a b = false → lt b a = false → a = b

theorem StrictTotal.ne {κ : Type} {lt : κ → κ → Bool} (h : StrictTotal lt) {a b : κ}
    (hab : lt a b = true) : a ≠ b := by
  rintro rfl; rw [h.irrefl] at hab; exact absurd hab (by decide)

theorem StrictTotal.asymm {κ : Type} {lt : κ → κ → Bool} (h : StrictTotal lt) {a b : κ}
    (hab : lt a b = true) : lt b a = false := by
  cases hba : lt b a with
  | false => rfl
  | true =>
    have := h.trans a b a hab hba
    rw [h.irrefl] at this
    exact absurd this (by decide)

/-- The comparison of numbers. -/
def natLt (a b : Nat) : Bool := a < b

theorem natLt_strict : StrictTotal natLt :=
  ⟨by simp [natLt], by simp only [natLt, decide_eq_true_eq]; omega,
   by simp only [natLt, decide_eq_false_iff_not]; omega⟩

namespace OrdMap

variable {κ ν : Type} [DecidableEq κ]

/-- The keys are strictly increasing. -/
def Sorted (lt : κ → κ → Bool) (m : List (κ × ν)) : Prop := m.Pairwise fun a b => lt a.1 b.1 = true

/-- `map::find`. -/
def lookup (m : List (κ × ν)) (k : κ) : Option ν :=
  match m with
  | [] => none
  | (k', v) :: rest => if k' = k then some v else lookup rest k

/-- Assignment through `operator[]`: replace the value or insert at the right place. -/
def upsert (lt : κ → κ → Bool) (k : κ) (v : ν) : List (κ × ν) → List (κ × ν)
  | [] => [(k, v)]
  | (k', v') :: rest =>
    if k' = k then (k, v) :: rest
    else if lt k k' then (k, v) :: (k', v') :: rest
    else (k', v') :: upsert lt k v rest

/-- `map::erase`. -/
def erase (k : κ) (m : List (κ × ν)) : List (κ × ν) := m.filter fun p => p.1 ≠ k

variable {lt : κ → κ → Bool}

theorem sorted_nil : Sorted lt ([] : List (κ × ν)) := List.Pairwise.nil

theorem sorted_cons {p : κ × ν} {m : List (κ × ν)} :
    Sorted lt (p :: m) ↔ (∀ q ∈ m, lt p.1 q.1 = true) ∧ Sorted lt m := List.pairwise_cons

theorem mem_upsert {k : κ} {v : ν} {m : List (κ × ν)} {q : κ × ν} (h : q ∈ upsert lt k v m) :
    q = (k, v) ∨ q ∈ m := by
  induction m with
  | nil => simpa [upsert] using h
  | cons p m ih =>
    obtain ⟨k', v'⟩ := p
    rw [upsert] at h
    split at h
    · rcases List.mem_cons.1 h with h | h
      · exact Or.inl h
      · exact Or.inr (by simp [h])
    · split at h
      · rcases List.mem_cons.1 h with h | h
        · exact Or.inl h
        · exact Or.inr h
      · rcases List.mem_cons.1 h with h | h
        · exact Or.inr (by simp [h])
        · rcases ih h with h | h
          · exact Or.inl h
          · exact Or.inr (by simp [h])

theorem sorted_upsert (hlt : StrictTotal lt) (k : κ) (v : ν) (m : List (κ × ν)) (h : Sorted lt m) :
    Sorted lt (upsert lt k v m) := by
  induction m with
  | nil => simp [upsert, Sorted]
  | cons p m ih =>
    obtain ⟨k', v'⟩ := p
    rw [sorted_cons] at h
    rw [upsert]
    split
    · rename_i he
      subst he
      exact sorted_cons.2 ⟨h.1, h.2⟩
    · rename_i hne
      split
      · rename_i hl
        refine sorted_cons.2 ⟨?_, sorted_cons.2 h⟩
        intro q hq
        rcases List.mem_cons.1 hq with rfl | hq
        · exact hl
        · exact hlt.trans _ _ _ hl (h.1 q hq)
      · rename_i hl
        refine sorted_cons.2 ⟨?_, ih h.2⟩
        intro q hq
        rcases mem_upsert hq with rfl | hq
        · cases hk : lt k' k with
          | true => rfl
          | false => exact absurd (hlt.total k' k hk (by simpa using hl)) hne
        · exact h.1 q hq

theorem sorted_erase (k : κ) (m : List (κ × ν)) (h : Sorted lt m) : Sorted lt (erase k m) :=
  List.Pairwise.filter _ h

theorem lookup_upsert (k : κ) (v : ν) (m : List (κ × ν)) (k2 : κ) :
    lookup (upsert lt k v m) k2 = if k2 = k then some v else lookup m k2 := by
  induction m with
  | nil =>
    simp only [upsert, lookup]
    by_cases h : k2 = k
    · subst h; simp
    · rw [if_neg h, if_neg (fun h' => h h'.symm)]
  | cons p m ih =>
    obtain ⟨k', v'⟩ := p
    rw [upsert]
    split
    · rename_i he
      subst he
      by_cases h : k2 = k'
      · subst h; simp [lookup]
      · simp only [lookup]; rw [if_neg (fun h' => h h'.symm), if_neg h, if_neg (fun h' => h h'.symm)]
    · rename_i hne
      split
      · by_cases h : k2 = k
        · subst h; simp [lookup]
        · simp only [lookup]; rw [if_neg (fun h' => h h'.symm), if_neg h]
      · simp only [lookup, ih]
        by_cases h : k' = k2
        · subst h; simp [hne]
        · simp [h]

theorem lookup_erase (k : κ) (m : List (κ × ν)) (k2 : κ) :
    lookup (erase k m) k2 = if k2 = k then none else lookup m k2 := by
  induction m with
  | nil => simp [erase, lookup]
  | cons p m ih =>
    obtain ⟨k', v'⟩ := p
    unfold erase at ih ⊢
    rw [List.filter_cons]
    by_cases hk : k' = k
    · subst hk
      simp only [ne_eq, not_true_eq_false, decide_false, Bool.false_eq_true, if_false, ih, lookup]
      by_cases h : k2 = k'
      · simp [h]
      · rw [if_neg h, if_neg h, if_neg (fun h' => h h'.symm)]
    · simp only [ne_eq, hk, not_false_eq_true, decide_true, if_true, lookup, ih]
      by_cases h : k' = k2
      · subst h; simp [hk]
      · simp [h]

theorem lookup_some_mem {m : List (κ × ν)} {k : κ} {v : ν} (h : lookup m k = some v) : (k, v) ∈ m := by
  induction m with
  | nil => simp [lookup] at h
  | cons p m ih =>
    obtain ⟨k', v'⟩ := p
    rw [lookup] at h
    split at h
    · rename_i he
      simp only [Option.some.injEq] at h
      subst he; subst h; simp
    · simp [ih h]

theorem mem_lookup (hlt : StrictTotal lt) {m : List (κ × ν)} (hs : Sorted lt m) {k : κ} {v : ν}
    (h : (k, v) ∈ m) : lookup m k = some v := by
  induction m with
  | nil => simp at h
  | cons p m ih =>
    obtain ⟨k', v'⟩ := p
    rw [sorted_cons] at hs
    rw [lookup]
    rcases List.mem_cons.1 h with h | h
    · simp only [Prod.mk.injEq] at h
      rw [if_pos h.1.symm, h.2]
    · rw [if_neg (hlt.ne (hs.1 _ h)), ih hs.2 h]

theorem mem_iff (hlt : StrictTotal lt) {m : List (κ × ν)} (hs : Sorted lt m) {k : κ} {v : ν} :
    (k, v) ∈ m ↔ lookup m k = some v := ⟨mem_lookup hlt hs, lookup_some_mem⟩

theorem lookup_none {m : List (κ × ν)} {k : κ} : lookup m k = none ↔ ∀ v, (k, v) ∉ m := by
  induction m with
  | nil => simp [lookup]
  | cons p m ih =>
    obtain ⟨k', v'⟩ := p
    rw [lookup]
    split
    · rename_i he
      subst he
      simp only [reduceCtorEq, List.mem_cons, not_or, false_iff, not_forall]
      exact ⟨v', by simp⟩
    · rename_i hne
      rw [ih]
      constructor
      · intro h v hm
        rcases List.mem_cons.1 hm with hm | hm
        · simp only [Prod.mk.injEq] at hm
          exact hne hm.1.symm
        · exact h v hm
      · intro h v hm
        exact h v (by simp [hm])

/-- Sorted maps with the same lookups are equal. -/
theorem ext (hlt : StrictTotal lt) {m1 m2 : List (κ × ν)} (h1 : Sorted lt m1) (h2 : Sorted lt m2)
    (h : ∀ k, lookup m1 k = lookup m2 k) : m1 = m2 := by
  induction m1 generalizing m2 with
  | nil =>
    cases m2 with
    | nil => rfl
    | cons p m2 =>
      have := h p.1
      simp [lookup] at this
  | cons p m1 ih =>
    cases m2 with
    | nil =>
      have := h p.1
      simp [lookup] at this
    | cons q m2 =>
      rw [sorted_cons] at h1 h2
      have hp : p ∈ q :: m2 := (mem_iff hlt (sorted_cons.2 h2)).2 (by rw [← h]; simp [lookup])
      have hq : q ∈ p :: m1 := (mem_iff hlt (sorted_cons.2 h1)).2 (by rw [h]; simp [lookup])
      have hpq : p = q := by
        rcases List.mem_cons.1 hp with hp | hp
        · exact hp
        · rcases List.mem_cons.1 hq with hq | hq
          · exact hq.symm
          · have := hlt.asymm (h2.1 p hp)
            rw [h1.1 q hq] at this
            exact absurd this (by decide)
      subst hpq
      congr 1
      refine ih h1.2 h2.2 fun k => ?_
      have := h k
      simp only [lookup] at this
      by_cases hk : p.1 = k
      · subst hk
        have e1 : lookup m1 p.1 = none := lookup_none.2 fun v hv => hlt.ne (h1.1 _ hv) rfl
        have e2 : lookup m2 p.1 = none := lookup_none.2 fun v hv => hlt.ne (h2.1 _ hv) rfl
        rw [e1, e2]
      · rw [if_neg hk, if_neg hk] at this
        exact this

end OrdMap
end Hdtn
