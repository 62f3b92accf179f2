import Verif.Node.Model

/-!
Lemmas on maps from ids to bundles.
-/

namespace Hdtn.Node

/-- Every id is there once. -/
def Map.Keys (m : Map) : Prop := (m.map Prod.fst).Nodup

/-- The size of the bundles together. -/
def Map.bytes (m : Map) : Nat := (m.map (·.2.size)).sum

theorem keys_unique : ∀ {m : Map}, m.Keys → ∀ {id b b'}, (id, b) ∈ m → (id, b') ∈ m → b = b'
  | [], _, _, _, _, h, _ => by simp at h
  | p :: m, hk, id, b, b', h, h' => by
    simp only [Map.Keys, List.map_cons, List.nodup_cons, List.mem_map, Prod.exists, exists_and_right, exists_eq_right,
      not_exists] at hk
    rcases List.mem_cons.1 h with h | hm <;> rcases List.mem_cons.1 h' with h' | hm'
    · rw [← h] at h'; exact (Prod.mk.inj h').2.symm
    · subst h; exact absurd hm' (hk.1 b')
    · subst h'; exact absurd hm (hk.1 b)
    · exact keys_unique (m := m) hk.2 hm hm'

theorem lookup_none : ∀ {m : Map} {id}, m.lookup id = none ↔ ∀ b, (id, b) ∉ m
  | [], id => by simp [Map.lookup]
  | p :: m, id => by
    have ih := lookup_none (m := m) (id := id)
    simp only [Map.lookup, Option.map_eq_none_iff, List.find?_cons] at ih ⊢
    by_cases h : p.1 = id
    · have hp : (p.1 == id) = true := by simpa using h
      rw [hp]
      simp only [reduceCtorEq, List.mem_cons, false_iff, not_forall, not_not]
      exact ⟨p.2, Or.inl (by rw [← h])⟩
    · have hp : (p.1 == id) = false := by simpa using h
      rw [hp]
      simp only [ih, List.mem_cons, not_or]
      constructor
      · intro hm b
        exact ⟨fun hc => h (by rw [← hc]), hm b⟩
      · intro hm b
        exact (hm b).2

theorem lookup_mem {m : Map} {id b} (h : m.lookup id = some b) : (id, b) ∈ m := by
  simp only [Map.lookup, Option.map_eq_some_iff] at h
  obtain ⟨p, hp, rfl⟩ := h
  have h1 := List.mem_of_find?_eq_some hp
  have h2 := List.find?_some hp
  have h3 : p.1 = id := by simpa using h2
  rw [← h3]; exact h1

theorem lookup_of_mem {m : Map} (hk : m.Keys) {id b} (h : (id, b) ∈ m) : m.lookup id = some b := by
  cases hl : m.lookup id with
  | none => exact absurd h (lookup_none.1 hl b)
  | some b' => rw [keys_unique hk h (lookup_mem hl)]

theorem emplace_new {m : Map} {id} (h : m.lookup id = none) (b : Bundle) : m.emplace id b = m ++ [(id, b)] := by
  unfold Map.emplace
  rw [if_neg]
  intro hc
  simp only [List.any_eq_true, beq_iff_eq] at hc
  obtain ⟨p, hp, rfl⟩ := hc
  exact lookup_none.1 h p.2 hp

theorem keys_append {m : Map} (hk : m.Keys) {id} (h : m.lookup id = none) (b : Bundle) : Map.Keys (m ++ [(id, b)]) := by
  simp only [Map.Keys, List.map_append, List.map_cons, List.map_nil]
  rw [List.nodup_append]
  refine ⟨hk, by simp, ?_⟩
  intro a ha b' hb'
  simp only [List.mem_singleton] at hb'
  subst hb'
  simp only [List.mem_map] at ha
  obtain ⟨p, hp, rfl⟩ := ha
  intro hc
  exact lookup_none.1 h p.2 (by rw [← hc]; exact hp)

theorem remove_perm : ∀ {m : Map} {id b}, m.Keys → (id, b) ∈ m → List.Perm m ((id, b) :: m.remove id)
  | [], _, _, _, h => by simp at h
  | p :: m, id, b, hk, h => by
    by_cases hp : p.1 = id
    · have hb : (p.1 == id) = true := by simpa using hp
      simp only [Map.remove, List.eraseP_cons, hb, cond_true]
      have : p = (id, b) := by
        have h1 : (id, p.2) ∈ p :: m := by rw [← hp]; exact List.mem_cons_self
        have h2 := keys_unique hk h1 h
        rw [← hp, ← h2]
      rw [this]
    · have hb : (p.1 == id) = false := by simpa using hp
      simp only [Map.remove, List.eraseP_cons, hb, cond_false]
      have hm : (id, b) ∈ m := by
        rcases List.mem_cons.1 h with h | h
        · exact absurd (by rw [← h]) hp
        · exact h
      have hk' : Map.Keys m := by
        simp only [Map.Keys, List.map_cons, List.nodup_cons] at hk
        exact hk.2
      exact ((remove_perm hk' hm).cons p).trans (List.Perm.swap _ _ _)

theorem remove_sublist (m : Map) (id : Nat) : (m.remove id).Sublist m := List.eraseP_sublist

theorem keys_remove {m : Map} (hk : m.Keys) (id : Nat) : (m.remove id).Keys :=
  List.Nodup.sublist ((remove_sublist m id).map _) hk

theorem remove_count {m : Map} {id b} (hk : m.Keys) (h : (id, b) ∈ m) (x : Nat × Bundle) :
    (m.remove id).count x + (if x = (id, b) then 1 else 0) = m.count x := by
  rw [(remove_perm hk h).count_eq x, List.count_cons]
  by_cases hx : x = (id, b)
  · simp [hx]
  · have : ¬ (id, b) = x := fun hc => hx hc.symm
    simp [hx, this]

theorem remove_length {m : Map} {id b} (hk : m.Keys) (h : (id, b) ∈ m) : (m.remove id).length + 1 = m.length := by
  rw [(remove_perm hk h).length_eq, List.length_cons]

theorem remove_bytes {m : Map} {id b} (hk : m.Keys) (h : (id, b) ∈ m) : (m.remove id).bytes + b.size = m.bytes := by
  have := (remove_perm hk h).map (fun p : Nat × Bundle => p.2.size)
  simp only [Map.bytes]
  rw [this.sum_nat, List.map_cons, List.sum_cons]
  exact Nat.add_comm _ _

theorem bytes_append (m : Map) (id : Nat) (b : Bundle) : Map.bytes (m ++ [(id, b)]) = m.bytes + b.size := by
  simp [Map.bytes]

theorem remove_mem {m : Map} {id : Nat} {p : Nat × Bundle} (h : p ∈ m.remove id) : p ∈ m :=
  (remove_sublist m id).subset h

theorem remove_none {m : Map} {id : Nat} (h : m.lookup id = none) : m.remove id = m := by
  refine List.eraseP_of_forall_not ?_
  intro p hp hc
  have : p.1 = id := by simpa using hc
  exact lookup_none.1 h p.2 (by rw [← this]; exact hp)

end Hdtn.Node
