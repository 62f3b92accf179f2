import Verif.Catalog.Spec

namespace Hdtn.Catalog

open Hdtn.HashMap16

theorem prioritiesOf_set (c : Catalog) (d : Eid) (p : Nat) (m : Expirations) (d' : Eid) (p' : Nat) :
    (c.setExpirations d p m).prioritiesOf d' p' =
      if d' = d ∧ p' = p then m else c.prioritiesOf d' p' := by
  simp only [Catalog.prioritiesOf, Catalog.setExpirations, OrdMap.lookup_upsert]
  by_cases hd : d' = d
  · subst hd
    by_cases hp : p' = p
    · subst hp; simp
    · simp [hp]
  · simp [hd]

theorem waiting_eq (c : Catalog) (d : Eid) (p x : Nat) :
    c.waiting d p x = queueAt (c.prioritiesOf d p) x := by
  unfold Catalog.waiting Catalog.prioritiesOf
  cases OrdMap.lookup c.dests d <;> rfl

/-- The maps are ordered, hold no empty queue, use priorities below 3 and expirations below the
largest 64-bit number. -/
structure Catalog.WF (c : Catalog) : Prop where
  dsorted : OrdMap.Sorted Eid.lt c.dests
  sorted : ∀ d p, OrdMap.Sorted natLt (c.prioritiesOf d p)
  good : ∀ d p x q, (x, q) ∈ c.prioritiesOf d p → q ≠ [] ∧ x < 2 ^ 64 - 1 ∧ p < 3

theorem empty_wf : Catalog.empty.WF :=
  ⟨OrdMap.sorted_nil, fun _ _ => OrdMap.sorted_nil,
   fun d p x q h => absurd h (by simp [Catalog.empty, Catalog.prioritiesOf, OrdMap.lookup])⟩

theorem Catalog.WF.mem_iff {c : Catalog} (h : c.WF) {d : Eid} {p x : Nat} {q : List Nat}
    (hq : q ≠ []) : (x, q) ∈ c.prioritiesOf d p ↔ c.waiting d p x = q := by
  rw [waiting_eq, OrdMap.mem_iff natLt_strict (h.sorted d p), queueAt]
  cases OrdMap.lookup (c.prioritiesOf d p) x with
  | none => simpa using hq.symm
  | some q' => simp

theorem set_wf (c : Catalog) (h : c.WF) (d : Eid) (p : Nat) (m : Expirations)
    (hs : OrdMap.Sorted natLt m)
    (hg : ∀ x q, (x, q) ∈ m → q ≠ [] ∧ x < 2 ^ 64 - 1 ∧ p < 3) :
    (c.setExpirations d p m).WF := by
  refine ⟨OrdMap.sorted_upsert Eid.lt_strict _ _ _ h.dsorted, fun d' p' => ?_, fun d' p' x q hq => ?_⟩
  · rw [prioritiesOf_set]; split
    · exact hs
    · exact h.sorted d' p'
  · rw [prioritiesOf_set] at hq
    split at hq
    · rename_i he; rw [he.2]; exact hg x q hq
    · exact h.good d' p' x q hq

/-- Replace one queue, erasing it from the map when it becomes empty. -/
def newMap (m : Expirations) (x : Nat) (q : List Nat) : Expirations :=
  if q = [] then OrdMap.erase x m else OrdMap.upsert natLt x q m

theorem newMap_lookup (m : Expirations) (x : Nat) (q : List Nat) (x' : Nat) :
    queueAt (newMap m x q) x' = if x' = x then q else queueAt m x' := by
  unfold newMap queueAt
  by_cases hq : q = []
  · rw [if_pos hq, OrdMap.lookup_erase, hq]
    by_cases hx : x' = x <;> simp [hx]
  · rw [if_neg hq, OrdMap.lookup_upsert]
    by_cases hx : x' = x <;> simp [hx]

theorem set_newMap (c : Catalog) (h : c.WF) (d : Eid) (p x : Nat) (q : List Nat)
    (hx : x < 2 ^ 64 - 1) (hp : p < 3) :
    (c.setExpirations d p (newMap (c.prioritiesOf d p) x q)).WF ∧
      (c.setExpirations d p (newMap (c.prioritiesOf d p) x q)).waiting =
        updQueue c.waiting d p x q := by
  constructor
  · refine set_wf c h d p _ ?_ ?_
    · unfold newMap; split
      · exact OrdMap.sorted_erase _ _ (h.sorted d p)
      · exact OrdMap.sorted_upsert natLt_strict _ _ _ (h.sorted d p)
    · intro x' q' hq'
      unfold newMap at hq'
      split at hq'
      · exact h.good d p x' q' (List.mem_filter.1 hq').1
      · rename_i hne
        rcases OrdMap.mem_upsert hq' with he | he
        · simp only [Prod.mk.injEq] at he
          rw [he.1, he.2]; exact ⟨hne, hx, hp⟩
        · exact h.good d p x' q' he
  · funext d' p' x'
    rw [waiting_eq, prioritiesOf_set]
    unfold updQueue
    by_cases hd : d' = d ∧ p' = p
    · rw [if_pos hd, newMap_lookup]
      obtain ⟨rfl, rfl⟩ := hd
      by_cases hx' : x' = x
      · simp [hx']
      · simp only [hx', and_false, if_false, waiting_eq]
    · rw [if_neg hd, if_neg (fun h' => hd ⟨h'.1, h'.2.1⟩), waiting_eq]

/-! The packed word. -/

theorem shl4_testBit (x i : Nat) (hi : i < 4) : Nat.testBit ((x <<< 4) % U64) i = false := by
  have : U64 = 2 ^ 64 := rfl
  rw [this, Nat.testBit_mod_two_pow, Nat.testBit_shiftLeft]
  have : ¬ i ≥ 4 := by omega
  simp [this]

theorem and_pow_ne_zero (n i : Nat) : ((n &&& 2 ^ i) != 0) = n.testBit i := by
  rw [Nat.testBit, Nat.and_comm]
  rw [Nat.and_comm, Nat.shiftRight_eq_div_pow, ← Nat.shiftRight_eq_div_pow]
  by_cases h : n.testBit i
  · have h2 : n &&& 2 ^ i ≠ 0 := by
      intro h0
      have := congrArg (fun m => m.testBit i) h0
      simp [Nat.testBit_and, Nat.testBit_two_pow_self, h] at this
    rw [Nat.testBit] at h
    rw [h]; simpa using h2
  · have h2 : n &&& 2 ^ i = 0 := by
      apply Nat.eq_of_testBit_eq
      intro j
      simp only [Nat.testBit_and, Nat.zero_testBit, Nat.testBit_two_pow]
      by_cases hj : i = j
      · subst hj; simp [h]
      · simp [hj]
    have h3 : (1 &&& n >>> i != 0) = false := by
      have := h; rw [Nat.testBit] at this; simpa using this
    rw [h2, h3]; rfl

theorem encode_bits (p : Primary) (hp : p.priority < 4) :
    (encode p &&& 4 != 0) = (p.custody && p.fragment) ∧
      (encode p &&& 8 != 0) = (p.custody && !p.fragment) := by
  have e4 : (4 : Nat) = 2 ^ 2 := rfl
  have e8 : (8 : Nat) = 2 ^ 3 := rfl
  rw [e4, e8, and_pow_ne_zero, and_pow_ne_zero]
  have hp2 : p.priority.testBit 2 = false := Nat.testBit_lt_two_pow (by omega)
  have hp3 : p.priority.testBit 3 = false := Nat.testBit_lt_two_pow (by omega)
  have s2 := shl4_testBit p.expiration 2 (by decide)
  have s3 := shl4_testBit p.expiration 3 (by decide)
  unfold encode
  cases p.custody <;> cases p.fragment <;>
    simp only [Bool.false_eq_true, if_false, if_true, Nat.testBit_or, hp2, hp3, s2, s3] <;> decide

theorem encode_lt (p : Primary) (hp : p.priority < 4) : encode p < 2 ^ 64 := by
  have h1 : (p.expiration <<< 4) % U64 < 2 ^ 64 := Nat.mod_lt _ (by decide)
  have h2 : p.priority ||| (p.expiration <<< 4) % U64 < 2 ^ 64 := Nat.or_lt_two_pow (by omega) h1
  unfold encode
  split
  · split
    · exact Nat.or_lt_two_pow h2 (by decide)
    · exact Nat.or_lt_two_pow h2 (by decide)
  · exact h2

theorem encode_priority (p : Primary) (hp : p.priority < 4) : encode p &&& 3 = p.priority := by
  apply Nat.eq_of_testBit_eq
  intro i
  have e3 : (3 : Nat) = 2 ^ 2 - 1 := rfl
  rw [Nat.testBit_and, e3, Nat.testBit_two_pow_sub_one]
  by_cases hi : i < 2
  · have s := shl4_testBit p.expiration i (by omega)
    have t4 : Nat.testBit 4 i = false := by interval_cases i <;> rfl
    have t8 : Nat.testBit 8 i = false := by interval_cases i <;> rfl
    unfold encode
    cases p.custody <;> cases p.fragment <;>
      simp only [Bool.false_eq_true, if_false, if_true, Nat.testBit_or, s, t4, t8] <;> simp [hi]
  · have : p.priority.testBit i = false := Nat.testBit_lt_two_pow
      (Nat.lt_of_lt_of_le hp (show (2 : Nat) ^ 2 ≤ 2 ^ i from Nat.pow_le_pow_right (by decide) (by omega)))
    simp [hi, this]

theorem encode_expiration (p : Primary) (hp : p.priority < 4) :
    encode p >>> 4 = p.expiration % 2 ^ 60 := by
  apply Nat.eq_of_testBit_eq
  intro i
  rw [Nat.testBit_shiftRight, Nat.testBit_mod_two_pow]
  have hpb : p.priority.testBit (4 + i) = false := Nat.testBit_lt_two_pow
      (Nat.lt_of_lt_of_le hp (show (2 : Nat) ^ 2 ≤ 2 ^ (4 + i) from Nat.pow_le_pow_right (by decide) (by omega)))
  have hb4 : Nat.testBit 4 (4 + i) = false := Nat.testBit_lt_two_pow
      (Nat.lt_of_lt_of_le (show 4 < 2 ^ 4 by decide) (Nat.pow_le_pow_right (by decide) (by omega)))
  have hb8 : Nat.testBit 8 (4 + i) = false := Nat.testBit_lt_two_pow
      (Nat.lt_of_lt_of_le (show 8 < 2 ^ 4 by decide) (Nat.pow_le_pow_right (by decide) (by omega)))
  have hs : Nat.testBit ((p.expiration <<< 4) % U64) (4 + i) =
      (decide (i < 60) && p.expiration.testBit i) := by
    have : U64 = 2 ^ 64 := rfl
    rw [this, Nat.testBit_mod_two_pow, Nat.testBit_shiftLeft]
    have h1 : (4 + i - 4) = i := by omega
    have h2 : 4 + i ≥ 4 := by omega
    rw [h1]
    simp only [h2, decide_true, Bool.true_and]
    congr 1
    simp only [decide_eq_decide]; omega
  unfold encode
  cases p.custody <;> cases p.fragment <;>
    simp only [Bool.false_eq_true, if_false, if_true, Nat.testBit_or, hpb, hb4, hb8, hs] <;> simp

/-! Waiting bundles: adding. -/

theorem expiration_lt (e : Entry) (h : e.enc < 2 ^ 64) : e.expiration < 2 ^ 64 - 1 := by
  unfold Entry.expiration
  rw [Nat.shiftRight_eq_div_pow]
  omega

theorem addAwaiting_fifo (c : Catalog) (e : Entry) (id : Nat) (hp : e.priority < 3) :
    c.addAwaiting e id .fifo = some (c.setExpirations e.dest e.priority
      (newMap (c.prioritiesOf e.dest e.priority) e.expiration
        (c.waiting e.dest e.priority e.expiration ++ [id])), true) := by
  unfold Catalog.addAwaiting newMap
  rw [if_pos hp, if_neg (by simp), waiting_eq]
  simp only [queueAt]
  cases OrdMap.lookup (c.prioritiesOf e.dest e.priority) e.expiration <;> rfl

theorem addAwaiting_filo (c : Catalog) (e : Entry) (id : Nat) (hp : e.priority < 3) :
    c.addAwaiting e id .filo = some (c.setExpirations e.dest e.priority
      (newMap (c.prioritiesOf e.dest e.priority) e.expiration
        (id :: c.waiting e.dest e.priority e.expiration)), true) := by
  unfold Catalog.addAwaiting newMap
  rw [if_pos hp, if_neg (by simp), waiting_eq]
  simp only [queueAt]
  cases OrdMap.lookup (c.prioritiesOf e.dest e.priority) e.expiration <;> rfl

theorem removeAwaiting_eq (c : Catalog) (e : Entry) (id : Nat) (hp : e.priority < 3)
    (hin : id ∈ c.waiting e.dest e.priority e.expiration) :
    c.removeAwaiting e id = some (c.setExpirations e.dest e.priority
      (newMap (c.prioritiesOf e.dest e.priority) e.expiration
        ((c.waiting e.dest e.priority e.expiration).erase id)), true) := by
  unfold Catalog.removeAwaiting
  unfold Catalog.waiting at hin ⊢
  unfold Catalog.prioritiesOf
  cases hl : OrdMap.lookup c.dests e.dest with
  | none => rw [hl] at hin; simp at hin
  | some a =>
    rw [hl] at hin
    simp only at hin ⊢
    rw [if_pos hp]
    unfold queueAt at hin ⊢
    cases hq : OrdMap.lookup (a e.priority) e.expiration with
    | none => rw [hq] at hin; simp at hin
    | some q =>
      rw [hq] at hin
      simp only at hin ⊢
      simp only [hin, decide_true]
      rfl

/-! Taking. -/

theorem head_min {m : Expirations} (h : OrdMap.Sorted natLt m) {x : Nat} {q : List Nat}
    (hh : m.head? = some (x, q)) {x' : Nat} {q' : List Nat} (hm : (x', q') ∈ m) : x ≤ x' := by
  cases m with
  | nil => simp at hh
  | cons a m =>
    simp only [List.head?_cons, Option.some.injEq] at hh
    subst hh
    rw [OrdMap.sorted_cons] at h
    rcases List.mem_cons.1 hm with he | he
    · simp only [Prod.mk.injEq] at he; omega
    · have := h.1 _ he
      simp only [natLt, decide_eq_true_eq] at this
      omega

theorem fold_spec (c : Catalog) (p : Nat) (ds : List Eid) (best : Nat × Option (Eid × List Nat)) :
    (ds.foldl (c.better p) best = best ∧
      ∀ d ∈ ds, ∀ x q, (c.prioritiesOf d p).head? = some (x, q) → best.1 ≤ x) ∨
    ∃ d ∈ ds, ∃ x q, ds.foldl (c.better p) best = (x, some (d, q)) ∧
      (c.prioritiesOf d p).head? = some (x, q) ∧ x < best.1 ∧
      ∀ d' ∈ ds, ∀ x' q', (c.prioritiesOf d' p).head? = some (x', q') → x ≤ x' := by
  induction ds generalizing best with
  | nil => left; exact ⟨rfl, by simp⟩
  | cons d ds ih =>
    rw [List.foldl_cons]
    unfold Catalog.better
    cases hh : (c.prioritiesOf d p).head? with
    | none =>
      simp only
      rcases ih best with ⟨h1, h2⟩ | ⟨d', hd', x, q, h1, h2, h3, h4⟩
      · left
        refine ⟨h1, fun d' hd' x q hq => ?_⟩
        rcases List.mem_cons.1 hd' with rfl | hd'
        · rw [hh] at hq; simp at hq
        · exact h2 d' hd' x q hq
      · right
        refine ⟨d', by simp [hd'], x, q, h1, h2, h3, fun d2 hd2 x' q' hq => ?_⟩
        rcases List.mem_cons.1 hd2 with rfl | hd2
        · rw [hh] at hq; simp at hq
        · exact h4 d2 hd2 x' q' hq
    | some r =>
      obtain ⟨x0, q0⟩ := r
      simp only
      by_cases hlt : best.1 > x0
      · rw [if_pos hlt]
        rcases ih (x0, some (d, q0)) with ⟨h1, h2⟩ | ⟨d', hd', x, q, h1, h2, h3, h4⟩
        · right
          refine ⟨d, by simp, x0, q0, h1, hh, hlt, fun d2 hd2 x' q' hq => ?_⟩
          rcases List.mem_cons.1 hd2 with rfl | hd2
          · rw [hh] at hq; simp only [Option.some.injEq, Prod.mk.injEq] at hq; omega
          · exact h2 d2 hd2 x' q' hq
        · right
          simp only at h3
          refine ⟨d', by simp [hd'], x, q, h1, h2, by omega, fun d2 hd2 x' q' hq => ?_⟩
          rcases List.mem_cons.1 hd2 with rfl | hd2
          · rw [hh] at hq; simp only [Option.some.injEq, Prod.mk.injEq] at hq; omega
          · exact h4 d2 hd2 x' q' hq
      · rw [if_neg hlt]
        rcases ih best with ⟨h1, h2⟩ | ⟨d', hd', x, q, h1, h2, h3, h4⟩
        · left
          refine ⟨h1, fun d' hd' x q hq => ?_⟩
          rcases List.mem_cons.1 hd' with rfl | hd'
          · rw [hh] at hq; simp only [Option.some.injEq, Prod.mk.injEq] at hq; omega
          · exact h2 d' hd' x q hq
        · right
          refine ⟨d', by simp [hd'], x, q, h1, h2, h3, fun d2 hd2 x' q' hq => ?_⟩
          rcases List.mem_cons.1 hd2 with rfl | hd2
          · rw [hh] at hq; simp only [Option.some.injEq, Prod.mk.injEq] at hq; omega
          · exact h4 d2 hd2 x' q' hq

theorem popLoop_spec (c : Catalog) (h : c.WF) (ds : List Eid) (ps : List Nat) :
    (c.popLoop ds ps = .nothing ∧ ∀ p ∈ ps, ∀ d ∈ ds, ∀ x, c.waiting d p x = []) ∨
    ∃ pre p post d x id rest, ps = pre ++ p :: post ∧ d ∈ ds ∧
      (∀ p' ∈ pre, ∀ d ∈ ds, ∀ x, c.waiting d p' x = []) ∧
      c.waiting d p x = id :: rest ∧
      (∀ d' ∈ ds, ∀ x', c.waiting d' p x' ≠ [] → x ≤ x') ∧
      c.popLoop ds ps = .taken id (c.entry id)
        (c.setExpirations d p (newMap (c.prioritiesOf d p) x rest)) := by
  have hempty : ∀ d p, (c.prioritiesOf d p).head? = none → ∀ x, c.waiting d p x = [] := by
    intro d p hn x
    rw [List.head?_eq_none_iff] at hn
    rw [waiting_eq, hn]; rfl
  have hhead : ∀ d p x q, (c.prioritiesOf d p).head? = some (x, q) →
      c.waiting d p x = q ∧ q ≠ [] ∧ x < 2 ^ 64 - 1 ∧ ∀ x', c.waiting d p x' ≠ [] → x ≤ x' := by
    intro d p x q hh
    have hm := List.mem_of_mem_head? hh
    obtain ⟨g1, g2, g3⟩ := h.good d p x q hm
    refine ⟨(h.mem_iff g1).1 hm, g1, g2, fun x' hx' => ?_⟩
    exact head_min (h.sorted d p) hh ((h.mem_iff hx').2 rfl)
  induction ps with
  | nil => left; exact ⟨rfl, by simp⟩
  | cons p ps ih =>
    rw [Catalog.popLoop]
    rcases fold_spec c p ds (U64 - 1, none) with ⟨h1, h2⟩ | ⟨d, hd, x, q, h1, h2, h3, h4⟩
    · rw [h1]
      simp only
      have hall : ∀ d ∈ ds, ∀ x, c.waiting d p x = [] := by
        intro d hd x
        cases hh : (c.prioritiesOf d p).head? with
        | none => exact hempty d p hh x
        | some r =>
          obtain ⟨x0, q0⟩ := r
          have := h2 d hd x0 q0 hh
          have h64 := (hhead d p x0 q0 hh).2.2.1
          simp only [U64] at this
          omega
      rcases ih with ⟨h3, h4⟩ | ⟨pre, p', post, d, x, id, rest, h3, h4, h5, h6, h7, h8⟩
      · left
        refine ⟨h3, fun p' hp' => ?_⟩
        rcases List.mem_cons.1 hp' with rfl | hp'
        · exact hall
        · exact h4 p' hp'
      · right
        refine ⟨p :: pre, p', post, d, x, id, rest, by rw [h3]; rfl, h4, fun p2 hp2 => ?_, h6, h7, h8⟩
        rcases List.mem_cons.1 hp2 with rfl | hp2
        · exact hall
        · exact h5 p2 hp2
    · right
      rw [h1]
      simp only
      obtain ⟨g1, g2, g3, g4⟩ := hhead d p x q h2
      cases q with
      | nil => exact absurd rfl g2
      | cons id rest =>
        refine ⟨[], p, ps, d, x, id, rest, rfl, hd, by simp, g1, fun d' hd' x' hx' => ?_, rfl⟩
        cases hh : (c.prioritiesOf d' p).head? with
        | none => exact absurd (hempty d' p hh x') hx'
        | some r =>
          obtain ⟨x0, q0⟩ := r
          have := h4 d' hd' x0 q0 hh
          have := (hhead d' p x0 q0 hh).2.2.2 x' hx'
          omega

/-! The destinations gone through. -/

theorem mem_ofNode_aux (n : Nat) (l : List Eid) (h : l.Pairwise fun a b => a.lt b = true) (d : Eid) :
    d ∈ ((l.dropWhile fun d => d.lt ⟨n, 0⟩).takeWhile fun d => d.node = n) ↔ d ∈ l ∧ d.node = n := by
  have hlt : ∀ e : Eid, e.lt ⟨n, 0⟩ = true ↔ e.node < n := by
    intro e; unfold Eid.lt
    split
    · rename_i hh; simp only at hh; simp; omega
    · simp
  have hle : ∀ a b : Eid, a.lt b = true → a.node ≤ b.node := by
    intro a b; unfold Eid.lt
    split
    · omega
    · simp; omega
  have htake : ∀ l : List Eid, (l.Pairwise fun a b => a.lt b = true) → (∀ e ∈ l, n ≤ e.node) →
      ∀ d, d ∈ (l.takeWhile fun d => d.node = n) ↔ d ∈ l ∧ d.node = n := by
    intro l
    induction l with
    | nil => simp
    | cons e l ih =>
      intro hp hn d
      rw [List.pairwise_cons] at hp
      by_cases he : e.node = n
      · rw [List.takeWhile_cons_of_pos (by simpa using he), List.mem_cons, List.mem_cons,
          ih hp.2 (fun e' h' => hn e' (by simp [h']))]
        constructor
        · rintro (rfl | h)
          · exact ⟨Or.inl rfl, he⟩
          · exact ⟨Or.inr h.1, h.2⟩
        · rintro ⟨rfl | h, h2⟩
          · exact Or.inl rfl
          · exact Or.inr ⟨h, h2⟩
      · rw [List.takeWhile_cons_of_neg (by simpa using he)]
        simp only [List.not_mem_nil, false_iff, not_and, List.mem_cons]
        rintro (rfl | hm)
        · exact he
        · have h1 := hle _ _ (hp.1 d hm)
          have h2 := hn e (by simp)
          omega
  induction l with
  | nil => simp
  | cons e l ih =>
    rw [List.pairwise_cons] at h
    by_cases he : e.node < n
    · rw [List.dropWhile_cons_of_pos (by rw [hlt]; exact he)]
      refine (ih h.2).trans ?_
      rw [List.mem_cons]
      constructor
      · rintro ⟨h1, h2⟩; exact ⟨Or.inr h1, h2⟩
      · rintro ⟨rfl | h1, h2⟩
        · omega
        · exact ⟨h1, h2⟩
    · rw [List.dropWhile_cons_of_neg (by rw [hlt]; exact he)]
      refine htake _ (List.pairwise_cons.2 h) (fun e' h' => ?_) d
      rcases List.mem_cons.1 h' with rfl | h'
      · omega
      · have := hle _ _ (h.1 e' h'); omega

theorem mem_keys (c : Catalog) (d : Eid) :
    d ∈ c.dests.map (·.1) ↔ (OrdMap.lookup c.dests d).isSome = true := by
  constructor
  · intro h
    cases hl : OrdMap.lookup c.dests d with
    | some a => rfl
    | none =>
      obtain ⟨⟨d', a⟩, h1, h2⟩ := List.mem_map.1 h
      simp only at h2
      subst h2
      exact absurd h1 (OrdMap.lookup_none.1 hl a)
  · intro h
    rw [Option.isSome_iff_exists] at h
    obtain ⟨a, ha⟩ := h
    exact List.mem_map.2 ⟨(d, a), OrdMap.lookup_some_mem ha, rfl⟩

theorem mem_ofNode (c : Catalog) (h : c.WF) (n : Nat) (d : Eid) :
    d ∈ c.ofNode n ↔ (OrdMap.lookup c.dests d).isSome = true ∧ d.node = n := by
  rw [← mem_keys]
  refine mem_ofNode_aux n _ ?_ d
  rw [List.pairwise_map]
  exact h.dsorted

theorem mem_select (c : Catalog) (h : c.WF) (sel : Selection) (d : Eid) :
    d ∈ c.select sel ↔ sel.Accepts d ∧ (OrdMap.lookup c.dests d).isSome = true := by
  cases sel with
  | eids l => simp [Catalog.select, Catalog.byEid, Selection.Accepts]
  | nodes l =>
    simp only [Catalog.select, Catalog.byNode, Selection.Accepts, List.mem_flatMap, mem_ofNode c h]
    constructor
    · rintro ⟨n, h1, h2, rfl⟩; exact ⟨h1, h2⟩
    · rintro ⟨h1, h2⟩; exact ⟨d.node, h1, h2, rfl⟩
  | wildcard l =>
    simp only [Catalog.select, Catalog.byWildcard, Selection.Accepts, List.mem_flatMap]
    constructor
    · rintro ⟨⟨q, w⟩, h1, h2⟩
      cases w with
      | true =>
        simp only [if_true, mem_ofNode c h] at h2
        exact ⟨⟨(q, true), h1, by simp [h2.2]⟩, h2.1⟩
      | false =>
        simp only [Bool.false_eq_true, if_false] at h2
        split at h2
        · rename_i hs
          simp only [List.mem_singleton] at h2
          subst h2
          exact ⟨⟨(d, false), h1, by simp⟩, hs⟩
        · simp at h2
    · rintro ⟨⟨⟨q, w⟩, h1, h2⟩, h3⟩
      refine ⟨(q, w), h1, ?_⟩
      cases w with
      | true =>
        simp only [if_true] at h2 ⊢
        exact (mem_ofNode c h _ d).2 ⟨h3, h2.symm⟩
      | false =>
        simp only [Bool.false_eq_true, if_false] at h2 ⊢
        subst h2
        simp [h3]

theorem waiting_absent (c : Catalog) (d : Eid) (p x : Nat)
    (h : (OrdMap.lookup c.dests d).isSome = false) : c.waiting d p x = [] := by
  unfold Catalog.waiting
  cases hl : OrdMap.lookup c.dests d with
  | none => rfl
  | some a => rw [hl] at h; simp at h

end Hdtn.Catalog
