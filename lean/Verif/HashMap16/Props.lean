import Verif.HashMap16.Model

/-!
Property C24: the fixed-size hash map is a finite map.
-/

namespace Hdtn.HashMap16

variable {κ ν : Type} [DecidableEq κ]

/-- Every bucket is in increasing key order and holds only keys with its own hash. -/
structure Table.WF (lt : κ → κ → Bool) (hash : κ → Nat) (t : Table κ ν) : Prop where
  sorted : ∀ i, OrdMap.Sorted lt (t.buckets i)
  placed : ∀ i, ∀ p ∈ t.buckets i, hash p.1 = i

variable {lt : κ → κ → Bool} {hash : κ → Nat}

theorem getLoop_eq (hlt : StrictTotal lt) (key : κ) (b : List (κ × ν)) (h : OrdMap.Sorted lt b) :
    getLoop lt key b = OrdMap.lookup b key := by
  induction b with
  | nil => rfl
  | cons p b ih =>
    obtain ⟨k, v⟩ := p
    rw [OrdMap.sorted_cons] at h
    rw [getLoop, OrdMap.lookup]
    split
    · rename_i hl
      rw [if_neg (fun h' => hlt.ne hl h'.symm)]
      refine (OrdMap.lookup_none.2 fun v hv => ?_).symm
      exact hlt.ne (hlt.trans _ _ _ hl (h.1 _ hv)) rfl
    · rename_i hl
      split
      · rename_i hg
        rw [if_neg (hlt.ne hg), ih h.2]
      · rename_i hg
        rw [if_pos (hlt.total k key (by simpa using hg) (by simpa using hl))]

theorem insertLoop_eq (hlt : StrictTotal lt) (key : κ) (value : ν) (b : List (κ × ν))
    (h : OrdMap.Sorted lt b) :
    insertLoop lt key value b =
      if (OrdMap.lookup b key).isSome then none else some (OrdMap.upsert lt key value b) := by
  induction b with
  | nil => rfl
  | cons p b ih =>
    obtain ⟨k, v⟩ := p
    have hs := h
    rw [OrdMap.sorted_cons] at h
    rw [insertLoop, OrdMap.lookup, OrdMap.upsert]
    split
    · rename_i hl
      have hne : k ≠ key := fun h' => hlt.ne hl h'.symm
      have hnone : OrdMap.lookup b key = none :=
        OrdMap.lookup_none.2 fun v hv => hlt.ne (hlt.trans _ _ _ hl (h.1 _ hv)) rfl
      simp [hne, hnone]
    · rename_i hl
      split
      · rename_i hg
        have hne := hlt.ne hg
        rw [ih h.2]
        simp only [hne, if_false]
        split <;> simp
      · rename_i hg
        have := hlt.total k key (by simpa using hg) (by simpa using hl)
        simp [this]

theorem removeLoop_eq (hlt : StrictTotal lt) (key : κ) (b : List (κ × ν))
    (h : OrdMap.Sorted lt b) :
    removeLoop lt key b = (OrdMap.lookup b key).map fun v => (v, OrdMap.erase key b) := by
  induction b with
  | nil => rfl
  | cons p b ih =>
    obtain ⟨k, v⟩ := p
    rw [OrdMap.sorted_cons] at h
    rw [removeLoop, OrdMap.lookup]
    split
    · rename_i hl
      have hne : k ≠ key := fun h' => hlt.ne hl h'.symm
      have hnone : OrdMap.lookup b key = none :=
        OrdMap.lookup_none.2 fun v hv => hlt.ne (hlt.trans _ _ _ hl (h.1 _ hv)) rfl
      simp [hne, hnone]
    · rename_i hl
      split
      · rename_i hg
        have hne := hlt.ne hg
        rw [ih h.2]
        simp only [hne, if_false, Option.map_map]
        congr 1
        funext v'
        simp [OrdMap.erase, List.filter_cons, hne]
      · rename_i hg
        have he := hlt.total k key (by simpa using hg) (by simpa using hl)
        subst he
        simp only [if_true, Option.map_some, Option.some.injEq, Prod.mk.injEq, true_and]
        simp only [OrdMap.erase, List.filter_cons, ne_eq, not_true_eq_false, decide_false,
          Bool.false_eq_true, if_false]
        symm
        rw [List.filter_eq_self]
        intro q hq
        simpa using fun h' : q.1 = k => hlt.ne (h.1 q hq) h'.symm

theorem modifyLoop_eq (hlt : StrictTotal lt) (key : κ) (value : ν) (b : List (κ × ν))
    (h : OrdMap.Sorted lt b) :
    modifyLoop lt key value b =
      if (OrdMap.lookup b key).isSome then OrdMap.upsert lt key value b else b := by
  induction b with
  | nil => rfl
  | cons p b ih =>
    obtain ⟨k, v⟩ := p
    rw [OrdMap.sorted_cons] at h
    rw [modifyLoop, OrdMap.lookup, OrdMap.upsert]
    split
    · rename_i hl
      have hne : k ≠ key := fun h' => hlt.ne hl h'.symm
      have hnone : OrdMap.lookup b key = none :=
        OrdMap.lookup_none.2 fun v hv => hlt.ne (hlt.trans _ _ _ hl (h.1 _ hv)) rfl
      simp [hne, hnone]
    · rename_i hl
      split
      · rename_i hg
        have hne := hlt.ne hg
        rw [ih h.2]
        simp only [hne, if_false]
        split <;> simp_all
      · rename_i hg
        have := hlt.total k key (by simpa using hg) (by simpa using hl)
        simp [this]

theorem empty_wf : (Table.empty : Table κ ν).WF lt hash :=
  ⟨fun _ => OrdMap.sorted_nil, fun _ p h => absurd h (by simp [Table.empty])⟩

theorem get_empty (k : κ) : (Table.empty : Table κ ν).get lt hash k = none := rfl

theorem setBucket_wf (t : Table κ ν) (h : t.WF lt hash) (i : Nat) (b : List (κ × ν))
    (hs : OrdMap.Sorted lt b) (hp : ∀ p ∈ b, hash p.1 = i) : (t.setBucket i b).WF lt hash := by
  refine ⟨fun j => ?_, fun j p hj => ?_⟩
  · simp only [Table.setBucket]; split
    · exact hs
    · exact h.sorted j
  · simp only [Table.setBucket] at hj
    split at hj
    · rename_i he; rw [he]; exact hp p hj
    · exact h.placed j p hj

theorem get_eq (hlt : StrictTotal lt) (t : Table κ ν) (h : t.WF lt hash) (k : κ) :
    t.get lt hash k = OrdMap.lookup (t.buckets (hash k)) k := getLoop_eq hlt k _ (h.sorted _)

/-- Replacing the bucket of `key` by one that differs from it only at `key`. -/
theorem get_setBucket (hlt : StrictTotal lt) (t : Table κ ν) (h : t.WF lt hash) (key : κ)
    (b : List (κ × ν)) (hb : (t.setBucket (hash key) b).WF lt hash) (r : Option ν)
    (hl : ∀ k, OrdMap.lookup b k = if k = key then r else OrdMap.lookup (t.buckets (hash key)) k)
    (k : κ) : (t.setBucket (hash key) b).get lt hash k = if k = key then r else t.get lt hash k := by
  rw [get_eq hlt _ hb, get_eq hlt _ h]
  simp only [Table.setBucket]
  split
  · rename_i he
    rw [hl k, he]
  · rename_i he
    rw [if_neg (fun h' => he (by rw [h']))]

theorem insert_spec (hlt : StrictTotal lt) (t : Table κ ν) (h : t.WF lt hash) (key : κ) (value : ν) :
    (t.insert lt hash key value = none ↔ (t.get lt hash key).isSome = true) ∧
    ∀ t', t.insert lt hash key value = some t' → t'.WF lt hash ∧
      ∀ k, t'.get lt hash k = if k = key then some value else t.get lt hash k := by
  have hg := get_eq hlt t h key
  rw [Table.insert, insertLoop_eq hlt key value _ (h.sorted _), hg]
  constructor
  · split <;> simp_all
  · intro t' ht
    split at ht
    · simp at ht
    · simp only [Option.map_some, Option.some.injEq] at ht
      subst ht
      have hwf := setBucket_wf t h (hash key) (OrdMap.upsert lt key value (t.buckets (hash key)))
        (OrdMap.sorted_upsert hlt _ _ _ (h.sorted _)) (by
          intro p hp
          rcases OrdMap.mem_upsert hp with rfl | hp
          · rfl
          · exact h.placed _ p hp)
      exact ⟨hwf, get_setBucket hlt t h key _ hwf _ fun k => OrdMap.lookup_upsert _ _ _ _⟩

theorem remove_spec (hlt : StrictTotal lt) (t : Table κ ν) (h : t.WF lt hash) (key : κ) :
    ((t.remove lt hash key).map (·.1) = t.get lt hash key) ∧
    ∀ v t', t.remove lt hash key = some (v, t') → t'.WF lt hash ∧
      ∀ k, t'.get lt hash k = if k = key then none else t.get lt hash k := by
  have hg := get_eq hlt t h key
  rw [Table.remove, removeLoop_eq hlt key _ (h.sorted _), hg]
  constructor
  · cases OrdMap.lookup (t.buckets (hash key)) key <;> simp
  · intro v t' ht
    simp only [Option.map_map, Option.map_eq_some_iff, Function.comp, Prod.mk.injEq] at ht
    obtain ⟨v', _, rfl, rfl⟩ := ht
    have hwf := setBucket_wf t h (hash key) (OrdMap.erase key (t.buckets (hash key)))
      (OrdMap.sorted_erase _ _ (h.sorted _)) (fun p hp => h.placed _ p (List.mem_filter.1 hp).1)
    exact ⟨hwf, get_setBucket hlt t h key _ hwf _ fun k => OrdMap.lookup_erase _ _ _⟩

theorem modify_spec (hlt : StrictTotal lt) (t : Table κ ν) (h : t.WF lt hash) (key : κ) (value : ν)
    (hk : (t.get lt hash key).isSome = true) : (t.modify lt hash key value).WF lt hash ∧
      ∀ k, (t.modify lt hash key value).get lt hash k =
        if k = key then some value else t.get lt hash k := by
  have hg := get_eq hlt t h key
  rw [hg] at hk
  rw [Table.modify, modifyLoop_eq hlt key value _ (h.sorted _), if_pos hk]
  have hwf := setBucket_wf t h (hash key) (OrdMap.upsert lt key value (t.buckets (hash key)))
    (OrdMap.sorted_upsert hlt _ _ _ (h.sorted _)) (by
      intro p hp
      rcases OrdMap.mem_upsert hp with rfl | hp
      · rfl
      · exact h.placed _ p hp)
  exact ⟨hwf, get_setBucket hlt t h key _ hwf _ fun k => OrdMap.lookup_upsert _ _ _ _⟩

/-! The specification: operations on a finite map, given as a function. -/

/-- An operation of the table. -/
inductive Op (κ ν : Type) where
  | insert (key : κ) (value : ν)
  | remove (key : κ)
  | clear

/-- What the operation does to a map, and its answer: whether the insertion was accepted, and the
value removed. -/
def Op.spec (m : κ → Option ν) : Op κ ν → (κ → Option ν) × Option ν × Bool
  | .insert key value =>
    match m key with
    | some _ => (m, none, false)
    | none => (fun k => if k = key then some value else m k, none, true)
  | .remove key =>
    match m key with
    | some v => (fun k => if k = key then none else m k, some v, true)
    | none => (m, none, false)
  | .clear => (fun _ => none, none, true)

/-- The operation on the table. -/
def Op.run (lt : κ → κ → Bool) (hash : κ → Nat) (t : Table κ ν) :
    Op κ ν → Table κ ν × Option ν × Bool
  | .insert key value =>
    match t.insert lt hash key value with
    | none => (t, none, false)
    | some t' => (t', none, true)
  | .remove key =>
    match t.remove lt hash key with
    | none => (t, none, false)
    | some (v, t') => (t', some v, true)
  | .clear => (Table.empty, none, true)

/-- A history of operations on a map, with all answers. -/
def specRun (m : κ → Option ν) : List (Op κ ν) → (κ → Option ν) × List (Option ν × Bool)
  | [] => (m, [])
  | op :: ops => ((specRun (op.spec m).1 ops).1, (op.spec m).2 :: (specRun (op.spec m).1 ops).2)

/-- A history of operations on the table, with all answers. -/
def tableRun (lt : κ → κ → Bool) (hash : κ → Nat) (t : Table κ ν) :
    List (Op κ ν) → Table κ ν × List (Option ν × Bool)
  | [] => (t, [])
  | op :: ops => ((tableRun lt hash (op.run lt hash t).1 ops).1,
      (op.run lt hash t).2 :: (tableRun lt hash (op.run lt hash t).1 ops).2)

theorem step_refines (hlt : StrictTotal lt) (t : Table κ ν) (h : t.WF lt hash) (op : Op κ ν) :
    (op.run lt hash t).1.WF lt hash ∧
      (fun k => (op.run lt hash t).1.get lt hash k) = (op.spec fun k => t.get lt hash k).1 ∧
      (op.run lt hash t).2 = (op.spec fun k => t.get lt hash k).2 := by
  cases op with
  | insert key value =>
    have hi := insert_spec hlt t h key value
    simp only [Op.run, Op.spec]
    cases hins : t.insert lt hash key value with
    | none =>
      have := hi.1.1 hins
      rw [Option.isSome_iff_exists] at this
      obtain ⟨v, hv⟩ := this
      simp only [hv]
      exact ⟨h, trivial, trivial⟩
    | some t' =>
      have hn : t.get lt hash key = none := by
        cases hg : t.get lt hash key with
        | none => rfl
        | some v =>
          have := hi.1.2 (by simp [hg])
          rw [hins] at this; simp at this
      simp only [hn]
      exact ⟨(hi.2 t' hins).1, funext (hi.2 t' hins).2, trivial⟩
  | remove key =>
    have hr := remove_spec hlt t h key
    simp only [Op.run, Op.spec]
    cases hrem : t.remove lt hash key with
    | none =>
      have := hr.1
      rw [hrem] at this
      simp only [Option.map_none] at this
      simp only [← this]
      exact ⟨h, trivial, trivial⟩
    | some r =>
      obtain ⟨v, t'⟩ := r
      have := hr.1
      rw [hrem] at this
      simp only [Option.map_some] at this
      simp only [← this]
      exact ⟨(hr.2 v t' hrem).1, funext (hr.2 v t' hrem).2, trivial⟩
  | clear => exact ⟨empty_wf, rfl, rfl⟩

theorem run_refines (hlt : StrictTotal lt) (ops : List (Op κ ν)) (t : Table κ ν)
    (h : t.WF lt hash) :
    (tableRun lt hash t ops).1.WF lt hash ∧
      (fun k => (tableRun lt hash t ops).1.get lt hash k) =
        (specRun (fun k => t.get lt hash k) ops).1 ∧
      (tableRun lt hash t ops).2 = (specRun (fun k => t.get lt hash k) ops).2 := by
  induction ops generalizing t with
  | nil => exact ⟨h, rfl, rfl⟩
  | cons op ops ih =>
    obtain ⟨h1, h2, h3⟩ := step_refines hlt t h op
    obtain ⟨h4, h5, h6⟩ := ih _ h1
    simp only [tableRun, specRun]
    rw [← h2, ← h3]
    exact ⟨h4, h5, by rw [h6]⟩

/-- C24: whatever the hash function and the collisions it causes, any history of insertions,
removals and clears gives the same answers as on a finite map, and every later lookup too. -/
theorem C24_hash_map_is_map (hlt : StrictTotal lt) (hash : κ → Nat) (ops : List (Op κ ν)) :
    (tableRun lt hash Table.empty ops).2 = (specRun (fun _ => none) ops).2 ∧
      ∀ k, (tableRun lt hash Table.empty ops).1.get lt hash k = (specRun (fun _ => none) ops).1 k := by
  obtain ⟨_, h2, h3⟩ := run_refines (hash := hash) hlt ops Table.empty empty_wf
  exact ⟨h3, fun k => congrFun h2 k⟩

/-! The key types satisfy what the template needs of them. -/

theorem Eid.lt_strict : StrictTotal Eid.lt := by
  refine ⟨?_, ?_, ?_⟩
  · rintro ⟨a, b⟩; simp [Eid.lt]
  · rintro ⟨a, b⟩ ⟨c, d⟩ ⟨e, f⟩
    simp only [Eid.lt]
    intro h1 h2
    split at h1 <;> split at h2 <;> split <;> simp only [decide_eq_true_eq] at * <;> omega
  · rintro ⟨a, b⟩ ⟨c, d⟩
    simp only [Eid.lt, Eid.mk.injEq]
    intro h1 h2
    split at h1 <;> split at h2 <;> simp only [decide_eq_false_iff_not] at * <;> omega

/-- Lexicographic comparison, first by a number. -/
theorem lex_strict {β : Type} (f : β → Nat) (lt' : β → β → Bool)
    (irrefl : ∀ a, lt' a a = false)
    (trans : ∀ a b c, f a = f b → f b = f c → lt' a b = true → lt' b c = true → lt' a c = true)
    (total : ∀ a b, f a = f b → lt' a b = false → lt' b a = false → a = b) :
    StrictTotal fun a b => if f a = f b then lt' a b else f a < f b := by
  refine ⟨?_, ?_, ?_⟩
  · intro a; simp [irrefl]
  · intro a b c h1 h2
    by_cases hab : f a = f b
    · by_cases hbc : f b = f c
      · rw [if_pos hab] at h1; rw [if_pos hbc] at h2; rw [if_pos (hab.trans hbc)]
        exact trans a b c hab hbc h1 h2
      · rw [if_neg hbc, decide_eq_true_eq] at h2
        rw [if_neg (by omega), decide_eq_true_eq]; omega
    · rw [if_neg hab, decide_eq_true_eq] at h1
      by_cases hbc : f b = f c
      · rw [if_neg (by omega), decide_eq_true_eq]; omega
      · rw [if_neg hbc, decide_eq_true_eq] at h2
        rw [if_neg (by omega), decide_eq_true_eq]; omega
  · intro a b h1 h2
    by_cases hab : f a = f b
    · rw [if_pos hab] at h1; rw [if_pos hab.symm] at h2
      exact total a b hab h1 h2
    · rw [if_neg hab, decide_eq_false_iff_not] at h1
      rw [if_neg (fun h => hab h.symm), decide_eq_false_iff_not] at h2
      omega

theorem UuidNoFrag.lt_strict : StrictTotal UuidNoFrag.lt := by
  refine lex_strict UuidNoFrag.creation _ ?_ ?_ ?_
  · intro a; simp [Eid.lt_strict.irrefl]
  · intro a b c _ _ h1 h2
    by_cases hab : a.sequence = b.sequence
    · rw [if_pos hab] at h1
      by_cases hbc : b.sequence = c.sequence
      · rw [if_pos hbc] at h2
        rw [if_pos (hab.trans hbc)]; exact Eid.lt_strict.trans _ _ _ h1 h2
      · rw [if_neg hbc, decide_eq_true_eq] at h2
        rw [if_neg (by omega), decide_eq_true_eq]; omega
    · rw [if_neg hab, decide_eq_true_eq] at h1
      by_cases hbc : b.sequence = c.sequence
      · rw [if_neg (by omega), decide_eq_true_eq]; omega
      · rw [if_neg hbc, decide_eq_true_eq] at h2
        rw [if_neg (by omega), decide_eq_true_eq]; omega
  · rintro ⟨a1, a2, a3⟩ ⟨b1, b2, b3⟩ hab h1 h2
    simp only at *
    by_cases hs : a2 = b2
    · rw [if_pos hs] at h1; rw [if_pos hs.symm] at h2
      rw [hab, hs, Eid.lt_strict.total _ _ h1 h2]
    · rw [if_neg hs, decide_eq_false_iff_not] at h1
      rw [if_neg (fun h => hs h.symm), decide_eq_false_iff_not] at h2
      omega

/-- The part of the comparison after the creation time and sequence number. -/
theorem Uuid.lt_tail (a b c : Uuid)
    (h1 : (if a.src = b.src then
        if a.fragmentOffset = b.fragmentOffset then decide (a.dataLength < b.dataLength)
        else decide (a.fragmentOffset < b.fragmentOffset) else a.src.lt b.src) = true)
    (h2 : (if b.src = c.src then
        if b.fragmentOffset = c.fragmentOffset then decide (b.dataLength < c.dataLength)
        else decide (b.fragmentOffset < c.fragmentOffset) else b.src.lt c.src) = true) :
    (if a.src = c.src then
        if a.fragmentOffset = c.fragmentOffset then decide (a.dataLength < c.dataLength)
        else decide (a.fragmentOffset < c.fragmentOffset) else a.src.lt c.src) = true := by
  by_cases hab : a.src = b.src
  · rw [if_pos hab] at h1
    by_cases hbc : b.src = c.src
    · rw [if_pos hbc] at h2
      rw [if_pos (hab.trans hbc)]
      split at h1 <;> split at h2 <;> split <;> simp only [decide_eq_true_eq] at * <;> omega
    · rw [if_neg hbc] at h2
      rw [if_neg (by rw [hab]; exact hbc), hab]; exact h2
  · rw [if_neg hab] at h1
    by_cases hbc : b.src = c.src
    · rw [if_neg (by rw [← hbc]; exact hab), ← hbc]; exact h1
    · rw [if_neg hbc] at h2
      have := Eid.lt_strict.trans _ _ _ h1 h2
      rw [if_neg (Eid.lt_strict.ne this)]; exact this

theorem Uuid.lt_strict : StrictTotal Uuid.lt := by
  refine lex_strict Uuid.creation _ ?_ ?_ ?_
  · intro a; simp
  · intro a b c _ _ h1 h2
    by_cases hab : a.sequence = b.sequence
    · rw [if_pos hab] at h1
      by_cases hbc : b.sequence = c.sequence
      · rw [if_pos hbc] at h2
        rw [if_pos (hab.trans hbc)]
        exact Uuid.lt_tail a b c h1 h2
      · rw [if_neg hbc, decide_eq_true_eq] at h2
        rw [if_neg (by omega), decide_eq_true_eq]; omega
    · rw [if_neg hab, decide_eq_true_eq] at h1
      by_cases hbc : b.sequence = c.sequence
      · rw [if_neg (by omega), decide_eq_true_eq]; omega
      · rw [if_neg hbc, decide_eq_true_eq] at h2
        rw [if_neg (by omega), decide_eq_true_eq]; omega
  · rintro ⟨a1, a2, a3, a4, a5⟩ ⟨b1, b2, b3, b4, b5⟩ hab h1 h2
    simp only at *
    by_cases hs : a2 = b2
    · rw [if_pos hs] at h1; rw [if_pos hs.symm] at h2
      by_cases he : a3 = b3
      · rw [if_pos he] at h1; rw [if_pos he.symm] at h2
        by_cases hf : a4 = b4
        · rw [if_pos hf, decide_eq_false_iff_not] at h1
          rw [if_pos hf.symm, decide_eq_false_iff_not] at h2
          rw [hab, hs, he, hf, show a5 = b5 by omega]
        · rw [if_neg hf, decide_eq_false_iff_not] at h1
          rw [if_neg (fun h => hf h.symm), decide_eq_false_iff_not] at h2
          omega
      · rw [if_neg he] at h1; rw [if_neg (fun h => he h.symm)] at h2
        exact absurd (Eid.lt_strict.total _ _ h1 h2) he
    · rw [if_neg hs, decide_eq_false_iff_not] at h1
      rw [if_neg (fun h => hs h.symm), decide_eq_false_iff_not] at h2
      omega

omit [DecidableEq κ] in
theorem fold64_lt (x : Nat) : fold64 x < 2 ^ 16 := by
  unfold fold64
  exact Nat.xor_lt_two_pow (Nat.mod_lt _ (by decide)) (Nat.mod_lt _ (by decide))

/-- C24 for the three tables of the storage catalog: bundle identifiers with and without fragment
fields, and custody identifiers; the hash values index the 65536 buckets. -/
theorem C24_catalog_tables :
    (∀ (ops : List (Op Uuid Nat)),
      (tableRun Uuid.lt Uuid.hash Table.empty ops).2 = (specRun (fun _ => none) ops).2) ∧
    (∀ (ops : List (Op UuidNoFrag Nat)),
      (tableRun UuidNoFrag.lt UuidNoFrag.hash Table.empty ops).2 = (specRun (fun _ => none) ops).2) ∧
    (∀ (ops : List (Op Nat ν)),
      (tableRun natLt hashU64 Table.empty ops).2 = (specRun (fun _ => none) ops).2) ∧
    (∀ u : Uuid, u.hash < 65536) ∧ (∀ u : UuidNoFrag, u.hash < 65536) ∧ ∀ k, hashU64 k < 65536 :=
  ⟨fun ops => (C24_hash_map_is_map Uuid.lt_strict _ ops).1,
   fun ops => (C24_hash_map_is_map UuidNoFrag.lt_strict _ ops).1,
   fun ops => (C24_hash_map_is_map natLt_strict _ ops).1,
   fun _ => fold64_lt _, fun _ => fold64_lt _, fun _ => Nat.mod_lt _ (by decide)⟩

/-- Keys 3 and 65539 collide. -/
example : (tableRun natLt hashU64 (Table.empty : Table Nat Nat)
    [.insert 3 30, .insert 65539 40, .insert 3 50, .remove 3, .remove 3, .insert 3 60]).2 =
      [(none, true), (none, true), (none, false), (some 30, true), (none, false), (none, true)] ∧
    (tableRun natLt hashU64 (Table.empty : Table Nat Nat)
      [.insert 3 30, .insert 65539 40, .insert 3 50, .remove 3]).1.get natLt hashU64 65539 = some 40 := by
  decide +kernel

end Hdtn.HashMap16
