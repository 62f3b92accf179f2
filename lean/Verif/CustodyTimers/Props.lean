import Verif.CustodyTimers.Spec

/-!
C32.
-/

namespace Hdtn.CustodyTimers

open Hdtn.HashMap16

/-- The queue of a destination, empty when there is none. -/
def queueOf (m : List (Eid × List (Nat × Nat))) (d : Eid) : List (Nat × Nat) :=
  match OrdMap.lookup m d with
  | some q => q
  | none => []

def sumLen (m : List (Eid × List (Nat × Nat))) : Nat := (m.map fun p => p.2.length).sum

/-- The running timers of a destination as they appear in its list. -/
def ofDest (run : List Timer) (d : Eid) : List (Nat × Nat) :=
  (run.filter fun t => t.dest = d).map fun t => (t.id, t.due)

structure Inv (s : State) (run : List Timer) (clock : Nat) : Prop where
  sortedL : OrdMap.Sorted Eid.lt s.lists
  sortedP : OrdMap.Sorted natLt s.places
  queue : ∀ d, queueOf s.lists d = ofDest run d
  nonempty : ∀ d, OrdMap.lookup s.lists d ≠ some []
  place : ∀ id d, OrdMap.lookup s.places id = some d ↔ ∃ t ∈ run, t.id = id ∧ t.dest = d
  nodup : (run.map (·.id)).Nodup
  order : run.Pairwise fun a b => a.due ≤ b.due
  due : ∀ t ∈ run, t.due ≤ clock + s.timeout
  total : sumLen s.lists = run.length

theorem queueOf_upsert (m : List (Eid × List (Nat × Nat))) (d d' : Eid) (q : List (Nat × Nat)) :
    queueOf (OrdMap.upsert Eid.lt d q m) d' = if d' = d then q else queueOf m d' := by
  unfold queueOf; rw [OrdMap.lookup_upsert]; by_cases h : d' = d <;> simp [h]

theorem queueOf_erase (m : List (Eid × List (Nat × Nat))) (d d' : Eid) :
    queueOf (OrdMap.erase d m) d' = if d' = d then [] else queueOf m d' := by
  unfold queueOf; rw [OrdMap.lookup_erase]; by_cases h : d' = d <;> simp [h]

theorem sumLen_cons (p : Eid × List (Nat × Nat)) (m : List (Eid × List (Nat × Nat))) :
    sumLen (p :: m) = p.2.length + sumLen m := rfl

theorem lookup_above (m : List (Eid × List (Nat × Nat))) (d : Eid)
    (h : ∀ q ∈ m, Eid.lt d q.1 = true) : OrdMap.lookup m d = none := by
  rw [OrdMap.lookup_none]
  intro v hv
  have := h _ hv
  simp only at this
  rw [Eid.lt_strict.irrefl] at this
  simp at this

theorem sumLen_upsert (m : List (Eid × List (Nat × Nat))) (hs : OrdMap.Sorted Eid.lt m) (d : Eid)
    (q : List (Nat × Nat)) :
    sumLen (OrdMap.upsert Eid.lt d q m) + (queueOf m d).length = sumLen m + q.length := by
  induction m with
  | nil => simp [OrdMap.upsert, sumLen, queueOf, OrdMap.lookup]
  | cons p m ih =>
    obtain ⟨k, v⟩ := p
    obtain ⟨h1, h2⟩ := OrdMap.sorted_cons.1 hs
    simp only [OrdMap.upsert]
    split
    · rename_i hk
      subst hk
      simp only [queueOf, OrdMap.lookup, if_true, sumLen_cons]; omega
    · rename_i hk
      split
      · rename_i hlt
        have hn : OrdMap.lookup m d = none := lookup_above m d fun q' hq' =>
          Eid.lt_strict.trans _ _ _ hlt (h1 q' hq')
        simp only [queueOf, OrdMap.lookup, hk, if_false, hn, sumLen_cons, List.length_nil]; omega
      · have e : queueOf ((k, v) :: m) d = queueOf m d := by simp [queueOf, OrdMap.lookup, hk]
        rw [e, sumLen_cons, sumLen_cons]
        have := ih h2
        omega

theorem sumLen_erase (m : List (Eid × List (Nat × Nat))) (hs : OrdMap.Sorted Eid.lt m) (d : Eid) :
    sumLen (OrdMap.erase d m) + (queueOf m d).length = sumLen m := by
  induction m with
  | nil => simp [OrdMap.erase, sumLen, queueOf, OrdMap.lookup]
  | cons p m ih =>
    obtain ⟨k, v⟩ := p
    obtain ⟨h1, h2⟩ := OrdMap.sorted_cons.1 hs
    have := ih h2
    unfold OrdMap.erase at this ⊢
    by_cases hk : k = d
    · subst hk
      have hn : OrdMap.lookup m k = none := lookup_above m k h1
      rw [List.filter_cons_of_neg (by simp)]
      simp only [queueOf, hn, List.length_nil, Nat.add_zero] at this
      simp only [queueOf, OrdMap.lookup, if_true, sumLen_cons, this]
      omega
    · rw [List.filter_cons_of_pos (by simp [hk])]
      have e : queueOf ((k, v) :: m) d = queueOf m d := by simp [queueOf, OrdMap.lookup, hk]
      rw [e, sumLen_cons, sumLen_cons]
      omega

theorem mem_ofDest (run : List Timer) (d : Eid) (p : Nat × Nat) :
    p ∈ ofDest run d ↔ ∃ t ∈ run, t.dest = d ∧ p = (t.id, t.due) := by
  simp only [ofDest, List.mem_map, List.mem_filter, decide_eq_true_eq]
  constructor
  · rintro ⟨t, ⟨h1, h2⟩, rfl⟩; exact ⟨t, h1, h2, rfl⟩
  · rintro ⟨t, h1, h2, rfl⟩; exact ⟨t, ⟨h1, h2⟩, rfl⟩

theorem ofDest_cons (t : Timer) (run : List Timer) (d : Eid) :
    ofDest (t :: run) d = if t.dest = d then (t.id, t.due) :: ofDest run d else ofDest run d := by
  unfold ofDest
  by_cases h : t.dest = d
  · rw [List.filter_cons_of_pos (by simpa using h)]; simp [h]
  · rw [List.filter_cons_of_neg (by simpa using h)]; simp [h]

theorem unique (run : List Timer) (hn : (run.map (·.id)).Nodup) (t t' : Timer) (h : t ∈ run)
    (h' : t' ∈ run) (he : t.id = t'.id) : t = t' := by
  induction run with
  | nil => simp at h
  | cons a run ih =>
    simp only [List.map_cons, List.nodup_cons, List.mem_map, not_exists, not_and] at hn
    rcases List.mem_cons.1 h with rfl | h1 <;> rcases List.mem_cons.1 h' with rfl | h2
    · rfl
    · exact absurd he.symm (hn.1 t' h2)
    · exact absurd he (hn.1 t h1)
    · exact ih hn.2 h1 h2

theorem filter_absent (run : List Timer) (id : Nat) (h : ∀ t ∈ run, t.id ≠ id) :
    run.filter (fun t => t.id ≠ id) = run := by
  rw [List.filter_eq_self]; intro t ht; simpa using h t ht

/-- What removing a running timer does to the lists. -/
theorem ofDest_filter (run : List Timer) (hn : (run.map (·.id)).Nodup) (t : Timer) (ht : t ∈ run)
    (d : Eid) : ofDest (run.filter fun u => u.id ≠ t.id) d =
      if d = t.dest then (ofDest run d).eraseP (fun p => p.1 = t.id) else ofDest run d := by
  induction run with
  | nil => simp at ht
  | cons a run ih =>
    have hn' := hn
    simp only [List.map_cons, List.nodup_cons, List.mem_map, not_exists, not_and] at hn
    by_cases ha : a.id = t.id
    · have hat : a = t := unique _ hn' a t (by simp) ht ha
      subst hat
      rw [List.filter_cons_of_neg (by simp), filter_absent run a.id (fun u hu => hn.1 u hu), ofDest_cons]
      by_cases hd : d = a.dest
      · subst hd; simp
      · have : ¬ a.dest = d := fun h => hd h.symm
        simp [hd, this]
    · have ht' : t ∈ run := by
        rcases List.mem_cons.1 ht with rfl | h
        · exact absurd rfl ha
        · exact h
      rw [List.filter_cons_of_pos (by simpa using ha), ofDest_cons, ofDest_cons, ih hn.2 ht']
      by_cases hd : d = t.dest
      · simp only [if_pos hd]
        by_cases h : a.dest = d
        · simp only [h, if_true]
          rw [List.eraseP_cons_of_neg (by simpa using ha)]
        · simp only [h, if_false]
      · simp only [if_neg hd]

theorem length_filter (run : List Timer) (hn : (run.map (·.id)).Nodup) (t : Timer) (ht : t ∈ run) :
    (run.filter fun u => u.id ≠ t.id).length + 1 = run.length := by
  induction run with
  | nil => simp at ht
  | cons a run ih =>
    have hn' := hn
    simp only [List.map_cons, List.nodup_cons, List.mem_map, not_exists, not_and] at hn
    by_cases ha : a.id = t.id
    · rw [List.filter_cons_of_neg (by simpa using ha),
        filter_absent run t.id (fun u hu => by rw [← ha]; exact hn.1 u hu)]
      simp
    · have ht' : t ∈ run := by
        rcases List.mem_cons.1 ht with rfl | h
        · exact absurd rfl ha
        · exact h
      rw [List.filter_cons_of_pos (by simpa using ha)]
      simp only [List.length_cons]
      have := ih hn.2 ht'
      omega

/-- Removing one running timer from its list and from the places. -/
theorem remove_spec (s : State) (run : List Timer) (clock : Nat) (h : Inv s run clock) (t : Timer)
    (ht : t ∈ run) (q : List (Nat × Nat))
    (hq : q = (ofDest run t.dest).eraseP (fun p => p.1 = t.id)) :
    Inv { putBack s t.dest q with places := OrdMap.erase t.id s.places }
      (run.filter fun u => u.id ≠ t.id) clock := by
  have hmem : (t.id, t.due) ∈ ofDest run t.dest := (mem_ofDest _ _ _).2 ⟨t, ht, rfl, rfl⟩
  have hlen : q.length + 1 = (ofDest run t.dest).length := by
    rw [hq, List.length_eraseP_of_mem hmem (by simp)]
    have : 0 < (ofDest run t.dest).length := List.length_pos_of_mem hmem
    omega
  have hqq : ∀ d, queueOf (putBack s t.dest q).lists d = if d = t.dest then q else queueOf s.lists d := by
    intro d
    simp only [putBack]
    split
    · rename_i he; rw [queueOf_erase, he]
    · rw [queueOf_upsert]
  refine ⟨?_, OrdMap.sorted_erase _ _ h.sortedP, ?_, ?_, ?_, ?_, ?_, ?_, ?_⟩
  · simp only [putBack]
    split
    · exact OrdMap.sorted_erase _ _ h.sortedL
    · exact OrdMap.sorted_upsert Eid.lt_strict _ _ _ h.sortedL
  · intro d
    show queueOf (putBack s t.dest q).lists d = _
    rw [hqq, ofDest_filter run h.nodup t ht d]
    split
    · rename_i hd; rw [hd, hq]
    · exact h.queue d
  · intro d
    simp only [putBack]
    split
    · rw [OrdMap.lookup_erase]; split
      · simp
      · exact h.nonempty d
    · rename_i hne
      rw [OrdMap.lookup_upsert]; split
      · simpa using hne
      · exact h.nonempty d
  · intro id d
    show OrdMap.lookup (OrdMap.erase t.id s.places) id = some d ↔ _
    rw [OrdMap.lookup_erase]
    by_cases hid : id = t.id
    · rw [if_pos hid]
      constructor
      · intro hh; simp at hh
      · rintro ⟨u, hu, hu1, _⟩
        have := (List.mem_filter.1 hu).2
        simp only [ne_eq, decide_eq_true_eq] at this
        exact absurd (hu1.trans hid) this
    · rw [if_neg hid, h.place]
      constructor
      · rintro ⟨u, hu, hu1, hu2⟩
        exact ⟨u, List.mem_filter.2 ⟨hu, by simp [hu1, hid]⟩, hu1, hu2⟩
      · rintro ⟨u, hu, hu1, hu2⟩
        exact ⟨u, (List.mem_filter.1 hu).1, hu1, hu2⟩
  · exact h.nodup.sublist (List.filter_sublist.map _)
  · exact h.order.sublist List.filter_sublist
  · intro u hu; exact h.due u (List.mem_filter.1 hu).1
  · have h1 := length_filter run h.nodup t ht
    have h2 := h.total
    have h3 := h.queue t.dest
    show sumLen (putBack s t.dest q).lists = _
    simp only [putBack]
    split
    · rename_i he
      have h4 := sumLen_erase s.lists h.sortedL t.dest
      rw [h3] at h4
      rw [he] at hlen
      simp only [List.length_nil] at hlen
      omega
    · have h4 := sumLen_upsert s.lists h.sortedL t.dest q
      rw [h3] at h4
      omega

theorem inv_start (s : State) (run : List Timer) (clock now : Nat) (h : Inv s run clock)
    (hc : clock ≤ now) (dest : Eid) (id : Nat) :
    ((start s now dest id).2 = true ↔ ∀ t ∈ run, t.id ≠ id) ∧
    (start s now dest id).1.timeout = s.timeout ∧
    Inv (start s now dest id).1
      (if (start s now dest id).2 then run ++ [⟨id, dest, now + s.timeout⟩] else run) now := by
  unfold start
  cases hp : OrdMap.lookup s.places id with
  | some d =>
    obtain ⟨t, ht, ht1, _⟩ := (h.place id d).1 hp
    refine ⟨?_, rfl, ?_⟩
    · simp only [Bool.false_eq_true, false_iff]
      exact fun hh => hh t ht ht1
    · simp only [Bool.false_eq_true, if_false]
      exact ⟨h.sortedL, h.sortedP, h.queue, h.nonempty, h.place, h.nodup, h.order,
        fun t ht => by have := h.due t ht; omega, h.total⟩
  | none =>
    have hnew : ∀ t ∈ run, t.id ≠ id := by
      intro t ht he
      have := (h.place id t.dest).2 ⟨t, ht, he, rfl⟩
      rw [hp] at this; simp at this
    refine ⟨by simpa using hnew, rfl, ?_⟩
    simp only [if_true]
    have hq : queueOf s.lists dest = (match OrdMap.lookup s.lists dest with | none => [] | some q => q) := by
      unfold queueOf; cases OrdMap.lookup s.lists dest <;> rfl
    suffices hsuff : Inv { s with
        lists := OrdMap.upsert Eid.lt dest (queueOf s.lists dest ++ [(id, now + s.timeout)]) s.lists
        places := OrdMap.upsert natLt id dest s.places } (run ++ [⟨id, dest, now + s.timeout⟩]) now by
      rw [hq] at hsuff; exact hsuff
    refine ⟨OrdMap.sorted_upsert Eid.lt_strict _ _ _ h.sortedL,
      OrdMap.sorted_upsert natLt_strict _ _ _ h.sortedP, ?_, ?_, ?_, ?_, ?_, ?_, ?_⟩
    · intro d
      show queueOf (OrdMap.upsert Eid.lt dest _ s.lists) d = _
      have e : ofDest (run ++ [⟨id, dest, now + s.timeout⟩]) d =
          ofDest run d ++ ofDest [⟨id, dest, now + s.timeout⟩] d := by
        simp only [ofDest, List.filter_append, List.map_append]
      rw [queueOf_upsert, h.queue, h.queue, e, ofDest_cons]
      by_cases hd : d = dest
      · subst hd; simp [ofDest]
      · have : ¬ dest = d := fun e => hd e.symm
        simp [ofDest, hd, this]
    · intro d
      show OrdMap.lookup (OrdMap.upsert Eid.lt dest _ s.lists) d ≠ _
      rw [OrdMap.lookup_upsert]; split
      · simp
      · exact h.nonempty d
    · intro id' d
      show OrdMap.lookup (OrdMap.upsert natLt id dest s.places) id' = some d ↔ _
      rw [OrdMap.lookup_upsert]
      by_cases hid : id' = id
      · rw [if_pos hid]
        constructor
        · intro hh
          injection hh with hh
          exact ⟨_, List.mem_append_right _ (List.mem_singleton.2 rfl), hid.symm, hh⟩
        · rintro ⟨t, ht, ht1, ht2⟩
          rcases List.mem_append.1 ht with ht | ht
          · exact absurd (ht1.trans hid) (hnew t ht)
          · rw [List.mem_singleton.1 ht] at ht2
            simp only at ht2
            rw [ht2]
      · rw [if_neg hid, h.place]
        constructor
        · rintro ⟨t, ht, ht1, ht2⟩
          exact ⟨t, List.mem_append_left _ ht, ht1, ht2⟩
        · rintro ⟨t, ht, ht1, ht2⟩
          rcases List.mem_append.1 ht with ht | ht
          · exact ⟨t, ht, ht1, ht2⟩
          · rw [List.mem_singleton.1 ht] at ht1
            exact absurd ht1.symm hid
    · rw [List.map_append, List.nodup_append]
      refine ⟨h.nodup, by simp, ?_⟩
      intro a ha b hb
      obtain ⟨t, ht, rfl⟩ := List.mem_map.1 ha
      simp only [List.map_cons, List.map_nil, List.mem_singleton] at hb
      rw [hb]; exact hnew t ht
    · rw [List.pairwise_append]
      refine ⟨h.order, by simp, ?_⟩
      intro a ha b hb
      rw [List.mem_singleton.1 hb]
      have := h.due a ha
      simp only
      omega
    · intro t ht
      rcases List.mem_append.1 ht with ht | ht
      · have := h.due t ht
        simp only
        omega
      · rw [List.mem_singleton.1 ht]
    · have h1 := sumLen_upsert s.lists h.sortedL dest (queueOf s.lists dest ++ [(id, now + s.timeout)])
      have h2 := h.total
      show sumLen (OrdMap.upsert Eid.lt dest _ s.lists) = _
      simp only [List.length_append, List.length_cons, List.length_nil] at h1 ⊢
      omega

theorem lookup_queue (s : State) (run : List Timer) (clock : Nat) (h : Inv s run clock) (d : Eid) :
    OrdMap.lookup s.lists d = if ofDest run d = [] then none else some (ofDest run d) := by
  have h1 := h.queue d
  have h2 := h.nonempty d
  unfold queueOf at h1
  cases hl : OrdMap.lookup s.lists d with
  | none => rw [hl] at h1; simp [← h1]
  | some q =>
    rw [hl] at h1 h2
    simp only at h1
    rw [← h1, if_neg]
    rintro rfl; exact h2 rfl

/-- What a cancellation does, when it is for the destination the timer was started for. -/
theorem inv_cancel (s : State) (run : List Timer) (clock : Nat) (h : Inv s run clock) (dest : Eid)
    (id : Nat) (s' : State) (ok : Bool) (hc : cancel s dest id = some (s', ok)) :
    (ok = true ↔ ∃ t ∈ run, t.id = id ∧ t.dest = dest) ∧ s'.timeout = s.timeout ∧
    Inv s' (if ok then run.filter (fun t => t.id ≠ id) else run) clock := by
  unfold cancel at hc
  cases hp : OrdMap.lookup s.places id with
  | none =>
    rw [hp] at hc
    simp only [Option.some.injEq, Prod.mk.injEq] at hc
    obtain ⟨rfl, rfl⟩ := hc
    refine ⟨?_, rfl, h⟩
    simp only [Bool.false_eq_true, false_iff]
    rintro ⟨t, ht, ht1, ht2⟩
    have := (h.place id t.dest).2 ⟨t, ht, ht1, rfl⟩
    rw [hp] at this; simp at this
  | some place =>
    rw [hp] at hc
    simp only at hc
    obtain ⟨t, ht, ht1, ht2⟩ := (h.place id place).1 hp
    rw [lookup_queue s run clock h dest] at hc
    by_cases he : ofDest run dest = []
    · rw [if_pos he] at hc
      simp only [Option.some.injEq, Prod.mk.injEq] at hc
      obtain ⟨rfl, rfl⟩ := hc
      refine ⟨?_, rfl, h⟩
      simp only [Bool.false_eq_true, false_iff]
      rintro ⟨u, hu, hu1, hu2⟩
      have := (mem_ofDest run dest _).2 ⟨u, hu, hu2, rfl⟩
      rw [he] at this; simp at this
    · rw [if_neg he] at hc
      simp only at hc
      by_cases hd : place = dest
      · rw [if_neg (fun hh => hh hd)] at hc
        simp only [Option.some.injEq, Prod.mk.injEq] at hc
        obtain ⟨rfl, rfl⟩ := hc
        subst hd
        refine ⟨by simpa using ⟨t, ht, ht1, ht2⟩, rfl, ?_⟩
        simp only [if_true]
        subst ht1; subst ht2
        exact remove_spec s run clock h t ht _ rfl
      · rw [if_pos hd] at hc; simp at hc

/-- Taking the front of a destination's list. -/
theorem inv_popFront (s : State) (run : List Timer) (clock : Nat) (h : Inv s run clock) (d : Eid)
    (id x : Nat) (q : List (Nat × Nat)) (hl : OrdMap.lookup s.lists d = some ((id, x) :: q)) :
    ∃ t ∈ run, t.id = id ∧ t.dest = d ∧ t.due = x ∧ (popFront s d).2 = some id ∧
      (popFront s d).1.timeout = s.timeout ∧
      (∀ u ∈ run, u.dest = d → x ≤ u.due) ∧
      Inv (popFront s d).1 (left run (popFront s d).2) clock := by
  have hq := lookup_queue s run clock h d
  rw [hl] at hq
  have hne : ofDest run d ≠ [] := by
    intro he; rw [if_pos he] at hq; simp at hq
  rw [if_neg hne] at hq
  injection hq with hq
  obtain ⟨t, ht, ht1, ht2⟩ := (mem_ofDest run d (id, x)).1 (by rw [← hq]; simp)
  injection ht2 with ht2 ht3
  have hplace : OrdMap.lookup s.places id = some d := (h.place id d).2 ⟨t, ht, ht2.symm, ht1⟩
  have hpop : popFront s d = ({ putBack s d q with places := OrdMap.erase id s.places }, some id) := by
    simp only [popFront, hl, hplace, Option.isSome_some, if_true]
  rw [hpop]
  refine ⟨t, ht, ht2.symm, ht1, ht3.symm, rfl, rfl, ?_, ?_⟩
  · intro u hu hud
    have hsorted : (ofDest run d).Pairwise fun a b => a.2 ≤ b.2 := by
      unfold ofDest
      rw [List.pairwise_map]
      exact h.order.sublist List.filter_sublist
    have humem := (mem_ofDest run d (u.id, u.due)).2 ⟨u, hu, hud, rfl⟩
    rw [← hq] at hsorted humem
    rcases List.mem_cons.1 humem with g | g
    · injection g with _ g; omega
    · exact (List.pairwise_cons.1 hsorted).1 _ g
  · subst ht1; subst ht2
    refine remove_spec s run clock h t ht q ?_
    rw [← hq]; simp

/-- The loop over the available destinations finds the earliest front. -/
theorem better_spec (s : State) (avail : List Eid) (best : Option (Nat × Eid))
    (hb : ∀ x d, best = some (x, d) → ∃ id q, OrdMap.lookup s.lists d = some ((id, x) :: q)) :
    match avail.foldl (better s) best with
    | none => best = none ∧ ∀ d ∈ avail, ∀ id x q, OrdMap.lookup s.lists d ≠ some ((id, x) :: q)
    | some (x, d) =>
      (d ∈ avail ∨ best = some (x, d)) ∧ (∃ id q, OrdMap.lookup s.lists d = some ((id, x) :: q)) ∧
      (∀ y d', best = some (y, d') → x ≤ y) ∧
      ∀ d' ∈ avail, ∀ id' x' q', OrdMap.lookup s.lists d' = some ((id', x') :: q') → x ≤ x' := by
  induction avail generalizing best with
  | nil =>
    cases best with
    | none => simp
    | some p =>
      obtain ⟨x, d⟩ := p
      simp only [List.foldl_nil]
      refine ⟨Or.inr trivial, hb x d rfl, ?_, by simp⟩
      intro y d' hh; injection hh with hh; injection hh with h1 h2; omega
  | cons a avail ih =>
    rw [List.foldl_cons]
    have hb' : ∀ x d, better s best a = some (x, d) →
        ∃ id q, OrdMap.lookup s.lists d = some ((id, x) :: q) := by
      intro x d hh
      unfold better at hh
      split at hh
      · rename_i i y r hl
        cases best with
        | none => simp only [Option.some.injEq, Prod.mk.injEq] at hh; obtain ⟨rfl, rfl⟩ := hh; exact ⟨_, _, hl⟩
        | some p =>
          simp only at hh
          split at hh
          · simp only [Option.some.injEq, Prod.mk.injEq] at hh; obtain ⟨rfl, rfl⟩ := hh; exact ⟨_, _, hl⟩
          · exact hb x d hh
      · exact hb x d hh
    have := ih (better s best a) hb'
    -- what one step does
    have hstep : (∀ id x q, OrdMap.lookup s.lists a ≠ some ((id, x) :: q)) ∧ better s best a = best ∨
        ∃ id x q, OrdMap.lookup s.lists a = some ((id, x) :: q) ∧
          ((better s best a = some (x, a) ∧ ∀ y d, best = some (y, d) → x ≤ y) ∨
            (better s best a = best ∧ ∃ y d, best = some (y, d) ∧ y ≤ x)) := by
      unfold better
      split
      · rename_i i y r hl
        right
        refine ⟨i, y, r, hl, ?_⟩
        cases best with
        | none => left; exact ⟨rfl, by simp⟩
        | some p =>
          obtain ⟨z, d⟩ := p
          simp only
          split
          · left
            refine ⟨rfl, fun y' d' hh => ?_⟩
            injection hh with hh; injection hh with h1 h2; omega
          · right
            exact ⟨rfl, z, d, rfl, by omega⟩
      · rename_i hl
        left
        exact ⟨fun id x q hh => hl _ _ _ hh, rfl⟩
    cases hr : avail.foldl (better s) (better s best a) with
    | none =>
      rw [hr] at this
      simp only at this ⊢
      rcases hstep with ⟨h1, h2⟩ | ⟨id, x, q, h1, ⟨h2, h3⟩ | ⟨h2, y, d, h3, h4⟩⟩
      · rw [h2] at this
        refine ⟨this.1, fun d hd => ?_⟩
        rcases List.mem_cons.1 hd with rfl | hd
        · exact h1
        · exact this.2 d hd
      · rw [h2] at this; simp at this
      · rw [h2, h3] at this; simp at this
    | some p =>
      obtain ⟨z, d⟩ := p
      rw [hr] at this
      simp only at this ⊢
      obtain ⟨t1, t2, t3, t4⟩ := this
      rcases hstep with ⟨h1, h2⟩ | ⟨id, x, q, h1, ⟨h2, h3⟩ | ⟨h2, y, d2, h3, h4⟩⟩
      · rw [h2] at t1 t3
        refine ⟨?_, t2, t3, fun d' hd' => ?_⟩
        · rcases t1 with t1 | t1
          · exact Or.inl (List.mem_cons_of_mem _ t1)
          · exact Or.inr t1
        · rcases List.mem_cons.1 hd' with rfl | hd'
          · exact fun id' x' q' hh => absurd hh (h1 _ _ _)
          · exact t4 d' hd'
      · have hzx := t3 x a h2
        refine ⟨?_, t2, fun y d' hh => Nat.le_trans hzx (h3 y d' hh), fun d' hd' => ?_⟩
        · rcases t1 with t1 | t1
          · exact Or.inl (List.mem_cons_of_mem _ t1)
          · rw [h2] at t1
            injection t1 with t1
            injection t1 with _ t1
            exact Or.inl (by rw [t1]; simp)
        · rcases List.mem_cons.1 hd' with rfl | hd'
          · intro id' x' q' hh
            rw [h1] at hh
            injection hh with hh; injection hh with hh; injection hh with _ hh
            omega
          · exact t4 d' hd'
      · rw [h2] at t1 t3
        refine ⟨?_, t2, t3, fun d' hd' => ?_⟩
        · rcases t1 with t1 | t1
          · exact Or.inl (List.mem_cons_of_mem _ t1)
          · exact Or.inr t1
        · rcases List.mem_cons.1 hd' with rfl | hd'
          · intro id' x' q' hh
            rw [h1] at hh
            injection hh with hh; injection hh with hh; injection hh with _ hh
            have := t3 y d2 h3
            omega
          · exact t4 d' hd'

/-- The answer of a poll over some destinations. -/
theorem inv_poll (s : State) (run : List Timer) (clock now : Nat) (h : Inv s run clock)
    (avail : List Eid) :
    (poll s avail now).1.timeout = s.timeout ∧
    Inv (poll s avail now).1 (left run (poll s avail now).2) clock ∧
    match (poll s avail now).2 with
    | none => ∀ t ∈ run, t.dest ∈ avail → now < t.due
    | some id => ∃ t ∈ run, t.id = id ∧ t.dest ∈ avail ∧ t.due ≤ now ∧
        ∀ u ∈ run, u.dest ∈ avail → t.due ≤ u.due := by
  have hb := better_spec s avail none (by simp)
  -- every running timer lies behind the front of its list
  have hfront : ∀ u ∈ run, ∃ id x q, OrdMap.lookup s.lists u.dest = some ((id, x) :: q) ∧ x ≤ u.due := by
    intro u hu
    have hm := (mem_ofDest run u.dest (u.id, u.due)).2 ⟨u, hu, rfl, rfl⟩
    have hl := lookup_queue s run clock h u.dest
    cases hq : ofDest run u.dest with
    | nil => rw [hq] at hm; simp at hm
    | cons p q =>
      rw [hq, if_neg (by simp)] at hl
      obtain ⟨i, x⟩ := p
      obtain ⟨_, _, _, _, _, _, _, g, _⟩ := inv_popFront s run clock h u.dest i x q hl
      exact ⟨i, x, q, hl, g u hu rfl⟩
  unfold poll
  cases hf : avail.foldl (better s) none with
  | none =>
    rw [hf] at hb
    refine ⟨rfl, h, fun t ht hd => ?_⟩
    obtain ⟨id, x, q, hl, _⟩ := hfront t ht
    exact absurd hl (hb.2 t.dest hd id x q)
  | some p =>
    obtain ⟨x, d⟩ := p
    rw [hf] at hb
    obtain ⟨b1, ⟨id, q, b2⟩, _, b4⟩ := hb
    have hd : d ∈ avail := by
      rcases b1 with b1 | b1
      · exact b1
      · simp at b1
    have hall : ∀ u ∈ run, u.dest ∈ avail → x ≤ u.due := by
      intro u hu hud
      obtain ⟨id', x', q', hl, hx⟩ := hfront u hu
      exact Nat.le_trans (b4 u.dest hud id' x' q' hl) hx
    simp only
    by_cases hx : x ≤ now
    · rw [if_pos hx]
      obtain ⟨t, ht, h1, h2, h3, h4, h5, h6, h7⟩ := inv_popFront s run clock h d id x q b2
      refine ⟨h5, h7, ?_⟩
      rw [h4]
      exact ⟨t, ht, h1, by rw [h2]; exact hd, by omega, fun u hu hud => by
        rw [h3]; exact hall u hu hud⟩
    · rw [if_neg hx]
      refine ⟨rfl, h, fun t ht htd => ?_⟩
      have := hall t ht htd
      omega

/-- The answer of a poll over all destinations. -/
theorem inv_pollAny (s : State) (run : List Timer) (clock now : Nat) (h : Inv s run clock) :
    (pollAny s now).1.timeout = s.timeout ∧
    Inv (pollAny s now).1 (left run (pollAny s now).2) clock ∧
    match (pollAny s now).2 with
    | none => ∀ t ∈ run, now < t.due
    | some id => ∃ t ∈ run, t.id = id ∧ t.due ≤ now ∧ ∀ u ∈ run, u.dest = t.dest → t.due ≤ u.due := by
  have hmem : ∀ p ∈ s.lists, OrdMap.lookup s.lists p.1 = some p.2 := fun p hp =>
    OrdMap.mem_lookup Eid.lt_strict h.sortedL hp
  have key : ∀ l : List (Eid × List (Nat × Nat)), (∀ p ∈ l, OrdMap.lookup s.lists p.1 = some p.2) →
      (pollAnyLoop s now l).1.timeout = s.timeout ∧
      Inv (pollAnyLoop s now l).1 (left run (pollAnyLoop s now l).2) clock ∧
      match (pollAnyLoop s now l).2 with
      | none => ∀ t ∈ run, t.dest ∈ l.map (·.1) → now < t.due
      | some id => ∃ t ∈ run, t.id = id ∧ t.due ≤ now ∧ ∀ u ∈ run, u.dest = t.dest → t.due ≤ u.due := by
    intro l
    induction l with
    | nil =>
      intro _
      simp only [pollAnyLoop]
      exact ⟨trivial, h, by simp⟩
    | cons p l ih =>
      intro hl
      obtain ⟨d, q⟩ := p
      have hq := hl (d, q) (by simp)
      have := ih fun p' hp' => hl p' (by simp [hp'])
      cases q with
      | nil => exact absurd hq (h.nonempty d)
      | cons e q =>
        obtain ⟨i, x⟩ := e
        simp only at hq
        obtain ⟨t, ht, h1, h2, h3, h4, h5, h6, h7⟩ := inv_popFront s run clock h d i x q hq
        simp only [pollAnyLoop]
        by_cases hx : x ≤ now
        · rw [if_pos hx]
          refine ⟨h5, h7, ?_⟩
          rw [h4]
          exact ⟨t, ht, h1, by omega, fun u hu hud => by
            rw [h3]; exact h6 u hu (hud.trans h2)⟩
        · rw [if_neg hx]
          refine ⟨this.1, this.2.1, ?_⟩
          have h8 := this.2.2
          cases hr : (pollAnyLoop s now l).2 with
          | some id => rw [hr] at h8; exact h8
          | none =>
            rw [hr] at h8
            intro u hu hud
            rcases List.mem_cons.1 hud with hud | hud
            · have := h6 u hu hud; omega
            · exact h8 u hu hud
  obtain ⟨k1, k2, k3⟩ := key s.lists hmem
  refine ⟨k1, k2, ?_⟩
  change match (pollAnyLoop s now s.lists).2 with | none => _ | some id => _
  cases hr : (pollAnyLoop s now s.lists).2 with
  | some id => rw [hr] at k3; exact k3
  | none =>
    rw [hr] at k3
    intro t ht
    refine k3 t ht ?_
    have hm := (mem_ofDest run t.dest (t.id, t.due)).2 ⟨t, ht, rfl, rfl⟩
    have hl := lookup_queue s run clock h t.dest
    have hne : ofDest run t.dest ≠ [] := fun he => by rw [he] at hm; simp at hm
    rw [if_neg hne] at hl
    exact List.mem_map.2 ⟨_, OrdMap.lookup_some_mem hl, rfl⟩

theorem inv_reachable (timeout : Nat) (st : State × List Timer × Nat) (h : Reachable timeout st) :
    Inv st.1 st.2.1 st.2.2 ∧ st.1.timeout = timeout := by
  induction h with
  | new =>
    refine ⟨⟨OrdMap.sorted_nil, OrdMap.sorted_nil, fun _ => rfl, ?_, ?_, ?_, ?_, ?_, rfl⟩, rfl⟩
    · intro d; simp [State.new, OrdMap.lookup]
    · intro id d; simp [State.new, OrdMap.lookup]
    · simp
    · simp
    · simp
  | step s s' h hs ih =>
    obtain ⟨hi, ht⟩ := ih
    cases hs with
    | start s s' run clock now dest id ok hclock hh =>
      have := inv_start s run clock now hi hclock dest id
      rw [hh] at this
      exact ⟨this.2.2, this.2.1.trans ht⟩
    | cancel s s' run clock dest id ok hh =>
      have := inv_cancel s run clock hi dest id s' ok hh
      exact ⟨this.2.2, this.2.1.trans ht⟩
    | poll s s' run clock now avail r hh =>
      have := inv_poll s run clock now hi avail
      rw [hh] at this
      exact ⟨this.2.1, this.1.trans ht⟩
    | pollAny s s' run clock now r hh =>
      have := inv_pollAny s run clock now hi
      rw [hh] at this
      exact ⟨this.2.1, this.1.trans ht⟩

/-- C32, polling for available destinations: with the timers running after any history, the answer
is a running timer of one of these destinations that is due, and no running timer of these
destinations is due earlier; there is no answer exactly when none of them is due. -/
theorem C32_poll (timeout : Nat) (s : State) (run : List Timer) (clock now : Nat)
    (h : Reachable timeout (s, run, clock)) (avail : List Eid) :
    (∀ id, (poll s avail now).2 = some id → ∃ t ∈ run, t.id = id ∧ t.dest ∈ avail ∧ t.due ≤ now ∧
      ∀ u ∈ run, u.dest ∈ avail → t.due ≤ u.due) ∧
    ((poll s avail now).2 = none ↔ ∀ t ∈ run, t.dest ∈ avail → now < t.due) := by
  have := (inv_poll s run clock now (inv_reachable timeout _ h).1 avail).2.2
  cases hr : (poll s avail now).2 with
  | none => rw [hr] at this; exact ⟨by simp, by simpa using this⟩
  | some id =>
    rw [hr] at this
    refine ⟨fun id' hid => ?_, ?_⟩
    · injection hid with hid; subst hid; exact this
    · obtain ⟨t, ht, _, h2, h3, _⟩ := this
      simp only [reduceCtorEq, false_iff]
      intro hh
      have := hh t ht h2
      omega

/-- C32, polling for any destination: the answer is a running timer that is due and the earliest of
its destination; there is no answer exactly when none is due. -/
theorem C32_poll_any (timeout : Nat) (s : State) (run : List Timer) (clock now : Nat)
    (h : Reachable timeout (s, run, clock)) :
    (∀ id, (pollAny s now).2 = some id → ∃ t ∈ run, t.id = id ∧ t.due ≤ now ∧
      ∀ u ∈ run, u.dest = t.dest → t.due ≤ u.due) ∧
    ((pollAny s now).2 = none ↔ ∀ t ∈ run, now < t.due) := by
  have := (inv_pollAny s run clock now (inv_reachable timeout _ h).1).2.2
  cases hr : (pollAny s now).2 with
  | none => rw [hr] at this; exact ⟨by simp, by simpa using this⟩
  | some id =>
    rw [hr] at this
    refine ⟨fun id' hid => ?_, ?_⟩
    · injection hid with hid; subst hid; exact this
    · obtain ⟨t, ht, _, h3, _⟩ := this
      simp only [reduceCtorEq, false_iff]
      intro hh
      have := hh t ht
      omega

/-- C32, a bundle has at most one running timer, a start succeeds exactly when it has none, and the
counters are the numbers of running timers. -/
theorem C32_start (timeout : Nat) (s : State) (run : List Timer) (clock now : Nat)
    (h : Reachable timeout (s, run, clock)) (hc : clock ≤ now) (dest : Eid) (id : Nat) :
    (run.map (·.id)).Nodup ∧
    ((start s now dest id).2 = true ↔ ∀ t ∈ run, t.id ≠ id) ∧
    count s = run.length ∧
    ∀ d, countFor s d = (run.filter fun t => t.dest = d).length := by
  obtain ⟨hi, _⟩ := inv_reachable timeout _ h
  refine ⟨hi.nodup, (inv_start s run clock now hi hc dest id).1, hi.total, fun d => ?_⟩
  have hq : countFor s d = (queueOf s.lists d).length := by
    unfold countFor queueOf; cases OrdMap.lookup s.lists d <;> rfl
  rw [hq, hi.queue, ofDest, List.length_map]

/-- C32, a cancellation succeeds exactly for a running timer of that destination. It is defined
unless the bundle's timer was started for another destination that has a timer running. -/
theorem C32_cancel (timeout : Nat) (s : State) (run : List Timer) (clock : Nat)
    (h : Reachable timeout (s, run, clock)) (dest : Eid) (id : Nat) :
    (∀ s' ok, cancel s dest id = some (s', ok) →
      (ok = true ↔ ∃ t ∈ run, t.id = id ∧ t.dest = dest)) ∧
    (cancel s dest id = none ↔
      (∃ t ∈ run, t.id = id ∧ t.dest ≠ dest) ∧ ∃ t ∈ run, t.dest = dest) := by
  obtain ⟨hi, _⟩ := inv_reachable timeout _ h
  refine ⟨fun s' ok hh => (inv_cancel s run clock hi dest id s' ok hh).1, ?_⟩
  have hl := lookup_queue s run clock hi dest
  have hempty : ofDest run dest = [] ↔ ¬ ∃ t ∈ run, t.dest = dest := by
    constructor
    · rintro he ⟨t, ht, htd⟩
      have := (mem_ofDest run dest _).2 ⟨t, ht, htd, rfl⟩
      rw [he] at this; simp at this
    · intro hn
      rw [List.eq_nil_iff_forall_not_mem]
      intro p hp
      obtain ⟨t, ht, htd, _⟩ := (mem_ofDest run dest p).1 hp
      exact hn ⟨t, ht, htd⟩
  unfold cancel
  cases hp : OrdMap.lookup s.places id with
  | none =>
    simp only [reduceCtorEq, false_iff, not_and]
    rintro ⟨t, ht, ht1, _⟩
    have := (hi.place id t.dest).2 ⟨t, ht, ht1, rfl⟩
    rw [hp] at this; simp at this
  | some place =>
    obtain ⟨t, ht, ht1, ht2⟩ := (hi.place id place).1 hp
    simp only [hl]
    by_cases he : ofDest run dest = []
    · rw [if_pos he]
      simp only [reduceCtorEq, false_iff, not_and]
      exact fun _ => hempty.1 he
    · rw [if_neg he]
      have hex : ∃ t ∈ run, t.dest = dest := by
        by_contra hn; exact he (hempty.2 hn)
      by_cases hd : place = dest
      · simp only [hd, ne_eq, not_true_eq_false, if_false, reduceCtorEq, false_iff, not_and]
        rintro ⟨u, hu, hu1, hu2⟩
        have := unique run hi.nodup t u ht hu (ht1.trans hu1.symm)
        rw [← this] at hu2
        exact absurd (ht2.trans hd) hu2
      · simp only [ne_eq, hd, not_false_eq_true, if_true, true_iff]
        exact ⟨⟨t, ht, ht1, by rw [ht2]; exact hd⟩, hex⟩

/-- The states of a short history: two destinations, a cancellation, a poll. -/
def ex : List Bool × List (Option Nat) × Nat :=
  let s0 := State.new 10
  let s1 := start s0 100 ⟨1, 1⟩ 7
  let s2 := start s1.1 101 ⟨2, 1⟩ 8
  let s3 := start s2.1 101 ⟨1, 1⟩ 9
  let s4 := start s3.1 102 ⟨1, 1⟩ 7
  match cancel s4.1 ⟨1, 1⟩ 7 with
  | none => ([], [], 0)
  | some s5 =>
    let s6 := poll s5.1 [⟨1, 1⟩, ⟨2, 1⟩] 110
    let s7 := poll s6.1 [⟨1, 1⟩, ⟨3, 1⟩] 111
    let s8 := pollAny s7.1 120
    ([s1.2, s2.2, s3.2, s4.2, s5.2], [s6.2, s7.2, s8.2], count s7.1)

example : ex = ([true, true, true, false, true], [none, some 9, some 8], 1) := by decide +kernel

/-- A reachable state with two running timers. -/
example : ∃ s run, Reachable 10 (s, run, 101) ∧ run = [⟨7, ⟨1, 1⟩, 110⟩, ⟨8, ⟨2, 1⟩, 111⟩] := by
  refine ⟨_, _, Reachable.step _ _ (Reachable.step _ _ Reachable.new
    (Step.start _ _ _ _ 100 ⟨1, 1⟩ 7 _ (by decide) rfl)) (Step.start _ _ _ _ 101 ⟨2, 1⟩ 8 _ (by decide) rfl), ?_⟩
  decide +kernel

/-- If the clock is set back between two starts, a timer that is due is not reported: the clock used
is the system's wall clock (CustodyTimers.cpp:79). -/
theorem C32_clock_set_back :
    let s1 := start (State.new 10) 100 ⟨1, 1⟩ 7
    let s2 := start s1.1 50 ⟨1, 1⟩ 8
    (s1.2 = true ∧ s2.2 = true) ∧ (poll s2.1 [⟨1, 1⟩] 70).2 = none := by decide +kernel

end Hdtn.CustodyTimers
