import Verif.ForwardListQueue.Model

/-!
Property C50: the singly linked queue behaves as a list.
-/

namespace Hdtn.ForwardListQueue

variable {α : Type} [DecidableEq α]

/-! The specification: the same operations on a plain list. -/

/-- An operation of the queue. -/
inductive Op (α : Type) where
  | pushBack (v : α)
  | pushFront (v : α)
  | pop
  | remove (key : α)
  | clear

/-- What an operation is meant to do to the sequence of elements. Popping is only allowed on a
non-empty sequence. -/
def Op.spec : Op α → List α → Option (List α)
  | .pushBack v, l => some (l ++ [v])
  | .pushFront v, l => some (v :: l)
  | .pop, [] => none
  | .pop, _ :: l => some l
  | .remove key, l => some (l.erase key)
  | .clear, _ => some []

/-- The operation on the queue; `none` is undefined behaviour. -/
def Op.run : Op α → Queue α → Option (Queue α)
  | .pushBack v, q => q.pushBack v
  | .pushFront v, q => some (q.pushFront v)
  | .pop, q => q.pop
  | .remove key, q => some (q.removeByKey key).1
  | .clear, q => some q.clear

/-- The elements of a queue, front first. -/
def Queue.elems (q : Queue α) : List α := q.fl.map (·.2)

/-- The cached iterator points at the last node, node identities are distinct and below `fresh`. -/
structure Queue.Inv (q : Queue α) : Prop where
  nodup : (q.fl.map (·.1)).Nodup
  fresh : ∀ p ∈ q.fl, p.1 < q.fresh
  last : ∀ ini x, q.fl = ini ++ [x] → q.last = .node x.1

theorem takeWhile_ids (ini : List (Nat × α)) (x : Nat × α) (h : ∀ p ∈ ini, p.1 ≠ x.1) :
    (ini ++ [x]).takeWhile (fun p => p.1 ≠ x.1) = ini ∧
    (ini ++ [x]).dropWhile (fun p => p.1 ≠ x.1) = [x] := by
  induction ini with
  | nil => simp
  | cons a ini ih =>
    have ha := h a (by simp)
    have := ih fun p hp => h p (by simp [hp])
    simp only [List.cons_append]
    rw [List.takeWhile_cons_of_pos (by simpa using ha), List.dropWhile_cons_of_pos (by simpa using ha)]
    exact ⟨by rw [this.1], this.2⟩

theorem nodup_concat (ini : List (Nat × α)) (x : Nat × α)
    (h : ((ini ++ [x]).map (·.1)).Nodup) : ∀ p ∈ ini, p.1 ≠ x.1 := by
  intro p hp heq
  rw [List.map_append, List.nodup_append] at h
  exact h.2.2 p.1 (List.mem_map.2 ⟨p, hp, rfl⟩) x.1 (by simp) heq

theorem insertAfter_last (ini : List (Nat × α)) (x : Nat × α) (id : Nat) (v : α)
    (h : ∀ p ∈ ini, p.1 ≠ x.1) :
    insertAfter (ini ++ [x]) (.node x.1) id v = some (ini ++ [x] ++ [(id, v)]) := by
  have ht := takeWhile_ids ini x h
  have : ((ini ++ [x]).any fun p => decide (p.1 = x.1)) = true := by simp
  simp only [insertAfter, this, if_true, ht.1, ht.2]
  simp

theorem inv_pushBack (q : Queue α) (hq : q.Inv) (v : α) :
    ∃ q', q.pushBack v = some q' ∧ q'.Inv ∧ q'.elems = q.elems ++ [v] := by
  unfold Queue.pushBack
  split
  · rename_i he
    refine ⟨_, rfl, ⟨by simp, by simp, ?_⟩, by simp [Queue.elems, he]⟩
    intro ini x h
    cases ini with
    | nil => simp at h; simp [← h]
    | cons a ini => simp at h
  · rename_i he
    obtain ⟨ini, x, hx⟩ : ∃ ini x, q.fl = ini ++ [x] :=
      ⟨_, _, (List.dropLast_concat_getLast he).symm⟩
    have hlast := hq.last ini x hx
    have hnd := hq.nodup
    have hf := hq.fresh
    rw [hx] at hnd hf
    have hins := insertAfter_last ini x q.fresh v (nodup_concat ini x hnd)
    rw [hx, hlast, hins]
    refine ⟨_, rfl, ⟨?_, ?_, ?_⟩, by simp [Queue.elems, hx]⟩
    · rw [List.map_append, List.nodup_append]
      refine ⟨hnd, by simp, ?_⟩
      intro a ha b hb
      simp only [List.map_cons, List.map_nil, List.mem_singleton] at hb
      obtain ⟨p, hp, rfl⟩ := List.mem_map.1 ha
      have := hf p hp
      omega
    · intro p hp
      rcases List.mem_append.1 hp with hp | hp
      · have := hf p hp; simp only; omega
      · simp only [List.mem_singleton] at hp; subst hp; simp
    · intro ini' x' h
      simp only at h
      have := List.append_inj' h rfl
      simp only [List.cons.injEq, and_true] at this
      rw [← this.2]

theorem inv_pushFront (q : Queue α) (hq : q.Inv) (v : α) :
    (q.pushFront v).Inv ∧ (q.pushFront v).elems = v :: q.elems := by
  refine ⟨⟨?_, ?_, ?_⟩, rfl⟩
  · simp only [Queue.pushFront, List.map_cons, List.nodup_cons]
    refine ⟨fun h => ?_, hq.nodup⟩
    obtain ⟨p, hp, he⟩ := List.mem_map.1 h
    have := hq.fresh p hp
    omega
  · intro p hp
    simp only [Queue.pushFront] at hp ⊢
    rcases List.mem_cons.1 hp with rfl | hp
    · simp
    · have := hq.fresh p hp; omega
  · intro ini x h
    simp only [Queue.pushFront] at h ⊢
    split
    · rename_i he
      rw [he] at h
      cases ini with
      | nil => simp at h; simp [← h]
      | cons a ini => simp at h
    · rename_i he
      cases ini with
      | nil => simp at h; exact absurd h.2 he
      | cons a ini =>
        simp only [List.cons_append, List.cons.injEq] at h
        exact hq.last ini x h.2

theorem removeLoop_spec (key : α) (last : Iter) (prev : Iter) (fl : List (Nat × α))
    (hnd : (fl.map (·.1)).Nodup)
    (hlast : ∀ ini x, fl = ini ++ [x] → last = .node x.1)
    (hprev : ∀ p ∈ fl, prev ≠ .node p.1) :
    (removeLoop key last prev fl = none ∧ key ∉ fl.map (·.2)) ∨
    ∃ fl' last', removeLoop key last prev fl = some (fl', last') ∧ key ∈ fl.map (·.2) ∧
      fl'.map (·.2) = (fl.map (·.2)).erase key ∧ fl'.Sublist fl ∧
      (∀ ini x, fl' = ini ++ [x] → last' = .node x.1) := by
  induction fl generalizing prev with
  | nil => left; simp [removeLoop]
  | cons a fl ih =>
    obtain ⟨id, v⟩ := a
    rw [removeLoop]
    by_cases hk : key = v
    · right
      subst hk
      simp only [if_true]
      refine ⟨fl, _, rfl, by simp, by simp, List.sublist_cons_self _ _, ?_⟩
      intro ini x h
      have hl := hlast ((id, key) :: ini) x (by rw [h]; rfl)
      have hne : id ≠ x.1 := by
        intro heq
        rw [h] at hnd
        simp only [List.map_cons, List.map_append, List.map_nil, List.nodup_cons] at hnd
        apply hnd.1; rw [heq]; simp
      rw [if_neg]
      · exact hl
      · rw [hl]; intro h2; injection h2; omega
    · rw [if_neg hk]
      have hnd' : (fl.map (·.1)).Nodup := (List.nodup_cons.1 hnd).2
      have hidnot : id ∉ fl.map (·.1) := (List.nodup_cons.1 hnd).1
      rcases ih (.node id) hnd' (by
          intro ini x h
          exact hlast ((id, v) :: ini) x (by rw [h]; rfl)) (by
          intro p hp h2
          injection h2 with h2
          exact hidnot (List.mem_map.2 ⟨p, hp, h2.symm⟩)) with ⟨h1, h2⟩ | ⟨fl', last', h1, h2, h3, h4, h5⟩
      · left
        rw [h1]
        refine ⟨rfl, ?_⟩
        simp only [List.map_cons, List.mem_cons, not_or]
        exact ⟨hk, h2⟩
      · right
        rw [h1]
        refine ⟨(id, v) :: fl', last', rfl, ?_, ?_, h4.cons_cons _, ?_⟩
        · simp only [List.map_cons, List.mem_cons]; exact Or.inr h2
        · simp only [List.map_cons, h3]
          rw [List.erase_cons_tail (by simpa using fun h => hk h.symm)]
        · intro ini x h
          cases ini with
          | nil =>
            simp only [List.nil_append, List.cons.injEq] at h
            obtain ⟨h6, h7⟩ := h
            -- the only remaining element was removed: the predecessor is this node
            subst h7
            subst h6
            -- fl had exactly one element, the removed one
            have hlen : fl.length = 1 := by
              have := congrArg List.length h3
              simp only [List.map_nil, List.length_nil, List.length_erase, List.length_map] at this
              rw [if_pos h2] at this
              have hpos : 0 < fl.length := by
                cases fl with
                | nil => simp at h2
                | cons a b => simp
              omega
            obtain ⟨y, hy⟩ := List.length_eq_one_iff.1 hlen
            subst hy
            have hl := hlast [(id, v)] y rfl
            simp only [removeLoop] at h1
            split at h1
            · simp only [Option.some.injEq, Prod.mk.injEq] at h1
              rw [← h1.2, if_pos hl.symm]
            · simp at h1
          | cons b ini =>
            simp only [List.cons_append, List.cons.injEq] at h
            exact h5 ini x h.2

theorem inv_remove (q : Queue α) (hq : q.Inv) (key : α) :
    (q.removeByKey key).1.Inv ∧ (q.removeByKey key).1.elems = q.elems.erase key ∧
      ((q.removeByKey key).2 = true ↔ key ∈ q.elems) := by
  unfold Queue.removeByKey
  split
  · rename_i he
    exact ⟨hq, by simp [Queue.elems, he], by simp [Queue.elems, he]⟩
  · rcases removeLoop_spec key q.last .beforeBegin q.fl hq.nodup hq.last
      (by intro p _ h; cases h) with ⟨h1, h2⟩ | ⟨fl', last', h1, h2, h3, h4, h5⟩
    · rw [h1]
      refine ⟨hq, ?_, ?_⟩
      · exact (List.erase_of_not_mem h2).symm
      · simp [Queue.elems]; simpa using h2
    · rw [h1]
      refine ⟨⟨?_, fun p hp => hq.fresh p (h4.mem hp), h5⟩, h3, iff_of_true rfl h2⟩
      exact (h4.map _).nodup hq.nodup

theorem inv_pop (q q' : Queue α) (hq : q.Inv) (h : q.pop = some q') :
    q'.Inv ∧ ∃ v, q.elems = v :: q'.elems := by
  unfold Queue.pop at h
  cases hfl : q.fl with
  | nil => rw [hfl] at h; simp at h
  | cons a rest =>
    rw [hfl] at h
    simp only [Option.some.injEq] at h
    subst h
    have hnd := hq.nodup
    rw [hfl] at hnd
    refine ⟨⟨(List.nodup_cons.1 hnd).2, fun p hp => hq.fresh p (by rw [hfl]; simp [hp]), ?_⟩,
      a.2, by simp [Queue.elems, hfl]⟩
    intro ini x hx
    exact hq.last (a :: ini) x (by rw [hfl]; exact congrArg (a :: ·) hx)

/-- One operation refines its specification. -/
theorem step_refines (q : Queue α) (hq : q.Inv) (op : Op α) (l : List α)
    (hspec : op.spec q.elems = some l) :
    ∃ q', op.run q = some q' ∧ q'.Inv ∧ q'.elems = l := by
  cases op with
  | pushBack v =>
    obtain ⟨q', h1, h2, h3⟩ := inv_pushBack q hq v
    exact ⟨q', h1, h2, by rw [h3]; exact Option.some.inj hspec⟩
  | pushFront v =>
    have := inv_pushFront q hq v
    exact ⟨_, rfl, this.1, by rw [this.2]; exact Option.some.inj hspec⟩
  | pop =>
    cases hfl : q.fl with
    | nil => simp [Op.spec, Queue.elems, hfl] at hspec
    | cons a rest =>
      have hp : q.pop = some { q with fl := rest } := by simp [Queue.pop, hfl]
      have := (inv_pop q _ hq hp).1
      refine ⟨_, hp, this, ?_⟩
      simp only [Op.spec, Queue.elems, hfl, List.map_cons, Option.some.injEq] at hspec
      exact hspec
  | remove key =>
    have := inv_remove q hq key
    exact ⟨_, rfl, this.1, by rw [this.2.1]; exact Option.some.inj hspec⟩
  | clear =>
    refine ⟨_, rfl, ⟨by simp [Queue.clear], by simp [Queue.clear], ?_⟩, ?_⟩
    · intro ini x h; simp [Queue.clear] at h
    · simp only [Op.spec, Option.some.injEq] at hspec
      rw [← hspec]; rfl

/-- The specification over a history; `none` if it pops an empty sequence. -/
def specRun (l : List α) : List (Op α) → Option (List α)
  | [] => some l
  | op :: ops => (op.spec l).bind fun l' => specRun l' ops

/-- The queue over a history. -/
def queueRun (q : Queue α) : List (Op α) → Option (Queue α)
  | [] => some q
  | op :: ops => (op.run q).bind fun q' => queueRun q' ops

theorem run_refines (ops : List (Op α)) (q : Queue α) (hq : q.Inv) (l : List α)
    (h : specRun q.elems ops = some l) :
    ∃ q', queueRun q ops = some q' ∧ q'.Inv ∧ q'.elems = l := by
  induction ops generalizing q with
  | nil => exact ⟨q, rfl, hq, Option.some.inj h⟩
  | cons op ops ih =>
    simp only [specRun, Option.bind_eq_some_iff] at h
    obtain ⟨l', h1, h2⟩ := h
    obtain ⟨q', h3, h4, h5⟩ := step_refines q hq op l' h1
    rw [← h5] at h2
    obtain ⟨q'', h6, h7⟩ := ih q' h4 h2
    exact ⟨q'', by simp only [queueRun, h3, Option.bind_some, h6], h7⟩

omit [DecidableEq α] in
theorem empty_inv : (Queue.empty : Queue α).Inv :=
  ⟨by simp [Queue.empty], by simp [Queue.empty], by intro i x h; simp [Queue.empty] at h⟩

theorem ofList_fl (init : List α) :
    (Queue.ofList init).fl = init.zipIdx.map fun p => (p.2, p.1) := by
  simp only [Queue.ofList]; split
  · rename_i h; simp only; exact h.symm
  · rfl

theorem ofList_inv (init : List α) : (Queue.ofList init).Inv ∧ (Queue.ofList init).elems = init := by
  have hids : (init.zipIdx.map fun p => (p.2, p.1)).map (·.1) = List.range init.length := by
    rw [List.map_map]
    show init.zipIdx.map Prod.snd = _
    rw [List.zipIdx_map_snd, List.range_eq_range']
  have hvals : (init.zipIdx.map fun p => (p.2, p.1)).map (·.2) = init := by
    rw [List.map_map]
    show init.zipIdx.map Prod.fst = _
    rw [List.zipIdx_map_fst]
  refine ⟨⟨?_, ?_, ?_⟩, by rw [Queue.elems, ofList_fl]; exact hvals⟩
  · rw [ofList_fl, hids]; exact List.nodup_range
  · intro p hp
    rw [ofList_fl] at hp
    have : p.1 ∈ List.range init.length := by rw [← hids]; exact List.mem_map.2 ⟨p, hp, rfl⟩
    rw [List.mem_range] at this
    simp only [Queue.ofList]
    split
    · rename_i h; rw [h] at hp; simp at hp
    · exact this
  · intro ini x h
    rw [ofList_fl] at h
    unfold Queue.ofList
    rw [h]
    simp

/-- C50: after any history of operations on a queue built empty or from a list, in which nothing is
popped from an empty queue, no undefined behaviour has occurred and the queue holds exactly what the
same operations on a plain list give. -/
theorem C50_queue_is_list (init : List α) (ops : List (Op α)) (l : List α)
    (h : specRun init ops = some l) :
    ∃ q, queueRun (Queue.ofList init) ops = some q ∧ q.elems = l ∧ q.front = l.head? ∧
      (l ≠ [] → q.back = l.getLast?) := by
  have hinv := ofList_inv init
  rw [← hinv.2] at h
  obtain ⟨q, h1, h2, h3⟩ := run_refines ops (Queue.ofList init) hinv.1 l h
  rcases List.eq_nil_or_concat q.fl with he | ⟨ini, x, hx⟩
  · have hl : l = [] := by rw [← h3, Queue.elems, he]; rfl
    subst hl
    exact ⟨q, h1, h3, by simp [Queue.front, he], by simp⟩
  · refine ⟨q, h1, h3, ?_, fun _ => ?_⟩
    · rw [← h3, Queue.front, Queue.elems]; simp
    · rw [List.concat_eq_append] at hx
      have hl := h2.last ini x hx
      have hnd := h2.nodup
      rw [hx] at hnd
      have hne := nodup_concat ini x hnd
      rw [← h3, Queue.back, hl, Queue.elems, hx]
      have hf : (ini ++ [x]).find? (fun p => decide (p.1 = x.1)) = some x := by
        rw [List.find?_append]
        have : ini.find? (fun p => decide (p.1 = x.1)) = none := by
          rw [List.find?_eq_none]; intro p hp; simpa using hne p hp
        simp [this]
      simp [hf]

/-- C50: removal by key reports whether the key was present, after any history. -/
theorem C50_remove_reports (init : List α) (ops : List (Op α)) (l : List α)
    (h : specRun init ops = some l) (q : Queue α)
    (hq : queueRun (Queue.ofList init) ops = some q) (key : α) :
    (q.removeByKey key).2 = true ↔ key ∈ l := by
  have hinv := ofList_inv init
  rw [← hinv.2] at h
  obtain ⟨q', h1, h2, h3⟩ := run_refines ops (Queue.ofList init) hinv.1 l h
  rw [h1] at hq
  obtain rfl := Option.some.inj hq
  rw [← h3]
  exact (inv_remove q' h2 key).2.2

example : specRun [1, 2, 3] [.remove 3, .pushBack 4, .pop, .pop, .remove 4, .pushBack 5,
    .pushFront 6, .pop, .pushBack 7] = some [5, 7] ∧
    ((queueRun (Queue.ofList [1, 2, 3]) [.remove 3, .pushBack 4, .pop, .pop, .remove 4, .pushBack 5,
      .pushFront 6, .pop, .pushBack 7]).map (·.elems)) = some [5, 7] := by decide +kernel

end Hdtn.ForwardListQueue
