import Verif.LtpMisc.Model

/-!
Property C21: which sessions the recreation preventer remembers.
-/

namespace Hdtn.LtpMisc

/-! Specification -/

/-- The sessions recorded last, newest first, when at most `n` are remembered: a session that is
still remembered is not recorded again. -/
def recent (n : Nat) (hist : List Nat) : List Nat :=
  hist.foldl (fun r x => if x ∈ r then r else (x :: r).take n) []

/-- The sessions ever recorded, newest first: the additions that were not refused. -/
def recorded (n : Nat) : List Nat → List Nat × List Nat → List Nat × List Nat
  | [], a => a
  | x :: hist, (all, r) =>
    recorded n hist (if x ∈ r then (all, r) else (x :: all, (x :: r).take n))

/-- Adding a history of sessions. -/
def Preventer.addAll (p : Preventer) : List Nat → Option Preventer
  | [] => some p
  | x :: hist => (p.add x).bind fun q => q.1.addAll hist

/-- The state remembers exactly the list `r` (newest first). -/
structure Inv (p : Preventer) (r : List Nat) : Prop where
  len : p.queue.length = p.num
  pos : p.next < p.num
  nodup : r.Nodup
  setNodup : p.set.Nodup
  mem : ∀ x, x ∈ p.set ↔ x ∈ r
  ring : if p.full then r.reverse = p.queue.drop p.next ++ p.queue.take p.next
    else r.reverse = p.queue.take p.next

theorem Inv.length {p : Preventer} {r : List Nat} (h : Inv p r) :
    r.length = if p.full then p.num else p.next := by
  have hr := h.ring
  have h1 := h.len
  have h2 := h.pos
  split at hr <;> rename_i hf
  · have := congrArg List.length hr
    simp only [List.length_reverse, List.length_append, List.length_drop, List.length_take] at this
    rw [if_pos hf]; omega
  · have := congrArg List.length hr
    simp only [List.length_reverse, List.length_take] at this
    rw [if_neg hf]; omega

theorem set_take_succ (q : List Nat) (i x : Nat) (h : i < q.length) :
    (q.set i x).take (i + 1) = q.take i ++ [x] := by
  rw [List.take_add_one, List.take_set, List.set_eq_of_length_le (by simp)]
  simp [h]

theorem set_drop_succ (q : List Nat) (i x : Nat) :
    (q.set i x).drop (i + 1) = q.drop (i + 1) := by
  simp [List.drop_set]

theorem init_inv (n : Nat) (hn : 1 ≤ n) : Inv (Preventer.init n) [] := by
  refine ⟨by simp [Preventer.init], by simp [Preventer.init]; omega, by simp, by simp [Preventer.init],
    by simp [Preventer.init], by simp [Preventer.init]⟩

theorem add_inv (p : Preventer) (r : List Nat) (h : Inv p r) (x : Nat) :
    ∃ q, p.add x = some (q, decide (x ∉ r)) ∧ q.num = p.num ∧
      Inv q (if x ∈ r then r else (x :: r).take p.num) := by
  have hlen := h.length
  have hql := h.len
  have hpos := h.pos
  have hr := h.ring
  unfold Preventer.add
  by_cases hx : x ∈ r
  · rw [if_pos ((h.mem x).2 hx)]
    refine ⟨p, by simp [hx], rfl, ?_⟩
    rw [if_pos hx]; exact h
  · rw [if_neg (fun h' => hx ((h.mem x).1 h')), if_neg hx]
    have hxset : x ∉ p.set := fun h' => hx ((h.mem x).1 h')
    cases hf : p.full with
    | false =>
      rw [hf] at hr hlen
      simp only [Bool.false_eq_true, if_false] at hr hlen ⊢
      have htake : (x :: r).take p.num = x :: r := List.take_of_length_le (by simp; omega)
      rw [htake]
      have hstore : p.next < p.queue.length := by omega
      have hmem : ∀ y, y ∈ x :: p.set ↔ y ∈ x :: r := by
        intro y; simp only [List.mem_cons, h.mem y]
      simp only [Preventer.store, if_pos hstore]
      refine ⟨_, by simp [hx]; rfl, ?_, ?_⟩
      · split <;> rfl
      · split
        · rename_i hge
          refine ⟨by simp [hql], by simp; omega, List.nodup_cons.2 ⟨hx, h.nodup⟩,
            List.nodup_cons.2 ⟨hxset, h.setNodup⟩, hmem, ?_⟩
          simp only [if_true, List.drop_zero, List.take_zero, List.append_nil, List.reverse_cons, hr]
          rw [← set_take_succ _ _ _ hstore, List.take_of_length_le]
          simp; omega
        · rename_i hge
          refine ⟨by simp [hql], by simp; omega, List.nodup_cons.2 ⟨hx, h.nodup⟩,
            List.nodup_cons.2 ⟨hxset, h.setNodup⟩, hmem, ?_⟩
          simp only [hf, Bool.false_eq_true, if_false, List.reverse_cons, hr]
          rw [set_take_succ _ _ _ hstore]
    | true =>
      rw [hf] at hr hlen
      simp only [if_true] at hr hlen ⊢
      have hstore : p.next < p.queue.length := by omega
      have hget : p.queue[p.next]? = some p.queue[p.next] := List.getElem?_eq_getElem hstore
      rw [hget]
      simp only
      rw [List.drop_eq_getElem_cons hstore] at hr
      generalize hold : p.queue[p.next] = old at hr hget
      -- r = newer ++ [old]
      have hr' : r = (p.queue.drop (p.next + 1) ++ p.queue.take p.next).reverse ++ [old] := by
        have := congrArg List.reverse hr
        simpa using this
      generalize hnew : (p.queue.drop (p.next + 1) ++ p.queue.take p.next).reverse = newer at hr'
      have hnewlen : newer.length + 1 = p.num := by rw [← hlen, hr']; simp
      have htake : (x :: r).take p.num = x :: newer := by
        rw [hr', ← hnewlen, List.take_succ_cons, List.take_left' rfl]
      rw [htake]
      have hnd := h.nodup
      rw [hr', List.nodup_append] at hnd
      have holdnew : old ∉ newer := fun h' => hnd.2.2 old h' old (by simp) rfl
      have holdr : old ∈ r := by rw [hr']; simp
      have hxold : x ≠ old := fun h' => hx (h' ▸ holdr)
      have holdset : old ∈ p.set := (h.mem old).2 holdr
      rw [if_pos (by simp [holdset])]
      have herase : (x :: p.set).erase old = x :: p.set.erase old :=
        List.erase_cons_tail (by simpa using hxold)
      rw [herase]
      have hmem : ∀ y, y ∈ x :: p.set.erase old ↔ y ∈ x :: newer := by
        intro y
        simp only [List.mem_cons, h.setNodup.mem_erase_iff, h.mem y]
        rw [hr']
        simp only [List.mem_append, List.mem_singleton]
        constructor
        · rintro (h1 | ⟨h1, h2 | h2⟩)
          · exact Or.inl h1
          · exact Or.inr h2
          · exact absurd h2 h1
        · rintro (h1 | h1)
          · exact Or.inl h1
          · exact Or.inr ⟨fun h2 => holdnew (h2 ▸ h1), Or.inl h1⟩
      have hnd' : (x :: newer).Nodup := by
        refine List.nodup_cons.2 ⟨fun h' => hx ?_, hnd.1⟩
        rw [hr']; simp [h']
      have hsnd : (x :: p.set.erase old).Nodup :=
        List.nodup_cons.2 ⟨fun h' => hxset (List.mem_of_mem_erase h'), h.setNodup.erase _⟩
      have hrev : (x :: newer).reverse =
          p.queue.drop (p.next + 1) ++ (p.queue.take p.next ++ [x]) := by
        rw [List.reverse_cons, ← hnew, List.reverse_reverse, List.append_assoc]
      simp only [Preventer.store, if_pos hstore]
      refine ⟨_, by simp [hx]; rfl, ?_, ?_⟩
      · split <;> rfl
      · split
        · rename_i hge
          refine ⟨by simp [hql], by simp; omega, hnd', hsnd, hmem, ?_⟩
          simp only [if_true, List.drop_zero, List.take_zero, List.append_nil]
          rw [hrev, ← set_take_succ _ _ _ hstore]
          rw [List.drop_eq_nil_of_le (by omega), List.nil_append, List.take_of_length_le]
          simp; omega
        · rename_i hge
          refine ⟨by simp [hql], by simp; omega, hnd', hsnd, hmem, ?_⟩
          simp only [hf, if_true]
          rw [hrev, set_take_succ _ _ _ hstore, set_drop_succ]

theorem addAll_inv (hist : List Nat) (p : Preventer) (r : List Nat) (h : Inv p r) :
    ∃ q, p.addAll hist = some q ∧ q.num = p.num ∧
      Inv q (hist.foldl (fun r x => if x ∈ r then r else (x :: r).take p.num) r) := by
  induction hist generalizing p r with
  | nil => exact ⟨p, rfl, rfl, h⟩
  | cons x hist ih =>
    obtain ⟨q, h1, h2, h3⟩ := add_inv p r h x
    obtain ⟨q', h4, h5, h6⟩ := ih q _ h3
    refine ⟨q', by simp only [Preventer.addAll, h1, Option.bind_some, h4], by omega, ?_⟩
    rw [List.foldl_cons, ← h2]
    rw [h2] at h6 ⊢
    exact h6

/-- C21: after any history of additions no out-of-range access has happened, the preventer answers
yes for exactly the sessions recorded last, and the next addition is refused exactly for those. -/
theorem C21_remembers_recent (n : Nat) (hn : 1 ≤ n) (hist : List Nat) :
    ∃ p, (Preventer.init n).addAll hist = some p ∧
      (∀ x, p.contains x = true ↔ x ∈ recent n hist) ∧
      ∀ x, ∃ q, p.add x = some (q, decide (x ∉ recent n hist)) := by
  obtain ⟨p, h1, h2, h3⟩ := addAll_inv hist _ _ (init_inv n hn)
  refine ⟨p, h1, fun x => ?_, fun x => ?_⟩
  · have := h3.mem x
    simp only [Preventer.contains, bne_iff_ne, ne_eq, List.count_eq_zero, not_not]
    exact this
  · obtain ⟨q, h4, _⟩ := add_inv p _ h3 x
    exact ⟨q, h4⟩

theorem recorded_spec (n : Nat) (hist : List Nat) (all r : List Nat) (h : r = all.take n) :
    (recorded n hist (all, r)).2 = (recorded n hist (all, r)).1.take n ∧
    (recorded n hist (all, r)).2 =
      hist.foldl (fun r x => if x ∈ r then r else (x :: r).take n) r := by
  induction hist generalizing all r with
  | nil => exact ⟨h, rfl⟩
  | cons x hist ih =>
    rw [recorded, List.foldl_cons]
    by_cases hx : x ∈ r
    · rw [if_pos hx, if_pos hx]; exact ih all r h
    · rw [if_neg hx, if_neg hx]
      refine ih _ _ ?_
      rw [h]
      cases n with
      | zero => simp
      | succ n => simp [List.take_take]

theorem recent_length (n : Nat) (hist : List Nat) (r : List Nat) (h : r.length ≤ n) (hr : r.Nodup) :
    (hist.foldl (fun r x => if x ∈ r then r else (x :: r).take n) r).length ≤ n ∧
    (hist.foldl (fun r x => if x ∈ r then r else (x :: r).take n) r).Nodup := by
  induction hist generalizing r with
  | nil => exact ⟨h, hr⟩
  | cons x hist ih =>
    rw [List.foldl_cons]
    by_cases hx : x ∈ r
    · rw [if_pos hx]; exact ih r h hr
    · rw [if_neg hx]
      refine ih _ (by simp) ?_
      exact ((List.take_sublist _ _).nodup (List.nodup_cons.2 ⟨hx, hr⟩))

/-- C21: the remembered sessions are the newest `n` of those recorded, all distinct; a session
remembered stays remembered until `n` others have been recorded after it. -/
theorem C21_recent_are_last_recorded (n : Nat) (hist : List Nat) :
    recent n hist = (recorded n hist ([], [])).1.take n ∧
      (recent n hist).length ≤ n ∧ (recent n hist).Nodup := by
  have h := recorded_spec n hist [] [] (by simp)
  have h2 := recent_length n hist [] (by simp) (by simp)
  exact ⟨by rw [← h.1, h.2]; rfl, h2⟩

/-- C21: with fewer than `n` distinct sessions in the history every one of them is remembered. -/
theorem C21_none_forgotten_early (n : Nat) (hist : List Nat) (h : hist.length ≤ n) (x : Nat)
    (hx : x ∈ hist) : x ∈ recent n hist := by
  have key : ∀ (hist r : List Nat), r.length + hist.length ≤ n → ∀ x, (x ∈ r ∨ x ∈ hist) →
      x ∈ hist.foldl (fun r x => if x ∈ r then r else (x :: r).take n) r := by
    intro hist
    induction hist with
    | nil => intro r _ x hx; simpa using hx
    | cons y hist ih =>
      intro r hl x hx
      simp only [List.length_cons] at hl
      rw [List.foldl_cons]
      by_cases hy : y ∈ r
      · rw [if_pos hy]
        refine ih r (by omega) x ?_
        rcases hx with hx | hx
        · exact Or.inl hx
        · rcases List.mem_cons.1 hx with rfl | hx
          · exact Or.inl hy
          · exact Or.inr hx
      · rw [if_neg hy, List.take_of_length_le (by simp; omega)]
        refine ih _ (by simp; omega) x ?_
        rcases hx with hx | hx
        · exact Or.inl (by simp [hx])
        · rcases List.mem_cons.1 hx with rfl | hx
          · exact Or.inl (by simp)
          · exact Or.inr hx
  exact key hist [] (by simpa using h) x (Or.inr hx)

example : recent 3 [5, 6, 5, 7, 8, 5, 9] = [9, 5, 8] ∧
    ((Preventer.init 3).addAll [5, 6, 5, 7, 8, 5, 9]).map (·.set) = some [9, 5, 8] := by
  decide +kernel

end Hdtn.LtpMisc
