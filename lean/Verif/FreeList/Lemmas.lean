import Verif.FreeList.Spec

namespace Hdtn.FreeList

/-- How often `a` is kept by the allocators. -/
def kept (l : List Alloc) (a : Nat) : Nat := (l.map (fun x => x.list.count a)).sum

theorem kept_set (l : List Alloc) (i : Nat) (x : Alloc) (a : Nat) (h : i < l.length) :
    kept (l.set i x) a + (l.getD i ⟨[], 0, false⟩).list.count a = kept l a + x.list.count a := by
  induction l generalizing i with
  | nil => simp at h
  | cons y l ih =>
    cases i with
    | zero => simp [kept]; omega
    | succ i =>
      have := ih i (by simpa using h)
      simp only [kept, List.set_cons_succ, List.map_cons, List.sum_cons, List.getD_cons_succ] at this ⊢
      omega

theorem kept_append (l m : List Alloc) (a : Nat) : kept (l ++ m) a = kept l a + kept m a := by
  simp [kept]

theorem get_put (w : World) (i j : Nat) (x : Alloc) :
    (w.put i x).get j = if i = j ∧ i < w.allocs.length then x else w.get j := by
  simp only [World.get, World.put, List.getD_eq_getElem?_getD, List.getElem?_set]
  by_cases h : i = j
  · subst h
    by_cases h2 : i < w.allocs.length <;> simp [h2]
  · simp [h]

theorem get_append (w : World) (x : Alloc) (i : Nat) :
    ({ w with allocs := w.allocs ++ [x] } : World).get i =
      if i = w.allocs.length then x else w.get i := by
  simp only [World.get, List.getD_eq_getElem?_getD]
  by_cases h : i < w.allocs.length
  · rw [List.getElem?_append_left h, if_neg (by omega)]
  · by_cases h2 : i = w.allocs.length
    · subst h2; simp
    · rw [if_neg h2, List.getElem?_eq_none (by simp; omega), List.getElem?_eq_none (by omega)]

/-- One allocator is in order. -/
def okA (max : Nat) (x : Alloc) : Prop :=
  x.list.length = x.size ∧ x.size ≤ max ∧ (x.alive = false → x.list = [])

/-- The invariant, with the addresses `hs` in the user's hands. -/
structure Inv (max : Nat) (w : World) (hs : List Nat) : Prop where
  ok : ∀ i, okA max (w.get i)
  fault : w.fault = false
  nodup : ∀ a, w.mem.count a ≤ 1
  bal : ∀ a, w.mem.count a = hs.count a + kept w.allocs a

theorem Inv.mem {max : Nat} {w : World} {hs : List Nat} (h : Inv max w hs) {p : Nat} (hp : p ∈ hs) :
    p ∈ w.mem := by
  have := h.bal p
  have h2 := List.count_pos_iff.mpr hp
  exact List.count_pos_iff.mp (by omega)

/-- A block in the user's hands is given back to the operating system. -/
theorem Inv.release {max : Nat} {w : World} {p : Nat} {hs : List Nat} (h : Inv max w (p :: hs)) :
    Inv max (w.release p) hs := by
  have hm : p ∈ w.mem := h.mem (by simp)
  have e : w.release p = { w with mem := w.mem.erase p } := by simp [World.release, hm]
  rw [e]
  refine ⟨fun i => h.ok i, h.fault, fun a => ?_, fun a => ?_⟩
  · have := h.nodup a
    simp only [List.count_erase]
    omega
  · have := h.bal a
    simp only [List.count_erase, List.count_cons] at this ⊢
    split_ifs at this ⊢ <;> omega

theorem Inv.releases {max : Nat} (l : List Nat) {w : World} {hs : List Nat} (h : Inv max w (l ++ hs)) :
    Inv max (l.foldl World.release w) hs := by
  induction l generalizing w with
  | nil => simpa using h
  | cons p l ih => exact ih (Inv.release (by simpa using h))

theorem release_allocs (w : World) (p : Nat) : (w.release p).allocs = w.allocs := by
  simp only [World.release]; split_ifs <;> rfl

theorem releases_allocs (l : List Nat) (w : World) : (l.foldl World.release w).allocs = w.allocs := by
  induction l generalizing w with
  | nil => rfl
  | cons p l ih => rw [List.foldl_cons, ih, release_allocs]

theorem put_comm_release (w : World) (p i : Nat) (x : Alloc) :
    (w.release p).put i x = (w.put i x).release p := by
  by_cases h : p ∈ w.mem <;> simp [World.release, World.put, h]

theorem put_comm_releases (l : List Nat) (w : World) (i : Nat) (x : Alloc) :
    (l.foldl World.release w).put i x = l.foldl World.release (w.put i x) := by
  induction l generalizing w with
  | nil => rfl
  | cons p l ih => rw [List.foldl_cons, ih, put_comm_release, List.foldl_cons]

/-- An allocator is replaced; the blocks it kept, and no longer keeps, move to the user or back. -/
theorem Inv.put {max : Nat} {w : World} {hs hs' : List Nat} {i : Nat} {x : Alloc}
    (h : Inv max w hs) (hi : i < w.allocs.length) (hx : okA max x)
    (hc : ∀ a, hs'.count a + x.list.count a = hs.count a + (w.get i).list.count a) :
    Inv max (w.put i x) hs' := by
  refine ⟨fun j => ?_, h.fault, h.nodup, fun a => ?_⟩
  · rw [get_put]; split_ifs
    · exact hx
    · exact h.ok j
  · have h1 := h.bal a
    have h2 := kept_set w.allocs i x a hi
    have h3 := hc a
    simp only [World.get] at h3
    simp only [World.put]
    omega

theorem Inv.add {max : Nat} {w : World} {hs hs' : List Nat} {x : Alloc}
    (h : Inv max w hs) (hx : okA max x)
    (hc : ∀ a, hs'.count a + x.list.count a = hs.count a) :
    Inv max { w with allocs := w.allocs ++ [x] } hs' := by
  refine ⟨fun j => ?_, h.fault, h.nodup, fun a => ?_⟩
  · rw [get_append]; split_ifs
    · exact hx
    · exact h.ok j
  · have h1 := h.bal a
    have h3 := hc a
    simp only [kept_append]
    simp only [kept, List.map_cons, List.map_nil, List.sum_cons, List.sum_nil] at h1 ⊢
    omega

theorem okA_empty (max : Nat) (b : Bool) : okA max ⟨[], 0, b⟩ := by simp [okA]

theorem Inv.clear {max : Nat} {w : World} {hs : List Nat} {i : Nat}
    (h : Inv max w hs) (hi : i < w.allocs.length) : Inv max (w.clear i) hs := by
  rw [World.clear, put_comm_releases]
  apply Inv.releases
  refine h.put hi (okA_empty max _) (fun a => ?_)
  simp [List.count_append]; omega

theorem clear_length (w : World) (i : Nat) : (w.clear i).allocs.length = w.allocs.length := by
  simp [World.clear, World.put, releases_allocs]

theorem clear_get (w : World) (i : Nat) (hi : i < w.allocs.length) :
    (w.clear i).get i = { w.get i with list := [], size := 0 } := by
  rw [World.clear, get_put, releases_allocs]; simp [hi]

theorem clear_get_alive (w : World) (i j : Nat) (hi : i < w.allocs.length) :
    ((w.clear i).get j).alive = (w.get j).alive := by
  rw [World.clear, get_put, releases_allocs]
  split_ifs with hc
  · rw [hc.1]
  · simp [World.get, releases_allocs]

theorem Inv.osNew {max : Nat} {w : World} {hs : List Nat} {p : Nat} (h : Inv max w hs) (hp : p ∉ w.mem) :
    Inv max { w with mem := p :: w.mem } (p :: hs) := by
  refine ⟨fun i => h.ok i, h.fault, fun a => ?_, fun a => ?_⟩
  · have := h.nodup a
    have h0 : w.mem.count p = 0 := List.count_eq_zero.mpr hp
    simp only [List.count_cons, beq_iff_eq]
    split_ifs with hc
    · subst hc; omega
    · omega
  · have := h.bal a
    simp only [List.count_cons]
    omega

theorem Inv.allocate {max : Nat} {w : World} {hs : List Nat} {i n p : Nat} (h : Inv max w hs)
    (hi : i < w.allocs.length) (ha : (w.get i).alive = true) (hp : p ∉ w.mem) :
    Inv max (w.allocate i n p).2 ((w.allocate i n p).1 :: hs) := by
  unfold World.allocate
  split_ifs with hn
  · cases hl : (w.get i).list with
    | nil => exact h.osNew hp
    | cons q r =>
      have ho := h.ok i
      refine h.put hi ?_ (fun a => ?_)
      · simp only [okA, hl, List.length_cons] at ho ⊢
        refine ⟨by omega, by omega, fun hd => ?_⟩
        rw [ha] at hd; cases hd
      · rw [hl]; simp only [List.count_cons]; omega
  · exact h.osNew hp

theorem Inv.deallocate {max : Nat} {w : World} {hs : List Nat} {i n p : Nat} (h : Inv max w (p :: hs))
    (hi : i < w.allocs.length) (ha : (w.get i).alive = true) :
    Inv max (w.deallocate max i p n) hs := by
  unfold World.deallocate
  split_ifs with hn
  · have ho := h.ok i
    refine h.put hi ?_ (fun a => ?_)
    · simp only [okA, List.length_cons] at ho ⊢
      refine ⟨by omega, by omega, fun hd => ?_⟩
      rw [ha] at hd; cases hd
    · simp only [List.count_cons]; omega
  · exact h.release

theorem Inv.moveNew {max : Nat} {w : World} {hs : List Nat} {j : Nat} (h : Inv max w hs)
    (hj : j < w.allocs.length) : Inv max (w.moveNew j) hs := by
  have ho := h.ok j
  have h1 : Inv max (w.put j { w.get j with list := [], size := 0 }) ((w.get j).list ++ hs) :=
    h.put hj (okA_empty max _) (fun a => by simp [List.count_append]; omega)
  refine h1.add ⟨ho.1, ho.2.1, fun hd => by cases hd⟩ (fun a => ?_)
  simp [List.count_append]; omega

theorem Inv.moveAssign {max : Nat} {w : World} {hs : List Nat} {i j : Nat} (h : Inv max w hs)
    (hi : i < w.allocs.length) (hj : j < w.allocs.length) (ha : (w.get i).alive = true) :
    Inv max (w.moveAssign i j) hs := by
  have h1 := h.clear hi
  have hi1 : i < (w.clear i).allocs.length := by rw [clear_length]; exact hi
  have hj1 : j < (w.clear i).allocs.length := by rw [clear_length]; exact hj
  have e1 := clear_get w i hi
  unfold World.moveAssign
  simp only
  generalize w.clear i = v at h1 hi1 hj1 e1
  by_cases hij : i = j
  · subst hij
    have hl : (v.get i).list = [] := by rw [e1]
    have h2 : Inv max (v.put i { v.get i with list := (v.get i).list, size := (v.get i).size }) hs :=
      h1.put hi1 (h1.ok i) (fun a => rfl)
    refine h2.put (by simpa [World.put] using hi1) (okA_empty max _) (fun a => ?_)
    rw [get_put]; simp [hi1, hl]
  · have ho := h1.ok j
    have ea : (v.get i).alive = true := by rw [e1]; exact ha
    have hl : (v.get i).list = [] := by rw [e1]
    -- first the other one hands its blocks over, then they are taken
    have h2 : Inv max (v.put j { v.get j with list := [], size := 0 }) ((v.get j).list ++ hs) :=
      h1.put hj1 (okA_empty max _) (fun a => by simp [List.count_append]; omega)
    have h3 : Inv max ((v.put j { v.get j with list := [], size := 0 }).put i
        { v.get i with list := (v.get j).list, size := (v.get j).size }) hs := by
      refine h2.put (by simpa [World.put] using hi1) ⟨ho.1, ho.2.1, fun hd => ?_⟩ (fun a => ?_)
      · simp only at hd; rw [ea] at hd; cases hd
      · rw [get_put]; simp [Ne.symm hij, hl, List.count_append]; omega
    have e : ((v.put i { v.get i with list := (v.get j).list, size := (v.get j).size }).get j) = v.get j := by
      rw [get_put]; simp [hij]
    rw [e]
    have ec : (v.put i { v.get i with list := (v.get j).list, size := (v.get j).size }).put j
          { v.get j with list := [], size := 0 } =
        (v.put j { v.get j with list := [], size := 0 }).put i
          { v.get i with list := (v.get j).list, size := (v.get j).size } := by
      simp only [World.put, World.mk.injEq, and_true]
      exact List.set_comm _ _ hij
    rw [ec]; exact h3

theorem Inv.destroy {max : Nat} {w : World} {hs : List Nat} {i : Nat} (h : Inv max w hs)
    (hi : i < w.allocs.length) : Inv max (w.destroy i) hs := by
  have h1 := h.clear hi
  refine h1.put (by rw [clear_length]; exact hi) ?_ (fun a => rfl)
  rw [clear_get w i hi]; exact okA_empty max _

theorem inv_init (max : Nat) : Inv max Sys.init.w Sys.init.addrs := by
  refine ⟨fun i => ?_, rfl, fun a => by simp [Sys.init], fun a => by simp [Sys.init, Sys.addrs, kept]⟩
  simp [Sys.init, World.get, okA]

theorem Inv.perm {max : Nat} {w : World} {hs hs' : List Nat} (h : Inv max w hs) (hp : hs.Perm hs') :
    Inv max w hs' :=
  ⟨h.ok, h.fault, h.nodup, fun a => by rw [← hp.count_eq a]; exact h.bal a⟩

theorem inv_reach {max : Nat} {s : Sys} (h : Reach max s) : Inv max s.w s.addrs := by
  induction h with
  | init => exact inv_init max
  | @step s e _ ha ih =>
    cases e with
    | create => exact ih.add (okA_empty max true) (fun a => by simp [Sys.step, Sys.addrs, Alloc.new])
    | moveNew j => exact ih.moveNew ha.1
    | copyAssign i j => exact ih
    | moveAssign i j => exact ih.moveAssign ha.1.1 ha.2.1 ha.1.2
    | destroy i => exact ih.destroy ha.1
    | allocate i n p => exact ih.allocate ha.1.1 ha.1.2 ha.2
    | deallocate i p n =>
      have hp : s.addrs.Perm (p :: (s.held.erase (p, n)).map Prod.fst) := by
        have := (List.perm_cons_erase ha.2).map Prod.fst
        simpa [Sys.addrs] using this
      exact (ih.perm hp).deallocate ha.1.1 ha.1.2

theorem kept_zero (l : List Alloc) (a : Nat) (h : ∀ x ∈ l, x.list = []) : kept l a = 0 := by
  induction l with
  | nil => rfl
  | cons x l ih =>
    have := ih (fun y hy => h y (by simp [hy]))
    have hx := h x (by simp)
    simp only [kept, List.map_cons, List.sum_cons] at this ⊢
    rw [hx]; simpa using this

theorem kept_ge (l : List Alloc) (x : Alloc) (a : Nat) (h : x ∈ l) : x.list.count a ≤ kept l a := by
  induction l with
  | nil => simp at h
  | cons y l ih =>
    simp only [kept, List.map_cons, List.sum_cons] at ih ⊢
    rcases List.mem_cons.mp h with rfl | h
    · omega
    · have := ih h; omega

theorem get_of_mem {w : World} {x : Alloc} (h : x ∈ w.allocs) : ∃ i, i < w.allocs.length ∧ w.get i = x := by
  obtain ⟨i, hi, e⟩ := List.getElem_of_mem h
  exact ⟨i, hi, by simp [World.get, hi, e]⟩

end Hdtn.FreeList
