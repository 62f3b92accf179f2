import Verif.CgrMulti.Spec
import Verif.Cgr.Final

/-!
The binary search, the adjacency lists and the queue.
-/

namespace Hdtn.CgrMulti

open Hdtn.Cgr Hdtn.Cgr.Spec Spec

/-- Ends in ascending order. -/
def Ascending (l : List Link) : Prop := l.Pairwise (fun x y => x.1.stop ≤ y.1.stop)

theorem Ascending.le {l : List Link} (h : Ascending l) {i j : Nat} {x y : Link}
    (hi : l[i]? = some x) (hj : l[j]? = some y) (hij : i ≤ j) : x.1.stop ≤ y.1.stop := by
  obtain ⟨hi', rfl⟩ := List.getElem?_eq_some_iff.mp hi
  obtain ⟨hj', rfl⟩ := List.getElem?_eq_some_iff.mp hj
  rcases Nat.lt_or_eq_of_le hij with hlt | rfl
  · exact List.pairwise_iff_getElem.mp h i j hi' hj' hlt
  · exact Int.le_refl _

theorem bisect_spec {l : List Link} {t : Int} (hs : Ascending l) (fuel left right : Nat)
    {x : Link} (hl : l[left]? = some x) (hx : x.1.stop ≤ t) (hlr : left < right)
    (hr : right < l.length) (hrt : right = l.length - 1 ∨ ∀ y, l[right]? = some y → t < y.1.stop)
    (hf : right - left < fuel) :
    ∃ k, bisect l t fuel left right = some k ∧ k < l.length ∧
      (∀ j y, j < k → l[j]? = some y → y.1.stop ≤ t) ∧
      (k = l.length - 1 ∨ ∀ y, l[k]? = some y → t < y.1.stop) := by
  induction fuel generalizing left right x with
  | zero => omega
  | succ fuel ih =>
    simp only [bisect]
    by_cases hc : left + 1 < right
    · rw [if_pos hc]
      have hm : (left + right) / 2 < l.length := by omega
      rw [List.getElem?_eq_getElem hm]
      simp only
      by_cases hgt : (l[(left + right) / 2]).1.stop > t
      · rw [if_pos hgt]
        refine ih left _ hl hx (by omega) hm (.inr ?_) (by omega)
        intro y hy
        rw [List.getElem?_eq_getElem hm] at hy
        cases hy
        exact hgt
      · rw [if_neg hgt]
        exact ih _ right (List.getElem?_eq_getElem hm) (by omega) (by omega) hr hrt (by omega)
    · rw [if_neg hc]
      refine ⟨right, rfl, hr, ?_, hrt⟩
      intro j y hj hy
      exact Int.le_trans (hs.le hy hl (by omega)) hx

/-- The binary search finds the first contact that ends after the given time, or the last one. -/
theorem searchIndex_spec {l : List Link} (hs : Ascending l) (hne : l ≠ []) (t : Int) :
    ∃ k, searchIndex l t = some k ∧ k < l.length ∧
      (∀ j y, j < k → l[j]? = some y → y.1.stop ≤ t) ∧
      (k = l.length - 1 ∨ ∀ y, l[k]? = some y → t < y.1.stop) := by
  unfold searchIndex
  have h0 : 0 < l.length := List.length_pos_iff.mpr hne
  rw [List.getElem?_eq_getElem h0]
  simp only
  by_cases hgt : l[0].1.stop > t
  · rw [if_pos hgt]
    refine ⟨0, rfl, h0, by omega, .inr ?_⟩
    intro y hy
    rw [List.getElem?_eq_getElem h0] at hy
    cases hy
    exact hgt
  · rw [if_neg hgt]
    by_cases h1 : l.length = 1
    · refine ⟨0, ?_, h0, by omega, .inl (by omega)⟩
      rw [h1]; rfl
    · exact bisect_spec hs _ 0 _ (List.getElem?_eq_getElem h0) (by omega) (by omega) (by omega)
        (.inl rfl) (by omega)

/-- One after the other. -/
def Ordered (l : List Link) : Prop := l.Pairwise (fun x y => x.1.stop ≤ y.1.start)

theorem Ordered.ascending {l : List Link} (h : Ordered l) (hp : ∀ x ∈ l, x.1.start < x.1.stop) :
    Ascending l := by
  induction l with
  | nil => exact List.Pairwise.nil
  | cons a l ih =>
    obtain ⟨h1, h2⟩ := List.pairwise_cons.mp h
    refine List.pairwise_cons.mpr ⟨?_, ih h2 (fun x hx => hp x (List.mem_cons_of_mem _ hx))⟩
    intro y hy
    have := h1 y hy
    have := hp y (List.mem_cons_of_mem _ hy)
    omega

theorem Ordered.le {l : List Link} (h : Ordered l) {i j : Nat} {x y : Link}
    (hi : l[i]? = some x) (hj : l[j]? = some y) (hij : i < j) : x.1.stop ≤ y.1.start := by
  obtain ⟨hi', rfl⟩ := List.getElem?_eq_some_iff.mp hi
  obtain ⟨hj', rfl⟩ := List.getElem?_eq_some_iff.mp hj
  exact List.pairwise_iff_getElem.mp h i j hi' hj' hij

theorem mem_take_get {l : List Link} {k : Nat} {x : Link} (h : x ∈ l.take k) :
    ∃ j, j < k ∧ l[j]? = some x := by
  obtain ⟨j, hj, rfl⟩ := List.mem_iff_getElem.mp h
  rw [List.length_take] at hj
  exact ⟨j, by omega, by rw [List.getElem_take]; exact List.getElem?_eq_getElem (by omega)⟩

theorem mem_drop_get {l : List Link} {k : Nat} {x : Link} (h : x ∈ l.drop k) :
    ∃ j, k ≤ j ∧ l[j]? = some x := by
  obtain ⟨j, hj, rfl⟩ := List.mem_iff_getElem.mp h
  rw [List.length_drop] at hj
  exact ⟨k + j, by omega, by rw [List.getElem_drop]; exact List.getElem?_eq_getElem (by omega)⟩

theorem addLink_spec {l : List Link} {ci : Link} (ho : Ordered l)
    (hp : ∀ x ∈ l, x.1.start < x.1.stop) (hc : ci.1.start < ci.1.stop)
    (hsep : ∀ x ∈ l, x.1.stop ≤ ci.1.start ∨ ci.1.stop ≤ x.1.start) :
    ∃ l', addLink l ci = some l' ∧ l'.Perm (ci :: l) ∧ Ordered l' := by
  unfold addLink
  cases hl : l.getLast? with
  | none =>
    rw [List.getLast?_eq_none_iff] at hl
    subst hl
    exact ⟨[ci], rfl, List.Perm.refl _, List.pairwise_singleton _ _⟩
  | some last =>
    obtain ⟨q, rfl⟩ := List.getLast?_eq_some_iff.mp hl
    have hlm : last ∈ q ++ [last] := by simp
    simp only
    have hlast := hp last hlm
    by_cases hgt : ci.1.start > last.1.start
    · rw [if_pos hgt]
      refine ⟨_, rfl, List.perm_append_singleton _ _, ?_⟩
      refine List.pairwise_append.mpr ⟨ho, List.pairwise_singleton _ _, ?_⟩
      intro x hx y hy
      rw [List.mem_singleton] at hy
      subst hy
      have h1 : last.1.stop ≤ y.1.start := by
        rcases hsep last hlm with h | h
        · exact h
        · omega
      rcases List.mem_append.mp hx with hx | hx
      · have := (List.pairwise_append.mp ho).2.2 x hx last (by simp)
        omega
      · rw [List.mem_singleton] at hx
        subst hx
        exact h1
    · rw [if_neg hgt]
      obtain ⟨k, e, hk, hlo, hhi⟩ :=
        searchIndex_spec (ho.ascending hp) (by simp : q ++ [last] ≠ []) ci.1.start
      rw [e]
      refine ⟨_, rfl, ?_, ?_⟩
      · refine (List.perm_middle).trans ?_
        rw [List.take_append_drop]
      · have hcl : ci.1.stop ≤ last.1.start := by
          rcases hsep last hlm with h | h
          · omega
          · exact h
        have hafter : ∀ x ∈ (q ++ [last]).drop k, ci.1.stop ≤ x.1.start := by
          intro x hx
          obtain ⟨j, hj, hxj⟩ := mem_drop_get hx
          have hxm : x ∈ q ++ [last] := List.mem_of_getElem? hxj
          rcases hsep x hxm with h | h
          · exfalso
            have hkx : ∀ y, (q ++ [last])[k]? = some y → ci.1.start < y.1.stop := by
              rcases hhi with h' | h'
              · intro y hy
                have : (q ++ [last])[k]? = some last := by
                  rw [h']; simp
                rw [this] at hy; cases hy
                omega
              · exact h'
            have h1 := hkx _ (List.getElem?_eq_getElem hk)
            have h2 := (ho.ascending hp).le (List.getElem?_eq_getElem hk) hxj hj
            omega
          · exact h
        refine List.pairwise_append.mpr ⟨ho.sublist (List.take_sublist _ _),
          List.pairwise_cons.mpr ⟨hafter, ho.sublist (List.drop_sublist _ _)⟩, ?_⟩
        intro x hx y hy
        obtain ⟨j, hj, hxj⟩ := mem_take_get hx
        rcases List.mem_cons.mp hy with rfl | hy
        · exact hlo j x hj hxj
        · obtain ⟨j', hj', hyj⟩ := mem_drop_get hy
          exact ho.le hxj hyj (by omega)

theorem addLinks_spec (cs : List Link) {l : List Link} (ho : Ordered l)
    (hp : ∀ x ∈ l ++ cs, x.1.start < x.1.stop)
    (hsep : (l ++ cs).Pairwise
      (fun x y => x.1.stop ≤ y.1.start ∨ y.1.stop ≤ x.1.start)) :
    ∃ l', addLinks l cs = some l' ∧ l'.Perm (l ++ cs) ∧ Ordered l' := by
  induction cs generalizing l with
  | nil => exact ⟨l, rfl, by simp, ho⟩
  | cons ci cs ih =>
    have hmid := List.pairwise_append.mp hsep
    obtain ⟨l1, e1, p1, o1⟩ := addLink_spec (ci := ci) ho
      (fun x hx => hp x (List.mem_append_left _ hx)) (hp ci (by simp))
      (fun x hx => hmid.2.2 x hx ci (List.mem_cons_self ..))
    have pp : (l1 ++ cs).Perm (l ++ ci :: cs) :=
      (p1.append_right cs).trans (List.perm_middle (a := ci) (l₁ := l) (l₂ := cs)).symm
    obtain ⟨l2, e2, p2, o2⟩ := ih o1 (fun x hx => hp x (pp.mem_iff.mp hx))
      (hsep.perm pp.symm (fun h => h.symm))
    exact ⟨l2, by simp only [addLinks, e1, e2], p2.trans pp, o2⟩

theorem links_spec {plan : List Contact} (hs : Separate plan) (hp : Proper plan) (a b : Nat) :
    ∃ l, links plan a b = some l ∧ Ordered l ∧
      ∀ ci : Link, ci ∈ l ↔ plan[ci.2]? = some ci.1 ∧ ci.1.frm = a ∧ ci.1.dst = b := by
  have hmem : ∀ ci : Link, ci ∈ plan.zipIdx.filter (fun ci => ci.1.frm == a && ci.1.dst == b) ↔
      plan[ci.2]? = some ci.1 ∧ ci.1.frm = a ∧ ci.1.dst = b := by
    rintro ⟨c, i⟩
    simp [List.mem_zipIdx_iff_getElem?]
  obtain ⟨l, e, p, o⟩ := addLinks_spec
    (plan.zipIdx.filter (fun ci => ci.1.frm == a && ci.1.dst == b)) (l := []) List.Pairwise.nil
    (by
      intro x hx
      exact (hp x.1 (List.mem_of_getElem? ((hmem x).mp hx).1)).1)
    (by
      rw [List.nil_append]
      have hnd : plan.zipIdx.Pairwise (fun x y => x.2 ≠ y.2) := by
        have : (plan.zipIdx.map Prod.snd).Nodup := by
          rw [List.zipIdx_map_snd]
          exact List.nodup_range'
        exact List.pairwise_map.mp this
      refine List.Pairwise.imp_of_mem ?_ (hnd.filter _)
      intro x y hx hy hne
      obtain ⟨x1, x2, x3⟩ := (hmem x).mp hx
      obtain ⟨y1, y2, y3⟩ := (hmem y).mp hy
      exact (hs x.2 y.2 x.1 y.1 x1 y1 hne (x2.trans y2.symm) (x3.trans y3.symm)).1)
  refine ⟨l, e, o, fun ci => ?_⟩
  rw [p.mem_iff, List.nil_append]
  exact hmem ci

/-- The contact the code takes is the one that gets there first. -/
theorem searchLink_spec {plan : List Contact} {l : List Link} (hs : Separate plan)
    (hp : Proper plan) {a b : Nat} (ho : Ordered l)
    (hl : ∀ ci : Link, ci ∈ l ↔ plan[ci.2]? = some ci.1 ∧ ci.1.frm = a ∧ ci.1.dst = b)
    {last : Link} (hlast : l.getLast? = some last) (t : Int) :
    ∃ best, searchLink l t = some best ∧ best ∈ l ∧
      (t < last.1.stop → t < best.1.stop ∧
        ∀ c ∈ l, t < c.1.stop → arrive t best.1 ≤ arrive t c.1) ∧
      (∀ c ∈ l, c.1.stop ≤ last.1.stop) := by
  have hpl : ∀ x ∈ l, x.1.start < x.1.stop :=
    fun x hx => (hp x.1 (List.mem_of_getElem? ((hl x).mp hx).1)).1
  have hne : l ≠ [] := by rintro rfl; cases hlast
  have hasc := ho.ascending hpl
  obtain ⟨k, e, hk, hlo, hhi⟩ := searchIndex_spec hasc hne t
  have hlx : l[l.length - 1]? = some last := by rw [← List.getLast?_eq_getElem?]; exact hlast
  refine ⟨l[k], ?_, List.getElem_mem _, ?_, ?_⟩
  · unfold searchLink
    rw [e]
    exact List.getElem?_eq_getElem hk
  · intro hlt
    have hbt : t < l[k].1.stop := by
      rcases hhi with h | h
      · rw [← h] at hlx
        obtain ⟨_, hlx⟩ := List.getElem?_eq_some_iff.mp hlx
        rw [hlx]
        exact hlt
      · exact h _ (List.getElem?_eq_getElem hk)
    refine ⟨hbt, ?_⟩
    intro c hc hct
    obtain ⟨j, hj, rfl⟩ := List.mem_iff_getElem.mp hc
    rcases Nat.lt_trichotomy j k with h | h | h
    · have := hlo j _ h (List.getElem?_eq_getElem hj)
      omega
    · subst h; exact Int.le_refl _
    · have h1 := ho.le (List.getElem?_eq_getElem hk) (List.getElem?_eq_getElem hj) h
      obtain ⟨m1, m2, m3⟩ := (hl _).mp (List.getElem_mem hk)
      obtain ⟨n1, n2, n3⟩ := (hl _).mp hc
      have hi : l[k].2 ≠ l[j].2 := by
        intro he
        rw [he, n1] at m1
        injection m1 with m1
        have := hpl _ hc
        rw [← m1] at h1
        omega
      have ho' := (hs _ _ _ _ m1 n1 hi (m2.trans n2.symm) (m3.trans n3.symm)).2
      have := hpl _ (List.getElem_mem hk)
      unfold arrive
      omega
  · intro c hc
    obtain ⟨j, hj, rfl⟩ := List.mem_iff_getElem.mp hc
    exact hasc.le (List.getElem?_eq_getElem hj) hlx (by omega)

theorem top_none {q : List (Int × Nat)} (h : top q = none) : q = [] := by
  cases q with
  | nil => rfl
  | cons x q =>
    simp only [top] at h
    cases hq : top q with
    | none => rw [hq] at h; cases h
    | some y =>
      rw [hq] at h
      simp only at h
      split at h <;> cases h

/-- The first entry of the queue: the earliest, and of these the one with the smallest id. -/
theorem top_some {q : List (Int × Nat)} {x : Int × Nat} (h : top q = some x) :
    x ∈ q ∧ ∀ y ∈ q, x.1 < y.1 ∨ (x.1 = y.1 ∧ x.2 ≤ y.2) := by
  induction q generalizing x with
  | nil => cases h
  | cons a q ih =>
    simp only [top] at h
    cases hq : top q with
    | none =>
      rw [hq] at h
      cases h
      rw [top_none hq]
      refine ⟨by simp, fun y hy => ?_⟩
      rw [List.mem_singleton] at hy
      subst hy
      exact .inr ⟨rfl, Nat.le_refl _⟩
    | some b =>
      rw [hq] at h
      obtain ⟨h1, h2⟩ := ih hq
      simp only at h
      by_cases hb : before b a = true
      · rw [if_pos hb] at h
        cases h
        refine ⟨List.mem_cons_of_mem _ h1, fun y hy => ?_⟩
        rcases List.mem_cons.mp hy with rfl | hy
        · simp only [before, Bool.or_eq_true, Bool.and_eq_true, decide_eq_true_eq] at hb
          omega
        · exact h2 y hy
      · rw [if_neg hb] at h
        cases h
        refine ⟨List.mem_cons_self .., fun y hy => ?_⟩
        rcases List.mem_cons.mp hy with rfl | hy
        · exact .inr ⟨rfl, Nat.le_refl _⟩
        · have h3 := h2 y hy
          simp only [before, Bool.or_eq_true, Bool.and_eq_true, decide_eq_true_eq] at hb
          omega

end Hdtn.CgrMulti
