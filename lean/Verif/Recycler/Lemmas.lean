import Verif.Recycler.Spec

namespace Hdtn.Recycler

theorem returnable_iff (v : Vec) : returnable v = true ↔ v.useful := by
  simp [returnable, Vec.useful]

structure Inv (max : Nat) (h : Hist) : Prop where
  lim : h.bin.max = max
  cur : h.bin.cur = h.bin.list.length
  le : h.bin.cur ≤ max
  perm : h.accepted.Perm (h.out ++ h.bin.list)
  useful : ∀ v ∈ h.accepted, v.useful

theorem inv_step {max : Nat} {h : Hist} (hi : Inv max h) (c : Call) : Inv max (h.step c) := by
  obtain ⟨b, ac, out⟩ := h
  obtain ⟨l, cur, mx⟩ := b
  obtain ⟨h1, h2, h3, h4, h5⟩ := hi
  simp only at h1 h2 h3 h4 h5
  cases c with
  | giveBack v =>
    by_cases hc : cur < mx
    · by_cases hr : returnable v = true
      · refine ⟨?_, ?_, ?_, ?_, ?_⟩ <;> simp only [Hist.step, Bin.giveBack, hc, hr, if_true]
        · exact h1
        · simp [h2]
        · omega
        · exact (h4.cons v).trans List.perm_middle.symm
        · intro x hx
          rcases List.mem_cons.mp hx with rfl | hx
          · exact (returnable_iff _).mp hr
          · exact h5 x hx
      · simpa [Hist.step, Bin.giveBack, hc, hr] using (⟨h1, h2, h3, h4, h5⟩ : Inv max ⟨⟨l, cur, mx⟩, ac, out⟩)
    · simpa [Hist.step, Bin.giveBack, hc] using (⟨h1, h2, h3, h4, h5⟩ : Inv max ⟨⟨l, cur, mx⟩, ac, out⟩)
  | obtain v =>
    cases l with
    | nil =>
      simp only [List.length_nil] at h2
      subst h2
      simpa [Hist.step, Bin.obtain] using (⟨h1, rfl, h3, h4, h5⟩ : Inv max ⟨⟨[], 0, mx⟩, ac, out⟩)
    | cons x r =>
      simp only [List.length_cons] at h2
      have hc : cur ≠ 0 := by omega
      refine ⟨?_, ?_, ?_, ?_, ?_⟩ <;> simp only [Hist.step, Bin.obtain, hc, ne_eq, not_false_eq_true, if_true]
      · exact h1
      · omega
      · omega
      · exact h4.trans List.perm_middle
      · exact h5

theorem inv_run (max : Nat) (l : List Call) : Inv max (Hist.run max l) := by
  have : ∀ h, Inv max h → Inv max (l.foldl Hist.step h) := by
    induction l with
    | nil => exact fun h hi => hi
    | cons c l ih => exact fun h hi => ih _ (inv_step hi c)
  exact this _ ⟨rfl, rfl, Nat.zero_le _, by simp [Bin.init], by simp⟩

end Hdtn.Recycler
