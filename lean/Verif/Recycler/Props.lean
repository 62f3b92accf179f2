import Verif.Recycler.Lemmas

/-!
# C179: user data given back is handed out again, once
-/

namespace Hdtn.Recycler

/-- **C179 (bound).** After any history of calls the bin has at most as many vectors as it was made for, and
its counter is right. -/
theorem C179_bound (max : Nat) (l : List Call) :
    (Hist.run max l).bin.cur = (Hist.run max l).bin.list.length ∧ (Hist.run max l).bin.list.length ≤ max := by
  have h := inv_run max l
  exact ⟨h.cur, by have := h.cur; have := h.le; omega⟩

/-- **C179 (conservation).** The vectors accepted are, each as often as it was accepted, those given out and
those still in the bin: none is lost, changed or given to two users. -/
theorem C179_conserved (max : Nat) (l : List Call) :
    (Hist.run max l).accepted.Perm ((Hist.run max l).out ++ (Hist.run max l).bin.list) :=
  (inv_run max l).perm

/-- **C179 (acceptance).** A vector is accepted exactly if there is room and it brings memory. Then the
caller's is left empty and the next request is answered with it; otherwise the caller keeps it as it was and
the bin does not change. -/
theorem C179_accept (max : Nat) (l : List Call) (v w : Vec) :
    let b := (Hist.run max l).bin
    ((b.giveBack v).1 = true ↔ b.list.length < max ∧ v.useful) ∧
      ((b.giveBack v).1 = true → (b.giveBack v).2.1 = ⟨[], 0⟩ ∧ (b.giveBack v).2.2.obtain w = (v, b)) ∧
      ((b.giveBack v).1 = false → (b.giveBack v).2 = (v, b)) := by
  intro b
  have hi := inv_run max l
  have e1 : b.cur = b.list.length := hi.cur
  have e2 : b.max = max := hi.lim
  by_cases hc : b.cur < b.max
  · by_cases hr : returnable v = true
    · have hu := (returnable_iff v).mp hr
      simp only [Bin.giveBack, hc, hr, if_true, true_iff, true_implies]
      refine ⟨⟨by omega, hu⟩, ⟨rfl, ?_⟩, fun h => by cases h⟩
      simp [Bin.obtain]
    · have hu : ¬ v.useful := fun h => hr ((returnable_iff v).mpr h)
      simp [Bin.giveBack, hc, hr, hu]
  · have : ¬ b.list.length < max := by omega
    simp [Bin.giveBack, hc, this]

/-- **C179 (requests).** A request is answered with a vector that was accepted, and that brings memory, if the
bin has one; otherwise the caller's vector stays as it was. -/
theorem C179_obtain (max : Nat) (l : List Call) (v : Vec) :
    let h := Hist.run max l
    (h.bin.list ≠ [] → (h.bin.obtain v).1 ∈ h.accepted ∧ (h.bin.obtain v).1.useful) ∧
      (h.bin.list = [] → h.bin.obtain v = (v, h.bin)) := by
  intro h
  have hi : Inv max h := inv_run max l
  have hc := hi.cur
  refine ⟨fun hl => ?_, fun hl => ?_⟩
  · cases e : h.bin.list with
    | nil => exact absurd e hl
    | cons x r =>
      have h0 : h.bin.cur ≠ 0 := by rw [hc, e]; simp
      have ex : (h.bin.obtain v).1 = x := by simp [Bin.obtain, h0, e]
      have hm : x ∈ h.accepted := hi.perm.mem_iff.mpr (by rw [e]; simp)
      rw [ex]
      exact ⟨hm, hi.useful x hm⟩
  · have h0 : h.bin.cur = 0 := by rw [hc, hl]; rfl
    simp [Bin.obtain, h0]

/-- **C179 (the sign of reuse), partial.** The comment of the function says that the data came from the bin if
and only if the vector is not empty afterwards. Proved for callers who ask with an empty vector, if every
vector accepted had elements. Missing: vectors without elements but with memory (`C179_sign_violated`). -/
theorem C179_sign_partial (max : Nat) (l : List Call) (v : Vec) (hv : v.data = [])
    (ha : ∀ x ∈ (Hist.run max l).accepted, x.data ≠ []) :
    ((Hist.run max l).bin.obtain v).1.data ≠ [] ↔ (Hist.run max l).bin.list ≠ [] := by
  obtain ⟨h1, h2⟩ := C179_obtain max l v
  constructor
  · intro hd hl
    rw [h2 hl] at hd
    exact hd hv
  · exact fun hl => ha _ (h1 hl).1

/-- **C179 (the sign of reuse), violated.** Every vector with memory but without elements, such as one that was
cleared before it was given back, is accepted by a bin with room and comes back to a caller who finds it
empty, although it is from the bin. -/
theorem C179_sign_violated (max : Nat) (hm : 0 < max) (c : Nat) (hc : c ≠ 0) :
    (Hist.run max [.giveBack ⟨[], c⟩]).bin.list ≠ [] ∧
      ((Hist.run max [.giveBack ⟨[], c⟩]).bin.obtain ⟨[], 0⟩).1.data = [] := by
  simp [Hist.run, Hist.step, Bin.init, Bin.giveBack, Bin.obtain, hm, returnable, hc]

/-- A history: a vector, one past the limit, a request, and a vector without memory. -/
def demo : List Call := [.giveBack ⟨[1, 2], 8⟩, .giveBack ⟨[3], 4⟩, .giveBack ⟨[4], 4⟩, .obtain ⟨[], 0⟩, .giveBack ⟨[], 0⟩]

example : (Hist.run 2 demo).accepted = [⟨[3], 4⟩, ⟨[1, 2], 8⟩] ∧ (Hist.run 2 demo).out = [⟨[3], 4⟩] ∧
    (Hist.run 2 demo).bin.list = [⟨[1, 2], 8⟩] := by decide +kernel
/-- The hypotheses of `C179_sign_partial`, with a bin that is not empty. -/
example : (∀ x ∈ (Hist.run 2 demo).accepted, x.data ≠ []) ∧ (Hist.run 2 demo).bin.list ≠ [] := by decide +kernel

end Hdtn.Recycler
