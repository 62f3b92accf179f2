import Verif.DtnTime.Spec

namespace Hdtn.DtnTime

theorem ofPtime_nat (t : Nat) (h : t < 2 ^ 64 * 1000000) :
    ofPtime (t : Int) = ⟨t / 1000000, t % 1000000 * 1000⟩ := by
  have e1 : (t : Int).tdiv 1000000 = ((t / 1000000 : Nat) : Int) := by
    rw [Int.tdiv_eq_ediv_of_nonneg (by omega)]; omega
  have e2 : (t : Int).tmod 1000000 = ((t % 1000000 : Nat) : Int) := by
    rw [Int.tmod_eq_emod_of_nonneg (by omega)]; omega
  simp only [ofPtime, toUnsigned, e1, e2, DtnTime.mk.injEq]
  norm_num
  omega

end Hdtn.DtnTime
