import Verif.Ode.RkCoef

/-! # The order conditions of the embedded method (property C67) -/

namespace CppAD.Rk

set_option maxHeartbeats 4000000 in
/-- the two sets of weights agree up to the fourth order -/
theorem order4 (m : ℚ) : ∀ i, deg i ≤ 3 →
    ∑ k ∈ Finset.range 6, (tabC5 k - tabC4 k) * cf bt (after m) 6 k i = 0 := by
  intro i hi
  fin_cases i <;> first
    | exact absurd hi (by decide)
    | (simp [Finset.sum_range_succ, cf, bt, tabB, tabC5, tabC4, next, after, exact, deg, Function.update]; ring)
    | (simp [Finset.sum_range_succ, cf, bt, tabB, tabC5, tabC4, next, after, exact, deg, Function.update]; norm_num)

end CppAD.Rk
