import Verif.Ode.RkTab
import Verif.Ode.RkOrder

/-! # The order conditions (property C67) -/

namespace CppAD.Rk

/-- the table of the stages -/
def bt (j k : ℕ) : ℚ := tabB ((j - 1) * 5 + k)

set_option maxHeartbeats 4000000 in
/-- the fifth order weights advance the series of the exact solution by one step -/
theorem order5 (m : ℚ) : ∀ i, after m i + ∑ k ∈ Finset.range 6, tabC5 k * cf bt (after m) 6 k i = after (m + 1) i := by
  intro i
  fin_cases i <;> simp [Finset.sum_range_succ, cf, bt, tabB, tabC5, next, after, exact, deg, Function.update] <;> ring

end CppAD.Rk
