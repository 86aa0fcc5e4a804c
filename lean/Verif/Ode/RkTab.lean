import Mathlib.Data.Rat.Defs

/-! # The constants of `Runge45` (property C67) -/

namespace CppAD.Rk

/-- `a` (runge_45.hpp:304-311) -/
def tabA (j : ℕ) : ℚ := [0, 1 / 5, 3 / 10, 3 / 5, 1, 7 / 8].getD j 0

/-- `b` (runge_45.hpp:312-342) -/
def tabB (q : ℕ) : ℚ :=
  [1 / 5, 0, 0, 0, 0,
   3 / 40, 9 / 40, 0, 0, 0,
   3 / 10, -9 / 10, 6 / 5, 0, 0,
   -11 / 54, 5 / 2, -70 / 27, 35 / 27, 0,
   1631 / 55296, 175 / 512, 575 / 13824, 44275 / 110592, 253 / 4096].getD q 0

/-- `c4` (runge_45.hpp:343-350) -/
def tabC4 (j : ℕ) : ℚ := [2825 / 27648, 0, 18575 / 48384, 13525 / 55296, 277 / 14336, 1 / 4].getD j 0

/-- `c5` (runge_45.hpp:351-358) -/
def tabC5 (j : ℕ) : ℚ := [37 / 378, 0, 250 / 621, 125 / 594, 0, 512 / 1771].getD j 0

end CppAD.Rk
