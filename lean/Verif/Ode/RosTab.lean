import Mathlib.Data.Rat.Defs

/-! # The constants of `Rosen34` (property C68) -/

namespace CppAD.Rk

/-- `a` (rosen_34.hpp:333-337) -/
def rosA (k : ℕ) : ℚ := [0, 1, 3 / 5].getD k 0

/-- `b` (rosen_34.hpp:338-343) -/
def rosB (q : ℕ) : ℚ := [1, 0, 24 / 25, 3 / 25].getD q 0

/-- `ct` (rosen_34.hpp:344-349) -/
def rosCt (k : ℕ) : ℚ := [1 / 2, -3 / 2, 121 / 50, 29 / 250].getD k 0

/-- `cg` (rosen_34.hpp:350-360) -/
def rosCg (q : ℕ) : ℚ := [-4, 0, 0, 186 / 25, 6 / 5, 0, -56 / 125, -27 / 125, -1 / 5].getD q 0

/-- `d3` (rosen_34.hpp:361-365); the array has three elements -/
def rosD3 (k : ℕ) : ℚ := [97 / 108, 11 / 72, 25 / 216].getD k 0

/-- `d4` (rosen_34.hpp:366-371) -/
def rosD4 (k : ℕ) : ℚ := [19 / 18, 1 / 4, 25 / 216, 125 / 216].getD k 0

end CppAD.Rk
