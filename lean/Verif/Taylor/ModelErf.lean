import Verif.Taylor.ModelArith
import Verif.Taylor.ModelExp

/-! # Models of the operators Erf and Erfc, cppad/local/var_op/erf_op.hpp

The results are `z_0 = x * x`, `z_1 = 0 - z_0`, `z_2 = exp(z_1)`, `z_3 = c * z_2`, `z_4 = f(x)`,
where the parameter `c` is `2 / sqrt(pi)`, and `f` is erf (`sgn = 1`) or erfc (`sgn = -1`).
`iz` is the index of `z_4`. -/

open scoped Classical

namespace CppAD

/-- erf_op.hpp:87-164 -/
noncomputable def erfForward (f : ℝ → ℝ) (sgn c : ℝ) (ix p q iz : ℕ) (s : Tay) : Tay :=
  let iz := iz - 4
  let s := mulvvForward ix ix p q (iz + 0) s
  let s := subpvForward 0 iz p q (iz + 1) s
  let s := expForward (iz + 1) p q (iz + 2) s
  let s := mulpvForward c (iz + 2) p q (iz + 3) s
  let s := if p = 0 then s.set (iz + 4) 0 (f (s ix 0)) else s
  let p := if p = 0 then 1 else p
  forRange p (q + 1) s fun j s =>
    let s := s.set (iz + 4) j 0
    forRange 1 (j + 1) s fun k s =>
      s.add (iz + 4) j (sgn * ((k : ℝ) / (j : ℝ)) * s ix k * s (iz + 3) (j - k))

/-- erf_op.hpp:347-423 -/
noncomputable def erfDir (sgn c : ℝ) (ix q r iz : ℕ) (s : Tay) : Tay :=
  let iz := iz - 4
  let s := mulvvDir ix ix q r (iz + 0) s
  let s := subpvDir 0 iz q r (iz + 1) s
  let s := expDir (iz + 1) q r (iz + 2) s
  let s := mulpvDir c (iz + 2) q r (iz + 3) s
  forRange 0 r s fun ell s =>
    let m := (q - 1) * r + ell + 1
    let s := s.set (iz + 4) m (sgn * s (iz + 3) 0 * s ix m)
    forRange 1 q s fun k s =>
      s.add (iz + 4) m (sgn * ((k : ℝ) / (q : ℝ)) * s ix ((k - 1) * r + ell + 1)
        * s (iz + 3) ((q - k - 1) * r + ell + 1))

/-- erf_op.hpp:508-600 -/
noncomputable def erfReverse (sgn c : ℝ) (ix d iz : ℕ) (s P : Tay) : Tay :=
  if allZero d iz P then P else
  let iz := iz - 4
  let P := forDown d P fun j P =>
    let P := P.set (iz + 4) j (P (iz + 4) j / (j : ℝ))
    forRange 1 (j + 1) P fun k P =>
      let P := P.add ix k (sgn * azmul (P (iz + 4) j) (s (iz + 3) (j - k)) * (k : ℝ))
      P.add (iz + 3) (j - k) (sgn * azmul (P (iz + 4) j) (s ix k) * (k : ℝ))
  let P := P.add ix 0 (sgn * azmul (P (iz + 4) 0) (s (iz + 3) 0))
  let P := mulpvReverse c (iz + 2) d (iz + 3) s P
  let P := expReverse (iz + 1) d (iz + 2) s P
  let P := subpvReverse 0 iz d (iz + 1) s P
  mulvvReverse ix ix d (iz + 0) s P

end CppAD
