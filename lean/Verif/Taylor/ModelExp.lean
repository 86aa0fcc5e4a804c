import Verif.Taylor.Loop
import Mathlib.Analysis.SpecialFunctions.Exp

/-! # Model of the exp operator, cppad/local/var_op/exp_op.hpp -/

open scoped Classical

namespace CppAD

/-- absolute zero multiplication; cppad/core/azmul.hpp and cppad/base_require (azmul):
`if( x == 0 ) return 0; return x * y` -/
noncomputable def azmul (x y : ℝ) : ℝ := if x = 0 then 0 else x * y

/-- `skip` test at the start of some reverse functions: all partials of `z` are zero -/
def allZero (d iz : ℕ) (P : Tay) : Prop := ∀ k ≤ d, P iz k = 0

/-- exp_op.hpp:14-50 -/
noncomputable def expForward (ix p q iz : ℕ) (s : Tay) : Tay :=
  let s0 := if p = 0 then s.set iz 0 (Real.exp (s ix 0)) else s
  let p0 := if p = 0 then 1 else p
  forRange p0 (q + 1) s0 fun j s =>
    let s := s.set iz j (s ix 1 * s iz (j - 1))
    let s := forRange 2 (j + 1) s fun k s => s.add iz j ((k : ℝ) * s ix k * s iz (j - k))
    s.set iz j (s iz j / (j : ℝ))

/-- exp_op.hpp:55-87 -/
noncomputable def expDir (ix q r iz : ℕ) (s : Tay) : Tay :=
  let m := (q - 1) * r + 1
  forRange 0 r s fun ell s =>
    let s := s.set iz (m + ell) ((q : ℝ) * s ix (m + ell) * s iz 0)
    let s := forRange 1 q s fun k s => s.add iz (m + ell)
      ((k : ℝ) * s ix ((k - 1) * r + ell + 1) * s iz ((q - k - 1) * r + ell + 1))
    s.set iz (m + ell) (s iz (m + ell) / (q : ℝ))

/-- exp_op.hpp:115-164 -/
noncomputable def expReverse (ix d iz : ℕ) (s P : Tay) : Tay :=
  if allZero d iz P then P else
  let P := forDown d P fun j P =>
    let P := P.set iz j (P iz j / (j : ℝ))
    forRange 1 (j + 1) P fun k P =>
      let P := P.add ix k ((k : ℝ) * azmul (P iz j) (s iz (j - k)))
      P.add iz (j - k) ((k : ℝ) * azmul (P iz j) (s ix k))
  P.add ix 0 (azmul (P iz 0) (s iz 0))

end CppAD
