import Verif.Taylor.ModelExp
import Mathlib.Analysis.SpecialFunctions.Log.Basic
import Mathlib.Analysis.SpecialFunctions.Sqrt

/-! # Models of expm1, log, log1p, sqrt -/

open scoped Classical

namespace CppAD

/-! ## expm1, cppad/local/var_op/expm1_op.hpp -/

/-- expm1_op.hpp:14-51 -/
noncomputable def expm1Forward (ix p q iz : ℕ) (s : Tay) : Tay :=
  let s0 := if p = 0 then s.set iz 0 (Real.exp (s ix 0) - 1) else s
  let p0 := if p = 0 then 1 else p
  forRange p0 (q + 1) s0 fun j s =>
    let s := s.set iz j (s ix 1 * s iz (j - 1))
    let s := forRange 2 (j + 1) s fun k s => s.add iz j ((k : ℝ) * s ix k * s iz (j - k))
    let s := s.set iz j (s iz j / (j : ℝ))
    s.add iz j (s ix j)

/-- expm1_op.hpp:55-88 -/
noncomputable def expm1Dir (ix q r iz : ℕ) (s : Tay) : Tay :=
  let m := (q - 1) * r + 1
  forRange 0 r s fun ell s =>
    let s := s.set iz (m + ell) ((q : ℝ) * s ix (m + ell) * s iz 0)
    let s := forRange 1 q s fun k s => s.add iz (m + ell)
      ((k : ℝ) * s ix ((k - 1) * r + ell + 1) * s iz ((q - k - 1) * r + ell + 1))
    let s := s.set iz (m + ell) (s iz (m + ell) / (q : ℝ))
    s.add iz (m + ell) (s ix (m + ell))

/-- expm1_op.hpp:114-165 -/
noncomputable def expm1Reverse (ix d iz : ℕ) (s P : Tay) : Tay :=
  if allZero d iz P then P else
  let P := forDown d P fun j P =>
    let P := P.add ix j (P iz j)
    let P := P.set iz j (P iz j / (j : ℝ))
    forRange 1 (j + 1) P fun k P =>
      let P := P.add ix k ((k : ℝ) * azmul (P iz j) (s iz (j - k)))
      P.add iz (j - k) ((k : ℝ) * azmul (P iz j) (s ix k))
  P.add ix 0 (P iz 0 + azmul (P iz 0) (s iz 0))

/-! ## log, cppad/local/var_op/log_op.hpp -/

/-- log_op.hpp:12-57 -/
noncomputable def logForward (ix p q iz : ℕ) (s : Tay) : Tay :=
  let s0 := if p = 0 then s.set iz 0 (Real.log (s ix 0)) else s
  let p0 := if p = 0 then 1 else p
  if p = 0 ∧ q = 0 then s0 else
  let s1 := if p0 = 1 then s0.set iz 1 (s0 ix 1 / s0 ix 0) else s0
  let p1 := if p0 = 1 then 2 else p0
  forRange p1 (q + 1) s1 fun j s =>
    let s := s.set iz j (-s iz 1 * s ix (j - 1))
    let s := forRange 2 j s fun k s => s.add iz j (-((k : ℝ) * s iz k * s ix (j - k)))
    let s := s.set iz j (s iz j / (j : ℝ))
    let s := s.add iz j (s ix j)
    s.set iz j (s iz j / s ix 0)

/-- log_op.hpp:61-94 -/
noncomputable def logDir (ix q r iz : ℕ) (s : Tay) : Tay :=
  let m := (q - 1) * r + 1
  forRange 0 r s fun ell s =>
    let s := s.set iz (m + ell) ((q : ℝ) * s ix (m + ell))
    let s := forRange 1 q s fun k s => s.add iz (m + ell)
      (-((k : ℝ) * s iz ((k - 1) * r + 1 + ell) * s ix ((q - k - 1) * r + 1 + ell)))
    s.set iz (m + ell) (s iz (m + ell) / ((q : ℝ) * s ix 0))

/-- log_op.hpp:124-173 -/
noncomputable def logReverse (ix d iz : ℕ) (s P : Tay) : Tay :=
  let inv_x0 := 1 / s ix 0
  let P := forDown d P fun j P =>
    let P := P.set iz j (azmul (P iz j) inv_x0)
    let P := P.add ix 0 (-(azmul (P iz j) (s iz j)))
    let P := P.add ix j (P iz j)
    let P := P.set iz j (P iz j / (j : ℝ))
    forRange 1 j P fun k P =>
      let P := P.add iz k (-((k : ℝ) * azmul (P iz j) (s ix (j - k))))
      P.add ix (j - k) (-((k : ℝ) * azmul (P iz j) (s iz k)))
  P.add ix 0 (azmul (P iz 0) inv_x0)

/-! ## log1p, cppad/local/var_op/log1p_op.hpp -/

/-- log1p_op.hpp:12-57 -/
noncomputable def log1pForward (ix p q iz : ℕ) (s : Tay) : Tay :=
  let s0 := if p = 0 then s.set iz 0 (Real.log (1 + s ix 0)) else s
  let p0 := if p = 0 then 1 else p
  if p = 0 ∧ q = 0 then s0 else
  let s1 := if p0 = 1 then s0.set iz 1 (s0 ix 1 / (1 + s0 ix 0)) else s0
  let p1 := if p0 = 1 then 2 else p0
  forRange p1 (q + 1) s1 fun j s =>
    let s := s.set iz j (-s iz 1 * s ix (j - 1))
    let s := forRange 2 j s fun k s => s.add iz j (-((k : ℝ) * s iz k * s ix (j - k)))
    let s := s.set iz j (s iz j / (j : ℝ))
    let s := s.add iz j (s ix j)
    s.set iz j (s iz j / (1 + s ix 0))

/-- log1p_op.hpp:60-93 -/
noncomputable def log1pDir (ix q r iz : ℕ) (s : Tay) : Tay :=
  let m := (q - 1) * r + 1
  forRange 0 r s fun ell s =>
    let s := s.set iz (m + ell) ((q : ℝ) * s ix (m + ell))
    let s := forRange 1 q s fun k s => s.add iz (m + ell)
      (-((k : ℝ) * s iz ((k - 1) * r + 1 + ell) * s ix ((q - k - 1) * r + 1 + ell)))
    s.set iz (m + ell) (s iz (m + ell) / ((q : ℝ) + (q : ℝ) * s ix 0))

/-- log1p_op.hpp:121-170 -/
noncomputable def log1pReverse (ix d iz : ℕ) (s P : Tay) : Tay :=
  let inv_1px0 := 1 / (1 + s ix 0)
  let P := forDown d P fun j P =>
    let P := P.set iz j (azmul (P iz j) inv_1px0)
    let P := P.add ix 0 (-(azmul (P iz j) (s iz j)))
    let P := P.add ix j (P iz j)
    let P := P.set iz j (P iz j / (j : ℝ))
    forRange 1 j P fun k P =>
      let P := P.add iz k (-((k : ℝ) * azmul (P iz j) (s ix (j - k))))
      P.add ix (j - k) (-((k : ℝ) * azmul (P iz j) (s iz k)))
  P.add ix 0 (azmul (P iz 0) inv_1px0)

/-! ## sqrt, cppad/local/var_op/sqrt_op.hpp -/

/-- sqrt_op.hpp:14-52 -/
noncomputable def sqrtForward (ix p q iz : ℕ) (s : Tay) : Tay :=
  let s0 := if p = 0 then s.set iz 0 (Real.sqrt (s ix 0)) else s
  let p0 := if p = 0 then 1 else p
  forRange p0 (q + 1) s0 fun j s =>
    let s := s.set iz j 0
    let s := forRange 1 j s fun k s => s.add iz j (-((k : ℝ) * s iz k * s iz (j - k)))
    let s := s.set iz j (s iz j / (j : ℝ))
    let s := s.add iz j (s ix j / 2)
    s.set iz j (s iz j / s iz 0)

/-- sqrt_op.hpp:56-90 -/
noncomputable def sqrtDir (ix q r iz : ℕ) (s : Tay) : Tay :=
  let m := (q - 1) * r + 1
  forRange 0 r s fun ell s =>
    let s := s.set iz (m + ell) 0
    let s := forRange 1 q s fun k s => s.add iz (m + ell)
      (-((k : ℝ) * s iz ((k - 1) * r + 1 + ell) * s iz ((q - k - 1) * r + 1 + ell)))
    let s := s.set iz (m + ell) (s iz (m + ell) / (q : ℝ))
    let s := s.add iz (m + ell) (s ix (m + ell) / 2)
    s.set iz (m + ell) (s iz (m + ell) / s iz 0)

/-- sqrt_op.hpp:118-163 -/
noncomputable def sqrtReverse (ix d iz : ℕ) (s P : Tay) : Tay :=
  let inv_z0 := 1 / s iz 0
  let P := forDown d P fun j P =>
    let P := P.set iz j (azmul (P iz j) inv_z0)
    let P := P.add iz 0 (-(azmul (P iz j) (s iz j)))
    let P := P.add ix j (P iz j / 2)
    forRange 1 j P fun k P => P.add iz k (-(azmul (P iz j) (s iz (j - k))))
  P.add ix 0 (azmul (P iz 0) inv_z0 / 2)

end CppAD
