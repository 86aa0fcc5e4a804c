import Verif.Taylor.ModelArith
import Verif.Taylor.ModelLog
import Mathlib.Analysis.SpecialFunctions.Pow.Real

/-! # Models of the operators Powvv, Powpv, Powvp, cppad/local/var_op/pow_op.hpp

The results of Powvv and Powpv are `z_0 = log(x)`, `z_1 = z_0 * y`, `z_2 = pow(x, y)`;
`iz` is the index of `z_2`. -/

open scoped Classical

namespace CppAD

/-- pow_op.hpp:26-74 -/
noncomputable def powvvForward (ix iy p q iz : ℕ) (s : Tay) : Tay :=
  let iz := iz - 2
  let s := logForward ix p q iz s
  let s := mulvvForward iz iy p q (iz + 1) s
  let s := if p = 0 then s.set (iz + 2) 0 ((s ix 0) ^ (s iy 0)) else s
  let p := if p = 0 then 1 else p
  if p ≤ q then expForward (iz + 1) p q (iz + 2) s else s

/-- pow_op.hpp:89-125 -/
noncomputable def powvvDir (ix iy q r iz : ℕ) (s : Tay) : Tay :=
  let iz := iz - 2
  let s := logDir ix q r iz s
  let s := mulvvDir iz iy q r (iz + 1) s
  expDir (iz + 1) q r (iz + 2) s

/-- pow_op.hpp:184-224 -/
noncomputable def powvvReverse (ix iy d iz : ℕ) (s P : Tay) : Tay :=
  let iz := iz - 2
  let P := expReverse (iz + 1) d (iz + 2) s P
  let P := mulvvReverse iz iy d (iz + 1) s P
  logReverse ix d iz s P

/-- pow_op.hpp:241-304; the parameter array passed to mulpv is `taylor`, the parameter is `z_0[0]` -/
noncomputable def powpvForward (x : ℝ) (iy p q iz : ℕ) (s : Tay) : Tay :=
  let iz := iz - 2
  let s := forRange p (q + 1) s fun d s => if d = 0 then s.set iz d (Real.log x) else s.set iz d 0
  let s := mulpvForward (s iz 0) iy p q (iz + 1) s
  let s := if p = 0 then s.set (iz + 2) 0 (x ^ (s iy 0)) else s
  let p := if p = 0 then 1 else p
  if p ≤ q then expForward (iz + 1) p q (iz + 2) s else s

/-- pow_op.hpp:319-369 -/
noncomputable def powpvDir (iy q r iz : ℕ) (s : Tay) : Tay :=
  let iz := iz - 2
  let m := (q - 1) * r + 1
  let s := forRange 0 r s fun ell s => s.set iz (m + ell) 0
  let s := mulpvDir (s iz 0) iy q r (iz + 1) s
  expDir (iz + 1) q r (iz + 2) s

/-- pow_op.hpp:433-476 -/
noncomputable def powpvReverse (iy d iz : ℕ) (s P : Tay) : Tay :=
  let iz := iz - 2
  let P := expReverse (iz + 1) d (iz + 2) s P
  mulpvReverse (s iz 0) iy d (iz + 1) s P

/-- pow_op.hpp:493-539; `CondExpEq(x[0], 0, 0, zj)` is `0` when `x[0] = 0` -/
noncomputable def powvpForward (ix : ℕ) (y : ℝ) (p q iz : ℕ) (s : Tay) : Tay :=
  let s0 := if p = 0 then s.set iz 0 ((s ix 0) ^ y) else s
  let p0 := if p = 0 then 1 else p
  forRange p0 (q + 1) s0 fun j s =>
    let sum := forRange 1 j 0 fun k sum =>
      sum + (k : ℝ) * (y * s ix k * s iz (j - k) - s iz k * s ix (j - k))
    let zj := (y * s iz 0 * s ix j + sum / (j : ℝ)) / s ix 0
    s.set iz j (if s ix 0 = 0 then 0 else zj)

/-- pow_op.hpp:554-605 -/
noncomputable def powvpDir (ix : ℕ) (y : ℝ) (q r iz : ℕ) (s : Tay) : Tay :=
  let m := (q - 1) * r + 1
  forRange 0 r s fun ell s =>
    let sum := forRange 1 q 0 fun k sum =>
      let xk := s ix ((k - 1) * r + ell + 1)
      let zk := s iz ((k - 1) * r + ell + 1)
      let xqk := s ix ((q - k - 1) * r + ell + 1)
      let zqk := s iz ((q - k - 1) * r + ell + 1)
      sum + (k : ℝ) * (y * xk * zqk - zk * xqk)
    let xq := s ix ((q - 1) * r + ell + 1)
    let zell := (y * s iz 0 * xq + sum / (q : ℝ)) / s ix 0
    s.set iz (m + ell) (if s ix 0 = 0 then 0 else zell)

/-- pow_op.hpp:657-733; the `work` vector is the row `ix` of a second array until the final loop -/
noncomputable def powvpReverse (ix : ℕ) (y : ℝ) (d iz : ℕ) (s P : Tay) : Tay :=
  let work : Tay := forRange 0 (d + 1) (fun _ _ => 0) fun j w => w.set 0 j (P ix j)
  let pw : Tay × Tay := forDown d (P, work) fun j pw =>
    let P := pw.1
    let w := pw.2
    let w := w.add 0 j (azmul (P iz j) (y * s iz 0 / s ix 0))
    let w := forRange 1 j w fun k w =>
      let term := ((k : ℝ) * y - ((j - k : ℕ) : ℝ)) * s iz (j - k) / ((j : ℝ) * s ix 0)
      w.add 0 k (azmul (P iz j) term)
    let P := forRange 1 j P fun k P =>
      let term := (((j - k : ℕ) : ℝ) * y - (k : ℝ)) * s ix (j - k) / ((j : ℝ) * s ix 0)
      P.add iz k (azmul (P iz j) term)
    let w := w.add 0 0 (-(azmul (P iz j) (s iz j / s ix 0)))
    let P := P.add iz 0 (azmul (P iz j) (y * s ix j / s ix 0))
    (P, w)
  let P := pw.1
  let w := pw.2.add 0 0 (azmul (P iz 0) (y * s iz 0 / s ix 0))
  forRange 0 (d + 1) P fun j P => P.set ix j (if s ix 0 = 0 then 0 else w 0 j)

end CppAD
