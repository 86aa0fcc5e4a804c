import Verif.Taylor.ModelExp

/-! # Models of add, sub, mul, div, zmul and neg operators

In the functions with suffix `pv` (`vp`) the value `parameter[ arg[0] ]` (`parameter[ arg[1] ]`)
is passed directly as the real `x` (`y`).
The pointers `x`, `y`, `z` of the C++ code are the rows `s ix`, `s iy`, `s iz`. -/

namespace CppAD

/-! ## add, cppad/local/var_op/add_op.hpp -/

/-- add_op.hpp:14-40 -/
def addvvForward (ix iy p q iz : ℕ) (s : Tay) : Tay :=
  forRange p (q + 1) s fun j s => s.set iz j (s ix j + s iy j)

/-- add_op.hpp:44-72 -/
def addvvDir (ix iy q r iz : ℕ) (s : Tay) : Tay :=
  let m := (q - 1) * r + 1
  forRange 0 r s fun ell s => s.set iz (m + ell) (s ix (m + ell) + s iy (m + ell))

/-- add_op.hpp:100-131 -/
def addvvReverse (ix iy d iz : ℕ) (_s P : Tay) : Tay :=
  forDown0 (d + 1) P fun i P =>
    let P := P.add ix i (P iz i)
    P.add iy i (P iz i)

/-- add_op.hpp:136-167 -/
def addpvForward (x : ℝ) (iy p q iz : ℕ) (s : Tay) : Tay :=
  let s0 := if p = 0 then s.set iz 0 (x + s iy 0) else s
  let p0 := if p = 0 then 1 else p
  forRange p0 (q + 1) s0 fun j s => s.set iz j (s iy j)

/-- add_op.hpp:171-197 (the pointers are offset by `m`) -/
def addpvDir (_x : ℝ) (iy q r iz : ℕ) (s : Tay) : Tay :=
  let m := (q - 1) * r + 1
  forRange 0 r s fun ell s => s.set iz (m + ell) (s iy (m + ell))

/-- add_op.hpp:227-255 -/
def addpvReverse (_x : ℝ) (iy d iz : ℕ) (_s P : Tay) : Tay :=
  forDown0 (d + 1) P fun i P => P.add iy i (P iz i)

/-! ## sub, cppad/local/var_op/sub_op.hpp -/

/-- sub_op.hpp:14-39 -/
def subvvForward (ix iy p q iz : ℕ) (s : Tay) : Tay :=
  forRange p (q + 1) s fun d s => s.set iz d (s ix d - s iy d)

/-- sub_op.hpp:43-70 -/
def subvvDir (ix iy q r iz : ℕ) (s : Tay) : Tay :=
  let m := (q - 1) * r + 1
  forRange 0 r s fun ell s => s.set iz (m + ell) (s ix (m + ell) - s iy (m + ell))

/-- sub_op.hpp:98-127 -/
def subvvReverse (ix iy d iz : ℕ) (_s P : Tay) : Tay :=
  forDown0 (d + 1) P fun i P =>
    let P := P.add ix i (P iz i)
    P.add iy i (-(P iz i))

/-- sub_op.hpp:133-163 -/
def subpvForward (x : ℝ) (iy p q iz : ℕ) (s : Tay) : Tay :=
  let s0 := if p = 0 then s.set iz 0 (x - s iy 0) else s
  let p0 := if p = 0 then 1 else p
  forRange p0 (q + 1) s0 fun d s => s.set iz d (- s iy d)

/-- sub_op.hpp:167-194 -/
def subpvDir (_x : ℝ) (iy q r iz : ℕ) (s : Tay) : Tay :=
  let m := (q - 1) * r + 1
  forRange 0 r s fun ell s => s.set iz (m + ell) (- s iy (m + ell))

/-- sub_op.hpp:223-250 -/
def subpvReverse (_x : ℝ) (iy d iz : ℕ) (_s P : Tay) : Tay :=
  forDown0 (d + 1) P fun i P => P.add iy i (-(P iz i))

/-- sub_op.hpp:256-286 -/
def subvpForward (ix : ℕ) (y : ℝ) (p q iz : ℕ) (s : Tay) : Tay :=
  let s0 := if p = 0 then s.set iz 0 (s ix 0 - y) else s
  let p0 := if p = 0 then 1 else p
  forRange p0 (q + 1) s0 fun d s => s.set iz d (s ix d)

/-- sub_op.hpp:290-317 -/
def subvpDir (ix : ℕ) (_y : ℝ) (q r iz : ℕ) (s : Tay) : Tay :=
  let m := (q - 1) * r + 1
  forRange 0 r s fun ell s => s.set iz (m + ell) (s ix (m + ell))

/-- sub_op.hpp:347-374 -/
def subvpReverse (ix : ℕ) (_y : ℝ) (d iz : ℕ) (_s P : Tay) : Tay :=
  forDown0 (d + 1) P fun i P => P.add ix i (P iz i)

/-! ## mul, cppad/local/var_op/mul_op.hpp -/

/-- mul_op.hpp:14-43 -/
noncomputable def mulvvForward (ix iy p q iz : ℕ) (s : Tay) : Tay :=
  forRange p (q + 1) s fun d s =>
    let s := s.set iz d 0
    forRange 0 (d + 1) s fun k s => s.add iz d (s ix (d - k) * s iy k)

/-- mul_op.hpp:47-78 -/
noncomputable def mulvvDir (ix iy q r iz : ℕ) (s : Tay) : Tay :=
  forRange 0 r s fun ell s =>
    let m := (q - 1) * r + ell + 1
    let s := s.set iz m (s ix 0 * s iy m + s ix m * s iy 0)
    forRange 1 q s fun k s =>
      s.add iz m (s ix ((q - k - 1) * r + ell + 1) * s iy ((k - 1) * r + ell + 1))

/-- mul_op.hpp:106-146 -/
noncomputable def mulvvReverse (ix iy d iz : ℕ) (s P : Tay) : Tay :=
  forDown0 (d + 1) P fun j P =>
    forRange 0 (j + 1) P fun k P =>
      let P := P.add ix (j - k) (azmul (P iz j) (s iy k))
      P.add iy k (azmul (P iz j) (s ix (j - k)))

/-- mul_op.hpp:151-178 -/
noncomputable def mulpvForward (x : ℝ) (iy p q iz : ℕ) (s : Tay) : Tay :=
  forRange p (q + 1) s fun d s => s.set iz d (x * s iy d)

/-- mul_op.hpp:182-211 -/
noncomputable def mulpvDir (x : ℝ) (iy q r iz : ℕ) (s : Tay) : Tay :=
  let m := (q - 1) * r + 1
  forRange 0 r s fun ell s => s.set iz (m + ell) (x * s iy (m + ell))

/-- mul_op.hpp:240-272 -/
noncomputable def mulpvReverse (x : ℝ) (iy d iz : ℕ) (_s P : Tay) : Tay :=
  forDown0 (d + 1) P fun j P => P.add iy j (azmul (P iz j) x)

/-! ## div, cppad/local/var_op/div_op.hpp -/

/-- div_op.hpp:14-47 -/
noncomputable def divvvForward (ix iy p q iz : ℕ) (s : Tay) : Tay :=
  forRange p (q + 1) s fun d s =>
    let s := s.set iz d (s ix d)
    let s := forRange 1 (d + 1) s fun k s => s.add iz d (-(s iz (d - k) * s iy k))
    s.set iz d (s iz d / s iy 0)

/-- div_op.hpp:51-85 -/
noncomputable def divvvDir (ix iy q r iz : ℕ) (s : Tay) : Tay :=
  let m := (q - 1) * r + 1
  forRange 0 r s fun ell s =>
    let s := s.set iz (m + ell) (s ix (m + ell) - s iz 0 * s iy (m + ell))
    let s := forRange 1 q s fun k s => s.add iz (m + ell)
      (-(s iz ((q - k - 1) * r + 1 + ell) * s iy ((k - 1) * r + 1 + ell)))
    s.set iz (m + ell) (s iz (m + ell) / s iy 0)

/-- div_op.hpp:114-159 -/
noncomputable def divvvReverse (ix iy d iz : ℕ) (s P : Tay) : Tay :=
  let inv_y0 := 1 / s iy 0
  forDown0 (d + 1) P fun j P =>
    let P := P.set iz j (azmul (P iz j) inv_y0)
    let P := P.add ix j (P iz j)
    let P := forRange 1 (j + 1) P fun k P =>
      let P := P.add iz (j - k) (-(azmul (P iz j) (s iy k)))
      P.add iy k (-(azmul (P iz j) (s iz (j - k))))
    P.add iy 0 (-(azmul (P iz j) (s iz j)))

/-- div_op.hpp:165-203 -/
noncomputable def divpvForward (x : ℝ) (iy p q iz : ℕ) (s : Tay) : Tay :=
  let s0 := if p = 0 then s.set iz 0 (x / s iy 0) else s
  let p0 := if p = 0 then 1 else p
  forRange p0 (q + 1) s0 fun d s =>
    let s := s.set iz d 0
    let s := forRange 1 (d + 1) s fun k s => s.add iz d (-(s iz (d - k) * s iy k))
    s.set iz d (s iz d / s iy 0)

/-- div_op.hpp:207-239 -/
noncomputable def divpvDir (_x : ℝ) (iy q r iz : ℕ) (s : Tay) : Tay :=
  let m := (q - 1) * r + 1
  forRange 0 r s fun ell s =>
    let s := s.set iz (m + ell) (- s iz 0 * s iy (m + ell))
    let s := forRange 1 q s fun k s => s.add iz (m + ell)
      (-(s iz ((q - k - 1) * r + 1 + ell) * s iy ((k - 1) * r + 1 + ell)))
    s.set iz (m + ell) (s iz (m + ell) / s iy 0)

/-- div_op.hpp:269-312 -/
noncomputable def divpvReverse (_x : ℝ) (iy d iz : ℕ) (s P : Tay) : Tay :=
  let inv_y0 := 1 / s iy 0
  forDown0 (d + 1) P fun j P =>
    let P := P.set iz j (azmul (P iz j) inv_y0)
    let P := forRange 1 (j + 1) P fun k P =>
      let P := P.add iz (j - k) (-(azmul (P iz j) (s iy k)))
      P.add iy k (-(azmul (P iz j) (s iz (j - k))))
    P.add iy 0 (-(azmul (P iz j) (s iz j)))

/-- div_op.hpp:319-348 -/
noncomputable def divvpForward (ix : ℕ) (y : ℝ) (p q iz : ℕ) (s : Tay) : Tay :=
  forRange p (q + 1) s fun d s => s.set iz d (s ix d / y)

/-- div_op.hpp:352-383 -/
noncomputable def divvpDir (ix : ℕ) (y : ℝ) (q r iz : ℕ) (s : Tay) : Tay :=
  let m := (q - 1) * r + 1
  forRange 0 r s fun ell s => s.set iz (m + ell) (s ix (m + ell) / y)

/-- div_op.hpp:414-448 -/
noncomputable def divvpReverse (ix : ℕ) (y : ℝ) (d iz : ℕ) (_s P : Tay) : Tay :=
  let inv_y := 1 / y
  forDown0 (d + 1) P fun j P => P.add ix j (azmul (P iz j) inv_y)

/-! ## zmul, cppad/local/var_op/zmul_op.hpp -/

/-- zmul_op.hpp:14-43 -/
noncomputable def zmulvvForward (ix iy p q iz : ℕ) (s : Tay) : Tay :=
  forRange p (q + 1) s fun d s =>
    let s := s.set iz d 0
    forRange 0 (d + 1) s fun k s => s.add iz d (azmul (s ix (d - k)) (s iy k))

/-- zmul_op.hpp:47-78 -/
noncomputable def zmulvvDir (ix iy q r iz : ℕ) (s : Tay) : Tay :=
  forRange 0 r s fun ell s =>
    let m := (q - 1) * r + ell + 1
    let s := s.set iz m (azmul (s ix 0) (s iy m) + azmul (s ix m) (s iy 0))
    forRange 1 q s fun k s =>
      s.add iz m (azmul (s ix ((q - k - 1) * r + ell + 1)) (s iy ((k - 1) * r + ell + 1)))

/-- zmul_op.hpp:106-143 -/
noncomputable def zmulvvReverse (ix iy d iz : ℕ) (s P : Tay) : Tay :=
  forDown0 (d + 1) P fun j P =>
    forRange 0 (j + 1) P fun k P =>
      let P := P.add ix (j - k) (azmul (P iz j) (s iy k))
      P.add iy k (azmul (P iz j) (s ix (j - k)))

/-- zmul_op.hpp:148-175 -/
noncomputable def zmulpvForward (x : ℝ) (iy p q iz : ℕ) (s : Tay) : Tay :=
  forRange p (q + 1) s fun d s => s.set iz d (azmul x (s iy d))

/-- zmul_op.hpp:179-208 -/
noncomputable def zmulpvDir (x : ℝ) (iy q r iz : ℕ) (s : Tay) : Tay :=
  let m := (q - 1) * r + 1
  forRange 0 r s fun ell s => s.set iz (m + ell) (azmul x (s iy (m + ell)))

/-- zmul_op.hpp:237-267 -/
noncomputable def zmulpvReverse (x : ℝ) (iy d iz : ℕ) (_s P : Tay) : Tay :=
  forDown0 (d + 1) P fun j P => P.add iy j (azmul (P iz j) x)

/-- zmul_op.hpp:272-299 -/
noncomputable def zmulvpForward (ix : ℕ) (y : ℝ) (p q iz : ℕ) (s : Tay) : Tay :=
  forRange p (q + 1) s fun d s => s.set iz d (azmul (s ix d) y)

/-- zmul_op.hpp:303-332 -/
noncomputable def zmulvpDir (ix : ℕ) (y : ℝ) (q r iz : ℕ) (s : Tay) : Tay :=
  let m := (q - 1) * r + 1
  forRange 0 r s fun ell s => s.set iz (m + ell) (azmul (s ix (m + ell)) y)

/-- zmul_op.hpp:361-391 -/
noncomputable def zmulvpReverse (ix : ℕ) (y : ℝ) (d iz : ℕ) (_s P : Tay) : Tay :=
  forDown0 (d + 1) P fun j P => P.add ix j (azmul (P iz j) y)

/-! ## neg, cppad/local/var_op/neg_op.hpp -/

/-- neg_op.hpp:12-37 -/
def negForward (ix p q iz : ℕ) (s : Tay) : Tay :=
  forRange p (q + 1) s fun k s => s.set iz k (- s ix k)

/-- neg_op.hpp:42-70 -/
def negDir (ix q r iz : ℕ) (s : Tay) : Tay :=
  let m := (q - 1) * r + 1
  forRange 0 r s fun ell s => s.set iz (m + ell) (- s ix (m + ell))

/-- neg_op.hpp:99-128 -/
noncomputable def negReverse (ix d iz : ℕ) (_s P : Tay) : Tay :=
  let neg_one : ℝ := -1
  forRange 0 (d + 1) P fun k P => P.add ix k (azmul (P iz k) neg_one)

end CppAD
