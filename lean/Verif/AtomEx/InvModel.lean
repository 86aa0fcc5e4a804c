import Verif.AtomEx.MatCalc

/-!
# Model of the atomic matrix inverse, include/cppad/example/atomic_two/eigen_mat_inv.hpp

`R = A⁻¹`.  The arguments of a call are `x[0] = nr` (a parameter) and `A` in row major order, the results are the elements of
`R` in row major order.

The object remembers `f_arg_`, `f_result_`, `r_arg_` and `r_result_` from call to call.  The elements of `f_arg_`, `r_arg_` and
`r_result_` are assigned in each call before they are used, so that only the sizes of these members are kept here.

Matrix operations of Eigen are the ones of Mathlib; `inverse()` of an invertible matrix is its inverse.  An operation on
matrices of different sizes, or an access outside of a matrix, is `none`.
-/

namespace CppAD.AtomEx

/-- The members of `atomic_eigen_mat_inv` (and of `atomic_eigen_cholesky`); eigen_mat_inv.hpp:239-243.
`size` is the size of `f_arg_` and of `f_result_`, all of whose matrices are `dim × dim` (280-288); `rsize` and `rdim` are
the same for `r_arg_` and `r_result_` (368-376).  `res k i j` is element `(i,j)` of `f_result_[k]`. -/
structure MatObj where
  size : ℕ
  dim : ℕ
  res : ℕ → ℕ → ℕ → ℝ
  rsize : ℕ
  rdim : ℕ

/-- a new object; eigen_mat_inv.hpp:193-197 -/
def MatObj.fresh : MatObj := ⟨0, 0, fun _ _ _ => 0, 0, 0⟩

/-- elements of a matrix, zero when there is no such element -/
def ofMat {n : ℕ} (M : Mat n) (i j : ℕ) : ℝ := if h : i < n ∧ j < n then M ⟨i, h.1⟩ ⟨j, h.2⟩ else 0

/-- matrix with given elements -/
def toMat (n : ℕ) (a : ℕ → ℕ → ℝ) : Mat n := Matrix.of fun i j => a i j

/-- `M.data()[i]` of a matrix in row major order -/
def dataAt {n : ℕ} (M : Mat n) (i : ℕ) : ℝ := ofMat M (i / n) (i % n)

/-- `f_arg_` and `f_result_` are large enough; eigen_mat_inv.hpp:278-288.  The elements of `f_result_` after
`resize` are not specified (here they do not change); they are assigned before they are used. -/
def MatObj.grow (o : MatObj) (nr no : ℕ) : MatObj := if o.size < no then { o with size := no, dim := nr } else o

/-- `r_arg_` and `r_result_` are large enough; eigen_mat_inv.hpp:366-376 -/
def MatObj.rgrow (o : MatObj) (nr no : ℕ) : MatObj := if o.rsize < no then { o with rsize := no, rdim := nr } else o

/-- unpack `f_arg_[k]`; eigen_mat_inv.hpp:290-295, 378-383 -/
def invUnpack (nr no : ℕ) (tx : ℕ → ℝ) (k : ℕ) : Mat nr := Matrix.of fun i j => tx ((1 + (i * nr + j)) * no + k)

/-- unpack `r_result_[k]`; eigen_mat_inv.hpp:385-389 -/
def invUnpackY (nr no : ℕ) (py : ℕ → ℝ) (k : ℕ) : Mat nr := Matrix.of fun i j => py ((i * nr + j) * no + k)

/-- `f_result_`; eigen_mat_inv.hpp:300-309.  `R` is the value before. -/
noncomputable def invFor {nr : ℕ} (no : ℕ) (A R : ℕ → Mat nr) : ℕ → Mat nr :=
  forRange 1 no (Function.update R 0 (A 0)⁻¹) fun k R =>
    let sum := forRange 1 (k + 1) 0 fun ell sum => sum - A ell * R (k - ell)
    Function.update R k (R 0 * sum)

/-- pack the result, `n` elements at offset `off`; eigen_mat_inv.hpp:311-315, 415-419 -/
def invPack {nr : ℕ} (off no : ℕ) (R : ℕ → Mat nr) (y : ℕ → ℝ) : ℕ → ℝ :=
  forRange 0 no y fun k y => forRange 0 (nr * nr) y fun i y => vset y ((off + i) * no + k) (dataAt (R k) i)

/-- `forward`; eigen_mat_inv.hpp:251-315.  `nr` is `Integer( tx[0] )`.  When the matrices in `f_arg_` do not have the size
`nr`, the loop that unpacks writes outside of them (line 294, matrices that are too small) or leaves some of the elements
of a larger matrix as they are.  This is `none`. -/
noncomputable def MatObj.forward (o : MatObj) (q : ℕ) (tx ty : ℕ → ℝ) : Option (MatObj × (ℕ → ℝ)) :=
  let no := q + 1
  let nr := ⌊tx (0 * no + 0)⌋₊
  let o := o.grow nr no
  if o.dim = nr then
    let R := invFor no (invUnpack nr no tx) fun k => toMat nr (o.res k)
    some ({ o with res := fun k => ofMat (R k) }, invPack 0 no R ty)
  else none

/-- which results are variables; eigen_mat_inv.hpp:321-327 -/
def invVy (ny : ℕ) (vx vy : ℕ → Bool) : ℕ → Bool :=
  let var := forRange 0 ny false fun i var => var || vx (1 + i)
  forRange 0 ny vy fun i vy => Function.update vy i var

/-- `r_arg_` and `r_result_` in one step of the loop over `ell`; eigen_mat_inv.hpp:404-410 -/
def invRevStep {nr : ℕ} (A R : ℕ → Mat nr) (k ell : ℕ) (s : (ℕ → Mat nr) × (ℕ → Mat nr)) :
    (ℕ → Mat nr) × (ℕ → Mat nr) :=
  let rA := Function.update s.1 ell (s.1 ell - (R 0).transpose * s.2 k * (R (k - ell)).transpose)
  let rR := Function.update s.2 (k - ell) (s.2 (k - ell) - (A ell).transpose * (R 0).transpose * s.2 k)
  (rA, rR)

/-- `r_arg_`; eigen_mat_inv.hpp:391-414.  `P` is `r_result_` after `py` has been unpacked. -/
def invRev {nr : ℕ} (no : ℕ) (A R P : ℕ → Mat nr) : ℕ → Mat nr :=
  let s := forDown (no - 1) ((fun _ => 0 : ℕ → Mat nr), P) fun k s =>
    let s := (s.1, Function.update s.2 0 (s.2 0 + s.2 k * (R k).transpose * (A 0).transpose))
    forRange 1 (k + 1) s (invRevStep A R k)
  Function.update s.1 0 (s.1 0 - (R 0).transpose * s.2 0 * (R 0).transpose)

/-- `reverse`; eigen_mat_inv.hpp:337-422.  `f_result_` is the one of the last call of `forward`; `ty` is not used.  `none`
is a failing `assert` at line 364 or matrices of different sizes. -/
noncomputable def MatObj.reverse (o : MatObj) (q : ℕ) (tx _ty px py : ℕ → ℝ) : Option (MatObj × (ℕ → ℝ)) :=
  let no := q + 1
  let nr := ⌊tx (0 * no + 0)⌋₊
  if no ≤ o.size then
    let o := o.rgrow nr no
    if o.dim = nr ∧ o.rdim = nr then
      let rA := invRev no (invUnpack nr no tx) (fun k => toMat nr (o.res k)) (invUnpackY nr no py)
      some (o, invPack 1 no rA px)
    else none
  else none

end CppAD.AtomEx
