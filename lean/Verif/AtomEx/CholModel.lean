import Verif.AtomEx.MatChol

/-!
# Model of the atomic Cholesky factor, include/cppad/example/atomic_two/eigen_cholesky.hpp

`A = L Lᵀ`.  The arguments of a call are `x[0] = nr` (a parameter) and the lower triangle of the symmetric matrix `A`, row by
row; the results are the lower triangle of `L`.

The members of the object are those of `MatObj`, Verif/AtomEx/InvModel.lean; `f_arg_`, `r_arg_` and `r_result_` are assigned
in each call before they are used.  Matrix operations of Eigen are the ones of Mathlib; `LLT` of a symmetric positive definite
matrix gives its Cholesky factor, and `solve` of a triangular matrix multiplies by its inverse.  An operation on
matrices of different sizes, or an access outside of a matrix, is `none`.
-/

namespace CppAD.AtomEx

/-- `triangularView<Lower>()` -/
def lowView {n : ℕ} (M : Mat n) : Mat n := Matrix.of fun i j => if j ≤ i then M i j else 0

/-- `for i : M(i,i) /= 2.0`; eigen_cholesky.hpp:198-200, 316-318, 349-350 -/
noncomputable def halfDiag {n : ℕ} (M : Mat n) : Mat n := Matrix.of fun i j => if i = j then M i j / 2 else M i j

/-- The loops over the lower triangle with the counter `index`; the state is the array and the counter. -/
def triLoop {σ : Type*} (nr idx0 : ℕ) (s : σ) (body : ℕ → ℕ → ℕ → σ → σ) : σ × ℕ :=
  forRange 0 nr (s, idx0) fun i st => forRange 0 (i + 1) st fun j st => (body i j st.2 st.1, st.2 + 1)

/-- unpack `f_arg_[k]`; eigen_cholesky.hpp:169-180, 278-289 -/
noncomputable def cholUnpack (nr no : ℕ) (tx : ℕ → ℝ) (k : ℕ) : Mat nr :=
  toMat nr (triLoop nr 1 (fun _ _ => 0) fun i j index M =>
    let M := Tay.set M i j (tx (index * no + k))
    Tay.set M j i (M i j)).1

/-- unpack `r_result_[k]`; eigen_cholesky.hpp:291-301 -/
noncomputable def cholUnpackY (nr no : ℕ) (py : ℕ → ℝ) (k : ℕ) : Mat nr :=
  toMat nr (triLoop nr 0 (fun _ _ => 0) fun i j index M => Tay.set M i j (py (index * no + k))).1

/-- `f_result_`; eigen_cholesky.hpp:185-203.  `R` is the value before. -/
noncomputable def cholFor {nr : ℕ} (no : ℕ) (A R : ℕ → Mat nr) : ℕ → Mat nr :=
  forRange 1 no (Function.update R 0 (chol (A 0))) fun k R =>
    let sum := forRange 1 k (A k) fun ell sum => sum - R ell * (R (k - ell)).transpose
    let temp := (lowView (R 0))⁻¹ * sum
    let temp := temp * ((lowView (R 0)).transpose)⁻¹
    let temp := halfDiag temp
    Function.update R k (R 0 * lowView temp)

/-- pack the result; eigen_cholesky.hpp:205-214 -/
noncomputable def cholPack {nr : ℕ} (no : ℕ) (R : ℕ → Mat nr) (y : ℕ → ℝ) : ℕ → ℝ :=
  forRange 0 no y fun k y => (triLoop nr 0 y fun i j index y => vset y (index * no + k) (ofMat (R k) i j)).1

/-- `forward`; eigen_cholesky.hpp:131-214.  `nr` is `Integer( tx[0] )`. -/
noncomputable def MatObj.cholForward (o : MatObj) (q : ℕ) (tx ty : ℕ → ℝ) : Option (MatObj × (ℕ → ℝ)) :=
  let no := q + 1
  let nr := ⌊tx (0 * no + 0)⌋₊
  let o := o.grow nr no
  if o.dim = nr then
    let R := cholFor no (cholUnpack nr no tx) fun k => toMat nr (o.res k)
    some ({ o with res := fun k => ofMat (R k) }, cholPack no R ty)
  else none

/-- `barB_k` and the values of `r_arg_` and `r_result_` after order `k` has been removed; eigen_cholesky.hpp:310-346 -/
noncomputable def cholRevStep {nr : ℕ} (R : ℕ → Mat nr) (k : ℕ) (s : (ℕ → Mat nr) × (ℕ → Mat nr)) :
    (ℕ → Mat nr) × (ℕ → Mat nr) :=
  let L0 := lowView (R 0)
  let tmp1 := halfDiag (L0.transpose * s.2 k)
  let tmp2 := lowView tmp1
  let tmp1 := (L0.transpose)⁻¹ * tmp2
  let M := (L0.transpose)⁻¹ * tmp1.transpose
  let barB := (1 / 2 : ℝ) • (M + M.transpose)
  let rA := Function.update s.1 k (s.1 k + barB)
  let barB := (-1 : ℝ) • barB
  let rR := Function.update s.2 0 (s.2 0 + lowView ((2 : ℝ) • barB * R k))
  let rR := forRange 1 k rR fun ell rR => Function.update rR ell (rR ell + lowView ((2 : ℝ) • barB * R (k - ell)))
  (rA, rR)

/-- `r_arg_`; eigen_cholesky.hpp:303-355.  `P` is `r_result_` after `py` has been unpacked. -/
noncomputable def cholRev {nr : ℕ} (no : ℕ) (R P : ℕ → Mat nr) : ℕ → Mat nr :=
  let L0 := lowView (R 0)
  let s := forDown (no - 1) ((fun _ => 0 : ℕ → Mat nr), P) (cholRevStep R)
  let M := halfDiag (L0.transpose * s.2 0)
  let M := lowView M
  let M := M * L0⁻¹
  let M := (L0.transpose)⁻¹ * M
  Function.update s.1 0 (s.1 0 + (1 / 2 : ℝ) • (M + M.transpose))

/-- pack `r_arg_` into `px`; eigen_cholesky.hpp:357-371 -/
noncomputable def cholPackX {nr : ℕ} (no : ℕ) (rA : ℕ → Mat nr) (px : ℕ → ℝ) : ℕ → ℝ :=
  forRange 0 no px fun k px =>
    let px := vset px (0 * no + k) 0
    (forRange 0 nr (px, 1) fun i st =>
      let st := forRange 0 i st fun j st => (vset st.1 (st.2 * no + k) (2 * ofMat (rA k) i j), st.2 + 1)
      (vset st.1 (st.2 * no + k) (ofMat (rA k) i i), st.2 + 1)).1

/-- `reverse`; eigen_cholesky.hpp:237-374.  `f_result_` is the one of the last call of `forward`; `ty` is not used.  `none`
is a failing `assert` at line 264 or matrices of different sizes (the assignments at lines 292 and
305 give `r_arg_` and `r_result_` the right sizes). -/
noncomputable def MatObj.cholReverse (o : MatObj) (q : ℕ) (tx _ty px py : ℕ → ℝ) : Option (MatObj × (ℕ → ℝ)) :=
  let no := q + 1
  let nr := ⌊tx (0 * no + 0)⌋₊
  if no ≤ o.size then
    let o := o.rgrow nr no
    if o.dim = nr then
      let rA := cholRev no (fun k => toMat nr (o.res k)) (cholUnpackY nr no py)
      some (o, cholPackX no rA px)
    else none
  else none

end CppAD.AtomEx
