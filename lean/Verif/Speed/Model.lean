import Verif.Taylor.Loop
import Mathlib.Analysis.SpecialFunctions.Exp

/-! # The functions with known derivatives that come with the library (property C66)

Model of cppad/speed/sparse_jac_fun.hpp, sparse_hes_fun.hpp, mat_sum_sq.hpp and of the derivative in ode_evaluate.hpp, in exact real
arithmetic.  Vectors are memories `ℕ → ℝ`, `ℕ → ℕ`; `row`, `col` have size `K`. -/

namespace CppAD.Speed

/-- sparse_jac_fun, sparse_jac_fun.hpp:170-220; `fp` is the content of the result before the call -/
noncomputable def sparseJacFun (m K : ℕ) (x : ℕ → ℝ) (row col : ℕ → ℕ) (p : ℕ) (fp : ℕ → ℝ) : ℕ → ℝ :=
  let fp := if p = 0 then forRange 0 m fp fun i fp => Function.update fp i 0 else fp
  forRange 0 K fp fun k fp =>
    let i := row k
    let j := col k
    let t := Real.exp (x j * x j / 2)
    if p = 0 then Function.update fp i (fp i + t) else Function.update fp k (t * x j)

/-- the index of the diagonal entry of each row (`K` when there is none) and the assertion that there is at most one,
sparse_hes_fun.hpp:200-210; `d0` is the content of the new vector -/
def hesDiagonal (n K : ℕ) (row col : ℕ → ℕ) (d0 : ℕ → ℕ) : (ℕ → ℕ) × Bool :=
  let d := forRange 0 n d0 fun i d => Function.update d i K
  forRange 0 K (d, true) fun k s =>
    if row k = col k then (Function.update s.1 (row k) k, s.2 && decide (s.1 (row k) = K)) else s

/-- the factor for entries that are reflected, sparse_hes_fun.hpp:212-225 -/
noncomputable def hesFactor (K : ℕ) (row col : ℕ → ℕ) (f0 : ℕ → ℝ) : ℕ → ℝ :=
  forRange 0 K f0 fun k f =>
    forRange 0 K (Function.update f k 1) fun k1 f =>
      if k ≠ k1 ∧ row k ≠ col k ∧ row k = col k1 ∧ col k = row k1 then Function.update f k 2 else f

/-- the case `p = 2` of one term, sparse_hes_fun.hpp:238-258 -/
noncomputable def hesTerm (K : ℕ) (x : ℕ → ℝ) (row col diagonal : ℕ → ℕ) (factor : ℕ → ℝ) (k : ℕ) (fp : ℕ → ℝ) : ℕ → ℝ :=
  let i := row k
  let j := col k
  let t := Real.exp (x i * x j)
  if i = j then Function.update fp k (fp k + (2 + 4 * x i * x i) * t)
  else
    let fp := Function.update fp k (fp k + factor k * (1 + x i * x j) * t)
    let fp := if diagonal i ≠ K then Function.update fp (diagonal i) (fp (diagonal i) + x j * x j * t) else fp
    if diagonal j ≠ K then Function.update fp (diagonal j) (fp (diagonal j) + x i * x i * t) else fp

/-- sparse_hes_fun, sparse_hes_fun.hpp:173-264; `fp`, `d0`, `f0` are the contents of the result and of the local vectors before they
are assigned -/
noncomputable def sparseHesFun (n K : ℕ) (x : ℕ → ℝ) (row col : ℕ → ℕ) (p : ℕ) (fp : ℕ → ℝ) (d0 : ℕ → ℕ) (f0 : ℕ → ℝ) : ℕ → ℝ :=
  let fp := if p = 0 then Function.update fp 0 0 else forRange 0 K fp fun k fp => Function.update fp k 0
  let diagonal := (hesDiagonal n K row col d0).1
  let factor := hesFactor K row col f0
  forRange 0 K fp fun k fp =>
    if p = 0 then Function.update fp 0 (fp 0 + Real.exp (x (row k) * x (col k)))
    else hesTerm K x row col diagonal factor k fp

/-- mat_sum_sq, mat_sum_sq.hpp:131-149; returns `y` and `z` -/
noncomputable def matSumSq (n : ℕ) (x y z : ℕ → ℝ) : (ℕ → ℝ) × (ℕ → ℝ) :=
  let y := forRange 0 n y fun i y => forRange 0 n y fun j y =>
    forRange 0 n (Function.update y (i * n + j) 0) fun k y =>
      Function.update y (i * n + j) (y (i * n + j) + x (i * n + k) * x (k * n + j))
  let z := Function.update z 0 0
  (y, forRange 0 n z fun i z => forRange 0 n z fun j z => Function.update z 0 (z 0 + y (i * n + j)))

/-- the right hand side of the differential equation, ode_evaluate.hpp:162-170; `f` is its content before the call -/
noncomputable def odeRhs (n : ℕ) (y f : ℕ → ℝ) : ℕ → ℝ :=
  forRange 1 n (Function.update f 0 0) fun k f => Function.update f k (y (k - 1))

/-- the type of `factorial` is size_t -/
def sizeMax : ℕ := 2 ^ 64

/-- ode_evaluate with `p = 1`, ode_evaluate.hpp:219-236; the multiplication of `size_t` is modulo 2^64, the conversion
of `factorial` to double does not round here -/
noncomputable def odeGradient (n : ℕ) (fp : ℕ → ℝ) : ℕ → ℝ :=
  let fp := forRange 0 n fp fun i fp => forRange 0 n fp fun j fp => Function.update fp (i * n + j) 0
  (forRange 0 n (1, fp) fun k (s : ℕ × (ℕ → ℝ)) =>
    let factorial := if k > 1 then s.1 * k % sizeMax else s.1
    (factorial, forRange k n s.2 fun i fp => Function.update fp (i * n + (i - k)) (fp (i * n + (i - k)) + 1 / (factorial : ℝ)))).2

end CppAD.Speed
