import Verif.AbsOpt.EvalModel
import Verif.AbsOpt.Spec
import Mathlib.Analysis.Convex.Function

/-!
# The abs-normal approximation: specification

`g` and `gj` are the value and the Jacobian of an abs-normal representation with `m + s` components and `n + s` arguments: the first `m`
components are `y(x, u)`, the other `z(x, u)`; the first `n` arguments are `x`, the other `u`.
-/

namespace CppAD.AbsOpt

/-- *Specification*: `z_i(x, u)` does not depend on `u_j` for `j ≥ i` -/
def IsTri (n m s : ℕ) (gj : ℕ → ℝ) : Prop := ∀ i < s, ∀ j < s, i ≤ j → gj ((m + i) * (n + s) + n + j) = 0

/-- *Specification*: component `i` of the first order approximation, where the absolute values at the new point are `|gt_{m+j}|` -/
noncomputable def lin (n m s : ℕ) (g gj dx gt : ℕ → ℝ) (i : ℕ) : ℝ :=
  g i + ∑ j ∈ Finset.range n, gj (i * (n + s) + j) * dx j +
    ∑ j ∈ Finset.range s, gj (i * (n + s) + n + j) * (|gt (m + j)| - |g (m + j)|)

/-- *Specification*: `gt` is the abs-normal approximation at the point with difference `dx` -/
def IsApprox (n m s : ℕ) (g gj dx gt : ℕ → ℝ) : Prop := ∀ i < m + s, gt i = lin n m s g gj dx gt i

/-- *Specification*: `f` is the approximation of the objective (`m = 1`) -/
def IsTilde (n s : ℕ) (g gj : ℕ → ℝ) (f : (ℕ → ℝ) → ℝ) : Prop := ∀ d, ∃ gt, IsApprox n 1 s g gj d gt ∧ gt 0 = f d

/-- *Specification*: `p` is the slope of the linear function that the approximation of the objective is (`m = 1`) when the absolute value of
`z_k` is replaced by `sigma_k * z_k`: `X k j` is the partial of `z_k` with respect to `x_j` -/
def IsSlope (n s : ℕ) (gj sigma p : ℕ → ℝ) : Prop :=
  ∃ X : ℕ → ℕ → ℝ,
    (∀ k < s, ∀ j < n, X k j = gj ((1 + k) * (n + s) + j) + ∑ l ∈ Finset.range s, gj ((1 + k) * (n + s) + n + l) * (sigma l * X l j)) ∧
    ∀ j < n, p j = gj j + ∑ k ∈ Finset.range s, gj (n + k) * (sigma k * X k j)

/-- *Specification*: an absolute value with argument zero is not in the argument of an absolute value -/
def NotNested (n s : ℕ) (gj gt : ℕ → ℝ) : Prop := ∀ k < s, gt (1 + k) = 0 → ∀ i < s, gj ((1 + i) * (n + s) + n + k) = 0

/-- *Specification*: the trust region -/
def InBox (n : ℕ) (bound d : ℕ → ℝ) : Prop := ∀ j < n, |d j| ≤ bound j

end CppAD.AbsOpt
