import Verif.AbsOpt.QpModel
import Verif.AbsOpt.Spec

/-!
# Quadratic programs: specification
-/

namespace CppAD.AbsOpt

/-- *Specification*: the quadratic form of a matrix in row major order -/
def quad (n : ℕ) (G x : ℕ → ℝ) : ℝ := ∑ i ∈ Finset.range n, ∑ j ∈ Finset.range n, x i * G (i * n + j) * x j

/-- *Specification*: the objective -/
noncomputable def qpCost (n : ℕ) (g G x : ℕ → ℝ) : ℝ := 1 / 2 * quad n G x + cost n g x

/-- *Specification*: symmetric matrix -/
def IsSymm (n : ℕ) (G : ℕ → ℝ) : Prop := ∀ i < n, ∀ j < n, G (i * n + j) = G (j * n + i)

/-- *Specification*: positive semi-definite matrix -/
def IsPsd (n : ℕ) (G : ℕ → ℝ) : Prop := ∀ x, 0 ≤ quad n G x

/-- *Specification*: `x`, `y`, `s` satisfy the KKT conditions with error at most `eps` -/
structure Kkt (n m : ℕ) (c C g G : ℕ → ℝ) (eps : ℝ) (x y s : ℕ → ℝ) : Prop where
  y_pos : ∀ i < m, 0 < y i
  s_pos : ∀ i < m, 0 < s i
  gradient : ∀ j < n, |g j + ∑ i ∈ Finset.range n, G (j * n + i) * x i + ∑ i ∈ Finset.range m, y i * C (i * n + j)| ≤ eps
  constraint : ∀ i < m, |rowVal n C c x i + s i| ≤ eps
  slack : ∀ i < m, |s i * y i| ≤ eps

/-- *Specification*: the Newton equations for `F_mu`, where `d` is the step and `F` is the value of `F_mu` -/
structure Newton (n m : ℕ) (C G y s F d : ℕ → ℝ) : Prop where
  gradient : ∀ j < n, ∑ i ∈ Finset.range n, G (j * n + i) * d i + ∑ i ∈ Finset.range m, C (i * n + j) * d (n + i) = - F j
  constraint : ∀ i < m, ∑ j ∈ Finset.range n, C (i * n + j) * d j + d (n + m + i) = - F (n + i)
  slack : ∀ i < m, s i * d (n + i) + y i * d (n + m + i) = - F (n + m + i)

end CppAD.AbsOpt
