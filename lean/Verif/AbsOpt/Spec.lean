import Verif.AbsOpt.Model
import Mathlib.Algebra.Order.BigOperators.Ring.Finset
import Mathlib.Data.Real.Basic

/-!
# Linear programs: specification
-/

namespace CppAD.AbsOpt

/-- *Specification*: row `i` of `A x + b`, where `A` is in row major order -/
def rowVal (nx : ℕ) (A b x : ℕ → ℝ) (i : ℕ) : ℝ := ∑ j ∈ Finset.range nx, A (i * nx + j) * x j + b i

/-- *Specification*: `x` is non-negative and `A x + b ≤ 0` -/
def Feasible (ne nx : ℕ) (A b x : ℕ → ℝ) : Prop := (∀ j < nx, 0 ≤ x j) ∧ ∀ i < ne, rowVal nx A b x i ≤ 0

/-- *Specification*: the objective -/
def cost (nx : ℕ) (c x : ℕ → ℝ) : ℝ := ∑ j ∈ Finset.range nx, c j * x j

/-- *Specification*: `x` solves the linear program -/
def Solves (ne nx : ℕ) (A b c x : ℕ → ℝ) : Prop :=
  Feasible ne nx A b x ∧ ∀ y, Feasible ne nx A b y → cost nx c x ≤ cost nx c y

/-- *Specification*: `A x + b ≤ 0` and `|x_j| ≤ d_j` -/
def FeasibleBox (m n : ℕ) (A b : ℕ → ℝ) (d : ℕ → Option ℝ) (x : ℕ → ℝ) : Prop :=
  (∀ i < m, rowVal n A b x i ≤ 0) ∧ ∀ j < n, ∀ dj, d j = some dj → - dj ≤ x j ∧ x j ≤ dj

/-- *Specification*: `x` solves the linear program with box constraints -/
def SolvesBox (m n : ℕ) (A b c : ℕ → ℝ) (d : ℕ → Option ℝ) (x : ℕ → ℝ) : Prop :=
  FeasibleBox m n A b d x ∧ ∀ y, FeasibleBox m n A b d y → cost n c x ≤ cost n c y

end CppAD.AbsOpt
