import Verif.Taylor.Drivers
import Verif.AtomEx.Base

/-!
# Derivatives of optimal values: specification
-/

open scoped Topology
open CppAD.AtomEx (ev)

namespace CppAD.OptVal

/-- *Specification*: the object `f`, in whatever state, is a recording of `φ` that can be used at `x`: its operation
sequence computes `φ` near `x`, and the operations are smooth at `x` -/
def Records {N : ℕ} (f : ADFun) (x : Fin N → ℝ) (φ : (Fin N → ℝ) → ℝ) : Prop :=
  ∃ T S, Reach T f S ∧ T.WF ∧ T.n = N ∧ T.dep.length = 1 ∧ T.Dom (ev x) ∧ ∀ᶠ x' in 𝓝 x, T.eval (ev x') 0 = φ x'

/-- *Specification*: `g[j]` is the partial of `V` with respect to `x_j` -/
def IsGrad {n : ℕ} (V : (Fin n → ℝ) → ℝ) (x : Fin n → ℝ) (g : ℕ → ℝ) : Prop :=
  DifferentiableAt ℝ V x ∧ ∀ j : Fin n, g j = fderiv ℝ V x (Pi.single j 1)

/-- *Specification*: `V` is two times differentiable and `h[i*n+j]` is the partial of `V` with respect to `x_i`, `x_j` -/
def IsHess {n : ℕ} (V : (Fin n → ℝ) → ℝ) (x : Fin n → ℝ) (h : ℕ → ℝ) : Prop :=
  (∀ᶠ x' in 𝓝 x, DifferentiableAt ℝ V x') ∧ DifferentiableAt ℝ (fderiv ℝ V) x ∧
    ∀ i j : Fin n, h (i * n + j) = fderiv ℝ (fderiv ℝ V) x (Pi.single i 1) (Pi.single j 1)

/-- *Specification*: `Y` is a differentiable solution of `∂_y F[x', Y(x')] = 0` for `x'` near `x`, and `Y(x) = y`;
core/opt_val_hes.hpp:27-50 -/
structure IsSol {n m : ℕ} (F : (Fin n → ℝ) × (Fin m → ℝ) → ℝ) (x : Fin n → ℝ) (y : Fin m → ℝ)
    (Y : (Fin n → ℝ) → Fin m → ℝ) : Prop where
  val : Y x = y
  diff : ∀ᶠ x' in 𝓝 x, DifferentiableAt ℝ Y x'
  crit : ∀ᶠ x' in 𝓝 x, ∀ v, fderiv ℝ F (x', Y x') (0, v) = 0

/-- the matrix `∂_yy F(x, y)` -/
noncomputable def Fyy {n m : ℕ} (F : (Fin n → ℝ) × (Fin m → ℝ) → ℝ) (x : Fin n → ℝ) (y : Fin m → ℝ) :
    Matrix (Fin m) (Fin m) ℝ :=
  Matrix.of fun i j => fderiv ℝ (fderiv ℝ F) (x, y) (0, Pi.single i 1) (0, Pi.single j 1)

/-- the two parts of a vector with `n + m` elements -/
def split (n m : ℕ) : (Fin (n + m) → ℝ) →L[ℝ] (Fin n → ℝ) × (Fin m → ℝ) :=
  (ContinuousLinearMap.pi fun i => ContinuousLinearMap.proj (Fin.castAdd m i)).prod
    (ContinuousLinearMap.pi fun j => ContinuousLinearMap.proj (Fin.natAdd n j))

end CppAD.OptVal
