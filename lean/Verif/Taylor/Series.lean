import Mathlib.Analysis.Calculus.IteratedDeriv.Lemmas
import Mathlib.Analysis.Calculus.ContDiff.Operations
import Mathlib.Analysis.Calculus.Deriv.Mul
import Mathlib.RingTheory.PowerSeries.Derivative
import Mathlib.Algebra.BigOperators.Field
import Mathlib.Data.Nat.Cast.Field
import Mathlib.Tactic.FieldSimp
import Mathlib.Tactic.Ring
import Mathlib.Tactic.Linarith

/-! # Taylor coefficients of smooth functions as power series -/

open scoped ContDiff Topology PowerSeries
open PowerSeries

namespace CppAD

/-- *Specification*: the order `k` Taylor coefficient of `f` at zero,
`(1/k!) d^k/dt^k f(t)` at `t = 0`. -/
noncomputable def tc (f : ℝ → ℝ) (k : ℕ) : ℝ := iteratedDeriv k f 0 / (k.factorial : ℝ)

/-- `f` is smooth at zero. -/
abbrev Sm (f : ℝ → ℝ) : Prop := ContDiffAt ℝ ∞ f 0

/-- The Taylor series of `f` at zero. -/
noncomputable def T (f : ℝ → ℝ) : ℝ⟦X⟧ := PowerSeries.mk (tc f)

@[simp] theorem coeff_T (f : ℝ → ℝ) (k : ℕ) : coeff k (T f) = tc f k := by simp [T]

theorem tc_zero (f : ℝ → ℝ) : tc f 0 = f 0 := by simp [tc]

theorem Sm.of {f : ℝ → ℝ} (h : Sm f) (n : ℕ) : ContDiffAt ℝ n f 0 :=
  h.of_le (by exact_mod_cast le_top)

theorem T_congr {f g : ℝ → ℝ} (h : f =ᶠ[𝓝 0] g) : T f = T g := by
  ext k; simp [tc, h.iteratedDeriv_eq k]

theorem T_add {f g : ℝ → ℝ} (hf : Sm f) (hg : Sm g) : T (fun t => f t + g t) = T f + T g := by
  ext k
  have := iteratedDeriv_add (hf.of k) (hg.of k)
  simp only [map_add, coeff_T, tc]
  rw [← add_div, ← this]; rfl

theorem T_neg (f : ℝ → ℝ) : T (fun t => - f t) = - T f := by
  ext k
  simp [tc, iteratedDeriv_fun_neg, neg_div]

theorem T_sub {f g : ℝ → ℝ} (hf : Sm f) (hg : Sm g) : T (fun t => f t - g t) = T f - T g := by
  have : (fun t => f t - g t) = fun t => f t + (- g t) := by funext t; ring
  rw [this, T_add hf hg.neg, T_neg, sub_eq_add_neg]

theorem T_mul {f g : ℝ → ℝ} (hf : Sm f) (hg : Sm g) : T (fun t => f t * g t) = T f * T g := by
  ext k
  have := iteratedDeriv_mul (hf.of k) (hg.of k)
  simp only [coeff_T, tc, coeff_mul]
  change iteratedDeriv k (f * g) 0 / _ = _
  rw [this, Finset.Nat.sum_antidiagonal_eq_sum_range_succ_mk, Finset.sum_div]
  refine Finset.sum_congr rfl fun i hi => ?_
  have hi' : i ≤ k := by simpa [Nat.lt_succ_iff] using hi
  rw [Nat.choose_eq_factorial_div_factorial hi',
    Nat.cast_div (Nat.factorial_mul_factorial_dvd_factorial hi') (by positivity)]
  push_cast
  have h1 : (k.factorial : ℝ) ≠ 0 := by positivity
  have h2 : (i.factorial : ℝ) ≠ 0 := by positivity
  have h3 : ((k - i).factorial : ℝ) ≠ 0 := by positivity
  field_simp

theorem T_const (c : ℝ) : T (fun _ => c) = C c := by
  ext k
  simp only [coeff_T, tc, iteratedDeriv_const, coeff_C]
  split <;> simp_all

theorem Sm.sm_deriv {f : ℝ → ℝ} (h : Sm f) : Sm (deriv f) := by
  have : ContDiffAt ℝ ∞ (fun t => fderiv ℝ f t 1) 0 :=
    (h.fderiv_right (m := ∞) (by simp)).clm_apply contDiffAt_const
  simpa using this

theorem T_deriv (f : ℝ → ℝ) : T (deriv f) = d⁄dX ℝ (T f) := by
  ext k
  rw [coeff_derivative]
  simp only [coeff_T, tc, iteratedDeriv_succ']
  rw [Nat.factorial_succ]; push_cast
  have h1 : (k.factorial : ℝ) ≠ 0 := by positivity
  have h2 : (k : ℝ) + 1 ≠ 0 := by positivity
  field_simp

/-- Euler operator `t d/dt`; its order `k` coefficient is `k * f_k`. -/
noncomputable def θ (F : ℝ⟦X⟧) : ℝ⟦X⟧ := X * d⁄dX ℝ F

@[simp] theorem coeff_θ (F : ℝ⟦X⟧) (k : ℕ) : coeff k (θ F) = k * coeff k F := by
  cases k with
  | zero => simp [θ]
  | succ k => simp [θ, coeff_succ_X_mul, coeff_derivative, mul_comm]

theorem θ_mul (F G : ℝ⟦X⟧) : θ (F * G) = θ F * G + F * θ G := by
  simp only [θ, Derivation.leibniz, smul_eq_mul]; ring

theorem θ_add (F G : ℝ⟦X⟧) : θ (F + G) = θ F + θ G := by simp [θ, mul_add]
theorem θ_sub (F G : ℝ⟦X⟧) : θ (F - G) = θ F - θ G := by simp [θ, mul_sub]
theorem θ_neg (F : ℝ⟦X⟧) : θ (-F) = - θ F := by simp [θ]
@[simp] theorem θ_C (c : ℝ) : θ (C c) = 0 := by ext k; rw [coeff_θ]; cases k <;> simp [coeff_C]
@[simp] theorem θ_one : θ 1 = 0 := by simpa using θ_C 1

theorem coeff_mul_range (F G : ℝ⟦X⟧) (n : ℕ) :
    coeff n (F * G) = ∑ k ∈ Finset.range (n + 1), coeff k F * coeff (n - k) G := by
  rw [coeff_mul, Finset.Nat.sum_antidiagonal_eq_sum_range_succ_mk]

/-- chain rule for the Taylor series of `z` when `z' = g * x'` near zero -/
theorem θ_chain {x z g : ℝ → ℝ} (hx : Sm x) (hg : Sm g)
    (h : ∀ᶠ t in 𝓝 (0 : ℝ), HasDerivAt z (g t * deriv x t) t) :
    θ (T z) = T g * θ (T x) := by
  have h1 : deriv z =ᶠ[𝓝 0] fun t => g t * deriv x t := h.mono fun t ht => ht.deriv
  have h2 : T (deriv z) = T g * T (deriv x) := by
    rw [T_congr h1, T_mul hg hx.sm_deriv]
  rw [T_deriv, T_deriv] at h2
  simp only [θ, h2]; ring

theorem Sm.eventually_deriv {x : ℝ → ℝ} (hx : Sm x) :
    ∀ᶠ t in 𝓝 (0 : ℝ), HasDerivAt x (deriv x t) t := by
  have h1 : ContDiffAt ℝ 1 x 0 := by simpa using hx.of 1
  filter_upwards [h1.eventually (by simp)] with t ht
  exact (ht.differentiableAt (by simp)).hasDerivAt

theorem Sm.continuousAt' {x : ℝ → ℝ} (hx : Sm x) : ContinuousAt x 0 := ContDiffAt.continuousAt hx

/-- chain rule for a unary function -/
theorem θ_unary {x : ℝ → ℝ} {f g : ℝ → ℝ} (hx : Sm x) (hg : Sm (fun t => g (x t)))
    (h : ∀ᶠ t in 𝓝 (0 : ℝ), HasDerivAt f (g (x t)) (x t)) :
    θ (T (fun t => f (x t))) = T (fun t => g (x t)) * θ (T x) := by
  refine θ_chain hx hg ?_
  filter_upwards [h, hx.eventually_deriv] with t h1 h2
  exact h1.comp t h2

end CppAD
