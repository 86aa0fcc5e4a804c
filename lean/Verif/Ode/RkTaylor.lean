import Mathlib.Analysis.Calculus.MeanValue
import Mathlib.Analysis.Calculus.FDeriv.Symmetric
import Mathlib.Analysis.Calculus.ContDiff.Basic
import Mathlib.Analysis.Calculus.Deriv.Pow
import Mathlib.Analysis.Asymptotics.Lemmas
import Mathlib.Analysis.Calculus.ContDiff.Operations

/-! # Expansions modulo powers of the step size (property C67) -/

namespace CppAD.Rk

open Filter Topology Asymptotics
open scoped ContDiff

variable {W : Type} [NormedAddCommGroup W] [NormedSpace ℝ W]

/-- `u` is of order `h ^ n` -/
def Ord (n : ℕ) (u : ℝ → W) : Prop := u =O[𝓝 (0 : ℝ)] fun h => h ^ n

theorem Ord.add {n : ℕ} {u v : ℝ → W} (h1 : Ord n u) (h2 : Ord n v) : Ord n fun h => u h + v h := IsBigO.add h1 h2

theorem Ord.sub {n : ℕ} {u v : ℝ → W} (h1 : Ord n u) (h2 : Ord n v) : Ord n fun h => u h - v h := IsBigO.sub h1 h2

theorem Ord.smul {n : ℕ} {u : ℝ → W} (h1 : Ord n u) (c : ℝ) : Ord n fun h => c • u h := IsBigO.const_smul_left h1 c

theorem Ord.zero (n : ℕ) : Ord n fun _ => (0 : W) := isBigO_zero _ _

theorem Ord.congr {n : ℕ} {u v : ℝ → W} (h1 : Ord n u) (h : ∀ t, u t = v t) : Ord n v := by
  have : u = v := funext h
  rwa [← this]

theorem Ord.mono {n m : ℕ} (hnm : n ≤ m) {u : ℝ → W} (h1 : Ord m u) : Ord n u := by
  refine IsBigO.trans h1 (IsBigO.of_bound 1 ?_)
  filter_upwards [Metric.ball_mem_nhds (0 : ℝ) one_pos] with t ht
  rw [Metric.mem_ball, dist_zero_right] at ht
  rw [norm_pow, norm_pow, one_mul]
  exact pow_le_pow_of_le_one (norm_nonneg _) ht.le hnm

theorem Ord.step {n : ℕ} {u : ℝ → W} (h1 : Ord n u) : Ord (n + 1) fun h => h • u h := by
  have h2 := (isBigO_refl (fun h : ℝ => h) (𝓝 0)).smul h1
  refine IsBigO.congr_right h2 fun t => ?_
  rw [smul_eq_mul, pow_succ, mul_comm]

theorem Ord.pow (n : ℕ) (v : W) : Ord n fun h => h ^ n • v :=
  IsBigO.of_bound ‖v‖ (Eventually.of_forall fun t => by rw [norm_smul, mul_comm])

theorem Ord.sum {ι : Type} {n : ℕ} (s : Finset ι) {u : ι → ℝ → W} (h : ∀ i ∈ s, Ord n (u i)) :
    Ord n fun t => ∑ i ∈ s, u i t := by
  classical
  induction s using Finset.induction_on with
  | empty => simpa using Ord.zero n
  | insert a s ha ih =>
    have h1 := (h a (Finset.mem_insert_self a s)).add (ih fun i hi => h i (Finset.mem_insert_of_mem hi))
    exact h1.congr fun t => by rw [Finset.sum_insert ha]

/-- if the derivative is of order `n` then the function is of order `n + 1` -/
theorem Ord.integral {n : ℕ} {u u' : ℝ → W} (hd : ∀ᶠ h in 𝓝 (0 : ℝ), HasDerivAt u (u' h) h) (h0 : u 0 = 0)
    (h1 : Ord n u') : Ord (n + 1) u := by
  obtain ⟨C, hC⟩ := h1.bound
  obtain ⟨ε, hε, hb⟩ := Metric.eventually_nhds_iff_ball.1 (hd.and hC)
  refine IsBigO.of_bound C ?_
  filter_upwards [Metric.ball_mem_nhds (0 : ℝ) hε] with h hh
  rw [Metric.mem_ball, dist_zero_right, Real.norm_eq_abs] at hh
  have hseg : ∀ s ∈ Set.uIcc 0 h, |s| ≤ |h| := by
    intro s hs
    have := Set.abs_sub_left_of_mem_uIcc hs
    simpa using this
  have hmem : ∀ s ∈ Set.uIcc 0 h, s ∈ Metric.ball (0 : ℝ) ε := by
    intro s hs
    rw [Metric.mem_ball, dist_zero_right, Real.norm_eq_abs]
    exact (hseg s hs).trans_lt hh
  have hCn : 0 ≤ C * |h| ^ n := by
    have h2 := (hb h (hmem h Set.right_mem_uIcc)).2
    rw [norm_pow, Real.norm_eq_abs] at h2
    exact (norm_nonneg _).trans h2
  have key := (convex_uIcc (0 : ℝ) h).norm_image_sub_le_of_norm_hasDerivWithin_le (f := u) (f' := u') (C := C * |h| ^ n)
    (fun s hs => (hb s (hmem s hs)).1.hasDerivWithinAt) (fun s hs => by
      have h2 := (hb s (hmem s hs)).2
      rw [norm_pow, Real.norm_eq_abs] at h2
      by_cases hC0 : 0 ≤ C
      · exact h2.trans (mul_le_mul_of_nonneg_left (pow_le_pow_left₀ (abs_nonneg _) (hseg s hs) n) hC0)
      · have h3 : C * |s| ^ n ≤ 0 := mul_nonpos_of_nonpos_of_nonneg (not_le.1 hC0).le (pow_nonneg (abs_nonneg _) _)
        exact h2.trans (h3.trans hCn)) (Set.left_mem_uIcc) (Set.right_mem_uIcc)
  rw [h0, sub_zero, sub_zero] at key
  refine key.trans (le_of_eq ?_)
  rw [norm_pow, Real.norm_eq_abs, pow_succ]
  ring

/-- Taylor's theorem for five functions, each the derivative of the previous -/
theorem taylor4 {g0 g1 g2 g3 g4 : ℝ → W} (h0 : ∀ᶠ h in 𝓝 (0 : ℝ), HasDerivAt g0 (g1 h) h)
    (h1 : ∀ᶠ h in 𝓝 (0 : ℝ), HasDerivAt g1 (g2 h) h) (h2 : ∀ᶠ h in 𝓝 (0 : ℝ), HasDerivAt g2 (g3 h) h)
    (h3 : ∀ᶠ h in 𝓝 (0 : ℝ), HasDerivAt g3 (g4 h) h) (h4 : DifferentiableAt ℝ g4 0) :
    Ord 5 fun h => g0 h - (g0 0 + h • g1 0 + (h ^ 2 / 2) • g2 0 + (h ^ 3 / 6) • g3 0 + (h ^ 4 / 24) • g4 0) := by
  have e4 : Ord 1 fun h => g4 h - g4 0 := by
    have := h4.isBigO_sub
    refine IsBigO.congr_right this fun t => ?_
    simp
  have e3 : Ord 2 fun h => g3 h - (g3 0 + h • g4 0) := by
    refine Ord.integral (u' := fun h => g4 h - g4 0) ?_ (by simp) e4
    filter_upwards [h3] with h hh
    have := hh.fun_sub ((hasDerivAt_const h (g3 0)).fun_add ((hasDerivAt_id' h).smul_const (g4 0)))
    exact this.congr_deriv (by simp)
  have e2 : Ord 3 fun h => g2 h - (g2 0 + h • g3 0 + (h ^ 2 / 2) • g4 0) := by
    refine Ord.integral (u' := fun h => g3 h - (g3 0 + h • g4 0)) ?_ (by simp) e3
    filter_upwards [h2] with h hh
    have := hh.fun_sub (((hasDerivAt_const h (g2 0)).fun_add ((hasDerivAt_id' h).smul_const (g3 0))).fun_add
      (((hasDerivAt_pow 2 h).div_const 2).smul_const (g4 0)))
    exact this.congr_deriv (by simp)
  have e1 : Ord 4 fun h => g1 h - (g1 0 + h • g2 0 + (h ^ 2 / 2) • g3 0 + (h ^ 3 / 6) • g4 0) := by
    refine Ord.integral (u' := fun h => g2 h - (g2 0 + h • g3 0 + (h ^ 2 / 2) • g4 0)) ?_ (by simp) e2
    filter_upwards [h1] with h hh
    have := hh.fun_sub ((((hasDerivAt_const h (g1 0)).fun_add ((hasDerivAt_id' h).smul_const (g2 0))).fun_add
      (((hasDerivAt_pow 2 h).div_const 2).smul_const (g3 0))).fun_add (((hasDerivAt_pow 3 h).div_const 6).smul_const (g4 0)))
    refine this.congr_deriv ?_
    have a1 : ((2 : ℕ) : ℝ) * h ^ (2 - 1) / 2 = h := by norm_num
    have a2 : ((3 : ℕ) : ℝ) * h ^ (3 - 1) / 6 = h ^ 2 / 2 := by norm_num; ring
    rw [a1, a2, zero_add, one_smul]
  refine Ord.integral (u' := fun h => g1 h - (g1 0 + h • g2 0 + (h ^ 2 / 2) • g3 0 + (h ^ 3 / 6) • g4 0)) ?_ (by simp) e1
  filter_upwards [h0] with h hh
  have := hh.fun_sub (((((hasDerivAt_const h (g0 0)).fun_add ((hasDerivAt_id' h).smul_const (g1 0))).fun_add
      (((hasDerivAt_pow 2 h).div_const 2).smul_const (g2 0))).fun_add (((hasDerivAt_pow 3 h).div_const 6).smul_const (g3 0))).fun_add
      (((hasDerivAt_pow 4 h).div_const 24).smul_const (g4 0)))
  refine this.congr_deriv ?_
  have a1 : ((2 : ℕ) : ℝ) * h ^ (2 - 1) / 2 = h := by norm_num
  have a2 : ((3 : ℕ) : ℝ) * h ^ (3 - 1) / 6 = h ^ 2 / 2 := by norm_num; ring
  have a3 : ((4 : ℕ) : ℝ) * h ^ (4 - 1) / 24 = h ^ 3 / 6 := by norm_num; ring
  rw [a1, a2, a3, zero_add, one_smul]



end CppAD.Rk
