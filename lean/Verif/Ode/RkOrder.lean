import Verif.Ode.RkSeries
import Mathlib.Tactic.FinCases

/-! # Series of the stages and of the solution (property C67) -/

namespace CppAD.Rk

open Filter Topology Asymptotics
open scoped ContDiff

variable {W : Type} [NormedAddCommGroup W] [NormedSpace ℝ W]

/-- the coefficients of the exact solution -/
def exact : Fin 17 → ℚ :=
  ![1, 1 / 2, 1 / 6, 1 / 6, 1 / 24, 3 / 24, 1 / 24, 1 / 24, 1 / 120, 6 / 120, 3 / 120, 4 / 120, 4 / 120, 1 / 120, 3 / 120,
    1 / 120, 1 / 120]

theorem next_exact : ∀ i, next exact i = (deg i + 1) * exact i := by decide +kernel

/-- the coefficients of the exact solution after `m` steps -/
def after (m : ℚ) (i : Fin 17) : ℚ := m ^ (deg i + 1) * exact i

/-- the stages of an explicit Runge-Kutta method with table `b` -/
noncomputable def kf (b : ℕ → ℕ → ℚ) (G : W → W) (h : ℝ) (z : W) : ℕ → ℕ → W
  | 0 => fun _ => 0
  | j + 1 => Function.update (kf b G h z j) j
      (G (z + h • ∑ k ∈ Finset.range j, (b j k : ℝ) • kf b G h z j k))

/-- the coefficients of the stages -/
def cf (b : ℕ → ℕ → ℚ) (s : Fin 17 → ℚ) : ℕ → ℕ → Fin 17 → ℚ
  | 0 => fun _ => 0
  | j + 1 => Function.update (cf b s j) j (next fun i => s i + ∑ k ∈ Finset.range j, b j k * cf b s j k i)

theorem ser_comb (G : W → W) (z0 : W) (s : Fin 17 → ℚ) (J : ℕ) (w : ℕ → ℚ) (c : ℕ → Fin 17 → ℚ) (h : ℝ) :
    ser G z0 (fun i => s i + ∑ k ∈ Finset.range J, w k * c k i) h =
      ser G z0 s h + ∑ k ∈ Finset.range J, (w k : ℝ) • ser G z0 (c k) h := by
  simp only [ser, Finset.smul_sum]
  rw [Finset.sum_comm, ← Finset.sum_add_distrib]
  refine Finset.sum_congr rfl fun i _ => ?_
  simp only [smul_smul, ← Finset.sum_smul, ← add_smul]
  congr 1
  push_cast
  rw [mul_add, Finset.mul_sum]
  congr 1
  exact Finset.sum_congr rfl fun k _ => by ring

/-- a combination of series -/
theorem comb {G : W → W} {z0 : W} {n : ℕ} {z : ℝ → W} {s : Fin 17 → ℚ} {J : ℕ} {w : ℕ → ℚ} {c : ℕ → Fin 17 → ℚ}
    {f : ℕ → ℝ → W} (hz : Ord (n + 1) fun h => z h - (z0 + h • ser G z0 s h))
    (hf : ∀ k < J, Ord n fun h => f k h - ser G z0 (c k) h) :
    Ord (n + 1) fun h => (z h + h • ∑ k ∈ Finset.range J, (w k : ℝ) • f k h) -
      (z0 + h • ser G z0 (fun i => s i + ∑ k ∈ Finset.range J, w k * c k i) h) := by
  have h1 : Ord n fun h => ∑ k ∈ Finset.range J, (w k : ℝ) • (f k h - ser G z0 (c k) h) :=
    Ord.sum _ fun k hk => (hf k (Finset.mem_range.1 hk)).smul _
  refine (hz.add h1.step).congr fun h => ?_
  rw [ser_comb]
  simp only [smul_sub, Finset.sum_sub_distrib]
  module

/-- the series of the stages -/
theorem stages {G : W → W} (hG : ContDiff ℝ ∞ G) (z0 : W) {z : ℝ → W} {s : Fin 17 → ℚ} (b : ℕ → ℕ → ℚ)
    (hz : Ord 6 fun h => z h - (z0 + h • ser G z0 s h)) (j : ℕ) :
    ∀ k < j, Ord 5 fun h => kf b G h (z h) j k - ser G z0 (cf b s j k) h := by
  induction j with
  | zero => intro k hk; omega
  | succ j ih =>
    intro k hk
    by_cases hkj : k = j
    · subst hkj
      have h1 := expand z0 hG (by omega : 1 ≤ 5) le_rfl _ ((comb (w := b k) hz ih).mono (by omega : 5 ≤ 5 + 1))
      simpa only [kf, cf, Function.update_self] using h1
    · simpa only [kf, cf, Function.update_of_ne hkj] using ih k (by omega)

/-- one step -/
theorem one_step {G : W → W} (hG : ContDiff ℝ ∞ G) (z0 : W) {z : ℝ → W} {s : Fin 17 → ℚ} (b : ℕ → ℕ → ℚ) (w : ℕ → ℚ) (J : ℕ)
    (hz : Ord 6 fun h => z h - (z0 + h • ser G z0 s h)) :
    Ord 6 fun h => (z h + h • ∑ k ∈ Finset.range J, (w k : ℝ) • kf b G h (z h) J k) -
      (z0 + h • ser G z0 (fun i => s i + ∑ k ∈ Finset.range J, w k * cf b s J k i) h) :=
  comb hz (stages hG z0 b hz J)

/-- the series of the exact solution -/
theorem solution {G : W → W} (hG : ContDiff ℝ ∞ G) {z : ℝ → W} (hz : ∀ᶠ h in 𝓝 (0 : ℝ), HasDerivAt z (G (z h)) h) :
    Ord 6 fun h => z h - (z 0 + h • ser G (z 0) exact h) := by
  have step : ∀ k, 1 ≤ k → k ≤ 5 → Ord k (fun h => z h - (z 0 + h • ser G (z 0) exact h)) →
      Ord (k + 1) (fun h => z h - (z 0 + h • ser G (z 0) exact h)) := by
    intro k h1 h5 hk
    refine Ord.integral (u' := fun h => G (z h) - ser G (z 0) (next exact) h) ?_ (by simp) (expand (z 0) hG h1 h5 exact hk)
    filter_upwards [hz] with h hh
    have e1 : ∀ h : ℝ, h • ser G (z 0) exact h = ∑ i, h ^ (deg i + 1) • ((exact i : ℝ) • T G (z 0) i) := by
      intro h
      rw [ser, Finset.smul_sum]
      exact Finset.sum_congr rfl fun i _ => by rw [smul_smul, smul_smul, pow_succ]; congr 1; ring
    have e2 : HasDerivAt (fun h : ℝ => ∑ i, h ^ (deg i + 1) • ((exact i : ℝ) • T G (z 0) i)) (ser G (z 0) (next exact) h) h := by
      have := HasDerivAt.fun_sum (u := Finset.univ) fun (i : Fin 17) _ =>
        (hasDerivAt_pow (deg i + 1) h).smul_const ((exact i : ℝ) • T G (z 0) i)
      refine this.congr_deriv ?_
      rw [ser]
      refine Finset.sum_congr rfl fun i _ => ?_
      rw [next_exact, smul_smul]
      congr 1
      push_cast
      ring
    have e3 := hh.fun_sub ((hasDerivAt_const h (z 0)).fun_add e2)
    have e4 : (fun h => z h - (z 0 + h • ser G (z 0) exact h)) =
        fun h => z h - (z 0 + ∑ i, h ^ (deg i + 1) • ((exact i : ℝ) • T G (z 0) i)) := funext fun h => by rw [e1]
    rw [e4]
    exact e3.congr_deriv (by simp)
  have o1 : Ord 1 (fun h => z h - (z 0 + h • ser G (z 0) exact h)) := by
    have d := (hz.self_of_nhds).differentiableAt.isBigO_sub
    have d1 : Ord 1 fun h => z h - z 0 := IsBigO.congr_right d fun t => by simp
    have d2 : Ord 0 (ser G (z 0) exact) := by
      refine Ord.sum _ fun i _ => ?_
      refine ((Ord.pow (deg i) ((exact i : ℝ) • T G (z 0) i)).mono (Nat.zero_le _)).congr fun t => ?_
      rw [smul_smul]
    exact (d1.sub d2.step).congr fun t => by abel
  exact step 5 (by omega) le_rfl (step 4 (by omega) (by omega) (step 3 (by omega) (by omega) (step 2 (by omega) (by omega)
    (step 1 le_rfl (by omega) o1))))

end CppAD.Rk
