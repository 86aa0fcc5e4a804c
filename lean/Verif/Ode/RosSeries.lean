import Verif.Ode.RkOrder

/-! # Series for linearly implicit methods (property C68) -/

namespace CppAD.Rk

open Filter Topology Asymptotics
open scoped ContDiff

set_option synthInstance.maxHeartbeats 400000
set_option maxHeartbeats 4000000
set_option maxSynthPendingDepth 4

variable {W V : Type} [NormedAddCommGroup W] [NormedSpace ℝ W] [NormedAddCommGroup V] [NormedSpace ℝ V]

theorem Ord.clm {a b : ℕ} {L : ℝ → W →L[ℝ] V} {u : ℝ → W} (hL : Ord a L) (hu : Ord b u) :
    Ord (a + b) fun h => L h (u h) := by
  have h1 := hL.norm_left.mul hu.norm_left
  refine IsBigO.trans (IsBigO.of_bound 1 (Eventually.of_forall fun t => ?_)) (IsBigO.congr_right h1 fun t => (pow_add t a b).symm)
  rw [one_mul, norm_mul, norm_norm, norm_norm]
  exact (L t).le_opNorm (u t)

/-- series that agree in the low powers -/
theorem ser_agree (G : W → W) (z0 : W) (k : ℕ) {a b : Fin 17 → ℚ} (h : ∀ i, deg i < k → a i = b i) :
    Ord k fun t => ser G z0 a t - ser G z0 b t := by
  have h1 : ∀ i : Fin 17, Ord k fun t : ℝ => if deg i < k then (0 : W) else t ^ deg i • (((a i : ℝ) - b i) • T G z0 i) := by
    intro i
    by_cases hi : deg i < k
    · simpa [hi] using Ord.zero k
    · simpa [hi] using (Ord.pow (deg i) (((a i : ℝ) - b i) • T G z0 i)).mono (by omega)
  refine (Ord.sum Finset.univ fun i _ => h1 i).congr fun t => ?_
  rw [ser, ser, ← Finset.sum_sub_distrib]
  refine Finset.sum_congr rfl fun i _ => ?_
  by_cases hi : deg i < k
  · rw [if_pos hi, h i hi, sub_self]
  · rw [if_neg hi]
    module

theorem ser_bdd (G : W → W) (z0 : W) (a : Fin 17 → ℚ) : Ord 0 (ser G z0 a) := by
  refine Ord.sum _ fun i _ => ?_
  refine ((Ord.pow (deg i) ((a i : ℝ) • T G z0 i)).mono (Nat.zero_le _)).congr fun t => ?_
  rw [smul_smul]

/-- the coefficients of the step size times the derivative of `G` along a series applied to a series -/
def dnext (s c : Fin 17 → ℚ) : Fin 17 → ℚ :=
  ![0, c 0, s 0 * c 0, c 1, s 0 ^ 2 * c 0 / 2, s 0 * c 1 + s 1 * c 0, c 2, c 3, 0, 0, 0, 0, 0, 0, 0, 0, 0]

/-- the coefficients of the solution of the linear equation -/
def solve (s r : Fin 17 → ℚ) : Fin 17 → ℚ :=
  let c0 := r 0
  let c1 := r 1 + c0 / 2
  let c2 := r 2 + s 0 * c0 / 2
  let c3 := r 3 + c1 / 2
  ![c0, c1, c2, c3, r 4 + s 0 ^ 2 * c0 / 4, r 5 + (s 0 * c1 + s 1 * c0) / 2, r 6 + c2 / 2, r 7 + c3 / 2, 0, 0, 0, 0, 0, 0, 0, 0, 0]

theorem solve_ok (s r : Fin 17 → ℚ) (i : Fin 17) (hi : deg i < 4) : solve s r i - 1 / 2 * dnext s (solve s r) i = r i := by
  fin_cases i <;> first
    | exact absurd hi (by decide)
    | (simp [solve, dnext]; try ring)

variable {G : W → W} (hG : ContDiff ℝ ∞ G) {z0 : W} {z : ℝ → W} {s : Fin 17 → ℚ}

/-- the polynomial part of the derivative along a series -/
noncomputable def jac (G : W → W) (z0 : W) (s : Fin 17 → ℚ) (h : ℝ) : W →L[ℝ] W :=
  G1 G z0 + h • G2 G z0 (lowOf G z0 s 0) +
    h ^ 2 • (G2 G z0 (lowOf G z0 s 1) + (1 / 2 : ℝ) • G3 G z0 (lowOf G z0 s 0) (lowOf G z0 s 0))

include hG in
theorem jac_ok (hz : Ord 5 fun h => z h - (z0 + h • ser G z0 s h)) : Ord 3 fun h => G1 G (z h) - jac G z0 s h := by
  have h1 : Ord 5 fun h => z h - (z0 + low (lowOf G z0 s) h) := (hz.add (ser_low (G := G) z0 s)).congr fun t => by abel
  have h2 := (lip_step (G := G1 G) z0 (by omega : 1 ≤ 5) (smooth1 hG) h1 (low_one z0 (lowOf G z0 s))).mono (by omega : 3 ≤ 5)
  have h3 := (expand_poly z0 (smooth1 hG) (lowOf G z0 s)).mono (by omega : 3 ≤ 5)
  have h4 := (Ord.pow 3 (G1 (G1 G) z0 (lowOf G z0 s 2) + G2 (G1 G) z0 (lowOf G z0 s 0) (lowOf G z0 s 1) +
    (1 / 6 : ℝ) • G3 (G1 G) z0 (lowOf G z0 s 0) (lowOf G z0 s 0) (lowOf G z0 s 0)))
  have h5 := (Ord.pow 4 (G1 (G1 G) z0 (lowOf G z0 s 3) + G2 (G1 G) z0 (lowOf G z0 s 0) (lowOf G z0 s 2) +
    (1 / 2 : ℝ) • G2 (G1 G) z0 (lowOf G z0 s 1) (lowOf G z0 s 1) +
        (1 / 2 : ℝ) • G3 (G1 G) z0 (lowOf G z0 s 0) (lowOf G z0 s 0) (lowOf G z0 s 1) +
        (1 / 24 : ℝ) • G4 (G1 G) z0 (lowOf G z0 s 0) (lowOf G z0 s 0) (lowOf G z0 s 0) (lowOf G z0 s 0))).mono
          (by omega : 3 ≤ 4)
  refine (((h2.add h3).add h4).add h5).congr fun h => ?_
  rw [jac, show G2 G z0 (lowOf G z0 s 0) = G1 (G1 G) z0 (lowOf G z0 s 0) from rfl,
    show G2 G z0 (lowOf G z0 s 1) = G1 (G1 G) z0 (lowOf G z0 s 1) from rfl,
    show G3 G z0 (lowOf G z0 s 0) (lowOf G z0 s 0) = G2 (G1 G) z0 (lowOf G z0 s 0) (lowOf G z0 s 0) from rfl]
  abel

theorem jac_bdd : Ord 0 (jac G z0 s) := by
  refine (((Ord.pow 0 (G1 G z0)).add ((Ord.pow 1 (G2 G z0 (lowOf G z0 s 0))).mono (Nat.zero_le _))).add
    ((Ord.pow 2 (G2 G z0 (lowOf G z0 s 1) + (1 / 2 : ℝ) • G3 G z0 (lowOf G z0 s 0) (lowOf G z0 s 0))).mono
      (Nat.zero_le _))).congr fun h => ?_
  rw [jac, pow_zero, one_smul, pow_one]

include hG in
theorem G1_bdd (hz : Ord 5 fun h => z h - (z0 + h • ser G z0 s h)) : Ord 0 fun h => G1 G (z h) :=
  (((jac_ok hG hz).mono (Nat.zero_le _)).add jac_bdd).congr fun t => by abel

include hG in
theorem dexpand (hz : Ord 5 fun h => z h - (z0 + h • ser G z0 s h)) (c : Fin 17 → ℚ) :
    Ord 4 fun h => h • G1 G (z h) (ser G z0 c h) - ser G z0 (dnext s c) h := by
  let a : ℝ → W := fun h => (c 0 : ℝ) • T G z0 0 + h • ((c 1 : ℝ) • T G z0 1) + h ^ 2 • ((c 2 : ℝ) • T G z0 2 + (c 3 : ℝ) • T G z0 3)
  have ha : Ord 3 fun h => ser G z0 c h - a h := by
    refine (ser_agree G z0 3 (a := c) (b := fun i => if deg i < 3 then c i else 0) (fun i hi => (if_pos hi).symm)).congr fun h => ?_
    congr 1
    simp only [ser, Fin.sum_univ_succ, deg, a]
    simp
    module
  have h1 : Ord 3 fun h => G1 G (z h) (ser G z0 c h) - jac G z0 s h (ser G z0 c h) :=
    (Ord.clm (jac_ok hG hz) (ser_bdd G z0 c)).congr fun h => ContinuousLinearMap.sub_apply _ _ _
  have h2 : Ord 3 fun h => jac G z0 s h (ser G z0 c h) - jac G z0 s h (a h) :=
    ((Ord.clm (jac_bdd (G := G) (z0 := z0) (s := s)) ha).mono (by omega : 3 ≤ 0 + 3)).congr fun h => map_sub _ _ _
  have h3 : Ord 4 fun h => h • jac G z0 s h (a h) - ser G z0 (dnext s c) h := by
    refine ((Ord.pow 4 (G2 G z0 (lowOf G z0 s 0) ((c 2 : ℝ) • T G z0 2 + (c 3 : ℝ) • T G z0 3) +
      (G2 G z0 (lowOf G z0 s 1) + (1 / 2 : ℝ) • G3 G z0 (lowOf G z0 s 0) (lowOf G z0 s 0)) ((c 1 : ℝ) • T G z0 1))).add
      ((Ord.pow 5 ((G2 G z0 (lowOf G z0 s 1) + (1 / 2 : ℝ) • G3 G z0 (lowOf G z0 s 0) (lowOf G z0 s 0))
        ((c 2 : ℝ) • T G z0 2 + (c 3 : ℝ) • T G z0 3))).mono (by omega : 4 ≤ 5))).congr fun h => ?_
    have sy := symm2 hG z0 (G1 G z0 (G z0)) (G z0)
    simp only [ser, Fin.sum_univ_succ, deg, dnext, jac, lowOf, T, a]
    simp
    rw [sy]
    module
  refine (((h1.add h2).step).add h3).congr fun h => ?_
  module

include hG in
/-- the solution of the linear equation -/
theorem solve_series (hz : Ord 5 fun h => z h - (z0 + h • ser G z0 s h)) {u r : ℝ → W} {q : Fin 17 → ℚ}
    (hr : Ord 4 fun h => r h - ser G z0 q h) (hu : ∀ᶠ h in 𝓝 (0 : ℝ), u h - (h / 2) • G1 G (z h) (u h) = r h) :
    Ord 4 fun h => u h - ser G z0 (solve s q) h := by
  have h1 := dexpand hG hz (solve s q)
  have h2 : Ord 4 fun h => ser G z0 (fun i => solve s q i - 1 / 2 * dnext s (solve s q) i) h - ser G z0 q h :=
    ser_agree G z0 4 fun i hi => solve_ok s q i hi
  have e2 : ∀ h, ser G z0 (fun i => solve s q i - 1 / 2 * dnext s (solve s q) i) h =
      ser G z0 (solve s q) h - (1 / 2 : ℝ) • ser G z0 (dnext s (solve s q)) h := by
    intro h
    simp only [ser, Finset.smul_sum, ← Finset.sum_sub_distrib]
    refine Finset.sum_congr rfl fun i _ => ?_
    push_cast
    module
  let w : ℝ → W := fun h => r h - (ser G z0 (solve s q) h - (h / 2) • G1 G (z h) (ser G z0 (solve s q) h))
  have hw : Ord 4 w := by
    refine ((hr.sub h2).add (h1.smul (1 / 2))).congr fun h => ?_
    rw [e2]
    simp only [w]
    module
  have small : ∀ᶠ h in 𝓝 (0 : ℝ), ‖h • G1 G (z h)‖ ≤ 1 := by
    have o1 : Ord 1 fun h => h • G1 G (z h) := (G1_bdd hG hz).step
    have t0 : Tendsto (fun h : ℝ => h ^ 1) (𝓝 0) (𝓝 0) := by
      simpa using (continuous_pow 1).tendsto (0 : ℝ)
    have t1 := (IsBigO.trans_tendsto o1 t0).norm
    rw [norm_zero] at t1
    exact (t1.eventually (gt_mem_nhds one_pos)).mono fun h hh => hh.le
  refine IsBigO.trans (IsBigO.of_bound 2 ?_) hw
  filter_upwards [hu, small] with h e1 e2
  set v := u h - ser G z0 (solve s q) h with hv
  have e3 : w h = v - (1 / 2 : ℝ) • (h • G1 G (z h)) v := by
    simp only [w]
    rw [← e1, hv, ContinuousLinearMap.smul_apply, map_sub]
    module
  have e4 : ‖(1 / 2 : ℝ) • (h • G1 G (z h)) v‖ ≤ 1 / 2 * ‖v‖ := by
    rw [norm_smul, Real.norm_of_nonneg (by norm_num)]
    have := (h • G1 G (z h)).le_opNorm v
    nlinarith [norm_nonneg v]
  have e5 : ‖v‖ ≤ ‖w h‖ + ‖(1 / 2 : ℝ) • (h • G1 G (z h)) v‖ := by
    have : v = w h + (1 / 2 : ℝ) • (h • G1 G (z h)) v := by rw [e3]; abel
    conv_lhs => rw [this]
    exact norm_add_le _ _
  linarith

end CppAD.Rk
