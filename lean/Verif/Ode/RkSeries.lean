import Verif.Ode.RkChain
import Mathlib.Tactic.Module
import Mathlib.Data.Fin.VecNotation
import Mathlib.Algebra.BigOperators.Fin
import Mathlib.Analysis.Calculus.ContDiff.RCLike

/-! # Series in the elementary differentials of `G` (property C67) -/

namespace CppAD.Rk

open Filter Topology Asymptotics
open scoped ContDiff

variable {W : Type} [NormedAddCommGroup W] [NormedSpace ℝ W]

set_option synthInstance.maxHeartbeats 400000
set_option maxHeartbeats 4000000
set_option maxSynthPendingDepth 4

section
variable {V : Type} [NormedAddCommGroup V] [NormedSpace ℝ V] {G : W → V} (z0 : W) (hG : ContDiff ℝ ∞ G)

/-- the low order part of a series -/
noncomputable def low (w : Fin 4 → W) (h : ℝ) : W := h • w 0 + h ^ 2 • w 1 + h ^ 3 • w 2 + h ^ 4 • w 3

include hG in
theorem expand_poly (w : Fin 4 → W) :
    Ord 5 fun h => G (z0 + low w h) - (G z0 + h • G1 G z0 (w 0) +
      h ^ 2 • (G1 G z0 (w 1) + (1 / 2 : ℝ) • G2 G z0 (w 0) (w 0)) +
      h ^ 3 • (G1 G z0 (w 2) + G2 G z0 (w 0) (w 1) + (1 / 6 : ℝ) • G3 G z0 (w 0) (w 0) (w 0)) +
      h ^ 4 • (G1 G z0 (w 3) + G2 G z0 (w 0) (w 2) + (1 / 2 : ℝ) • G2 G z0 (w 1) (w 1) +
        (1 / 2 : ℝ) • G3 G z0 (w 0) (w 0) (w 1) + (1 / 24 : ℝ) • G4 G z0 (w 0) (w 0) (w 0) (w 0))) := by
  let p : ℝ → W := fun h => z0 + low w h
  let p1 : ℝ → W := fun h => w 0 + (2 * h) • w 1 + (3 * h ^ 2) • w 2 + (4 * h ^ 3) • w 3
  let p2 : ℝ → W := fun h => (2 : ℝ) • w 1 + (6 * h) • w 2 + (12 * h ^ 2) • w 3
  let p3 : ℝ → W := fun h => (6 : ℝ) • w 2 + (24 * h) • w 3
  let p4 : ℝ → W := fun _ => (24 : ℝ) • w 3
  have d1 : ∀ h, HasDerivAt p (p1 h) h := by
    intro h
    have e1 : HasDerivAt (fun h : ℝ => h) 1 h := hasDerivAt_id' h
    have := (hasDerivAt_const h z0).fun_add ((((e1.smul_const (w 0)).fun_add ((e1.fun_pow 2).smul_const (w 1))).fun_add
      ((e1.fun_pow 3).smul_const (w 2))).fun_add ((e1.fun_pow 4).smul_const (w 3)))
    refine this.congr_deriv ?_
    simp only [p1]
    norm_num
  have d2 : ∀ h, HasDerivAt p1 (p2 h) h := by
    intro h
    have e1 : HasDerivAt (fun h : ℝ => h) 1 h := hasDerivAt_id' h
    have := (((hasDerivAt_const h (w 0)).fun_add ((e1.const_mul 2).smul_const (w 1))).fun_add
      (((e1.fun_pow 2).const_mul 3).smul_const (w 2))).fun_add (((e1.fun_pow 3).const_mul 4).smul_const (w 3))
    refine this.congr_deriv ?_
    simp only [p2]
    push_cast
    module
  have d3 : ∀ h, HasDerivAt p2 (p3 h) h := by
    intro h
    have e1 : HasDerivAt (fun h : ℝ => h) 1 h := hasDerivAt_id' h
    have := ((hasDerivAt_const h ((2 : ℝ) • w 1)).fun_add ((e1.const_mul 6).smul_const (w 2))).fun_add
      (((e1.fun_pow 2).const_mul 12).smul_const (w 3))
    refine this.congr_deriv ?_
    simp only [p3]
    push_cast
    module
  have d4 : ∀ h, HasDerivAt p3 (p4 h) h := by
    intro h
    have e1 : HasDerivAt (fun h : ℝ => h) 1 h := hasDerivAt_id' h
    have := (hasDerivAt_const h ((6 : ℝ) • w 2)).fun_add ((e1.const_mul 24).smul_const (w 3))
    refine this.congr_deriv ?_
    simp only [p4]
    module
  have d5 : DifferentiableAt ℝ p4 0 := differentiableAt_const _
  have key := taylor4 (Eventually.of_forall fun h => chain0 hG (d1 h))
    (Eventually.of_forall fun h => chain1 hG (d1 h) (d2 h))
    (Eventually.of_forall fun h => chain2 hG (d1 h) (d2 h) (d3 h))
    (Eventually.of_forall fun h => chain3 hG (d1 h) (d2 h) (d3 h) (d4 h))
    (chain4 hG (d1 0).differentiableAt (d2 0).differentiableAt (d3 0).differentiableAt (d4 0).differentiableAt d5)
  refine key.congr fun h => ?_
  have q0 : p 0 = z0 := by simp [p, low]
  have q1 : p1 0 = w 0 := by simp [p1]
  have q2 : p2 0 = (2 : ℝ) • w 1 := by simp [p2]
  have q3 : p3 0 = (6 : ℝ) • w 2 := by simp [p3]
  have q4 : p4 0 = (24 : ℝ) • w 3 := rfl
  show G (p h) - _ = G (p h) - _
  congr 1
  simp only [D1, D2, D3, D4, q0, q1, q2, q3, q4, map_smul, ContinuousLinearMap.smul_apply]
  rw [symm2 hG z0 (w 1) (w 0), symm2 hG z0 (w 2) (w 0), symm3a hG z0 (w 1) (w 0) (w 0), symm3b hG z0 (w 0) (w 1) (w 0)]
  module

/-- `G` is Lipschitz near `z0` -/
theorem lip_step {n : ℕ} (hn : 1 ≤ n) {u v : ℝ → W} (hG : ContDiff ℝ ∞ G) (hu : Ord n fun h => u h - v h)
    (hv : Ord 1 fun h => v h - z0) : Ord n fun h => G (u h) - G (v h) := by
  obtain ⟨K, s, hs, hK⟩ := ((hG.contDiffAt (x := z0)).of_le (le_trans one_le_two two_le_inf)).exists_lipschitzOnWith
  have lim : ∀ {w : ℝ → W}, Ord 1 (fun h => w h - z0) → Tendsto w (𝓝 0) (𝓝 z0) := by
    intro w hw
    have h1 : Tendsto (fun h : ℝ => h ^ 1) (𝓝 0) (𝓝 0) := by
      simpa using (continuous_pow 1).tendsto (0 : ℝ)
    have h2 := IsBigO.trans_tendsto hw h1
    simpa using h2.add_const z0
  have hv' := lim hv
  have hu' : Tendsto u (𝓝 0) (𝓝 z0) := by
    refine lim (((hu.mono hn).add hv).congr fun t => ?_)
    abel
  refine IsBigO.trans (IsBigO.of_bound (K : ℝ) ?_) hu
  filter_upwards [hu' hs, hv' hs] with t h1 h2
  have := hK.dist_le_mul _ h1 _ h2
  rwa [dist_eq_norm, dist_eq_norm] at this

end

section
variable (G : W → W) (z0 : W)

/-- the elementary differentials of `G` at `z0` up to order five -/
noncomputable def T : Fin 17 → W :=
  let f := G z0
  let A := G1 G z0
  let B := G2 G z0
  let C := G3 G z0
  let t2 := A f
  let t3 := B f f
  let t4 := A t2
  let t5 := C f f f
  let t6 := B f t2
  let t7 := A t3
  let t8 := A t4
  ![f, t2, t3, t4, t5, t6, t7, t8, G4 G z0 f f f f, C f f t2, B t2 t2, B f t3, B f t4, A t5, A t6, A t7, A t8]

/-- the power of the step size minus one -/
def deg : Fin 17 → ℕ := ![0, 1, 2, 2, 3, 3, 3, 3, 4, 4, 4, 4, 4, 4, 4, 4, 4]

/-- the coefficients of `G` of a series -/
def next (d : Fin 17 → ℚ) : Fin 17 → ℚ :=
  ![1, d 0, d 0 ^ 2 / 2, d 1, d 0 ^ 3 / 6, d 0 * d 1, d 2, d 3, d 0 ^ 4 / 24, d 0 ^ 2 * d 1 / 2, d 1 ^ 2 / 2, d 0 * d 2,
    d 0 * d 3, d 4, d 5, d 6, d 7]

/-- the series with coefficients `d` -/
noncomputable def ser (d : Fin 17 → ℚ) (h : ℝ) : W := ∑ i, (h ^ deg i * (d i : ℝ)) • T G z0 i

variable {G} (hG : ContDiff ℝ ∞ G)

/-- the polynomial part of a series multiplied by the step size -/
noncomputable def lowOf (G : W → W) (z0 : W) (d : Fin 17 → ℚ) : Fin 4 → W :=
  ![(d 0 : ℝ) • T G z0 0, (d 1 : ℝ) • T G z0 1, (d 2 : ℝ) • T G z0 2 + (d 3 : ℝ) • T G z0 3,
    (d 4 : ℝ) • T G z0 4 + (d 5 : ℝ) • T G z0 5 + (d 6 : ℝ) • T G z0 6 + (d 7 : ℝ) • T G z0 7]

theorem ser_low (d : Fin 17 → ℚ) : Ord 5 fun h => h • ser G z0 d h - low (lowOf G z0 d) h := by
  have h1 : ∀ i : Fin 17, Ord 5 fun h : ℝ => if deg i = 4 then h ^ 5 • ((d i : ℝ) • T G z0 i) else 0 := by
    intro i
    by_cases hi : deg i = 4
    · simpa [hi] using Ord.pow 5 ((d i : ℝ) • T G z0 i)
    · simpa [hi] using Ord.zero 5
  refine (Ord.sum Finset.univ fun i _ => h1 i).congr fun h => ?_
  simp only [ser, Fin.sum_univ_succ, low, lowOf, deg]
  simp
  module

theorem low_one (w : Fin 4 → W) : Ord 1 fun h => z0 + low w h - z0 := by
  have := ((((Ord.pow 1 (w 0))).add ((Ord.pow 2 (w 1)).mono (by omega : 1 ≤ 2))).add ((Ord.pow 3 (w 2)).mono (by omega : 1 ≤ 3))).add
    ((Ord.pow 4 (w 3)).mono (by omega : 1 ≤ 4))
  refine this.congr fun t => ?_
  rw [low, pow_one, add_sub_cancel_left]

include hG in
/-- `G` of a series -/
theorem expand {k : ℕ} (hk : 1 ≤ k) (hk5 : k ≤ 5) {z : ℝ → W} (d : Fin 17 → ℚ)
    (hz : Ord k fun h => z h - (z0 + h • ser G z0 d h)) : Ord k fun h => G (z h) - ser G z0 (next d) h := by
  have h1 : Ord k fun h => z h - (z0 + low (lowOf G z0 d) h) :=
    (hz.add ((ser_low z0 (G := G) d).mono hk5)).congr fun t => by abel
  have h2 := lip_step (G := G) z0 hk hG h1 (low_one z0 (lowOf G z0 d))
  have h3 := (expand_poly z0 hG (lowOf G z0 d)).mono hk5
  refine (h2.add h3).congr fun h => ?_
  have hs : ∀ x y w u : W, x = y → u - w + (w - x) = u - y := by
    intro x y w u e
    rw [e]; abel
  refine hs _ _ _ _ ?_
  simp only [ser, next, deg, Fin.sum_univ_succ, lowOf, T]
  simp
  module

end

end CppAD.Rk
