import Verif.Ode.RkTaylor

/-! # Derivatives of `G` along a curve (property C67) -/

namespace CppAD.Rk

open scoped ContDiff

variable {W V : Type} [NormedAddCommGroup W] [NormedSpace ℝ W] [NormedAddCommGroup V] [NormedSpace ℝ V]

set_option synthInstance.maxHeartbeats 400000
set_option maxHeartbeats 2000000
set_option maxSynthPendingDepth 4

abbrev L1 (W V : Type) [NormedAddCommGroup W] [NormedSpace ℝ W] [NormedAddCommGroup V] [NormedSpace ℝ V] := W →L[ℝ] V
abbrev L2 (W V : Type) [NormedAddCommGroup W] [NormedSpace ℝ W] [NormedAddCommGroup V] [NormedSpace ℝ V] := W →L[ℝ] L1 W V
abbrev L3 (W V : Type) [NormedAddCommGroup W] [NormedSpace ℝ W] [NormedAddCommGroup V] [NormedSpace ℝ V] := W →L[ℝ] L2 W V
abbrev L4 (W V : Type) [NormedAddCommGroup W] [NormedSpace ℝ W] [NormedAddCommGroup V] [NormedSpace ℝ V] := W →L[ℝ] L3 W V

noncomputable instance i1 : NormedAddCommGroup (L1 W V) := inferInstance
noncomputable instance j1 : NormedSpace ℝ (L1 W V) := inferInstance
noncomputable instance i2 : NormedAddCommGroup (L2 W V) := inferInstance
noncomputable instance j2 : NormedSpace ℝ (L2 W V) := inferInstance
noncomputable instance i3 : NormedAddCommGroup (L3 W V) := inferInstance
noncomputable instance j3 : NormedSpace ℝ (L3 W V) := inferInstance
noncomputable instance i4 : NormedAddCommGroup (L4 W V) := inferInstance
noncomputable instance j4 : NormedSpace ℝ (L4 W V) := inferInstance

theorem two_le_inf : (2 : WithTop ℕ∞) ≤ ∞ :=
  WithTop.coe_le_coe.2 (le_top : (2 : ℕ∞) ≤ ⊤)

section chain
variable (G : W → V)

/-- the derivatives of `G` -/
noncomputable def G1 : W → W →L[ℝ] V := fderiv ℝ G
noncomputable def G2 : W → W →L[ℝ] W →L[ℝ] V := fderiv ℝ (G1 G)
noncomputable def G3 : W → W →L[ℝ] W →L[ℝ] W →L[ℝ] V := fderiv ℝ (G2 G)
noncomputable def G4 : W → W →L[ℝ] W →L[ℝ] W →L[ℝ] W →L[ℝ] V := fderiv ℝ (G3 G)

/-- the derivatives of `G` along a curve with derivatives `p1`, `p2`, ... -/
noncomputable def D1 (p p1 : ℝ → W) (h : ℝ) : V := G1 G (p h) (p1 h)
noncomputable def D2 (p p1 p2 : ℝ → W) (h : ℝ) : V := G2 G (p h) (p1 h) (p1 h) + G1 G (p h) (p2 h)
noncomputable def D3 (p p1 p2 p3 : ℝ → W) (h : ℝ) : V :=
  G3 G (p h) (p1 h) (p1 h) (p1 h) + G2 G (p h) (p2 h) (p1 h) + G2 G (p h) (p1 h) (p2 h) +
    (G2 G (p h) (p1 h) (p2 h) + G1 G (p h) (p3 h))
noncomputable def D4 (p p1 p2 p3 p4 : ℝ → W) (h : ℝ) : V :=
  (G4 G (p h) (p1 h) (p1 h) (p1 h) (p1 h) + G3 G (p h) (p2 h) (p1 h) (p1 h) + G3 G (p h) (p1 h) (p2 h) (p1 h) +
    G3 G (p h) (p1 h) (p1 h) (p2 h)) +
  (G3 G (p h) (p1 h) (p2 h) (p1 h) + G2 G (p h) (p3 h) (p1 h) + G2 G (p h) (p2 h) (p2 h)) +
  (G3 G (p h) (p1 h) (p1 h) (p2 h) + G2 G (p h) (p2 h) (p2 h) + G2 G (p h) (p1 h) (p3 h)) +
  ((G3 G (p h) (p1 h) (p1 h) (p2 h) + G2 G (p h) (p2 h) (p2 h) + G2 G (p h) (p1 h) (p3 h)) +
    (G2 G (p h) (p1 h) (p3 h) + G1 G (p h) (p4 h)))

variable {G} (hG : ContDiff ℝ ∞ G)
include hG

theorem smooth1 : ContDiff ℝ ∞ (G1 G) := hG.fderiv_right (by simp)
theorem smooth2 : ContDiff ℝ ∞ (G2 G) := (smooth1 hG).fderiv_right (by simp)
theorem smooth3 : ContDiff ℝ ∞ (G3 G) := (smooth2 hG).fderiv_right (by simp)
theorem smooth4 : ContDiff ℝ ∞ (G4 G) := (smooth3 hG).fderiv_right (by simp)

variable {p p1 p2 p3 p4 : ℝ → W} {h : ℝ}

theorem chain0 (hp : HasDerivAt p (p1 h) h) : HasDerivAt (fun h => G (p h)) (D1 G p p1 h) h :=
  ((hG.differentiable (by simp)) (p h)).hasFDerivAt.comp_hasDerivAt h hp

theorem along1 (hp : HasDerivAt p (p1 h) h) : HasDerivAt (fun h => G1 G (p h)) (G2 G (p h) (p1 h)) h :=
  (((smooth1 hG).differentiable (by simp)) (p h)).hasFDerivAt.comp_hasDerivAt h hp

theorem along2 (hp : HasDerivAt p (p1 h) h) : HasDerivAt (fun h => G2 G (p h)) (G3 G (p h) (p1 h)) h :=
  (((smooth2 hG).differentiable (by simp)) (p h)).hasFDerivAt.comp_hasDerivAt h hp

theorem along3 (hp : HasDerivAt p (p1 h) h) : HasDerivAt (fun h => G3 G (p h)) (G4 G (p h) (p1 h)) h :=
  (((smooth3 hG).differentiable (by simp)) (p h)).hasFDerivAt.comp_hasDerivAt h hp

theorem chain1 (hp : HasDerivAt p (p1 h) h) (hp1 : HasDerivAt p1 (p2 h) h) :
    HasDerivAt (D1 G p p1) (D2 G p p1 p2 h) h :=
  (along1 hG hp).clm_apply hp1

theorem chain2 (hp : HasDerivAt p (p1 h) h) (hp1 : HasDerivAt p1 (p2 h) h) (hp2 : HasDerivAt p2 (p3 h) h) :
    HasDerivAt (D2 G p p1 p2) (D3 G p p1 p2 p3 h) h := by
  have h1 := ((along2 hG hp).clm_apply hp1).clm_apply hp1
  have h2 := (along1 hG hp).clm_apply hp2
  exact (h1.fun_add h2).congr_deriv (by simp [D3])

theorem chain3 (hp : HasDerivAt p (p1 h) h) (hp1 : HasDerivAt p1 (p2 h) h) (hp2 : HasDerivAt p2 (p3 h) h)
    (hp3 : HasDerivAt p3 (p4 h) h) : HasDerivAt (D3 G p p1 p2 p3) (D4 G p p1 p2 p3 p4 h) h := by
  have h1 := (((along3 hG hp).clm_apply hp1).clm_apply hp1).clm_apply hp1
  have h2 := ((along2 hG hp).clm_apply hp2).clm_apply hp1
  have h3 := ((along2 hG hp).clm_apply hp1).clm_apply hp2
  have h4 := (along1 hG hp).clm_apply hp3
  exact (((h1.fun_add h2).fun_add h3).fun_add (h3.fun_add h4)).congr_deriv (by simp [D4])

theorem chain4 (hp : DifferentiableAt ℝ p h) (hp1 : DifferentiableAt ℝ p1 h) (hp2 : DifferentiableAt ℝ p2 h)
    (hp3 : DifferentiableAt ℝ p3 h) (hp4 : DifferentiableAt ℝ p4 h) : DifferentiableAt ℝ (D4 G p p1 p2 p3 p4) h := by
  have g1 : DifferentiableAt ℝ (fun h => G1 G (p h)) h := (((smooth1 hG).differentiable (by simp)) (p h)).comp h hp
  have g2 : DifferentiableAt ℝ (fun h => G2 G (p h)) h := (((smooth2 hG).differentiable (by simp)) (p h)).comp h hp
  have g3 : DifferentiableAt ℝ (fun h => G3 G (p h)) h := (((smooth3 hG).differentiable (by simp)) (p h)).comp h hp
  have g4 : DifferentiableAt ℝ (fun h => G4 G (p h)) h := (((smooth4 hG).differentiable (by simp)) (p h)).comp h hp
  unfold D4
  refine DifferentiableAt.fun_add (.fun_add (.fun_add (.fun_add (.fun_add (.fun_add ?_ ?_) ?_) ?_)
    (.fun_add (.fun_add ?_ ?_) ?_)) (.fun_add (.fun_add ?_ ?_) ?_)) (.fun_add (.fun_add (.fun_add ?_ ?_) ?_) (.fun_add ?_ ?_))
  · exact (((g4.clm_apply hp1).clm_apply hp1).clm_apply hp1).clm_apply hp1
  · exact ((g3.clm_apply hp2).clm_apply hp1).clm_apply hp1
  · exact ((g3.clm_apply hp1).clm_apply hp2).clm_apply hp1
  · exact ((g3.clm_apply hp1).clm_apply hp1).clm_apply hp2
  · exact ((g3.clm_apply hp1).clm_apply hp2).clm_apply hp1
  · exact (g2.clm_apply hp3).clm_apply hp1
  · exact (g2.clm_apply hp2).clm_apply hp2
  · exact ((g3.clm_apply hp1).clm_apply hp1).clm_apply hp2
  · exact (g2.clm_apply hp2).clm_apply hp2
  · exact (g2.clm_apply hp1).clm_apply hp3
  · exact ((g3.clm_apply hp1).clm_apply hp1).clm_apply hp2
  · exact (g2.clm_apply hp2).clm_apply hp2
  · exact (g2.clm_apply hp1).clm_apply hp3
  · exact (g2.clm_apply hp1).clm_apply hp3
  · exact g1.clm_apply hp4

theorem symm2 (x u v : W) : G2 G x u v = G2 G x v u :=
  ((hG.contDiffAt (x := x)).isSymmSndFDerivAt (by rw [minSmoothness_of_isRCLikeNormedField]; exact two_le_inf)).eq u v

theorem symm3a (x u v w : W) : G3 G x u v w = G3 G x v u w := by
  have := (((smooth1 hG).contDiffAt (x := x)).isSymmSndFDerivAt (by rw [minSmoothness_of_isRCLikeNormedField]; exact two_le_inf)).eq u v
  exact congrArg (fun L : W →L[ℝ] V => L w) this

theorem symm3b (x u v w : W) : G3 G x u v w = G3 G x u w v := by
  have hp : HasDerivAt (fun h : ℝ => x + h • u) ((fun _ => u) (0 : ℝ)) 0 := by
    have := (hasDerivAt_const (0 : ℝ) x).fun_add ((hasDerivAt_id' (0 : ℝ)).smul_const u)
    exact this.congr_deriv (by simp)
  have h1 := along2 hG (p1 := fun _ => u) (h := 0) hp
  have h2 := (h1.clm_apply (hasDerivAt_const (0 : ℝ) v)).clm_apply (hasDerivAt_const (0 : ℝ) w)
  have h3 := (h1.clm_apply (hasDerivAt_const (0 : ℝ) w)).clm_apply (hasDerivAt_const (0 : ℝ) v)
  have e : (fun h : ℝ => G2 G (x + h • u) v w) = fun h : ℝ => G2 G (x + h • u) w v :=
    funext fun h => symm2 hG _ v w
  rw [e] at h2
  have := h2.unique h3
  simpa using this

end chain

end CppAD.Rk
