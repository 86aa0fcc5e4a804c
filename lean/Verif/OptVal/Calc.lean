import Verif.OptVal.Spec
import Mathlib.Analysis.Calculus.FDeriv.Symmetric

/-!
# Derivatives of optimal values: calculus
-/

open scoped Topology
open CppAD.AtomEx (ev ev_of_lt ev_update)

namespace CppAD.OptVal

/-! ### from partials of a tape to derivatives of the recorded function -/

variable {N : ℕ} {φ : (Fin N → ℝ) → ℝ} {x : Fin N → ℝ}

theorem ev_line (x : Fin N → ℝ) (j : Fin N) (ε : ℝ) :
    Function.update (ev x) j (ev x j + ε) = ev (x + ε • Pi.single j 1) := by
  funext i
  by_cases h : i < N
  · rw [ev_of_lt _ h]
    by_cases e : i = j
    · subst e; simp [ev]
    · rw [Function.update_of_ne e, ev_of_lt _ h]
      have : (⟨i, h⟩ : Fin N) ≠ j := fun h' => e (congrArg Fin.val h')
      simp [this]
  · have e : i ≠ j := by have := j.isLt; omega
    rw [Function.update_of_ne e]
    simp [ev, h]

theorem hasDeriv_line {E G : Type*} [NormedAddCommGroup E] [NormedSpace ℝ E] [NormedAddCommGroup G] [NormedSpace ℝ G]
    {ψ : E → G} {x : E} (h : DifferentiableAt ℝ ψ x) (e : E) :
    HasDerivAt (fun ε : ℝ => ψ (x + ε • e)) (fderiv ℝ ψ x e) 0 := by
  have h1 : HasDerivAt (fun ε : ℝ => x + ε • e) e 0 := by
    simpa using ((hasDerivAt_id' (0 : ℝ)).smul_const e).const_add x
  have h2 : HasFDerivAt ψ (fderiv ℝ ψ x) (x + (0 : ℝ) • e) := by simpa using h.hasFDerivAt
  exact h2.comp_hasDerivAt (0 : ℝ) h1

theorem line_tendsto (x e : Fin N → ℝ) : Filter.Tendsto (fun ε : ℝ => x + ε • e) (𝓝 0) (𝓝 x) := by
  have : Continuous fun ε : ℝ => x + ε • e := by fun_prop
  simpa using this.tendsto 0

theorem partial_fderiv {g : (ℕ → ℝ) → ℝ} (hg : ∀ᶠ x' in 𝓝 x, g (ev x') = φ x') (hφ : DifferentiableAt ℝ φ x)
    (j : Fin N) {d : ℝ} (h : IsPartial g (ev x) j d) : d = fderiv ℝ φ x (Pi.single j 1) := by
  unfold IsPartial at h
  simp only [ev_line] at h
  refine h.unique ((hasDeriv_line hφ _).congr_of_eventuallyEq ?_)
  exact (line_tendsto x _).eventually hg

theorem partial2_fderiv {g : (ℕ → ℝ) → ℝ} (hg : ∀ᶠ x' in 𝓝 x, g (ev x') = φ x')
    (hφ : ∀ᶠ x' in 𝓝 x, DifferentiableAt ℝ φ x') (hφ2 : DifferentiableAt ℝ (fderiv ℝ φ) x)
    (k j : Fin N) {d : ℝ} (h : IsPartial2 g (ev x) k j d) :
    d = fderiv ℝ (fderiv ℝ φ) x (Pi.single k 1) (Pi.single j 1) := by
  obtain ⟨dg, h1, h2⟩ := h
  unfold IsPartial at h2
  simp only [ev_line] at h1 h2
  have h3 : HasDerivAt (fun ε : ℝ => fderiv ℝ φ (x + ε • Pi.single k 1) (Pi.single j 1))
      (fderiv ℝ (fderiv ℝ φ) x (Pi.single k 1) (Pi.single j 1)) 0 := by
    have := (hasDeriv_line hφ2 (Pi.single k 1)).clm_apply (hasDerivAt_const (0 : ℝ) (Pi.single j (1 : ℝ)))
    simpa using this
  refine h2.unique (h3.congr_of_eventuallyEq ?_)
  filter_upwards [h1, (line_tendsto x (Pi.single k 1)).eventually hg.eventually_nhds,
    (line_tendsto x (Pi.single k 1)).eventually hφ] with ε e1 e2 e3
  exact partial_fderiv e2 e3 j e1

/-! ### optimal values -/

section

variable {E G : Type*} [NormedAddCommGroup E] [NormedSpace ℝ E] [NormedAddCommGroup G] [NormedSpace ℝ G]
  {F : E × G → ℝ} {Y : E → G} {x : E} {y : G}

theorem value_fderiv (hF : DifferentiableAt ℝ F (x, Y x)) (hY : DifferentiableAt ℝ Y x)
    (hc : ∀ v, fderiv ℝ F (x, Y x) (0, v) = 0) :
    HasFDerivAt (fun x => F (x, Y x)) ((fderiv ℝ F (x, Y x)).comp (ContinuousLinearMap.inl ℝ E G)) x := by
  have h1 : HasFDerivAt (fun x => (x, Y x)) ((ContinuousLinearMap.id ℝ E).prod (fderiv ℝ Y x)) x :=
    (hasFDerivAt_id x).prodMk hY.hasFDerivAt
  refine (HasFDerivAt.comp x (f := fun x => (x, Y x)) hF.hasFDerivAt h1).congr_fderiv ?_
  ext e
  simp only [ContinuousLinearMap.comp_apply, ContinuousLinearMap.prod_apply, ContinuousLinearMap.id_apply,
    ContinuousLinearMap.inl_apply]
  have : ((e, fderiv ℝ Y x e) : E × G) = (e, 0) + (0, fderiv ℝ Y x e) := by simp
  rw [this, map_add, hc, add_zero]

theorem c2_ev {E : Type*} [NormedAddCommGroup E] [NormedSpace ℝ E] {F : E → ℝ} {z : E} (hF : ContDiffAt ℝ 2 F z) :
    (∀ᶠ z' in 𝓝 z, DifferentiableAt ℝ F z') ∧ DifferentiableAt ℝ (fderiv ℝ F) z := by
  constructor
  · filter_upwards [hF.eventually (by simp)] with z' h
    exact h.differentiableAt (by simp)
  · exact (hF.fderiv_right (m := 1) (by norm_num)).differentiableAt (by simp)

theorem pair_tendsto (hYx : Y x = y) (hY : DifferentiableAt ℝ Y x) :
    Filter.Tendsto (fun x' => (x', Y x')) (𝓝 x) (𝓝 (x, y)) := by
  have : ContinuousAt (fun x' => (x', Y x')) x := continuousAt_id.prodMk hY.continuousAt
  have h : Filter.Tendsto (fun x' => (x', Y x')) (𝓝 x) (𝓝 (x, Y x)) := this
  rwa [hYx] at h

/-- the derivative of `x' ↦ F'(x', Y(x'))` -/
theorem along_fderiv (hF : ContDiffAt ℝ 2 F (x, y)) (hYx : Y x = y) (hY : DifferentiableAt ℝ Y x) :
    HasFDerivAt (fun x' => fderiv ℝ F (x', Y x'))
      ((fderiv ℝ (fderiv ℝ F) (x, y)).comp ((ContinuousLinearMap.id ℝ E).prod (fderiv ℝ Y x))) x := by
  have h1 : HasFDerivAt (fun x => (x, Y x)) ((ContinuousLinearMap.id ℝ E).prod (fderiv ℝ Y x)) x :=
    (hasFDerivAt_id x).prodMk hY.hasFDerivAt
  have h2 : HasFDerivAt (fderiv ℝ F) (fderiv ℝ (fderiv ℝ F) (x, y)) (x, Y x) := by
    rw [hYx]; exact (c2_ev hF).2.hasFDerivAt
  exact HasFDerivAt.comp x (f := fun x => (x, Y x)) h2 h1

/-- the second derivative of the optimal value -/
theorem value_fderiv2 (hF : ContDiffAt ℝ 2 F (x, y)) (hYx : Y x = y) (hY : ∀ᶠ x' in 𝓝 x, DifferentiableAt ℝ Y x')
    (hc : ∀ᶠ x' in 𝓝 x, ∀ v, fderiv ℝ F (x', Y x') (0, v) = 0) :
    (∀ᶠ x' in 𝓝 x, DifferentiableAt ℝ (fun x => F (x, Y x)) x') ∧
    DifferentiableAt ℝ (fderiv ℝ fun x => F (x, Y x)) x ∧
    (∀ a b, fderiv ℝ (fderiv ℝ fun x => F (x, Y x)) x a b
      = fderiv ℝ (fderiv ℝ F) (x, y) (a, fderiv ℝ Y x a) (b, 0)) ∧
    (∀ a v, fderiv ℝ (fderiv ℝ F) (x, y) (a, fderiv ℝ Y x a) (0, v) = 0) := by
  have hF' := (pair_tendsto hYx hY.self_of_nhds).eventually (c2_ev hF).1
  have h1 : ∀ᶠ x' in 𝓝 x, HasFDerivAt (fun x => F (x, Y x))
      ((fderiv ℝ F (x', Y x')).comp (ContinuousLinearMap.inl ℝ E G)) x' := by
    filter_upwards [hF', hY, hc] with x' e1 e2 e3
    exact value_fderiv e1 e2 e3
  have hA := along_fderiv hF hYx hY.self_of_nhds
  have h2 : HasFDerivAt (fun x' => (fderiv ℝ F (x', Y x')).comp (ContinuousLinearMap.inl ℝ E G))
      (((ContinuousLinearMap.compL ℝ E (E × G) ℝ).flip (ContinuousLinearMap.inl ℝ E G)).comp
        ((fderiv ℝ (fderiv ℝ F) (x, y)).comp ((ContinuousLinearMap.id ℝ E).prod (fderiv ℝ Y x)))) x :=
    ((ContinuousLinearMap.compL ℝ E (E × G) ℝ).flip (ContinuousLinearMap.inl ℝ E G)).hasFDerivAt.comp x hA
  have h3 := h2.congr_of_eventuallyEq (f₁ := fderiv ℝ fun x => F (x, Y x)) (by
    filter_upwards [h1] with x' e; exact e.fderiv)
  refine ⟨h1.mono fun x' h => h.differentiableAt, h3.differentiableAt, fun a b => ?_, fun a v => ?_⟩
  · rw [h3.fderiv]; simp
  · have h4 : HasFDerivAt (fun x' => fderiv ℝ F (x', Y x') ((0, v) : E × G)) _ x :=
      hA.clm_apply (hasFDerivAt_const ((0, v) : E × G) x)
    have h5 : HasFDerivAt (fun x' => fderiv ℝ F (x', Y x') ((0, v) : E × G)) (0 : E →L[ℝ] ℝ) x :=
      (hasFDerivAt_const (0 : ℝ) x).congr_of_eventuallyEq (by filter_upwards [hc] with x' e; exact e v)
    have h6 := h4.unique h5
    have := congrArg (fun L : E →L[ℝ] ℝ => L a) h6
    simpa using this

end

end CppAD.OptVal
