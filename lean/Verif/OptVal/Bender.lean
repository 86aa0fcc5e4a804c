import Verif.OptVal.Thm
import Mathlib.LinearAlgebra.FiniteDimensional.Basic

/-!
# BenderQuad returns the value, the gradient and the Hessian of the reduced objective
-/

open scoped Topology
open CppAD.AtomEx (ev ev_of_lt)

namespace CppAD.OptVal

/-! ### calculus -/

section

variable {n m : ℕ} {F : (Fin n → ℝ) × (Fin m → ℝ) → ℝ} {x : Fin n → ℝ} {y : Fin m → ℝ}

/-- first and second derivative of `F(x', u(x'))` where `∂_y F` is zero -/
theorem comp_fderiv2 {u : (Fin n → ℝ) → Fin m → ℝ} (hF : ContDiffAt ℝ 2 F (x, y)) (hu : ContDiffAt ℝ 2 u x)
    (hux : u x = y) (hc : ∀ v, fderiv ℝ F (x, y) (0, v) = 0) :
    ContDiffAt ℝ 2 (fun x => F (x, u x)) x ∧
    (∀ a, fderiv ℝ (fun x => F (x, u x)) x a = fderiv ℝ F (x, y) (a, 0)) ∧
    ∀ a b, fderiv ℝ (fderiv ℝ fun x => F (x, u x)) x a b
      = fderiv ℝ (fderiv ℝ F) (x, y) (a, fderiv ℝ u x a) (b, fderiv ℝ u x b) := by
  have hC : ContDiffAt ℝ 2 (fun x => F (x, u x)) x := by
    have h1 : ContDiffAt ℝ 2 F (x, u x) := by rw [hux]; exact hF
    exact ContDiffAt.comp x (f := fun x => (x, u x)) h1 (contDiffAt_id.prodMk hu)
  have hud : ∀ᶠ x' in 𝓝 x, DifferentiableAt ℝ u x' := by
    filter_upwards [hu.eventually (by simp)] with x' h
    exact h.differentiableAt (by simp)
  refine ⟨hC, ?_, ?_⟩
  · intro a
    rw [(value_fderiv (F := F) (Y := u) (x := x) (by rw [hux]; exact (c2_ev hF).1.self_of_nhds) hud.self_of_nhds
      (by rw [hux]; exact hc)).fderiv, hux]
    simp
  · intro a b
    have hF' := (pair_tendsto hux hud.self_of_nhds).eventually (c2_ev hF).1
    have h1 : (fun x' => fderiv ℝ (fun x => F (x, u x)) x' b) =ᶠ[𝓝 x]
        fun x' => fderiv ℝ F (x', u x') (b, fderiv ℝ u x' b) := by
      filter_upwards [hF', hud] with x' e1 e2
      have h1 : HasFDerivAt (fun x => (x, u x)) ((ContinuousLinearMap.id ℝ _).prod (fderiv ℝ u x')) x' :=
        (hasFDerivAt_id x').prodMk e2.hasFDerivAt
      have := (HasFDerivAt.comp x' (f := fun x => (x, u x)) e1.hasFDerivAt h1).fderiv
      change fderiv ℝ (fun x => F (x, u x)) x' = _ at this
      rw [this]; simp
    have h2 : HasFDerivAt (fun x' => fderiv ℝ (fun x => F (x, u x)) x' b) _ x :=
      (c2_ev hC).2.hasFDerivAt.clm_apply (hasFDerivAt_const b x)
    have hu2 : DifferentiableAt ℝ (fderiv ℝ u) x :=
      (hu.fderiv_right (m := 1) (by norm_num)).differentiableAt (by simp)
    have h3 : HasFDerivAt (fun x' => fderiv ℝ u x' b) _ x := hu2.hasFDerivAt.clm_apply (hasFDerivAt_const b x)
    have h4 : HasFDerivAt (fun x' => ((b, fderiv ℝ u x' b) : (Fin n → ℝ) × (Fin m → ℝ))) _ x :=
      (hasFDerivAt_const b x).prodMk h3
    have h5 := (along_fderiv hF hux hud.self_of_nhds).clm_apply h4
    have h6 := h2.unique (h5.congr_of_eventuallyEq h1)
    have h7 := congrArg (fun L : (Fin n → ℝ) →L[ℝ] ℝ => L a) h6
    simp only [add_apply, ContinuousLinearMap.comp_apply, ContinuousLinearMap.flip_apply,
      ContinuousLinearMap.prod_apply, ContinuousLinearMap.id_apply, zero_apply, map_zero, zero_add, hux, hc] at h7
    simpa using h7

/-- the Newton step: a right inverse of `-∂_y H` is linear and is an inverse -/
theorem newton_linear (L : (Fin m → ℝ) →L[ℝ] (Fin m → ℝ)) (D : (Fin m → ℝ) → Fin m → ℝ) (h : ∀ v, L (D v) = -v) :
    Function.Injective L ∧ ∃ D' : (Fin m → ℝ) →L[ℝ] (Fin m → ℝ), ∀ v, D v = D' v := by
  have hs : Function.Surjective L := fun v => ⟨D (-v), by rw [h, neg_neg]⟩
  have hi : Function.Injective L := (LinearMap.injective_iff_surjective (f := (L : (Fin m → ℝ) →ₗ[ℝ] (Fin m → ℝ)))).mpr hs
  refine ⟨hi, ?_⟩
  let D' : (Fin m → ℝ) →ₗ[ℝ] (Fin m → ℝ) :=
    { toFun := D
      map_add' := fun a b => hi (by rw [map_add, h, h, h]; ring)
      map_smul' := fun c a => hi (by simp only [RingHom.id_apply, map_smul]; rw [h, h]; simp) }
  exact ⟨LinearMap.toContinuousLinearMap D', fun v => rfl⟩

end

/-! ### the loop -/

theorem wsum_one {T : Tape} (hd : T.dep.length = 1) : wsum T [1] = fun y => T.eval y 0 := by
  funext y; simp [wsum, hd, at']

theorem bender_ok {n : ℕ} {f : ADFun} {x : Fin n → ℝ} {φ : (Fin n → ℝ) → ℝ} (h : Records f x φ)
    (hφ : ContDiffAt ℝ 2 φ x) (J : Junk) (gx gxx : ℕ → ℝ) :
    (bender f J x gx gxx).1 = φ x ∧
    (∀ j : Fin n, (bender f J x gx gxx).2.1 j = fderiv ℝ φ x (Pi.single j 1)) ∧
    ∀ i j : Fin n, (bender f J x gx gxx).2.2 (i * n + j) = fderiv ℝ (fderiv ℝ φ) x (Pi.single i 1) (Pi.single j 1) := by
  obtain ⟨T, S, hr, hT, rfl, hd, hD, he⟩ := h
  have hat := at_ofFn x
  have h0 := fwd0_ready hT hr J.zero J.nan (List.ofFn x) (by simp)
  rw [hat] at h0
  constructor
  · show at' (f.forward J.zero J.nan 0 (List.ofFn x)).2 0 = φ x
    rw [(forward_one_order hT hr J.zero J.nan 0 (List.ofFn x) (by simp) (Nat.zero_le _) (Or.inl (by omega))).2 0
      (by omega) (Or.inl rfl), tc_zero, ← he.self_of_nhds]
    refine T.eval_congr hT (fun j _ => ?_) (by omega)
    rw [curve_zero]; simp [hat]
  · have key := forRange_ind (σ := ADFun × (ℕ → ℝ) × (ℕ → ℝ)) (Nat.zero_le T.n)
      (s := ((f.forward J.zero J.nan 0 (List.ofFn x)).1, gx, gxx))
      (f := fun j s =>
        let r1 := s.1.forward (J.fwd j) J.nan 1 (unitVec T.n j)
        let gx := Function.update s.2.1 j (at' r1.2 0)
        let r2 := r1.1.reverse (J.back j) 2 [1]
        (r2.1, gx, forRange 0 T.n s.2.2 fun i gxx => Function.update gxx (i * T.n + j) (at' r2.2 (i * 2 + 1))))
      (fun K s => Ready T s.1 (ev x) ∧ (∀ j : Fin T.n, (j : ℕ) < K → s.2.1 j = fderiv ℝ φ x (Pi.single j 1)) ∧
        ∀ i j : Fin T.n, (j : ℕ) < K → s.2.2 (i * T.n + j) = fderiv ℝ (fderiv ℝ φ) x (Pi.single i 1) (Pi.single j 1))
      ⟨h0, fun _ hj => absurd hj (by omega), fun _ _ hj => absurd hj (by omega)⟩ ?_
    · exact ⟨fun j => key.2.1 j j.isLt, fun i j => key.2.2 i j j.isLt⟩
    · rintro K s _ hK ⟨hs1, hs2, hs3⟩
      obtain ⟨h1, h1v⟩ := fwd1_ok hT hs1 (J.fwd K) J.nan (unitVec T.n K) (unitVec_length _ _)
      have h2 := (rev2_ok hT h1 (J.back K) [1] (by simp [hd])).1
      refine ⟨?_, ?_, ?_⟩
      · obtain ⟨S1, hr1, hn1, _, hx1⟩ := h2
        exact ⟨S1, hr1, by omega, fun j hj => (hx1 j hj).1⟩
      · intro j hj
        dsimp only
        by_cases e : (j : ℕ) = K
        · subst e
          rw [Function.update_self]
          have h3 := h1v hD 0 (by omega)
          have : IsPartial (fun y => T.eval y 0) (ev x) j
              (at' (s.1.forward (J.fwd j) J.nan 1 (unitVec T.n j)).2 0) := by
            unfold IsPartial
            simp only [update_dir _ hK] at h3
            exact h3
          exact partial_fderiv he ((c2_ev hφ).1.self_of_nhds) j this
        · rw [Function.update_of_ne e]; exact hs2 j (by omega)
      · intro i j hj
        dsimp only
        have hw' := write_ok T.n (fun i => i * T.n + K) (fun a _ b _ hab => (rowcol_inj hK hK hab).1)
          (fun i => at' ((s.1.forward (J.fwd K) J.nan 1 (unitVec T.n K)).1.reverse (J.back K) 2 [1]).2 (i * 2 + 1)) s.2.2
        by_cases e : (j : ℕ) = K
        · subst e
          rw [hw'.1 i i.isLt]
          have := rev2_partial hT hK h1 hD (J.back j) [1] (by simp [hd]) i.isLt
          rw [wsum_one hd] at this
          exact partial2_fderiv he (c2_ev hφ).1 (c2_ev hφ).2 i j this
        · rw [hw'.2 _ (fun l _ hh => e (rowcol_inj j.isLt hK hh).2)]
          exact hs3 i j (by omega)

/-- **C55, BenderQuad.**  For every objective `F` and every system of equations `H` that are two times continuously
differentiable, every differentiable solution `Y` of `H[x, Y(x)] = 0` that is critical for `F` in `y`, every Newton step
`dy` for these equations, and every recording of `F(x, y + dy(H(x, y)))`: the results are the value, the gradient and the
Hessian of `G(x) = F[x, Y(x)]`. -/
theorem benderQuad_ok {n m : ℕ} {F : (Fin n → ℝ) × (Fin m → ℝ) → ℝ} {H : (Fin n → ℝ) × (Fin m → ℝ) → Fin m → ℝ}
    {x : Fin n → ℝ} {y : Fin m → ℝ} {Y : (Fin n → ℝ) → Fin m → ℝ} {dy : (Fin m → ℝ) → Fin m → ℝ} {f : ADFun}
    (hF : ContDiffAt ℝ 2 F (x, y)) (hH : ContDiffAt ℝ 2 H (x, y)) (hY : IsSol F x y Y)
    (hHY : ∀ᶠ x' in 𝓝 x, H (x', Y x') = 0) (hdy : ∀ h, fderiv ℝ H (x, y) (0, dy h) = -h)
    (hf : Records f x fun x' => F (x', y + dy (H (x', y)))) (J : Junk) (gx gxx : ℕ → ℝ) :
    let r := bender f J x gx gxx
    r.1 = F (x, Y x) ∧ IsGrad (fun x' => F (x', Y x')) x r.2.1 ∧ IsHess (fun x' => F (x', Y x')) x r.2.2 := by
  intro r
  set L : (Fin m → ℝ) →L[ℝ] (Fin m → ℝ) := (fderiv ℝ H (x, y)).comp (ContinuousLinearMap.inr ℝ _ _) with hL
  have hLd : ∀ v, L (dy v) = -v := fun v => by simpa [hL] using hdy v
  obtain ⟨hinj, D, hD⟩ := newton_linear L dy hLd
  have hHd : HasFDerivAt H (fderiv ℝ H (x, y)) (x, y) := (hH.differentiableAt (by simp)).hasFDerivAt
  have hH0 : H (x, y) = 0 := by rw [← hY.val]; exact hHY.self_of_nhds
  have hp : HasFDerivAt (fun x' => (x', y)) ((ContinuousLinearMap.id ℝ (Fin n → ℝ)).prod 0) x :=
    (hasFDerivAt_id x).prodMk (hasFDerivAt_const y x)
  have hHx : HasFDerivAt (fun x' => H (x', y)) _ x := HasFDerivAt.comp x (f := fun x' => (x', y)) hHd hp
  have hu' : HasFDerivAt (fun x' => y + dy (H (x', y))) (D.comp ((fderiv ℝ H (x, y)).comp
      ((ContinuousLinearMap.id ℝ (Fin n → ℝ)).prod 0))) x := by
    simp only [hD]
    exact (D.hasFDerivAt.comp x hHx).const_add y
  have hu2 : ContDiffAt ℝ 2 (fun x' => y + dy (H (x', y))) x := by
    simp only [hD]
    refine contDiffAt_const.add (D.contDiff.contDiffAt.comp x ?_)
    exact ContDiffAt.comp x (f := fun x' => (x', y)) hH (contDiffAt_id.prodMk contDiffAt_const)
  have hux : (fun x' => y + dy (H (x', y))) x = y := by simp [hD, hH0]
  -- the derivative of `y + dy(H(x, y))` is the derivative of `Y`
  have hYd : fderiv ℝ (fun x' => y + dy (H (x', y))) x = fderiv ℝ Y x := by
    rw [hu'.fderiv]
    have h1 : HasFDerivAt (fun x' => (x', Y x')) ((ContinuousLinearMap.id ℝ _).prod (fderiv ℝ Y x)) x :=
      (hasFDerivAt_id x).prodMk hY.diff.self_of_nhds.hasFDerivAt
    have h2 : HasFDerivAt (fun x' => H (x', Y x')) _ x :=
      HasFDerivAt.comp x (f := fun x' => (x', Y x')) (by rw [hY.val]; exact hHd) h1
    have h3 : HasFDerivAt (fun x' => H (x', Y x')) (0 : (Fin n → ℝ) →L[ℝ] (Fin m → ℝ)) x :=
      (hasFDerivAt_const (0 : Fin m → ℝ) x).congr_of_eventuallyEq (by filter_upwards [hHY] with x' e; exact e)
    have h4 := h2.unique h3
    ext1 a
    apply hinj
    have h5 := congrArg (fun M : (Fin n → ℝ) →L[ℝ] (Fin m → ℝ) => M a) h4
    simp only [ContinuousLinearMap.comp_apply, ContinuousLinearMap.prod_apply, ContinuousLinearMap.id_apply,
      zero_apply] at h5 ⊢
    rw [← hD, hLd]
    have h6 : ((a, fderiv ℝ Y x a) : (Fin n → ℝ) × (Fin m → ℝ)) = (a, 0) + (0, fderiv ℝ Y x a) := by simp
    rw [h6, map_add] at h5
    simp only [hL, ContinuousLinearMap.comp_apply, ContinuousLinearMap.inr_apply]
    exact neg_eq_of_add_eq_zero_right h5
  have hcr : ∀ v, fderiv ℝ F (x, y) (0, v) = 0 := by
    have := hY.crit.self_of_nhds
    rwa [hY.val] at this
  obtain ⟨hC, hg1, hg2⟩ := comp_fderiv2 hF hu2 hux hcr
  obtain ⟨b1, b2, b3⟩ := bender_ok hf hC J gx gxx
  obtain ⟨v1, v2, v3, v4⟩ := value_fderiv2 hF hY.val hY.diff hY.crit
  refine ⟨?_, ⟨v1.self_of_nhds, fun j => ?_⟩, v1, v2, fun i j => ?_⟩
  · rw [show r.1 = _ from b1, hY.val]
    exact congrArg (fun v => F (x, v)) hux
  · rw [show r.2.1 j = _ from b2 j, hg1, (value_fderiv (F := F) (Y := Y) (x := x)
      (by rw [hY.val]; exact (c2_ev hF).1.self_of_nhds) hY.diff.self_of_nhds hY.crit.self_of_nhds).fderiv, hY.val]
    simp
  · rw [show r.2.2 (i * n + j) = _ from b3 i j, hg2, v3, hYd]
    have h6 : ((Pi.single j 1, fderiv ℝ Y x (Pi.single j 1)) : (Fin n → ℝ) × (Fin m → ℝ))
        = (Pi.single j 1, 0) + (0, fderiv ℝ Y x (Pi.single j 1)) := by simp
    rw [h6, map_add, v4, add_zero]

end CppAD.OptVal
