import Verif.OptVal.Loops
import Mathlib.LinearAlgebra.Matrix.NonsingularInverse

/-!
# opt_val_hes returns the gradient and the Hessian of the optimal value
-/

open scoped Topology
open CppAD.AtomEx (ev)

namespace CppAD.OptVal

section

variable {E G : Type*} [NormedAddCommGroup E] [NormedSpace ℝ E] [NormedAddCommGroup G] [NormedSpace ℝ G]

theorem fderiv2_comp {φ : G → ℝ} (L : E →L[ℝ] G) {w : E} (h : ContDiffAt ℝ 2 φ (L w)) (a b : E) :
    fderiv ℝ (fderiv ℝ fun w => φ (L w)) w a b = fderiv ℝ (fderiv ℝ φ) (L w) (L a) (L b) := by
  have h1 : (fderiv ℝ fun w => φ (L w)) =ᶠ[𝓝 w] fun w' => (fderiv ℝ φ (L w')).comp L := by
    filter_upwards [L.continuous.continuousAt.eventually (c2_ev h).1] with w' e
    exact (HasFDerivAt.comp w' e.hasFDerivAt L.hasFDerivAt).fderiv
  have h2 : HasFDerivAt (fun w' => fderiv ℝ φ (L w')) ((fderiv ℝ (fderiv ℝ φ) (L w)).comp L) w :=
    HasFDerivAt.comp w (c2_ev h).2.hasFDerivAt L.hasFDerivAt
  have h3 : HasFDerivAt (fun w' => (fderiv ℝ φ (L w')).comp L)
      (((ContinuousLinearMap.compL ℝ E G ℝ).flip L).comp ((fderiv ℝ (fderiv ℝ φ) (L w)).comp L)) w :=
    ((ContinuousLinearMap.compL ℝ E G ℝ).flip L).hasFDerivAt.comp w h2
  rw [(h3.congr_of_eventuallyEq h1).fderiv]
  simp

theorem fderiv2_sum {ell : ℕ} {S : ℕ → E → ℝ} {w : E} (h : ∀ k < ell, ContDiffAt ℝ 2 (S k) w) (a b : E) :
    fderiv ℝ (fderiv ℝ fun w => ∑ k ∈ Finset.range ell, S k w) w a b
      = ∑ k ∈ Finset.range ell, fderiv ℝ (fderiv ℝ (S k)) w a b := by
  have h1 : (fderiv ℝ fun w => ∑ k ∈ Finset.range ell, S k w) =ᶠ[𝓝 w]
      fun w' => ∑ k ∈ Finset.range ell, fderiv ℝ (S k) w' := by
    have : ∀ᶠ w' in 𝓝 w, ∀ k ∈ Finset.range ell, DifferentiableAt ℝ (S k) w' :=
      (Filter.eventually_all_finset _).mpr fun k hk => (c2_ev (h k (Finset.mem_range.mp hk))).1
    filter_upwards [this] with w' e
    exact fderiv_fun_sum e
  rw [Filter.EventuallyEq.fderiv_eq h1, fderiv_fun_sum fun k hk => (c2_ev (h k (Finset.mem_range.mp hk))).2]
  simp

end

theorem split_left {n m : ℕ} (i : Fin n) :
    split n m (Pi.single (Fin.castAdd m i) 1) = (Pi.single i 1, 0) := by
  unfold split
  ext j
  · simp [Pi.single_apply]
  · simp only [ContinuousLinearMap.prod_apply, ContinuousLinearMap.coe_pi', ContinuousLinearMap.proj_apply,
      Pi.zero_apply, Pi.single_apply]
    rw [if_neg]
    intro h
    have := congrArg Fin.val h
    have := i.isLt
    simp at *
    omega

theorem split_right {n m : ℕ} (j : Fin m) :
    split n m (Pi.single (Fin.natAdd n j) 1) = (0, Pi.single j 1) := by
  unfold split
  ext i
  · simp only [ContinuousLinearMap.prod_apply, ContinuousLinearMap.coe_pi', ContinuousLinearMap.proj_apply,
      Pi.zero_apply, Pi.single_apply]
    rw [if_neg]
    intro h
    have := congrArg Fin.val h
    have := i.isLt
    simp at *
    omega
  · simp [Pi.single_apply]

theorem split_append {n m : ℕ} (x : Fin n → ℝ) (y : Fin m → ℝ) : split n m (Fin.append x y) = (x, y) := by
  unfold split
  ext j <;> simp

/-- linear in the second part: `D (0, v) = ∑ v_k D (0, e_k)` -/
theorem sum_basis {n m : ℕ} (D : (Fin n → ℝ) × (Fin m → ℝ) →L[ℝ] ℝ) (v : Fin m → ℝ) :
    D (0, v) = ∑ k, v k * D (0, Pi.single k 1) := by
  have : ((0, v) : (Fin n → ℝ) × (Fin m → ℝ)) = ∑ k, v k • ((0, Pi.single k 1) : (Fin n → ℝ) × (Fin m → ℝ)) := by
    ext j
    · simp [Prod.fst_sum]
    · simp [Prod.snd_sum, Finset.sum_apply, Pi.single_apply]
  conv_lhs => rw [this]
  rw [map_sum]
  refine Finset.sum_congr rfl fun k _ => ?_
  rw [map_smul, smul_eq_mul]

/-- the algebra of opt_val_hes.hpp:506-520 -/
theorem hess_algebra {n m : ℕ} {F : (Fin n → ℝ) × (Fin m → ℝ) → ℝ} {x : Fin n → ℝ} {y : Fin m → ℝ}
    {Y : (Fin n → ℝ) → Fin m → ℝ} (hF : ContDiffAt ℝ 2 F (x, y)) (hY : IsSol F x y Y)
    (hdet : (Fyy F x y).det ≠ 0) (X : Matrix (Fin m) (Fin n) ℝ)
    (hX : Fyy F x y * X = Matrix.of fun i j => fderiv ℝ (fderiv ℝ F) (x, y) (0, Pi.single i 1) (Pi.single j 1, 0))
    (i j : Fin n) :
    fderiv ℝ (fderiv ℝ F) (x, y) (Pi.single i 1, 0) (Pi.single j 1, 0)
      - ∑ k, fderiv ℝ (fderiv ℝ F) (x, y) (Pi.single i 1, 0) (0, Pi.single k 1) * X k j
      = fderiv ℝ (fderiv ℝ fun x => F (x, Y x)) x (Pi.single i 1) (Pi.single j 1) := by
  have hsym : IsSymmSndFDerivAt ℝ F (x, y) := hF.isSymmSndFDerivAt (by simp)
  obtain ⟨_, _, h3, h4⟩ := value_fderiv2 hF hY.val hY.diff hY.crit
  rw [h3]
  set D := fderiv ℝ (fderiv ℝ F) (x, y) with hD
  set Y' := fderiv ℝ Y x with hY'
  have hadd : ∀ a v w, D ((a, v) : (Fin n → ℝ) × (Fin m → ℝ)) w = D (a, 0) w + D (0, v) w := by
    intro a v w
    have : ((a, v) : (Fin n → ℝ) × (Fin m → ℝ)) = (a, 0) + (0, v) := by simp
    rw [this, map_add, add_apply]
  have hcr : ∀ a v, D (0, Y' a) (0, v) = - D (a, 0) (0, v) := by
    intro a v
    have := h4 a v
    rw [hadd] at this; linarith
  have hs : ∀ a b, D a b = D b a := fun a b => hsym a b
  have hYX : X = Matrix.of fun k j => - Y' (Pi.single j 1) k := by
    have h5 : Fyy F x y * (Matrix.of fun k j => - Y' (Pi.single j 1) k)
        = Matrix.of fun i j => D (0, Pi.single i 1) (Pi.single j 1, 0) := by
      ext i j
      rw [Matrix.mul_apply]
      simp only [Fyy, Matrix.of_apply]
      have := sum_basis (D (0, Pi.single i 1)) (Y' (Pi.single j 1))
      rw [hs, hcr, hs] at this
      have h6 : ∑ k, D (0, Pi.single i 1) (0, Pi.single k 1) * -Y' (Pi.single j 1) k
          = - ∑ k, Y' (Pi.single j 1) k * D (0, Pi.single i 1) (0, Pi.single k 1) := by
        rw [← Finset.sum_neg_distrib]; refine Finset.sum_congr rfl fun k _ => ?_; ring
      change ∑ k, D (0, Pi.single i 1) (0, Pi.single k 1) * -Y' (Pi.single j 1) k = _
      rw [h6, ← this]
      ring
    have h7 := hX.trans h5.symm
    have hu : IsUnit (Fyy F x y).det := isUnit_iff_ne_zero.mpr hdet
    have := congrArg (fun M => (Fyy F x y)⁻¹ * M) h7
    simpa only [Matrix.nonsing_inv_mul_cancel_left _ _ hu] using this
  have h8 := sum_basis (D (Pi.single i 1, 0)) (Y' (Pi.single j 1))
  have h9 : ∑ k, D (Pi.single i 1, 0) (0, Pi.single k 1) * X k j = - D (Pi.single i 1, 0) (0, Y' (Pi.single j 1)) := by
    rw [h8, ← Finset.sum_neg_distrib]
    refine Finset.sum_congr rfl fun k _ => ?_
    rw [hYX, Matrix.of_apply]; ring
  rw [h9, hadd (Pi.single i 1) (Y' (Pi.single i 1))]
  have e1 := hcr (Pi.single i 1) (Y' (Pi.single j 1))
  have e2 := hcr (Pi.single j 1) (Y' (Pi.single i 1))
  rw [hs (0, Y' (Pi.single i 1)) (0, Y' (Pi.single j 1))] at e1
  rw [hs (0, Y' (Pi.single i 1)) (Pi.single j 1, 0)]
  linarith

variable {n m ell : ℕ} {x : Fin n → ℝ} {y : Fin m → ℝ} {S : ℕ → (Fin n → ℝ) × (Fin m → ℝ) → ℝ}
  {Y : (Fin n → ℝ) → Fin m → ℝ} {sx sxy : ℕ → ADFun}

/-- the gradient -/
theorem jacPart_ok {ay : ℕ} (hay : m ≤ ay) (hS : ∀ k < ell, ContDiffAt ℝ 2 (S k) (x, y))
    (hY : IsSol (fun w => ∑ k ∈ Finset.range ell, S k w) x y Y)
    (hsx : ∀ k < ell, Records (sx k) x fun x' => S k (x', y)) (J : ℕ → Junk) (jac v : ℕ → ℝ) :
    ∃ g, jacPart ay n m ell sx J (List.ofFn x) (at' (List.ofFn y)) jac v = some g ∧
      IsGrad (fun x' => ∑ k ∈ Finset.range ell, S k (x', Y x')) x g := by
  obtain ⟨u, hu⟩ := copyY_some hay (at' (List.ofFn y)) v
  unfold jacPart
  rw [hu]
  refine ⟨_, rfl, ?_⟩
  have hF : ContDiffAt ℝ 2 (fun w => ∑ k ∈ Finset.range ell, S k w) (x, y) :=
    ContDiffAt.sum fun k hk => hS k (Finset.mem_range.mp hk)
  have hv := value_fderiv (F := fun w => ∑ k ∈ Finset.range ell, S k w) (Y := Y) (x := x)
    (by rw [hY.val]; exact (c2_ev hF).1.self_of_nhds) hY.diff.self_of_nhds hY.crit.self_of_nhds
  refine ⟨hv.differentiableAt, fun j => ?_⟩
  rw [hv.fderiv, accum _ _ _ (fun k => ((sx k).jacobian (J k).zero (J k).fwd (J k).nan (J k).out (List.ofFn x)).2) j.isLt,
    hY.val]
  rw [fderiv_fun_sum fun k hk => (c2_ev (hS k (Finset.mem_range.mp hk))).1.self_of_nhds]
  simp only [ContinuousLinearMap.comp_apply, ContinuousLinearMap.inl_apply, sum_apply]
  refine Finset.sum_congr rfl fun k hk => ?_
  have hk := Finset.mem_range.mp hk
  have hd := (c2_ev (hS k hk)).1.self_of_nhds
  have h1 : HasFDerivAt (fun x' => (x', y)) ((ContinuousLinearMap.id ℝ (Fin n → ℝ)).prod 0) x :=
    (hasFDerivAt_id x).prodMk (hasFDerivAt_const y x)
  have h2 := HasFDerivAt.comp x (f := fun x' => (x', y)) hd.hasFDerivAt h1
  rw [(hsx k hk).jacobian h2.differentiableAt (J k) j]
  have := h2.fderiv
  change fderiv ℝ (fun x' => S k (x', y)) x = _ at this
  rw [this]
  simp

/-- **C55** when `a_y` and `F_yy` are large enough -/
theorem optValWith_ok {ay fyy : ℕ} (hay : m ≤ ay) (hf : fyy = m * m) (hS : ∀ k < ell, ContDiffAt ℝ 2 (S k) (x, y))
    (hY : IsSol (fun w => ∑ k ∈ Finset.range ell, S k w) x y Y)
    (hsx : ∀ k < ell, Records (sx k) x fun x' => S k (x', y))
    (hsxy : ∀ k < ell, Records (sxy k) (Fin.append x y) fun w => S k (split n m w))
    (J J' : ℕ → Junk) (M : Mem) (jacW hesW : Bool) (jac hes : ℕ → ℝ) :
    ∃ sd jac' hes', optValWith ay fyy ell sx sxy J J' M x y jacW hesW jac hes = some (sd, jac', hes') ∧
      (jacW = true → IsGrad (fun x' => ∑ k ∈ Finset.range ell, S k (x', Y x')) x jac') ∧
      (hesW = true →
        let d := (Fyy (fun w => ∑ k ∈ Finset.range ell, S k w) x y).det
        (d = 0 → sd = 0) ∧
        (d ≠ 0 → (sd = 1 ∨ sd = -1) ∧ d = sd * |d| ∧
          IsHess (fun x' => ∑ k ∈ Finset.range ell, S k (x', Y x')) x hes')) := by
  have hF : ContDiffAt ℝ 2 (fun w => ∑ k ∈ Finset.range ell, S k w) (x, y) :=
    ContDiffAt.sum fun k hk => hS k (Finset.mem_range.mp hk)
  obtain ⟨g, hg, hg'⟩ : ∃ g, (if jacW = true then jacPart ay n m ell sx J (List.ofFn x) (at' (List.ofFn y)) jac M.ay
      else some jac) = some g ∧
      (jacW = true → IsGrad (fun x' => ∑ k ∈ Finset.range ell, S k (x', Y x')) x g) := by
    by_cases hj : jacW = true
    · obtain ⟨g, h1, h2⟩ := jacPart_ok hay hS hY hsx J jac M.ay
      exact ⟨g, by rw [if_pos hj, h1], fun _ => h2⟩
    · exact ⟨jac, by rw [if_neg hj], fun h => absurd h hj⟩
  unfold optValWith
  rw [hg]
  simp only [Option.bind_some]
  by_cases hh : hesW = true
  swap
  · refine ⟨0, g, hes, by simp [hh], hg', fun h => absurd h hh⟩
  obtain ⟨h, h1, h2⟩ := fHes_some (n := n) (m := m) (ell := ell) hay sxy J' (List.ofFn x ++ List.ofFn y)
    (at' (List.ofFn y)) M.h M.ay
  obtain ⟨yy, h3, h4⟩ := fYY_some (fyy := fyy) (n := n) (m := m) (by omega) h M.yy
  rw [h1]
  simp only [Option.bind_some, h3]
  have hD : ∀ a b : Fin (n + m), h (a * (n + m) + b)
      = fderiv ℝ (fderiv ℝ fun w => ∑ k ∈ Finset.range ell, S k w) (x, y)
          (split n m (Pi.single a 1)) (split n m (Pi.single b 1)) := by
    intro a b
    rw [h2 a a.isLt b b.isLt, fderiv2_sum hS, ofFn_append]
    refine Finset.sum_congr rfl fun k hk => ?_
    have hk := Finset.mem_range.mp hk
    have hc : ContDiffAt ℝ 2 (S k) (split n m (Fin.append x y)) := by rw [split_append]; exact hS k hk
    rw [(hsxy k hk).hessian (hc.comp (Fin.append x y) (split n m).contDiff.contDiffAt) (J' k) a b,
      fderiv2_comp _ hc, split_append]
  set F := fun w => ∑ k ∈ Finset.range ell, S k w with hFdef
  have hyy : Lu.mat m m yy = Fyy F x y := by
    ext i j
    have := hD (Fin.natAdd n i) (Fin.natAdd n j)
    rw [split_right, split_right] at this
    unfold Lu.mat Fyy
    rw [h4 i i.isLt j j.isLt, Matrix.of_apply, ← this]
    congr 1
    simp only [Fin.val_natAdd]; ring
  have hyx : Lu.mat m n (fYX n m h M.yx) = Matrix.of fun i j =>
      fderiv ℝ (fderiv ℝ F) (x, y) (0, Pi.single i 1) (Pi.single j 1, 0) := by
    ext i j
    have := hD (Fin.natAdd n i) (Fin.castAdd m j)
    rw [split_right, split_left] at this
    unfold Lu.mat
    rw [fYX_apply _ _ _ _ i.isLt j.isLt, Matrix.of_apply, ← this]
    congr 1
    simp only [Fin.val_natAdd, Fin.val_castAdd]; ring
  have hlu := Lu.luSolve_real m n M.ip M.jp M.sol yy (fYX n m h M.yx)
  dsimp only at hlu
  rw [hyy, hyx] at hlu
  rw [if_neg (by simp [hh]), if_neg (by simp [hf])]
  set r := Lu.luSolve Lu.absGeq Lu.leqZero Real.log m n M.ip M.jp M.sol yy (fYX n m h M.yx) with hr
  by_cases h0 : r.2.2 = 0
  · rw [if_pos h0]
    refine ⟨_, _, _, rfl, hg', fun _ => ⟨fun _ => h0, fun hd => ?_⟩⟩
    rcases (hlu.2 hd).1 with e | e <;> omega
  · rw [if_neg h0]
    refine ⟨_, _, _, rfl, hg', fun _ => ⟨fun hd => absurd (hlu.1 hd) h0, fun hd => ?_⟩⟩
    obtain ⟨e1, e2, e3⟩ := hlu.2 hd
    refine ⟨e1, ?_, ?_⟩
    · rw [← e2]
      rcases e1 with e | e <;> simp [e, abs_of_pos (Real.exp_pos _)]
    · have hv := value_fderiv2 hF hY.val hY.diff hY.crit
      refine ⟨hv.1, hv.2.1, fun i j => ?_⟩
      rw [hesPart_apply _ _ _ _ _ i.isLt j.isLt, ← hess_algebra hF hY hd _ e3 i j]
      congr 1
      · have := hD (Fin.castAdd m i) (Fin.castAdd m j)
        rw [split_left, split_left] at this
        exact this
      · rw [← Fin.sum_univ_eq_sum_range (fun k => h (i * (n + m) + k + n) * r.1 (k * n + j))]
        refine Finset.sum_congr rfl fun k _ => ?_
        have := hD (Fin.castAdd m i) (Fin.natAdd n k)
        rw [split_left, split_right] at this
        rw [← this]
        simp only [Fin.val_castAdd, Fin.val_natAdd]
        rw [show (i : ℕ) * (n + m) + (n + k) = i * (n + m) + k + n by ring]
        rfl

/-- **C55, opt_val_hes** (partial: it is true when `y` has as many elements as `x`; the gradient alone also when `y` has
fewer elements.  For the other sizes see `optVal_outside` and `optVal_assert`.)  For all functions `S_k` that are two times
continuously differentiable, all recordings of them and all differentiable solutions `Y` of `∂_y F[x, Y(x)] = 0`: jac is
the gradient and hes is the Hessian of `V(x) = F[x, Y(x)]`, and the result is the sign of the determinant of `∂_yy F`. -/
theorem optVal_ok_partial (hmn : m ≤ n) (hS : ∀ k < ell, ContDiffAt ℝ 2 (S k) (x, y))
    (hY : IsSol (fun w => ∑ k ∈ Finset.range ell, S k w) x y Y)
    (hsx : ∀ k < ell, Records (sx k) x fun x' => S k (x', y))
    (hsxy : ∀ k < ell, Records (sxy k) (Fin.append x y) fun w => S k (split n m w))
    (J J' : ℕ → Junk) (M : Mem) (jacW hesW : Bool) (jac hes : ℕ → ℝ) (hw : hesW = true → n = m) :
    ∃ sd jac' hes', optVal ell sx sxy J J' M x y jacW hesW jac hes = some (sd, jac', hes') ∧
      (jacW = true → IsGrad (fun x' => ∑ k ∈ Finset.range ell, S k (x', Y x')) x jac') ∧
      (hesW = true →
        let d := (Fyy (fun w => ∑ k ∈ Finset.range ell, S k w) x y).det
        (d = 0 → sd = 0) ∧
        (d ≠ 0 → (sd = 1 ∨ sd = -1) ∧ d = sd * |d| ∧
          IsHess (fun x' => ∑ k ∈ Finset.range ell, S k (x', Y x')) x hes')) := by
  unfold optVal
  by_cases hh : hesW = true
  · have e := hw hh
    exact optValWith_ok hmn (by rw [e]) hS hY hsx hsxy J J' M jacW hesW jac hes
  · have hh : hesW = false := by simpa using hh
    subst hh
    have := optValWith_ok hmn (fyy := m * m) rfl hS hY hsx hsxy J J' M jacW false jac hes
    have e : optValWith n (n * m) ell sx sxy J J' M x y jacW false jac hes
        = optValWith n (m * m) ell sx sxy J J' M x y jacW false jac hes := by
      unfold optValWith; simp
    rw [e]; exact this

end CppAD.OptVal
