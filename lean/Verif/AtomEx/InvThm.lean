import Verif.AtomEx.InvFwd

/-! # C62: the atomic matrix inverse -/

open scoped ContDiff Topology
open PowerSeries Filter

namespace CppAD.AtomEx

variable {n : ℕ}

/-- adding `h * t ^ k` to element `(a,b)` of a curve of matrices -/
noncomputable def perturb (F : ℝ → Mat n) (k : ℕ) (a b : Fin n) (h t : ℝ) : Mat n :=
  F t + Matrix.single a b (h * t ^ k)

theorem perturb_apply (F : ℝ → Mat n) (k : ℕ) (a b : Fin n) (h t : ℝ) (i j : Fin n) :
    perturb F k a b h t i j = F t i j + (if a = i ∧ b = j then h * t ^ k else 0) := by
  unfold perturb
  rw [Matrix.add_apply, Matrix.single_apply]

theorem perturb_sm {F : ℝ → Mat n} (hF : SmM F) (k : ℕ) (a b : Fin n) (h : ℝ) : SmM (perturb F k a b h) := by
  intro i j
  simp only [perturb_apply]
  have hm : Sm (fun t : ℝ => h * t ^ k) := by unfold Sm; fun_prop
  split_ifs
  · exact ContDiffAt.add (hF i j) hm
  · exact ContDiffAt.add (hF i j) contDiffAt_const

/-- direction `E` in the coefficients of order `k` -/
def dirM (k : ℕ) (E : Mat n) (l : ℕ) : Mat n := if l = k then E else 0

theorem tcM_perturb {F : ℝ → Mat n} (hF : SmM F) (k : ℕ) (a b : Fin n) (h : ℝ) (l : ℕ) :
    tcM (perturb F k a b h) l = tcM F l + h • dirM k (Matrix.single a b 1) l := by
  ext i j
  simp only [tcM, Matrix.of_apply, perturb_apply, Matrix.add_apply, Matrix.smul_apply, smul_eq_mul]
  by_cases e : a = i ∧ b = j
  · simp only [if_pos e]
    rw [tc_eq, T_bump (hF i j) h k, map_add, coeff_T, coeff_C_mul, coeff_X_pow]
    unfold dirM
    by_cases el : l = k
    · rw [if_pos el, if_pos el, Matrix.single_apply, if_pos e]
    · rw [if_neg el, if_neg el]; simp
  · simp only [if_neg e, add_zero]
    unfold dirM
    split_ifs
    · rw [Matrix.single_apply, if_neg e]; simp
    · simp

theorem mderiv_perturb {F : ℝ → Mat n} (hF : SmM F) (k : ℕ) (a b : Fin n) (l : ℕ) :
    MDeriv (fun h => tcM (perturb F k a b h) l) (dirM k (Matrix.single a b 1) l) := by
  intro i j
  simp only [tcM_perturb hF, Matrix.add_apply, Matrix.smul_apply, smul_eq_mul]
  simpa using ((hasDerivAt_id' (0 : ℝ)).mul_const (dirM k (Matrix.single a b 1) l i j)).const_add (tcM F l i j)

theorem perturb_zero (F : ℝ → Mat n) (k : ℕ) (a b : Fin n) : perturb F k a b 0 = F := by
  ext t i j
  rw [perturb_apply]
  simp

/-- the matrix at zero remains invertible -/
theorem perturb_det {F : ℝ → Mat n} (hd : (F 0).det ≠ 0) (k : ℕ) (a b : Fin n) :
    ∀ᶠ h in 𝓝 (0 : ℝ), (perturb F k a b h 0).det ≠ 0 := by
  refine det_eventually (E := ℝ) (F := fun h => perturb F k a b h 0) (fun i j => ?_) (by rw [perturb_zero]; exact hd)
  simp only [perturb_apply]
  split_ifs
  · fun_prop
  · fun_prop

/-- the coefficients of the inverse can be differentiated with respect to the coefficients of the matrix, and the derivative
of the identities that define them holds -/
theorem inv_deriv {F : ℝ → Mat n} (hF : SmM F) (hd : (F 0).det ≠ 0) (k : ℕ) (a b : Fin n) :
    ∃ D : ℕ → Mat n, (∀ l, MDeriv (fun h => tcM (fun t => (perturb F k a b h t)⁻¹) l) (D l)) ∧
      ∀ l, ∑ ell ∈ Finset.range (l + 1), (dirM k (Matrix.single a b 1) ell * tcM (fun t => (F t)⁻¹) (l - ell)
        + tcM F ell * D (l - ell)) = 0 := by
  have hdet := perturb_det hd k a b
  have hS := fun h => perturb_sm hF k a b h
  have hA := mderiv_perturb hF k a b
  -- the derivatives exist
  have hex : ∀ l, ∃ D : Mat n, MDeriv (fun h => tcM (fun t => (perturb F k a b h t)⁻¹) l) D := by
    intro l
    induction l using Nat.strong_induction_on with
    | _ l ih =>
      rcases l with _ | l
      · refine ⟨Matrix.of fun i j => deriv (fun h => (perturb F k a b h 0)⁻¹ i j) 0, fun i j => ?_⟩
        simp only [tcM_zero, Matrix.of_apply]
        have hs := inv_smooth (E := ℝ) (F := fun h => perturb F k a b h 0) (e := 0) (fun i j => by
          simp only [perturb_apply]
          split_ifs
          · fun_prop
          · fun_prop) (by rw [perturb_zero]; exact hd) i j
        exact (hs.differentiableAt (by simp)).hasDerivAt
      · choose! D hD using ih
        have h1 : MDeriv (fun h => tcM (fun t => (perturb F k a b h t)⁻¹) 0
            * - ∑ ell ∈ Finset.range (l + 1), tcM (perturb F k a b h) (ell + 1)
              * tcM (fun t => (perturb F k a b h t)⁻¹) (l + 1 - (ell + 1))) _ :=
          (hD 0 (by omega)).mul (MDeriv.sum (Finset.range (l + 1)) (fun ell hell =>
            (hA (ell + 1)).mul (hD (l + 1 - (ell + 1)) (by omega)))).neg
        refine ⟨_, h1.congr ?_⟩
        filter_upwards [hdet] with h hh
        have hs := tcM_inv_sum (hS h) hh (l + 1)
        rw [if_neg (by omega), Finset.sum_range_succ', Nat.sub_zero] at hs
        rw [eq_neg_of_add_eq_zero_left hs, neg_neg, ← Matrix.mul_assoc, tcM_zero, tcM_zero,
          Matrix.nonsing_inv_mul _ (isUnit_iff_ne_zero.2 hh), Matrix.one_mul]
  choose D hD using hex
  refine ⟨D, hD, fun l => ?_⟩
  have h1 := MDeriv.sum (Finset.range (l + 1)) (fun ell _ => (hA ell).mul (hD (l - ell)))
  have h2 : MDeriv (fun h => ∑ ell ∈ Finset.range (l + 1), tcM (perturb F k a b h) ell
      * tcM (fun t => (perturb F k a b h t)⁻¹) (l - ell)) 0 := by
    refine (MDeriv.const (if l = 0 then 1 else 0)).congr ?_
    filter_upwards [hdet] with h hh
    exact tcM_inv_sum (hS h) hh l
  have h3 := h1.unique h2
  simp only [perturb_zero] at h3
  exact h3

theorem dirM_inner (q : ℕ) (G : ℕ → Mat n) {k : ℕ} (hk : k ≤ q) (a b : Fin n) :
    ∑ l ∈ Finset.range (q + 1), inner' (G l) (dirM k (Matrix.single a b 1) l) = G k a b := by
  rw [Finset.sum_eq_single k]
  · rw [dirM, if_pos rfl, inner'_single]
  · intro l _ hl; rw [dirM, if_neg hl, inner'_zero]
  · intro h; exact absurd (Finset.mem_range.2 (by omega)) h

/-- the recursion of `reverse` computes the partial derivatives -/
theorem invRev_deriv {F : ℝ → Mat n} (hF : SmM F) (hd : (F 0).det ≠ 0) (q : ℕ) (A R P : ℕ → Mat n)
    (hA : ∀ k ≤ q, A k = tcM F k) (hR : ∀ k ≤ q, R k = tcM (fun t => (F t)⁻¹) k) {k : ℕ} (hk : k ≤ q) (a b : Fin n) :
    HasDerivAt (fun h => ∑ l ∈ Finset.range (q + 1), inner' (P l) (tcM (fun t => (perturb F k a b h t)⁻¹) l))
      (invRev (q + 1) A R P k a b) 0 := by
  obtain ⟨D, hD, hsum⟩ := inv_deriv hF hd k a b
  have h1 := invRev_ok q A R P (dirM k (Matrix.single a b 1)) D
    (by rw [hA 0 (by omega), hR 0 (by omega), tcM_zero, tcM_zero, Matrix.nonsing_inv_mul _ (isUnit_iff_ne_zero.2 hd)])
    (fun l hl => by
      rw [← tcM_inv_sum hF hd l]
      refine Finset.sum_congr rfl fun ell hell => ?_
      rw [Finset.mem_range] at hell
      rw [hA _ (by omega), hR _ (by omega)])
    (fun l hl => by
      rw [← hsum l]
      refine Finset.sum_congr rfl fun ell hell => ?_
      rw [Finset.mem_range] at hell
      rw [hA _ (by omega), hR _ (by omega)])
  rw [dirM_inner q _ hk] at h1
  rw [h1]
  refine HasDerivAt.fun_sum fun l _ => ?_
  unfold inner'
  exact HasDerivAt.fun_sum fun i _ => HasDerivAt.fun_sum fun j _ => (hD l i j).const_mul _

end CppAD.AtomEx
