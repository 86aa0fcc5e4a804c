import Verif.AtomEx.CholThm
import Verif.AtomEx.InvThm

/-! # The atomic Cholesky factor: derivatives of the coefficients -/

open scoped ContDiff Topology
open PowerSeries Filter

namespace CppAD.AtomEx

variable {n : ℕ}

/-- adding `h * t ^ k` times a matrix to a curve -/
noncomputable def perturbG (F : ℝ → Mat n) (k : ℕ) (E : Mat n) (h t : ℝ) : Mat n := F t + (h * t ^ k) • E

theorem perturbG_apply (F : ℝ → Mat n) (k : ℕ) (E : Mat n) (h t : ℝ) (i j : Fin n) :
    perturbG F k E h t i j = F t i j + (h * E i j) * t ^ k := by
  unfold perturbG
  rw [Matrix.add_apply, Matrix.smul_apply, smul_eq_mul]
  ring

theorem perturbG_sm {F : ℝ → Mat n} (hF : SmM F) (k : ℕ) (E : Mat n) (h : ℝ) : SmM (perturbG F k E h) := by
  intro i j
  simp only [perturbG_apply]
  have hm : Sm (fun t : ℝ => h * E i j * t ^ k) := by unfold Sm; fun_prop
  exact ContDiffAt.add (hF i j) hm

theorem tcM_perturbG {F : ℝ → Mat n} (hF : SmM F) (k : ℕ) (E : Mat n) (h : ℝ) (l : ℕ) :
    tcM (perturbG F k E h) l = tcM F l + h • dirM k E l := by
  ext i j
  simp only [tcM, Matrix.of_apply, perturbG_apply, Matrix.add_apply, Matrix.smul_apply, smul_eq_mul]
  rw [tc_eq, T_bump (hF i j) (h * E i j) k, map_add, coeff_T, coeff_C_mul, coeff_X_pow]
  unfold dirM
  by_cases el : l = k
  · rw [if_pos el, if_pos el, mul_one]
  · rw [if_neg el, if_neg el]; simp

theorem mderiv_perturbG {F : ℝ → Mat n} (hF : SmM F) (k : ℕ) (E : Mat n) (l : ℕ) :
    MDeriv (fun h => tcM (perturbG F k E h) l) (dirM k E l) := by
  intro i j
  simp only [tcM_perturbG hF, Matrix.add_apply, Matrix.smul_apply, smul_eq_mul]
  simpa using ((hasDerivAt_id' (0 : ℝ)).mul_const (dirM k E l i j)).const_add (tcM F l i j)

theorem perturbG_zero (F : ℝ → Mat n) (k : ℕ) (E : Mat n) : perturbG F k E 0 = F := by
  ext t i j
  rw [perturbG_apply]
  simp

theorem perturbG_symm {F : ℝ → Mat n} (hF : ∀ t, (F t).transpose = F t) (k : ℕ) {E : Mat n} (hE : E.transpose = E) (h t : ℝ) :
    (perturbG F k E h t).transpose = perturbG F k E h t := by
  unfold perturbG
  rw [Matrix.transpose_add, Matrix.transpose_smul, hF, hE]

theorem perturbG_smooth (F : ℝ → Mat n) (k : ℕ) (E : Mat n) (i j : Fin n) :
    ContDiffAt ℝ ∞ (fun h => perturbG F k E h 0 i j) 0 := by
  simp only [perturbG_apply]
  fun_prop

/-- the matrix at zero keeps its factor -/
theorem SymCurve.perturb {F : ℝ → Mat n} (hF : SymCurve F) (k : ℕ) {E : Mat n} (hE : E.transpose = E) :
    ∀ᶠ h in 𝓝 (0 : ℝ), SymCurve (perturbG F k E h) := by
  filter_upwards [chol_eventually (E := ℝ) (F := fun h => perturbG F k E h 0) (e := 0) (perturbG_smooth F k E)
    (fun h => perturbG_symm hF.symm k hE h 0) (by rw [perturbG_zero]; exact hF.factor)] with h hh
  exact ⟨perturbG_sm hF.sm k E h, perturbG_symm hF.symm k hE h, ⟨_, hh.1⟩⟩

theorem MDeriv.lowHalf {F : ℝ → Mat n} {D : Mat n} (h : MDeriv F D) :
    MDeriv (fun x => AtomEx.lowHalf (F x)) (AtomEx.lowHalf D) := by
  intro i j
  simp only [lowHalf_apply]
  split_ifs
  · exact (h i j).div_const 2
  · exact h i j
  · exact hasDerivAt_const _ _

/-- the coefficients of the factor can be differentiated with respect to the coefficients of the matrix, and the derivative
of the identities that define them holds -/
theorem chol_deriv {F : ℝ → Mat n} (hF : SymCurve F) (k : ℕ) {E : Mat n} (hE : E.transpose = E) :
    ∃ D : ℕ → Mat n, (∀ l, MDeriv (fun h => tcM (fun t => chol (perturbG F k E h t)) l) (D l)) ∧ (∀ l, Lower (D l)) ∧
      ∀ l, ∑ ell ∈ Finset.range (l + 1), (D ell * (tcM (fun t => chol (F t)) (l - ell)).transpose
        + tcM (fun t => chol (F t)) ell * (D (l - ell)).transpose) = dirM k E l := by
  have hev := hF.perturb k hE
  have hA := mderiv_perturbG hF.sm k E
  have hs0 : ∀ i j, ContDiffAt ℝ ∞ (fun h => chol (perturbG F k E h 0) i j) 0 := chol_smooth (perturbG_smooth F k E)
    (fun h => perturbG_symm hF.symm k hE h 0) (by rw [perturbG_zero]; exact hF.factor)
  have hsm : ∀ {G : ℝ → Mat n}, (∀ i j, ContDiffAt ℝ ∞ (fun h => G h i j) 0) → ∃ D, MDeriv G D := fun {G} h =>
    ⟨Matrix.of fun i j => deriv (fun x => G x i j) 0, fun i j => ((h i j).differentiableAt (by simp)).hasDerivAt⟩
  have hz : ∀ h : ℝ, tcM (fun t => chol (perturbG F k E h t)) 0 = chol (perturbG F k E h 0) := fun h => tcM_zero _
  have hd0 : (chol (perturbG F k E 0 0)).det ≠ 0 := by rw [perturbG_zero]; exact (chol_ok hF.factor).det
  -- the derivatives exist
  have hex : ∀ l, ∃ D : Mat n, MDeriv (fun h => tcM (fun t => chol (perturbG F k E h t)) l) D := by
    intro l
    induction l using Nat.strong_induction_on with
    | _ l ih =>
      rcases l with _ | l
      · simp only [hz]
        exact hsm hs0
      · choose! D hD using ih
        obtain ⟨D1, hD1⟩ := hsm (inv_smooth (E := ℝ) (F := fun h => chol (perturbG F k E h 0)) hs0 hd0)
        have hD2 : MDeriv (fun h => ((chol (perturbG F k E h 0)).transpose)⁻¹) D1.transpose := by
          have := hD1.transpose
          simp only [Matrix.transpose_nonsing_inv] at this
          exact this
        have hN := (hA (l + 1)).sub (MDeriv.sum (Finset.range l)
          (F := fun ell h => tcM (fun t => chol (perturbG F k E h t)) (ell + 1)
            * (tcM (fun t => chol (perturbG F k E h t)) (l + 1 - (ell + 1))).transpose)
          (fun ell hell => (hD (ell + 1) (by rw [Finset.mem_range] at hell; omega)).mul
            (hD (l + 1 - (ell + 1)) (by omega)).transpose))
        have h1 := (hD 0 (by omega)).mul (((hD1.mul hN).mul hD2).lowHalf)
        refine ⟨_, h1.congr ?_⟩
        filter_upwards [hev] with h hh
        have hc := chol_ok hh.factor
        have hs := hh.tc_sum (l + 1)
        rw [sum_ends, Nat.sub_zero, Nat.sub_self, tcM_zero (fun t => chol (perturbG F k E h t))] at hs
        rw [tcM_zero (fun t => chol (perturbG F k E h t))]
        refine chol_step hc.lower hc.det (hh.tc_lower (l + 1)) ?_
        rw [← hs]
        abel
  choose D hD using hex
  refine ⟨D, hD, fun l i j hij => ?_, fun l => ?_⟩
  · refine (hD l i j).unique ((hasDerivAt_const (0 : ℝ) (0 : ℝ)).congr_of_eventuallyEq ?_)
    filter_upwards [hev] with h hh
    exact hh.tc_lower l i j hij
  · have h1 := MDeriv.sum (Finset.range (l + 1)) (fun ell _ => (hD ell).mul (hD (l - ell)).transpose)
    have h2 : MDeriv (fun h => ∑ ell ∈ Finset.range (l + 1), tcM (fun t => chol (perturbG F k E h t)) ell
        * (tcM (fun t => chol (perturbG F k E h t)) (l - ell)).transpose) (dirM k E l) := by
      refine (hA l).congr ?_
      filter_upwards [hev] with h hh
      exact hh.tc_sum l
    have h3 := h1.unique h2
    simp only [perturbG_zero] at h3
    exact h3

/-- direction for element `(a,b)` of the lower triangle of a symmetric matrix -/
noncomputable def symE (a b : Fin n) : Mat n :=
  if a = b then Matrix.single a a 1 else Matrix.single a b 1 + Matrix.single b a 1

theorem symE_symm (a b : Fin n) : (symE a b).transpose = symE a b := by
  unfold symE
  split_ifs
  · rw [Matrix.transpose_single]
  · rw [Matrix.transpose_add, Matrix.transpose_single, Matrix.transpose_single, add_comm]

theorem cholRevStep_symm {R : ℕ → Mat n} {k : ℕ} {s : (ℕ → Mat n) × (ℕ → Mat n)} (h : ∀ l, (s.1 l).transpose = s.1 l) :
    ∀ l, ((cholRevStep R k s).1 l).transpose = (cholRevStep R k s).1 l := by
  intro l
  unfold cholRevStep
  dsimp only
  by_cases e : l = k
  · subst e
    rw [Function.update_self, Matrix.transpose_add, h, Matrix.transpose_smul, Matrix.transpose_add, Matrix.transpose_transpose]
    congr 2
    rw [add_comm]
  · rw [Function.update_of_ne e, h]

/-- `r_arg_` is symmetric -/
theorem cholRev_symm (no : ℕ) (R P : ℕ → Mat n) (l : ℕ) : (cholRev no R P l).transpose = cholRev no R P l := by
  have key := forDown_ind (n := no - 1) (s := ((fun _ => 0 : ℕ → Mat n), P)) (f := cholRevStep R)
    (P := fun _ s => ∀ l, (s.1 l).transpose = s.1 l) (fun l => Matrix.transpose_zero) (fun j s _ h => cholRevStep_symm h)
  unfold cholRev
  generalize forDown (no - 1) ((fun _ => 0 : ℕ → Mat n), P) (cholRevStep R) = s at key ⊢
  by_cases e : l = 0
  · subst e
    rw [Function.update_self, Matrix.transpose_add, key, Matrix.transpose_smul, Matrix.transpose_add,
      Matrix.transpose_transpose]
    congr 2
    rw [add_comm]
  · rw [Function.update_of_ne e, key]

/-- the recursion of `reverse` computes the partial derivatives -/
theorem cholRev_deriv {F : ℝ → Mat n} (hF : SymCurve F) (q : ℕ) (R P : ℕ → Mat n)
    (hR : ∀ k ≤ q, R k = tcM (fun t => chol (F t)) k) {k : ℕ} (hk : k ≤ q) (a b : Fin n) :
    HasDerivAt (fun h => ∑ l ∈ Finset.range (q + 1), inner' (P l) (tcM (fun t => chol (perturbG F k (symE a b) h t)) l))
      (if a = b then cholRev (q + 1) R P k a a else 2 * cholRev (q + 1) R P k a b) 0 := by
  obtain ⟨D, hD, hDl, hsum⟩ := chol_deriv hF k (symE_symm a b)
  have e0 : R 0 = chol (F 0) := by rw [hR 0 (by omega), tcM_zero]
  have h0 := chol_ok hF.factor
  have h1 := cholRev_ok q R P (dirM k (symE a b)) D (by rw [e0]; exact h0.lower) (by rw [e0]; exact h0.det) hDl
    (fun l hl => by
      rw [← hsum l]
      refine Finset.sum_congr rfl fun ell hell => ?_
      rw [Finset.mem_range] at hell
      rw [hR _ (by omega), hR _ (by omega)])
  have h2 : ∑ l ∈ Finset.range (q + 1), inner' (cholRev (q + 1) R P l) (dirM k (symE a b) l)
      = if a = b then cholRev (q + 1) R P k a a else 2 * cholRev (q + 1) R P k a b := by
    rw [Finset.sum_eq_single k]
    · rw [dirM, if_pos rfl]
      unfold symE
      split_ifs with e
      · rw [inner'_single]
      · rw [inner'_add, inner'_single, inner'_single]
        have := congrFun (congrFun (cholRev_symm (q + 1) R P k) a) b
        rw [Matrix.transpose_apply] at this
        rw [this]; ring
    · intro l _ hl; rw [dirM, if_neg hl, inner'_zero]
    · intro h; exact absurd (Finset.mem_range.2 (by omega)) h
  rw [← h2, h1]
  refine HasDerivAt.fun_sum fun l _ => ?_
  unfold inner'
  exact HasDerivAt.fun_sum fun i _ => HasDerivAt.fun_sum fun j _ => (hD l i j).const_mul _

end CppAD.AtomEx
