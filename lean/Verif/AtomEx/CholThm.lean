import Verif.AtomEx.CholModel

/-! # The atomic Cholesky factor: the recursions compute Taylor coefficients and their derivatives -/

open scoped ContDiff Topology
open PowerSeries Filter

namespace CppAD.AtomEx

variable {n : ℕ}

theorem lowView_eq {M : Mat n} (h : Lower M) : lowView M = M := by
  ext i j
  unfold lowView
  rw [Matrix.of_apply]
  split_ifs with hij
  · rfl
  · exact (h i j (not_le.1 hij)).symm

theorem lowView_lower (M : Mat n) : Lower (lowView M) := by
  intro i j hij
  unfold lowView
  rw [Matrix.of_apply, if_neg (not_le.2 hij)]

/-- the lower triangle with half of the diagonal -/
noncomputable def lowHalf (M : Mat n) : Mat n := lowView (halfDiag M)

theorem lowHalf_apply (M : Mat n) (i j : Fin n) :
    lowHalf M i j = if i = j then M i j / 2 else if j ≤ i then M i j else 0 := by
  unfold lowHalf lowView halfDiag
  rw [Matrix.of_apply, Matrix.of_apply]
  by_cases e : i = j
  · rw [if_pos e, if_pos e, if_pos e.ge]
  · rw [if_neg e, if_neg e]

/-- `lowHalf` recovers a lower triangular matrix from the sum with its transpose -/
theorem lowHalf_sum {U : Mat n} (h : Lower U) : lowHalf (U.transpose + U) = U := by
  ext i j
  rw [lowHalf_apply, Matrix.add_apply, Matrix.transpose_apply]
  by_cases e : i = j
  · subst e
    rw [if_pos rfl]; ring
  · rw [if_neg e]
    rcases lt_or_gt_of_ne e with hlt | hgt
    · rw [if_neg (not_le.2 hlt)]
      exact (h i j hlt).symm
    · rw [if_pos hgt.le, h j i hgt, zero_add]

theorem inner'_lowHalf (P M : Mat n) : inner' P (lowHalf M) = inner' (lowHalf P) M := by
  unfold inner'
  refine Finset.sum_congr rfl fun i _ => Finset.sum_congr rfl fun j _ => ?_
  rw [lowHalf_apply, lowHalf_apply]
  split_ifs <;> ring

theorem inner'_lowView {P D : Mat n} (hD : Lower D) : inner' (lowView P) D = inner' P D := by
  unfold inner'
  refine Finset.sum_congr rfl fun i _ => Finset.sum_congr rfl fun j _ => ?_
  unfold lowView
  rw [Matrix.of_apply]
  split_ifs with h
  · rfl
  · rw [hD i j (not_le.1 h)]; ring

/-- the solution of the linear equation for one coefficient -/
theorem chol_step {L0 K N : Mat n} (h0 : Lower L0) (hd : L0.det ≠ 0) (hK : Lower K)
    (he : L0 * K.transpose + K * L0.transpose = N) :
    K = L0 * lowHalf (L0⁻¹ * N * (L0.transpose)⁻¹) := by
  have hu : IsUnit L0.det := isUnit_iff_ne_zero.2 hd
  have hut : IsUnit (L0.transpose).det := by rw [Matrix.det_transpose]; exact hu
  have hU : Lower (L0⁻¹ * K) := (h0.inv hd).mul hK
  have e : L0⁻¹ * N * (L0.transpose)⁻¹ = (L0⁻¹ * K).transpose + L0⁻¹ * K := by
    rw [← he, Matrix.mul_add, Matrix.add_mul, Matrix.transpose_mul, Matrix.transpose_nonsing_inv]
    congr 1
    · rw [← Matrix.mul_assoc, Matrix.nonsing_inv_mul _ hu, Matrix.one_mul]
    · rw [← Matrix.mul_assoc, Matrix.mul_assoc (L0⁻¹ * K), Matrix.mul_nonsing_inv _ hut, Matrix.mul_one]
  rw [e, lowHalf_sum hU, ← Matrix.mul_assoc, Matrix.mul_nonsing_inv _ hu, Matrix.one_mul]

/-- a curve of symmetric matrices that has a Cholesky factor at zero -/
structure SymCurve (F : ℝ → Mat n) : Prop where
  sm : SmM F
  symm : ∀ t, (F t).transpose = F t
  factor : ∃ L, IsChol (F 0) L

theorem SymCurve.chol_sm {F : ℝ → Mat n} (hF : SymCurve F) : SmM (fun t => chol (F t)) :=
  fun i j => chol_smooth hF.sm hF.symm hF.factor i j

theorem tcM_lower {G : ℝ → Mat n} (h : ∀ᶠ t in 𝓝 0, Lower (G t)) (k : ℕ) : Lower (tcM G k) := by
  intro i j hij
  simp only [tcM, Matrix.of_apply]
  have : T (fun t => G t i j) = T (fun _ => (0 : ℝ)) := T_congr (h.mono fun t ht => ht i j hij)
  rw [tc_eq, this, T_const]
  simp

theorem SymCurve.tc_lower {F : ℝ → Mat n} (hF : SymCurve F) (k : ℕ) : Lower (tcM (fun t => chol (F t)) k) :=
  tcM_lower ((chol_eventually hF.sm hF.symm hF.factor).mono fun _ ht => ht.1.lower) k

/-- the coefficients of the product of the factor and its transpose -/
theorem SymCurve.tc_sum {F : ℝ → Mat n} (hF : SymCurve F) (k : ℕ) :
    ∑ ell ∈ Finset.range (k + 1), tcM (fun t => chol (F t)) ell * (tcM (fun t => chol (F t)) (k - ell)).transpose
      = tcM F k := by
  have h := tcM_mul hF.chol_sm hF.chol_sm.transpose k
  rw [← tcM_congr (F := fun t => chol (F t) * (chol (F t)).transpose) (G := F)
    ((chol_eventually hF.sm hF.symm hF.factor).mono fun _ ht => ht.1.prod) k, h]
  rfl

/-- the terms of order zero and `k` of such a sum -/
theorem sum_ends (a : ℕ → Mat n) (k : ℕ) :
    ∑ ell ∈ Finset.range (k + 1 + 1), a ell = a 0 + a (k + 1) + ∑ ell ∈ Finset.range k, a (ell + 1) := by
  rw [Finset.sum_range_succ, Finset.sum_range_succ']
  abel

/-- the sum in the loop over `ell` -/
theorem chol_sum_val (A : Mat n) (R : ℕ → Mat n) (k : ℕ) :
    forRange 1 (k + 1) A (fun ell sum => sum - R ell * (R (k + 1 - ell)).transpose)
      = A - ∑ ell ∈ Finset.range k, R (ell + 1) * (R (k + 1 - (ell + 1))).transpose := by
  refine forRange_ind (lo := 1) (hi := k + 1) (by omega)
    (P := fun m s => s = A - ∑ ell ∈ Finset.range (m - 1), R (ell + 1) * (R (k + 1 - (ell + 1))).transpose) (by simp) ?_
  intro m s hm _ hs
  obtain ⟨m, rfl⟩ : ∃ l, m = l + 1 := ⟨m - 1, by omega⟩
  rw [Nat.add_sub_cancel, Finset.sum_range_succ, hs, Nat.add_sub_cancel]
  abel

/-- the recursion of `forward` is correct -/
theorem cholFor_ok {F : ℝ → Mat n} (hF : SymCurve F) (q : ℕ) (A R : ℕ → Mat n)
    (hA : ∀ k ≤ q, A k = tcM F k) : ∀ k ≤ q, cholFor (q + 1) A R k = tcM (fun t => chol (F t)) k := by
  have h0 := chol_ok hF.factor
  have key := forRange_ind (lo := 1) (hi := q + 1) (by omega) (s := Function.update R 0 (chol (A 0)))
    (f := fun k R => Function.update R k (R 0 * lowView (halfDiag ((lowView (R 0))⁻¹
      * forRange 1 k (A k) (fun ell sum => sum - R ell * (R (k - ell)).transpose) * ((lowView (R 0)).transpose)⁻¹))))
    (P := fun m R => ∀ k < m, R k = tcM (fun t => chol (F t)) k)
    (by
      intro k hk
      obtain rfl : k = 0 := by omega
      rw [Function.update_self, hA 0 (by omega), tcM_zero, tcM_zero]) (by
      intro k R hk1 hkq ih j hj
      by_cases e : j = k
      · subst e
        obtain ⟨k, rfl⟩ : ∃ l, j = l + 1 := ⟨j - 1, by omega⟩
        rw [Function.update_self, chol_sum_val, hA _ (by omega)]
        have eR0 : R 0 = chol (F 0) := by rw [ih 0 (by omega), tcM_zero]
        have e1 : ∑ ell ∈ Finset.range k, R (ell + 1) * (R (k + 1 - (ell + 1))).transpose
            = ∑ ell ∈ Finset.range k, tcM (fun t => chol (F t)) (ell + 1)
              * (tcM (fun t => chol (F t)) (k + 1 - (ell + 1))).transpose := by
          refine Finset.sum_congr rfl fun ell hell => ?_
          rw [Finset.mem_range] at hell
          rw [ih _ (by omega), ih _ (by omega)]
        rw [e1, eR0, lowView_eq h0.lower]
        refine (chol_step h0.lower h0.det (hF.tc_lower (k + 1)) ?_).symm
        have hs := hF.tc_sum (k + 1)
        rw [sum_ends, Nat.sub_zero, Nat.sub_self, tcM_zero] at hs
        rw [← hs]
        abel
      · rw [Function.update_of_ne e]
        exact ih j (by omega))
  intro k hk
  exact key k (by omega)

/-! ### Reverse -/

/-- the inner product of a symmetric matrix with a matrix and its transpose -/
theorem inner'_symm {B M : Mat n} (h : B.transpose = B) : inner' B (M + M.transpose) = 2 * inner' B M := by
  rw [inner'_add, ← inner'_transpose, h]; ring

/-- what is added to `r_result_` in the loop over `ell` -/
theorem cholRev_loop (k : ℕ) (R rR D : ℕ → Mat n) (B : Mat n) (hD : ∀ l, Lower (D l)) :
    ∑ l ∈ Finset.range (k + 1), inner' (forRange 1 (k + 1) rR (fun ell rR =>
        Function.update rR ell (rR ell + lowView ((2 : ℝ) • B * R (k + 1 - ell)))) l) (D l)
      = ∑ l ∈ Finset.range (k + 1), inner' (rR l) (D l)
        + ∑ ell ∈ Finset.range k, 2 * inner' B (D (ell + 1) * (R (k + 1 - (ell + 1))).transpose) := by
  refine forRange_ind (lo := 1) (hi := k + 1) (by omega)
    (P := fun m (r : ℕ → Mat n) => ∑ l ∈ Finset.range (k + 1), inner' (r l) (D l)
      = ∑ l ∈ Finset.range (k + 1), inner' (rR l) (D l)
        + ∑ ell ∈ Finset.range (m - 1), 2 * inner' B (D (ell + 1) * (R (k + 1 - (ell + 1))).transpose)) (by simp) ?_
  intro m r hm hm' hs
  obtain ⟨m, rfl⟩ : ∃ l, m = l + 1 := ⟨m - 1, by omega⟩
  rw [Nat.add_sub_cancel] at hs
  rw [sum_update_inner k _ _ (by omega), Nat.add_sub_cancel,
    Finset.sum_range_succ (fun ell => 2 * inner' B (D (ell + 1) * (R (k + 1 - (ell + 1))).transpose)), hs,
    inner'_lowView (hD _), Matrix.smul_mul, inner'_smul_left, inner'_mul_right, Matrix.transpose_transpose]
  ring

/-- the solution of the linear equation for one derivative, and its inner product -/
theorem chol_inner {L0 K N P : Mat n} (h0 : Lower L0) (hd : L0.det ≠ 0) (hK : Lower K)
    (he : L0 * K.transpose + K * L0.transpose = N) (M : Mat n)
    (hM : M = (L0.transpose)⁻¹ * lowHalf (L0.transpose * P) * L0⁻¹ ∨
      M = ((L0.transpose)⁻¹ * lowHalf (L0.transpose * P) * L0⁻¹).transpose) :
    inner' P K = inner' ((1 / 2 : ℝ) • (M + M.transpose)) N := by
  have hN : N.transpose = N := by
    rw [← he, Matrix.transpose_add, Matrix.transpose_mul, Matrix.transpose_mul, Matrix.transpose_transpose,
      Matrix.transpose_transpose, add_comm]
  have e : inner' P K = inner' ((L0.transpose)⁻¹ * lowHalf (L0.transpose * P) * L0⁻¹) N := by
    conv_lhs => rw [chol_step h0 hd hK he]
    rw [inner'_mul_left, inner'_lowHalf, inner'_mul_right, inner'_mul_left, Matrix.transpose_nonsing_inv,
      Matrix.transpose_nonsing_inv, Matrix.transpose_transpose, Matrix.mul_assoc]
  have e' : inner' P K = inner' M N := by
    rcases hM with h | h
    · rw [h, e]
    · rw [h, inner'_transpose, hN, e]
  rw [inner'_smul_left, inner'_add_left, inner'_transpose, hN, e']
  ring

/-- one step of `reverse` -/
theorem cholRevStep_ok (q : ℕ) (R dA D : ℕ → Mat n) (h0 : Lower (R 0)) (hd : (R 0).det ≠ 0) (hDl : ∀ l, Lower (D l))
    (k : ℕ) (hk : k + 1 ≤ q)
    (hD : ∑ ell ∈ Finset.range (k + 1 + 1), (D ell * (R (k + 1 - ell)).transpose + R ell * (D (k + 1 - ell)).transpose)
      = dA (k + 1)) (s : (ℕ → Mat n) × (ℕ → Mat n)) :
    lin2 q k dA D (cholRevStep R (k + 1) s) = lin2 q (k + 1) dA D s := by
  -- the equation for the derivative of this order
  have hsym : ∑ ell ∈ Finset.range k, R (ell + 1) * (D (k + 1 - (ell + 1))).transpose
      = ∑ ell ∈ Finset.range k, (D (ell + 1) * (R (k + 1 - (ell + 1))).transpose).transpose := by
    rw [← Finset.sum_range_reflect]
    refine Finset.sum_congr rfl fun ell hell => ?_
    rw [Finset.mem_range] at hell
    rw [Matrix.transpose_mul, Matrix.transpose_transpose]
    have e1 : k - 1 - ell + 1 = k + 1 - (ell + 1) := by omega
    have e2 : k + 1 - (k - 1 - ell + 1) = ell + 1 := by omega
    rw [e2, e1]
  have he : R 0 * (D (k + 1)).transpose + D (k + 1) * (R 0).transpose
      = dA (k + 1) - (D 0 * (R (k + 1)).transpose + (D 0 * (R (k + 1)).transpose).transpose)
        - ∑ ell ∈ Finset.range k, (D (ell + 1) * (R (k + 1 - (ell + 1))).transpose
          + (D (ell + 1) * (R (k + 1 - (ell + 1))).transpose).transpose) := by
    rw [← hD, sum_ends, Nat.sub_zero, Nat.sub_self, Finset.sum_add_distrib, Finset.sum_add_distrib, hsym,
      Matrix.transpose_mul (D 0), Matrix.transpose_transpose]
    abel
  unfold cholRevStep
  dsimp only
  rw [lowView_eq h0]
  have e0 := chol_inner (P := s.2 (k + 1)) h0 hd (hDl (k + 1)) he
    (((R 0).transpose)⁻¹ * (((R 0).transpose)⁻¹ * lowView (halfDiag ((R 0).transpose * s.2 (k + 1)))).transpose)
    (Or.inr (by
      rw [Matrix.transpose_mul (((R 0).transpose)⁻¹ * lowHalf _), Matrix.transpose_nonsing_inv]
      rfl))
  generalize ((R 0).transpose)⁻¹ * (((R 0).transpose)⁻¹ * lowView (halfDiag ((R 0).transpose * s.2 (k + 1)))).transpose
    = M at e0 ⊢
  have hB : ((1 / 2 : ℝ) • (M + M.transpose)).transpose = (1 / 2 : ℝ) • (M + M.transpose) := by
    rw [Matrix.transpose_smul, Matrix.transpose_add, Matrix.transpose_transpose, add_comm]
  generalize (1 / 2 : ℝ) • (M + M.transpose) = B at e0 hB ⊢
  unfold lin2
  dsimp only
  rw [cholRev_loop k R _ D _ hDl, sum_update_inner k _ _ (by omega), sum_update_inner q _ _ hk,
    Finset.sum_range_succ (fun l => inner' (s.2 l) (D l)) (k + 1), e0, inner'_sub, inner'_sub, inner'_symm hB, inner'_sum,
    inner'_lowView (hDl 0), Matrix.smul_mul, inner'_smul_left]
  have e1 : ∀ ell, inner' B (D (ell + 1) * (R (k + 1 - (ell + 1))).transpose
        + (D (ell + 1) * (R (k + 1 - (ell + 1))).transpose).transpose)
      = 2 * inner' B (D (ell + 1) * (R (k + 1 - (ell + 1))).transpose) := fun ell => inner'_symm hB
  simp only [e1]
  have e2 : ∀ X : Mat n, inner' ((-1 : ℝ) • B) X = - inner' B X := fun X => by rw [inner'_smul_left]; ring
  have e3 : inner' ((-1 : ℝ) • B * R (k + 1)) (D 0) = - inner' B (D 0 * (R (k + 1)).transpose) := by
    rw [Matrix.smul_mul, inner'_smul_left, inner'_mul_right, Matrix.transpose_transpose]
    ring
  simp only [e2]
  rw [e3]
  have e4 : ∑ ell ∈ Finset.range k, 2 * -inner' B (D (ell + 1) * (R (k + 1 - (ell + 1))).transpose)
      = - ∑ ell ∈ Finset.range k, 2 * inner' B (D (ell + 1) * (R (k + 1 - (ell + 1))).transpose) := by
    rw [← Finset.sum_neg_distrib]
    exact Finset.sum_congr rfl fun _ _ => by ring
  rw [e4]
  ring

/-- The matrices computed by `reverse` give the derivative of the weighted sum of coefficients in every direction. -/
theorem cholRev_ok (q : ℕ) (R P dA D : ℕ → Mat n) (h0 : Lower (R 0)) (hd : (R 0).det ≠ 0) (hDl : ∀ l, Lower (D l))
    (hD : ∀ k ≤ q, ∑ ell ∈ Finset.range (k + 1), (D ell * (R (k - ell)).transpose + R ell * (D (k - ell)).transpose)
      = dA k) :
    ∑ l ∈ Finset.range (q + 1), inner' (cholRev (q + 1) R P l) (dA l)
      = ∑ l ∈ Finset.range (q + 1), inner' (P l) (D l) := by
  have key := forDown_ind (n := q) (s := ((fun _ => 0 : ℕ → Mat n), P)) (f := cholRevStep R)
    (P := fun k s => lin2 q k dA D s = ∑ l ∈ Finset.range (q + 1), inner' (P l) (D l))
    (by unfold lin2; simp [inner'_zero_left]) (by
      intro k s hk ih
      rw [cholRevStep_ok q R dA D h0 hd hDl k hk (hD (k + 1) hk), ih])
  unfold cholRev
  rw [Nat.add_sub_cancel, lowView_eq h0, ← key]
  generalize forDown q ((fun _ => 0 : ℕ → Mat n), P) (cholRevStep R) = s
  rw [sum_update_inner q _ _ (by omega)]
  unfold lin2
  rw [Nat.zero_add, Finset.sum_range_one]
  have he : R 0 * (D 0).transpose + D 0 * (R 0).transpose = dA 0 := by
    have := hD 0 (by omega)
    simp only [Nat.zero_add, Finset.sum_range_one, Nat.sub_self] at this
    rw [← this, add_comm]
  rw [chol_inner (P := s.2 0) h0 hd (hDl 0) he
    (((R 0).transpose)⁻¹ * (lowView (halfDiag ((R 0).transpose * s.2 0)) * (R 0)⁻¹)) (Or.inl (by
      rw [Matrix.mul_assoc]; rfl))]

end CppAD.AtomEx
