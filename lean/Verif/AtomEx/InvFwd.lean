import Verif.AtomEx.InvModel

/-! # The atomic matrix inverse: the recursions compute Taylor coefficients and their derivatives -/

open scoped ContDiff Topology
open PowerSeries Filter

namespace CppAD.AtomEx

variable {n : ℕ}

/-- the curve of inverse matrices is smooth -/
theorem SmM.inv {F : ℝ → Mat n} (hF : SmM F) (hd : (F 0).det ≠ 0) : SmM (fun t => (F t)⁻¹) :=
  fun i j => inv_smooth hF hd i j

theorem mul_inv_eventually {F : ℝ → Mat n} (hF : SmM F) (hd : (F 0).det ≠ 0) :
    (fun t => F t * (F t)⁻¹) =ᶠ[𝓝 0] fun _ => 1 :=
  (det_eventually hF hd).mono fun t ht => Matrix.mul_nonsing_inv _ (isUnit_iff_ne_zero.2 ht)

/-- the coefficients of the product of a curve and its inverse -/
theorem tcM_inv_sum {F : ℝ → Mat n} (hF : SmM F) (hd : (F 0).det ≠ 0) (k : ℕ) :
    ∑ ell ∈ Finset.range (k + 1), tcM F ell * tcM (fun t => (F t)⁻¹) (k - ell) = if k = 0 then 1 else 0 := by
  rw [← tcM_mul hF (hF.inv hd), tcM_congr (mul_inv_eventually hF hd), tcM_const]

/-- the sum in the loop over `ell` -/
theorem inv_sum_val (A R : ℕ → Mat n) (k : ℕ) :
    forRange 1 (k + 1) (0 : Mat n) (fun ell sum => sum - A ell * R (k - ell))
      = - ∑ ell ∈ Finset.range k, A (ell + 1) * R (k - (ell + 1)) := by
  refine forRange_ind (lo := 1) (hi := k + 1) (by omega)
    (P := fun m s => s = - ∑ ell ∈ Finset.range (m - 1), A (ell + 1) * R (k - (ell + 1))) (by simp) ?_
  intro m s hm _ hs
  obtain ⟨m, rfl⟩ : ∃ l, m = l + 1 := ⟨m - 1, by omega⟩
  rw [Nat.add_sub_cancel, Finset.sum_range_succ, hs, Nat.add_sub_cancel]
  abel

/-- the recursion of `forward` is correct -/
theorem invFor_ok {F : ℝ → Mat n} (hF : SmM F) (hd : (F 0).det ≠ 0) (q : ℕ) (A R : ℕ → Mat n)
    (hA : ∀ k ≤ q, A k = tcM F k) : ∀ k ≤ q, invFor (q + 1) A R k = tcM (fun t => (F t)⁻¹) k := by
  have key := forRange_ind (lo := 1) (hi := q + 1) (by omega) (s := Function.update R 0 (A 0)⁻¹)
    (f := fun k R => Function.update R k (R 0 * forRange 1 (k + 1) 0 fun ell sum => sum - A ell * R (k - ell)))
    (P := fun m R => ∀ k < m, R k = tcM (fun t => (F t)⁻¹) k)
    (by
      intro k hk
      obtain rfl : k = 0 := by omega
      rw [Function.update_self, hA 0 (by omega), tcM_zero, tcM_zero]) (by
      intro k R hk1 hkq ih j hj
      by_cases e : j = k
      · subst e
        rw [Function.update_self, inv_sum_val]
        have hs := tcM_inv_sum hF hd j
        rw [if_neg (by omega), Finset.sum_range_succ', Nat.sub_zero] at hs
        have e1 : ∑ ell ∈ Finset.range j, A (ell + 1) * R (j - (ell + 1))
            = ∑ ell ∈ Finset.range j, tcM F (ell + 1) * tcM (fun t => (F t)⁻¹) (j - (ell + 1)) := by
          refine Finset.sum_congr rfl fun ell hell => ?_
          rw [Finset.mem_range] at hell
          rw [hA _ (by omega), ih _ (by omega)]
        rw [e1, eq_neg_of_add_eq_zero_left hs, neg_neg, ih 0 (by omega), ← Matrix.mul_assoc, tcM_zero, tcM_zero,
          Matrix.nonsing_inv_mul _ (isUnit_iff_ne_zero.2 hd), Matrix.one_mul]
      · rw [Function.update_of_ne e]
        exact ih j (by omega))
  intro k hk
  exact key k (by omega)

/-! ### Reverse -/

/-- the weighted sum that is not changed by the steps of `reverse` -/
def lin2 (q : ℕ) (k : ℕ) (dA D : ℕ → Mat n) (s : (ℕ → Mat n) × (ℕ → Mat n)) : ℝ :=
  ∑ l ∈ Finset.range (q + 1), inner' (s.1 l) (dA l) + ∑ l ∈ Finset.range (k + 1), inner' (s.2 l) (D l)

theorem sum_update_inner (q : ℕ) (R D : ℕ → Mat n) {i : ℕ} (hi : i ≤ q) (M : Mat n) :
    ∑ l ∈ Finset.range (q + 1), inner' (Function.update R i (R i + M) l) (D l)
      = ∑ l ∈ Finset.range (q + 1), inner' (R l) (D l) + inner' M (D i) := by
  have hm : i ∈ Finset.range (q + 1) := Finset.mem_range.2 (by omega)
  rw [← Finset.add_sum_erase _ _ hm, ← Finset.add_sum_erase (a := i) _ (fun l => inner' (R l) (D l)) hm, Function.update_self,
    inner'_add_left]
  have : ∑ x ∈ (Finset.range (q + 1)).erase i, inner' (Function.update R i (R i + M) x) (D x)
      = ∑ x ∈ (Finset.range (q + 1)).erase i, inner' (R x) (D x) := by
    refine Finset.sum_congr rfl fun l hl => ?_
    rw [Function.update_of_ne (Finset.ne_of_mem_erase hl)]
  rw [this]; ring

theorem sum_update_inner_sub (q : ℕ) (R D : ℕ → Mat n) {i : ℕ} (hi : i ≤ q) (M : Mat n) :
    ∑ l ∈ Finset.range (q + 1), inner' (Function.update R i (R i - M) l) (D l)
      = ∑ l ∈ Finset.range (q + 1), inner' (R l) (D l) - inner' M (D i) := by
  rw [sub_eq_add_neg (R i), sum_update_inner q R D hi, inner'_neg_left]; ring

/-- the loop over `ell` -/
theorem invRevStep_ok (q : ℕ) (A R dA D : ℕ → Mat n) (k : ℕ) (hk : k + 1 ≤ q) (s : (ℕ → Mat n) × (ℕ → Mat n)) :
    lin2 q k dA D (forRange 1 (k + 1 + 1) s (invRevStep A R (k + 1)))
      = lin2 q k dA D s - ∑ ell ∈ Finset.range (k + 1), inner' (s.2 (k + 1))
          (R 0 * (dA (ell + 1) * R (k + 1 - (ell + 1)) + A (ell + 1) * D (k + 1 - (ell + 1)))) := by
  have key := forRange_ind (lo := 1) (hi := k + 1 + 1) (by omega) (s := s) (f := invRevStep A R (k + 1))
    (P := fun m s' => s'.2 (k + 1) = s.2 (k + 1) ∧ lin2 q k dA D s' = lin2 q k dA D s
      - ∑ ell ∈ Finset.range (m - 1), inner' (s.2 (k + 1))
          (R 0 * (dA (ell + 1) * R (k + 1 - (ell + 1)) + A (ell + 1) * D (k + 1 - (ell + 1)))))
    ⟨rfl, by simp⟩ (by
      intro m s' hm hm' ⟨h1, h2⟩
      obtain ⟨m, rfl⟩ : ∃ l, m = l + 1 := ⟨m - 1, by omega⟩
      constructor
      · unfold invRevStep
        dsimp only
        rw [Function.update_of_ne (by omega), h1]
      · rw [Nat.add_sub_cancel, Finset.sum_range_succ]
        rw [Nat.add_sub_cancel] at h2
        unfold invRevStep lin2
        dsimp only
        rw [sum_update_inner_sub q _ _ (by omega), sum_update_inner_sub k _ _ (by omega), h1]
        unfold lin2 at h2
        rw [Matrix.mul_add, inner'_add, ← Matrix.mul_assoc, ← Matrix.mul_assoc, inner'_mul_right _ (R (k + 1 - (m + 1))),
          inner'_mul_left _ (R 0), inner'_mul_left _ (R 0 * A (m + 1)), Matrix.transpose_mul]
        rw [← Matrix.mul_assoc (R 0).transpose]
        linarith)
  exact key.2

/-- The matrices computed by `reverse` give the derivative of the weighted sum of coefficients in every direction: `dA` is a
direction, `D` the derivative of the coefficients of the inverse in this direction. -/
theorem invRev_ok (q : ℕ) (A R P dA D : ℕ → Mat n) (hi : R 0 * A 0 = 1)
    (hR : ∀ k ≤ q, ∑ ell ∈ Finset.range (k + 1), A ell * R (k - ell) = if k = 0 then 1 else 0)
    (hD : ∀ k ≤ q, ∑ ell ∈ Finset.range (k + 1), (dA ell * R (k - ell) + A ell * D (k - ell)) = 0) :
    ∑ l ∈ Finset.range (q + 1), inner' (invRev (q + 1) A R P l) (dA l)
      = ∑ l ∈ Finset.range (q + 1), inner' (P l) (D l) := by
  have hmul : ∀ M N : Mat n, A 0 * M + N = 0 → M = - (R 0 * N) := by
    intro M N h
    have := congrArg (R 0 * ·) h
    simp only [Matrix.mul_add, ← Matrix.mul_assoc, hi, Matrix.one_mul, Matrix.mul_zero] at this
    exact eq_neg_of_add_eq_zero_left this
  -- order zero
  have hA1 : A 0 * R 0 = 1 := by
    have := hR 0 (by omega)
    simpa using this
  have hD0 : D 0 = - (R 0 * (dA 0 * R 0)) := by
    have := hD 0 (by omega)
    simp only [Nat.zero_add, Finset.sum_range_one, Nat.sub_self] at this
    exact hmul _ _ (by rw [add_comm]; exact this)
  -- higher order
  have hDk : ∀ k, k + 1 ≤ q → D (k + 1) = D 0 * A 0 * R (k + 1)
      - ∑ ell ∈ Finset.range (k + 1), R 0 * (dA (ell + 1) * R (k + 1 - (ell + 1)) + A (ell + 1) * D (k + 1 - (ell + 1))) := by
    intro k hk
    have := hD (k + 1) hk
    rw [Finset.sum_range_succ', Nat.sub_zero] at this
    rw [← Finset.mul_sum]
    generalize ∑ ell ∈ Finset.range (k + 1), (dA (ell + 1) * R (k + 1 - (ell + 1)) + A (ell + 1) * D (k + 1 - (ell + 1)))
      = S at this ⊢
    have e := hmul (D (k + 1)) (S + dA 0 * R (k + 1)) (by rw [← this]; abel)
    rw [e, hD0, Matrix.mul_add]
    have : R 0 * (dA 0 * R 0) * A 0 = R 0 * dA 0 := by
      rw [Matrix.mul_assoc, Matrix.mul_assoc, hi, Matrix.mul_one]
    rw [Matrix.neg_mul, Matrix.neg_mul, this, Matrix.mul_assoc]
    abel
  unfold invRev
  dsimp only
  rw [Nat.add_sub_cancel]
  have key := forDown_ind (n := q) (s := ((fun _ => 0 : ℕ → Mat n), P))
    (f := fun k s => forRange 1 (k + 1)
      (s.1, Function.update s.2 0 (s.2 0 + s.2 k * (R k).transpose * (A 0).transpose)) (invRevStep A R k))
    (P := fun k s => lin2 q k dA D s = ∑ l ∈ Finset.range (q + 1), inner' (P l) (D l))
    (by unfold lin2; simp [inner'_zero_left]) (by
      intro k s hk ih
      rw [invRevStep_ok q A R dA D k (by omega)]
      dsimp only
      rw [← ih, Function.update_of_ne (by omega)]
      unfold lin2
      dsimp only
      rw [sum_update_inner k _ _ (by omega), Finset.sum_range_succ (fun l => inner' (s.2 l) (D l)) (k + 1), hDk k (by omega),
        inner'_sub, inner'_sum, Matrix.mul_assoc, ← Matrix.transpose_mul, ← inner'_mul_right]
      rw [← Matrix.mul_assoc]
      ring)
  have h0 : ∀ s : (ℕ → Mat n) × (ℕ → Mat n),
      ∑ l ∈ Finset.range (q + 1), inner' (Function.update s.1 0 (s.1 0 - (R 0).transpose * s.2 0 * (R 0).transpose) l) (dA l)
        = lin2 q 0 dA D s := by
    intro s
    rw [sum_update_inner_sub q _ _ (by omega)]
    unfold lin2
    rw [Nat.zero_add, Finset.sum_range_one, hD0, inner'_neg, inner'_mul_left, inner'_mul_right]
    ring
  rw [h0]
  exact key

end CppAD.AtomEx
