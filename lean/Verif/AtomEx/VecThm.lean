import Verif.AtomEx.VecRev
import Mathlib.RingTheory.PowerSeries.Inverse

/-! # Atomic vector operations: the reverse mode theorem, sparsity and dependency -/

open scoped ContDiff Topology
open PowerSeries

namespace CppAD.AtomEx

variable {m : ℕ}

/-- the change of argument `a` when argument `j` is changed in order `k` -/
noncomputable def bump (j k a : ℕ) : ℝ⟦X⟧ := if a = j then X ^ k else 0

theorem T_ev_update {n : ℕ} {X' : ℝ → Fin n → ℝ} (hX : ∀ j, Sm (fun t => X' t j)) (j : Fin n) (k a : ℕ) (h : ℝ) :
    T (fun t => ev (Function.update (X' t) j (X' t j + h * t ^ k)) a) = T (fun t => ev (X' t) a) + C h * bump j k a := by
  unfold bump
  simp only [ev_update]
  by_cases e : a = j
  · subst e
    simp only [if_true]
    rw [← T_bump (ev_sm hX j) h k]
    simp only [ev_val]
  · simp only [if_neg e, mul_zero, add_zero]

theorem ev_update_sm {n : ℕ} {X' : ℝ → Fin n → ℝ} (hX : ∀ j, Sm (fun t => X' t j)) (j : Fin n) (k a : ℕ) (h : ℝ) :
    Sm (fun t => ev (Function.update (X' t) j (X' t j + h * t ^ k)) a) := by
  simp only [ev_update]
  by_cases e : a = j
  · simp only [if_pos e]
    have hm : Sm (fun t : ℝ => h * t ^ k) := by unfold Sm; fun_prop
    exact ContDiffAt.add (hX j) hm
  · simp only [if_neg e]; exact ev_sm hX a

/-- a sum over rows with one row that is not zero -/
theorem row_sum {m q r : ℕ} (hr : r < m) (py : ℕ → ℝ) (D : ℕ → ℕ → ℝ) (h : ∀ i < m, i ≠ r → ∀ l, D i l = 0) :
    ∑ i ∈ Finset.range m, ∑ l ∈ Finset.range q, py (i * q + l) * D i l = ∑ l ∈ Finset.range q, py (r * q + l) * D r l := by
  refine Finset.sum_eq_single r (fun i hi hne => ?_) (fun h => absurd (Finset.mem_range.2 hr) h)
  exact Finset.sum_eq_zero fun l _ => by rw [h i (Finset.mem_range.1 hi) hne l, mul_zero]

theorem sum_pow {q k : ℕ} (hk : k < q) (w : ℕ → ℝ) :
    ∑ l ∈ Finset.range q, w l * coeff l (X ^ k : ℝ⟦X⟧) = w k := by
  rw [Finset.sum_eq_single k]
  · rw [coeff_X_pow_self, mul_one]
  · intro l _ hne; rw [coeff_X_pow, if_neg hne, mul_zero]
  · intro h; exact absurd (Finset.mem_range.2 hk) h

/-- exchange of the sums in reverse mode of a quotient -/
theorem transpose_sum {q : ℕ} (py w b : ℕ → ℝ) (D B : ℝ⟦X⟧) (hb : ∀ l < q, b l = coeff l B)
    (hw : ∀ k < q, ∑ l ∈ Finset.Ico k q, w l * b (l - k) = py k) :
    ∑ k ∈ Finset.range q, py k * coeff k D = ∑ l ∈ Finset.range q, w l * coeff l (D * B) := by
  have e1 : ∑ k ∈ Finset.range q, py k * coeff k D
      = ∑ k ∈ Finset.range q, ∑ l ∈ Finset.range q, if k ≤ l then w l * (coeff k D * coeff (l - k) B) else 0 := by
    refine Finset.sum_congr rfl fun k hk => ?_
    rw [Finset.mem_range] at hk
    rw [← hw k hk, Finset.sum_mul, ← Finset.sum_filter]
    have : Finset.filter (fun l => k ≤ l) (Finset.range q) = Finset.Ico k q := by
      ext l; simp only [Finset.mem_filter, Finset.mem_range, Finset.mem_Ico]; omega
    rw [this]
    refine Finset.sum_congr rfl fun l hl => ?_
    rw [Finset.mem_Ico] at hl
    rw [hb _ (by omega)]; ring
  rw [e1, Finset.sum_comm]
  refine Finset.sum_congr rfl fun l hl => ?_
  rw [Finset.mem_range] at hl
  rw [coeff_mul_range, Finset.mul_sum, ← Finset.sum_filter]
  have : Finset.filter (fun k => k ≤ l) (Finset.range q) = Finset.range (l + 1) := by
    ext k; simp only [Finset.mem_filter, Finset.mem_range]; omega
  rw [this]

/-- **C54** (reverse mode) for every operator, any contents of `partial_x` before the call and any weights, the callback
`reverse` computes the derivatives of the weighted sum of Taylor coefficients -/
theorem vecReverse_ok (px0 : ℕ → ℝ) (op : VOpE) (m : ℕ) :
    ReverseOk (op.n m) m (op.fn m) (op.dom m) (vecReverse px0 op m) := by
  intro sel q X' tx ty py _ hX hD htx hty j _ k hk
  have htx' : ∀ j < op.n m, ∀ k ≤ q, tx (j * (q + 1) + k) = tc (fun t => ev (X' t) j) k := by
    intro j hj k hk
    rw [htx ⟨j, hj⟩ k hk]
    simp only [ev_of_lt _ hj]
  have hS : ∀ j, Sm (fun t => ev (X' t) j) := ev_sm hX
  have hS' := fun a h => ev_update_sm hX j k a h
  have hT := fun a h => T_ev_update hX j k a h
  have hk' : k < q + 1 := by omega
  have h1 : op.isUnary = false → ∀ i < m, i < op.n m ∧ m + i < op.n m := by
    intro h i hi; simp only [VOpE.n, h]; simp; omega
  have hj : op.isUnary = false → ∃ r < m, (j : ℕ) = r ∨ (j : ℕ) = m + r := by
    intro h
    have := j.isLt
    simp only [VOpE.n, h] at this
    by_cases e : (j : ℕ) < m
    · exact ⟨j, e, Or.inl rfl⟩
    · exact ⟨j - m, by simp at this; omega, Or.inr (by omega)⟩
  have zz : ∀ a, a ≠ (j : ℕ) → bump j k a = 0 := fun a h => if_neg h
  have zs : ∀ a, a = (j : ℕ) → bump j k a = X ^ k := fun a h => if_pos h
  cases op with
  | add =>
    refine (hasDeriv_wsum (m := m) (q := q + 1) py (D := fun i l => coeff l (bump j k i + bump j k (m + i))) ?_).congr_deriv ?_
    · intro i hi l hl
      simp only [VOpE.fn, tc_eq]
      simp only [T_add (hS' _ _) (hS' _ _), hT]
      refine (coeff_affine_deriv (T (fun t => ev (X' t) i) + T (fun t => ev (X' t) (m + i)))
        (bump j k i + bump j k (m + i)) l).congr_of_eventuallyEq (Filter.Eventually.of_forall fun h => ?_)
      ring_nf
    · obtain ⟨r, hr, h | h⟩ := hj rfl
      · rw [row_sum hr _ _ (fun i hi hne l => by rw [zz _ (by omega), zz _ (by omega)]; simp)]
        simp only [zs r h.symm, zz (m + r) (by omega), add_zero]
        rw [sum_pow hk', h]
        exact ((fill_pair px0 (fun i k => py (i * (q + 1) + k)) (fun i k => py (i * (q + 1) + k)) hr hk').1).symm
      · rw [row_sum hr _ _ (fun i hi hne l => by rw [zz _ (by omega), zz _ (by omega)]; simp)]
        simp only [zs (m + r) h.symm, zz r (by omega), zero_add]
        rw [sum_pow hk', h]
        exact ((fill_pair px0 (fun i k => py (i * (q + 1) + k)) (fun i k => py (i * (q + 1) + k)) hr hk').2).symm
  | sub =>
    refine (hasDeriv_wsum (m := m) (q := q + 1) py (D := fun i l => coeff l (bump j k i - bump j k (m + i))) ?_).congr_deriv ?_
    · intro i hi l hl
      simp only [VOpE.fn, tc_eq]
      simp only [T_sub (hS' _ _) (hS' _ _), hT]
      refine (coeff_affine_deriv (T (fun t => ev (X' t) i) - T (fun t => ev (X' t) (m + i)))
        (bump j k i - bump j k (m + i)) l).congr_of_eventuallyEq (Filter.Eventually.of_forall fun h => ?_)
      ring_nf
    · obtain ⟨r, hr, h | h⟩ := hj rfl
      · rw [row_sum hr _ _ (fun i hi hne l => by rw [zz _ (by omega), zz _ (by omega)]; simp)]
        simp only [zs r h.symm, zz (m + r) (by omega), sub_zero]
        rw [sum_pow hk', h]
        exact ((fill_pair px0 (fun i k => py (i * (q + 1) + k)) (fun i k => -py (i * (q + 1) + k)) hr hk').1).symm
      · rw [row_sum hr _ _ (fun i hi hne l => by rw [zz _ (by omega), zz _ (by omega)]; simp)]
        simp only [zs (m + r) h.symm, zz r (by omega), zero_sub, map_neg, mul_neg, Finset.sum_neg_distrib]
        rw [sum_pow hk', h]
        exact ((fill_pair px0 (fun i k => py (i * (q + 1) + k)) (fun i k => -py (i * (q + 1) + k)) hr hk').2).symm
  | neg =>
    refine (hasDeriv_wsum (m := m) (q := q + 1) py (D := fun i l => coeff l (- bump j k i)) ?_).congr_deriv ?_
    · intro i hi l hl
      simp only [VOpE.fn, tc_eq]
      simp only [T_neg, hT]
      refine (coeff_affine_deriv (- T (fun t => ev (X' t) i))
        (- bump j k i) l).congr_of_eventuallyEq (Filter.Eventually.of_forall fun h => ?_)
      ring_nf
    · have hr : (j : ℕ) < m := j.isLt
      rw [row_sum hr _ _ (fun i hi hne l => by rw [zz _ (by omega)]; simp)]
      simp only [zs j rfl, map_neg, mul_neg, Finset.sum_neg_distrib]
      rw [sum_pow hk']
      exact (fill_outer (Nat.zero_le _) px0 (fun i k => - py (i * (q + 1) + k)) hr (Nat.zero_le k) hk').symm
  | mul =>
    refine (hasDeriv_wsum (m := m) (q := q + 1) py (D := fun i l => coeff l (bump j k i * T (fun t => ev (X' t) (m + i))
      + T (fun t => ev (X' t) i) * bump j k (m + i))) ?_).congr_deriv ?_
    · intro i hi l hl
      simp only [VOpE.fn, tc_eq]
      simp only [T_mul (hS' _ _) (hS' _ _), hT]
      exact coeff_mul_deriv _ _ _ _ l
    · obtain ⟨r, hr, h | h⟩ := hj rfl
      · rw [row_sum hr _ _ (fun i hi hne l => by rw [zz _ (by omega), zz _ (by omega)]; simp)]
        simp only [zs r h.symm, zz (m + r) (by omega), mul_zero, add_zero]
        rw [h, show vecReverse px0 VOpE.mul m sel q tx ty py = reverseMul m (q + 1) tx px0 py from rfl,
          (reverseMul_val m (q + 1) tx px0 py hr hk').1]
        refine Finset.sum_congr rfl fun l hl => ?_
        rw [Finset.mem_range] at hl
        rw [coeff_X_pow_mul_ite]
        split_ifs with hkl
        · rw [htx' _ (h1 rfl r hr).2 _ (by omega), coeff_T]
        · rfl
      · rw [row_sum hr _ _ (fun i hi hne l => by rw [zz _ (by omega), zz _ (by omega)]; simp)]
        simp only [zs (m + r) h.symm, zz r (by omega), zero_mul, zero_add]
        rw [h, show vecReverse px0 VOpE.mul m sel q tx ty py = reverseMul m (q + 1) tx px0 py from rfl,
          (reverseMul_val m (q + 1) tx px0 py hr hk').2]
        refine Finset.sum_congr rfl fun l hl => ?_
        rw [Finset.mem_range] at hl
        rw [mul_comm (T _), coeff_X_pow_mul_ite]
        split_ifs with hkl
        · rw [htx' _ (h1 rfl r hr).1 _ (by omega), coeff_T]
        · rfl
  | div =>
    have hB : ∀ i < m, ev (X' 0) (m + i) ≠ 0 := hD
    have hB' : ∀ i < m, coeff 0 (T fun t => ev (X' t) (m + i)) ≠ 0 := fun i hi => by
      rw [coeff_T, tc_zero]; exact hB i hi
    have hv : ∀ i < m, tx ((i + m) * (q + 1) + 0) ≠ 0 := by
      intro i hi
      rw [Nat.add_comm i m, htx' _ (h1 rfl i hi).2 _ (by omega), tc_zero]; exact hB i hi
    have hinv : ∀ i < m, (T fun t => ev (X' t) (m + i))⁻¹ * (T fun t => ev (X' t) (m + i)) = 1 := fun i hi =>
      PowerSeries.inv_mul_cancel _ (by rw [← coeff_zero_eq_constantCoeff_apply]; exact hB' i hi)
    have hDs : ∀ i < m, ((bump j k i - T (fun t => ev (X' t) i / ev (X' t) (m + i)) * bump j k (m + i))
        * (T fun t => ev (X' t) (m + i))⁻¹) * (T fun t => ev (X' t) (m + i))
        = bump j k i - T (fun t => ev (X' t) i / ev (X' t) (m + i)) * bump j k (m + i) := by
      intro i hi
      rw [mul_assoc, hinv i hi, mul_one]
    refine (hasDeriv_wsum (m := m) (q := q + 1) py (D := fun i l => coeff l
      ((bump j k i - T (fun t => ev (X' t) i / ev (X' t) (m + i)) * bump j k (m + i))
        * (T fun t => ev (X' t) (m + i))⁻¹)) ?_).congr_deriv ?_
    · intro i hi l hl
      simp only [VOpE.fn, tc_eq]
      refine coeff_div_deriv (A := T fun t => ev (X' t) i) (B := T fun t => ev (X' t) (m + i)) (dA := bump j k i)
        (dB := bump j k (m + i)) (hB' i hi) ?_ ?_ l
      · have hc : Filter.Tendsto (fun h : ℝ => ev (Function.update (X' 0) j (X' 0 j + h * 0 ^ k)) (m + i)) (𝓝 0)
            (𝓝 (ev (X' 0) (m + i))) := by
          simp only [ev_update]
          by_cases e : m + i = j
          · simp only [if_pos e]
            have hcont : Continuous (fun h : ℝ => X' 0 j + h * 0 ^ k) := by fun_prop
            have := hcont.tendsto 0
            rw [zero_mul, add_zero] at this
            rw [e, ev_val]; exact this
          · simp only [if_neg e]; exact tendsto_const_nhds
        filter_upwards [hc.eventually_ne (hB i hi)] with h hne
        rw [← hT, ← hT]
        exact T_div_mul (hS' _ _) (hS' _ _) hne
      · rw [hDs i hi]
        simp only [zero_mul, add_zero, Function.update_eq_self]
        ring
    · obtain ⟨r, hr, hj⟩ := hj rfl
      rw [row_sum hr _ _ (fun i hi hne l => by rw [zz _ (by omega), zz _ (by omega)]; simp)]
      rw [show vecReverse px0 VOpE.div m sel q tx ty py = reverseDiv m (q + 1) tx ty px0 py from rfl]
      obtain ⟨d1, d2⟩ := reverseDiv_val m (q + 1) tx ty px0 py hv hr
      set P := reverseDiv m (q + 1) tx ty px0 py
      rw [transpose_sum (fun l => py (r * (q + 1) + l)) (fun l => P (r * (q + 1) + l))
        (fun l => tx ((r + m) * (q + 1) + l)) _ (T fun t => ev (X' t) (m + r))
        (fun l hl => by rw [Nat.add_comm r m, htx' _ (h1 rfl r hr).2 _ (by omega), coeff_T])
        (fun k hk => d1 k (Nat.zero_le k) hk), hDs r hr]
      rcases hj with h | h
      · rw [zs r h.symm, zz (m + r) (by omega), mul_zero, sub_zero, sum_pow hk', h]
      · rw [zs (m + r) h.symm, zz r (by omega), zero_sub, h, Nat.add_comm m r, d2 k hk', Nat.zero_max]
        simp only [map_neg, mul_neg, Finset.sum_neg_distrib]
        congr 1
        have : Finset.Ico k (q + 1) = Finset.filter (fun l => k ≤ l) (Finset.range (q + 1)) := by
          ext l; simp only [Finset.mem_filter, Finset.mem_range, Finset.mem_Ico]; omega
        rw [this, Finset.sum_filter]
        refine Finset.sum_congr rfl fun l hl => ?_
        rw [Finset.mem_range] at hl
        rw [mul_comm (T _), coeff_X_pow_mul_ite]
        split_ifs with hkl
        · rw [hty r hr _ (by omega), coeff_T, Nat.add_comm r m]; rfl
        · rw [mul_zero]

end CppAD.AtomEx
