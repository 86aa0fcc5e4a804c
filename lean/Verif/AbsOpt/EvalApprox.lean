import Verif.AbsOpt.EvalThm
import Verif.AbsNormal.Thm

/-!
# The abs-normal approximation is a second order approximation
-/

namespace CppAD.AbsOpt

open CppAD.AbsNormal (pair)

/-- *Specification*: `J` is the row of a Jacobian: the remainder of the linear approximation of `φ` at `p` is of second order -/
def IsLinear (N : ℕ) (φ : (ℕ → ℝ) → ℝ) (p J : ℕ → ℝ) : Prop :=
  ∃ C δ : ℝ, 0 ≤ C ∧ 0 < δ ∧ ∀ r, 0 ≤ r → r ≤ δ → ∀ v : ℕ → ℝ, (∀ k < N, |v k| ≤ r) →
    |φ (fun k => p k + v k) - φ p - ∑ k ∈ Finset.range N, J k * v k| ≤ C * r ^ 2

theorem pair_add (n : ℕ) (x u dx du : ℕ → ℝ) :
    (fun k => pair n x u k + pair n dx du k) = pair n (fun j => x j + dx j) (fun j => u j + du j) := by
  funext k
  unfold pair
  by_cases h : k < n
  · simp only [if_pos h]
  · simp only [if_neg h]

theorem abs_sum_le (N : ℕ) (J v : ℕ → ℝ) (r : ℝ) (hv : ∀ k < N, |v k| ≤ r) :
    |∑ k ∈ Finset.range N, J k * v k| ≤ (∑ k ∈ Finset.range N, |J k|) * r := by
  refine (Finset.abs_sum_le_sum_abs _ _).trans ?_
  rw [Finset.sum_mul]
  refine Finset.sum_le_sum fun k hk => ?_
  rw [abs_mul]
  exact mul_le_mul_of_nonneg_left (hv k (Finset.mem_range.1 hk)) (abs_nonneg _)

/-- one component -/
theorem approx_row {n m s : ℕ} {a : (ℕ → ℝ) → ℕ → ℝ} {x : ℕ → ℝ} {g gj : ℕ → ℝ} {zf : (ℕ → ℝ) → ℕ → ℝ} {φ : (ℕ → ℝ) → ℝ} {q i : ℕ} (hi : i ≤ s)
    (hg : ∀ j < s, |g (m + j)| = a x j) (ha : ∀ x, ∀ j < s, a x j = |zf x j|)
    (hq : g q = φ (pair n x (a x)))
    (hφ : IsLinear (n + s) φ (pair n x (a x)) fun k => gj (q * (n + s) + k))
    (hdep : ∀ x u u', (∀ j < i, u j = u' j) → φ (pair n x u) = φ (pair n x u'))
    (hz : ∀ j < s, i ≤ j → gj (q * (n + s) + n + j) = 0)
    {C K δ : ℝ} (hC : 0 ≤ C) (hK : 1 ≤ K) (hδ : 0 < δ)
    (hind : ∀ r, 0 ≤ r → r ≤ δ → ∀ dx : ℕ → ℝ, (∀ j < n, |dx j| ≤ r) → ∀ gt, IsApprox n m s g gj dx gt →
      ∀ j < i, |gt (m + j) - zf (fun k => x k + dx k) j| ≤ C * r ^ 2 ∧ |a (fun k => x k + dx k) j - a x j| ≤ K * r) :
    ∃ C' K' δ' : ℝ, 0 ≤ C' ∧ 0 ≤ K' ∧ 0 < δ' ∧ δ' ≤ δ ∧
      ∀ r, 0 ≤ r → r ≤ δ' → ∀ dx : ℕ → ℝ, (∀ j < n, |dx j| ≤ r) → ∀ gt, IsApprox n m s g gj dx gt →
        |lin n m s g gj dx gt q - φ (pair n (fun k => x k + dx k) (a fun k => x k + dx k))| ≤ C' * r ^ 2 ∧
        |φ (pair n (fun k => x k + dx k) (a fun k => x k + dx k)) - g q| ≤ K' * r := by
  obtain ⟨Cr, δr, hCr, hδr, hrem⟩ := hφ
  set S := ∑ k ∈ Finset.range (n + s), |gj (q * (n + s) + k)| with hS
  have hS0 : 0 ≤ S := Finset.sum_nonneg fun _ _ => abs_nonneg _
  have hK0 : 0 < K := by linarith
  refine ⟨S * C + Cr * K ^ 2, S * K + Cr * K ^ 2, min δ (min 1 (δr / K)), by positivity, by positivity,
    lt_min hδ (lt_min one_pos (by positivity)), min_le_left _ _, ?_⟩
  intro r hr hrd dx hdx gt hgt
  have hr1 : r ≤ 1 := hrd.trans ((min_le_right _ _).trans (min_le_left _ _))
  have hr2 : K * r ≤ δr := by
    have := hrd.trans ((min_le_right _ _).trans (min_le_right _ _))
    rw [le_div_iff₀ hK0] at this
    linarith
  have hr3 := hind r hr (hrd.trans (min_le_left _ _)) dx hdx gt hgt
  set x' : ℕ → ℝ := fun k => x k + dx k with hx'
  set du : ℕ → ℝ := fun j => if j < i then a x' j - a x j else 0 with hdu
  set v := pair n dx du with hv
  have hvb : ∀ k < n + s, |v k| ≤ K * r := by
    intro k hk
    rw [hv]
    unfold pair
    by_cases h : k < n
    · rw [if_pos h]
      exact (hdx k h).trans (le_mul_of_one_le_left hr hK)
    · rw [if_neg h, hdu]
      dsimp only
      by_cases h2 : k - n < i
      · rw [if_pos h2]; exact (hr3 _ h2).2
      · rw [if_neg h2, abs_zero]; positivity
  have hnew : φ (fun k => pair n x (a x) k + v k) = φ (pair n x' (a x')) := by
    rw [hv, pair_add]
    refine hdep _ _ _ fun j hj => ?_
    rw [hdu]
    dsimp only
    rw [if_pos hj]
    ring
  have h1 := hrem (K * r) (by positivity) hr2 v hvb
  rw [hnew, ← hq] at h1
  -- the sum
  have hsplit : ∑ k ∈ Finset.range (n + s), gj (q * (n + s) + k) * v k =
      ∑ j ∈ Finset.range n, gj (q * (n + s) + j) * dx j + ∑ j ∈ Finset.range s, gj (q * (n + s) + n + j) * du j := by
    rw [Finset.sum_range_add]
    congr 1
    · refine Finset.sum_congr rfl fun j hj => ?_
      rw [hv]; unfold pair; rw [if_pos (Finset.mem_range.1 hj)]
    · refine Finset.sum_congr rfl fun j hj => ?_
      rw [hv]; unfold pair; rw [if_neg (by omega), Nat.add_sub_cancel_left, add_assoc]
  have hlin : lin n m s g gj dx gt q = g q + ∑ k ∈ Finset.range (n + s), gj (q * (n + s) + k) * v k +
      ∑ j ∈ Finset.range s, gj (q * (n + s) + n + j) * (if j < i then |gt (m + j)| - |zf x' j| else 0) := by
    rw [hsplit]
    unfold lin
    rw [add_assoc (g q), add_assoc (g q), add_assoc, ← Finset.sum_add_distrib]
    congr 2
    refine Finset.sum_congr rfl fun j hj => ?_
    have hjs := Finset.mem_range.1 hj
    by_cases h : j < i
    · rw [hdu]
      dsimp only
      rw [if_pos h, if_pos h, hg j hjs, ha x' j hjs]
      ring
    · rw [hz j hjs (by omega)]; ring
  have hS2 : ∑ j ∈ Finset.range s, |gj (q * (n + s) + n + j)| ≤ S := by
    rw [hS, Finset.sum_range_add]
    have : 0 ≤ ∑ j ∈ Finset.range n, |gj (q * (n + s) + j)| := Finset.sum_nonneg fun _ _ => abs_nonneg _
    simp only [add_assoc]
    linarith
  have h2 : |∑ j ∈ Finset.range s, gj (q * (n + s) + n + j) * (if j < i then |gt (m + j)| - |zf x' j| else 0)| ≤ S * (C * r ^ 2) := by
    refine (abs_sum_le s _ _ (C * r ^ 2) fun j hj => ?_).trans (mul_le_mul_of_nonneg_right hS2 (by positivity))
    by_cases h : j < i
    · rw [if_pos h]
      exact (abs_abs_sub_abs_le_abs_sub _ _).trans (hr3 j h).1
    · rw [if_neg h, abs_zero]; positivity
  have h3 : |∑ k ∈ Finset.range (n + s), gj (q * (n + s) + k) * v k| ≤ S * (K * r) := abs_sum_le _ _ _ _ hvb
  have hrr : r ^ 2 ≤ r := by
    rw [pow_two]
    exact mul_le_of_le_one_left hr hr1
  have e : Cr * (K * r) ^ 2 = Cr * K ^ 2 * r ^ 2 := by ring
  rw [e] at h1
  have hCK : Cr * K ^ 2 * r ^ 2 ≤ Cr * K ^ 2 * r := mul_le_mul_of_nonneg_left hrr (by positivity)
  rw [abs_le] at h1 h2 h3
  rw [hlin]
  refine ⟨abs_le.2 ⟨?_, ?_⟩, abs_le.2 ⟨?_, ?_⟩⟩
  · nlinarith [h1.1, h1.2, h2.1, h2.2]
  · nlinarith [h1.1, h1.2, h2.1, h2.2]
  · nlinarith [h1.1, h1.2, h3.1, h3.2]
  · nlinarith [h1.1, h1.2, h3.1, h3.2]

/-- The abs-normal approximation has a second order error. -/
theorem isApprox_second {n m s : ℕ} {a G : (ℕ → ℝ) → ℕ → ℝ} {x g gj : ℕ → ℝ}
    (hg : ∀ i < m + s, g i = G (pair n x (a x)) i)
    (hgj : ∀ i < m + s, IsLinear (n + s) (fun p => G p i) (pair n x (a x)) fun k => gj (i * (n + s) + k))
    (ht : IsTri n m s gj)
    (ha : ∀ x, ∀ i < s, a x i = |G (pair n x (a x)) (m + i)|)
    (hz : ∀ x u u', ∀ i < s, (∀ j < i, u j = u' j) → G (pair n x u) (m + i) = G (pair n x u') (m + i))
    (hy : ∀ x u u', ∀ i < m, (∀ j < s, u j = u' j) → G (pair n x u) i = G (pair n x u') i) :
    ∃ C δ : ℝ, 0 < δ ∧ ∀ r, 0 ≤ r → r ≤ δ → ∀ dx : ℕ → ℝ, (∀ j < n, |dx j| ≤ r) → ∀ gt, IsApprox n m s g gj dx gt →
      ∀ i < m + s, |gt i - G (pair n (fun k => x k + dx k) (a fun k => x k + dx k)) i| ≤ C * r ^ 2 := by
  set zf : (ℕ → ℝ) → ℕ → ℝ := fun x j => G (pair n x (a x)) (m + j) with hzf
  have hga : ∀ j < s, |g (m + j)| = a x j := fun j hj => by rw [hg _ (by omega), ha x j hj]
  -- the arguments of the absolute values
  have hind : ∀ i ≤ s, ∃ C K δ : ℝ, 0 ≤ C ∧ 1 ≤ K ∧ 0 < δ ∧
      ∀ r, 0 ≤ r → r ≤ δ → ∀ dx : ℕ → ℝ, (∀ j < n, |dx j| ≤ r) → ∀ gt, IsApprox n m s g gj dx gt →
      ∀ j < i, |gt (m + j) - zf (fun k => x k + dx k) j| ≤ C * r ^ 2 ∧ |a (fun k => x k + dx k) j - a x j| ≤ K * r := by
    intro i
    induction i with
    | zero => intro _; exact ⟨0, 1, 1, le_rfl, le_rfl, one_pos, by intros; omega⟩
    | succ i ih =>
      intro hi
      obtain ⟨C, K, δ, hC, hK, hδ, h⟩ := ih (by omega)
      obtain ⟨C', K', δ', hC', hK', hδ', hle, h'⟩ := approx_row (i := i) (q := m + i) (φ := fun p => G p (m + i)) (zf := zf) (by omega) hga
        ha (hg _ (by omega)) (hgj _ (by omega)) (fun x u u' hu => hz x u u' i (by omega) hu) (fun j hj hij => ht i (by omega) j hj hij) hC hK hδ h
      refine ⟨max C C', max K K', δ', le_max_of_le_left hC, le_max_of_le_left hK, hδ', ?_⟩
      intro r hr hrd dx hdx gt hgt j hj
      by_cases e : j = i
      · subst e
        obtain ⟨h1, h2⟩ := h' r hr hrd dx hdx gt hgt
        rw [← hgt (m + j) (by omega)] at h1
        refine ⟨h1.trans (mul_le_mul_of_nonneg_right (le_max_right _ _) (by positivity)), ?_⟩
        rw [ha _ j (by omega), ← hga j (by omega)]
        exact ((abs_abs_sub_abs_le_abs_sub _ _).trans h2).trans (mul_le_mul_of_nonneg_right (le_max_right _ _) hr)
      · obtain ⟨h1, h2⟩ := h r hr (hrd.trans hle) dx hdx gt hgt j (by omega)
        exact ⟨h1.trans (mul_le_mul_of_nonneg_right (le_max_left _ _) (by positivity)), h2.trans (mul_le_mul_of_nonneg_right (le_max_left _ _) hr)⟩
  obtain ⟨C, K, δ, hC, hK, hδ, h⟩ := hind s le_rfl
  -- the values of f
  have hval : ∀ i ≤ m, ∃ C₂ δ₂ : ℝ, 0 ≤ C₂ ∧ 0 < δ₂ ∧ δ₂ ≤ δ ∧
      ∀ r, 0 ≤ r → r ≤ δ₂ → ∀ dx : ℕ → ℝ, (∀ j < n, |dx j| ≤ r) → ∀ gt, IsApprox n m s g gj dx gt →
      ∀ j < i, |gt j - G (pair n (fun k => x k + dx k) (a fun k => x k + dx k)) j| ≤ C₂ * r ^ 2 := by
    intro i
    induction i with
    | zero => intro _; exact ⟨0, δ, le_rfl, hδ, le_rfl, by intros; omega⟩
    | succ i ih =>
      intro hi
      obtain ⟨C₂, δ₂, hC₂, hδ₂, hle, h2⟩ := ih (by omega)
      obtain ⟨C', K', δ', hC', hK', hδ', hle', h'⟩ := approx_row (i := s) (q := i) (φ := fun p => G p i) (zf := zf) le_rfl hga
        ha (hg _ (by omega)) (hgj _ (by omega)) (fun x u u' hu => hy x u u' i (by omega) hu) (fun j hj hij => by omega) hC hK hδ h
      refine ⟨max C₂ C', min δ₂ δ', le_max_of_le_left hC₂, lt_min hδ₂ hδ', (min_le_left _ _).trans hle, ?_⟩
      intro r hr hrd dx hdx gt hgt j hj
      by_cases e : j = i
      · subst e
        have h1 := (h' r hr (hrd.trans (min_le_right _ _)) dx hdx gt hgt).1
        rw [← hgt j (by omega)] at h1
        exact h1.trans (mul_le_mul_of_nonneg_right (le_max_right _ _) (by positivity))
      · exact (h2 r hr (hrd.trans (min_le_left _ _)) dx hdx gt hgt j (by omega)).trans (mul_le_mul_of_nonneg_right (le_max_left _ _) (by positivity))
  obtain ⟨C₂, δ₂, hC₂, hδ₂, hle, h2⟩ := hval m le_rfl
  refine ⟨max C C₂, δ₂, hδ₂, ?_⟩
  intro r hr hrd dx hdx gt hgt i hi
  by_cases hm : i < m
  · exact (h2 r hr hrd dx hdx gt hgt i hm).trans (mul_le_mul_of_nonneg_right (le_max_right _ _) (by positivity))
  · obtain ⟨k, rfl⟩ := Nat.exists_eq_add_of_le (not_lt.1 hm)
    exact (h r hr (hrd.trans hle) dx hdx gt hgt k (by omega)).1.trans (mul_le_mul_of_nonneg_right (le_max_left _ _) (by positivity))

end CppAD.AbsOpt
