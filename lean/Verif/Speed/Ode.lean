import Verif.Speed.Thm
import Verif.AtomEx.MatFwd
import Mathlib.Analysis.Calculus.MeanValue

/-! # mat_sum_sq and the derivative in ode_evaluate (property C66) -/

namespace CppAD.Speed

open CppAD.AtomEx (forRange_additive fill_mat)
open Finset Nat

/-- **C66, mat_sum_sq.**  `y` is the square of the matrix `x` and `z` the sum of its elements. -/
theorem matSumSq_ok (n : ℕ) (x y z : ℕ → ℝ) :
    (∀ i < n, ∀ j < n, (matSumSq n x y z).1 (i * n + j) = ∑ k ∈ range n, x (i * n + k) * x (k * n + j)) ∧
    (matSumSq n x y z).2 0 = ∑ i ∈ range n, ∑ j ∈ range n, ∑ k ∈ range n, x (i * n + k) * x (k * n + j) := by
  have h1 : ∀ i < n, ∀ j < n, (matSumSq n x y z).1 (i * n + j) = ∑ k ∈ range n, x (i * n + k) * x (k * n + j) := by
    unfold matSumSq
    dsimp only
    intro i hi j hj
    refine (fill_mat y (fun i j => ∑ k ∈ range n, x (i * n + k) * x (k * n + j)) (fun i j => i * n + j) _ ?_ ?_).1 i hi j hj
    · intro i j t _ _
      rw [AbsOpt.accum, Function.update_idem, Function.update_self, zero_add]
    · intro i j i' j' _ hj _ hj' h
      exact Lu.idx_inj hj hj' h
  refine ⟨h1, ?_⟩
  have h2 : (matSumSq n x y z).2 0 = ∑ i ∈ range n, ∑ j ∈ range n, (matSumSq n x y z).1 (i * n + j) := by
    unfold matSumSq
    dsimp only
    set Y := forRange 0 n y fun i y => forRange 0 n y fun j y =>
      forRange 0 n (Function.update y (i * n + j) 0) fun k y =>
        Function.update y (i * n + j) (y (i * n + j) + x (i * n + k) * x (k * n + j)) with hY
    rw [forRange_additive (G := fun i c => if c = 0 then ∑ j ∈ range n, Y (i * n + j) else 0)]
    · simp only [if_true, Function.update_self, zero_add]
      rw [← Finset.range_eq_Ico]
    · intro i v c _ _
      rw [AbsOpt.accum, update_add]
  rw [h2]
  exact sum_congr rfl fun i hi => sum_congr rfl fun j hj => h1 i (mem_range.1 hi) j (mem_range.1 hj)

/-! ## ode_evaluate -/

/-- the value of the gradient that the code computes -/
theorem odeGradient_val (n : ℕ) (fp : ℕ → ℝ) {i j : ℕ} (hi : i < n) (hj : j < n) :
    odeGradient n fp (i * n + j) = if j ≤ i then 1 / (((i - j)! % sizeMax : ℕ) : ℝ) else 0 := by
  unfold odeGradient
  dsimp only
  set fp0 := forRange 0 n fp fun i fp => forRange 0 n fp fun j fp => Function.update fp (i * n + j) 0 with hfp0
  have h0 : fp0 (i * n + j) = 0 :=
    (fill_mat fp (fun _ _ => (0 : ℝ)) (fun i j => i * n + j) (fun i j fp => Function.update fp (i * n + j) 0)
      (fun i j t _ _ => rfl) (fun i j i' j' _ hj _ hj' h => Lu.idx_inj hj hj' h)).1 i hi j hj
  have key := forRange_ind (lo := 0) (hi := n) (Nat.zero_le n) (s := ((1 : ℕ), fp0))
    (f := fun k (s : ℕ × (ℕ → ℝ)) =>
      (if k > 1 then s.1 * k % sizeMax else s.1, forRange k n s.2 fun i fp =>
        Function.update fp (i * n + (i - k)) (fp (i * n + (i - k)) + 1 / ((if k > 1 then s.1 * k % sizeMax else s.1 : ℕ) : ℝ))))
    (P := fun K s => s.1 = (K - 1)! % sizeMax ∧
      s.2 (i * n + j) = if j ≤ i ∧ i - j < K then 1 / (((i - j)! % sizeMax : ℕ) : ℝ) else 0) ?_ ?_
  · rw [key.2]
    congr 1
    simp only [eq_iff_iff]
    omega
  · refine ⟨rfl, ?_⟩
    rw [if_neg (by omega)]; exact h0
  · intro k s _ hk ih
    have hfac : (if k > 1 then s.1 * k % sizeMax else s.1) = k ! % sizeMax := by
      rw [ih.1]
      by_cases h : k > 1
      · rw [if_pos h, Nat.mod_mul_mod]
        congr 1
        obtain ⟨q, rfl⟩ : ∃ q, k = q + 1 := ⟨k - 1, by omega⟩
        rw [Nat.add_sub_cancel, Nat.factorial_succ, mul_comm]
      · rw [if_neg h]
        interval_cases k <;> rfl
    dsimp only
    rw [hfac]
    refine ⟨by rw [Nat.add_sub_cancel], ?_⟩
    rw [forRange_additive (G := fun a c => if c = a * n + (a - k) then 1 / ((k ! % sizeMax : ℕ) : ℝ) else 0)
      (h := fun a v c _ _ => by rw [update_add]), ih.2]
    by_cases h : j ≤ i ∧ i - j = k
    · obtain ⟨h1, rfl⟩ := h
      rw [if_neg (by omega), if_pos (by omega), zero_add, Finset.sum_eq_single i]
      · rw [if_pos]
        congr 1
        omega
      · intro a ha hne
        rw [if_neg]
        intro e
        have ha := mem_Ico.1 ha
        exact hne (Lu.idx_inj hj (by omega : a - (i - j) < n) e).1.symm
      · intro hh
        exact absurd (mem_Ico.2 ⟨by omega, hi⟩) hh
    · rw [Finset.sum_eq_zero, add_zero]
      · congr 1
        simp only [eq_iff_iff]
        omega
      · intro a ha
        rw [if_neg]
        intro e
        have ha := mem_Ico.1 ha
        obtain ⟨e1, e2⟩ := Lu.idx_inj hj (by omega : a - k < n) e
        omega

/-- *Specification*: `Y x t` is the solution of the differential equation in ode_evaluate with initial value `x`; the right hand
side is the one of the code.  (ode_evaluate.hpp:26-46) -/
def IsSolution (n : ℕ) (Y : (ℕ → ℝ) → ℝ → ℕ → ℝ) : Prop :=
  ∀ x, (∀ i < n, Y x 0 i = x i) ∧ ∀ junk t, ∀ i < n, HasDerivAt (fun t => Y x t i) (odeRhs n (Y x t) junk i) t

/-- the solution in the comment of ode_evaluate.hpp:155-161 -/
noncomputable def odeSol (x : ℕ → ℝ) (t : ℝ) (i : ℕ) : ℝ := ∑ k ∈ range (i + 1), x (i - k) * (t ^ k / (k ! : ℝ))

theorem odeRhs_val {n : ℕ} (y junk : ℕ → ℝ) {i : ℕ} (hi : i < n) : odeRhs n y junk i = if i = 0 then 0 else y (i - 1) := by
  unfold odeRhs
  by_cases hn : n ≤ 1
  · rw [forRange_of_le hn, show i = 0 by omega]; simp
  · refine forRange_ind (by omega : 1 ≤ n) (P := fun L (t : ℕ → ℝ) => ∀ i < L, t i = if i = 0 then 0 else y (i - 1)) ?_ ?_ i hi
    · intro i hi; rw [show i = 0 by omega]; simp
    · intro k t h1 _ ih i hi
      by_cases e : i = k
      · subst e; simp [show i ≠ 0 by omega]
      · rw [Function.update_of_ne e]; exact ih i (by omega)

theorem odeSol_deriv (x : ℕ → ℝ) (t : ℝ) (i : ℕ) :
    HasDerivAt (fun t => odeSol x t i) (if i = 0 then 0 else odeSol x t (i - 1)) t := by
  have h : HasDerivAt (fun t => odeSol x t i) (∑ k ∈ range (i + 1), x (i - k) * ((k : ℝ) * t ^ (k - 1) / (k ! : ℝ))) t := by
    unfold odeSol
    refine HasDerivAt.fun_sum fun k _ => ?_
    exact ((hasDerivAt_pow k t).div_const _).const_mul _
  refine h.congr_deriv ?_
  rw [sum_range_succ']
  simp only [Nat.cast_zero, zero_mul, zero_div, mul_zero, add_zero, Nat.add_sub_cancel]
  by_cases h0 : i = 0
  · subst h0; simp
  · rw [if_neg h0]
    unfold odeSol
    rw [show i - 1 + 1 = i by omega]
    refine sum_congr rfl fun k hk => ?_
    have hk := mem_range.1 hk
    rw [show i - (k + 1) = i - 1 - k by omega, Nat.factorial_succ]
    push_cast
    have : (k : ℝ) + 1 ≠ 0 := by positivity
    have h2 : (k ! : ℝ) ≠ 0 := by positivity
    field_simp

theorem odeSol_zero (x : ℕ → ℝ) (i : ℕ) : odeSol x 0 i = x i := by
  unfold odeSol
  rw [sum_range_succ']
  simp

/-- the differential equation has a solution -/
theorem odeSol_ok (n : ℕ) : IsSolution n odeSol := by
  intro x
  refine ⟨fun i _ => odeSol_zero x i, fun junk t i hi => ?_⟩
  rw [odeRhs_val _ _ hi]
  exact odeSol_deriv x t i

/-- and only one -/
theorem odeSol_unique {n : ℕ} {Y : (ℕ → ℝ) → ℝ → ℕ → ℝ} (h : IsSolution n Y) (x : ℕ → ℝ) :
    ∀ i < n, ∀ t, Y x t i = odeSol x t i := by
  obtain ⟨h0, hd⟩ := h x
  intro i
  induction i with
  | zero =>
    intro hi t
    have hder : ∀ t, HasDerivAt (fun t => Y x t 0 - odeSol x t 0) 0 t := by
      intro t
      have h1 := hd (fun _ => 0) t 0 hi
      rw [odeRhs_val _ _ hi] at h1
      simpa using h1.fun_sub (odeSol_deriv x t 0)
    have := is_const_of_deriv_eq_zero (fun t => (hder t).differentiableAt) (fun t => (hder t).deriv) t 0
    simp only [h0 0 hi, odeSol_zero, sub_self] at this
    exact sub_eq_zero.1 this
  | succ i ih =>
    intro hi t
    have hder : ∀ t, HasDerivAt (fun t => Y x t (i + 1) - odeSol x t (i + 1)) 0 t := by
      intro t
      have h1 := hd (fun _ => 0) t (i + 1) hi
      rw [odeRhs_val _ _ hi] at h1
      have h2 := h1.fun_sub (odeSol_deriv x t (i + 1))
      simpa [ih (by omega) t] using h2
    have := is_const_of_deriv_eq_zero (fun t => (hder t).differentiableAt) (fun t => (hder t).deriv) t 0
    simp only [h0 (i + 1) hi, odeSol_zero, sub_self] at this
    exact sub_eq_zero.1 this

theorem odeSol_partial (x : ℕ → ℝ) (i j : ℕ) :
    IsPartial (fun x => odeSol x 1 i) x j (if j ≤ i then 1 / ((i - j)! : ℝ) else 0) := by
  have h : IsPartial (fun x => odeSol x 1 i) x j (∑ k ∈ range (i + 1), dlt (i - k) j * (1 ^ k / (k ! : ℝ))) := by
    unfold odeSol
    exact partial_sum fun k _ => (comp_deriv x j (i - k)).mul_const _
  refine HasDerivAt.congr_deriv h ?_
  by_cases hj : j ≤ i
  · rw [if_pos hj, Finset.sum_eq_single (i - j)]
    · rw [show i - (i - j) = j by omega]; simp [dlt]
    · intro k hk hne
      have hk := mem_range.1 hk
      have : i - k ≠ j := by omega
      simp [dlt, this]
    · intro hh; exact absurd (mem_range.2 (by omega)) hh
  · rw [if_neg hj]
    refine Finset.sum_eq_zero fun k _ => ?_
    have : i - k ≠ j := by omega
    simp [dlt, this]

/-- **C66, ode_evaluate.**  With `p = 1` the result are the partial derivatives of the solution at `t = 1` with respect to the initial
value.  `_partial`: the number of components is at most 21; for 22 components the claim is false (`odeGradient_overflow_wrong`). -/
theorem odeGradient_ok_partial {n : ℕ} (hn : n ≤ 21) {Y : (ℕ → ℝ) → ℝ → ℕ → ℝ} (h : IsSolution n Y) (x fp : ℕ → ℝ) :
    ∀ i < n, ∀ j < n, IsPartial (fun x => Y x 1 i) x j (odeGradient n fp (i * n + j)) := by
  intro i hi j hj
  have e : (fun x => Y x 1 i) = fun x => odeSol x 1 i := funext fun x => odeSol_unique h x i hi 1
  rw [e, odeGradient_val n fp hi hj]
  have hlt : (i - j)! < sizeMax := by
    have h1 : (i - j)! ≤ 20 ! := Nat.factorial_le (by omega)
    have h2 : 20 ! < sizeMax := by decide
    omega
  rw [Nat.mod_eq_of_lt hlt]
  exact odeSol_partial x i j

/-- the claim is false of the code for 22 components, because `factorial` overflows -/
theorem odeGradient_overflow_wrong : ∃ (Y : (ℕ → ℝ) → ℝ → ℕ → ℝ), IsSolution 22 Y ∧ ∀ x fp : ℕ → ℝ, ∃ i < 22, ∃ j < 22,
    ¬ IsPartial (fun x => Y x 1 i) x j (odeGradient 22 fp (i * 22 + j)) := by
  refine ⟨odeSol, odeSol_ok 22, fun x fp => ⟨21, by omega, 0, by omega, fun h => ?_⟩⟩
  have h1 := HasDerivAt.unique h (odeSol_partial x 21 0)
  rw [odeGradient_val 22 fp (by omega) (by omega), if_pos (by omega), if_pos (by omega)] at h1
  have h2 : (21 - 0)! % sizeMax = 14197454024290336768 := by decide
  have h3 : (21 - 0)! = 51090942171709440000 := by decide
  rw [h2, h3] at h1
  norm_num at h1

end CppAD.Speed
