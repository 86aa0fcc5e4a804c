import Verif.Romberg.Value
import Mathlib.NumberTheory.Bernoulli
import Mathlib.Analysis.SpecialFunctions.Integrals.Basic

/-! # Romberg integration is exact for polynomials -/

namespace CppAD.Romberg

open scoped BigOperators

theorem trap_scale (f : ℝ → ℝ) (a b : ℝ) (N : ℕ) : trap f a b N = (b - a) * trap (fun t => f (a + (b - a) * t)) 0 1 N := by
  unfold trap
  rw [Finset.mul_sum]
  refine Finset.sum_congr rfl fun k _ => ?_
  have h : ∀ k : ℕ, a + (b - a) * node 0 1 N k = node a b N k := by intro k; unfold node; ring
  dsimp only
  rw [h, h]
  ring

theorem trap_sum {ι : Type*} (s : Finset ι) (c : ι → ℝ) (f : ι → ℝ → ℝ) (a b : ℝ) (N : ℕ) :
    trap (fun t => ∑ l ∈ s, c l * f l t) a b N = ∑ l ∈ s, c l * trap (f l) a b N := by
  unfold trap
  simp only [Finset.mul_sum]
  rw [Finset.sum_comm]
  refine Finset.sum_congr rfl fun k _ => ?_
  rw [← Finset.sum_add_distrib, Finset.sum_div, Finset.sum_mul]
  exact Finset.sum_congr rfl fun l _ => by ring

theorem Rv_sum {ι : Type*} (s : Finset ι) (c : ι → ℝ) (T : ι → ℕ → ℝ) (j i : ℕ) :
    Rv (fun i => ∑ l ∈ s, c l * T l i) j i = ∑ l ∈ s, c l * Rv (T l) j i := by
  induction j generalizing i with
  | zero => rfl
  | succ j ih =>
    simp only [Rv, ih]
    rw [Finset.mul_sum, ← Finset.sum_sub_distrib, Finset.sum_div]
    exact Finset.sum_congr rfl fun l _ => by ring

theorem Rv_mul (c : ℝ) (T : ℕ → ℝ) (j i : ℕ) : Rv (fun i => c * T i) j i = c * Rv T j i := by
  simpa using Rv_sum (ι := Unit) {()} (fun _ => c) (fun _ => T) j i

theorem Rv_congr {T T' : ℕ → ℝ} (h : ∀ i, T i = T' i) (j i : ℕ) : Rv T j i = Rv T' j i := by
  rw [funext h]

/-- the effect of extrapolation on an error term -/
theorem Rv_pow {x : ℝ} (hx : x ≠ 0) : ∀ j i : ℕ, j ≤ i →
    Rv (fun i => x ^ i) j i = (∏ q ∈ Finset.range j, (4 ^ (q + 1) - x⁻¹) / (4 ^ (q + 1) - 1)) * x ^ i := by
  intro j
  induction j with
  | zero => intro i _; simp [Rv]
  | succ j ih =>
    intro i hi
    obtain ⟨i, rfl⟩ : ∃ k, i = k + 1 := ⟨i - 1, by omega⟩
    rw [Rv, ih _ (by omega), ih _ (by omega), Finset.prod_range_succ, Nat.add_sub_cancel]
    have h1 : (4 : ℝ) ^ (j + 1) - 1 ≠ 0 := by
      have : (1 : ℝ) < 4 ^ (j + 1) := one_lt_pow₀ (by norm_num) (by omega)
      linarith
    generalize ∏ q ∈ Finset.range j, ((4 : ℝ) ^ (q + 1) - x⁻¹) / (4 ^ (q + 1) - 1) = w
    field_simp
    ring

/-- coefficients in the expansion of the trapezoidal rule for `t^m` in powers of `1/N` -/
noncomputable def cf (m i : ℕ) : ℝ := if i = 1 then 0 else (bernoulli i : ℝ) * ((m + 1).choose i : ℝ) / (m + 1)

theorem cf_odd (m : ℕ) {i : ℕ} (h : Odd i) : cf m i = 0 := by
  unfold cf
  split_ifs with h1
  · rfl
  · rw [bernoulli_eq_zero_of_odd h (by have := h.pos; omega)]
    simp

theorem trap_monomial (m : ℕ) {N : ℕ} (hN : 0 < N) :
    trap (fun t => t ^ m) 0 1 N = ∑ i ∈ Finset.range (m + 1), cf m i * ((N : ℝ)⁻¹) ^ i := by
  have hN' : (N : ℝ) ≠ 0 := by positivity
  have h1 : trap (fun t => t ^ m) 0 1 N = (∑ k ∈ Finset.range N, (k : ℝ) ^ m + ((N : ℝ) ^ m - 0 ^ m) / 2) / N ^ (m + 1) := by
    have h2 : ∑ k ∈ Finset.range N, (((k + 1 : ℕ) : ℝ) ^ m - ((k : ℕ) : ℝ) ^ m) = (N : ℝ) ^ m - 0 ^ m := by
      rw [Finset.sum_range_sub (fun k : ℕ => (k : ℝ) ^ m)]
      simp
    rw [← h2, Finset.sum_div, ← Finset.sum_add_distrib, Finset.sum_div]
    unfold trap
    refine Finset.sum_congr rfl fun k _ => ?_
    unfold node
    simp only [sub_zero, one_mul, zero_add, div_pow]
    field_simp
    push_cast
    ring
  rw [h1]
  rcases Nat.eq_zero_or_pos m with rfl | hm
  · simp [cf]
    omega
  have h3 := congrArg (fun q : ℚ => (q : ℝ)) (sum_range_pow N m)
  push_cast at h3
  rw [h3, zero_pow (by omega), sub_zero]
  rw [add_div, Finset.sum_div]
  have h4 : (N : ℝ) ^ m / 2 / N ^ (m + 1) = ∑ i ∈ Finset.range (m + 1), if i = 1 then ((N : ℝ)⁻¹) ^ i / 2 else 0 := by
    rw [Finset.sum_ite_eq' (Finset.range (m + 1)) 1]
    rw [if_pos (by simp; omega)]
    rw [pow_succ]
    field_simp
  rw [h4, ← Finset.sum_add_distrib]
  refine Finset.sum_congr rfl fun i hi => ?_
  have hi : i ≤ m := by simpa [Nat.lt_succ_iff] using hi
  have h5 : (N : ℝ) ^ (m + 1) = N ^ (m + 1 - i) * N ^ i := by rw [← pow_add]; congr 1; omega
  unfold cf
  split_ifs with h
  · subst h
    simp only [bernoulli_one, Nat.choose_one_right, Nat.add_sub_cancel, pow_one]
    push_cast
    field_simp
    ring
  · rw [h5, inv_pow]
    field_simp
    ring

theorem Rv_monomial {m p i : ℕ} (hm : m ≤ 2 * p + 1) (hi : p ≤ i) :
    Rv (fun i => trap (fun t => t ^ m) 0 1 (2 ^ i)) p i = 1 / (m + 1) := by
  rw [Rv_congr (T' := fun i => ∑ l ∈ Finset.range (m + 1), cf m l * (((2 : ℝ) ^ l)⁻¹) ^ i)]
  · rw [Rv_sum (Finset.range (m + 1)) (cf m) (fun l i => (((2 : ℝ) ^ l)⁻¹) ^ i)]
    rw [Finset.sum_eq_single 0]
    · rw [Rv_pow (by positivity) _ _ hi]
      have : ∏ q ∈ Finset.range p, ((4 : ℝ) ^ (q + 1) - (((2 : ℝ) ^ 0)⁻¹)⁻¹) / (4 ^ (q + 1) - 1) = 1 := by
        refine Finset.prod_eq_one fun q _ => ?_
        have : (1 : ℝ) < 4 ^ (q + 1) := one_lt_pow₀ (by norm_num) (by omega)
        simp only [pow_zero, inv_one]
        exact div_self (by linarith)
      rw [this]
      simp [cf]
    · intro l hl h0
      have hl : l ≤ m := by simpa [Nat.lt_succ_iff] using hl
      rcases Nat.even_or_odd l with ⟨q, rfl⟩ | h
      · rw [Rv_pow (by positivity) _ _ hi, Finset.prod_eq_zero (i := q - 1)]
        · ring
        · simp; omega
        · have : (4 : ℝ) ^ (q - 1 + 1) = 2 ^ (q + q) := by
            rw [show q - 1 + 1 = q by omega, ← two_mul, pow_mul]; norm_num
          rw [this, inv_inv, sub_self, zero_div]
      · rw [cf_odd m h, zero_mul]
    · intro h; simp at h
  · intro i
    rw [trap_monomial m (by positivity)]
    refine Finset.sum_congr rfl fun l _ => ?_
    push_cast
    rw [inv_pow, inv_pow, ← pow_mul, ← pow_mul, mul_comm i l]

/-- **C47** extrapolation of trapezoidal rules is exact for polynomials -/
theorem Rv_exact (P : Polynomial ℝ) (a b : ℝ) {p i : ℕ} (hP : P.natDegree ≤ 2 * p + 1) (hi : p ≤ i) :
    Rv (fun i => trap (fun x => P.eval x) a b (2 ^ i)) p i = ∫ x in a..b, P.eval x := by
  set Q : Polynomial ℝ := P.comp (Polynomial.C a + Polynomial.C (b - a) * Polynomial.X) with hQ
  have hd : Q.natDegree ≤ 2 * p + 1 := by
    refine le_trans (Polynomial.natDegree_comp_le) ?_
    have : (Polynomial.C a + Polynomial.C (b - a) * Polynomial.X).natDegree ≤ 1 := by
      rw [add_comm]; exact Polynomial.natDegree_linear_le
    calc _ ≤ P.natDegree * 1 := Nat.mul_le_mul_left _ this
      _ ≤ _ := by omega
  have he : ∀ t, P.eval (a + (b - a) * t) = ∑ l ∈ Finset.range (Q.natDegree + 1), Q.coeff l * t ^ l := by
    intro t
    rw [← Polynomial.eval_eq_sum_range, hQ]
    simp
  have h1 : ∀ i, trap (fun x => P.eval x) a b (2 ^ i)
      = ∑ l ∈ Finset.range (Q.natDegree + 1), ((b - a) * Q.coeff l) * trap (fun t => t ^ l) 0 1 (2 ^ i) := by
    intro i
    rw [trap_scale]
    simp only [he]
    rw [trap_sum, Finset.mul_sum]
    exact Finset.sum_congr rfl fun l _ => by ring
  rw [Rv_congr h1, Rv_sum]
  have h2 : (∫ x in a..b, P.eval x) = (b - a) * ∫ t in (0 : ℝ)..1, P.eval (a + (b - a) * t) := by
    have := intervalIntegral.smul_integral_comp_add_mul (a := 0) (b := 1) (fun x => P.eval x) (b - a) a
    simp only [mul_zero, add_zero, mul_one, smul_eq_mul] at this
    rw [this]
    congr 1
    ring
  rw [h2]
  simp only [he]
  rw [intervalIntegral.integral_finsetSum]
  · rw [Finset.mul_sum]
    refine Finset.sum_congr rfl fun l hl => ?_
    have hl : l ≤ Q.natDegree := by simpa [Nat.lt_succ_iff] using hl
    rw [Rv_monomial (by omega) hi, intervalIntegral.integral_const_mul, integral_pow]
    simp
    ring
  · intro l _
    exact (by fun_prop : Continuous fun t : ℝ => Q.coeff l * t ^ l).intervalIntegrable _ _

end CppAD.Romberg
