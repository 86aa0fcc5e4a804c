import Verif.Taylor.Loop
import Verif.Util.While
import Mathlib.Algebra.Polynomial.Derivative
import Mathlib.Algebra.Field.Basic
import Mathlib.Algebra.Polynomial.Eval.Degree
import Mathlib.Tactic.FieldSimp
import Mathlib.Tactic.Ring

/-!
# `pow(x, n)` for integers and `Poly(k, a, z)`

include/cppad/utility/pow_int.hpp and include/cppad/utility/poly.hpp over
an arbitrary field.  `int` and `size_t` are unbounded integers.
-/

namespace CppAD.PowPoly

variable {F : Type} [Field F]

/-- pow_int.hpp:99-121 -/
def powInt (x : F) (n : ℤ) : F :=
  if n = 0 then 1
  else if n < 0 then 1 / powInt x (-n)
  else if n = 1 then x
  else
    let p := powInt (x * x) (n / 2)
    if n % 2 = 0 then p else p * x
termination_by 2 * n.natAbs + (if n < 0 then 1 else 0)
decreasing_by
  · rename_i h0 h1
    simp only [h1, if_true]
    have : ¬ -n < 0 := by omega
    simp only [this, if_false]
    omega
  · rename_i h0 h1 h2
    have : ¬ n / 2 < 0 := by omega
    simp only [h1, this, if_false]
    omega

/-- **C34**: `pow(x, n)` is the integer power, for every `x` and `n` -/
theorem pow_int_ok (x : F) (n : ℤ) : powInt x n = x ^ n := by
  generalize hm : 2 * n.natAbs + (if n < 0 then 1 else 0) = m
  induction m using Nat.strong_induction_on generalizing x n with
  | _ m ih =>
    rw [powInt]
    by_cases h0 : n = 0
    · rw [if_pos h0]; subst h0; simp
    rw [if_neg h0]
    by_cases h1 : n < 0
    · rw [if_pos h1, ih _ _ x (-n) rfl]
      · rw [zpow_neg, one_div, inv_inv]
      · rw [if_pos h1] at hm
        rw [if_neg (by omega)]
        omega
    rw [if_neg h1]
    by_cases h2 : n = 1
    · rw [if_pos h2]; subst h2; simp
    rw [if_neg h2]
    have ihp := ih _ (by
      rw [if_neg h1] at hm
      rw [if_neg (by omega)]
      omega) (x * x) (n / 2) rfl
    dsimp only
    obtain ⟨k, rfl⟩ := Int.eq_ofNat_of_zero_le (by omega : 0 ≤ n)
    rw [ihp]
    have e : ((k : ℤ) / 2) = ((k / 2 : ℕ) : ℤ) := by omega
    rw [e, zpow_natCast, zpow_natCast, ← pow_two, ← pow_mul]
    split_ifs with h3
    · congr 1; omega
    · rw [← pow_succ]; congr 1; omega

/-- poly.hpp:179-185: Horner's method, `a.size() = d + 1`; state is (i, sum) -/
def horner (d : ℕ) (a : ℕ → F) (z : F) : F :=
  (whileLoop (fun s : ℕ × F => decide (0 < s.1)) (fun s => (s.1 - 1, s.2 * z + a (s.1 - 1))) (d, a d)).2

/-- poly.hpp:161-174: the coefficients of the derivative; state is (factor, b) -/
def derCoef (k d : ℕ) (a : ℕ → F) (junk : ℕ → F) : ℕ → F :=
  let factor := forRange 2 k 1 fun i f => f * i
  (forRange k (d + 1) (factor, junk) fun i (s : ℕ × (ℕ → F)) =>
    let factor := s.1 * i
    (factor / (i - k + 1), Function.update s.2 (i - k) (a i * (factor : F)))).2

/-- poly.hpp:145-186 for a vector with `size` elements -/
def poly (k size : ℕ) (a : ℕ → F) (junk : ℕ → F) (z : F) : F :=
  let d := size - 1
  if d < k then 0
  else if 0 < k then horner (d - k) (derCoef k d a junk) z
  else horner d a z

theorem horner_ok (d : ℕ) (a : ℕ → F) (z : F) : horner d a z = ∑ i ∈ Finset.range (d + 1), a i * z ^ i := by
  have := whileLoop_rule (c := fun s : ℕ × F => decide (0 < s.1)) (b := fun s => (s.1 - 1, s.2 * z + a (s.1 - 1)))
    (fun s => s.1 ≤ d ∧ s.2 * z ^ s.1 + ∑ i ∈ Finset.range s.1, a i * z ^ i = ∑ i ∈ Finset.range (d + 1), a i * z ^ i)
    (fun s => s.1) (by
      rintro ⟨i, v⟩ ⟨h1, h2⟩ hc
      simp only [decide_eq_true_eq] at hc
      obtain ⟨j, rfl⟩ : ∃ j, i = j + 1 := ⟨i - 1, by omega⟩
      refine ⟨⟨by dsimp only at h1 ⊢; omega, ?_⟩, by dsimp only; omega⟩
      rw [← h2]
      simp only [Nat.add_sub_cancel]
      rw [Finset.sum_range_succ]
      ring) (s := (d, a d)) ⟨le_rfl, by rw [Finset.sum_range_succ, add_comm]⟩
  obtain ⟨⟨_, h1⟩, h2⟩ := this
  simp only [decide_eq_false_iff_not, not_lt, Nat.le_zero] at h2
  unfold horner
  rw [h2] at h1
  simpa using h1

theorem fac_ok {k : ℕ} (hk : 0 < k) : (forRange 2 k 1 fun i f => f * i) = (k - 1).factorial := by
  by_cases h : 2 ≤ k
  · have := forRange_ind h (s := 1) (f := fun i (f : ℕ) => f * i) (P := fun q f => f = (q - 1).factorial) (by decide) (by
      intro q f hq _ hf
      rw [hf, Nat.add_sub_cancel]
      obtain ⟨r, rfl⟩ : ∃ r, q = r + 1 := ⟨q - 1, by omega⟩
      rw [Nat.add_sub_cancel, Nat.factorial_succ, mul_comm])
    exact this
  · have : k = 1 := by omega
    subst this
    rw [forRange_of_le (by omega)]; decide

theorem derCoef_ok {k d : ℕ} (hk : 0 < k) (hkd : k ≤ d) (a junk : ℕ → F) :
    ∀ i ≤ d - k, derCoef k d a junk i = a (i + k) * ((i + k).descFactorial k : F) := by
  unfold derCoef
  rw [fac_ok hk]
  have := forRange_ind (by omega : k ≤ d + 1) (s := ((k - 1).factorial, junk))
    (f := fun i (s : ℕ × (ℕ → F)) =>
      let factor := s.1 * i
      (factor / (i - k + 1), Function.update s.2 (i - k) (a i * (factor : F))))
    (P := fun q s => s.1 * (q - k).factorial = (q - 1).factorial ∧
      ∀ i, i + k < q → s.2 i = a (i + k) * ((i + k).descFactorial k : F))
    ⟨by simp, fun i hi => by omega⟩ (by
      rintro q ⟨f, b⟩ hq hqd ⟨h1, h2⟩
      dsimp only at h1 h2 ⊢
      have hf : f * q * (q - k).factorial = q.factorial := by
        obtain ⟨r, rfl⟩ : ∃ r, q = r + 1 := ⟨q - 1, by omega⟩
        rw [Nat.add_sub_cancel] at h1
        rw [Nat.factorial_succ, ← h1]
        ring
      have hdf : f * q = q.descFactorial k := by
        have := Nat.factorial_mul_descFactorial hq
        have hpos := Nat.factorial_pos (q - k)
        apply Nat.eq_of_mul_eq_mul_right hpos
        rw [hf, ← this, mul_comm]
      constructor
      · have hdvd : (q - k + 1) ∣ f * q := by
          rw [hdf]
          obtain ⟨c, rfl⟩ : ∃ c, k = c + 1 := ⟨k - 1, by omega⟩
          rw [Nat.descFactorial_succ]
          have : q - (c + 1) + 1 = q - c := by omega
          rw [this]
          exact Dvd.intro _ rfl
        have e : q + 1 - k = (q - k) + 1 := by omega
        rw [e, Nat.factorial_succ, Nat.add_sub_cancel, ← mul_assoc, Nat.div_mul_cancel hdvd, hf]
      · intro i hi
        by_cases hik : i = q - k
        · subst hik
          rw [Function.update_self]
          have : q - k + k = q := by omega
          rw [this, hdf]
        · rw [Function.update_of_ne hik]
          exact h2 i (by omega))
  intro i hi
  exact this.2 i (by omega)

open Polynomial in
/-- Specification: the polynomial with coefficients `a_0, …, a_(size-1)` -/
noncomputable def coefPoly (size : ℕ) (a : ℕ → F) : F[X] := ∑ i ∈ Finset.range size, C (a i) * X ^ i

open Polynomial in
theorem coeff_coefPoly (size : ℕ) (a : ℕ → F) (i : ℕ) : (coefPoly size a).coeff i = if i < size then a i else 0 := by
  unfold coefPoly
  rw [finsetSum_coeff]
  simp only [coeff_C_mul, coeff_X_pow, mul_ite, mul_one, mul_zero]
  rw [Finset.sum_ite_eq]
  simp

open Polynomial in
/-- **C34**: `Poly(k, a, z)` is the `k`-th derivative of the polynomial at `z`, for every order, every
non-empty vector of coefficients, and every `z` -/
theorem poly_ok (k size : ℕ) (hs : 0 < size) (a junk : ℕ → F) (z : F) :
    poly k size a junk z = (derivative^[k] (coefPoly size a)).eval z := by
  have heval : ∀ n (b : ℕ → F), (coefPoly n b).eval z = ∑ i ∈ Finset.range n, b i * z ^ i := by
    intro n b
    unfold coefPoly
    rw [eval_finset_sum]
    simp
  have hder : derivative^[k] (coefPoly size a)
      = coefPoly (size - k) fun i => a (i + k) * ((i + k).descFactorial k : F) := by
    ext i
    rw [coeff_iterate_derivative, coeff_coefPoly, coeff_coefPoly, nsmul_eq_mul]
    by_cases h : i + k < size
    · rw [if_pos h, if_pos (by omega), mul_comm]
    · rw [if_neg h, if_neg (by omega), mul_zero]
  rw [hder, heval]
  unfold poly
  dsimp only
  split_ifs with h1 h2
  · have : size - k = 0 := by omega
    rw [this]; simp
  · rw [horner_ok]
    have : size - 1 - k + 1 = size - k := by omega
    rw [this]
    refine Finset.sum_congr rfl fun i hi => ?_
    rw [Finset.mem_range] at hi
    rw [derCoef_ok h2 (by omega) a junk i (by omega)]
  · have hk : k = 0 := by omega
    subst hk
    rw [horner_ok]
    have : size - 1 + 1 = size - 0 := by omega
    rw [this]
    refine Finset.sum_congr rfl fun i hi => ?_
    simp

/-- The specification on `3 + 2 z + z^4`: the second derivative at `z = 5` is `12 * 25` -/
example : poly 2 5 (fun i => if i = 0 then (3 : ℚ) else if i = 1 then 2 else if i = 4 then 1 else 0) (fun _ => 7) 5 = 300 := by
  rw [poly_ok _ _ (by decide)]
  simp [coefPoly, Finset.sum_range_succ, Polynomial.derivative_pow]
  norm_num

/-- A negative odd exponent -/
example : powInt (2 : ℚ) (-3) = 1 / 8 := by rw [pow_int_ok]; norm_num

end CppAD.PowPoly
