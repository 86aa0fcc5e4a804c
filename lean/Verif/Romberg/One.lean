import Verif.Romberg.Order

/-!
# C47: `RombergOne`

`F` is any object whose call returns `f x` (its state may change).  The documented restrictions are `2 ≤ n` and `p ≤ n`
(romberg_one.hpp:81-99).
-/

open scoped Nat
open Set

namespace CppAD.Romberg

variable {σ : Type} {F : ℝ → σ → ℝ × σ} {f : ℝ → ℝ}

/-- **C47** the documented order of the error: `r = ∫ F + O[ (b - a) / 2^(n-1) ]^(2(p+1))`, romberg_one.hpp:22-28.  The constant only
depends on `p`, and the factor `M` is a bound for the derivative of order `2(p+1)` of `F`.
Partial: `p < n` (see `rombergOne_top_wrong` for `p = n`), `p ≤ 15` (see `rombergOne_int_wrong`) and `n ≤ 31`. -/
theorem rombergOne_order_partial (p : ℕ) (hp : p ≤ 15) : ∃ C : ℝ, ∀ (σ : Type) (F : ℝ → σ → ℝ × σ) (f : ℝ → ℝ),
    (∀ x s, (F x s).1 = f x) → ∀ (a b M : ℝ), a < b → ContDiffOn ℝ (2 * (p + 1) : ℕ) f (Icc a b) →
    (∀ x ∈ Icc a b, |iteratedDerivWithin (2 * (p + 1)) f (Icc a b) x| ≤ M) → ∀ n, 2 ≤ n → p < n → n ≤ 31 → ∀ s,
    |(rombergOne F a b n p s).1 - ∫ x in a..b, f x| ≤ C * M * (b - a) * ((b - a) / 2 ^ (n - 1)) ^ (2 * (p + 1)) := by
  refine ⟨errConst p, fun σ F f hF a b M hab hf hM n hn hpn hn' s => ?_⟩
  obtain ⟨h1, -, -⟩ := rombergOne_ok hF a b hn hn' hp (fun _ => 0) 0 (fun _ _ => rfl) s
  rw [h1, show min p (n - 1) = p by omega]
  exact Rv_error hab (by omega) hf hM

/-- **C47** the estimate is exact for polynomials of degree at most `2 p + 1`; the limits can be in any order. -/
theorem rombergOne_exact_partial (P : Polynomial ℝ) (hF : ∀ x s, (F x s).1 = P.eval x) (a b : ℝ) {n p : ℕ} (hn : 2 ≤ n) (hn' : n ≤ 31)
    (hpn : p < n) (hp : p ≤ 15) (hP : P.natDegree ≤ 2 * p + 1) (s : σ) : (rombergOne F a b n p s).1 = ∫ x in a..b, P.eval x := by
  obtain ⟨h1, -, -⟩ := rombergOne_ok hF a b hn hn' hp (fun _ => 0) 0 (fun _ _ => rfl) s
  rw [h1, show min p (n - 1) = p by omega]
  exact Rv_exact P a b hP (by omega)

/-- **C47** the error estimate `e` is the distance between the result and the result for `n - 1` -/
theorem rombergOne_error_estimate (hF : ∀ x s, (F x s).1 = f x) (a b : ℝ) {n p : ℕ} (hn : 3 ≤ n) (hn' : n ≤ 31) (hp : p ≤ 15) (s s' : σ) :
    (rombergOne F a b n p s).2.1 = |(rombergOne F a b n p s).1 - (rombergOne F a b (n - 1) p s').1| := by
  obtain ⟨h1, h2, -⟩ := rombergOne_ok hF a b (n := n) (by omega) hn' hp (fun _ => 0) 0 (fun _ _ => rfl) s
  obtain ⟨h3, -, -⟩ := rombergOne_ok hF a b (n := n - 1) (by omega) (by omega) hp (fun _ => 0) 0 (fun _ _ => rfl) s'
  rw [h1, h2, h3]
  rfl

/-- **C47** a smooth `F`: the true error is at most the sum of `e` and the error for `n - 1`, so `e` has the same order -/
theorem rombergOne_error_nonneg (hF : ∀ x s, (F x s).1 = f x) (a b : ℝ) {n p : ℕ} (hn : 2 ≤ n) (hn' : n ≤ 31) (hp : p ≤ 15) (s : σ) :
    0 ≤ (rombergOne F a b n p s).2.1 := by
  obtain ⟨-, h2, -⟩ := rombergOne_ok hF a b hn hn' hp (fun _ => 0) 0 (fun _ _ => rfl) s
  rw [h2]
  exact abs_nonneg _

/-- **C47** the number of evaluations of `F` is `2^(n-1) + 1`, romberg_one.hpp:87-88 -/
theorem rombergOne_evaluations (hF : ∀ x s, (F x s).1 = f x) (c : σ → ℕ) (hc : ∀ x s, c (F x s).2 = c s + 1) (a b : ℝ) {n p : ℕ}
    (hn : 2 ≤ n) (hn' : n ≤ 31) (hp : p ≤ 15) (s : σ) : c (rombergOne F a b n p s).2.2 = c s + (2 ^ (n - 1) + 1) := by
  obtain ⟨-, -, h3⟩ := rombergOne_ok hF a b hn hn' hp c 1 hc s
  rw [h3, one_mul]

/-! ## the claim for `p = n` and for `p = 16` -/

/-- Documentation: `p` must be less than or equal `n`.  With `p = n = 2` the result for `F(x) = x^4` on `[0, b]` has an error
`b^5 / 120`, which is not `O[ b / 2 ]^6`. -/
theorem rombergOne_top_wrong : ¬ ∃ C : ℝ, ∀ b : ℝ, 0 < b → b ≤ 1 →
    |(rombergOne (fun x (_ : Unit) => (x ^ 4, ())) 0 b 2 2 ()).1 - ∫ x in (0 : ℝ)..b, x ^ 4| ≤ C * (b / 2 ^ (2 - 1)) ^ (2 * (2 + 1)) := by
  rintro ⟨C, h⟩
  have key : ∀ b : ℝ, 0 < b → (rombergOne (fun x (_ : Unit) => (x ^ 4, ())) 0 b 2 2 ()).1 - ∫ x in (0 : ℝ)..b, x ^ 4 = b ^ 5 / 120 := by
    intro b hb
    obtain ⟨h1, -, -⟩ := rombergOne_ok (F := fun x (_ : Unit) => (x ^ 4, ())) (f := fun x => x ^ 4) (fun _ _ => rfl) 0 b (n := 2) (p := 2)
      (by omega) (by omega) (by omega) (fun _ => 0) 0 (fun _ _ => rfl) ()
    rw [h1, integral_pow]
    simp [Rv, trap, node, Finset.sum_range_succ]
    field_simp
    ring
  have hC : 0 ≤ C := by
    have := (abs_nonneg _).trans (h 1 one_pos le_rfl)
    norm_num at this
    linarith
  have hb : (0 : ℝ) < 1 / (2 * C + 2) := by positivity
  have := h (1 / (2 * C + 2)) hb (by rw [div_le_one (by positivity)]; linarith)
  rw [key _ hb, abs_of_nonneg (by positivity)] at this
  have h5 : (1 / (2 * C + 2)) ^ 5 / 120 ≤ (1 / (2 * C + 2)) ^ 5 * (C * (1 / (2 * C + 2)) / 64) := by
    generalize 1 / (2 * C + 2) = w at this ⊢
    calc _ ≤ _ := this
      _ = _ := by norm_num; ring
  have h6 : (1 : ℝ) / 120 ≤ C * (1 / (2 * C + 2)) / 64 := by
    have h0 : (0 : ℝ) < (1 / (2 * C + 2)) ^ 5 := by positivity
    by_contra hn
    push Not at hn
    have := mul_lt_mul_of_pos_left hn h0
    linarith
  have h7 : C * (1 / (2 * C + 2)) ≤ 1 / 2 := by
    rw [mul_one_div, div_le_iff₀ (by positivity)]
    linarith
  linarith

theorem trap_one (i : ℕ) : trap (fun _ => 1) 0 1 (2 ^ i) = 1 := by
  have := trap_monomial 0 (N := 2 ^ i) (by positivity)
  simpa [cf] using this

theorem Rv_one : ∀ j i, Rv (fun _ => 1) j i = 1 := by
  intro j
  induction j with
  | zero => intro i; rfl
  | succ j ih =>
    intro i
    have h4 : (1 : ℝ) < 4 ^ (j + 1) := one_lt_pow₀ (by norm_num) (by omega)
    rw [Rv, ih, ih, mul_one, div_self (by linarith)]

theorem high_16 (T : ℕ → ℝ) (r : Vec) (hr : ∀ k < 17, r k = T k) (hT : ∀ k, T k = 1) :
    (forRange 0 16 (1, r) (highStep 17)).2 16 = -1 / (4 ^ 16 - 1) := by
  have h3 := highLoop_ok T 17 (p := 15) le_rfl r hr
  have h4 : (forRange 0 15 (1, r) (highStep 17)).1 = 4 ^ 15 :=
    forRange_ind (Nat.zero_le 15) (s := ((1, r) : ℕ × Vec)) (f := highStep 17) (P := fun i (t : ℕ × Vec) => t.1 = 4 ^ i) (by simp)
      (by rintro i ⟨q, v⟩ _ _ rfl; unfold highStep; dsimp only; ring)
  rw [forRange_succ (Nat.zero_le 15)]
  generalize forRange 0 15 (1, r) (highStep 17) = v at h3 h4 ⊢
  have hT' : T = fun _ => 1 := funext hT
  have h5 : v.2 16 = 1 := by rw [h3 16 (by omega), hT', Rv_one]
  have h6 : v.2 15 = 1 := by rw [h3 15 (by omega), hT', Rv_one]
  have h7 : toInt (v.1 * 4) = 0 := by rw [h4]; norm_num [toInt]
  have h8 : ((v.1 * 4 - 1 : ℕ) : ℝ) = 4 ^ 16 - 1 := by rw [h4]; norm_num
  unfold highStep
  dsimp only
  rw [h7, h8, show 17 - 1 - 15 = 0 + 1 by rfl, forDown, forDown]
  simp only [Nat.zero_add, show 15 + 1 = 16 by rfl, Function.update_self]
  rw [show 16 - 1 = 15 by rfl, h5, h6]
  norm_num

theorem rombergOne_fst (F : ℝ → σ → ℝ × σ) (a b : ℝ) (n p : ℕ) (s : σ) : (rombergOne F a b n p s).1 =
    (forRange 0 p (1, (forRange 1 n (1, Function.update (fun _ => 0) 0 (((F a s).1 + (F b (F a s).2).1) * (b - a) / 2), (F b (F a s).2).2)
      (trapStep F a b)).2.1) (highStep n)).2 (n - 1) := rfl

/-- With `n = 17` and `p = 16` the conversion `int(ipow4)` of `4^16` is zero: the result for the constant function one on `[0, 1]` is
a negative number. -/
theorem rombergOne_int_wrong (hF : ∀ x s, (F x s).1 = 1) (s : σ) : (rombergOne F 0 1 17 16 s).1 = -1 / (4 ^ 16 - 1) ∧
    (∫ _ in (0 : ℝ)..1, (1 : ℝ)) = 1 := by
  refine ⟨?_, by simp⟩
  have h0 : (Function.update (fun _ => (0 : ℝ)) 0 (((F 0 s).1 + (F 1 (F 0 s).2).1) * (1 - 0) / 2) : Vec) 0 = trap (fun _ => 1) 0 1 1 := by
    have := trap_one 0
    rw [pow_zero] at this
    rw [this, Function.update_self, hF, hF]
    norm_num
  have h1 := (trapLoop_ok (f := fun _ => 1) hF 0 1 (n := 17) (by omega) (by omega)
    (fun _ => 0) 0 (fun _ _ => rfl) _ h0 (F 1 (F 0 s).2).2).1
  rw [rombergOne_fst, show 17 - 1 = 16 by rfl]
  have h2 := high_16 _ _ h1 trap_one
  rw [h2]

/-! ## the hypotheses are met -/

/-- `∫ x^3` on `[1, 2]` with `n = 3`, `p = 1` is exact -/
example : (rombergOne (fun x (k : ℕ) => (x ^ 3, k + 1)) 1 2 3 1 0).1 = 15 / 4 ∧
    (rombergOne (fun x (k : ℕ) => (x ^ 3, k + 1)) 1 2 3 1 0).2.2 = 5 := by
  constructor
  · rw [rombergOne_exact_partial (Polynomial.X ^ 3) (by simp) 1 2 (n := 3) (p := 1) (by omega) (by omega) (by omega) (by omega) (by simp)]
    simp
    norm_num
  · rw [rombergOne_evaluations (f := fun x => x ^ 3) (fun _ _ => rfl) (fun k => k) (fun _ _ => rfl) 1 2 (n := 3) (p := 1)
      (by omega) (by omega) (by omega) 0]
    norm_num

/-- the exponential function on `[0, 1]` meets the hypotheses of `rombergOne_order_partial` -/
example (p : ℕ) : ∃ M, ContDiffOn ℝ (2 * (p + 1) : ℕ) Real.exp (Icc 0 1) ∧
    ∀ x ∈ Icc (0 : ℝ) 1, |iteratedDerivWithin (2 * (p + 1)) Real.exp (Icc 0 1) x| ≤ M := by
  have h : ContDiffOn ℝ (2 * (p + 1) : ℕ) Real.exp (Icc 0 1) := Real.contDiff_exp.contDiffOn
  have hc := h.continuousOn_iteratedDerivWithin (le_refl _) (uniqueDiffOn_Icc one_pos)
  obtain ⟨M, hM⟩ := isCompact_Icc.exists_bound_of_continuousOn hc
  exact ⟨M, h, hM⟩

end CppAD.Romberg
