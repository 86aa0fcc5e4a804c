import Verif.Romberg.Model
import Mathlib.Algebra.BigOperators.Ring.Finset
import Mathlib.Algebra.BigOperators.Field
import Mathlib.Tactic.FieldSimp
import Mathlib.Tactic.NormNum
import Mathlib.Tactic.IntervalCases

/-! # The value computed by `RombergOne` in terms of trapezoidal rules -/

namespace CppAD.Romberg

/-- the `k`-th of `N + 1` equally spaced points in `[a, b]` -/
noncomputable def node (a b : ℝ) (N k : ℕ) : ℝ := a + (b - a) * k / N

/-- the trapezoidal rule with `N` intervals -/
noncomputable def trap (f : ℝ → ℝ) (a b : ℝ) (N : ℕ) : ℝ :=
  ∑ k ∈ Finset.range N, (f (node a b N k) + f (node a b N (k + 1))) / 2 * ((b - a) / N)

/-- Richardson extrapolation of the sequence `T` -/
noncomputable def Rv (T : ℕ → ℝ) : ℕ → ℕ → ℝ
  | 0, i => T i
  | j + 1, i => (4 ^ (j + 1) * Rv T j i - Rv T j (i - 1)) / (4 ^ (j + 1) - 1)

theorem toInt_of_lt {m : ℕ} (h : m < 2 ^ 31) : toInt m = m := by
  unfold toInt
  have h : (m : ℤ) < 2 ^ 31 := by exact_mod_cast h
  omega

theorem sum_pairs (g : ℕ → ℝ) (N : ℕ) : ∑ k ∈ Finset.range (2 * N), g k = ∑ j ∈ Finset.range N, (g (2 * j) + g (2 * j + 1)) := by
  induction N with
  | zero => simp
  | succ N ih =>
    rw [show 2 * (N + 1) = 2 * N + 1 + 1 by ring, Finset.sum_range_succ, Finset.sum_range_succ, Finset.sum_range_succ, ih]
    ring

theorem node_double {a b : ℝ} {N : ℕ} (hN : 0 < N) (k : ℕ) : node a b (2 * N) (2 * k) = node a b N k := by
  have : (N : ℝ) ≠ 0 := by positivity
  unfold node
  push_cast
  field_simp

/-- romberg_one.hpp:186 -/
theorem trap_double (f : ℝ → ℝ) (a b : ℝ) {N : ℕ} (hN : 0 < N) :
    trap f a b (2 * N) = trap f a b N / 2 + (∑ j ∈ Finset.range N, f (node a b (2 * N) (2 * j + 1))) * (b - a) / ((2 * N : ℕ) : ℝ) := by
  unfold trap
  rw [sum_pairs, Finset.sum_mul, Finset.sum_div, Finset.sum_div, ← Finset.sum_add_distrib]
  refine Finset.sum_congr rfl fun j _ => ?_
  rw [node_double hN, show 2 * j + 1 + 1 = 2 * (j + 1) by ring, node_double hN]
  have : (N : ℝ) ≠ 0 := by positivity
  push_cast
  field_simp
  ring

theorem trapLoop_ok {σ : Type} {F : ℝ → σ → ℝ × σ} {f : ℝ → ℝ} (hF : ∀ x s, (F x s).1 = f x) (a b : ℝ) {n : ℕ} (hn : 1 ≤ n)
    (hn' : n ≤ 31) (c : σ → ℕ) (d : ℕ) (hc : ∀ x s, c (F x s).2 = c s + d) (r : Vec) (hr : r 0 = trap f a b 1) (s : σ) :
    let t := forRange 1 n (1, r, s) (trapStep F a b)
    (∀ k < n, t.2.1 k = trap f a b (2 ^ k)) ∧ c t.2.2 = c s + d * (2 ^ (n - 1) - 1) := by
  have := forRange_ind hn (s := ((1, r, s) : ℕ × Vec × σ)) (f := trapStep F a b)
    (P := fun i (t : ℕ × Vec × σ) => t.1 = 2 ^ (i - 1) ∧ (∀ k < i, t.2.1 k = trap f a b (2 ^ k)) ∧ c t.2.2 = c s + d * (2 ^ (i - 1) - 1))
    ⟨by simp, fun k hk => by rw [show k = 0 by omega]; simpa using hr, by simp⟩ ?_
  · exact this.2
  · rintro i ⟨q, v, u⟩ h1 h2 ⟨e1, e2, e3⟩
    dsimp only at e1 e2 e3
    subst e1
    obtain ⟨i, rfl⟩ : ∃ j, i = j + 1 := ⟨i - 1, by omega⟩
    rw [Nat.add_sub_cancel] at e3 ⊢
    have hlt : 2 ^ i * 2 < 2 ^ 31 := by
      rw [← pow_succ]
      exact Nat.pow_lt_pow_right (by norm_num) (by omega)
    have hpos : 0 < 2 ^ i := by positivity
    have key := forRange_ind (Nat.zero_le (2 ^ i * 2 / 2)) (s := ((0 : ℝ), u)) (f := fun j (u : ℝ × σ) =>
        let k : ℕ := 2 * j + 1
        let x := (((toInt (2 ^ i * 2) : ℤ) - k : ℝ) * a + k * b) / (toInt (2 ^ i * 2) : ℤ)
        let y := F x u.2
        (u.1 + y.1, y.2))
      (P := fun j (w : ℝ × σ) => w.1 = ∑ j ∈ Finset.range j, f (node a b (2 ^ i * 2) (2 * j + 1)) ∧ c w.2 = c u + d * j)
      ⟨by simp, by simp⟩ ?_
    · rw [Nat.mul_div_cancel _ (by norm_num)] at key
      unfold trapStep
      dsimp only
      rw [Nat.mul_div_cancel _ (by norm_num)]
      rw [show i + 1 + 1 - 1 = i + 1 by omega, show i + 1 - 1 = i by omega]
      refine ⟨by ring, fun k hk => ?_, ?_⟩
      · rw [Function.update_apply]
        split_ifs with hk'
        · subst hk'
          rw [e2 i (by omega), toInt_of_lt hlt]
          have h3 := trap_double f a b hpos
          rw [mul_comm 2 (2 ^ i)] at h3
          rw [pow_succ, h3]
          refine congrArg₂ _ rfl (congrArg₂ _ (congrArg₂ _ ?_ rfl) ?_)
          · rw [← key.1, toInt_of_lt hlt]
          · simp
        · exact e2 k (by omega)
      · rw [key.2, e3, pow_succ, show 2 ^ i * 2 - 1 = (2 ^ i - 1) + 2 ^ i by omega]
        ring
    · rintro j ⟨w, u'⟩ _ _ ⟨g1, g2⟩
      dsimp only at g1 g2 ⊢
      refine ⟨?_, by rw [hc, g2]; ring⟩
      rw [Finset.sum_range_succ, ← g1, hF, toInt_of_lt hlt]
      congr 2
      unfold node
      have : ((2 ^ i : ℕ) : ℝ) ≠ 0 := by positivity
      push_cast at this ⊢
      field_simp
      ring

theorem highLoop_ok (T : ℕ → ℝ) (n : ℕ) {p : ℕ} (hp : p ≤ 15) (r : Vec) (hr : ∀ k < n, r k = T k) :
    ∀ k < n, (forRange 0 p (1, r) (highStep n)).2 k = Rv T (min p k) k := by
  have := forRange_ind (Nat.zero_le p) (s := ((1, r) : ℕ × Vec)) (f := highStep n)
    (P := fun i (t : ℕ × Vec) => t.1 = 4 ^ i ∧ ∀ k < n, t.2 k = Rv T (min i k) k)
    ⟨by simp, fun k hk => by simpa [Rv] using hr k hk⟩ ?_
  · exact this.2
  · rintro i ⟨q, v⟩ - h2 ⟨e1, e2⟩
    dsimp only at e1 e2
    subst e1
    have hlt : 4 ^ i * 4 < 2 ^ 31 := by
      rw [← pow_succ]
      calc 4 ^ (i + 1) ≤ 4 ^ 15 := Nat.pow_le_pow_right (by norm_num) (by omega)
        _ < _ := by norm_num
    unfold highStep
    refine ⟨by dsimp only; ring, ?_⟩
    dsimp only
    have key := forDown_ind (n := n - 1 - i) (s := v) (f := fun j (r : Vec) =>
        let k := i + j
        Function.update r k ((((toInt (4 ^ i * 4) : ℤ) : ℝ) * r k - r (k - 1)) / ((4 ^ i * 4 - 1 : ℕ) : ℝ)))
      (P := fun j (w : Vec) => ∀ k < n, w k = if i + j < k then Rv T (i + 1) k else Rv T (min i k) k)
      (by intro k hk; rw [if_neg (by omega)]; exact e2 k hk) ?_
    · intro k hk
      rw [key k hk]
      split_ifs with h
      · congr 1; omega
      · congr 1; omega
    · intro j w hj hw k hk
      dsimp only
      rw [Function.update_apply]
      split_ifs with h1 h3 h3
      · subst h1
        rw [hw _ hk, if_neg (by omega), hw _ (by omega), if_neg (by omega), toInt_of_lt hlt, Rv]
        rw [show min i (i + (j + 1)) = i by omega, show min i (i + (j + 1) - 1) = i by omega]
        have h1 : 1 ≤ 4 ^ i * 4 := by have : 0 < 4 ^ i := by positivity
                                      omega
        rw [Nat.cast_sub h1]
        push_cast
        rw [pow_succ]
      · omega
      · rw [hw k hk, if_pos (by omega)]
      · rw [hw k hk, if_neg (by omega)]

/-- what `RombergOne` returns, provided that the conversions to `int` do not overflow, and the number of evaluations of `F` -/
theorem rombergOne_ok {σ : Type} {F : ℝ → σ → ℝ × σ} {f : ℝ → ℝ} (hF : ∀ x s, (F x s).1 = f x) (a b : ℝ) {n p : ℕ} (hn : 2 ≤ n)
    (hn' : n ≤ 31) (hp : p ≤ 15) (c : σ → ℕ) (d : ℕ) (hc : ∀ x s, c (F x s).2 = c s + d) (s : σ) :
    let T := fun i => trap f a b (2 ^ i)
    (rombergOne F a b n p s).1 = Rv T (min p (n - 1)) (n - 1) ∧
    (rombergOne F a b n p s).2.1 = |Rv T (min p (n - 1)) (n - 1) - Rv T (min p (n - 2)) (n - 2)| ∧
    c (rombergOne F a b n p s).2.2 = c s + d * (2 ^ (n - 1) + 1) := by
  dsimp only
  have h0 : (Function.update (fun _ => (0 : ℝ)) 0 (((F a s).1 + (F b (F a s).2).1) * (b - a) / 2) : Vec) 0 = trap f a b 1 := by
    rw [Function.update_self, hF, hF]
    simp [trap, node]
    ring
  obtain ⟨h1, h2⟩ := trapLoop_ok hF a b (by omega) hn' c d hc _ h0 (F b (F a s).2).2
  have h3 := highLoop_ok (fun i => trap f a b (2 ^ i)) n hp _ h1
  unfold rombergOne
  dsimp only
  rw [h3 (n - 1) (by omega), h3 (n - 2) (by omega)]
  refine ⟨rfl, ?_, ?_⟩
  · split_ifs with h
    · rw [abs_of_neg h]
    · rw [abs_of_nonneg (not_lt.1 h)]
  · rw [h2, hc, hc]
    have : 0 < 2 ^ (n - 1) := by positivity
    obtain ⟨q, hq⟩ : ∃ q, 2 ^ (n - 1) = q + 1 := ⟨2 ^ (n - 1) - 1, by omega⟩
    rw [hq, Nat.add_sub_cancel]
    ring

end CppAD.Romberg
