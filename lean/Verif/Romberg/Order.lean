import Verif.Romberg.Exact
import Mathlib.Analysis.Calculus.Taylor
import Mathlib.Topology.Algebra.Polynomial

/-! # The order of the error of Romberg integration -/

open scoped Nat
open Set

namespace CppAD.Romberg

theorem node_mem {a b : ℝ} (h : a ≤ b) {N k : ℕ} (hk : k ≤ N) : node a b N k ∈ Icc a b := by
  unfold node
  have h1 : (0 : ℝ) ≤ (k : ℝ) / N := by positivity
  have h2 : (k : ℝ) / N ≤ 1 := div_le_one_of_le₀ (by exact_mod_cast hk) (by positivity)
  rw [mul_div_assoc]
  constructor
  · nlinarith
  · nlinarith

theorem trap_congr {f g : ℝ → ℝ} {a b : ℝ} (h : a ≤ b) (hfg : ∀ x ∈ Icc a b, f x = g x) (N : ℕ) : trap f a b N = trap g a b N := by
  unfold trap
  refine Finset.sum_congr rfl fun k hk => ?_
  have hk := Finset.mem_range.1 hk
  rw [hfg _ (node_mem h hk.le), hfg _ (node_mem h hk)]

theorem trap_add (f g : ℝ → ℝ) (a b : ℝ) (N : ℕ) : trap (fun x => f x + g x) a b N = trap f a b N + trap g a b N := by
  unfold trap
  rw [← Finset.sum_add_distrib]
  exact Finset.sum_congr rfl fun k _ => by ring

theorem Rv_add (T T' : ℕ → ℝ) : ∀ j i, Rv (fun i => T i + T' i) j i = Rv T j i + Rv T' j i := by
  intro j
  induction j with
  | zero => intro i; rfl
  | succ j ih => intro i; simp only [Rv, ih]; ring

theorem trap_bound {f : ℝ → ℝ} {a b M : ℝ} (h : a ≤ b) (hf : ∀ x ∈ Icc a b, |f x| ≤ M) (N : ℕ) (hN : 0 < N) :
    |trap f a b N| ≤ (b - a) * M := by
  have hN' : (N : ℝ) ≠ 0 := by positivity
  calc |trap f a b N| ≤ ∑ k ∈ Finset.range N, M * ((b - a) / N) := by
        refine (Finset.abs_sum_le_sum_abs _ _).trans (Finset.sum_le_sum fun k hk => ?_)
        have hk := Finset.mem_range.1 hk
        rw [abs_mul, abs_of_nonneg (a := (b - a) / N) (div_nonneg (by linarith) (by positivity))]
        refine mul_le_mul_of_nonneg_right ?_ (div_nonneg (by linarith) (by positivity))
        have h1 := abs_le.1 (hf _ (node_mem h hk.le))
        have h2 := abs_le.1 (hf _ (node_mem h hk))
        rw [abs_le]
        constructor <;> linarith [h1.1, h1.2, h2.1, h2.2]
    _ = (b - a) * M := by
        rw [Finset.sum_const, Finset.card_range, nsmul_eq_mul]
        field_simp

theorem Rv_bound {T : ℕ → ℝ} {B : ℝ} (hT : ∀ i, |T i| ≤ B) : ∀ j i, |Rv T j i| ≤ (5 / 3) ^ j * B := by
  have hB : 0 ≤ B := (abs_nonneg _).trans (hT 0)
  intro j
  induction j with
  | zero => intro i; simpa [Rv] using hT i
  | succ j ih =>
    intro i
    rw [Rv, abs_div]
    have h4 : (4 : ℝ) ≤ 4 ^ (j + 1) := by
      calc (4 : ℝ) = 4 ^ 1 := by norm_num
        _ ≤ _ := pow_le_pow_right₀ (by norm_num) (by omega)
    have h0 : (0 : ℝ) < 4 ^ (j + 1) - 1 := by linarith
    rw [abs_of_pos h0, div_le_iff₀ h0]
    have h1 := abs_le.1 (ih i)
    have h2 := abs_le.1 (ih (i - 1))
    have hw : (0 : ℝ) ≤ (5 / 3) ^ j * B := by positivity
    have e : (5 / 3 : ℝ) ^ (j + 1) * B * (4 ^ (j + 1) - 1) = 5 / 3 * ((5 / 3 : ℝ) ^ j * B) * (4 ^ (j + 1) - 1) := by ring
    rw [e]
    generalize Rv T j i = u at *
    generalize Rv T j (i - 1) = v at *
    generalize (5 / 3 : ℝ) ^ j * B = w at *
    generalize (4 : ℝ) ^ (j + 1) = X at *
    have h5 : X * u ≤ X * w := mul_le_mul_of_nonneg_left h1.2 (by linarith)
    have h6 : X * -w ≤ X * u := mul_le_mul_of_nonneg_left h1.1 (by linarith)
    have h7 : (X + 1) * w ≤ 5 / 3 * w * (X - 1) := by nlinarith
    rw [abs_le]
    constructor <;> nlinarith [h2.1, h2.2]

/-! ## composite rules -/

theorem node_sub {a b : ℝ} {Q N : ℕ} (hQ : 0 < Q) (hN : 0 < N) (s k : ℕ) :
    node (node a b Q s) (node a b Q (s + 1)) N k = node a b (Q * N) (s * N + k) := by
  have hN' : (N : ℝ) ≠ 0 := by positivity
  have hQ' : (Q : ℝ) ≠ 0 := by positivity
  unfold node
  push_cast
  field_simp
  ring

theorem sum_blocks (g : ℕ → ℝ) (N : ℕ) : ∀ Q, ∑ k ∈ Finset.range (Q * N), g k = ∑ s ∈ Finset.range Q, ∑ k ∈ Finset.range N, g (s * N + k) := by
  intro Q
  induction Q with
  | zero => simp
  | succ Q ih => rw [Nat.succ_mul, Finset.sum_range_add, ih, Finset.sum_range_succ]

theorem trap_blocks (f : ℝ → ℝ) (a b : ℝ) {Q N : ℕ} (hQ : 0 < Q) (hN : 0 < N) :
    trap f a b (Q * N) = ∑ s ∈ Finset.range Q, trap f (node a b Q s) (node a b Q (s + 1)) N := by
  have hN' : (N : ℝ) ≠ 0 := by positivity
  have hQ' : (Q : ℝ) ≠ 0 := by positivity
  unfold trap
  rw [sum_blocks]
  refine Finset.sum_congr rfl fun s _ => Finset.sum_congr rfl fun k _ => ?_
  rw [node_sub hQ hN, node_sub hQ hN, ← add_assoc]
  congr 1
  unfold node
  push_cast
  field_simp
  ring

theorem Rv_blocks (f : ℝ → ℝ) (a b : ℝ) (q : ℕ) : ∀ j i, j ≤ i →
    Rv (fun i => trap f a b (2 ^ i)) j (q + i) =
      ∑ s ∈ Finset.range (2 ^ q), Rv (fun i => trap f (node a b (2 ^ q) s) (node a b (2 ^ q) (s + 1)) (2 ^ i)) j i := by
  intro j
  induction j with
  | zero => intro i _; simp only [Rv]; rw [pow_add, trap_blocks f a b (by positivity) (by positivity)]
  | succ j ih =>
    intro i hi
    simp only [Rv]
    rw [ih i (by omega), show q + i - 1 = q + (i - 1) by omega, ih (i - 1) (by omega), Finset.mul_sum, ← Finset.sum_sub_distrib,
      Finset.sum_div]

/-! ## the error -/

/-- the Taylor polynomial -/
noncomputable def taylorPoly (f : ℝ → ℝ) (n : ℕ) (s : Set ℝ) (x0 : ℝ) : Polynomial ℝ :=
  ∑ k ∈ Finset.range (n + 1), Polynomial.C ((k ! : ℝ)⁻¹ * iteratedDerivWithin k f s x0) * (Polynomial.X - Polynomial.C x0) ^ k

theorem taylorPoly_eval (f : ℝ → ℝ) (n : ℕ) (s : Set ℝ) (x0 x : ℝ) : (taylorPoly f n s x0).eval x = taylorWithinEval f n s x0 x := by
  rw [taylor_within_apply, taylorPoly, Polynomial.eval_finsetSum]
  refine Finset.sum_congr rfl fun k _ => ?_
  simp
  ring

theorem taylorPoly_degree (f : ℝ → ℝ) (n : ℕ) (s : Set ℝ) (x0 : ℝ) : (taylorPoly f n s x0).natDegree ≤ n := by
  refine Polynomial.natDegree_sum_le_of_forall_le _ _ fun k hk => ?_
  have hk := Finset.mem_range.1 hk
  refine (Polynomial.natDegree_C_mul_le _ _).trans ?_
  refine (Polynomial.natDegree_pow_le).trans ?_
  rw [Polynomial.natDegree_X_sub_C]
  omega

/-- the error on one block -/
theorem block_error {f : ℝ → ℝ} {c d M : ℝ} (h : c < d) (p : ℕ) (hf : ContDiffOn ℝ (2 * p + 2 : ℕ) f (Icc c d))
    (hM : ∀ x ∈ Icc c d, |iteratedDerivWithin (2 * p + 2) f (Icc c d) x| ≤ M) :
    |Rv (fun i => trap f c d (2 ^ i)) p p - ∫ x in c..d, f x| ≤ ((5 / 3) ^ p + 1) * (d - c) * (M * (d - c) ^ (2 * p + 2) / (2 * p + 1)!) := by
  set P := taylorPoly f (2 * p + 1) (Icc c d) c with hP
  have hM0 : 0 ≤ M := (abs_nonneg _).trans (hM c ⟨le_rfl, h.le⟩)
  have hr : ∀ x ∈ Icc c d, |f x - P.eval x| ≤ M * (d - c) ^ (2 * p + 2) / (2 * p + 1)! := by
    intro x hx
    rw [hP, taylorPoly_eval]
    have := taylor_mean_remainder_bound (n := 2 * p + 1) h.le (by exact_mod_cast hf) hx hM
    refine this.trans ?_
    have h1 : (x - c) ^ (2 * p + 1 + 1) ≤ (d - c) ^ (2 * p + 2) := pow_le_pow_left₀ (by linarith [hx.1]) (by linarith [hx.2]) _
    gcongr
  set E := M * (d - c) ^ (2 * p + 2) / ((2 * p + 1)! : ℝ) with hE
  have hc : ContinuousOn f (Icc c d) := hf.continuousOn
  have hi : IntervalIntegrable f MeasureTheory.volume c d := by
    refine ContinuousOn.intervalIntegrable ?_
    rw [uIcc_of_le h.le]; exact hc
  have hPi : IntervalIntegrable (fun x => P.eval x) MeasureTheory.volume c d := (by fun_prop : Continuous fun x => P.eval x).intervalIntegrable _ _
  have e1 : Rv (fun i => trap f c d (2 ^ i)) p p = Rv (fun i => trap (fun x => f x - P.eval x) c d (2 ^ i)) p p + ∫ x in c..d, P.eval x := by
    rw [← Rv_exact P c d (taylorPoly_degree _ _ _ _) le_rfl, ← Rv_add]
    refine Rv_congr (fun i => ?_) p p
    rw [← trap_add]
    simp
  have e2 : (∫ x in c..d, f x) = (∫ x in c..d, (f x - P.eval x)) + ∫ x in c..d, P.eval x := by
    rw [intervalIntegral.integral_sub hi hPi]; ring
  have b1 := Rv_bound (fun i => trap_bound h.le hr (2 ^ i) (by positivity)) p p
  have b2 : |∫ x in c..d, (f x - P.eval x)| ≤ E * |d - c| := by
    rw [← Real.norm_eq_abs]
    refine intervalIntegral.norm_integral_le_of_norm_le_const fun x hx => ?_
    rw [uIoc_of_le h.le] at hx
    exact hr x ⟨hx.1.le, hx.2⟩
  rw [abs_of_pos (a := d - c) (by linarith)] at b2
  rw [e1, e2]
  generalize Rv (fun i => trap (fun x => f x - P.eval x) c d (2 ^ i)) p p = u at *
  generalize (∫ x in c..d, (f x - P.eval x)) = v at *
  have b1' := abs_le.1 b1
  have b2' := abs_le.1 b2
  rw [abs_le]
  constructor <;> nlinarith

/-- the constant in the error bound, it only depends on `p` -/
noncomputable def errConst (p : ℕ) : ℝ := ((5 / 3) ^ p + 1) * 2 ^ (p * (2 * p + 2)) / (2 * p + 1)!

theorem Rv_error {f : ℝ → ℝ} {a b M : ℝ} (h : a < b) {p n : ℕ} (hp : p ≤ n) (hf : ContDiffOn ℝ (2 * p + 2 : ℕ) f (Icc a b))
    (hM : ∀ x ∈ Icc a b, |iteratedDerivWithin (2 * p + 2) f (Icc a b) x| ≤ M) :
    |Rv (fun i => trap f a b (2 ^ i)) p n - ∫ x in a..b, f x| ≤ errConst p * M * (b - a) * ((b - a) / 2 ^ n) ^ (2 * p + 2) := by
  obtain ⟨q, rfl⟩ : ∃ q, n = q + p := ⟨n - p, by omega⟩
  rw [Rv_blocks f a b q p p le_rfl]
  have hQ : (0 : ℝ) < 2 ^ q := by positivity
  have hlt : ∀ s : ℕ, node a b (2 ^ q) s < node a b (2 ^ q) (s + 1) := by
    intro s
    unfold node
    have : (0 : ℝ) < b - a := by linarith
    push_cast
    gcongr
    linarith
  have hlen : ∀ s : ℕ, node a b (2 ^ q) (s + 1) - node a b (2 ^ q) s = (b - a) / 2 ^ q := by
    intro s
    unfold node
    push_cast
    field_simp
    ring
  have hsub : ∀ s < 2 ^ q, Icc (node a b (2 ^ q) s) (node a b (2 ^ q) (s + 1)) ⊆ Icc a b := fun s hs =>
    Icc_subset_Icc (node_mem h.le hs.le).1 (node_mem h.le hs).2
  have hint : (∫ x in a..b, f x) = ∑ s ∈ Finset.range (2 ^ q), ∫ x in node a b (2 ^ q) s..node a b (2 ^ q) (s + 1), f x := by
    rw [intervalIntegral.sum_integral_adjacent_intervals]
    · congr 1
      · simp [node]
      · unfold node; push_cast; field_simp; ring
    · intro k hk
      refine ContinuousOn.intervalIntegrable ?_
      rw [uIcc_of_le (hlt k).le]
      exact hf.continuousOn.mono (hsub k hk)
  rw [hint, ← Finset.sum_sub_distrib]
  refine (Finset.abs_sum_le_sum_abs _ _).trans ?_
  calc _ ≤ ∑ s ∈ Finset.range (2 ^ q), ((5 / 3) ^ p + 1) * ((b - a) / 2 ^ q) * (M * ((b - a) / 2 ^ q) ^ (2 * p + 2) / ((2 * p + 1)! : ℝ)) := by
        refine Finset.sum_le_sum fun s hs => ?_
        have hs := Finset.mem_range.1 hs
        rw [← hlen s]
        refine block_error (hlt s) p (hf.mono (hsub s hs)) fun x hx => ?_
        have : iteratedDerivWithin (2 * p + 2) f (Icc (node a b (2 ^ q) s) (node a b (2 ^ q) (s + 1))) x
            = iteratedDerivWithin (2 * p + 2) f (Icc a b) x := by
          unfold iteratedDerivWithin
          rw [iteratedFDerivWithin_subset (hsub s hs) (uniqueDiffOn_Icc (hlt s)) (uniqueDiffOn_Icc h) hf hx]
        rw [this]
        exact hM x (hsub s hs hx)
    _ = _ := by
        rw [Finset.sum_const, Finset.card_range, nsmul_eq_mul]
        unfold errConst
        have : ((b - a) / 2 ^ q : ℝ) = 2 ^ p * ((b - a) / 2 ^ (q + p)) := by rw [pow_add]; field_simp
        rw [this, mul_pow, ← pow_mul]
        push_cast
        rw [pow_add]
        field_simp

end CppAD.Romberg
