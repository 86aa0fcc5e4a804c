import Verif.Romberg.MulOrder
import Mathlib.Analysis.Calculus.Deriv.Polynomial

/-!
# C47: `RombergMul`

`F` is any object whose call returns `f x` where `x` is the vector of arguments.
-/

open scoped Nat
open Set MeasureTheory

namespace CppAD.Romberg

variable {σ : Type} {F : List ℝ → σ → ℝ × σ} {f : List ℝ → ℝ}

theorem dims_map_p {m : ℕ} {a b : List ℝ} {n p : List ℕ} (hp : p.length = m) : (dims m a b n p).map Dim.p = p := by
  refine List.ext_getElem (by simp [dims, hp]) fun i h1 h2 => ?_
  simp [dims, List.getElem?_eq_getElem h2]

theorem poly_smooth (P : Polynomial ℝ) (k : ℕ) : ContDiff ℝ k fun t => P.eval t := by
  have : (fun t => P.eval t) = fun t => ∑ l ∈ Finset.range (P.natDegree + 1), P.coeff l * t ^ l :=
    funext fun t => Polynomial.eval_eq_sum_range t
  rw [this]
  exact ContDiff.sum fun l _ => contDiff_const.mul (contDiff_id.pow l)

theorem poly_iteratedDeriv (k : ℕ) : ∀ (P : Polynomial ℝ) (t : ℝ), iteratedDeriv k (fun t => P.eval t) t = (Polynomial.derivative^[k] P).eval t := by
  induction k with
  | zero => intro P t; simp
  | succ k ih =>
    intro P t
    rw [iteratedDeriv_succ', show (deriv fun t => P.eval t) = fun t => P.derivative.eval t from funext fun t => Polynomial.deriv P, ih]
    rfl

/-- **C47** the documented order of the error, romberg_mul.hpp:27-41: the multiple integral plus the sum over `i` of
`O[ (b[i] - a[i]) / 2^(n[i]-1) ]^(2(p[i]+1))`.  The constant only depends on `p`.  Partial: `p[i] < n[i]`, `p[i] ≤ 15`, `n[i] ≤ 31`. -/
theorem rombergMul_order_partial (m : ℕ) (hm : 1 ≤ m) (p : List ℕ) (hpl : p.length = m) (hp : ∀ k ∈ p, k ≤ 15) :
    ∃ C : ℝ, ∀ (σ : Type) (F : List ℝ → σ → ℝ × σ) (f : List ℝ → ℝ), (∀ x s, (F x s).1 = f x) → ∀ (a b : List ℝ) (n : List ℕ) (M : ℕ → ℝ),
    (∀ d ∈ dims m a b n p, d.a < d.b ∧ d.p < d.n ∧ 2 ≤ d.n ∧ d.n ≤ 31) → (∀ i, 0 ≤ M i) → Smooth (dims m a b n p) M f → ∀ s,
    |(rombergMul m F a b n p s).r - iterInt (dims m a b n p) f| ≤
      C * ((dims m a b n p).map fun d => d.b - d.a).prod *
        ((dims m a b n p).mapIdx fun i d => M i * ((d.b - d.a) / 2 ^ (d.n - 1)) ^ (2 * (d.p + 1))).sum := by
  obtain ⟨m, rfl⟩ : ∃ k, m = k + 1 := ⟨m - 1, by omega⟩
  refine ⟨mulConst p, fun σ F f hF a b n M hd hM hf s => ?_⟩
  have hok : ∀ d ∈ dims (m + 1) a b n p, d.Ok := by
    intro d h
    refine ⟨(hd d h).2.2.1, (hd d h).2.2.2, hp _ ?_⟩
    have := List.mem_map_of_mem (f := Dim.p) h
    rwa [dims_map_p hpl] at this
  rw [(rombergMul_ok m hF (fun _ => 0) 0 (fun _ _ => rfl) a b n p hok s).1]
  refine (nest_error _ M f (fun d h => ⟨(hd d h).1, (hd d h).2.1⟩) hM (smooth_nice _ _ _ (fun d h => (hd d h).1) hf)).trans ?_
  have := errBnd_le (dims (m + 1) a b n p) M (fun d h => (hd d h).1) hM
  rwa [dims_map_p hpl] at this

/-- **C47** the result is exact if, as a function of each argument `x[i]`, the integrand is a polynomial of degree at most
`2 p[i] + 1` -/
theorem rombergMul_exact_partial {m : ℕ} (hm : 1 ≤ m) (hF : ∀ x s, (F x s).1 = f x) (a b : List ℝ) (n p : List ℕ)
    (hd : ∀ d ∈ dims m a b n p, d.a < d.b ∧ d.p < d.n ∧ 2 ≤ d.n ∧ d.n ≤ 31 ∧ d.p ≤ 15)
    (hc : ContinuousOn (fun x : Fin (dims m a b n p).length → ℝ => f (List.ofFn x)) {x | List.ofFn x ∈ box (dims m a b n p)})
    (hf : ∀ (i : ℕ) (hi : i < (dims m a b n p).length), ∀ z ∈ box (dims m a b n p),
      ∃ P : Polynomial ℝ, P.natDegree ≤ 2 * (dims m a b n p)[i].p + 1 ∧ ∀ t, f (z.set i t) = P.eval t) (s : σ) :
    (rombergMul m F a b n p s).r = iterInt (dims m a b n p) f := by
  obtain ⟨m, rfl⟩ : ∃ k, m = k + 1 := ⟨m - 1, by omega⟩
  have hok : ∀ d ∈ dims (m + 1) a b n p, d.Ok := fun d h => ⟨(hd d h).2.2.1, (hd d h).2.2.2.1, (hd d h).2.2.2.2⟩
  rw [(rombergMul_ok m hF (fun _ => 0) 0 (fun _ _ => rfl) a b n p hok s).1]
  have hs : Smooth (dims (m + 1) a b n p) (fun _ => 0) f := by
    refine ⟨hc, fun i hi z hz => ?_⟩
    obtain ⟨P, hP, hPe⟩ := hf i hi z hz
    have hab := (hd _ (List.getElem_mem hi)).1
    rw [funext hPe]
    have hcd : ContDiff ℝ (2 * ((dims (m + 1) a b n p)[i].p + 1) : ℕ) fun t => P.eval t := by
      exact poly_smooth P _
    refine ⟨hcd.contDiffOn, fun t ht => ?_⟩
    rw [iteratedDerivWithin_eq_iteratedDeriv (uniqueDiffOn_Icc hab) hcd.contDiffAt ht, poly_iteratedDeriv,
      Polynomial.iterate_derivative_eq_zero (by omega)]
    simp
  have := nest_error _ _ f (fun d h => ⟨(hd d h).1, (hd d h).2.1⟩) (fun _ => le_rfl) (smooth_nice _ _ _ (fun d h => (hd d h).1) hs)
  have h2 := errBnd_le (dims (m + 1) a b n p) (fun _ => 0) (fun d h => (hd d h).1) fun _ => le_rfl
  have h3 : ((dims (m + 1) a b n p).mapIdx fun (_ : ℕ) (d : Dim) => (0 : ℝ) * ((d.b - d.a) / 2 ^ (d.n - 1)) ^ (2 * (d.p + 1))).sum = 0 := by
    refine List.sum_eq_zero fun x hx => ?_
    obtain ⟨i, hi, rfl⟩ := List.mem_mapIdx.1 hx
    simp
  rw [h3, mul_zero] at h2
  have h4 := abs_nonpos_iff.1 (this.trans h2)
  linarith

/-- **C47** the number of evaluations of `F` is the product over `i` of `2^(n[i]-1) + 1` -/
theorem rombergMul_evaluations {m : ℕ} (hm : 1 ≤ m) (hF : ∀ x s, (F x s).1 = f x) (c : σ → ℕ) (hc : ∀ x s, c (F x s).2 = c s + 1)
    (a b : List ℝ) (n p : List ℕ) (hn : n.length = m) (hn2 : ∀ k ∈ n, 2 ≤ k ∧ k ≤ 31) (hp : ∀ k ∈ p, k ≤ 15) (s : σ) :
    c (rombergMul m F a b n p s).state = c s + (n.map fun k => 2 ^ (k - 1) + 1).prod := by
  obtain ⟨m, rfl⟩ : ∃ k, m = k + 1 := ⟨m - 1, by omega⟩
  have hok : ∀ d ∈ dims (m + 1) a b n p, d.Ok := by
    intro d h
    obtain ⟨i, hi, rfl⟩ := List.mem_map.1 h
    have hi := List.mem_range.1 hi
    have h1 := hn2 (n.getD i 0) (by rw [List.getD_eq_getElem _ _ (by omega)]; exact List.getElem_mem _)
    refine ⟨h1.1, h1.2, ?_⟩
    by_cases h : i < p.length
    · show p.getD i 0 ≤ 15
      rw [List.getD_eq_getElem _ _ h]; exact hp _ (List.getElem_mem _)
    · show p.getD i 0 ≤ 15
      rw [List.getD_eq_default _ _ (by omega)]; omega
  rw [(rombergMul_ok m hF c 1 hc a b n p hok s).2.1, one_mul]
  congr 1
  have : ∀ l : List Dim, evals l = ((l.map Dim.n).map fun k => 2 ^ (k - 1) + 1).prod := by
    intro l
    induction l with
    | nil => rfl
    | cons d l ih => simp only [evals, ih, List.map_cons, List.prod_cons]
  rw [this]
  congr 2
  refine List.ext_getElem (by simp [dims, hn]) fun i h1 h2 => ?_
  simp [dims, List.getElem?_eq_getElem h2]

/-- **C47** With three or more dimensions and debug build (`NDEBUG` not defined) the `assert` at romberg_mul.hpp:273 fails for every
call, whatever the integrand and the (valid) arguments are; it succeeds in one and two dimensions. -/
theorem rombergMul_assert_wrong {m : ℕ} (hm : 1 ≤ m) (hF : ∀ x s, (F x s).1 = f x)
    (a b : List ℝ) (n p : List ℕ) (hn : n.length = m) (hn2 : ∀ k ∈ n, 2 ≤ k ∧ k ≤ 31) (hp : ∀ k ∈ p, k ≤ 15) (s : σ) :
    (rombergMul m F a b n p s).asserts = true ↔ m ≤ 2 := by
  obtain ⟨m, rfl⟩ : ∃ k, m = k + 1 := ⟨m - 1, by omega⟩
  have hok : ∀ d ∈ dims (m + 1) a b n p, d.Ok := by
    intro d h
    obtain ⟨i, hi, rfl⟩ := List.mem_map.1 h
    have hi := List.mem_range.1 hi
    have h1 := hn2 (n.getD i 0) (by rw [List.getD_eq_getElem _ _ (by omega)]; exact List.getElem_mem _)
    refine ⟨h1.1, h1.2, ?_⟩
    by_cases h : i < p.length
    · show p.getD i 0 ≤ 15
      rw [List.getD_eq_getElem _ _ h]; exact hp _ (List.getElem_mem _)
    · show p.getD i 0 ≤ 15
      rw [List.getD_eq_default _ _ (by omega)]; omega
  exact (rombergMul_ok m hF (fun _ => 0) 0 (fun _ _ => rfl) a b n p hok s).2.2

/-! ## the hypotheses are met -/

/-- `f(x) = x[0]^3 * x[1] + x[1]` on `[0, 1] × [1, 2]` with `n = (3, 2)` and `p = (1, 0)` is exact -/
example : (rombergMul 2 (fun x (k : ℕ) => (x.getD 0 0 ^ 3 * x.getD 1 0 + x.getD 1 0, k + 1)) [0, 1] [1, 2] [3, 2] [1, 0] 0).r = 15 / 8 ∧
    (rombergMul 2 (fun x (k : ℕ) => (x.getD 0 0 ^ 3 * x.getD 1 0 + x.getD 1 0, k + 1)) [0, 1] [1, 2] [3, 2] [1, 0] 0).state = 15 := by
  constructor
  · rw [rombergMul_exact_partial (f := fun x => x.getD 0 0 ^ 3 * x.getD 1 0 + x.getD 1 0) (by omega) (fun _ _ => rfl)]
    · have h1 : ∀ x : ℝ, (∫ y in (1 : ℝ)..2, x ^ 3 * y + y) = 3 / 2 * (x ^ 3 + 1) := by
        intro x
        have : (fun y : ℝ => x ^ 3 * y + y) = fun y => (x ^ 3 + 1) * y := funext fun y => by ring
        rw [this, intervalIntegral.integral_const_mul, integral_id]
        ring
      simp only [dims, List.range_succ, List.range_zero, List.nil_append, List.cons_append, List.map_cons, List.map_nil, iterInt,
        List.getD_cons_zero, List.getD_cons_succ, h1]
      rw [intervalIntegral.integral_const_mul, intervalIntegral.integral_add ((continuous_pow 3).intervalIntegrable _ _)
        (continuous_const.intervalIntegrable _ _), integral_pow, intervalIntegral.integral_const]
      norm_num
    · simp [dims, List.range_succ]
    · refine Continuous.continuousOn ?_
      simp only [dims, List.range_succ, List.range_zero, List.nil_append, List.cons_append, List.map_cons, List.map_nil, List.length_cons,
        List.length_nil]
      have : ∀ x : Fin 2 → ℝ, List.ofFn x = [x 0, x 1] := fun x => by simp [List.ofFn_succ]
      show Continuous fun x : Fin 2 → ℝ => (List.ofFn x).getD 0 0 ^ 3 * (List.ofFn x).getD 1 0 + (List.ofFn x).getD 1 0
      simp only [this, List.getD_cons_zero, List.getD_cons_succ]
      fun_prop
    · intro i hi z hz
      have hl := box_length hz
      have h2 : z.length = 2 := by rw [hl]; simp [dims]
      obtain ⟨u, v, rfl⟩ := List.length_eq_two.1 h2
      have hi : i < 2 := by simpa [dims] using hi
      interval_cases i
      · refine ⟨Polynomial.C v * Polynomial.X ^ 3 + Polynomial.C v, ?_, fun t => by simp; ring⟩
        have : (Polynomial.C v * Polynomial.X ^ 3 + Polynomial.C v).natDegree ≤ 3 := by compute_degree
        simpa [dims, List.range_succ] using this
      · refine ⟨Polynomial.C (u ^ 3 + 1) * Polynomial.X, ?_, fun t => by simp; ring⟩
        have : (Polynomial.C (u ^ 3 + 1) * Polynomial.X).natDegree ≤ 1 := by compute_degree
        simpa [dims, List.range_succ] using this
  · rw [rombergMul_evaluations (f := fun x => x.getD 0 0 ^ 3 * x.getD 1 0 + x.getD 1 0) (m := 2) (n := [3, 2]) (p := [1, 0]) (by omega) (fun _ _ => rfl) (fun k => k)
      (fun _ _ => rfl) _ _ rfl (by simp) (by simp)]
    norm_num

/-- the assertion fails for three dimensions -/
example : (rombergMul 3 (fun x (_ : Unit) => (x.sum, ())) [0, 0, 0] [1, 1, 1] [2, 2, 2] [1, 1, 1] ()).asserts ≠ true := by
  intro h
  have := (rombergMul_assert_wrong (m := 3) (n := [2, 2, 2]) (p := [1, 1, 1]) (f := fun x => x.sum) (by omega) (fun _ _ => rfl) _ _ rfl
    (by simp) (by simp) ()).1 h
  omega

end CppAD.Romberg
