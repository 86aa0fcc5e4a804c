import Verif.AtomEx.MatRev
import Mathlib.LinearAlgebra.Matrix.NonsingularInverse
import Mathlib.LinearAlgebra.Matrix.Trace
import Mathlib.Analysis.Calculus.Deriv.Mul

/-!
# Calculus for square matrices, entry by entry

Taylor coefficients of curves of matrices, derivatives of matrices with respect to one real number, and the inner product
`∑ P i j * M i j`.
-/

open scoped ContDiff Topology
open PowerSeries Filter

namespace CppAD.AtomEx

/-- square matrices -/
abbrev Mat (n : ℕ) := Matrix (Fin n) (Fin n) ℝ

/-- every entry of the curve is smooth at zero -/
def SmM {n : ℕ} (F : ℝ → Mat n) : Prop := ∀ i j, Sm (fun t => F t i j)

/-- Taylor coefficient of order `k` of a curve of matrices -/
noncomputable def tcM {n : ℕ} (F : ℝ → Mat n) (k : ℕ) : Mat n := Matrix.of fun i j => tc (fun t => F t i j) k

theorem T_fsum {ι : Type*} (s : Finset ι) (f : ι → ℝ → ℝ) (hf : ∀ c, Sm (f c)) :
    T (fun t => ∑ c ∈ s, f c t) = ∑ c ∈ s, T (f c) := by
  classical
  induction s using Finset.induction_on with
  | empty => simp only [Finset.sum_empty]; rw [T_const]; simp
  | insert a s ha ih =>
    simp only [Finset.sum_insert ha]
    rw [T_add (hf a) (ContDiffAt.sum fun c _ => hf c), ih]

theorem SmM.mul {n : ℕ} {F G : ℝ → Mat n} (hF : SmM F) (hG : SmM G) : SmM (fun t => F t * G t) := by
  intro i j
  simp only [Matrix.mul_apply]
  exact ContDiffAt.sum fun c _ => ContDiffAt.mul (hF i c) (hG c j)

theorem SmM.transpose {n : ℕ} {F : ℝ → Mat n} (hF : SmM F) : SmM (fun t => (F t).transpose) := fun i j => hF j i

theorem tcM_zero {n : ℕ} (F : ℝ → Mat n) : tcM F 0 = F 0 := by
  ext i j
  simp only [tcM, Matrix.of_apply, tc_zero]

theorem tcM_transpose {n : ℕ} (F : ℝ → Mat n) (k : ℕ) :
    tcM (fun t => (F t).transpose) k = (tcM F k).transpose := rfl

theorem tcM_congr {n : ℕ} {F G : ℝ → Mat n} (h : F =ᶠ[𝓝 0] G) (k : ℕ) : tcM F k = tcM G k := by
  ext i j
  simp only [tcM, Matrix.of_apply]
  rw [tc_eq, tc_eq, T_congr (h.mono fun t ht => by rw [ht])]

theorem tcM_const {n : ℕ} (A : Mat n) (k : ℕ) : tcM (fun _ => A) k = if k = 0 then A else 0 := by
  ext i j
  simp only [tcM, Matrix.of_apply]
  rw [tc_eq, T_const, coeff_C]
  split_ifs <;> simp

/-- Cauchy product -/
theorem tcM_mul {n : ℕ} {F G : ℝ → Mat n} (hF : SmM F) (hG : SmM G) (k : ℕ) :
    tcM (fun t => F t * G t) k = ∑ ell ∈ Finset.range (k + 1), tcM F ell * tcM G (k - ell) := by
  ext i j
  rw [Matrix.sum_apply]
  simp only [tcM, Matrix.of_apply, Matrix.mul_apply]
  rw [tc_eq, T_fsum _ (fun c t => F t i c * G t c j) (fun c => ContDiffAt.mul (hF i c) (hG c j)), map_sum,
    Finset.sum_comm]
  refine Finset.sum_congr rfl fun c _ => ?_
  rw [T_mul (hF i c) (hG c j), coeff_mul_range]
  exact Finset.sum_congr rfl fun ell _ => by rw [coeff_T, coeff_T]

/-! ### The inverse is smooth -/

section

variable {E : Type*} [NormedAddCommGroup E] [NormedSpace ℝ E] {n : ℕ} {F : E → Mat n} {e : E}

theorem det_smooth (h : ∀ i j, ContDiffAt ℝ ∞ (fun x => F x i j) e) :
    ContDiffAt ℝ ∞ (fun x => (F x).det) e := by
  simp only [Matrix.det_apply']
  refine ContDiffAt.sum fun σ _ => ContDiffAt.mul contDiffAt_const ?_
  exact contDiffAt_prod fun i _ => h _ _

theorem adjugate_smooth (h : ∀ i j, ContDiffAt ℝ ∞ (fun x => F x i j) e) (i j : Fin n) :
    ContDiffAt ℝ ∞ (fun x => (F x).adjugate i j) e := by
  simp only [Matrix.adjugate_apply]
  refine det_smooth fun a b => ?_
  simp only [Matrix.updateRow_apply]
  split_ifs
  · exact contDiffAt_const
  · exact h a b

theorem inv_smooth (h : ∀ i j, ContDiffAt ℝ ∞ (fun x => F x i j) e) (hd : (F e).det ≠ 0) (i j : Fin n) :
    ContDiffAt ℝ ∞ (fun x => (F x)⁻¹ i j) e := by
  simp only [Matrix.inv_def, Ring.inverse_eq_inv', Matrix.smul_apply, smul_eq_mul]
  exact ContDiffAt.mul ((det_smooth h).inv hd) (adjugate_smooth h i j)

theorem det_eventually (h : ∀ i j, ContDiffAt ℝ ∞ (fun x => F x i j) e) (hd : (F e).det ≠ 0) :
    ∀ᶠ x in 𝓝 e, (F x).det ≠ 0 :=
  (det_smooth h).continuousAt.eventually_ne hd

end

/-! ### Derivatives -/

/-- the derivative at zero of a matrix that depends on one real number, entry by entry -/
def MDeriv {n : ℕ} (F : ℝ → Mat n) (D : Mat n) : Prop := ∀ i j, HasDerivAt (fun h => F h i j) (D i j) 0

namespace MDeriv

variable {n : ℕ} {F G : ℝ → Mat n} {D E : Mat n}

theorem mul (hF : MDeriv F D) (hG : MDeriv G E) : MDeriv (fun h => F h * G h) (D * G 0 + F 0 * E) := by
  intro i j
  simp only [Matrix.mul_apply, Matrix.add_apply]
  rw [← Finset.sum_add_distrib]
  exact HasDerivAt.fun_sum fun c _ => (hF i c).mul (hG c j)

theorem add (hF : MDeriv F D) (hG : MDeriv G E) : MDeriv (fun h => F h + G h) (D + E) := fun i j => (hF i j).add (hG i j)

theorem neg (hF : MDeriv F D) : MDeriv (fun h => - F h) (- D) := fun i j => (hF i j).neg

theorem sub (hF : MDeriv F D) (hG : MDeriv G E) : MDeriv (fun h => F h - G h) (D - E) := fun i j => (hF i j).sub (hG i j)

theorem transpose (hF : MDeriv F D) : MDeriv (fun h => (F h).transpose) D.transpose := fun i j => hF j i

theorem const (A : Mat n) : MDeriv (fun _ => A) 0 := fun _ _ => hasDerivAt_const _ _

theorem sum {ι : Type*} (s : Finset ι) {F : ι → ℝ → Mat n} {D : ι → Mat n} (h : ∀ c ∈ s, MDeriv (F c) (D c)) :
    MDeriv (fun x => ∑ c ∈ s, F c x) (∑ c ∈ s, D c) := by
  intro i j
  simp only [Matrix.sum_apply]
  exact HasDerivAt.fun_sum fun c hc => h c hc i j

theorem congr (hF : MDeriv F D) (h : G =ᶠ[𝓝 0] F) : MDeriv G D := fun i j =>
  (hF i j).congr_of_eventuallyEq (h.mono fun x hx => by change G x i j = F x i j; rw [hx])

theorem unique (hF : MDeriv F D) (hF' : MDeriv F E) : D = E := by
  ext i j
  exact (hF i j).unique (hF' i j)

end MDeriv

/-! ### The inner product -/

/-- `∑ P i j * M i j` -/
def inner' {n : ℕ} (P M : Mat n) : ℝ := ∑ i, ∑ j, P i j * M i j

variable {n : ℕ}

theorem inner'_trace (P M : Mat n) : inner' P M = (P.transpose * M).trace := by
  unfold inner'
  rw [Matrix.trace, Finset.sum_comm]
  refine Finset.sum_congr rfl fun j _ => ?_
  rw [Matrix.diag_apply, Matrix.mul_apply]
  rfl

theorem inner'_add (P M N : Mat n) : inner' P (M + N) = inner' P M + inner' P N := by
  simp only [inner', Matrix.add_apply, mul_add, Finset.sum_add_distrib]

theorem inner'_add_left (P Q M : Mat n) : inner' (P + Q) M = inner' P M + inner' Q M := by
  simp only [inner', Matrix.add_apply, add_mul, Finset.sum_add_distrib]

theorem inner'_neg (P M : Mat n) : inner' P (-M) = - inner' P M := by
  simp only [inner', Matrix.neg_apply, mul_neg, Finset.sum_neg_distrib]

theorem inner'_neg_left (P M : Mat n) : inner' (-P) M = - inner' P M := by
  simp only [inner', Matrix.neg_apply, neg_mul, Finset.sum_neg_distrib]

theorem inner'_sub (P M N : Mat n) : inner' P (M - N) = inner' P M - inner' P N := by
  rw [sub_eq_add_neg, inner'_add, inner'_neg]; ring

theorem inner'_sub_left (P Q M : Mat n) : inner' (P - Q) M = inner' P M - inner' Q M := by
  rw [sub_eq_add_neg, inner'_add_left, inner'_neg_left]; ring

theorem inner'_zero (P : Mat n) : inner' P 0 = 0 := by simp [inner']

theorem inner'_zero_left (M : Mat n) : inner' 0 M = 0 := by simp [inner']

theorem inner'_sum {ι : Type*} (s : Finset ι) (P : Mat n) (M : ι → Mat n) :
    inner' P (∑ c ∈ s, M c) = ∑ c ∈ s, inner' P (M c) := by
  classical
  induction s using Finset.induction_on with
  | empty => simp [inner'_zero]
  | insert a s ha ih => rw [Finset.sum_insert ha, Finset.sum_insert ha, inner'_add, ih]

/-- moving a factor from the left -/
theorem inner'_mul_left (P A M : Mat n) : inner' P (A * M) = inner' (A.transpose * P) M := by
  rw [inner'_trace, inner'_trace, Matrix.transpose_mul, Matrix.transpose_transpose, Matrix.mul_assoc]

/-- moving a factor from the right -/
theorem inner'_mul_right (P A M : Mat n) : inner' P (M * A) = inner' (P * A.transpose) M := by
  rw [inner'_trace, inner'_trace, Matrix.transpose_mul, Matrix.transpose_transpose, ← Matrix.mul_assoc,
    Matrix.trace_mul_comm, Matrix.mul_assoc]

theorem inner'_transpose (P M : Mat n) : inner' P.transpose M = inner' P M.transpose := by
  unfold inner'
  rw [Finset.sum_comm]
  rfl

theorem inner'_smul_left (c : ℝ) (P M : Mat n) : inner' (c • P) M = c * inner' P M := by
  simp only [inner', Matrix.smul_apply, smul_eq_mul, Finset.mul_sum, mul_assoc]

theorem inner'_single (P : Mat n) (a b : Fin n) : inner' P (Matrix.single a b 1) = P a b := by
  unfold inner'
  rw [Finset.sum_eq_single a, Finset.sum_eq_single b]
  · simp
  · intro j _ hj; simp [Matrix.single, Ne.symm hj]
  · simp
  · intro i _ hi
    refine Finset.sum_eq_zero fun j _ => ?_
    simp [Matrix.single, Ne.symm hi]
  · simp

end CppAD.AtomEx
