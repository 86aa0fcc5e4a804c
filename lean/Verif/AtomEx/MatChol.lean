import Verif.AtomEx.InvObj
import Mathlib.LinearAlgebra.Matrix.Block
import Mathlib.Analysis.SpecialFunctions.Sqrt
import Mathlib.Analysis.SpecialFunctions.Pow.Deriv

/-!
# The Cholesky factor

*Specification* of the factor, its uniqueness, and that it is a smooth function of the symmetric matrix.
-/

open scoped ContDiff Topology
open PowerSeries Filter

namespace CppAD.AtomEx

variable {n : ℕ}

/-- *Specification*: lower triangular -/
def Lower (M : Mat n) : Prop := ∀ i j, i < j → M i j = 0

/-- *Specification*: `L` is the Cholesky factor of `A` -/
structure IsChol (A L : Mat n) : Prop where
  lower : Lower L
  pos : ∀ i, 0 < L i i
  prod : L * L.transpose = A

theorem Lower.block {M : Mat n} (h : Lower M) : M.BlockTriangular OrderDual.toDual := fun i j hij => h i j hij

theorem lower_of_block {M : Mat n} (h : M.BlockTriangular OrderDual.toDual) : Lower M := fun _ _ hij => h hij

theorem Lower.mul {M N : Mat n} (hM : Lower M) (hN : Lower N) : Lower (M * N) :=
  lower_of_block (hM.block.mul hN.block)

theorem Lower.inv {M : Mat n} (hM : Lower M) (hd : M.det ≠ 0) : Lower M⁻¹ := by
  have := M.invertibleOfIsUnitDet (isUnit_iff_ne_zero.2 hd)
  exact lower_of_block (Matrix.blockTriangular_inv_of_blockTriangular hM.block)

theorem IsChol.det {A L : Mat n} (h : IsChol A L) : L.det ≠ 0 := by
  rw [Matrix.det_of_isLowerTriangular L h.lower.block]
  exact Finset.prod_ne_zero_iff.2 fun i _ => (h.pos i).ne'

/-! ### A formula for the factor -/

/-- column `j` of the factor when the columns before it are in `C` -/
noncomputable def cholCol (A C : ℕ → ℕ → ℝ) (j i : ℕ) : ℝ :=
  if i < j then 0
  else if i = j then √(A j j - ∑ l ∈ Finset.range j, C j l * C j l)
  else (A i j - ∑ l ∈ Finset.range j, C i l * C j l) / √(A j j - ∑ l ∈ Finset.range j, C j l * C j l)

/-- the first columns of the factor -/
noncomputable def cholUpto (A : ℕ → ℕ → ℝ) : ℕ → ℕ → ℕ → ℝ
  | 0 => fun _ _ => 0
  | j + 1 => fun i k => if k = j then cholCol A (cholUpto A j) j i else cholUpto A j i k

/-- element `(i,k)` of the factor -/
noncomputable def cholF (A : ℕ → ℕ → ℝ) (i k : ℕ) : ℝ := cholUpto A (k + 1) i k

theorem cholUpto_eq (A : ℕ → ℕ → ℝ) (m i : ℕ) {k : ℕ} (hk : k < m) : cholUpto A m i k = cholF A i k := by
  induction m with
  | zero => omega
  | succ m ih =>
    by_cases e : k = m
    · subst e; rfl
    · rw [cholUpto]
      dsimp only
      rw [if_neg e, ih (by omega)]

theorem cholF_eq (A : ℕ → ℕ → ℝ) (i k : ℕ) : cholF A i k = cholCol A (cholF A) k i := by
  unfold cholF
  rw [cholUpto]
  dsimp only
  rw [if_pos rfl]
  unfold cholCol
  have h : ∀ a b, ∑ l ∈ Finset.range k, cholUpto A k a l * cholUpto A k b l
      = ∑ l ∈ Finset.range k, cholF A a l * cholF A b l := fun a b =>
    Finset.sum_congr rfl fun l hl => by
      rw [Finset.mem_range] at hl
      rw [cholUpto_eq A k a hl, cholUpto_eq A k b hl]
  rw [h, h]
  rfl

/-- the number under the square root -/
noncomputable def pivot (A : ℕ → ℕ → ℝ) (k : ℕ) : ℝ := A k k - ∑ l ∈ Finset.range k, cholF A k l * cholF A k l

theorem cholF_lt (A : ℕ → ℕ → ℝ) {i k : ℕ} (h : i < k) : cholF A i k = 0 := by
  rw [cholF_eq, cholCol, if_pos h]

theorem cholF_diag (A : ℕ → ℕ → ℝ) (k : ℕ) : cholF A k k = √(pivot A k) := by
  rw [cholF_eq, cholCol, if_neg (lt_irrefl k), if_pos rfl]
  rfl

theorem cholF_gt (A : ℕ → ℕ → ℝ) {i k : ℕ} (h : k < i) :
    cholF A i k = (A i k - ∑ l ∈ Finset.range k, cholF A i l * cholF A k l) / √(pivot A k) := by
  rw [cholF_eq, cholCol, if_neg (by omega), if_neg (by omega)]
  rfl

/-- the product of two rows of a lower triangular matrix -/
theorem lower_rows {L : Mat n} (h : Lower L) (i j : Fin n) :
    (L * L.transpose) i j = ∑ l ∈ Finset.range j, ofMat L i l * ofMat L j l + L i j * L j j := by
  have h1 : (L * L.transpose) i j = ∑ l ∈ Finset.range n, ofMat L i l * ofMat L j l := by
    rw [Matrix.mul_apply, Finset.sum_range]
    refine Finset.sum_congr rfl fun l _ => ?_
    rw [ofMat_val, ofMat_val]
    rfl
  have h2 : ∑ l ∈ Finset.range n, ofMat L i l * ofMat L j l
      = ∑ l ∈ Finset.range ((j : ℕ) + 1), ofMat L i l * ofMat L j l := by
    symm
    refine Finset.sum_subset (fun l hl => ?_) fun l hl hl' => ?_
    · rw [Finset.mem_range] at hl ⊢
      have := j.isLt
      omega
    · rw [Finset.mem_range] at hl hl'
      have h0 : ofMat L j l = 0 := by
        rw [show l = ((⟨l, hl⟩ : Fin n) : ℕ) from rfl, ofMat_val]
        exact h j ⟨l, hl⟩ (by rw [Fin.lt_def]; dsimp only; omega)
      rw [h0, mul_zero]
  rw [h1, h2, Finset.sum_range_succ, ofMat_val, ofMat_val]

theorem IsChol.symm {A L : Mat n} (h : IsChol A L) : A.transpose = A := by
  rw [← h.prod, Matrix.transpose_mul, Matrix.transpose_transpose]

/-- the factor is given by the formula -/
theorem IsChol.eq_cholF {A L : Mat n} (h : IsChol A L) :
    ∀ k, ∀ (_ : k < n) (i : Fin n), ofMat L i k = cholF (ofMat A) i k ∧ 0 < pivot (ofMat A) k := by
  intro k
  induction k using Nat.strong_induction_on with
  | _ k ih =>
    intro hk
    have hrow : ∀ i : Fin n, ofMat A i k = ∑ l ∈ Finset.range k, cholF (ofMat A) i l * cholF (ofMat A) k l
        + L i ⟨k, hk⟩ * L ⟨k, hk⟩ ⟨k, hk⟩ := by
      intro i
      have e := lower_rows h.lower i ⟨k, hk⟩
      rw [h.prod] at e
      have e1 : ofMat A i k = A i ⟨k, hk⟩ := ofMat_val A i ⟨k, hk⟩
      rw [e1, e]
      congr 1
      refine Finset.sum_congr rfl fun l hl => ?_
      rw [Finset.mem_range] at hl
      rw [(ih l hl (by omega) i).1]
      have := (ih l hl (by omega) ⟨k, hk⟩).1
      dsimp only at this
      rw [this]
    have hp : pivot (ofMat A) k = L ⟨k, hk⟩ ⟨k, hk⟩ * L ⟨k, hk⟩ ⟨k, hk⟩ := by
      have := hrow ⟨k, hk⟩
      dsimp only at this
      unfold pivot
      rw [this]; ring
    have hpos := h.pos ⟨k, hk⟩
    have hs : √(pivot (ofMat A) k) = L ⟨k, hk⟩ ⟨k, hk⟩ := by rw [hp, Real.sqrt_mul_self hpos.le]
    intro i
    refine ⟨?_, by rw [hp]; positivity⟩
    have e1 : ofMat L i k = L i ⟨k, hk⟩ := ofMat_val L i ⟨k, hk⟩
    rw [e1]
    rcases lt_trichotomy (i : ℕ) k with hlt | heq | hgt
    · rw [cholF_lt _ hlt]
      exact h.lower i ⟨k, hk⟩ hlt
    · have : i = ⟨k, hk⟩ := Fin.ext heq
      subst this
      dsimp only
      rw [cholF_diag, hs]
    · rw [cholF_gt _ hgt, hs, hrow i]
      field_simp
      ring

/-- there is only one factor -/
theorem IsChol.unique {A L L' : Mat n} (h : IsChol A L) (h' : IsChol A L') : L = L' := by
  ext i j
  have e := (h.eq_cholF j j.isLt i).1
  have e' := (h'.eq_cholF j j.isLt i).1
  rw [ofMat_val] at e e'
  rw [e, e']

/-- the formula gives the factor of a symmetric matrix when the numbers under the square roots are positive -/
theorem isChol_cholF {A : Mat n} (hs : A.transpose = A) (hp : ∀ k < n, 0 < pivot (ofMat A) k) :
    IsChol A (toMat n (cholF (ofMat A))) := by
  have hl : Lower (toMat n (cholF (ofMat A))) := fun i j hij => cholF_lt _ hij
  have hval : ∀ i j : Fin n, j ≤ i →
      (toMat n (cholF (ofMat A)) * (toMat n (cholF (ofMat A))).transpose) i j = A i j := by
    intro i j hij
    rw [lower_rows hl]
    have e : ∑ l ∈ Finset.range j, ofMat (toMat n (cholF (ofMat A))) i l * ofMat (toMat n (cholF (ofMat A))) j l
        = ∑ l ∈ Finset.range j, cholF (ofMat A) i l * cholF (ofMat A) j l := by
      refine Finset.sum_congr rfl fun l hl => ?_
      rw [Finset.mem_range] at hl
      have hln : l < n := by have := j.isLt; omega
      have h1 : ∀ i : Fin n, ofMat (toMat n (cholF (ofMat A))) i l = cholF (ofMat A) i l := fun i =>
        ofMat_val (toMat n (cholF (ofMat A))) i ⟨l, hln⟩
      rw [h1, h1]
    rw [e]
    change _ + cholF (ofMat A) i j * cholF (ofMat A) j j = A i j
    have hpj := hp j j.isLt
    rw [cholF_diag]
    rcases Fin.lt_or_eq_of_le hij with hlt | heq
    · rw [cholF_gt _ (Fin.lt_def.1 hlt), div_mul_cancel₀ _ (Real.sqrt_pos.2 hpj).ne', ofMat_val]
      ring
    · subst heq
      rw [cholF_diag, Real.mul_self_sqrt hpj.le]
      unfold pivot
      rw [ofMat_val]
      ring
  refine ⟨hl, fun i => ?_, ?_⟩
  · change 0 < cholF (ofMat A) i i
    rw [cholF_diag]
    exact Real.sqrt_pos.2 (hp i i.isLt)
  · ext i j
    rcases le_total j i with h | h
    · exact hval i j h
    · have h1 := hval j i h
      have h2 : (toMat n (cholF (ofMat A)) * (toMat n (cholF (ofMat A))).transpose) i j
          = (toMat n (cholF (ofMat A)) * (toMat n (cholF (ofMat A))).transpose) j i := by
        rw [Matrix.mul_apply, Matrix.mul_apply]
        exact Finset.sum_congr rfl fun l _ => mul_comm _ _
      rw [h2, h1]
      exact congrFun (congrFun hs i) j

/-! ### Smoothness -/

section

variable {E : Type*} [NormedAddCommGroup E] [NormedSpace ℝ E] {F : E → Mat n} {e : E}

theorem ofMat_smooth (h : ∀ i j, ContDiffAt ℝ ∞ (fun x => F x i j) e) (i j : ℕ) :
    ContDiffAt ℝ ∞ (fun x => ofMat (F x) i j) e := by
  unfold ofMat
  by_cases hij : i < n ∧ j < n
  · simp only [dif_pos hij]; exact h _ _
  · simp only [dif_neg hij]; exact contDiffAt_const

theorem pivot_smooth_of (h : ∀ i j, ContDiffAt ℝ ∞ (fun x => F x i j) e) (k : ℕ)
    (ih : ∀ l < k, ContDiffAt ℝ ∞ (fun x => cholF (ofMat (F x)) k l) e) :
    ContDiffAt ℝ ∞ (fun x => pivot (ofMat (F x)) k) e := by
  unfold pivot
  refine ContDiffAt.sub (ofMat_smooth h k k) (ContDiffAt.sum fun l hl => ?_)
  rw [Finset.mem_range] at hl
  exact ContDiffAt.mul (ih l hl) (ih l hl)

theorem cholF_smooth (h : ∀ i j, ContDiffAt ℝ ∞ (fun x => F x i j) e) (hp : ∀ k < n, 0 < pivot (ofMat (F e)) k) :
    ∀ k < n, ∀ i < n, ContDiffAt ℝ ∞ (fun x => cholF (ofMat (F x)) i k) e := by
  intro k
  induction k using Nat.strong_induction_on with
  | _ k ih =>
    intro hk i hi
    have hpk := pivot_smooth_of h k fun l hl => ih l hl (by omega) k hk
    have hsq : ContDiffAt ℝ ∞ (fun x => √(pivot (ofMat (F x)) k)) e := hpk.sqrt (hp k hk).ne'
    rcases lt_trichotomy i k with hlt | heq | hgt
    · simp only [cholF_lt _ hlt]; exact contDiffAt_const
    · subst heq
      simp only [cholF_diag]; exact hsq
    · simp only [cholF_gt _ hgt]
      refine ContDiffAt.div (ContDiffAt.sub (ofMat_smooth h i k) (ContDiffAt.sum fun l hl => ?_)) hsq
        (Real.sqrt_pos.2 (hp k hk)).ne'
      rw [Finset.mem_range] at hl
      exact ContDiffAt.mul (ih l hl (by omega) i hi) (ih l hl (by omega) k hk)

theorem pivot_eventually (h : ∀ i j, ContDiffAt ℝ ∞ (fun x => F x i j) e) (hp : ∀ k < n, 0 < pivot (ofMat (F e)) k) :
    ∀ᶠ x in 𝓝 e, ∀ k < n, 0 < pivot (ofMat (F x)) k := by
  have : ∀ k : Fin n, ∀ᶠ x in 𝓝 e, 0 < pivot (ofMat (F x)) k := fun k =>
    (pivot_smooth_of h k fun l hl => cholF_smooth h hp l (by have := k.isLt; omega) k
      k.isLt).continuousAt.tendsto.eventually_const_lt (hp k k.isLt)
  filter_upwards [eventually_all.2 this] with x hx k hk
  exact hx ⟨k, hk⟩

end

/-- *Specification*: the Cholesky factor of a symmetric positive definite matrix -/
noncomputable def chol (A : Mat n) : Mat n := by
  classical exact if h : ∃ L, IsChol A L then h.choose else 0

theorem chol_ok {A : Mat n} (h : ∃ L, IsChol A L) : IsChol A (chol A) := by
  unfold chol
  rw [dif_pos h]
  exact h.choose_spec

theorem IsChol.chol_eq {A L : Mat n} (h : IsChol A L) : chol A = L := (chol_ok ⟨L, h⟩).unique h

section

variable {E : Type*} [NormedAddCommGroup E] [NormedSpace ℝ E] {F : E → Mat n} {e : E}

/-- near a matrix that has a factor, the symmetric matrices have one -/
theorem chol_eventually (h : ∀ i j, ContDiffAt ℝ ∞ (fun x => F x i j) e) (hs : ∀ x, (F x).transpose = F x)
    (hc : ∃ L, IsChol (F e) L) :
    ∀ᶠ x in 𝓝 e, IsChol (F x) (chol (F x)) ∧ chol (F x) = toMat n (cholF (ofMat (F x))) := by
  obtain ⟨L, hL⟩ := hc
  have hp : ∀ k < n, 0 < pivot (ofMat (F e)) k := fun k hk => (hL.eq_cholF k hk ⟨k, hk⟩).2
  filter_upwards [pivot_eventually h hp] with x hx
  have := isChol_cholF (hs x) hx
  exact ⟨chol_ok ⟨_, this⟩, this.chol_eq⟩

/-- the factor is a smooth function -/
theorem chol_smooth (h : ∀ i j, ContDiffAt ℝ ∞ (fun x => F x i j) e) (hs : ∀ x, (F x).transpose = F x)
    (hc : ∃ L, IsChol (F e) L) (i j : Fin n) : ContDiffAt ℝ ∞ (fun x => chol (F x) i j) e := by
  obtain ⟨L, hL⟩ := id hc
  have hp : ∀ k < n, 0 < pivot (ofMat (F e)) k := fun k hk => (hL.eq_cholF k hk ⟨k, hk⟩).2
  refine (cholF_smooth h hp j j.isLt i i.isLt).congr_of_eventuallyEq ?_
  filter_upwards [chol_eventually h hs hc] with x hx
  rw [hx.2]
  rfl

end

end CppAD.AtomEx
