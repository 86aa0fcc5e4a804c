import Verif.AtomEx.MatChol
import Mathlib.Analysis.Matrix.LDL
import Mathlib.Data.Real.StarOrdered

/-! # Positive definite matrices have a Cholesky factor -/

namespace CppAD.AtomEx

variable {n : ℕ}

/-- **C62** The symmetric matrices that have a Cholesky factor are the positive definite matrices. -/
theorem isChol_iff_posDef (A : Mat n) : (∃ L, IsChol A L) ↔ Matrix.PosDef A := by
  constructor
  · rintro ⟨L, hL⟩
    rw [← hL.prod, ← Matrix.conjTranspose_eq_transpose_of_trivial]
    refine Matrix.PosDef.mul_conjTranspose_self L ?_
    exact Matrix.vecMul_injective_of_isUnit ((Matrix.isUnit_iff_isUnit_det L).2 (isUnit_iff_ne_zero.2 hL.det))
  · intro hS
    have hlow : Lower (LDL.lowerInv hS) := fun i j hij => LDL.lowerInv_triangular hS hij
    have hdet : (LDL.lowerInv hS).det ≠ 0 := by
      have := Matrix.isUnit_det_of_invertible (LDL.lowerInv hS)
      exact this.ne_zero
    have hL : Lower (LDL.lower hS) := hlow.inv hdet
    have hLd : (LDL.lower hS).det ≠ 0 := by
      unfold LDL.lower
      rw [Matrix.det_nonsing_inv]
      exact (isUnit_iff_ne_zero.2 hdet).ringInverse.ne_zero
    have hdiag : ∀ i, LDL.lower hS i i ≠ 0 := by
      intro i
      rw [Matrix.det_of_isLowerTriangular _ hL.block] at hLd
      exact Finset.prod_ne_zero_iff.1 hLd i (Finset.mem_univ i)
    have hpos : ∀ i, 0 < LDL.diagEntries hS i := by
      have h : (LDL.diag hS).PosDef := by
        rw [LDL.diag_eq_lowerInv_conj hS]
        exact hS.mul_mul_conjTranspose_same (Matrix.vecMul_injective_of_isUnit
          ((Matrix.isUnit_iff_isUnit_det _).2 (isUnit_iff_ne_zero.2 hdet)))
      intro i
      have := h.diag_pos (i := i)
      rw [LDL.diag, Matrix.diagonal_apply_eq] at this
      exact this
    refine ⟨LDL.lower hS * Matrix.diagonal fun i => √(LDL.diagEntries hS i) * SignType.sign (LDL.lower hS i i), ?_, ?_, ?_⟩
    · intro i j hij
      rw [Matrix.mul_diagonal, hL i j hij, zero_mul]
    · intro i
      rw [Matrix.mul_diagonal, mul_comm (√_), ← mul_assoc, self_mul_sign]
      exact mul_pos (abs_pos.2 (hdiag i)) (Real.sqrt_pos.2 (hpos i))
    · rw [Matrix.transpose_mul, Matrix.diagonal_transpose, Matrix.mul_assoc, ← Matrix.mul_assoc (Matrix.diagonal _),
        Matrix.diagonal_mul_diagonal]
      have e : (fun i => √(LDL.diagEntries hS i) * (SignType.sign (LDL.lower hS i i) : ℝ)
          * (√(LDL.diagEntries hS i) * (SignType.sign (LDL.lower hS i i) : ℝ))) = LDL.diagEntries hS := by
        funext i
        have h1 : (SignType.sign (LDL.lower hS i i) : ℝ) * (SignType.sign (LDL.lower hS i i) : ℝ) = 1 := by
          rcases lt_or_gt_of_ne (hdiag i) with h | h
          · rw [sign_neg h]; norm_num
          · rw [sign_pos h]; norm_num
        calc _ = (√(LDL.diagEntries hS i) * √(LDL.diagEntries hS i))
              * ((SignType.sign (LDL.lower hS i i) : ℝ) * (SignType.sign (LDL.lower hS i i) : ℝ)) := by ring
          _ = _ := by rw [h1, mul_one, Real.mul_self_sqrt (hpos i).le]
      rw [e]
      have := LDL.lower_conj_diag hS
      rw [Matrix.conjTranspose_eq_transpose_of_trivial, Matrix.mul_assoc] at this
      exact this

end CppAD.AtomEx
