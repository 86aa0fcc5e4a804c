import Verif.AbsOpt.QpThm
import Verif.AbsOpt.QpNewton
import Verif.AbsOpt.QpBox

/-!
# Quadratic programs: concrete cases that meet the hypotheses of the theorems
-/

namespace CppAD.AbsOpt

/-- minimize `x² / 2 - x` with respect to `x ≤ 1`: the starting point `1 - √0.1` is accepted with `eps = 0.1` -/
theorem qpInterior_example (c C g G : ℕ → ℝ) (hc : c 0 = -1) (hC : C 0 = 1) (hg : g 0 = -1) (hG : G 0 = 1)
    (maxitr : ℕ) (junk : ℕ → ℝ) (ip jp : ℕ → ℕ) (xout yout sout : ℕ → ℝ) :
    ∃ x y s, qpInterior 1 1 c C g G (1e-1) maxitr junk ip jp
      (fun _ => 1 - Real.sqrt (1e-1)) xout yout sout = (true, x, y, s) := by
  have h1 : maxAbs 1 g (maxAbs (1 * 1) G (maxAbs 1 c (maxAbs (1 * 1) C 0))) = 1 := by
    simp [maxAbs, forRange, List.range', hc, hC, hg, hG]
  have h2 : (0 : ℝ) < Real.sqrt (1e-1) := Real.sqrt_pos.2 (by norm_num)
  have h3 : Real.sqrt (1e-1) * Real.sqrt (1e-1) = (1e-1 : ℝ) := Real.mul_self_sqrt (by norm_num)
  have h4 : qpInit 1 1 c C (1e-1 * 1) (fun _ => 1 - Real.sqrt (1e-1)) yout sout =
      (true, Function.update yout 0 (Real.sqrt (1e-1)), Function.update sout 0 (Real.sqrt (1e-1))) := by
    have h5 : ¬ ((0 : ℝ) < -1 + (1 - Real.sqrt (1e-1))) := by
      intro h
      linarith
    simp only [qpInit, forRange, List.range', List.foldl, if_true, mul_one, gt_iff_lt, tsub_zero, zero_mul, add_zero, hc, hC, one_mul]
    rw [if_neg h5]
  unfold qpInterior
  dsimp only
  rw [h1, if_neg one_ne_zero, h4, if_pos rfl]
  dsimp only
  set y := Function.update yout 0 (Real.sqrt (1e-1)) with hy
  set s := Function.update sout 0 (Real.sqrt (1e-1)) with hs
  have y0 : y 0 = Real.sqrt (1e-1) := by rw [hy, Function.update_self]
  have s0 : s 0 = Real.sqrt (1e-1) := by rw [hs, Function.update_self]
  have hF : maxAbs (1 + 1 + 1) (qpF0 1 1 c C g G junk (fun _ => 1 - Real.sqrt (1e-1)) y s) 0 ≤ 1e-1 := by
    have e0 : -1 + (1 - Real.sqrt (1e-1)) + Real.sqrt (1e-1) = (0 : ℝ) := by ring
    have e1 : -1 + Real.sqrt (1e-1) + (1 - Real.sqrt (1e-1)) = (0 : ℝ) := by ring
    simp only [maxAbs, qpF0, qpJoin, forRange, List.range', List.foldl, tsub_zero, Function.update_self, y0, s0, hc, hC, hg, hG, one_mul, mul_one, zero_mul, add_zero, zero_add,
      h3, Function.update_apply]
    simp only [e0, e1]
    norm_num
  rw [qpLoop.eq_def]
  dsimp only
  rw [if_pos hF]
  exact ⟨_, _, _, rfl⟩

example (maxitr : ℕ) (junk : ℕ → ℝ) (ip jp : ℕ → ℕ) (xout yout sout : ℕ → ℝ) :
    ∃ x y s, Kkt 1 1 (fun _ => -1) (fun _ => 1) (fun _ => -1) (fun _ => 1) (1e-1) x y s := by
  obtain ⟨x, y, s, h⟩ := qpInterior_example (fun _ => -1) (fun _ => 1) (fun _ => -1) (fun _ => 1) rfl rfl rfl rfl maxitr junk ip jp xout yout sout
  exact ⟨x, y, s, (qpInterior_ok 1 1 _ _ _ _ _ maxitr junk ip jp _ xout yout sout x y s h).1⟩

/-- the same problem as an upper limit of `qp_box`, with no lower limit and no other constraint -/
theorem qpBox_example (maxitr : ℕ) (junk : ℕ → ℝ) (ip jp : ℕ → ℕ) (xout : ℕ → ℝ) :
    ∃ x y s, qpBox 1 0 (fun _ => none) (fun _ => some 1) (fun _ => 0) (fun _ => 0) (fun _ => -1) (fun _ => 1) (1e-1) maxitr junk ip jp
      (fun _ => 1 - Real.sqrt (1e-1)) xout = (true, x, y, s) := by
  exact qpInterior_example _ _ _ _ (by simp [forRange, List.range', qpLimit]) (by simp [forRange, List.range', qpLimit]) rfl rfl maxitr junk ip jp xout junk junk

theorem quad_one (x : ℕ → ℝ) : quad 1 (fun _ => 1) x = x 0 * x 0 := by simp [quad]

theorem psd_one : IsPsd 1 (fun _ => 1) := fun x => by rw [quad_one]; exact mul_self_nonneg _

theorem pd_one : IsPd 1 1 (fun _ => 1) (fun _ => 1) := by
  rintro v ⟨j, hj, h⟩
  have : j = 0 := by omega
  subst this
  rw [quad_one]
  have := mul_self_pos.2 h
  have := sq_nonneg (v 0)
  simp only [Finset.sum_range_one, one_mul]
  linarith

example : IsSymm 1 (fun _ => 1) ∧ IsPsd 1 (fun _ => 1) := ⟨fun _ _ _ _ => rfl, psd_one⟩

example (junk F : ℕ → ℝ) (ip jp : ℕ → ℕ) :
    Newton 1 1 (fun _ => 1) (fun _ => 1) (fun _ => 2) (fun _ => 3) F (qpStep 1 1 (fun _ => 1) (fun _ => 1) junk ip jp F (fun _ => 2) (fun _ => 3)) :=
  qpStep_ok psd_one pd_one junk ip jp F (fun _ _ => by norm_num) (fun _ _ => by norm_num)

end CppAD.AbsOpt
