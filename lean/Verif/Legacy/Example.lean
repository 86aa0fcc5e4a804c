import Verif.Legacy.Wrong

/-!
# The older functions: cases that satisfy the hypotheses
-/

namespace CppAD.Legacy

open Sparsity IndexSort SparseJac SparseHes

theorem subTape_Dom (x : ℕ → ℝ) : subTape.Dom x := by simp [Tape.Dom, subTape, domOps, Op.dom]

theorem subTape_eval : (fun y => subTape.eval y 0) = subFun := by
  funext y
  simp [subFun, subTape, Tape.eval, evalOps, stepEnv, Op.nres, Op.val, indEnv]

/-- `SparseJacobian(x)` of `x_0 x_1 + x_1 x_2 + x_2 x_2`: the partial w.r.t. `x_2` is `x_1 + 2 x_2` -/
example (a b c : ℝ) : (sparseJacobianX isort (subTape.initial fun _ => 0) (fun _ => 1) (fun _ _ => 2) (fun _ => true) (fun _ => true) (fun _ => true)
    3 64 (fun _ => 4) (fun _ => 5) [a, b, c]).2 (0 * 3 + 2) = b + 2 * c := by
  have h := sparse_jacobian_x_ok subTape_WF (Reach.start (fun _ => 0) fun _ _ _ => 0) isort_std (fun _ => 1) (fun _ _ => 2) (fun _ => true)
    (fun _ => true) (fun _ => true) 3 (maxR := 64) (by decide) (fun _ => 4) (fun _ => 5) [a, b, c] rfl (subTape_Dom _) 0 2 (by decide) (by decide)
  rw [subTape_eval] at h
  have := h.unique (subGrad_ok (at' [a, b, c]) 2)
  simpa [subGrad, at'] using this

/-- `SparseHessian(x, w)` of the same function: the second partial w.r.t. `x_2` is 2, w.r.t. `x_0` and `x_2` is 0 -/
example (a b c : ℝ) : (sparseHessianX isort (subTape.initial fun _ => 0) (fun _ => 1) (fun _ _ => 2) (fun _ _ => 2) (fun _ => true) (fun _ => true)
    (fun _ => true) (fun _ => true) (fun _ => true) 3 (fun _ => 4) (fun _ => 5) [a, b, c] [1]).2 (2 * 3 + 2) = 2 := by
  have h := sparse_hessian_x_ok_partial subTape_WF (Reach.start (fun _ => 0) fun _ _ _ => 0) isort_std (fun _ => 1) (fun _ _ => 2) (fun _ _ => 2)
    (fun _ => true) (fun _ => true) (fun _ => true) (fun _ => true) (fun _ => true) 3 (fun _ => 4) (fun _ => 5) [a, b, c] [1] rfl rfl
    (subTape_Dom _) (by simp [subTape]) (by
      intro k hk k' hk' _
      replace hk : k < 1 := hk
      replace hk' : k' < 1 := hk'
      rw [show k = k' by omega]) 2 2 (by decide) (by decide)
  rw [subTape_wsum] at h
  have := isPartial2_unique h (subHes_ok (at' [a, b, c]) 2 2)
  refine Eq.trans ?_ (this.trans (by simp [subHes]))
  rfl

/-- `SparseHessian(x, w, p, row, col, hes, work)` with the pattern `{(0,1), (1,0), (1,2), (2,1), (2,2)}` and the subset `{(1,0), (2,2)}` -/
def fullPat : SetVec := .sets fun i => if i = 0 then {1} else if i = 1 then {0, 2} else if i = 2 then {1, 2} else ∅

example (a b c : ℝ) (coloring : Coloring) :
    (sparseHessianWork isort (subTape.initial fun _ => 0) (fun _ => 1) (fun _ _ => 2) (fun _ _ => 2) (fun _ => true)
    3 [a, b, c] [1] fullPat 2 subRow subCol (fun _ => 5) coloring none).2.2.1 0 = 1 := by
  have h := (sparse_hessian_work_ok subTape_WF (Reach.start (fun _ => 0) fun _ _ _ => 0) isort_std (fun _ => 1) (fun _ _ => 2) (fun _ _ => 2)
    (fun _ => true) 3 [a, b, c] [1] rfl rfl (subTape_Dom _) fullPat (by
      intro i hi j hj
      replace hi : i < 3 := hi
      have hi3 : i = 0 ∨ i = 1 ∨ i = 2 := by omega
      rcases hi3 with rfl | rfl | rfl <;> simp at hj <;> show j < 3 <;> omega) 2 subRow subCol (fun _ => 5) (by
      intro k hk
      have : k = 0 ∨ k = 1 := by omega
      rcases this with rfl | rfl <;> simp [subRow, subCol, fullPat, SetVec.Has, subTape]) coloring (by
      intro i hi j hj _ hno
      rw [subTape_wsum]
      have e := subHes_ok (at' [a, b, c]) i j
      suffices h : subHes i j = 0 by rwa [h] at e
      replace hi : i < 3 := hi
      replace hj : j < 3 := hj
      have hi3 : i = 0 ∨ i = 1 ∨ i = 2 := by omega
      have hj3 : j = 0 ∨ j = 1 ∨ j = 2 := by omega
      rcases hi3 with rfl | rfl | rfl <;> rcases hj3 with rfl | rfl | rfl <;>
        simp [subHes, fullPat, SetVec.Has, subTape] at hno ⊢) (by
      intro _ i j hij
      obtain ⟨hi, hj, hm⟩ := hij
      refine ⟨hj, hi, ?_⟩
      replace hi : i < 3 := hi
      replace hj : j < 3 := hj
      have hi3 : i = 0 ∨ i = 1 ∨ i = 2 := by omega
      have hj3 : j = 0 ∨ j = 1 ∨ j = 2 := by omega
      rcases hi3 with rfl | rfl | rfl <;> rcases hj3 with rfl | rfl | rfl <;> simp [fullPat] at hm ⊢) none (by simp)).1 0 (by decide)
  rw [subTape_wsum] at h
  have := isPartial2_unique h (subHes_ok (at' [a, b, c]) _ _)
  simpa [subHes, subRow, subCol] using this

/-- `SparseJacobianForward` and `SparseJacobianReverse` of the same function for the entry (0, 1), with the full pattern -/
example (a b c : ℝ) : (sparseJacobianForward isort (subTape.initial fun _ => 0) (fun _ => 1) (fun _ _ => 2) (fun _ => true) 3 64 [a, b, c]
    (.bools fun _ => true) 1 (fun _ => 0) (fun _ => 1) (fun _ => 5) none).2.2.1 0 = a + c ∧
    (sparseJacobianReverse isort (subTape.initial fun _ => 0) (fun _ => 1) (fun _ _ => 2) (fun _ => true) 3 [a, b, c]
    (.bools fun _ => true) 1 (fun _ => 0) (fun _ => 1) (fun _ => 5) none).2.2.1 0 = a + c := by
  have hin : Inside subTape.dep.length subTape.n 1 (fun _ => 0) (fun _ => 1)
      ((SetVec.bools fun _ => true).Has false subTape.dep.length subTape.n) := fun k _ => ⟨Nat.one_pos, (by decide : 1 < 3), Nat.one_pos, (by decide : 1 < 3), rfl⟩
  have hpat : Covers subTape 1 (fun _ => 0) (fun _ => 1) ((SetVec.bools fun _ => true).Has false subTape.dep.length subTape.n) (at' [a, b, c]) :=
    fun i hi j hj _ _ hno => absurd ⟨hi, hj, rfl⟩ hno
  have h := (sparse_jacobian_forward_ok subTape_WF (Reach.start (fun _ => 0) fun _ _ _ => 0) isort_std (fun _ => 1) (fun _ _ => 2) (fun _ => true)
    3 (maxR := 64) (by decide) [a, b, c] rfl (subTape_Dom _) (.bools fun _ => true) trivial 1 (fun _ => 0) (fun _ => 1) (fun _ => 5)
    hin hpat none (by simp)).1 0 (by decide)
  have h2 := (sparse_jacobian_reverse_ok subTape_WF (Reach.start (fun _ => 0) fun _ _ _ => 0) isort_std (fun _ => 1) (fun _ _ => 2) (fun _ => true)
    3 [a, b, c] rfl (subTape_Dom _) (.bools fun _ => true) trivial 1 (fun _ => 0) (fun _ => 1) (fun _ => 5)
    hin hpat none (by simp)).1 0 (by decide)
  rw [subTape_eval] at h h2
  have h3 := h.unique (subGrad_ok (at' [a, b, c]) 1)
  have h4 := h2.unique (subGrad_ok (at' [a, b, c]) 1)
  exact ⟨by simpa [subGrad, at'] using h3, by simpa [subGrad, at'] using h4⟩

/-- `ForSparseJac` with the identity: the entry (0, 0) of the result is true because the partial is 1 at (0, 1, 0) -/
example : (forSparseJac subTape (fun _ => false) 3 (identityBools 3 fun _ => true) false false).1.Has false 1 3 0 0 := by
  refine for_sparse_jac_ok subTape_WF _ 3 (identityBools 3 fun _ => true) false false trivial (fun k j => un j k) (fun k hk j _ hne => (identityBools_has ..).2 ⟨hk, ?_⟩)
    (at' [0, 1, 0]) (subTape_Dom _) 0 0 (by decide) (by decide) 1 ?_ one_ne_zero
  · by_contra hkj
    exact hne (by simp [un, Ne.symm hkj])
  · have := subGrad_ok (at' [0, 1, 0]) 0
    rw [← subTape_eval] at this
    unfold IsPartial at this
    simp only [upd_un] at this
    simpa [subGrad, at'] using this

/-- `RevSparseJac` and `RevSparseHes` of the same function -/
example : (revSparseJac subTape (fun _ => false) 1 (identityBools 1 fun _ => true) false false).Has false 1 3 0 0 := by
  refine rev_sparse_jac_ok subTape_WF _ 1 (identityBools 1 fun _ => true) false false trivial 0 0 (by decide) (by decide) [1] ?_ (at' [0, 1, 0]) (subTape_Dom _) 1 ?_ one_ne_zero
  · intro k hk _
    replace hk : k < 1 := hk
    exact (identityBools_has ..).2 ⟨by decide, by omega⟩
  · rw [subTape_wsum]
    simpa [subGrad, at'] using subGrad_ok (at' [0, 1, 0]) 0

example : (revSparseHes subTape (fun _ => false) 3 (forSparseJac subTape (fun _ => false) 3 (identityBools 3 fun _ => true) false false).2
    (.sets fun _ => {0}) false).Has false 3 3 2 2 := by
  refine rev_sparse_hes_ok_partial subTape_WF _ _ 3 (identityBools 3 fun _ => true) (.sets fun _ => {0}) false false false trivial (fun k j => un j k)
    (fun k hk j _ hne => (identityBools_has ..).2 ⟨hk, ?_⟩) [1] ?_ (by intro h; cases h) (Or.inl (by simp [subTape])) (at' [0, 1, 0])
    (subTape_Dom _) 2 2 (by decide) (by decide) 2 ?_ two_ne_zero
  · by_contra hkj
    exact hne (by simp [un, Ne.symm hkj])
  · intro k hk _
    replace hk : k < 1 := hk
    show k ∈ ({0} : Finset ℕ)
    simp; omega
  · rw [subTape_wsum]
    exact isMixed_of_partial2 (by simpa [subHes] using subHes_ok (at' [0, 1, 0]) 2 2)

end CppAD.Legacy
