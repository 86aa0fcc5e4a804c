import Verif.Chkpoint.OneHist
import Verif.Taylor.History

/-! # `checkpoint` (chkpoint_one): cases that meet the hypotheses, and two defects -/

open scoped ContDiff Topology

namespace CppAD.Chkpoint

open CppAD.Sparsity CppAD.Legacy

variable {T : Tape}

/-- the object just after its constructor -/
noncomputable def oneFresh (T : Tape) : One := ⟨T.initial fun _ => 0, none, none, none, none⟩

theorem oneFresh_hist (T : Tape) : Hist T true (oneFresh T) := Hist.start (Reach.start (fun _ => 0) fun _ _ _ => 0)

theorem oneFresh_tape (T : Tape) : (oneFresh T).f.toTape = T := rfl

/-! ## `vy` -/

/-- `sign(u)` -/
def signTape : Tape := ⟨1, [.sign 1], [2]⟩

theorem signTape_WF : signTape.WF := by
  refine ⟨by decide, ?_, ?_⟩
  · simp [signTape, WFOps, Tape.ind, Op.args, Op.nres, Op.naux]
  · simp [signTape, Tape.ind, usable, addRes, Op.nres, Op.naux]

theorem signTape_eval (x : ℕ → ℝ) : signTape.eval x 0 = Real.sign (x 0) := by
  simp [Tape.eval, signTape, evalOps, stepEnv, Op.nres, Op.val, indEnv]

/-- **C63** The full claim for `vy` is false: a call of `rev_sparse_hes` with vectors of sets replaces the cached dependency pattern
by a Jacobian pattern.  For a call that is recorded afterwards the result `sign(u)` is not marked as a variable although `u` is a
variable and the result changes with it. -/
theorem one_vy_wrong : ∃ (T : Tape) (o : One) (x x' : ℕ → ℝ), T.WF ∧ Hist T false o ∧ T.eval x 0 ≠ T.eval x' 0 ∧
    ∀ (pj ij : ℕ → Bool) (junk cj : ℕ → ℝ) (nan : ℝ) (q : ℕ) (vy : ℕ → Bool) (tx : ℕ → ℝ),
      (o.forward true pj ij junk cj nan q (some fun _ => true) vy tx).2.2 0 = false := by
  refine ⟨signTape, ((oneFresh signTape).revSparseHesSet (fun _ => false) (fun _ => false) (fun _ => false) 1 (fun _ => true)
    (fun _ => ∅) (fun _ => ∅)).1, fun _ => 1, fun _ => -1, signTape_WF, .revHesSet _ _ _ _ _ _ _ (oneFresh_hist _), ?_, ?_⟩
  · rw [signTape_eval, signTape_eval]
    norm_num [Real.sign]
  · intro pj ij junk cj nan q vy tx
    have e : ((oneFresh signTape).revSparseHesSet (fun _ => false) (fun _ => false) (fun _ => false) 1 (fun _ => true)
        (fun _ => ∅) (fun _ => ∅)).1.jacSet = some (toSets (forSparseJac signTape (fun _ => false) 1 (identitySets 1) false false).1) :=
      rfl
    have hv : (((oneFresh signTape).revSparseHesSet (fun _ => false) (fun _ => false) (fun _ => false) 1 (fun _ => true)
        (fun _ => ∅) (fun _ => ∅)).1.forward true pj ij junk cj nan q (some fun _ => true) vy tx).2.2 =
        vySets 1 1 (toSets (forSparseJac signTape (fun _ => false) 1 (identitySets 1) false false).1) (fun _ => true) vy := rfl
    rw [hv, Bool.eq_false_iff]
    intro h
    obtain ⟨j, hj, hj1, -⟩ := (vySets_iff 1 1 _ _ vy (by decide : 0 < 1)).1 h
    have hh : (forSparseJac signTape (fun _ => false) 1 (identitySets 1) false false).1.Has false 1 1 0 j := by
      have : j ∈ toSets (forSparseJac signTape (fun _ => false) 1 (identitySets 1) false false).1 0 := hj
      exact ⟨by decide, hj1, this⟩
    unfold forSparseJac at hh
    dsimp only at hh
    have h3 := ((has_readBack _ false 1 1 _ _ _ 0 j).1 hh).2.2
    revert h3
    simp [signTape, forJac, forJacOp, Sp.clear, Op.nres]

/-- with the pattern that the constructor leaves empty, the same call marks the result as a variable (`one_vy_ok_partial`) -/
example : ((oneFresh signTape).forward true (fun _ => false) (fun _ => false) (fun _ => 0) (fun _ => 0) 0 0 (some fun _ => true)
    (fun _ => false) fun _ => 1).2.2 0 = true := by
  by_contra h
  have := one_vy_ok_partial signTape_WF (oneFresh_hist _) true (fun _ => false) (fun _ => false) (fun _ => 0) (fun _ => 0) 0 0
    (fun _ => true) (fun _ => false) (fun _ => 1) (i := 0) (by decide) (by simpa using h) (fun _ => 1) (fun _ => -1)
    (fun j _ h => absurd h (by simp))
  rw [signTape_eval, signTape_eval] at this
  norm_num [Real.sign] at this

/-! ## The assertion in `rev_sparse_hes` -/

/-- **C63** The assertion in `rev_sparse_hes` fails whenever an argument of the call is a parameter and the selected results
depend on it (with a partial derivative that is not zero somewhere). -/
theorem one_assert_wrong (hT : T.WF) {o : One} (ho : o.f.toTape = T) (junk s vx : ℕ → Bool) (w : List ℝ)
    (hw : ∀ i < T.dep.length, at' w i ≠ 0 → s i = true) (x : ℕ → ℝ) (hD : T.Dom x) {j : ℕ} (hj : j < T.n) (hvx : vx j = false)
    {d : ℝ} (hd : IsPartial (wsum T w) x j d) (hne : d ≠ 0) : ¬ revAssert T.n vx (o.revT junk s) := by
  intro h
  have := h j hj
  rw [hvx, one_rev_t_ok hT ho junk s w hw x hD hj hd hne] at this
  exact absurd this (by decide)

/-- `u_0 + u_1` -/
def addTape : Tape := ⟨2, [.addvv 1 2], [3]⟩

theorem addTape_WF : addTape.WF := by
  refine ⟨by decide, ?_, ?_⟩
  · simp [addTape, WFOps, Tape.ind, Op.args, Op.nres, Op.naux]
  · simp [addTape, Tape.ind, usable, addRes, Op.nres, Op.naux]

theorem addTape_eval (x : ℕ → ℝ) : addTape.eval x 0 = x 0 + x 1 := by
  simp [Tape.eval, addTape, evalOps, stepEnv, Op.nres, Op.val, indEnv]

/-- the call `f(p, v)` of `f(u) = u_0 + u_1` with a parameter `p` -/
theorem one_assert_wrong_case : ¬ revAssert 2 (fun j => j == 1) ((oneFresh addTape).revT (fun _ => false) fun _ => true) := by
  refine one_assert_wrong addTape_WF (oneFresh_tape _) _ _ _ [1] (fun _ _ _ => rfl) (fun _ => 0) ?_ (j := 0) (by decide) rfl
    (d := 1) ?_ one_ne_zero
  · simp [Tape.Dom, addTape, domOps, Op.dom]
  · have : wsum addTape [1] = fun y => y 0 + y 1 := by
      funext y
      rw [← addTape_eval]
      simp [wsum, show addTape.dep.length = 1 from rfl, at']
    rw [this]
    have h := (hasDerivAt_id' (0 : ℝ)).add_const (0 : ℝ)
    unfold IsPartial
    simpa using h

end CppAD.Chkpoint
