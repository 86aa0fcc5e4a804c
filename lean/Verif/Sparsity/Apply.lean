import Verif.Sparsity.HesFor

/-!
# Sparsity patterns: dependency in reverse mode, use by `sparse_jac_*` and `sparse_hes`, defects, examples
-/

open scoped ContDiff Topology

namespace CppAD.Sparsity

/-- **C16**, dependency patterns: if `(i, j)` is not in the pattern computed with `dependency` true then none of
the components that are in row `i` of the argument pattern changes when argument `j` is changed. -/
theorem rev_jac_sparsity_dependency {T : Tape} (hT : T.WF) (ell : ℕ) (pat : Pattern) (transpose : Bool)
    (i j k : ℕ) (hi : i < ell) (hj : j < T.n) (hk : k < T.dep.length) (hp : Has transpose pat i k)
    (x x' : ℕ → ℝ) (hx : ∀ l < T.n, x l ≠ x' l → l = j) (hne : T.eval x k ≠ T.eval x' k) :
    Has transpose (revJacSparsity T ell pat transpose true) i j := by
  have hflip : ∀ (p : Pattern) (i j : ℕ), Has transpose p i j ↔ Has (!transpose) p j i := by
    intro p i j
    unfold Has
    cases transpose
    · constructor <;> (rintro ⟨k, hk, h⟩; exact ⟨k, hk, h⟩)
    · constructor <;> (rintro ⟨k, hk, h⟩; exact ⟨k, hk, h⟩)
  by_contra hno
  rw [hflip] at hno
  unfold revJacSparsity at hno
  dsimp only at hno
  rw [has_getInternalPattern] at hno
  set s0 := setInternalPattern (!transpose) (fun i => T.dep.getD i 0) (fun _ => ∅) pat with hs0
  have hno : i ∉ revJac true T.ops (T.n + 1) s0 (j + 1) := fun h => hno ⟨hj, hi, h⟩
  obtain ⟨c1, c2⟩ := revJac_closed true T.ops (T.n + 1) T.ind s0 (by omega) ind_ne ind_lt hT.ops
  refine hne ?_
  refine closed_eval {v | i ∈ revJac true T.ops (T.n + 1) s0 v} T.ops (T.n + 1) T.ind
    _ _ ind_lt hT.ops ?_ ?_ _ (dep_usable hT hk) ?_
  · exact AllOps.mono _ _ (fun op r iz _ _ _ h hz a ha => h a ha hz) c2
  · intro v hv hA
    have hv1 := hv.1
    have hv2 := hv.2
    unfold indEnv
    rw [if_neg (by omega), if_neg (by omega)]
    by_contra hr
    have := hx (v - 1) (by omega) hr
    have : v = j + 1 := by omega
    subst this
    exact hno hA
  · refine c1 _ ?_
    rw [hs0, mem_setInternalPattern]
    have hd : T.dep.getD k 0 ≠ 0 := by
      have h1 := dep_usable hT hk
      have : ∀ (ops : List Op) (nv : ℕ) (U : Set ℕ), 0 < nv → 0 ∉ U → 0 ∉ usable ops nv U := by
        intro ops
        induction ops with
        | nil => intro nv U _ h; exact h
        | cons op ops ih =>
          intro nv U h0 h
          have := op.nres_pos
          refine ih _ _ (by omega) ?_
          rintro (h' | h')
          · have := h'.1; omega
          · exact h h'
      intro h0
      rw [h0] at h1
      exact this _ _ _ (by omega) (fun h => by have := h.1; omega) h1
    exact ⟨hd, k, rfl, (hflip pat i k).1 hp⟩

/-- the identity matrix pattern -/
def identityPattern (n : ℕ) : Pattern := ⟨n, fun k => k, fun k => k⟩

theorem partial_exists {T : Tape} (hT : T.WF) {x : ℕ → ℝ} (hD : T.Dom x) {i : ℕ} (hi : i < T.dep.length) (j : ℕ) :
    ∃ v, IsPartial (fun y => T.eval y i) x j v := by
  obtain ⟨v, hv⟩ := wsum_partial hT hD (unitVec T.dep.length i) j
  refine ⟨v, ?_⟩
  have : wsum T (unitVec T.dep.length i) = fun y => T.eval y i := by
    funext y
    unfold wsum
    rw [Finset.sum_eq_single i]
    · rw [at_unitVec hi, if_pos rfl, one_mul]
    · intro k _ hk; rw [at_unitVec hi, if_neg hk, zero_mul]
    · intro h; exact absurd (Finset.mem_range.2 hi) h
  rwa [this] at hv

/-- **C15** and **C20** together: the pattern of `for_jac_sparsity` with the identity as argument is a valid argument
of `sparse_jac_for` and `sparse_jac_rev` at every point. -/
theorem for_jac_sparsity_covers {T : Tape} (hT : T.WF) (dependency : Bool) (K : ℕ) (row col : ℕ → ℕ) (x : ℕ → ℝ) (hD : T.Dom x) :
    SparseJac.Covers T K row col (forJacSparsity T T.n (identityPattern T.n) false dependency).1 x := by
  intro i hi j hj _ _ hno
  obtain ⟨v, hv⟩ := partial_exists hT hD hi j
  by_cases h0 : v = 0
  · rw [h0] at hv; exact hv
  · exfalso
    have hv' := hv
    unfold IsPartial at hv'
    simp only [upd_un] at hv'
    obtain ⟨k, hk, h⟩ := for_jac_sparsity_ok hT T.n (identityPattern T.n) false dependency (fun k j => un j k)
      (fun k hk j _ hne => ⟨k, hk, rfl, by
        show k = j
        by_contra hkj
        exact hne (by simp [un, hkj])⟩)
      x hD i j hi hj v hv' h0
    exact hno k hk h

/-- **C16** and **C20** together -/
theorem rev_jac_sparsity_covers {T : Tape} (hT : T.WF) (dependency : Bool) (K : ℕ) (row col : ℕ → ℕ) (x : ℕ → ℝ) (hD : T.Dom x) :
    SparseJac.Covers T K row col (revJacSparsity T T.dep.length (identityPattern T.dep.length) false dependency) x := by
  intro i hi j hj _ _ hno
  obtain ⟨v, hv⟩ := wsum_partial hT hD (unitVec T.dep.length i) j
  have hw : wsum T (unitVec T.dep.length i) = fun y => T.eval y i := by
    funext y
    unfold wsum
    rw [Finset.sum_eq_single i]
    · rw [at_unitVec hi, if_pos rfl, one_mul]
    · intro k _ hk; rw [at_unitVec hi, if_neg hk, zero_mul]
    · intro h; exact absurd (Finset.mem_range.2 hi) h
  by_cases h0 : v = 0
  · rw [h0, hw] at hv; exact hv
  · exfalso
    obtain ⟨k, hk, h⟩ := rev_jac_sparsity_ok hT T.dep.length (identityPattern T.dep.length) false dependency i j hi hj
      (unitVec T.dep.length i)
      (fun k hk hne => ⟨k, hk, by
        show k = i
        by_contra hkj
        exact hne (by rw [at_unitVec hi, if_neg hkj]), rfl⟩)
      x hD v hv h0
    exact hno k hk h

/-- **C17** and **C21** together: the pattern of `for_hes_sparsity` with everything selected is a valid argument
of `sparse_hes` at every point (for the tapes of `for_hes_sparsity_ok_partial`). -/
theorem for_hes_sparsity_covers_partial {T : Tape} (hT : T.WF) (hsup : ∀ op ∈ T.ops, forHesSupported op = true)
    (wt : List ℝ) (K : ℕ) (row col : ℕ → ℕ) (x : ℕ → ℝ) (hD : T.Dom x) :
    ∀ coloring, SparseHes.Covers2 T wt K row col (forHesSparsity T (fun _ => true) fun _ => true) coloring x := by
  intro _ i hi j hj _ hno
  obtain ⟨v, hv, _⟩ := wsum_mixed hT hD wt i j
  by_cases h0 : v = 0
  · rw [h0] at hv; exact hv
  · exfalso
    obtain ⟨k, hk, h⟩ := for_hes_sparsity_ok_partial hT hsup (fun _ => true) (fun _ => true) wt (fun _ _ _ => rfl) x hD i j hi hj rfl rfl
      v hv h0
    exact hno k hk h

/-- **C17** and **C21** together: the pattern of `rev_hes_sparsity` after `for_jac_sparsity` with the identity as argument
and with everything selected is a valid argument of `sparse_hes` at every point. -/
theorem rev_hes_sparsity_covers {T : Tape} (hT : T.WF) (wt : List ℝ) (dependency : Bool) (K : ℕ) (row col : ℕ → ℕ)
    (x : ℕ → ℝ) (hD : T.Dom x) :
    ∀ coloring, SparseHes.Covers2 T wt K row col
      (revHesSparsity T T.n (forJacSparsity T T.n (identityPattern T.n) false dependency).2 (fun _ => true) false) coloring x := by
  intro _ i hi j hj _ hno
  obtain ⟨v, hv, _⟩ := wsum_mixed hT hD wt i j
  by_cases h0 : v = 0
  · rw [h0] at hv; exact hv
  · exfalso
    obtain ⟨k, hk, h⟩ := rev_hes_sparsity_ok_partial hT T.n (identityPattern T.n) false false dependency (fun k j => un j k)
      (fun k hk j _ hne => ⟨k, hk, rfl, by
        show k = j
        by_contra hkj
        exact hne (by simp [un, hkj])⟩)
      (fun _ => true) wt (fun _ _ _ => rfl) (fun _ _ _ _ _ => rfl) (Or.inr fun k hk => ⟨k, k, hk, rfl, rfl⟩) x hD i j hi hj v (isMixed_of_partial2 hv) h0
    exact hno k hk h

/-! ## defects -/

theorem square_partial2 (x : ℕ → ℝ) : IsPartial2 (fun y => y 0 * y 0) x 0 0 2 := by
  refine ⟨fun y => 2 * y 0, Filter.Eventually.of_forall fun ε => ?_, ?_⟩
  · have h : HasDerivAt (fun t : ℝ => x 0 + ε + t) 1 0 := (hasDerivAt_id (0 : ℝ)).const_add _
    have h2 : HasDerivAt (fun t : ℝ => (x 0 + ε + t) * (x 0 + ε + t)) (2 * (x 0 + ε)) 0 := by
      have h3 := h.mul h
      rw [show (2 * (x 0 + ε) : ℝ) = 1 * (x 0 + ε + 0) + (x 0 + ε + 0) * 1 by ring]
      exact h3
    simpa [IsPartial] using h2
  · have h : HasDerivAt (fun t : ℝ => x 0 + t) 1 0 := (hasDerivAt_id (0 : ℝ)).const_add _
    have h2 : HasDerivAt (fun t : ℝ => 2 * (x 0 + t)) 2 0 := by
      have h3 := h.const_mul 2
      rw [mul_one] at h3
      exact h3
    simpa [IsPartial] using h2

/-- `y = CondExpLt(x, 1, x, x); z = y * y` -/
noncomputable def cexpTape : Tape := ⟨1, [.cexp .lt (.var 1) (.par 1) (.var 1) (.var 1), .mulvv 2 2], [3]⟩

/-- `y = azmul(1, x); z = y * y` -/
noncomputable def zmulTape : Tape := ⟨1, [.zmulpv 1 1, .mulvv 2 2], [3]⟩

/-- `z = x * x`, with `F(x) = (z, z)` -/
def dupTape : Tape := ⟨1, [.mulvv 1 1], [2, 2]⟩

theorem condExp_same (c : CompareOp) (a b t : ℝ) : condExp c a b t t = t := by
  unfold condExp; split_ifs <;> rfl

theorem cexpTape_WF : cexpTape.WF := by
  refine ⟨by decide, ?_, ?_⟩
  · simp [cexpTape, WFOps, Tape.ind, addRes, Op.naux, Op.args, Op.nres, cexpArgs, Opd.vars]
  · intro d hd
    simp only [cexpTape, List.mem_singleton] at hd
    subst hd
    simp [cexpTape, usable, Tape.ind, addRes, Op.naux, Op.nres]

/-- The full statement of **C17** is false of `for_hes_sparsity` because the sweep takes CExpOp for an operator that
does not affect the Jacobian, for_hes.hpp:283: the second derivative at zero is 2 but the pattern is empty. -/
theorem for_hes_sparsity_wrong_cexp : ∃ (T : Tape) (x : ℕ → ℝ), T.WF ∧ T.Dom x ∧ IsPartial2 (fun y => T.eval y 0) x 0 0 2 ∧
    ¬ Has false (forHesSparsity T (fun _ => true) fun _ => true) 0 0 := by
  refine ⟨cexpTape, fun _ => 0, cexpTape_WF, ?_, ?_, ?_⟩
  · simp [Tape.Dom, cexpTape, domOps, Op.dom, cexpDom, Opd.val, indEnv]
  · have : (fun y => cexpTape.eval y 0) = fun y => y 0 * y 0 := by
      funext y
      simp [Tape.eval, cexpTape, evalOps, stepEnv, Op.nres, Op.val, indEnv, condExp_same, Opd.val]
    rw [this]; exact square_partial2 _
  · rintro ⟨k, hk, -⟩
    revert hk
    simp [forHesSparsity, getInternalPattern, Pattern.ofList, cexpTape, forHes, forHesOps, forHesOp, forHesElem, forHesInv, forRange,
      revJac, revJacOp, twoVarForHes, unionLoop, twoVarRevJac, cexpRevJac, revOpd, Op.nres, bu_apply, Sp.addElement,
      Function.update_apply]

/-- The same for ZmulpvOp, which has no case in the sweep, for_hes.hpp:237-508. -/
theorem for_hes_sparsity_wrong_zmulpv : ∃ (T : Tape) (x : ℕ → ℝ), T.WF ∧ T.Dom x ∧ IsPartial2 (fun y => T.eval y 0) x 0 0 2 ∧
    ¬ Has false (forHesSparsity T (fun _ => true) fun _ => true) 0 0 := by
  refine ⟨zmulTape, fun _ => 0, ?_, ?_, ?_, ?_⟩
  · refine ⟨by decide, ?_, ?_⟩
    · simp [zmulTape, WFOps, Tape.ind, addRes, Op.naux, Op.args, Op.nres]
    · intro d hd
      simp only [zmulTape, List.mem_singleton] at hd
      subst hd
      simp [zmulTape, usable, Tape.ind, addRes, Op.naux, Op.nres]
  · simp [Tape.Dom, zmulTape, domOps, Op.dom]
  · have : (fun y => zmulTape.eval y 0) = fun y => y 0 * y 0 := by
      funext y
      simp [Tape.eval, zmulTape, evalOps, stepEnv, Op.nres, Op.val, indEnv]
    rw [this]; exact square_partial2 _
  · rintro ⟨k, hk, -⟩
    revert hk
    simp [forHesSparsity, getInternalPattern, Pattern.ofList, zmulTape, forHes, forHesOps, forHesOp, forHesElem, forHesInv, forRange,
      revJac, revJacOp, twoVarForHes, unionLoop, twoVarRevJac, oneVarRevJac, Op.nres, bu_apply, Sp.addElement,
      Function.update_apply]

/-- The full statement of **C17** is false of `rev_hes_sparsity` when two components are the same variable: the flag of
component 1, not selected, overwrites that of component 0, rev_hes_sparsity.hpp:188-189. -/
theorem rev_hes_sparsity_wrong : ∃ (T : Tape) (x : ℕ → ℝ) (sel : ℕ → Bool), T.WF ∧ T.Dom x ∧ sel 0 = true ∧
    IsPartial2 (fun y => T.eval y 0) x 0 0 2 ∧
    ¬ Has false (revHesSparsity T T.n (forJacSparsity T T.n (identityPattern T.n) false false).2 sel false) 0 0 := by
  refine ⟨dupTape, fun _ => 0, fun i => i == 0, ?_, ?_, rfl, ?_, ?_⟩
  · refine ⟨by decide, ?_, ?_⟩
    · simp [dupTape, WFOps, Tape.ind, addRes, Op.naux, Op.args, Op.nres]
    · intro d hd
      simp only [dupTape, List.mem_cons, List.not_mem_nil, or_false, or_self] at hd
      subst hd
      simp [dupTape, usable, Tape.ind, addRes, Op.naux, Op.nres]
  · simp [Tape.Dom, dupTape, domOps, Op.dom]
  · have : (fun y => dupTape.eval y 0) = fun y => y 0 * y 0 := by
      funext y
      simp [Tape.eval, dupTape, evalOps, stepEnv, Op.nres, Op.val, indEnv]
    rw [this]; exact square_partial2 _
  · rintro ⟨k, hk, -⟩
    revert hk
    simp [revHesSparsity, getInternalPattern, Pattern.ofList, dupTape, forRange, revHes, revHesOp, twoVarRevHes,
      Op.nres, Function.update_apply, show List.range' 0 2 = [0, 1] from rfl]

/-! ## examples -/

/-- the hypotheses of `for_jac_sparsity_ok`, `rev_jac_sparsity_ok`: the derivative of `sin(x_0 x_1)` w.r.t. `x_0` -/
theorem exTape_partial (a b : ℝ) : IsPartial (fun y => exTape.eval y 0) (at' [a, b]) 0 (Real.cos (a * b) * b) := by
  unfold IsPartial
  simp only [exTape_eval]
  have h : HasDerivAt (fun t : ℝ => (a + t) * b) b 0 := by
    have := ((hasDerivAt_id (0 : ℝ)).const_add a).mul_const b
    simpa using this
  have h2 := h.sin
  simp only [add_zero] at h2
  exact h2

example (a b : ℝ) (h : Real.cos (a * b) * b ≠ 0) :
    Has false (forJacSparsity exTape 2 (identityPattern 2) false false).1 0 0 := by
  refine for_jac_sparsity_ok exTape_WF 2 (identityPattern 2) false false (fun k j => un j k) (fun k hk j _ hne => ⟨k, hk, rfl, ?_⟩)
    (at' [a, b]) (exTape_Dom _) 0 0 (by decide) (by decide) _ ?_ h
  · show k = j
    by_contra hkj
    exact hne (by simp [un, hkj])
  · have := exTape_partial a b
    unfold IsPartial at this
    simp only [upd_un] at this
    exact this

example : exTape.eval (fun _ => 1) 0 ≠ exTape.eval (fun k => if k = 1 then 0 else 1) 0 := by
  rw [exTape_eval, exTape_eval]
  simp
  exact (Real.sin_pos_of_pos_of_lt_pi one_pos (by linarith [Real.two_le_pi])).ne'

example (a b : ℝ) (h : Real.cos (a * b) * b ≠ 0) :
    Has false (revJacSparsity exTape 1 (identityPattern 1) false false) 0 0 := by
  refine rev_jac_sparsity_ok exTape_WF 1 (identityPattern 1) false false 0 0 (by decide) (by decide) [1]
    (fun k hk _ => ⟨k, hk, ?_, rfl⟩) (at' [a, b]) (exTape_Dom _) _ ?_ h
  · simp only [exTape, List.length_singleton] at hk
    show k = 0
    omega
  · have : wsum exTape [1] = fun y => exTape.eval y 0 := by
      funext y; simp [wsum, exTape, at']
    rw [this]; exact exTape_partial a b

/-- hypotheses of `for_hes_sparsity_ok_partial` and `rev_hes_sparsity_ok_partial` with a non-zero second derivative -/
example : dupTape.WF ∧ (∀ op ∈ dupTape.ops, forHesSupported op = true) ∧ (∀ x, dupTape.Dom x) ∧
    ∀ x, IsPartial2 (wsum dupTape [1, 0]) x 0 0 2 := by
  refine ⟨⟨by decide, ?_, ?_⟩, ?_, fun x => ?_, fun x => ?_⟩
  · simp [dupTape, WFOps, Tape.ind, addRes, Op.naux, Op.args, Op.nres]
  · intro d hd
    simp only [dupTape, List.mem_cons, List.not_mem_nil, or_false, or_self] at hd
    subst hd
    simp [dupTape, usable, Tape.ind, addRes, Op.naux, Op.nres]
  · intro op h
    simp only [dupTape, List.mem_singleton] at h
    subst h; rfl
  · simp [Tape.Dom, dupTape, domOps, Op.dom]
  · have : wsum dupTape [1, 0] = fun y => y 0 * y 0 := by
      funext y
      simp [wsum, Tape.eval, dupTape, evalOps, stepEnv, Op.nres, Op.val, indEnv, at', Finset.sum_range_succ]
    rw [this]; exact square_partial2 x

end CppAD.Sparsity
