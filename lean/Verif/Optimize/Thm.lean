import Verif.Optimize.Main

/-! # C13, C14: optimize

The specification is `OTape.eval disc T obey ind x junk`: the values of the dependent variables when the independent
dynamic parameters are `ind`, the independent variables are `x` and the memory for the Taylor
coefficients contains `junk` before the sweep. -/

open scoped Classical

namespace CppAD.Optim

open CppAD CppAD.Record

variable {T : OTape} {o : Options}

/-- without CSkipOp nothing is skipped -/
theorem sweep_noskip (disc : ℕ → ℝ → ℝ) (par : ℕ → ℝ) : ∀ (ops : List VOp) (i : ℕ) (s : FSt), (∀ op ∈ ops, op.isCskip = false) →
    (∀ k, s.skip k = false) → sweepOps disc par true ops i s = sweepOps disc par false ops i s := by
  intro ops
  induction ops with
  | nil => intro i s _ _; rfl
  | cons op ops ih =>
    intro i s h hs
    simp only [sweepOps, hs, Bool.and_false, Bool.false_eq_true, if_false]
    refine ih _ _ (fun op' h' => h op' (List.mem_cons_of_mem _ h')) fun k => ?_
    rw [step_skip (h op List.mem_cons_self)]; exact hs k

theorem eval_noskip (hT : ∀ op ∈ T.ops, op.isCskip = false) (disc : ℕ → ℝ → ℝ) (ind : List ℝ) (x junk : ℕ → ℝ) :
    T.eval disc true ind x junk = T.eval disc false ind x junk := by
  unfold OTape.eval
  rw [sweep_noskip _ _ _ _ _ hT fun _ => rfl]

/-- **C13** The optimized recording computes the same function: for every value of the dynamic parameters and of the
independent variables, and whatever was in memory before, zero order forward mode gives the same
dependent variables.  Here the original recording has no conditional skip operators (it has not been optimized before).

Partial: `OTape.WF` excludes recordings that store a parameter in a VecAD vector, and `SkipOk` excludes recordings that use
both VecAD vectors and conditional skip; in those cases the claim is false (`Verif.Optimize.Wrong`).  Calls of
atomic functions are part of the recording; calls all of whose arguments are parameters (atom_dyn) and print operators are not modelled. -/
theorem optimize_preserves_partial (w : T.WF) (hs : SkipOk o T) (hT : ∀ op ∈ T.ops, op.isCskip = false)
    (h : Hashes) (order : List ℕ) (disc : ℕ → ℝ → ℝ) (ind : List ℝ) (x junk junk' : ℕ → ℝ) :
    (T.optimize h o order).eval disc true ind x junk' = T.eval disc true ind x junk := by
  rw [eval_noskip hT]
  exact Ctx.eval_eq (c := ⟨disc, ind, x, junk, junk', true, T, h, o, order⟩) w (Or.inr hs)

/-- **C13** the same when VecAD vectors and conditional skip are both used, if all the operators of the
optimized recording are executed -/
theorem optimize_preserves_noskip_partial (w : T.WF) (h : Hashes) (order : List ℕ) (disc : ℕ → ℝ → ℝ) (ind : List ℝ) (x junk junk' : ℕ → ℝ) :
    (T.optimize h o order).eval disc false ind x junk' = T.eval disc false ind x junk :=
  Ctx.eval_eq (c := ⟨disc, ind, x, junk, junk', false, T, h, o, order⟩) w (Or.inl rfl)

/-- **C14** Skipping operators does not change the dependent variables: executing all the operators of the
optimized recording gives the same result as skipping the operators that its conditional skip operators say can be
skipped, whatever the memory of the skipped results contains. -/
theorem cskip_no_effect_partial (w : T.WF) (hs : SkipOk o T) (h : Hashes) (order : List ℕ) (disc : ℕ → ℝ → ℝ) (ind : List ℝ) (x junk junk' : ℕ → ℝ) :
    (T.optimize h o order).eval disc true ind x junk = (T.optimize h o order).eval disc false ind x junk' := by
  have h1 := Ctx.eval_eq (c := ⟨disc, ind, x, junk, junk, true, T, h, o, order⟩) w (Or.inr hs)
  have h2 := Ctx.eval_eq (c := ⟨disc, ind, x, junk, junk', false, T, h, o, order⟩) w (Or.inr hs)
  exact h1.trans h2.symm

/-- **C14** the dependent variables of the optimized recording do not depend on what is in memory before the sweep (for
example results of a previous sweep for operators that are skipped now) -/
theorem optimize_junk_partial (w : T.WF) (hs : SkipOk o T) (h : Hashes) (order : List ℕ) (disc : ℕ → ℝ → ℝ) (ind : List ℝ) (x junk junk' : ℕ → ℝ) :
    (T.optimize h o order).eval disc true ind x junk = (T.optimize h o order).eval disc true ind x junk' :=
  (cskip_no_effect_partial w hs h order disc ind x junk junk).trans (cskip_no_effect_partial w hs h order disc ind x junk' junk).symm

/-- y = CondExpLt(x0, x1, exp(x0) + p + x1, sin(x1)) with a dynamic parameter p -/
noncomputable def exT : OTape where
  dyn := ⟨[0, 3], [false, true], [.ind], fun _ => 0⟩
  nInd := 1
  n := 2
  ops := [.begin, .inv, .inv, .un .exp 1, .pv .add 1 3, .vv .add 4 2, .un .sin 2, .cexp .lt (.var 1) (.var 2) (.var 5) (.var 6)]
  dep := [7]
  vecs := []

theorem exT_wf : exT.WF where
  len := by simp [exT]
  ind := by
    intro i hi
    simp only [exT, List.length_cons, List.length_nil] at hi
    simp only [exT, OTape.op]
    interval_cases i <;> simp [VOp.isInd]
  vars := by
    intro i hi
    simp only [exT, List.length_cons, List.length_nil] at hi
    simp only [exT, OTape.op]
    interval_cases i <;> simp [VOp.vars, Arg.vars, VOp.hasRes]
  pars := by
    intro i hi
    simp only [exT, List.length_cons, List.length_nil] at hi
    simp only [exT, OTape.op]
    interval_cases i <;> simp [VOp.pars, Arg.pars]
  csum := by
    intro i hi
    simp only [exT, List.length_cons, List.length_nil] at hi
    simp only [exT, OTape.op]
    interval_cases i <;> simp
  vec := by
    intro i hi
    simp only [exT, List.length_cons, List.length_nil] at hi
    simp only [exT, OTape.op]
    interval_cases i <;> simp [VOp.vec]
  vecs := by simp [exT]
  stores := by
    intro i hi
    simp only [exT, List.length_cons, List.length_nil] at hi
    simp only [exT, OTape.op]
    interval_cases i <;> simp [VOp.storesPar]
  call := by
    intro i hi
    simp only [exT, List.length_cons, List.length_nil] at hi
    simp only [exT, OTape.op]
    interval_cases i <;> simp
  dep := by simp [exT, OTape.op, VOp.hasRes]
  dyn := .dyn (b := [false]) (.con .nil) (by simp [DynOp.args])
  plen := rfl
  par0 := by simp [exT, OTape.isDyn]
  nind := by simp [exT]
  atom k hk _ _ _ _ he := (OTape.noAtom (by simp [exT, DynOp.elem]) k hk he).elim
  adep _ _ _ _ hm := by simp [exT] at hm
  d2p := by
    intro k hk
    have : k = 0 := by simp [exT] at hk; omega
    subst this
    simp [exT, dyn2par, List.range, List.range.loop]

example (h : Hashes) (order : List ℕ) (disc : ℕ → ℝ → ℝ) (ind : List ℝ) (x junk : ℕ → ℝ) :
    (exT.optimize h ⟨false, true, true, 10⟩ order).eval disc true ind x junk = exT.eval disc true ind x junk :=
  optimize_preserves_partial exT_wf (Or.inr (by
    intro i hi
    simp only [exT, List.length_cons, List.length_nil] at hi
    simp only [exT, OTape.op]
    interval_cases i <;> simp [VOp.vec])) (by simp [exT, VOp.isCskip]) h order disc ind x junk junk

/-- an atomic function with three arguments and two results, `(x0 * x2, x1)`, whose rev_depend is exact -/
noncomputable def exA : AtomF where
  fn x r := if r = 0 then x.getD 0 0 * x.getD 2 0 else if r = 1 then x.getD 1 0 else 0
  depend _ dy j := if j = 1 then dy 1 else dy 0
  depend_ok := by
    intro tx dy x x' h1 h2 _ h r hr
    have e : ∀ j, (if j = 1 then dy 1 else dy 0) = true → x.getD j 0 = x'.getD j 0 := by
      intro j hj
      by_cases hl : j < tx.length
      · rw [List.getD_eq_getElem?_getD, List.getD_eq_getElem?_getD, h j hl hj]
      · rw [List.getD_eq_default _ _ (by omega), List.getD_eq_default _ _ (by omega)]
    by_cases h0 : r = 0
    · subst h0
      simp only [if_true]
      rw [e 0 hr, e 2 hr]
    · by_cases h3 : r = 1
      · subst h3
        simp only [if_true, if_neg h0]
        exact e 1 hr
      · simp [h0, h3]

/-- `(u, v) = A(exp(x0), sin(x1), p)`, y = u + x0: the second result, and so sin(x1), is not used -/
noncomputable def exTA : OTape where
  dyn := ⟨[0, 3], [false, true], [.ind], fun _ => 0⟩
  nInd := 1
  n := 2
  ops := [.begin, .inv, .inv, .un .exp 1, .un .sin 2, .afun exA [.var 3, .var 4, .par 1] 2,
    .frv exA [.var 3, .var 4, .par 1] 5 0, .frv exA [.var 3, .var 4, .par 1] 5 1, .vv .add 6 1]
  dep := [8]
  vecs := []

theorem exTA_wf : exTA.WF where
  len := by simp [exTA]
  ind := by
    intro i hi
    simp only [exTA, List.length_cons, List.length_nil] at hi
    simp only [exTA, OTape.op]
    interval_cases i <;> simp [VOp.isInd]
  vars := by
    intro i hi
    simp only [exTA, List.length_cons, List.length_nil] at hi
    simp only [exTA, OTape.op]
    interval_cases i <;> simp [VOp.vars, Arg.vars, VOp.hasRes]
  pars := by
    intro i hi
    simp only [exTA, List.length_cons, List.length_nil] at hi
    simp only [exTA, OTape.op]
    interval_cases i <;> simp [VOp.pars, Arg.pars]
  csum := by
    intro i hi
    simp only [exTA, List.length_cons, List.length_nil] at hi
    simp only [exTA, OTape.op]
    interval_cases i <;> simp
  vec := by
    intro i hi
    simp only [exTA, List.length_cons, List.length_nil] at hi
    simp only [exTA, OTape.op]
    interval_cases i <;> simp [VOp.vec]
  vecs := by simp [exTA]
  stores := by
    intro i hi
    simp only [exTA, List.length_cons, List.length_nil] at hi
    simp only [exTA, OTape.op]
    interval_cases i <;> simp [VOp.storesPar]
  call := by
    intro i hi
    simp only [exTA, List.length_cons, List.length_nil] at hi
    simp only [exTA, OTape.op]
    interval_cases i <;> simp
    all_goals
      intro A args g r h1 h2 h3 h4
      subst h1 h2 h3 h4
      simp
  dep := by simp [exTA, OTape.op, VOp.hasRes]
  dyn := .dyn (b := [false]) (.con .nil) (by simp [DynOp.args])
  plen := rfl
  par0 := by simp [exTA, OTape.isDyn]
  nind := by simp [exTA]
  atom k hk _ _ _ _ he := (OTape.noAtom (by simp [exTA, DynOp.elem]) k hk he).elim
  adep _ _ _ _ hm := by simp [exTA] at hm
  d2p := by
    intro k hk
    have : k = 0 := by simp [exTA] at hk; omega
    subst this
    simp [exTA, dyn2par, List.range, List.range.loop]

example (h : Hashes) (order : List ℕ) (disc : ℕ → ℝ → ℝ) (ind : List ℝ) (x junk : ℕ → ℝ) :
    (exTA.optimize h ⟨false, true, true, 10⟩ order).eval disc true ind x junk = exTA.eval disc true ind x junk :=
  optimize_preserves_partial exTA_wf (Or.inr (by
    intro i hi
    simp only [exTA, List.length_cons, List.length_nil] at hi
    simp only [exTA, OTape.op]
    interval_cases i <;> simp [VOp.vec])) (by simp [exTA, VOp.isCskip]) h order disc ind x junk junk

end CppAD.Optim
