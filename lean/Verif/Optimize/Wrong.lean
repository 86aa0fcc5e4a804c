import Verif.Optimize.Thm
import Mathlib.Tactic.NormNum
import Mathlib.Tactic.IntervalCases

/-! # Recordings that optimize changes

Each of these recordings shows that a hypothesis of the theorems in `Verif.Optimize.Thm` is needed. -/

open scoped Classical

namespace CppAD.Optim

open CppAD CppAD.Record

/-- default hash functions -/
def h0 : Hashes := ⟨fun _ => 0, fun _ => 0, fun _ => 0⟩

/-- options without conditional skip -/
def o0 : Options := ⟨false, false, false, 10⟩

/-- v[0] = x0; v[0] = 5; y = v[0]: VecAD vector `v` of size one, parameters 1 and 2 are 0 and 5 -/
noncomputable def wrong1 : OTape where
  dyn := ⟨[0, 0, 5], [false, false, false], [], fun _ => 0⟩
  nInd := 0
  n := 1
  ops := [.begin, .inv, .stpv 0 1 1, .stpp 0 1 2, .ldp 0 1]
  dep := [4]
  vecs := [[1]]

theorem wrong1_eval (disc : ℕ → ℝ → ℝ) (x junk : ℕ → ℝ) : wrong1.eval disc true [] x junk = [5] := by
  simp [wrong1, OTape.eval, sweepOps, VOp.home, VOp.step, FSt.store, FSt.load, FSt.set, OTape.start, parVals, dynamicSweep, at', Arg.val,
    Function.update, forRange, dyn2par, List.range, List.range.loop]

theorem wrong1_op : wrong1.op 0 = .begin ∧ wrong1.op 1 = .inv ∧ wrong1.op 2 = .stpv 0 1 1 ∧ wrong1.op 3 = .stpp 0 1 2 ∧
    wrong1.op 4 = .ldp 0 1 := ⟨rfl, rfl, rfl, rfl, rfl⟩

theorem wrong1_use : wrong1.use o0 = ⟨fun i => if i = 0 ∨ i = 1 ∨ i = 2 ∨ i = 4 then .yes else .no, fun _ => ∅, fun w => decide (w = 0)⟩ := by
  have hl : wrong1.ops.length = 5 := rfl
  obtain ⟨e0, e1, e2, e3, e4⟩ := wrong1_op
  simp only [OTape.use, OTape.useFrom, hl]
  have hi : wrong1.useInit = ⟨fun i => if i = 4 then .yes else .no, fun _ => ∅, fun _ => false⟩ := by
    simp [OTape.useInit, wrong1]
  simp [List.range', useStep, UseSt.mark, hi, e0, e1, e2, e3, e4]
  constructor <;> funext i
  · simp only [Function.update]; split_ifs <;> simp_all
  · simp [Function.update]

theorem wrong1_prev : (wrong1.previous o0 h0.op).prev = (fun _ => 0) ∧ (wrong1.previous o0 h0.op).use = wrong1.use o0 := by
  simp only [OTape.previous, OTape.prevUpTo, wrong1_use]
  simp [forRange, wrong1, prevStep, VOp.matchable, OTape.op, List.range']

theorem wrong1_plan : (wrong1.plan h0 o0).1.newPar = (fun i => if i = 0 then 0 else if i = 1 then 1 else unused) ∧
    (wrong1.plan h0 o0).2.parAll = [0, 0] ∧ (wrong1.plan h0 o0).2.parIsDyn = [false, false] := by
  simp only [OTape.plan, wrong1_prev.2, wrong1_use]
  simp [wrong1, OTape.parUsage, forRange, forDown0, parMarks, parMarksLR, markPars, OTape.op, List.range', OTape.newPars,
    OTape.dynPrevious, putCon, DynRec.putConPar, at', h0]
  funext i
  simp only [Function.update]; split_ifs <;> simp_all

theorem wrong1_ops : (wrong1.newOps h0 o0 [] 5).ops = [.begin, .inv, .stpv 0 1 1, .ldp 0 1] ∧ (wrong1.newOps h0 o0 [] 5).newVar 4 = 3 ∧
    (wrong1.newOps h0 o0 [] 5).pars = (wrong1.plan h0 o0).2 := by
  have hu : (wrong1.plan h0 o0).1.use.use = _ := wrong1_prev.2.trans wrong1_use
  have hp : (wrong1.plan h0 o0).1.use.prev = _ := wrong1_prev.1
  have hn := wrong1_plan.1
  have ho : (wrong1.plan h0 o0).1.op = wrong1.op := rfl
  have hv : (wrong1.plan h0 o0).1.newVec = newVec (wrong1.plan h0 o0).1.use.use.vused := rfl
  obtain ⟨e0, e1, e2, e3, e4⟩ := wrong1_op
  simp [OTape.newOps, forRange, List.range', recStep, insertSkip, hu, hp, hn, ho, hv, e0, e1, e2, e3, e4, RecSt.putVar, RecSt.putOp, VOp.emit, VOp.dead, VOp.map, newVec]

theorem wrong1_opt (disc : ℕ → ℝ → ℝ) (x junk : ℕ → ℝ) : (wrong1.optimize h0 o0 []).eval disc true [] x junk = [x 0] := by
  have e : wrong1.optimize h0 o0 [] = ⟨(wrong1.plan h0 o0).2, 0, 1, [.begin, .inv, .stpv 0 1 1, .ldp 0 1], [3], [[1]], wrong1.adep⟩ := by
    have hu : (wrong1.plan h0 o0).1.use.use = _ := wrong1_prev.2.trans wrong1_use
    have hc : wrong1.cexps o0 = [] := rfl
    have hl : wrong1.ops.length = 5 := rfl
    have hd : wrong1.dep = [4] := rfl
    have hv : wrong1.vecs = [[1]] := rfl
    simp [OTape.optimize, hc, hl, hd, hv, wrong1_ops, hu, wrong1_plan.1, List.range, List.range.loop]
    exact ⟨rfl, rfl⟩
  rw [e]
  simp [OTape.eval, sweepOps, VOp.home, VOp.step, FSt.store, FSt.load, FSt.set, OTape.start, parVals, dynamicSweep, at', Arg.val,
    forRange, dyn2par, List.range, List.range.loop, wrong1_plan]

/-- A program that stores a constant in a VecAD vector that contains variables: optimize drops the store, and the
optimized function returns the value that was stored before.  get_op_usage.hpp has no case for StppOp and
StvpOp. -/
theorem optimize_drops_store : ∃ T : OTape, (∀ op ∈ T.ops, op.vec = none ∨ op.vec = some 0) ∧ SkipOk o0 T ∧
    ∃ x : ℕ → ℝ, ∀ disc junk, (T.optimize h0 o0 []).eval disc true [] x junk ≠ T.eval disc true [] x junk := by
  refine ⟨wrong1, by simp [wrong1, VOp.vec], Or.inl rfl, fun _ => 0, fun disc junk => ?_⟩
  rw [wrong1_opt, wrong1_eval]
  simp

/-- options with conditional skip -/
def o1 : Options := ⟨false, true, false, 10⟩

/-- a = exp(x0); v[0] = a; y1 = v[0]; y0 = CondExpLt(x0, x1, a, x1) -/
noncomputable def wrong2 : OTape where
  dyn := ⟨[0, 0], [false, false], [], fun _ => 0⟩
  nInd := 0
  n := 2
  ops := [.begin, .inv, .inv, .un .exp 1, .stpv 0 1 3, .ldp 0 1, .cexp .lt (.var 1) (.var 2) (.var 3) (.var 2)]
  dep := [6, 5]
  vecs := [[1]]

theorem wrong2_op : wrong2.op 0 = .begin ∧ wrong2.op 1 = .inv ∧ wrong2.op 2 = .inv ∧ wrong2.op 3 = .un .exp 1 ∧
    wrong2.op 4 = .stpv 0 1 3 ∧ wrong2.op 5 = .ldp 0 1 ∧ wrong2.op 6 = .cexp .lt (.var 1) (.var 2) (.var 3) (.var 2) :=
  ⟨rfl, rfl, rfl, rfl, rfl, rfl, rfl⟩

theorem wrong2_eval (disc : ℕ → ℝ → ℝ) (x junk : ℕ → ℝ) : (wrong2.eval disc true [] x junk).getD 1 0 = Real.exp (x 0) := by
  simp [wrong2, OTape.eval, sweepOps, VOp.home, VOp.step, FSt.store, FSt.load, FSt.set, OTape.start, parVals, dynamicSweep, at', Arg.val,
    Function.update, forRange, dyn2par, List.range, List.range.loop, UnF.fn]

theorem wrong2_use : (wrong2.use o1).usage = (fun i => if i < 7 then .yes else .no) ∧ (wrong2.use o1).vused = (fun w => decide (w = 0)) ∧
    (wrong2.use o1).cset = fun i => if i = 3 then {(6, false)} else ∅ := by
  have hl : wrong2.ops.length = 7 := rfl
  have hn : wrong2.nset o1 = true := by
    simp [OTape.nset, OTape.cexps, o1, hl, List.range, List.range.loop, wrong2_op, VOp.isCexp]
  have hos : o1.cskip = true := rfl
  obtain ⟨e0, e1, e2, e3, e4, e5, e6⟩ := wrong2_op
  have hi : wrong2.useInit = ⟨fun i => if i = 6 ∨ i = 5 then .yes else .no, fun _ => ∅, fun _ => false⟩ := by
    simp [OTape.useInit, wrong2]
  simp [OTape.use, OTape.useFrom, hl, hn, List.range', useStep, UseSt.mark, hi, e0, e1, e2, e3, e4, e5, e6, incArg, incOpd, incCase, sameVar, hos]
  refine ⟨?_, ?_, ?_⟩ <;> funext i
  · simp only [Function.update]; split_ifs <;> simp_all
    all_goals omega
  · simp only [Function.update]; split_ifs <;> simp_all
  · simp only [Function.update]; split_ifs <;> simp_all

theorem wrong2_prev : (wrong2.previous o1 h0.op).prev = (fun _ => 0) ∧ (wrong2.previous o1 h0.op).use = wrong2.use o1 := by
  have hl : wrong2.ops.length = 7 := rfl
  obtain ⟨e0, e1, e2, e3, e4, e5, e6⟩ := wrong2_op
  simp [OTape.previous, OTape.prevUpTo, forRange, hl, prevStep, VOp.matchable, List.range', e0, e1, e2, e3, e4, e5, e6, wrong2_use.1, matchOp]

theorem wrong2_plan : (wrong2.plan h0 o1).1.newPar = (fun i => if i = 0 then 0 else if i = 1 then 1 else unused) ∧
    (wrong2.plan h0 o1).2.parAll = [0, 0] ∧ (wrong2.plan h0 o1).2.parIsDyn = [false, false] := by
  simp only [OTape.plan, wrong2_prev.2, wrong2_use]
  simp [wrong2, OTape.parUsage, forRange, forDown0, parMarks, parMarksLR, parMarks.parOf, markPars, OTape.op, List.range', OTape.newPars,
    OTape.dynPrevious, putCon, DynRec.putConPar, at', h0]
  funext i
  simp only [Function.update]; split_ifs <;> simp_all

theorem wrong2_skip : (wrong2.plan h0 o1).1.use.skipOps wrong2.op 7 6 true = [] ∧ (wrong2.plan h0 o1).1.use.skipOps wrong2.op 7 6 false = [3] := by
  have hu : (wrong2.plan h0 o1).1.use.use = _ := wrong2_prev.2
  have hp : (wrong2.plan h0 o1).1.use.prev = _ := wrong2_prev.1
  simp [PrevSt.skipOps, PrevSt.keep, PrevSt.visit, VOp.isRes, VOp.isAtom, wrong2_op, hu, hp, wrong2_use, List.range, List.range.loop]

theorem wrong2_ops : (wrong2.newOps h0 o1 [6] 7).ops = [.begin, .inv, .inv, ph, .un .exp 1, .stpv 0 1 4, .ldp 0 1,
      .cexp .lt (.var 1) (.var 2) (.var 4) (.var 2)] ∧
    (wrong2.newOps h0 o1 [6] 7).newVar 5 = 6 ∧ (wrong2.newOps h0 o1 [6] 7).newVar 6 = 7 ∧ (wrong2.newOps h0 o1 [6] 7).newOp 3 = 4 ∧
    (wrong2.newOps h0 o1 [6] 7).left 6 = .var 1 ∧ (wrong2.newOps h0 o1 [6] 7).right 6 = .var 2 ∧
    (wrong2.newOps h0 o1 [6] 7).skipAt 6 = some 3 ∧
    (wrong2.newOps h0 o1 [6] 7).pars = (wrong2.plan h0 o1).2 := by
  have hu : (wrong2.plan h0 o1).1.use.use = _ := wrong2_prev.2
  have hp : (wrong2.plan h0 o1).1.use.prev = _ := wrong2_prev.1
  have hn := wrong2_plan.1
  have ho : (wrong2.plan h0 o1).1.op = wrong2.op := rfl
  have hv : (wrong2.plan h0 o1).1.newVec = newVec (wrong2.plan h0 o1).1.use.use.vused := rfl
  have hnum : (wrong2.plan h0 o1).1.numOp = 7 := rfl
  have hcs : (wrong2.plan h0 o1).1.cskip = true := rfl
  obtain ⟨e0, e1, e2, e3, e4, e5, e6⟩ := wrong2_op
  simp [OTape.newOps, forRange, List.range', recStep, insertSkip, hu, hp, hn, ho, hv, hnum, hcs, wrong2_skip, e0, e1, e2, e3, e4, e5, e6, RecSt.putVar,
    RecSt.putOp, VOp.emit, VOp.dead, VOp.map, Arg.map, newVec, VOp.maxLR, Arg.varIdx, wrong2_use, ph]

theorem wrong2_opt (disc : ℕ → ℝ → ℝ) (x junk : ℕ → ℝ) (hx : ¬ x 0 < x 1) :
    ((wrong2.optimize h0 o1 [6]).eval disc true [] x junk).getD 1 0 = junk 4 := by
  have e : wrong2.optimize h0 o1 [6] = ⟨(wrong2.plan h0 o1).2, 0, 2, [.begin, .inv, .inv, .cskip .lt (.var 1) (.var 2) [] [4], .un .exp 1, .stpv 0 1 4, .ldp 0 1,
      .cexp .lt (.var 1) (.var 2) (.var 4) (.var 2)], [7, 6], [[1]], wrong2.adep⟩ := by
    have hu : (wrong2.plan h0 o1).1.use.use = _ := wrong2_prev.2
    have hl : wrong2.ops.length = 7 := rfl
    have hc : wrong2.cexps o1 = [6] := by
      simp [OTape.cexps, o1, hl, List.range, List.range.loop, wrong2_op, VOp.isCexp]
    have hd : wrong2.dep = [6, 5] := rfl
    have hv : wrong2.vecs = [[1]] := rfl
    have hnum : (wrong2.plan h0 o1).1.numOp = 7 := rfl
    have ho : (wrong2.plan h0 o1).1.op = wrong2.op := rfl
    simp [OTape.optimize, hc, hl, hd, hv, wrong2_ops, hu, wrong2_use, wrong2_plan.1, List.range, List.range.loop, fillSkip, hnum, wrong2_skip, ho, wrong2_op, VOp.cop]
    exact ⟨rfl, rfl⟩
  rw [e]
  simp [OTape.eval, sweepOps, VOp.home, VOp.step, FSt.store, FSt.load, FSt.set, OTape.start, parVals, dynamicSweep, at', Arg.val,
    forRange, dyn2par, List.range, List.range.loop, wrong2_plan, CompareOp.holds, hx]

theorem wrong2_wf : wrong2.WF where
  len := by simp [wrong2]
  ind := by
    intro i hi
    simp only [wrong2, List.length_cons, List.length_nil] at hi
    simp only [wrong2, OTape.op]
    interval_cases i <;> simp [VOp.isInd]
  vars := by
    intro i hi
    simp only [wrong2, List.length_cons, List.length_nil] at hi
    simp only [wrong2, OTape.op]
    interval_cases i <;> simp [VOp.vars, Arg.vars, VOp.hasRes]
  pars := by
    intro i hi
    simp only [wrong2, List.length_cons, List.length_nil] at hi
    simp only [wrong2, OTape.op]
    interval_cases i <;> simp [VOp.pars, Arg.pars]
  csum := by
    intro i hi
    simp only [wrong2, List.length_cons, List.length_nil] at hi
    simp only [wrong2, OTape.op]
    interval_cases i <;> simp []
  vec := by
    intro i hi
    simp only [wrong2, List.length_cons, List.length_nil] at hi
    simp only [wrong2, OTape.op]
    interval_cases i <;> simp [VOp.vec]
  stores := by
    intro i hi
    simp only [wrong2, List.length_cons, List.length_nil] at hi
    simp only [wrong2, OTape.op]
    interval_cases i <;> simp [VOp.storesPar]
  call := by
    intro i hi
    simp only [wrong2, List.length_cons, List.length_nil] at hi
    simp only [wrong2, OTape.op]
    interval_cases i <;> simp
  vecs := by simp [wrong2]
  dep := by simp [wrong2, OTape.op, VOp.hasRes]
  dyn := .con (b := [false]) (.con .nil)
  plen := rfl
  par0 := by simp [wrong2, OTape.isDyn]
  nind := by simp [wrong2]
  atom k hk _ _ _ _ he := (OTape.noAtom (by simp [wrong2, DynOp.elem]) k hk he).elim
  adep _ _ _ _ hm := by simp [wrong2] at hm
  d2p := by intro k hk; simp [wrong2] at hk

/-- When a recording uses VecAD vectors and conditional skip, an operator whose result has been stored in a vector
may be skipped although an element of the vector is loaded later: the optimized function returns whatever
is in memory.  get_op_usage.hpp does not intersect `cexp_set` for the variables in LdvOp, StpvOp, StvvOp. -/
theorem optimize_skips_stored : ∃ T : OTape, T.WF ∧ ∃ x : ℕ → ℝ, ∃ junk : ℕ → ℝ, ∃ order, ∀ disc,
    (T.optimize h0 o1 order).eval disc true [] x junk ≠ T.eval disc true [] x junk := by
  refine ⟨wrong2, ?_, fun _ => 0, fun _ => -1, [6], fun disc h => ?_⟩
  · exact wrong2_wf
  · have := congrArg (fun l => l.getD 1 0) h
    rw [wrong2_opt _ _ _ (by simp), wrong2_eval] at this
    norm_num at this

/-- y = x0 + exp(p) as a CSumOp, where p is a dynamic parameter -/
noncomputable def wrong3 : OTape where
  dyn := ⟨[0, 0, 1], [false, true, true], [.ind, .un .exp 1], fun _ => 0⟩
  nInd := 1
  n := 1
  ops := [.begin, .inv, .csum 0 [1] [] [2] []]
  dep := [2]
  vecs := []

theorem wrong3_eval (disc : ℕ → ℝ → ℝ) (p : ℝ) (x junk : ℕ → ℝ) : wrong3.eval disc true [p] x junk = [x 0 + Real.exp p] := by
  simp [wrong3, OTape.eval, sweepOps, VOp.home, VOp.step, FSt.set, OTape.start, parVals, dynamicSweep, at', sumOver, DynOp.eval,
    forRange, dyn2par, List.range, List.range.loop, List.range', UnF.fn]
  ring

theorem wrong3_op : wrong3.op 0 = .begin ∧ wrong3.op 1 = .inv ∧ wrong3.op 2 = .csum 0 [1] [] [2] [] := ⟨rfl, rfl, rfl⟩

theorem wrong3_use : wrong3.use o0 = ⟨fun i => if i < 3 then .yes else .no, fun _ => ∅, fun _ => false⟩ := by
  have hl : wrong3.ops.length = 3 := rfl
  have hn : wrong3.nset o0 = false := rfl
  obtain ⟨e0, e1, e2⟩ := wrong3_op
  have hi : wrong3.useInit = ⟨fun i => if i = 2 then .yes else .no, fun _ => ∅, fun _ => false⟩ := by
    simp [OTape.useInit, wrong3]
  simp [OTape.use, OTape.useFrom, hl, hn, List.range', useStep, UseSt.mark, hi, e0, e1, e2, incArg]
  funext i
  rcases i with _ | _ | _ | i <;> simp [Function.update]

theorem wrong3_prev : (wrong3.previous o0 h0.op).prev = (fun _ => 0) ∧ (wrong3.previous o0 h0.op).use = wrong3.use o0 := by
  have hl : wrong3.ops.length = 3 := rfl
  obtain ⟨e0, e1, e2⟩ := wrong3_op
  simp [OTape.previous, OTape.prevUpTo, forRange, hl, prevStep, VOp.matchable, List.range', e0, e1, e2, wrong3_use]

theorem wrong3_plan : (wrong3.plan h0 o0).1.newPar = (fun i => if i = 0 then 0 else if i = 1 then 1 else unused) ∧
    (wrong3.plan h0 o0).2 = ⟨[0, 0, 0], [false, true, false], [.ind], Function.update (fun _ => 0) 0 2⟩ := by
  simp only [OTape.plan, wrong3_prev.2, wrong3_use]
  simp [wrong3, OTape.parUsage, forRange, forDown0, parMarks, parMarksLR, parMarks.parOf, markPars, OTape.op, List.range', OTape.newPars, OTape.dynUse, OTape.newDyn,
    OTape.dynPrevious, putCon, DynRec.putConPar, DynRec.putDynPar, at', h0, dyn2par, List.range, List.range.loop, DynOp.args]
  funext i
  simp only [Function.update]; split_ifs <;> simp_all

theorem wrong3_csum : csumRun wrong3.op (wrong3.use o0).usage (fun i => wrong3.dyn.parIsDyn.getD i false) (at' wrong3.dyn.parAll) 2 =
    ⟨[], 0, [1], [], [2], []⟩ := by
  have hd : wrong3.dyn.parAll = [0, 0, 1] := rfl
  unfold csumRun
  rw [whileLoop_true (by simp), whileLoop_false]
  · simp [csumStep, wrong3_op, wrong3_use, CsumSt.varC, hd, at']
  · simp [csumStep, wrong3_op, wrong3_use, CsumSt.varC, hd, at']

theorem wrong3_ops : (wrong3.newOps h0 o0 [] 3).ops = [.begin, .inv, .csum 2 [1] [] [unused] []] ∧ (wrong3.newOps h0 o0 [] 3).newVar 2 = 2 ∧
    (wrong3.newOps h0 o0 [] 3).pars = (wrong3.plan h0 o0).2 := by
  have hu : (wrong3.plan h0 o0).1.use.use = _ := wrong3_prev.2
  have hp : (wrong3.plan h0 o0).1.use.prev = _ := wrong3_prev.1
  have hn := wrong3_plan.1
  have ho : (wrong3.plan h0 o0).1.op = wrong3.op := rfl
  have hd : (wrong3.plan h0 o0).1.isDyn = fun i => wrong3.dyn.parIsDyn.getD i false := rfl
  have hpar : (wrong3.plan h0 o0).1.par = at' wrong3.dyn.parAll := rfl
  obtain ⟨e0, e1, e2⟩ := wrong3_op
  have hreal : h0.real = fun _ => 0 := rfl
  have hc := wrong3_csum
  simp only [wrong3_use, List.getD_eq_getElem?_getD] at hc
  simp [OTape.newOps, forRange, List.range', recStep, insertSkip, hu, hp, hn, ho, hd, hpar, e0, e1, e2, RecSt.putVar, VOp.emit, VOp.dead, VOp.map,
    recordCsum, wrong3_use, hc, putCon, DynRec.putConPar, wrong3_plan.2, hreal]

theorem wrong3_opt (disc : ℕ → ℝ → ℝ) (p : ℝ) (x junk : ℕ → ℝ) : (wrong3.optimize h0 o0 []).eval disc true [p] x junk = [x 0] := by
  have e : wrong3.optimize h0 o0 [] = ⟨(wrong3.plan h0 o0).2, 1, 1, [.begin, .inv, .csum 2 [1] [] [unused] []], [2], [], wrong3.adep⟩ := by
    have hc : wrong3.cexps o0 = [] := rfl
    have hl : wrong3.ops.length = 3 := rfl
    have hd : wrong3.dep = [2] := rfl
    have hv : wrong3.vecs = [] := rfl
    simp [OTape.optimize, hc, hl, hd, hv, wrong3_ops]
    exact ⟨rfl, rfl⟩
  rw [e]
  simp [OTape.eval, sweepOps, VOp.home, VOp.step, FSt.set, OTape.start, parVals, dynamicSweep, at', sumOver, DynOp.eval,
    forRange, dyn2par, List.range, List.range.loop, List.range', wrong3_plan.2, unused]

/-- A cumulative sum of a variable and a dependent dynamic parameter (which is what optimize makes of
`x0 + exp(p)` inside a larger sum): when the recording is optimized again the dynamic parameter is not
marked as used, and the new CSumOp has the index `addr_t_max` for it (here a parameter out of range has value zero, in
C++ it is a read out of range).  get_par_usage.hpp:254-266 only marks the first parameter of a CSumOp. -/
theorem optimize_loses_dynamic (disc : ℕ → ℝ → ℝ) (p : ℝ) (x junk : ℕ → ℝ) :
    (wrong3.optimize h0 o0 []).eval disc true [p] x junk ≠ wrong3.eval disc true [p] x junk := by
  rw [wrong3_opt, wrong3_eval]
  simp [Real.exp_ne_zero]

end CppAD.Optim
