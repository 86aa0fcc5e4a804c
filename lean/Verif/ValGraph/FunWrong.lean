/-
`f.optimize("val_graph ...")`: a function that it optimizes, and functions for which it fails or gives another function.
-/
import Verif.ValGraph.FunThm
import Mathlib.Tactic.NormNum
import Mathlib.Tactic.IntervalCases

namespace CppAD.ValGraph
open CppAD CppAD.Record CppAD.Optim CppAD.Graph Classical

/-! ### a function that is optimized -/

/-- one independent variable, `sin(x)` is computed twice, the product of the two is the dependent variable, and `cos(x)` is not
used -/
noncomputable def sinT : OTape where
  dyn := ⟨[0], [false], [], fun _ => 0⟩
  nInd := 0
  n := 1
  ops := [.begin, .inv, .un .sin 1, .un .sin 1, .un .cos 1, .vv .mul 2 3]
  dep := [5]
  vecs := []

theorem sinT_ok : TapeOk sinT := by
  have h6 : sinT.ops.length = 6 := rfl
  have h2 : sinT.dyn.dynOps.length = 0 := rfl
  refine ⟨by decide, ?_, ?_, ?_, ?_, ?_, ?_, rfl, ⟨by simp [sinT], rfl⟩, ?_, ⟨by simp [sinT], ?_⟩, ?_⟩
  · intro i hi; rw [h6] at hi; interval_cases i <;> simp [sinT, OTape.op, VOp.isInd]
  · intro i hi v hv; rw [h6] at hi
    interval_cases i <;> simp [sinT, OTape.op, VOp.vars, Arg.vars] at hv <;> (try rcases hv with rfl | rfl) <;> (try subst hv) <;>
      simp [sinT, OTape.op, VOp.hasRes]
  · intro i hi v hv; rw [h6] at hi
    interval_cases i <;> simp [sinT, OTape.op, VOp.pars, Arg.pars] at hv
  · intro i hi; rw [h6] at hi; interval_cases i <;> rfl
  · intro d hd; simp [sinT] at hd; subst hd; simp [sinT, OTape.op, VOp.hasRes]
  · show DynWf ([] ++ [false]) []
    exact .con .nil
  · intro op hop; simp [sinT] at hop
  · intro k hk; rw [h2] at hk; omega
  · intro k hk; have : sinT.nInd = 0 := rfl
    omega

/-- its value graph -/
theorem sinT_val : fun2val sinT = some ⟨1, [⟨.con none, []⟩, ⟨.un .sin, [0]⟩, ⟨.un .sin, [0]⟩, ⟨.un .cos, [0]⟩, ⟨.mul, [2, 3]⟩], [5], [], true, true⟩ := by
  simp [fun2val, forRange, List.range', sinT, f2vInit, f2vVar, OTape.op, varTodo, unKind, binKind, F2V.put, F2V.args, F2V.arg, Function.update,
    VTape.push, VTape.nVal, nresSum, setInd, Node.nres, Kind.nres, f2vDep]

/-- after `renumber` and `dead_code` -/
theorem sinT_opt (P : Prim) : valOptimize (fun _ _ => 0) false false false
    ⟨1, [⟨.con none, []⟩, ⟨.un .sin, [0]⟩, ⟨.un .sin, [0]⟩, ⟨.un .cos, [0]⟩, ⟨.mul, [2, 3]⟩], [5], [], true, true⟩ P =
    ⟨1, [⟨.con none, []⟩, ⟨.un .sin, [0]⟩, ⟨.mul, [2, 2]⟩], [3], [], true, true⟩ := by
  have h : renumber (fun _ _ => 0) ⟨1, [⟨.con none, []⟩, ⟨.un .sin, [0]⟩, ⟨.un .sin, [0]⟩, ⟨.un .cos, [0]⟩, ⟨.mul, [2, 3]⟩], [5], [], true, true⟩ =
      ⟨1, [⟨.con none, []⟩, ⟨.un .sin, [0]⟩, ⟨.un .sin, [0]⟩, ⟨.un .cos, [0]⟩, ⟨.mul, [2, 2]⟩], [5], [], true, true⟩ := by
    simp [renumber, renLoop, forRange, List.range', renStep, VTape.nOp, VTape.node,
        matchOp, matches', VTape.res, nresSum, Node.nres, Kind.nres, setRange, Function.update]
  simp only [valOptimize, h]
  simp [deadCode, revDepend, forDown0, forRange, depStep, depInit, VTape.node, VTape.nOp,
    VTape.res, VTape.nVal, nresSum, Node.nres, Kind.nres, Kind.isBinary, newInit, setInd, deadStep,
    needOp, recordNew, VTape.push, List.range', setRange, incUse, Function.update]

/-- the operation sequence after the optimization -/
theorem sinT_fun (c : FCfg) : ∃ T', optimizeVal c (fun _ _ => 0) false false false sinT = some T' ∧ T'.ops = [.begin, .inv, .un .sin 1, .vv .mul 2 2] := by
  have e : optimizeVal c (fun _ _ => 0) false false false sinT = val2fun c (realPrim c.disc) 0 ⟨1, [⟨.con none, []⟩, ⟨.un .sin, [0]⟩, ⟨.mul, [2, 2]⟩], [3], [], true, true⟩ := by
    simp only [optimizeVal, sinT_val, Option.bind_some, sinT_opt]; rfl
  rw [e]
  simp [val2fun, v2fNodes, v2fInit, VTape.cons, putCons, FromSt.con, FromSt.op, FromSt.ind, FromSt.push, v2fNode, v2fUn, v2fBin,
    FromSt.ty, FromSt.ix, vix, FromSt.bin, fromDeps, FromSt.dep, Un.op]

/-- the theorem applies -/
example (c : FCfg) : ∃ T', optimizeVal c (fun _ _ => 0) false false false sinT = some T' ∧ T'.ops.length < sinT.ops.length ∧
    ∀ (b b' : Bool) (x : ℝ) (junk junk' : ℕ → ℝ), T'.eval c.disc b' [] (at' [x]) junk' = sinT.eval c.disc b [] (at' [x]) junk := by
  obtain ⟨T', h, e⟩ := sinT_fun c
  refine ⟨T', h, by rw [e]; simp [sinT], fun b b' x junk junk' => ?_⟩
  exact ((optimize_val_ok_partial sinT_ok h (Or.inl rfl) (by simp) (by simp)).2.2.2 b b' [] [x] junk junk' rfl rfl).1

/-! ### functions that it cannot handle -/

/-- a step that fails -/
theorem forRange_none {σ : Type} {lo hi k : ℕ} (h1 : lo ≤ k) (h2 : k < hi) {f : ℕ → σ → Option σ} (hf : ∀ s, f k s = none) (s : Option σ) :
    forRange lo hi s (fun k s => s.bind (f k)) = none := by
  have key : ∀ n, k < n → forRange lo n s (fun k s => s.bind (f k)) = none := by
    intro n
    induction n with
    | zero => intro h; omega
    | succ n ih =>
      intro h
      rw [forRange_succ (by omega)]
      rcases Nat.lt_succ_iff_lt_or_eq.1 h with h' | h'
      · rw [ih h']; rfl
      · subst h'
        cases forRange lo k s (fun k s => s.bind (f k)) with
        | none => rfl
        | some t => exact hf t
  exact key hi h2

/-- **A function with a dynamic parameter that is the result of any operator other than `+`, `-`, unary `-`, a discrete function or a
conditional expression** (for example a product of two dynamic parameters) cannot be converted: `dyn_op2val_op` is `number_op_enum`
(fun2val.hpp:103-109, 309-341) -/
theorem optimize_val_dyn_wrong {c : FCfg} {hash : Kind → List ℕ → ℕ} {b1 b2 b3 : Bool} {T : OTape} {k : ℕ} (h1 : T.nInd ≤ k) (h2 : k < T.dyn.dynOps.length)
    (h : (∃ f a, f ≠ .neg ∧ T.dyn.dynOps.getD k .ind = .un f a) ∨
      ∃ f a b, f ≠ .add ∧ f ≠ .sub ∧ T.dyn.dynOps.getD k .ind = .bin f a b) :
    optimizeVal c hash b1 b2 b3 T = none := by
  have hd : dynTodo (T.dyn.dynOps.getD k .ind) = none := by
    rcases h with ⟨f, a, hf, e⟩ | ⟨f, a, b, hf, hf', e⟩ <;> rw [e] <;> cases f <;> simp_all [dynTodo]
  unfold optimizeVal fun2val
  rw [forRange_none h1 h2 (f := f2vDyn T) (fun s => by simp only [f2vDyn, hd, Option.bind_none])]
  rfl

/-- **A function that uses `azmul`** cannot be converted: it has no case in the switch (fun2val.hpp:471-526) -/
theorem optimize_val_azmul_wrong {c : FCfg} {hash : Kind → List ℕ → ℕ} {b1 b2 b3 : Bool} {T : OTape} {i : ℕ} (h2 : i < T.ops.length)
    (h : ∃ a b, T.op i = .pv .azmul a b ∨ T.op i = .vp .azmul a b ∨ T.op i = .vv .azmul a b) :
    optimizeVal c hash b1 b2 b3 T = none := by
  have hv : ∀ s, f2vVar T i s = none := by
    intro s
    obtain ⟨a, b, h | h | h⟩ := h <;> simp [f2vVar, h, varTodo, binKind]
  unfold optimizeVal fun2val
  cases forRange T.nInd T.dyn.dynOps.length (some (f2vInit T)) (fun k s => s.bind (f2vDyn T k)) with
  | none => rfl
  | some s =>
    simp only [Option.bind_some]
    rw [forRange_none (Nat.zero_le i) h2 (f := f2vVar T) hv]
    rfl

/-- the function `x` with the comparison `x < 3` -/
noncomputable def cmpT : OTape where
  dyn := ⟨[0, 3], [false, false], [], fun _ => 0⟩
  nInd := 0
  n := 1
  ops := [.begin, .inv, .cmp .lt (.var 1) (.par 1), .un .neg 1]
  dep := [3]
  vecs := []

/-- **A function with a comparison of a variable with a constant** that no operator before the comparison uses cannot be converted:
`par2val_index` of the constant is not set (fun2val.hpp:541-573 do not use `ensure_par2val_index`) -/
theorem optimize_val_compare_wrong (c : FCfg) (hash : Kind → List ℕ → ℕ) (b1 b2 b3 : Bool) : optimizeVal c hash b1 b2 b3 cmpT = none := by
  simp [optimizeVal, fun2val, forRange, List.range', cmpT, f2vInit, f2vVar, OTape.op, F2V.look]

/-- the function `(x0 + x1) - (x0 + x1)` -/
noncomputable def cancelT : OTape where
  dyn := ⟨[0], [false], [], fun _ => 0⟩
  nInd := 0
  n := 2
  ops := [.begin, .inv, .inv, .vv .add 1 2, .vv .add 1 2, .vv .sub 3 4]
  dep := [5]
  vecs := []

theorem cancelT_val : fun2val cancelT = some ⟨2, [⟨.con none, []⟩, ⟨.add, [0, 1]⟩, ⟨.add, [0, 1]⟩, ⟨.sub, [3, 4]⟩], [5], [], true, true⟩ := by
  simp [fun2val, forRange, List.range', cancelT, f2vInit, f2vVar, OTape.op, varTodo, binKind, F2V.put, F2V.args, F2V.arg, Function.update,
    VTape.push, VTape.nVal, nresSum, setInd, Node.nres, Kind.nres, f2vDep]

theorem cancelT_opt (P : Prim) : valOptimize (fun _ _ => 0) false true false
    ⟨2, [⟨.con none, []⟩, ⟨.add, [0, 1]⟩, ⟨.add, [0, 1]⟩, ⟨.sub, [3, 4]⟩], [5], [], true, true⟩ P =
    ⟨2, [⟨.con none, []⟩, ⟨.csum 0 0, []⟩], [3], [], true, true⟩ := by
  have h : renumber (fun _ _ => 0) ⟨2, [⟨.con none, []⟩, ⟨.add, [0, 1]⟩, ⟨.add, [0, 1]⟩, ⟨.sub, [3, 4]⟩], [5], [], true, true⟩ =
      ⟨2, [⟨.con none, []⟩, ⟨.add, [0, 1]⟩, ⟨.add, [0, 1]⟩, ⟨.sub, [3, 3]⟩], [5], [], true, true⟩ := by
    simp [renumber, renLoop, forRange, List.range', renStep, VTape.nOp, VTape.node,
        matchOp, matches', VTape.res, nresSum, Node.nres, Kind.nres, setRange, Function.update]
  have h2 : summation ⟨2, [⟨.con none, []⟩, ⟨.add, [0, 1]⟩, ⟨.add, [0, 1]⟩, ⟨.sub, [3, 3]⟩], [5], [], true, true⟩ P =
      ⟨2, [⟨.con none, []⟩, ⟨.add, [0, 1]⟩, ⟨.add, [0, 1]⟩, ⟨.csum 0 0, []⟩], [5], [], true, true⟩ := by
    simp [summation, revDepend, forDown0, forRange, depStep, depInit, VTape.node, VTape.nOp,
      VTape.res, nresSum, Node.nres, Kind.nres, Kind.isBinary, List.range', incUse, Function.update,
      sumStep, Kind.isSum, fresh, absorb, finish, csumNode]
  simp only [valOptimize, h, if_true, h2]
  simp [deadCode, revDepend, forDown0, forRange, depStep, depInit, VTape.node, VTape.nOp,
    VTape.res, VTape.nVal, nresSum, Node.nres, Kind.nres, Kind.isBinary, newInit, setInd, deadStep,
    needOp, recordNew, VTape.push, List.range', setRange, incUse, Function.update]

/-- **`(x0 + x1) - (x0 + x1)` with cumulative sums**: the result is a summation of nothing, for which `val2fun` does not set the
index of the dependent variable (val2fun.hpp:728-818) -/
theorem optimize_val_cancel_wrong (c : FCfg) : optimizeVal c (fun _ _ => 0) false true false cancelT = none := by
  have e : optimizeVal c (fun _ _ => 0) false true false cancelT = val2fun c (realPrim c.disc) 0 ⟨2, [⟨.con none, []⟩, ⟨.csum 0 0, []⟩], [3], [], true, true⟩ := by
    simp only [optimizeVal, cancelT_val, Option.bind_some, cancelT_opt]; rfl
  rw [e]
  simp [val2fun, v2fNodes, v2fInit, VTape.cons, putCons, FromSt.con, FromSt.op, FromSt.ind, FromSt.push, v2fNode,
    v2fSum, FromSt.anyVar, FromSt.anyDyn]

/-- the function `x * (p - q - r)` with dynamic parameters `p`, `q`, `r` -/
noncomputable def dsumT : OTape where
  dyn := ⟨[0, 1, 1, 1, 0, -1], [false, true, true, true, true, true], [.ind, .ind, .ind, .bin .sub 1 2, .bin .sub 4 3], fun _ => 0⟩
  nInd := 3
  n := 1
  ops := [.begin, .inv, .pv .mul 5 1]
  dep := [2]
  vecs := []

theorem dsumT_val : fun2val dsumT = some ⟨4, [⟨.con none, []⟩, ⟨.sub, [0, 1]⟩, ⟨.sub, [5, 2]⟩, ⟨.mul, [6, 3]⟩], [7], [], true, true⟩ := by
  have d : dyn2par [false, true, true, true, true, true] = [1, 2, 3, 4, 5] := rfl
  simp [fun2val, forRange, List.range', dsumT, f2vInit, f2vVar, f2vDyn, dynTodo, OTape.op, varTodo, binKind, F2V.put, F2V.args, F2V.arg, F2V.ensure, Function.update,
    VTape.push, VTape.nVal, nresSum, setInd, Node.nres, Kind.nres, f2vDep, d]

theorem dsumT_opt (P : Prim) : valOptimize (fun _ _ => 0) false true false
    ⟨4, [⟨.con none, []⟩, ⟨.sub, [0, 1]⟩, ⟨.sub, [5, 2]⟩, ⟨.mul, [6, 3]⟩], [7], [], true, true⟩ P =
    ⟨4, [⟨.con none, []⟩, ⟨.csum 1 2, [0, 1, 2]⟩, ⟨.mul, [5, 3]⟩], [6], [], true, true⟩ := by
  have h : renumber (fun _ _ => 0) ⟨4, [⟨.con none, []⟩, ⟨.sub, [0, 1]⟩, ⟨.sub, [5, 2]⟩, ⟨.mul, [6, 3]⟩], [7], [], true, true⟩ =
      ⟨4, [⟨.con none, []⟩, ⟨.sub, [0, 1]⟩, ⟨.sub, [5, 2]⟩, ⟨.mul, [6, 3]⟩], [7], [], true, true⟩ := by
    simp [renumber, renLoop, forRange, List.range', renStep, VTape.nOp, VTape.node,
        matchOp, matches', VTape.res, nresSum, Node.nres, Kind.nres, setRange, Function.update]
  have h2 : summation ⟨4, [⟨.con none, []⟩, ⟨.sub, [0, 1]⟩, ⟨.sub, [5, 2]⟩, ⟨.mul, [6, 3]⟩], [7], [], true, true⟩ P =
      ⟨4, [⟨.con none, []⟩, ⟨.sub, [0, 1]⟩, ⟨.csum 1 2, [0, 1, 2]⟩, ⟨.mul, [6, 3]⟩], [7], [], true, true⟩ := by
    simp [summation, revDepend, forDown0, forRange, depStep, depInit, VTape.node, VTape.nOp,
      VTape.res, nresSum, Node.nres, Kind.nres, Kind.isBinary, List.range', incUse, Function.update,
      sumStep, Kind.isSum, fresh, absorb, finish, csumNode]
  simp only [valOptimize, h, if_true, h2]
  simp [deadCode, revDepend, forDown0, forRange, depStep, depInit, VTape.node, VTape.nOp,
    VTape.res, VTape.nVal, nresSum, Node.nres, Kind.nres, Kind.isBinary, newInit, setInd, deadStep,
    needOp, recordNew, VTape.push, List.range', setRange, incUse, Function.update]

/-- a configuration -/
noncomputable def exC : FCfg := ⟨[], fun _ y => y, fun _ => 0, 7, fun _ => 0⟩

/-- **`x * (p - q - r)` with cumulative sums becomes `x * (p + q + r)`**: for a summation of dynamic parameters all the operands are
added (val2fun.hpp:752-760) -/
theorem optimize_val_dyn_csum_wrong : ∃ T', optimizeVal exC (fun _ _ => 0) false true false dsumT = some T' ∧
    (∀ (p q r x : ℝ) (b : Bool) (junk : ℕ → ℝ), dsumT.eval exC.disc b [p, q, r] (at' [x]) junk = [(p - q - r) * x]) ∧
    (∀ (p q r x : ℝ) (b : Bool) (junk : ℕ → ℝ), T'.eval exC.disc b [p, q, r] (at' [x]) junk = [(p + q + r) * x]) := by
  have e : optimizeVal exC (fun _ _ => 0) false true false dsumT = val2fun exC (realPrim exC.disc) 3
      ⟨4, [⟨.con none, []⟩, ⟨.csum 1 2, [0, 1, 2]⟩, ⟨.mul, [5, 3]⟩], [6], [], true, true⟩ := by
    simp only [optimizeVal, dsumT_val, Option.bind_some, dsumT_opt]; rfl
  rw [e]
  have hq : (0 : ℝ) ≠ Real.sqrt 4 / Real.sqrt Real.pi :=
    (div_pos (Real.sqrt_pos.2 (by norm_num)) (Real.sqrt_pos.2 Real.pi_pos)).ne
  have e2 : (val2fun exC (realPrim exC.disc) 3 ⟨4, [⟨.con none, []⟩, ⟨.csum 1 2, [0, 1, 2]⟩, ⟨.mul, [5, 3]⟩], [6], [], true, true⟩).map
      (fun T => (T.dyn.parAll, T.dyn.parIsDyn, T.dyn.dynOps, T.nInd, T.n, T.ops, T.dep)) =
      some ([7, 7, 7, 7, 0, (Real.sqrt (Real.arctan 1))⁻¹, 0, 7, 7, 7], [false, true, true, true, false, false, false, true, true, true],
        [.ind, .ind, .ind, .bin .add 6 1, .bin .add 7 2, .bin .add 8 3], 3, 1, [.begin, .inv, .pv .mul 9 1], [2]) := by
    simp [val2fun, v2fNodes, v2fInit, VTape.cons, putCons, FromSt.con, FromSt.op, FromSt.ind, FromSt.push, v2fNode,
      v2fSum, FromSt.anyVar, FromSt.anyDyn, FromSt.ty, FromSt.ix, vix, v2fSumCon, addDyns, FromSt.dyn, v2fBin, FromSt.bin, fromDeps, FromSt.dep, exC, List.replicate, sumOver,
      DynRec.putConPar, DynRec.putDynPar, hq, hq.symm]
  obtain ⟨T', h1, h2⟩ := Option.map_eq_some_iff.1 e2
  simp only [Prod.mk.injEq] at h2
  obtain ⟨q1, q2, q3, q4, q5, q6, q7⟩ := h2
  refine ⟨T', h1, fun p q r x b junk => ?_, fun p q r x b junk => ?_⟩
  · have d : dyn2par [false, true, true, true, true, true] = [1, 2, 3, 4, 5] := rfl
    simp [OTape.eval, dsumT, sweepOps, VOp.step, OTape.start, FSt.set, Function.update, parVals, dynamicSweep, d, forRange, List.range', List.range, List.range.loop,
      DynOp.eval, at', BinF.fn, Arg.val]
  · have d : dyn2par [false, true, true, true, false, false, false, true, true, true] = [1, 2, 3, 7, 8, 9] := rfl
    simp [OTape.eval, q1, q2, q3, q4, q5, q6, q7, sweepOps, VOp.step, OTape.start, FSt.set, Function.update, parVals, dynamicSweep, d, forRange, List.range', List.range, List.range.loop,
      DynOp.eval, at', BinF.fn, Arg.val]

end CppAD.ValGraph
