import Verif.Graph.Thm

/-! # C31: a recording and a graph that satisfy the hypotheses, and what goes wrong with comparisons -/

open scoped Classical

namespace CppAD.Graph

open CppAD CppAD.Record CppAD.Optim

/-- the name of the discrete function in the example -/
def exNames : List Txt := ["floor".toList]

/-- A recording with one independent dynamic parameter `p`, two independent variables and two dependent variables:
`p * 2 + x0`, a discrete function of `x1`, their product, a comparison, a cumulative sum and a conditional expression -/
noncomputable def exT : OTape where
  dyn := ⟨[0, 5, 2, 10], [false, true, false, true], [.ind, .bin .mul 1 2], fun _ => 0⟩
  nInd := 1
  n := 2
  ops := [.begin, .inv, .inv, .pv .add 3 1, .dis 0 2, .vv .mul 3 4, .cmp .lt (.var 5) (.par 1), .csum 2 [5] [3] [1] [],
    .cexp .gt (.var 1) (.par 2) (.var 5) (.var 7)]
  dep := [7, 8]
  vecs := []

theorem exT_ok : TapeOk exT := by
  have h9 : exT.ops.length = 9 := rfl
  have h2 : exT.dyn.dynOps.length = 2 := rfl
  refine ⟨by decide, ?_, ?_, ?_, ?_, ?_, ?_, rfl, ⟨by simp [exT], rfl⟩, ?_, ⟨by simp [exT], ?_⟩, ?_⟩
  · intro i hi; rw [h9] at hi; interval_cases i <;> simp [exT, OTape.op, VOp.isInd]
  · intro i hi v hv; rw [h9] at hi
    interval_cases i <;> simp [exT, OTape.op, VOp.vars, Arg.vars] at hv <;> (try rcases hv with rfl | rfl | rfl) <;> (try subst hv) <;>
      simp [exT, OTape.op, VOp.hasRes]
  · intro i hi v hv; rw [h9] at hi
    interval_cases i <;> simp [exT, OTape.op, VOp.pars, Arg.pars] at hv <;> (try rcases hv with rfl | rfl | rfl) <;> (try subst hv) <;> simp [exT]
  · intro i hi; rw [h9] at hi; interval_cases i <;> rfl
  · intro d hd; simp [exT] at hd; rcases hd with rfl | rfl <;> simp [exT, OTape.op, VOp.hasRes]
  · show DynWf ([false, true, false] ++ [true]) ([.ind] ++ [.bin .mul 1 2])
    refine .dyn ?_ (by simp [DynOp.args])
    show DynWf ([false, true] ++ [false]) [.ind]
    refine .con ?_
    show DynWf ([false] ++ [true]) ([] ++ [.ind])
    refine .dyn ?_ (by simp [DynOp.args])
    show DynWf ([] ++ [false]) []
    exact .con .nil
  · intro op hop; simp [exT] at hop; rcases hop with rfl | rfl <;> simp [DynOp.args, DynOp.elem]
  · intro k hk; rw [h2] at hk; interval_cases k <;> simp [exT]
  · intro k hk
    have : k = 0 := by have : exT.nInd = 1 := rfl
                       omega
    subst this; rfl

theorem exT_disc : DiscOk exNames exT := by
  refine ⟨by simp [exNames], ?_, ?_⟩
  · intro i hi k hk
    have h9 : exT.ops.length = 9 := rfl
    rw [h9] at hi
    interval_cases i <;> simp [exT, OTape.op, VOp.disIdx] at hk
    subst hk; simp [exNames]
  · intro op hop k hk; simp [exT] at hop; rcases hop with rfl | rfl <;> simp [dynDisIdx] at hk

/-- `toGraph_values` and `roundTrip_values` apply to the example, and the values are not trivial: with the discrete function
`fun y => y * y` the first dependent variable at `p = 1`, `x = (2, 3)` is `2 + (1 * 2 + 2) * 9 - (1 * 2 + 2) + 1 = 35`. -/
example : (toGraph (fun k => exNames.getD k []) [] exT).WF ∧
    ((toGraph (fun k => exNames.getD k []) [] exT).eval (discFn exNames fun _ y => y * y) [1] [2, 3]).length = 2 ∧
    ((toGraph (fun k => exNames.getD k []) [] exT).eval (discFn exNames fun _ y => y * y) [1] [2, 3]).getD 0 0 = 35 := by
  obtain ⟨-, -, h1, h2, -⟩ := toGraph_values exT_ok exT_disc (fun _ y => y * y) [] [1] [2, 3] (fun _ => 0) rfl rfl
  refine ⟨h1, ?_, ?_⟩
  · rw [h2]; rfl
  · rw [h2]
    have d : dyn2par [false, true, false, true] = [1, 3] := rfl
    simp [OTape.eval, exT, sweepOps, VOp.step, OTape.start, FSt.set, Function.update, parVals, dynamicSweep, d, forRange, List.range', List.range, List.range.loop,
      DynOp.eval, at', BinF.fn, sumOver, Arg.val]
    norm_num

/-! ## Comparisons with a constant -/

/-- the graph of a function that compares its argument with three: `comp_lt x0 3`, and whose value is `x0 + 3` -/
noncomputable def cmpGraph : CppGraph where
  name := []
  nDyn := 0
  nVar := 1
  discreteNames := []
  atomicNames := []
  printText := []
  constants := [3]
  ops := [.comp .lt, .bin .add]
  args := [1, 2, 1, 2]
  deps := [3]

theorem cmpGraph_nodes : cmpGraph.nodes = [.comp .lt 1 2, .bin .add 1 2] := rfl

theorem cmpGraph_WF : cmpGraph.WF := by
  refine ⟨?_, ?_, ?_, by simp [cmpGraph]⟩
  · rw [cmpGraph_nodes]
    simp [NodesOk, GNode.argNodes, GNode.nameOk, GNode.nres, cmpGraph]
  · intro d hd
    unfold CppGraph.numNodes
    rw [cmpGraph_nodes]
    simp [cmpGraph] at hd
    subst hd; simp [cmpGraph, GNode.nres]
  · intro n hn; rw [cmpGraph_nodes] at hn; simp at hn; rcases hn with rfl | rfl <;> rfl

/-- `fromGraph_values_partial` applies to the example -/
example (c : FCfg) (hn : c.names.Nodup) : ∃ T, fromGraph c cmpGraph [] [false] = some T ∧ TapeOk T ∧
    ∀ (y : ℝ) (junk : ℕ → ℝ), T.eval c.disc true [] (at' [y]) junk = [y + 3] := by
  obtain ⟨T, h1, h2, h3⟩ := fromGraph_values_partial c cmpGraph [] [false] cmpGraph_WF rfl rfl hn (by simp [cmpGraph])
  refine ⟨T, h1, h2, fun y junk => ?_⟩
  have := ((h3 [] [y] rfl rfl).2.2 junk).1
  have e1 : newDyn [] [false] [] [y] = [] := by simp [newDyn, pick]
  have e2 : newVar [] [false] [] [y] = [y] := by simp [newVar, pick]
  rw [e1, e2] at this
  rw [this]
  simp [CppGraph.eval, cmpGraph_nodes]
  simp [evalNodes, GNode.results, cmpGraph, CppGraph.start, at', BinF.fn]

/-- The hypothesis `NoConCmp` is needed: from_graph reads the value of a constant operand from a vector that is empty
(cppad/core/graph/from_graph.hpp:455-463); whatever is there (here zero), it is not the constant.  In the graph `x0 < 3` holds
at `x0 = 1`, but the function reports a comparison that has changed. -/
theorem fromGraph_compare_wrong (c : FCfg) (hn : c.names = []) (h0 : c.out 1 = 0) (hh : ∀ v, c.hash v = 0) :
    ∃ T, fromGraph' c cmpGraph = some T ∧ cmpGraph.failed (discFn c.names c.disc) [] [1] = 0 ∧
      ∀ junk, compareChange c.disc T [] (at' [1]) junk = 1 := by
  have e : discreteIndex c.names cmpGraph.discreteNames = some fun _ => 0 := by simp [hn, discreteIndex, forRange]
  have hr : List.replicate cmpGraph.nDyn false = [] := rfl
  have hr' : List.replicate cmpGraph.nVar false = [false] := rfl
  unfold fromGraph' fromGraph
  rw [e, hr, hr', Option.bind_some]
  have h3 : (3 : ℝ) ≠ 0 := by norm_num
  have hrun : ∃ r, fromNodes c (fun _ => 0) cmpGraph.nodes (fromInit c cmpGraph [] [false]) =
      some ⟨r, [.begin, .inv, .cmp .lt (.var 1) (.par 2), .pv .add 1 1], [.constant, .variable, .constant, .variable], [0, 1, 1, 3]⟩ ∧
      r.parIsDyn = [false, false, false] ∧ r.dynOps = [] ∧ r.parAll = [c.nan, 3, 0] := by
    rw [cmpGraph_nodes]
    simp [fromNodes, fromNode, fromInit, FromSt.con, FromSt.op, FromSt.ind, FromSt.push, cmpGraph, FromSt.comp, FromSt.ty, FromSt.ix, FromSt.cmpPar, FromSt.bin,
      DynRec.putConPar, hh, h0, h3]
  obtain ⟨r, hr, hr1, hr2, hr3⟩ := hrun
  rw [hr, Option.map_some]
  refine ⟨_, rfl, ?_, fun junk => ?_⟩
  · unfold CppGraph.failed
    rw [cmpGraph_nodes]
    simp [GNode.failed, evalNodes, GNode.results, CppGraph.start, cmpGraph, at', CmpF.holds]
  · have hp : parVals c.disc [] r = [c.nan, 3, 0] := by
      unfold parVals dynamicSweep; rw [hr1, hr2, hr3]; rfl
    have hdeps : (fromDeps cmpGraph.deps (⟨r, [.begin, .inv, .cmp .lt (.var 1) (.par 2), .pv .add 1 1],
      [.constant, .variable, .constant, .variable], [0, 1, 1, 3]⟩ : FromSt)) = (⟨r, [.begin, .inv, .cmp .lt (.var 1) (.par 2), .pv .add 1 1],
      [.constant, .variable, .constant, .variable], [0, 1, 1, 3]⟩, [3]) := by
      simp [fromDeps, cmpGraph, FromSt.dep, FromSt.ty, FromSt.ix]
    unfold compareChange
    rw [hdeps]
    dsimp only
    rw [hp]
    simp [countOps, OTape.start, VOp.step, FSt.set, Arg.val, at', CmpF.holds]

/-- the hypotheses of `fromGraph_compare_wrong` can be met -/
example : ∃ c : FCfg, c.names = [] ∧ c.out 1 = 0 ∧ ∀ v, c.hash v = 0 := ⟨⟨[], fun _ y => y, fun _ => 0, 0, fun _ => 0⟩, rfl, rfl, fun _ => rfl⟩

end CppAD.Graph
