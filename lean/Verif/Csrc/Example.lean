import Verif.Csrc.Main

/-! # C53: examples, and a cumulative summation for which the C source code is wrong -/

open scoped Classical

namespace CppAD.Csrc

open CppAD CppAD.Record CppAD.Optim CppAD.Graph

/-- A recording with one independent dynamic parameter `p`, two independent variables and two dependent variables:
`p * 2 + x0`, a discrete function of `x1`, their product, a comparison, a cumulative summation and a sine -/
noncomputable def exC : OTape where
  dyn := ⟨[0, 5, 2, 10], [false, true, false, true], [.ind, .bin .mul 1 2], fun _ => 0⟩
  nInd := 1
  n := 2
  ops := [.begin, .inv, .inv, .pv .add 3 1, .dis 0 2, .vv .mul 3 4, .cmp .lt (.var 5) (.par 1), .csum 2 [5] [3] [1] [1],
    .un .sin 5]
  dep := [7, 8]
  vecs := []

theorem exC_ok : TapeOk exC := by
  have h9 : exC.ops.length = 9 := rfl
  have h2 : exC.dyn.dynOps.length = 2 := rfl
  refine ⟨by decide, ?_, ?_, ?_, ?_, ?_, exT_ok.dyn, rfl, ⟨by simp [exC], rfl⟩, exT_ok.dargs, ⟨by simp [exC], ?_⟩, exT_ok.d2p⟩
  · intro i hi; rw [h9] at hi; interval_cases i <;> simp [exC, OTape.op, VOp.isInd]
  · intro i hi v hv; rw [h9] at hi
    interval_cases i <;> simp [exC, OTape.op, VOp.vars, Arg.vars] at hv <;> (try rcases hv with rfl | rfl | rfl) <;> (try subst hv) <;>
      simp [exC, OTape.op, VOp.hasRes]
  · intro i hi v hv; rw [h9] at hi
    interval_cases i <;> simp [exC, OTape.op, VOp.pars, Arg.pars] at hv <;> (try rcases hv with rfl | rfl | rfl) <;> (try subst hv) <;> simp [exC]
  · intro i hi; rw [h9] at hi; interval_cases i <;> rfl
  · intro d hd; simp [exC] at hd; rcases hd with rfl | rfl <;> simp [exC, OTape.op, VOp.hasRes]
  · intro k hk; rw [h2] at hk; interval_cases k <;> simp [exC]

theorem exC_disc : DiscOk exNames exC := by
  refine ⟨by simp [exNames], ?_, ?_⟩
  · intro i hi k hk
    have h9 : exC.ops.length = 9 := rfl
    rw [h9] at hi
    interval_cases i <;> simp [exC, OTape.op, VOp.disIdx] at hk
    subst hk; simp [exNames]
  · intro op hop k hk; simp [exC] at hop; rcases hop with rfl | rfl <;> simp [dynDisIdx] at hk

/-- `toCsrc_values_partial` applies to the example, and the values are not trivial: with the discrete function `fun y => y * y` at `p = 1`,
`x = (2, 3)` the first function value is `2 + 36 + 1 - (4 + 1) = 34`, and the comparison `36 < 1` is counted. -/
example (E : CEnv) (hE : E.disc = discFn exNames fun _ y => y * y) (y : ℕ → ℝ) :
    ∃ f y', toCsrc (fun k => exNames.getD k []) "f".toList exC = some f ∧ f.call E 3 (at' [1, 2, 3]) 2 y 7 = some (0, y', 8) ∧ y' 0 = 34 := by
  obtain ⟨f, h1, h2⟩ := toCsrc_values_partial exNames exC exC_ok exC_disc "f".toList (by decide)
    (by
      intro i hi
      have h9 : exC.ops.length = 9 := rfl
      rw [h9] at hi
      interval_cases i <;> simp [exC, OTape.op, opOk])
    (by
      intro i hi
      have h9 : exC.dyn.dynOps.length = 2 := rfl
      rw [h9] at hi
      interval_cases i <;> simp [exC, dynOk]) (fun _ y => y * y) E hE
  obtain ⟨y', k1, k2, -⟩ := h2 [1] [2, 3] (fun _ => 0) y 7 rfl rfl
  have d : dyn2par [false, true, false, true] = [1, 3] := rfl
  refine ⟨f, y', h1, ?_, ?_⟩
  · have e : compareChange (fun _ y => y * y) exC [1] (at' [2, 3]) (fun _ => 0) = 1 := by
      simp [compareChange, countOps, OTape.start, exC, VOp.step, FSt.set, Function.update, parVals, dynamicSweep, d, forRange, List.range', List.range,
        List.range.loop, DynOp.eval, at', BinF.fn, sumOver, Arg.val, CmpF.holds]
      norm_num
    rw [e] at k1
    exact k1
  · rw [k2 0 (by simp [exC])]
    simp [OTape.eval, exC, sweepOps, VOp.step, OTape.start, FSt.set, Function.update, parVals, dynamicSweep, d, forRange, List.range', List.range, List.range.loop,
      DynOp.eval, at', BinF.fn, sumOver, Arg.val]
    norm_num

/-! ## A graph with an atomic function -/

/-- `y = 3 * w`, where `w` is the second result of an atomic function of `x0` and `x1` -/
noncomputable def atomGraph : CppGraph where
  name := "g".toList
  nDyn := 0
  nVar := 2
  discreteNames := []
  atomicNames := ["quo_rem".toList]
  printText := []
  constants := [3]
  ops := [.atom4, .bin .mul]
  args := [0, 5, 2, 2, 1, 2, 3, 5]
  deps := [6]

theorem atomGraph_nodes : atomGraph.nodes = [.atom4 0 5 2 [1, 2], .bin .mul 3 5] := rfl

theorem atomGraph_ok : Ok atomGraph := by
  refine ⟨by simp [atomGraph], ?_, ?_, ?_⟩
  · rw [atomGraph_nodes]
    simp [NodesOk, GNode.argNodes, GNode.nameOk, GNode.nres, atomGraph]
  · intro d hd
    unfold CppGraph.numNodes
    rw [atomGraph_nodes]
    simp [atomGraph] at hd
    subst hd; simp [atomGraph, GNode.nres]
  · intro n hn; rw [atomGraph_nodes] at hn; simp at hn; rcases hn with rfl | rfl <;> simp [nodeOk]

/-- `csrc_values_partial` applies to the example, both when the callback succeeds and when it fails -/
example (E : CEnv) (a b : ℝ) (y : ℕ → ℝ) : ∃ f, csrcWriter atomGraph = some f ∧
    (∀ o : AtomOut, E.atom "quo_rem".toList 5 [a, b] 2 = o → o.flag = 0 →
      ∃ y', f.call E 2 (at' [a, b]) 1 y 0 = some (0, y', o.count) ∧ y' 0 = 3 * o.w 1) ∧
    (∀ o : AtomOut, E.atom "quo_rem".toList 5 [a, b] 2 = o → o.flag = 2 → f.call E 2 (at' [a, b]) 1 y 0 = some (3, y, o.count)) := by
  obtain ⟨f, h1, h2, h3, -⟩ := csrc_values_partial E atomGraph atomGraph_ok
  have hlen : (atomGraph.start [] [a, b]).length = 4 := rfl
  have hval : ([1, 2].map (at' (atomGraph.start [] [a, b]))) = [a, b] := by simp [CppGraph.start, atomGraph, at']
  have hnm : atomGraph.atomicNames.getD 0 [] = "quo_rem".toList := rfl
  refine ⟨f, h1, fun o ho h0 => ?_, fun o ho h0 => ?_⟩
  · have he : (evalGraph E atomGraph [] [a, b]).2 = (0, o.count) ∧ (evalGraph E atomGraph [] [a, b]).1 = [3 * o.w 1] := by
      simp only [evalGraph, atomGraph_nodes, evalAll, nodeFlag, nodeCount, nodeResults, hval, hnm, ho, h0]
      simp [atomGraph, List.range, List.range.loop, CppGraph.start, GNode.results, at', BinF.fn, GNode.failed]
    obtain ⟨y', k1, k2, -⟩ := h2 [] [a, b] y 0 rfl rfl (by rw [he.1])
    rw [he.1] at k1
    refine ⟨y', by simpa [atomGraph] using k1, ?_⟩
    rw [k2 0 (by simp [atomGraph]), he.2]; rfl
  · have he : (evalGraph E atomGraph [] [a, b]).2 = (2, o.count) := by
      simp only [evalGraph, atomGraph_nodes, evalAll, nodeFlag, nodeCount, nodeResults, hval, hnm, ho, h0]
      simp
    have k := h3 [] [a, b] y 0 rfl rfl (by rw [he]; simp)
    rw [he] at k
    simpa [atomGraph, retFlag] using k

/-! ## The sums with one term -/

/-- The recording that optimize makes for `y = x0 + x1 - x2`: one cumulative summation -/
noncomputable def sumT : OTape where
  dyn := ⟨[0, 0], [false, false], [], fun _ => 0⟩
  nInd := 0
  n := 3
  ops := [.begin, .inv, .inv, .inv, .csum 1 [1, 2] [3] [] []]
  dep := [4]
  vecs := []

theorem sumT_ok : TapeOk sumT := by
  have h9 : sumT.ops.length = 5 := rfl
  refine ⟨by decide, ?_, ?_, ?_, ?_, ?_, ?_, rfl, ⟨by simp [sumT], rfl⟩, by simp [sumT], ⟨by simp [sumT], by simp [sumT]⟩, by simp [sumT]⟩
  · intro i hi; rw [h9] at hi; interval_cases i <;> simp [sumT, OTape.op, VOp.isInd]
  · intro i hi v hv; rw [h9] at hi
    interval_cases i <;> simp [sumT, OTape.op, VOp.vars, Arg.vars] at hv <;> (try rcases hv with rfl | rfl | rfl) <;> (try subst hv) <;>
      simp [sumT, OTape.op, VOp.hasRes]
  · intro i hi v hv; rw [h9] at hi
    interval_cases i <;> simp [sumT, OTape.op, VOp.pars, Arg.pars] at hv <;> (try subst hv) <;> simp [sumT]
  · intro i hi; rw [h9] at hi; interval_cases i <;> rfl
  · intro d hd; simp [sumT] at hd; subst hd; simp [sumT, OTape.op, VOp.hasRes]
  · show DynWf ([false] ++ [false]) []
    refine .con ?_
    show DynWf ([] ++ [false]) []
    exact .con .nil

theorem sumT_graph (names : ℕ → Txt) (fname : Txt) : toGraph names fname sumT =
    ⟨fname, 0, 3, [], [], [], [0], [.sum, .sum, .bin .sub], [3, 4, 1, 2, 1, 3, 5, 6], [7]⟩ := by
  simp [toGraph, toInit, sumT, forRange, List.range', toVar, OTape.op, CppGraph.push, GNode.code, GNode.enc, Function.update, at']

/-- **C53** is false for sums with one term: the C function for `x0 + x1 - x2` returns zero (no error was detected)
and its value is `x0 + x1`, while Forward(0, x) computes `x0 + x1 - x2`; csrc_writer.cpp:113-117. -/
theorem toCsrc_sum_wrong (names : ℕ → Txt) (E : CEnv) : ∃ f, toCsrc names "f".toList sumT = some f ∧
    (∀ (disc : ℕ → ℝ → ℝ) (a b c : ℝ) (junk : ℕ → ℝ), sumT.eval disc true [] (at' [a, b, c]) junk = [a + b - c]) ∧
    ∀ (a b c : ℝ) (y : ℕ → ℝ) (cc : ℕ), ∃ y', f.call E 3 (at' [a, b, c]) 1 y cc = some (0, y', cc) ∧ y' 0 = a + b := by
  unfold toCsrc
  rw [sumT_graph]
  have hn : (CppGraph.mk "f".toList 0 3 [] [] [] [0] [.sum, .sum, .bin .sub] [3, 4, 1, 2, 1, 3, 5, 6] [7]).nodes =
      [.sum [4, 1, 2], .sum [3], .bin .sub 5 6] := rfl
  have hw : csrcWriter (CppGraph.mk "f".toList 0 3 [] [] [] [0] [.sum, .sum, .bin .sub] [3, 4, 1, 2, 1, 3, 5, 6] [7]) =
      some ⟨8, [.retNu 3 1, .retNy 1 2, .set 0 .nan, .copyU, .setCon 0 0, .set 5 (.sum [4, 1, 2]), .set 6 .zero, .set 7 (.op2 "-".toList 5 6),
        .setY 0 7, .ret 0]⟩ := by
    unfold csrcWriter
    rw [hn, if_neg (by decide)]
    rfl
  refine ⟨_, hw, fun disc a b c junk => ?_, fun a b c y cc => ?_⟩
  · have hp : parVals disc [] (⟨[0, 0], [false, false], [], fun _ => 0⟩ : DynRec ℝ) = [0, 0] := rfl
    simp [OTape.eval, sumT, hp, sweepOps, VOp.step, OTape.start, FSt.set, Function.update, at', sumOver]
  · refine ⟨Function.update y 0 (a + b), ?_, by simp⟩
    have hs : lookup cOps ['-'] = some .minus := look_sub
    unfold CFun.call
    simp [exec, CStmt.exec, CExpr.eval, Function.update_of_ne, hs, CMath2.fn, at']

end CppAD.Csrc
