/-
Concrete value graphs: cases that meet the hypotheses of the theorems, and cases where a pass changes
the function (the hypotheses of the theorems cannot be dropped).
-/
import Verif.ValGraph.Optimize
import Mathlib.Tactic.NormNum
import Mathlib.Tactic.IntervalCases

namespace CppAD.ValGraph

/-- some functions: an atomic function that returns its arguments, with the `for_type` and
`rev_depend` that a user writes for it -/
noncomputable def exP : Prim where
  un := fun _ x => x
  div := fun a b => match a, b with
    | some a, some b => some (a / b)
    | _, _ => none
  pow := vmul
  dis := fun _ x => x
  atom := fun _ _ xs j => rd xs j
  conY := fun _ _ _ conB j => conB.getD j false
  depX := fun _ _ _ depY k => depY.getD k false

theorem exP_forTypeOk : exP.ForTypeOk := by
  intro a id conX conB xs hl h j hj
  by_cases hjl : j < conX.length
  · exact h j hjl hj
  · simp only [exP, rd, List.getD_eq_getElem?_getD]
    rw [List.getElem?_eq_none (by omega), List.getElem?_eq_none (by omega)]

theorem exP_revDependOk : exP.RevDependOk := by
  intro a id conX depY xs ys hl h j hj
  by_cases hjl : j < xs.length
  · exact h j hjl hj
  · simp only [exP, rd, List.getD_eq_getElem?_getD]
    rw [List.getElem?_eq_none (by omega), List.getElem?_eq_none (by omega)]

theorem exP_revDependConOk : exP.RevDependConOk :=
  fun a id conX depY xs ys hl _ h j hj => exP_revDependOk a id conX depY xs ys hl h j hj

/-- two independents; value 2 is nan, 3 = 1, 4 = x0 + 1, 5 = 1 + x0, 6 = (x0+1)*(1+x0),
7 = 6 - x1, a comparison x0 < 4, a call with results 8, 9, and 10 = x1 * x1 that is not used -/
noncomputable def exV : VTape where
  nInd := 2
  nodes := [⟨.con none, []⟩, ⟨.con (some 1), []⟩, ⟨.add, [0, 3]⟩, ⟨.add, [3, 0]⟩, ⟨.mul, [4, 5]⟩,
    ⟨.sub, [6, 1]⟩, ⟨.comp .lt, [0, 4]⟩, ⟨.call 1 0 2, [7, 4]⟩, ⟨.mul, [1, 1]⟩]
  dep := [8, 6]
  vecInit := []
  keepCompare := true
  keepPrint := true

theorem exV_wf : exV.WF := by
  refine ⟨⟨_, rfl⟩, ?_, ?_, ?_⟩
  · have h : ∀ i, i < 9 → ∀ a ∈ (exV.node i).args, a < exV.res i := by
      intro i hi
      interval_cases i <;> simp [exV, VTape.node, VTape.res, nresSum, Node.nres, Kind.nres]
    exact h
  · have h : ∀ i, i < 9 → (exV.node i).kind.arityOk (exV.node i).args.length := by
      intro i hi
      interval_cases i <;> simp [exV, VTape.node, Kind.arityOk]
    exact h
  · intro d hd
    simp only [exV, List.mem_cons, List.not_mem_nil, or_false] at hd
    have : exV.nVal = 11 := by simp [exV, VTape.nVal, nresSum, Node.nres, Kind.nres]
    omega

theorem exV_plain : exV.Plain := by
  intro nd h
  simp only [exV, List.mem_cons, List.not_mem_nil, or_false] at h
  rcases h with rfl | rfl | rfl | rfl | rfl | rfl | rfl | rfl | rfl <;> rfl

theorem exV_live : exV.KeptLive := by
  intro nd h hk a ha
  have h6 : Live exV 6 := Live.dep (by simp [exV])
  have h4 : Live exV 4 := by
    refine Live.arg (i := 4) (by simp [exV, VTape.nOp]) ?_ ?_ ?_ ?_
    · simp [exV, VTape.node, Node.nres, Kind.nres]
    · simp [exV, VTape.node]
    · have : exV.res 4 = 6 := by simp [exV, VTape.res, nresSum, Node.nres, Kind.nres]
      rw [this]; exact h6
    · simp [exV, VTape.node]
  simp only [exV, List.mem_cons, List.not_mem_nil, or_false] at h
  rcases h with rfl | rfl | rfl | rfl | rfl | rfl | rfl | rfl | rfl <;>
    try (exact absurd hk id)
  simp only [List.mem_cons, List.not_mem_nil, or_false] at ha
  rcases ha with rfl | rfl
  · left; simp [exV]
  · right; exact h4

/-- `renumber`, `dead_code` and `optimize` without cumulative sums on a tape with a comparison, two
sums that are equal, a call and a dead operator, at every point -/
example (x : List V) (hx : x.length = 2) :
    (renumber (fun _ _ => 0) exV).eval exP x = exV.eval exP x ∧
      (deadCode exV exP).eval exP x = exV.eval exP x ∧
      (valOptimize (fun _ _ => 0) true false true exV exP).eval exP x = exV.eval exP x :=
  ⟨(renumber_ok_partial _ exV_wf exV_plain hx).1,
    (dead_code_ok_partial exV_wf exV_plain exV_live exP_revDependOk hx).1,
    (val_optimize_ok_partial exV_wf exV_plain exP_revDependOk exV_live hx (by simp)).2.1⟩

/-- the value of that tape at (1, 3) -/
theorem exV_eval : exV.eval exP [some 1, some 3] = [some 1, some 4] := by
  simp [VTape.eval, VTape.run, exV, step, rd, Kind.out, vadd, vsub, vmul, exP, Cmp.holds]
  norm_num

/-- `optimize` with cumulative sums, at a point where nothing is nan -/
example : (valOptimize (fun _ _ => 0) false true false exV exP).eval exP [some 1, some 3] =
    [some 1, some 4] := by
  rw [← exV_eval]
  refine (val_optimize_ok_partial exV_wf exV_plain exP_revDependOk ?_ rfl ?_).2.1
  · intro nd _ hk
    exfalso
    unfold Kept at hk
    cases hkind : nd.kind <;> simp [hkind, VTape.options] at hk
  · intro _
    refine ⟨rfl, rfl, ?_⟩
    have h : ∀ i, i < 9 → (exV.node i).kind.isSum = true →
        rd (exV.run exP [some 1, some 3]).val (exV.res i) ≠ none := by
      intro i hi hs
      interval_cases i <;> simp [exV, VTape.node, Kind.isSum] at hs <;>
        simp [VTape.run, VTape.res, nresSum, Node.nres, Kind.nres, exV, step, rd, Kind.out, vadd,
          vsub, vmul, exP, Cmp.holds]
    exact h

/-- a tape without comparisons for `fold_con`: 2 = 1, 3 = 1 + 1, 4 = x0 * 3, call(3, 4) = 5, 6 -/
noncomputable def exF : VTape where
  nInd := 1
  nodes := [⟨.con none, []⟩, ⟨.con (some 1), []⟩, ⟨.add, [2, 2]⟩, ⟨.mul, [0, 3]⟩,
    ⟨.call 1 0 2, [3, 4]⟩]
  dep := [5, 6]
  vecInit := []
  keepCompare := true
  keepPrint := true

theorem exF_wf : exF.WF := by
  refine ⟨⟨_, rfl⟩, ?_, ?_, ?_⟩
  · have h : ∀ i, i < 5 → ∀ a ∈ (exF.node i).args, a < exF.res i := by
      intro i hi
      interval_cases i <;> simp [exF, VTape.node, VTape.res, nresSum, Node.nres, Kind.nres]
    exact h
  · have h : ∀ i, i < 5 → (exF.node i).kind.arityOk (exF.node i).args.length := by
      intro i hi
      interval_cases i <;> simp [exF, VTape.node, Kind.arityOk]
    exact h
  · intro d hd
    simp only [exF, List.mem_cons, List.not_mem_nil, or_false] at hd
    have : exF.nVal = 7 := by simp [exF, VTape.nVal, nresSum, Node.nres, Kind.nres]
    omega

theorem exF_plain : exF.Plain := by
  intro nd h
  simp only [exF, List.mem_cons, List.not_mem_nil, or_false] at h
  rcases h with rfl | rfl | rfl | rfl | rfl <;> rfl

/-- `fold_con` does not fail on a tape whose operators all have results -/
theorem foldCon_isSome {T : VTape} {P : Prim} (h : ∀ i, i < T.nOp → (T.node i).nres ≠ 0)
    (h' : ∀ i, i < T.nOp → (T.node i).kind.isVector = false) : ∃ T', foldCon T P = some T' := by
  have key : ∀ n, n ≤ T.nOp → ∃ s, forRange 1 n
      (some ⟨setInd T.nInd true true, fun i => decide (i = T.nInd), fun i => i⟩ : Option FoldSt)
      (fun i s => s.bind (fun s => foldStep T P s i)) = some s := by
    intro n hn
    induction n with
    | zero => exact ⟨_, rfl⟩
    | succ n ih =>
      by_cases h1 : 1 ≤ n
      · rw [forRange_succ h1]
        obtain ⟨s, hs⟩ := ih (by omega)
        rw [hs]
        have hn' := h n (by omega)
        have hv := h' n (by omega)
        simp only [Option.bind_some]
        unfold foldStep
        unfold Node.nres at hn'
        have any : ∀ o : Option FoldSt, o ≠ none → ∃ s, o = some s :=
          fun o ho => Option.ne_none_iff_exists'.mp ho
        apply any
        cases hk : (T.node n).kind <;> rw [hk] at hn' hv <;> simp only [hk] <;>
          first
            | (simp [Kind.nres] at hn'; done)
            | (simp [Kind.isVector] at hv; done)
            | (split_ifs <;> simp)
            | simp
      · rw [forRange_of_le (by omega)]; exact ⟨_, rfl⟩
  obtain ⟨s, hs⟩ := key T.nOp le_rfl
  refine ⟨{ s.new with dep := T.dep.map s.idx }, ?_⟩
  unfold foldCon
  simp only [hs, Option.map_some]

example (x : List V) (hx : x.length = 1) :
    ∃ T', foldCon exF exP = some T' ∧ T'.eval exP x = exF.eval exP x := by
  obtain ⟨T', hT⟩ := foldCon_isSome (T := exF) (P := exP)
    (by
      have h : ∀ i, i < 5 → (exF.node i).nres ≠ 0 := by
        intro i hi
        interval_cases i <;> simp [exF, VTape.node, Node.nres, Kind.nres]
      exact h)
    (fun i hi => exF_plain _ (node_mem exF hi))
  exact ⟨T', hT, (fold_con_ok exF_wf exF_plain exP_forTypeOk hT hx).2.1⟩

/-! ### the passes change these functions -/

/-- 2 = x0 + x0 is only used by a comparison -/
noncomputable def deadCmp : VTape where
  nInd := 1
  nodes := [⟨.con none, []⟩, ⟨.add, [0, 0]⟩, ⟨.comp .lt, [2, 0]⟩]
  dep := [0]
  vecInit := []
  keepCompare := true
  keepPrint := true

theorem deadCmp_dead : (deadCode deadCmp exP).nodes = [⟨.con none, []⟩, ⟨.comp .lt, [3, 0]⟩] := by
  simp [deadCode, revDepend, forDown0, forRange, depStep, depInit, deadCmp, VTape.node, VTape.nOp,
    VTape.res, VTape.nVal, nresSum, Node.nres, Kind.nres, Kind.isBinary, newInit, setInd, deadStep,
    needOp, recordNew, VTape.push, List.range', setRange]

/-- **`dead_code` with `keep_compare` is wrong when an operand of a comparison is not used by the
dependents** (dead_code.hpp:171-213): the comparison is kept but its operand is not, so on the new
tape the comparison has an operand index that is past the end of the values. -/
theorem dead_code_wrong :
    (∃ nd ∈ (deadCode deadCmp exP).nodes, ∃ a ∈ nd.args, (deadCode deadCmp exP).nVal ≤ a) ∧
      deadCmp.compareFalse exP [some (-1)] = 0 ∧
      (deadCode deadCmp exP).compareFalse exP [some (-1)] = 1 := by
  refine ⟨⟨⟨.comp .lt, [3, 0]⟩, by rw [deadCmp_dead]; simp, 3, by simp, ?_⟩, ?_, ?_⟩
  · unfold VTape.nVal
    rw [deadCmp_dead]
    have : (deadCode deadCmp exP).nInd = 1 := by
      simp [deadCode, revDepend, forDown0, forRange, depStep, depInit, deadCmp, VTape.node,
        VTape.nOp, VTape.res, VTape.nVal, nresSum, Node.nres, Kind.nres, Kind.isBinary, newInit,
        setInd, deadStep, needOp, recordNew, VTape.push, List.range', setRange]
    rw [this]
    simp [nresSum, Node.nres, Kind.nres]
  · simp [VTape.compareFalse, VTape.run, deadCmp, step, rd, Kind.out, vadd, Cmp.holds]
  · unfold VTape.compareFalse VTape.run
    rw [deadCmp_dead]
    simp [step, rd, Kind.out, Cmp.holds]

/-- 2 = x0 + x0 (not used), 3 = x0 * x0, 4 = x0 * x0 -/
noncomputable def cprT : VTape where
  nInd := 1
  nodes := [⟨.con none, []⟩, ⟨.add, [0, 0]⟩, ⟨.mul, [0, 0]⟩, ⟨.mul, [0, 0]⟩]
  dep := [3, 4]
  vecInit := []
  keepCompare := true
  keepPrint := true

theorem cprT_new : (compress (fun _ _ => 0) cprT exP).nodes = [⟨.con none, []⟩, ⟨.mul, [0, 0]⟩] ∧
    (compress (fun _ _ => 0) cprT exP).dep = [2, 3] := by
  simp [compress, revDepend, forDown0, forRange, depStep, depInit, cprT, VTape.node, VTape.nOp,
    VTape.res, VTape.nVal, nresSum, Node.nres, Kind.nres, Kind.isBinary, newInit, setInd,
    comprStep, useOp, recordNew, VTape.push, List.range', setRange, incUse, Function.update,
    matchOp, matches', Kind.isVector]

/-- **`compress` is wrong when an operator before the match was removed** (compress.hpp:178-188):
it maps the results of the matching operator to the index on the old tape.  Here the second
dependent is past the end of the values on the new tape. -/
theorem compress_wrong :
    cprT.eval exP [some 2] = [some 4, some 4] ∧
      (compress (fun _ _ => 0) cprT exP).eval exP [some 2] = [some 4, none] := by
  refine ⟨?_, ?_⟩
  · simp [VTape.eval, VTape.run, cprT, step, rd, Kind.out, vadd, vmul]
    norm_num
  · unfold VTape.eval VTape.run
    rw [cprT_new.1, cprT_new.2]
    simp [step, rd, Kind.out, vmul]
    norm_num

/-- value 3 is the constant 0; a dynamic vector with x0 in it; 4 = load; store x1; 5 = load -/
noncomputable def loadT : VTape where
  nInd := 2
  nodes := [⟨.con none, []⟩, ⟨.con (some 0), []⟩, ⟨.vec 0, []⟩, ⟨.load 0, [3]⟩, ⟨.store 0, [3, 1]⟩,
    ⟨.load 0, [3]⟩]
  dep := [4, 5]
  vecInit := [[0]]
  keepCompare := true
  keepPrint := true

/-- **`renumber` is wrong for dynamic vectors** (op_hash_table.hpp:250-284, renumber.hpp:104-137):
a load matches a load that is before a store in the same vector. -/
theorem renumber_vec_wrong :
    loadT.eval exP [some 1, some 2] = [some 1, some 2] ∧
      (renumber (fun _ _ => 0) loadT).eval exP [some 1, some 2] = [some 1, some 1] := by
  refine ⟨?_, ?_⟩
  · simp [VTape.eval, VTape.run, loadT, step, rd, Kind.out, toIdx]
  · have h : (renumber (fun _ _ => 0) loadT).dep = [4, 4] ∧
        (renumber (fun _ _ => 0) loadT).nodes = loadT.nodes := by
      simp [renumber, renLoop, forRange, List.range', renStep, loadT, VTape.nOp, VTape.node,
        matchOp, matches', VTape.res, nresSum, Node.nres, Kind.nres, setRange, Function.update]
    unfold VTape.eval VTape.run
    rw [h.1, h.2]
    simp [renumber, loadT, step, rd, Kind.out, toIdx]

/-- 2 = x0 + x0, 3 = 2 + x0, a comparison 2 < x0 -/
noncomputable def sumCmp : VTape where
  nInd := 1
  nodes := [⟨.con none, []⟩, ⟨.add, [0, 0]⟩, ⟨.add, [2, 0]⟩, ⟨.comp .lt, [2, 0]⟩]
  dep := [3]
  vecInit := []
  keepCompare := true
  keepPrint := true

theorem sumCmp_sum : (summation sumCmp exP).nodes =
    [⟨.con none, []⟩, ⟨.add, [0, 0]⟩, ⟨.csum 3 0, [0, 0, 0]⟩, ⟨.comp .lt, [2, 0]⟩] := by
  simp [summation, revDepend, forDown0, forRange, depStep, depInit, sumCmp, VTape.node, VTape.nOp,
    VTape.res, nresSum, Node.nres, Kind.nres, Kind.isBinary, List.range', incUse, Function.update,
    sumStep, Kind.isSum, fresh, absorb, finish, csumNode]

/-- **`summation` before `dead_code` is wrong when a comparison that is kept has a sum as operand**,
although that operand is used by the dependents on the tape that `optimize` gets -/
theorem val_optimize_sum_wrong :
    sumCmp.KeptLive ∧ sumCmp.compareFalse exP [some (-1)] = 0 ∧
      (deadCode (summation sumCmp exP) exP).compareFalse exP [some (-1)] = 1 := by
  refine ⟨?_, ?_, ?_⟩
  · intro nd h hk a ha
    have h2 : Live sumCmp 2 := by
      refine Live.arg (i := 2) (by simp [sumCmp, VTape.nOp]) ?_ ?_ (Live.dep ?_) ?_ <;>
        simp [sumCmp, VTape.node, Node.nres, Kind.nres, VTape.res, nresSum]
    simp only [sumCmp, List.mem_cons, List.not_mem_nil, or_false] at h
    rcases h with rfl | rfl | rfl | rfl <;> try (exact absurd hk id)
    simp only [List.mem_cons, List.not_mem_nil, or_false] at ha
    rcases ha with rfl | rfl
    · right; exact h2
    · left; simp [sumCmp]
  · simp [VTape.compareFalse, VTape.run, sumCmp, step, rd, Kind.out, vadd, Cmp.holds]
  · have e : summation sumCmp exP = ⟨1, [⟨.con none, []⟩, ⟨.add, [0, 0]⟩,
        ⟨.csum 3 0, [0, 0, 0]⟩, ⟨.comp .lt, [2, 0]⟩], [3], [], true, true⟩ := by
      have h := sumCmp_sum
      unfold summation at h ⊢
      simp only at h ⊢
      rw [h]
      rfl
    rw [e]
    have h : (deadCode ⟨1, [⟨.con none, []⟩, ⟨.add, [0, 0]⟩,
        ⟨.csum 3 0, [0, 0, 0]⟩, ⟨.comp .lt, [2, 0]⟩], [3], [], true, true⟩ exP).nodes =
        [⟨.con none, []⟩, ⟨.csum 3 0, [0, 0, 0]⟩, ⟨.comp .lt, [4, 0]⟩] := by
      simp [deadCode, revDepend, forDown0, forRange, depStep, depInit, VTape.node, VTape.nOp,
        VTape.res, VTape.nVal, nresSum, Node.nres, Kind.nres, Kind.isBinary, newInit, setInd,
        deadStep, needOp, recordNew, VTape.push, List.range', setRange, incUse, Function.update]
    unfold VTape.compareFalse VTape.run
    rw [h]
    simp [step, rd, Kind.out, vadd, Cmp.holds]

end CppAD.ValGraph
