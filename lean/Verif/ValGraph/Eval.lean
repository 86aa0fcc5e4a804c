/-
Evaluation of a value graph tape without dynamic vector operators: the values are the unique
solution of the equations, one for every operator, and the count of false comparisons and the
printed text are functions of the values.
-/
import Verif.ValGraph.Model

namespace CppAD.ValGraph
open Classical

/-- no dynamic vector operators -/
def VTape.Plain (T : VTape) : Prop := ∀ nd ∈ T.nodes, nd.kind.isVector = false

/-- a tape made by `set_ind`, the `record_` functions and `set_dep` with value indices that are
defined before they are used -/
structure VTape.WF (T : VTape) : Prop where
  head : ∃ l, T.nodes = ⟨.con none, []⟩ :: l
  args : ∀ i, i < T.nOp → ∀ a ∈ (T.node i).args, a < T.res i
  arity : ∀ i, i < T.nOp → (T.node i).kind.arityOk (T.node i).args.length
  dep : ∀ d ∈ T.dep, d < T.nVal

/-- `v` has the independents `x` and satisfies the equation of every operator -/
def Sol (T : VTape) (P : Prim) (x : List V) (v : ℕ → V) : Prop :=
  (∀ j, j < T.nInd → v j = rd x j) ∧
    ∀ i, i < T.nOp → ∀ k, k < (T.node i).nres →
      v (T.res i + k) = rd ((T.node i).kind.out P ((T.node i).args.map v)) k

/-- the operator is a comparison that is false at the values `v` -/
def FalseAt (v : ℕ → V) (nd : Node) : Prop :=
  match nd.kind with
  | .comp c => ¬ c.holds (v (nd.args.getD 0 0)) (v (nd.args.getD 1 0))
  | _ => False

/-- what the operator prints at the values `v` -/
noncomputable def printAt (nInd : ℕ) (v : ℕ → V) (nd : Node) : Option (String × V × String) :=
  match nd.kind with
  | .pri b a =>
    if nd.args.getD 0 0 = nInd then none
    else if Cmp.le.holds (v (nd.args.getD 0 0)) (some 0) then some (b, v (nd.args.getD 1 0), a)
    else none
  | _ => none

theorem out_length (P : Prim) {k : Kind} (h : k.isVector = false) (x : List V) :
    (k.out P x).length = k.nres := by
  cases k <;> simp_all [Kind.out, Kind.nres, Kind.isVector]

theorem step_plain (P : Prim) (n : ℕ) (vi : List (List ℕ)) (s : St) {nd : Node}
    (h : nd.kind.isVector = false) :
    step P n vi s nd =
      ⟨s.val ++ nd.kind.out P (nd.args.map (rd s.val)), s.vecs,
        s.cf + (if FalseAt (rd s.val) nd then 1 else 0),
        s.out ++ (printAt n (rd s.val) nd).toList⟩ := by
  obtain ⟨k, a⟩ := nd
  cases k <;> simp_all [step, FalseAt, printAt, Kind.out, Kind.isVector]
  · split_ifs <;> simp_all
  · split_ifs <;> simp_all

theorem nresSum_append (a b : List Node) : nresSum (a ++ b) = nresSum a + nresSum b := by
  simp [nresSum]

theorem node_eq (T : VTape) {i : ℕ} (h : i < T.nOp) : T.node i = T.nodes[i]'h := by
  simp only [VTape.node, VTape.nOp] at *
  rw [List.getD_eq_getElem?_getD, List.getElem?_eq_getElem h, Option.getD_some]

theorem node_mem (T : VTape) {i : ℕ} (h : i < T.nOp) : T.node i ∈ T.nodes := by
  rw [node_eq T h]; exact List.getElem_mem _

theorem res_zero (T : VTape) : T.res 0 = T.nInd := by simp [VTape.res, nresSum]

theorem res_succ (T : VTape) {i : ℕ} (h : i < T.nOp) : T.res (i + 1) = T.res i + (T.node i).nres := by
  rw [node_eq T h]
  unfold VTape.res
  rw [List.take_succ_eq_append_getElem h, nresSum_append]
  simp [nresSum, Nat.add_assoc]

theorem res_nOp (T : VTape) : T.res T.nOp = T.nVal := by simp [VTape.res, VTape.nVal, VTape.nOp]

theorem res_mono (T : VTape) {i j : ℕ} (h : i ≤ j) : T.res i ≤ T.res j := by
  unfold VTape.res
  obtain ⟨c, rfl⟩ := Nat.exists_eq_add_of_le h
  rw [List.take_add, nresSum_append]; omega

theorem res_le_nVal (T : VTape) {i : ℕ} : T.res i ≤ T.nVal := by
  unfold VTape.res VTape.nVal
  conv_rhs => rw [← List.take_append_drop i T.nodes, nresSum_append]
  omega

theorem res_add_lt (T : VTape) {i k : ℕ} (h : i < T.nOp) (hk : k < (T.node i).nres) :
    T.res i + k < T.nVal := by
  have h1 := res_succ T h
  have h2 := res_le_nVal T (i := i + 1)
  omega

theorem nInd_le_res (T : VTape) (i : ℕ) : T.nInd ≤ T.res i := by unfold VTape.res; omega

/-- results of different operators have different indices -/
theorem res_inj (T : VTape) {i j k l : ℕ} (hi : i < T.nOp) (hj : j < T.nOp)
    (hk : k < (T.node i).nres) (hl : l < (T.node j).nres) (h : T.res i + k = T.res j + l) :
    i = j ∧ k = l := by
  have h1 := res_succ T hi
  have h2 := res_succ T hj
  rcases lt_trichotomy i j with hij | hij | hij
  · have := res_mono T (show i + 1 ≤ j from hij); omega
  · subst hij; exact ⟨rfl, by omega⟩
  · have := res_mono T (show j + 1 ≤ i from hij); omega

/-- every value that is not an independent is the result of an operator -/
theorem exists_res (T : VTape) (n : ℕ) (hn : n ≤ T.nOp) {a : ℕ} (h1 : T.nInd ≤ a) (h2 : a < T.res n) :
    ∃ i k, i < n ∧ k < (T.node i).nres ∧ a = T.res i + k := by
  induction n with
  | zero => rw [res_zero] at h2; omega
  | succ n ih =>
    by_cases h : a < T.res n
    · obtain ⟨i, k, hi, hk, he⟩ := ih (by omega) h; exact ⟨i, k, by omega, hk, he⟩
    · rw [res_succ T (by omega)] at h2
      exact ⟨n, a - T.res n, by omega, by omega, by omega⟩

/-- state after the first `i` operators -/
noncomputable def runTo (T : VTape) (P : Prim) (x : List V) (i : ℕ) : St :=
  (T.nodes.take i).foldl (step P T.nInd T.vecInit) ⟨x, [], 0, []⟩

theorem runTo_succ (T : VTape) (P : Prim) (x : List V) {i : ℕ} (h : i < T.nOp) :
    runTo T P x (i + 1) = step P T.nInd T.vecInit (runTo T P x i) (T.node i) := by
  rw [node_eq T h]
  unfold runTo
  rw [List.take_succ_eq_append_getElem h, List.foldl_append]
  rfl

theorem runTo_nOp (T : VTape) (P : Prim) (x : List V) : runTo T P x T.nOp = T.run P x := by
  simp [runTo, VTape.run, VTape.nOp]

section
variable {T : VTape} {P : Prim} {x : List V} (hp : T.Plain)
include hp

theorem runTo_length (hx : x.length = T.nInd) {i : ℕ} (h : i ≤ T.nOp) :
    (runTo T P x i).val.length = T.res i := by
  induction i with
  | zero => simp [runTo, res_zero, hx]
  | succ i ih =>
    have h' : i < T.nOp := h
    rw [runTo_succ T P x h', step_plain P _ _ _ (hp _ (node_mem T h')), res_succ T h']
    simp only [List.length_append]
    rw [ih (by omega), out_length P (hp _ (node_mem T h'))]
    rfl

theorem runTo_prefix {i j : ℕ} (h : i ≤ j) (hj : j ≤ T.nOp) :
    ∃ t, (runTo T P x j).val = (runTo T P x i).val ++ t := by
  induction j, h using Nat.le_induction with
  | base => exact ⟨[], by simp⟩
  | succ j hij ih =>
    obtain ⟨t, ht⟩ := ih (by omega)
    have h' : j < T.nOp := hj
    rw [runTo_succ T P x h', step_plain P _ _ _ (hp _ (node_mem T h'))]
    simp only [ht, List.append_assoc]
    exact ⟨_, rfl⟩

omit hp in
theorem rd_append_left {l t : List V} {a : ℕ} (h : a < l.length) : rd (l ++ t) a = rd l a := by
  simp only [rd, List.getD_eq_getElem?_getD]
  rw [List.getElem?_append_left h]

omit hp in
theorem rd_append_right (l t : List V) (k : ℕ) : rd (l ++ t) (l.length + k) = rd t k := by
  simp only [rd, List.getD_eq_getElem?_getD]
  rw [List.getElem?_append_right (by omega)]; simp

theorem runTo_rd (hx : x.length = T.nInd) {i : ℕ} (h : i ≤ T.nOp) {a : ℕ} (ha : a < T.res i) :
    rd (runTo T P x i).val a = rd (T.run P x).val a := by
  obtain ⟨t, ht⟩ := runTo_prefix (P := P) (x := x) hp h le_rfl
  rw [runTo_nOp] at ht
  rw [ht, rd_append_left (by rw [runTo_length hp hx h]; exact ha)]

theorem run_length (hx : x.length = T.nInd) : (T.run P x).val.length = T.nVal := by
  rw [← runTo_nOp, runTo_length hp hx le_rfl, res_nOp]

/-- the values computed by `eval` satisfy the equations -/
theorem run_sol (hw : T.WF) (hx : x.length = T.nInd) : Sol T P x (rd (T.run P x).val) := by
  refine ⟨fun j hj => ?_, fun i hi k hk => ?_⟩
  · rw [← runTo_rd hp hx (Nat.zero_le T.nOp) (by rw [res_zero]; exact hj)]
    simp [runTo]
  · have hv := hp _ (node_mem T hi)
    have e : (T.node i).args.map (rd (T.run P x).val) =
        (T.node i).args.map (rd (runTo T P x i).val) := by
      apply List.map_congr_left
      intro a ha
      rw [runTo_rd hp hx hi.le (hw.args i hi a ha)]
    rw [e, ← runTo_rd hp hx (Nat.succ_le_of_lt hi) (by rw [Nat.succ_eq_add_one, res_succ T hi]; omega)]
    rw [Nat.succ_eq_add_one, runTo_succ T P x hi, step_plain P _ _ _ hv]
    simp only
    rw [← runTo_length (P := P) hp hx hi.le, rd_append_right]

omit hp in
/-- there is only one solution -/
theorem sol_unique (hw : T.WF) {v w : ℕ → V} (h1 : Sol T P x v) (h2 : Sol T P x w) {a : ℕ}
    (ha : a < T.nVal) : v a = w a := by
  induction a using Nat.strong_induction_on with
  | _ a ih =>
    by_cases h : a < T.nInd
    · rw [h1.1 a h, h2.1 a h]
    · obtain ⟨i, k, hi, hk, rfl⟩ := exists_res T T.nOp le_rfl (by omega : T.nInd ≤ a)
        (by rw [res_nOp]; exact ha)
      rw [h1.2 i hi k hk, h2.2 i hi k hk]
      congr 2
      apply List.map_congr_left
      intro b hb
      have hb' := hw.args i hi b hb
      exact ih b (by omega) (by have := res_le_nVal T (i := i); omega)

/-- any solution gives the dependents -/
theorem eval_eq (hw : T.WF) (hx : x.length = T.nInd) {v : ℕ → V} (h : Sol T P x v) :
    T.eval P x = T.dep.map v := by
  unfold VTape.eval
  apply List.map_congr_left
  intro d hd
  exact sol_unique hw (run_sol hp hw hx) h (hw.dep d hd)

omit hp in
theorem getD_mem {l : List ℕ} {k : ℕ} (h : k < l.length) : l.getD k 0 ∈ l := by
  rw [List.getD_eq_getElem?_getD, List.getElem?_eq_getElem h]; exact List.getElem_mem _

omit hp in
theorem falseAt_congr {v w : ℕ → V} {nd : Node} (ha : nd.kind.arityOk nd.args.length)
    (h : ∀ a ∈ nd.args, v a = w a) : FalseAt v nd ↔ FalseAt w nd := by
  obtain ⟨k, l⟩ := nd
  cases k <;> simp only [FalseAt]
  simp only [Kind.arityOk] at ha
  rw [h _ (getD_mem (l := l) (k := 0) (by omega)), h _ (getD_mem (l := l) (k := 1) (by omega))]

omit hp in
theorem printAt_congr {n : ℕ} {v w : ℕ → V} {nd : Node} (ha : nd.kind.arityOk nd.args.length)
    (h : ∀ a ∈ nd.args, v a = w a) : printAt n v nd = printAt n w nd := by
  obtain ⟨k, l⟩ := nd
  cases k <;> simp only [printAt]
  simp only [Kind.arityOk] at ha
  rw [h _ (getD_mem (l := l) (k := 0) (by omega)), h _ (getD_mem (l := l) (k := 1) (by omega))]

/-- the count of false comparisons and the printed text, for any solution -/
theorem run_cf_out (hw : T.WF) (hx : x.length = T.nInd) {v : ℕ → V} (h : Sol T P x v) :
    T.compareFalse P x = T.nodes.countP (fun nd => decide (FalseAt v nd)) ∧
      T.printed P x = T.nodes.filterMap (printAt T.nInd v) := by
  have key : ∀ i, i ≤ T.nOp →
      (runTo T P x i).cf = (T.nodes.take i).countP (fun nd => decide (FalseAt v nd)) ∧
      (runTo T P x i).out = (T.nodes.take i).filterMap (printAt T.nInd v) := by
    intro i
    induction i with
    | zero => intro _; simp [runTo]
    | succ i ih =>
      intro hi'
      have hi : i < T.nOp := hi'
      obtain ⟨e1, e2⟩ := ih hi.le
      have hc : ∀ a ∈ (T.node i).args, rd (runTo T P x i).val a = v a := by
        intro a ha
        have hb := hw.args i hi a ha
        rw [runTo_rd hp hx hi.le hb]
        exact sol_unique hw (run_sol hp hw hx) h (by have := res_le_nVal T (i := i); omega)
      rw [runTo_succ T P x hi, step_plain P _ _ _ (hp _ (node_mem T hi))]
      simp only
      rw [List.take_succ_eq_append_getElem hi, List.countP_append, List.filterMap_append, e1, e2,
        ← node_eq T hi]
      refine ⟨?_, ?_⟩
      · congr 1
        simp only [List.countP_singleton, decide_eq_true_eq]
        simp only [falseAt_congr (hw.arity i hi) hc]
      · congr 1
        rw [printAt_congr (hw.arity i hi) hc]
        cases h : printAt T.nInd v (T.node i) <;> simp [h]
  have := key T.nOp le_rfl
  rw [runTo_nOp] at this
  simpa [VTape.nOp, VTape.compareFalse, VTape.printed] using this

end

end CppAD.ValGraph
