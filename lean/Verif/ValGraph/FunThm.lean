/-
`f.optimize("val_graph no_conditional_skip ...")`: the function is not changed.
-/
import Verif.ValGraph.Fun2ValThm
import Verif.ValGraph.CleanPass
import Verif.ValGraph.Val2FunMain

namespace CppAD.ValGraph
open CppAD CppAD.Record CppAD.Optim CppAD.Graph Classical

/-! ### fun2val does not add cumulative summations -/

/-- no operator of the list is a cumulative summation -/
def NoSumL (l : List Node) : Prop := ∀ nd ∈ l, ∀ a b, nd.kind ≠ .csum a b

theorem noSum_push {S : VTape} {nd : Node} (h : NoSumL S.nodes) (hn : ∀ a b, nd.kind ≠ .csum a b) : NoSumL (S.push nd).1.nodes := by
  intro m hm
  rcases List.mem_append.1 hm with h' | h'
  · exact h m h'
  · rw [List.mem_singleton.1 h']; exact hn

theorem noSum_ensure (T : OTape) {s : F2V} (h : NoSumL s.T.nodes) (p : ℕ) : NoSumL (s.ensure T p).1.T.nodes := by
  unfold F2V.ensure
  cases s.p2v p with
  | some a => exact h
  | none =>
    dsimp only [VTape.recordCon]
    split_ifs
    · exact h
    · exact noSum_push h (by simp)

theorem noSum_args (T : OTape) : ∀ (l : List Arg) {s : F2V}, NoSumL s.T.nodes → ∀ {q}, F2V.args T l s = some q → NoSumL q.1.T.nodes := by
  intro l
  induction l with
  | nil => intro s h q hq; simp only [F2V.args, Option.some.injEq] at hq; subst hq; exact h
  | cons a l ih =>
    intro s h q hq
    simp only [F2V.args, Option.bind_eq_some_iff, Option.map_eq_some_iff] at hq
    obtain ⟨r, hr, q', hq', rfl⟩ := hq
    have hr' : NoSumL r.1.T.nodes := ?_
    · exact (ih hr' hq' : NoSumL q'.1.T.nodes)
    cases a with
    | par p => simp only [F2V.arg, Option.some.injEq] at hr; subst hr; exact noSum_ensure T h p
    | var v =>
      simp only [F2V.arg, Option.map_eq_some_iff] at hr
      obtain ⟨b, _, rfl⟩ := hr
      exact h

theorem noSum_put (T : OTape) {s : F2V} (h : NoSumL s.T.nodes) {d : Todo} (hd : ∀ a b, d.kind ≠ .csum a b) {q} (hq : s.put T d = some q) :
    NoSumL q.1.T.nodes := by
  simp only [F2V.put, Option.map_eq_some_iff] at hq
  obtain ⟨u, hu, rfl⟩ := hq
  exact noSum_push (noSum_args T d.args h hu) hd

theorem dynTodo_noSum {op : DynOp} {d : Todo} (h : dynTodo op = some d) : ∀ a b, d.kind ≠ .csum a b := by
  cases op with
  | un f a => cases f <;> simp only [dynTodo, Option.some.injEq, reduceCtorEq] at h; subst h; simp
  | bin f a b => cases f <;> simp only [dynTodo, Option.some.injEq, reduceCtorEq] at h <;> subst h <;> simp
  | ind => simp [dynTodo] at h
  | atom A sel i args => simp [dynTodo] at h
  | dis k a => simp only [dynTodo, Option.some.injEq] at h; subst h; simp
  | cexp cop l r t f => simp only [dynTodo, Option.some.injEq] at h; subst h; simp [cexpTodo]

theorem varTodo_noSum {op : VOp} {d : Todo} (h : varTodo op = some d) (hop : ∀ c av sv ad sd, op ≠ .csum c av sv ad sd) :
    ∀ a b, d.kind ≠ .csum a b := by
  cases op with
  | un f v =>
    simp only [varTodo, Option.some.injEq] at h; subst h
    cases f <;> simp [unKind]
  | pv f p v =>
    simp only [varTodo, Option.map_eq_some_iff] at h
    obtain ⟨k, hk, rfl⟩ := h
    cases f <;> simp only [binKind, Option.some.injEq, reduceCtorEq] at hk <;> subst hk <;> simp
  | vp f v p =>
    simp only [varTodo, Option.map_eq_some_iff] at h
    obtain ⟨k, hk, rfl⟩ := h
    cases f <;> simp only [binKind, Option.some.injEq, reduceCtorEq] at hk <;> subst hk <;> simp
  | vv f v u =>
    simp only [varTodo, Option.map_eq_some_iff] at h
    obtain ⟨k, hk, rfl⟩ := h
    cases f <;> simp only [binKind, Option.some.injEq, reduceCtorEq] at hk <;> subst hk <;> simp
  | dis k v => simp only [varTodo, Option.some.injEq] at h; subst h; simp
  | cexp cop l r t f => simp only [varTodo, Option.some.injEq] at h; subst h; simp [cexpTodo]
  | csum c av sv ad sd => exact absurd rfl (hop c av sv ad sd)
  | _ => simp [varTodo] at h

theorem f2vVar_noSum {T : OTape} {i : ℕ} (hop : ∀ c av sv ad sd, T.op i ≠ .csum c av sv ad sd) {s s' : F2V} (h : NoSumL s.T.nodes)
    (hs : f2vVar T i s = some s') : NoSumL s'.T.nodes := by
  have gen : ∀ op, (∀ c av sv ad sd, op ≠ .csum c av sv ad sd) → ((varTodo op).bind fun d => (s.put T d).map fun r =>
      (⟨r.1.T, r.1.p2v, Function.update r.1.v2v i (some r.2)⟩ : F2V)) = some s' → NoSumL s'.T.nodes := by
    intro op ho he
    simp only [Option.bind_eq_some_iff, Option.map_eq_some_iff] at he
    obtain ⟨d, hd, q, hq, rfl⟩ := he
    exact noSum_put T h (varTodo_noSum hd ho) hq
  unfold f2vVar at hs
  cases ho : T.op i with
  | begin => rw [ho] at hs; simp only [Option.some.injEq] at hs; subst hs; exact h
  | inv => rw [ho] at hs; simp only [Option.some.injEq] at hs; subst hs; exact h
  | par p => rw [ho] at hs; simp only [Option.some.injEq] at hs; subst hs; exact noSum_ensure T h p
  | cmp k a b =>
    rw [ho] at hs
    simp only [Option.bind_eq_some_iff, Option.map_eq_some_iff] at hs
    obtain ⟨l, _, r, _, rfl⟩ := hs
    exact noSum_push h (by simp)
  | _ => rw [ho] at hs hop; exact gen _ hop hs

theorem fun2val_noSum {T : OTape} (w : TapeOk T) (hop : ∀ i < T.ops.length, ∀ c av sv ad sd, T.op i ≠ .csum c av sv ad sd) {VT : VTape}
    (h : fun2val T = some VT) : VT.NoSum := by
  unfold fun2val at h
  simp only [Option.bind_eq_some_iff, Option.map_eq_some_iff] at h
  obtain ⟨s1, h1, s, h2, d, h3, rfl⟩ := h
  have k1 := forRange_opt w.nind.1 (fun _ (s : F2V) => NoSumL s.T.nodes) (by
      intro nd hnd; simp only [f2vInit, setInd, List.mem_singleton] at hnd; subst hnd; simp) (by
      intro k s s' _ _ hs he
      simp only [f2vDyn, Option.bind_eq_some_iff, Option.map_eq_some_iff] at he
      obtain ⟨d, hd, q, hq, rfl⟩ := he
      exact noSum_put T hs (dynTodo_noSum hd) hq) h1
  have k2 := forRange_opt (Nat.zero_le T.ops.length) (fun _ (s : F2V) => NoSumL s.T.nodes) k1 (by
      intro k s s' _ hk hs he
      exact f2vVar_noSum (hop k hk) hs he) h2
  exact fun nd hnd => k2 nd (List.mem_of_mem_tail hnd)

/-! ### the passes -/

theorem realPrim_revDependOk (disc : ℕ → ℝ → ℝ) : (realPrim disc).RevDependOk := fun _ _ _ _ _ _ _ _ _ _ => rfl

/-- when comparisons are not kept there is nothing to keep in a clean graph -/
theorem clean_keptLive {T : VTape} (hw : T.WF) (hc : T.Clean) (b : Bool) : (T.options false b).KeptLive := by
  intro nd hnd hk
  exfalso
  obtain ⟨l, hl⟩ := hw.head
  have hnd' : nd = ⟨.con none, []⟩ ∨ nd ∈ T.nodes.tail := by
    have : nd ∈ T.nodes := hnd
    rw [hl] at this ⊢
    exact List.mem_cons.1 this
  rcases hnd' with rfl | h
  · simp [Kept] at hk
  · have hs := (hc.nodes nd h).1
    unfold Kept at hk
    cases hkind : nd.kind <;> simp_all [Kind.simple, VTape.options]

/-- the passes give a well formed clean graph -/
theorem valOptimize_clean (disc : ℕ → ℝ → ℝ) {hash : Kind → List ℕ → ℕ} {compareOp cumulativeSum printOp : Bool} {T : VTape} (hw : T.WF) (hc : T.Clean)
    (hk : (T.options compareOp printOp).KeptLive) (hsum : cumulativeSum = true → compareOp = false) :
    (valOptimize hash compareOp cumulativeSum printOp T (realPrim disc)).WF ∧
    (valOptimize hash compareOp cumulativeSum printOp T (realPrim disc)).Clean ∧
    (cumulativeSum = false → T.NoSum → (valOptimize hash compareOp cumulativeSum printOp T (realPrim disc)).NoSum) ∧
    (compareOp = false → ∀ nd ∈ (valOptimize hash compareOp cumulativeSum printOp T (realPrim disc)).nodes, ∀ k, nd.kind ≠ .comp k) := by
  have hw0 : (T.options compareOp printOp).WF := ⟨hw.head, hw.args, hw.arity, hw.dep⟩
  have hc0 : (T.options compareOp printOp).Clean := ⟨hc.nodes, hc.dep⟩
  have hp0 := clean_plain hw0 hc0
  have hw1 := renumber_wf hash hw0 hp0
  have hp1 := renumber_plain hash hw0 hp0
  have hc1 := renumber_clean hash hw0 hc0
  have hk1 := renumber_keptLive hash hw0 hp0 hk
  cases hcs : cumulativeSum with
  | false =>
    have e : valOptimize hash compareOp false printOp T (realPrim disc) = deadCode (renumber hash (T.options compareOp printOp)) (realPrim disc) := by
      simp only [valOptimize, Bool.false_eq_true, if_false]
      rfl
    rw [e]
    exact ⟨(deadCode_wf hw1 hp1 hk1).1, deadCode_clean _ hw1 hc1, fun _ h =>
      deadCode_noSum _ hw1 hc1 (renumber_noSum hash hw0 hp0 h), fun h => deadCode_noComp _ hw1 hc1 h⟩
  | true =>
    have hcmp := hsum hcs
    subst hcmp
    set T1 := renumber hash (T.options false printOp) with hT1
    have e : valOptimize hash false true printOp T (realPrim disc) = deadCode (summation T1 (realPrim disc)) (realPrim disc) := by
      simp only [valOptimize, if_true]
      rfl
    have hw2 := summation_wf (P := realPrim disc) hw1 hp1
    have hp2 := summation_plain (P := realPrim disc) hw1 hp1
    have hc2 := summation_clean disc hw1 hc1
    have hk2 : (summation T1 (realPrim disc)).KeptLive := clean_keptLive (T := summation T1 (realPrim disc)) hw2 hc2 printOp
    rw [e]
    exact ⟨(deadCode_wf hw2 hp2 hk2).1, deadCode_clean _ hw2 hc2, by simp, fun _ => deadCode_noComp _ hw2 hc2 rfl⟩

/-! ### optimize -/

/-- the comparisons of the value graph after the passes: an operand is nan when the independents are (it is not a constant) -/
def CmpOpen (c : FCfg) (hash : Kind → List ℕ → ℕ) (compareOp cumulativeSum printOp : Bool) (VT : VTape) : Prop :=
  ∀ nd ∈ (valOptimize hash compareOp cumulativeSum printOp VT (realPrim c.disc)).nodes,
    CmpNode (rd ((valOptimize hash compareOp cumulativeSum printOp VT (realPrim c.disc)).nanVal (realPrim c.disc))) nd

/-- **C50.**  `f.optimize("val_graph ...")` does not change the function.  `T` is the operation sequence of a function, `T'` the one
after the optimization.  For all values of the dynamic parameters and all values of the independent variables
the dependent variables are the same; when the comparisons are dropped `compare_change_number` is zero afterwards; when they are
kept it is zero exactly where it was zero.

What is assumed: the optimization does not stop with an error (`optimizeVal` is not `none`; see ValGraph/FunWrong.lean for when it
does); with dynamic parameters, that there are no cumulative summations (`optimize_val_dyn_csum_wrong`); with comparisons kept, that
their operands are not dead code and there are no cumulative summations requested (both necessary, see `C30`), and for the last
statement that no comparison is one of two constants. -/
theorem optimize_val_ok_partial {c : FCfg} {hash : Kind → List ℕ → ℕ} {compareOp cumulativeSum printOp : Bool} {T T' : OTape} (w : TapeOk T)
    (h : optimizeVal c hash compareOp cumulativeSum printOp T = some T')
    (hdyn : T.nInd = 0 ∨ (cumulativeSum = false ∧ ∀ i < T.ops.length, ∀ k av sv ad sd, T.op i ≠ .csum k av sv ad sd))
    (hcmp : compareOp = true → cumulativeSum = false ∧ ∀ VT, fun2val T = some VT → (VT.options true printOp).KeptLive)
    (hprint : cumulativeSum = true → printOp = false) :
    TapeOk T' ∧ T'.nInd = T.nInd ∧ T'.n = T.n ∧
    ∀ (b b' : Bool) (ind x : List ℝ) (junk junk' : ℕ → ℝ), ind.length = T.nInd → x.length = T.n →
      T'.eval c.disc b' ind (at' x) junk' = T.eval c.disc b ind (at' x) junk ∧
      (compareOp = false → compareChange c.disc T' ind (at' x) junk' = 0) ∧
      (compareOp = true → (∀ VT, fun2val T = some VT → CmpOpen c hash compareOp cumulativeSum printOp VT) →
        (compareChange c.disc T' ind (at' x) junk' = 0 ↔ compareChange c.disc T ind (at' x) junk = 0)) := by
  unfold optimizeVal at h
  obtain ⟨VT, hVT, h2⟩ := Option.bind_eq_some_iff.1 h
  obtain ⟨vw, vc, vn, vv⟩ := fun2val_ok w hVT
  have hp := clean_plain vw vc
  have hk : (VT.options compareOp printOp).KeptLive := by
    cases compareOp with
    | false => exact clean_keptLive vw vc printOp
    | true => exact (hcmp rfl).2 VT hVT
  have hsum : cumulativeSum = true → compareOp = false := by
    intro hc
    cases compareOp with
    | false => rfl
    | true => have := (hcmp rfl).1; rw [hc] at this; cases this
  obtain ⟨ow, oc, os, ocmp⟩ := valOptimize_clean c.disc (hash := hash) (cumulativeSum := cumulativeSum) vw vc hk hsum
  have val : ∀ xv : List ℝ, xv.length = VT.nInd →
      (valOptimize hash compareOp cumulativeSum printOp VT (realPrim c.disc)).nInd = VT.nInd ∧
      (valOptimize hash compareOp cumulativeSum printOp VT (realPrim c.disc)).eval (realPrim c.disc) (xv.map some) = VT.eval (realPrim c.disc) (xv.map some) ∧
      (compareOp = true → ((valOptimize hash compareOp cumulativeSum printOp VT (realPrim c.disc)).compareFalse (realPrim c.disc) (xv.map some) = 0 ↔
        VT.compareFalse (realPrim c.disc) (xv.map some) = 0)) ∧
      (compareOp = false → (valOptimize hash compareOp cumulativeSum printOp VT (realPrim c.disc)).compareFalse (realPrim c.disc) (xv.map some) = 0) := by
    intro xv hxv
    have hl : (xv.map (some : ℝ → V)).length = VT.nInd := by simpa using hxv
    have := val_optimize_ok_partial (hash := hash) (compareOp := compareOp) (cumulativeSum := cumulativeSum) (printOp := printOp) vw hp (realPrim_revDependOk c.disc) hk
      hl (fun hc => ⟨hsum hc, hprint hc, fun i hi hs => by
        have sol := run_sol (P := realPrim c.disc) hp vw hl
        refine clean_some (realPrim_total c.disc) vw vc (fun j hj => ?_) sol _ ?_ ?_
        · rw [rd_map_some _ (by omega)]; simp
        · have := res_add_lt VT (k := 0) hi (by rcases isSum_cases hs with h | h | h <;> simp [Node.nres, h, Kind.nres])
          simpa using this
        · have h0 : 0 < i := by
            rcases Nat.eq_zero_or_pos i with rfl | h
            · exfalso
              obtain ⟨l, hl⟩ := vw.head
              have hn : VT.node 0 = ⟨.con none, []⟩ := by simp [VTape.node, hl]
              rw [hn] at hs; simp [Kind.isSum] at hs
            · exact h
          have := nInd_lt_res vw hp i h0
          omega⟩)
    exact ⟨this.1, this.2.1, fun h => (this.2.2.1 h).1, this.2.2.2.1⟩
  have hnI := (val (List.replicate VT.nInd 0) (by simp)).1
  obtain ⟨q1, q2, q3, q4⟩ := val2fun_ok ow oc (by
    rcases hdyn with h0 | ⟨h1, h2⟩
    · exact Or.inl h0
    · exact Or.inr (os h1 (fun2val_noSum w h2 hVT))) (by rw [hnI, vn]; omega) h2
  have e : T'.n = T.n := by rw [q3, hnI, vn]; omega
  refine ⟨q1, q2, e, ?_⟩
  intro b b' ind x junk junk' hi hx
  obtain ⟨a1, a3⟩ := q4 b' ind x junk' hi (by rw [hnI, vn]; omega)
  obtain ⟨a2, a4⟩ := vv c.disc b ind x junk hi hx
  obtain ⟨_, v1, v2, v3⟩ := val (ind ++ x) (by rw [vn]; simp [hi, hx])
  rw [v1, a2] at a1
  refine ⟨List.map_injective_iff.2 (Option.some_injective ℝ) a1, fun hc => ?_, fun hc ho => ?_⟩
  · rw [a3 fun nd hnd k hk => absurd hk (ocmp hc nd hnd k), v3 hc]
  · rw [a3 (ho VT hVT), v2 hc, a4]

end CppAD.ValGraph
