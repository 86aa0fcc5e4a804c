/-
`val2fun`: the theorem.
-/
import Verif.ValGraph.Val2FunThm

namespace CppAD.ValGraph
open CppAD CppAD.Record CppAD.Optim CppAD.Graph Classical

variable {c : FCfg} {ind : List ℝ} {st : ℕ → ℝ} {nV nI : ℕ} {s s' : FromSt} {F F' : ℕ → ℝ} {V : List ℝ} {T : VTape}

theorem putCons_ok (l : List ℝ) : ∀ (s : FromSt) (F : ℕ → ℝ), RI c ind st nV nI s F → RI c ind st nV nI (putCons c l s).1 F ∧
    Graph.Ext c ind s (putCons c l s).1 F F 0 ∧ List.Forall₂ (fun p v => NodeV c ind (putCons c l s).1 F .constant p v) (putCons c l s).2 l := by
  induction l with
  | nil => intro s F h; exact ⟨h, .refl _ _, .nil⟩
  | cons v l ih =>
    intro s F h
    obtain ⟨q1, q2, q3⟩ := con_step h v
    obtain ⟨p1, p2, p3⟩ := ih _ F q1
    exact ⟨p1, q2.trans p2, .cons (q3.ext p2) p3⟩

theorem part_falses (l : List ℝ) : Graph.part false (l.map fun v => (false, v)) = l ∧ Graph.part true (l.map fun v => (false, v)) = [] := by
  induction l with
  | nil => simp [Graph.part]
  | cons v l ih => rw [List.map_cons, part_cons, part_cons, ih.1, ih.2]; simp

theorem part_trues (l : List ℝ) : Graph.part true (l.map fun v => (true, v)) = l ∧ Graph.part false (l.map fun v => (true, v)) = [] := by
  induction l with
  | nil => simp [Graph.part]
  | cons v l ih => rw [List.map_cons, part_cons, part_cons, ih.1, ih.2]; simp

theorem inds_noDyn (n : ℕ) : ∀ s : FromSt, NoDyn s → NoDyn ((List.replicate n true).foldl (fun s b => s.ind c b) s) := by
  induction n with
  | zero => intro s h; exact h
  | succ n ih =>
    intro s h
    rw [List.replicate_succ, List.foldl_cons]
    exact ih _ (h.push rfl (by simp))

/-- the state before the operators -/
theorem v2fInit_ok {x : List ℝ} {w nan : ℕ → ValGraph.V} (hw : T.WF) (hn : T.nInd = ind.length + x.length)
    (hst : ∀ i < x.length, st (i + 1) = at' x i) (hwv : ∀ j < T.nInd, w j = some (at' (ind ++ x) j)) :
    ∃ F, V2FI c ind st x.length ind.length T w nan 1 (v2fInit c ind.length x.length T.cons) (0 :: (ind ++ x)) F := by
  set L : List (Bool × ℝ) := (ind.map fun v => (false, v)) ++ (x.map fun v => (true, v)) with hL
  have hLf : L.map Prod.fst = List.replicate ind.length false ++ List.replicate x.length true := by
    rw [hL, List.map_append, List.map_map, List.map_map]
    simp only [Function.comp_def, List.map_const']
  have hLs : L.map Prod.snd = ind ++ x := by
    rw [hL, List.map_append, List.map_map, List.map_map]
    simp [Function.comp_def]
  have pt : Graph.part true L = x := by rw [hL, part_append, (part_falses ind).2, (part_trues x).1]; rfl
  have pf : Graph.part false L = ind := by rw [hL, part_append, (part_falses ind).1, (part_trues x).2]; simp
  have e0 : (((⟨⟨[], [], [], fun _ => 0⟩, [], [.constant], [0]⟩ : FromSt).con c c.nan).1.op .begin).1 =
      ⟨⟨[c.nan], [false], [], Function.update (fun _ => 0) (c.hash c.nan) 0⟩, [.begin], [.constant], [0]⟩ := by
    simp [FromSt.con, FromSt.op, DynRec.putConPar]
  obtain ⟨F1, a1, a2, a3, a4⟩ := inds_ok (c := c) (ind := ind) (st := st) (nV := x.length) (nI := ind.length) L []
    ((((⟨⟨[], [], [], fun _ => 0⟩, [], [.constant], [0]⟩ : FromSt).con c c.nan).1.op .begin).1) st (init_ok c _ st _ _)
    (by rw [e0]; simp [Graph.part]) (by rw [e0]; simp [Graph.part]) (by rw [e0]; simp) (by rw [e0]; simp [isCon])
    (by rw [e0]; simp [FromSt.fails, opFail]) (by rw [List.nil_append, pt]) (by rw [List.nil_append, pf]) (by rw [List.nil_append, pf])
    (by rw [List.nil_append, pt]; exact hst)
  rw [List.nil_append, hLf] at a1 a3
  rw [hLf] at a2 a4
  rw [hLs] at a1
  set s0 := (List.replicate ind.length false ++ List.replicate x.length true).foldl (fun s b => s.ind c b)
    ((((⟨⟨[], [], [], fun _ => 0⟩, [], [.constant], [0]⟩ : FromSt).con c c.nan).1.op .begin).1) with hs0
  obtain ⟨p1, p2, p3⟩ := putCons_ok T.cons s0 F1 a1.rc
  obtain ⟨q1, q2, -⟩ := con_step p1 0
  obtain ⟨r1, r2, -⟩ := con_step q1 (1 / Real.sqrt (Real.arctan 1))
  have hx := (p2.trans q2).trans r2
  have einit : v2fInit c ind.length x.length T.cons =
      ((((putCons c T.cons s0).1.con c 0).1.con c (1 / Real.sqrt (Real.arctan 1))).1, (putCons c T.cons s0).2) := rfl
  have hres : T.res 1 = T.nInd + 1 := by
    obtain ⟨l, hl⟩ := hw.head
    simp [VTape.res, hl, nresSum, Node.nres, Kind.nres]
  have hhead : T.nodes.take 1 = [⟨.con none, []⟩] := by
    obtain ⟨l, hl⟩ := hw.head
    simp [hl]
  have hvix : ∀ a < T.res 1, a ≠ T.nInd → a < T.nInd ∧ vix T.nInd a = a + 1 := by
    intro a ha hne
    have : a < T.nInd := by omega
    exact ⟨this, by unfold vix; rw [if_pos this]⟩
  refine ⟨F1, ?_, ?_, ?_, ?_, ?_, ?_, ?_, ?_⟩
  · rw [einit]; exact a1.ext r1 hx
  · rw [einit]; exact a2.ext hx
  · rw [hres, hn]; simp
  · intro a ha hne
    obtain ⟨h1, h2⟩ := hvix a ha hne
    rw [hwv a h1, h2]; rfl
  · intro a ha hne hc
    exfalso
    obtain ⟨h1, h2⟩ := hvix a ha hne
    have hc' : isCon (s0.ty (a + 1)) = true := by
      rw [einit, hx.ty, h2] at hc; exact hc
    rw [← map_isCon _ (by rw [a1.tlen]; simp; omega), a3, List.getD_cons_succ] at hc'
    have : a < L.length := by rw [← List.length_map (f := Prod.snd), hLs]; simp; omega
    rw [List.getD_eq_getElem _ _ (by simpa using this)] at hc'
    simp at hc'
  · have e1 : consOf (T.nodes.drop 1) = T.cons := by
      obtain ⟨l, hl⟩ := hw.head
      have e2 : T.cons = consOf T.nodes := rfl
      rw [e2, hl]
      unfold consOf
      rw [List.filterMap_cons]; rfl
    rw [e1, einit]
    exact p3.imp fun p v h => h.ext (q2.trans r2)
  · intro hz
    rw [einit]
    show NoDyn _
    unfold NoDyn
    rw [hx.typ, hs0, hz]
    refine inds_noDyn _ _ ?_
    rw [e0]; simp [NoDyn]
  · intro _
    rw [einit, hx.fails, a4, hhead]
    simp [FalseAt]

/-- everything `val2fun` records -/
theorem val2fun_rec {x : List ℝ} {T' : OTape} (hw : T.WF) (hcl : T.Clean) (hs : ind.length = 0 ∨ T.NoSum) (hn : T.nInd = ind.length + x.length)
    (h : val2fun c (realPrim c.disc) ind.length T = some T') (hst : ∀ i < x.length, st (i + 1) = at' x i) :
    ∃ s F, RI c ind st x.length ind.length s F ∧ Main x.length ind.length s ∧ T'.dyn = s.r ∧ T'.ops = s.ops ∧ T'.vecs = [] ∧ T'.n = x.length ∧
      T'.nInd = ind.length ∧ (∀ j ∈ T'.dep, 1 ≤ j ∧ j < s.ops.length ∧ (s.ops.getD j .begin).hasRes = true) ∧
      (T'.dep.map F).map some = T.eval (realPrim c.disc) ((ind ++ x).map some) ∧
      ((∀ nd ∈ T.nodes, CmpNode (rd (T.nanVal (realPrim c.disc))) nd) → s.fails c ind F = T.compareFalse (realPrim c.disc) ((ind ++ x).map some)) := by
  have hp := clean_plain hw hcl
  have hxl : ((ind ++ x).map (some : ℝ → ValGraph.V)).length = T.nInd := by simp [hn]
  have hsol := run_sol (P := realPrim c.disc) hp hw hxl
  set w := rd (T.run (realPrim c.disc) ((ind ++ x).map some)).val with hwdef
  have hwv : ∀ j < T.nInd, w j = some (at' (ind ++ x) j) := by
    intro j hj
    rw [hsol.1 j hj]
    have hj' : j < (ind ++ x).length := by simp; omega
    simp only [rd, at', List.getD_eq_getElem?_getD, List.getElem?_map, List.getElem?_eq_getElem hj']
    rfl
  unfold val2fun at h
  rw [show T.nInd - ind.length = x.length by omega] at h
  obtain ⟨q, hq, rfl⟩ := Option.map_eq_some_iff.1 h
  obtain ⟨F0, H0⟩ := v2fInit_ok (c := c) (nan := rd (T.nanVal (realPrim c.disc))) hw hn hst hwv
  have hnan := nanVal_sol (realPrim c.disc) hw hp
  have hq' : v2fNodes c (T.nanVal (realPrim c.disc)) T.nInd (T.nodes.drop 1) (v2fInit c ind.length x.length T.cons) = some q := by
    obtain ⟨l, hl⟩ := hw.head
    rw [hl] at hq ⊢
    simpa [v2fNodes, v2fNode] using hq
  have hnop : 1 + (T.nOp - 1) = T.nOp := by
    obtain ⟨l, hl⟩ := hw.head
    have : T.nOp = l.length + 1 := by simp [VTape.nOp, hl]
    omega
  obtain ⟨V, F, H⟩ := v2fNodes_ok hw hcl hs hsol
    (fun i hi v hv => by
      have := hnan.2 i hi 0 (by simp [Node.nres, hv, Kind.nres])
      rw [hv] at this
      simpa [Kind.out, rd_cons_zero] using this) (T.nOp - 1) 1 _ _ _ _ Nat.one_pos hnop H0 hq'
  have hVl : V.length = T.nVal := by rw [H.len, res_nOp]
  have hpos := nVal_pos hw
  have hdp : ∀ d ∈ T.dep.map (vix T.nInd), 1 ≤ d ∧ d < V.length := by
    intro d hd
    obtain ⟨a, ha, rfl⟩ := List.mem_map.1 hd
    rw [hVl]
    exact vix_pos (hw.dep a ha) hpos (hcl.dep a ha)
  obtain ⟨F4, d1, d2, d3, d4⟩ := fromDeps_ok (T.dep.map (vix T.nInd)) q.1 F H.fi H.main hdp
  refine ⟨(fromDeps (T.dep.map (vix T.nInd)) q.1).1, F4, d1, H.main.ext d2, rfl, rfl, rfl, by dsimp only, rfl, d3, ?_, ?_⟩
  · show ((fromDeps (T.dep.map (vix T.nInd)) q.1).2.map F4).map some = _
    rw [d4, eval_eq hp hw hxl hsol, List.map_map, List.map_map]
    refine List.map_congr_left fun a ha => ?_
    exact (H.val a (by rw [res_nOp]; exact hw.dep a ha) (hcl.dep a ha)).symm
  · intro hc
    rw [d2.fails, Nat.add_zero, H.fails hc, show T.nOp = T.nodes.length from rfl, List.take_length]
    exact (run_cf_out hp hw hxl hsol).1.symm

/-- **The recording that `val2fun` makes has the values of the value graph**, when it makes one.  When every comparison that is
recorded has an operand that is not a constant, the number of comparisons that are not true is also the same. -/
theorem val2fun_ok {nd : ℕ} {T' : OTape} (hw : T.WF) (hcl : T.Clean) (hs : nd = 0 ∨ T.NoSum) (hn : nd ≤ T.nInd)
    (h : val2fun c (realPrim c.disc) nd T = some T') :
    TapeOk T' ∧ T'.nInd = nd ∧ T'.n = T.nInd - nd ∧ ∀ (b : Bool) (ind x : List ℝ) (junk : ℕ → ℝ), ind.length = nd → x.length = T.nInd - nd →
      (T'.eval c.disc b ind (at' x) junk).map some = T.eval (realPrim c.disc) ((ind ++ x).map some) ∧
      ((∀ nd ∈ T.nodes, CmpNode (rd (T.nanVal (realPrim c.disc))) nd) →
        compareChange c.disc T' ind (at' x) junk = T.compareFalse (realPrim c.disc) ((ind ++ x).map some)) := by
  have H := fun (ind x : List ℝ) (junk : ℕ → ℝ) (h1 : ind.length = nd) (h2 : x.length = T.nInd - nd) =>
    val2fun_rec (c := c) (ind := ind) (x := x) (st := fun i => if 1 ≤ i ∧ i ≤ x.length then at' x (i - 1) else junk i) hw hcl (by rw [h1]; exact hs)
      (by omega) (by rw [h1]; exact h) (fun i hi => by rw [if_pos ⟨by omega, by omega⟩]; simp)
  have g : CppGraph := toGraph (fun _ => []) [] T'
  obtain ⟨s, F, h1, h2, h3, h4, h5, h6, h7, h8, h9, h10⟩ := H (List.replicate nd 0) (List.replicate (T.nInd - nd) 0) (fun _ => 0) (by simp) (by simp)
  refine ⟨RI.tape (g := g) h1 h2 h3 h4 h6 h7 h8, by simpa using h7, by simpa using h6, ?_⟩
  intro b ind x junk e1 e2
  obtain ⟨s, F, h1, h2, h3, h4, h5, h6, h7, h8, h9, h10⟩ := H ind x junk e1 e2
  have w' := RI.tape (g := g) h1 h2 h3 h4 h6 h7 h8
  have hP : at' (parVals c.disc ind T'.dyn) = s.P c ind := by rw [h3]; rfl
  have hfin := final_eq h1 (T'.start (at' x) junk) (fun i _ => by simp only [OTape.start, h6])
  constructor
  · rw [← h9]
    congr 1
    unfold OTape.eval
    dsimp only
    rw [sweep_obey b T'.ops (supported_all w'.supported) 0 _ (fun _ => rfl)]
    refine List.map_congr_left fun j hj => ?_
    obtain ⟨j1, j2, j3⟩ := h8 j hj
    rw [hP, h4]
    exact hfin j j2 j3
  · intro hc
    rw [← h10 hc]
    unfold compareChange
    rw [countOps_eq w'.supported (fun i hi v hv => (w'.vars i hi v hv).2.1) fun _ => rfl, hP]
    unfold failUpTo FromSt.fails
    rw [← h4]
    have : ∀ (l : List VOp) (f : VOp → ℕ), ((List.range l.length).map fun k => f (l.getD k .begin)).sum = (l.map f).sum := by
      intro l f
      congr 1
      refine List.ext_getElem (by simp) fun i h1 h2 => ?_
      simp only [List.getElem_map, List.getElem_range]
      rw [List.getD_eq_getElem _ _ (by simpa using h2)]
    rw [← this T'.ops]
    congr 1
    refine List.map_congr_left fun k hk => ?_
    rw [List.mem_range] at hk
    refine opFail_congr (fun _ _ => rfl) fun v hv => ?_
    obtain ⟨v1, v2, v3⟩ := w'.vars k hk v hv
    rw [h4] at hk ⊢
    refine hfin v (by omega) ?_
    rw [← h4]; exact v3

end CppAD.ValGraph
