import Verif.Graph.From2

/-! # from_graph: the theorem -/

open scoped Classical

namespace CppAD.Graph

open CppAD CppAD.Record CppAD.Optim

variable {fn : Txt → ℝ → ℝ} {c : FCfg} {ind : List ℝ} {st : ℕ → ℝ} {nV nI : ℕ} {s s' : FromSt} {F F' : ℕ → ℝ} {V : List ℝ}

theorem map_isCon (s : FromSt) {a : ℕ} (h : a < s.typ.length) : (s.typ.map isCon).getD a false = isCon (s.ty a) := by
  unfold FromSt.ty
  rw [List.getD_eq_getElem _ _ (by simpa using h), List.getD_eq_getElem _ _ h, List.getElem_map]

theorem fromNode_atom {dix : ℕ → ℕ} {nd : GNode} (h : fromNode c dix s nd = some s') : nd.isAtom = false := by
  cases nd <;> simp_all [fromNode, GNode.isAtom]

theorem all_congr' {l : List ℕ} {p q : ℕ → Bool} (h : ∀ a ∈ l, p a = q a) : l.all p = l.all q := by
  induction l with
  | nil => rfl
  | cons a l ih => simp only [List.all_cons]; rw [h a (by simp), ih fun b hb => h b (by simp [hb])]

theorem cmpOk_congr {p q : ℕ → Bool} {nd : GNode} (h : ∀ a ∈ nd.argNodes, p a = q a) : nd.cmpOk p → nd.cmpOk q := by
  cases nd <;> simp_all [GNode.cmpOk, GNode.argNodes]

/-- all the operators of the graph -/
theorem fromNodes_ok {D : List Txt} {dix : ℕ → ℕ} (hfn : ∀ k < D.length, dix k ≠ c.names.length → fn (D.getD k []) = c.disc (dix k))
    (l : List GNode) : ∀ (s : FromSt) (V : List ℝ) (F : ℕ → ℝ), FI c ind st nV nI s V F → Main nV nI s → NodesOk D l V.length →
    fromNodes c dix l s = some s' →
    ∃ F', FI c ind st nV nI s' (evalNodes fn D l V) F' ∧ Main nV nI s' ∧
      (noConCmp l (s.typ.map isCon) →
        s'.fails c ind F' = s.fails c ind F + (l.map (GNode.failed (at' (evalNodes fn D l V)))).sum) := by
  induction l with
  | nil =>
    intro s V F h hm _ hs
    simp only [fromNodes, Option.some.injEq] at hs; subst hs
    exact ⟨F, h, hm, fun _ => by simp⟩
  | cons nd l ih =>
    intro s V F h hm hok hs
    obtain ⟨o1, o2, o3⟩ := hok
    simp only [fromNodes] at hs
    obtain ⟨s1, hs1, hs2⟩ := Option.bind_eq_some_iff.1 hs
    have hat := fromNode_atom hs1
    obtain ⟨e, ⟨F1, f1, f2, f3, f4, -⟩, he⟩ := fromNode_ok (fn := fn) (D := D) h hm nd o1 o2 hfn hs1
    have hlen : (V ++ nd.results fn D (at' V)).length = V.length + nd.nres := by
      rw [List.length_append, results_length D _ hat]
    obtain ⟨F2, g1, g2, g3⟩ := ih s1 _ F1 f1 f2 (by rw [hlen]; exact o3) hs2
    refine ⟨F2, g1, g2, fun hc => ?_⟩
    have hfl : ∀ a ∈ nd.argNodes, (s.typ.map isCon).getD a false = isCon (s.ty a) := fun a ha =>
      map_isCon s (by rw [h.tlen]; exact (o1 a ha).2)
    have e2 := he (cmpOk_congr hfl hc.1)
    have e3 := g3 (by rw [f3, ← all_congr' hfl]; exact hc.2)
    rw [e3, f4, e2, evalNodes, List.map_cons, List.sum_cons, ← Nat.add_assoc]
    congr 2
    refine failed_congr fun a ha => ?_
    have := (o1 a ha).2
    rw [evalNodes_prefix D l _ a (by rw [hlen]; omega), at'_append this]

/-! ## Before the operators -/

theorem init_ok (c : FCfg) (ind : List ℝ) (st : ℕ → ℝ) (nV nI : ℕ) :
    FI c ind st nV nI ((((⟨⟨[], [], [], fun _ => 0⟩, [], [.constant], [0]⟩ : FromSt).con c c.nan).1.op .begin).1) [0] st := by
  have e : (((⟨⟨[], [], [], fun _ => 0⟩, [], [.constant], [0]⟩ : FromSt).con c c.nan).1.op .begin).1 =
      ⟨⟨[c.nan], [false], [], Function.update (fun _ => 0) (c.hash c.nan) 0⟩, [.begin], [.constant], [0]⟩ := by
    simp [FromSt.con, FromSt.op, DynRec.putConPar]
  rw [e]
  refine ⟨⟨⟨.con .nil, rfl⟩, ⟨by simp, rfl⟩, ?_, ?_, ?_, ?_, ?_, ?_, by simp, by simp, by simp⟩, rfl, rfl, ?_⟩
  · intro i hi _ h2
    simp only [List.length_cons, List.length_nil, Nat.zero_add, Nat.lt_one_iff] at hi
    subst hi; simp [VOp.isInd] at h2
  · intro i hi _; rfl
  · intro i hi
    simp only [List.length_cons, List.length_nil, Nat.zero_add, Nat.lt_one_iff] at hi
    subst hi; simp [VOp.isInd]
  · intro i hi v hv
    simp only [List.length_cons, List.length_nil, Nat.zero_add, Nat.lt_one_iff] at hi
    subst hi; simp [VOp.vars] at hv
  · intro i hi v hv
    simp only [List.length_cons, List.length_nil, Nat.zero_add, Nat.lt_one_iff] at hi
    subst hi; simp [VOp.pars] at hv
  · intro i hi
    simp only [List.length_cons, List.length_nil, Nat.zero_add, Nat.lt_one_iff] at hi
    subst hi; rfl
  · intro k hk hk2; simp at hk2; omega

/-- values of the nodes that become variables (`b` true), or dynamic parameters -/
def part (b : Bool) (L : List (Bool × ℝ)) : List ℝ := (L.filter fun q => q.1 == b).map Prod.snd

theorem part_append (b : Bool) (L M : List (Bool × ℝ)) : part b (L ++ M) = part b L ++ part b M := by simp [part]

theorem part_cons (b : Bool) (q : Bool × ℝ) (M : List (Bool × ℝ)) : part b (q :: M) = (if q.1 = b then [q.2] else []) ++ part b M := by
  unfold part
  by_cases h : q.1 = b <;> simp [h]

theorem at'_mid {A B : List ℝ} {v : ℝ} : at' (A ++ v :: B) A.length = v := by simp [at']

/-- the independent dynamic parameters and the independent variables -/
theorem inds_ok (L2 : List (Bool × ℝ)) : ∀ (L1 : List (Bool × ℝ)) (s : FromSt) (F : ℕ → ℝ), FI c ind st nV nI s (0 :: L1.map Prod.snd) F →
    s.ops.length = (part true L1).length + 1 → s.r.dynOps.length = (part false L1).length → s.r.parAll.length = s.r.dynOps.length + 1 →
    s.typ.map isCon = true :: List.replicate L1.length false → s.fails c ind F = 0 →
    nV = (part true (L1 ++ L2)).length → nI = (part false (L1 ++ L2)).length → ind = part false (L1 ++ L2) →
    (∀ i < nV, st (i + 1) = at' (part true (L1 ++ L2)) i) →
    ∃ F', FI c ind st nV nI ((L2.map Prod.fst).foldl (fun s b => s.ind c b) s) (0 :: (L1 ++ L2).map Prod.snd) F' ∧
      Main nV nI ((L2.map Prod.fst).foldl (fun s b => s.ind c b) s) ∧
      ((L2.map Prod.fst).foldl (fun s b => s.ind c b) s).typ.map isCon = true :: List.replicate (L1 ++ L2).length false ∧
      ((L2.map Prod.fst).foldl (fun s b => s.ind c b) s).fails c ind F' = 0 := by
  induction L2 with
  | nil =>
    intro L1 s F h h1 h2 h3 h4 h5 h6 h7 _ _
    rw [List.append_nil] at h6 h7 ⊢
    exact ⟨F, h, ⟨by simp only [List.map_nil, List.foldl_nil]; omega, by simp only [List.map_nil, List.foldl_nil]; omega⟩, h4, h5⟩
  | cons q L2 ih =>
    obtain ⟨b, v⟩ := q
    intro L1 s F h h1 h2 h3 h4 h5 h6 h7 h8 h9
    have eL : L1 ++ (b, v) :: L2 = (L1 ++ [(b, v)]) ++ L2 := by simp
    rw [List.map_cons, List.foldl_cons, eL]
    have p1 := part_append true L1 ((b, v) :: L2)
    have p2 := part_append false L1 ((b, v) :: L2)
    rw [part_cons] at p1 p2
    have tyc : ∀ (t : AdType) (s1 : FromSt) (j : ℕ), t ≠ .constant → s1.typ = s.typ →
        (FromSt.push (s1, j) t).typ.map isCon = true :: List.replicate (L1 ++ [(b, v)]).length false := by
      intro t s1 j ht hs
      show (s1.typ ++ [t]).map isCon = _
      rw [hs, List.map_append, h4]
      have : [t].map isCon = [false] := by simp [isCon, ht]
      rw [this, List.length_append, List.length_singleton, List.replicate_succ', List.cons_append]
    cases b with
    | true =>
      simp only [if_true, Bool.true_eq_false, if_false, List.nil_append, List.singleton_append] at p1 p2
      have hlt : s.ops.length ≤ nV := by rw [h6, p1]; simp; omega
      obtain ⟨F', r1, r2, r3, r4, r5, r6⟩ := op_ok h.rc .inv (by simp [VOp.vars]) (by simp [VOp.pars]) rfl ⟨fun _ => hlt, fun _ => rfl⟩
      have hval : F' s.ops.length = v := by
        rw [r6]
        show st s.ops.length = v
        rw [h1, h9 _ (by omega), p1, at'_mid]
      have r2' : Ext c ind s (s.op .inv).1 F F' 0 := r2
      have hn : NodeV c ind (s.op .inv).1 F' .variable (s.op .inv).2 v := by
        rw [r3]
        refine ⟨by omega, by rw [r4]; simp, ?_, hval⟩
        rw [r4, List.getD_append_right _ _ _ _ (le_refl _)]; simp [VOp.hasRes]
      have hp := h.push r1 r2' hn
      refine ih (L1 ++ [(true, v)]) (s.ind c true) F' ?_ ?_ ?_ ?_ ?_ ?_ ?_ ?_ ?_ ?_
      · rw [List.map_append]; exact hp
      · show (s.op .inv).1.ops.length = _
        rw [r4, part_append]; simp [part]; simp [part] at h1; omega
      · show s.r.dynOps.length = _
        rw [h2, part_append]; simp [part]
      · exact h3
      · exact tyc .variable (s.op .inv).1 (s.op .inv).2 (by simp) rfl
      · rw [show (s.ind c true).fails c ind F' = (s.op .inv).1.fails c ind F' from rfl, r2'.fails, h5]
      · rw [← eL]; exact h6
      · rw [← eL]; exact h7
      · rw [← eL]; exact h8
      · rw [← eL]; exact h9
    | false =>
      simp only [if_true, Bool.false_eq_true, if_false, List.nil_append, List.singleton_append] at p1 p2
      have hlt : s.r.dynOps.length < nI := by rw [h7, p2]; simp; omega
      obtain ⟨r1, r2, r3, r4, r5, r6⟩ := dyn_ok h.rc .ind (by simp [DynOp.args]) ⟨fun _ => hlt, fun _ => rfl⟩ fun _ => h3
      have hval : (s.dyn c .ind).1.P c ind (s.dyn c .ind).2 = v := by
        rw [r5]
        show at' ind s.r.dynOps.length = v
        rw [h8, h2, p2, at'_mid]
      have hp := h.push r1 r2 (t := .dynamic) ⟨r3, r4, hval⟩
      refine ih (L1 ++ [(false, v)]) (s.ind c false) F ?_ ?_ ?_ ?_ ?_ ?_ ?_ ?_ ?_ ?_
      · rw [List.map_append]; exact hp
      · show s.ops.length = _
        rw [h1, part_append]; simp [part]
      · show (s.dyn c .ind).1.r.dynOps.length = _
        rw [r6, part_append]; simp [part]; simp [part] at h2; omega
      · show (s.r.parAll ++ [c.nan]).length = (s.r.dynOps ++ [DynOp.ind]).length + 1
        simp; omega
      · exact tyc .dynamic (s.dyn c .ind).1 (s.dyn c .ind).2 (by simp) rfl
      · rw [show (s.ind c false).fails c ind F = (s.dyn c .ind).1.fails c ind F from rfl, r2.fails, h5]
      · rw [← eL]; exact h6
      · rw [← eL]; exact h7
      · rw [← eL]; exact h8
      · rw [← eL]; exact h9

/-- the constants -/
theorem cons_ok (l : List ℝ) : ∀ (s : FromSt) (V : List ℝ) (F : ℕ → ℝ), FI c ind st nV nI s V F → Main nV nI s →
    ∃ F', FI c ind st nV nI (l.foldl (fun s v => FromSt.push (s.con c v) .constant) s) (V ++ l) F' ∧
      Main nV nI (l.foldl (fun s v => FromSt.push (s.con c v) .constant) s) ∧
      (l.foldl (fun s v => FromSt.push (s.con c v) .constant) s).typ.map isCon = s.typ.map isCon ++ List.replicate l.length true ∧
      (l.foldl (fun s v => FromSt.push (s.con c v) .constant) s).fails c ind F' = s.fails c ind F := by
  induction l with
  | nil => intro s V F h hm; exact ⟨F, by simpa using h, hm, by simp, rfl⟩
  | cons v l ih =>
    intro s V F h hm
    obtain ⟨F1, f1, f2, f3, f4, -⟩ := con_push (c := c) h hm (rfl : v = v)
    obtain ⟨F2, g1, g2, g3, g4⟩ := ih _ _ F1 f1 f2
    rw [List.foldl_cons]
    refine ⟨F2, by rw [show V ++ v :: l = V ++ [v] ++ l by simp]; exact g1, g2, ?_, by rw [g4, f4, Nat.add_zero]⟩
    rw [g3, f3, List.length_cons, List.replicate_succ, List.append_assoc]; rfl

/-! ## The dependent variables -/

theorem dep_ok (h : FI c ind st nV nI s V F) (hm : Main nV nI s) {d : ℕ} (hd : 1 ≤ d ∧ d < V.length) :
    ∃ F', RI c ind st nV nI (s.dep d).1 F' ∧ Ext c ind s (s.dep d).1 F F' 0 ∧ NodeV c ind (s.dep d).1 F' .variable (s.dep d).2 (at' V d) := by
  unfold FromSt.dep
  by_cases ht : s.ty d = .variable
  · rw [if_pos ht]
    have := h.node d hd.1 hd.2
    rw [ht] at this
    exact ⟨F, h.rc, .refl _ _, this⟩
  · rw [if_neg ht]
    obtain ⟨k1, k2⟩ := h.parN hd.1 hd.2 ht
    obtain ⟨F', r1, r2, r3⟩ := var_step h.rc hm (.par (s.ix d)) (by simp [VOp.vars]) (by simpa [VOp.pars] using k1) rfl rfl rfl
    simp only [VOp.res, k2] at r3
    exact ⟨F', r1, r2, r3⟩

theorem fromDeps_ok (ds : List ℕ) : ∀ (s : FromSt) (F : ℕ → ℝ), FI c ind st nV nI s V F → Main nV nI s → (∀ d ∈ ds, 1 ≤ d ∧ d < V.length) →
    ∃ F', RI c ind st nV nI (fromDeps ds s).1 F' ∧ Ext c ind s (fromDeps ds s).1 F F' 0 ∧
      (∀ j ∈ (fromDeps ds s).2, 1 ≤ j ∧ j < (fromDeps ds s).1.ops.length ∧ ((fromDeps ds s).1.ops.getD j .begin).hasRes = true) ∧
      (fromDeps ds s).2.map F' = ds.map (at' V) := by
  induction ds with
  | nil => intro s F h hm _; exact ⟨F, h.rc, .refl _ _, by simp [fromDeps], by simp [fromDeps]⟩
  | cons d ds ih =>
    intro s F h hm hd
    obtain ⟨F1, r1, r2, r3⟩ := dep_ok h hm (hd d (by simp))
    obtain ⟨F2, g1, g2, g3, g4⟩ := ih _ F1 (h.ext r1 r2) (hm.ext r2) fun e he => hd e (by simp [he])
    obtain ⟨k1, k2, k3, k4⟩ := r3.ext g2
    refine ⟨F2, g1, r2.trans g2, ?_, ?_⟩
    · intro j hj
      rcases List.mem_cons.1 hj with rfl | hj
      · exact ⟨k1, k2, k3⟩
      · exact g3 j hj
    · show F2 (s.dep d).2 :: (fromDeps ds (s.dep d).1).2.map F2 = _
      rw [k4, g4]; rfl

/-! ## Names of discrete functions -/

theorem findIdx_name (gnames : List Txt) (nm : Txt) (h : gnames.findIdx (fun s => decide (s = nm)) ≠ gnames.length) :
    gnames.findIdx (fun s => decide (s = nm)) < gnames.length ∧ gnames.getD (gnames.findIdx (fun s => decide (s = nm))) [] = nm := by
  have hlt : gnames.findIdx (fun s => decide (s = nm)) < gnames.length := lt_of_le_of_ne List.findIdx_le_length h
  refine ⟨hlt, ?_⟩
  rw [List.getD_eq_getElem _ _ hlt]
  exact of_decide_eq_true (List.findIdx_getElem (w := hlt))

theorem discreteIndex_ok {names gnames : List Txt} {d : ℕ → ℕ} (h : discreteIndex names gnames = some d) :
    ∀ k, d k ≠ names.length → d k < names.length ∧ gnames.getD k [] = names.getD (d k) [] := by
  have key : ∀ d, discreteIndex names gnames = some d → ∀ k, d k ≠ names.length → d k < names.length ∧ gnames.getD k [] = names.getD (d k) [] := by
    unfold discreteIndex
    refine forRange_ind (Nat.zero_le names.length) (P := fun _ (r : Option (ℕ → ℕ)) => ∀ d, r = some d → ∀ k, d k ≠ names.length →
      d k < names.length ∧ gnames.getD k [] = names.getD (d k) []) ?_ ?_
    · intro d hd k hk; rw [Option.some.injEq] at hd; subst hd; exact absurd rfl hk
    · intro i r _ hi ih d hd k hk
      obtain ⟨d0, h0, h1⟩ := Option.bind_eq_some_iff.1 hd
      dsimp only at h1
      by_cases hg : gnames.findIdx (fun s => decide (s = names.getD i [])) = gnames.length
      · rw [if_pos hg, Option.some.injEq] at h1; subst h1; exact ih d0 h0 k hk
      · rw [if_neg hg] at h1
        by_cases hn : d0 (gnames.findIdx (fun s => decide (s = names.getD i []))) = names.length
        · rw [if_pos hn, Option.some.injEq] at h1; subst h1
          by_cases hke : k = gnames.findIdx (fun s => decide (s = names.getD i []))
          · subst hke
            rw [Function.update_self]
            exact ⟨hi, (findIdx_name gnames _ hg).2⟩
          · rw [Function.update_of_ne hke] at hk ⊢; exact ih d0 h0 k hk
        · rw [if_neg hn] at h1; cases h1
  exact key d h

/-- when the discrete functions have different names, each name in the graph that is the name of a discrete function is found -/
theorem discreteIndex_some {names gnames : List Txt} (h1 : names.Nodup) (h2 : gnames.Nodup) :
    ∃ d, discreteIndex names gnames = some d ∧ ∀ k < gnames.length, gnames.getD k [] ∈ names → d k ≠ names.length := by
  have key : ∃ d, discreteIndex names gnames = some d ∧
      (∀ k, d k ≠ names.length → d k < names.length ∧ gnames.getD k [] = names.getD (d k) []) ∧
      ∀ k < gnames.length, (∃ j < names.length, gnames.getD k [] = names.getD j []) → d k ≠ names.length := by
    unfold discreteIndex
    refine forRange_ind (Nat.zero_le names.length) (P := fun i (r : Option (ℕ → ℕ)) => ∃ d, r = some d ∧
      (∀ k, d k ≠ names.length → d k < i ∧ gnames.getD k [] = names.getD (d k) []) ∧
      ∀ k < gnames.length, (∃ j < i, gnames.getD k [] = names.getD j []) → d k ≠ names.length) ?_ ?_
    · exact ⟨_, rfl, fun k hk => absurd rfl hk, fun k _ ⟨j, hj, _⟩ => by omega⟩
    · rintro i r _ hi ⟨d, rfl, a1, a2⟩
      simp only [Option.bind_some]
      by_cases hg : gnames.findIdx (fun s => decide (s = names.getD i [])) = gnames.length
      · rw [if_pos hg]
        refine ⟨d, rfl, fun k hk => ⟨by have := (a1 k hk).1; omega, (a1 k hk).2⟩, fun k hk ⟨j, hj, he⟩ => ?_⟩
        rcases Nat.lt_or_ge j i with h' | h'
        · exact a2 k hk ⟨j, h', he⟩
        · exfalso
          have : j = i := by omega
          subst this
          have := List.findIdx_lt_length_of_exists (p := fun s => decide (s = names.getD j [])) (xs := gnames)
            ⟨gnames.getD k [], getD_mem_or [] hk, by rw [he]; simp⟩
          omega
      · rw [if_neg hg]
        obtain ⟨b1, b2⟩ := findIdx_name gnames _ hg
        generalize gnames.findIdx (fun s => decide (s = names.getD i [])) = gi at *
        have hdn : d gi = names.length := by
          by_contra hne
          obtain ⟨c1, c2⟩ := a1 gi hne
          rw [b2, List.getD_eq_getElem _ _ hi, List.getD_eq_getElem _ _ (by omega)] at c2
          have := (List.Nodup.getElem_inj_iff h1).1 c2
          omega
        rw [if_pos hdn]
        refine ⟨_, rfl, fun k hk => ?_, fun k hk ⟨j, hj, he⟩ => ?_⟩
        · by_cases hke : k = gi
          · subst hke; rw [Function.update_self]; exact ⟨by omega, b2⟩
          · rw [Function.update_of_ne hke] at hk ⊢; exact ⟨by have := (a1 k hk).1; omega, (a1 k hk).2⟩
        · by_cases hke : k = gi
          · subst hke; rw [Function.update_self]; omega
          · rw [Function.update_of_ne hke]
            rcases Nat.lt_or_ge j i with h' | h'
            · exact a2 k hk ⟨j, h', he⟩
            · exfalso
              have : j = i := by omega
              subst this
              rw [← b2, List.getD_eq_getElem _ _ hk, List.getD_eq_getElem _ _ b1] at he
              exact hke ((List.Nodup.getElem_inj_iff h2).1 he)
  obtain ⟨d, hd, -, h4⟩ := key
  refine ⟨d, hd, fun k hk hm => h4 k hk ?_⟩
  obtain ⟨j, hj, he⟩ := List.getElem_of_mem hm
  exact ⟨j, hj, by rw [List.getD_eq_getElem _ _ hj, he]⟩

/-- from_graph does not report an error -/
theorem fromNodes_some {D : List Txt} {dix : ℕ → ℕ} (hd : ∀ k < D.length, dix k ≠ c.names.length) (l : List GNode) :
    ∀ (s : FromSt) (n : ℕ), NodesOk D l n → (∀ nd ∈ l, nd.isAtom = false) → ∃ s', fromNodes c dix l s = some s' := by
  induction l with
  | nil => intro s n _ _; exact ⟨s, rfl⟩
  | cons nd l ih =>
    intro s n hok hat
    obtain ⟨o1, o2, o3⟩ := hok
    have : ∃ s1, fromNode c dix s nd = some s1 := by
      have ha := hat nd (by simp)
      cases nd with
      | dis k a => exact ⟨_, by rw [fromNode, if_neg (hd k o2)]⟩
      | atom _ _ _ => simp [GNode.isAtom] at ha
      | atom4 _ _ _ _ => simp [GNode.isAtom] at ha
      | _ => exact ⟨_, rfl⟩
    obtain ⟨s1, h1⟩ := this
    obtain ⟨s2, h2⟩ := ih s1 _ o3 fun nd' h' => hat nd' (by simp [h'])
    exact ⟨s2, by rw [fromNodes, h1]; exact h2⟩

/-! ## The theorem -/

/-- the flags and the values of the independent nodes -/
def indPairs (d2v v2d : List Bool) (d x : List ℝ) : List (Bool × ℝ) := d2v.zip d ++ (v2d.map not).zip x

theorem part_true (b : List Bool) (v : List ℝ) : part true (b.zip v) = pick b v := by unfold part pick; congr 2; funext q; cases q.1 <;> rfl

theorem part_false (b : List Bool) (v : List ℝ) : part false (b.zip v) = pick (b.map not) v := by
  induction b generalizing v with
  | nil => simp [part, pick]
  | cons a b ih =>
    cases v with
    | nil => simp [part, pick]
    | cons y v =>
      have := ih v
      rw [List.zip_cons_cons, part_cons, this]
      cases a <;> simp [pick]

theorem not_not_map (b : List Bool) : (b.map not).map not = b := by
  rw [List.map_map]; conv_rhs => rw [← List.map_id b]
  exact List.map_congr_left fun a _ => by simp

theorem part_indPairs (d2v v2d : List Bool) (d x : List ℝ) :
    part true (indPairs d2v v2d d x) = newVar d2v v2d d x ∧ part false (indPairs d2v v2d d x) = newDyn d2v v2d d x := by
  unfold indPairs newVar newDyn
  rw [part_append, part_append, part_true, part_true, part_false, part_false, not_not_map]
  exact ⟨rfl, rfl⟩

theorem pick_length (b : List Bool) : ∀ (v : List ℝ), v.length = b.length → (pick b v).length = b.count true := by
  induction b with
  | nil => intro v h; simp [pick]
  | cons a b ih =>
    intro v h
    cases v with
    | nil => simp at h
    | cons y v =>
      have := ih v (by simpa using h)
      unfold pick at this ⊢
      cases a <;> simp [this]

theorem count_not (b : List Bool) : (b.map not).count true = b.count false := by
  induction b with
  | nil => rfl
  | cons a b ih => cases a <;> simp [ih]

/-- everything from_graph records, for certain values of the independent variables and dynamic parameters -/
theorem fromGraph_rec {g : CppGraph} {d2v v2d : List Bool} {T : OTape} {d x : List ℝ} (w : g.WF) (hd : d2v.length = g.nDyn) (hv : v2d.length = g.nVar)
    (hfn : ∀ k < c.names.length, fn (c.names.getD k []) = c.disc k) (hT : fromGraph c g d2v v2d = some T)
    (hdl : d.length = g.nDyn) (hxl : x.length = g.nVar) (hst : ∀ i < (newVar d2v v2d d x).length, st (i + 1) = at' (newVar d2v v2d d x) i) :
    ∃ s F, RI c (newDyn d2v v2d d x) st (newVar d2v v2d d x).length (newDyn d2v v2d d x).length s F ∧
      Main (newVar d2v v2d d x).length (newDyn d2v v2d d x).length s ∧
      T.dyn = s.r ∧ T.ops = s.ops ∧ T.vecs = [] ∧ T.n = (newVar d2v v2d d x).length ∧ T.nInd = (newDyn d2v v2d d x).length ∧
      (∀ j ∈ T.dep, 1 ≤ j ∧ j < s.ops.length ∧ (s.ops.getD j .begin).hasRes = true) ∧
      T.dep.map F = g.eval fn d x ∧ (g.NoConCmp → s.fails c (newDyn d2v v2d d x) F = g.failed fn d x) := by
  unfold fromGraph at hT
  obtain ⟨dix, h1, h2⟩ := Option.bind_eq_some_iff.1 hT
  obtain ⟨s1, h3, h4⟩ := Option.map_eq_some_iff.1 h2
  set nV := (newVar d2v v2d d x).length with hnV
  set nI := (newDyn d2v v2d d x).length with hnI
  obtain ⟨pt, pf⟩ := part_indPairs d2v v2d d x
  set L := indPairs d2v v2d d x with hL
  have hLf : L.map Prod.fst = d2v ++ v2d.map not := by
    rw [hL]; unfold indPairs
    rw [List.map_append, List.map_fst_zip (by omega), List.map_fst_zip (by simp; omega)]
  have hLs : L.map Prod.snd = d ++ x := by
    rw [hL]; unfold indPairs
    rw [List.map_append, List.map_snd_zip (by omega), List.map_snd_zip (by simp; omega)]
  have hLl : L.length = g.nDyn + g.nVar := by rw [← List.length_map (f := Prod.fst), hLf]; simp; omega
  have hinit : fromInit c g d2v v2d = g.constants.foldl (fun s v => FromSt.push (s.con c v) .constant)
      ((L.map Prod.fst).foldl (fun s b => s.ind c b)
        (((⟨⟨[], [], [], fun _ => 0⟩, [], [.constant], [0]⟩ : FromSt).con c c.nan).1.op .begin).1) := by
    rw [hLf, List.foldl_append, List.foldl_map]; rfl
  have e0 : (((⟨⟨[], [], [], fun _ => 0⟩, [], [.constant], [0]⟩ : FromSt).con c c.nan).1.op .begin).1 =
      ⟨⟨[c.nan], [false], [], Function.update (fun _ => 0) (c.hash c.nan) 0⟩, [.begin], [.constant], [0]⟩ := by
    simp [FromSt.con, FromSt.op, DynRec.putConPar]
  obtain ⟨F1, a1, a2, a3, a4⟩ := inds_ok (c := c) (ind := newDyn d2v v2d d x) (st := st) (nV := nV) (nI := nI) L []
    ((((⟨⟨[], [], [], fun _ => 0⟩, [], [.constant], [0]⟩ : FromSt).con c c.nan).1.op .begin).1) st (init_ok c _ st nV nI)
    (by rw [e0]; simp [part]) (by rw [e0]; simp [part]) (by rw [e0]; simp) (by rw [e0]; simp [isCon])
    (by rw [e0]; simp [FromSt.fails, opFail]) (by rw [List.nil_append, pt]) (by rw [List.nil_append, pf]) (by rw [List.nil_append, pf])
    (by rw [List.nil_append, pt]; exact hst)
  obtain ⟨F2, b1, b2, b3, b4⟩ := cons_ok g.constants _ _ F1 a1 a2
  rw [← hinit] at b1 b2 b3 b4
  rw [List.nil_append] at b1 a3
  rw [hLs] at b1
  have hstart : 0 :: (d ++ x) ++ g.constants = g.start d x := by unfold CppGraph.start; simp
  rw [hstart] at b1
  have hslen : (g.start d x).length = 1 + g.nDyn + g.nVar + g.constants.length := by unfold CppGraph.start; simp; omega
  have hdix : ∀ k < g.discreteNames.length, dix k ≠ c.names.length → fn (g.discreteNames.getD k []) = c.disc (dix k) := by
    intro k _ hk
    obtain ⟨k1, k2⟩ := discreteIndex_ok h1 k hk
    rw [k2, hfn _ k1]
  obtain ⟨F3, c1, c2, c3⟩ := fromNodes_ok hdix g.nodes _ _ F2 b1 b2 (by rw [hslen]; exact w.nodes) h3
  have hVl : (evalNodes fn g.discreteNames g.nodes (g.start d x)).length = g.numNodes := by
    rw [evalNodes_len _ _ _ w.noAtom, hslen]; rfl
  obtain ⟨F4, d1, d2, d3, d4⟩ := fromDeps_ok g.deps s1 F3 c1 c2 (by rw [hVl]; exact w.deps)
  refine ⟨(fromDeps g.deps s1).1, F4, d1, c2.ext d2, by rw [← h4], by rw [← h4], by rw [← h4], ?_, ?_, by rw [← h4]; exact d3, ?_, ?_⟩
  · rw [← h4, hnV]; unfold newVar
    rw [List.length_append, pick_length _ _ (by omega), pick_length _ _ (by simp; omega), count_not]
  · rw [← h4, hnI]; unfold newDyn
    rw [List.length_append, pick_length _ _ (by simp; omega), pick_length _ _ (by omega), count_not]
  · rw [← h4]; exact d4
  · intro hc
    rw [d2.fails, Nat.add_zero, c3, b4, a4, Nat.zero_add]
    · rfl
    · rw [b3, a3, hLl]; exact hc

theorem RI.tape {g : CppGraph} {T : OTape} (h : RI c ind st nV nI s F) (hm : Main nV nI s) (e1 : T.dyn = s.r) (e2 : T.ops = s.ops) (e3 : T.n = nV)
    (e4 : T.nInd = nI) (e5 : ∀ j ∈ T.dep, 1 ≤ j ∧ j < s.ops.length ∧ (s.ops.getD j .begin).hasRes = true) : TapeOk T := by
  refine ⟨?_, ?_, ?_, ?_, ?_, ?_, ?_, ?_, ?_, ?_, ?_, ?_⟩ <;> simp only [OTape.op, e1, e2, e3, e4]
  · exact hm.1
  · exact h.isInd
  · exact h.vars
  · exact h.pars
  · exact h.supp
  · exact e5
  · exact h.par.wf
  · exact h.par.len
  · exact h.par0
  · exact h.dargs
  · exact ⟨hm.2, h.nind⟩
  · exact fun k hk => h.d2p k hk (lt_of_lt_of_le hk hm.2)

/-- The function that from_graph creates has the values of the graph, with the independent variables and dynamic parameters
switched as requested; it is a recording like those that CppAD makes.  When no comparison has an operand that is a constant,
the number of comparisons that do not hold is also the same. -/
theorem fromGraph_ok {g : CppGraph} {d2v v2d : List Bool} {T : OTape} (w : g.WF) (hd : d2v.length = g.nDyn) (hv : v2d.length = g.nVar)
    (hfn : ∀ k < c.names.length, fn (c.names.getD k []) = c.disc k) (hT : fromGraph c g d2v v2d = some T) :
    TapeOk T ∧ ∀ d x : List ℝ, d.length = g.nDyn → x.length = g.nVar →
      T.nInd = (newDyn d2v v2d d x).length ∧ T.n = (newVar d2v v2d d x).length ∧
      ∀ (b : Bool) (junk : ℕ → ℝ), T.eval c.disc b (newDyn d2v v2d d x) (at' (newVar d2v v2d d x)) junk = g.eval fn d x ∧
        (g.NoConCmp → compareChange c.disc T (newDyn d2v v2d d x) (at' (newVar d2v v2d d x)) junk = g.failed fn d x) := by
  constructor
  · obtain ⟨s, F, h1, h2, h3, h4, h5, h6, h7, h8, h9, h10⟩ := fromGraph_rec (fn := fn) (d := List.replicate g.nDyn 0) (x := List.replicate g.nVar 0)
      (st := fun i => at' (newVar d2v v2d (List.replicate g.nDyn 0) (List.replicate g.nVar 0)) (i - 1)) w hd hv hfn hT (by simp) (by simp)
      (fun i _ => by simp)
    exact RI.tape (g := g) h1 h2 h3 h4 h6 h7 h8
  · intro d x hdl hxl
    have H := fun (junk : ℕ → ℝ) => fromGraph_rec (fn := fn) (d := d) (x := x)
      (st := fun i => if 1 ≤ i ∧ i ≤ (newVar d2v v2d d x).length then at' (newVar d2v v2d d x) (i - 1) else junk i) w hd hv hfn hT hdl hxl
      (fun i hi => by rw [if_pos ⟨by omega, by omega⟩]; simp)
    obtain ⟨_, _, _, _, _, _, _, k6, k7, _⟩ := H (fun _ => 0)
    refine ⟨k7, k6, fun b junk => ?_⟩
    obtain ⟨s, F, h1, h2, h3, h4, h5, h6, h7, h8, h9, h10⟩ := H junk
    have w' := RI.tape (g := g) h1 h2 h3 h4 h6 h7 h8
    have hP : at' (parVals c.disc (newDyn d2v v2d d x) T.dyn) = s.P c (newDyn d2v v2d d x) := by rw [h3]; rfl
    have hfin := final_eq h1 (T.start (at' (newVar d2v v2d d x)) junk) (fun i _ => by simp only [OTape.start, h6])
    constructor
    · unfold OTape.eval
      dsimp only
      rw [sweep_obey b T.ops (supported_all w'.supported) 0 _ (fun _ => rfl), ← h9]
      refine List.map_congr_left fun j hj => ?_
      obtain ⟨j1, j2, j3⟩ := h8 j hj
      rw [hP, h4]
      exact hfin j j2 j3
    · intro hc
      rw [← h10 hc]
      unfold compareChange
      rw [countOps_eq w'.supported (fun i hi v hv => (w'.vars i hi v hv).2.1) fun _ => rfl, hP]
      unfold failUpTo FromSt.fails
      rw [← h4]
      have : ∀ (l : List VOp) (f : VOp → ℕ), ((List.range l.length).map fun k => f (l.getD k .begin)).sum = (l.map f).sum := by
        intro l f
        congr 1
        refine List.ext_getElem (by simp) fun i h1 h2 => ?_
        simp only [List.getElem_map, List.getElem_range]
        rw [List.getD_eq_getElem _ _ (by simpa using h2)]
      rw [← this T.ops]
      congr 1
      refine List.map_congr_left fun k hk => ?_
      rw [List.mem_range] at hk
      refine opFail_congr (fun _ _ => rfl) fun v hv => ?_
      obtain ⟨v1, v2, v3⟩ := w'.vars k hk v hv
      rw [h4] at hk ⊢
      refine hfin v (by omega) ?_
      rw [← h4]; exact v3

/-- from_graph succeeds -/
theorem fromGraph_some {g : CppGraph} {d2v v2d : List Bool} (w : g.WF) (hn : c.names.Nodup) (hk : ∀ nm ∈ g.discreteNames, nm ∈ c.names) :
    ∃ T, fromGraph c g d2v v2d = some T := by
  obtain ⟨dix, h1, h2⟩ := discreteIndex_some hn w.names
  obtain ⟨s', h3⟩ := fromNodes_some (c := c) (fun k hk' => h2 k hk' (hk _ (getD_mem_or [] hk'))) g.nodes (fromInit c g d2v v2d) _ w.nodes w.noAtom
  unfold fromGraph
  rw [h1, Option.bind_some, h3]
  exact ⟨_, rfl⟩

end CppAD.Graph
