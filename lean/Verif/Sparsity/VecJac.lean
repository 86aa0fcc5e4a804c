import Verif.Sparsity.VecModel

/-! # Jacobian sparsity patterns are conservative when the recording contains VecAD operators -/

open scoped ContDiff Topology

namespace CppAD.Sparsity.Vec

open CppAD.Record

/-- a function object that can be the result of a recording: at every point `z` the operation sequence is well formed, and so are the
operands of the comparison and VecAD operators (`funOk_session` proves it for all recordings) -/
structure FunOk (disc : ℕ → ℝ → ℝ) (f : Fun) : Prop where
  tape : ∀ z, (f.tape disc z).WF
  cmp : CmpWF f.ops (f.n + 1) (indSet f.n)

theorem funOk_session {s : Session} {P : Prog} (hs : s.Ok) (hf : s.Faithful P) (p : List ℝ) : FunOk s.cfg.disc (s.funAt P p) where
  tape := funAt_wf hs hf p
  cmp := (recorded_ok hs hf).1.cmp

variable {disc : ℕ → ℝ → ℝ} {par e e' : ℕ → ℝ} {vecs : List (List ℕ)} {mem mem' : Mem}

/-! ## recorded operators -/

theorem rop_cases (disc : ℕ → ℝ → ℝ) (par : ℕ → ℝ) (op : ROp) :
    (∃ o, op.toOp disc par = some o) ∨ op.quiet = true ∨ (∃ k p, op = .ldp k p) ∨ (∃ k v, op = .ldv k v) ∨
    (∃ k p q, op = .stpp k p q) ∨ (∃ k p v, op = .stpv k p v) ∨ (∃ k v q, op = .stvp k v q) ∨ (∃ k v w, op = .stvv k v w) ∨
    (∃ A xs ys, op = .atom A xs ys ∧ op.nres = 0 ∧ op.toOp disc par = none) := by
  cases op
  case atom A xs ys =>
    by_cases h : (ROp.atom A xs ys).nres = 0
    · exact Or.inr (Or.inr (Or.inr (Or.inr (Or.inr (Or.inr (Or.inr (Or.inr ⟨A, xs, ys, rfl, h, atomOp_none h⟩)))))))
    · obtain ⟨c, hc, -⟩ := atomOp_some (par := par) (xs := xs) h
      exact Or.inl ⟨_, hc⟩
  all_goals simp [ROp.toOp, ROp.quiet, ROp.isCmp]

theorem resolve_none {op : ROp} (h : op.nres = 0) (ops : List ROp) (nv : ℕ) :
    resolve disc par vecs (op :: ops) nv e mem = resolve disc par vecs ops nv e (op.memM par vecs e mem) := by
  rw [resolve, ROp.toOpM_none h]

theorem resolve_some {op : ROp} {o : Op} (h : op.toOpM disc par vecs e mem = some o) (ops : List ROp) (nv : ℕ) :
    (resolve disc par vecs (op :: ops) nv e mem).1 = o :: (resolve disc par vecs ops (nv + o.nres) (stepEnv o nv e) mem).1 := by
  rw [resolve, h]

theorem vecLoad_noatom (k : ℕ) (x : ℝ) : ∀ c, vecLoad par vecs mem k x ≠ .atom c := by
  intro c
  unfold vecLoad
  split
  · split <;> simp
  · simp

/-- what a load depends on -/
theorem vecLoad_args {k : ℕ} {x : ℝ} {a : ℕ} (h : a ∈ (vecLoad par vecs mem k x).args) : ∃ i, mem k i = .var a := by
  unfold vecLoad at h
  split at h
  · next i _ =>
    split at h
    · simp [Op.args] at h
    · next v hv =>
      simp [Op.args] at h
      exact ⟨i, h ▸ hv⟩
  · simp [Op.args] at h

theorem vecLoad_hes (k : ℕ) (x : ℝ) (r : ℕ) : hesSet (vecLoad par vecs mem k x) r = ∅ := by
  unfold vecLoad
  split
  · split <;> simp [hesSet, hesPairs]
  · simp [hesSet, hesPairs]

/-- operators without results: comparisons and stores -/
theorem store_cell {op : ROp} {k i v : ℕ} (h : op.memM par vecs e mem k i = .var v) :
    mem k i = .var v ∨ (v ∈ op.cellVars ∧ k ∈ op.vecArgs) := by
  rcases op.memM_cases with h1 | ⟨j, a, h1, h2, h3, ⟨p, h4, h5⟩ | ⟨p, h4, h5⟩⟩
  · rw [h1] at h; exact Or.inl h
  · rw [h5] at h
    rcases vecStore_cell (vecs := vecs) (mem := mem) j (par p) a k i with h' | ⟨rfl, h'⟩
    · rw [h'] at h; exact Or.inl h
    · rw [h'] at h; exact Or.inr ⟨h3 v h, by simp [h1]⟩
  · rw [h5] at h
    rcases vecStore_cell (vecs := vecs) (mem := mem) j (e p) a k i with h' | ⟨rfl, h'⟩
    · rw [h'] at h; exact Or.inl h
    · rw [h'] at h; exact Or.inr ⟨h3 v h, by simp [h1]⟩

/-! ## forward -/

theorem forJacOp_some {op : ROp} {o : Op} (h : op.toOp disc par = some o) (dep : Bool) (iz : ℕ) (s : VS) :
    forJacOp disc par dep op iz s = (Sparsity.forJacOp dep o iz s.1, s.2) := by
  cases op <;> first | (simp [ROp.toOp] at h; done) | (unfold forJacOp; simp only [h])

theorem forJacOp_zero {op : ROp} (h : op.nres = 0) (dep : Bool) (iz : ℕ) (s : VS) :
    (forJacOp disc par dep op iz s).1 = s.1 ∧ (∀ k, s.2 k ⊆ (forJacOp disc par dep op iz s).2 k) ∧
    (∀ v ∈ op.cellVars, ∀ k ∈ op.vecArgs, s.1 v ⊆ (forJacOp disc par dep op iz s).2 k) ∧
    (dep = true → op.quiet = false → ∀ v ∈ op.cmpVars, ∀ k ∈ op.vecArgs, s.1 v ⊆ (forJacOp disc par dep op iz s).2 k) := by
  rcases rop_cases disc par op with ⟨o, ho⟩ | hc | ⟨k, p, rfl⟩ | ⟨k, v, rfl⟩ | ⟨k, p, q, rfl⟩ | ⟨k, p, v, rfl⟩ | ⟨k, v, q, rfl⟩ | ⟨k, v, w, rfl⟩ | ⟨A, xs, ys, rfl, hz, ht⟩
  · exact absurd h (ROp.nres_some (ROp.toOpM_of_toOp (vecs := []) (e := fun _ => 0) (mem := initMem []) ho)).1
  · have : forJacOp disc par dep op iz s = s := by cases op <;> first | rfl | simp [ROp.quiet, ROp.isCmp] at hc
    rw [this]
    refine ⟨rfl, fun _ _ h => h, ?_, ?_⟩
    · rw [ROp.cellVars_of_cmp hc]; simp
    · intro _ h; rw [hc] at h; cases h
  · simp [ROp.nres] at h
  · simp [ROp.nres] at h
  · exact ⟨rfl, fun _ _ h => h, by simp [ROp.cellVars], by simp [ROp.cmpVars]⟩
  · refine ⟨rfl, fun j => ?_, ?_, by simp [ROp.cmpVars]⟩
    · show s.2 j ⊆ s.2.binaryUnion k k v s.1 j
      rw [bu_apply]; split_ifs with hj
      · rw [hj]; exact Finset.subset_union_left
      · exact subset_rfl
    · simp only [ROp.cellVars, ROp.vecArgs, List.mem_singleton]
      rintro _ rfl _ rfl
      show s.1 _ ⊆ s.2.binaryUnion _ _ _ s.1 _
      rw [bu_apply, if_pos rfl]; exact Finset.subset_union_right
  · refine ⟨rfl, fun j => ?_, by simp [ROp.cellVars], ?_⟩
    · show s.2 j ⊆ (if dep then s.2.binaryUnion k k v s.1 else s.2) j
      split_ifs with hd
      · rw [bu_apply]; split_ifs with hj
        · rw [hj]; exact Finset.subset_union_left
        · exact subset_rfl
      · exact subset_rfl
    · intro hd _
      simp only [ROp.cmpVars, ROp.vecArgs, List.mem_singleton]
      rintro _ rfl _ rfl
      show s.1 _ ⊆ (if dep then s.2.binaryUnion _ _ _ s.1 else s.2) _
      rw [if_pos hd, bu_apply, if_pos rfl]; exact Finset.subset_union_right
  · have h1 : ∀ j, s.2 j ⊆ (if dep then s.2.binaryUnion k k v s.1 else s.2) j := by
      intro j
      split_ifs with hd
      · rw [bu_apply]; split_ifs with hj
        · rw [hj]; exact Finset.subset_union_left
        · exact subset_rfl
      · exact subset_rfl
    refine ⟨rfl, fun j => ?_, ?_, ?_⟩
    · show s.2 j ⊆ Sp.binaryUnion (if dep then s.2.binaryUnion k k v s.1 else s.2) k k w s.1 j
      rw [bu_apply]
      by_cases hj : j = k
      · rw [if_pos hj, hj]; exact subset_trans (h1 k) Finset.subset_union_left
      · rw [if_neg hj]; exact h1 j
    · simp only [ROp.cellVars, ROp.vecArgs, List.mem_singleton]
      rintro _ rfl _ rfl
      show s.1 _ ⊆ Sp.binaryUnion (if dep then s.2.binaryUnion _ _ v s.1 else s.2) _ _ _ s.1 _
      rw [bu_apply, if_pos rfl]; exact Finset.subset_union_right
    · intro hd _
      simp only [ROp.cmpVars, ROp.vecArgs, List.mem_singleton]
      rintro _ rfl _ rfl
      show s.1 _ ⊆ Sp.binaryUnion (if dep then s.2.binaryUnion _ _ _ s.1 else s.2) _ _ w s.1 _
      rw [bu_apply, if_pos rfl, if_pos hd, bu_apply, if_pos rfl]
      exact subset_trans Finset.subset_union_right Finset.subset_union_left
  · have : forJacOp disc par dep (.atom A xs ys) iz s = s := by unfold forJacOp; dsimp only; rw [ht]
    rw [this]
    exact ⟨rfl, fun _ _ h => h, by simp [ROp.vecArgs], by simp [ROp.vecArgs]⟩

/-- loads -/
theorem forJacOp_load {op : ROp} {k : ℕ} (h : (∃ p, op = .ldp k p) ∨ ∃ v, op = .ldv k v) (dep : Bool) (iz : ℕ) (s : VS) :
    (∀ v, v ≠ iz → (forJacOp disc par dep op iz s).1 v = s.1 v) ∧ (forJacOp disc par dep op iz s).2 = s.2 ∧
    s.2 k ⊆ (forJacOp disc par dep op iz s).1 iz ∧
    (dep = true → ∀ v ∈ op.cmpVars, v ≠ iz → s.1 v ⊆ (forJacOp disc par dep op iz s).1 iz) := by
  rcases h with ⟨p, rfl⟩ | ⟨x, rfl⟩
  · refine ⟨fun v hv => Function.update_of_ne hv _ _, rfl, ?_, by simp [ROp.cmpVars]⟩
    show s.2 k ⊆ Function.update s.1 iz (s.2 k) iz
    rw [Function.update_self]
  · refine ⟨fun v hv => ?_, rfl, ?_, ?_⟩
    · show (if dep then Sp.binaryUnion (Function.update s.1 iz (s.2 k)) iz iz x (Function.update s.1 iz (s.2 k)) else Function.update s.1 iz (s.2 k)) v = s.1 v
      split_ifs
      · rw [bu_apply, if_neg hv, Function.update_of_ne hv]
      · rw [Function.update_of_ne hv]
    · show s.2 k ⊆ (if dep then Sp.binaryUnion (Function.update s.1 iz (s.2 k)) iz iz x (Function.update s.1 iz (s.2 k)) else Function.update s.1 iz (s.2 k)) iz
      split_ifs
      · rw [bu_apply, if_pos rfl, Function.update_self]; exact Finset.subset_union_left
      · rw [Function.update_self]
    · intro hd
      simp only [ROp.cmpVars, List.mem_singleton]
      rintro _ rfl hne
      show s.1 _ ⊆ (if dep then Sp.binaryUnion (Function.update s.1 iz (s.2 k)) iz iz _ (Function.update s.1 iz (s.2 k)) else Function.update s.1 iz (s.2 k)) iz
      rw [if_pos hd, bu_apply, if_pos rfl, Function.update_of_ne hne]; exact Finset.subset_union_right

/-- operators with a result: an operator of module Taylor or a load -/
theorem rop_res {op : ROp} (h : op.nres ≠ 0) : (∃ o, op.toOp disc par = some o) ∨
    ∃ (k : ℕ) (x : (ℕ → ℝ) → ℝ), (∀ (vecs : List (List ℕ)) (e : ℕ → ℝ) (mem : Mem), op.toOpM disc par vecs e mem = some (vecLoad par vecs mem k (x e))) ∧ op.vecArgs = [k] ∧
      op.nres = 1 ∧
      ((∃ p, op = .ldp k p) ∨ ∃ v, op = .ldv k v) ∧ (∀ e e' : ℕ → ℝ, (∀ a ∈ op.cmpVars, e a = e' a) → x e = x e') := by
  rcases rop_cases disc par op with ⟨o, ho⟩ | hc | ⟨k, p, rfl⟩ | ⟨k, v, rfl⟩ | ⟨k, p, q, rfl⟩ | ⟨k, p, v, rfl⟩ | ⟨k, v, q, rfl⟩ | ⟨k, v, w, rfl⟩ | ⟨A, xs, ys, rfl, hz, ht⟩
  · exact Or.inl ⟨o, ho⟩
  · exact absurd (ROp.nres_cmp hc) h
  · exact Or.inr ⟨k, fun _ => par p, fun _ _ _ => rfl, rfl, rfl, Or.inl ⟨p, rfl⟩, fun _ _ _ => rfl⟩
  · exact Or.inr ⟨k, fun e => e v, fun _ _ _ => rfl, rfl, rfl, Or.inr ⟨v, rfl⟩, fun _ _ h => h v (by simp [ROp.cmpVars])⟩
  all_goals first | exact absurd hz h | simp [ROp.nres] at h

theorem _root_.CppAD.Record.ROp.addRes_load {op : ROp} {k : ℕ} (h : (∃ p, op = .ldp k p) ∨ ∃ v, op = .ldv k v) {nv v : ℕ}
    (hv : nv + op.naux ≤ v ∧ v < nv + op.nres) : v = nv := by
  rcases h with ⟨p, rfl⟩ | ⟨w, rfl⟩ <;> simp [ROp.naux, ROp.nres] at hv <;> omega

/-- The final sets of a forward sweep are closed for the operations executed at every point. -/
theorem forJac_closed (dep : Bool) : ∀ (ops : List ROp) (nv : ℕ) (U : Set ℕ) (s : VS) (e : ℕ → ℝ) (mem : Mem), 0 < nv → (∀ a ∈ U, a ≠ 0) →
    (∀ a ∈ U, a < nv) → WFOps (resolve disc par vecs ops nv e mem).1 nv U → CmpWF ops nv U →
    (∀ k i v, mem k i = .var v → v < nv ∧ s.1 v ⊆ s.2 k) →
    (∀ v < nv, (forJac disc par dep ops nv s).1 v = s.1 v) ∧
    AllOps (fun op r iz => ∀ a ∈ depS dep op r, (forJac disc par dep ops nv s).1 a ⊆ (forJac disc par dep ops nv s).1 iz)
      (resolve disc par vecs ops nv e mem).1 nv := by
  intro ops
  induction ops with
  | nil => intro nv U s e mem _ _ _ _ _ _; exact ⟨fun _ _ => rfl, trivial⟩
  | cons op ops ih =>
    intro nv U s e mem hnv h0 hU hw hc hm
    rw [CmpWF] at hc
    by_cases hz : op.nres = 0
    · rw [if_pos hz] at hc
      rw [resolve_none hz] at hw ⊢
      obtain ⟨z1, z2, z3, -⟩ := forJacOp_zero (disc := disc) (par := par) hz dep (nv + op.nres - 1) s
      obtain ⟨i1, i2⟩ := ih nv U (forJacOp disc par dep op (nv + op.nres - 1) s) e (op.memM par vecs e mem) hnv h0 hU hw hc.2 (by
        intro k i v hv
        rw [z1]
        rcases store_cell hv with h | ⟨h, h'⟩
        · exact ⟨(hm k i v h).1, subset_trans (hm k i v h).2 (z2 k)⟩
        · exact ⟨hU v (hc.1 v (List.mem_append_right _ h)), z3 v h k h'⟩)
      have e1 : forJac disc par dep (op :: ops) nv s = forJac disc par dep ops nv (forJacOp disc par dep op (nv + op.nres - 1) s) := by
        rw [forJac, hz, Nat.add_zero]
      rw [e1]
      refine ⟨fun v hv => (i1 v hv).trans (by rw [z1]), i2⟩
    · rw [if_neg hz] at hc
      rcases rop_res (disc := disc) (par := par) hz with ⟨o, ho⟩ | ⟨k, x, hl, -, hn, hld, -⟩
      · have hM := ROp.toOpM_of_toOp (vecs := vecs) (e := e) (mem := mem) ho
        have hn := (ROp.nres_some hM).2
        rw [resolve_some hM] at hw ⊢
        rw [hn] at hw ⊢
        have hlt : ∀ a ∈ o.args, a < nv := fun a h => hU a (hw.1 a h)
        obtain ⟨h1, h2⟩ := forJacOp_spec dep o nv s.1 hlt (fun a h => h0 a (hw.1 a h))
        rw [hn] at h1 h2
        have hU' := ROp.addRes_eq hM nv U
        have hUi := U_insert o hU
        rw [hU', hn] at hUi
        have hUn := addRes_ne (op := o) hnv h0
        rw [hU'] at hUn
        have hw2 := hw.2
        rw [hU', hn] at hw2
        obtain ⟨i1, i2⟩ := ih (nv + op.nres) (op.addRes nv U) (Sparsity.forJacOp dep o (nv + op.nres - 1) s.1, s.2) (stepEnv o nv e) mem
          (by omega) hUn hUi hw2 hc.2 (by
            intro k i v hv
            obtain ⟨a1, a2⟩ := hm k i v hv
            exact ⟨by omega, by dsimp only; rw [h1 v a1]; exact a2⟩)
        have e1 : forJac disc par dep (op :: ops) nv s = forJac disc par dep ops (nv + op.nres) (Sparsity.forJacOp dep o (nv + op.nres - 1) s.1, s.2) := by
          rw [forJac, forJacOp_some ho]
        rw [e1]
        refine ⟨fun v hv => (i1 v (by omega)).trans (h1 v hv), fun r r1 r2 a ha => ?_, by rw [hn]; exact i2⟩
        have hal := hlt a (depS_sub dep o r a ha)
        rw [hn] at r2
        rw [i1 a (by omega), i1 _ (by omega)]
        show Sparsity.forJacOp dep o _ s.1 a ⊆ _
        rw [h1 a hal]
        exact h2 r r1 (by omega) a ha
      · have hM := hl vecs e mem
        have hn' := vecLoad_nres (par := par) (vecs := vecs) (mem := mem) k (x e)
        rw [resolve_some hM] at hw ⊢
        rw [hn'] at hw ⊢
        obtain ⟨l1, l2, l3, -⟩ := forJacOp_load (disc := disc) (par := par) hld dep nv s
        have hU' := ROp.addRes_eq hM nv U
        have hUi := U_insert (vecLoad par vecs mem k (x e)) hU
        rw [hU', hn'] at hUi
        have hUn := addRes_ne (op := vecLoad par vecs mem k (x e)) hnv h0
        rw [hU'] at hUn
        have hw2 := hw.2
        rw [hU', hn'] at hw2
        rw [hn] at hc
        obtain ⟨i1, i2⟩ := ih (nv + 1) (op.addRes nv U) (forJacOp disc par dep op nv s) (stepEnv (vecLoad par vecs mem k (x e)) nv e) mem
          (by omega) hUn hUi hw2 hc.2 (by
            intro k' i v hv
            obtain ⟨a1, a2⟩ := hm k' i v hv
            exact ⟨by omega, by rw [l1 v (by omega), l2]; exact a2⟩)
        have e1 : forJac disc par dep (op :: ops) nv s = forJac disc par dep ops (nv + 1) (forJacOp disc par dep op nv s) := by
          rw [forJac, hn]; rfl
        rw [e1]
        refine ⟨fun v hv => (i1 v (by omega)).trans (l1 v (by omega)), fun r r1 r2 a ha => ?_, by rw [hn']; exact i2⟩
        rw [hn'] at r2
        have hr : r = 0 := by omega
        subst hr
        obtain ⟨i, hi⟩ := vecLoad_args (depS_sub dep _ _ a ha)
        obtain ⟨a1, a2⟩ := hm k i a hi
        rw [i1 a (by omega), i1 _ (by omega), l1 a (by omega)]
        exact subset_trans a2 l3

theorem indSet_eq {f : Fun} (z : List ℝ) : (f.tape disc z).ind = indSet f.n := rfl

/-- **C15** with VecAD: the pattern computed by `for_jac_sparsity` contains every entry of `F'(z) R` that is not zero.  `(f.tape disc z).eval x`
is the value of the function at `x`, with the elements of the VecAD vectors that are accessed at `z`. -/
theorem vec_for_jac_sparsity_ok {f : Fun} (hf : FunOk disc f) (ell : ℕ) (pat : Pattern) (transpose dependency : Bool)
    (R : ℕ → ℕ → ℝ) (hR : ∀ k < f.n, ∀ j < ell, R k j ≠ 0 → Has transpose pat k j)
    (z : List ℝ) (hD : (f.tape disc z).Dom (at' z)) (i j : ℕ) (hi : i < f.dep.length) (hj : j < ell) (v : ℝ)
    (hv : HasDerivAt (fun t => (f.tape disc z).eval (fun k => at' z k + t * R k j) i) v 0) (hne : v ≠ 0) :
    Has transpose (forJacSparsity disc f ell pat transpose dependency).1 i j := by
  by_contra hno
  unfold forJacSparsity at hno
  dsimp only at hno
  rw [has_getInternalPattern] at hno
  set s0 := setInternalPattern transpose (fun j => j + 1) (fun _ => ∅) pat with hs0
  set S := (forJac disc f.par dependency f.ops (f.n + 1) (s0, fun _ => ∅)).1 with hS
  have hno : j ∉ S (f.dep.getD i 0) := fun h => hno ⟨hi, hj, h⟩
  have hT := hf.tape z
  obtain ⟨c1, c2⟩ := forJac_closed (vecs := f.vecs) dependency f.ops (f.n + 1) (indSet f.n) (s0, fun _ => ∅) (indEnv (at' z)) (initMem f.vecs)
    (by omega) (ind_ne (T := f.tape disc z)) (ind_lt (T := f.tape disc z)) hT.ops hf.cmp (by intro k i v h; simp [initMem] at h)
  refine hne (hv.unique ?_)
  refine closed_deriv {v | j ∉ S v} (f.tape disc z).ops (f.n + 1) (f.tape disc z).ind
    (fun t => indEnv (fun k => at' z k + t * R k j)) (indEnv fun k => R k j) ind_lt hT.ops (fun v _ => indEnv_line (at' z) (fun k => R k j) v) ?_ ?_ ?_
    _ (dep_usable hT hi) hno
  · show domOps _ _ (indEnv fun k => at' z k + 0 * R k j)
    rw [indEnv_zero (at' z) (fun k => R k j)]; exact hD
  · refine AllOps.mono _ _ (fun op r iz _ _ hr h hz a ha => ?_) c2
    exact fun hm => hz (h a (jac_sub_depS dependency op hr a ha) hm)
  · intro v hv hA
    have hA : j ∉ S v := hA
    rw [hS, c1 v (ind_lt v hv), hs0, mem_setInternalPattern] at hA
    unfold indEnv
    have hv1 := hv.1
    have hv2 : v ≤ f.n := hv.2
    rw [if_neg (by omega)]
    by_contra hr
    exact hA ⟨by omega, v - 1, by omega, hR _ (by omega) j hj hr⟩

/-! ### dependency patterns -/

/-- the elements of one vector are the same objects with the same values -/
def SameVec (nv : ℕ) (e e' : ℕ → ℝ) (m m' : ℕ → Cell) : Prop :=
  ∀ i, m i = m' i ∧ ∀ v, m i = .var v → v < nv ∧ e v = e' v

theorem vecStore_ne {k j : ℕ} (h : j ≠ k) (x : ℝ) (a : Cell) : vecStore vecs mem k x a j = mem j := by
  unfold vecStore
  cases vecIndex (vecs.getD k []).length x with
  | none => rfl
  | some i => exact Function.update_of_ne h _ _

theorem store_same {op : ROp} {nv k : ℕ} (hm : SameVec nv e e' (mem k) (mem' k))
    (hx : k ∈ op.vecArgs → ∀ a ∈ op.cmpVars, e a = e' a) (hc : k ∈ op.vecArgs → ∀ a ∈ op.cellVars, a < nv ∧ e a = e' a) :
    SameVec nv e e' (op.memM par vecs e mem k) (op.memM par vecs e' mem' k) := by
  intro i
  constructor
  · rcases op.memM_cases with h1 | ⟨j, a, h1, h2, h3, ⟨p, h4, h5⟩ | ⟨p, h4, h5⟩⟩
    · rw [h1, h1]; exact (hm i).1
    · rw [h5, h5]
      exact vecStore_congr rfl _ _ (fun i => (hm i).1) i
    · rw [h5, h5]
      by_cases hj : k = j
      · rw [hx (by simp [h1, hj]) p h4]
        exact vecStore_congr rfl _ _ (fun i => (hm i).1) i
      · rw [vecStore_ne hj, vecStore_ne hj]; exact (hm i).1
  · intro v hv
    rcases store_cell hv with h | ⟨h, h'⟩
    · exact (hm i).2 v h
    · exact hc h' v h

theorem load_same {nv k : ℕ} {x : ℝ} (hm : SameVec nv e e' (mem k) (mem' k)) :
    vecLoad par vecs mem k x = vecLoad par vecs mem' k x ∧ ∀ a ∈ (vecLoad par vecs mem k x).args, e a = e' a := by
  constructor
  · unfold vecLoad
    split
    · rw [(hm _).1]
    · rfl
  · intro a ha
    obtain ⟨i, hi⟩ := vecLoad_args ha
    exact ((hm i).2 a hi).2

theorem SameVec.step {nv : ℕ} {m m' : ℕ → Cell} (h : SameVec nv e e' m m') (o o' : Op) (hn : o.nres = o'.nres) :
    SameVec (nv + o.nres) (stepEnv o nv e) (stepEnv o' nv e') m m' := by
  intro i
  refine ⟨(h i).1, fun v hv => ?_⟩
  obtain ⟨h1, h2⟩ := (h i).2 v hv
  rw [stepEnv_lt _ h1, stepEnv_lt _ h1]
  exact ⟨by omega, h2⟩

theorem forJac_dep (j : ℕ) : ∀ (ops : List ROp) (nv : ℕ) (U : Set ℕ) (s : VS) (e e' : ℕ → ℝ) (mem mem' : Mem), 0 < nv → (∀ a ∈ U, a ≠ 0) →
    (∀ a ∈ U, a < nv) → WFOps (resolve disc par vecs ops nv e mem).1 nv U → CmpWF ops nv U →
    (∀ v ∈ U, j ∉ s.1 v → e v = e' v) → (∀ k, j ∉ s.2 k → SameVec nv e e' (mem k) (mem' k)) →
    ∀ v ∈ usable (resolve disc par vecs ops nv e mem).1 nv U, j ∉ (forJac disc par true ops nv s).1 v →
      evalOps (resolve disc par vecs ops nv e mem).1 nv e v = evalOps (resolve disc par vecs ops nv e' mem').1 nv e' v := by
  intro ops
  induction ops with
  | nil => intro nv U s e e' mem mem' _ _ _ _ _ h _; exact h
  | cons op ops ih =>
    intro nv U s e e' mem mem' hnv h0 hU hw hc he hm
    rw [CmpWF] at hc
    by_cases hz : op.nres = 0
    · rw [if_pos hz] at hc
      rw [resolve_none hz] at hw ⊢
      rw [resolve_none hz]
      obtain ⟨z1, z2, z3, z4⟩ := forJacOp_zero (disc := disc) (par := par) hz true (nv + op.nres - 1) s
      have e1 : forJac disc par true (op :: ops) nv s = forJac disc par true ops nv (forJacOp disc par true op (nv + op.nres - 1) s) := by
        rw [forJac, hz, Nat.add_zero]
      rw [e1]
      refine ih nv U _ e e' _ _ hnv h0 hU hw hc.2 (by rw [z1]; exact he) ?_
      intro k hk
      refine store_same (hm k fun h => hk (z2 k h)) ?_ ?_
      · intro hv a ha
        by_cases hcmp : op.quiet = true
        · have : op.vecArgs = [] := by cases op <;> first | rfl | simp [ROp.quiet, ROp.isCmp] at hcmp
          rw [this] at hv; simp at hv
        · exact he a (hc.1 a (List.mem_append_left _ ha)) fun h => hk (z4 rfl (by simpa using hcmp) a ha k hv h)
      · intro hv a ha
        have hu := hc.1 a (List.mem_append_right _ ha)
        exact ⟨hU a hu, he a hu fun h => hk (z3 a ha k hv h)⟩
    · rw [if_neg hz] at hc
      rcases rop_res (disc := disc) (par := par) hz with ⟨o, ho⟩ | ⟨k, x, hl, -, hn, hld, hx⟩
      · have hM := ROp.toOpM_of_toOp (vecs := vecs) (e := e) (mem := mem) ho
        have hM' := ROp.toOpM_of_toOp (vecs := vecs) (e := e') (mem := mem') ho
        have hn := (ROp.nres_some hM).2
        rw [resolve_some hM] at hw ⊢
        rw [resolve_some hM']
        have hlt : ∀ a ∈ o.args, a < nv := fun a h => hU a (hw.1 a h)
        obtain ⟨h1, h2⟩ := forJacOp_spec true o nv s.1 hlt (fun a h => h0 a (hw.1 a h))
        have hU' := ROp.addRes_eq hM nv U
        rw [← hn] at hc
        rw [← hU'] at hc
        have e1 : forJac disc par true (op :: ops) nv s = forJac disc par true ops (nv + o.nres) (Sparsity.forJacOp true o (nv + o.nres - 1) s.1, s.2) := by
          rw [forJac, forJacOp_some ho, hn]
        rw [e1]
        have hpos := o.nres_pos
        refine ih (nv + o.nres) (addRes o nv U) _ (stepEnv o nv e) (stepEnv o nv e') mem mem' (by omega) (addRes_ne hnv h0) (U_insert o hU) hw.2 hc.2 ?_
          (fun k hk => (hm k hk).step o o rfl)
        rintro v (hv | hv) hA
        · obtain ⟨r, r1, r2, rfl⟩ := res_idx hv
          rw [stepEnv_res _ r2, stepEnv_res _ r2]
          refine val_dep o fun a ha => he a (hw.1 a (depSet_sub o r a ha)) fun h => hA (h2 r r1 r2 a ha h)
        · rw [stepEnv_lt _ (hU v hv), stepEnv_lt _ (hU v hv)]
          refine he v hv fun h => hA ?_
          show j ∈ Sparsity.forJacOp true o (nv + o.nres - 1) s.1 v
          rw [h1 v (hU v hv)]; exact h
      · have hM := hl vecs e mem
        have hM' := hl vecs e' mem'
        have hn' := vecLoad_nres (par := par) (vecs := vecs) (mem := mem) k (x e)
        have hn'' := vecLoad_nres (par := par) (vecs := vecs) (mem := mem') k (x e')
        rw [resolve_some hM] at hw ⊢
        rw [resolve_some hM']
        obtain ⟨l1, l2, l3, l4⟩ := forJacOp_load (disc := disc) (par := par) hld true nv s
        have hU' := ROp.addRes_eq hM nv U
        rw [hn] at hc
        have hc2 := hc.2
        rw [← hU'] at hc2
        have e1 : forJac disc par true (op :: ops) nv s = forJac disc par true ops (nv + 1) (forJacOp disc par true op nv s) := by
          rw [forJac, hn]; rfl
        rw [e1]
        have := ih (nv + 1) (addRes (vecLoad par vecs mem k (x e)) nv U) (forJacOp disc par true op nv s)
          (stepEnv (vecLoad par vecs mem k (x e)) nv e) (stepEnv (vecLoad par vecs mem' k (x e')) nv e') mem mem' (by omega) (addRes_ne hnv h0)
          (by have h := U_insert (vecLoad par vecs mem k (x e)) hU; rw [hn'] at h; exact h) (by have h := hw.2; rw [hn'] at h; exact h) hc2 ?_
          (fun k' hk => by
            have h := (hm k' (by rw [l2] at hk; exact hk)).step (vecLoad par vecs mem k (x e)) (vecLoad par vecs mem' k (x e')) (hn'.trans hn''.symm)
            rw [hn'] at h; exact h)
        · rw [usable, evalOps, evalOps, hn', hn'']
          exact this
        · intro v hv hA
          rw [hU'] at hv
          rcases hv with hv | hv
          · have hv : v = nv := ROp.addRes_load hld hv
            subst hv
            have hk : j ∉ s.2 k := fun h => hA (l3 h)
            have hxe : x e = x e' := hx e e' fun a ha => by
              have hu := hc.1 a (List.mem_append_left _ ha)
              exact he a hu fun h => hA (l4 rfl a ha (by have := hU a hu; omega) h)
            obtain ⟨s1, s2⟩ := load_same (par := par) (vecs := vecs) (x := x e) (hm k hk)
            rw [← hxe, ← s1]
            have r2 : 0 < (vecLoad par vecs mem k (x e)).nres := by rw [hn']; omega
            have q1 := stepEnv_res (op := vecLoad par vecs mem k (x e)) (nv := v) e r2
            have q2 := stepEnv_res (op := vecLoad par vecs mem k (x e)) (nv := v) e' r2
            rw [Nat.add_zero] at q1 q2
            rw [q1, q2]
            exact val_dep _ fun a ha => s2 a (depSet_sub _ _ a ha)
          · rw [stepEnv_lt _ (hU v hv), stepEnv_lt _ (hU v hv)]
            exact he v hv fun h => hA (by rw [l1 v (by have := hU v hv; omega)]; exact h)

/-- **C15**, dependency patterns with VecAD: the elements accessed at `x` and `x'` may be different -/
theorem vec_for_jac_sparsity_dependency {f : Fun} (hf : FunOk disc f) (ell : ℕ) (pat : Pattern) (transpose : Bool)
    (i j : ℕ) (hi : i < f.dep.length) (hj : j < ell) (x x' : List ℝ)
    (hx : ∀ k < f.n, at' x k ≠ at' x' k → Has transpose pat k j)
    (hne : (f.tape disc x).eval (at' x) i ≠ (f.tape disc x').eval (at' x') i) :
    Has transpose (forJacSparsity disc f ell pat transpose true).1 i j := by
  by_contra hno
  unfold forJacSparsity at hno
  dsimp only at hno
  rw [has_getInternalPattern] at hno
  set s0 := setInternalPattern transpose (fun j => j + 1) (fun _ => ∅) pat with hs0
  have hno : j ∉ (forJac disc f.par true f.ops (f.n + 1) (s0, fun _ => ∅)).1 (f.dep.getD i 0) := fun h => hno ⟨hi, hj, h⟩
  refine hne (forJac_dep j f.ops (f.n + 1) (indSet f.n) (s0, fun _ => ∅) (indEnv (at' x)) (indEnv (at' x')) (initMem f.vecs) (initMem f.vecs)
    (by omega) (ind_ne (T := f.tape disc x)) (ind_lt (T := f.tape disc x)) (hf.tape x).ops hf.cmp ?_ ?_ _ (dep_usable (hf.tape x) hi) hno)
  · intro v hv hA
    have hA : j ∉ s0 v := hA
    rw [hs0, mem_setInternalPattern] at hA
    have hv1 := hv.1
    have hv2 : v ≤ f.n := hv.2
    unfold indEnv
    rw [if_neg (by omega), if_neg (by omega)]
    by_contra hr
    exact hA ⟨by omega, v - 1, by omega, hx _ (by omega) hr⟩
  · intro k _ l
    exact ⟨rfl, by intro v h; simp [initMem] at h⟩

/-! ## reverse -/

theorem revJacOp_some {op : ROp} {o : Op} (h : op.toOp disc par = some o) (dep : Bool) (iz : ℕ) (s : VS) :
    revJacOp disc par dep op iz s = (Sparsity.revJacOp dep o iz s.1, s.2) := by
  cases op <;> first | (simp [ROp.toOp] at h; done) | (unfold revJacOp; simp only [h])

theorem bu_sub (s : Sp) (t r v : ℕ) (o : Sp) : s v ⊆ s.binaryUnion t t r o v := by
  rw [bu_apply]; split_ifs with h
  · rw [h]; exact Finset.subset_union_left
  · exact subset_rfl

theorem bu_ne {s : Sp} {t r v : ℕ} {o : Sp} (h : v ≠ t) : s.binaryUnion t t r o v = s v := by
  rw [bu_apply, if_neg h]

theorem bu_self {s : Sp} {t r : ℕ} {o : Sp} : o r ⊆ s.binaryUnion t t r o t := by
  rw [bu_apply, if_pos rfl]; exact Finset.subset_union_right

theorem vecArgs_cmp {op : ROp} (h : op.quiet = true) : op.vecArgs = [] := by
  cases op <;> first | rfl | simp [ROp.quiet, ROp.isCmp] at h

/-- comparisons and stores -/
theorem revJacOp_zero {op : ROp} (h : op.nres = 0) (dep : Bool) (iz : ℕ) (s : VS) :
    (revJacOp disc par dep op iz s).2 = s.2 ∧ (∀ v, s.1 v ⊆ (revJacOp disc par dep op iz s).1 v) ∧
    (∀ v, v ∉ op.cmpVars ++ op.cellVars → (revJacOp disc par dep op iz s).1 v = s.1 v) ∧
    (∀ v ∈ op.cellVars, ∀ k ∈ op.vecArgs, s.2 k ⊆ (revJacOp disc par dep op iz s).1 v) ∧
    (dep = true → ∀ v ∈ op.cmpVars, ∀ k ∈ op.vecArgs, s.2 k ⊆ (revJacOp disc par dep op iz s).1 v) := by
  rcases rop_cases disc par op with ⟨o, ho⟩ | hc | ⟨k, p, rfl⟩ | ⟨k, v, rfl⟩ | ⟨k, p, q, rfl⟩ | ⟨k, p, w, rfl⟩ | ⟨k, x, q, rfl⟩ | ⟨k, x, w, rfl⟩ | ⟨A, xs, ys, rfl, hz, ht⟩
  · exact absurd h (ROp.nres_some (ROp.toOpM_of_toOp (vecs := []) (e := fun _ => 0) (mem := initMem []) ho)).1
  · have : revJacOp disc par dep op iz s = s := by cases op <;> first | rfl | simp [ROp.quiet, ROp.isCmp] at hc
    rw [this, vecArgs_cmp hc]
    exact ⟨rfl, fun _ _ h => h, fun _ _ => rfl, by simp, by simp⟩
  · simp [ROp.nres] at h
  · simp [ROp.nres] at h
  · exact ⟨rfl, fun _ _ h => h, fun _ _ => rfl, by simp [ROp.cellVars], by simp [ROp.cmpVars]⟩
  · refine ⟨rfl, fun v => bu_sub _ _ _ _ _, fun v hv => bu_ne (by simpa [ROp.cmpVars, ROp.cellVars] using hv), ?_, by simp [ROp.cmpVars]⟩
    simp only [ROp.cellVars, ROp.vecArgs, List.mem_singleton]
    rintro _ rfl _ rfl
    exact bu_self
  · cases dep
    · exact ⟨rfl, fun _ _ h => h, fun _ _ => rfl, by simp [ROp.cellVars], by simp⟩
    · refine ⟨rfl, fun v => bu_sub _ _ _ _ _, fun v hv => bu_ne (by simpa [ROp.cmpVars, ROp.cellVars] using hv), by simp [ROp.cellVars], ?_⟩
      simp only [ROp.cmpVars, ROp.vecArgs, List.mem_singleton]
      rintro - _ rfl _ rfl
      exact bu_self
  · cases dep
    · refine ⟨rfl, fun v => bu_sub _ _ _ _ _, fun v hv => bu_ne fun h => hv (by simp [ROp.cmpVars, ROp.cellVars, h]), ?_, by simp⟩
      simp only [ROp.cellVars, ROp.vecArgs, List.mem_singleton]
      rintro _ rfl _ rfl
      exact bu_self
    · refine ⟨rfl, fun v => subset_trans (bu_sub _ _ _ _ _) (bu_sub (Sp.binaryUnion s.1 x x k s.2) _ _ _ _), fun v hv => ?_, ?_, ?_⟩
      · show Sp.binaryUnion (Sp.binaryUnion s.1 x x k s.2) w w k s.2 v = s.1 v
        rw [bu_ne fun h => hv (by simp [ROp.cmpVars, ROp.cellVars, h]), bu_ne fun h => hv (by simp [ROp.cmpVars, ROp.cellVars, h])]
      · simp only [ROp.cellVars, ROp.vecArgs, List.mem_singleton]
        rintro _ rfl _ rfl
        exact bu_self (s := Sp.binaryUnion s.1 x x _ s.2)
      · simp only [ROp.cmpVars, ROp.vecArgs, List.mem_singleton]
        rintro - _ rfl _ rfl
        exact subset_trans (bu_self (s := s.1)) (bu_sub (Sp.binaryUnion s.1 _ _ _ s.2) _ _ _ _)
  · have : revJacOp disc par dep (.atom A xs ys) iz s = s := by unfold revJacOp; dsimp only; rw [ht]
    rw [this]
    exact ⟨rfl, fun _ _ h => h, fun _ _ => rfl, by simp [ROp.vecArgs], by simp [ROp.vecArgs]⟩

theorem revJacOp_load {op : ROp} {k : ℕ} (h : (∃ p, op = .ldp k p) ∨ ∃ v, op = .ldv k v) (dep : Bool) (iz : ℕ) (s : VS) :
    (∀ v, s.1 v ⊆ (revJacOp disc par dep op iz s).1 v) ∧ (∀ j, s.2 j ⊆ (revJacOp disc par dep op iz s).2 j) ∧
    (∀ v, v ∉ op.cmpVars → (revJacOp disc par dep op iz s).1 v = s.1 v) ∧
    s.1 iz ⊆ (revJacOp disc par dep op iz s).2 k ∧
    (dep = true → ∀ v ∈ op.cmpVars, s.1 iz ⊆ (revJacOp disc par dep op iz s).1 v) := by
  rcases h with ⟨p, rfl⟩ | ⟨x, rfl⟩
  · exact ⟨fun _ _ h => h, fun _ => bu_sub _ _ _ _ _, fun _ _ => rfl, bu_self, by simp [ROp.cmpVars]⟩
  · cases dep
    · exact ⟨fun _ _ h => h, fun _ => bu_sub _ _ _ _ _, fun _ _ => rfl, bu_self, by simp⟩
    · refine ⟨fun _ => bu_sub _ _ _ _ _, fun _ => bu_sub _ _ _ _ _, fun v hv => bu_ne (by simpa [ROp.cmpVars] using hv), bu_self, ?_⟩
      simp only [ROp.cmpVars, List.mem_singleton]
      rintro - _ rfl
      exact bu_self

/-- The final sets of a reverse sweep are closed for the operations executed at every point.  For a load of an element
that was stored before these operations, the set of the vector is the one that is closed. -/
theorem revJac_closed (dep : Bool) (s : VS) : ∀ (ops : List ROp) (nv : ℕ) (U : Set ℕ) (e : ℕ → ℝ) (mem : Mem), 0 < nv → (∀ a ∈ U, a ≠ 0) →
    (∀ a ∈ U, a < nv) → WFOps (resolve disc par vecs ops nv e mem).1 nv U → CmpWF ops nv U →
    (∀ v, s.1 v ⊆ (revJac disc par dep ops nv s).1 v) ∧
    AllOps (fun op r iz => ∀ a ∈ depS dep op r, (revJac disc par dep ops nv s).1 iz ⊆ (revJac disc par dep ops nv s).1 a ∨
      ∃ k i, mem k i = .var a ∧ (revJac disc par dep ops nv s).1 iz ⊆ (revJac disc par dep ops nv s).2 k)
      (resolve disc par vecs ops nv e mem).1 nv := by
  intro ops
  induction ops with
  | nil => intro nv U e mem _ _ _ _ _; exact ⟨fun _ _ h => h, trivial⟩
  | cons op ops ih =>
    intro nv U e mem hnv h0 hU hw hc
    rw [CmpWF] at hc
    by_cases hz : op.nres = 0
    · rw [if_pos hz] at hc
      rw [resolve_none hz] at hw ⊢
      have e1 : revJac disc par dep (op :: ops) nv s = revJacOp disc par dep op (nv + op.nres - 1) (revJac disc par dep ops nv s) := by
        rw [revJac, hz, Nat.add_zero]
      rw [e1]
      obtain ⟨i1, i2⟩ := ih nv U e (op.memM par vecs e mem) hnv h0 hU hw hc.2
      obtain ⟨z1, z2, z3, z4, -⟩ := revJacOp_zero (disc := disc) (par := par) hz dep (nv + op.nres - 1) (revJac disc par dep ops nv s)
      refine ⟨fun v => subset_trans (i1 v) (z2 v), ?_⟩
      refine AllOps.mono _ _ (fun o r iz hiz _ _ h a ha => ?_) i2
      rw [z1, z3 iz (fun h => by have := hU iz (hc.1 iz h); omega)]
      rcases h a ha with h | ⟨k, i, hk, h⟩
      · exact Or.inl (subset_trans h (z2 a))
      · rcases store_cell hk with hk | ⟨hk, hk'⟩
        · exact Or.inr ⟨k, i, hk, h⟩
        · exact Or.inl (subset_trans h (z4 a hk k hk'))
    · rw [if_neg hz] at hc
      rcases rop_res (disc := disc) (par := par) hz with ⟨o, ho⟩ | ⟨k, x, hl, -, hn, hld, -⟩
      · have hM := ROp.toOpM_of_toOp (vecs := vecs) (e := e) (mem := mem) ho
        have hn := (ROp.nres_some hM).2
        rw [resolve_some hM] at hw ⊢
        have hU' := ROp.addRes_eq hM nv U
        rw [← hn, ← hU'] at hc
        have hlt : ∀ a ∈ o.args, a < nv := fun a h => hU a (hw.1 a h)
        have e1 : revJac disc par dep (op :: ops) nv s =
            (Sparsity.revJacOp dep o (nv + o.nres - 1) (revJac disc par dep ops (nv + o.nres) s).1, (revJac disc par dep ops (nv + o.nres) s).2) := by
          rw [revJac, revJacOp_some ho, hn]
        rw [e1]
        obtain ⟨i1, i2⟩ := ih (nv + o.nres) _ (stepEnv o nv e) mem (by omega) (addRes_ne hnv h0) (U_insert o hU) hw.2 hc.2
        obtain ⟨h1, h2, h3⟩ := Sparsity.revJacOp_spec dep o nv hnv (revJac disc par dep ops (nv + o.nres) s).1 hlt (fun a h => h0 a (hw.1 a h))
        refine ⟨fun v => subset_trans (i1 v) (h1 v), fun r r1 r2 a ha => ?_, ?_⟩
        · left
          show Sparsity.revJacOp dep o _ _ _ ⊆ Sparsity.revJacOp dep o _ _ _
          rw [h2 (nv + r) (fun h => by have := hlt _ h; omega)]
          exact h3 r r1 r2 a ha
        · refine AllOps.mono _ _ (fun o' r iz hiz _ _ h a ha => ?_) i2
          dsimp only
          rw [h2 iz (fun h => by have := hlt _ h; omega)]
          rcases h a ha with h | h
          · exact Or.inl (subset_trans h (h1 a))
          · exact Or.inr h
      · have hM := hl vecs e mem
        have hn' := vecLoad_nres (par := par) (vecs := vecs) (mem := mem) k (x e)
        rw [resolve_some hM] at hw ⊢
        have hU' := ROp.addRes_eq hM nv U
        rw [hn.trans hn'.symm, ← hU'] at hc
        have e1 : revJac disc par dep (op :: ops) nv s = revJacOp disc par dep op nv (revJac disc par dep ops (nv + (vecLoad par vecs mem k (x e)).nres) s) := by
          rw [revJac, hn, hn']; rfl
        rw [e1]
        have hlt : ∀ v, nv ≤ v → v ∉ op.cmpVars := fun v hv h => by have := hU v (hc.1 v (List.mem_append_left _ h)); omega
        obtain ⟨i1, i2⟩ := ih (nv + (vecLoad par vecs mem k (x e)).nres) _ (stepEnv (vecLoad par vecs mem k (x e)) nv e) mem (by omega) (addRes_ne hnv h0)
          (U_insert _ hU) hw.2 hc.2
        obtain ⟨l1, l2, l3, l4, -⟩ := revJacOp_load (disc := disc) (par := par) hld dep nv (revJac disc par dep ops (nv + (vecLoad par vecs mem k (x e)).nres) s)
        refine ⟨fun v => subset_trans (i1 v) (l1 v), fun r r1 r2 a ha => ?_, ?_⟩
        · rw [hn'] at r2
          have hr : r = 0 := by omega
          subst hr
          obtain ⟨i, hi⟩ := vecLoad_args (depS_sub dep _ _ a ha)
          right
          exact ⟨k, i, hi, by rw [l3 _ (hlt _ (by omega))]; exact l4⟩
        · refine AllOps.mono _ _ (fun o' r iz hiz _ _ h a ha => ?_) i2
          rw [l3 iz (hlt iz (by omega))]
          rcases h a ha with h | ⟨j, i, hj, h⟩
          · exact Or.inl (subset_trans h (l1 a))
          · exact Or.inr ⟨j, i, hj, subset_trans h (l2 j)⟩

theorem has_flip (transpose : Bool) (p : Pattern) (i j : ℕ) : Has transpose p i j ↔ Has (!transpose) p j i := by
  unfold Has
  cases transpose
  · constructor <;> (rintro ⟨k, hk, h⟩; exact ⟨k, hk, h⟩)
  · constructor <;> (rintro ⟨k, hk, h⟩; exact ⟨k, hk, h⟩)

theorem dep_ne {T : Tape} (hT : T.WF) {k : ℕ} (hk : k < T.dep.length) : T.dep.getD k 0 ≠ 0 := by
  have h1 := dep_usable hT hk
  have : ∀ (ops : List Op) (nv : ℕ) (U : Set ℕ), 0 < nv → 0 ∉ U → 0 ∉ usable ops nv U := by
    intro ops
    induction ops with
    | nil => intro nv U _ h; exact h
    | cons op ops ih =>
      intro nv U h0 h
      have := op.nres_pos
      refine ih _ _ (by omega) ?_
      rintro (h' | h')
      · have := h'.1; omega
      · exact h h'
  intro h0
  rw [h0] at h1
  exact this _ _ _ (by omega) (fun h => by have := h.1; omega) h1

/-- **C16** with VecAD: the pattern computed by `rev_jac_sparsity` contains every entry of `R F'(z)` that is not zero. -/
theorem vec_rev_jac_sparsity_ok {f : Fun} (hf : FunOk disc f) (ell : ℕ) (pat : Pattern) (transpose dependency : Bool)
    (i j : ℕ) (hi : i < ell) (hj : j < f.n) (w : List ℝ) (hR : ∀ k < f.dep.length, at' w k ≠ 0 → Has transpose pat i k)
    (z : List ℝ) (hD : (f.tape disc z).Dom (at' z)) (v : ℝ)
    (hv : IsPartial (wsum (f.tape disc z) w) (at' z) j v) (hne : v ≠ 0) :
    Has transpose (revJacSparsity disc f ell pat transpose dependency) i j := by
  by_contra hno
  rw [has_flip] at hno
  unfold revJacSparsity at hno
  dsimp only at hno
  rw [has_getInternalPattern] at hno
  set s0 := setInternalPattern (!transpose) (fun i => f.dep.getD i 0) (fun _ => ∅) pat with hs0
  set S := (revJac disc f.par dependency f.ops (f.n + 1) (s0, fun _ => ∅)).1 with hS
  have hno : i ∉ S (j + 1) := fun h => hno ⟨hj, hi, h⟩
  have hT := hf.tape z
  obtain ⟨c1, c2⟩ := revJac_closed (disc := disc) (par := f.par) (vecs := f.vecs) dependency (s0, fun _ => ∅) f.ops (f.n + 1) (indSet f.n) (indEnv (at' z)) (initMem f.vecs)
    (by omega) (ind_ne (T := f.tape disc z)) (ind_lt (T := f.tape disc z)) hT.ops hf.cmp
  refine hne (hv.unique ?_)
  simp only [upd_un]
  refine wsum_zero w fun k hk hw => ?_
  refine closed_deriv {v | i ∈ S v} (f.tape disc z).ops (f.n + 1) (f.tape disc z).ind
    (fun t => indEnv (fun k => at' z k + t * un j k)) (indEnv (un j)) ind_lt hT.ops (fun v _ => indEnv_line (at' z) (un j) v) ?_ ?_ ?_
    _ (dep_usable hT hk) ?_
  · show domOps _ _ (indEnv fun k => at' z k + 0 * un j k)
    rw [indEnv_zero (at' z) (un j)]; exact hD
  · refine AllOps.mono _ _ (fun op r iz _ _ hr h hz a ha => ?_) c2
    rcases h a (jac_sub_depS dependency op hr a ha) with h | ⟨k, i, h, -⟩
    · exact h hz
    · simp [initMem] at h
  · intro v hv hA
    have hv1 := hv.1
    unfold indEnv un
    rw [if_neg (by omega)]
    by_cases hvj : v - 1 = j
    · exfalso
      have : v = j + 1 := by omega
      subst this
      exact hno hA
    · simp [hvj]
  · refine c1 _ ?_
    show i ∈ s0 _
    rw [hs0, mem_setInternalPattern]
    exact ⟨dep_ne hT hk, k, rfl, (has_flip _ _ _ _).1 (hR k hk hw)⟩

theorem revJac_dep (i : ℕ) (s : VS) : ∀ (ops : List ROp) (nv : ℕ) (U : Set ℕ) (e e' : ℕ → ℝ) (mem mem' : Mem), 0 < nv → (∀ a ∈ U, a ≠ 0) →
    (∀ a ∈ U, a < nv) → WFOps (resolve disc par vecs ops nv e mem).1 nv U → CmpWF ops nv U →
    (∀ v ∈ U, i ∈ (revJac disc par true ops nv s).1 v → e v = e' v) →
    (∀ k, i ∈ (revJac disc par true ops nv s).2 k → SameVec nv e e' (mem k) (mem' k)) →
    ∀ v ∈ usable (resolve disc par vecs ops nv e mem).1 nv U, i ∈ s.1 v →
      evalOps (resolve disc par vecs ops nv e mem).1 nv e v = evalOps (resolve disc par vecs ops nv e' mem').1 nv e' v := by
  intro ops
  induction ops with
  | nil => intro nv U e e' mem mem' _ _ _ _ _ h _; exact h
  | cons op ops ih =>
    intro nv U e e' mem mem' hnv h0 hU hw hc he hm
    rw [CmpWF] at hc
    by_cases hz : op.nres = 0
    · rw [if_pos hz] at hc
      rw [resolve_none hz] at hw ⊢
      rw [resolve_none hz]
      have e1 : revJac disc par true (op :: ops) nv s = revJacOp disc par true op (nv + op.nres - 1) (revJac disc par true ops nv s) := by
        rw [revJac, hz, Nat.add_zero]
      rw [e1] at he hm
      obtain ⟨z1, z2, z3, z4, z5⟩ := revJacOp_zero (disc := disc) (par := par) hz true (nv + op.nres - 1) (revJac disc par true ops nv s)
      refine ih nv U e e' _ _ hnv h0 hU hw hc.2 (fun v hv h => he v hv (z2 v h)) ?_
      intro k hk
      refine store_same (hm k (by rw [z1]; exact hk)) ?_ ?_
      · intro hv a ha
        exact he a (hc.1 a (List.mem_append_left _ ha)) (z5 rfl a ha k hv hk)
      · intro hv a ha
        have hu := hc.1 a (List.mem_append_right _ ha)
        exact ⟨hU a hu, he a hu (z4 a ha k hv hk)⟩
    · rw [if_neg hz] at hc
      rcases rop_res (disc := disc) (par := par) hz with ⟨o, ho⟩ | ⟨k, x, hl, -, hn, hld, hx⟩
      · have hM := ROp.toOpM_of_toOp (vecs := vecs) (e := e) (mem := mem) ho
        have hM' := ROp.toOpM_of_toOp (vecs := vecs) (e := e') (mem := mem') ho
        have hn := (ROp.nres_some hM).2
        rw [resolve_some hM] at hw ⊢
        rw [resolve_some hM']
        have hlt : ∀ a ∈ o.args, a < nv := fun a h => hU a (hw.1 a h)
        have hU' := ROp.addRes_eq hM nv U
        rw [← hn, ← hU'] at hc
        have e1 : revJac disc par true (op :: ops) nv s =
            (Sparsity.revJacOp true o (nv + o.nres - 1) (revJac disc par true ops (nv + o.nres) s).1, (revJac disc par true ops (nv + o.nres) s).2) := by
          rw [revJac, revJacOp_some ho, hn]
        rw [e1] at he hm
        obtain ⟨h1, h2, h3⟩ := Sparsity.revJacOp_spec true o nv hnv (revJac disc par true ops (nv + o.nres) s).1 hlt (fun a h => h0 a (hw.1 a h))
        refine ih (nv + o.nres) (addRes o nv U) (stepEnv o nv e) (stepEnv o nv e') mem mem' (by omega) (addRes_ne hnv h0) (U_insert o hU) hw.2 hc.2 ?_
          (fun k hk => (hm k hk).step o o rfl)
        rintro v (hv | hv) hA
        · obtain ⟨r, r1, r2, rfl⟩ := res_idx hv
          rw [stepEnv_res _ r2, stepEnv_res _ r2]
          exact val_dep o fun a ha => he a (hw.1 a (depSet_sub o r a ha)) (h3 r r1 r2 a ha hA)
        · rw [stepEnv_lt _ (hU v hv), stepEnv_lt _ (hU v hv)]
          exact he v hv (h1 v hA)
      · have hM := hl vecs e mem
        have hM' := hl vecs e' mem'
        have hn' := vecLoad_nres (par := par) (vecs := vecs) (mem := mem) k (x e)
        have hn'' := vecLoad_nres (par := par) (vecs := vecs) (mem := mem') k (x e')
        rw [resolve_some hM] at hw ⊢
        rw [resolve_some hM']
        have hU' := ROp.addRes_eq hM nv U
        rw [hn] at hc
        have hc2 := hc.2
        rw [← hU'] at hc2
        have e1 : revJac disc par true (op :: ops) nv s = revJacOp disc par true op nv (revJac disc par true ops (nv + 1) s) := by
          rw [revJac, hn]; rfl
        rw [e1] at he hm
        obtain ⟨l1, l2, l3, l4, l5⟩ := revJacOp_load (disc := disc) (par := par) hld true nv (revJac disc par true ops (nv + 1) s)
        have := ih (nv + 1) (addRes (vecLoad par vecs mem k (x e)) nv U)
          (stepEnv (vecLoad par vecs mem k (x e)) nv e) (stepEnv (vecLoad par vecs mem' k (x e')) nv e') mem mem' (by omega) (addRes_ne hnv h0)
          (by have h := U_insert (vecLoad par vecs mem k (x e)) hU; rw [hn'] at h; exact h) (by have h := hw.2; rw [hn'] at h; exact h) hc2 ?_
          (fun k' hk => by
            have h := (hm k' (l2 k' hk)).step (vecLoad par vecs mem k (x e)) (vecLoad par vecs mem' k (x e')) (hn'.trans hn''.symm)
            rw [hn'] at h; exact h)
        · rw [usable, evalOps, evalOps, hn', hn'']
          exact this
        · intro v hv hA
          rw [hU'] at hv
          rcases hv with hv | hv
          · have hv : v = nv := ROp.addRes_load hld hv
            subst hv
            have hxe : x e = x e' := hx e e' fun a ha => he a (hc.1 a (List.mem_append_left _ ha)) (l5 rfl a ha hA)
            obtain ⟨s1, s2⟩ := load_same (par := par) (vecs := vecs) (x := x e) (hm k (l4 hA))
            rw [← hxe, ← s1]
            have r2 : 0 < (vecLoad par vecs mem k (x e)).nres := by rw [hn']; omega
            have q1 := stepEnv_res (op := vecLoad par vecs mem k (x e)) (nv := v) e r2
            have q2 := stepEnv_res (op := vecLoad par vecs mem k (x e)) (nv := v) e' r2
            rw [Nat.add_zero] at q1 q2
            rw [q1, q2]
            exact val_dep _ fun a ha => s2 a (depSet_sub _ _ a ha)
          · rw [stepEnv_lt _ (hU v hv), stepEnv_lt _ (hU v hv)]
            exact he v hv (l1 v hA)

/-- **C16**, dependency patterns with VecAD: the elements accessed at `x` and `x'` may be different -/
theorem vec_rev_jac_sparsity_dependency {f : Fun} (hf : FunOk disc f) (ell : ℕ) (pat : Pattern) (transpose : Bool)
    (i j k : ℕ) (hi : i < ell) (hj : j < f.n) (hk : k < f.dep.length) (hR : Has transpose pat i k) (x x' : List ℝ)
    (hx : ∀ l < f.n, l ≠ j → at' x l = at' x' l)
    (hne : (f.tape disc x).eval (at' x) k ≠ (f.tape disc x').eval (at' x') k) :
    Has transpose (revJacSparsity disc f ell pat transpose true) i j := by
  by_contra hno
  rw [has_flip] at hno
  unfold revJacSparsity at hno
  dsimp only at hno
  rw [has_getInternalPattern] at hno
  set s0 := setInternalPattern (!transpose) (fun i => f.dep.getD i 0) (fun _ => ∅) pat with hs0
  have hno : i ∉ (revJac disc f.par true f.ops (f.n + 1) (s0, fun _ => ∅)).1 (j + 1) := fun h => hno ⟨hj, hi, h⟩
  refine hne (revJac_dep i (s0, fun _ => ∅) f.ops (f.n + 1) (indSet f.n) (indEnv (at' x)) (indEnv (at' x')) (initMem f.vecs) (initMem f.vecs)
    (by omega) (ind_ne (T := f.tape disc x)) (ind_lt (T := f.tape disc x)) (hf.tape x).ops hf.cmp ?_ ?_ _ (dep_usable (hf.tape x) hk) ?_)
  · intro v hv hA
    have hv1 := hv.1
    have hv2 : v ≤ f.n := hv.2
    unfold indEnv
    rw [if_neg (by omega), if_neg (by omega)]
    refine hx _ (by omega) fun h => hno ?_
    have : j + 1 = v := by omega
    rw [this]; exact hA
  · intro k _ l
    exact ⟨rfl, by intro v h; simp [initMem] at h⟩
  · show i ∈ s0 _
    rw [hs0, mem_setInternalPattern]
    exact ⟨dep_ne (hf.tape x) hk, k, rfl, (has_flip _ _ _ _).1 hR⟩

end CppAD.Sparsity.Vec
