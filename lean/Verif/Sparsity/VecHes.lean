import Verif.Sparsity.VecJac
import Verif.Record.Thm2

/-! # Hessian sparsity patterns are conservative when the recording contains VecAD operators; sessions; an example -/

open scoped ContDiff Topology

namespace CppAD.Sparsity.Vec

open CppAD.Record

variable {disc : ℕ → ℝ → ℝ} {par e e' : ℕ → ℝ} {vecs : List (List ℕ)} {mem mem' : Mem}

/-! ## reverse -/

theorem revHesOp_some {op : ROp} {o : Op} (h : op.toOp disc par = some o) (J : Sp) (iz : ℕ) (s : VRH) :
    revHesOp disc par J op iz s =
      { s with jac := (Sparsity.revHesOp J o iz (s.jac, s.hes)).1, hes := (Sparsity.revHesOp J o iz (s.jac, s.hes)).2 } := by
  cases op <;> first | (simp [ROp.toOp] at h; done) | (unfold revHesOp; simp only [h])

theorem revHesOp_zero {op : ROp} (h : op.nres = 0) (J : Sp) (iz : ℕ) (s : VRH) :
    (revHesOp disc par J op iz s).vjac = s.vjac ∧ (revHesOp disc par J op iz s).vhes = s.vhes ∧
    (∀ v, s.jac v = true → (revHesOp disc par J op iz s).jac v = true) ∧ (∀ v, s.hes v ⊆ (revHesOp disc par J op iz s).hes v) ∧
    (∀ v, v ∉ op.cellVars → (revHesOp disc par J op iz s).jac v = s.jac v ∧ (revHesOp disc par J op iz s).hes v = s.hes v) ∧
    (∀ v ∈ op.cellVars, ∀ k ∈ op.vecArgs, (s.vjac k = true → (revHesOp disc par J op iz s).jac v = true) ∧
      s.vhes k ⊆ (revHesOp disc par J op iz s).hes v) := by
  have hst : ∀ (k w : ℕ), let s' : VRH := { s with hes := s.hes.binaryUnion w w k s.vhes, jac := Function.update s.jac w (s.jac w || s.vjac k) }
      (∀ v, s.jac v = true → s'.jac v = true) ∧ (∀ v, s.hes v ⊆ s'.hes v) ∧ (∀ v, v ≠ w → s'.jac v = s.jac v ∧ s'.hes v = s.hes v) ∧
      (s.vjac k = true → s'.jac w = true) ∧ s.vhes k ⊆ s'.hes w := by
    intro k w
    refine ⟨fun v hv => ?_, fun v => bu_sub _ _ _ _ _, fun v hv => ⟨Function.update_of_ne hv _ _, bu_ne hv⟩, fun hk => ?_, bu_self⟩
    · show Function.update s.jac w (s.jac w || s.vjac k) v = true
      by_cases h : v = w
      · subst h; rw [Function.update_self, hv, Bool.true_or]
      · rw [Function.update_of_ne h]; exact hv
    · show Function.update s.jac w (s.jac w || s.vjac k) w = true
      rw [Function.update_self, hk, Bool.or_true]
  rcases rop_cases disc par op with ⟨o, ho⟩ | hc | ⟨k, p, rfl⟩ | ⟨k, v, rfl⟩ | ⟨k, p, q, rfl⟩ | ⟨k, p, w, rfl⟩ | ⟨k, x, q, rfl⟩ | ⟨k, x, w, rfl⟩ | ⟨A, xs, ys, rfl, hz, ht⟩
  · exact absurd h (ROp.nres_some (ROp.toOpM_of_toOp (vecs := []) (e := fun _ => 0) (mem := initMem []) ho)).1
  · have : revHesOp disc par J op iz s = s := by cases op <;> first | rfl | simp [ROp.quiet, ROp.isCmp] at hc
    rw [this, vecArgs_cmp hc]
    exact ⟨rfl, rfl, fun _ h => h, fun _ _ h => h, fun _ _ => ⟨rfl, rfl⟩, by simp⟩
  · simp [ROp.nres] at h
  · simp [ROp.nres] at h
  · exact ⟨rfl, rfl, fun _ h => h, fun _ _ h => h, fun _ _ => ⟨rfl, rfl⟩, by simp [ROp.cellVars]⟩
  · obtain ⟨h1, h2, h3, h4⟩ := hst k w
    refine ⟨rfl, rfl, h1, h2, fun v hv => h3 v (by simpa [ROp.cellVars] using hv), ?_⟩
    simp only [ROp.cellVars, ROp.vecArgs, List.mem_singleton]
    rintro _ rfl _ rfl
    exact h4
  · exact ⟨rfl, rfl, fun _ h => h, fun _ _ h => h, fun _ _ => ⟨rfl, rfl⟩, by simp [ROp.cellVars]⟩
  · obtain ⟨h1, h2, h3, h4⟩ := hst k w
    refine ⟨rfl, rfl, h1, h2, fun v hv => h3 v (by simpa [ROp.cellVars] using hv), ?_⟩
    simp only [ROp.cellVars, ROp.vecArgs, List.mem_singleton]
    rintro _ rfl _ rfl
    exact h4
  · have : revHesOp disc par J (.atom A xs ys) iz s = s := by unfold revHesOp; dsimp only; rw [ht]
    rw [this]
    exact ⟨rfl, rfl, fun _ h => h, fun _ _ h => h, fun _ _ => ⟨rfl, rfl⟩, by simp [ROp.vecArgs]⟩

theorem revHesOp_load {op : ROp} {k : ℕ} (h : (∃ p, op = .ldp k p) ∨ ∃ v, op = .ldv k v) (J : Sp) (iz : ℕ) (s : VRH) :
    (revHesOp disc par J op iz s).jac = s.jac ∧ (revHesOp disc par J op iz s).hes = s.hes ∧
    (∀ j, s.vjac j = true → (revHesOp disc par J op iz s).vjac j = true) ∧ (∀ j, s.vhes j ⊆ (revHesOp disc par J op iz s).vhes j) ∧
    (s.jac iz = true → (revHesOp disc par J op iz s).vjac k = true) ∧ s.hes iz ⊆ (revHesOp disc par J op iz s).vhes k := by
  have hld : let s' : VRH := { s with vhes := s.vhes.binaryUnion k k iz s.hes, vjac := Function.update s.vjac k (s.vjac k || s.jac iz) }
      (∀ j, s.vjac j = true → s'.vjac j = true) ∧ (∀ j, s.vhes j ⊆ s'.vhes j) ∧ (s.jac iz = true → s'.vjac k = true) ∧ s.hes iz ⊆ s'.vhes k := by
    refine ⟨fun v hv => ?_, fun v => bu_sub _ _ _ _ _, fun hk => ?_, bu_self⟩
    · show Function.update s.vjac k (s.vjac k || s.jac iz) v = true
      by_cases h : v = k
      · subst h; rw [Function.update_self, hv, Bool.true_or]
      · rw [Function.update_of_ne h]; exact hv
    · show Function.update s.vjac k (s.vjac k || s.jac iz) k = true
      rw [Function.update_self, hk, Bool.or_true]
  rcases h with ⟨p, rfl⟩ | ⟨x, rfl⟩
  · exact ⟨rfl, rfl, hld⟩
  · exact ⟨rfl, rfl, hld⟩

/-- The final flags and sets of a reverse Hessian sweep are closed for the operations executed at every point. -/
theorem revHes_closed (J : Sp) (s : VRH) : ∀ (ops : List ROp) (nv : ℕ) (U : Set ℕ) (e : ℕ → ℝ) (mem : Mem), 0 < nv → (∀ a ∈ U, a ≠ 0) →
    (∀ a ∈ U, a < nv) → WFOps (resolve disc par vecs ops nv e mem).1 nv U → CmpWF ops nv U →
    (∀ v, s.jac v = true → (revHes disc par J ops nv s).jac v = true) ∧
    AllOps (fun op r iz => (revHes disc par J ops nv s).jac iz = true →
      (∀ a ∈ jacSet op r, ((revHes disc par J ops nv s).jac a = true ∧ (revHes disc par J ops nv s).hes iz ⊆ (revHes disc par J ops nv s).hes a) ∨
        (∃ k i, mem k i = .var a ∧ (revHes disc par J ops nv s).vjac k = true ∧
          (revHes disc par J ops nv s).hes iz ⊆ (revHes disc par J ops nv s).vhes k) ∨ ((∃ c, op = .atom c) ∧ J a = ∅)) ∧
      ∀ q ∈ hesSet op r, J q.2 ⊆ (revHes disc par J ops nv s).hes q.1 ∨ ((∃ c, op = .atom c) ∧ J q.1 = ∅))
      (resolve disc par vecs ops nv e mem).1 nv := by
  intro ops
  induction ops with
  | nil => intro nv U e mem _ _ _ _ _; exact ⟨fun _ h => h, trivial⟩
  | cons op ops ih =>
    intro nv U e mem hnv h0 hU hw hc
    rw [CmpWF] at hc
    by_cases hz : op.nres = 0
    · rw [if_pos hz] at hc
      rw [resolve_none hz] at hw ⊢
      have e1 : revHes disc par J (op :: ops) nv s = revHesOp disc par J op (nv + op.nres - 1) (revHes disc par J ops nv s) := by
        rw [revHes, hz, Nat.add_zero]
      rw [e1]
      obtain ⟨i1, i2⟩ := ih nv U e (op.memM par vecs e mem) hnv h0 hU hw hc.2
      obtain ⟨z1, z2, z3, z4, z5, z6⟩ := revHesOp_zero (disc := disc) (par := par) hz J (nv + op.nres - 1) (revHes disc par J ops nv s)
      refine ⟨fun v h => z3 v (i1 v h), ?_⟩
      refine AllOps.mono _ _ (fun o r iz hiz _ _ h hr => ?_) i2
      have hni : iz ∉ op.cellVars := fun h => by have := hU iz (hc.1 iz (List.mem_append_right _ h)); omega
      rw [(z5 iz hni).1] at hr
      rw [(z5 iz hni).2, z1, z2]
      obtain ⟨ha, hb⟩ := h hr
      refine ⟨fun a ha' => ?_, fun q hq => (hb q hq).imp (fun e => subset_trans e (z4 _)) fun e => e⟩
      rcases ha a ha' with h | ⟨k, i, hk, h⟩ | h
      · exact Or.inl ⟨z3 a h.1, subset_trans h.2 (z4 a)⟩
      · rcases store_cell hk with hk | ⟨hk, hk'⟩
        · exact Or.inr (Or.inl ⟨k, i, hk, h⟩)
        · exact Or.inl ⟨(z6 a hk k hk').1 h.1, subset_trans h.2 (z6 a hk k hk').2⟩
      · exact Or.inr (Or.inr h)
    · rw [if_neg hz] at hc
      rcases rop_res (disc := disc) (par := par) hz with ⟨o, ho⟩ | ⟨k, x, hl, -, hn, hld, -⟩
      · have hM := ROp.toOpM_of_toOp (vecs := vecs) (e := e) (mem := mem) ho
        have hn := (ROp.nres_some hM).2
        rw [resolve_some hM] at hw ⊢
        have hU' := ROp.addRes_eq hM nv U
        rw [← hn, ← hU'] at hc
        have hlt : ∀ a ∈ o.args, a < nv := fun a h => hU a (hw.1 a h)
        have e1 : revHes disc par J (op :: ops) nv s =
            { revHes disc par J ops (nv + o.nres) s with
              jac := (Sparsity.revHesOp J o (nv + o.nres - 1)
                ((revHes disc par J ops (nv + o.nres) s).jac, (revHes disc par J ops (nv + o.nres) s).hes)).1
              hes := (Sparsity.revHesOp J o (nv + o.nres - 1)
                ((revHes disc par J ops (nv + o.nres) s).jac, (revHes disc par J ops (nv + o.nres) s).hes)).2 } := by
          rw [revHes, revHesOp_some ho, ← hn]
        rw [e1]
        obtain ⟨i1, i2⟩ := ih (nv + o.nres) _ (stepEnv o nv e) mem (by omega) (addRes_ne hnv h0) (U_insert o hU) hw.2 hc.2
        generalize revHes disc par J ops (nv + o.nres) s = t at i1 i2 ⊢
        obtain ⟨h1, h2, h3, h4⟩ := revHesOp_spec J o nv (t.jac, t.hes) hlt (fun a h => h0 a (hw.1 a h))
        generalize Sparsity.revHesOp J o (nv + o.nres - 1) (t.jac, t.hes) = t' at h1 h2 h3 h4 ⊢
        dsimp only at h1 h2 h3 h4 ⊢
        have hsame : ∀ iz, nv ≤ iz → t'.1 iz = t.jac iz ∧ t'.2 iz = t.hes iz :=
          fun iz hz => h3 iz (fun h => by have := hlt _ h; omega) (by omega)
        refine ⟨fun v h => h1 v (i1 v h), fun r r1 r2 hr => ?_, ?_⟩
        · rw [(hsame _ (by omega)).1] at hr
          rw [(hsame _ (by omega)).2]
          obtain ⟨b1, b2⟩ := h4 r r1 r2 hr
          exact ⟨fun a ha => (b1 a ha).imp (fun h => h) fun h => Or.inr h, b2⟩
        · refine AllOps.mono _ _ (fun o' r iz hiz _ _ h hr => ?_) i2
          rw [(hsame iz (by omega)).1] at hr
          rw [(hsame iz (by omega)).2]
          obtain ⟨a1, a2⟩ := h hr
          exact ⟨fun a ha => (a1 a ha).imp (fun e => ⟨h1 a e.1, subset_trans e.2 (h2 a)⟩) fun e => e, fun q hq => (a2 q hq).imp (fun e => subset_trans e (h2 _)) fun e => e⟩
      · have hM := hl vecs e mem
        have hn' := vecLoad_nres (par := par) (vecs := vecs) (mem := mem) k (x e)
        rw [resolve_some hM] at hw ⊢
        have hU' := ROp.addRes_eq hM nv U
        rw [hn.trans hn'.symm, ← hU'] at hc
        have e1 : revHes disc par J (op :: ops) nv s = revHesOp disc par J op nv (revHes disc par J ops (nv + (vecLoad par vecs mem k (x e)).nres) s) := by
          rw [revHes, hn, hn']; rfl
        rw [e1]
        obtain ⟨i1, i2⟩ := ih (nv + (vecLoad par vecs mem k (x e)).nres) _ (stepEnv (vecLoad par vecs mem k (x e)) nv e) mem (by omega) (addRes_ne hnv h0)
          (U_insert _ hU) hw.2 hc.2
        obtain ⟨l1, l2, l3, l4, l5, l6⟩ := revHesOp_load (disc := disc) (par := par) hld J nv (revHes disc par J ops (nv + (vecLoad par vecs mem k (x e)).nres) s)
        rw [l1, l2]
        refine ⟨i1, fun r r1 r2 hr => ?_, ?_⟩
        · rw [hn'] at r2
          have hr0 : r = 0 := by omega
          subst hr0
          refine ⟨fun a ha => ?_, by rw [vecLoad_hes]; simp⟩
          obtain ⟨i, hi⟩ := vecLoad_args (jacSet_sub _ _ a ha)
          exact Or.inr (Or.inl ⟨k, i, hi, l5 hr, l6⟩)
        · refine AllOps.mono _ _ (fun o' r iz hiz _ _ h hr => ?_) i2
          obtain ⟨a1, a2⟩ := h hr
          refine ⟨fun a ha => ?_, a2⟩
          rcases a1 a ha with h | ⟨j, i, hj, h, h'⟩ | h
          · exact Or.inl h
          · exact Or.inr (Or.inl ⟨j, i, hj, l3 j h, subset_trans h' (l4 j)⟩)
          · exact Or.inr (Or.inr h)

/-- a recording without calls of atomic functions -/
theorem resolve_noatom : ∀ (ops : List ROp), (∀ op ∈ ops, ∀ A xs ys, op ≠ .atom A xs ys) → ∀ (nv : ℕ) (e : ℕ → ℝ) (mem : Mem),
    ∀ o ∈ (resolve disc par vecs ops nv e mem).1, ∀ c, o ≠ .atom c
  | [], _, _, _, _, _, ho => by simp [resolve] at ho
  | op :: ops, h, nv, e, mem, o, ho => by
    by_cases hz : op.nres = 0
    · rw [resolve_none hz] at ho
      exact resolve_noatom ops (fun o h' => h o (by simp [h'])) _ _ _ o ho
    · obtain ⟨o', h', -⟩ := ROp.toOpM_some (disc := disc) (par := par) (vecs := vecs) (e := e) (mem := mem) hz
      rw [resolve_some h', List.mem_cons] at ho
      rcases ho with rfl | ho
      · intro c hc
        subst hc
        cases op
        case un f ix => cases f <;> simp [ROp.toOpM, ROp.toOp, UnF.op] at h'
        case atom A xs ys => exact h _ (by simp) A xs ys rfl
        case ldp k p => exact vecLoad_noatom _ _ _ (Option.some.inj h')
        case ldv k v => exact vecLoad_noatom _ _ _ (Option.some.inj h')
        all_goals simp [ROp.toOpM, ROp.toOp] at h'
      · exact resolve_noatom ops (fun o h' => h o (by simp [h'])) _ _ _ o ho

/-- The analysis of a reverse Hessian sweep: flags `F` and sets `H` that are closed, Jacobian sets `J` that are closed.  If `full`, then
variables with empty Jacobian set are not propagated. -/
theorem hes_cover {T : Tape} (hT : T.WF) (J H : Sp) (F : ℕ → Bool) (w : List ℝ) (d : ℕ → ℝ) (full : Prop)
    (hind : full → ∀ v ∈ T.ind, J v ≠ ∅)
    (c1 : ∀ k < T.dep.length, at' w k ≠ 0 → F (T.dep.getD k 0) = true)
    (c2 : AllOps (fun op r iz => F iz = true → (∀ a ∈ jacSet op r, (F a = true ∧ H iz ⊆ H a) ∨ (full ∧ J a = ∅)) ∧
      ∀ q ∈ hesSet op r, J q.2 ⊆ H q.1 ∨ (full ∧ J q.1 = ∅)) T.ops (T.n + 1))
    (d2 : AllOps (fun op r iz => ∀ a ∈ jacSet op r, J a ⊆ J iz) T.ops (T.n + 1))
    (j : ℕ) (d1 : ∀ v ∈ T.ind, j ∉ J v → d (v - 1) = 0)
    (x : ℕ → ℝ) (hD : T.Dom x) (i : ℕ) (v : ℝ)
    (hv : IsMixed (wsum T w) x (un i) d v) (hne : v ≠ 0) : j ∈ H (i + 1) := by
  by_contra hno
  refine hne ?_
  clear hne
  have hD0 : domOps T.ops (T.n + 1) ((fun t : ℝ => indEnv fun k => x k + t * un i k) 0) := by
    show domOps _ _ (indEnv fun k => x k + 0 * un i k)
    rw [indEnv_zero x (un i)]; exact hD
  have hD1 : domOps T.ops (T.n + 1) ((fun t : ℝ => indEnv fun k => x k + t * d k) 0) := by
    show domOps _ _ (indEnv fun k => x k + 0 * d k)
    rw [indEnv_zero x d]; exact hD
  have k1 : ∀ u ∈ usable T.ops (T.n + 1) T.ind, (F u = true ∧ j ∈ H u) ∨ (full ∧ J u = ∅) →
      HasDerivAt (fun t => evalOps T.ops (T.n + 1) (indEnv fun k => x k + t * un i k) u) 0 0 := by
    intro u hu h1
    refine closed_deriv {u | (F u = true ∧ j ∈ H u) ∨ (full ∧ J u = ∅)} T.ops (T.n + 1) T.ind
      (fun t => indEnv fun k => x k + t * un i k)
      (indEnv (un i)) ind_lt hT.ops (fun v _ => indEnv_line x (un i) v) hD0 ?_ ?_ u hu h1
    · refine AllOps.mono _ _ (fun op r iz _ _ _ h hz a ha => ?_) (allOps_and _ _ c2 d2)
      obtain ⟨h, h'⟩ := h
      rcases hz with hz | ⟨hf, hz⟩
      · exact ((h hz.1).1 a ha).imp (fun e => ⟨e.1, e.2 hz.2⟩) fun e => e
      · exact Or.inr ⟨hf, Finset.subset_empty.1 (hz ▸ h' a ha)⟩
    · intro v hv hA
      have hv1 := hv.1
      rcases hA with hA | ⟨hf, he⟩
      · unfold indEnv un
        rw [if_neg (by omega)]
        by_cases hvj : v - 1 = i
        · exfalso
          have : v = i + 1 := by omega
          subst this
          exact hno hA.2
        · simp [hvj]
      · exact absurd he (hind hf v hv)
  have k2 : ∀ u ∈ usable T.ops (T.n + 1) T.ind, j ∉ J u →
      HasDerivAt (fun t => evalOps T.ops (T.n + 1) (indEnv fun k => x k + t * d k) u) 0 0 := by
    intro u hu h1
    refine closed_deriv {u | j ∉ J u} T.ops (T.n + 1) T.ind (fun t => indEnv fun k => x k + t * d k)
      (indEnv d) ind_lt hT.ops (fun v _ => indEnv_line x d v) hD1 ?_ ?_ u hu h1
    · exact AllOps.mono _ _ (fun op r iz _ _ hr h hz a ha hm => hz (h a ha hm)) d2
    · intro v hv hA
      have hv1 := hv.1
      unfold indEnv
      rw [if_neg (by omega)]
      exact d1 v hv hA
  refine hes_closed hT hD (un i) d {u | F u = true ∨ (full ∧ J u = ∅)} ?_ w (fun k hk h0 => Or.inl (c1 k hk h0)) v hv
  refine AllOps.mono _ _ (fun op r iz _ _ hr h hz => ?_) (allOps_and _ _ c2 (allOps_and _ _ d2 (allOps_args _ _ _ hT.ops)))
  obtain ⟨h, h', ha⟩ := h
  refine ⟨fun a ha => ?_, fun q hq => ?_⟩
  · rcases hz with hz | ⟨hf, hz⟩
    · exact ((h hz).1 a ha).imp (fun e => e.1) fun e => e
    · exact Or.inr ⟨hf, Finset.subset_empty.1 (hz ▸ h' a ha)⟩
  have hq' := hesSet_sub op hr q hq
  have u1 := ha _ (jacSet_sub op r _ hq'.1)
  have u2 := ha _ (jacSet_sub op r _ hq'.2)
  have l1 := usable_lt T.ops (T.n + 1) T.ind ind_lt _ u1
  have l2 := usable_lt T.ops (T.n + 1) T.ind ind_lt _ u2
  by_cases hjb : j ∈ J q.2
  · have : (F q.1 = true ∧ j ∈ H q.1) ∨ (full ∧ J q.1 = ∅) := by
      rcases hz with hz | ⟨hf, hz⟩
      · rcases (h hz).1 _ hq'.1 with e | e
        · exact ((h hz).2 q hq).imp (fun e' => ⟨e.1, e' hjb⟩) fun e => e
        · exact Or.inr e
      · exact Or.inr ⟨hf, Finset.subset_empty.1 (hz ▸ h' _ hq'.1)⟩
    have := k1 q.1 u1 this
    rw [(two_deriv hT hD (un i) d q.1 l1).1.unique this, zero_mul]
  · have := k2 q.2 u2 hjb
    rw [(two_deriv hT hD (un i) d q.2 l2).2.unique this, mul_zero]

/-- **C17** with VecAD, reverse: `rev_hes_sparsity` after `for_jac_sparsity`.  Partial: it is assumed that components that are the
same variable are either all selected or all not selected (see `rev_hes_sparsity_wrong`), and if there are calls to atomic
functions, that no row of the pattern given to `for_jac_sparsity` is empty (see `rev_hes_sparsity_wrong_atom`). -/
theorem vec_rev_hes_sparsity_ok_partial {f : Fun} (hf : FunOk disc f) (ell : ℕ) (pat : Pattern) (transpose transpose' dependency : Bool)
    (R : ℕ → ℕ → ℝ) (hR : ∀ k < f.n, ∀ j < ell, R k j ≠ 0 → Has transpose pat k j)
    (sel : ℕ → Bool) (w : List ℝ) (hw : ∀ k < f.dep.length, at' w k ≠ 0 → sel k = true)
    (hsel : ∀ k < f.dep.length, ∀ k' < f.dep.length, f.dep.getD k 0 = f.dep.getD k' 0 → sel k = sel k')
    (hatom : (∀ op ∈ f.ops, ∀ A xs ys, op ≠ .atom A xs ys) ∨ ∀ k < f.n, ∃ j, Has transpose pat k j)
    (z : List ℝ) (hD : (f.tape disc z).Dom (at' z)) (i j : ℕ) (hi : i < f.n) (hj : j < ell) (v : ℝ)
    (hv : IsMixed (wsum (f.tape disc z) w) (at' z) (un i) (fun k => R k j) v) (hne : v ≠ 0) :
    Has transpose' (revHesSparsity disc f ell (forJacSparsity disc f ell pat transpose dependency).2 sel transpose') i j := by
  have hT := hf.tape z
  unfold revHesSparsity
  dsimp only
  rw [has_getInternalPattern]
  have hinit : ∀ k < f.dep.length, sel k = true →
      (forRange 0 f.dep.length (fun _ => false) fun i rj => Function.update rj (f.dep.getD i 0) (sel i)) (f.dep.getD k 0) = true := by
    have := forRange_ind (Nat.zero_le f.dep.length) (s := fun _ : ℕ => false)
      (f := fun i rj => Function.update rj (f.dep.getD i 0) (sel i))
      (P := fun q (rj : ℕ → Bool) => q ≤ f.dep.length ∧ ∀ k < q, rj (f.dep.getD k 0) = sel k) ⟨by omega, by intro k hk; omega⟩
      (by
        rintro q rj _ hq ⟨_, ih⟩
        refine ⟨by omega, fun k hk => ?_⟩
        rw [Function.update_apply]
        split_ifs with h
        · exact (hsel k (by omega) q hq h).symm
        · rcases Nat.lt_succ_iff_lt_or_eq.1 hk with h' | rfl
          · exact ih k h'
          · exact absurd rfl h)
    intro k hk hs
    rw [← hs]
    exact this.2 k hk
  obtain ⟨j1, j2⟩ := forJac_closed (par := f.par) (vecs := f.vecs) dependency f.ops (f.n + 1) (indSet f.n)
    (setInternalPattern transpose (fun j => j + 1) (fun _ => ∅) pat, fun _ => ∅) (indEnv (at' z)) (initMem f.vecs)
    (by omega) (ind_ne (T := f.tape disc z)) (ind_lt (T := f.tape disc z)) hT.ops hf.cmp (by intro k i v h; simp [initMem] at h)
  generalize hrj : (forRange 0 f.dep.length (fun _ => false) fun i rj => Function.update rj (f.dep.getD i 0) (sel i)) = rj at hinit ⊢
  obtain ⟨c1, c2⟩ := revHes_closed (disc := disc) (par := f.par) (vecs := f.vecs) (forJacSparsity disc f ell pat transpose dependency).2
    ⟨rj, fun _ => ∅, fun _ => false, fun _ => ∅⟩ f.ops (f.n + 1) (indSet f.n) (indEnv (at' z)) (initMem f.vecs)
    (by omega) (ind_ne (T := f.tape disc z)) (ind_lt (T := f.tape disc z)) hT.ops hf.cmp
  refine ⟨hi, hj, hes_cover hT (forJacSparsity disc f ell pat transpose dependency).2 _ _ w (fun k => R k j)
    (∀ k < f.n, ∃ j, Has transpose pat k j) ?_ (fun k hk h0 => c1 _ (hinit k hk (hw k hk h0))) ?_ ?_ j ?_ (at' z) hD i v hv hne⟩
  · intro hfull v hv he
    have hv1 := hv.1
    have hv2 : v ≤ f.n := hv.2
    obtain ⟨j', hj'⟩ := hfull (v - 1) (by omega)
    have : j' ∈ (forJac disc f.par dependency f.ops (f.n + 1) (setInternalPattern transpose (fun j => j + 1) (fun _ => ∅) pat, fun _ => ∅)).1 v := by
      rw [j1 v (by omega), mem_setInternalPattern]
      exact ⟨by omega, v - 1, by omega, hj'⟩
    have he : (forJac disc f.par dependency f.ops (f.n + 1) (setInternalPattern transpose (fun j => j + 1) (fun _ => ∅) pat, fun _ => ∅)).1 v = ∅ := he
    rw [he] at this
    simp at this
  · have hfull : AllOps (fun op _ _ => (∃ c, op = .atom c) → ∀ k < f.n, ∃ j, Has transpose pat k j) (f.tape disc z).ops ((f.tape disc z).n + 1) := by
      refine allOps_mem _ (fun op ho => ?_) _
      rintro ⟨c, hc⟩
      rcases hatom with h | h
      · exact absurd hc (resolve_noatom f.ops h _ _ _ op ho c)
      · exact h
    refine AllOps.mono _ _ (fun op r iz _ _ hr h hz => ⟨fun a ha => ?_, fun q hq => ?_⟩) (allOps_and _ _ c2 hfull)
    · rcases (h.1 hz).1 a ha with h1 | ⟨k, i, h1, -⟩ | h1
      · exact Or.inl h1
      · simp [initMem] at h1
      · exact Or.inr ⟨h.2 h1.1, h1.2⟩
    · exact ((h.1 hz).2 q hq).imp (fun e => e) fun e => ⟨h.2 e.1, e.2⟩
  · exact AllOps.mono _ _ (fun op r iz _ _ hr h a ha => h a (jac_sub_depS dependency op hr a ha)) j2
  · intro v hv hA
    have hv1 := hv.1
    have hv2 : v ≤ f.n := hv.2
    have hA : j ∉ (forJac disc f.par dependency f.ops (f.n + 1) (setInternalPattern transpose (fun j => j + 1) (fun _ => ∅) pat, fun _ => ∅)).1 v := hA
    rw [j1 v (by omega), mem_setInternalPattern] at hA
    by_contra hr
    exact hA ⟨by omega, v - 1, by omega, hR _ (by omega) j hj hr⟩

/-! ## forward -/

/-- the operators that the forward Hessian sweep handles -/
def ropSupported : ROp → Bool
  | .cexp .. | .zmulpv .. => false
  | _ => true

theorem supported_toOp {op : ROp} {o : Op} (h : op.toOp disc par = some o) (hs : ropSupported op = true) : forHesSupported o = true := by
  cases op
  case un f ix =>
    simp only [ROp.toOp, Option.some.injEq] at h
    subst h
    cases f <;> rfl
  case atom A xs ys =>
    obtain ⟨c, rfl⟩ := atomOp_eq h
    rfl
  all_goals first
    | (simp only [ROp.toOp, Option.some.injEq] at h; subst h; first | rfl | simp [ropSupported] at hs)
    | simp [ROp.toOp] at h

theorem forHesOp_some {op : ROp} {o : Op} (h : op.toOp disc par = some o) (np1 : ℕ) (R : Sp) (iz : ℕ) (s : VS) :
    forHesOp disc par np1 R op iz s = (Sparsity.forHesOp np1 R o iz s.1, s.2) := by
  cases op <;> first | (simp [ROp.toOp] at h; done) | (unfold forHesOp; simp only [h])

theorem forHesOp_zero {op : ROp} (h : op.nres = 0) (np1 : ℕ) (R : Sp) (iz : ℕ) (s : VS) (hb : Bdd np1 s.1) (hb' : Bdd np1 s.2) :
    (forHesOp disc par np1 R op iz s).1 = s.1 ∧ (∀ k, s.2 k ⊆ (forHesOp disc par np1 R op iz s).2 k) ∧ Bdd np1 (forHesOp disc par np1 R op iz s).2 ∧
    ∀ v ∈ op.cellVars, ∀ k ∈ op.vecArgs, s.1 (np1 + v) ⊆ (forHesOp disc par np1 R op iz s).2 k := by
  have hst : ∀ (k w : ℕ), Bdd np1 (s.2.binaryUnion k k (np1 + w) s.1) := by
    intro k w v u hu
    rw [bu_apply] at hu
    split_ifs at hu with hv
    · rcases Finset.mem_union.1 hu with hu | hu
      · exact hb' _ _ hu
      · exact hb _ _ hu
    · exact hb' _ _ hu
  rcases rop_cases disc par op with ⟨o, ho⟩ | hc | ⟨k, p, rfl⟩ | ⟨k, v, rfl⟩ | ⟨k, p, q, rfl⟩ | ⟨k, p, w, rfl⟩ | ⟨k, x, q, rfl⟩ | ⟨k, x, w, rfl⟩ | ⟨A, xs, ys, rfl, hz, ht⟩
  · exact absurd h (ROp.nres_some (ROp.toOpM_of_toOp (vecs := []) (e := fun _ => 0) (mem := initMem []) ho)).1
  · have : forHesOp disc par np1 R op iz s = s := by cases op <;> first | rfl | simp [ROp.quiet, ROp.isCmp] at hc
    rw [this, vecArgs_cmp hc]
    exact ⟨rfl, fun _ _ h => h, hb', by simp⟩
  · simp [ROp.nres] at h
  · simp [ROp.nres] at h
  · exact ⟨rfl, fun _ _ h => h, hb', by simp [ROp.cellVars]⟩
  · refine ⟨rfl, fun _ => bu_sub _ _ _ _ _, hst k w, ?_⟩
    simp only [ROp.cellVars, ROp.vecArgs, List.mem_singleton]
    rintro _ rfl _ rfl
    exact bu_self
  · exact ⟨rfl, fun _ _ h => h, hb', by simp [ROp.cellVars]⟩
  · refine ⟨rfl, fun _ => bu_sub _ _ _ _ _, hst k w, ?_⟩
    simp only [ROp.cellVars, ROp.vecArgs, List.mem_singleton]
    rintro _ rfl _ rfl
    exact bu_self
  · have : forHesOp disc par np1 R (.atom A xs ys) iz s = s := by unfold forHesOp; dsimp only; rw [ht]
    rw [this]
    exact ⟨rfl, fun _ _ h => h, hb', by simp [ROp.vecArgs]⟩

theorem forHesOp_load {op : ROp} {k : ℕ} (h : (∃ p, op = .ldp k p) ∨ ∃ v, op = .ldv k v) (np1 : ℕ) (R : Sp) (iz : ℕ) (s : VS)
    (hb : Bdd np1 s.1) (hb' : Bdd np1 s.2) :
    (∀ v, v ≠ np1 + iz → (forHesOp disc par np1 R op iz s).1 v = s.1 v) ∧ (forHesOp disc par np1 R op iz s).2 = s.2 ∧
    Bdd np1 (forHesOp disc par np1 R op iz s).1 ∧ (0 ∈ R iz → s.2 k ⊆ (forHesOp disc par np1 R op iz s).1 (np1 + iz)) := by
  have e1 : forHesOp disc par np1 R op iz s = if 0 ∈ R iz then (Function.update s.1 (np1 + iz) (s.2 k), s.2) else s := by
    rcases h with ⟨p, rfl⟩ | ⟨x, rfl⟩ <;> rfl
  rw [e1]
  split_ifs with hR
  · refine ⟨fun v hv => Function.update_of_ne hv _ _, rfl, fun v u hu => ?_, fun _ => ?_⟩
    · dsimp only at hu
      rw [Function.update_apply] at hu
      split_ifs at hu
      · exact hb' _ _ hu
      · exact hb _ _ hu
    · dsimp only
      rw [Function.update_self]
  · exact ⟨fun _ _ => rfl, rfl, hb, fun h => absurd h hR⟩

/-- The final sets of a forward Hessian sweep are closed for the operations executed at every point. -/
theorem forHesOps_closed (np1 : ℕ) (R : Sp) : ∀ (ops : List ROp) (nv : ℕ) (U : Set ℕ) (s : VS) (e : ℕ → ℝ) (mem : Mem), 0 < nv → np1 ≤ nv → (∀ a ∈ U, a ≠ 0) →
    (∀ a ∈ U, a < nv) → WFOps (resolve disc par vecs ops nv e mem).1 nv U → CmpWF ops nv U →
    (∀ op ∈ ops, ropSupported op = true) → Bdd np1 s.1 → Bdd np1 s.2 →
    (∀ k i v, mem k i = .var v → (v < nv ∧ v ≠ 0) ∧ s.1 (np1 + v) ⊆ s.2 k) →
    (∀ v < nv, v ≠ 0 → (forHesOps disc par np1 R ops nv s).1 (np1 + v) = s.1 (np1 + v)) ∧
    (∀ u < np1, s.1 u ⊆ (forHesOps disc par np1 R ops nv s).1 u) ∧
    AllOps (fun op r iz => 0 ∈ R iz →
      (∀ a ∈ jacSet op r, (forHesOps disc par np1 R ops nv s).1 (np1 + a) ⊆ (forHesOps disc par np1 R ops nv s).1 (np1 + iz)) ∧
      ∀ q ∈ hesSet op r, ∀ u < np1, u ∈ (forHesOps disc par np1 R ops nv s).1 (np1 + q.1) →
        (forHesOps disc par np1 R ops nv s).1 (np1 + q.2) ⊆ (forHesOps disc par np1 R ops nv s).1 u)
      (resolve disc par vecs ops nv e mem).1 nv := by
  intro ops
  induction ops with
  | nil => intro nv U s e mem _ _ _ _ _ _ _ _ _ _; exact ⟨fun _ _ _ => rfl, fun _ _ => subset_rfl, trivial⟩
  | cons op ops ih =>
    intro nv U s e mem hnv hnp h0 hU hw hc hsup hb hb' hm
    rw [CmpWF] at hc
    have hsup' : ∀ o ∈ ops, ropSupported o = true := fun o ho => hsup o (by simp [ho])
    by_cases hz : op.nres = 0
    · rw [if_pos hz] at hc
      rw [resolve_none hz] at hw ⊢
      obtain ⟨z1, z2, z3, z4⟩ := forHesOp_zero (disc := disc) (par := par) hz np1 R (nv + op.nres - 1) s hb hb'
      have e1 : forHesOps disc par np1 R (op :: ops) nv s = forHesOps disc par np1 R ops nv (forHesOp disc par np1 R op (nv + op.nres - 1) s) := by
        rw [forHesOps, hz, Nat.add_zero]
      rw [e1]
      obtain ⟨i1, i2, i3⟩ := ih nv U (forHesOp disc par np1 R op (nv + op.nres - 1) s) e (op.memM par vecs e mem) hnv hnp h0 hU hw hc.2 hsup'
        (by rw [z1]; exact hb) z3 (by
        intro k i v hv
        rw [z1]
        rcases store_cell hv with h | ⟨h, h'⟩
        · exact ⟨(hm k i v h).1, subset_trans (hm k i v h).2 (z2 k)⟩
        · have hu := hc.1 v (List.mem_append_right _ h)
          exact ⟨⟨hU v hu, h0 v hu⟩, z4 v h k h'⟩)
      rw [z1] at i1 i2
      exact ⟨i1, i2, i3⟩
    · rw [if_neg hz] at hc
      rcases rop_res (disc := disc) (par := par) hz with ⟨o, ho⟩ | ⟨k, x, hl, -, hn, hld, -⟩
      · have hM := ROp.toOpM_of_toOp (vecs := vecs) (e := e) (mem := mem) ho
        have hn := (ROp.nres_some hM).2
        rw [resolve_some hM] at hw ⊢
        have hU' := ROp.addRes_eq hM nv U
        rw [← hn, ← hU'] at hc
        have hlt : ∀ a ∈ o.args, a < nv := fun a h => hU a (hw.1 a h)
        have hne : ∀ a ∈ o.args, a ≠ 0 := fun a h => h0 a (hw.1 a h)
        obtain ⟨b1, b2, b3, b4⟩ := forHesOp_spec np1 R o nv s.1 hlt hne hb (supported_toOp ho (hsup op (by simp)))
        have e1 : forHesOps disc par np1 R (op :: ops) nv s = forHesOps disc par np1 R ops (nv + o.nres) (Sparsity.forHesOp np1 R o (nv + o.nres - 1) s.1, s.2) := by
          rw [forHesOps, forHesOp_some ho, hn]
        rw [e1]
        set s1 := Sparsity.forHesOp np1 R o (nv + o.nres - 1) s.1 with hs1
        obtain ⟨i1, i2, i3⟩ := ih (nv + o.nres) _ (s1, s.2) (stepEnv o nv e) mem (by omega) (by omega) (addRes_ne hnv h0) (U_insert o hU) hw.2 hc.2 hsup' b1 hb' (by
          intro k i v hv
          obtain ⟨⟨a1, a2⟩, a3⟩ := hm k i v hv
          refine ⟨⟨by omega, a2⟩, ?_⟩
          dsimp only
          rw [b2 v a1 a2]; exact a3)
        dsimp only at i1 i2
        refine ⟨fun v hv hv0 => ?_, fun u hu => subset_trans (b3 u hu) (i2 u hu), fun r r1 r2 hR => ?_, i3⟩
        · rw [i1 v (by omega) hv0, b2 v hv hv0]
        · obtain ⟨c2, c4⟩ := b4 r r1 r2 hR
          have stable : ∀ a ∈ o.args, (forHesOps disc par np1 R ops (nv + o.nres) (s1, s.2)).1 (np1 + a) = s.1 (np1 + a) := by
            intro a ha
            have := hlt a ha
            rw [i1 a (by omega) (hne a ha), b2 a this (hne a ha)]
          refine ⟨fun a ha => ?_, fun q hq u hu hmem => ?_⟩
          · rw [stable a (jacSet_sub o r a ha), i1 _ (by omega) (by omega)]
            exact c2 a ha
          · have hq' := hesSet_sub o r2 q hq
            rw [stable _ (jacSet_sub o r _ hq'.1)] at hmem
            rw [stable _ (jacSet_sub o r _ hq'.2)]
            exact subset_trans (c4 q hq u hmem) (i2 u hu)
      · have hM := hl vecs e mem
        have hn' := vecLoad_nres (par := par) (vecs := vecs) (mem := mem) k (x e)
        rw [resolve_some hM] at hw ⊢
        have hU' := ROp.addRes_eq hM nv U
        rw [hn.trans hn'.symm, ← hU'] at hc
        have e1 : forHesOps disc par np1 R (op :: ops) nv s =
            forHesOps disc par np1 R ops (nv + (vecLoad par vecs mem k (x e)).nres) (forHesOp disc par np1 R op nv s) := by
          rw [forHesOps, hn, hn']; rfl
        rw [e1]
        obtain ⟨l1, l2, l3, l4⟩ := forHesOp_load (disc := disc) (par := par) hld np1 R nv s hb hb'
        obtain ⟨i1, i2, i3⟩ := ih (nv + (vecLoad par vecs mem k (x e)).nres) _ (forHesOp disc par np1 R op nv s) (stepEnv (vecLoad par vecs mem k (x e)) nv e) mem
          (by omega) (by omega) (addRes_ne hnv h0) (U_insert _ hU) hw.2 hc.2 hsup' l3 (by rw [l2]; exact hb') (by
          intro k' i v hv
          obtain ⟨⟨a1, a2⟩, a3⟩ := hm k' i v hv
          refine ⟨⟨by omega, a2⟩, ?_⟩
          rw [l1 _ (by omega), l2]; exact a3)
        refine ⟨fun v hv hv0 => ?_, fun u hu => ?_, fun r r1 r2 hR => ?_, i3⟩
        · rw [i1 v (by omega) hv0, l1 _ (by omega)]
        · have := i2 u hu
          rwa [l1 u (by omega)] at this
        · rw [hn'] at r2
          have hr0 : r = 0 := by omega
          subst hr0
          refine ⟨fun a ha => ?_, by rw [vecLoad_hes]; simp⟩
          obtain ⟨i, hi⟩ := vecLoad_args (jacSet_sub _ _ a ha)
          obtain ⟨⟨a1, a2⟩, a3⟩ := hm k i a hi
          rw [i1 a (by omega) a2, i1 _ (by omega) (by omega), l1 _ (by omega)]
          exact subset_trans a3 (l4 hR)

/-- **C17** with VecAD, forward.  Partial: recordings with a conditional expression or an absolute zero multiplication with a parameter
as left operand are excluded (see `for_hes_sparsity_wrong_cexp`, `for_hes_sparsity_wrong_zmulpv`). -/
theorem vec_for_hes_sparsity_ok_partial {f : Fun} (hf : FunOk disc f) (hsup : ∀ op ∈ f.ops, ropSupported op = true)
    (selDomain selRange : ℕ → Bool) (w : List ℝ) (hw : ∀ k < f.dep.length, at' w k ≠ 0 → selRange k = true)
    (z : List ℝ) (hD : (f.tape disc z).Dom (at' z)) (i j : ℕ) (hi : i < f.n) (hj : j < f.n) (hsi : selDomain i = true) (hsj : selDomain j = true)
    (v : ℝ) (hv : IsPartial2 (wsum (f.tape disc z) w) (at' z) i j v) (hne : v ≠ 0) :
    Has false (forHesSparsity disc f selDomain selRange) i j := by
  have hinit : ∀ k < f.dep.length, selRange k = true →
      0 ∈ (forRange 0 f.dep.length (fun _ => ∅) fun i (s : Sp) => if selRange i then Sp.addElement s (f.dep.getD i 0) 0 else s : Sp)
        (f.dep.getD k 0) := by
    have := forRange_ind (Nat.zero_le f.dep.length) (s := (fun _ => ∅ : Sp))
      (f := fun i s => if selRange i then Sp.addElement s (f.dep.getD i 0) 0 else s)
      (P := fun q (s : Sp) => ∀ k < q, selRange k = true → 0 ∈ s (f.dep.getD k 0)) (by intro k hk; omega)
      (by
        intro q s _ hq ih k hk hs
        by_cases hc : selRange q = true
        · rw [if_pos hc]
          unfold Sp.addElement
          rw [Function.update_apply]
          split_ifs with he
          · simp
          · refine ih k ?_ hs
            rcases Nat.lt_succ_iff_lt_or_eq.1 hk with h | rfl
            · exact h
            · exact absurd rfl he
        · rw [if_neg hc]
          refine ih k ?_ hs
          rcases Nat.lt_succ_iff_lt_or_eq.1 hk with h | rfl
          · exact h
          · exact absurd hs hc)
    exact this
  have hT := hf.tape z
  have h : j + 1 ∈ (forHes disc f.par f.n f.ops selDomain (revJac disc f.par false f.ops (f.n + 1)
      (forRange 0 f.dep.length (fun _ => ∅) fun i (s : Sp) => if selRange i then Sp.addElement s (f.dep.getD i 0) 0 else s, fun _ => ∅)).1
      (fun _ => ∅, fun _ => ∅)).1 (i + 1) := by
    by_contra hno
    refine hne ?_
    clear hne
    generalize (forRange 0 f.dep.length (fun _ => ∅) fun i (s : Sp) => if selRange i then Sp.addElement s (f.dep.getD i 0) 0 else s : Sp) = r0 at hinit hno
    obtain ⟨c1, c2⟩ := revJac_closed (disc := disc) (par := f.par) (vecs := f.vecs) false (r0, fun _ => ∅) f.ops (f.n + 1) (indSet f.n) (indEnv (at' z)) (initMem f.vecs)
      (by omega) (ind_ne (T := f.tape disc z)) (ind_lt (T := f.tape disc z)) hT.ops hf.cmp
    set R := (revJac disc f.par false f.ops (f.n + 1) (r0, fun _ => ∅)).1 with hRdef
    have c2 : AllOps (fun op r iz => ∀ a ∈ depS false op r, R iz ⊆ R a) (f.tape disc z).ops (f.n + 1) := by
      refine AllOps.mono _ _ (fun op r iz _ _ hr h a ha => ?_) c2
      rcases h a ha with h | ⟨k, i, h, -⟩
      · exact h
      · simp [initMem] at h
    set S := (forHes disc f.par f.n f.ops selDomain R (fun _ => ∅, fun _ => ∅)).1 with hS
    obtain ⟨v1, v2⟩ := forHesInv_spec f.n selDomain R
    obtain ⟨f1, f2, f3⟩ := forHesOps_closed (disc := disc) (par := f.par) (vecs := f.vecs) (f.n + 1) R f.ops (f.n + 1) (indSet f.n)
      (forHesInv f.n selDomain R fun _ => ∅, fun _ => ∅) (indEnv (at' z)) (initMem f.vecs) (by omega) le_rfl (ind_ne (T := f.tape disc z))
      (ind_lt (T := f.tape disc z)) hT.ops hf.cmp hsup v1 (by intro v u h; simp at h) (by intro k i v h; simp [initMem] at h)
    change ∀ v < f.n + 1, v ≠ 0 → S _ = _ at f1
    change AllOps (fun op r iz => 0 ∈ R iz → (∀ a ∈ jacSet op r, S (f.n + 1 + a) ⊆ S (f.n + 1 + iz)) ∧
        ∀ q ∈ hesSet op r, ∀ u < f.n + 1, u ∈ S (f.n + 1 + q.1) → S (f.n + 1 + q.2) ⊆ S u) (f.tape disc z).ops (f.n + 1) at f3
    have k1 : ∀ k < f.n, selDomain k = true → ∀ u ∈ usable (f.tape disc z).ops (f.n + 1) (f.tape disc z).ind, 0 ∈ R u → k + 1 ∉ S (f.n + 1 + u) →
        HasDerivAt (fun t => evalOps (f.tape disc z).ops (f.n + 1) (indEnv fun l => at' z l + t * un k l) u) 0 0 := by
      intro k hk hsel u hu h1 h2
      refine closed_deriv {u | 0 ∈ R u ∧ k + 1 ∉ S (f.n + 1 + u)} (f.tape disc z).ops (f.n + 1) (f.tape disc z).ind (fun t => indEnv fun l => at' z l + t * un k l)
        (indEnv (un k)) ind_lt hT.ops (fun v _ => indEnv_line (at' z) (un k) v) ?_ ?_ ?_ u hu ⟨h1, h2⟩
      · show domOps _ _ (indEnv fun l => at' z l + 0 * un k l)
        rw [indEnv_zero (at' z) (un k)]; exact hD
      · refine AllOps.mono _ _ (fun op r iz _ _ hr h hz a ha => ?_) (allOps_and _ _ c2 f3)
        exact ⟨h.1 a (jac_sub_depS false op hr a ha) hz.1, fun hm => hz.2 ((h.2 hz.1).1 a ha hm)⟩
      · intro v hv hA
        have hv1 := hv.1
        unfold indEnv un
        rw [if_neg (by omega)]
        by_cases hvj : v - 1 = k
        · exfalso
          have : v = k + 1 := by omega
          subst this
          refine hA.2 ?_
          rw [f1 _ (by omega) (by omega)]
          exact v2 k hk hA.1 hsel
        · simp [hvj]
    refine hes_closed hT hD (un i) (un j) {u | 0 ∈ R u} ?_ w
      (fun k hk h0 => c1 _ (hinit k hk (hw k hk h0))) v (isMixed_of_partial2 hv)
    refine AllOps.mono _ _ (fun op r iz _ _ hr h hz => ?_) (allOps_and _ _ (allOps_and _ _ c2 f3) (allOps_args _ _ _ hT.ops))
    obtain ⟨⟨h2, h3⟩, ha⟩ := h
    refine ⟨fun a ha => h2 a (jac_sub_depS false op hr a ha) hz, fun q hq => ?_⟩
    have hq' := hesSet_sub op hr q hq
    have u1 := ha _ (jacSet_sub op r _ hq'.1)
    have u2 := ha _ (jacSet_sub op r _ hq'.2)
    have l1 := usable_lt (f.tape disc z).ops (f.n + 1) (f.tape disc z).ind ind_lt _ u1
    have l2 := usable_lt (f.tape disc z).ops (f.n + 1) (f.tape disc z).ind ind_lt _ u2
    have r1 := h2 _ (jac_sub_depS false op hr _ hq'.1) hz
    have r2 := h2 _ (jac_sub_depS false op hr _ hq'.2) hz
    by_cases hi1 : i + 1 ∈ S (f.n + 1 + q.1)
    · have hj1 : j + 1 ∉ S (f.n + 1 + q.2) := fun h => hno ((h3 hz).2 q hq (i + 1) (by omega) hi1 h)
      have := k1 j hj hsj q.2 u2 r2 hj1
      rw [(two_deriv hT hD (un i) (un j) q.2 l2).2.unique this, mul_zero]
    · have := k1 i hi hsi q.1 u1 r1 hi1
      rw [(two_deriv hT hD (un i) (un j) q.1 l1).1.unique this, zero_mul]
  obtain ⟨k, hk, h2⟩ := (has_getInternalPattern false f.n (f.n + 1) (fun j => j + 1) _ i (j + 1)).2 ⟨hi, by omega, h⟩
  refine ⟨k, hk, ?_⟩
  simp only [Bool.false_eq_true, if_false] at h2 ⊢
  refine ⟨h2.1, ?_⟩
  have := h2.2
  unfold forHesSparsity
  dsimp only
  rw [this]
  rfl

end CppAD.Sparsity.Vec
