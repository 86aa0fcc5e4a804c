import Verif.Record.OpsOk

/-! # Recording VecAD operations -/

open scoped Classical

namespace CppAD.Record

open CppAD

variable {c : Cfg} {w0 : World} {r : Rec}

/-! ## Vectors of real numbers -/

theorem vecIndex_lt {len : ℕ} {x : ℝ} {i : ℕ} (h : vecIndex len x = some i) : i < len := by
  unfold vecIndex at h
  split_ifs at h with h'
  simp only [Option.some.injEq] at h
  omega

theorem vecSet_length (d : List ℝ) (x y : ℝ) : (vecSet d x y).length = d.length := by
  unfold vecSet
  split <;> simp

theorem at'_set {d : List ℝ} {i : ℕ} (hi : i < d.length) (j : ℕ) (y : ℝ) : at' (d.set i y) j = if j = i then y else at' d j := by
  unfold at'
  by_cases h : j = i
  · subst h; rw [if_pos rfl]; simp [List.getD_eq_getElem?_getD, hi]
  · rw [if_neg h, List.getD_eq_getElem?_getD, List.getD_eq_getElem?_getD, List.getElem?_set_ne (fun h' => h h'.symm)]

/-! ## Objects and vectors -/

/-- the vector `V` represents the function `d` of the arguments -/
def VDen (c : Cfg) (w0 : World) (r : Rec) (V : VecAD) (d : World → List ℝ) : Prop :=
  V.data = d w0 ∧ (∀ w, (d w).length = V.data.length) ∧
  if r.varVec V = true then V.vec < r.vecs.length ∧ r.vlen V.vec = V.data.length ∧
    ∀ w, ∀ i < V.data.length, r.cellVal c w (r.memAt c w V.vec i) = at' (d w) i
  else ∀ w, d w = V.data

theorem Keep.cellVal {s : Rec} (hr : RInv c w0 r) (e : Ext0 c r s) {w : World} {k i : ℕ} (hk : k < r.vecs.length) (hi : i < r.vlen k) :
    s.cellVal c w (r.memAt c w k i) = r.cellVal c w (r.memAt c w k i) ∧ s.CellOk c w (r.memAt c w k i) := by
  have := hr.cell w k hk i hi
  cases hm : r.memAt c w k i with
  | par p => rw [hm] at this; exact ⟨e.par w p this, lt_of_lt_of_le this e.len⟩
  | var v => rw [hm] at this; exact ⟨(e.env w v this).2, (e.env w v this).1⟩

theorem varVec_eq {s : Rec} (h : s.id = r.id) (V : VecAD) : s.varVec V = r.varVec V := by
  unfold Rec.varVec; rw [h]

theorem isV_eq {s : Rec} (h : s.id = r.id) (a : AD) : s.isV a = r.isV a := by
  unfold Rec.isV; rw [h]

theorem dyn_eq {s : Rec} (h : s.id = r.id) (a : AD) : s.dyn a = r.dyn a := by
  unfold Rec.dyn; rw [h]

/-- extensions that keep the elements of the vector -/
theorem VDen.mono' {s : Rec} {V : VecAD} {d : World → List ℝ} (hr : RInv c w0 r) (e : Ext0 c r s) (h : VDen c w0 r V d)
    (hm : r.varVec V = true → ∀ w i, s.memAt c w V.vec i = r.memAt c w V.vec i) : VDen c w0 s V d := by
  refine ⟨h.1, h.2.1, ?_⟩
  have h3 := h.2.2
  rw [varVec_eq e.id]
  split_ifs at h3 ⊢ with hv
  · obtain ⟨h4, h5, h6⟩ := h3
    refine ⟨lt_of_lt_of_le h4 e.lenv, ?_, fun w i hi => ?_⟩
    · unfold Rec.vlen at h5 ⊢; rw [e.vecs _ h4]; exact h5
    · rw [hm hv, (Keep.cellVal hr e h4 (by rw [h5]; exact hi)).1]
      exact h6 w i hi
  · exact h3

theorem VDen.mono {s : Rec} {V : VecAD} {d : World → List ℝ} (hr : RInv c w0 r) (e : Keep c r s) (h : VDen c w0 r V d) :
    VDen c w0 s V d := by
  refine h.mono' hr e.toExt0 fun hv w i => ?_
  have h3 := h.2.2
  rw [if_pos hv] at h3
  exact e.mem w _ h3.1 i

theorem isV_var {a : AD} (h : r.isV a = true) : r.var a = true := by
  simp only [Rec.isV, Bool.and_eq_true, decide_eq_true_eq] at h
  simp [Rec.var, h.1, h.2]

/-- neither dynamic nor variable -/
theorem Den.not_dv {a : AD} {d : World → ℝ} (h : Den c w0 r a d) (hd : ¬ (r.dyn a || r.isV a) = true) : ∀ w, d w = a.value := by
  have h2 := h.2
  simp only [Rec.dyn, Rec.isV, Bool.or_eq_true, Bool.and_eq_true, decide_eq_true_eq, not_or, not_and] at hd
  split_ifs at h2 with h1 h3
  · exact absurd h3 (hd.1 h1)
  · exact absurd h2.1 (hd.2 h1)
  · exact h2

theorem dv_tapeId {a : AD} (h : (r.dyn a || r.isV a) = true) : a.tapeId = r.id := by
  simp only [Rec.dyn, Rec.isV, Bool.or_eq_true, Bool.and_eq_true, decide_eq_true_eq] at h
  tauto

theorem opdAddr_ok (hr : RInv c w0 r) {a : AD} {d : World → ℝ} (h : Den c w0 r a d) :
    RInv c w0 (opdAddr c r a).1 ∧ Ext c r (opdAddr c r a).1 ∧ (opdAddr c r a).1.vecs = r.vecs ∧
    (r.isV a = true → ∀ w, (opdAddr c r a).2 ∈ (opdAddr c r a).1.use c w ∧ (opdAddr c r a).1.env c w (opdAddr c r a).2 = d w) ∧
    (¬ r.isV a = true → (opdAddr c r a).2 < (opdAddr c r a).1.parAll.length ∧
      ∀ w, (opdAddr c r a).1.parAt c w (opdAddr c r a).2 = d w) := by
  unfold opdAddr
  by_cases hd : (r.dyn a || r.isV a) = true
  · rw [if_neg (by simp only [hd, Bool.not_true]; simp)]
    refine ⟨hr, Ext.refl r, rfl, fun hv => h.of_var (isV_var hv), fun hv => ?_⟩
    have hd' : r.dyn a = true := by simpa [hv] using hd
    exact h.of_dyn hd'
  · rw [if_pos (by simp only [hd]; rfl)]
    obtain ⟨h1, h2, h3, h4, -⟩ := putCon_ok (c := c) hr a.value
    refine ⟨h1, h2, rfl, fun hv => ?_, fun _ => ⟨h3, fun w => by rw [h4, h.not_dv hd]⟩⟩
    simp [hv] at hd

/-! ## Placing a vector in the recording -/

theorem putCons_ok : ∀ (l : List ℝ) {r : Rec}, RInv c w0 r →
    RInv c w0 (r.putCons c l).1 ∧ Ext c r (r.putCons c l).1 ∧ (r.putCons c l).1.vecs = r.vecs ∧
    (r.putCons c l).2.length = l.length ∧ (∀ a ∈ (r.putCons c l).2, a < (r.putCons c l).1.parAll.length) ∧
    ∀ w, (r.putCons c l).2.map ((r.putCons c l).1.parAt c w) = l
  | [], r, hr => ⟨hr, Ext.refl r, rfl, rfl, by simp [Rec.putCons], fun w => rfl⟩
  | v :: l, r, hr => by
    obtain ⟨h1, h2, h3, h4, -⟩ := putCon_ok (c := c) hr v
    obtain ⟨k1, k2, k3, k4, k5, k6⟩ := putCons_ok l h1
    refine ⟨k1, h2.trans k2, k3, ?_, ?_, fun w => ?_⟩
    · show (((r.putCon c v).1.putCons c l).2).length + 1 = l.length + 1
      rw [k4]
    · intro a ha
      rcases List.mem_cons.1 ha with rfl | ha
      · exact lt_of_lt_of_le h3 k2.len
      · exact k5 a ha
    · refine List.cons_eq_cons.2 ⟨?_, k6 w⟩
      show ((r.putCon c v).1.putCons c l).1.parAt c w (r.putCon c v).2 = v
      rw [k2.par w _ h3, h4]

theorem addVec (hr : RInv c w0 r) (l : List ℕ) (hl : ∀ a ∈ l, a < r.parAll.length) :
    RInv c w0 { r with vecs := r.vecs ++ [l] } ∧ Ext c r { r with vecs := r.vecs ++ [l] } ∧
    ∀ w i, Rec.memAt c { r with vecs := r.vecs ++ [l] } w r.vecs.length i = .par (l.getD i 0) := by
  set s : Rec := { r with vecs := r.vecs ++ [l] } with hs
  have hv : ∀ k < r.vecs.length, r.vecs.getD k [] = s.vecs.getD k [] := fun k hk => by
    show _ = (r.vecs ++ [l]).getD k []
    rw [List.getD_append _ _ _ _ hk]
  have hres : ∀ w, r.opsAt c w = s.opsAt c w ∧ ∀ k < r.vecs.length, ∀ i, r.memAt c w k i = s.memAt c w k i := by
    intro w
    refine resolve_congr r.ops _ _ _ _ (fun op hop => ⟨fun _ _ => rfl, fun k hk => ⟨hr.vec op hop k hk, hv k (hr.vec op hop k hk)⟩⟩)
      (fun k hk i => ?_) (hr.cellAgree fun _ _ => rfl)
    unfold initMem
    rw [hv k hk]
  have hnew : ∀ w i, s.memAt c w r.vecs.length i = .par (l.getD i 0) := by
    intro w i
    refine (resolve_unused r.ops _ _ _ (fun op hop hk => lt_irrefl _ (hr.vec op hop _ hk)) i).trans ?_
    show Cell.par (((r.vecs ++ [l]).getD r.vecs.length []).getD i 0) = _
    simp
  have henv : ∀ w, s.env c w = r.env c w := fun w => by unfold Rec.env; rw [(hres w).1]
  have huse : ∀ w, s.use c w = r.use c w := fun w => by unfold Rec.use; rw [(hres w).1]
  have hsl : s.vecs.length = r.vecs.length + 1 := by simp [hs]
  refine ⟨⟨hr.dyn, hr.len, hr.pos, hr.vals, fun w => ?_, fun w => ?_, hr.par, hr.id, hr.cmp, fun op hop k hk => ?_, ?_, ?_, hr.txt⟩,
    ⟨⟨⟨rfl, rfl, rfl, le_rfl, fun _ _ _ => rfl, fun w v hv => ?_, by omega, fun k hk => (hv k hk).symm⟩,
      fun w k hk i => ((hres w).2 k hk i).symm⟩, fun w => ?_⟩, hnew⟩
  · rw [← (hres w).1]; exact hr.wf w
  · rw [← (hres w).1]; exact hr.nv w
  · have := hr.vec op hop k hk; omega
  · intro l' hl' a ha
    have : l' ∈ r.vecs ++ [l] := hl'
    rw [List.mem_append, List.mem_singleton] at this
    rcases this with h | rfl
    · exact hr.vpar l' h a ha
    · exact hl a ha
  · intro w k hk i hi
    rcases Nat.lt_or_ge k r.vecs.length with hk' | hk'
    · rw [← (hres w).2 k hk' i]
      have := hr.cell w k hk' i (by unfold Rec.vlen at hi ⊢; rw [hv k hk']; exact hi)
      cases hm : r.memAt c w k i with
      | par p => rw [hm] at this; exact this
      | var v => rw [hm] at this; show v ∈ s.use c w; rw [huse]; exact this
    · obtain rfl : k = r.vecs.length := by omega
      rw [hnew]
      have hi' : i < l.length := by
        have e : s.vlen r.vecs.length = l.length := by simp [Rec.vlen, hs]
        rw [e] at hi; exact hi
      show l.getD i 0 < _
      rw [List.getD_eq_getElem _ _ hi']
      exact hl _ (List.getElem_mem hi')
  · rw [huse, henv]; exact ⟨hv, rfl⟩
  · unfold Rec.cmps; rw [henv]; rfl

theorem put_ok (hr : RInv c w0 r) {V : VecAD} {d : World → List ℝ} (hV : ∀ w, d w = V.data) (id : ℕ) (hid : id = r.id) :
    RInv c w0 (V.put c r id).1 ∧ Ext c r (V.put c r id).1 ∧ VDen c w0 (V.put c r id).1 (V.put c r id).2 d ∧
    (V.put c r id).2.data = V.data ∧ (V.put c r id).2.vec = r.vecs.length ∧ (V.put c r id).1.varVec (V.put c r id).2 = true ∧
    (V.put c r id).1.vecs.length = r.vecs.length + 1 := by
  obtain ⟨h1, h2, h3, h4, h5, h6⟩ := putCons_ok (c := c) (w0 := w0) V.data hr
  obtain ⟨k1, k2, k3⟩ := addVec h1 (r.putCons c V.data).2 h5
  have hvv : (V.put c r id).1.varVec (V.put c r id).2 = true := by
    have e : (V.put c r id).1.id = r.id := h2.id
    unfold Rec.varVec
    rw [e]
    simp [VecAD.put, hid]
  have hvec : (V.put c r id).2.vec = r.vecs.length := by
    show (r.putCons c V.data).1.vecs.length = _
    rw [h3]
  have hlen : (V.put c r id).1.vecs.length = r.vecs.length + 1 := by
    show ((r.putCons c V.data).1.vecs ++ [(r.putCons c V.data).2]).length = _
    rw [h3]; simp
  refine ⟨k1, h2.trans k2, ⟨?_, ?_, ?_⟩, rfl, hvec, hvv, hlen⟩
  · show V.data = d w0
    rw [hV]
  · intro w; rw [hV]; rfl
  · rw [if_pos hvv, hvec]
    refine ⟨by omega, ?_, fun w i hi => ?_⟩
    · show (((r.putCons c V.data).1.vecs ++ [(r.putCons c V.data).2]).getD r.vecs.length []).length = V.data.length
      rw [h3]
      simp [h4]
    · have hi' : i < V.data.length := hi
      have := k3 w i
      rw [h3] at this
      have e : (V.put c r id).1.memAt c w r.vecs.length i = .par ((r.putCons c V.data).2.getD i 0) := by
        rw [← this]
        show Rec.memAt c { (r.putCons c V.data).1 with vecs := (r.putCons c V.data).1.vecs ++ [(r.putCons c V.data).2] } w _ i = _
        rw [h3]
      rw [e]
      show (r.putCons c V.data).1.parAt c w _ = _
      have e2 : ((r.putCons c V.data).2.map ((r.putCons c V.data).1.parAt c w)).getD i 0 = V.data.getD i 0 := by rw [h6 w]
      rw [hV, at', ← e2, List.getD_eq_getElem _ _ (by rw [h4]; exact hi'), List.getD_eq_getElem _ _ (by simp [h4]; exact hi'),
        List.getElem_map]

/-- VecAD::operator[]: the vector is on the tape if the index is not a constant -/
theorem index_ok (hr : RInv c w0 r) {V : VecAD} {d : World → List ℝ} (hV : VDen c w0 r V d) {ind : AD} :
    RInv c w0 (V.index c r ind).1 ∧ Ext c r (V.index c r ind).1 ∧ VDen c w0 (V.index c r ind).1 (V.index c r ind).2 d ∧
    (V.index c r ind).2.data = V.data ∧
    ((V.index c r ind).1.varVec (V.index c r ind).2 = false → ¬ (r.dyn ind || r.isV ind) = true) ∧
    ((V.index c r ind).2 = V ∨ (V.index c r ind).2.vec = r.vecs.length) := by
  unfold VecAD.index
  by_cases hv : r.varVec V = true
  · rw [if_neg (by simp [hv]), if_neg (by simp [hv])]
    exact ⟨hr, Ext.refl r, hV, rfl, fun h => by simp [hv] at h, Or.inl rfl⟩
  · have h3 := hV.2.2
    rw [if_neg hv] at h3
    by_cases hd : (r.dyn ind || r.isV ind) = true
    · rw [if_neg (by simp [hd]), if_pos (by simp [hv])]
      obtain ⟨k1, k2, k3, k4, k5, k6, -⟩ := put_ok hr h3 ind.tapeId (dv_tapeId hd)
      exact ⟨k1, k2, k3, k4, fun h => by rw [k6] at h; simp at h, Or.inr k5⟩
    · rw [if_pos (by simp only [hv, hd]; rfl)]
      exact ⟨hr, Ext.refl r, hV, rfl, fun _ => hd, Or.inl rfl⟩

/-! ## Load -/

/-- the result of a load -/
theorem load_ok (hr : RInv c w0 r) (hw : w0.sel = w0) {V : VecAD} {d : World → List ℝ} (hV : VDen c w0 r V d) {ind : AD} {di : World → ℝ}
    (hi : Den c w0 r ind di) (hc : r.varVec V = false → ¬ (r.dyn ind || r.isV ind) = true) :
    RInv c w0 (V.load c r ind).1 ∧ Keep c r (V.load c r ind).1 ∧ (∀ w, (V.load c r ind).1.cmps c w = r.cmps c w) ∧
    Den c w0 (V.load c r ind).1 (V.load c r ind).2 (fun w => vecGet (d w) (di w.sel)) := by
  have hv0 : vecGet V.data ind.value = vecGet (d w0) (di w0.sel) := by rw [hw, hV.1, hi.1]
  by_cases hv : r.varVec V = true
  · have h3 := hV.2.2
    rw [if_pos hv] at h3
    obtain ⟨h4, h5, h6⟩ := h3
    obtain ⟨p1, p2, p3, p4, p5⟩ := opdAddr_ok hr hi
    set s := (opdAddr c r ind).1 with hs
    set a := (opdAddr c r ind).2 with ha
    have hl : (s.vecs.getD V.vec []).length = V.data.length := by rw [p3]; exact h5
    have hmem : ∀ w i, s.memAt c w V.vec i = r.memAt c w V.vec i := fun w i => p2.mem w _ h4 i
    have hcell : ∀ w, ∀ i < V.data.length, s.cellVal c w (s.memAt c w V.vec i) = at' (d w) i ∧ s.CellOk c w (s.memAt c w V.vec i) := by
      intro w i hi'
      rw [hmem]
      obtain ⟨e1, e2⟩ := Keep.cellVal hr p2.toExt0 (w := w) h4 (by rw [h5]; exact hi')
      exact ⟨by rw [e1]; exact h6 w i hi', e2⟩
    let o : World → Op := fun w => vecLoad (s.parAt c w) s.vecs (s.memAt c w) V.vec (di w.sel)
    have hoargs : ∀ w, ∀ a ∈ (o w).args, a ∈ s.use c w := by
      intro w a ha'
      change a ∈ (vecLoad (s.parAt c w) s.vecs (s.memAt c w) V.vec (di w.sel)).args at ha'
      unfold vecLoad at ha'
      rw [hl] at ha'
      cases hx : vecIndex V.data.length (di w.sel) with
      | none => rw [hx] at ha'; simp [Op.args] at ha'
      | some i =>
        rw [hx] at ha'
        simp only at ha'
        have := (hcell w i (vecIndex_lt hx)).2
        cases hm : s.memAt c w V.vec i with
        | par p => rw [hm] at ha'; simp [Op.args] at ha'
        | var v =>
          rw [hm] at ha' this
          simp only [Op.args, List.mem_singleton] at ha'
          subst ha'; exact this
    have hoval : ∀ w, (o w).val (s.env c w) 0 = vecGet (d w) (di w.sel) := by
      intro w
      show (vecLoad (s.parAt c w) s.vecs (s.memAt c w) V.vec (di w.sel)).val (s.env c w) 0 = _
      unfold vecLoad vecGet
      rw [hl, hV.2.1 w]
      cases hx : vecIndex V.data.length (di w.sel) with
      | none => rfl
      | some i =>
        simp only
        have := (hcell w i (vecIndex_lt hx)).1
        rw [← this]
        cases hm : s.memAt c w V.vec i with
        | par p => rfl
        | var v => simp [Op.val, Rec.cellVal]
    have main : ∀ op : ROp, op.nres = 1 →
        (∀ w, op.toOpM c.disc (s.parAt c w) s.vecs (s.env c w.sel) (s.memAt c w) = some (o w)) →
        (∀ a ∈ op.parArgs, a < s.parAll.length) → (∀ a ∈ op.cmpVars, a ∈ s.use c w0) → op.vecArgs = [V.vec] →
        RInv c w0 (s.putVar op (vecGet V.data ind.value)).1 ∧ Keep c r (s.putVar op (vecGet V.data ind.value)).1 ∧
        (∀ w, (s.putVar op (vecGet V.data ind.value)).1.cmps c w = r.cmps c w) ∧
        Den c w0 (s.putVar op (vecGet V.data ind.value)).1 (s.putVar op (vecGet V.data ind.value)).2 (fun w => vecGet (d w) (di w.sel)) := by
      intro op hn ho hpa hx hva
      obtain ⟨q1, q2, q3, q5⟩ := putOpM_ok p1 op o ho hpa hoargs hx (by rw [hva]; simp; rw [p3]; exact h4)
      refine ⟨q1, p2.toKeep.trans q2, fun w => (q3 w).trans (p2.cmps w), ⟨hv0, ?_⟩⟩
      · show if s.id = s.id then (if AdType.variable = .dynamic then _ else _) else _
        rw [if_pos rfl, if_neg (by simp)]
        refine ⟨rfl, fun w => ?_⟩
        obtain ⟨u1, u2⟩ := q5 w 0 (by have := op.naux_le; omega) (by omega)
        have e0 : (s.putVar op (vecGet V.data ind.value)).2.taddr = s.numVar + 0 := by
          show s.numVar + op.nres - 1 = _
          omega
        rw [e0]
        exact ⟨u1, u2.trans (hoval w)⟩
    have e : V.load c r ind = if r.isV ind then s.putVar (.ldv V.vec a) (vecGet V.data ind.value)
        else s.putVar (.ldp V.vec a) (vecGet V.data ind.value) := by
      unfold VecAD.load
      dsimp only
      rw [if_neg (by simp [hv])]
    rw [e]
    by_cases hiv : r.isV ind = true
    · rw [if_pos hiv]
      have p4' := p4 hiv
      refine main _ rfl (fun w => ?_) (by simp [ROp.parArgs]) (by simp [ROp.cmpVars]; exact (p4' w0).1) rfl
      show some (vecLoad _ _ _ _ (s.env c w.sel a)) = _
      rw [(p4' w.sel).2]
    · rw [if_neg hiv]
      have p5' := p5 hiv
      refine main _ rfl (fun w => ?_) (by simp [ROp.parArgs]; exact p5'.1) (by simp [ROp.cmpVars]) rfl
      show some (vecLoad _ _ _ _ (s.parAt c w.sel a)) = _
      rw [p5'.2]
  · have hv' : r.varVec V = false := by simpa using hv
    have hcon := hc hv'
    have e : V.load c r ind = (r, AD.con (vecGet V.data ind.value)) := by
      unfold VecAD.load
      dsimp only
      rw [if_pos (by simp only [hv, hcon]; rfl)]
    rw [e]
    have h3 := hV.2.2
    rw [if_neg hv] at h3
    refine ⟨hr, (Ext.refl r).toKeep, fun _ => rfl, Den.const _ (con_ne hr _) fun w => ?_⟩
    rw [h3, hi.not_dv hcon]; rfl

/-! ## Store -/

/-- appending a store operator -/
theorem putStore_ok (hr : RInv c w0 r) (op : ROp) (k : ℕ) (x : World → ℝ) (a : Cell) (hn : op.nres = 0) (hcm : op.quiet = false)
    (hm : ∀ w mem, op.memM (r.parAt c w) r.vecs (r.env c w.sel) mem = vecStore r.vecs mem k (x w) a)
    (hp : ∀ a ∈ op.parArgs, a < r.parAll.length) (hx : ∀ a ∈ op.cmpVars, a ∈ r.use c w0) (hk : op.vecArgs = [k])
    (hcv : ∀ v ∈ op.cellVars, a = .var v)
    (hkl : k < r.vecs.length) (hcell : ∀ w, r.CellOk c w a) :
    RInv c w0 (r.putOp op).1 ∧ Ext0 c r (r.putOp op).1 ∧ (∀ w, (r.putOp op).1.cmps c w = r.cmps c w) ∧
    (∀ w, (r.putOp op).1.memAt c w = vecStore r.vecs (r.memAt c w) k (x w) a) ∧
    ∀ w, (r.putOp op).1.env c w = r.env c w := by
  have hres : ∀ w, (r.putOp op).1.resAt c w = (r.opsAt c w, vecStore r.vecs (r.memAt c w) k (x w) a) := by
    intro w
    show resolve c.disc (r.parAt c w) r.vecs (r.ops ++ [op]) (r.n + 1) (indEnv (at' w.z)) (initMem r.vecs) = _
    rw [resolve_snoc, ROp.toOpM_none hn]
    simp only
    have := hm w (r.memAt c w)
    change op.memM (r.parAt c w) r.vecs
      (evalOps (resolve c.disc (r.parAt c w) r.vecs r.ops (r.n + 1) (indEnv (at' w.z)) (initMem r.vecs)).1 (r.n + 1) (indEnv (at' w.z)))
      (resolve c.disc (r.parAt c w) r.vecs r.ops (r.n + 1) (indEnv (at' w.z)) (initMem r.vecs)).2 = _ at this
    rw [this]; rfl
  have hops : ∀ w, (r.putOp op).1.opsAt c w = r.opsAt c w := fun w => by
    unfold Rec.opsAt; rw [hres]; rfl
  have hmem : ∀ w, (r.putOp op).1.memAt c w = vecStore r.vecs (r.memAt c w) k (x w) a := fun w => by
    unfold Rec.memAt; rw [hres]; rfl
  have henv : ∀ w, (r.putOp op).1.env c w = r.env c w := by
    intro w; unfold Rec.env; rw [hops]; rfl
  have huse : ∀ w, (r.putOp op).1.use c w = r.use c w := by
    intro w; unfold Rec.use; rw [hops]; rfl
  have hnv : (r.putOp op).1.numVar = r.numVar := by
    show r.numVar + op.nres = _
    rw [hn]; rfl
  refine ⟨⟨hr.dyn, hr.len, hr.pos, hr.vals, ?_, ?_, ?_, hr.id, ?_, ?_, hr.vpar, ?_, ?_⟩,
    ⟨rfl, rfl, rfl, le_rfl, fun _ _ _ => rfl, ?_, le_rfl, fun _ _ => rfl⟩, ?_, hmem, henv⟩
  · intro w; rw [hops]; exact hr.wf w
  · intro w; rw [hops, hnv]; exact hr.nv w
  · intro op' hop a h
    have hop' : op' ∈ r.ops ++ [op] := hop
    rw [List.mem_append, List.mem_singleton] at hop'
    rcases hop' with h' | rfl
    · exact hr.par op' h' a h
    · exact hp a h
  · exact CmpWF_snoc (disc := c.disc) (par := r.parAt c w0) (vecs := r.vecs) op (indEnv (at' w0.z)) (initMem r.vecs) hr.cmp
      (fun v hv => (List.mem_append.1 hv).elim (hx v) fun h => by
        have := hcell w0
        rw [hcv v h] at this
        exact this)
  · intro op' hop j h
    have hop' : op' ∈ r.ops ++ [op] := hop
    rw [List.mem_append, List.mem_singleton] at hop'
    rcases hop' with h' | rfl
    · exact hr.vec op' h' j h
    · rw [hk, List.mem_singleton] at h; subst h; exact hkl
  · intro w j hj i hi
    have ok : ∀ q : Cell, r.CellOk c w q → (r.putOp op).1.CellOk c w q := by
      intro q hq
      cases q with
      | par p => exact hq
      | var v => show v ∈ (r.putOp op).1.use c w; rw [huse]; exact hq
    rw [hmem]
    rcases vecStore_cell (vecs := r.vecs) (mem := r.memAt c w) k (x w) a j i with h | ⟨-, h⟩
    · rw [h]; exact ok _ (hr.cell w j hj i hi)
    · rw [h]; exact ok _ (hcell w)
  · intro op' hop a h
    have hop' : op' ∈ r.ops ++ [op] := hop
    rw [List.mem_append, List.mem_singleton] at hop'
    rcases hop' with h' | rfl
    · exact hr.txt op' h' a h
    · rw [ROp.txtArgs_of_loud hcm] at h; simp at h
  · intro w v hv; rw [huse, henv]; exact ⟨hv, rfl⟩
  · intro w
    unfold Rec.cmps
    rw [henv]
    refine Prod.ext ?_ ?_
    · show cmpList (r.parAt c w) _ (r.ops ++ [op]) (r.n + 1) = _
      rw [cmpList_snoc, ROp.isCmp_of_loud hcm]
      simp
    · show priList r.text (r.parAt c w) _ (r.ops ++ [op]) = _
      rw [priList_snoc, ROp.print_nil (ROp.txtArgs_of_loud hcm), List.append_nil]

/-- VecAD_reference::operator=.  `V` is a vector on which operator[] has been called. -/
theorem store_ok (hr : RInv c w0 r) (hw : w0.sel = w0) {V : VecAD} {d : World → List ℝ} (hV : VDen c w0 r V d) {ind right : AD} {di dr : World → ℝ}
    (hi : Den c w0 r ind di) (hq : Den c w0 r right dr) (hc : r.varVec V = false → ¬ (r.dyn ind || r.isV ind) = true) :
    RInv c w0 (V.store c r ind right).1 ∧ Ext0 c r (V.store c r ind right).1 ∧ (∀ w, (V.store c r ind right).1.cmps c w = r.cmps c w) ∧
    VDen c w0 (V.store c r ind right).1 (V.store c r ind right).2 (fun w => vecSet (d w) (di w.sel) (dr w)) ∧
    ((V.store c r ind right).2.vec = V.vec ∧ (V.store c r ind right).1.varVec (V.store c r ind right).2 = r.varVec V ∨
      (V.store c r ind right).2.vec = r.vecs.length) ∧
    (∀ w, ∀ k < r.vecs.length, k ≠ (V.store c r ind right).2.vec → ∀ i, (V.store c r ind right).1.memAt c w k i = r.memAt c w k i) ∧
    (¬ r.varVec V = true → ∀ w, ∀ k < r.vecs.length, ∀ i, (V.store c r ind right).1.memAt c w k i = r.memAt c w k i) := by
  set V1 : VecAD := { V with data := vecSet V.data ind.value right.value } with hV1
  have hdata : V1.data = vecSet (d w0) (di w0.sel) (dr w0) := by
    show vecSet V.data ind.value right.value = _
    rw [hw, hV.1, hi.1, hq.1]
  have hvv : r.varVec V1 = r.varVec V := rfl
  have hlen1 : V1.data.length = V.data.length := vecSet_length _ _ _
  -- the part after the vector is in the recording
  have main : ∀ (s : Rec) (V2 : VecAD) (d2 : World → List ℝ), RInv c w0 s → Ext c r s → s.varVec V2 = true →
      V2.vec < s.vecs.length → s.vlen V2.vec = V.data.length → V2.data = V1.data →
      (∀ w, (d2 w).length = V.data.length) →
      (∀ w, ∀ i < V.data.length, s.cellVal c w (s.memAt c w V2.vec i) = at' (d2 w) i) →
      (∀ w, vecSet (d2 w) (di w.sel) (dr w) = vecSet (d w) (di w.sel) (dr w)) →
      let t := V2.putStore c s ind right
      RInv c w0 t ∧ Ext0 c r t ∧ (∀ w, t.cmps c w = r.cmps c w) ∧
      VDen c w0 t V2 (fun w => vecSet (d w) (di w.sel) (dr w)) ∧
      (∀ w, ∀ k < r.vecs.length, k ≠ V2.vec → ∀ i, t.memAt c w k i = r.memAt c w k i) := by
    intro s V2 d2 hsi hse hsv hk hkl hd2 hl2 hcv hset t
    let p := opdAddr c s ind
    let q := opdAddr c p.1 right
    let op := if s.isV right then
        if !s.isV ind then ROp.stpv V2.vec p.2 q.2 else ROp.stvv V2.vec p.2 q.2
      else if !s.isV ind then ROp.stpp V2.vec p.2 q.2 else ROp.stvp V2.vec p.2 q.2
    have ht : t = (q.1.putOp op).1 := rfl
    obtain ⟨p1, p2, p3, p4, p5⟩ := opdAddr_ok hsi (hi.mono hse)
    obtain ⟨q1, q2, q3, q4, q5⟩ := opdAddr_ok p1 ((hq.mono hse).mono p2)
    have hri : p.1.isV right = s.isV right := isV_eq p2.id right
    rw [hri] at q4 q5
    have e2 := p2.trans q2
    have hvecs : q.1.vecs = s.vecs := q3.trans p3
    have hkq : V2.vec < q.1.vecs.length := by rw [hvecs]; exact hk
    have hlq : (q.1.vecs.getD V2.vec []).length = V.data.length := by rw [hvecs]; exact hkl
    -- index value
    have hx1 : s.isV ind = true → ∀ w, p.2 ∈ q.1.use c w ∧ q.1.env c w p.2 = di w := fun h w =>
      ⟨(q2.env w _ (p4 h w).1).1, ((q2.env w _ (p4 h w).1).2).trans (p4 h w).2⟩
    have hx2 : ¬ s.isV ind = true → p.2 < q.1.parAll.length ∧ ∀ w, q.1.parAt c w p.2 = di w := fun h =>
      ⟨lt_of_lt_of_le (p5 h).1 q2.len, fun w => (q2.par w _ (p5 h).1).trans ((p5 h).2 w)⟩
    let a : Cell := if s.isV right then .var q.2 else .par q.2
    have hcell : ∀ w, q.1.CellOk c w a ∧ q.1.cellVal c w a = dr w := by
      intro w
      by_cases h : s.isV right = true
      · have : a = .var q.2 := if_pos h
        rw [this]; exact q4 h w
      · have : a = .par q.2 := if_neg h
        rw [this]; exact ⟨(q5 h).1, (q5 h).2 w⟩
    have hput : RInv c w0 t ∧ Ext0 c q.1 t ∧ (∀ w, t.cmps c w = q.1.cmps c w) ∧
        (∀ w, t.memAt c w = vecStore q.1.vecs (q.1.memAt c w) V2.vec (di w.sel) a) ∧
        ∀ w, t.env c w = q.1.env c w := by
      by_cases hr' : s.isV right = true
      · have ea : a = .var q.2 := if_pos hr'
        by_cases hi' : s.isV ind = true
        · have eo : op = ROp.stvv V2.vec p.2 q.2 := by simp only [op, if_pos hr', hi']; rfl
          have et : t = (q.1.putOp (ROp.stvv V2.vec p.2 q.2)).1 := by rw [ht, eo]
          rw [et, ea]
          refine putStore_ok q1 _ _ (fun w => di w.sel) _ rfl rfl (fun w mem => ?_) (by simp [ROp.parArgs]) (by simp [ROp.cmpVars]; exact (hx1 hi' w0).1)
            rfl (by simp [ROp.cellVars]) hkq (fun w => by rw [← ea]; exact (hcell w).1)
          show vecStore _ _ _ (q.1.env c w.sel p.2) _ = _
          rw [(hx1 hi' w.sel).2]
        · have eo : op = ROp.stpv V2.vec p.2 q.2 := by simp only [op, if_pos hr', hi']; rfl
          have et : t = (q.1.putOp (ROp.stpv V2.vec p.2 q.2)).1 := by rw [ht, eo]
          rw [et, ea]
          refine putStore_ok q1 _ _ (fun w => di w.sel) _ rfl rfl (fun w mem => ?_) (by simp [ROp.parArgs]; exact (hx2 hi').1) (by simp [ROp.cmpVars])
            rfl (by simp [ROp.cellVars]) hkq (fun w => by rw [← ea]; exact (hcell w).1)
          show vecStore _ _ _ (q.1.parAt c w.sel p.2) _ = _
          rw [(hx2 hi').2]
      · have ea : a = .par q.2 := if_neg hr'
        have hq2 : q.2 < q.1.parAll.length := (q5 hr').1
        by_cases hi' : s.isV ind = true
        · have eo : op = ROp.stvp V2.vec p.2 q.2 := by simp only [op, if_neg hr', hi']; rfl
          have et : t = (q.1.putOp (ROp.stvp V2.vec p.2 q.2)).1 := by rw [ht, eo]
          rw [et, ea]
          refine putStore_ok q1 _ _ (fun w => di w.sel) _ rfl rfl (fun w mem => ?_) (by simp [ROp.parArgs]; exact hq2)
            (by simp [ROp.cmpVars]; exact (hx1 hi' w0).1) rfl (by simp [ROp.cellVars]) hkq (fun w => by rw [← ea]; exact (hcell w).1)
          show vecStore _ _ _ (q.1.env c w.sel p.2) _ = _
          rw [(hx1 hi' w.sel).2]
        · have eo : op = ROp.stpp V2.vec p.2 q.2 := by simp only [op, if_neg hr', hi']; rfl
          have et : t = (q.1.putOp (ROp.stpp V2.vec p.2 q.2)).1 := by rw [ht, eo]
          rw [et, ea]
          refine putStore_ok q1 _ _ (fun w => di w.sel) _ rfl rfl (fun w mem => ?_) (by simp [ROp.parArgs]; exact ⟨(hx2 hi').1, hq2⟩) (by simp [ROp.cmpVars])
            rfl (by simp [ROp.cellVars]) hkq (fun w => by rw [← ea]; exact (hcell w).1)
          show vecStore _ _ _ (q.1.parAt c w.sel p.2) _ = _
          rw [(hx2 hi').2]
    obtain ⟨t1, t2, t3, t4, t6⟩ := hput
    refine ⟨t1, (hse.trans e2).toExt0.trans t2, fun w => ((t3 w).trans (e2.cmps w)).trans (hse.cmps w), ⟨?_, ?_, ?_⟩, ?_⟩
    · rw [hd2]; exact hdata
    · intro w; rw [vecSet_length, hV.2.1, hd2, hlen1]
    · rw [varVec_eq ((e2.toExt0.trans t2).id), if_pos hsv]
      refine ⟨lt_of_lt_of_le hkq t2.lenv, ?_, fun w i hi' => ?_⟩
      · show (t.vecs.getD V2.vec []).length = _
        rw [t2.vecs _ hkq, hlq, hd2, hlen1]
      · rw [hd2, hlen1] at hi'
        have cv : ∀ z : Cell, q.1.CellOk c w z → t.cellVal c w z = q.1.cellVal c w z := by
          intro z _
          cases z with
          | par p => rfl
          | var v => show t.env c w v = _; rw [t6]; rfl
        have old : t.cellVal c w (q.1.memAt c w V2.vec i) = at' (d2 w) i := by
          obtain ⟨e3, e4⟩ := Keep.cellVal hsi e2.toExt0 (w := w) (k := V2.vec) (i := i) hk (by rw [hkl]; exact hi')
          rw [e2.mem w _ hk i, cv _ e4, e3]
          exact hcv w i hi'
        show t.cellVal c w (t.memAt c w V2.vec i) = at' (vecSet (d w) (di w.sel) (dr w)) i
        rw [← hset w, t4]
        unfold vecStore vecSet
        rw [hlq, hl2]
        cases hx : vecIndex V.data.length (di w.sel) with
        | none => exact old
        | some j =>
          simp only
          rw [Function.update_self, at'_set (by rw [hl2]; exact vecIndex_lt hx)]
          by_cases hij : i = j
          · subst hij
            rw [Function.update_self, if_pos rfl, cv _ (hcell w).1]
            exact (hcell w).2
          · rw [Function.update_of_ne hij, if_neg hij]
            exact old
    · intro w k hkr hne i
      rw [t4]
      rcases vecStore_cell (vecs := q.1.vecs) (mem := q.1.memAt c w) V2.vec (di w.sel) a k i with h | ⟨h, -⟩
      · rw [h]; exact (hse.trans e2).mem w k hkr i
      · exact absurd h hne
  by_cases hv : r.varVec V = true
  · have h3 := hV.2.2
    rw [if_pos hv] at h3
    obtain ⟨h4, h5, h6⟩ := h3
    obtain ⟨m1, m2, m3, m4, m5⟩ := main r V1 d hr (Ext.refl r) (by rw [hvv]; exact hv) h4 h5 rfl hV.2.1 h6 (fun _ => rfl)
    have e : V.store c r ind right = (V1.putStore c r ind right, V1) := by
      unfold VecAD.store
      dsimp only
      rw [← hV1, hvv, hv]
      simp
    rw [e]
    refine ⟨m1, m2, m3, m4, Or.inl ⟨rfl, by rw [varVec_eq m2.id]; rfl⟩, m5, fun h => absurd hv h⟩
  · have hv' : r.varVec V = false := by simpa using hv
    have hcon := hc hv'
    have h3 := hV.2.2
    rw [if_neg hv] at h3
    by_cases hd : (r.dyn right || r.isV right) = true
    · have hV1c : ∀ w : World, (fun _ : World => V1.data) w = V1.data := fun _ => rfl
      obtain ⟨k1, k2, k3, k4, k5, k6, k7⟩ := put_ok hr (V := V1) (d := fun _ => V1.data) hV1c right.tapeId (dv_tapeId hd)
      have k3' := k3.2.2
      rw [if_pos k6] at k3'
      obtain ⟨m1, m2, m3, m4, m5⟩ := main (V1.put c r right.tapeId).1 (V1.put c r right.tapeId).2 (fun _ => V1.data) k1 k2 k6 k3'.1
        (by rw [k3'.2.1, k4, hlen1]) k4 (fun _ => hlen1) (fun w i hi' => k3'.2.2 w i (by rw [k4, hlen1]; exact hi')) (fun w => by
          show vecSet (vecSet V.data ind.value right.value) (di w.sel) (dr w) = _
          rw [h3 w, hi.not_dv hcon w.sel]
          unfold vecSet
          cases hx : vecIndex V.data.length ind.value with
          | none => simp only; rw [hx]
          | some j => simp only; rw [List.length_set, hx]; simp)
      have e : V.store c r ind right = ((V1.put c r right.tapeId).2.putStore c (V1.put c r right.tapeId).1 ind right,
          (V1.put c r right.tapeId).2) := by
        unfold VecAD.store
        dsimp only
        rw [← hV1, hvv, hv', hd]
        simp
      rw [e]
      refine ⟨m1, m2, m3, m4, Or.inr k5, m5, fun _ w k hk i => m5 w k hk (by rw [k5]; omega) i⟩
    · have e : V.store c r ind right = (r, V1) := by
        unfold VecAD.store
        dsimp only
        rw [if_pos (by show (!r.varVec V1 && _) = true; rw [hvv, hv']; simp only [hd]; rfl)]
      rw [e]
      refine ⟨hr, (Ext.refl r).toExt0, fun _ => rfl, ⟨hdata, fun w => by rw [vecSet_length, hV.2.1, hlen1], ?_⟩, Or.inl ⟨rfl, rfl⟩,
        fun _ _ _ _ _ => rfl, fun _ _ _ _ _ => rfl⟩
      rw [hvv, if_neg hv]
      intro w
      show vecSet (d w) (di w.sel) (dr w) = V1.data
      rw [h3 w, hi.not_dv hcon w.sel, hq.not_dv hd w]

end CppAD.Record
