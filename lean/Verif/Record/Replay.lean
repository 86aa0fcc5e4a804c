import Verif.Record.VecOk
import Verif.Record.AtomOk
import Verif.Record.Prog

/-! # The recording represents the algorithm -/

open scoped Classical

namespace CppAD.Record

open CppAD

variable {c : Cfg} {w0 : World} {r : Rec}

/-! ## Comparisons -/

theorem bne_decide (p : Prop) [Decidable p] (res : Bool) : (decide p != res) = true ↔ (res = true ∧ ¬ p) ∨ (res = false ∧ p) := by
  cases res <;> simp

theorem cmpVV_change (cop : CompareOp) (res : Bool) (x y : ℕ) (par e : ℕ → ℝ) :
    (cmpVV cop res x y).change par e = (decide (cop.holds (e x) (e y)) != res) := by
  rw [Bool.eq_iff_iff, bne_decide]
  cases cop <;> cases res <;> simp [cmpVV, ROp.change, CompareOp.holds]

theorem cmpVP_change (cop : CompareOp) (res : Bool) (x p : ℕ) (par e : ℕ → ℝ) :
    (cmpVP cop res x p).change par e = (decide (cop.holds (e x) (par p)) != res) := by
  rw [Bool.eq_iff_iff, bne_decide]
  cases cop <;> cases res <;> simp [cmpVP, ROp.change, CompareOp.holds, @eq_comm ℝ (e x)]

theorem cmpPV_change (cop : CompareOp) (res : Bool) (p y : ℕ) (par e : ℕ → ℝ) :
    (cmpPV cop res p y).change par e = (decide (cop.holds (par p) (e y)) != res) := by
  rw [Bool.eq_iff_iff, bne_decide]
  cases cop <;> cases res <;> simp [cmpPV, ROp.change, CompareOp.holds]

theorem cmpPP_change (cop : CompareOp) (res : Bool) (p q : ℕ) (par e : ℕ → ℝ) :
    (cmpPP cop res p q).change par e = (decide (cop.holds (par p) (par q)) != res) := by
  rw [Bool.eq_iff_iff, bne_decide]
  cases cop <;> cases res <;> simp [cmpPP, ROp.change, CompareOp.holds]

theorem cmpVV_info (cop : CompareOp) (res : Bool) (x y : ℕ) : (cmpVV cop res x y).isCmp = true ∧
    (∀ a ∈ (cmpVV cop res x y).cmpVars, a = x ∨ a = y) ∧ (cmpVV cop res x y).parArgs = [] := by
  cases cop <;> cases res <;> simp [cmpVV, ROp.isCmp, ROp.cmpVars, ROp.parArgs]

theorem cmpVP_info (cop : CompareOp) (res : Bool) (x p : ℕ) : (cmpVP cop res x p).isCmp = true ∧
    (cmpVP cop res x p).cmpVars = [x] ∧ (cmpVP cop res x p).parArgs = [p] := by
  cases cop <;> cases res <;> simp [cmpVP, ROp.isCmp, ROp.cmpVars, ROp.parArgs]

theorem cmpPV_info (cop : CompareOp) (res : Bool) (p y : ℕ) : (cmpPV cop res p y).isCmp = true ∧
    (cmpPV cop res p y).cmpVars = [y] ∧ (cmpPV cop res p y).parArgs = [p] := by
  cases cop <;> cases res <;> simp [cmpPV, ROp.isCmp, ROp.cmpVars, ROp.parArgs]

theorem cmpPP_info (cop : CompareOp) (res : Bool) (p q : ℕ) : (cmpPP cop res p q).isCmp = true ∧
    (cmpPP cop res p q).cmpVars = [] ∧ (∀ a ∈ (cmpPP cop res p q).parArgs, a = p ∨ a = q) := by
  cases cop <;> cases res <;> simp [cmpPP, ROp.isCmp, ROp.cmpVars, ROp.parArgs]

theorem putQuiet_ok (hr : RInv c w0 r) (op : ROp) (hc : op.quiet = true) (hv : ∀ w, ∀ a ∈ op.cmpVars, a ∈ r.use c w)
    (hp : ∀ a ∈ op.parArgs, a < r.parAll.length) (ht : ∀ a ∈ op.txtArgs, '\x00' ∈ r.text.drop a) :
    RInv c w0 (r.putOp op).1 ∧ Keep c r (r.putOp op).1 ∧
    ∀ w, (r.putOp op).1.cmps c w =
      ((r.cmps c w).1 ++ (if op.isCmp then [(r.n + 1 + opCount r.ops, op.change (r.parAt c w) (r.env c w))] else []),
       (r.cmps c w).2 ++ op.print r.text (r.parAt c w) (r.env c w)) := by
  have hres : ∀ w, (r.putOp op).1.resAt c w = r.resAt c w := by
    intro w
    show resolve c.disc (r.parAt c w) r.vecs (r.ops ++ [op]) (r.n + 1) (indEnv (at' w.z)) (initMem r.vecs) = _
    rw [resolve_snoc, ROp.toOpM_none (ROp.nres_cmp hc)]
    simp only
    rw [ROp.memM_cmp hc]; rfl
  have hops : ∀ w, (r.putOp op).1.opsAt c w = r.opsAt c w := fun w => by unfold Rec.opsAt; rw [hres]
  have hmem : ∀ w, (r.putOp op).1.memAt c w = r.memAt c w := fun w => by unfold Rec.memAt; rw [hres]
  have henv : ∀ w, (r.putOp op).1.env c w = r.env c w := by
    intro w; unfold Rec.env; rw [hops]; rfl
  have huse : ∀ w, (r.putOp op).1.use c w = r.use c w := by
    intro w; unfold Rec.use; rw [hops]; rfl
  have hnv : (r.putOp op).1.numVar = r.numVar := by
    show r.numVar + op.nres = _
    rw [ROp.nres_cmp hc]; rfl
  have hva : op.vecArgs = [] := by cases op <;> first | rfl | simp [ROp.quiet, ROp.isCmp] at hc
  refine ⟨⟨hr.dyn, hr.len, hr.pos, hr.vals, ?_, ?_, ?_, hr.id, ?_, ?_, hr.vpar, ?_, ?_⟩,
    ⟨⟨rfl, rfl, rfl, le_rfl, fun _ _ _ => rfl, ?_, le_rfl, fun _ _ => rfl⟩, fun w k _ i => by rw [hmem]⟩, ?_⟩
  · intro w; rw [hops]; exact hr.wf w
  · intro w; rw [hops, hnv]; exact hr.nv w
  · intro op' hop a h
    have hop' : op' ∈ r.ops ++ [op] := hop
    rw [List.mem_append, List.mem_singleton] at hop'
    rcases hop' with h' | rfl
    · exact hr.par op' h' a h
    · exact hp a h
  · exact CmpWF_snoc (disc := c.disc) (par := r.parAt c w0) (vecs := r.vecs) op (indEnv (at' w0.z)) (initMem r.vecs) hr.cmp
      (by rw [ROp.cellVars_of_cmp hc, List.append_nil]; exact hv w0)
  · intro op' hop a h
    have hop' : op' ∈ r.ops ++ [op] := hop
    rw [List.mem_append, List.mem_singleton] at hop'
    rcases hop' with h' | rfl
    · exact hr.vec op' h' a h
    · rw [hva] at h; simp at h
  · intro w k hk i hi
    rw [hmem]
    have := hr.cell w k hk i hi
    cases hm : r.memAt c w k i with
    | par p => rw [hm] at this; exact this
    | var v => rw [hm] at this; show v ∈ (r.putOp op).1.use c w; rw [huse]; exact this
  · intro op' hop a h
    have hop' : op' ∈ r.ops ++ [op] := hop
    rw [List.mem_append, List.mem_singleton] at hop'
    rcases hop' with h' | rfl
    · exact hr.txt op' h' a h
    · exact ht a h
  · intro w v hv; rw [huse, henv]; exact ⟨hv, rfl⟩
  · intro w
    unfold Rec.cmps
    rw [henv]
    refine Prod.ext ?_ ?_
    · show cmpList (r.parAt c w) _ (r.ops ++ [op]) (r.n + 1) = _
      rw [cmpList_snoc]
    · show priList r.text (r.parAt c w) _ (r.ops ++ [op]) = _
      rw [priList_snoc]

theorem putCmp_ok (hr : RInv c w0 r) (op : ROp) (hc : op.isCmp = true) (hv : ∀ w, ∀ a ∈ op.cmpVars, a ∈ r.use c w)
    (hp : ∀ a ∈ op.parArgs, a < r.parAll.length) :
    RInv c w0 (r.putOp op).1 ∧ Keep c r (r.putOp op).1 ∧
    ∀ w, (r.putOp op).1.cmps c w =
      ((r.cmps c w).1 ++ [(r.n + 1 + opCount r.ops, op.change (r.parAt c w) (r.env c w))], (r.cmps c w).2) := by
  obtain ⟨h1, h2, h3⟩ := putQuiet_ok hr op (ROp.quiet_of_cmp hc) hv hp (by rw [ROp.txtArgs_of_cmp hc]; simp)
  refine ⟨h1, h2, fun w => ?_⟩
  rw [h3, if_pos hc, ROp.print_nil (ROp.txtArgs_of_cmp hc), List.append_nil]

/-- recording a comparison whose outcome is `b w` when the arguments are `w` -/
structure CmpStep (c : Cfg) (w0 : World) (r : Rec) (res : Rec × Bool × Option ℕ) (b : World → Bool) : Prop where
  inv : RInv c w0 res.1
  ext : Keep c r res.1
  out : res.2.1 = b w0
  cmps : ∀ w, res.1.cmps c w = ((r.cmps c w).1 ++ (res.2.2.map fun k => (k, b w != b w0)).toList, (r.cmps c w).2)
  none : res.2.2 = none → r.recordCompare = true → ∀ w, b w = b w0

theorem compareAD_ok (hr : RInv c w0 r) (cop : CompareOp) {x y : AD} {dx dy : World → ℝ} (hx : Den c w0 r x dx)
    (hy : Den c w0 r y dy) : CmpStep c w0 r (compareAD c r cop x y) (fun w => decide (cop.holds (dx w) (dy w))) := by
  have hb : decide (cop.holds x.value y.value) = decide (cop.holds (dx w0) (dy w0)) := by rw [hx.1, hy.1]
  unfold compareAD
  dsimp only
  by_cases hrc : (!r.recordCompare) = true
  · rw [if_pos hrc]
    exact ⟨hr, (Ext.refl r).toKeep, hb, fun w => by simp, fun _ h => by simp [h] at hrc⟩
  · rw [if_neg hrc]
    by_cases vx : r.var x = true
    · rw [if_pos vx]
      have ux := hx.of_var vx
      by_cases vy : r.var y = true
      · rw [if_pos vy]
        have uy := hy.of_var vy
        obtain ⟨i1, i2, i3⟩ := cmpVV_info cop (decide (cop.holds x.value y.value)) x.taddr y.taddr
        obtain ⟨h1, h2, h3⟩ := putCmp_ok hr _ i1 (fun w a ha => by
          rcases i2 a ha with rfl | rfl
          exacts [(ux w).1, (uy w).1]) (by rw [i3]; simp)
        refine ⟨h1, h2, hb, fun w => ?_, fun h => by simp at h⟩
        rw [h3, cmpVV_change, (ux w).2, (uy w).2, hb]; rfl
      · rw [if_neg vy]
        obtain ⟨p1, p2, p3, p4, p5, -⟩ := parAddr_ok hr hy vy
        obtain ⟨i1, i2, i3⟩ := cmpVP_info cop (decide (cop.holds x.value y.value)) x.taddr (r.parAddr c y).2
        obtain ⟨h1, h2, h3⟩ := putCmp_ok p1 _ i1 (fun w a ha => by
          rw [i2, List.mem_singleton] at ha; subst ha
          exact (p2.env w _ (ux w).1).1) (by rw [i3]; simpa using p3)
        refine ⟨h1, p2.toKeep.trans h2, hb, fun w => ?_, fun h => by simp at h⟩
        rw [h3, cmpVP_change, (p2.env w _ (ux w).1).2, (ux w).2, p4, hb, p2.cmps, p2.n, p5]; rfl
    · rw [if_neg vx]
      by_cases vy : r.var y = true
      · rw [if_pos vy]
        have uy := hy.of_var vy
        obtain ⟨p1, p2, p3, p4, p5, -⟩ := parAddr_ok hr hx vx
        obtain ⟨i1, i2, i3⟩ := cmpPV_info cop (decide (cop.holds x.value y.value)) (r.parAddr c x).2 y.taddr
        obtain ⟨h1, h2, h3⟩ := putCmp_ok p1 _ i1 (fun w a ha => by
          rw [i2, List.mem_singleton] at ha; subst ha
          exact (p2.env w _ (uy w).1).1) (by rw [i3]; simpa using p3)
        refine ⟨h1, p2.toKeep.trans h2, hb, fun w => ?_, fun h => by simp at h⟩
        rw [h3, cmpPV_change, (p2.env w _ (uy w).1).2, (uy w).2, p4, hb, p2.cmps, p2.n, p5]; rfl
      · rw [if_neg vy]
        by_cases hd : (r.dyn x || r.dyn y) = true
        · rw [if_pos hd]
          obtain ⟨p1, p2, p3, p4, p5, -⟩ := parAddr_ok hr hx vx
          have vy' : ¬ (r.parAddr c x).1.var y = true := by
            unfold Rec.var at vy ⊢; rw [p2.id]; exact vy
          obtain ⟨q1, q2, q3, q4, q5, -⟩ := parAddr_ok p1 (hy.mono p2) vy'
          obtain ⟨i1, i2, i3⟩ := cmpPP_info cop (decide (cop.holds x.value y.value)) (r.parAddr c x).2
            ((r.parAddr c x).1.parAddr c y).2
          obtain ⟨h1, h2, h3⟩ := putCmp_ok q1 _ i1 (fun w a ha => by rw [i2] at ha; simp at ha) (fun a ha => by
            rcases i3 a ha with rfl | rfl
            exacts [lt_of_lt_of_le p3 q2.len, q3])
          refine ⟨h1, (p2.toKeep.trans q2.toKeep).trans h2, hb, fun w => ?_, fun h => by simp at h⟩
          rw [h3, cmpPP_change, q2.par w _ p3, p4, q4, hb, q2.cmps, p2.cmps, q2.n, p2.n, q5, p5]; rfl
        · rw [if_neg hd]
          obtain ⟨h1, h2⟩ := not_or_dyn hd
          refine ⟨hr, (Ext.refl r).toKeep, hb, fun w => by simp, fun _ _ w => ?_⟩
          rw [hx.of_con vx h1, hx.of_con vx h1, hy.of_con vy h2, hy.of_con vy h2]

/-! ## PrintFor -/

theorem cstr_append {t u : List Char} (h : '\x00' ∈ t) : cstr (t ++ u) = cstr t := by
  induction t with
  | nil => simp at h
  | cons a t ih =>
    unfold cstr at ih ⊢
    rw [List.cons_append, List.takeWhile_cons, List.takeWhile_cons]
    by_cases ha : a = '\x00'
    · simp [ha]
    · have h' : '\x00' ∈ t := by
        rcases List.mem_cons.1 h with h | h
        · exact absurd h.symm ha
        · exact h
      rw [ih h']

theorem readTxt_append {t u : List Char} {i : ℕ} (h : '\x00' ∈ t.drop i) : readTxt (t ++ u) i = readTxt t i := by
  have hi : i ≤ t.length := by
    by_contra hc
    rw [List.drop_eq_nil_of_le (by omega)] at h
    simp at h
  unfold readTxt
  rw [List.drop_append_of_le_length hi, cstr_append h]

theorem cstr_end (t : List Char) : cstr (cstr t ++ ['\x00']) = cstr t := by
  induction t with
  | nil => simp [cstr]
  | cons a t ih =>
    unfold cstr at ih ⊢
    rw [List.takeWhile_cons]
    by_cases ha : a = '\x00'
    · simp [ha]
    · simp only [ne_eq, ha, not_false_eq_true, decide_true, if_true, List.cons_append, List.takeWhile_cons]
      exact congrArg _ ih

theorem putTxt_ok (hr : RInv c w0 r) (t : List Char) :
    RInv c w0 (r.putTxt t).1 ∧ Ext c r (r.putTxt t).1 ∧ '\x00' ∈ (r.putTxt t).1.text.drop (r.putTxt t).2 ∧
    readTxt (r.putTxt t).1.text (r.putTxt t).2 = cstr t := by
  refine ⟨⟨hr.dyn, hr.len, hr.pos, hr.vals, hr.wf, hr.nv, hr.par, hr.id, hr.cmp, hr.vec, hr.vpar, ?_, ?_⟩,
    ⟨⟨⟨rfl, rfl, rfl, le_rfl, fun _ _ _ => rfl, fun _ _ h => ⟨h, rfl⟩, le_rfl, fun _ _ => rfl⟩, fun _ _ _ _ => rfl⟩, fun w => ?_⟩, ?_, ?_⟩
  · intro w k hk i hi
    have := hr.cell w k hk i hi
    change (r.putTxt t).1.CellOk c w (r.memAt c w k i)
    cases hm : r.memAt c w k i with
    | par p => rw [hm] at this; exact this
    | var v => rw [hm] at this; exact this
  · intro op hop a ha
    have h := hr.txt op hop a ha
    show '\x00' ∈ (r.text ++ (cstr t ++ ['\x00'])).drop a
    rw [List.drop_append]
    exact List.mem_append_left _ h
  · refine Prod.ext rfl ?_
    show priList (r.text ++ (cstr t ++ ['\x00'])) (r.parAt c w) (r.env c w) r.ops = _
    exact priList_congr (fun op hop a ha => readTxt_append (hr.txt op hop a ha)) (fun _ _ _ _ => rfl) fun _ _ _ _ => rfl
  · show '\x00' ∈ (r.text ++ (cstr t ++ ['\x00'])).drop r.text.length
    rw [List.drop_left]
    simp
  · show cstr ((r.text ++ (cstr t ++ ['\x00'])).drop r.text.length) = _
    rw [List.drop_left, cstr_end]

theorem priAddr_ok (hr : RInv c w0 r) {a : AD} {d : World → ℝ} (h : Den c w0 r a d) :
    RInv c w0 (r.priAddr c a).1 ∧ Ext c r (r.priAddr c a).1 ∧ (r.priAddr c a).1.text = r.text ∧
    ((r.priAddr c a).2.2 = false → (r.priAddr c a).2.1 < (r.priAddr c a).1.parAll.length ∧
      ∀ w, (r.priAddr c a).1.parAt c w (r.priAddr c a).2.1 = d w) ∧
    ((r.priAddr c a).2.2 = true → ∀ w, (r.priAddr c a).2.1 ∈ (r.priAddr c a).1.use c w ∧
      (r.priAddr c a).1.env c w (r.priAddr c a).2.1 = d w) := by
  unfold Rec.priAddr
  by_cases hc : r.constant a = true
  · rw [if_pos hc]
    obtain ⟨h1, h2, h3, h4, h5⟩ := putCon_ok (c := c) hr a.value
    refine ⟨h1, h2, rfl, fun _ => ⟨h3, fun w => (h4 w).trans ?_⟩, fun h => by simp at h⟩
    have := h.2
    rw [if_neg (by simpa [Rec.constant] using hc)] at this
    exact (this w).symm
  · rw [if_neg hc]
    have hid : a.tapeId = r.id := by simpa [Rec.constant] using hc
    refine ⟨hr, Ext.refl r, rfl, fun hd => ?_, fun hd => ?_⟩
    · exact h.of_dyn (by simpa using hd)
    · refine h.of_var ?_
      have hd' : r.dyn a = false := by simpa using hd
      simp only [Rec.dyn, hid, decide_true, Bool.true_and, decide_eq_false_iff_not] at hd'
      simp [Rec.var, hid, hd']

theorem printFor_ok (hr : RInv c w0 r) {x y : AD} {dx dy : World → ℝ} (hx : Den c w0 r x dx) (hy : Den c w0 r y dy)
    (before after : List Char) :
    RInv c w0 (printFor c r x before y after) ∧ Keep c r (printFor c r x before y after) ∧
    ∀ w, (printFor c r x before y after).cmps c w =
      ((r.cmps c w).1, (r.cmps c w).2 ++ if 0 < dx w then [] else [(cstr before, dy w, cstr after)]) := by
  unfold printFor
  dsimp only
  obtain ⟨a1, a2, a3, a4, a5⟩ := priAddr_ok hr hx
  generalize r.priAddr c x = A at a1 a2 a3 a4 a5 ⊢
  obtain ⟨b1, b2, b3, b4⟩ := putTxt_ok a1 before
  generalize hB : A.1.putTxt before = B at b1 b2 b3 b4 ⊢
  obtain ⟨c1, c2, c3, c4, c5⟩ := priAddr_ok b1 (hy.mono (a2.trans b2))
  generalize B.1.priAddr c y = C at c1 c2 c3 c4 c5 ⊢
  obtain ⟨d1, d2, d3, d4⟩ := putTxt_ok c1 after
  have hT : (C.1.putTxt after).1.text = B.1.text ++ (cstr after ++ ['\x00']) := by
    show C.1.text ++ _ = _
    rw [c3]
  generalize C.1.putTxt after = E at d1 d2 d3 d4 hT ⊢
  have hx1 : A.2.2 = false → A.2.1 < E.1.parAll.length ∧ ∀ w, E.1.parAt c w A.2.1 = dx w := by
    intro h
    have h0 := a4 h
    have e := (b2.trans c2).trans d2
    exact ⟨lt_of_lt_of_le h0.1 e.len, fun w => (e.par w _ h0.1).trans (h0.2 w)⟩
  have hx2 : A.2.2 = true → ∀ w, A.2.1 ∈ E.1.use c w ∧ E.1.env c w A.2.1 = dx w := by
    intro h w
    have h0 := a5 h w
    have e := ((b2.trans c2).trans d2).env w _ h0.1
    exact ⟨e.1, e.2.trans h0.2⟩
  have hy1 : C.2.2 = false → C.2.1 < E.1.parAll.length ∧ ∀ w, E.1.parAt c w C.2.1 = dy w := by
    intro h
    have h0 := c4 h
    exact ⟨lt_of_lt_of_le h0.1 d2.len, fun w => (d2.par w _ h0.1).trans (h0.2 w)⟩
  have hy2 : C.2.2 = true → ∀ w, C.2.1 ∈ E.1.use c w ∧ E.1.env c w C.2.1 = dy w := by
    intro h w
    have h0 := c5 h w
    have e := d2.env w _ h0.1
    exact ⟨e.1, e.2.trans h0.2⟩
  have t0 : ((if A.2.2 then 1 else 0) + (if C.2.2 then 2 else 0) : ℕ).testBit 0 = A.2.2 := by
    cases A.2.2 <;> cases C.2.2 <;> rfl
  have t1 : ((if A.2.2 then 1 else 0) + (if C.2.2 then 2 else 0) : ℕ).testBit 1 = C.2.2 := by
    cases A.2.2 <;> cases C.2.2 <;> rfl
  have rb : readTxt E.1.text B.2 = cstr before := by rw [hT, readTxt_append b3, b4]
  have mb : '\x00' ∈ E.1.text.drop B.2 := by
    rw [hT, List.drop_append]; exact List.mem_append_left _ b3
  generalize ((if A.2.2 then 1 else 0) + (if C.2.2 then 2 else 0) : ℕ) = flag at t0 t1 ⊢
  obtain ⟨h1, h2, h3⟩ := putQuiet_ok d1 (.pri flag A.2.1 B.2 C.2.1 E.2) rfl
    (by
      intro w a ha
      simp only [ROp.cmpVars, t0, t1, List.mem_append] at ha
      rcases ha with ha | ha
      · cases h : A.2.2 <;> simp only [h, Bool.false_eq_true, if_true, if_false, List.not_mem_nil, List.mem_singleton] at ha
        subst ha; exact (hx2 h w).1
      · cases h : C.2.2 <;> simp only [h, Bool.false_eq_true, if_true, if_false, List.not_mem_nil, List.mem_singleton] at ha
        subst ha; exact (hy2 h w).1)
    (by
      intro a ha
      simp only [ROp.parArgs, t0, t1, List.mem_append] at ha
      rcases ha with ha | ha
      · cases h : A.2.2 <;> simp only [h, Bool.false_eq_true, if_true, if_false, List.not_mem_nil, List.mem_singleton] at ha
        subst ha; exact (hx1 h).1
      · cases h : C.2.2 <;> simp only [h, Bool.false_eq_true, if_true, if_false, List.not_mem_nil, List.mem_singleton] at ha
        subst ha; exact (hy1 h).1)
    (by
      intro a ha
      simp only [ROp.txtArgs, List.mem_cons, List.not_mem_nil, or_false] at ha
      rcases ha with rfl | rfl
      exacts [mb, d3])
  have e := ((a2.trans b2).trans c2).trans d2
  refine ⟨h1, e.toKeep.trans h2, fun w => ?_⟩
  have hpos : (if A.2.2 = true then E.1.env c w A.2.1 else E.1.parAt c w A.2.1) = dx w := by
    cases h : A.2.2
    · rw [if_neg (by simp)]; exact (hx1 h).2 w
    · rw [if_pos rfl]; exact (hx2 h w).2
  have hval : (if C.2.2 = true then E.1.env c w C.2.1 else E.1.parAt c w C.2.1) = dy w := by
    cases h : C.2.2
    · rw [if_neg (by simp)]; exact (hy1 h).2 w
    · rw [if_pos rfl]; exact (hy2 h w).2
  rw [h3, e.cmps w]
  simp only [ROp.isCmp, Bool.false_eq_true, if_false, List.append_nil, ROp.print, t0, t1, hpos, hval, rb, d4, ite_not]

/-! ## The store -/

/-- the objects in the store `m` represent the components of the store `D` of real numbers -/
structure Store (c : Cfg) (w0 : World) (r : Rec) (m : List AD) (D : World → List ℝ) : Prop where
  len : ∀ w, (D w).length = m.length
  den : ∀ i, Den c w0 r (reg m i) (fun w => at' (D w) i)

theorem Store.mono0 {m : List AD} {D : World → List ℝ} {s : Rec} (h : Store c w0 r m D) (e : Ext0 c r s) :
    Store c w0 s m D := ⟨h.len, fun i => (h.den i).mono0 e⟩

theorem Store.push {m : List AD} {D : World → List ℝ} (hr : RInv c w0 r) (h : Store c w0 r m D) {a : AD} {d : World → ℝ}
    (ha : Den c w0 r a d) : Store c w0 r (m ++ [a]) (fun w => D w ++ [d w]) := by
  refine ⟨fun w => by simp [h.len], fun i => ?_⟩
  rcases lt_trichotomy i m.length with hi | hi | hi
  · have e1 : reg (m ++ [a]) i = reg m i := by
      unfold reg; rw [List.getD_append _ _ _ _ hi]
    have e2 : (fun w => at' (D w ++ [d w]) i) = fun w => at' (D w) i := by
      funext w; exact at'_append (by rw [h.len]; exact hi)
    rw [e1, e2]; exact h.den i
  · subst hi
    have e1 : reg (m ++ [a]) m.length = a := by simp [reg]
    have e2 : (fun w => at' (D w ++ [d w]) m.length) = d := by
      funext w; rw [← h.len w, at'_append_length]
    rw [e1, e2]; exact ha
  · have e1 : reg (m ++ [a]) i = AD.con 0 := by
      unfold reg; rw [List.getD_eq_default _ _ (by simp; omega)]
    rw [e1]
    refine Den.const _ (con_ne hr _) fun w => ?_
    unfold at'; rw [List.getD_eq_default _ _ (by simp [h.len]; omega)]; rfl

theorem Store.pushes (hr : RInv c w0 r) : ∀ (l : List AD) {m : List AD} {D : World → List ℝ} (_ : Store c w0 r m D) (d : ℕ → World → ℝ),
    (∀ i < l.length, ∃ a, l[i]? = some a ∧ Den c w0 r a (d i)) →
    Store c w0 r (m ++ l) (fun w => D w ++ (List.range l.length).map fun i => d i w)
  | [], m, D, h, d, _ => by simpa using h
  | a :: l, m, D, h, d, hd => by
    obtain ⟨b, hb, hden⟩ := hd 0 (by simp)
    have hb' : a = b := by simpa using hb
    subst hb'
    have := Store.pushes hr l (h.push hr hden) (fun i => d (i + 1)) fun i hi => by
      obtain ⟨b, hb, h'⟩ := hd (i + 1) (by simpa using hi)
      exact ⟨b, by simpa using hb, h'⟩
    simpa [List.range_succ_eq_map, Function.comp_def] using this

theorem Store.set {m : List AD} {D : World → List ℝ} (h : Store c w0 r m D) (k : ℕ) {a : AD} {d : World → ℝ}
    (ha : Den c w0 r a d) : Store c w0 r (m.set k a) (fun w => (D w).set k (d w)) := by
  refine ⟨fun w => by simp [h.len], fun i => ?_⟩
  by_cases hik : i = k ∧ k < m.length
  · obtain ⟨rfl, hk⟩ := hik
    have e1 : reg (m.set i a) i = a := by simp [reg, List.getD_eq_getElem?_getD, hk]
    have e2 : (fun w => at' ((D w).set i (d w)) i) = d := by
      funext w; simp [at', List.getD_eq_getElem?_getD, h.len, hk]
    rw [e1, e2]; exact ha
  · have e1 : reg (m.set k a) i = reg m i := by
      unfold reg
      by_cases hk : k < m.length
      · rw [List.getD_eq_getElem?_getD, List.getD_eq_getElem?_getD, List.getElem?_set_ne (by tauto)]
      · rw [List.set_eq_of_length_le (by omega)]
    have e2 : (fun w => at' ((D w).set k (d w)) i) = fun w => at' (D w) i := by
      funext w
      unfold at'
      by_cases hk : k < m.length
      · rw [List.getD_eq_getElem?_getD, List.getD_eq_getElem?_getD, List.getElem?_set_ne (by tauto)]
      · rw [List.set_eq_of_length_le (by rw [h.len]; omega)]
    rw [e1, e2]; exact h.den i

/-- the vectors in the store `vs` represent the components of the store `D` of vectors of real numbers, and no two of them
are the same vector in the recording -/
structure VStore (c : Cfg) (w0 : World) (r : Rec) (vs : List VecAD) (D : World → List (List ℝ)) : Prop where
  len : ∀ w, (D w).length = vs.length
  den : ∀ k, VDen c w0 r (vreg vs k) (fun w => (D w).getD k [])
  dist : ∀ j k, j ≠ k → r.varVec (vreg vs j) = true → r.varVec (vreg vs k) = true → (vreg vs j).vec ≠ (vreg vs k).vec

theorem VStore.mono {vs : List VecAD} {D : World → List (List ℝ)} {s : Rec} (hr : RInv c w0 r) (h : VStore c w0 r vs D)
    (e : Keep c r s) : VStore c w0 s vs D :=
  ⟨h.len, fun k => (h.den k).mono hr e, fun j k hjk hj hk => by
    rw [varVec_eq e.id] at hj hk; exact h.dist j k hjk hj hk⟩

theorem VStore.vec_lt {vs : List VecAD} {D : World → List (List ℝ)} (h : VStore c w0 r vs D) {k : ℕ}
    (hk : r.varVec (vreg vs k) = true) : (vreg vs k).vec < r.vecs.length := by
  have := (h.den k).2.2
  rw [if_pos hk] at this
  exact this.1

theorem con_varVec (hr : RInv c w0 r) (d : List ℝ) : r.varVec (VecAD.con d) = false := by
  simp [Rec.varVec, VecAD.con]

theorem VDen.con (hr : RInv c w0 r) {V : VecAD} (hV : r.varVec V = false) {d : World → List ℝ} (h : ∀ w, d w = V.data) :
    VDen c w0 r V d :=
  ⟨(h w0).symm, fun w => by rw [h], by rw [if_neg (by rw [hV]; simp)]; exact h⟩

theorem VStore.push {vs : List VecAD} {D : World → List (List ℝ)} (hr : RInv c w0 r) (h : VStore c w0 r vs D) (d : List ℝ) :
    VStore c w0 r (vs ++ [VecAD.con d]) (fun w => D w ++ [d]) := by
  have hreg : ∀ k, vreg (vs ++ [VecAD.con d]) k = if k = vs.length then VecAD.con d else vreg vs k := by
    intro k
    unfold vreg
    rcases lt_trichotomy k vs.length with hk | hk | hk
    · rw [List.getD_append _ _ _ _ hk, if_neg (by omega)]
    · subst hk; simp
    · rw [if_neg (by omega), List.getD_eq_default _ _ (by simp; omega), List.getD_eq_default _ _ (by omega)]
  have hD : ∀ w k, (D w ++ [d]).getD k [] = if k = vs.length then d else (D w).getD k [] := by
    intro w k
    rcases lt_trichotomy k vs.length with hk | hk | hk
    · rw [List.getD_append _ _ _ _ (by rw [h.len]; exact hk), if_neg (by omega)]
    · subst hk; rw [if_pos rfl, ← h.len w]; simp
    · rw [if_neg (by omega), List.getD_eq_default _ _ (by simp [h.len]; omega), List.getD_eq_default _ _ (by rw [h.len]; omega)]
  refine ⟨fun w => by simp [h.len], fun k => ?_, fun j k hjk hj hk => ?_⟩
  · rw [hreg]
    simp only [hD]
    split_ifs with hk
    · exact VDen.con hr (con_varVec hr d) fun _ => rfl
    · exact h.den k
  · rw [hreg] at hj hk ⊢
    rw [hreg]
    split_ifs at hj hk ⊢ with h1 h2
    · rw [con_varVec hr] at hj; simp at hj
    · rw [con_varVec hr] at hj; simp at hj
    · rw [con_varVec hr] at hk; simp at hk
    · exact h.dist j k hjk hj hk

/-- replacing a vector, after an extension `s` of the recorder `r` in which the other vectors have the same elements -/
theorem VStore.set {vs : List VecAD} {D : World → List (List ℝ)} {s : Rec} (hr : RInv c w0 r) (h : VStore c w0 r vs D)
    (e : Ext0 c r s) (k : ℕ) {V : VecAD} {d : World → List ℝ} (hV : VDen c w0 s V d)
    (hm : ∀ w, ∀ j < r.vecs.length, (s.varVec V = true → j ≠ V.vec) → ∀ i, s.memAt c w j i = r.memAt c w j i)
    (hv : s.varVec V = true → (V.vec = (vreg vs k).vec ∧ r.varVec (vreg vs k) = true) ∨ r.vecs.length ≤ V.vec) :
    VStore c w0 s (vs.set k V) (fun w => (D w).set k (d w)) := by
  have hreg : ∀ j, vreg (vs.set k V) j = if j = k ∧ k < vs.length then V else vreg vs j := by
    intro j
    unfold vreg
    by_cases hjk : j = k ∧ k < vs.length
    · obtain ⟨rfl, hk⟩ := hjk
      simp [List.getD_eq_getElem?_getD, hk]
    · rw [if_neg hjk]
      by_cases hk : k < vs.length
      · rw [List.getD_eq_getElem?_getD, List.getD_eq_getElem?_getD, List.getElem?_set_ne (by tauto)]
      · rw [List.set_eq_of_length_le (by omega)]
  have hD : ∀ w j, ((D w).set k (d w)).getD j [] = if j = k ∧ k < vs.length then d w else (D w).getD j [] := by
    intro w j
    by_cases hjk : j = k ∧ k < vs.length
    · obtain ⟨rfl, hk⟩ := hjk
      simp [List.getD_eq_getElem?_getD, hk, h.len]
    · rw [if_neg hjk]
      by_cases hk : k < vs.length
      · rw [List.getD_eq_getElem?_getD, List.getD_eq_getElem?_getD, List.getElem?_set_ne (by tauto)]
      · rw [List.set_eq_of_length_le (by rw [h.len]; omega)]
  have hne : ∀ j, ¬ (j = k ∧ k < vs.length) → r.varVec (vreg vs j) = true → s.varVec V = true → (vreg vs j).vec ≠ V.vec := by
    intro j hj hvj hVv
    rcases hv hVv with ⟨h1, h2⟩ | h1
    · rw [h1]
      refine h.dist j k (fun hjk => ?_) hvj h2
      subst hjk
      have : vreg vs j = VecAD.con [] := by
        unfold vreg; rw [List.getD_eq_default _ _ (not_lt.1 fun h' => hj ⟨rfl, h'⟩)]
      rw [this, con_varVec hr] at h2; simp at h2
    · have := h.vec_lt hvj; omega
  refine ⟨fun w => by simp [h.len], fun j => ?_, fun i j hij hi hj => ?_⟩
  · rw [hreg]
    simp only [hD]
    by_cases hj : j = k ∧ k < vs.length
    · simp only [if_pos hj]
      exact hV
    · simp only [if_neg hj]
      exact (h.den j).mono' hr e fun hvj w i => hm w _ (h.vec_lt hvj) (hne j hj hvj) i
  · rw [hreg] at hi hj ⊢
    rw [hreg]
    by_cases h1 : i = k ∧ k < vs.length
    · have h2 : ¬ (j = k ∧ k < vs.length) := fun h2 => hij (h1.1.trans h2.1.symm)
      rw [if_pos h1] at hi ⊢
      rw [if_neg h2] at hj ⊢
      rw [varVec_eq e.id] at hj
      exact (hne j h2 hj hi).symm
    · rw [if_neg h1] at hi ⊢
      rw [varVec_eq e.id (vreg vs i)] at hi
      by_cases h2 : j = k ∧ k < vs.length
      · rw [if_pos h2] at hj ⊢
        exact hne i h1 hi hj
      · rw [if_neg h2] at hj ⊢
        rw [varVec_eq e.id] at hj
        exact h.dist i j hij hi hj

/-- objects and vectors -/
structure Stores (c : Cfg) (w0 : World) (r : Rec) (s : Objs) (D : World → Vals) : Prop where
  m : Store c w0 r s.m fun w => (D w).m
  vs : VStore c w0 r s.vs fun w => (D w).vs

/-! ## Instructions -/

theorem Instr.record_ok0 (hr : RInv c w0 r) (hw : w0.sel = w0) {m : Objs} {D : World → Vals} (h : Stores c w0 r m D) (i : Instr)
    (hf : i.Faithful r m) (hnp : ∀ a b e d, i ≠ .print a b e d) :
    RInv c w0 (i.record c r m).1 ∧ Ext0 c r (i.record c r m).1 ∧ (∀ w, (i.record c r m).1.cmps c w = r.cmps c w) ∧
    Stores c w0 (i.record c r m).1 (i.record c r m).2 (fun w => i.run c.disc (D w.sel) (D w)) := by
  have push : ∀ {res : Rec × AD} {d : World → ℝ}, Step c w0 r res d →
      RInv c w0 res.1 ∧ Ext0 c r res.1 ∧ (∀ w, res.1.cmps c w = r.cmps c w) ∧
      Stores c w0 res.1 { m with m := m.m ++ [res.2] } (fun w => { D w with m := (D w).m ++ [d w] }) := fun hs =>
    ⟨hs.inv, hs.ext.toExt0, hs.ext.cmps, ⟨(h.m.mono0 hs.ext.toExt0).push hs.inv hs.den, h.vs.mono hr hs.ext.toKeep⟩⟩
  have set : ∀ {res : Rec × AD} {d : World → ℝ} (k : ℕ), Step c w0 r res d →
      RInv c w0 res.1 ∧ Ext0 c r res.1 ∧ (∀ w, res.1.cmps c w = r.cmps c w) ∧
      Stores c w0 res.1 { m with m := m.m.set k res.2 } (fun w => { D w with m := (D w).m.set k (d w) }) := fun k hs =>
    ⟨hs.inv, hs.ext.toExt0, hs.ext.cmps, ⟨(h.m.mono0 hs.ext.toExt0).set k hs.den, h.vs.mono hr hs.ext.toKeep⟩⟩
  -- operator[] alone
  have index : ∀ k (ind : AD), VStore c w0 ((vreg m.vs k).index c r ind).1 (m.vs.set k ((vreg m.vs k).index c r ind).2)
      fun w => (D w).vs := by
    intro k ind
    obtain ⟨i1, i2, i3, i4, i5, i6⟩ := index_ok hr (h.vs.den k) (ind := ind)
    have := h.vs.set hr i2.toExt0 k i3 (fun w j hj _ i => i2.mem w j hj i) (fun hv => by
      rcases i6 with e | e
      · left
        rw [e] at hv ⊢
        exact ⟨rfl, by rw [← varVec_eq i2.id]; exact hv⟩
      · right; omega)
    have e : (fun w => (D w).vs.set k ((D w).vs.getD k [])) = fun w => (D w).vs := by
      funext w
      refine List.ext_getElem? fun j => ?_
      rcases Nat.lt_or_ge k (D w).vs.length with hk | hk
      · by_cases hjk : j = k
        · subst hjk; simp [hk, List.getD_eq_getElem?_getD]
        · rw [List.getElem?_set_ne (fun h => hjk h.symm)]
      · rw [List.set_eq_of_length_le hk]
    rw [e] at this
    exact this
  cases i with
  | print a b e d => exact absurd rfl (hnp a b e d)
  | con v => exact push (Step.here hr (Den.const (AD.con v) (con_ne hr _) fun _ => rfl))
  | un f i => exact push (unAD_ok hr f (h.m.den i))
  | dis k i => exact push (disAD_ok hr k (h.m.den i))
  | assign i j => exact set i (Step.here hr (h.m.den j))
  | cexp cop l rt t f => exact push (cexpAD_ok hr cop (h.m.den l) (h.m.den rt) (h.m.den t) (h.m.den f) hf)
  | opEq f i j =>
    cases f
    · exact set i (addEqAD_ok hr (h.m.den i) (h.m.den j))
    · exact set i (subEqAD_ok hr (h.m.den i) (h.m.den j))
    · exact set i (mulEqAD_ok hr (h.m.den i) (h.m.den j))
    · exact set i (divEqAD_ok hr (h.m.den i) (h.m.den j))
  | bin f i j =>
    cases f
    · exact push (addAD_ok hr (h.m.den i) (h.m.den j))
    · exact push (subAD_ok hr (h.m.den i) (h.m.den j))
    · exact push (mulAD_ok hr (h.m.den i) (h.m.den j))
    · exact push (divAD_ok hr (h.m.den i) (h.m.den j))
    · exact push (azmulAD_ok hr (h.m.den i) (h.m.den j))
    · exact push (powAD_ok hr (h.m.den i) (h.m.den j) hf)
  | atom F args =>
    have hx : DenAll c w0 r ((List.range F.A.n).map fun j => reg m.m (args.getD j 0)) (fun j w => at' (D w).m (args.getD j 0)) := by
      intro j hj
      rw [List.getElem_map, List.getElem_range]
      exact h.m.den _
    obtain ⟨a1, a2, a3, a4⟩ := atomAD_ok hr F (by simp) hx
    refine ⟨a1, a2.toExt0, a2.cmps, ⟨?_, h.vs.mono hr a2.toKeep⟩⟩
    have := Store.pushes a1 _ (h.m.mono0 a2.toExt0) (fun i w => F.A.fn (fun j => at' (D w).m (args.getD j 0)) i) (by rw [a3]; exact a4)
    rw [a3] at this
    exact this
  | vnew d => exact ⟨hr, (Ext.refl r).toExt0, fun _ => rfl, ⟨h.m, h.vs.push hr d⟩⟩
  | vset k i v =>
    have hc : r.varVec (vreg m.vs k) = false := hf
    have hd := (h.vs.den k).2.2
    rw [if_neg (by rw [hc]; simp)] at hd
    refine ⟨hr, (Ext.refl r).toExt0, fun _ => rfl, ⟨h.m, ?_⟩⟩
    refine h.vs.set hr (Ext.refl r).toExt0 k (V := { vreg m.vs k with data := (vreg m.vs k).data.set i v }) (VDen.con hr (V := { vreg m.vs k with data := (vreg m.vs k).data.set i v }) hc fun w => ?_) (fun _ _ _ _ _ => rfl) (fun hv => ?_)
    · show ((D w).vs.getD k []).set i v = (vreg m.vs k).data.set i v
      rw [show (D w).vs.getD k [] = (vreg m.vs k).data from hd w]
    · have hv' : r.varVec (vreg m.vs k) = true := hv
      rw [hc] at hv'; simp at hv'
  | vget k i =>
    have hc : r.varVec (vreg m.vs k) = false := hf
    have hd := (h.vs.den k).2.2
    rw [if_neg (by rw [hc]; simp)] at hd
    exact push (d := fun w => at' ((D w).vs.getD k []) i) (Step.here hr (Den.const (AD.con (at' (vreg m.vs k).data i)) (con_ne hr _) fun w => by
      show at' ((D w).vs.getD k []) i = _
      rw [show (D w).vs.getD k [] = (vreg m.vs k).data from hd w]; rfl))
  | touch k i =>
    obtain ⟨i1, i2, i3, i4, i5, i6⟩ := index_ok hr (h.vs.den k) (ind := reg m.m i)
    exact ⟨i1, i2.toExt0, i2.cmps, ⟨h.m.mono0 i2.toExt0, index k _⟩⟩
  | vload k i =>
    obtain ⟨i1, i2, i3, i4, i5, i6⟩ := index_ok hr (h.vs.den k) (ind := reg m.m i)
    obtain ⟨l1, l2, l3, l4⟩ := load_ok i1 hw i3 ((h.m.den i).mono i2) (fun hc => by
      rw [dyn_eq i2.id, isV_eq i2.id]; exact i5 hc)
    refine ⟨l1, i2.toExt0.trans l2.toExt0, fun w => (l3 w).trans (i2.cmps w), ⟨?_, (index k _).mono i1 l2⟩⟩
    exact ((h.m.mono0 i2.toExt0).mono0 l2.toExt0).push l1 l4
  | vstore k i j =>
    obtain ⟨i1, i2, i3, i4, i5, i6⟩ := index_ok hr (h.vs.den k) (ind := reg m.m i)
    have hvs := h.vs.mono hr i2.toKeep
    obtain ⟨l1, l2, l3, l4, l5, l6, l7⟩ := store_ok i1 hw i3 ((h.m.den i).mono i2) ((h.m.den j).mono i2) (fun hc => by
      rw [dyn_eq i2.id, isV_eq i2.id]; exact i5 hc)
    refine ⟨l1, i2.toExt0.trans l2, fun w => (l3 w).trans (i2.cmps w), ⟨(h.m.mono0 i2.toExt0).mono0 l2, ?_⟩⟩
    · refine h.vs.set hr (i2.toExt0.trans l2) k l4 (fun w j' hj' hne i' => ?_) (fun hv => ?_)
      · have hj2 : j' < ((vreg m.vs k).index c r (reg m.m i)).1.vecs.length := lt_of_lt_of_le hj' i2.lenv
        refine Eq.trans ?_ (i2.mem w j' hj' i')
        by_cases hv : ((vreg m.vs k).index c r (reg m.m i)).1.varVec ((vreg m.vs k).index c r (reg m.m i)).2 = true
        · refine l6 w j' hj2 ?_ i'
          rcases l5 with ⟨-, e2⟩ | e
          · exact hne (by rw [e2]; exact hv)
          · rw [e]; omega
        · exact l7 hv w j' hj2 i'
      · rcases l5 with ⟨e1, e2⟩ | e
        · rcases i6 with e' | e'
          · left
            rw [e1, e']
            refine ⟨rfl, ?_⟩
            rw [e2, e', varVec_eq i2.id] at hv
            exact hv
          · right; rw [e1, e']
        · right; rw [e]; exact i2.lenv

theorem Instr.record_ok (hr : RInv c w0 r) (hw : w0.sel = w0) {m : Objs} {D : World → Vals} (h : Stores c w0 r m D) (i : Instr)
    (hf : i.Faithful r m) :
    RInv c w0 (i.record c r m).1 ∧ Ext0 c r (i.record c r m).1 ∧
    (∀ w, (i.record c r m).1.cmps c w = ((r.cmps c w).1, (r.cmps c w).2 ++ i.prints (D w))) ∧
    Stores c w0 (i.record c r m).1 (i.record c r m).2 (fun w => i.run c.disc (D w.sel) (D w)) := by
  by_cases hp : ∃ a b e d, i = .print a b e d
  · obtain ⟨a, b, e, d, rfl⟩ := hp
    obtain ⟨h1, h2, h3⟩ := printFor_ok hr (h.m.den a) (h.m.den e) b d
    exact ⟨h1, h2.toExt0, h3, ⟨h.m.mono0 h2.toExt0, h.vs.mono hr h2⟩⟩
  · push Not at hp
    obtain ⟨h1, h2, h3, h4⟩ := Instr.record_ok0 hr hw h i hf hp
    refine ⟨h1, h2, fun w => ?_, h4⟩
    have e : i.prints (D w) = [] := by
      cases i with
      | print a b e d => exact absurd rfl (hp a b e d)
      | _ => rfl
    rw [h3, e, List.append_nil]

/-! ## Dependent variables -/

theorem dependent_ok (hr : RInv c w0 r) {a : AD} {d : World → ℝ} (ha : Den c w0 r a d) :
    RInv c w0 (r.dependent c a).1 ∧ Ext c r (r.dependent c a).1 ∧
    ∀ w, (r.dependent c a).2 ∈ (r.dependent c a).1.use c w ∧ (r.dependent c a).1.env c w (r.dependent c a).2 = d w := by
  unfold Rec.dependent
  by_cases hv : r.var a = true
  · rw [if_pos hv]
    exact ⟨hr, Ext.refl r, ha.of_var hv⟩
  · rw [if_neg hv]
    obtain ⟨p1, p2, p3, p4, -⟩ := parAddr_ok hr ha hv
    obtain ⟨h1, h2, h3⟩ := putOp_ok p1 (.par (r.parAddr c a).2) (fun w => .par (d w)) (fun w => by
      show some (Op.par _) = _
      rw [p4]) (fun _ => rfl) (by simpa [ROp.parArgs] using p3) (fun w a ha => by simp [Op.args] at ha)
    exact ⟨h1, p2.trans h2, h3⟩

theorem dependents_ok : ∀ (l : List (AD × (World → ℝ))) {r : Rec}, RInv c w0 r → (∀ q ∈ l, Den c w0 r q.1 q.2) →
    RInv c w0 (r.dependents c (l.map Prod.fst)).1 ∧ Ext c r (r.dependents c (l.map Prod.fst)).1 ∧
    ∀ w, (∀ d ∈ (r.dependents c (l.map Prod.fst)).2, d ∈ (r.dependents c (l.map Prod.fst)).1.use c w) ∧
      (r.dependents c (l.map Prod.fst)).2.map ((r.dependents c (l.map Prod.fst)).1.env c w) = l.map fun q => q.2 w
  | [], r, hr, _ => ⟨hr, Ext.refl r, fun w => ⟨by simp [Rec.dependents], rfl⟩⟩
  | q :: l, r, hr, h => by
    obtain ⟨h1, h2, h3⟩ := dependent_ok hr (h q List.mem_cons_self)
    obtain ⟨k1, k2, k3⟩ := dependents_ok l h1 fun q' hq => (h q' (List.mem_cons_of_mem _ hq)).mono h2
    refine ⟨k1, h2.trans k2, fun w => ⟨?_, ?_⟩⟩
    · intro d hd
      rcases List.mem_cons.1 hd with rfl | hd
      · exact (k2.env w _ (h3 w).1).1
      · exact (k3 w).1 d hd
    · exact List.cons_eq_cons.2 ⟨((k2.env w _ (h3 w).1).2).trans (h3 w).2, (k3 w).2⟩

/-! ## Algorithms -/

/-- the comparisons that have an operator on the tape, given the outcomes `bs` while recording and `bs'` now -/
def cmpPairs : List (Option ℕ) → List Bool → List Bool → List (ℕ × Bool)
  | k :: ks, b :: bs, b' :: bs' => (k.map fun k => (k, b' != b)).toList ++ cmpPairs ks bs bs'
  | _, _, _ => []

/-- what is proved about the recording `R` of an algorithm that started with the recorder `r` -/
structure RecOk (c : Cfg) (w0 : World) (P : Prog) (r : Rec) (D : World → Vals) (R : Recorded) : Prop where
  inv : RInv c w0 R.r
  ext : Ext0 c r R.r
  len : R.marks.length = R.outcomes.length
  out : R.outcomes = P.outcomes c.disc R.outcomes (D w0.sel) (D w0)
  dep : ∀ w, (∀ d ∈ R.dep, d ∈ R.r.use c w) ∧ R.dep.map (R.r.env c w) = P.follow c.disc R.outcomes (D w.sel) (D w)
  cmps : ∀ w, R.r.cmps c w = ((r.cmps c w).1 ++ cmpPairs R.marks R.outcomes (P.outcomes c.disc R.outcomes (D w.sel) (D w)),
    (r.cmps c w).2 ++ P.prints c.disc R.outcomes (D w.sel) (D w))
  marks : r.recordCompare = true → ∀ w, ∀ k : ℕ, R.marks[k]? = some none →
      (P.outcomes c.disc R.outcomes (D w.sel) (D w))[k]? = R.outcomes[k]?

theorem Prog.record_ok (hw : w0.sel = w0) (P : Prog) : ∀ {r : Rec} {m : Objs} {D : World → Vals}, RInv c w0 r → Stores c w0 r m D →
    P.Faithful c r m → RecOk c w0 P r D (P.record c r m) := by
  induction P with
  | ret ys =>
    intro r m D hr hm _
    have := dependents_ok (c := c) (w0 := w0) (ys.map fun y => (reg m.m y, fun w => at' (D w).m y)) hr (by
      intro q hq
      obtain ⟨y, _, rfl⟩ := List.mem_map.1 hq
      exact hm.m.den y)
    rw [List.map_map] at this
    obtain ⟨h1, h2, h3⟩ := this
    refine ⟨h1, h2.toExt0, rfl, rfl, fun w => ⟨(h3 w).1, ?_⟩, fun w => ?_, fun _ w k hk => ?_⟩
    · refine ((h3 w).2).trans ?_
      rw [List.map_map]; rfl
    · show (r.dependents c (ys.map (reg m.m))).1.cmps c w = ((r.cmps c w).1 ++ [], (r.cmps c w).2 ++ [])
      rw [List.append_nil, List.append_nil]
      exact h2.cmps w
    · simp [Prog.record] at hk
  | instr i k ih =>
    intro r m D hr hm hf
    obtain ⟨h1, h2, h3, h4⟩ := Instr.record_ok hr hw hm i hf.1
    have hk := ih h1 h4 hf.2
    refine ⟨hk.inv, h2.trans hk.ext, hk.len, hk.out, hk.dep, fun w => ?_, fun hrc => hk.marks (by rw [h2.cmp]; exact hrc)⟩
    refine (hk.cmps w).trans ?_
    rw [h3 w]
    simp only [List.append_assoc]
    rfl
  | branch cop i j yes no ihy ihn =>
    intro r m D hr hm hf
    have hc := compareAD_ok hr cop (hm.m.den i) (hm.m.den j)
    have hm' : Stores c w0 (compareAD c r cop (reg m.m i) (reg m.m j)).1 m D := ⟨hm.m.mono0 hc.ext.toExt0, hm.vs.mono hr hc.ext⟩
    have key : ∀ (Q : Prog) (b : Bool), (compareAD c r cop (reg m.m i) (reg m.m j)).2.1 = b →
        (∀ bs z m', (Prog.branch cop i j yes no).follow c.disc (b :: bs) z m' = Q.follow c.disc bs z m') →
        (∀ bs z m', (Prog.branch cop i j yes no).outcomes c.disc (b :: bs) z m' =
          decide (cop.holds (at' m'.m i) (at' m'.m j)) :: Q.outcomes c.disc bs z m') →
        (∀ bs z m', (Prog.branch cop i j yes no).prints c.disc (b :: bs) z m' = Q.prints c.disc bs z m') →
        RecOk c w0 Q (compareAD c r cop (reg m.m i) (reg m.m j)).1 D (Q.record c (compareAD c r cop (reg m.m i) (reg m.m j)).1 m) →
        (let e := Q.record c (compareAD c r cop (reg m.m i) (reg m.m j)).1 m
         let R : Recorded := ⟨e.r, e.dep, b :: e.outcomes, (compareAD c r cop (reg m.m i) (reg m.m j)).2.2 :: e.marks⟩
         RecOk c w0 (Prog.branch cop i j yes no) r D R) := by
      intro Q b hb hfol hout hpri hk
      have hb0 : b = decide (cop.holds (at' (D w0).m i) (at' (D w0).m j)) := by rw [← hb]; exact hc.out
      refine ⟨hk.inv, hc.ext.toExt0.trans hk.ext, by simp [hk.len], ?_, fun w => ⟨(hk.dep w).1, ?_⟩, fun w => ?_, fun hrc w k hk' => ?_⟩
      · simp only [hout]
        rw [← hk.out, ← hb0]
      · simp only [hfol]
        exact (hk.dep w).2
      · simp only [hout, hpri]
        rw [hk.cmps w, hc.cmps w, List.append_assoc]
        refine Prod.ext ?_ rfl
        show (r.cmps c w).1 ++ _ = (r.cmps c w).1 ++ _
        congr 1
        rw [cmpPairs, ← hb0]
      · simp only [hout]
        cases k with
        | zero =>
          simp only [List.getElem?_cons_zero, Option.some.injEq] at hk' ⊢
          rw [hb0]
          exact hc.none hk' hrc w
        | succ k =>
          simp only [List.getElem?_cons_succ] at hk' ⊢
          exact hk.marks (by rw [hc.ext.cmp]; exact hrc) w k hk'
    unfold Prog.Faithful at hf
    unfold Prog.record
    dsimp only at hf ⊢
    by_cases hb : (compareAD c r cop (reg m.m i) (reg m.m j)).2.1 = true
    · rw [if_pos hb] at hf
      have := key yes true hb (fun _ _ _ => by simp [Prog.follow]) (fun _ _ _ => by simp [Prog.outcomes]) (fun _ _ _ => by simp [Prog.prints]) (ihy hc.inv hm' hf)
      simpa only [hb, if_true] using this
    · rw [if_neg hb] at hf
      have hb' : (compareAD c r cop (reg m.m i) (reg m.m j)).2.1 = false := by simpa using hb
      have := key no false hb' (fun _ _ _ => by simp [Prog.follow]) (fun _ _ _ => by simp [Prog.outcomes]) (fun _ _ _ => by simp [Prog.prints]) (ihn hc.inv hm' hf)
      simpa only [hb', if_false, Bool.false_eq_true] using this

/-- the direct execution follows the operation sequence selected by its own outcomes -/
theorem Prog.run_eq_follow (disc : ℕ → ℝ → ℝ) (P : Prog) : ∀ (bs : List Bool) (m : Vals), P.outcomes disc bs m m = bs →
    P.run disc m = P.follow disc bs m m := by
  induction P with
  | ret ys => intros; rfl
  | instr i k ih => intro bs m h; exact ih bs _ h
  | branch cop i j yes no ihy ihn =>
    intro bs m h
    cases bs with
    | nil => simp [Prog.outcomes] at h
    | cons b bs =>
      simp only [Prog.outcomes, List.headD_cons, List.tail_cons, List.cons.injEq] at h
      obtain ⟨h1, h2⟩ := h
      cases b with
      | true =>
        have h1' : cop.holds (at' m.m i) (at' m.m j) := by simpa using h1
        simp only [Prog.run, Prog.follow]
        rw [if_pos h1', if_pos (by simp)]
        exact ihy bs m (by simpa using h2)
      | false =>
        have h1' : ¬ cop.holds (at' m.m i) (at' m.m j) := by simpa using h1
        simp only [Prog.run, Prog.follow]
        rw [if_neg h1', if_neg (by simp)]
        exact ihn bs m (by simpa using h2)

/-- the output of the direct execution is that of the operation sequence selected by its own outcomes -/
theorem Prog.runPrints_eq (disc : ℕ → ℝ → ℝ) (P : Prog) : ∀ (bs : List Bool) (m : Vals), P.outcomes disc bs m m = bs →
    P.runPrints disc m = P.prints disc bs m m := by
  induction P with
  | ret ys => intros; rfl
  | instr i k ih => intro bs m h; exact congrArg _ (ih bs _ h)
  | branch cop i j yes no ihy ihn =>
    intro bs m h
    cases bs with
    | nil => simp [Prog.outcomes] at h
    | cons b bs =>
      simp only [Prog.outcomes, List.headD_cons, List.tail_cons, List.cons.injEq] at h
      obtain ⟨h1, h2⟩ := h
      cases b with
      | true =>
        have h1' : cop.holds (at' m.m i) (at' m.m j) := by simpa using h1
        simp only [Prog.runPrints, Prog.prints]
        rw [if_pos h1', if_pos (by simp)]
        exact ihy bs m (by simpa using h2)
      | false =>
        have h1' : ¬ cop.holds (at' m.m i) (at' m.m j) := by simpa using h1
        simp only [Prog.runPrints, Prog.prints]
        rw [if_neg h1', if_neg (by simp)]
        exact ihn bs m (by simpa using h2)

/-! ## Stores that select the same elements -/

/-- the vectors of two stores have the same sizes -/
def SameSize (z s : Vals) : Prop := ∀ k, (z.vs.getD k []).length = (s.vs.getD k []).length

theorem getD_set_length (l : List (List ℝ)) (k j : ℕ) (d : List ℝ) (hd : d.length = (l.getD k []).length) :
    ((l.set k d).getD j []).length = (l.getD j []).length := by
  by_cases hjk : j = k ∧ k < l.length
  · obtain ⟨rfl, hk⟩ := hjk
    rw [← hd]; simp [List.getD_eq_getElem?_getD, hk]
  · by_cases hk : k < l.length
    · rw [List.getD_eq_getElem?_getD, List.getD_eq_getElem?_getD, List.getElem?_set_ne (by tauto)]
    · rw [List.set_eq_of_length_le (by omega)]

theorem Instr.run_size (disc : ℕ → ℝ → ℝ) {i : Instr} {z s : Vals} (h : SameSize z s) (hl : z.vs.length = s.vs.length) (z' : Vals) :
    SameSize (i.run disc z z) (i.run disc z' s) ∧ (i.run disc z z).vs.length = (i.run disc z' s).vs.length := by
  have hvs : ∀ (a b c d : Vals), a.vs = z.vs → b.vs = s.vs → SameSize a b ∧ a.vs.length = b.vs.length := by
    intro a b _ _ ha hb
    exact ⟨fun k => by rw [ha, hb]; exact h k, by rw [ha, hb]; exact hl⟩
  cases i with
  | vnew d =>
    refine ⟨fun k => ?_, by simp [Instr.run, hl]⟩
    show ((z.vs ++ [d]).getD k []).length = ((s.vs ++ [d]).getD k []).length
    rcases Nat.lt_or_ge k z.vs.length with hk | hk
    · rw [List.getD_append _ _ _ _ hk, List.getD_append _ _ _ _ (by omega)]; exact h k
    · rw [List.getD_append_right _ _ _ _ hk, List.getD_append_right _ _ _ _ (by omega), hl]
  | vset k i v =>
    refine ⟨fun j => ?_, by simp [Instr.run, hl]⟩
    show ((z.vs.set k _).getD j []).length = ((s.vs.set k _).getD j []).length
    rw [getD_set_length _ _ _ _ (by simp), getD_set_length _ _ _ _ (by simp)]; exact h j
  | vstore k i j =>
    refine ⟨fun j => ?_, by simp [Instr.run, hl]⟩
    show ((z.vs.set k _).getD j []).length = ((s.vs.set k _).getD j []).length
    rw [getD_set_length _ _ _ _ (vecSet_length _ _ _), getD_set_length _ _ _ _ (vecSet_length _ _ _)]; exact h j
  | _ => exact hvs _ _ z z rfl rfl

theorem vecGet_congr {d : List ℝ} {x y : ℝ} (h : vecIndex d.length x = vecIndex d.length y) : vecGet d x = vecGet d y := by
  unfold vecGet; rw [h]

theorem vecSet_congr {d : List ℝ} {x y v : ℝ} (h : vecIndex d.length x = vecIndex d.length y) : vecSet d x v = vecSet d y v := by
  unfold vecSet; rw [h]

theorem Instr.run_same (disc : ℕ → ℝ → ℝ) {i : Instr} {z s : Vals} (h : SameSize z s) (ha : i.access z = i.access s) :
    i.run disc z s = i.run disc s s := by
  cases i with
  | vload k i =>
    simp only [Instr.access, List.cons.injEq, and_true, h k] at ha
    simp only [Instr.run]
    rw [vecGet_congr ha]
  | vstore k i j =>
    simp only [Instr.access, List.cons.injEq, and_true, h k] at ha
    simp only [Instr.run]
    rw [vecSet_congr ha]
  | _ => rfl

theorem Instr.access_length (i : Instr) (s s' : Vals) : (i.access s).length = (i.access s').length := by
  cases i <;> rfl

/-- when the same elements are used at `z` and at `s`, then fixing the elements at `z` makes no difference at `s` -/
theorem Prog.follow_same (disc : ℕ → ℝ → ℝ) (P : Prog) : ∀ (bs : List Bool) (z s : Vals), SameSize z s → z.vs.length = s.vs.length →
    P.accesses disc bs z = P.accesses disc bs s → P.follow disc bs z s = P.follow disc bs s s := by
  induction P with
  | ret ys => intros; rfl
  | instr i k ih =>
    intro bs z s h hl ha
    obtain ⟨a1, a2⟩ := List.append_inj ha (Instr.access_length i _ _)
    have e := Instr.run_same disc h a1
    have hs := Instr.run_size disc (i := i) h hl s
    show k.follow disc bs (i.run disc z z) (i.run disc z s) = _
    rw [e]
    exact ih bs _ _ hs.1 hs.2 a2
  | branch cop i j yes no ihy ihn =>
    intro bs z s h hl ha
    simp only [Prog.follow, Prog.accesses] at ha ⊢
    split_ifs at ha ⊢
    · exact ihy _ _ _ h hl ha
    · exact ihn _ _ _ h hl ha

end CppAD.Record
