import Verif.Graph.From

/-! # from_graph: the operators of the graph -/

open scoped Classical

namespace CppAD.Graph

open CppAD CppAD.Record CppAD.Optim

variable {fn : Txt → ℝ → ℝ} {c : FCfg} {ind : List ℝ} {st : ℕ → ℝ} {nV nI : ℕ}

/-- is the node a constant -/
def isCon (t : AdType) : Bool := decide (t = .constant)

/-- after the independent variables and the independent dynamic parameters -/
def Main (nV nI : ℕ) (s : FromSt) : Prop := nV < s.ops.length ∧ nI ≤ s.r.dynOps.length

/-- nodes with values `R` were added, `con` tells which are constants, `e` of the comparisons added are not true -/
def Out (c : FCfg) (ind : List ℝ) (st : ℕ → ℝ) (nV nI : ℕ) (s : FromSt) (F : ℕ → ℝ) (V : List ℝ) (s' : FromSt) (R : List ℝ)
    (con : List Bool) (e : ℕ) : Prop :=
  ∃ F', FI c ind st nV nI s' (V ++ R) F' ∧ Main nV nI s' ∧ s'.typ.map isCon = s.typ.map isCon ++ con ∧ s'.fails c ind F' = s.fails c ind F + e ∧
    Grows c.disc ind s.r s'.r ∧ ∃ l, s'.r.parAll = s.r.parAll ++ l

theorem Main.ext {s s' : FromSt} {F F' : ℕ → ℝ} {e : ℕ} (h : Main nV nI s) (x : Ext c ind s s' F F' e) : Main nV nI s' := by
  obtain ⟨o, ho⟩ := x.ops
  exact ⟨by rw [ho]; have := h.1; simp; omega, h.2.trans x.dynOps⟩

variable {s s' : FromSt} {F F' : ℕ → ℝ} {V : List ℝ}

theorem Out.mk' {e j : ℕ} {t : AdType} {v : ℝ} (h : FI c ind st nV nI s V F) (hm : Main nV nI s)
    (h' : RI c ind st nV nI s' F') (x : Ext c ind s s' F F' e) (hn : NodeV c ind s' F' t j v) :
    Out c ind st nV nI s F V (FromSt.push (s', j) t) [v] [isCon t] e := by
  refine ⟨F', h.push h' x hn, show Main nV nI s' from hm.ext x, ?_, x.fails, x.grows, x.parAll⟩
  show (s'.typ ++ [t]).map isCon = _
  rw [x.typ]; simp

theorem opFail_res {P F : ℕ → ℝ} {op : VOp} (h : op.hasRes = true) : opFail P F op = 0 := by
  cases op <;> simp_all [opFail, VOp.hasRes]

theorem main_op (hm : Main nV nI s) {op : VOp} (h : op.isInd = false) : op.isInd = true ↔ s.ops.length ≤ nV := by
  have := hm.1; rw [h]; constructor
  · intro h; cases h
  · intro h; omega

/-- a variable operator -/
theorem var_step (h : RI c ind st nV nI s F) (hm : Main nV nI s) (op : VOp)
    (hv : ∀ v ∈ op.vars, 1 ≤ v ∧ v < s.ops.length ∧ (s.ops.getD v .begin).hasRes = true) (hp : ∀ p ∈ op.pars, 1 ≤ p ∧ p < s.r.parAll.length)
    (hs : op.supported = true) (hr : op.hasRes = true) (hi : op.isInd = false) :
    ∃ F', RI c ind st nV nI (s.op op).1 F' ∧ Ext c ind s (s.op op).1 F F' 0 ∧
      NodeV c ind (s.op op).1 F' .variable (s.op op).2 (op.res c.disc (s.P c ind) (finSt F)) := by
  obtain ⟨F', h1, h2, h3, h4, h5, h6⟩ := op_ok h op hv hp hs (main_op hm hi)
  rw [opFail_res hr] at h2
  refine ⟨F', h1, h2, ?_⟩
  rw [h3]
  rw [hi] at h6
  refine ⟨by have := hm.1; omega, by rw [h4]; simp, ?_, h6⟩
  rw [h4, List.getD_append_right _ _ _ _ (le_refl _)]; simpa using hr

theorem var_push (h : FI c ind st nV nI s V F) (hm : Main nV nI s) (op : VOp) {v : ℝ}
    (hv : ∀ v ∈ op.vars, 1 ≤ v ∧ v < s.ops.length ∧ (s.ops.getD v .begin).hasRes = true) (hp : ∀ p ∈ op.pars, 1 ≤ p ∧ p < s.r.parAll.length)
    (hs : op.supported = true) (hr : op.hasRes = true) (hi : op.isInd = false) (hval : op.res c.disc (s.P c ind) (finSt F) = v) :
    Out c ind st nV nI s F V (FromSt.push (s.op op) .variable) [v] [false] 0 := by
  obtain ⟨F', h1, h2, h3⟩ := var_step h.rc hm op hv hp hs hr hi
  rw [hval] at h3
  exact Out.mk' h hm h1 h2 h3

theorem dyn_step (h : RI c ind st nV nI s F) (hm : Main nV nI s) (op : DynOp) (ha : ∀ a ∈ op.args, 1 ≤ a ∧ a < s.r.parAll.length) (hne : op ≠ .ind) (hel : op.elem := by trivial) :
    RI c ind st nV nI (s.dyn c op).1 F ∧ Ext c ind s (s.dyn c op).1 F F 0 ∧
      NodeV c ind (s.dyn c op).1 F .dynamic (s.dyn c op).2 (op.eval c.disc ind s.r.dynOps.length (parVals c.disc ind s.r)) := by
  have h2 := hm.2
  obtain ⟨h1, h2, h3, h4, h5, -⟩ := dyn_ok h op ha ⟨fun h => absurd h hne, fun h => by omega⟩ fun h => by omega
  exact ⟨h1, h2, h3, h4, h5⟩

theorem dyn_push (h : FI c ind st nV nI s V F) (hm : Main nV nI s) (op : DynOp) {v : ℝ} (ha : ∀ a ∈ op.args, 1 ≤ a ∧ a < s.r.parAll.length)
    (hne : op ≠ .ind) (hval : op.eval c.disc ind s.r.dynOps.length (parVals c.disc ind s.r) = v)
    (hel : op.elem := by trivial) :
    Out c ind st nV nI s F V (FromSt.push (s.dyn c op) .dynamic) [v] [false] 0 := by
  obtain ⟨h1, h2, h3⟩ := dyn_step h.rc hm op ha hne
  rw [hval] at h3
  exact Out.mk' h hm h1 h2 h3

theorem con_step (h : RI c ind st nV nI s F) (v : ℝ) :
    RI c ind st nV nI (s.con c v).1 F ∧ Ext c ind s (s.con c v).1 F F 0 ∧ NodeV c ind (s.con c v).1 F .constant (s.con c v).2 v := by
  obtain ⟨h1, h2, h3, h4, h5, h6, -⟩ := con_ok h v
  exact ⟨h1, h2, h3, h4, h5, h6⟩

theorem con_push (h : FI c ind st nV nI s V F) (hm : Main nV nI s) {v w : ℝ} (hv : w = v) :
    Out c ind st nV nI s F V (FromSt.push (s.con c w) .constant) [v] [true] 0 := by
  obtain ⟨h1, h2, h3⟩ := con_step h.rc w
  rw [← hv]
  exact Out.mk' h hm h1 h2 h3

/-! ## Arguments -/

theorem FI.varN (h : FI c ind st nV nI s V F) {a : ℕ} (h1 : 1 ≤ a) (h2 : a < V.length) (ht : s.ty a = .variable) :
    (1 ≤ s.ix a ∧ s.ix a < s.ops.length ∧ (s.ops.getD (s.ix a) .begin).hasRes = true) ∧ F (s.ix a) = at' V a := by
  have := h.node a h1 h2
  rw [ht] at this
  exact ⟨⟨this.1, this.2.1, this.2.2.1⟩, this.2.2.2⟩

theorem FI.parN (h : FI c ind st nV nI s V F) {a : ℕ} (h1 : 1 ≤ a) (h2 : a < V.length) (ht : s.ty a ≠ .variable) :
    (1 ≤ s.ix a ∧ s.ix a < s.r.parAll.length) ∧ s.P c ind (s.ix a) = at' V a := by
  have := (h.node a h1 h2).par ht
  exact ⟨⟨this.1, this.2.1⟩, this.2.2⟩

theorem FI.conN (h : FI c ind st nV nI s V F) {a : ℕ} (h1 : 1 ≤ a) (h2 : a < V.length) (ht : s.ty a = .constant) :
    s.par a = at' V a := by
  have := h.node a h1 h2
  rw [ht] at this
  exact this.2.2.2

theorem FI.opd (h : FI c ind st nV nI s V F) {a : ℕ} (h1 : 1 ≤ a) (h2 : a < V.length) :
    (s.opd a).val (s.P c ind) F = at' V a ∧ (∀ v ∈ (s.opd a).vars, 1 ≤ v ∧ v < s.ops.length ∧ (s.ops.getD v .begin).hasRes = true) ∧
    ∀ p ∈ (s.opd a).pars, 1 ≤ p ∧ p < s.r.parAll.length := by
  unfold FromSt.opd
  by_cases ht : s.ty a = .variable
  · rw [if_pos ht]
    obtain ⟨k1, k2⟩ := h.varN h1 h2 ht
    refine ⟨k2, fun v hv => ?_, fun p hp => by simp [Arg.pars] at hp⟩
    simp only [Arg.vars, List.mem_singleton] at hv; subst hv; exact k1
  · rw [if_neg ht]
    obtain ⟨k1, k2⟩ := h.parN h1 h2 ht
    refine ⟨k2, fun p hp => by simp [Arg.vars] at hp, fun v hv => ?_⟩
    simp only [Arg.pars, List.mem_singleton] at hv; subst hv; exact k1

theorem all_con (s : FromSt) (l : List ℕ) : (l.all fun a => isCon (s.ty a)) = (!s.anyVar l && !s.anyDyn l) := by
  unfold FromSt.anyVar FromSt.anyDyn isCon
  induction l with
  | nil => rfl
  | cons a l ih =>
    simp only [List.all_cons, List.any_cons, ih]
    cases s.ty a <;> simp

theorem not_anyVar {l : List ℕ} (h : s.anyVar l = false) : ∀ a ∈ l, s.ty a ≠ .variable := by
  unfold FromSt.anyVar at h; simpa using h

theorem not_anyDyn {l : List ℕ} (h : s.anyDyn l = false) : ∀ a ∈ l, s.ty a ≠ .dynamic := by
  unfold FromSt.anyDyn at h; simpa using h

theorem con_of {l : List ℕ} (h : s.anyVar l = false) (h' : s.anyDyn l = false) {a : ℕ} (ha : a ∈ l) : s.ty a = .constant := by
  have h1 := not_anyVar h a ha
  have h2 := not_anyDyn h' a ha
  cases e : s.ty a <;> simp_all

theorem isCon_of {a : ℕ} {t : AdType} (h : s.ty a = t) : isCon (s.ty a) = isCon t := by rw [h]

/-! ## The operators -/

theorem un_ok (h : FI c ind st nV nI s V F) (hm : Main nV nI s) (f : UnF) {a : ℕ} (h1 : 1 ≤ a) (h2 : a < V.length) :
    Out c ind st nV nI s F V (s.un c f a) [f.fn (at' V a)] [isCon (s.ty a)] 0 := by
  unfold FromSt.un
  cases ht : s.ty a with
  | «variable» =>
    obtain ⟨k1, k2⟩ := h.varN h1 h2 ht
    obtain ⟨F', r1, r2, r3⟩ := var_step h.rc hm (.un f (s.ix a)) (by simpa [VOp.vars] using k1) (by simp [VOp.pars]) rfl rfl rfl
    have e : ∃ s', s' = (s.op (.un f (s.ix a))).1.erfPars c f ∧ RI c ind st nV nI s' F' ∧ Ext c ind (s.op (.un f (s.ix a))).1 s' F' F' 0 := by
      refine ⟨_, rfl, ?_⟩
      unfold FromSt.erfPars
      split_ifs with hf
      · obtain ⟨q1, q2, -⟩ := con_step r1 0
        obtain ⟨q3, q4, -⟩ := con_step q1 (1 / Real.sqrt (Real.arctan 1))
        exact ⟨q3, q2.trans q4⟩
      · exact ⟨r1, .refl _ _⟩
    obtain ⟨s', rfl, q1, q2⟩ := e
    have := r3.ext q2
    simp only [VOp.res, finSt, k2] at this
    exact Out.mk' h hm q1 (r2.trans q2) this
  | dynamic =>
    obtain ⟨k1, k2⟩ := h.parN h1 h2 (by rw [ht]; simp)
    refine dyn_push h hm _ (by simpa [DynOp.args] using k1) (by simp) ?_
    show f.fn (s.P c ind (s.ix a)) = _
    rw [k2]
  | constant => exact con_push h hm (by rw [h.conN h1 h2 ht])

theorem dis_ok (h : FI c ind st nV nI s V F) (hm : Main nV nI s) (k : ℕ) {a : ℕ} (h1 : 1 ≤ a) (h2 : a < V.length) :
    Out c ind st nV nI s F V (s.dis c k a) [c.disc k (at' V a)] [isCon (s.ty a)] 0 := by
  unfold FromSt.dis
  cases ht : s.ty a with
  | «variable» =>
    obtain ⟨k1, k2⟩ := h.varN h1 h2 ht
    refine var_push h hm _ (by simpa [VOp.vars] using k1) (by simp [VOp.pars]) rfl rfl rfl ?_
    simp only [VOp.res, finSt, k2]
  | dynamic =>
    obtain ⟨k1, k2⟩ := h.parN h1 h2 (by rw [ht]; simp)
    refine dyn_push h hm _ (by simpa [DynOp.args] using k1) (by simp) ?_
    show c.disc k (s.P c ind (s.ix a)) = _
    rw [k2]
  | constant => exact con_push h hm (by rw [h.conN h1 h2 ht])

theorem bin_ok (h : FI c ind st nV nI s V F) (hm : Main nV nI s) (f : BinF) {a b : ℕ} (ha : 1 ≤ a ∧ a < V.length) (hb : 1 ≤ b ∧ b < V.length) :
    Out c ind st nV nI s F V (s.bin c f a b) [f.fn (at' V a) (at' V b)] [isCon (s.ty a) && isCon (s.ty b)] 0 := by
  unfold FromSt.bin
  by_cases va : s.ty a = .variable
  · obtain ⟨k1, k2⟩ := h.varN ha.1 ha.2 va
    by_cases vb : s.ty b = .variable
    · obtain ⟨j1, j2⟩ := h.varN hb.1 hb.2 vb
      rw [if_pos ⟨va, vb⟩, va]
      refine var_push h hm _ ?_ (by simp [VOp.pars]) rfl rfl rfl ?_
      · simp only [VOp.vars, List.mem_cons, List.not_mem_nil, or_false, forall_eq_or_imp, forall_eq]; exact ⟨k1, j1⟩
      · simp only [VOp.res, finSt, k2, j2]
    · obtain ⟨j1, j2⟩ := h.parN hb.1 hb.2 vb
      rw [if_neg (fun h => vb h.2), if_pos va, isCon_of va]
      split_ifs with hf
      · refine var_push h hm _ (by simpa [VOp.vars] using k1) (by simpa [VOp.pars] using j1) rfl rfl rfl ?_
        simp only [VOp.res, finSt, k2, j2]
        rcases hf with rfl | rfl
        · exact add_comm _ _
        · exact mul_comm _ _
      · refine var_push h hm _ (by simpa [VOp.vars] using k1) (by simpa [VOp.pars] using j1) rfl rfl rfl ?_
        simp only [VOp.res, finSt, k2, j2]
  · obtain ⟨k1, k2⟩ := h.parN ha.1 ha.2 va
    rw [if_neg (fun h => va h.1), if_neg va]
    by_cases vb : s.ty b = .variable
    · obtain ⟨j1, j2⟩ := h.varN hb.1 hb.2 vb
      rw [if_pos vb, isCon_of vb, show isCon .variable = false from rfl, Bool.and_false]
      refine var_push h hm _ (by simpa [VOp.vars] using j1) (by simpa [VOp.pars] using k1) rfl rfl rfl ?_
      simp only [VOp.res, finSt, k2, j2]
    · obtain ⟨j1, j2⟩ := h.parN hb.1 hb.2 vb
      rw [if_neg vb]
      by_cases hd : s.ty a = .dynamic ∨ s.ty b = .dynamic
      · rw [if_pos hd]
        have : (isCon (s.ty a) && isCon (s.ty b)) = false := by rcases hd with e | e <;> simp [e, isCon]
        rw [this]
        refine dyn_push h hm _ ?_ (by simp) ?_
        · simp only [DynOp.args, List.mem_cons, List.not_mem_nil, or_false, forall_eq_or_imp, forall_eq]; exact ⟨k1, j1⟩
        · show f.fn (s.P c ind (s.ix a)) (s.P c ind (s.ix b)) = _
          rw [k2, j2]
      · rw [if_neg hd]
        push Not at hd
        have ca : s.ty a = .constant := by cases e : s.ty a <;> simp_all
        have cb : s.ty b = .constant := by cases e : s.ty b <;> simp_all
        rw [isCon_of ca, isCon_of cb]
        exact con_push h hm (by rw [h.conN ha.1 ha.2 ca, h.conN hb.1 hb.2 cb])

theorem cexp_ok (h : FI c ind st nV nI s V F) (hm : Main nV nI s) (k : GCmp) {l r t f : ℕ} (hl : 1 ≤ l ∧ l < V.length) (hr : 1 ≤ r ∧ r < V.length)
    (ht : 1 ≤ t ∧ t < V.length) (hf : 1 ≤ f ∧ f < V.length) :
    Out c ind st nV nI s F V (s.cexp c k l r t f) [condExp k.cop (at' V l) (at' V r) (at' V t) (at' V f)]
      [[l, r, t, f].all fun a => isCon (s.ty a)] 0 := by
  unfold FromSt.cexp
  rw [all_con]
  cases hv : s.anyVar [l, r, t, f] with
  | true =>
    obtain ⟨l1, l2, l3⟩ := h.opd hl.1 hl.2
    obtain ⟨r1, r2, r3⟩ := h.opd hr.1 hr.2
    obtain ⟨t1, t2, t3⟩ := h.opd ht.1 ht.2
    obtain ⟨f1, f2, f3⟩ := h.opd hf.1 hf.2
    refine var_push h hm _ ?_ ?_ rfl rfl rfl ?_
    · intro v hv
      simp only [VOp.vars, List.mem_append] at hv
      rcases hv with ((hv | hv) | hv) | hv
      exacts [l2 v hv, r2 v hv, t2 v hv, f2 v hv]
    · intro v hv
      simp only [VOp.pars, List.mem_append] at hv
      rcases hv with ((hv | hv) | hv) | hv
      exacts [l3 v hv, r3 v hv, t3 v hv, f3 v hv]
    · simp only [VOp.res, finSt, l1, r1, t1, f1]
  | false =>
    have hnv := not_anyVar hv
    simp only [Bool.false_eq_true, if_false]
    cases hd : s.anyDyn [l, r, t, f] with
    | true =>
      obtain ⟨l1, l2⟩ := h.parN hl.1 hl.2 (hnv l (by simp))
      obtain ⟨r1, r2⟩ := h.parN hr.1 hr.2 (hnv r (by simp))
      obtain ⟨t1, t2⟩ := h.parN ht.1 ht.2 (hnv t (by simp))
      obtain ⟨f1, f2⟩ := h.parN hf.1 hf.2 (hnv f (by simp))
      refine dyn_push h hm _ ?_ (by simp) ?_
      · simp only [DynOp.args, List.mem_cons, List.not_mem_nil, or_false, forall_eq_or_imp, forall_eq]; exact ⟨l1, r1, t1, f1⟩
      · show condExp k.cop (s.P c ind (s.ix l)) (s.P c ind (s.ix r)) (s.P c ind (s.ix t)) (s.P c ind (s.ix f)) = _
        rw [l2, r2, t2, f2]
    | false =>
      refine con_push h hm ?_
      rw [h.conN hl.1 hl.2 (con_of hv hd (by simp)), h.conN hr.1 hr.2 (con_of hv hd (by simp)), h.conN ht.1 ht.2 (con_of hv hd (by simp)),
        h.conN hf.1 hf.2 (con_of hv hd (by simp))]

/-! ### sums -/

theorem mem_sel {t : AdType} {l : List ℕ} {j : ℕ} (h : j ∈ s.sel t l) : ∃ a ∈ l, s.ty a = t ∧ s.ix a = j := by
  unfold FromSt.sel at h
  obtain ⟨a, ha, rfl⟩ := List.mem_map.1 h
  rw [List.mem_filter] at ha
  exact ⟨a, ha.1, of_decide_eq_true ha.2, rfl⟩

theorem sel_cons (t : AdType) (a : ℕ) (l : List ℕ) : s.sel t (a :: l) = (if s.ty a = t then [s.ix a] else []) ++ s.sel t l := by
  unfold FromSt.sel
  rw [List.filter_cons]
  by_cases h : s.ty a = t <;> simp [h]

theorem sum_split (h : FI c ind st nV nI s V F) (l : List ℕ) (hl : ∀ a ∈ l, 1 ≤ a ∧ a < V.length) :
    sumOver (at' V) l = s.sumCon l + sumOver (s.P c ind) (s.sel .dynamic l) + sumOver F (s.sel .variable l) := by
  unfold FromSt.sumCon
  induction l with
  | nil => simp [FromSt.sel, sumOver]
  | cons a l ih =>
    have ha := hl a (by simp)
    rw [sumOver_cons, ih fun b hb => hl b (by simp [hb])]
    simp only [sel_cons]
    cases ht : s.ty a with
    | «variable» =>
      simp only [reduceCtorEq, if_false, if_true, List.nil_append, List.singleton_append, sumOver_cons]
      rw [(h.varN ha.1 ha.2 ht).2]; ring
    | dynamic =>
      simp only [reduceCtorEq, if_false, if_true, List.nil_append, List.singleton_append, sumOver_cons]
      rw [(h.parN ha.1 ha.2 (by rw [ht]; simp)).2]; ring
    | constant =>
      simp only [reduceCtorEq, if_false, if_true, List.nil_append, List.singleton_append, sumOver_cons]
      have := h.conN ha.1 ha.2 ht
      unfold FromSt.par at this
      rw [this]; ring

theorem addDyns_ok (ps : List ℕ) : ∀ (s : FromSt) (j : ℕ) (v : ℝ), RI c ind st nV nI s F → Main nV nI s → 1 ≤ j → j < s.r.parAll.length → s.P c ind j = v →
    (∀ p ∈ ps, 1 ≤ p ∧ p < s.r.parAll.length) →
    RI c ind st nV nI (addDyns c ps (s, j)).1 F ∧ Ext c ind s (addDyns c ps (s, j)).1 F F 0 ∧ 1 ≤ (addDyns c ps (s, j)).2 ∧
      (addDyns c ps (s, j)).2 < (addDyns c ps (s, j)).1.r.parAll.length ∧
      (addDyns c ps (s, j)).1.P c ind (addDyns c ps (s, j)).2 = v + sumOver (s.P c ind) ps := by
  induction ps with
  | nil => intro s j v h _ h1 h2 h3 _; exact ⟨h, .refl _ _, h1, h2, by simp [addDyns, sumOver, h3]⟩
  | cons p ps ih =>
    intro s j v h hm h1 h2 h3 h4
    obtain ⟨d1, d2, d3, d4, d5⟩ := dyn_step h hm (.bin .add j p) (by simpa [DynOp.args] using ⟨⟨h1, h2⟩, h4 p (by simp)⟩) (by simp)
    have e : at' (parVals c.disc ind s.r) j = v := h3
    simp only [DynOp.eval, BinF.fn, e] at d5
    obtain ⟨i1, i2, i3, i4, i5⟩ := ih (s.dyn c (.bin .add j p)).1 (s.dyn c (.bin .add j p)).2 _ d1 (hm.ext d2) d3 d4 d5
      fun q hq => ⟨(h4 q (by simp [hq])).1, lt_of_lt_of_le (h4 q (by simp [hq])).2 d2.grows.1⟩
    refine ⟨i1, d2.trans i2, i3, i4, ?_⟩
    refine i5.trans ?_
    rw [ sumOver_cons, sumOver_congr fun q hq => d2.P (h4 q (by simp [hq])).2, add_assoc]
    rfl

theorem sum_ok (h : FI c ind st nV nI s V F) (hm : Main nV nI s) (l : List ℕ) (hl : ∀ a ∈ l, 1 ≤ a ∧ a < V.length) :
    Out c ind st nV nI s F V (s.sum c l) [sumOver (at' V) l] [l.all fun a => isCon (s.ty a)] 0 := by
  unfold FromSt.sum
  rw [all_con, sum_split h l hl]
  obtain ⟨q1, q2, q3, q4, q5, q6⟩ := con_step h.rc (s.sumCon l)
  have hdyn : ∀ p ∈ s.sel .dynamic l, 1 ≤ p ∧ p < s.r.parAll.length := by
    intro p hp
    obtain ⟨a, ha, ht, rfl⟩ := mem_sel hp
    exact (h.parN (hl a ha).1 (hl a ha).2 (by rw [ht]; simp)).1
  have hdyn' : ∀ p ∈ s.sel .dynamic l, 1 ≤ p ∧ p < (s.con c (s.sumCon l)).1.r.parAll.length :=
    fun p hp => ⟨(hdyn p hp).1, lt_of_lt_of_le (hdyn p hp).2 q2.grows.1⟩
  have hP : ∀ p ∈ s.sel .dynamic l, (s.con c (s.sumCon l)).1.P c ind p = s.P c ind p := fun p hp => q2.P (hdyn p hp).2
  cases hv : s.anyVar l with
  | true =>
    have hvar : ∀ v ∈ s.sel .variable l, 1 ≤ v ∧ v < s.ops.length ∧ (s.ops.getD v .begin).hasRes = true := by
      intro p hp
      obtain ⟨a, ha, ht, rfl⟩ := mem_sel hp
      exact (h.varN (hl a ha).1 (hl a ha).2 ht).1
    have eops : (s.con c (s.sumCon l)).1.ops = s.ops := rfl
    obtain ⟨F', r1, r2, r3⟩ := var_step q1 (hm.ext q2)
      (.csum (s.con c (s.sumCon l)).2 (s.sel .variable l) [] (s.sel .dynamic l) []) (by simpa [VOp.vars, eops] using hvar)
      (by
        intro p hp
        simp only [VOp.pars, List.append_nil, List.mem_cons] at hp
        rcases hp with rfl | hp
        · exact ⟨q3, q4⟩
        · exact hdyn' p hp) rfl rfl rfl
    have e : (VOp.csum (s.con c (s.sumCon l)).2 (s.sel .variable l) [] (s.sel .dynamic l) []).res c.disc ((s.con c (s.sumCon l)).1.P c ind) (finSt F)
        = s.sumCon l + sumOver (s.P c ind) (s.sel .dynamic l) + sumOver F (s.sel .variable l) := by
      simp only [VOp.res, finSt, q5]
      rw [sumOver_congr hP]
      simp [sumOver]
    rw [e] at r3
    exact Out.mk' h hm r1 (q2.trans r2) r3
  | false =>
    simp only [Bool.false_eq_true, if_false, Bool.not_false, Bool.true_and]
    have hs0 : s.sel .variable l = [] := by
      unfold FromSt.sel
      rw [List.filter_eq_nil_iff.2, List.map_nil]
      intro a ha; simpa using not_anyVar hv a ha
    rw [hs0, show sumOver F [] = 0 from rfl, add_zero]
    cases hd : s.anyDyn l with
    | true =>
      obtain ⟨i1, i2, i3, i4, i5⟩ := addDyns_ok (s.sel .dynamic l) _ _ _ q1 (hm.ext q2) q3 q4 q5 hdyn'
      rw [sumOver_congr hP] at i5
      exact Out.mk' h hm i1 (q2.trans i2) (t := .dynamic) ⟨i3, i4, i5⟩
    | false =>
      have hs1 : s.sel .dynamic l = [] := by
        unfold FromSt.sel
        rw [List.filter_eq_nil_iff.2, List.map_nil]
        intro a ha; simpa using not_anyDyn hd a ha
      rw [hs1, show sumOver (s.P c ind) [] = 0 from rfl, add_zero]
      exact Out.mk' h hm q1 q2 (t := .constant) ⟨q3, q4, q5, q6⟩

/-! ### comparisons -/

theorem holds_symm {k : CmpF} (h : k = .eq ∨ k = .ne) (x y : ℝ) : CmpF.holds k x y ↔ CmpF.holds k y x := by
  rcases h with rfl | rfl
  · exact eq_comm
  · exact ne_comm

theorem cmpPar_ok (h : FI c ind st nV nI s V F) (j : ℕ) {a : ℕ} (h1 : 1 ≤ a) (h2 : a < V.length) (hv : s.ty a ≠ .variable) :
    RI c ind st nV nI (s.cmpPar c j a).1 F ∧ Ext c ind s (s.cmpPar c j a).1 F F 0 ∧ 1 ≤ (s.cmpPar c j a).2 ∧
    (s.cmpPar c j a).2 < (s.cmpPar c j a).1.r.parAll.length ∧ (s.ty a ≠ .constant → (s.cmpPar c j a).1.P c ind (s.cmpPar c j a).2 = at' V a) := by
  unfold FromSt.cmpPar
  by_cases hd : s.ty a = .dynamic
  · rw [if_pos hd]
    obtain ⟨k1, k2⟩ := h.parN h1 h2 hv
    exact ⟨h.rc, .refl _ _, k1.1, k1.2, fun _ => k2⟩
  · rw [if_neg hd]
    obtain ⟨q1, q2, q3, q4, q5, q6⟩ := con_step h.rc (c.out j)
    exact ⟨q1, q2, q3, q4, fun hc => by cases e : s.ty a <;> simp_all⟩

theorem FI.ext (h : FI c ind st nV nI s V F) {e : ℕ} (h' : RI c ind st nV nI s' F') (x : Ext c ind s s' F F' e) : FI c ind st nV nI s' V F' :=
  ⟨h', by rw [x.typ]; exact h.tlen, by rw [x.n2f]; exact h.nlen, fun k hk hk2 => by rw [x.ty, x.ix]; exact (h.node k hk hk2).ext x⟩

theorem Out.nil {e : ℕ} (h : FI c ind st nV nI s V F) (hm : Main nV nI s) (h' : RI c ind st nV nI s' F') (x : Ext c ind s s' F F' e) :
    Out c ind st nV nI s F V s' [] [] e := by
  refine ⟨F', ?_, hm.ext x, by rw [x.typ]; simp, x.fails, x.grows, x.parAll⟩
  rw [List.append_nil]; exact h.ext h' x

/-- record a comparison -/
theorem cmp_step (h : FI c ind st nV nI s V F) (hm : Main nV nI s) (h' : RI c ind st nV nI s' F) (x : Ext c ind s s' F F 0) (k : CmpF) (a b : Arg)
    (hv : ∀ v ∈ a.vars ++ b.vars, 1 ≤ v ∧ v < s'.ops.length ∧ (s'.ops.getD v .begin).hasRes = true)
    (hp : ∀ p ∈ a.pars ++ b.pars, 1 ≤ p ∧ p < s'.r.parAll.length) :
    Out c ind st nV nI s F V (s'.op (.cmp k a b)).1 [] [] (if CmpF.holds k (a.val (s'.P c ind) F) (b.val (s'.P c ind) F) then 0 else 1) := by
  obtain ⟨F', r1, r2, -⟩ := op_ok h' (.cmp k a b) hv hp rfl (main_op (hm.ext x) rfl)
  have := x.trans r2
  rw [Nat.zero_add] at this
  exact Out.nil h hm r1 this

theorem ite_iff {p q : Prop} [Decidable p] [Decidable q] (h : p ↔ q) : (if p then 0 else 1 : ℕ) = if q then 0 else 1 := by
  by_cases hp : p
  · rw [if_pos hp, if_pos (h.1 hp)]
  · rw [if_neg hp, if_neg fun hq => hp (h.2 hq)]

theorem comp_ok (h : FI c ind st nV nI s V F) (hm : Main nV nI s) (k : CmpF) {a b : ℕ} (ha : 1 ≤ a ∧ a < V.length) (hb : 1 ≤ b ∧ b < V.length) :
    ∃ e, Out c ind st nV nI s F V (s.comp c k a b) [] [] e ∧
      (s.ty a ≠ .constant → s.ty b ≠ .constant → e = if CmpF.holds k (at' V a) (at' V b) then 0 else 1) := by
  unfold FromSt.comp
  by_cases va : s.ty a = .variable
  · obtain ⟨k1, k2⟩ := h.varN ha.1 ha.2 va
    rw [if_pos va]
    by_cases vb : s.ty b = .variable
    · obtain ⟨j1, j2⟩ := h.varN hb.1 hb.2 vb
      rw [if_pos vb]
      refine ⟨_, cmp_step h hm h.rc (.refl _ _) _ _ _ ?_ (by simp [Arg.pars]), fun _ _ => ?_⟩
      · simp only [Arg.vars, List.cons_append, List.nil_append, List.mem_cons, List.not_mem_nil, or_false, forall_eq_or_imp, forall_eq]; exact ⟨k1, j1⟩
      · refine ite_iff ?_; simp only [Arg.val, k2, j2]
    · rw [if_neg vb]
      obtain ⟨q1, q2, q3, q4, q5⟩ := cmpPar_ok h 1 hb.1 hb.2 vb
      obtain ⟨k1, k2⟩ := (h.ext q1 q2).varN ha.1 ha.2 (by rw [q2.ty]; exact va)
      rw [q2.ix] at k1 k2
      by_cases hk : k = .eq ∨ k = .ne
      · rw [if_pos hk]
        refine ⟨_, cmp_step h hm q1 q2 _ _ _ (by simpa [Arg.vars] using k1) (by simpa [Arg.pars] using ⟨q3, q4⟩), fun _ hc => ?_⟩
        refine ite_iff ?_
        simp only [Arg.val, k2, q5 hc]
        exact holds_symm hk _ _
      · rw [if_neg hk]
        refine ⟨_, cmp_step h hm q1 q2 _ _ _ (by simpa [Arg.vars] using k1) (by simpa [Arg.pars] using ⟨q3, q4⟩), fun _ hc => ?_⟩
        refine ite_iff ?_; simp only [Arg.val, k2, q5 hc]
  · rw [if_neg va]
    by_cases vb : s.ty b = .variable
    · rw [if_pos vb]
      obtain ⟨q1, q2, q3, q4, q5⟩ := cmpPar_ok h 0 ha.1 ha.2 va
      obtain ⟨k1, k2⟩ := (h.ext q1 q2).varN hb.1 hb.2 (by rw [q2.ty]; exact vb)
      rw [q2.ix] at k1 k2
      refine ⟨_, cmp_step h hm q1 q2 _ _ _ (by simpa [Arg.vars] using k1) (by simpa [Arg.pars] using ⟨q3, q4⟩), fun hc _ => ?_⟩
      refine ite_iff ?_; simp only [Arg.val, k2, q5 hc]
    · rw [if_neg vb]
      by_cases hd : s.ty a = .dynamic ∨ s.ty b = .dynamic
      · rw [if_pos hd]
        obtain ⟨q1, q2, q3, q4, q5⟩ := cmpPar_ok h 0 ha.1 ha.2 va
        obtain ⟨p1, p2, p3, p4, p5⟩ := cmpPar_ok (h.ext q1 q2) 1 hb.1 hb.2 (by rw [q2.ty]; exact vb)
        refine ⟨_, cmp_step h hm p1 (q2.trans p2) _ _ _ (by simp [Arg.vars]) ?_, fun hc hc' => ?_⟩
        · simp only [Arg.pars, List.cons_append, List.nil_append, List.mem_cons, List.not_mem_nil, or_false, forall_eq_or_imp, forall_eq]
          exact ⟨⟨q3, lt_of_lt_of_le q4 p2.grows.1⟩, p3, p4⟩
        · refine ite_iff ?_
          simp only [Arg.val]
          rw [p2.P q4, q5 hc, p5 (by rw [q2.ty]; exact hc')]
      · rw [if_neg hd]
        refine ⟨0, Out.nil h hm h.rc (.refl _ _), fun hc _ => ?_⟩
        exfalso
        push Not at hd
        cases e : s.ty a <;> simp_all

/-- one operator of the graph -/
theorem fromNode_ok (h : FI c ind st nV nI s V F) (hm : Main nV nI s) {D : List Txt} {dix : ℕ → ℕ} (nd : GNode)
    (ha : ∀ a ∈ nd.argNodes, 1 ≤ a ∧ a < V.length) (hn : nd.nameOk D)
    (hfn : ∀ k < D.length, dix k ≠ c.names.length → fn (D.getD k []) = c.disc (dix k)) (hs : fromNode c dix s nd = some s') :
    ∃ e, Out c ind st nV nI s F V s' (nd.results fn D (at' V)) (List.replicate nd.nres (nd.argNodes.all fun a => isCon (s.ty a))) e ∧
      (nd.cmpOk (fun a => isCon (s.ty a)) → e = nd.failed (at' V)) := by
  cases nd with
  | un f a =>
    simp only [fromNode, Option.some.injEq] at hs; subst hs
    have := ha a (by simp [GNode.argNodes])
    exact ⟨0, by simpa [GNode.nres, GNode.argNodes, GNode.results] using un_ok h hm f this.1 this.2, fun _ => rfl⟩
  | bin f a b =>
    simp only [fromNode, Option.some.injEq] at hs; subst hs
    exact ⟨0, by simpa [GNode.nres, GNode.argNodes, GNode.results] using bin_ok h hm f (ha a (by simp [GNode.argNodes])) (ha b (by simp [GNode.argNodes])), fun _ => rfl⟩
  | dis k a =>
    simp only [fromNode] at hs
    have := ha a (by simp [GNode.argNodes])
    split_ifs at hs with hd
    rw [Option.some.injEq] at hs; subst hs
    refine ⟨0, ?_, fun _ => rfl⟩
    have := dis_ok h hm (dix k) this.1 this.2
    rw [← hfn k hn hd] at this
    simpa [GNode.nres, GNode.argNodes, GNode.results] using this
  | atom _ _ _ => simp [fromNode] at hs
  | atom4 _ _ _ _ => simp [fromNode] at hs
  | print _ _ _ _ =>
    simp only [fromNode, Option.some.injEq] at hs; subst hs
    exact ⟨0, by simpa [GNode.nres, GNode.results] using Out.nil h hm h.rc (.refl _ _), fun _ => rfl⟩
  | cexp k l r t f =>
    simp only [fromNode, Option.some.injEq] at hs; subst hs
    simp only [GNode.argNodes, List.mem_cons, List.not_mem_nil, or_false, forall_eq_or_imp, forall_eq] at ha
    exact ⟨0, cexp_ok h hm k ha.1 ha.2.1 ha.2.2.1 ha.2.2.2, fun _ => rfl⟩
  | comp k a b =>
    simp only [fromNode, Option.some.injEq] at hs; subst hs
    obtain ⟨e, h1, h2⟩ := comp_ok h hm k (ha a (by simp [GNode.argNodes])) (ha b (by simp [GNode.argNodes]))
    refine ⟨e, h1, fun hc => h2 ?_ ?_⟩
    · intro e'; have := hc.1; simp [e', isCon] at this
    · intro e'; have := hc.2; simp [e', isCon] at this
  | sum l =>
    simp only [fromNode, Option.some.injEq] at hs; subst hs
    exact ⟨0, sum_ok h hm l ha, fun _ => rfl⟩

end CppAD.Graph
