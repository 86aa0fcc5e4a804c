import Verif.Optimize.Emit

/-! # The loop that records the new operators -/

open scoped Classical

namespace CppAD.Optim

open CppAD CppAD.Record

/-! ## The sweep that may obey `cskip_op`, before operator `q` -/

/-- state of the sweep before operator `q` -/
noncomputable def swAt (disc : ℕ → ℝ → ℝ) (par : ℕ → ℝ) (b : Bool) (ops : List VOp) (s : FSt) (q : ℕ) : FSt :=
  sweepOps disc par b (ops.take q) 0 s

section sweep

variable {disc : ℕ → ℝ → ℝ} {par : ℕ → ℝ} {b : Bool} {ops : List VOp} {s : FSt}

theorem swAt_zero : swAt disc par b ops s 0 = s := by simp [swAt, sweepOps]

theorem swAt_succ {q : ℕ} {op : VOp} (h : ops[q]? = some op) : swAt disc par b ops s (q + 1) =
    if b && (swAt disc par b ops s q).skip (op.home q) then swAt disc par b ops s q else op.step disc par q (swAt disc par b ops s q) := by
  obtain ⟨hq, he⟩ := List.getElem?_eq_some_iff.1 h
  unfold swAt
  rw [List.take_succ_eq_append_getElem hq, sweepOps_append, he]
  simp only [sweepOps, List.length_take, min_eq_left hq.le, Nat.zero_add]

theorem swAt_succ_val {q j : ℕ} (h : q < ops.length) (hj : j ≠ q) :
    (swAt disc par b ops s (q + 1)).val j = (swAt disc par b ops s q).val j := by
  rw [swAt_succ (List.getElem?_eq_getElem h)]
  split_ifs
  · rfl
  · exact step_val _ _ _ _ _ (Or.inl hj)

theorem swAt_val_stable {j q q' : ℕ} (hj : j < q) (h : q ≤ q') (hq : q' ≤ ops.length) :
    (swAt disc par b ops s q').val j = (swAt disc par b ops s q).val j := by
  induction q', h using Nat.le_induction with
  | base => rfl
  | succ n hn ih => rw [swAt_succ_val (by omega) (by omega), ih (by omega)]

theorem swAt_val_start {j q : ℕ} (hj : q ≤ j) (hq : q ≤ ops.length) : (swAt disc par b ops s q).val j = s.val j := by
  induction q with
  | zero => rw [swAt_zero]
  | succ n ih => rw [swAt_succ_val (by omega) (by omega), ih (by omega) (by omega)]

/-- executing an operator with a result -/
theorem step_set_val {op : VOp} {i : ℕ} (h : op.hasRes = true) (h' : op.isInd = false) :
    (op.step disc par i s).val i = op.res disc par s := by rw [step_res _ _ _ _ _ h h']; simp [FSt.set]

theorem step_skip {op : VOp} {i : ℕ} (h : op.isCskip = false) : (op.step disc par i s).skip = s.skip := by
  cases op <;> first | rfl | simp [VOp.isCskip] at h

end sweep

/-! ## The states of the loop -/

variable {T : OTape} {h : Hashes} {o : Options} {order : List ℕ}

theorem newOps_spec (T : OTape) (h : Hashes) (o : Options) (order : List ℕ) (i : ℕ) : ∃ a b,
    StepSpec h.real (T.plan h o).1 i (T.newOps h o order i) (T.newOps h o order (i + 1)) a b := by
  have : T.newOps h o order (i + 1) = recStep h.real (T.plan h o).1 i (T.newOps h o order i) := by
    unfold OTape.newOps; rw [forRange_succ (Nat.zero_le i)]
  rw [this]; exact recStep_spec _ _ _ _

/-- number of new operators before operator `i` is processed -/
noncomputable def OTape.L (h : Hashes) (o : Options) (order : List ℕ) (T : OTape) (i : ℕ) : ℕ := (T.newOps h o order i).ops.length

/-- new index of variable `j` -/
noncomputable def OTape.nv (h : Hashes) (o : Options) (order : List ℕ) (T : OTape) (j : ℕ) : ℕ := (T.newOps h o order (j + 1)).newVar j

/-- new index of operator `j` -/
noncomputable def OTape.no (h : Hashes) (o : Options) (order : List ℕ) (T : OTape) (j : ℕ) : ℕ := (T.newOps h o order (j + 1)).newOp j

theorem plan_op : (T.plan h o).1.op = T.op := rfl
theorem plan_use : (T.plan h o).1.use = T.previous o h.op := rfl

theorem newOps_prefix {i j : ℕ} (hij : i ≤ j) : (T.newOps h o order i).ops <+: (T.newOps h o order j).ops := by
  induction j, hij using Nat.le_induction with
  | base => exact List.prefix_rfl
  | succ n hn ih =>
    obtain ⟨a, b, S⟩ := newOps_spec T h o order n
    rw [S.ops, List.append_assoc]
    exact ih.trans (List.prefix_append _ _)

theorem L_mono {i j : ℕ} (hij : i ≤ j) : T.L h o order i ≤ T.L h o order j := (newOps_prefix hij).length_le

theorem L_zero : T.L h o order 0 = 0 := by simp [OTape.L, OTape.newOps, forRange]

theorem newVar_final {i j : ℕ} (hij : j < i) : (T.newOps h o order i).newVar j = T.nv h o order j := by
  have hij : j + 1 ≤ i := hij
  induction i, hij using Nat.le_induction with
  | base => rfl
  | succ n hn ih =>
    obtain ⟨a, b, S⟩ := newOps_spec T h o order n
    rw [S.newVar j (by omega), ih hn]

theorem newOp_final {i j : ℕ} (hij : j < i) : (T.newOps h o order i).newOp j = T.no h o order j := by
  have hij : j + 1 ≤ i := hij
  induction i, hij using Nat.le_induction with
  | base => rfl
  | succ n hn ih =>
    obtain ⟨a, b, S⟩ := newOps_spec T h o order n
    rw [S.newOp j (by omega), ih hn]

theorem left_final {i j : ℕ} (hij : j < i) : (T.newOps h o order i).left j = (T.newOps h o order (j + 1)).left j ∧
    (T.newOps h o order i).right j = (T.newOps h o order (j + 1)).right j := by
  have hij : j + 1 ≤ i := hij
  induction i, hij using Nat.le_induction with
  | base => exact ⟨rfl, rfl⟩
  | succ n hn ih =>
    obtain ⟨a, b, S⟩ := newOps_spec T h o order n
    rw [(S.left j (by omega)).1, (S.left j (by omega)).2, (ih hn).1, (ih hn).2]; exact ⟨rfl, rfl⟩

theorem varsAt_eq {i v : ℕ} (hv : v < i) : (T.newOps h o order i).varsAt (T.plan h o).1 i v = T.nv h o order v := by
  unfold RecSt.varsAt
  rw [Function.update_of_ne (by omega), newVar_final hv]

/-- where the CSkipOp's are -/
theorem skipAt_spec : ∀ i k q, (T.newOps h o order i).skipAt k = some q →
    (T.newOps h o order i).ops[q]? = some ph ∧ o.cskip = true ∧ ∃ i' < i, q = T.L h o order i' ∧ (T.op k).maxLR < i' ∧ q < T.L h o order (i' + 1) := by
  intro i
  induction i with
  | zero => intro k q hq; simp [OTape.newOps, forRange] at hq
  | succ n ih =>
    intro k q hq
    obtain ⟨a, b, S⟩ := newOps_spec T h o order n
    rcases S.skipAt k q hq with hq | ⟨h1, h2, h3, h4⟩
    · obtain ⟨e1, e2, i', e3, e4⟩ := ih k q hq
      refine ⟨?_, e2, i', by omega, e4⟩
      obtain ⟨hl, he⟩ := List.getElem?_eq_some_iff.1 e1
      rw [S.ops, List.append_assoc, List.getElem?_append_left hl, e1]
    · refine ⟨?_, h4, n, by omega, h1, h3, ?_⟩
      · rw [S.ops, h1, List.append_assoc, List.getElem?_append_right (le_refl _), h2]; simp
      · unfold OTape.L; rw [S.ops, h1, h2]; simp

/-! ## Filling in the arguments of the CSkipOp's -/

/-- the filled in CSkipOp of conditional expression `k` -/
noncomputable def filled (P : Plan) (s : RecSt) (k : ℕ) : VOp := .cskip (P.op k).cop (s.left k) (s.right k)
      ((P.use.skipOps P.op P.numOp k true).map s.newOp) ((P.use.skipOps P.op P.numOp k false).map s.newOp)

theorem fill_spec (P : Plan) (s : RecSt) : ∀ (l : List ℕ) (ops : List VOp), (l.foldl (fillSkip P s) ops).length = ops.length ∧
    ∀ q, (l.foldl (fillSkip P s) ops)[q]? = ops[q]? ∨
      (q < ops.length ∧ ∃ k ∈ l, s.skipAt k = some q ∧ (l.foldl (fillSkip P s) ops)[q]? = some (filled P s k)) := by
  intro l
  induction l with
  | nil => intro ops; exact ⟨rfl, fun q => Or.inl rfl⟩
  | cons k l ih =>
    intro ops
    rw [List.foldl_cons]
    have hf : (fillSkip P s ops k).length = ops.length := by unfold fillSkip; split <;> simp
    obtain ⟨i1, i2⟩ := ih (fillSkip P s ops k)
    refine ⟨i1.trans hf, fun q => ?_⟩
    rcases i2 q with h | ⟨h0, k', hk', h1, h2⟩
    · rw [h]
      unfold fillSkip
      split
      · exact Or.inl rfl
      · rename_i pos hpos
        by_cases hq : pos = q
        · subst hq
          by_cases hl : pos < ops.length
          · refine Or.inr ⟨hl, k, by simp, hpos, ?_⟩
            rw [List.getElem?_set_self hl]; rfl
          · rw [List.set_eq_of_length_le (by omega)]; exact Or.inl rfl
        · rw [List.getElem?_set_ne hq]; exact Or.inl rfl
    · exact Or.inr ⟨by omega, k', by simp [hk'], h1, h2⟩

/-- the new operators -/
theorem optimize_len : (T.optimize h o order).ops.length = T.L h o order T.ops.length := (fill_spec _ _ _ _).1

/-- operators other than CSkipOp's are as recorded -/
theorem optimize_op {i q : ℕ} {op : VOp} (hi : i ≤ T.ops.length) (hq : (T.newOps h o order i).ops[q]? = some op) (hop : op ≠ ph) :
    (T.optimize h o order).ops[q]? = some op := by
  obtain ⟨hl, he⟩ := List.getElem?_eq_some_iff.1 hq
  have hR : (T.newOps h o order T.ops.length).ops[q]? = some op := by
    obtain ⟨t, ht⟩ := newOps_prefix (T := T) (h := h) (o := o) (order := order) hi
    rw [← ht, List.getElem?_append_left hl, hq]
  rcases (fill_spec (T.plan h o).1 (T.newOps h o order T.ops.length) (T.cexps o) (T.newOps h o order T.ops.length).ops).2 q with h1 | ⟨_, k, _, h1, _⟩
  · exact h1.trans hR
  · have := (skipAt_spec _ _ _ h1).1
    rw [hR] at this
    exact absurd (Option.some.inj this) hop

/-- the positions of CSkipOp's -/
theorem optimize_skip {i q : ℕ} (hi : i ≤ T.ops.length) (hq : (T.newOps h o order i).ops[q]? = some ph) :
    (T.optimize h o order).ops[q]? = some ph ∨ ∃ k ∈ T.cexps o, (T.newOps h o order T.ops.length).skipAt k = some q ∧
      (T.optimize h o order).ops[q]? = some (filled (T.plan h o).1 (T.newOps h o order T.ops.length) k) := by
  obtain ⟨hl, he⟩ := List.getElem?_eq_some_iff.1 hq
  have hR : (T.newOps h o order T.ops.length).ops[q]? = some ph := by
    obtain ⟨t, ht⟩ := newOps_prefix (T := T) (h := h) (o := o) (order := order) hi
    rw [← ht, List.getElem?_append_left hl, hq]
  rcases (fill_spec (T.plan h o).1 (T.newOps h o order T.ops.length) (T.cexps o) (T.newOps h o order T.ops.length).ops).2 q with h1 | ⟨_, k, hk, h1, h2⟩
  · exact Or.inl (h1.trans hR)
  · exact Or.inr ⟨k, hk, h1, h2⟩

/-! ## Facts about well formed recordings -/

theorem inv_prev (w : T.WF) : PInv o T T.ops.length (T.previous o h.op) := previous_inv w

theorem plan_usage (w : T.WF) : (T.plan h o).1.use.use.usage = (T.use o).usage := (inv_prev w).usage

theorem prev_zero (w : T.WF) {i : ℕ} (hm : (T.op i).matchable = false) : (T.previous o h.op).prev i = 0 := by
  by_contra hc
  have := ((inv_prev w).prev i hc).2.2.2.2.1
  rw [hm] at this; cases this

theorem prev_self (w : T.WF) : (T.previous o h.op).prev 0 = 0 := by
  by_contra hc
  have := ((inv_prev w).prev 0 hc).1
  omega

/-- operators without a result that are not marked are not used -/
theorem use_skip (w : T.WF) {i : ℕ} (hi : i < T.ops.length) (hs : (T.op i).isCskip = true ∨ (T.op i).storesPar = true ∨ (T.op i).isFrp = true) : (T.use o).usage i = .no := by
  have e : (T.use o).usage i = (T.useFrom o i).usage i := use_usage w (Nat.zero_le _)
  have hr : (T.op i).hasRes = false := by
    cases hop : T.op i <;> simp_all [VOp.isCskip, VOp.storesPar, VOp.isFrp, VOp.hasRes]
  rw [e, useFrom_lt hi, ← use_nores (o := o) w (Nat.lt_succ_self i) hr hi]
  unfold useStep
  cases hop : T.op i <;> simp_all [VOp.isCskip, VOp.storesPar, VOp.isFrp]

/-- usage of a store is determined by the operators after it -/
theorem use_store_iff (w : T.WF) {i v : ℕ} (hi : i < T.ops.length) (hv : (T.op i).vec = some v) (hr : (T.op i).hasRes = false)
    (hu : (T.use o).usage i ≠ .no) : (T.useFrom o (i + 1)).vused v = true := by
  have e : (T.use o).usage i = (T.useFrom o i).usage i := use_usage w (Nat.zero_le _)
  rw [e, useFrom_lt hi] at hu
  have hn := use_nores (o := o) w (Nat.lt_succ_self i) hr hi
  unfold useStep at hu
  cases hop : T.op i <;> simp_all [VOp.vec, VOp.hasRes]
  · by_contra hc; simp [hc, hn] at hu
  · by_contra hc; simp [hc, hn] at hu

theorem top_eq (w : T.WF) (op : VOp) : (T.plan h o).1.top op = (op.addOrSub && op.vars.any fun v => decide ((T.use o).usage v = .csum)) := by
  unfold Plan.top
  rw [plan_usage w]
  cases op <;> simp [VOp.addOrSub, VOp.vars]

/-- all the arguments of a kept operator are kept, unless it becomes a cumulative sum -/
theorem args_yes (w : T.WF) {i : ℕ} (hi : i < T.ops.length) (hu : (T.use o).usage i ≠ .no) (ht : (T.plan h o).1.top (T.op i) = false) :
    ∀ v ∈ (T.op i).need T.tx (T.use o).usage i, (T.use o).usage v = .yes := by
  intro v hv
  obtain ⟨h1, h2⟩ := use_args w hi hu v hv
  rw [top_eq w] at ht
  cases hc : (T.use o).usage v with
  | no => exact absurd hc h1
  | yes => rfl
  | csum =>
    rw [(h2 hc).1, Bool.true_and, List.any_eq_false] at ht
    exact absurd (decide_eq_true hc) (ht v (need_vars hv))

/-- is parameter `p` used -/
noncomputable def OTape.pu (h : Hashes) (o : Options) (T : OTape) (p : ℕ) : Bool :=
  T.parUsage (T.previous o h.op).use.usage (T.previous o h.op).use.vused p

theorem pars_used (w : T.WF) {i : ℕ} (hi : i < T.ops.length) (hu : (T.use o).usage i = .yes) (ht : (T.plan h o).1.top (T.op i) = false)
    (hc : (T.op i).isCsum = false) (hs : (T.op i).isCskip = false) (ha : (T.op i).isAtom = false) : ∀ p ∈ (T.op i).pars, T.pu h o p = true := by
  intro p hp
  refine parUsage_ops _ _ _ (Or.inr (Or.inr ⟨i, hi, ?_, ?_⟩))
  · rw [(inv_prev w).usage, hu]; simp
  · rw [(inv_prev w).usage]
    rw [top_eq w] at ht
    cases hop : T.op i with
    | cexp cop l r t f =>
      rw [hop] at hp
      simp only [VOp.pars, List.mem_append] at hp
      have e : ∀ a : Arg, parMarks.parOf a = a.pars := fun a => by cases a <;> rfl
      simp only [parMarks, parMarksLR, e, List.mem_append]
      tauto
    | cmp c a b =>
      rw [hop] at hp
      simp only [VOp.pars, List.mem_append] at hp
      have e : ∀ a : Arg, parMarks.parOf a = a.pars := fun a => by cases a <;> rfl
      simp only [parMarks, e, List.mem_append]
      tauto
    | pv f q v =>
      rw [hop] at hp ht
      cases f <;> simp_all [VOp.pars, parMarks, VOp.addOrSub, VOp.vars]
    | vp f q v =>
      rw [hop] at hp ht
      cases f <;> simp_all [VOp.pars, parMarks, VOp.addOrSub, VOp.vars]
    | csum => rw [hop] at hc; cases hc
    | cskip => rw [hop] at hs; cases hs
    | afun => rw [hop] at ha; cases ha
    | frv => rw [hop] at ha; cases ha
    | frp => rw [hop] at ha; cases ha
    | _ => simp_all [VOp.pars, parMarks]

/-- the parameters that the used results of a call depend on are used -/
theorem dep_pars_used (w : T.WF) {g m : ℕ} {A : AtomF} {args : List Arg} (hg : g < T.ops.length) (hop : T.op g = .afun A args m)
    (hu : (T.use o).usage g ≠ .no) {a : Arg} (ha : a ∈ depArgs T.tx (T.use o).usage g A args m) : ∀ p ∈ a.pars, T.pu h o p = true := by
  intro p hp
  refine parUsage_ops _ _ _ (Or.inr (Or.inr ⟨g, hg, ?_, Or.inl ?_⟩))
  · rw [(inv_prev w).usage]; exact hu
  · rw [(inv_prev w).usage, hop]
    have e : ∀ a : Arg, parMarks.parOf a = a.pars := fun a => by cases a <;> rfl
    simp only [parMarks, List.mem_flatMap]
    exact ⟨a, ha, by rw [e]; exact hp⟩

/-! ## The parameters of the new recording -/

section pars

variable {disc : ℕ → ℝ → ℝ} {ind : List ℝ}

theorem newOps_pars (w : T.WF) : ∀ i, ParWf (T.newOps h o order i).pars ∧ Grows disc ind (T.plan h o).2 (T.newOps h o order i).pars := by
  intro i
  induction i with
  | zero => exact ⟨(newPars_ok (disc := disc) (ind := ind) w h.real h.dyn _ _).wf, Grows.refl _⟩
  | succ n ih =>
    obtain ⟨a, b, S⟩ := newOps_spec T h o order n
    by_cases hu : (T.plan h o).1.use.use.usage n = .yes
    · by_cases ht : (T.plan h o).1.top ((T.plan h o).1.op n) = true ∨ ((T.plan h o).1.op n).isCsum = true
      · rw [(S.csum hu ht).2.1]
        obtain ⟨p1, p2, _⟩ := putCon_ok (disc := disc) (ind := ind) (hash := h.real) ih.1
          (csumRun (T.plan h o).1.op (T.plan h o).1.use.use.usage (T.plan h o).1.isDyn (T.plan h o).1.par n).sum
        exact ⟨p1, ih.2.trans p2⟩
      · push Not at ht
        have ht1 : (T.plan h o).1.top ((T.plan h o).1.op n) = false := by simpa using ht.1
        have ht2 : ((T.plan h o).1.op n).isCsum = false := by simpa using ht.2
        by_cases hp : (T.plan h o).1.use.prev n = 0
        · by_cases hs : ((T.plan h o).1.op n).isCskip = true
          · by_cases hn : n < T.ops.length
            · have := use_skip (o := o) w hn (Or.inl hs)
              rw [plan_usage w, this] at hu; cases hu
            · exfalso
              have : T.op n = .begin := List.getD_eq_default _ _ (by omega)
              rw [plan_op, this] at hs; cases hs
          · by_cases hf : ((T.plan h o).1.op n).isFrp = true
            · by_cases hn : n < T.ops.length
              · have := use_skip (o := o) w hn (Or.inr (Or.inr hf))
                rw [plan_usage w, this] at hu; cases hu
              · exfalso
                have : T.op n = .begin := List.getD_eq_default _ _ (by omega)
                rw [plan_op, this] at hf; cases hf
            · rw [(S.put hu hp ht1 ht2 (by simpa using hs) (by simpa using hf)).2.1]; exact ih
        · have hm : (T.op n).matchable = true := ((inv_prev (h := h) (o := o) w).prev n hp).2.2.2.2.1
          rw [(S.prev hu hp hm ht1).2.1]; exact ih
    · rw [(S.unused hu).2]; exact ih

theorem newOps_grows (w : T.WF) {i j : ℕ} (hij : i ≤ j) : Grows disc ind (T.newOps h o order i).pars (T.newOps h o order j).pars := by
  induction j, hij using Nat.le_induction with
  | base => exact Grows.refl _
  | succ n hn ih =>
    refine ih.trans ?_
    obtain ⟨a, b, S⟩ := newOps_spec T h o order n
    by_cases hu : (T.plan h o).1.use.use.usage n = .yes
    · by_cases ht : (T.plan h o).1.top ((T.plan h o).1.op n) = true ∨ ((T.plan h o).1.op n).isCsum = true
      · rw [(S.csum hu ht).2.1]
        exact (putCon_ok (disc := disc) (ind := ind) (hash := h.real) (newOps_pars (disc := disc) (ind := ind) w n).1 _).2.1
      · push Not at ht
        have ht1 : (T.plan h o).1.top ((T.plan h o).1.op n) = false := by simpa using ht.1
        have ht2 : ((T.plan h o).1.op n).isCsum = false := by simpa using ht.2
        by_cases hp : (T.plan h o).1.use.prev n = 0
        · by_cases hs : ((T.plan h o).1.op n).isCskip = true
          · by_cases hn : n < T.ops.length
            · have := use_skip (o := o) w hn (Or.inl hs)
              rw [plan_usage w, this] at hu; cases hu
            · exfalso
              have : T.op n = .begin := List.getD_eq_default _ _ (by omega)
              rw [plan_op, this] at hs; cases hs
          · by_cases hf : ((T.plan h o).1.op n).isFrp = true
            · by_cases hn : n < T.ops.length
              · have := use_skip (o := o) w hn (Or.inr (Or.inr hf))
                rw [plan_usage w, this] at hu; cases hu
              · exfalso
                have : T.op n = .begin := List.getD_eq_default _ _ (by omega)
                rw [plan_op, this] at hf; cases hf
            · rw [(S.put hu hp ht1 ht2 (by simpa using hs) (by simpa using hf)).2.1]; exact Grows.refl _
        · have hm : (T.op n).matchable = true := ((inv_prev (h := h) (o := o) w).prev n hp).2.2.2.2.1
          rw [(S.prev hu hp hm ht1).2.1]; exact Grows.refl _
    · rw [(S.unused hu).2]; exact Grows.refl _

/-- values of the parameters that are used -/
theorem newPar_val (w : T.WF) {p : ℕ} (hp : p < T.dyn.parAll.length) (hu : T.pu h o p = true) :
    at' (parVals disc ind (T.optimize h o order).dyn) ((T.plan h o).1.newPar p) = at' (parVals disc ind T.dyn) p := by
  obtain ⟨h1, h2⟩ := (newPars_ok (disc := disc) (ind := ind) w h.real h.dyn (T.previous o h.op).use.usage (T.previous o h.op).use.vused).ok p ⟨hp, hu⟩
  rw [← h2]
  exact (newOps_pars (disc := disc) (ind := ind) (h := h) (o := o) (order := order) w T.ops.length).2.2 _ h1

end pars

end CppAD.Optim
