import Verif.Optimize.Value

/-! # optimize preserves values -/

open scoped Classical

namespace CppAD.Optim

open CppAD CppAD.Record

namespace Ctx

variable {c : Ctx}

theorem emit_eq {op : VOp} {z : ℕ} {pu : ℕ → Bool} {gp gv gw : ℕ → ℕ} (h : op.isAtom = false) : op.emit z pu gp gv gw = op.map gp gv gw := by
  cases op <;> first | rfl | simp [VOp.isAtom] at h

theorem emit_ne_ph {op : VOp} {z : ℕ} {pu : ℕ → Bool} {gp gv gw : ℕ → ℕ} (h : op.isCskip = false) : op.emit z pu gp gv gw ≠ ph := by
  cases op <;> simp_all [VOp.emit, VOp.map, ph, VOp.isCskip]

theorem emit_hasRes (op : VOp) (z : ℕ) (pu : ℕ → Bool) (gp gv gw : ℕ → ℕ) : (op.emit z pu gp gv gw).hasRes = op.hasRes := by cases op <;> rfl

theorem emit_isInd (op : VOp) (z : ℕ) (pu : ℕ → Bool) (gp gv gw : ℕ → ℕ) : (op.emit z pu gp gv gw).isInd = op.isInd := by cases op <;> rfl

theorem emit_isCskip (op : VOp) (z : ℕ) (pu : ℕ → Bool) (gp gv gw : ℕ → ℕ) : (op.emit z pu gp gv gw).isCskip = op.isCskip := by cases op <;> rfl

theorem emit_vec (op : VOp) (z : ℕ) (pu : ℕ → Bool) (gp gv gw : ℕ → ℕ) (h : op.vec = none) : (op.emit z pu gp gv gw).vec = none := by
  cases op <;> first | rfl | simp [VOp.vec] at h

/-- value of an argument that is a parameter or variable -/
theorem arg_val (w : c.T.WF) {i : ℕ} {s : FSt} (I : c.Inv i s) {a : Arg} {gv : ℕ → ℕ} (hp : ∀ p ∈ a.pars, p < c.T.dyn.parAll.length ∧ c.T.pu c.h c.o p = true)
    (hv : ∀ v ∈ a.vars, 1 ≤ v ∧ v < i ∧ c.u v = .yes ∧ (c.T.op v).hasRes = true ∧ c.Live (c.Q.pi v) ∧ gv v = c.nv v) :
    (a.map c.np gv).val c.V' s.val = a.val c.V c.E := by
  refine Arg.val_map a (fun p h => par_val w (hp p h).1 (hp p h).2) fun v h => ?_
  obtain ⟨h1, h2, h3, h4, h5, h6⟩ := hv v h
  rw [h6]
  exact (I.val v h1 h2 h3 h4 h5).2

/-- executing a CSkipOp -/
theorem inv_skip (w : c.T.WF) (hb : c.b = false ∨ SkipOk c.o c.T) {i : ℕ} (hi : i < c.T.ops.length) (I : c.Inv i (c.S (c.L i)))
    {a b : List VOp}
    (S : StepSpec c.h.real (c.T.plan c.h c.o).1 i (c.T.newOps c.h c.o c.order i) (c.T.newOps c.h c.o c.order (i + 1)) a b) :
    c.Inv i (c.S (c.L i + a.length)) := by
  rcases S.skip with ha | ha
  · rw [ha]; exact I
  have hL := L_succ S
  have hpos : (c.T.newOps c.h c.o c.order (i + 1)).ops[c.L i]? = some ph := by
    rw [S.ops, ha, List.append_assoc]
    exact (List.getElem?_append_right (le_refl _)).trans (by simp)
  rw [ha]
  rcases optimize_skip (show i + 1 ≤ c.T.ops.length from hi) hpos with h1 | ⟨k, hk, h1, h2⟩
  · have e : c.S (c.L i + 1) = if c.b && (c.S (c.L i)).skip (c.L i) then c.S (c.L i) else ph.step c.disc c.V' (c.L i) (c.S (c.L i)) := swAt_succ h1
    change c.Inv i (c.S (c.L i + 1))
    rw [e]
    split_ifs
    · exact I
    · refine ⟨I.val, fun hb p hp => I.skip hb p ?_, I.mem⟩
      simpa [ph, VOp.step] using hp
  · have e : c.S (c.L i + 1) = if c.b && (c.S (c.L i)).skip (c.L i) then c.S (c.L i) else
        (filled (c.T.plan c.h c.o).1 (c.T.newOps c.h c.o c.order c.T.ops.length) k).step c.disc c.V' (c.L i) (c.S (c.L i)) := swAt_succ h2
    change c.Inv i (c.S (c.L i + 1))
    rw [e]
    split_ifs with hsk
    · exact I
    obtain ⟨_, hcs, i', hi', q1, q2, q3⟩ := skipAt_spec _ _ _ h1
    have hle : i' ≤ i := by
      by_contra hc
      have h3 : c.L (i + 1) ≤ c.L i' := L_le (by omega)
      have h4 : c.L i = c.L i' := q1
      rw [ha] at hL
      simp at hL
      omega
    refine ⟨I.val, fun hbt p hp => ?_, I.mem⟩
    simp only [filled, VOp.step] at hp
    rw [Bool.or_eq_true] at hp
    rcases hp with hp | hp
    · exact I.skip hbt p hp
    have hkl : k < c.T.ops.length ∧ (c.T.op k).isCexp = true := by
      unfold OTape.cexps at hk
      rw [hcs] at hk
      simpa using hk
    obtain ⟨cop, l, r, t, f, hop⟩ : ∃ cop l r t f, c.T.op k = .cexp cop l r t f := by
      cases hop : c.T.op k <;> simp_all [VOp.isCexp]
    -- the operators that are skipped
    have main : ∀ cc : Bool, p ∈ ((c.T.plan c.h c.o).1.use.skipOps (c.T.plan c.h c.o).1.op (c.T.plan c.h c.o).1.numOp k cc).map (c.T.newOps c.h c.o c.order c.T.ops.length).newOp →
        (c.Live k → cmpAt c.V c.E (c.T.op k) = cc) → ∃ j < c.T.ops.length, c.u j = .yes ∧ c.Q.prev j = 0 ∧ c.no j = p ∧ ¬ c.Live j := by
      intro cc hpm hcc
      rw [List.mem_map] at hpm
      obtain ⟨j, hj, hjp⟩ := hpm
      unfold PrevSt.skipOps at hj
      rw [List.mem_filter, List.mem_range, Bool.and_eq_true] at hj
      obtain ⟨hj1, hj2, hj3⟩ := hj
      change j < c.T.ops.length at hj1
      change c.Q.keep j = true at hj2
      have hj3 : (k, cc) ∈ c.Q.use.cset j := of_decide_eq_true (Bool.and_eq_true_iff.1 hj3).2
      unfold PrevSt.keep at hj2
      rw [Bool.and_eq_true, Bool.and_eq_true] at hj2
      have hu : c.u j = .yes := by
        have e : c.Q.use.usage j = c.u j := congrFun (Qinv w).usage j
        rw [e] at hj2
        cases hc : c.u j <;> simp_all
      refine ⟨j, hj1, hu, by simpa using hj2.2, ?_, ?_⟩
      · rw [← hjp]; exact (newOp_final hj1).symm
      · intro hlive
        rcases hlive with h | h
        · rw [h] at hbt; cases hbt
        · by_cases hk : c.Live k
          · exact h k (by rw [hcc hk]; exact hj3)
          · apply hk
            exact Or.inr fun k' hk' => h k' ((pi_clo w (Qinv w) hj3).2.2.2 hk')
    -- the comparison
    have hcmp : (c.u k ≠ .no) → c.Live k → (cmpAt c.V c.E (c.T.op k) = true ↔
        cop.holds (((c.T.newOps c.h c.o c.order c.T.ops.length).left k).val c.V' (c.S (c.L i)).val)
          (((c.T.newOps c.h c.o c.order c.T.ops.length).right k).val c.V' (c.S (c.L i)).val)) := by
      intro hu hlive
      have hu : c.u k = .yes := by
        cases hc : c.u k with
        | no => exact absurd hc hu
        | yes => rfl
        | csum =>
          have := use_csum (o := c.o) (T := c.T) hc
          rw [hop] at this; cases this
      obtain ⟨a', b', S'⟩ := spec_of c k
      have hkp : c.Q.prev k = 0 := prev_zero w (by rw [hop]; rfl)
      obtain ⟨e1, e2⟩ := S'.cexp cop l r t f hop (by rw [usage_eq w]; exact hu) hcs
      rw [(left_final hkl.1).1, (left_final hkl.1).2, e1, e2]
      have hpk := pars_used (h := c.h) (o := c.o) w hkl.1 hu (by rw [top_eq w, hop]; rfl) (by rw [hop]; rfl) (by rw [hop]; rfl) (by rw [hop]; rfl)
      have hmax : (c.T.op k).maxLR = max l.varIdx r.varIdx := by rw [hop]; rfl
      have hvk := w.vars k hkl.1
      have hplain := live_plain w hb hkl.1 (by rw [hu]; simp) hkp hlive
      have hyes := args_yes (h := c.h) (o := c.o) w hkl.1 (by change c.u k ≠ .no; rw [hu]; simp) (by rw [top_eq w, hop]; rfl)
      have hpars := w.pars k hkl.1
      have hvar : ∀ v ∈ l.vars ++ r.vars, v < i := by
        intro v hv
        have : v ≤ max l.varIdx r.varIdx := by
          rw [List.mem_append] at hv
          rcases hv with hv | hv
          · cases l <;> simp_all [Arg.vars, Arg.varIdx]
          · cases r <;> simp_all [Arg.vars, Arg.varIdx]
        omega
      have hplainE : (c.T.op k).plain c.T.tx (c.T.use c.o).usage k = l.vars ++ r.vars := by rw [hop]; rfl
      rw [need_eq (by rw [hop]; rfl)] at hyes
      have hvarsE : ∀ v ∈ l.vars ++ r.vars, v ∈ (c.T.op k).vars := by
        intro v hv; exact VOp.plain_vars (tx := c.T.tx) (u := (c.T.use c.o).usage) (i := k) (by rw [hplainE]; exact hv)
      have hparsE : ∀ p ∈ l.pars ++ r.pars, p ∈ (c.T.op k).pars := by
        intro v hv; rw [hop]; simp only [VOp.pars, List.mem_append] at hv ⊢; tauto
      have gen : ∀ v ∈ l.vars ++ r.vars, 1 ≤ v ∧ v < i ∧ c.u v = .yes ∧ (c.T.op v).hasRes = true ∧ c.Live (c.Q.pi v) ∧
          (c.T.newOps c.h c.o c.order k).varsAt (c.T.plan c.h c.o).1 k v = c.nv v := fun v hv =>
        ⟨(hvk v (hvarsE v hv)).1, hvar v hv, hyes v (hvarsE v hv), (hvk v (hvarsE v hv)).2.2, hplain v (by rw [hplainE]; exact hv),
          varsAt_eq (hvk v (hvarsE v hv)).2.1⟩
      have e3 : (l.map (c.T.plan c.h c.o).1.newPar ((c.T.newOps c.h c.o c.order k).varsAt (c.T.plan c.h c.o).1 k)).val c.V' (c.S (c.L i)).val = l.val c.V c.E :=
        arg_val w I (fun p hp => ⟨hpars p (hparsE p (by simp [hp])), hpk p (hparsE p (by simp [hp]))⟩) fun v hv => gen v (by simp [hv])
      have e4 : (r.map (c.T.plan c.h c.o).1.newPar ((c.T.newOps c.h c.o c.order k).varsAt (c.T.plan c.h c.o).1 k)).val c.V' (c.S (c.L i)).val = r.val c.V c.E :=
        arg_val w I (fun p hp => ⟨hpars p (hparsE p (by simp [hp])), hpk p (hparsE p (by simp [hp]))⟩) fun v hv => gen v (by simp [hv])
      rw [e3, e4, hop]
      simp [cmpAt]
    have hused : ∀ cc : Bool, p ∈ ((c.T.plan c.h c.o).1.use.skipOps (c.T.plan c.h c.o).1.op (c.T.plan c.h c.o).1.numOp k cc).map (c.T.newOps c.h c.o c.order c.T.ops.length).newOp →
        c.u k ≠ .no := by
      intro cc hpm
      rw [List.mem_map] at hpm
      obtain ⟨j, hj, hjp⟩ := hpm
      unfold PrevSt.skipOps at hj
      rw [List.mem_filter, Bool.and_eq_true] at hj
      have hj3 : (k, cc) ∈ c.Q.use.cset j := of_decide_eq_true (Bool.and_eq_true_iff.1 hj.2.2).2
      exact (pi_clo w (Qinv w) hj3).2.2.1
    have hcop : ((c.T.plan c.h c.o).1.op k).cop = cop := by change (c.T.op k).cop = cop; rw [hop]; rfl
    rw [hcop] at hp
    split_ifs at hp with hh
    · have hp : p ∈ _ := of_decide_eq_true hp
      exact main true hp fun hl => (hcmp (hused true hp) hl).2 hh
    · have hp : p ∈ _ := of_decide_eq_true hp
      refine main false hp fun hl => ?_
      by_contra hc
      exact hh ((hcmp (hused false hp) hl).1 (by simpa using hc))

/-- the values of the results do not change later -/
theorem val_keep {q j : ℕ} (h : q < c.T'.ops.length) (hj : j < q) : (c.S (q + 1)).val j = (c.S q).val j := swAt_succ_val h (by omega)

/-- elements of VecAD vectors have the same values -/
theorem rel_val (w : c.T.WF) {i : ℕ} (hi : i ≤ c.T.ops.length) {s : FSt} (I : c.Inv i s) (hl : ∀ j, c.Live j) {a a' : Arg} (h : c.Rel i a a') :
    a'.val c.V' s.val = a.val c.V (c.ref i).val := by
  rcases h with ⟨p, h1, h2, rfl, rfl⟩ | ⟨v, h1, h2, h3, h4, rfl, rfl⟩
  · exact par_val w h1 h2
  · simp only [Arg.val]
    rw [E_eq h2 hi]
    exact (I.val v h1 h2 h3 h4 (hl _)).2

/-- a vector that is not the target of operator `i` does not change -/
theorem mem_same {disc : ℕ → ℝ → ℝ} {par : ℕ → ℝ} {op : VOp} {i w : ℕ} {s : FSt} (h : op.vec ≠ some w ∨ op.hasRes = true) :
    (op.step disc par i s).mem w = s.mem w := by
  cases op <;> simp_all [VOp.step, FSt.set, FSt.store, VOp.vec, VOp.hasRes, Function.update_of_ne]
  all_goals exact Function.update_of_ne (fun e => h e.symm) _ _

theorem Rel.mono {i j : ℕ} (hij : i ≤ j) {a a' : Arg} (h : c.Rel i a a') : c.Rel j a a' := by
  rcases h with h | ⟨v, h1, h2, h3⟩
  · exact Or.inl h
  · exact Or.inr ⟨v, h1, by omega, h3⟩

/-- an operator that stores nothing in a vector that is used later -/
theorem mem_next {i : ℕ} (hi : i < c.T.ops.length) {s s' : FSt} (I : c.Inv i s)
    (hst : ∀ v, (c.T.op i).vec = some v → (c.T.op i).hasRes = false → (c.T.useFrom c.o (i + 1)).vused v = false)
    (hm : s'.mem = s.mem) : (∀ j, c.Live j) → ∀ v, (c.T.useFrom c.o (i + 1)).vused v = true → ∀ k,
      c.Rel (i + 1) ((c.ref (i + 1)).mem v k) (s'.mem (newVec c.Q.use.vused v) k) := by
  intro hl v hv k
  rw [ref_succ hi, mem_same, hm]
  · exact (I.mem hl v (useFrom_vused (Nat.le_succ i) hv) k).mono (Nat.le_succ i)
  · by_cases h1 : (c.T.op i).hasRes = true
    · exact Or.inr h1
    · refine Or.inl fun h2 => ?_
      have := hst v h2 (by simpa using h1)
      rw [hv] at this; cases this

/-- value of a result of a call of an atomic function -/
theorem frv_val (w : c.T.WF) (hb : c.b = false ∨ SkipOk c.o c.T) {i : ℕ} (hi : i < c.T.ops.length) {s : FSt} (I : c.Inv i s)
    (hu : c.u i = .yes) (hp : c.Q.prev i = 0) (hl : c.Live i) {A : AtomF} {args : List Arg} {g r : ℕ} (hop : c.T.op i = .frv A args g r) :
    (c.new i).res c.disc c.V' s = c.E i := by
  have hE : c.E i = (c.T.op i).res c.disc c.V (c.ref i) := finalVal_res hi (by change (c.T.op i).hasRes = true; rw [hop]; rfl)
    (by change (c.T.op i).isInd = false; rw [hop]; rfl)
  obtain ⟨m, hog, hir, hrm⟩ := w.call i hi A args g r hop
  have hgi : g < i := by omega
  have hg : g < c.T.ops.length := by omega
  -- the call is used and live
  have hug : c.u g = .yes := args_yes (h := c.h) (o := c.o) w hi (by change c.u i ≠ .no; rw [hu]; simp)
    (by rw [top_eq w, hop]; rfl) g (by rw [hop]; simp [VOp.need])
  have hpg : c.Q.prev g = 0 := prev_zero w (by rw [hog]; rfl)
  have hlg : c.Live g := by
    have := live_plain w hb hi (by rw [hu]; simp) hp hl g (by rw [hop]; simp [VOp.plain, VOp.need])
    simpa [PrevSt.pi, hpg] using this
  -- the arguments
  have hvars := w.vars g hg
  have hpars := w.pars g hg
  have hyes := args_yes (h := c.h) (o := c.o) w hg (by change c.u g ≠ .no; rw [hug]; simp) (by rw [top_eq w, hog]; rfl)
  have hplain := live_plain w hb hg (by rw [hug]; simp) hpg hlg
  rw [hE]
  unfold new
  rw [hop]
  simp only [VOp.emit, VOp.res]
  set x' := (args.map (Arg.emit (c.T.plan c.h c.o).1.zero (c.T.pu c.h c.o) c.np ((c.T.newOps c.h c.o c.order i).varsAt (c.T.plan c.h c.o).1 i))).map
    (fun a => a.val c.V' s.val) with hx'
  symm
  refine A.depend_ok (args.map (Arg.depArg c.T.tx)) (fun r => decide (r < m) && decide ((c.T.use c.o).usage (g + 1 + r) ≠ .no)) _ _
    (by simp) (by simp [hx']) ?_ ?_ r ?_
  · intro j v hj
    rw [List.getElem?_map] at hj ⊢
    cases ha : args[j]? with
    | none => rw [ha] at hj; cases hj
    | some a =>
      rw [ha] at hj
      simp only [Option.map_some, Option.some.injEq] at hj ⊢
      cases a with
      | var u => simp [Arg.depArg] at hj
      | par p =>
        simp only [Arg.depArg, Prod.mk.injEq, Option.some.injEq, OTape.tx] at hj
        have hpl : p < c.T.dyn.parAll.length := hpars p (by
          rw [hog]; simp only [VOp.pars, List.mem_flatMap]
          exact ⟨_, List.mem_of_getElem? ha, by simp [Arg.pars]⟩)
        have hd : c.T.isDyn p = false := by
          by_contra hc
          have hc : c.T.dyn.parIsDyn.getD p false = true := by simpa [OTape.isDyn] using hc
          rw [hc] at hj; simp at hj
        simp only [Arg.val]
        rw [← hj.2]
        exact con_val w hpl hd
  · intro j hj hdep
    rw [List.length_map] at hj
    have hmem : args[j] ∈ depArgs c.T.tx (c.T.use c.o).usage g A args m := by
      simp only [depArgs, List.mem_map, List.mem_filter, List.mem_range]
      exact ⟨j, ⟨hj, hdep⟩, List.getD_eq_getElem _ _ hj⟩
    have hma : args[j] ∈ args := List.getElem_mem _
    rw [hx', List.map_map, List.getElem?_map, List.getElem?_map, List.getElem?_eq_getElem hj]
    simp only [Option.map_some, Option.some.injEq, Function.comp]
    cases ha : args[j] with
    | par p =>
      rw [ha] at hmem hma
      have hpu : c.T.pu c.h c.o p = true := dep_pars_used w hg hog (by change c.u g ≠ .no; rw [hug]; simp) hmem p (by simp [Arg.pars])
      have hpl : p < c.T.dyn.parAll.length := hpars p (by
        rw [hog]; simp only [VOp.pars, List.mem_flatMap]
        exact ⟨_, hma, by simp [Arg.pars]⟩)
      simp only [Arg.emit, hpu, if_true, Arg.val]
      exact (par_val w hpl hpu).symm
    | var v =>
      rw [ha] at hmem hma
      have hvn : v ∈ (c.T.op g).need c.T.tx (c.T.use c.o).usage g := by
        rw [hog]; simp only [VOp.need, List.mem_flatMap]
        exact ⟨_, hmem, by simp [Arg.vars]⟩
      have hvp : v ∈ (c.T.op g).plain c.T.tx (c.T.use c.o).usage g := by rw [hog] at hvn ⊢; exact hvn
      obtain ⟨v1, v2, v3⟩ := hvars v (need_vars hvn)
      have hvu : c.u v = .yes := hyes v hvn
      have e := varsAt_eq (T := c.T) (h := c.h) (o := c.o) (order := c.order) (show v < i by omega)
      have hnz := nv_pos w v v1 (by omega) hvu v3
      have hne : ¬ c.T.nv c.h c.o c.order v = 0 := by unfold nv at hnz; omega
      simp only [Arg.emit, e, hne, if_false, Arg.val]
      rw [E_eq (by omega) hi.le]
      exact (I.val v v1 (by omega) hvu v3 (hplain v hvp)).2.symm
  · have : (c.T.use c.o).usage (g + 1 + r) ≠ .no := by rw [← hir]; change c.u i ≠ .no; rw [hu]; simp
    simp [hrm, this]

/-- value of an operator that is copied -/
theorem put_val (w : c.T.WF) (hb : c.b = false ∨ SkipOk c.o c.T) {i : ℕ} (hi : i < c.T.ops.length) {s : FSt} (I : c.Inv i s)
    (hu : c.u i = .yes) (hp : c.Q.prev i = 0) (ht : (c.T.plan c.h c.o).1.top (c.T.op i) = false)
    (hc : (c.T.op i).isCsum = false) (hs : (c.T.op i).isCskip = false) (hl : c.Live i)
    (hr : (c.T.op i).hasRes = true) (hn : (c.T.op i).isInd = false) :
    (c.new i).res c.disc c.V' s = c.E i := by
  have hE : c.E i = (c.T.op i).res c.disc c.V (c.ref i) := finalVal_res hi hr hn
  by_cases hat : (c.T.op i).isAtom = true
  · cases hop : c.T.op i with
    | afun A args m => rw [hE, new, hop]; rfl
    | frv A args g r => exact frv_val w hb hi I hu hp hl hop
    | frp => rw [hop] at hr; cases hr
    | _ => rw [hop] at hat; cases hat
  have hat : (c.T.op i).isAtom = false := by simpa using hat
  unfold new
  rw [emit_eq hat]
  have hyes := args_yes (h := c.h) (o := c.o) w hi (by change c.u i ≠ .no; rw [hu]; simp) ht
  rw [need_eq hat] at hyes
  have hpk := pars_used (h := c.h) (o := c.o) w hi hu ht hc hs hat
  have hpars := w.pars i hi
  have hvars := w.vars i hi
  have hplain := live_plain w hb hi (by rw [hu]; simp) hp hl
  have hbr := live_branch w hb hi (by rw [hu]; simp) hp hl
  have hpv : ∀ p ∈ (c.T.op i).pars, c.V' (c.np p) = c.V p := fun p hp => par_val w (hpars p hp) (hpk p hp)
  have hvv : ∀ v ∈ (c.T.op i).vars, c.Live (c.Q.pi v) →
      s.val ((c.T.newOps c.h c.o c.order i).varsAt (c.T.plan c.h c.o).1 i v) = (c.ref i).val v := by
    intro v hv hlv
    rw [varsAt_eq (hvars v hv).2.1, E_eq (hvars v hv).2.1 hi.le]
    exact (I.val v (hvars v hv).1 (hvars v hv).2.1 (hyes v hv) (hvars v hv).2.2 hlv).2
  rw [hE]
  by_cases hce : (c.T.op i).isCexp = true
  · obtain ⟨cop, l, r, t, f, hop⟩ : ∃ cop l r t f, c.T.op i = .cexp cop l r t f := by
      cases hop : c.T.op i <;> simp_all [VOp.isCexp]
    have hlr : ∀ v ∈ l.vars ++ r.vars, v ∈ (c.T.op i).plain c.T.tx (c.T.use c.o).usage i := fun v hv => by rw [hop]; exact hv
    have e1 : (l.map c.np ((c.T.newOps c.h c.o c.order i).varsAt (c.T.plan c.h c.o).1 i)).val c.V' s.val = l.val c.V (c.ref i).val :=
      Arg.val_map l (fun p hp => hpv p (by rw [hop]; simp [VOp.pars, hp]))
        fun v hv => hvv v (VOp.plain_vars (hlr v (by simp [hv]))) (hplain v (hlr v (by simp [hv])))
    have e2 : (r.map c.np ((c.T.newOps c.h c.o c.order i).varsAt (c.T.plan c.h c.o).1 i)).val c.V' s.val = r.val c.V (c.ref i).val :=
      Arg.val_map r (fun p hp => hpv p (by rw [hop]; simp [VOp.pars, hp]))
        fun v hv => hvv v (VOp.plain_vars (hlr v (by simp [hv]))) (hplain v (hlr v (by simp [hv])))
    have e3 : l.val c.V (c.ref i).val = l.val c.V c.E := Arg.val_congr l (fun _ _ => rfl) fun v hv =>
      E_eq (hvars v (VOp.plain_vars (hlr v (by simp [hv])))).2.1 hi.le
    have e4 : r.val c.V (c.ref i).val = r.val c.V c.E := Arg.val_congr r (fun _ _ => rfl) fun v hv =>
      E_eq (hvars v (VOp.plain_vars (hlr v (by simp [hv])))).2.1 hi.le
    rw [hop]
    simp only [VOp.map, VOp.res, condExp]
    rw [e1, e2]
    by_cases hh : cop.holds (l.val c.V (c.ref i).val) (r.val c.V (c.ref i).val)
    · rw [if_pos hh, if_pos hh]
      have hcmp : cmpAt c.V c.E (c.T.op i) = true := by rw [hop]; simp only [cmpAt]; rw [← e3, ← e4]; simpa using hh
      refine Arg.val_map t (fun p hp => hpv p (by rw [hop]; simp [VOp.pars, hp])) fun v hv => ?_
      have hv' : v ∈ (c.T.op i).branch true := by rw [hop]; exact hv
      exact hvv v (VOp.branch_vars hv') (hbr v (by rw [hcmp]; exact hv'))
    · rw [if_neg hh, if_neg hh]
      have hcmp : cmpAt c.V c.E (c.T.op i) = false := by rw [hop]; simp only [cmpAt]; rw [← e3, ← e4]; simpa using hh
      refine Arg.val_map f (fun p hp => hpv p (by rw [hop]; simp [VOp.pars, hp])) fun v hv => ?_
      have hv' : v ∈ (c.T.op i).branch false := by rw [hop]; exact hv
      exact hvv v (VOp.branch_vars hv') (hbr v (by rw [hcmp]; exact hv'))
  · refine res_map _ hpv (fun v hv => hvv v hv (hplain v ?_)) fun v hv k => ?_
    · rw [plain_eq hat (by simpa using hce)]; exact hv
    · have hall := live_vec w hb hi hv
      refine rel_val w hi.le I hall (I.mem hall v ?_ k)
      refine use_load w hi ?_ (by change c.u i ≠ .no; rw [hu]; simp)
      cases hop : c.T.op i <;> simp_all [VOp.vec, VOp.hasRes]

theorem sum_res {op : VOp} (h : op.addOrSub = true ∨ op.isCsum = true) : op.hasRes = true ∧ op.isInd = false := by
  cases op <;> simp_all [VOp.addOrSub, VOp.isCsum, VOp.hasRes, VOp.isInd]

/-- value of a cumulative sum -/
theorem csum_val (w : c.T.WF) (hb : c.b = false ∨ SkipOk c.o c.T) {i : ℕ} (hi : i < c.T.ops.length) {s : FSt} (I : c.Inv i s)
    (hu : c.u i = .yes) (ht : (c.T.plan c.h c.o).1.top (c.T.op i) = true ∨ (c.T.op i).isCsum = true) (hl : c.Live i)
    {a b : List VOp}
    (S : StepSpec c.h.real (c.T.plan c.h c.o).1 i (c.T.newOps c.h c.o c.order i) (c.T.newOps c.h c.o c.order (i + 1)) a b) :
    (csumFor c.h.real (c.T.plan c.h c.o).1 i (c.T.newOps c.h c.o c.order i)).res c.disc c.V' s = c.E i := by
  have hval : ∀ v < c.T.ops.length, ((c.T.op v).addOrSub = true ∨ (c.T.op v).isCsum = true) → c.E v = resE c.disc c.V c.E (c.T.op v) := by
    intro v hv ha
    have : c.E v = (c.T.op v).res c.disc c.V (c.ref v) := by
      exact finalVal_res hv (sum_res ha).1 (sum_res ha).2
    rw [this]
    refine res_congr _ (fun _ _ => rfl) (fun u hu => E_eq (w.vars v hv u hu).2.1 hv.le) fun z hz => ?_
    exfalso
    cases hop : c.T.op v <;> simp_all [VOp.addOrSub, VOp.isCsum, VOp.vec]
  have hset : c.Q.use.cset i = (c.T.use c.o).cset i := by
    rcases ht with ht | ht
    · rw [top_eq w, Bool.and_eq_true, List.any_eq_true] at ht
      obtain ⟨v, hv, hc⟩ := ht.2
      exact (Qinv w).cset_eq (top_not_matched w (Qinv w) (le_refl _) hv (by simpa using hc)).2
    · exact (Qinv w).cset_eq' (by cases hop : c.T.op i <;> simp_all [VOp.isCsum, VOp.matchable])
  have H : CsumHyp c.disc c.V c.E c.T c.o (fun v => (1 ≤ v ∧ (c.T.op v).hasRes = true) ∧ (c.b = false ∨ (c.T.use c.o).cset v ⊆ (c.T.use c.o).cset i)) (c.T.pu c.h c.o) :=
    { wf := w
      con := fun p hp hd => con_val w hp hd
      val := fun v hv ha => hval v hv (Or.inl ha)
      key := by
        intro k hk hku hka hkc hK v hv
        refine ⟨⟨(w.vars k hk v hv).1, (w.vars k hk v hv).2.2⟩, ?_⟩
        rcases hK.2 with h | h
        · exact Or.inl h
        · rcases hb with hb | hb
          · exact Or.inl hb
          · refine Or.inr (((cset_args w hb hk hku).1 v ?_).trans h)
            rw [plain_eq hka hkc]; exact hv
      dyn := by
        intro k hk hku ha p hp hd
        refine parUsage_ops _ _ _ (Or.inr (Or.inr ⟨k, hk, ?_, Or.inl ?_⟩))
        · rw [(inv_prev w).usage]; exact hku
        · unfold OTape.isDyn at hd
          cases hop : c.T.op k with
          | pv f q v => rw [hop] at hp ha; cases f <;> simp_all [VOp.pars, parMarks, VOp.addOrSub]
          | vp f v q => rw [hop] at hp ha; cases f <;> simp_all [VOp.pars, parMarks, VOp.addOrSub]
          | _ => simp_all [VOp.pars, VOp.addOrSub]
      ind := fun p hp => parUsage_ops _ _ _ (Or.inl hp) }
  have hop : (c.T.op i).addOrSub = true ∨ ∃ cc av sv ad sd, c.T.op i = .csum cc av sv ad sd := by
    rcases ht with ht | ht
    · exact Or.inl (top_addOrSub ht)
    · right; cases hop : c.T.op i <;> simp_all [VOp.isCsum]
  have hsum : (c.T.op i).addOrSub = true ∨ (c.T.op i).isCsum = true := ht.imp top_addOrSub id
  have hri : (c.T.op i).hasRes = true := (sum_res hsum).1
  have hi1 : 1 ≤ i := by
    by_contra hc
    have := (w.ind i hi).2 (by omega)
    rw [(sum_res hsum).2] at this; cases this
  obtain ⟨r1, r2, r3⟩ := csumRun_ok H hi (by change c.u i ≠ .no; rw [hu]; simp) ⟨⟨hi1, hri⟩, Or.inr subset_rfl⟩ hop
  have hrun : csumRun (c.T.plan c.h c.o).1.op (c.T.plan c.h c.o).1.use.use.usage (c.T.plan c.h c.o).1.isDyn (c.T.plan c.h c.o).1.par i =
      csumRun c.T.op (c.T.use c.o).usage (fun i => c.T.dyn.parIsDyn.getD i false) (at' c.T.dyn.parAll) i := by
    rw [plan_usage w]; rfl
  have hEi : c.E i = resE c.disc c.V c.E (c.T.op i) := hval i hi (by
    rcases ht with ht | ht
    · exact Or.inl (top_addOrSub ht)
    · exact Or.inr ht)
  have hcon : c.V' (putCon c.h.real (c.T.newOps c.h c.o c.order i).pars
      (csumRun c.T.op (c.T.use c.o).usage (fun i => c.T.dyn.parIsDyn.getD i false) (at' c.T.dyn.parAll) i).sum).2 =
      (csumRun c.T.op (c.T.use c.o).usage (fun i => c.T.dyn.parIsDyn.getD i false) (at' c.T.dyn.parAll) i).sum := by
    have hp := (S.csum (by rw [usage_eq w]; exact hu) ht).2.1
    rw [hrun] at hp
    obtain ⟨_, _, p3, p4, _⟩ := putCon_ok (disc := c.disc) (ind := c.ind) (hash := c.h.real)
      (newOps_pars (disc := c.disc) (ind := c.ind) (h := c.h) (o := c.o) (order := c.order) w i).1
      (csumRun c.T.op (c.T.use c.o).usage (fun i => c.T.dyn.parIsDyn.getD i false) (at' c.T.dyn.parAll) i).sum
    have g := newOps_grows (disc := c.disc) (ind := c.ind) (h := c.h) (o := c.o) (order := c.order) w (show i + 1 ≤ c.T.ops.length from hi)
    rw [hp] at g
    have g2 := g.2 _ p3
    rw [p4] at g2
    exact g2
  have hleaf : ∀ v ∈ (csumRun c.T.op (c.T.use c.o).usage (fun i => c.T.dyn.parIsDyn.getD i false) (at' c.T.dyn.parAll) i).addV ++
      (csumRun c.T.op (c.T.use c.o).usage (fun i => c.T.dyn.parIsDyn.getD i false) (at' c.T.dyn.parAll) i).subV,
      s.val ((c.T.newOps c.h c.o c.order i).varsAt (c.T.plan c.h c.o).1 i v) = c.E v := by
    intro v hv
    obtain ⟨v1, v2, hv0, v3⟩ := r2 v hv
    rw [varsAt_eq v2]
    refine (I.val v hv0.1 v2 v1 hv0.2 ?_).2
    rcases v3 with v3 | v3
    · exact Or.inl v3
    · rcases hl with hl | hl
      · exact Or.inl hl
      · refine Or.inr fun k hk => hl k ?_
        rw [hset]
        exact v3 ((Qinv w).pi_sub v hk)
  unfold csumFor
  rw [hrun]
  simp only [VOp.res]
  change c.V' _ + _ - _ + _ - _ = _
  rw [hcon, hEi, ← r1, sumOver_map, sumOver_map, sumOver_map, sumOver_map,
    sumOver_congr (g := fun a => s.val _) (fun v hv => hleaf v (List.mem_append_left _ hv)),
    sumOver_congr (g := fun a => s.val _) (fun v hv => hleaf v (List.mem_append_right _ hv)),
    sumOver_congr (g := fun a => c.V' _) (fun p hp => show c.V' ((c.T.plan c.h c.o).1.newPar p) = c.V p from par_val w (r3 p (List.mem_append_left _ hp)).1 (r3 p (List.mem_append_left _ hp)).2),
    sumOver_congr (g := fun a => c.V' _) (fun p hp => show c.V' ((c.T.plan c.h c.o).1.newPar p) = c.V p from par_val w (r3 p (List.mem_append_right _ hp)).1 (r3 p (List.mem_append_right _ hp)).2)]

end Ctx

end CppAD.Optim
