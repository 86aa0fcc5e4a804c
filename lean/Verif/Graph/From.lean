import Verif.Graph.To2
import Verif.Optimize.Pars

/-! # from_graph: the recording has the values of the graph -/

open scoped Classical

namespace CppAD.Graph

open CppAD CppAD.Record CppAD.Optim

variable {fn : Txt → ℝ → ℝ} {c : FCfg} {ind : List ℝ} {st : ℕ → ℝ} {nV nI : ℕ}

/-- values of the parameters recorded so far -/
noncomputable def FromSt.P (c : FCfg) (ind : List ℝ) (s : FromSt) : ℕ → ℝ := at' (parVals c.disc ind s.r)

/-- comparisons recorded so far that are not true -/
noncomputable def FromSt.fails (c : FCfg) (ind : List ℝ) (s : FromSt) (F : ℕ → ℝ) : ℕ := (s.ops.map (opFail (s.P c ind) F)).sum

/-- the recording so far; `F` are the values of its variables, `st` the values of the independent variables,
`nV` and `nI` are the numbers of independent variables and independent dynamic parameters -/
structure RI (c : FCfg) (ind : List ℝ) (st : ℕ → ℝ) (nV nI : ℕ) (s : FromSt) (F : ℕ → ℝ) : Prop where
  par : ParWf s.r
  par0 : 0 < s.r.parAll.length ∧ s.r.parIsDyn.getD 0 false = false
  res : ∀ i < s.ops.length, (s.ops.getD i .begin).hasRes = true → (s.ops.getD i .begin).isInd = false →
    F i = (s.ops.getD i .begin).res c.disc (s.P c ind) (finSt F)
  indv : ∀ i < s.ops.length, (s.ops.getD i .begin).isInd = true → F i = st i
  isInd : ∀ i < s.ops.length, (s.ops.getD i .begin).isInd = true ↔ i ≤ nV
  vars : ∀ i < s.ops.length, ∀ v ∈ (s.ops.getD i .begin).vars, 1 ≤ v ∧ v < i ∧ (s.ops.getD v .begin).hasRes = true
  pars : ∀ i < s.ops.length, ∀ p ∈ (s.ops.getD i .begin).pars, 1 ≤ p ∧ p < s.r.parAll.length
  supp : ∀ i < s.ops.length, (s.ops.getD i .begin).supported = true
  dargs : ∀ op ∈ s.r.dynOps, op.elem ∧ ∀ a ∈ op.args, 1 ≤ a
  nind : ∀ k < s.r.dynOps.length, s.r.dynOps.getD k .ind = .ind ↔ k < nI
  d2p : ∀ k < nI, k < s.r.dynOps.length → (dyn2par s.r.parIsDyn).getD k 0 = k + 1

/-- something was added to a recording; `e` of the comparisons added are not true -/
structure Ext (c : FCfg) (ind : List ℝ) (s s' : FromSt) (F F' : ℕ → ℝ) (e : ℕ) : Prop where
  typ : s'.typ = s.typ
  n2f : s'.n2f = s.n2f
  grows : Grows c.disc ind s.r s'.r
  parAll : ∃ l, s'.r.parAll = s.r.parAll ++ l
  ops : ∃ l, s'.ops = s.ops ++ l
  dynOps : s.r.dynOps.length ≤ s'.r.dynOps.length
  val : ∀ i < s.ops.length, F' i = F i
  fails : s'.fails c ind F' = s.fails c ind F + e

theorem Ext.refl (s : FromSt) (F : ℕ → ℝ) : Ext c ind s s F F 0 :=
  ⟨rfl, rfl, .refl _, ⟨[], by simp⟩, ⟨[], by simp⟩, le_refl _, fun _ _ => rfl, rfl⟩

theorem Ext.trans {s s' s'' : FromSt} {F F' F'' : ℕ → ℝ} {e e' : ℕ} (h : Ext c ind s s' F F' e) (h' : Ext c ind s' s'' F' F'' e') :
    Ext c ind s s'' F F'' (e + e') := by
  obtain ⟨l, hl⟩ := h.parAll
  obtain ⟨l', hl'⟩ := h'.parAll
  obtain ⟨o, ho⟩ := h.ops
  obtain ⟨o', ho'⟩ := h'.ops
  refine ⟨h'.typ.trans h.typ, h'.n2f.trans h.n2f, h.grows.trans h'.grows, ⟨l ++ l', by rw [hl', hl, List.append_assoc]⟩,
    ⟨o ++ o', by rw [ho', ho, List.append_assoc]⟩, h.dynOps.trans h'.dynOps, fun i hi => ?_, by rw [h'.fails, h.fails, Nat.add_assoc]⟩
  rw [h'.val i (by rw [ho]; simp; omega), h.val i hi]

theorem Ext.P {s s' : FromSt} {F F' : ℕ → ℝ} {e p : ℕ} (h : Ext c ind s s' F F' e) (hp : p < s.r.parAll.length) :
    s'.P c ind p = s.P c ind p := h.grows.2 p hp

theorem Ext.ty {s s' : FromSt} {F F' : ℕ → ℝ} {e : ℕ} (h : Ext c ind s s' F F' e) : s'.ty = s.ty := by unfold FromSt.ty; rw [h.typ]

theorem Ext.ix {s s' : FromSt} {F F' : ℕ → ℝ} {e : ℕ} (h : Ext c ind s s' F F' e) : s'.ix = s.ix := by unfold FromSt.ix; rw [h.n2f]

theorem opFail_congr {P P' F F' : ℕ → ℝ} {op : VOp} (hp : ∀ p ∈ op.pars, P' p = P p) (hv : ∀ v ∈ op.vars, F' v = F v) :
    opFail P' F' op = opFail P F op := by
  cases op with
  | cmp k a b =>
    simp only [VOp.pars, VOp.vars, List.mem_append] at hp hv
    simp only [opFail]
    rw [Arg.val_congr a (fun p h => hp p (Or.inl h)) (fun v h => hv v (Or.inl h)),
      Arg.val_congr b (fun p h => hp p (Or.inr h)) (fun v h => hv v (Or.inr h))]
  | _ => rfl

theorem res_fin {P P' F F' : ℕ → ℝ} {op : VOp} (hs : op.supported = true) (hp : ∀ p ∈ op.pars, P' p = P p) (hv : ∀ v ∈ op.vars, F' v = F v) :
    op.res c.disc P' (finSt F') = op.res c.disc P (finSt F) := by
  refine res_congr op hp hv fun w hw => ?_
  exfalso
  cases op <;> simp [VOp.vec, VOp.supported] at hw hs

theorem mem_getD {l : List VOp} {op : VOp} (h : op ∈ l) : ∃ i < l.length, l.getD i .begin = op := by
  obtain ⟨i, hi, rfl⟩ := List.getElem_of_mem h
  exact ⟨i, hi, List.getD_eq_getElem _ _ hi⟩

/-- only parameters are added -/
theorem RI.pars_ext {s : FromSt} {F : ℕ → ℝ} (h : RI c ind st nV nI s F) {r : DynRec ℝ} (hg : Grows c.disc ind s.r r) :
    (∀ i < s.ops.length, (s.ops.getD i .begin).hasRes = true → (s.ops.getD i .begin).isInd = false →
      F i = (s.ops.getD i .begin).res c.disc (({ s with r := r } : FromSt).P c ind) (finSt F)) ∧
    ({ s with r := r } : FromSt).fails c ind F = s.fails c ind F := by
  constructor
  · intro i hi h1 h2
    rw [h.res i hi h1 h2]
    exact (res_fin (h.supp i hi) (fun p hp => hg.2 p (h.pars i hi p hp).2) fun _ _ => rfl).symm
  · unfold FromSt.fails
    congr 1
    refine List.map_congr_left fun op hop => ?_
    obtain ⟨i, hi, rfl⟩ := mem_getD hop
    exact opFail_congr (fun p hp => hg.2 p (h.pars i hi p hp).2) fun _ _ => rfl

theorem con_ok {s : FromSt} {F : ℕ → ℝ} (h : RI c ind st nV nI s F) (v : ℝ) :
    RI c ind st nV nI (s.con c v).1 F ∧ Ext c ind s (s.con c v).1 F F 0 ∧ 1 ≤ (s.con c v).2 ∧ (s.con c v).2 < (s.con c v).1.r.parAll.length ∧
    (s.con c v).1.P c ind (s.con c v).2 = v ∧ at' (s.con c v).1.r.parAll (s.con c v).2 = v ∧ (s.con c v).1.r.dynOps = s.r.dynOps ∧
    (s.con c v).1.ops = s.ops := by
  have h0 := h.par0
  obtain ⟨hw, hg, hlt, hv, hd⟩ := putCon_ok (disc := c.disc) (ind := ind) (hash := c.hash) h.par v
  have key : (s.con c v).1 = { s with r := (putCon c.hash s.r v).1 } := rfl
  have key2 : (s.con c v).2 = (putCon c.hash s.r v).2 := rfl
  obtain ⟨he, hf⟩ := h.pars_ext hg
  have hall : 1 ≤ (putCon c.hash s.r v).2 ∧ at' (putCon c.hash s.r v).1.parAll (putCon c.hash s.r v).2 = v ∧
      (∃ l, (putCon c.hash s.r v).1.parAll = s.r.parAll ++ l) ∧ (putCon c.hash s.r v).1.parIsDyn.getD 0 false = false ∧
      dyn2par (putCon c.hash s.r v).1.parIsDyn = dyn2par s.r.parIsDyn := by
    unfold putCon
    rcases putConPar_cases c.hash (fun a b => decide (a = b)) s.r v with ⟨h1, h2, d, h3, h4, h5⟩ | ⟨h1, h2, h3, h4⟩
    · rw [h1]
      refine ⟨h2, ?_, ⟨[], by simp⟩, h0.2, rfl⟩
      unfold at'; rw [List.getD_eq_getElem?_getD, h3]; exact of_decide_eq_true h5
    · rw [h1, h2, h3]
      refine ⟨h0.1, at'_append_length _ _, ⟨_, rfl⟩, ?_, by rw [dyn2par_snoc]; simp⟩
      rw [List.getD_append _ _ _ _ (by rw [← h.par.len]; exact h0.1)]; exact h0.2
  obtain ⟨a1, a2, a3, a4, a5⟩ := hall
  rw [key, key2]
  refine ⟨⟨hw, ⟨lt_of_lt_of_le h0.1 hg.1, a4⟩, he, h.indv, h.isInd, h.vars, fun i hi p hp => ⟨(h.pars i hi p hp).1, ?_⟩, h.supp, ?_, ?_, ?_⟩,
    ⟨rfl, rfl, hg, a3, ⟨[], by simp⟩, by rw [hd], fun _ _ => rfl, hf⟩, a1, hlt, hv, a2, hd, rfl⟩
  · exact lt_of_lt_of_le (h.pars i hi p hp).2 hg.1
  · show ∀ op ∈ (putCon c.hash s.r v).1.dynOps, _; rw [hd]; exact h.dargs
  · show ∀ k < (putCon c.hash s.r v).1.dynOps.length, (putCon c.hash s.r v).1.dynOps.getD k .ind = .ind ↔ k < nI; rw [hd]; exact h.nind
  · show ∀ k < nI, k < (putCon c.hash s.r v).1.dynOps.length → (dyn2par (putCon c.hash s.r v).1.parIsDyn).getD k 0 = k + 1
    rw [hd, a5]; exact h.d2p

theorem dyn_ok {s : FromSt} {F : ℕ → ℝ} (h : RI c ind st nV nI s F) (op : DynOp) (ha : ∀ a ∈ op.args, 1 ≤ a ∧ a < s.r.parAll.length)
    (hi : op = .ind ↔ s.r.dynOps.length < nI) (hl : s.r.dynOps.length < nI → s.r.parAll.length = s.r.dynOps.length + 1)
    (hel : op.elem := by trivial) :
    RI c ind st nV nI (s.dyn c op).1 F ∧ Ext c ind s (s.dyn c op).1 F F 0 ∧ 1 ≤ (s.dyn c op).2 ∧ (s.dyn c op).2 < (s.dyn c op).1.r.parAll.length ∧
    (s.dyn c op).1.P c ind (s.dyn c op).2 = op.eval c.disc ind s.r.dynOps.length (parVals c.disc ind s.r) ∧
    (s.dyn c op).1.r.dynOps = s.r.dynOps ++ [op] := by
  have h0 := h.par0
  obtain ⟨hw, hg, hlt, hv, hd⟩ := putDyn_ok (disc := c.disc) (ind := ind) h.par c.nan op fun a h' => (ha a h').2
  have key : (s.dyn c op).1 = { s with r := (s.r.putDynPar c.nan op).1 } := rfl
  have key2 : (s.dyn c op).2 = (s.r.putDynPar c.nan op).2 := rfl
  obtain ⟨he, hf⟩ := h.pars_ext hg
  have e2 : (s.r.putDynPar c.nan op).2 = s.r.parAll.length := rfl
  have e3 : (s.r.putDynPar c.nan op).1.parIsDyn = s.r.parIsDyn ++ [true] := rfl
  have hlen := h.par.len
  have hdl := h.par.wf.length
  rw [key, key2]
  refine ⟨⟨hw, ⟨lt_of_lt_of_le h0.1 hg.1, ?_⟩, he, h.indv, h.isInd, h.vars, fun i hi p hp => ⟨(h.pars i hi p hp).1, ?_⟩, h.supp, ?_, ?_, ?_⟩,
    ⟨rfl, rfl, hg, ⟨[c.nan], rfl⟩, ⟨[], by simp⟩, by rw [hd]; simp, fun _ _ => rfl, hf⟩, by rw [e2]; exact h0.1, hlt, hv, hd⟩
  · dsimp only; rw [e3, List.getD_append _ _ _ _ (by omega)]; exact h0.2
  · exact lt_of_lt_of_le (h.pars i hi p hp).2 hg.1
  · show ∀ op' ∈ (s.r.putDynPar c.nan op).1.dynOps, _
    rw [hd]
    intro op' hop
    rcases List.mem_append.1 hop with h' | h'
    · exact h.dargs op' h'
    · rw [List.mem_singleton] at h'; subst h'; exact ⟨hel, fun a h' => (ha a h').1⟩
  · show ∀ k < (s.r.putDynPar c.nan op).1.dynOps.length, (s.r.putDynPar c.nan op).1.dynOps.getD k .ind = .ind ↔ k < nI
    rw [hd]
    intro k hk
    rcases Nat.lt_or_ge k s.r.dynOps.length with h' | h'
    · rw [List.getD_append _ _ _ _ h']; exact h.nind k h'
    · have : k = s.r.dynOps.length := by simp at hk; omega
      subst this
      rw [List.getD_append_right _ _ _ _ (le_refl _)]; simpa using hi
  · show ∀ k < nI, k < (s.r.putDynPar c.nan op).1.dynOps.length → (dyn2par (s.r.putDynPar c.nan op).1.parIsDyn).getD k 0 = k + 1
    rw [hd, e3, dyn2par_snoc]
    intro k hk hk2
    rcases Nat.lt_or_ge k s.r.dynOps.length with h' | h'
    · rw [List.getD_append _ _ _ _ (by omega)]; exact h.d2p k hk h'
    · have : k = s.r.dynOps.length := by simp at hk2; omega
      subst this
      rw [List.getD_append_right _ _ _ _ (by omega), hdl]
      have := hl hk
      simp; omega

theorem op_ok {s : FromSt} {F : ℕ → ℝ} (h : RI c ind st nV nI s F) (op : VOp)
    (hv : ∀ v ∈ op.vars, 1 ≤ v ∧ v < s.ops.length ∧ (s.ops.getD v .begin).hasRes = true) (hp : ∀ p ∈ op.pars, 1 ≤ p ∧ p < s.r.parAll.length)
    (hs : op.supported = true) (hi : op.isInd = true ↔ s.ops.length ≤ nV) :
    ∃ F', RI c ind st nV nI (s.op op).1 F' ∧ Ext c ind s (s.op op).1 F F' (opFail (s.P c ind) F op) ∧ (s.op op).2 = s.ops.length ∧
      (s.op op).1.ops = s.ops ++ [op] ∧ (s.op op).1.r = s.r ∧
      F' s.ops.length = if op.isInd then st s.ops.length else op.res c.disc (s.P c ind) (finSt F) := by
  set y := if op.isInd then st s.ops.length else op.res c.disc (s.P c ind) (finSt F) with hy
  have hF : ∀ i < s.ops.length, Function.update F s.ops.length y i = F i := fun i hi => Function.update_of_ne (by omega) _ _
  have g1 : ∀ i < s.ops.length, (s.op op).1.ops.getD i .begin = s.ops.getD i .begin := fun i hi => List.getD_append _ _ _ _ hi
  have g2 : (s.op op).1.ops.getD s.ops.length .begin = op := by
    show (s.ops ++ [op]).getD s.ops.length .begin = op
    rw [List.getD_append_right _ _ _ _ (le_refl _)]; simp
  have cs : ∀ i, i < (s.op op).1.ops.length → i < s.ops.length ∨ i = s.ops.length := by
    intro i hi; have : (s.op op).1.ops.length = s.ops.length + 1 := by simp [FromSt.op]
    omega
  have ePP : (s.op op).1.P c ind = s.P c ind := rfl
  refine ⟨Function.update F s.ops.length y, ⟨h.par, h.par0, ?_, ?_, ?_, ?_, ?_, ?_, h.dargs, h.nind, h.d2p⟩,
    ⟨rfl, rfl, .refl _, ⟨[], by simp [FromSt.op]⟩, ⟨[op], rfl⟩, le_refl _, hF, ?_⟩, rfl, rfl, rfl, Function.update_self _ _ _⟩
  · intro i hi' h1 h2
    rcases cs i hi' with h' | rfl
    · rw [g1 i h'] at h1 h2 ⊢
      rw [hF i h', h.res i h' h1 h2, ePP]
      exact (res_fin (h.supp i h') (fun _ _ => rfl) fun v hv' => hF v (by have := h.vars i h' v hv'; omega)).symm
    · rw [g2] at h1 h2 ⊢
      have hy' : y = op.res c.disc (s.P c ind) (finSt F) := by rw [hy, h2]; rfl
      rw [Function.update_self, ePP]
      refine hy'.trans ?_
      exact (res_fin hs (fun _ _ => rfl) fun v hv' => hF v (hv v hv').2.1).symm
  · intro i hi' h1
    rcases cs i hi' with h' | rfl
    · rw [g1 i h'] at h1; rw [hF i h']; exact h.indv i h' h1
    · rw [g2] at h1; rw [Function.update_self, hy, h1]; rfl
  · intro i hi'
    rcases cs i hi' with h' | rfl
    · rw [g1 i h']; exact h.isInd i h'
    · rw [g2]; exact hi
  · intro i hi' v hv'
    rcases cs i hi' with h' | rfl
    · rw [g1 i h'] at hv'
      obtain ⟨a1, a2, a3⟩ := h.vars i h' v hv'
      exact ⟨a1, a2, by rw [g1 v (by omega)]; exact a3⟩
    · rw [g2] at hv'
      obtain ⟨a1, a2, a3⟩ := hv v hv'
      exact ⟨a1, a2, by rw [g1 v a2]; exact a3⟩
  · intro i hi' p hp'
    rcases cs i hi' with h' | rfl
    · rw [g1 i h'] at hp'; exact h.pars i h' p hp'
    · rw [g2] at hp'; exact hp p hp'
  · intro i hi'
    rcases cs i hi' with h' | rfl
    · rw [g1 i h']; exact h.supp i h'
    · rw [g2]; exact hs
  · show ((s.ops ++ [op]).map (opFail (s.P c ind) _)).sum = _
    rw [List.map_append, List.sum_append]
    congr 1
    · unfold FromSt.fails
      congr 1
      refine List.map_congr_left fun o ho => ?_
      obtain ⟨i, hi', rfl⟩ := mem_getD ho
      exact opFail_congr (fun _ _ => rfl) fun v hv' => hF v (by have := h.vars i hi' v hv'; omega)
    · simp only [List.map_cons, List.map_nil, List.sum_cons, List.sum_nil, Nat.add_zero]
      exact opFail_congr (fun _ _ => rfl) fun v hv' => hF v (hv v hv').2.1

/-- the values of the sweep -/
theorem final_eq {s : FromSt} {F : ℕ → ℝ} (h : RI c ind st nV nI s F) (fs : FSt) (hst : ∀ i ≤ nV, fs.val i = st i) :
    ∀ i < s.ops.length, (s.ops.getD i .begin).hasRes = true → finalVal c.disc (s.P c ind) s.ops fs i = F i := by
  intro i
  induction i using Nat.strong_induction_on with
  | _ i ih =>
    intro hi hr
    cases hI : (s.ops.getD i .begin).isInd with
    | true => rw [finalVal_ind hi hI, h.indv i hi hI, hst i ((h.isInd i hi).1 hI)]
    | false =>
      rw [finalVal_res hi hr hI, h.res i hi hr hI]
      refine res_congr _ (fun _ _ => rfl) (fun v hv => ?_) fun w hw => ?_
      · obtain ⟨a1, a2, a3⟩ := h.vars i hi v hv
        show (refAt c.disc (s.P c ind) s.ops fs i).val v = F v
        rw [finalVal_eq a2 hi.le]; exact ih v a2 (by omega) a3
      · exfalso
        have := h.supp i hi
        revert this hw
        cases s.ops.getD i .begin <;> simp [VOp.vec, VOp.supported]

/-- a node of the graph: its type, its index in the recording, and its value -/
def NodeV (c : FCfg) (ind : List ℝ) (s : FromSt) (F : ℕ → ℝ) (t : AdType) (j : ℕ) (v : ℝ) : Prop :=
  match t with
  | .variable => 1 ≤ j ∧ j < s.ops.length ∧ (s.ops.getD j .begin).hasRes = true ∧ F j = v
  | .dynamic => 1 ≤ j ∧ j < s.r.parAll.length ∧ s.P c ind j = v
  | .constant => 1 ≤ j ∧ j < s.r.parAll.length ∧ s.P c ind j = v ∧ at' s.r.parAll j = v

theorem NodeV.ext {s s' : FromSt} {F F' : ℕ → ℝ} {e j : ℕ} {t : AdType} {v : ℝ} (h : NodeV c ind s F t j v) (x : Ext c ind s s' F F' e) :
    NodeV c ind s' F' t j v := by
  obtain ⟨o, ho⟩ := x.ops
  obtain ⟨l, hl⟩ := x.parAll
  cases t with
  | «variable» =>
    obtain ⟨h1, h2, h3, h4⟩ := h
    exact ⟨h1, by rw [ho]; simp; omega, by rw [ho, List.getD_append _ _ _ _ h2]; exact h3, by rw [x.val j h2]; exact h4⟩
  | dynamic =>
    obtain ⟨h1, h2, h3⟩ := h
    exact ⟨h1, lt_of_lt_of_le h2 x.grows.1, by rw [x.P h2]; exact h3⟩
  | constant =>
    obtain ⟨h1, h2, h3, h4⟩ := h
    exact ⟨h1, lt_of_lt_of_le h2 x.grows.1, by rw [x.P h2]; exact h3, by rw [hl, at'_append h2]; exact h4⟩

/-- a parameter -/
theorem NodeV.par {s : FromSt} {F : ℕ → ℝ} {j : ℕ} {t : AdType} {v : ℝ} (h : NodeV c ind s F t j v) (ht : t ≠ .variable) :
    1 ≤ j ∧ j < s.r.parAll.length ∧ s.P c ind j = v := by
  cases t with
  | «variable» => exact absurd rfl ht
  | dynamic => exact h
  | constant => exact ⟨h.1, h.2.1, h.2.2.1⟩

/-- the nodes of the graph so far, their values are `V` -/
structure FI (c : FCfg) (ind : List ℝ) (st : ℕ → ℝ) (nV nI : ℕ) (s : FromSt) (V : List ℝ) (F : ℕ → ℝ) : Prop where
  rc : RI c ind st nV nI s F
  tlen : s.typ.length = V.length
  nlen : s.n2f.length = V.length
  node : ∀ k, 1 ≤ k → k < V.length → NodeV c ind s F (s.ty k) (s.ix k) (at' V k)

theorem FI.push {s s' : FromSt} {V : List ℝ} {F F' : ℕ → ℝ} {e j : ℕ} {t : AdType} {v : ℝ} (h : FI c ind st nV nI s V F)
    (h' : RI c ind st nV nI s' F') (x : Ext c ind s s' F F' e) (hn : NodeV c ind s' F' t j v) :
    FI c ind st nV nI (FromSt.push (s', j) t) (V ++ [v]) F' := by
  have e1 : (FromSt.push (s', j) t).typ = s.typ ++ [t] := by show s'.typ ++ [t] = _; rw [x.typ]
  have e2 : (FromSt.push (s', j) t).n2f = s.n2f ++ [j] := by show s'.n2f ++ [j] = _; rw [x.n2f]
  refine ⟨⟨h'.par, h'.par0, h'.res, h'.indv, h'.isInd, h'.vars, h'.pars, h'.supp, h'.dargs, h'.nind, h'.d2p⟩, by rw [e1]; simp [h.tlen], by rw [e2]; simp [h.nlen], ?_⟩
  intro k hk hk2
  unfold FromSt.ty FromSt.ix
  rw [e1, e2]
  rcases Nat.lt_or_ge k V.length with hlt | hge
  · rw [List.getD_append _ _ _ _ (by rw [h.tlen]; exact hlt), List.getD_append _ _ _ _ (by rw [h.nlen]; exact hlt), at'_append hlt]
    show NodeV c ind s' F' _ _ _
    exact (h.node k hk hlt).ext x
  · have : k = V.length := by simp at hk2; omega
    subst this
    rw [List.getD_append_right _ _ _ _ h.tlen.le, List.getD_append_right _ _ _ _ h.nlen.le, h.tlen, h.nlen, at'_append_length]
    rw [Nat.sub_self]; exact hn

end CppAD.Graph
