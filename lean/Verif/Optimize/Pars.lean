import Verif.Optimize.UsageAll

/-! # The parameters of the optimized recording have the values of the original ones -/

open scoped Classical

namespace CppAD.Optim

open CppAD CppAD.Record

variable {disc : ℕ → ℝ → ℝ} {ind : List ℝ}

/-! ## The dynamic sweep -/

theorem d2p_mem {b : List Bool} {a : ℕ} (h : b.getD a false = true) : a ∈ dyn2par b := by
  unfold dyn2par
  rw [List.mem_filter, List.mem_range]
  refine ⟨?_, h⟩
  by_contra hc
  rw [List.getD_eq_default _ _ (by omega)] at h; cases h

theorem d2p_idxOf {b : List Bool} {a : ℕ} (h : b.getD a false = true) : (dyn2par b).getD ((dyn2par b).idxOf a) 0 = a := by
  have h1 := List.idxOf_lt_length_of_mem (d2p_mem h)
  rw [List.getD_eq_getElem _ _ h1, List.getElem_idxOf]

theorem d2p_isDyn {b : List Bool} {k : ℕ} (h : k < (dyn2par b).length) : b.getD ((dyn2par b).getD k 0) false = true := by
  have := getD_mem_or 0 h
  unfold dyn2par at this ⊢
  exact (List.mem_filter.1 this).2

/-- the value of a dynamic parameter is computed by its operator from the final values -/
theorem sweep_fix {b : List Bool} {o : List DynOp} (h : DynWf b o) : ∀ (par : List ℝ), par.length = b.length → ∀ k < o.length,
    at' (dynamicSweep disc ind b o par) ((dyn2par b).getD k 0) = (o.getD k .ind).eval disc ind k (dynamicSweep disc ind b o par) ∧
    (∀ a ∈ (o.getD k .ind).args, a < (dyn2par b).getD k 0) ∧ (dyn2par b).getD k 0 < b.length := by
  induction h with
  | nil => intro par _ k hk; simp at hk
  | @con b o hw ih =>
    intro par h1 k hk
    simp only [List.length_append, List.length_singleton] at h1
    obtain ⟨q, v, rfl⟩ := snoc_of_length h1
    simp only [List.length_append, List.length_singleton, Nat.add_right_cancel_iff] at h1
    obtain ⟨i1, i2, i3⟩ := ih q h1 k hk
    have hl := dynamicSweep_length disc ind b o q
    have ed : (dyn2par (b ++ [false])).getD k 0 = (dyn2par b).getD k 0 := by simp [dyn2par_snoc]
    rw [ed, sweep_con _ _ hw _ _ h1]
    refine ⟨?_, i2, by rw [List.length_append, List.length_singleton]; omega⟩
    rw [at'_append (by omega), i1]
    exact DynOp.eval_congr _ _ _ _ fun a ha => (at'_append (by have := i2 a ha; omega)).symm
  | @dyn b o op hw ha ih =>
    intro par h1 k hk
    simp only [List.length_append, List.length_singleton] at h1 hk
    obtain ⟨q, v, rfl⟩ := snoc_of_length h1
    simp only [List.length_append, List.length_singleton, Nat.add_right_cancel_iff] at h1
    have hl := dynamicSweep_length disc ind b o q
    rw [sweep_dyn _ _ hw _ _ h1 _ ha]
    have ed : dyn2par (b ++ [true]) = dyn2par b ++ [b.length] := by simp [dyn2par_snoc]
    rw [ed]
    by_cases hko : k < o.length
    · obtain ⟨i1, i2, i3⟩ := ih q h1 k hko
      rw [List.getD_append _ _ _ _ (by rw [hw.length]; exact hko), List.getD_append _ _ _ _ hko]
      refine ⟨?_, i2, by rw [List.length_append, List.length_singleton]; omega⟩
      rw [at'_append (by omega), i1]
      exact DynOp.eval_congr _ _ _ _ fun a ha => (at'_append (by have := i2 a ha; omega)).symm
    · have hk' : k = o.length := by omega
      subst hk'
      have e1 : (dyn2par b ++ [b.length]).getD o.length 0 = b.length := by rw [← hw.length]; simp
      have e2 : (o ++ [op]).getD o.length .ind = op := by simp
      rw [e1, e2]
      refine ⟨?_, ha, by simp⟩
      rw [← h1, ← hl, at'_append_length]
      exact DynOp.eval_congr _ _ _ _ fun a h => (at'_append (by have := ha a h; omega)).symm

theorem dyn_eval_map {V V' : List ℝ} {k k' : ℕ} {g : ℕ → ℕ} (op : DynOp) (hne : op ≠ .ind)
    (h : ∀ a ∈ op.args, at' V' (g a) = at' V a) : (dynMap g op).eval disc ind k' V' = op.eval disc ind k V := by
  cases op
  case atom A sel i args =>
    have : (fun j : ℕ => ((args.map g)[j]?.map (at' V')).getD 0) = fun j : ℕ => (args[j]?.map (at' V)).getD 0 := by
      funext j
      rw [List.getElem?_map]
      cases hj : args[j]? with
      | none => rfl
      | some a => exact h a (List.mem_of_getElem? hj)
    show A.forward _ 0 0 (fun j => ((args.map g)[j]?.map (at' V')).getD 0) _ i = A.forward _ 0 0 (fun j => (args[j]?.map (at' V)).getD 0) _ i
    rw [this]
  all_goals simp_all [dynMap, DynOp.eval, DynOp.args]

/-! ## Adding parameters to a recorder -/

/-- a recorder for parameters -/
structure ParWf (r : DynRec ℝ) : Prop where
  wf : DynWf r.parIsDyn r.dynOps
  len : r.parAll.length = r.parIsDyn.length

/-- `s` has the parameters of `r`, with the same values -/
def Grows (disc : ℕ → ℝ → ℝ) (ind : List ℝ) (r s : DynRec ℝ) : Prop :=
  r.parAll.length ≤ s.parAll.length ∧ ∀ i < r.parAll.length, at' (parVals disc ind s) i = at' (parVals disc ind r) i

theorem Grows.refl (r : DynRec ℝ) : Grows disc ind r r := ⟨le_refl _, fun _ _ => rfl⟩

theorem Grows.trans {r s t : DynRec ℝ} (h : Grows disc ind r s) (h' : Grows disc ind s t) : Grows disc ind r t :=
  ⟨h.1.trans h'.1, fun i hi => (h'.2 i (by have := h.1; omega)).trans (h.2 i hi)⟩

theorem parVals_length (r : DynRec ℝ) : (parVals disc ind r).length = r.parAll.length := dynamicSweep_length _ _ _ _ _

theorem putCon_ok {hash : ℝ → ℕ} {r : DynRec ℝ} (h : ParWf r) (v : ℝ) :
    ParWf (putCon hash r v).1 ∧ Grows disc ind r (putCon hash r v).1 ∧ (putCon hash r v).2 < (putCon hash r v).1.parAll.length ∧
      at' (parVals disc ind (putCon hash r v).1) (putCon hash r v).2 = v ∧ (putCon hash r v).1.dynOps = r.dynOps := by
  unfold putCon
  rcases putConPar_cases hash (fun a b => decide (a = b)) r v with ⟨h1, h2, c, h3, h4, h5⟩ | ⟨h1, h2, h3, h4⟩
  · rw [h1]
    simp only [decide_eq_true_eq] at h5
    subst h5
    have hlt : (r.putConPar hash (fun a b => decide (a = b)) c).2 < r.parAll.length := by
      rcases Nat.lt_or_ge (r.putConPar hash (fun a b => decide (a = b)) c).2 r.parAll.length with h' | h'
      · exact h'
      · rw [List.getElem?_eq_none h'] at h3; simp at h3
    refine ⟨h, Grows.refl r, hlt, ?_, rfl⟩
    unfold parVals
    generalize (r.putConPar hash (fun a b => decide (a = b)) c).2 = j at *
    rw [sweep_con_eq disc ind h.wf _ h.len _ (by
      have h' := h.len
      rw [List.getD_eq_getElem _ _ (by omega)] at h4 ⊢; exact h4)]
    simp [at', List.getD, h3]
  · have hw : ParWf (r.putConPar hash (fun a b => decide (a = b)) v).1 := by
      refine ⟨?_, ?_⟩
      · rw [h3, h4]; exact .con h.wf
      · rw [h2, h3]; simp [h.len]
    have hv : parVals disc ind (r.putConPar hash (fun a b => decide (a = b)) v).1 = parVals disc ind r ++ [v] := by
      unfold parVals; rw [h2, h3, h4]; exact sweep_con _ _ h.wf _ _ h.len
    refine ⟨hw, ⟨by rw [h2]; simp, fun i hi => ?_⟩, by rw [h1, h2]; simp, ?_, h4⟩
    · rw [hv, at'_append (by rw [parVals_length]; exact hi)]
    · rw [hv, h1, ← parVals_length (disc := disc) (ind := ind), at'_append_length]

theorem putDyn_ok {r : DynRec ℝ} (h : ParWf r) (v : ℝ) (op : DynOp) (ha : ∀ a ∈ op.args, a < r.parAll.length) :
    ParWf (r.putDynPar v op).1 ∧ Grows disc ind r (r.putDynPar v op).1 ∧ (r.putDynPar v op).2 < (r.putDynPar v op).1.parAll.length ∧
      at' (parVals disc ind (r.putDynPar v op).1) (r.putDynPar v op).2 = op.eval disc ind r.dynOps.length (parVals disc ind r) ∧
      (r.putDynPar v op).1.dynOps = r.dynOps ++ [op] := by
  have ha' : ∀ a ∈ op.args, a < r.parIsDyn.length := fun a h' => by have := ha a h'; have := h.len; omega
  have hv : parVals disc ind (r.putDynPar v op).1 = parVals disc ind r ++ [op.eval disc ind r.dynOps.length (parVals disc ind r)] :=
    sweep_dyn _ _ h.wf _ _ h.len _ ha'
  refine ⟨⟨.dyn h.wf ha', by simp [DynRec.putDynPar, h.len]⟩, ⟨by simp [DynRec.putDynPar], fun i hi => ?_⟩, by simp [DynRec.putDynPar], ?_, rfl⟩
  · rw [hv, at'_append (by rw [parVals_length]; exact hi)]
  · rw [hv]
    have : (r.putDynPar v op).2 = (parVals disc ind r).length := by rw [parVals_length]; rfl
    rw [this, at'_append_length]

/-! ## get_par_usage -/

variable {T : OTape} {o : Options}

theorem markPars_mem {u : ℕ → Bool} {l : List ℕ} {p : ℕ} (h : p ∈ l) : markPars u l p = true := by simp [markPars, h]

theorem markPars_mono {u : ℕ → Bool} {l : List ℕ} {p : ℕ} (h : u p = true) : markPars u l p = true := by simp [markPars, h]

theorem markPars_not {u : ℕ → Bool} {l : List ℕ} {p : ℕ} (h : p ∉ l) : markPars u l p = u p := by simp [markPars, h]

theorem dynOp_cases (op : DynOp) : (∃ A sel i args, op = .atom A sel i args) ∨ op.elem := by
  cases op
  case atom A sel i args => exact Or.inl ⟨A, sel, i, args, rfl⟩
  all_goals exact Or.inr trivial

theorem dynUse_atom {k : ℕ} {u : ℕ → Bool} {A : Atom} {sel : List Bool} {i : ℕ} {args : List ℕ}
    (he : T.dyn.dynOps.getD k .ind = .atom A sel i args) : T.dynUse k u = if selRank sel i = 0 then
      markPars u (((List.range args.length).filter
        (T.adep A (args.map (dynDepArg T.tx)) (dynDepY T.dyn.parIsDyn u A.m sel k))).map fun j => args.getD j 0) else u := by
  unfold OTape.dynUse; rw [he]

theorem dynUse_elem {k : ℕ} {u : ℕ → Bool} (he : (T.dyn.dynOps.getD k .ind).elem) :
    T.dynUse k u = if u ((dyn2par T.dyn.parIsDyn).getD k 0) then markPars u (T.dyn.dynOps.getD k .ind).args else u := by
  unfold OTape.dynUse
  generalize T.dyn.dynOps.getD k .ind = op at *
  cases op
  case atom => exact he.elim
  all_goals rfl

theorem dynUse_mono (T : OTape) (k : ℕ) {u : ℕ → Bool} {p : ℕ} (h : u p = true) : T.dynUse k u p = true := by
  rcases dynOp_cases (T.dyn.dynOps.getD k .ind) with ⟨A, sel, i, args, he⟩ | he
  · rw [dynUse_atom he]
    split_ifs
    · exact markPars_mono h
    · exact h
  · rw [dynUse_elem he]
    split_ifs
    · exact markPars_mono h
    · exact h

/-- what is used after the loops over the vectors and the operators -/
theorem parUsage_ops (T : OTape) (usage : ℕ → Usage) (vused : ℕ → Bool) {p : ℕ}
    (h : p ≤ T.nInd ∨ (∃ w < T.vecs.length, vused w = true ∧ p ∈ T.vecs.getD w []) ∨
      ∃ i < T.ops.length, usage i ≠ .no ∧ (p ∈ parMarks T.tx (fun i => T.dyn.parIsDyn.getD i false) usage i (T.op i) ∨ p ∈ parMarksLR (T.op i))) :
    T.parUsage usage vused p = true := by
  unfold OTape.parUsage
  have mono3 : ∀ (n : ℕ) (u : ℕ → Bool), u p = true → (forDown0 n u T.dynUse) p = true := by
    intro n u hu
    refine forDown0_ind (P := fun _ (u : ℕ → Bool) => u p = true) hu ?_
    intro k u _ ih
    exact dynUse_mono T k ih
  apply mono3
  have mono2 : ∀ (n : ℕ) (u : ℕ → Bool), u p = true → (forRange 0 n u fun i u =>
      if usage i = .no then u else markPars (markPars u (parMarks T.tx (fun i => T.dyn.parIsDyn.getD i false) usage i (T.op i))) (parMarksLR (T.op i))) p = true := by
    intro n u hu
    refine forRange_ind (Nat.zero_le _) (P := fun _ (u : ℕ → Bool) => u p = true) hu ?_
    intro k u _ _ ih
    split_ifs
    · exact ih
    · exact markPars_mono (markPars_mono ih)
  rcases h with h | ⟨w, hw, hv, hp⟩ | ⟨i, hi, hu, hp⟩
  · apply mono2
    refine forRange_ind (Nat.zero_le _) (P := fun _ (u : ℕ → Bool) => u p = true) (by simpa using h) ?_
    intro k u _ _ ih
    split_ifs
    · exact markPars_mono ih
    · exact ih
  · apply mono2
    refine (forRange_ind (Nat.zero_le _) (P := fun k (u : ℕ → Bool) => w < k → u p = true) (by omega) ?_) hw
    intro k u _ _ ih hwk
    by_cases hkw : k = w
    · subst hkw; rw [if_pos hv]; exact markPars_mem hp
    · split_ifs
      · exact markPars_mono (ih (by omega))
      · exact ih (by omega)
  · refine (forRange_ind (Nat.zero_le _) (P := fun k (u : ℕ → Bool) => i < k → u p = true) (by omega) ?_) hi
    intro k u _ _ ih hik
    by_cases hki : k = i
    · subst hki; rw [if_neg hu]
      rcases hp with hp | hp
      · exact markPars_mono (markPars_mem hp)
      · exact markPars_mem hp
    · split_ifs
      · exact ih (by omega)
      · exact markPars_mono (markPars_mono (ih (by omega)))

/-- dynamic parameter `k` of `T` -/
def OTape.dp (T : OTape) (k : ℕ) : ℕ := (dyn2par T.dyn.parIsDyn).getD k 0

theorem dp_mono (w : T.WF) {i j : ℕ} (hj : j < T.dyn.dynOps.length) (hij : i < j) : T.dp i < T.dp j := by
  have hi : i < T.dyn.dynOps.length := by omega
  unfold OTape.dp
  rw [← w.dyn.length] at hi hj
  rw [List.getD_eq_getElem _ _ hi, List.getD_eq_getElem _ _ hj]
  have hp : (dyn2par T.dyn.parIsDyn).Pairwise (· < ·) := by
    unfold dyn2par; exact List.Pairwise.filter _ List.pairwise_lt_range
  exact List.pairwise_iff_getElem.1 hp i j hi hj hij

theorem dp_le (w : T.WF) {i j : ℕ} (hj : j < T.dyn.dynOps.length) (hij : i ≤ j) : T.dp i ≤ T.dp j := by
  rcases Nat.eq_or_lt_of_le hij with e | e
  · rw [e]
  · exact (dp_mono w hj e).le

theorem args_lt (w : T.WF) {k : ℕ} (hk : k < T.dyn.dynOps.length) : ∀ a ∈ (T.dyn.dynOps.getD k .ind).args, a < T.dp k :=
  (sweep_fix (disc := fun _ x => x) (ind := []) w.dyn _ w.plen k hk).2.1

/-- the reverse pass only marks arguments, which are before the result -/
theorem dynUse_not (w : T.WF) {k : ℕ} (hk : k < T.dyn.dynOps.length) {u : ℕ → Bool} {p : ℕ} (hp : T.dp k ≤ p) :
    T.dynUse k u p = u p := by
  have hargs := args_lt w hk
  rcases dynOp_cases (T.dyn.dynOps.getD k .ind) with ⟨A, sel, i, args, he⟩ | he
  · rw [dynUse_atom he]
    rw [he] at hargs
    split_ifs
    · refine markPars_not fun hm => ?_
      rw [List.mem_map] at hm
      obtain ⟨j, hj, rfl⟩ := hm
      rw [List.mem_filter, List.mem_range] at hj
      have : args.getD j 0 < T.dp k := hargs _ (getD_mem_or 0 hj.1)
      omega
    · rfl
  · rw [dynUse_elem he]
    split_ifs
    · refine markPars_not fun hm => ?_
      have := hargs _ hm
      omega
    · rfl

/-- the arguments that dynamic parameter `k` needs are used -/
structure OTape.Closed (T : OTape) (u : ℕ → Bool) (k : ℕ) : Prop where
  atom : ∀ A sel i args, T.dyn.dynOps.getD k .ind = .atom A sel i args → selRank sel i = 0 → ∀ j < args.length,
      T.adep A (args.map (dynDepArg T.tx)) (dynDepY T.dyn.parIsDyn u A.m sel k) j = true → u (args.getD j 0) = true
  elem : (T.dyn.dynOps.getD k .ind).elem → u (T.dp k) = true → ∀ a ∈ (T.dyn.dynOps.getD k .ind).args, u a = true

theorem depY_congr (w : T.WF) {k : ℕ} (hk : k < T.dyn.dynOps.length) {u u' : ℕ → Bool} (h0 : u' 0 = u 0)
    (hu : ∀ p, T.dp k ≤ p → u' p = u p) {A : Atom} {sel : List Bool} {i : ℕ} {args : List ℕ} (he : T.dyn.dynOps.getD k .ind = .atom A sel i args)
    (hr : selRank sel i = 0) : dynDepY T.dyn.parIsDyn u' A.m sel k = dynDepY T.dyn.parIsDyn u A.m sel k := by
  funext r
  unfold dynDepY
  by_cases hm : r < A.m
  · by_cases hs : sel.getD r false = true
    · obtain ⟨_, _, _, h4⟩ := w.atom k hk _ _ _ _ he
      have h5 := (h4 r hm hs).1
      rw [hr, Nat.sub_zero] at h5
      rw [if_pos hs]
      have := hu (T.dp (k + selRank sel r)) (dp_le w h5 (by omega))
      unfold OTape.dp at this
      rw [this]
    · rw [if_neg hs, h0]
  · simp [hm]

theorem OTape.Closed.mono (w : T.WF) {k : ℕ} (hk : k < T.dyn.dynOps.length) {u u' : ℕ → Bool} (h0 : u' 0 = u 0)
    (hu : ∀ p, T.dp k ≤ p → u' p = u p) (hm : ∀ p, u p = true → u' p = true) (h : T.Closed u k) : T.Closed u' k where
  atom A sel i args he hr j hj hd := by
    rw [depY_congr w hk h0 hu he hr] at hd
    exact hm _ (h.atom A sel i args he hr j hj hd)
  elem he hd a ha := hm _ (h.elem he (by rwa [hu _ (le_refl _)] at hd) a ha)

theorem dynUse_closed (w : T.WF) {k : ℕ} (hk : k < T.dyn.dynOps.length) {u : ℕ → Bool} (h0 : u 0 = true) : T.Closed (T.dynUse k u) k := by
  have hnot := fun p (hp : T.dp k ≤ p) => dynUse_not w hk (u := u) hp
  have h0' : T.dynUse k u 0 = u 0 := by rw [h0]; exact dynUse_mono T k h0
  refine ⟨fun A sel i args he hr j hj hd => ?_, fun he hd a ha => ?_⟩
  · rw [depY_congr w hk h0' hnot he hr] at hd
    rw [dynUse_atom he, if_pos hr]
    exact markPars_mem (List.mem_map.2 ⟨j, List.mem_filter.2 ⟨List.mem_range.2 hj, hd⟩, rfl⟩)
  · rw [hnot _ (le_refl _)] at hd
    rw [dynUse_elem he]
    unfold OTape.dp at hd
    rw [if_pos hd]
    exact markPars_mem ha

/-- the arguments that a dynamic parameter needs are used -/
theorem parUsage_dyn (w : T.WF) (usage : ℕ → Usage) (vused : ℕ → Bool) {k : ℕ} (hk : k < T.dyn.dynOps.length) :
    T.Closed (T.parUsage usage vused) k := by
  have h0 : ∀ u2 : ℕ → Bool, u2 0 = true → T.Closed (forDown0 T.dyn.dynOps.length u2 T.dynUse) k := by
    intro u2 h2
    refine (forDown0_ind (n := T.dyn.dynOps.length) (s := u2) (f := T.dynUse)
      (P := fun i (u : ℕ → Bool) => u 0 = true ∧ (i ≤ k → T.Closed u k)) ⟨h2, by omega⟩ ?_).2 (Nat.zero_le _)
    rintro i u hi ⟨ih0, ih⟩
    refine ⟨dynUse_mono T i ih0, fun hik => ?_⟩
    by_cases hki : i = k
    · subst hki; exact dynUse_closed w hi ih0
    · refine (ih (by omega)).mono w hk ?_ (fun p hp => dynUse_not w hi ?_) (fun p hp => dynUse_mono T i hp)
      · rw [ih0]; exact dynUse_mono T i ih0
      · have := dp_le w hk (show i ≤ k by omega); omega
  unfold OTape.parUsage
  apply h0
  refine forRange_ind (Nat.zero_le _) (P := fun _ (u : ℕ → Bool) => u 0 = true) ?_ ?_
  · refine forRange_ind (Nat.zero_le _) (P := fun _ (u : ℕ → Bool) => u 0 = true) (by simp) ?_
    intro k u _ _ ih
    split_ifs
    · exact markPars_mono ih
    · exact ih
  · intro k u _ _ ih
    split_ifs
    · exact ih
    · exact markPars_mono (markPars_mono ih)

/-! ## get_dyn_previous -/

theorem dp_fix (w : T.WF) {k : ℕ} (hk : k < T.dyn.dynOps.length) :
    at' (parVals disc ind T.dyn) (T.dp k) = (T.dyn.dynOps.getD k .ind).eval disc ind k (parVals disc ind T.dyn) ∧
    (∀ a ∈ (T.dyn.dynOps.getD k .ind).args, a < T.dp k) ∧ T.dp k < T.dyn.parAll.length := by
  obtain ⟨h1, h2, h3⟩ := sweep_fix (disc := disc) (ind := ind) w.dyn _ w.plen k hk
  exact ⟨h1, h2, by rw [w.plen]; exact h3⟩

/-- what get_dyn_previous guarantees about the matches found so far -/
structure DInv (disc : ℕ → ℝ → ℝ) (ind : List ℝ) (T : OTape) (pu : ℕ → Bool) (i : ℕ) (s : DynPrevSt) : Prop where
  prev : ∀ j c, s.prev j = some c → T.nInd ≤ c ∧ c < j ∧ pu (T.dp c) = true ∧
    at' (parVals disc ind T.dyn) (T.dp c) = at' (parVals disc ind T.dyn) (T.dp j)
  table : ∀ code, ∀ c ∈ s.table code, T.nInd ≤ c ∧ c < i ∧ pu (T.dp c) = true

theorem dynArg_val {prev : ℕ → Option ℕ}
    (h : ∀ j c, prev j = some c → at' (parVals disc ind T.dyn) (T.dp c) = at' (parVals disc ind T.dyn) (T.dp j)) (a : ℕ) :
    at' (parVals disc ind T.dyn) (dynArg T.dyn.parIsDyn prev a) = at' (parVals disc ind T.dyn) a := by
  unfold dynArg
  split_ifs with hd
  · split
    · rename_i k hk
      have := h _ _ hk
      unfold OTape.dp at this
      rw [this, d2p_idxOf hd]
    · rfl
  · rfl

theorem dynSwap_eval {op op' : DynOp} (h : dynSwap op = some op') (k : ℕ) (V : List ℝ) :
    op'.eval disc ind k V = op.eval disc ind k V := by
  cases op with
  | bin f a b =>
    cases f <;> simp only [dynSwap, Option.some.injEq, reduceCtorEq] at h <;> subst h <;> simp only [DynOp.eval, BinF.fn] <;> ring
  | _ => simp [dynSwap] at h

theorem dyn_eval_idx {op : DynOp} (h : dynMatchable op = true) (k k' : ℕ) (V : List ℝ) :
    op.eval disc ind k V = op.eval disc ind k' V := by
  cases op <;> simp_all [dynMatchable, DynOp.eval]

theorem dynMap_matchable (op : DynOp) (g : ℕ → ℕ) : dynMatchable (dynMap g op) = dynMatchable op := by cases op <;> rfl

theorem dynSwap_matchable {op op' : DynOp} (h : dynSwap op = some op') : dynMatchable op' = true := by
  cases op with
  | bin f a b => cases f <;> simp only [dynSwap, Option.some.injEq, reduceCtorEq] at h <;> subst h <;> rfl
  | _ => simp [dynSwap] at h

theorem DInv.step (w : T.WF) {pu : ℕ → Bool} {hash : DynOp → ℕ} {i : ℕ} (hn : T.nInd ≤ i) (hi : i < T.dyn.dynOps.length) {s : DynPrevSt}
    (h : DInv disc ind T pu i s) : DInv disc ind T pu (i + 1) (dynPrevStep T.dyn.parIsDyn T.dyn.dynOps pu hash i s) := by
  have hprev : ∀ j c, Function.update s.prev i none j = some c → T.nInd ≤ c ∧ c < j ∧ pu (T.dp c) = true ∧
      at' (parVals disc ind T.dyn) (T.dp c) = at' (parVals disc ind T.dyn) (T.dp j) := by
    intro j c hc
    by_cases hj : j = i
    · subst hj; simp at hc
    · rw [Function.update_of_ne hj] at hc; exact h.prev j c hc
  have htab : ∀ code, ∀ c ∈ s.table code, T.nInd ≤ c ∧ c < i + 1 ∧ pu (T.dp c) = true := fun code c hc => by
    obtain ⟨a, b, d⟩ := h.table code c hc; exact ⟨a, by omega, d⟩
  unfold dynPrevStep
  dsimp only
  by_cases hm : (pu ((dyn2par T.dyn.parIsDyn).getD i 0) && dynMatchable (T.dyn.dynOps.getD i DynOp.ind)) = true
  · rw [if_pos hm]
    simp only [Bool.and_eq_true] at hm
    have hkey : ∀ k, (dynMap (dynArg T.dyn.parIsDyn (Function.update s.prev i none)) (T.dyn.dynOps.getD i .ind)).eval disc ind k
        (parVals disc ind T.dyn) = at' (parVals disc ind T.dyn) (T.dp i) := by
      intro k
      rw [(dp_fix w hi).1]
      refine dyn_eval_map _ ?_ fun a _ => dynArg_val (fun j c hc => (hprev j c hc).2.2.2) a
      intro hc; rw [hc] at hm; simp [dynMatchable] at hm
    have found : ∀ c, T.nInd ≤ c ∧ c < i ∧ pu (T.dp c) = true → (∀ k, (T.dyn.dynOps.getD c .ind).eval disc ind k (parVals disc ind T.dyn)
        = at' (parVals disc ind T.dyn) (T.dp i)) → DInv disc ind T pu (i + 1)
          { prev := Function.update (Function.update s.prev i none) i (some c), table := s.table } := by
      intro c hc hv
      refine ⟨fun j c' hc' => ?_, htab⟩
      by_cases hj : j = i
      · subst hj
        simp only [Function.update_self, Option.some.injEq] at hc'
        subst hc'
        refine ⟨hc.1, hc.2.1, hc.2.2, ?_⟩
        rw [(dp_fix w (by omega)).1, hv]
      · simp only [Function.update_of_ne hj] at hc'
        exact hprev j c' (by rw [Function.update_of_ne hj]; exact hc')
    split
    · rename_i c hc
      have hf := List.find?_some hc
      have hmem := List.mem_of_find?_eq_some hc
      rw [Finset.mem_sort] at hmem
      simp only [decide_eq_true_eq] at hf
      refine found c (h.table _ c hmem) fun k => ?_
      rw [hf, hkey]
    · split
      · rename_i c hc
        split at hc
        · rename_i key' hk'
          have hf := List.find?_some hc
          have hmem := List.mem_of_find?_eq_some hc
          rw [Finset.mem_sort] at hmem
          simp only [decide_eq_true_eq] at hf
          refine found c (h.table _ c hmem) fun k => ?_
          rw [hf, dynSwap_eval hk', hkey]
        · cases hc
      · refine ⟨hprev, fun code c hc => ?_⟩
        generalize hash (dynMap (dynArg T.dyn.parIsDyn (Function.update s.prev i none)) (T.dyn.dynOps.getD i DynOp.ind)) = code0 at hc
        by_cases hcode : code = code0
        · subst hcode
          simp only [Function.update_self, Finset.mem_insert] at hc
          rcases hc with rfl | hc
          · exact ⟨hn, by omega, hm.1⟩
          · split_ifs at hc
            · simp at hc
            · exact htab _ c hc
        · simp only [Function.update_of_ne hcode] at hc
          exact htab _ c hc
  · rw [if_neg hm]; exact ⟨hprev, htab⟩

theorem dynPrevious_ok (w : T.WF) (pu : ℕ → Bool) (hash : DynOp → ℕ) (j c : ℕ) (h : T.dynPrevious pu hash j = some c) :
    T.nInd ≤ c ∧ c < j ∧ pu (T.dp c) = true ∧ at' (parVals disc ind T.dyn) (T.dp c) = at' (parVals disc ind T.dyn) (T.dp j) := by
  refine (forRange_ind w.nind.1 (s := (⟨fun _ => none, fun _ => ∅⟩ : DynPrevSt))
    (f := dynPrevStep T.dyn.parIsDyn T.dyn.dynOps pu hash)
    (P := fun (i : ℕ) (s : DynPrevSt) => DInv disc ind T pu i s) ?_ ?_).prev j c h
  · exact ⟨fun j c hc => by simp at hc, fun code c hc => by simp at hc⟩
  · intro k s hk hk' ih
    exact DInv.step w hk hk' ih

/-! ## The new parameters -/

/-- the parameters with property `S` have been copied -/
structure ParInv (disc : ℕ → ℝ → ℝ) (ind : List ℝ) (T : OTape) (S : ℕ → Prop) (s : ParSt) : Prop where
  wf : ParWf s.pars
  zero : s.newPar 0 = 0
  ok : ∀ p, S p → s.newPar p < s.pars.parAll.length ∧
    at' (parVals disc ind s.pars) (s.newPar p) = at' (parVals disc ind T.dyn) p

theorem ParInv.put {S : ℕ → Prop} {s : ParSt} (h : ParInv disc ind T S s) {i : ℕ} {r : DynRec ℝ} {j : ℕ} (hw : ParWf r)
    (hg : Grows disc ind s.pars r) (hi : 0 < i) (hj : j < r.parAll.length) (hv : at' (parVals disc ind r) j = at' (parVals disc ind T.dyn) i) :
    ParInv disc ind T (fun p => S p ∨ p = i) ⟨r, Function.update s.newPar i j, s.zero⟩ where
  wf := hw
  zero := (Function.update_of_ne (show 0 ≠ i by omega) _ _).trans h.zero
  ok p hp := by
    by_cases hpi : p = i
    · subst hpi; simp only [Function.update_self]; exact ⟨hj, hv⟩
    · simp only [Function.update_of_ne hpi]
      obtain ⟨h1, h2⟩ := h.ok p (by tauto)
      exact ⟨by have := hg.1; omega, by rw [hg.2 _ h1, h2]⟩

theorem ParInv.mono {S S' : ℕ → Prop} {s : ParSt} (h : ParInv disc ind T S s) (hS : ∀ p, S' p → S p) : ParInv disc ind T S' s :=
  ⟨h.wf, h.zero, fun p hp => h.ok p (hS p hp)⟩

theorem con_val (w : T.WF) {p : ℕ} (hp : p < T.dyn.parAll.length) (hd : T.isDyn p = false) :
    at' (parVals disc ind T.dyn) p = at' T.dyn.parAll p := by
  refine sweep_con_eq disc ind w.dyn _ w.plen p ?_
  have := w.plen
  unfold OTape.isDyn at hd
  rw [List.getD_eq_getElem _ _ (by omega)] at hd ⊢; exact hd

theorem isDyn_dp {p : ℕ} (hd : T.isDyn p = true) (w : T.WF) : ∃ k < T.dyn.dynOps.length, T.dp k = p :=
  ⟨(dyn2par T.dyn.parIsDyn).idxOf p, by rw [← w.dyn.length]; exact List.idxOf_lt_length_of_mem (d2p_mem hd), d2p_idxOf hd⟩

theorem dp_isDyn (w : T.WF) {k : ℕ} (hk : k < T.dyn.dynOps.length) : T.isDyn (T.dp k) = true :=
  d2p_isDyn (by rw [w.dyn.length]; exact hk)

theorem dp_inj (w : T.WF) {k k' : ℕ} (hk : k < T.dyn.dynOps.length) (hk' : k' < T.dyn.dynOps.length) (h : T.dp k = T.dp k') : k = k' := by
  unfold OTape.dp at h
  rw [← w.dyn.length] at hk hk'
  rw [List.getD_eq_getElem _ _ hk, List.getD_eq_getElem _ _ hk'] at h
  exact (List.Nodup.getElem_inj_iff (by unfold dyn2par; exact List.nodup_range.filter _)).1 h

/-- a parameter that nobody uses gets a new index -/
theorem ParInv.skip {S : ℕ → Prop} {s : ParSt} (h : ParInv disc ind T S s) {i : ℕ} {r : DynRec ℝ} {j : ℕ} (hw : ParWf r)
    (hg : Grows disc ind s.pars r) (hi : 0 < i) (hS : ¬ S i) :
    ParInv disc ind T S ⟨r, Function.update s.newPar i j, s.zero⟩ where
  wf := hw
  zero := (Function.update_of_ne (show 0 ≠ i by omega) _ _).trans h.zero
  ok p hp := by
    have hpi : p ≠ i := fun e => hS (e ▸ hp)
    simp only [Function.update_of_ne hpi]
    obtain ⟨h1, h2⟩ := h.ok p hp
    exact ⟨by have := hg.1; omega, by rw [hg.2 _ h1, h2]⟩

theorem newDyn_atom {pu : ℕ → Bool} {dprev : ℕ → Option ℕ} {k : ℕ} {s : ParSt} {A : Atom} {sel : List Bool} {r : ℕ} {args : List ℕ}
    (he : T.dyn.dynOps.getD k .ind = .atom A sel r args) : T.newDyn pu dprev k s =
      if callUsed T.dyn.parIsDyn pu A.m sel (k - selRank sel r) then
        ⟨(s.pars.putDynPar (at' T.dyn.parAll (T.dp k)) (.atom A sel r (args.map (atomArg pu s.newPar)))).1,
          Function.update s.newPar (T.dp k) (s.pars.putDynPar (at' T.dyn.parAll (T.dp k)) (.atom A sel r (args.map (atomArg pu s.newPar)))).2,
          s.zero⟩
      else s := by
  unfold OTape.newDyn; rw [he]; rfl

theorem newDyn_elem {pu : ℕ → Bool} {dprev : ℕ → Option ℕ} {k : ℕ} {s : ParSt} (he : (T.dyn.dynOps.getD k .ind).elem) :
    T.newDyn pu dprev k s = if pu (T.dp k) then
        match dprev k with
        | some j => (⟨s.pars, Function.update s.newPar (T.dp k) (s.newPar (T.dp j)), s.zero⟩ : ParSt)
        | none =>
          ⟨(s.pars.putDynPar (at' T.dyn.parAll (T.dp k)) (dynMap s.newPar (T.dyn.dynOps.getD k .ind))).1,
            Function.update s.newPar (T.dp k) (s.pars.putDynPar (at' T.dyn.parAll (T.dp k)) (dynMap s.newPar (T.dyn.dynOps.getD k .ind))).2, s.zero⟩
      else s := by
  unfold OTape.newDyn OTape.dp
  generalize T.dyn.dynOps.getD k .ind = op at *
  cases op
  case atom => exact he.elim
  all_goals rfl

theorem first_sel {sel : List Bool} : ∀ i, sel.getD i false = true → ∃ r ≤ i, sel.getD r false = true ∧ selRank sel r = 0 := by
  intro i hi
  have h : ∃ r, sel.getD r false = true := ⟨i, hi⟩
  refine ⟨Nat.find h, Nat.find_min' h hi, Nat.find_spec h, ?_⟩
  unfold selRank
  rw [List.length_eq_zero_iff, List.filter_eq_nil_iff]
  intro r hr
  rw [List.mem_range] at hr
  exact Nat.find_min h hr

/-- the value of a result of an atomic function that is used: it does not change when the arguments that `rev_depend` does not return
are replaced -/
theorem atom_value (w : T.WF) {pu : ℕ → Bool} {k : ℕ} (hk : k < T.dyn.dynOps.length) {A : Atom} {sel : List Bool} {i : ℕ} {args : List ℕ}
    (he : T.dyn.dynOps.getD k .ind = .atom A sel i args) (hcl : ∀ k < T.dyn.dynOps.length, T.Closed pu k) (hu : pu (T.dp k) = true)
    {g : ℕ → ℕ} {V' : List ℝ} (hg : ∀ a ∈ args, pu a = true → at' V' (g a) = at' (parVals disc ind T.dyn) a) (k' : ℕ) :
    (DynOp.atom A sel i (args.map g)).eval disc ind k' V' = at' (parVals disc ind T.dyn) (T.dp k) := by
  obtain ⟨h1, h2, h3, h4⟩ := w.atom k hk _ _ _ _ he
  have him : i < A.m := by
    by_contra hc
    rw [List.getD_eq_default _ _ (by omega)] at h2; cases h2
  obtain ⟨r, hri, hr, hr0⟩ := first_sel i h2
  obtain ⟨h5, h6⟩ := h4 r (by omega) hr
  rw [hr0, Nat.add_zero] at h5 h6
  have hd := (hcl _ h5).atom A sel r args h6 hr0
  rw [(dp_fix w hk).1, he]
  have hmem : DynOp.atom A sel i args ∈ T.dyn.dynOps := he ▸ getD_mem_or DynOp.ind hk
  have hargs : ∀ a ∈ args, a < T.dyn.parAll.length := by
    intro a ha
    have h7 := (dp_fix (disc := disc) (ind := ind) w hk).2
    rw [he] at h7
    have := h7.1 a ha
    omega
  have key := w.adep A sel i args hmem (args.map (dynDepArg T.tx)) (dynDepY T.dyn.parIsDyn pu A.m sel (k - selRank sel i))
    (args.map (at' (parVals disc ind T.dyn))) ((args.map g).map (at' V')) (by simp) (by simp) ?_ ?_ i ?_ h2
  · show A.forward _ 0 0 (fun j => ((args.map g)[j]?.map (at' V')).getD 0) _ i
      = A.forward _ 0 0 (fun j => (args[j]?.map (at' (parVals disc ind T.dyn))).getD 0) _ i
    simp only [List.getElem?_map] at key ⊢
    exact key.symm
  · intro j v hj
    rw [List.getElem?_map] at hj ⊢
    cases ha : args[j]? with
    | none => rw [ha] at hj; cases hj
    | some a =>
      rw [ha] at hj
      simp only [Option.map_some, Option.some.injEq] at hj ⊢
      unfold dynDepArg at hj
      split_ifs at hj with h0
      · simp at hj
      simp only [OTape.tx, Prod.mk.injEq, Option.some.injEq] at hj
      have hcon : T.isDyn a = false := by
        by_contra hc
        have hc' : T.dyn.parIsDyn.getD a false = true := by simpa [OTape.isDyn] using hc
        rw [if_pos hc'] at hj
        cases hj.1
      rw [con_val w (hargs a (List.mem_of_getElem? ha)) hcon, hj.2]
  · intro j hj hdep
    rw [List.length_map] at hj
    have hp := hd j hj hdep
    rw [List.getElem?_map, List.getElem?_map, List.getElem?_map, List.getElem?_eq_getElem hj]
    rw [List.getD_eq_getElem _ _ hj] at hp
    simp only [Option.map_some, Option.some.injEq]
    exact (hg _ (List.getElem_mem hj) hp).symm
  · unfold dynDepY
    rw [if_pos h2, show k - selRank sel i + selRank sel i = k by omega]
    unfold OTape.dp at hu
    rw [hu, decide_eq_true him]
    rfl

theorem callUsed_of (w : T.WF) {pu : ℕ → Bool} {k : ℕ} (hk : k < T.dyn.dynOps.length) {A : Atom} {sel : List Bool} {i : ℕ} {args : List ℕ}
    (he : T.dyn.dynOps.getD k .ind = .atom A sel i args) (hu : pu (T.dp k) = true) :
    callUsed T.dyn.parIsDyn pu A.m sel (k - selRank sel i) = true := by
  obtain ⟨h1, h2, h3, h4⟩ := w.atom k hk _ _ _ _ he
  have him : i < A.m := by
    by_contra hc
    rw [List.getD_eq_default _ _ (by omega)] at h2; cases h2
  unfold callUsed
  rw [List.any_eq_true]
  refine ⟨i, List.mem_range.2 him, ?_⟩
  rw [h2, show k - selRank sel i + selRank sel i = k by omega]
  exact hu

/-- The new parameters: those that are used have the values of the original ones -/
theorem newPars_ok (w : T.WF) (hashR : ℝ → ℕ) (hashD : DynOp → ℕ) (usage : ℕ → Usage) (vused : ℕ → Bool) :
    ParInv disc ind T (fun p => p < T.dyn.parAll.length ∧ T.parUsage usage vused p = true)
      (T.newPars hashR (T.parUsage usage vused) (T.dynPrevious (T.parUsage usage vused) hashD)) := by
  have hsmall := fun p (h : p ≤ T.nInd) => parUsage_ops T usage vused (p := p) (Or.inl h)
  have hclosed := fun k (hk : k < T.dyn.dynOps.length) => parUsage_dyn w usage vused (k := k) hk
  have hprev := dynPrevious_ok (disc := disc) (ind := ind) w (T.parUsage usage vused) hashD
  generalize T.dynPrevious (T.parUsage usage vused) hashD = dprev at *
  generalize T.parUsage usage vused = pu at *
  clear usage vused
  -- parameter zero
  have h0 : ParInv disc ind T (fun p => p = 0) ⟨(putCon hashR ⟨[], [], [], fun _ => 0⟩ (at' T.dyn.parAll 0)).1,
      Function.update (fun _ => unused) 0 0, 0⟩ := by
    have hr : ParWf (⟨[], [], [], fun _ => 0⟩ : DynRec ℝ) := ⟨.nil, rfl⟩
    obtain ⟨a1, a2, a3, a4, a5⟩ := putCon_ok (disc := disc) (ind := ind) (hash := hashR) hr (at' T.dyn.parAll 0)
    have hz : (putCon hashR (⟨[], [], [], fun _ => 0⟩ : DynRec ℝ) (at' T.dyn.parAll 0)).2 = 0 := by
      simp [putCon, DynRec.putConPar]
    refine ⟨a1, by simp, fun p hp => ?_⟩
    subst hp
    simp only [Function.update_self]
    rw [hz] at a3 a4
    exact ⟨a3, by rw [a4, con_val w w.par0.1 w.par0.2]⟩
  have h0' : (putCon hashR (⟨[], [], [], fun _ => 0⟩ : DynRec ℝ) (at' T.dyn.parAll 0)).1.dynOps = [] :=
    (putCon_ok (disc := disc) (ind := ind) (hash := hashR) (r := ⟨[], [], [], fun _ => 0⟩) ⟨.nil, rfl⟩ (at' T.dyn.parAll 0)).2.2.2.2
  unfold OTape.newPars
  extract_lets isDyn numPar r0 p0 p1 p2 p3
  have h1 : ParInv disc ind T (fun p => p < T.nInd + 1) p1 := by
    refine (forRange_ind (show 1 ≤ T.nInd + 1 by omega)
      (P := fun (i : ℕ) (s : ParSt) => ParInv disc ind T (fun p => p < i) s ∧ s.pars.dynOps.length + 1 = i) ?_ ?_).1
    · exact ⟨h0.mono (fun p hp => by omega), by rw [show p0.pars.dynOps = [] from h0']; rfl⟩
    · rintro i s hi hi' ⟨ih, hd⟩
      obtain ⟨a1, a2, a3, a4, a5⟩ := putDyn_ok (disc := disc) (ind := ind) ih.wf (at' T.dyn.parAll i) .ind (by simp [DynOp.args])
      refine ⟨(ih.put a1 a2 (by omega) a3 ?_).mono fun p hp => ?_, ?_⟩
      · rw [a4]
        have hk : i - 1 < T.nInd := by omega
        have hk2 : i - 1 < T.dyn.dynOps.length := by have := w.nind.1; omega
        have f := (dp_fix (disc := disc) (ind := ind) w hk2).1
        have e : T.dp (i - 1) = i := by unfold OTape.dp; rw [w.d2p _ hk]; omega
        rw [e, (w.nind.2 _ hk2).2 hk] at f
        rw [f, show s.pars.dynOps.length = i - 1 by omega]
        rfl
      · by_cases h : p = i
        · exact Or.inr h
        · left; omega
      · show (s.pars.putDynPar (at' T.dyn.parAll i) .ind).1.dynOps.length + 1 = i + 1
        rw [a5]; simp; omega
  have h2 : ParInv disc ind T (fun p => p < T.nInd + 1 ∨ (p < numPar ∧ T.isDyn p = false ∧ pu p = true)) p2 := by
    by_cases hle : T.nInd + 1 ≤ numPar
    · have := forRange_ind hle (s := p1) (f := fun i s =>
          if !isDyn i && pu i then
            let d := putCon hashR s.pars (at' T.dyn.parAll i)
            (⟨d.1, Function.update s.newPar i d.2, s.zero⟩ : ParSt)
          else s)
        (P := fun (i : ℕ) (s : ParSt) => ParInv disc ind T (fun p => p < T.nInd + 1 ∨ (p < i ∧ T.isDyn p = false ∧ pu p = true)) s)
        (h1.mono (fun p hp => by omega)) (by
          intro i s hi hi' ih
          dsimp only
          split_ifs with hc
          · simp only [Bool.and_eq_true, Bool.not_eq_true'] at hc
            obtain ⟨a1, a2, a3, a4, a5⟩ := putCon_ok (disc := disc) (ind := ind) (hash := hashR) ih.wf (at' T.dyn.parAll i)
            refine (ih.put a1 a2 (by omega) a3 ?_).mono fun p hp => ?_
            · rw [a4, con_val w hi' hc.1]
            · by_cases h : p = i
              · exact Or.inr h
              · left; rcases hp with hp | ⟨h1, h2⟩
                · exact Or.inl hp
                · exact Or.inr ⟨by omega, h2⟩
          · refine ih.mono fun p hp => ?_
            rcases hp with hp | ⟨h1, h2, h3⟩
            · exact Or.inl hp
            · refine Or.inr ⟨?_, h2, h3⟩
              by_contra hx
              have : p = i := by omega
              subst this
              apply hc
              have h2' : isDyn p = false := h2
              simp [h2', h3])
      exact this
    · have e : p2 = p1 := forRange_of_le (show numPar ≤ T.nInd + 1 by omega) _ _
      rw [e]
      exact h1.mono fun p hp => by omega
  have h3 : ParInv disc ind T (fun p => p < T.nInd + 1 ∨ (p < numPar ∧ T.isDyn p = false ∧ pu p = true)) p3 := by
    obtain ⟨a1, a2, a3, a4, a5⟩ := putCon_ok (disc := disc) (ind := ind) (hash := hashR) h2.wf 0
    refine ⟨a1, h2.zero, fun p hp => ?_⟩
    obtain ⟨b1, b2⟩ := h2.ok p hp
    exact ⟨lt_of_lt_of_le b1 a2.1, (a2.2 _ b1).trans b2⟩
  have h4 := forRange_ind w.nind.1 (s := p3) (f := T.newDyn pu dprev)
    (P := fun (k : ℕ) (s : ParSt) => ParInv disc ind T (fun p => p < T.nInd + 1 ∨ (p < numPar ∧ T.isDyn p = false ∧ pu p = true) ∨
      ∃ k' < k, k' < T.dyn.dynOps.length ∧ p = T.dp k' ∧ pu p = true) s)
    (h3.mono (by
      rintro p (hp | hp | ⟨k', hk', hk'', hp, _⟩)
      · exact Or.inl hp
      · exact Or.inr hp
      · left; rw [hp, OTape.dp, w.d2p _ hk']; omega)) (by
      intro k s hk hk' ih
      have hdp0 : 0 < T.dp k := by
        by_contra hc
        have hz : T.dp k = 0 := by omega
        have := dp_isDyn w hk'
        rw [hz, w.par0.2] at this; cases this
      have ext : ∀ p, (p < T.nInd + 1 ∨ (p < numPar ∧ T.isDyn p = false ∧ pu p = true) ∨
          ∃ k' < k + 1, k' < T.dyn.dynOps.length ∧ p = T.dp k' ∧ pu p = true) →
          ((p < T.nInd + 1 ∨ (p < numPar ∧ T.isDyn p = false ∧ pu p = true) ∨
          ∃ k' < k, k' < T.dyn.dynOps.length ∧ p = T.dp k' ∧ pu p = true) ∨ (p = T.dp k ∧ pu p = true)) := by
        rintro p (hp | hp | ⟨k', h1, h2, h3⟩)
        · exact Or.inl (Or.inl hp)
        · exact Or.inl (Or.inr (Or.inl hp))
        · by_cases hkk : k' = k
          · subst hkk; exact Or.inr h3
          · exact Or.inl (Or.inr (Or.inr ⟨k', by omega, h2, h3⟩))
      have known : ∀ a, a < T.dp k → pu a = true → a < T.nInd + 1 ∨ (a < numPar ∧ T.isDyn a = false ∧ pu a = true) ∨
          ∃ k' < k, k' < T.dyn.dynOps.length ∧ a = T.dp k' ∧ pu a = true := by
        intro a ha hpa
        have hlen := (dp_fix (disc := disc) (ind := ind) w hk').2.2
        cases hda : T.isDyn a with
        | false => exact Or.inr (Or.inl ⟨by change a < T.dyn.parAll.length; omega, rfl, hpa⟩)
        | true =>
          obtain ⟨k', h1, h2⟩ := isDyn_dp hda w
          refine Or.inr (Or.inr ⟨k', ?_, h1, h2.symm, hpa⟩)
          by_contra hc
          have hmono : T.dp k ≤ T.dp k' := by
            rcases Nat.eq_or_lt_of_le (show k ≤ k' by omega) with e | e
            · rw [e]
            · unfold OTape.dp
              rw [← w.dyn.length] at h1
              rw [List.getD_eq_getElem _ _ (by rw [w.dyn.length]; exact hk'), List.getD_eq_getElem _ _ h1]
              have hp : (dyn2par T.dyn.parIsDyn).Pairwise (· < ·) := by
                unfold dyn2par; exact List.Pairwise.filter _ List.pairwise_lt_range
              exact (List.pairwise_iff_getElem.1 hp k k' _ h1 e).le
          omega
      rcases dynOp_cases (T.dyn.dynOps.getD k .ind) with ⟨A, sel, i, args, he⟩ | he
      · rw [newDyn_atom he]
        split_ifs with hcu
        · have hlt : ∀ a ∈ args, a < T.dp k := by
            have h7 := args_lt w hk'
            rw [he] at h7; exact h7
          have hz := (ih.ok 0 (Or.inl (by omega)))
          rw [ih.zero] at hz
          have hargs : ∀ a ∈ args, atomArg pu s.newPar a < s.pars.parAll.length := by
            intro a ha
            unfold atomArg
            split_ifs with hc
            · exact (ih.ok a (known a (hlt a ha) hc.2)).1
            · exact hz.1
          obtain ⟨a1, a2, a3, a4, a5⟩ := putDyn_ok (disc := disc) (ind := ind) ih.wf (at' T.dyn.parAll (T.dp k))
            (.atom A sel i (args.map (atomArg pu s.newPar))) (by
              intro a ha
              change a ∈ args.map (atomArg pu s.newPar) at ha
              rw [List.mem_map] at ha
              obtain ⟨a', ha', rfl⟩ := ha
              exact hargs a' ha')
          by_cases hu : pu (T.dp k) = true
          · refine (ih.put a1 a2 hdp0 a3 ?_).mono fun p hp => ?_
            · rw [a4]
              refine atom_value w hk' he hclosed hu (fun a ha hpa => ?_) _
              unfold atomArg
              by_cases h0 : 0 < a
              · rw [if_pos ⟨h0, hpa⟩]
                exact (ih.ok a (known a (hlt a ha) hpa)).2
              · rw [if_neg (fun hc => h0 hc.1), show a = 0 by omega]
                exact hz.2
            · rcases ext p hp with h | h
              · exact Or.inl h
              · exact Or.inr h.1
          · refine (ih.skip a1 a2 hdp0 ?_).mono fun p hp => ?_
            · rintro (h | h | ⟨k', h5, h6, h7, h8⟩)
              · have hk0 := dp_le w hk' hk
                rcases Nat.eq_zero_or_pos T.nInd with e | e
                · omega
                · have h9 := dp_mono w hk' (show T.nInd - 1 < k by omega)
                  have h10 : T.dp (T.nInd - 1) = T.nInd - 1 + 1 := w.d2p _ (by omega)
                  omega
              · rw [dp_isDyn w hk'] at h; cases h.2.1
              · exact hu h8
            · rcases ext p hp with h | h
              · exact h
              · exact absurd (show pu (T.dp k) = true by rw [← h.1]; exact h.2) hu
        · refine ih.mono fun p hp => ?_
          rcases ext p hp with h | h
          · exact h
          · exact absurd (callUsed_of w hk' he (show pu (T.dp k) = true by rw [← h.1]; exact h.2)) hcu
      rw [newDyn_elem he]
      split_ifs with hu
      · split
        · rename_i j hj
          obtain ⟨b1, b2, b3, b4⟩ := hprev k j hj
          have hjd : j < T.dyn.dynOps.length := by omega
          obtain ⟨c1, c2⟩ := ih.ok (T.dp j) (Or.inr (Or.inr ⟨j, b2, hjd, rfl, b3⟩))
          refine (ih.put ih.wf (Grows.refl _) hdp0 c1 (c2.trans b4)).mono fun p hp => ?_
          rcases ext p hp with h | h
          · exact Or.inl h
          · exact Or.inr h.1
        · have hargs : ∀ a ∈ (T.dyn.dynOps.getD k .ind).args, s.newPar a < s.pars.parAll.length ∧
              at' (parVals disc ind s.pars) (s.newPar a) = at' (parVals disc ind T.dyn) a := fun a ha =>
            ih.ok a (known a ((dp_fix (disc := disc) (ind := ind) w hk').2.1 a ha) ((hclosed k hk').elem he hu a ha))
          have hne : T.dyn.dynOps.getD k .ind ≠ .ind := fun hc => by
            have := (w.nind.2 k hk').1 hc; omega
          obtain ⟨a1, a2, a3, a4, a5⟩ := putDyn_ok (disc := disc) (ind := ind) ih.wf (at' T.dyn.parAll (T.dp k))
            (dynMap s.newPar (T.dyn.dynOps.getD k .ind)) (by
              intro a ha
              have : ∀ op : DynOp, (dynMap s.newPar op).args = op.args.map s.newPar := by intro op; cases op <;> rfl
              rw [this, List.mem_map] at ha
              obtain ⟨a', ha', rfl⟩ := ha
              exact (hargs a' ha').1)
          refine (ih.put a1 a2 hdp0 a3 ?_).mono fun p hp => ?_
          · rw [a4, (dp_fix w hk').1]
            exact dyn_eval_map _ hne fun a ha => (hargs a ha).2
          · rcases ext p hp with h | h
            · exact Or.inl h
            · exact Or.inr h.1
      · refine ih.mono fun p hp => ?_
        rcases ext p hp with h | h
        · exact h
        · exact absurd (show pu (T.dp k) = true by rw [← h.1]; exact h.2) hu)
  refine h4.mono fun p hp => ?_
  cases hd : T.isDyn p with
  | false => exact Or.inr (Or.inl ⟨hp.1, rfl, hp.2⟩)
  | true =>
    obtain ⟨k', h1, h2⟩ := isDyn_dp hd w
    exact Or.inr (Or.inr ⟨k', h1, h1, h2.symm, hp.2⟩)

end CppAD.Optim
