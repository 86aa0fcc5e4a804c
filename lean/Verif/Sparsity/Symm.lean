import Verif.Sparsity.Apply

/-!
# The pattern of the reverse Hessian sweep is symmetric

For operation sequences without calls of atomic functions, when the forward Jacobian pattern was computed for the
identity and without dependency.
-/

namespace CppAD.Sparsity

theorem mem_csumForJac (iz : ℕ) (vars : List ℕ) (hv : ∀ a ∈ vars, a ≠ iz) (s : Sp) (i : ℕ) :
    i ∈ csumForJac iz vars s iz ↔ ∃ a ∈ vars, i ∈ s a := by
  have gen : ∀ (vars : List ℕ), (∀ a ∈ vars, a ≠ iz) → ∀ (s : Sp),
      i ∈ vars.foldl (fun s a => Sp.binaryUnion s iz iz a s) s iz ↔ i ∈ s iz ∨ ∃ a ∈ vars, i ∈ s a := by
    intro vars
    induction vars with
    | nil => intro _ s; simp
    | cons b vars ih =>
      intro hv s
      rw [List.foldl_cons, ih (fun a h => hv a (by simp [h])), bu_apply, if_pos rfl, Finset.mem_union]
      constructor
      · rintro ((h | h) | ⟨a, ha, h⟩)
        · exact Or.inl h
        · exact Or.inr ⟨b, by simp, h⟩
        · rw [bu_apply, if_neg (hv a (by simp [ha]))] at h
          exact Or.inr ⟨a, by simp [ha], h⟩
      · rintro (h | ⟨a, ha, h⟩)
        · exact Or.inl (Or.inl h)
        · rcases List.mem_cons.1 ha with rfl | ha
          · exact Or.inl (Or.inr h)
          · refine Or.inr ⟨a, ha, ?_⟩
            rw [bu_apply, if_neg (hv a (by simp [ha]))]
            exact h
  unfold csumForJac
  rw [gen vars hv]
  unfold Sp.clear
  rw [Function.update_self]
  constructor
  · rintro (h | ⟨a, ha, h⟩)
    · exact absurd h (Finset.notMem_empty _)
    · rw [Function.update_of_ne (hv a ha)] at h
      exact ⟨a, ha, h⟩
  · rintro ⟨a, ha, h⟩
    refine Or.inr ⟨a, ha, ?_⟩
    rw [Function.update_of_ne (hv a ha)]
    exact h

theorem cexpForJac_eq (iz : ℕ) (l r t f : Opd) (s : Sp) : cexpForJac false iz l r t f s = csumForJac iz (t.vars ++ f.vars) s := by
  unfold cexpForJac csumForJac
  rw [List.foldl_append]
  cases t <;> cases f <;> rfl

/-- the set of a result is the union of the sets of the arguments -/
theorem forJacOp_exact (op : Op) (hna : ∀ c, op ≠ .atom c) (iz : ℕ) (s : Sp) (hz : ∀ a ∈ op.args, a ≠ iz) (i : ℕ) :
    i ∈ forJacOp false op iz s iz ↔ ∃ a ∈ jacArgs op, i ∈ s a := by
  have h1 : ∀ ix, i ∈ oneVarForJac iz ix s iz ↔ ∃ a ∈ [ix], i ∈ s a := fun ix => by
    unfold oneVarForJac Sp.assignment; rw [Function.update_self]; simp
  have h2 : ∀ ix iy, i ∈ twoVarForJac iz ix iy s iz ↔ ∃ a ∈ [ix, iy], i ∈ s a := fun ix iy => by
    unfold twoVarForJac Sp.binaryUnion; rw [Function.update_self]; simp
  have h0 : i ∈ s.clear iz iz ↔ ∃ a ∈ ([] : List ℕ), i ∈ s a := by
    unfold Sp.clear; rw [Function.update_self]; simp
  cases op with
  | cexp c l r t f =>
    show i ∈ cexpForJac false iz l r t f s iz ↔ _
    rw [cexpForJac_eq]
    exact mem_csumForJac iz _ (fun a ha => hz a (jacArgs_sub _ a ha)) s i
  | csum c addv subv addp subp => exact mem_csumForJac iz _ hz s i
  | dis fn ix => exact h0
  | sign ix => exact h0
  | par c => exact h0
  | atom c => exact absurd rfl (hna c)
  | _ => first | exact h1 _ | exact h2 _ _

theorem forJac_exact (ops : List Op) : ∀ (nv : ℕ) (U : Set ℕ) (s : Sp), 0 < nv → (∀ a ∈ U, a ≠ 0) →
    (∀ a ∈ U, a < nv) → WFOps ops nv U → (∀ op ∈ ops, ∀ c, op ≠ .atom c) →
    AllOps (fun op _ iz => ∀ i, i ∈ forJac false ops nv s iz ↔ ∃ a ∈ jacArgs op, i ∈ forJac false ops nv s a) ops nv := by
  induction ops with
  | nil => intro nv U s _ _ _ _ _; trivial
  | cons op ops ih =>
    intro nv U s hnv h0 hU hw hna
    have hlt : ∀ a ∈ op.args, a < nv := fun a h => hU a (hw.1 a h)
    have hno := hna op (by simp)
    have hpos := op.nres_pos
    have i1 := (forJac_closed false ops (nv + op.nres) _ (forJacOp false op (nv + op.nres - 1) s) (by omega) (addRes_ne hnv h0)
      (U_insert op hU) hw.2).1
    refine ⟨fun r r1 r2 i => ?_, ih (nv + op.nres) _ (forJacOp false op (nv + op.nres - 1) s) (by omega) (addRes_ne hnv h0)
      (U_insert op hU) hw.2 fun o ho => hna o (by simp [ho])⟩
    rw [naux_elem hno] at r1
    have hr : nv + r = nv + op.nres - 1 := by omega
    rw [hr]
    show i ∈ forJac false ops _ _ _ ↔ ∃ a ∈ jacArgs op, i ∈ forJac false ops _ _ a
    rw [i1 _ (by omega), forJacOp_exact op hno _ s (fun a ha => by have := hlt a ha; omega)]
    have hsame := (forJacOp_spec false op nv s hlt (fun a h => h0 a (hw.1 a h))).1
    constructor
    · rintro ⟨a, ha, h⟩
      have hal := hlt a (jacArgs_sub op a ha)
      refine ⟨a, ha, ?_⟩
      rw [i1 a (by omega), hsame a hal]; exact h
    · rintro ⟨a, ha, h⟩
      have hal := hlt a (jacArgs_sub op a ha)
      rw [i1 a (by omega), hsame a hal] at h
      exact ⟨a, ha, h⟩

theorem hesPairs_symm (op : Op) (u v : ℕ) (h : (u, v) ∈ hesPairs op) : (v, u) ∈ hesPairs op := by
  cases op <;> simp only [hesPairs, List.mem_cons, Prod.mk.injEq, List.not_mem_nil, or_false] at h ⊢ <;>
    first | exact ⟨h.2, h.1⟩ | exact h | (rcases h with h | h | h | h <;> simp [h]) | (rcases h with h | h | h <;> simp [h]) | (rcases h with h | h <;> simp [h])

theorem hesPairs_jac (op : Op) (u v : ℕ) (h : (u, v) ∈ hesPairs op) : u ∈ jacArgs op := by
  cases op <;> simp only [hesPairs, List.mem_cons, Prod.mk.injEq, List.not_mem_nil, or_false] at h <;>
    simp only [jacArgs, Op.args, List.mem_cons, List.not_mem_nil, or_false] <;>
    first | exact h.1 | (rcases h with h | h | h | h <;> simp [h]) | (rcases h with h | h | h <;> simp [h]) | (rcases h with h | h <;> simp [h])

/-- effect of one operator of a reverse Hessian sweep -/
def RHExact (J : Sp) (op : Op) (iz : ℕ) (s s' : RH) : Prop :=
  (∀ u i, i ∈ s'.2 u ↔ i ∈ s.2 u ∨ (u ∈ jacArgs op ∧ i ∈ s.2 iz) ∨ (s.1 iz = true ∧ ∃ v, (u, v) ∈ hesPairs op ∧ i ∈ J v)) ∧
  ∀ u, s'.1 u = true ↔ s.1 u = true ∨ (u ∈ jacArgs op ∧ s.1 iz = true)

theorem oneVar_exact (J : Sp) (op : Op) (iz ix : ℕ) (hne : ix ≠ iz) (lin : Bool) (s : RH) (hs : s.1 iz = false → s.2 iz = ∅)
    (hj : jacArgs op = [ix]) (hh : hesPairs op = if lin then [] else [(ix, ix)]) :
    RHExact J op iz s (oneVarRevHes iz ix lin J s) := by
  unfold oneVarRevHes RHExact
  rw [hj, hh]
  cases h : s.1 iz with
  | false =>
    simp only [Bool.not_false, if_true, hs h]
    exact ⟨fun u i => by simp, fun u => by simp⟩
  | true =>
    simp only [Bool.not_true, Bool.false_eq_true, if_false, List.mem_singleton, true_and, and_true]
    refine ⟨fun u i => ?_, fun u => ?_⟩
    · cases lin
      · simp only [Bool.not_false, if_true, Bool.false_eq_true, if_false, bu_apply]
        by_cases hu : u = ix
        · subst hu; simp [or_assoc]
        · simp [hu]
      · simp only [Bool.not_true, Bool.false_eq_true, if_false, if_true, bu_apply]
        by_cases hu : u = ix
        · subst hu; simp
        · simp [hu]
    · rw [Function.update_apply]
      by_cases hu : u = ix
      · simp [hu]
      · simp [hu]

theorem twoVar_exact (J : Sp) (op : Op) (iz ix iy : ℕ) (hx : ix ≠ iz) (hy : iy ≠ iz) (lx ly lxy : Bool) (s : RH)
    (hs : s.1 iz = false → s.2 iz = ∅) (hj : jacArgs op = [ix, iy])
    (hh : ∀ u v, (u, v) ∈ hesPairs op ↔ (lx = false ∧ ((u = ix ∧ v = ix) ∨ (u = iy ∧ v = ix))) ∨
      (ly = false ∧ ((u = ix ∧ v = iy) ∨ (u = iy ∧ v = iy))) ∨ (lxy = false ∧ ((u = ix ∧ v = iy) ∨ (u = iy ∧ v = ix)))) :
    RHExact J op iz s (twoVarRevHes iz ix iy lx ly lxy J s) := by
  unfold twoVarRevHes RHExact
  simp only [hj, hh]
  cases h : s.1 iz with
  | false =>
    simp only [Bool.not_false, if_true, hs h]
    exact ⟨fun u i => by simp, fun u => by simp⟩
  | true =>
    simp only [Bool.not_true, Bool.false_eq_true, if_false, true_and, and_true]
    refine ⟨fun u i => ?_, fun u => ?_⟩
    · have hx' := Ne.symm hx
      have hy' := Ne.symm hy
      by_cases h1 : u = ix
      · subst h1
        by_cases h2 : u = iy
        · subst h2
          cases lx <;> cases ly <;> cases lxy <;> simp [bu_apply, hx', or_assoc] <;> try tauto
        · have h2' := Ne.symm h2
          cases lx <;> cases ly <;> cases lxy <;> simp [bu_apply, h2, h2', hx', hy', or_assoc, or_and_right, exists_or] <;> try tauto
      · by_cases h2 : u = iy
        · subst h2
          have h1' := Ne.symm h1
          cases lx <;> cases ly <;> cases lxy <;> simp [bu_apply, h1, h1', hx', hy', or_assoc, or_and_right, exists_or] <;> try tauto
        · cases lx <;> cases ly <;> cases lxy <;> simp [bu_apply, h1, h2]
    · simp only [Function.update_apply, List.mem_cons, List.not_mem_nil, or_false]
      by_cases h1 : u = ix <;> by_cases h2 : u = iy <;> simp [h1, h2]

theorem csum_exact (iz : ℕ) (vars : List ℕ) (hv : iz ∉ vars) (s : RH) :
    (∀ u i, i ∈ (csumRevHes iz vars s).2 u ↔ i ∈ s.2 u ∨ (u ∈ vars ∧ i ∈ s.2 iz)) ∧
    ∀ u, (csumRevHes iz vars s).1 u = true ↔ s.1 u = true ∨ (u ∈ vars ∧ s.1 iz = true) := by
  unfold csumRevHes
  induction vars generalizing s with
  | nil => exact ⟨fun u i => by simp, fun u => by simp⟩
  | cons b vars ih =>
    simp only [List.mem_cons, not_or] at hv
    obtain ⟨h1, h2⟩ := ih hv.2 (linArgRevHes iz b s)
    have e1 : ∀ v, (linArgRevHes iz b s).2 v = if v = b then s.2 b ∪ s.2 iz else s.2 v := fun v => by
      unfold linArgRevHes; exact bu_apply ..
    have e2 : ∀ v, (linArgRevHes iz b s).1 v = if v = b then (s.1 b || s.1 iz) else s.1 v := fun v => by
      unfold linArgRevHes; exact Function.update_apply ..
    simp only [List.foldl_cons]
    refine ⟨fun u i => ?_, fun u => ?_⟩
    · rw [h1, e1, e1, if_neg hv.1]
      by_cases hu : u = b
      · subst hu
        rw [if_pos rfl]; simp only [Finset.mem_union, List.mem_cons, true_or, true_and]; tauto
      · rw [if_neg hu]; simp [hu]
    · rw [h2, e2, e2, if_neg hv.1]
      by_cases hu : u = b
      · subst hu
        rw [if_pos rfl]; simp only [Bool.or_eq_true, List.mem_cons, true_or, true_and]; tauto
      · rw [if_neg hu]; simp [hu]

theorem revHesOp_exact (J : Sp) (op : Op) (hna : ∀ c, op ≠ .atom c) (iz : ℕ) (s : RH) (hz : ∀ a ∈ op.args, a ≠ iz)
    (hs : s.1 iz = false → s.2 iz = ∅) : RHExact J op iz s (revHesOp J op iz s) := by
  cases op with
  | atom c => exact absurd rfl (hna c)
  | csum c addv subv addp subp =>
    obtain ⟨h1, h2⟩ := csum_exact iz (addv ++ subv) (fun h => hz iz h rfl) s
    refine ⟨fun u i => ?_, h2⟩
    show i ∈ (csumRevHes iz (addv ++ subv) s).2 u ↔ _
    rw [h1]; simp [hesPairs, jacArgs, Op.args]
  | cexp c l r t f =>
    obtain ⟨h1, h2⟩ := csum_exact iz (t.vars ++ f.vars) (fun h => hz iz (jacArgs_sub (.cexp c l r t f) iz h) rfl) s
    have e : revHesOp J (.cexp c l r t f) iz s = csumRevHes iz (t.vars ++ f.vars) s := cexpRevHes_eq ..
    rw [e]
    refine ⟨fun u i => ?_, h2⟩
    rw [h1]; simp [hesPairs, jacArgs]
  | dis _ _ => exact ⟨fun u i => by simp [revHesOp, jacArgs, hesPairs], fun u => by simp [revHesOp, jacArgs]⟩
  | sign _ => exact ⟨fun u i => by simp [revHesOp, jacArgs, hesPairs], fun u => by simp [revHesOp, jacArgs]⟩
  | par _ => exact ⟨fun u i => by simp [revHesOp, jacArgs, Op.args, hesPairs], fun u => by simp [revHesOp, jacArgs, Op.args]⟩
  | addvv ix iy | subvv ix iy | mulvv ix iy | zmulvv ix iy | divvv ix iy | powvv ix iy =>
    refine twoVar_exact J _ iz ix iy (hz ix (by simp [Op.args])) (hz iy (by simp [Op.args])) _ _ _ s hs rfl fun u v => ?_
    simp [hesPairs]; try tauto
  | _ =>
    refine oneVar_exact J _ iz _ (hz _ (by simp [Op.args])) _ s hs rfl rfl

/-- the sets of the reverse Hessian sweep, as a symmetric relation between variables; the relation and the flags are the same
for all patterns `J` of the first derivatives -/
theorem revHes_relation_all (ops : List Op) : ∀ (nv : ℕ) (U : Set ℕ) (rj : ℕ → Bool), 0 < nv → (∀ a ∈ U, a ≠ 0) →
    (∀ a ∈ U, a < nv) → WFOps ops nv U → (∀ op ∈ ops, ∀ c, op ≠ .atom c) →
    ∃ (R : ℕ → ℕ → Prop) (F : ℕ → Prop), (∀ u v, R u v → R v u) ∧ (∀ u v, R u v → u ∈ U ∧ F u) ∧
      ∀ J : Sp, AllOps (fun op _ iz => ∀ i, i ∈ J iz ↔ ∃ a ∈ jacArgs op, i ∈ J a) ops nv →
      (∀ u, (revHes J ops nv (rj, fun _ => ∅)).1 u = true ↔ F u) ∧
      ∀ u ∈ U, ∀ i, i ∈ (revHes J ops nv (rj, fun _ => ∅)).2 u ↔ ∃ v, R u v ∧ i ∈ J v := by
  induction ops with
  | nil =>
    intro nv U rj _ _ _ _ _
    exact ⟨fun _ _ => False, fun u => rj u = true, fun _ _ h => h, fun _ _ h => h.elim,
      fun J _ => ⟨fun u => Iff.rfl, fun u _ i => by simp [revHes]⟩⟩
  | cons op ops ih =>
    intro nv U rj hnv h0 hU hw hna
    have hlt : ∀ a ∈ op.args, a < nv := fun a h => hU a (hw.1 a h)
    have hno := hna op (by simp)
    have hpos := op.nres_pos
    obtain ⟨R, F, r1, r2, r3⟩ := ih (nv + op.nres) _ rj (by omega) (addRes_ne hnv h0) (U_insert op hU) hw.2
      (fun o ho => hna o (by simp [ho]))
    set iz := nv + op.nres - 1 with hiz
    have hzU : iz ∈ addRes op nv U := Or.inl ⟨by rw [naux_elem hno]; omega, by omega⟩
    have haddU : ∀ v, v ∈ addRes op nv U → v = iz ∨ v ∈ U := by
      rintro v (h | h)
      · rw [naux_elem hno] at h
        have h1 := h.1
        have h2 := h.2
        exact Or.inl (by omega)
      · exact Or.inr h
    have hAU : ∀ a ∈ jacArgs op, a ∈ U := fun a ha => hw.1 a (jacArgs_sub op a ha)
    let A := fun u => u ∈ jacArgs op
    refine ⟨fun u v => (u ∈ U ∧ v ∈ U ∧ R u v) ∨ (A u ∧ v ∈ U ∧ R iz v) ∨ (A v ∧ u ∈ U ∧ R u iz) ∨ (A u ∧ A v ∧ R iz iz) ∨
      (F iz ∧ (u, v) ∈ hesPairs op), fun u => F u ∨ (A u ∧ F iz), ?_, ?_, ?_⟩
    · rintro u v (⟨h1, h2, h⟩ | ⟨h1, h2, h⟩ | ⟨h1, h2, h⟩ | ⟨h1, h2, h⟩ | ⟨h1, h⟩)
      · exact Or.inl ⟨h2, h1, r1 _ _ h⟩
      · exact Or.inr (Or.inr (Or.inl ⟨h1, h2, r1 _ _ h⟩))
      · exact Or.inr (Or.inl ⟨h1, h2, r1 _ _ h⟩)
      · exact Or.inr (Or.inr (Or.inr (Or.inl ⟨h2, h1, h⟩)))
      · exact Or.inr (Or.inr (Or.inr (Or.inr ⟨h1, hesPairs_symm op u v h⟩)))
    · rintro u v (⟨h1, h2, h⟩ | ⟨h1, h2, h⟩ | ⟨h1, h2, h⟩ | ⟨h1, h2, h⟩ | ⟨h1, h⟩)
      · exact ⟨h1, Or.inl (r2 _ _ h).2⟩
      · exact ⟨hAU u h1, Or.inr ⟨h1, (r2 _ _ h).2⟩⟩
      · exact ⟨h2, Or.inl (r2 _ _ h).2⟩
      · exact ⟨hAU u h1, Or.inr ⟨h1, (r2 _ _ h).2⟩⟩
      · have := hesPairs_jac op u v h
        exact ⟨hAU u this, Or.inr ⟨this, h1⟩⟩
    intro J hJ
    have hJz : ∀ i, i ∈ J iz ↔ ∃ a ∈ jacArgs op, i ∈ J a := by
      have := hJ.1 (op.nres - 1) (by rw [naux_elem hno]) (by omega)
      rw [show nv + (op.nres - 1) = iz by omega] at this
      exact this
    obtain ⟨f1, r3⟩ := r3 J hJ.2
    set s := revHes J ops (nv + op.nres) (rj, fun _ => ∅) with hs
    obtain ⟨e1, e2⟩ := revHesOp_exact J op hno iz s (fun a ha => by have := hlt a ha; omega) (by
      intro hf
      refine Finset.eq_empty_of_forall_notMem fun i hi => ?_
      obtain ⟨v, hv, _⟩ := (r3 iz hzU i).1 hi
      have := (f1 iz).2 (r2 _ _ hv).2
      rw [hf] at this; cases this)
    have hrev : revHes J (op :: ops) nv (rj, fun _ => ∅) = revHesOp J op iz s := rfl
    rw [hrev]
    refine ⟨fun u => ?_, ?_⟩
    · rw [e2 u, f1, f1]
    · intro u hu i
      rw [e1, f1]
      have hside : ∀ w ∈ addRes op nv U, (i ∈ s.2 w ↔ (∃ v ∈ U, R w v ∧ i ∈ J v) ∨ (R w iz ∧ ∃ a ∈ jacArgs op, i ∈ J a)) := by
        intro w hw'
        rw [r3 w hw' i]
        constructor
        · rintro ⟨v, h1, h2⟩
          rcases haddU v (r2 _ _ (r1 _ _ h1)).1 with rfl | hvU
          · exact Or.inr ⟨h1, (hJz i).1 h2⟩
          · exact Or.inl ⟨v, hvU, h1, h2⟩
        · rintro (⟨v, _, h1, h2⟩ | ⟨h1, h2⟩)
          · exact ⟨v, h1, h2⟩
          · exact ⟨iz, h1, (hJz i).2 h2⟩
      rw [hside u (Or.inr hu), hside iz hzU]
      constructor
      · rintro ((⟨v, h1, h2, h3⟩ | ⟨h1, a, h2, h3⟩) | ⟨h1, ⟨v, h2, h3, h4⟩ | ⟨h2, a, h3, h4⟩⟩ | ⟨h1, v, h2, h3⟩)
        · exact ⟨v, Or.inl ⟨hu, h1, h2⟩, h3⟩
        · exact ⟨a, Or.inr (Or.inr (Or.inl ⟨h2, hu, h1⟩)), h3⟩
        · exact ⟨v, Or.inr (Or.inl ⟨h1, h2, h3⟩), h4⟩
        · exact ⟨a, Or.inr (Or.inr (Or.inr (Or.inl ⟨h1, h3, h2⟩))), h4⟩
        · exact ⟨v, Or.inr (Or.inr (Or.inr (Or.inr ⟨h1, h2⟩))), h3⟩
      · rintro ⟨v, ⟨h1, h2, h⟩ | ⟨h1, h2, h⟩ | ⟨h1, h2, h⟩ | ⟨h1, h2, h⟩ | ⟨h1, h⟩, h3⟩
        · exact Or.inl (Or.inl ⟨v, h2, h, h3⟩)
        · exact Or.inr (Or.inl ⟨h1, Or.inl ⟨v, h2, h, h3⟩⟩)
        · exact Or.inl (Or.inr ⟨h, v, h1, h3⟩)
        · exact Or.inr (Or.inl ⟨h1, Or.inr ⟨h, v, h2, h3⟩⟩)
        · exact Or.inr (Or.inr ⟨h1, v, h, h3⟩)

theorem revHes_relation (J : Sp) (ops : List Op) (nv : ℕ) (U : Set ℕ) (rj : ℕ → Bool) (hnv : 0 < nv) (h0 : ∀ a ∈ U, a ≠ 0)
    (hU : ∀ a ∈ U, a < nv) (hw : WFOps ops nv U) (hna : ∀ op ∈ ops, ∀ c, op ≠ .atom c)
    (hJ : AllOps (fun op _ iz => ∀ i, i ∈ J iz ↔ ∃ a ∈ jacArgs op, i ∈ J a) ops nv) :
    ∃ R : ℕ → ℕ → Prop, (∀ u v, R u v → R v u) ∧ (∀ u v, R u v → u ∈ U ∧ (revHes J ops nv (rj, fun _ => ∅)).1 u = true) ∧
      ∀ u ∈ U, ∀ i, i ∈ (revHes J ops nv (rj, fun _ => ∅)).2 u ↔ ∃ v, R u v ∧ i ∈ J v := by
  obtain ⟨R, F, r1, r2, r3⟩ := revHes_relation_all ops nv U rj hnv h0 hU hw hna
  obtain ⟨f1, r3⟩ := r3 J hJ
  exact ⟨R, r1, fun u v h => ⟨(r2 u v h).1, (f1 u).2 (r2 u v h).2⟩, r3⟩

/-- the sets for independent variables, for any sets `s0` of the independent variables -/
theorem revHes_indep {T : Tape} (hT : T.WF) (hna : ∀ op ∈ T.ops, ∀ c, op ≠ .atom c) (rj : ℕ → Bool) :
    ∃ R : ℕ → ℕ → Prop, (∀ i j, R i j → R j i) ∧ ∀ (s0 : Sp) (i : ℕ), i < T.n → ∀ c,
      (c ∈ (revHes (forJac false T.ops (T.n + 1) s0) T.ops (T.n + 1) (rj, fun _ => ∅)).2 (i + 1) ↔
        ∃ j < T.n, R i j ∧ c ∈ s0 (j + 1)) := by
  obtain ⟨R, F, r1, r2, r3⟩ := revHes_relation_all T.ops (T.n + 1) T.ind rj (by omega) ind_ne ind_lt hT.ops hna
  refine ⟨fun i j => R (i + 1) (j + 1), fun i j h => r1 _ _ h, fun s0 i hi c => ?_⟩
  have hex := forJac_exact T.ops (T.n + 1) T.ind s0 (by omega) ind_ne ind_lt hT.ops hna
  have hlow := (forJac_closed false T.ops (T.n + 1) T.ind s0 (by omega) ind_ne ind_lt hT.ops).1
  rw [(r3 _ hex).2 (i + 1) ⟨by omega, by omega⟩ c]
  constructor
  · rintro ⟨v, hv, hc⟩
    have hvU := (r2 _ _ (r1 _ _ hv)).1
    have hv1 := hvU.1
    have hv2 := hvU.2
    rw [hlow v (by omega)] at hc
    obtain ⟨j, rfl⟩ : ∃ j, v = j + 1 := ⟨v - 1, by omega⟩
    exact ⟨j, by omega, hv, hc⟩
  · rintro ⟨j, hj, hv, hc⟩
    exact ⟨j + 1, hv, by rw [hlow _ (by omega)]; exact hc⟩

/-- the sets for the independent variables are symmetric -/
theorem revHes_symm {T : Tape} (hT : T.WF) (hna : ∀ op ∈ T.ops, ∀ c, op ≠ .atom c) (s0 : Sp)
    (hs0 : ∀ k < T.n, s0 (k + 1) = {k}) (rj : ℕ → Bool) (i j : ℕ) (hi : i < T.n) (hj : j < T.n)
    (h : j ∈ (revHes (forJac false T.ops (T.n + 1) s0) T.ops (T.n + 1) (rj, fun _ => ∅)).2 (i + 1)) :
    i ∈ (revHes (forJac false T.ops (T.n + 1) s0) T.ops (T.n + 1) (rj, fun _ => ∅)).2 (j + 1) := by
  have hex := forJac_exact T.ops (T.n + 1) T.ind s0 (by omega) ind_ne ind_lt hT.ops hna
  have hlow := (forJac_closed false T.ops (T.n + 1) T.ind s0 (by omega) ind_ne ind_lt hT.ops).1
  generalize forJac false T.ops (T.n + 1) s0 = J at h hex hlow ⊢
  obtain ⟨R, r1, r2, r3⟩ := revHes_relation J T.ops (T.n + 1) T.ind rj (by omega) ind_ne ind_lt hT.ops hna hex
  have hmem : ∀ k < T.n, k + 1 ∈ T.ind := fun k hk => ⟨by omega, by omega⟩
  obtain ⟨v, hv, hjv⟩ := (r3 _ (hmem i hi) j).1 h
  have hvU := (r2 _ _ (r1 _ _ hv)).1
  have hv1 := hvU.1
  have hv2 := hvU.2
  rw [hlow v (by omega), show v = (v - 1) + 1 by omega, hs0 (v - 1) (by omega), Finset.mem_singleton] at hjv
  have : v = j + 1 := by omega
  subst this
  refine (r3 _ (hmem j hj) i).2 ⟨i + 1, r1 _ _ hv, ?_⟩
  rw [hlow _ (by omega), hs0 i hi, Finset.mem_singleton]

/-- **C17** and **C21** together: without atomic functions, the pattern of `rev_hes_sparsity` after `for_jac_sparsity` for the
identity (without dependency) is symmetric, so it is a valid argument of `sparse_hes` also for the symmetric coloring.
Partial: calls of atomic functions are excluded; the atomic function may return patterns that depend on the
selected arguments and results. -/
theorem rev_hes_sparsity_symm_partial {T : Tape} (hT : T.WF) (hna : ∀ op ∈ T.ops, ∀ c, op ≠ .atom c) (sel : ℕ → Bool) :
    SparseHes.Pattern.Symm (revHesSparsity T T.n (forJacSparsity T T.n (identityPattern T.n) false false).2 sel false) := by
  have key : ∀ i j, Has false (revHesSparsity T T.n (forJacSparsity T T.n (identityPattern T.n) false false).2 sel false) i j →
      Has false (revHesSparsity T T.n (forJacSparsity T T.n (identityPattern T.n) false false).2 sel false) j i := by
    intro i j h
    unfold revHesSparsity at h ⊢
    dsimp only at h ⊢
    rw [has_getInternalPattern] at h ⊢
    obtain ⟨hi, hj, h⟩ := h
    refine ⟨hj, hi, ?_⟩
    unfold forJacSparsity at h ⊢
    refine revHes_symm hT hna _ (fun k hk => ?_) _ i j hi hj h
    ext c
    rw [mem_setInternalPattern, Finset.mem_singleton]
    constructor
    · rintro ⟨_, k', e, q, hq, e1, e2⟩
      have e1 : q = k' := e1
      have e2 : q = c := e2
      omega
    · rintro rfl
      exact ⟨by omega, c, rfl, c, hk, rfl, rfl⟩
  intro q hq
  exact key _ _ ⟨q, hq, rfl, rfl⟩

end CppAD.Sparsity
