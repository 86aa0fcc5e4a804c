import Verif.Ode.ErrSpec

/-! # One iteration of the loop in `OdeErrControl` -/

namespace CppAD.Ode

open scoped Classical

theorem absIf_eq (x : ℝ) : absIf x = |x| := by
  unfold absIf; split_ifs with h
  · exact (abs_of_nonneg h).symm
  · exact (abs_of_neg (not_le.1 h)).symm

theorem hasnan_iff {n : ℕ} {v : ℕ → Option ℝ} : hasnan n v = false ↔ ∀ i < n, (v i).isSome := by
  unfold hasnan
  have := forRange_ind (lo := 0) (hi := n) (s := false)
    (f := fun i found => found || (v i).isNone) (Nat.zero_le n)
    (fun k (b : Bool) => b = false ↔ ∀ i < k, (v i).isSome) (by simp) (by
      intro k b _ _ h
      simp only [Bool.or_eq_false_iff, h]
      constructor
      · rintro ⟨h1, h2⟩ i hi
        rcases Nat.lt_succ_iff_lt_or_eq.1 hi with h3 | h3
        · exact h1 i h3
        · subst h3; simpa using h2
      · intro h1
        exact ⟨fun i hi => h1 i (Nat.lt_succ_of_lt hi), by simpa using h1 k (Nat.lt_succ_self k)⟩)
  exact this

theorem some_getD' {o : Option ℝ} (h : o.isSome) : o = some (o.getD 0) := by
  cases o with
  | none => simp at h
  | some a => rfl

section request
variable {A : ErrArgs} (hA : A.Valid)
include hA

theorem request_bounds (s : ℝ) : A.smin ≤ (request A s).1 ∧ (request A s).1 ≤ A.smax := by
  have h := hA.smin_smax
  unfold request
  dsimp only
  by_cases h1 : A.smax ≤ s
  · simp only [h1, if_true]
    by_cases h2 : A.smax ≤ A.smin
    · simp [h2]; linarith
    · simp [h2]; linarith
  · simp only [h1, if_false]
    by_cases h2 : s ≤ A.smin
    · simp [h2]; linarith
    · simp [h2]; constructor <;> linarith

omit hA in
theorem request_min {s : ℝ} (h : (request A s).2 = true) : (request A s).1 = A.smin := by
  unfold request at h ⊢
  dsimp only at h ⊢
  rw [if_pos h]

omit hA in
theorem request_not_min {s : ℝ} (h : (request A s).2 = false) :
    A.smin < (request A s).1 ∧ (request A s).1 ≤ s ∧ (request A s).1 = min s A.smax := by
  unfold request at h ⊢
  dsimp only at h ⊢
  rw [if_neg (by simp [h])]
  have h' := not_le.1 (of_decide_eq_false h)
  refine ⟨h', ?_, ?_⟩
  · split_ifs with h1
    · exact h1
    · exact le_rfl
  · split_ifs with h1
    · exact (min_eq_right h1).symm
    · exact (min_eq_left (not_le.1 h1).le).symm

theorem request_small {s : ℝ} (h : s ≤ A.smin) : (request A s).2 = true := by
  have := hA.smin_smax
  unfold request
  dsimp only
  split_ifs with h1
  · exact decide_eq_true (h1.trans h)
  · exact decide_eq_true h

omit hA in
theorem stepEnd_cases (ta step : ℝ) :
    (A.tf ≤ ta + step * 3 / 2 ∧ stepEnd A ta step = A.tf) ∨
      (ta + step * 3 / 2 < A.tf ∧ stepEnd A ta step = ta + step) := by
  unfold stepEnd
  by_cases h : A.tf ≤ ta + step * 3 / 2
  · exact Or.inl ⟨h, if_pos h⟩
  · exact Or.inr ⟨not_le.1 h, if_neg h⟩

end request

theorem accept_fields (A : ErrArgs) (s : ErrState) (tb : ℝ) (xb eb : ℕ → Option ℝ) :
    (accept A s tb xb eb).ta = tb ∧ (accept A s tb xb eb).scur = s.scur ∧
    (accept A s tb xb eb).nstep = s.nstep ∧ (accept A s tb xb eb).failed = s.failed ∧
    (accept A s tb xb eb).calls = s.calls ∧
    (∀ i < A.n, (accept A s tb xb eb).xa i = (xb i).getD 0) ∧
    (∀ i < A.n, (accept A s tb xb eb).ef i = s.ef i + (eb i).getD 0) ∧
    (∀ i < A.n, (accept A s tb xb eb).maxabs i = max (s.maxabs i) |(xb i).getD 0|) := by
  have := forRange_ind (lo := 0) (hi := A.n) (s := { s with ta := tb })
    (f := fun i (s : ErrState) =>
      let s := { s with xa := Function.update s.xa i ((xb i).getD 0) }
      let s := { s with ef := Function.update s.ef i (s.ef i + (eb i).getD 0) }
      let axbi := absIf ((xb i).getD 0)
      if s.maxabs i < axbi then { s with maxabs := Function.update s.maxabs i axbi } else s)
    (Nat.zero_le _)
    (fun k (t : ErrState) => t.ta = tb ∧ t.scur = s.scur ∧ t.nstep = s.nstep ∧
      t.failed = s.failed ∧ t.calls = s.calls ∧
      (∀ i < A.n, t.xa i = if i < k then (xb i).getD 0 else s.xa i) ∧
      (∀ i < A.n, t.ef i = if i < k then s.ef i + (eb i).getD 0 else s.ef i) ∧
      (∀ i < A.n, t.maxabs i = if i < k then max (s.maxabs i) |(xb i).getD 0| else s.maxabs i))
    (by simp) (by
      intro k t _ hk ⟨h1, h2, h3, h4, h5, h6, h7, h8⟩
      dsimp only
      rw [absIf_eq]
      have e8 : t.maxabs k = s.maxabs k := by rw [h8 k hk, if_neg (lt_irrefl k)]
      have e7 : t.ef k = s.ef k := by rw [h7 k hk, if_neg (lt_irrefl k)]
      have a6 : ∀ i < A.n, Function.update t.xa k ((xb k).getD 0) i
          = if i < k + 1 then (xb i).getD 0 else s.xa i := by
        intro i hi
        by_cases e : i = k
        · subst e; simp
        · rw [Function.update_of_ne e, h6 i hi]
          have : i < k + 1 ↔ i < k := by omega
          simp only [this]
      have a7 : ∀ i < A.n, Function.update t.ef k (t.ef k + (eb k).getD 0) i
          = if i < k + 1 then s.ef i + (eb i).getD 0 else s.ef i := by
        intro i hi
        by_cases e : i = k
        · subst e; simp [e7]
        · rw [Function.update_of_ne e, h7 i hi]
          have : i < k + 1 ↔ i < k := by omega
          simp only [this]
      split_ifs with hc
      · refine ⟨h1, h2, h3, h4, h5, a6, a7, ?_⟩
        intro i hi
        by_cases e : i = k
        · subst e
          rw [e8] at hc
          simp [max_eq_right hc.le]
        · dsimp only
          rw [Function.update_of_ne e, h8 i hi]
          have : i < k + 1 ↔ i < k := by omega
          simp only [this]
      · refine ⟨h1, h2, h3, h4, h5, a6, a7, ?_⟩
        intro i hi
        by_cases e : i = k
        · subst e
          rw [e8] at hc
          dsimp only
          rw [e8, if_pos (Nat.lt_succ_self _), max_eq_left (not_lt.1 hc)]
        · dsimp only
          rw [h8 i hi]
          have : i < k + 1 ↔ i < k := by omega
          simp only [this])
  obtain ⟨h1, h2, h3, h4, h5, h6, h7, h8⟩ := this
  refine ⟨h1, h2, h3, h4, h5, ?_, ?_, ?_⟩
  · intro i hi
    have := h6 i hi
    rwa [if_pos hi] at this
  · intro i hi
    have := h7 i hi
    rwa [if_pos hi] at this
  · intro i hi
    have := h8 i hi
    rwa [if_pos hi] at this

/-- `lambda` is a lower bound for the roots, and is one of them or the starting value -/
theorem lambdaOf_spec (A : ErrArgs) (scur step : ℝ) (xb eb : ℕ → Option ℝ) :
    (∀ i < A.n, ∀ x e ρ, xb i = some x → eb i = some e → e ≠ 0 →
      root ((A.method.order - 1 : ℕ) : ℝ)
        ((A.eabs i + A.erel * |x|) / e * step / (A.tf - A.ti)) = some ρ →
      lambdaOf A scur step xb eb ≤ ρ) ∧
    (lambdaOf A scur step xb eb = 10 * scur / step ∨
      ∃ i < A.n, ∃ x e, xb i = some x ∧ eb i = some e ∧ e ≠ 0 ∧
        root ((A.method.order - 1 : ℕ) : ℝ)
          ((A.eabs i + A.erel * |x|) / e * step / (A.tf - A.ti))
          = some (lambdaOf A scur step xb eb)) := by
  unfold lambdaOf
  refine forRange_ind (Nat.zero_le A.n)
    (fun k (l : ℝ) => (∀ i < k, ∀ x e ρ, xb i = some x → eb i = some e → e ≠ 0 →
      root ((A.method.order - 1 : ℕ) : ℝ)
        ((A.eabs i + A.erel * |x|) / e * step / (A.tf - A.ti)) = some ρ → l ≤ ρ) ∧
      (l = 10 * scur / step ∨
      ∃ i < A.n, ∃ x e, xb i = some x ∧ eb i = some e ∧ e ≠ 0 ∧
        root ((A.method.order - 1 : ℕ) : ℝ)
          ((A.eabs i + A.erel * |x|) / e * step / (A.tf - A.ti)) = some l)) ?_ ?_
  · exact ⟨fun i hi => absurd hi (Nat.not_lt_zero i), Or.inl rfl⟩
  · intro k l _ hk ⟨h1, h2⟩
    cases hx : xb k with
    | none =>
      refine ⟨fun i hi x e ρ ha hb => ?_, h2⟩
      rcases Nat.lt_succ_iff_lt_or_eq.1 hi with h | h
      · exact h1 i h x e ρ ha hb
      · subst h; simp [hx] at ha
    | some x0 =>
      cases he : eb k with
      | none =>
        refine ⟨fun i hi x e ρ ha hb => ?_, h2⟩
        rcases Nat.lt_succ_iff_lt_or_eq.1 hi with h | h
        · exact h1 i h x e ρ ha hb
        · subst h; simp [he] at hb
      | some e0 =>
        dsimp only
        by_cases h0 : e0 = 0
        · rw [if_neg (by simpa using h0)]
          refine ⟨fun i hi x e ρ ha hb hc => ?_, h2⟩
          rcases Nat.lt_succ_iff_lt_or_eq.1 hi with h | h
          · exact h1 i h x e ρ ha hb hc
          · subst h; rw [he] at hb; cases hb; exact absurd h0 hc
        · rw [if_pos h0, absIf_eq]
          cases hr : root ((A.method.order - 1 : ℕ) : ℝ)
            ((A.eabs k + A.erel * |x0|) / e0 * step / (A.tf - A.ti)) with
          | none =>
            refine ⟨fun i hi x e ρ ha hb hc hd => ?_, h2⟩
            rcases Nat.lt_succ_iff_lt_or_eq.1 hi with h | h
            · exact h1 i h x e ρ ha hb hc hd
            · subst h
              rw [hx] at ha; cases ha
              rw [he] at hb; cases hb
              rw [hr] at hd; cases hd
          | some ρ0 =>
            dsimp only
            by_cases hl : ρ0 ≤ l
            · rw [if_pos hl]
              refine ⟨fun i hi x e ρ ha hb hc hd => ?_, Or.inr ⟨k, hk, x0, e0, hx, he, h0, hr⟩⟩
              rcases Nat.lt_succ_iff_lt_or_eq.1 hi with h | h
              · exact hl.trans (h1 i h x e ρ ha hb hc hd)
              · subst h
                rw [hx] at ha; cases ha
                rw [he] at hb; cases hb
                rw [hr] at hd; cases hd
                exact le_rfl
            · rw [if_neg hl]
              refine ⟨fun i hi x e ρ ha hb hc hd => ?_, h2⟩
              rcases Nat.lt_succ_iff_lt_or_eq.1 hi with h | h
              · exact h1 i h x e ρ ha hb hc hd
              · subst h
                rw [hx] at ha; cases ha
                rw [he] at hb; cases hb
                rw [hr] at hd; cases hd
                exact (not_le.1 hl).le

theorem root_ge_one {m1 r ρ : ℝ} (hm : 0 < m1) (h : root m1 r = some ρ) (h1 : 1 ≤ ρ) : 1 ≤ r := by
  unfold root at h
  split_ifs at h with h2 h3
  · cases h; linarith
  · cases h
    have hr : 0 < r := lt_of_le_of_ne (not_lt.1 h2) (Ne.symm h3)
    have : 0 ≤ Real.log r / m1 := by
      by_contra hc
      have := (Real.exp_lt_exp.2 (not_le.1 hc)).trans_eq Real.exp_zero
      linarith
    have h4 : 0 ≤ Real.log r := by
      by_contra hc
      have := div_neg_of_neg_of_pos (not_le.1 hc) hm
      linarith
    by_contra hc
    have := Real.log_neg hr (not_le.1 hc)
    linarith

theorem root_lt_one {m1 r ρ : ℝ} (hm : 0 < m1) (h : root m1 r = some ρ) (h1 : ρ < 1) :
    0 ≤ r ∧ r < 1 := by
  unfold root at h
  split_ifs at h with h2 h3
  · subst h3; exact ⟨le_rfl, one_pos⟩
  · cases h
    have hr : 0 < r := lt_of_le_of_ne (not_lt.1 h2) (Ne.symm h3)
    refine ⟨hr.le, ?_⟩
    by_contra hc
    have h4 := Real.log_nonneg (not_lt.1 hc)
    have h5 := Real.one_le_exp (div_nonneg h4 hm.le)
    linarith

theorem root_some {m1 r : ℝ} (h : 0 ≤ r) : ∃ ρ, root m1 r = some ρ := by
  unfold root
  rw [if_neg (not_lt.2 h)]
  split_ifs
  · exact ⟨_, rfl⟩
  · exact ⟨_, rfl⟩

/-- the call of `method.step` made by one iteration (its flag is not set) -/
noncomputable def nextCall (A : ErrArgs) (s : ErrState) : Call :=
  let tb := stepEnd A s.ta (request A s.scur).1
  let r := A.method.step s.calls s.ta tb s.xa
  ⟨s.ta, tb, s.xa, r.1, r.2, false⟩

/-- the facts about the step size that every call satisfies -/
structure SizeOk (A : ErrArgs) (c : Call) : Prop where
  start : A.ti ≤ c.ta
  pos : c.ta < c.tb
  tf : c.tb ≤ A.tf
  size : c.tb = A.tf ∨ (A.smin ≤ c.tb - c.ta ∧ c.tb - c.ta ≤ A.smax)
  max : c.tb - c.ta ≤ A.smax * 3 / 2
  rest : c.tb = A.tf ∨ A.smin / 2 < A.tf - c.tb

/-- what one iteration does -/
inductive ErrStep (A : ErrArgs) (s s' : ErrState) : Prop
  | fail (c : Call) (hc : c = nextCall A s) (size : SizeOk A c) (bad : ¬ c.Ok A.n)
      (small : c.tb - c.ta ≤ A.smin * 3 / 2)
      (e : s' = { s with nstep := s.nstep + 1, failed := true, calls := s.calls ++ [c] })
  | reject (c : Call) (hc : c = nextCall A s) (size : SizeOk A c)
      (why : ¬ c.Ok A.n ∨ (c.Ok A.n ∧ A.smin * 3 / 2 < c.tb - c.ta ∧ ¬ c.Within A))
      (big : A.smin < min s.scur A.smax)
      (t : ℝ) (ht : t ≤ (c.tb - c.ta) / 2) (ht' : c.tb - c.ta ≤ min s.scur A.smax * 3 / 2)
      (e : s' = { s with nstep := s.nstep + 1, scur := t, calls := s.calls ++ [c] })
  | accept (c : Call) (hc : c = { nextCall A s with acc := true }) (size : SizeOk A c)
      (ok : c.Ok A.n)
      (why : c.tb - c.ta ≤ A.smin * 3 / 2 ∨ (c.Nonneg A.n → c.Within A))
      (hta : s'.ta = c.tb) (hnstep : s'.nstep = s.nstep + 1) (hfail : s'.failed = s.failed)
      (hcalls : s'.calls = s.calls ++ [c])
      (hxa : ∀ i < A.n, c.xb i = some (s'.xa i))
      (hef : ∀ i < A.n, ∃ e, c.eb i = some e ∧ s'.ef i = s.ef i + e)
      (hmax : ∀ i < A.n, s'.maxabs i = max (s.maxabs i) |s'.xa i|)

theorem nextCall_size {A : ErrArgs} (hA : A.Valid) {s : ErrState} (h1 : A.ti ≤ s.ta)
    (h2 : s.ta < A.tf) : SizeOk A (nextCall A s) := by
  have hb := request_bounds hA s.scur
  have hp := hA.smin_pos
  have e1 : (nextCall A s).ta = s.ta := rfl
  have e2 : (nextCall A s).tb = stepEnd A s.ta (request A s.scur).1 := rfl
  rcases stepEnd_cases (A := A) s.ta (request A s.scur).1 with ⟨h3, h4⟩ | ⟨h3, h4⟩
  · refine ⟨h1, ?_, ?_, Or.inl ?_, ?_, Or.inl ?_⟩ <;> simp only [e1, e2, h4] <;> linarith
  · refine ⟨h1, ?_, ?_, Or.inr ⟨?_, ?_⟩, ?_, Or.inr ?_⟩ <;> simp only [e1, e2, h4] <;> linarith

theorem errBody_step {A : ErrArgs} (hA : A.Valid) {s : ErrState} (h1 : A.ti ≤ s.ta)
    (h2 : s.ta < A.tf) : ErrStep A s (errBody A s) := by
  have hp := hA.smin_pos
  have hm1 : (0 : ℝ) < ((A.method.order - 1 : ℕ) : ℝ) := by
    have := hA.order
    exact_mod_cast Nat.sub_pos_of_lt this
  have hT : 0 < A.tf - A.ti := by linarith
  have hsz := nextCall_size hA h1 h2
  unfold errBody
  dsimp only
  set tb := stepEnd A s.ta (request A s.scur).1 with htb
  set xb := (A.method.step s.calls s.ta tb s.xa).1 with hxb
  set eb := (A.method.step s.calls s.ta tb s.xa).2 with heb
  have hstep : 0 < tb - s.ta := sub_pos.2 hsz.pos
  have hok : (!(hasnan A.n xb || hasnan A.n eb)) = true ↔ (nextCall A s).Ok A.n := by
    simp only [Bool.not_eq_true', Bool.or_eq_false_iff, hasnan_iff]
    exact ⟨fun h i hi => ⟨h.1 i hi, h.2 i hi⟩, fun h => ⟨fun i hi => (h i hi).1, fun i hi => (h i hi).2⟩⟩
  have hsmall : (request A s.scur).2 = true → tb - s.ta ≤ A.smin * 3 / 2 := by
    intro hmin
    have := request_min hmin
    rcases stepEnd_cases (A := A) s.ta (request A s.scur).1 with ⟨h3, h4⟩ | ⟨h3, h4⟩
    · rw [htb, h4]; linarith
    · rw [htb, h4]; linarith
  have hbig : (request A s.scur).2 = false → A.smin < min s.scur A.smax ∧
      tb - s.ta ≤ min s.scur A.smax * 3 / 2 ∧ tb - s.ta ≤ s.scur * 3 / 2 ∧ A.smin < s.scur := by
    intro hmin
    obtain ⟨a1, a2, a3⟩ := request_not_min hmin
    rw [← a3]
    rcases stepEnd_cases (A := A) s.ta (request A s.scur).1 with ⟨h3, h4⟩ | ⟨h3, h4⟩
    · rw [htb, h4]; refine ⟨a1, ?_, ?_, ?_⟩ <;> linarith
    · rw [htb, h4]; refine ⟨a1, ?_, ?_, ?_⟩ <;> linarith
  by_cases hO : (nextCall A s).Ok A.n
  · have hO' := hok.2 hO
    simp only [hO', Bool.not_true, Bool.false_and, Bool.false_eq_true, if_false, Bool.true_and]
    set L := lambdaOf A s.scur (tb - s.ta) xb eb with hL
    obtain ⟨l1, l2⟩ := lambdaOf_spec A s.scur (tb - s.ta) xb eb
    rw [← hL] at l1 l2
    by_cases hg : (decide (1 ≤ L) || decide (tb - s.ta ≤ A.smin * 3 / 2)) = true
    · simp only [hg, if_true]
      -- accepted
      let s1 : ErrState := ⟨s.ta, s.xa, s.scur, s.ef, s.maxabs, s.nstep + 1, s.failed,
        s.calls ++ [⟨s.ta, tb, s.xa, xb, eb, true⟩]⟩
      change ErrStep A s (if ¬ (accept A s1 tb xb eb).ta = A.tf then
        { accept A s1 tb xb eb with scur := L * (tb - s.ta) / 2 } else accept A s1 tb xb eb)
      have hf := accept_fields A s1 tb xb eb
      obtain ⟨f1, f2, f3, f4, f5, f6, f7, f8⟩ := hf
      have key : ∀ s' : ErrState, s'.ta = (accept A s1 tb xb eb).ta →
          s'.nstep = (accept A s1 tb xb eb).nstep → s'.failed = (accept A s1 tb xb eb).failed →
          s'.calls = (accept A s1 tb xb eb).calls → s'.xa = (accept A s1 tb xb eb).xa →
          s'.ef = (accept A s1 tb xb eb).ef → s'.maxabs = (accept A s1 tb xb eb).maxabs →
          ErrStep A s s' := by
        intro s' g1 g2 g3 g4 g5 g6 g7
        have hxa : ∀ i < A.n, xb i = some (s'.xa i) := by
          intro i hi
          rw [g5, f6 i hi]
          have := (hO i hi).1
          exact some_getD' this
        refine ErrStep.accept { nextCall A s with acc := true } rfl
          ⟨hsz.1, hsz.2, hsz.3, hsz.4, hsz.5, hsz.6⟩ hO ?_ (g1.trans f1) (g2.trans f3)
          (g3.trans f4) (g4.trans f5) hxa ?_ ?_
        · by_cases hs : tb - s.ta ≤ A.smin * 3 / 2
          · exact Or.inl hs
          · right
            intro hnn i hi x e hx he
            have hx' : xb i = some x := hx
            have he' : eb i = some e := he
            have h1L : 1 ≤ L := by
              rcases Bool.or_eq_true_iff.1 hg with h | h
              · exact of_decide_eq_true h
              · exact absurd (of_decide_eq_true h) hs
            have e0 : 0 ≤ e := hnn i hi e he
            rw [abs_of_nonneg e0]
            have ha : 0 ≤ A.eabs i + A.erel * |x| :=
              add_nonneg (hA.eabs i hi) (mul_nonneg hA.erel (abs_nonneg x))
            show e ≤ (A.eabs i + A.erel * |x|) * (tb - s.ta) / (A.tf - A.ti)
            rcases eq_or_lt_of_le e0 with e1 | e1
            · rw [← e1]
              exact div_nonneg (mul_nonneg ha hstep.le) hT.le
            · have hr0 : 0 ≤ (A.eabs i + A.erel * |x|) / e * (tb - s.ta) / (A.tf - A.ti) :=
                div_nonneg (mul_nonneg (div_nonneg ha e0) hstep.le) hT.le
              obtain ⟨ρ, hρ⟩ := root_some (m1 := ((A.method.order - 1 : ℕ) : ℝ)) hr0
              have h3 := root_ge_one hm1 hρ (h1L.trans (l1 i hi x e ρ hx' he' e1.ne' hρ))
              rw [le_div_iff₀ hT] at h3 ⊢
              have h4 := mul_le_mul_of_nonneg_left h3 e0
              have h5 : e * ((A.eabs i + A.erel * |x|) / e * (tb - s.ta))
                  = (A.eabs i + A.erel * |x|) * (tb - s.ta) := by
                field_simp
              rw [h5] at h4
              linarith
        · intro i hi
          have := (hO i hi).2
          refine ⟨(eb i).getD 0, some_getD' this, ?_⟩
          rw [g6, f7 i hi]
        · intro i hi
          rw [g7, f8 i hi, g5, f6 i hi]
      by_cases hend : (accept A s1 tb xb eb).ta = A.tf
      · exact key _ (by rw [if_neg (by simpa using hend)]) (by rw [if_neg (by simpa using hend)])
          (by rw [if_neg (by simpa using hend)]) (by rw [if_neg (by simpa using hend)])
          (by rw [if_neg (by simpa using hend)]) (by rw [if_neg (by simpa using hend)])
          (by rw [if_neg (by simpa using hend)])
      · exact key _ (by rw [if_pos hend]) (by rw [if_pos hend])
          (by rw [if_pos hend]) (by rw [if_pos hend])
          (by rw [if_pos hend]) (by rw [if_pos hend])
          (by rw [if_pos hend])
    · have hg' : (decide (1 ≤ L) || decide (tb - s.ta ≤ A.smin * 3 / 2)) = false := by
        simpa using hg
      simp only [hg', Bool.false_eq_true, if_false]
      rw [if_pos (by exact h2.ne)]
      rw [Bool.or_eq_false_iff] at hg'
      have hL1 : L < 1 := not_le.1 (of_decide_eq_false hg'.1)
      have hbs : A.smin * 3 / 2 < tb - s.ta := not_le.1 (of_decide_eq_false hg'.2)
      have hmin : (request A s.scur).2 = false := by
        cases hq : (request A s.scur).2 with
        | false => rfl
        | true => exact absurd (hsmall hq) (not_le.2 hbs)
      obtain ⟨b1, b2, b3, b4⟩ := hbig hmin
      refine ErrStep.reject (nextCall A s) rfl hsz (Or.inr ⟨hO, hbs, ?_⟩) b1 (L * (tb - s.ta) / 2)
        ?_ b2 rfl
      · intro hW
        rcases l2 with h | ⟨i, hi, x, e, hx, he, hne, hr⟩
        · have : (1 : ℝ) ≤ L := by
            rw [h, le_div_iff₀ hstep]
            linarith
          linarith
        · obtain ⟨r0, r1⟩ := root_lt_one hm1 hr hL1
          have hw := hW i hi x e hx he
          have ha : 0 ≤ A.eabs i + A.erel * |x| :=
            add_nonneg (hA.eabs i hi) (mul_nonneg hA.erel (abs_nonneg x))
          have hw' : |e| ≤ (A.eabs i + A.erel * |x|) * (tb - s.ta) / (A.tf - A.ti) := hw
          have hepos : 0 < |e| := abs_pos.2 hne
          have hv : 0 < (A.eabs i + A.erel * |x|) * (tb - s.ta) / (A.tf - A.ti) :=
            lt_of_lt_of_le hepos hw'
          have ha' : 0 < A.eabs i + A.erel * |x| := by
            rcases eq_or_lt_of_le ha with h | h
            · rw [← h] at hv; simp at hv
            · exact h
          have hepos' : 0 < e := by
            rcases lt_or_gt_of_ne hne with h | h
            · have : (A.eabs i + A.erel * |x|) / e * (tb - s.ta) / (A.tf - A.ti) < 0 :=
                div_neg_of_neg_of_pos (mul_neg_of_neg_of_pos (div_neg_of_pos_of_neg ha' h) hstep) hT
              linarith
            · exact h
          rw [abs_of_pos hepos', le_div_iff₀ hT] at hw'
          rw [div_lt_one hT] at r1
          have h5 : e * ((A.eabs i + A.erel * |x|) / e * (tb - s.ta))
              = (A.eabs i + A.erel * |x|) * (tb - s.ta) := by
            field_simp
          have h6 := mul_lt_mul_of_pos_left r1 hepos'
          rw [h5] at h6
          linarith
      · show L * (tb - s.ta) / 2 ≤ (tb - s.ta) / 2
        have := mul_le_mul_of_nonneg_right hL1.le hstep.le
        linarith
  · have hO' : (!(hasnan A.n xb || hasnan A.n eb)) = false := by
      rw [← Bool.not_eq_true, hok]; exact hO
    simp only [hO', Bool.not_false, Bool.true_and, Bool.false_and, Bool.false_eq_true, if_false,
      if_true]
    cases hq : (request A s.scur).2 with
    | true =>
      simp only [if_true]
      exact ErrStep.fail (nextCall A s) rfl hsz hO (hsmall hq) rfl
    | false =>
      simp only [Bool.false_eq_true, if_false]
      obtain ⟨b1, b2, b3, b4⟩ := hbig hq
      exact ErrStep.reject (nextCall A s) rfl hsz (Or.inl hO) b1 ((tb - s.ta) / 2) le_rfl b2 rfl

end CppAD.Ode
