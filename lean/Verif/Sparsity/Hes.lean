import Verif.Sparsity.Jac

/-!
# Hessian sparsity patterns are conservative
-/

open scoped ContDiff Topology

namespace CppAD.Sparsity

/-- *Specification*: `v` is the derivative in direction `d` of the derivative in direction `e` of `g` at `x` -/
def IsMixed (g : (ℕ → ℝ) → ℝ) (x d e : ℕ → ℝ) (v : ℝ) : Prop :=
  ∃ dg : ℝ → ℝ, (∀ᶠ ε in 𝓝 (0 : ℝ), HasDerivAt (fun t => g (fun k => x k + ε * d k + t * e k)) (dg ε) 0) ∧
    HasDerivAt dg v 0

theorem isMixed_m12 {g : (ℕ → ℝ) → ℝ} {x d e : ℕ → ℝ} {v : ℝ}
    (hG : ContDiffAt ℝ ∞ (fun p : ℝ × ℝ => g (fun k => x k + p.1 * d k + p.2 * e k)) 0) (h : IsMixed g x d e v) :
    v = m12 (fun p : ℝ × ℝ => g (fun k => x k + p.1 * d k + p.2 * e k)) := by
  obtain ⟨dg, h1, h2⟩ := h
  have hT' : ContDiffAt ℝ ∞ (Dt (fun p : ℝ × ℝ => g (fun k => x k + p.1 * d k + p.2 * e k))) 0 := smooth_dir hG _
  have h3 := hasDeriv_e (p := (0, 0)) (hT'.differentiableAt (by simp))
  refine HasDerivAt.unique h2 (HasDerivAt.congr_of_eventuallyEq h3 ?_)
  filter_upwards [h1, ev_line (ev_diff hG) (γ := fun t => (t, 0)) (by fun_prop) rfl] with ε hε hd
  exact hε.unique (hasDeriv_t (p := (ε, 0)) hd)

/-- second partial derivatives are a special case -/
theorem isMixed_of_partial2 {g : (ℕ → ℝ) → ℝ} {x : ℕ → ℝ} {k j : ℕ} {v : ℝ} (h : IsPartial2 g x k j v) :
    IsMixed g x (un k) (un j) v := by
  obtain ⟨dg, h1, h2⟩ := h
  refine ⟨fun ε => dg (Function.update x k (x k + ε)), ?_, ?_⟩
  · filter_upwards [h1] with ε hε
    unfold IsPartial at hε
    simp only [upd_un] at hε ⊢
    exact hε
  · exact h2

theorem eval_smooth2' {T : Tape} (hT : T.WF) {x : ℕ → ℝ} (hD : T.Dom x) (d e : ℕ → ℝ) :
    ∀ v < T.numVar, ContDiffAt ℝ ∞ (fun p : ℝ × ℝ => evalOps T.ops (T.n + 1) (indEnv fun k => x k + p.1 * d k + p.2 * e k) v) 0 := by
  refine evalOps_smooth (0 : ℝ × ℝ) T.ops (T.n + 1) T.ind (fun p => indEnv fun k => x k + p.1 * d k + p.2 * e k) ind_lt hT.ops ?_ ?_
  · intro v _
    unfold indEnv
    by_cases h : v = 0
    · simp only [h, if_true]; exact contDiffAt_const
    · simp only [h, if_false]
      exact ((contDiffAt_const.add (contDiffAt_fst.mul contDiffAt_const)).add (contDiffAt_snd.mul contDiffAt_const))
  · have : (indEnv fun k => x k + (0 : ℝ × ℝ).1 * d k + (0 : ℝ × ℝ).2 * e k) = indEnv x := by
      congr 1; funext k; simp
    rw [this]; exact hD

theorem dep_lt {T : Tape} (hT : T.WF) {i : ℕ} (hi : i < T.dep.length) : T.dep.getD i 0 < T.numVar :=
  usable_lt T.ops (T.n + 1) T.ind ind_lt _ (dep_usable hT hi)

/-- The analysis common to both methods: `A` is a set of variables that contains the selected dependent
variables, such that second order terms vanish for the operators with result in `A`. -/
theorem hes_closed {T : Tape} (hT : T.WF) {x : ℕ → ℝ} (hD : T.Dom x) (d e : ℕ → ℝ) (A : Set ℕ)
    (h : AllOps (fun op r iz => iz ∈ A → (∀ a ∈ jacSet op r, a ∈ A) ∧ ∀ q ∈ hesSet op r,
      De (fun p : ℝ × ℝ => evalOps T.ops (T.n + 1) (indEnv fun k => x k + p.1 * d k + p.2 * e k) q.1) 0 *
      Dt (fun p : ℝ × ℝ => evalOps T.ops (T.n + 1) (indEnv fun k => x k + p.1 * d k + p.2 * e k) q.2) 0 = 0) T.ops (T.n + 1))
    (w : List ℝ) (hw : ∀ k < T.dep.length, at' w k ≠ 0 → T.dep.getD k 0 ∈ A) (v : ℝ) (hv : IsMixed (wsum T w) x d e v) :
    v = 0 := by
  have hsm := eval_smooth2' hT hD d e
  rw [isMixed_m12 (wsum_smooth2 hT hD w d e) hv]
  have hind : ∀ u < T.n + 1, ContDiffAt ℝ ∞ (fun p : ℝ × ℝ => indEnv (fun k => x k + p.1 * d k + p.2 * e k) u) 0 := by
    intro u hu
    have := hsm u (lt_of_lt_of_le hu (le_numVar _ _))
    simpa only [evalOps_lt _ _ _ _ hu] using this
  have key := closed_m12 A T.ops (T.n + 1) T.ind (fun p => indEnv fun k => x k + p.1 * d k + p.2 * e k) ind_lt hT.ops hind
    (by
      have : (indEnv fun k => x k + (0 : ℝ × ℝ).1 * d k + (0 : ℝ × ℝ).2 * e k) = indEnv x := by
        congr 1; funext k; simp
      rw [this]; exact hD) h
    (by
      intro u hu _
      have h1 := hu.1
      unfold indEnv
      simp only [show u ≠ 0 by omega, if_false]
      have a1 : ContDiffAt ℝ ∞ (fun p : ℝ × ℝ => p.1) 0 := contDiffAt_fst
      have a2 : ContDiffAt ℝ ∞ (fun p : ℝ × ℝ => p.2) 0 := contDiffAt_snd
      have b1 : m12 (fun p : ℝ × ℝ => p.1) = 0 := by
        have : Dt (fun p : ℝ × ℝ => p.1) = fun _ => 0 := by
          funext p
          show fderiv ℝ Prod.fst p (0, 1) = 0
          rw [fderiv_fst]; rfl
        unfold m12; rw [this]; simp [De]
      have b2 : m12 (fun p : ℝ × ℝ => p.2) = 0 := by
        have : Dt (fun p : ℝ × ℝ => p.2) = fun _ => 1 := by
          funext p
          show fderiv ℝ Prod.snd p (0, 1) = 1
          rw [fderiv_snd]; rfl
        unfold m12; rw [this]; simp [De]
      have c1 := m12_cmul_zero (d (u - 1)) a1 b1
      have c2 := m12_cmul_zero (e (u - 1)) a2 b2
      have := m12_add_zero (contDiffAt_const.add (contDiffAt_const.mul a1)) (contDiffAt_const.mul a2)
        (m12_add_zero contDiffAt_const (contDiffAt_const.mul a1) (m12_const (x (u - 1))) c1) c2
      rw [← this]
      congr 1; funext p; ring)
  unfold wsum
  have gen : ∀ s : Finset ℕ, (∀ i ∈ s, i < T.dep.length) →
      m12 (fun p : ℝ × ℝ => ∑ i ∈ s, at' w i * T.eval (fun k => x k + p.1 * d k + p.2 * e k) i) = 0 := by
    classical
    intro s
    induction s using Finset.induction_on with
    | empty => intro _; simp only [Finset.sum_empty]; exact m12_const 0
    | insert a s ha ih =>
      intro hs
      simp only [Finset.sum_insert ha]
      have e1 : ∀ i ∈ insert a s, ContDiffAt ℝ ∞ (fun p : ℝ × ℝ => T.eval (fun k => x k + p.1 * d k + p.2 * e k) i) 0 :=
        fun i hi => hsm _ (dep_lt hT (hs i hi))
      refine m12_add_zero (contDiffAt_const.mul (e1 a (by simp))) (ContDiffAt.sum fun i hi => contDiffAt_const.mul (e1 i (by simp [hi]))) ?_
        (ih fun i hi => hs i (by simp [hi]))
      by_cases h0 : at' w a = 0
      · simp only [h0, zero_mul]; exact m12_const 0
      · exact m12_cmul_zero _ (e1 a (by simp)) (key _ (dep_usable hT (hs a (by simp))) (hw a (hs a (by simp)) h0))
  exact gen _ fun i hi => Finset.mem_range.1 hi

/-- first derivatives of the two parameter family -/
theorem two_deriv {T : Tape} (hT : T.WF) {x : ℕ → ℝ} (hD : T.Dom x) (d e : ℕ → ℝ) (u : ℕ) (hu : u < T.numVar) :
    HasDerivAt (fun t : ℝ => evalOps T.ops (T.n + 1) (indEnv fun k => x k + t * d k) u)
      (De (fun p : ℝ × ℝ => evalOps T.ops (T.n + 1) (indEnv fun k => x k + p.1 * d k + p.2 * e k) u) 0) 0 ∧
    HasDerivAt (fun t : ℝ => evalOps T.ops (T.n + 1) (indEnv fun k => x k + t * e k) u)
      (Dt (fun p : ℝ × ℝ => evalOps T.ops (T.n + 1) (indEnv fun k => x k + p.1 * d k + p.2 * e k) u) 0) 0 := by
  have hG := (eval_smooth2' hT hD d e u hu).differentiableAt (by simp)
  have h1 := hasDeriv_e (p := (0, 0)) hG
  have h2 := hasDeriv_t (p := (0, 0)) hG
  rw [show (0 : ℝ × ℝ) = (0, 0) from rfl]
  constructor
  · simpa using h1
  · simpa using h2

/-! ## reverse -/

/-- effect of one operator of a reverse Hessian sweep -/
def RHSpec (J : Sp) (op : Op) (iz : ℕ) (s s' : RH) : Prop :=
  (∀ v, s.1 v = true → s'.1 v = true) ∧ (∀ v, s.2 v ⊆ s'.2 v) ∧ (∀ v, v ∉ op.args → s'.1 v = s.1 v ∧ s'.2 v = s.2 v) ∧
  (s.1 iz = true → (∀ a ∈ jacArgs op, s'.1 a = true ∧ s.2 iz ⊆ s'.2 a) ∧ ∀ q ∈ hesPairs op, J q.2 ⊆ s'.2 q.1)

theorem bu_apply (s : Sp) (t l r v : ℕ) (o : Sp) : s.binaryUnion t l r o v = if v = t then s l ∪ o r else s v := by
  unfold Sp.binaryUnion
  by_cases h : v = t
  · subst h; rw [Function.update_self, if_pos rfl]
  · rw [Function.update_of_ne h, if_neg h]

theorem oneVarRevHes_spec (iz iv : ℕ) (hv : iv ≠ iz) (lin : Bool) (J : Sp) (s : RH) :
    let s' := oneVarRevHes iz iv lin J s
    (∀ v, s.1 v = true → s'.1 v = true) ∧ (∀ v, s.2 v ⊆ s'.2 v) ∧ (∀ v, v ≠ iv → s'.1 v = s.1 v ∧ s'.2 v = s.2 v) ∧
    (s.1 iz = true → s'.1 iv = true ∧ s.2 iz ⊆ s'.2 iv ∧ (lin = false → J iv ⊆ s'.2 iv)) := by
  intro s'
  have hs' : s' = oneVarRevHes iz iv lin J s := rfl
  clear_value s'
  unfold oneVarRevHes at hs'
  cases h : s.1 iz with
  | false =>
    rw [h] at hs'
    simp only [Bool.not_false, if_true] at hs'
    subst hs'
    exact ⟨fun _ h => h, fun _ _ h => h, fun _ _ => ⟨rfl, rfl⟩, fun h => (by cases h)⟩
  | true =>
    rw [h] at hs'
    simp only [Bool.not_true, Bool.false_eq_true, if_false] at hs'
    subst hs'
    refine ⟨?_, ?_, ?_, ?_⟩
    · intro v hv; dsimp only; rw [Function.update_apply]; split_ifs
      · rfl
      · exact hv
    · intro v a ha
      cases lin <;> simp only [Bool.not_false, Bool.not_true, Bool.false_eq_true, if_true, if_false, bu_apply]
      all_goals split_ifs with h1
      all_goals (try subst h1)
      all_goals simp [ha]
    · intro v hv
      refine ⟨Function.update_of_ne hv _ _, ?_⟩
      cases lin <;> simp [bu_apply, hv]
    · intro _
      refine ⟨Function.update_self .., ?_, ?_⟩
      · intro a ha
        cases lin <;> simp [bu_apply, ha]
      · rintro rfl a ha
        simp [bu_apply, ha]

theorem twoVarRevHes_spec (iz ix iy : ℕ) (hx : ix ≠ iz) (hy : iy ≠ iz) (lx ly lxy : Bool) (J : Sp) (s : RH) :
    let s' := twoVarRevHes iz ix iy lx ly lxy J s
    (∀ v, s.1 v = true → s'.1 v = true) ∧ (∀ v, s.2 v ⊆ s'.2 v) ∧ (∀ v, v ≠ ix → v ≠ iy → s'.1 v = s.1 v ∧ s'.2 v = s.2 v) ∧
    (s.1 iz = true → s'.1 ix = true ∧ s'.1 iy = true ∧ s.2 iz ⊆ s'.2 ix ∧ s.2 iz ⊆ s'.2 iy ∧ (lx = false → J ix ⊆ s'.2 ix) ∧
      (ly = false → J iy ⊆ s'.2 iy) ∧ (lxy = false → J iy ⊆ s'.2 ix ∧ J ix ⊆ s'.2 iy)) := by
  intro s'
  have hs' : s' = twoVarRevHes iz ix iy lx ly lxy J s := rfl
  clear_value s'
  unfold twoVarRevHes at hs'
  cases h : s.1 iz with
  | false =>
    rw [h] at hs'
    simp only [Bool.not_false, if_true] at hs'
    subst hs'
    exact ⟨fun _ h => h, fun _ _ h => h, fun _ _ _ => ⟨rfl, rfl⟩, fun h => (by cases h)⟩
  | true =>
    rw [h] at hs'
    simp only [Bool.not_true, Bool.false_eq_true, if_false] at hs'
    subst hs'
    refine ⟨?_, ?_, ?_, ?_⟩
    · intro v hv; dsimp only; simp only [Function.update_apply]; split_ifs
      · rfl
      · rfl
      · exact hv
    · intro v a ha
      by_cases h1 : v = ix
      · subst h1
        by_cases h2 : v = iy
        · subst h2
          cases lx <;> cases ly <;> cases lxy <;> simp [bu_apply, ha]
        · cases lx <;> cases ly <;> cases lxy <;> simp [bu_apply, ha, h2]
      · by_cases h2 : v = iy
        · subst h2
          cases lx <;> cases ly <;> cases lxy <;> simp [bu_apply, ha, h1]
        · cases lx <;> cases ly <;> cases lxy <;> simp [bu_apply, ha, h1, h2]
    · intro v h1 h2
      refine ⟨by simp [Function.update_apply, h1, h2], ?_⟩
      cases lx <;> cases ly <;> cases lxy <;> simp [bu_apply, h1, h2]
    · intro _
      refine ⟨by simp [Function.update_apply], by simp [Function.update_apply], ?_, ?_, ?_, ?_, ?_⟩
      · intro a ha
        by_cases h2 : ix = iy
        · subst h2
          cases lx <;> cases ly <;> cases lxy <;> simp [bu_apply, ha]
        · cases lx <;> cases ly <;> cases lxy <;> simp [bu_apply, ha, h2]
      · intro a ha
        have hx' := Ne.symm hx
        by_cases h2 : iy = ix
        · subst h2
          cases lx <;> cases ly <;> cases lxy <;> simp [bu_apply, ha]
        · cases lx <;> cases ly <;> cases lxy <;> simp [bu_apply, ha, hx', h2]
      · rintro rfl a ha
        by_cases h2 : ix = iy
        · subst h2
          cases ly <;> cases lxy <;> simp [bu_apply, ha]
        · cases ly <;> cases lxy <;> simp [bu_apply, ha, h2]
      · rintro rfl a ha
        by_cases h2 : iy = ix
        · subst h2
          cases lx <;> cases lxy <;> simp [bu_apply, ha]
        · cases lx <;> cases lxy <;> simp [bu_apply, ha, h2]
      · rintro rfl
        constructor
        · intro a ha
          by_cases h2 : ix = iy
          · subst h2
            cases lx <;> cases ly <;> simp [bu_apply, ha]
          · cases lx <;> cases ly <;> simp [bu_apply, ha, h2]
        · intro a ha
          by_cases h2 : iy = ix
          · subst h2
            cases lx <;> cases ly <;> simp [bu_apply, ha]
          · cases lx <;> cases ly <;> simp [bu_apply, ha, h2]

theorem csumRevHes_spec (iz : ℕ) (vars : List ℕ) (hv : iz ∉ vars) (s : RH) :
    (∀ v, s.1 v = true → (csumRevHes iz vars s).1 v = true) ∧ (∀ v, s.2 v ⊆ (csumRevHes iz vars s).2 v) ∧
    (∀ v, v ∉ vars → (csumRevHes iz vars s).1 v = s.1 v ∧ (csumRevHes iz vars s).2 v = s.2 v) ∧
    (s.1 iz = true → ∀ a ∈ vars, (csumRevHes iz vars s).1 a = true ∧ s.2 iz ⊆ (csumRevHes iz vars s).2 a) := by
  unfold csumRevHes
  induction vars generalizing s with
  | nil => exact ⟨fun _ h => h, fun _ _ h => h, fun _ _ => ⟨rfl, rfl⟩, by simp⟩
  | cons b vars ih =>
    simp only [List.mem_cons, not_or] at hv
    obtain ⟨h1, h2, h3, h4⟩ := ih hv.2 (linArgRevHes iz b s)
    have e1 : ∀ v, v ≠ b → (linArgRevHes iz b s).1 v = s.1 v ∧ (linArgRevHes iz b s).2 v = s.2 v := by
      intro v h
      exact ⟨Function.update_of_ne h _ _, by simp [linArgRevHes, bu_apply, h]⟩
    have e2 : (linArgRevHes iz b s).1 b = (s.1 b || s.1 iz) ∧ (linArgRevHes iz b s).2 b = s.2 b ∪ s.2 iz :=
      ⟨Function.update_self .., by simp [linArgRevHes, bu_apply]⟩
    have m1 : ∀ v, s.1 v = true → (linArgRevHes iz b s).1 v = true := by
      intro v h
      by_cases hb : v = b
      · subst hb; rw [e2.1, h]; rfl
      · rw [(e1 v hb).1, h]
    have m2 : ∀ v, s.2 v ⊆ (linArgRevHes iz b s).2 v := by
      intro v
      by_cases hb : v = b
      · subst hb; rw [e2.2]; exact Finset.subset_union_left
      · rw [(e1 v hb).2]
    refine ⟨fun v h => h1 v (m1 v h), fun v => subset_trans (m2 v) (h2 v), fun v hv' => ?_, fun hz a ha => ?_⟩
    · simp only [List.mem_cons, not_or] at hv'
      exact ⟨(h3 v hv'.2).1.trans (e1 v hv'.1).1, (h3 v hv'.2).2.trans (e1 v hv'.1).2⟩
    · rcases List.mem_cons.1 ha with rfl | ha
      · refine ⟨h1 _ (by rw [e2.1, hz, Bool.or_true]), subset_trans ?_ (h2 a)⟩
        rw [e2.2]; exact Finset.subset_union_right
      · have := h4 (by rw [(e1 iz hv.1).1, hz]) a ha
        rw [(e1 iz hv.1).2] at this
        exact this

theorem cexpRevHes_eq (iz : ℕ) (t f : Opd) (s : RH) : cexpRevHes iz t f s = csumRevHes iz (t.vars ++ f.vars) s := by
  unfold cexpRevHes csumRevHes
  rw [List.foldl_append]
  cases t <;> cases f <;> rfl

theorem revHesOp_elem (J : Sp) (op : Op) (hna : ∀ c, op ≠ .atom c) (iz : ℕ) (s : RH) (hz : ∀ a ∈ op.args, a ≠ iz) :
    RHSpec J op iz s (revHesOp J op iz s) := by
  have h1 : ∀ (op : Op) ix, op.args = [ix] → jacArgs op = [ix] → ix ≠ iz → (hesPairs op = [] ∨ hesPairs op = [(ix, ix)]) →
      ∀ lin, (hesPairs op = [(ix, ix)] → lin = false) → RHSpec J op iz s (oneVarRevHes iz ix lin J s) := by
    intro op ix ha hj hne hh lin hl
    obtain ⟨a1, a2, a3, a4⟩ := oneVarRevHes_spec iz ix hne lin J s
    refine ⟨a1, a2, fun v hv => a3 v (fun h => hv (by rw [ha, h]; simp)), fun hr => ?_⟩
    obtain ⟨b1, b2, b3⟩ := a4 hr
    refine ⟨fun a h => ?_, fun q hq => ?_⟩
    · rw [hj, List.mem_singleton] at h; subst h; exact ⟨b1, b2⟩
    · rcases hh with hh | hh
      · rw [hh] at hq; simp at hq
      · rw [hh, List.mem_singleton] at hq; subst hq
        exact b3 (hl hh)
  have h2 : ∀ (op : Op) ix iy, op.args = [ix, iy] → jacArgs op = [ix, iy] → ix ≠ iz → iy ≠ iz →
      ∀ lx ly lxy, (∀ q ∈ hesPairs op, (q = (ix, ix) ∧ lx = false) ∨ (q = (iy, iy) ∧ ly = false) ∨
        ((q = (ix, iy) ∨ q = (iy, ix)) ∧ lxy = false)) → RHSpec J op iz s (twoVarRevHes iz ix iy lx ly lxy J s) := by
    intro op ix iy ha hj hx hy lx ly lxy hl
    obtain ⟨a1, a2, a3, a4⟩ := twoVarRevHes_spec iz ix iy hx hy lx ly lxy J s
    refine ⟨a1, a2, fun v hv => a3 v (fun h => hv (by rw [ha, h]; simp)) (fun h => hv (by rw [ha, h]; simp)), fun hr => ?_⟩
    obtain ⟨b1, b2, b3, b4, b5, b6, b7⟩ := a4 hr
    refine ⟨fun a h => ?_, fun q hq => ?_⟩
    · rw [hj] at h
      simp only [List.mem_cons, List.not_mem_nil, or_false] at h
      rcases h with rfl | rfl
      · exact ⟨b1, b3⟩
      · exact ⟨b2, b4⟩
    · rcases hl q hq with ⟨rfl, h⟩ | ⟨rfl, h⟩ | ⟨rfl | rfl, h⟩
      · exact b5 h
      · exact b6 h
      · exact (b7 h).1
      · exact (b7 h).2
  have h0 : ∀ (op : Op), jacArgs op = [] → hesPairs op = [] → RHSpec J op iz s s := by
    intro op hj hh
    refine ⟨fun _ h => h, fun _ _ h => h, fun _ _ => ⟨rfl, rfl⟩, fun _ => ⟨?_, ?_⟩⟩
    · rw [hj]; simp
    · rw [hh]; simp
  cases op with
  | cexp c l r t f =>
    have hne : iz ∉ t.vars ++ f.vars := fun h => hz iz (by
      simp only [Op.args, cexpArgs, List.mem_append] at h ⊢; tauto) rfl
    obtain ⟨a1, a2, a3, a4⟩ := csumRevHes_spec iz (t.vars ++ f.vars) hne s
    simp only [revHesOp, cexpRevHes_eq]
    refine ⟨a1, a2, fun v hv => a3 v fun h => hv (by
      simp only [Op.args, cexpArgs, List.mem_append] at h ⊢; tauto), fun hr => ⟨a4 hr, by simp [hesPairs]⟩⟩
  | csum c addv subv addp subp =>
    obtain ⟨a1, a2, a3, a4⟩ := csumRevHes_spec iz (addv ++ subv) (fun h => hz iz h rfl) s
    exact ⟨a1, a2, a3, fun hr => ⟨a4 hr, by simp [hesPairs]⟩⟩
  | dis fn ix => exact h0 _ rfl rfl
  | sign ix => exact h0 _ rfl rfl
  | par c => exact h0 _ rfl rfl
  | atom c => exact absurd rfl (hna c)
  | addvv ix iy => exact h2 _ ix iy rfl rfl (hz ix (by simp [Op.args])) (hz iy (by simp [Op.args])) _ _ _ (by simp [hesPairs])
  | subvv ix iy => exact h2 _ ix iy rfl rfl (hz ix (by simp [Op.args])) (hz iy (by simp [Op.args])) _ _ _ (by simp [hesPairs])
  | mulvv ix iy => exact h2 _ ix iy rfl rfl (hz ix (by simp [Op.args])) (hz iy (by simp [Op.args])) _ _ _ (by simp [hesPairs])
  | zmulvv ix iy => exact h2 _ ix iy rfl rfl (hz ix (by simp [Op.args])) (hz iy (by simp [Op.args])) _ _ _ (by simp [hesPairs])
  | divvv ix iy => exact h2 _ ix iy rfl rfl (hz ix (by simp [Op.args])) (hz iy (by simp [Op.args])) _ _ _ (by simp [hesPairs])
  | powvv ix iy => exact h2 _ ix iy rfl rfl (hz ix (by simp [Op.args])) (hz iy (by simp [Op.args])) _ _ _ (by simp [hesPairs])
  | _ => exact h1 _ _ rfl rfl (hz _ (by simp [Op.args])) (by simp [hesPairs]) _ (by simp [hesPairs])

theorem unionFold_spec {α : Type} (tgt src : α → ℕ) (l : List α) (o : Sp → Sp) (ho : ∀ s s' : Sp, (∀ v, s v ⊆ s' v) → ∀ v, o s v ⊆ o s' v)
    (s : Sp) :
    (∀ v, s v ⊆ l.foldl (fun h e => Sp.binaryUnion h (tgt e) (tgt e) (src e) (o h)) s v) ∧
    (∀ v, (∀ e ∈ l, tgt e ≠ v) → l.foldl (fun h e => Sp.binaryUnion h (tgt e) (tgt e) (src e) (o h)) s v = s v) ∧
    ∀ e ∈ l, o s (src e) ⊆ l.foldl (fun h e => Sp.binaryUnion h (tgt e) (tgt e) (src e) (o h)) s (tgt e) := by
  induction l generalizing s with
  | nil => exact ⟨fun _ _ h => h, fun _ _ => rfl, by simp⟩
  | cons b l ih =>
    obtain ⟨h1, h2, h3⟩ := ih (Sp.binaryUnion s (tgt b) (tgt b) (src b) (o s))
    have e0 : ∀ v, s v ⊆ Sp.binaryUnion s (tgt b) (tgt b) (src b) (o s) v := by
      intro v
      rw [bu_apply]
      split_ifs with h
      · rw [h]; exact Finset.subset_union_left
      · exact fun _ h => h
    refine ⟨fun v => subset_trans (e0 v) (h1 v), fun v hv => ?_, fun e he => ?_⟩
    · rw [List.foldl_cons, h2 v fun e he => hv e (by simp [he]), bu_apply, if_neg fun h => hv b (by simp) h.symm]
    · rcases List.mem_cons.1 he with rfl | he
      · refine subset_trans ?_ (h1 _)
        rw [bu_apply, if_pos rfl]
        exact Finset.subset_union_right
      · exact subset_trans (ho _ _ e0 _) (h3 e he)

theorem flagFold_spec {α : Type} (tgt : α → ℕ) (l : List α) (f : ℕ → Bool) :
    (∀ v, f v = true → l.foldl (fun f e => Function.update f (tgt e) true) f v = true) ∧
    (∀ v, (∀ e ∈ l, tgt e ≠ v) → l.foldl (fun f e => Function.update f (tgt e) true) f v = f v) ∧
    ∀ e ∈ l, l.foldl (fun f e => Function.update f (tgt e) true) f (tgt e) = true := by
  induction l generalizing f with
  | nil => exact ⟨fun _ h => h, fun _ _ => rfl, by simp⟩
  | cons b l ih =>
    obtain ⟨h1, h2, h3⟩ := ih (Function.update f (tgt b) true)
    refine ⟨fun v hv => h1 v ?_, fun v hv => ?_, fun e he => ?_⟩
    · rw [Function.update_apply]; split_ifs
      · rfl
      · exact hv
    · rw [List.foldl_cons, h2 v fun e he => hv e (by simp [he]), Function.update_of_ne fun h => hv b (by simp) h.symm]
    · rcases List.mem_cons.1 he with rfl | he
      · exact h1 _ (Function.update_self ..)
      · exact h3 e he

/-- the second fold of `atomRevHes` -/
theorem pairFold_spec (t1 t2 : ℕ × ℕ → ℕ) (J : Sp) (l : List (ℕ × ℕ)) (s : Sp) :
    let F := l.foldl (fun h e => Sp.binaryUnion (Sp.binaryUnion h (t1 e) (t1 e) (t2 e) J) (t2 e) (t2 e) (t1 e) J) s
    (∀ v, s v ⊆ F v) ∧ (∀ v, (∀ e ∈ l, t1 e ≠ v ∧ t2 e ≠ v) → F v = s v) ∧
    ∀ e ∈ l, J (t2 e) ⊆ F (t1 e) ∧ J (t1 e) ⊆ F (t2 e) := by
  intro F
  have hF : F = l.foldl (fun h e => Sp.binaryUnion (Sp.binaryUnion h (t1 e) (t1 e) (t2 e) J) (t2 e) (t2 e) (t1 e) J) s := rfl
  clear_value F
  subst hF
  induction l generalizing s with
  | nil => exact ⟨fun _ _ h => h, fun _ _ => rfl, by simp⟩
  | cons b l ih =>
    obtain ⟨h1, h2, h3⟩ := ih (Sp.binaryUnion (Sp.binaryUnion s (t1 b) (t1 b) (t2 b) J) (t2 b) (t2 b) (t1 b) J)
    have e0 : ∀ v, s v ⊆ Sp.binaryUnion (Sp.binaryUnion s (t1 b) (t1 b) (t2 b) J) (t2 b) (t2 b) (t1 b) J v := by
      intro v a ha
      simp only [bu_apply]
      by_cases x1 : v = t2 b <;> by_cases x2 : v = t1 b <;> by_cases x3 : t2 b = t1 b <;> simp_all
    refine ⟨fun v => subset_trans (e0 v) (h1 v), fun v hv => ?_, fun e he => ?_⟩
    · have hb := hv b (by simp)
      rw [List.foldl_cons, h2 v fun e he => hv e (by simp [he]), bu_apply, if_neg fun h => hb.2 h.symm, bu_apply, if_neg fun h => hb.1 h.symm]
    · rcases List.mem_cons.1 he with rfl | he
      · refine ⟨subset_trans ?_ (h1 _), subset_trans ?_ (h1 _)⟩
        · intro a ha
          simp only [bu_apply]
          by_cases x3 : t1 e = t2 e
          · simp [x3] at ha ⊢; simp [ha]
          · simp [x3, ha]
        · intro a ha
          simp only [bu_apply]
          simp [ha]
      · exact h3 e he

/-- effect of one operator of a reverse Hessian sweep, all results; arguments of an atomic function with an empty
forward Jacobian set are excluded -/
theorem revHesOp_spec (J : Sp) (op : Op) (nv : ℕ) (s : RH) (hz : ∀ a ∈ op.args, a < nv) (h0 : ∀ a ∈ op.args, a ≠ 0) :
    let s' := revHesOp J op (nv + op.nres - 1) s
    (∀ v, s.1 v = true → s'.1 v = true) ∧ (∀ v, s.2 v ⊆ s'.2 v) ∧
    (∀ v, v ∉ op.args → v ≠ 0 → s'.1 v = s.1 v ∧ s'.2 v = s.2 v) ∧
    ∀ r, op.naux ≤ r → r < op.nres → s.1 (nv + r) = true →
      (∀ a ∈ jacSet op r, (s'.1 a = true ∧ s.2 (nv + r) ⊆ s'.2 a) ∨ ((∃ c, op = .atom c) ∧ J a = ∅)) ∧
      ∀ q ∈ hesSet op r, J q.2 ⊆ s'.2 q.1 ∨ ((∃ c, op = .atom c) ∧ J q.1 = ∅) := by
  have hpos := op.nres_pos
  rcases atom_or op with ⟨c, rfl⟩ | hna
  · intro s'
    have hs' : s' = atomRevHes J c (nv + c.nres - 1) s := rfl
    clear_value s'
    unfold atomRevHes at hs'
    rw [nv_sub c] at hs'
    set sx : ℕ → Bool := fun j => decide (J (xIdx c j) ≠ ∅) with hsx
    set sy : ℕ → Bool := fun i => s.1 (yIdx c nv i) with hsy
    set jac := c.A.jac c.ident false sx sy with hjac
    set hes := c.A.hes c.ident sx sy with hhes
    dsimp only at hs'
    obtain ⟨a1, a2, a3⟩ := unionFold_spec (fun e : ℕ × ℕ => xIdx c e.2) (fun e => yIdx c nv e.1) jac id (fun _ _ h => h) s.2
    obtain ⟨b1, b2, b3⟩ := flagFold_spec (fun e : ℕ × ℕ => xIdx c e.2) jac s.1
    obtain ⟨d1, d2, d3⟩ := pairFold_spec (fun e : ℕ × ℕ => xIdx c e.1) (fun e => xIdx c e.2) J hes
      (jac.foldl (fun h e => Sp.binaryUnion h (xIdx c e.2) (xIdx c e.2) (yIdx c nv e.1) h) s.2)
    subst hs'
    refine ⟨b1, fun v => subset_trans (a1 v) (d1 v), fun v hv hv0 => ?_, fun r _ hr hf => ⟨fun a ha => ?_, fun q hq => ?_⟩⟩
    · have hx : ∀ j < c.A.n, xIdx c j ≠ v := fun j hj h => hv (by
        have : v ∈ c.args := h ▸ xIdx_args hj (h ▸ hv0)
        exact this)
      refine ⟨b2 v fun e he => hx _ (c.A.jac_sel _ _ _ _ e he).2.1, ?_⟩
      refine (d2 v fun e he => ⟨hx _ (c.A.hes_sel _ _ _ e he).1.1, hx _ (c.A.hes_sel _ _ _ e he).2.1⟩).trans ?_
      exact a2 v fun e he => hx _ (c.A.jac_sel _ _ _ _ e he).2.1
    · have hr : r < c.nres := hr
      have hy := yIdx_comp c hr nv
      by_cases hJ : J a = ∅
      · exact Or.inr ⟨⟨c, rfl⟩, hJ⟩
      · left
        obtain ⟨j, hj, hm⟩ := atom_jac hr false sx sy ha (by rw [hsy]; dsimp only; rw [hy]; exact hf)
          (fun j _ hj => by rw [hsx]; dsimp only; rw [xIdx_var hj]; exact decide_eq_true hJ)
        rw [← hjac] at hm
        have e1 := b3 _ hm
        have e2 := a3 _ hm
        dsimp only [id] at e1 e2
        rw [xIdx_var hj] at e1 e2
        rw [hy] at e2
        exact ⟨e1, subset_trans e2 (d1 a)⟩
    · have hr : r < c.nres := hr
      have hy := yIdx_comp c hr nv
      by_cases hJ : J q.1 = ∅
      · exact Or.inr ⟨⟨c, rfl⟩, hJ⟩
      · left
        by_cases hJ2 : J q.2 = ∅
        · rw [hJ2]; exact Finset.empty_subset _
        · obtain ⟨j, k, hj, hk, X, hX, hd, hne⟩ := hq
          have hyt : sy (c.comp r) = true := by rw [hsy]; dsimp only; rw [hy]; exact hf
          have hjt : sx j = true := by rw [hsx]; dsimp only; rw [xIdx_var hj]; exact decide_eq_true hJ
          have hkt : sx k = true := by rw [hsx]; dsimp only; rw [xIdx_var hk]; exact decide_eq_true hJ2
          by_cases m1 : ((j : ℕ), (k : ℕ)) ∈ hes
          · have := (d3 _ m1).1
            dsimp only at this
            rw [xIdx_var hj, xIdx_var hk] at this
            exact this
          · by_cases m2 : ((k : ℕ), (j : ℕ)) ∈ hes
            · have := (d3 _ m2).2
              dsimp only at this
              rw [xIdx_var hj, xIdx_var hk] at this
              exact this
            · exact absurd (c.A.hes_zero c.ident sx sy _ (c.comp_spec hr).1 hyt j k hjt hkt (c.ident_var hj) (c.ident_var hk)
                m1 m2 X hd fun l hl => hX.ident l hl) hne
  · obtain ⟨h1, h2, h3, h4⟩ := revHesOp_elem J op hna (nv + op.nres - 1) s (fun a ha => by have := hz a ha; omega)
    refine ⟨h1, h2, fun v hv _ => h3 v hv, fun r r1 r2 hf => ?_⟩
    rw [last_elem hna r1 r2, show nv + (op.nres - 1) = nv + op.nres - 1 by omega] at hf ⊢
    rw [jacSet_elem hna, hesSet_elem hna]
    obtain ⟨e1, e2⟩ := h4 hf
    exact ⟨fun a ha => Or.inl (e1 a ha), fun q hq => Or.inl (e2 q hq)⟩

theorem revHes_closed (J : Sp) (ops : List Op) : ∀ (nv : ℕ) (U : Set ℕ) (s : RH), 0 < nv → (∀ a ∈ U, a ≠ 0) →
    (∀ a ∈ U, a < nv) → WFOps ops nv U →
    (∀ v, s.1 v = true → (revHes J ops nv s).1 v = true) ∧
    AllOps (fun op r iz => (revHes J ops nv s).1 iz = true →
      (∀ a ∈ jacSet op r, ((revHes J ops nv s).1 a = true ∧ (revHes J ops nv s).2 iz ⊆ (revHes J ops nv s).2 a) ∨
        ((∃ c, op = .atom c) ∧ J a = ∅)) ∧
      ∀ q ∈ hesSet op r, J q.2 ⊆ (revHes J ops nv s).2 q.1 ∨ ((∃ c, op = .atom c) ∧ J q.1 = ∅)) ops nv := by
  induction ops with
  | nil => intro nv U s _ _ _ _; exact ⟨fun _ h => h, trivial⟩
  | cons op ops ih =>
    intro nv U s hnv h0 hU hw
    have hlt : ∀ a ∈ op.args, a < nv := fun a h => hU a (hw.1 a h)
    obtain ⟨i1, i2⟩ := ih (nv + op.nres) _ s (by omega) (addRes_ne hnv h0) (U_insert op hU) hw.2
    obtain ⟨h1, h2, h3, h4⟩ := revHesOp_spec J op nv (revHes J ops (nv + op.nres) s) hlt (fun a h => h0 a (hw.1 a h))
    have hsame : ∀ iz, nv ≤ iz → (revHes J (op :: ops) nv s).1 iz = (revHes J ops (nv + op.nres) s).1 iz ∧
        (revHes J (op :: ops) nv s).2 iz = (revHes J ops (nv + op.nres) s).2 iz :=
      fun iz hz => h3 iz (fun h => by have := hlt _ h; omega) (by omega)
    refine ⟨fun v h => h1 v (i1 v h), fun r r1 r2 hr => ?_, ?_⟩
    · rw [(hsame _ (by omega)).1] at hr
      rw [(hsame _ (by omega)).2]
      exact h4 r r1 r2 hr
    · refine AllOps.mono _ _ (fun o r iz hz _ _ h hr => ?_) i2
      rw [(hsame iz (by omega)).1] at hr
      rw [(hsame iz (by omega)).2]
      obtain ⟨a1, a2⟩ := h hr
      exact ⟨fun a ha => (a1 a ha).imp (fun e => ⟨h1 a e.1, subset_trans e.2 (h2 a)⟩) fun e => e,
        fun q hq => (a2 q hq).imp (fun e => subset_trans e (h2 _)) fun e => e⟩

theorem allOps_and {P Q : Op → ℕ → ℕ → Prop} (ops : List Op) : ∀ nv : ℕ, AllOps P ops nv → AllOps Q ops nv →
    AllOps (fun o r z => P o r z ∧ Q o r z) ops nv := by
  induction ops with
  | nil => intro _ _ _; trivial
  | cons op ops ih => intro nv h1 h2; exact ⟨fun r r1 r2 => ⟨h1.1 r r1 r2, h2.1 r r1 r2⟩, ih _ h1.2 h2.2⟩

theorem allOps_mem {P : Op → Prop} (ops : List Op) (h : ∀ op ∈ ops, P op) : ∀ nv : ℕ, AllOps (fun o _ _ => P o) ops nv := by
  induction ops with
  | nil => intro _; trivial
  | cons op ops ih => intro nv; exact ⟨fun _ _ _ => h op (by simp), ih (fun o ho => h o (by simp [ho])) _⟩

theorem allOps_args (ops : List Op) : ∀ (nv : ℕ) (U : Set ℕ), WFOps ops nv U →
    AllOps (fun op _ _ => ∀ a ∈ op.args, a ∈ usable ops nv U) ops nv := by
  induction ops with
  | nil => intro _ _ _; trivial
  | cons op ops ih =>
    intro nv U hw
    refine ⟨fun _ _ _ a ha => ?_, ih _ _ hw.2⟩
    have mono : ∀ (ops : List Op) (nv : ℕ) (U : Set ℕ), U ⊆ usable ops nv U := by
      intro ops
      induction ops with
      | nil => intro _ _ _ h; exact h
      | cons op ops ih => intro nv U a h; exact ih _ _ (Or.inr h)
    exact mono ops (nv + op.nres) _ (Or.inr (hw.1 a ha))

/-- the sets computed by the reverse Hessian sweep, for flags that are true at every dependent variable with
a weight that is not zero -/
theorem revHes_covers {T : Tape} (hT : T.WF) (ell : ℕ) (pat : Pattern) (transpose dependency : Bool)
    (R : ℕ → ℕ → ℝ) (hR : ∀ k < T.n, ∀ j < ell, R k j ≠ 0 → Has transpose pat k j)
    (rj : ℕ → Bool) (w : List ℝ) (hinit : ∀ k < T.dep.length, at' w k ≠ 0 → rj (T.dep.getD k 0) = true)
    (hatom : (∀ op ∈ T.ops, ∀ c, op ≠ .atom c) ∨ ∀ k < T.n, ∃ j, Has transpose pat k j)
    (x : ℕ → ℝ) (hD : T.Dom x) (i j : ℕ) (hj : j < ell) (v : ℝ)
    (hv : IsMixed (wsum T w) x (un i) (fun k => R k j) v) (hne : v ≠ 0) :
    j ∈ (revHes (forJacSparsity T ell pat transpose dependency).2 T.ops (T.n + 1) (rj, fun _ => ∅)).2 (i + 1) := by
  by_contra hno
  refine hne ?_
  clear hne
  set J := (forJacSparsity T ell pat transpose dependency).2 with hJ
  set S := revHes J T.ops (T.n + 1) (rj, fun _ => ∅) with hS
  obtain ⟨c1, c2⟩ := revHes_closed J T.ops (T.n + 1) T.ind (rj, fun _ => ∅) (by omega) ind_ne ind_lt hT.ops
  rw [← hS] at c1 c2
  have hD0 : domOps T.ops (T.n + 1) ((fun t : ℝ => indEnv fun k => x k + t * un i k) 0) := by
    show domOps _ _ (indEnv fun k => x k + 0 * un i k)
    rw [indEnv_zero x (un i)]; exact hD
  have hD1 : domOps T.ops (T.n + 1) ((fun t : ℝ => indEnv fun k => x k + t * R k j) 0) := by
    show domOps _ _ (indEnv fun k => x k + 0 * R k j)
    rw [indEnv_zero x (fun k => R k j)]; exact hD
  obtain ⟨d1, d2⟩ := forJac_closed dependency T.ops (T.n + 1) T.ind
    (setInternalPattern transpose (fun j => j + 1) (fun _ => ∅) pat) (by omega) ind_ne ind_lt hT.ops
  have d2 : AllOps (fun op r iz => ∀ a ∈ jacSet op r, J a ⊆ J iz) T.ops (T.n + 1) :=
    AllOps.mono _ _ (fun op r iz _ _ hr h a ha => h a (jac_sub_depS dependency op hr a ha)) d2
  -- `full`: no row of the argument pattern is empty
  set full : Prop := ∀ k < T.n, ∃ j, Has transpose pat k j with hfull
  have hno_atom : AllOps (fun op _ _ => (∃ c, op = .atom c) → full) T.ops (T.n + 1) := by
    refine allOps_mem _ (fun op ho => ?_) _
    rintro ⟨c, hc⟩
    rcases hatom with h | h
    · exact absurd hc (h op ho c)
    · exact h
  have hind : full → ∀ v ∈ T.ind, J v ≠ ∅ := by
    intro hf v hv he
    have hv1 := hv.1
    have hv2 := hv.2
    obtain ⟨j', hj'⟩ := hf (v - 1) (by omega)
    have : j' ∈ J v := by
      show j' ∈ forJac dependency T.ops (T.n + 1) (setInternalPattern transpose (fun j => j + 1) (fun _ => ∅) pat) v
      rw [d1 v (ind_lt v hv), mem_setInternalPattern]
      exact ⟨by omega, v - 1, by omega, hj'⟩
    rw [he] at this
    simp at this
  -- derivative w.r.t. `x_i` vanishes on flagged variables with `j` in the Hessian set, and on variables that do not depend
  -- on the independent variables
  have k1 : ∀ u ∈ usable T.ops (T.n + 1) T.ind, (S.1 u = true ∧ j ∈ S.2 u) ∨ (full ∧ J u = ∅) →
      HasDerivAt (fun t => evalOps T.ops (T.n + 1) (indEnv fun k => x k + t * un i k) u) 0 0 := by
    intro u hu h1
    refine closed_deriv {u | (S.1 u = true ∧ j ∈ S.2 u) ∨ (full ∧ J u = ∅)} T.ops (T.n + 1) T.ind
      (fun t => indEnv fun k => x k + t * un i k)
      (indEnv (un i)) ind_lt hT.ops (fun v _ => indEnv_line x (un i) v) hD0 ?_ ?_ u hu h1
    · refine AllOps.mono _ _ (fun op r iz _ _ _ h hz a ha => ?_) (allOps_and _ _ c2 (allOps_and _ _ d2 hno_atom))
      obtain ⟨h, h', h''⟩ := h
      rcases hz with hz | ⟨hf, hz⟩
      · rcases (h hz.1).1 a ha with e | ⟨e1, e2⟩
        · exact Or.inl ⟨e.1, e.2 hz.2⟩
        · exact Or.inr ⟨h'' e1, e2⟩
      · exact Or.inr ⟨hf, Finset.subset_empty.1 (hz ▸ h' a ha)⟩
    · intro v hv hA
      have hv1 := hv.1
      rcases hA with hA | ⟨hf, he⟩
      · unfold indEnv un
        rw [if_neg (by omega)]
        by_cases hvj : v - 1 = i
        · exfalso
          have : v = i + 1 := by omega
          subst this
          exact hno hA.2
        · simp [hvj]
      · exact absurd he (hind hf v hv)
  -- derivative in direction `R_j` vanishes on variables without `j` in the Jacobian set
  have k2 : ∀ u ∈ usable T.ops (T.n + 1) T.ind, j ∉ J u →
      HasDerivAt (fun t => evalOps T.ops (T.n + 1) (indEnv fun k => x k + t * R k j) u) 0 0 := by
    intro u hu h1
    refine closed_deriv {u | j ∉ J u} T.ops (T.n + 1) T.ind (fun t => indEnv fun k => x k + t * R k j)
      (indEnv fun k => R k j) ind_lt hT.ops (fun v _ => indEnv_line x (fun k => R k j) v) hD1 ?_ ?_ u hu h1
    · refine AllOps.mono _ _ (fun op r iz _ _ hr h hz a ha => ?_) d2
      exact fun hm => hz (h a ha hm)
    · intro v hv hA
      have hA : j ∉ forJac dependency T.ops (T.n + 1) (setInternalPattern transpose (fun j => j + 1) (fun _ => ∅) pat) v := hA
      rw [d1 v (ind_lt v hv), mem_setInternalPattern] at hA
      unfold indEnv
      have hv1 := hv.1
      have hv2 := hv.2
      rw [if_neg (by omega)]
      by_contra hr
      exact hA ⟨by omega, v - 1, by omega, hR _ (by omega) j hj hr⟩
  refine hes_closed hT hD (un i) (fun k => R k j) {u | S.1 u = true ∨ (full ∧ J u = ∅)} ?_ w
    (fun k hk h0 => Or.inl (c1 _ (hinit k hk h0))) v hv
  refine AllOps.mono _ _ (fun op r iz _ _ hr h hz => ?_)
    (allOps_and _ _ c2 (allOps_and _ _ d2 (allOps_and _ _ hno_atom (allOps_args _ _ _ hT.ops))))
  obtain ⟨h, h', h'', ha⟩ := h
  refine ⟨fun a ha => ?_, fun q hq => ?_⟩
  · rcases hz with hz | ⟨hf, hz⟩
    · rcases (h hz).1 a ha with e | ⟨e1, e2⟩
      · exact Or.inl e.1
      · exact Or.inr ⟨h'' e1, e2⟩
    · exact Or.inr ⟨hf, Finset.subset_empty.1 (hz ▸ h' a ha)⟩
  have hq' := hesSet_sub op hr q hq
  have u1 := ha _ (jacSet_sub op r _ hq'.1)
  have u2 := ha _ (jacSet_sub op r _ hq'.2)
  have l1 := usable_lt T.ops (T.n + 1) T.ind ind_lt _ u1
  have l2 := usable_lt T.ops (T.n + 1) T.ind ind_lt _ u2
  by_cases hjb : j ∈ J q.2
  · have : (S.1 q.1 = true ∧ j ∈ S.2 q.1) ∨ (full ∧ J q.1 = ∅) := by
      rcases hz with hz | ⟨hf, hz⟩
      · rcases (h hz).1 _ hq'.1 with e | ⟨e1, e2⟩
        · rcases (h hz).2 q hq with e' | ⟨e1, e2⟩
          · exact Or.inl ⟨e.1, e' hjb⟩
          · exact Or.inr ⟨h'' e1, e2⟩
        · exact Or.inr ⟨h'' e1, e2⟩
      · exact Or.inr ⟨hf, Finset.subset_empty.1 (hz ▸ h' _ hq'.1)⟩
    have := k1 q.1 u1 this
    rw [(two_deriv hT hD (un i) (fun k => R k j) q.1 l1).1.unique this, zero_mul]
  · have := k2 q.2 u2 hjb
    rw [(two_deriv hT hD (un i) (fun k => R k j) q.2 l2).2.unique this, mul_zero]

/-- **C17**, reverse.  The pattern computed by `rev_hes_sparsity` after `for_jac_sparsity` contains every non-zero
entry of `G''(x) R` where `G` is any weighted sum of the selected components and `R` any matrix with non-zeros in
the pattern given to `for_jac_sparsity`.  Partial: it is assumed that components that are the same variable are
either all selected or all not selected (see `rev_hes_sparsity_wrong`), and if there are calls to atomic functions, that
no row of the pattern given to `for_jac_sparsity` is empty (see `rev_hes_sparsity_wrong_atom`). -/
theorem rev_hes_sparsity_ok_partial {T : Tape} (hT : T.WF) (ell : ℕ) (pat : Pattern) (transpose transpose' dependency : Bool)
    (R : ℕ → ℕ → ℝ) (hR : ∀ k < T.n, ∀ j < ell, R k j ≠ 0 → Has transpose pat k j)
    (sel : ℕ → Bool) (w : List ℝ) (hw : ∀ k < T.dep.length, at' w k ≠ 0 → sel k = true)
    (hsel : ∀ k < T.dep.length, ∀ k' < T.dep.length, T.dep.getD k 0 = T.dep.getD k' 0 → sel k = sel k')
    (hatom : (∀ op ∈ T.ops, ∀ c, op ≠ .atom c) ∨ ∀ k < T.n, ∃ j, Has transpose pat k j)
    (x : ℕ → ℝ) (hD : T.Dom x) (i j : ℕ) (hi : i < T.n) (hj : j < ell) (v : ℝ)
    (hv : IsMixed (wsum T w) x (un i) (fun k => R k j) v) (hne : v ≠ 0) :
    Has transpose' (revHesSparsity T ell (forJacSparsity T ell pat transpose dependency).2 sel transpose') i j := by
  unfold revHesSparsity
  dsimp only
  rw [has_getInternalPattern]
  -- initial flags
  have hinit : ∀ k < T.dep.length, sel k = true →
      (forRange 0 T.dep.length (fun _ => false) fun i rj => Function.update rj (T.dep.getD i 0) (sel i)) (T.dep.getD k 0) = true := by
    have := forRange_ind (Nat.zero_le T.dep.length) (s := fun _ : ℕ => false)
      (f := fun i rj => Function.update rj (T.dep.getD i 0) (sel i))
      (P := fun q (rj : ℕ → Bool) => q ≤ T.dep.length ∧ ∀ k < q, rj (T.dep.getD k 0) = sel k) ⟨by omega, by intro k hk; omega⟩
      (by
        rintro q rj _ hq ⟨_, ih⟩
        refine ⟨by omega, fun k hk => ?_⟩
        rw [Function.update_apply]
        split_ifs with h
        · exact (hsel k (by omega) q hq h).symm
        · rcases Nat.lt_succ_iff_lt_or_eq.1 hk with h' | rfl
          · exact ih k h'
          · exact absurd rfl h)
    intro k hk hs
    rw [← hs]
    exact this.2 k hk
  exact ⟨hi, hj, revHes_covers hT ell pat transpose dependency R hR _ w (fun k hk h0 => hinit k hk (hw k hk h0)) hatom x hD i j hj v hv hne⟩

end CppAD.Sparsity
