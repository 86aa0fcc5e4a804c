import Verif.Ode.GearControl

/-! # The invariant of the loop in `OdeGearControl` -/

namespace CppAD.Ode

open scoped Classical
open CppAD.Lu (idx_inj)

theorem absIf'_eq (x : ℝ) : absIf' x = |x| := by
  unfold absIf'; split_ifs with h
  · exact (abs_of_nonpos h).symm
  · exact (abs_of_pos (not_le.1 h)).symm

theorem GearArgs.Valid.least_pos {A : GearArgs} (hA : A.Valid) (m : ℕ) : 0 < A.least m := by
  unfold GearArgs.least; split_ifs
  · exact hA.sini_pos
  · exact hA.smin_pos

theorem gRequest_cases {A : GearArgs} (hA : A.Valid) (m : ℕ) (step : ℝ) :
    A.least m ≤ gRequest A m step ∧ gRequest A m step ≤ A.smax ∧
      (gRequest A m step = A.least m ∨
        (A.least m < gRequest A m step ∧ gRequest A m step = min step A.smax)) := by
  have h1 := hA.smin_smax
  have h2 := hA.sini_smax
  have key : ∀ lo : ℝ, lo ≤ A.smax →
      let st := if A.smax ≤ step then A.smax else step
      let r := if st ≤ lo then lo else st
      lo ≤ r ∧ r ≤ A.smax ∧ (r = lo ∨ (lo < r ∧ r = min step A.smax)) := by
    intro lo hlo
    have e : (if A.smax ≤ step then A.smax else step) = min step A.smax := by
      split_ifs with h
      · exact (min_eq_right h).symm
      · exact (min_eq_left (not_le.1 h).le).symm
    dsimp only
    rw [e]
    by_cases h : min step A.smax ≤ lo
    · rw [if_pos h]; exact ⟨le_rfl, hlo, Or.inl rfl⟩
    · rw [if_neg h]
      exact ⟨(not_le.1 h).le, min_le_right _ _, Or.inr ⟨not_le.1 h, rfl⟩⟩
  unfold gRequest GearArgs.least
  by_cases hm : m < A.M
  · simp only [if_pos hm]; exact key _ h2
  · simp only [if_neg hm]; exact key _ h1

theorem gEnd_cases (A : GearArgs) (t step : ℝ) :
    (A.tf ≤ t + 3 / 2 * step ∧ gEnd A t step = A.tf) ∨
      (t + 3 / 2 * step < A.tf ∧ gEnd A t step = t + step) := by
  unfold gEnd
  by_cases h : A.tf ≤ t + 3 / 2 * step
  · exact Or.inl ⟨h, if_pos h⟩
  · exact Or.inr ⟨not_le.1 h, if_neg h⟩

/-- the root used in the error control -/
noncomputable def gRoot (A : GearArgs) (m : ℕ) (step : ℝ) (X e : ℕ → ℝ) (i : ℕ) : Option ℝ :=
  if m = 1 then some ((A.eabs i + A.erel * |X (m * A.n + i)|) / e i / 10)
  else root ((m - 1 : ℕ) : ℝ) ((A.eabs i + A.erel * |X (m * A.n + i)|) / e i * step / (A.tf - A.ti))

theorem gLambda_spec (A : GearArgs) (m : ℕ) (sp step : ℝ) (X e : ℕ → ℝ) :
    (∀ i < A.n, ∀ ρ, 0 < e i → gRoot A m step X e i = some ρ → gLambda A m sp step X e ≤ ρ) ∧
    (gLambda A m sp step X e = 10 * sp / step ∨
      ∃ i < A.n, 0 < e i ∧ gRoot A m step X e i = some (gLambda A m sp step X e)) := by
  unfold gLambda
  refine forRange_ind (Nat.zero_le A.n)
    (fun k (l : ℝ) => (∀ i < k, ∀ ρ, 0 < e i → gRoot A m step X e i = some ρ → l ≤ ρ) ∧
      (l = 10 * sp / step ∨ ∃ i < A.n, 0 < e i ∧ gRoot A m step X e i = some l)) ?_ ?_
  · exact ⟨fun i hi => absurd hi (Nat.not_lt_zero i), Or.inl rfl⟩
  · intro k l _ hk ⟨h1, h2⟩
    dsimp only
    rw [absIf'_eq]
    by_cases h0 : e k > 0
    · rw [if_pos h0]
      change (∀ i < k + 1, ∀ ρ, 0 < e i → gRoot A m step X e i = some ρ →
        (match gRoot A m step X e k with
          | some ρ => if ρ ≤ l then ρ else l
          | none => l) ≤ ρ) ∧
        ((match gRoot A m step X e k with
          | some ρ => if ρ ≤ l then ρ else l
          | none => l) = 10 * sp / step ∨ ∃ i < A.n, 0 < e i ∧ gRoot A m step X e i = some
            (match gRoot A m step X e k with
          | some ρ => if ρ ≤ l then ρ else l
          | none => l))
      cases hr : gRoot A m step X e k with
      | none =>
        refine ⟨fun i hi ρ ha hb => ?_, h2⟩
        rcases Nat.lt_succ_iff_lt_or_eq.1 hi with h | h
        · exact h1 i h ρ ha hb
        · subst h; rw [hr] at hb; cases hb
      | some ρ0 =>
        dsimp only
        by_cases hl : ρ0 ≤ l
        · rw [if_pos hl]
          refine ⟨fun i hi ρ ha hb => ?_, Or.inr ⟨k, hk, h0, hr⟩⟩
          rcases Nat.lt_succ_iff_lt_or_eq.1 hi with h | h
          · exact hl.trans (h1 i h ρ ha hb)
          · subst h; rw [hr] at hb; cases hb; exact le_rfl
        · rw [if_neg hl]
          refine ⟨fun i hi ρ ha hb => ?_, h2⟩
          rcases Nat.lt_succ_iff_lt_or_eq.1 hi with h | h
          · exact h1 i h ρ ha hb
          · subst h; rw [hr] at hb; cases hb; exact (not_le.1 hl).le
    · rw [if_neg h0]
      refine ⟨fun i hi ρ ha hb => ?_, h2⟩
      rcases Nat.lt_succ_iff_lt_or_eq.1 hi with h | h
      · exact h1 i h ρ ha hb
      · subst h; exact absurd ha h0

theorem gShift_fields (n m : ℕ) (T X : ℕ → ℝ) :
    (∀ k < m, (gShift n m T X).1 k = T (k + 1)) ∧ (∀ k, m ≤ k → (gShift n m T X).1 k = T k) ∧
    (∀ k < m, ∀ i < n, (gShift n m T X).2 (k * n + i) = X ((k + 1) * n + i)) ∧
    (∀ k, m ≤ k → ∀ i < n, (gShift n m T X).2 (k * n + i) = X (k * n + i)) := by
  have inner : ∀ k (Y : ℕ → ℝ),
      (∀ i < n, forRange 0 n Y (fun i (X : ℕ → ℝ) =>
        Function.update X (k * n + i) (X ((k + 1) * n + i))) (k * n + i) = Y ((k + 1) * n + i)) ∧
      (∀ q, (∀ i < n, q ≠ k * n + i) → forRange 0 n Y (fun i (X : ℕ → ℝ) =>
        Function.update X (k * n + i) (X ((k + 1) * n + i))) q = Y q) := by
    intro k Y
    refine forRange_ind (s := Y) (lo := 0) (hi := n) (Nat.zero_le n)
      (fun j (t : ℕ → ℝ) => (∀ i < j, t (k * n + i) = Y ((k + 1) * n + i)) ∧
        (∀ q, (∀ i < n, q ≠ k * n + i) → t q = Y q)) (by simp) ?_
    intro j t _ hj ⟨h1, h2⟩
    constructor
    · intro i hi
      by_cases e : i = j
      · subst e
        rw [Function.update_self]
        refine h2 _ ?_
        intro a ha h
        have := (idx_inj hj ha h).1
        omega
      · rw [Function.update_of_ne (by omega)]
        exact h1 i (by omega)
    · intro q hq
      rw [Function.update_of_ne (hq j hj)]
      exact h2 q hq
  unfold gShift
  refine forRange_ind (s := (T, X)) (lo := 0) (hi := m) (Nat.zero_le m)
    (fun j (t : (ℕ → ℝ) × (ℕ → ℝ)) => (∀ k < j, t.1 k = T (k + 1)) ∧ (∀ k, j ≤ k → t.1 k = T k) ∧
      (∀ k < j, ∀ i < n, t.2 (k * n + i) = X ((k + 1) * n + i)) ∧
      (∀ k, j ≤ k → ∀ i < n, t.2 (k * n + i) = X (k * n + i))) (by simp) ?_
  intro j t _ hj ⟨h1, h2, h3, h4⟩
  dsimp only
  obtain ⟨g1, g2⟩ := inner j t.2
  have hne : ∀ k, k ≠ j → ∀ i < n, ∀ a < n, k * n + i ≠ j * n + a := by
    intro k hk i hi a ha h
    exact hk (idx_inj hi ha h).1
  refine ⟨?_, ?_, ?_, ?_⟩
  · intro k hk
    by_cases e : k = j
    · subst e; rw [Function.update_self, h2 _ (by omega)]
    · rw [Function.update_of_ne e]; exact h1 k (by omega)
  · intro k hk
    rw [Function.update_of_ne (by omega)]; exact h2 k (by omega)
  · intro k hk i hi
    by_cases e : k = j
    · subst e; rw [g1 i hi, h4 _ (by omega) i hi]
    · rw [g2 _ (hne k e i hi)]; exact h3 k (by omega) i hi
  · intro k hk i hi
    rw [g2 _ (hne k (by omega) i hi)]; exact h4 k (by omega) i hi

theorem gUpdate_fields (n m : ℕ) (X e ef maxabs : ℕ → ℝ) :
    (∀ i < n, (gUpdate n m X e ef maxabs).1 i = ef i + e i) ∧
    (∀ i < n, (gUpdate n m X e ef maxabs).2 i = max (maxabs i) |X (m * n + i)|) := by
  have := forRange_ind (s := (ef, maxabs)) (lo := 0) (hi := n) (Nat.zero_le n)
    (f := fun i (s : (ℕ → ℝ) × (ℕ → ℝ)) =>
      let ef := Function.update s.1 i (s.1 i + e i)
      let axi := absIf' (X (m * n + i))
      (ef, if axi > s.2 i then Function.update s.2 i axi else s.2))
    (fun k (t : (ℕ → ℝ) × (ℕ → ℝ)) =>
      (∀ i < n, t.1 i = if i < k then ef i + e i else ef i) ∧
      (∀ i < n, t.2 i = if i < k then max (maxabs i) |X (m * n + i)| else maxabs i)) (by simp) (by
      intro k t _ hk ⟨h1, h2⟩
      dsimp only
      rw [absIf'_eq]
      constructor
      · intro i hi
        by_cases e' : i = k
        · subst e'
          have := h1 i hi
          rw [if_neg (lt_irrefl _)] at this
          simp [this]
        · rw [Function.update_of_ne e', h1 i hi]
          have : i < k + 1 ↔ i < k := by omega
          simp only [this]
      · intro i hi
        by_cases e' : i = k
        · subst e'
          have h3 := h2 i hi
          rw [if_neg (lt_irrefl _)] at h3
          rw [if_pos (Nat.lt_succ_self _)]
          split_ifs with hc
          · rw [Function.update_self]
            rw [h3] at hc
            exact (max_eq_right (le_of_lt hc)).symm
          · rw [h3] at hc ⊢
            exact (max_eq_left (not_lt.1 hc)).symm
        · have : i < k + 1 ↔ i < k := by omega
          simp only [this]
          rw [← h2 i hi]
          split_ifs
          · rw [Function.update_of_ne e']
          · rfl)
  obtain ⟨h1, h2⟩ := this
  constructor
  · intro i hi; have := h1 i hi; rwa [if_pos hi] at this
  · intro i hi; have := h2 i hi; rwa [if_pos hi] at this

/-- what is known about every call of `OdeGear` -/
structure GSize (A : GearArgs) (c : GCall) : Prop where
  m_pos : 1 ≤ c.m
  m_le : c.m ≤ A.M
  pos : 0 < c.size
  tf : c.T c.m ≤ A.tf
  size : c.T c.m = A.tf ∨ (A.least c.m ≤ c.size ∧ c.size ≤ A.smax ∧ A.least c.m / 2 < A.tf - c.T c.m)
  max : c.size ≤ A.smax * 3 / 2
  err : ∀ i < A.n, 0 ≤ c.e i

/-- one iteration -/
inductive GStep (A : GearArgs) (s s' : GState) : Prop
  | reject (c : GCall) (hm : c.m = s.m) (hT : ∀ j < s.m, c.T j = s.T j)
      (hX : ∀ j < s.m, ∀ i < A.n, c.X (j * A.n + i) = s.X (j * A.n + i))
      (hacc : c.acc = false) (size : GSize A c)
      (big : A.least c.m * 3 / 2 < c.size) (why : ¬ c.Within A)
      (cut : A.least c.m < min s.step A.smax) (next : s'.step ≤ min s.step A.smax * 3 / 4)
      (em : s'.m = s.m) (eT : s'.T = c.T) (eX : s'.X = c.X)
      (eef : s'.ef = s.ef) (emax : s'.maxabs = s.maxabs) (en : s'.nstep = s.nstep + 1)
      (ec : s'.calls = s.calls ++ [c])
  | accept (c : GCall) (hm : c.m = s.m) (hT : ∀ j < s.m, c.T j = s.T j)
      (hX : ∀ j < s.m, ∀ i < A.n, c.X (j * A.n + i) = s.X (j * A.n + i))
      (hacc : c.acc = true) (size : GSize A c)
      (why : c.size ≤ A.least c.m * 3 / 2 ∨ c.Within A)
      (em : s'.m = min A.M (s.m + 1))
      (eT : ∀ j < s'.m, s'.T j = c.T (j + (s.m + 1 - s'.m)))
      (eX : ∀ j < s'.m, ∀ i < A.n, s'.X (j * A.n + i) = c.X ((j + (s.m + 1 - s'.m)) * A.n + i))
      (eef : ∀ i < A.n, s'.ef i = s.ef i + c.e i)
      (emax : ∀ i < A.n, s'.maxabs i = max (s.maxabs i) |c.X (c.m * A.n + i)|)
      (en : s'.nstep = s.nstep + 1) (ec : s'.calls = s.calls ++ [c])

set_option maxHeartbeats 1000000 in
theorem gBody_step {A : GearArgs} (hA : A.Valid) {s : GState} (hm1 : 1 ≤ s.m) (hmM : s.m ≤ A.M)
    (hti : A.ti ≤ s.T (s.m - 1)) (hlt : s.T (s.m - 1) < A.tf) : GStep A s (gBody A s) := by
  have hT : 0 < A.tf - A.ti := by linarith
  set T := Function.update s.T s.m (gEnd A (s.T (s.m - 1)) (gRequest A s.m s.step)) with hTdef
  set g := odeGear A.F s.m A.n T s.X s.e with hg
  set step := T s.m - T (s.m - 1) with hstep
  set L := gLambda A s.m s.step step g.1 g.2 with hL
  have eT : ∀ j < s.m, T j = s.T j := fun j hj => by rw [hTdef, Function.update_of_ne (by omega)]
  have eTm : T s.m = gEnd A (s.T (s.m - 1)) (gRequest A s.m s.step) := by
    rw [hTdef, Function.update_self]
  have eTp : T (s.m - 1) = s.T (s.m - 1) := eT _ (by omega)
  obtain ⟨r1, r2, r3⟩ := gRequest_cases hA s.m s.step
  have hlp := hA.least_pos s.m
  obtain ⟨o1, o2, o3⟩ := odeGear_fields A.F s.m A.n T s.X s.e
  have eX : ∀ j < s.m, ∀ i < A.n, g.1 (j * A.n + i) = s.X (j * A.n + i) := by
    intro j hj i hi
    refine o2 _ ?_
    intro a ha h
    have := (idx_inj hi ha h).1
    omega
  have epos : ∀ i < A.n, 0 ≤ g.2 i := fun i hi => by rw [hg, o3 i hi]; exact abs_nonneg _
  -- the size of the step
  have hsize : ∀ acc, GSize A ⟨s.m, T, g.1, g.2, acc⟩ := by
    intro acc
    have e1 : (GCall.size ⟨s.m, T, g.1, g.2, acc⟩ : ℝ)
        = gEnd A (s.T (s.m - 1)) (gRequest A s.m s.step) - s.T (s.m - 1) := by
      show T s.m - T (s.m - 1) = _
      rw [eTm, eTp]
    rcases gEnd_cases A (s.T (s.m - 1)) (gRequest A s.m s.step) with ⟨h3, h4⟩ | ⟨h3, h4⟩
    · rw [h4] at e1
      refine ⟨hm1, hmM, ?_, ?_, Or.inl ?_, ?_, epos⟩
      · rw [e1]; linarith
      · show T s.m ≤ _; rw [eTm, h4]
      · show T s.m = _; rw [eTm, h4]
      · rw [e1]; linarith
    · rw [h4] at e1
      refine ⟨hm1, hmM, ?_, ?_, Or.inr ⟨?_, ?_, ?_⟩, ?_, epos⟩
      · rw [e1]; linarith
      · show T s.m ≤ _; rw [eTm, h4]; linarith
      · rw [e1]; show A.least s.m ≤ _; linarith
      · rw [e1]; linarith
      · show A.least s.m / 2 < _ - T s.m; rw [eTm, h4]; linarith
      · rw [e1]; linarith
  have hstep0 : 0 < step := (hsize true).pos
  have hstepReq : step ≤ gRequest A s.m s.step * 3 / 2 := by
    rw [hstep, eTm, eTp]
    rcases gEnd_cases A (s.T (s.m - 1)) (gRequest A s.m s.step) with ⟨h3, h4⟩ | ⟨h3, h4⟩ <;>
      rw [h4] <;> linarith
  obtain ⟨l1, l2⟩ := gLambda_spec A s.m s.step step g.1 g.2
  rw [← hL] at l1 l2
  have ha : ∀ i < A.n, 0 ≤ A.eabs i + A.erel * |g.1 (s.m * A.n + i)| := fun i hi =>
    add_nonneg (hA.eabs i hi) (mul_nonneg hA.erel (abs_nonneg _))
  have hadv : (if s.m = A.M then decide (1 ≤ L) || decide (step ≤ 3 / 2 * A.smin)
      else decide (1 ≤ L) || decide (step ≤ 3 / 2 * A.sini)) = true ↔
      (1 ≤ L ∨ step ≤ A.least s.m * 3 / 2) := by
    unfold GearArgs.least
    by_cases h : s.m = A.M
    · rw [if_pos h, if_neg (by omega), Bool.or_eq_true_iff, decide_eq_true_iff, decide_eq_true_iff,
        mul_comm, mul_div_assoc]
    · rw [if_neg h, if_pos (by omega), Bool.or_eq_true_iff, decide_eq_true_iff, decide_eq_true_iff,
        mul_comm, mul_div_assoc]
  unfold gBody
  dsimp only
  rw [← hTdef, ← hg, ← hstep, ← hL]
  by_cases hA' : (1 ≤ L ∨ step ≤ A.least s.m * 3 / 2)
  · have hadv' := hadv.2 hA'
    simp only [hadv', if_true]
    refine GStep.accept ⟨s.m, T, g.1, g.2, true⟩ rfl eT eX rfl (hsize true) ?_ ?_ ?_ ?_ ?_ ?_ rfl rfl
    · by_cases hs : step ≤ A.least s.m * 3 / 2
      · exact Or.inl hs
      · right
        have h1L : 1 ≤ L := hA'.resolve_right hs
        intro i hi
        show g.2 i ≤ (A.eabs i + A.erel * |g.1 (s.m * A.n + i)|) *
          (if s.m = 1 then 1 / 10 else step / (A.tf - A.ti))
        have hai := ha i hi
        rcases eq_or_lt_of_le (epos i hi) with h0 | h0
        · rw [← h0]
          refine mul_nonneg hai ?_
          split_ifs
          · norm_num
          · exact div_nonneg hstep0.le hT.le
        · by_cases hm : s.m = 1
          · rw [if_pos hm]
            have h3 := h1L.trans (l1 i hi _ h0 (by unfold gRoot; rw [if_pos hm]))
            rw [div_div, le_div_iff₀ (mul_pos h0 (by norm_num))] at h3
            linarith
          · rw [if_neg hm]
            have hr0 : 0 ≤ (A.eabs i + A.erel * |g.1 (s.m * A.n + i)|) / g.2 i * step / (A.tf - A.ti) :=
              div_nonneg (mul_nonneg (div_nonneg hai h0.le) hstep0.le) hT.le
            obtain ⟨ρ, hρ⟩ := root_some (m1 := ((s.m - 1 : ℕ) : ℝ)) hr0
            have hmp : (0 : ℝ) < ((s.m - 1 : ℕ) : ℝ) := by exact_mod_cast (by omega : 0 < s.m - 1)
            have h3 := root_ge_one hmp hρ (h1L.trans (l1 i hi ρ h0 (by
              unfold gRoot; rw [if_neg hm]; exact hρ)))
            rw [le_div_iff₀ hT] at h3
            rw [mul_div_assoc', le_div_iff₀ hT]
            have h4 := mul_le_mul_of_nonneg_left h3 h0.le
            have h5 : g.2 i * ((A.eabs i + A.erel * |g.1 (s.m * A.n + i)|) / g.2 i * step)
                = (A.eabs i + A.erel * |g.1 (s.m * A.n + i)|) * step := by
              field_simp
            rw [h5] at h4
            linarith
    · show (if s.m ≠ A.M then s.m + 1 else s.m) = min A.M (s.m + 1)
      split_ifs with h <;> omega
    · intro j hj
      change j < (if s.m ≠ A.M then s.m + 1 else s.m) at hj
      show (if s.m = A.M then gShift A.n s.m T g.1 else (T, g.1)).1 j
        = T (j + (s.m + 1 - (if s.m ≠ A.M then s.m + 1 else s.m)))
      by_cases h : s.m = A.M
      · rw [if_neg (by simpa using h)] at hj
        rw [if_pos h, if_neg (by simpa using h), (gShift_fields A.n s.m T g.1).1 j hj,
          (by omega : j + (s.m + 1 - s.m) = j + 1)]
      · rw [if_pos h] at hj
        rw [if_neg h, if_pos h, (by omega : j + (s.m + 1 - (s.m + 1)) = j)]
    · intro j hj i hi
      change j < (if s.m ≠ A.M then s.m + 1 else s.m) at hj
      show (if s.m = A.M then gShift A.n s.m T g.1 else (T, g.1)).2 (j * A.n + i)
        = g.1 ((j + (s.m + 1 - (if s.m ≠ A.M then s.m + 1 else s.m))) * A.n + i)
      by_cases h : s.m = A.M
      · rw [if_neg (by simpa using h)] at hj
        rw [if_pos h, if_neg (by simpa using h), (gShift_fields A.n s.m T g.1).2.2.1 j hj i hi,
          (by omega : j + (s.m + 1 - s.m) = j + 1)]
      · rw [if_pos h] at hj
        rw [if_neg h, if_pos h, (by omega : j + (s.m + 1 - (s.m + 1)) = j)]
    · intro i hi
      exact (gUpdate_fields A.n s.m _ g.2 s.ef s.maxabs).1 i hi
    · intro i hi
      have h5 := (gUpdate_fields A.n s.m (if s.m = A.M then gShift A.n s.m T g.1 else (T, g.1)).2
        g.2 s.ef s.maxabs).2 i hi
      have h6 : (if s.m = A.M then gShift A.n s.m T g.1 else (T, g.1)).2 (s.m * A.n + i)
          = g.1 (s.m * A.n + i) := by
        split_ifs
        · exact (gShift_fields A.n s.m T g.1).2.2.2 s.m le_rfl i hi
        · rfl
      rw [h6] at h5
      exact h5
  · have hadv' : (if s.m = A.M then decide (1 ≤ L) || decide (step ≤ 3 / 2 * A.smin)
      else decide (1 ≤ L) || decide (step ≤ 3 / 2 * A.sini)) = false := by
      rw [← Bool.not_eq_true, hadv]; exact hA'
    simp only [hadv', Bool.false_eq_true, if_false]
    rw [not_or, not_le, not_le] at hA'
    obtain ⟨hL1, hbs⟩ := hA'
    have hcut : A.least s.m < gRequest A s.m s.step ∧ gRequest A s.m s.step = min s.step A.smax := by
      rcases r3 with h | h
      · rw [h] at hstepReq; linarith
      · exact h
    refine GStep.reject ⟨s.m, T, g.1, g.2, false⟩ rfl eT eX rfl (hsize false) hbs ?_
      (hcut.2 ▸ hcut.1) ?_ rfl rfl rfl rfl rfl rfl rfl
    · intro hW
      rcases l2 with h | ⟨i, hi, h0, hr⟩
      · have hsp : gRequest A s.m s.step ≤ s.step := hcut.2 ▸ min_le_left _ _
        have : (1 : ℝ) ≤ L := by
          rw [h, le_div_iff₀ hstep0]
          linarith
        linarith
      · have hw : g.2 i ≤ (A.eabs i + A.erel * |g.1 (s.m * A.n + i)|) *
          (if s.m = 1 then 1 / 10 else step / (A.tf - A.ti)) := hW i hi
        unfold gRoot at hr
        by_cases hm : s.m = 1
        · rw [if_pos hm] at hr hw
          have hr' := Option.some.inj hr
          rw [← hr', div_div, div_lt_one (mul_pos h0 (by norm_num))] at hL1
          linarith
        · rw [if_neg hm] at hr hw
          have hmp : (0 : ℝ) < ((s.m - 1 : ℕ) : ℝ) := by exact_mod_cast (by omega : 0 < s.m - 1)
          obtain ⟨_, h6⟩ := root_lt_one hmp hr hL1
          rw [div_lt_one hT] at h6
          rw [mul_div_assoc', le_div_iff₀ hT] at hw
          have h5 : g.2 i * ((A.eabs i + A.erel * |g.1 (s.m * A.n + i)|) / g.2 i * step)
              = (A.eabs i + A.erel * |g.1 (s.m * A.n + i)|) * step := by
            field_simp
          have h7 := mul_lt_mul_of_pos_left h6 h0
          rw [h5] at h7
          linarith
    · show (if 10 < L then 10 else L) * step / 2 ≤ min s.step A.smax * 3 / 4
      rw [if_neg (by linarith), ← hcut.2]
      have := mul_le_mul_of_nonneg_right hL1.le hstep0.le
      linarith

end CppAD.Ode
