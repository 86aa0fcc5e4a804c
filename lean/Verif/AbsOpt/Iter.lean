import Verif.AbsOpt.Loops
import Mathlib.Tactic.LinearCombination
import Mathlib.Tactic.FieldSimp

/-!
# Linear programs: one iteration
-/

namespace CppAD.AbsOpt

section base

variable {nv ne : ℕ} {T : ℕ → ℕ → ℝ} {basic : ℕ → Bool} {B : ℕ → ℕ}

/-- the basic solution -/
noncomputable def base (nv ne : ℕ) (T : ℕ → ℕ → ℝ) (B : ℕ → ℕ) : ℕ → ℝ := point nv ne T B nv 0

theorem not_basic_last (h : Basis nv ne T basic B) : basic nv ≠ true := by
  intro hc
  obtain ⟨i, hi, e⟩ := (h.mem nv).1 hc
  have := h.lt i hi
  omega

theorem base_basic (h : Basis nv ne T basic B) {i : ℕ} (hi : i < ne) : base nv ne T B (B i) = T i nv := by
  unfold base
  rw [point_basic h (not_basic_last h) hi]; ring

theorem base_nonbasic (h : Basis nv ne T basic B) {j : ℕ} (hb : basic j ≠ true) : base nv ne T B j = 0 := by
  unfold base
  by_cases e : j = nv
  · subst e; exact point_self _
  · exact point_nonbasic h hb e _

theorem lhs_base (h : Basis nv ne T basic B) (r : ℕ) :
    lhs nv T r (base nv ne T B) = ∑ i ∈ Finset.range ne, T r (B i) * T i nv := by
  classical
  unfold lhs
  have hsub : (Finset.range ne).image B ⊆ Finset.range nv := by
    intro j hj
    obtain ⟨i, hi, rfl⟩ := Finset.mem_image.1 hj
    exact Finset.mem_range.2 (h.lt i (Finset.mem_range.1 hi))
  rw [← Finset.sum_subset hsub (fun j _ hn => ?_)]
  · rw [Finset.sum_image]
    · refine Finset.sum_congr rfl fun i hi => ?_
      rw [base_basic h (Finset.mem_range.1 hi)]
    · intro a ha b hb e
      exact h.inj (Finset.mem_range.1 ha) (Finset.mem_range.1 hb) e
  · rw [base_nonbasic h, mul_zero]
    intro hb
    obtain ⟨i, hi, e⟩ := (h.mem j).1 hb
    exact hn (Finset.mem_image.2 ⟨i, Finset.mem_range.2 hi, e⟩)

theorem base_sat (h : Basis nv ne T basic B) : Sat nv ne T (base nv ne T B) := by
  intro r hr
  rw [lhs_base h, Finset.sum_eq_single r]
  · rw [h.unit r hr r hr, if_pos rfl, one_mul]
  · intro i hi hne
    rw [h.unit i (Finset.mem_range.1 hi) r hr, if_neg (Ne.symm hne), zero_mul]
  · intro hc; exact absurd (Finset.mem_range.2 hr) hc

theorem base_obj (h : Basis nv ne T basic B) {r : ℕ} (hr : ∀ i < ne, T r (B i) = 0) : lhs nv T r (base nv ne T B) = 0 := by
  rw [lhs_base h, Finset.sum_eq_zero]
  intro i hi
  rw [hr i (Finset.mem_range.1 hi), zero_mul]

theorem base_nonneg (h : Basis nv ne T basic B) (j : ℕ) : 0 ≤ base nv ne T B j := by
  by_cases hb : basic j = true
  · obtain ⟨i, hi, rfl⟩ := (h.mem j).1 hb
    rw [base_basic h hi]; exact h.nonneg i hi
  · rw [base_nonbasic h hb]

/-- the point that is returned is the basic solution -/
theorem readX_ok (h : Basis nv ne T basic B) (nx : ℕ) (nan : ℝ) (x : ℕ → ℝ) :
    ∃ x', readX nx ne nv nan T basic x = some x' ∧ ∀ j < nx, x' j = base nv ne T B j := by
  unfold readX
  refine optLoop x _ (fun K x' => ∀ j < K, x' j = base nv ne T B j) (by intro j hj; omega) ?_
  intro j t hj ht
  dsimp only
  by_cases hb : basic j = true
  · rw [if_pos hb]
    obtain ⟨i0, hi0, e⟩ := (h.mem j).1 hb
    obtain ⟨x', h1, h2⟩ := optLoop (hi := ne) (Function.update (Function.update t j 0) j nan)
      (fun i x => if T i j = 0 ∨ T i j = 1 then (if T i j = 1 then some (Function.update x j (T i nv)) else some x) else none)
      (fun K x => (∀ j' ≠ j, x j' = t j') ∧ (i0 < K → x j = T i0 nv))
      ⟨fun j' hj' => by rw [Function.update_of_ne hj', Function.update_of_ne hj'], by omega⟩ (by
        intro i x hi hx
        have hu := h.unit i0 hi0 i hi
        rw [e] at hu
        by_cases hii : i = i0
        · subst hii
          rw [if_pos rfl] at hu
          refine ⟨Function.update x j (T i nv), by simp [hu], fun j' hj' => ?_, fun _ => by simp⟩
          rw [Function.update_of_ne hj']; exact hx.1 j' hj'
        · rw [if_neg hii] at hu
          exact ⟨x, by simp [hu], hx.1, fun hlt => hx.2 (by omega)⟩)
    refine ⟨x', h1, fun j' hj' => ?_⟩
    by_cases ej : j' = j
    · subst ej
      rw [h2.2 hi0, ← e, base_basic h hi0]
    · rw [h2.1 j' ej]; exact ht j' (by omega)
  · rw [if_neg hb]
    refine ⟨_, rfl, fun j' hj' => ?_⟩
    by_cases ej : j' = j
    · subst ej
      rw [Function.update_self, base_nonbasic h hb]
    · rw [Function.update_of_ne ej]; exact ht j' (by omega)

end base

theorem auxDone_iff (nx ne na : ℕ) (basic : ℕ → Bool) : auxDone nx ne na basic = true ↔ ∀ k < na, basic (nx + ne + k) ≠ true := by
  unfold auxDone
  refine forRange_ind (s := true) (f := fun k done => if basic (nx + ne + k) then false else done) (Nat.zero_le na)
    (fun K t => t = true ↔ ∀ k < K, basic (nx + ne + k) ≠ true) (by simp) ?_
  intro k t _ _ ih
  by_cases hb : basic (nx + ne + k) = true
  · simp only [hb, if_true]
    constructor
    · intro h; cases h
    · intro h; exact absurd hb (h k (by omega))
  · rw [if_neg hb, ih]
    constructor
    · intro h k' hk'
      by_cases e : k' = k
      · subst e; exact hb
      · exact h k' (by omega)
    · intro h k' hk'; exact h k' (by omega)

theorem entering_ok (nv : ℕ) (row : ℕ → ℝ) (basic : ℕ → Bool) (hb : ∀ j < nv, basic j = true → row j = 0) :
    ∃ e, entering nv row basic = some e ∧ ((e.2 = nv ∧ ∀ j < nv, row j ≤ 0) ∨ (e.2 < nv ∧ 0 < row e.2 ∧ basic e.2 ≠ true)) := by
  unfold entering
  obtain ⟨e, h1, h2⟩ := optLoop (hi := nv) ((0 : ℝ), nv)
    (fun j s => if row j > s.1 then (if basic j then none else some (row j, j)) else some s)
    (fun K s => (s.2 = nv ∧ s.1 = 0 ∧ ∀ j < K, row j ≤ 0) ∨ (s.2 < nv ∧ 0 < s.1 ∧ row s.2 = s.1 ∧ basic s.2 ≠ true))
    (Or.inl ⟨rfl, rfl, by intro j hj; omega⟩) (by
      intro j s hj hs
      have h0 : 0 ≤ s.1 := by rcases hs with hs | hs <;> linarith [hs.2.1]
      by_cases hc : row j > s.1
      · have hnb : basic j ≠ true := by
          intro hbj
          rw [hb j hj hbj] at hc
          linarith
        refine ⟨(row j, j), by rw [if_pos hc, if_neg hnb], Or.inr ⟨hj, by dsimp only; linarith, rfl, hnb⟩⟩
      · refine ⟨s, by rw [if_neg hc], ?_⟩
        rcases hs with hs | hs
        · refine Or.inl ⟨hs.1, hs.2.1, fun j' hj' => ?_⟩
          by_cases e : j' = j
          · subst e; rw [hs.2.1] at hc; exact not_lt.1 hc
          · exact hs.2.2 j' (by omega)
        · exact Or.inr hs)
  refine ⟨e, h1, ?_⟩
  rcases h2 with h2 | h2
  · exact Or.inl ⟨h2.1, h2.2.2⟩
  · exact Or.inr ⟨h2.1, by rw [h2.2.2.1]; exact h2.2.1, h2.2.2.2⟩

theorem pivotRow_ok (ne last jm : ℕ) (T : ℕ → ℕ → ℝ) :
    ((pivotRow ne last jm T).2 = ne ∧ ∀ i < ne, T i jm ≤ 0) ∨
    ((pivotRow ne last jm T).2 < ne ∧ 0 < T (pivotRow ne last jm T).2 jm ∧ ∀ i < ne, 0 < T i jm →
      T (pivotRow ne last jm T).2 last / T (pivotRow ne last jm T).2 jm ≤ T i last / T i jm) := by
  have key : (((pivotRow ne last jm T).1 = none ∧ (pivotRow ne last jm T).2 = ne ∧ ∀ i < ne, T i jm ≤ 0) ∨
    ∃ r, (pivotRow ne last jm T).1 = some r ∧ (pivotRow ne last jm T).2 < ne ∧ 0 < T (pivotRow ne last jm T).2 jm ∧
      r = T (pivotRow ne last jm T).2 last / T (pivotRow ne last jm T).2 jm ∧ ∀ i < ne, 0 < T i jm → r ≤ T i last / T i jm) := by
    unfold pivotRow
    refine forRange_ind (s := ((none : Option ℝ), ne)) (Nat.zero_le ne)
      (fun K s => (s.1 = none ∧ s.2 = ne ∧ ∀ i < K, T i jm ≤ 0) ∨
        ∃ r, s.1 = some r ∧ s.2 < ne ∧ 0 < T s.2 jm ∧ r = T s.2 last / T s.2 jm ∧ ∀ i < K, 0 < T i jm → r ≤ T i last / T i jm)
      (Or.inl ⟨rfl, rfl, by intro i hi; omega⟩) ?_
    intro i s _ hi hs
    by_cases hp : T i jm > 0
    · rw [if_pos hp]
      rcases hs with ⟨a, b, c⟩ | ⟨r, a, b, c, d, e⟩
      · right
        refine ⟨T i last / T i jm, by simp [a], by simp [a, hi], by simp [a]; exact hp, by simp [a], fun i' hi' hp' => ?_⟩
        by_cases e : i' = i
        · rw [e]
        · exact absurd (c i' (by omega)) (not_le.2 hp')
      · right
        by_cases hr : T i last / T i jm < r
        · refine ⟨T i last / T i jm, by simp [a, hr], by simp [a, hr, hi], by simp [a, hr]; exact hp, by simp [a, hr], fun i' hi' hp' => ?_⟩
          by_cases ei : i' = i
          · rw [ei]
          · exact le_trans hr.le (e i' (by omega) hp')
        · refine ⟨r, by simp [a, hr], by simp [a, hr, b], by simp [a, hr, c], by simp only [a, hr, if_false]; exact d, fun i' hi' hp' => ?_⟩
          by_cases ei : i' = i
          · rw [ei]; exact not_lt.1 hr
          · exact e i' (by omega) hp'
    · rw [if_neg hp]
      rcases hs with ⟨a, b, c⟩ | ⟨r, a, b, c, d, e⟩
      · refine Or.inl ⟨a, b, fun i' hi' => ?_⟩
        by_cases ei : i' = i
        · rw [ei]; exact not_lt.1 hp
        · exact c i' (by omega)
      · refine Or.inr ⟨r, a, b, c, d, fun i' hi' hp' => ?_⟩
        by_cases ei : i' = i
        · rw [ei] at hp'; exact absurd hp' hp
        · exact e i' (by omega) hp'
  rcases key with ⟨_, h1, h2⟩ | ⟨r, _, h1, h2, rfl, h3⟩
  · exact Or.inl ⟨h1, h2⟩
  · exact Or.inr ⟨h1, h2, h3⟩

theorem divideRow_ok {nv ne : ℕ} {T : ℕ → ℕ → ℝ} {basic : ℕ → Bool} {B : ℕ → ℕ} (h : Basis nv ne T basic B) {imin jm : ℕ}
    (hi : imin < ne) (hp : T imin jm ≠ 0) (hj : jm < nv) :
    ∃ T', divideRow (nv + 1) imin jm basic T = some (B imin, T') ∧
      ∀ i j, T' i j = if i = imin ∧ j < nv + 1 then T imin j / T imin jm else T i j := by
  unfold divideRow
  dsimp only
  obtain ⟨s, h1, h2, h3⟩ := optLoop (hi := nv + 1) (nv + 1, T) (fun j s =>
    (if basic j = true ∧ s.2 imin j = 1 then (if s.1 = nv + 1 then some j else none) else some s.1).bind fun b2n =>
      some (b2n, setRC s.2 imin j (s.2 imin j / T imin jm)))
    (fun K s => (s.1 = if B imin < K then B imin else nv + 1) ∧
      ∀ i j, s.2 i j = if i = imin ∧ j < K then T imin j / T imin jm else T i j)
    ⟨by simp, by intro i j; simp⟩ (by
      intro j s hjn hs
      have e0 : s.2 imin j = T imin j := by rw [hs.2, if_neg (by omega)]
      have hset : ∀ i j', setRC s.2 imin j (T imin j / T imin jm) i j' = if i = imin ∧ j' < j + 1 then T imin j' / T imin jm else T i j' := by
        intro i j'
        rw [setRC_apply]
        by_cases e : i = imin ∧ j' = j
        · rw [if_pos e, if_pos ⟨e.1, by omega⟩, e.2]
        · rw [if_neg e, hs.2]
          by_cases e' : i = imin ∧ j' < j
          · rw [if_pos e', if_pos ⟨e'.1, by omega⟩]
          · rw [if_neg e', if_neg]
            rintro ⟨a, b⟩
            by_cases hm : j' = j
            · exact e ⟨a, hm⟩
            · exact e' ⟨a, by omega⟩
      rw [e0]
      by_cases hc : basic j = true ∧ T imin j = 1
      · obtain ⟨i, hi', e⟩ := (h.mem j).1 hc.1
        have hii : i = imin := by
          by_contra hne
          have := h.unit i hi' imin hi
          rw [e, hc.2, if_neg (Ne.symm hne)] at this
          exact absurd this (by norm_num)
        subst hii
        have e1 : s.1 = nv + 1 := by rw [hs.1, if_neg (by omega)]
        refine ⟨(j, setRC s.2 i j (T i j / T i jm)), by rw [if_pos hc, if_pos e1]; rfl, ?_, hset⟩
        dsimp only
        rw [if_pos (by omega), e]
      · refine ⟨(s.1, setRC s.2 imin j (T imin j / T imin jm)), by rw [if_neg hc]; rfl, ?_, hset⟩
        dsimp only
        rw [hs.1]
        by_cases hlt : B imin < j
        · rw [if_pos hlt, if_pos (by omega)]
        · rw [if_neg hlt, if_neg]
          intro hlt'
          have hbj : B imin = j := by omega
          refine hc ⟨(h.mem j).2 ⟨imin, hi, hbj⟩, ?_⟩
          have := h.unit imin hi imin hi
          rwa [hbj, if_pos rfl] at this)
  refine ⟨setRC s.2 imin jm 1, ?_, fun i j => ?_⟩
  · rw [h1]
    rw [if_pos (by have := h.lt imin hi; omega)] at h2
    rw [Option.bind_some, h2]
  · rw [setRC_apply]
    by_cases e : i = imin ∧ j = jm
    · rw [if_pos e, e.1, e.2, if_pos ⟨rfl, by omega⟩, div_self hp]
    · rw [if_neg e, h3]

theorem eliminate_ok (nr nc imin jm : ℕ) (T : ℕ → ℕ → ℝ) (h1 : T imin jm = 1) (hj : jm < nc) (i j : ℕ) :
    eliminate nr nc imin jm T i j = if i < nr ∧ i ≠ imin ∧ j < nc then T i j - T i jm * T imin j else T i j := by
  unfold eliminate
  have := forRange_ind (s := T) (f := fun i T => if i ≠ imin then
      setRC (forRange 0 nc T fun j T' => setRC T' i j (T' i j - T i jm / T imin jm * T' imin j)) i jm 0 else T) (Nat.zero_le nr)
    (fun K t => ∀ i j, t i j = if i < K ∧ i ≠ imin ∧ j < nc then T i j - T i jm * T imin j else T i j) (by intro i j; simp) (by
      intro m t _ hm ih i j
      have hrow : ∀ j, t imin j = T imin j := fun j => by rw [ih, if_neg (by tauto)]
      by_cases hmi : m ≠ imin
      · rw [if_pos hmi, setRC_apply]
        have hrm : ∀ j, t m j = T m j := fun j => by rw [ih, if_neg (by omega)]
        rw [rowUpd nc m (fun j T' => T' m j - t m jm / t imin jm * T' imin j) (fun j => T m j - T m jm * T imin j) t (by
          intro j' t' _ ht'
          rw [ht' m j' (Or.inr le_rfl), ht' imin j' (Or.inl hmi.symm), hrow, hrow, hrm, hrm, h1, div_one])]
        by_cases e : i = m
        · subst e
          by_cases ej : j = jm
          · subst ej
            rw [if_pos ⟨rfl, rfl⟩, if_pos ⟨by omega, hmi, hj⟩, h1]; ring
          · rw [if_neg (by tauto)]
            by_cases hjn : j < nc
            · rw [if_pos ⟨rfl, hjn⟩, if_pos ⟨by omega, hmi, hjn⟩]
            · rw [if_neg (by tauto), if_neg (by tauto), hrm]
        · rw [if_neg (by tauto), if_neg (by tauto), ih]
          by_cases hc : i < m ∧ i ≠ imin ∧ j < nc
          · rw [if_pos hc, if_pos ⟨by omega, hc.2⟩]
          · rw [if_neg hc, if_neg (by rintro ⟨a, b⟩; exact hc ⟨by omega, b⟩)]
      · rw [if_neg hmi, ih]
        have hmi : m = imin := not_not.1 hmi
        by_cases hc : i < m ∧ i ≠ imin ∧ j < nc
        · rw [if_pos hc, if_pos ⟨by omega, hc.2⟩]
        · rw [if_neg hc, if_neg (by rintro ⟨a, b, c⟩; exact hc ⟨by omega, b, c⟩)])
  exact this i j

end CppAD.AbsOpt
