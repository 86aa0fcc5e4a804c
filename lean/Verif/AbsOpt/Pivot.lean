import Verif.AbsOpt.Iter
import Mathlib.Algebra.BigOperators.Field

/-!
# Linear programs: change of basis
-/

namespace CppAD.AbsOpt

section pivot

variable {nv ne : ℕ} {T T' : ℕ → ℕ → ℝ} {basic : ℕ → Bool} {B : ℕ → ℕ} {im jm : ℕ}

/-- `T'` is the Tableau after the pivot -/
structure Pivoted (nv ne im jm : ℕ) (T T' : ℕ → ℕ → ℝ) : Prop where
  row : ∀ j ≤ nv, T' im j = T im j / T im jm
  other : ∀ i < ne + 2, i ≠ im → ∀ j ≤ nv, T' i j = T i j - T i jm * (T im j / T im jm)

theorem Pivoted.lhs_row (hP : Pivoted nv ne im jm T T') (v : ℕ → ℝ) : lhs nv T' im v = lhs nv T im v / T im jm := by
  unfold lhs
  rw [Finset.sum_div]
  refine Finset.sum_congr rfl fun j hj => ?_
  rw [hP.row j (Finset.mem_range.1 hj).le]; ring

theorem Pivoted.lhs_other (hP : Pivoted nv ne im jm T T') {i : ℕ} (hi : i < ne + 2) (hne : i ≠ im) (v : ℕ → ℝ) :
    lhs nv T' i v = lhs nv T i v - T i jm * (lhs nv T im v / T im jm) := by
  unfold lhs
  rw [Finset.sum_div, Finset.mul_sum, ← Finset.sum_sub_distrib]
  refine Finset.sum_congr rfl fun j hj => ?_
  rw [hP.other i hi hne j (Finset.mem_range.1 hj).le]; ring

theorem Pivoted.sat (hP : Pivoted nv ne im jm T T') (him : im < ne) (hp : T im jm ≠ 0) (v : ℕ → ℝ) :
    Sat nv ne T' v ↔ Sat nv ne T v := by
  have e : lhs nv T' im v = T' im nv ↔ lhs nv T im v = T im nv := by
    rw [hP.lhs_row, hP.row nv le_rfl]
    constructor
    · intro h; field_simp at h; exact h
    · intro h; rw [h]
  constructor
  · intro h i hi
    by_cases hne : i = im
    · subst hne; exact e.1 (h i hi)
    · have h1 := h i hi
      have h2 := e.1 (h im him)
      rw [hP.lhs_other (by omega) hne, hP.other i (by omega) hne nv le_rfl, h2] at h1
      linarith
  · intro h i hi
    by_cases hne : i = im
    · subst hne; exact e.2 (h i hi)
    · rw [hP.lhs_other (by omega) hne, hP.other i (by omega) hne nv le_rfl, h im him, h i hi]

theorem Pivoted.objective (hP : Pivoted nv ne im jm T T') (him : im < ne) {r : ℕ} (hr : ne ≤ r) (hr' : r < ne + 2) {v : ℕ → ℝ}
    (hv : Sat nv ne T v) : T' r nv - lhs nv T' r v = T r nv - lhs nv T r v := by
  rw [hP.lhs_other hr' (by omega), hP.other r hr' (by omega) nv le_rfl, hv im him]
  ring

theorem Pivoted.basis (hP : Pivoted nv ne im jm T T') (h : Basis nv ne T basic B) (him : im < ne) (hjm : jm < nv)
    (hp : 0 < T im jm) (hb : basic jm ≠ true) (hmin : ∀ i < ne, 0 < T i jm → T im nv / T im jm ≤ T i nv / T i jm) :
    Basis nv ne T' (Function.update (Function.update basic (B im) false) jm true) (Function.update B im jm) := by
  have hp0 : T im jm ≠ 0 := ne_of_gt hp
  have hBj : ∀ i < ne, B i ≠ jm := fun i hi e => hb ((h.mem jm).2 ⟨i, hi, e⟩)
  have hcol : ∀ i < ne + 2, T' i jm = if i = im then 1 else 0 := by
    intro i hi
    by_cases e : i = im
    · subst e; rw [if_pos rfl, hP.row jm hjm.le, div_self hp0]
    · rw [if_neg e, hP.other i hi e jm hjm.le, div_self hp0]; ring
  have hkeep : ∀ k < ne, k ≠ im → ∀ i < ne + 2, T' i (B k) = T i (B k) := by
    intro k hk hkm i hi
    have h0 : T im (B k) = 0 := by rw [h.unit k hk im him, if_neg (Ne.symm hkm)]
    by_cases e : i = im
    · subst e; rw [hP.row _ (h.lt k hk).le, h0, zero_div]
    · rw [hP.other i hi e _ (h.lt k hk).le, h0]; ring
  refine ⟨?_, ?_, ?_, ?_, ?_, ?_⟩
  · intro i hi
    by_cases e : i = im
    · subst e; rw [Function.update_self]; exact hjm
    · rw [Function.update_of_ne e]; exact h.lt i hi
  · intro j
    by_cases ej : j = jm
    · subst ej
      rw [Function.update_self]
      exact ⟨fun _ => ⟨im, him, Function.update_self ..⟩, fun _ => rfl⟩
    · rw [Function.update_of_ne ej]
      by_cases eb : j = B im
      · rw [eb, Function.update_self]
        constructor
        · intro hc; cases hc
        · rintro ⟨i, hi, e⟩
          by_cases ei : i = im
          · subst ei; rw [Function.update_self] at e; exact absurd (e ▸ rfl) (hBj i him)
          · rw [Function.update_of_ne ei] at e; exact absurd (h.inj hi him e) ei
      · rw [Function.update_of_ne eb, h.mem]
        constructor
        · rintro ⟨i, hi, e⟩
          exact ⟨i, hi, by rw [Function.update_of_ne (by rintro rfl; exact eb e.symm), e]⟩
        · rintro ⟨i, hi, e⟩
          by_cases ei : i = im
          · subst ei; rw [Function.update_self] at e; exact absurd e.symm ej
          · rw [Function.update_of_ne ei] at e; exact ⟨i, hi, e⟩
  · intro i hi i' hi'
    by_cases e : i = im
    · subst e; rw [Function.update_self]; exact hcol i' (by omega)
    · rw [Function.update_of_ne e, hkeep i hi e i' (by omega)]; exact h.unit i hi i' hi'
  · intro i hi
    by_cases e : i = im
    · subst e; rw [Function.update_self, hcol ne (by omega), if_neg (by omega)]
    · rw [Function.update_of_ne e, hkeep i hi e ne (by omega)]; exact h.obj i hi
  · intro i hi
    by_cases e : i = im
    · subst e; rw [Function.update_self, hcol (ne + 1) (by omega), if_neg (by omega)]
    · rw [Function.update_of_ne e, hkeep i hi e (ne + 1) (by omega)]; exact h.aux i hi
  · intro i hi
    by_cases e : i = im
    · subst e; rw [hP.row nv le_rfl]; exact div_nonneg (h.nonneg i hi) hp.le
    · rw [hP.other i (by omega) e nv le_rfl]
      have h0 : 0 ≤ T im nv / T im jm := div_nonneg (h.nonneg im him) hp.le
      have h1 := h.nonneg i hi
      by_cases hc : 0 < T i jm
      · have := hmin i hi hc
        have h2 : T i jm * (T im nv / T im jm) ≤ T i jm * (T i nv / T i jm) := mul_le_mul_of_nonneg_left this hc.le
        rw [mul_div_cancel₀ _ (ne_of_gt hc)] at h2
        linarith
      · have : T i jm * (T im nv / T im jm) ≤ 0 := mul_nonpos_of_nonpos_of_nonneg (not_lt.1 hc) h0
        linarith

end pivot

/-- division of the row followed by the elimination -/
theorem pivoted_of {nv ne im jm : ℕ} {T T1 : ℕ → ℕ → ℝ} (hjm : jm < nv) (hp : T im jm ≠ 0)
    (h : ∀ i j, T1 i j = if i = im ∧ j < nv + 1 then T im j / T im jm else T i j) :
    Pivoted nv ne im jm T (eliminate (ne + 2) (nv + 1) im jm T1) := by
  have h1 : T1 im jm = 1 := by rw [h, if_pos ⟨rfl, by omega⟩, div_self hp]
  refine ⟨fun j hj => ?_, fun i hi hne j hj => ?_⟩
  · rw [eliminate_ok _ _ _ _ _ h1 (by omega), if_neg (by tauto), h, if_pos ⟨rfl, by omega⟩]
  · rw [eliminate_ok _ _ _ _ _ h1 (by omega), if_pos ⟨hi, hne, by omega⟩, h, h, h, if_neg (by tauto), if_neg (by tauto), if_pos ⟨rfl, by omega⟩]

/-- *Invariant* of the iterations; `w` is the sum of the auxiliary variables -/
structure Inv (nx ne na : ℕ) (T0 : ℕ → ℕ → ℝ) (c : ℕ → ℝ) (s : State) : Prop where
  basis : ∃ B, Basis (nx + ne + na) ne s.T s.basic B
  sat : ∀ v, Sat (nx + ne + na) ne s.T v ↔ Sat (nx + ne + na) ne T0 v
  obj : ∀ v, Sat (nx + ne + na) ne T0 v → s.T ne (nx + ne + na) - lhs (nx + ne + na) s.T ne v = cost nx c v
  aux : ∀ v, Sat (nx + ne + na) ne T0 v →
    s.T (ne + 1) (nx + ne + na) - lhs (nx + ne + na) s.T (ne + 1) v = ∑ k ∈ Finset.range na, v (nx + ne + k)
  iobj : s.iobj = ne + 1 ∨ (s.iobj = ne ∧ ∀ k < na, s.basic (nx + ne + k) ≠ true)

/-- what the return value `true` means, in terms of the initial system -/
def Opt (nx ne na : ℕ) (T0 : ℕ → ℕ → ℝ) (c x : ℕ → ℝ) : Prop :=
  ∃ v, (∀ j < nx, x j = v j) ∧ (∀ j, 0 ≤ v j) ∧ (∀ k < na, v (nx + ne + k) = 0) ∧ Sat (nx + ne + na) ne T0 v ∧
    ∀ u, (∀ j, 0 ≤ u j) → (∀ k < na, u (nx + ne + k) = 0) → Sat (nx + ne + na) ne T0 u → cost nx c v ≤ cost nx c u

theorem iter_ok {nx ne na : ℕ} {T0 : ℕ → ℕ → ℝ} {c : ℕ → ℝ} {s : State} (h : Inv nx ne na T0 c s) (nan : ℝ) :
    ∃ o, iter nx ne na nan s = some o ∧ ((∃ ok x, o = .done ok x ∧ (ok = true → Opt nx ne na T0 c x)) ∨
      ∃ s', o = .next s' ∧ Inv nx ne na T0 c s') := by
  obtain ⟨B, hB⟩ := h.basis
  obtain ⟨x, hx, hxv⟩ := readX_ok hB nx nan s.x
  unfold iter
  dsimp only
  rw [Nat.add_sub_cancel, hx, Option.bind_some]
  -- the objective and the number of variables
  obtain ⟨p, hp, hcase⟩ : ∃ p : ℕ × ℕ, (if s.iobj = ne + 1 then (if auxDone nx ne na s.basic then (ne, nx + ne) else (s.iobj, nx + ne + na))
      else (s.iobj, nx + ne)) = p ∧
      ((p = (ne, nx + ne) ∧ ∀ k < na, s.basic (nx + ne + k) ≠ true) ∨ p = (ne + 1, nx + ne + na)) := by
    refine ⟨_, rfl, ?_⟩
    by_cases e : s.iobj = ne + 1
    · rw [if_pos e]
      by_cases e' : auxDone nx ne na s.basic = true
      · rw [if_pos e']; exact Or.inl ⟨rfl, (auxDone_iff ..).1 e'⟩
      · rw [if_neg e', e]; exact Or.inr rfl
    · rw [if_neg e]
      rcases h.iobj with h1 | h1
      · exact absurd h1 e
      · rw [h1.1]; exact Or.inl ⟨rfl, h1.2⟩
  rw [hp]
  have hle : p.2 ≤ nx + ne + na := by rcases hcase with ⟨e, _⟩ | e <;> rw [e] <;> simp
  have hr0 : ne ≤ p.1 := by rcases hcase with ⟨e, _⟩ | e <;> rw [e] <;> simp
  have hr1 : p.1 < ne + 2 := by rcases hcase with ⟨e, _⟩ | e <;> rw [e] <;> simp
  have hzero : ∀ i < ne, s.T p.1 (B i) = 0 := by
    intro i hi
    rcases hcase with ⟨e, _⟩ | e <;> rw [e]
    · exact hB.obj i hi
    · exact hB.aux i hi
  have hblt : ∀ i < ne, B i < p.2 := by
    intro i hi
    rcases hcase with ⟨e, hno⟩ | e <;> rw [e]
    · have := hB.lt i hi
      by_contra hc
      obtain ⟨k, hk⟩ : ∃ k, B i = nx + ne + k := ⟨B i - (nx + ne), by dsimp only at hc; omega⟩
      exact hno k (by omega) (hk ▸ (hB.mem _).2 ⟨i, hi, rfl⟩)
    · exact hB.lt i hi
  obtain ⟨e, he, hcases⟩ := entering_ok p.2 (s.T p.1) s.basic (fun j _ hb => by
    obtain ⟨i, hi, rfl⟩ := (hB.mem j).1 hb
    exact hzero i hi)
  rw [he, Option.bind_some]
  by_cases hjm : e.2 = p.2
  · rw [if_pos hjm]
    refine ⟨_, rfl, Or.inl ⟨_, _, rfl, fun hok => ?_⟩⟩
    have hp1 : p.1 = ne := by simpa using hok
    obtain ⟨rfl, hno⟩ : p = (ne, nx + ne) ∧ ∀ k < na, s.basic (nx + ne + k) ≠ true := by
      rcases hcase with h1 | h1
      · exact h1
      · rw [h1] at hp1; dsimp only at hp1; omega
    have hneg : ∀ j < nx + ne, s.T ne j ≤ 0 := by
      rcases hcases with h1 | h1
      · exact h1.2
      · dsimp only at h1 hjm; omega
    refine ⟨base (nx + ne + na) ne s.T B, hxv, base_nonneg hB, fun k hk => base_nonbasic hB (hno k hk), (h.sat _).1 (base_sat hB),
      fun u hu0 hua hu => ?_⟩
    rw [← h.obj _ ((h.sat _).1 (base_sat hB)), ← h.obj u hu, base_obj hB hB.obj]
    have : lhs (nx + ne + na) s.T ne u ≤ 0 := by
      refine Finset.sum_nonpos fun j hj => ?_
      rw [Finset.mem_range] at hj
      by_cases hjl : j < nx + ne
      · exact mul_nonpos_of_nonpos_of_nonneg (hneg j hjl) (hu0 j)
      · obtain ⟨k, rfl⟩ : ∃ k, j = nx + ne + k := ⟨j - (nx + ne), by omega⟩
        rw [hua k (by omega), mul_zero]
    linarith
  · rw [if_neg hjm]
    obtain ⟨hj1, hj2, hj3⟩ := hcases.resolve_left (fun hc => hjm hc.1)
    have hjn : e.2 < nx + ne + na := lt_of_lt_of_le hj1 hle
    have hpr := pivotRow_ok ne (nx + ne + na) e.2 s.T
    generalize hpv : (pivotRow ne (nx + ne + na) e.2 s.T).2 = im at hpr ⊢
    by_cases him : im = ne
    · rw [if_pos him]
      by_cases hiob : p.1 = ne
      · rw [if_pos hiob]
        exact ⟨_, rfl, Or.inl ⟨_, _, rfl, by intro hc; cases hc⟩⟩
      · exfalso
        -- the auxiliary objective is bounded below by zero
        obtain rfl := hcase.resolve_left (fun hc => hiob (by rw [hc.1]))
        have hcol : ∀ i < ne, s.T i e.2 ≤ 0 := (hpr.resolve_right (fun hc => by omega)).2
        dsimp only at hj2 hzero
        have hw0 := h.aux _ ((h.sat _).1 (base_sat hB))
        rw [base_obj hB hB.aux] at hw0
        have hw1 : 0 ≤ s.T (ne + 1) (nx + ne + na) := by
          have : 0 ≤ ∑ k ∈ Finset.range na, base (nx + ne + na) ne s.T B (nx + ne + k) :=
            Finset.sum_nonneg fun k _ => base_nonneg hB _
          linarith
        set t := (s.T (ne + 1) (nx + ne + na) + 1) / s.T (ne + 1) e.2 with ht
        have ht0 : 0 ≤ t := div_nonneg (by linarith) hj2.le
        have hps := (h.sat _).1 (point_sat hB hj3 hjn t)
        have hw := h.aux _ hps
        rw [point_obj hB hj3 hjn t hB.aux, ht, mul_div_cancel₀ _ (ne_of_gt hj2)] at hw
        have : 0 ≤ ∑ k ∈ Finset.range na, point (nx + ne + na) ne s.T B e.2 t (nx + ne + k) := by
          refine Finset.sum_nonneg fun k _ => ?_
          by_cases e1 : nx + ne + k = e.2
          · rw [e1, point_self]; exact ht0
          · by_cases hb : s.basic (nx + ne + k) = true
            · obtain ⟨i, hi, hBi⟩ := (hB.mem _).1 hb
              rw [← hBi, point_basic hB hj3 hi]
              have h1 := hB.nonneg i hi
              have h2 := mul_nonpos_of_nonpos_of_nonneg (hcol i hi) ht0
              linarith
            · rw [point_nonbasic hB hb e1]
        rw [ht] at this
        linarith
    · rw [if_neg him]
      obtain ⟨him, hpos, hmin⟩ := hpr.resolve_left (fun hc => him hc.1)
      obtain ⟨T1, hd, hT1⟩ := divideRow_ok hB him (ne_of_gt hpos) hjn
      rw [hd, Option.bind_some]
      rw [if_pos ⟨hblt im him, fun hc => hj3 (hc ▸ (hB.mem _).2 ⟨im, him, rfl⟩)⟩]
      refine ⟨_, rfl, Or.inr ⟨_, rfl, ?_⟩⟩
      have hP := pivoted_of (ne := ne) hjn (ne_of_gt hpos) hT1
      have hB' := hP.basis hB him hjn hpos hj3 hmin
      refine ⟨⟨_, hB'⟩, fun v => (hP.sat him (ne_of_gt hpos) v).trans (h.sat v), fun v hv => ?_, fun v hv => ?_, ?_⟩
      · exact (hP.objective him le_rfl (by omega) ((h.sat v).2 hv)).trans (h.obj v hv)
      · exact (hP.objective him (by omega) (by omega) ((h.sat v).2 hv)).trans (h.aux v hv)
      · rcases hcase with ⟨e1, hno⟩ | e1
        · right
          refine ⟨by rw [e1], fun k hk => ?_⟩
          have hjlt : e.2 < nx + ne := by rw [e1] at hj1; exact hj1
          dsimp only
          rw [Function.update_of_ne (by omega)]
          by_cases e2 : nx + ne + k = B im
          · rw [e2, Function.update_self]; simp
          · rw [Function.update_of_ne e2]; exact hno k hk
        · left; rw [e1]

theorem iterate_ok {nx ne na : ℕ} {T0 : ℕ → ℕ → ℝ} {c : ℕ → ℝ} (nan : ℝ) (k : ℕ) {s : State} (h : Inv nx ne na T0 c s) :
    ∃ ok x, iterate nx ne na nan k s = some (ok, x) ∧ (ok = true → Opt nx ne na T0 c x) := by
  induction k generalizing s with
  | zero => exact ⟨false, s.x, rfl, by intro hc; cases hc⟩
  | succ k ih =>
    obtain ⟨o, ho, hc⟩ := iter_ok h nan
    unfold iterate
    rw [ho, Option.bind_some]
    rcases hc with ⟨ok, x, rfl, hx⟩ | ⟨s', rfl, hs'⟩
    · exact ⟨ok, x, rfl, hx⟩
    · exact ih hs'

end CppAD.AbsOpt
