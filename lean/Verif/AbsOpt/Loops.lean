import Verif.AbsOpt.Spec

/-!
# Linear programs: the loops
-/

namespace CppAD.AbsOpt

theorem setRC_apply (T : ℕ → ℕ → ℝ) (i j : ℕ) (v : ℝ) (i' j' : ℕ) :
    setRC T i j v i' j' = if i' = i ∧ j' = j then v else T i' j' := by
  unfold setRC
  by_cases h : i' = i
  · subst h
    by_cases h' : j' = j
    · subst h'; simp
    · simp [h']
  · simp [h]

/-- a loop that assigns elements of a row -/
theorem rowLoop (n i : ℕ) (pos : ℕ → ℕ) (hpos : ∀ a b, pos a = pos b → a = b) (g : ℕ → ℝ) (T : ℕ → ℕ → ℝ) (i' j' : ℕ) :
    (∀ k < n, i' = i → j' = pos k → forRange 0 n T (fun j T => setRC T i (pos j) (g j)) i' j' = g k) ∧
    ((i' ≠ i ∨ ∀ k < n, j' ≠ pos k) → forRange 0 n T (fun j T => setRC T i (pos j) (g j)) i' j' = T i' j') := by
  refine forRange_ind (s := T) (f := fun j T => setRC T i (pos j) (g j)) (Nat.zero_le n)
    (fun K t => (∀ k < K, i' = i → j' = pos k → t i' j' = g k) ∧ ((i' ≠ i ∨ ∀ k < K, j' ≠ pos k) → t i' j' = T i' j'))
    ⟨by intro k hk; omega, fun _ => rfl⟩ ?_
  intro m t _ _ ih
  refine ⟨fun k hk h1 h2 => ?_, fun h => ?_⟩
  · rw [setRC_apply]
    by_cases e : k = m
    · subst e; rw [if_pos ⟨h1, h2⟩]
    · rw [if_neg (fun hc => e (hpos _ _ (h2.symm.trans hc.2)))]
      exact ih.1 k (by omega) h1 h2
  · rw [setRC_apply, if_neg, ih.2 (h.imp_right fun h k hk => h k (by omega))]
    rintro ⟨h1, h2⟩
    rcases h with h | h
    · exact h h1
    · exact h m (by omega) h2

/-- a loop that updates the elements of a row, each once -/
theorem rowUpd (nc i : ℕ) (g : ℕ → (ℕ → ℕ → ℝ) → ℝ) (h : ℕ → ℝ) (T : ℕ → ℕ → ℝ)
    (hg : ∀ j t, j < nc → (∀ i' j', (i' ≠ i ∨ j ≤ j') → t i' j' = T i' j') → g j t = h j) (i' j' : ℕ) :
    forRange 0 nc T (fun j T => setRC T i j (g j T)) i' j' = if i' = i ∧ j' < nc then h j' else T i' j' := by
  have := forRange_ind (s := T) (f := fun j T => setRC T i j (g j T)) (Nat.zero_le nc)
    (fun K t => ∀ i' j', t i' j' = if i' = i ∧ j' < K then h j' else T i' j') (by intro i' j'; simp) (by
      intro m t _ hm ih i' j'
      rw [setRC_apply]
      have hgm := hg m t hm (fun i' j' hc => by rw [ih, if_neg (by rintro ⟨a, b⟩; rcases hc with hc | hc; exact hc a; omega)])
      by_cases e : i' = i ∧ j' = m
      · rw [if_pos e, hgm, if_pos ⟨e.1, by omega⟩, e.2]
      · rw [if_neg e, ih]
        by_cases e' : i' = i ∧ j' < m
        · rw [if_pos e', if_pos ⟨e'.1, by omega⟩]
        · rw [if_neg e', if_neg]
          rintro ⟨a, b⟩
          by_cases hm : j' = m
          · exact e ⟨a, hm⟩
          · exact e' ⟨a, by omega⟩)
  exact this i' j'

/-- a loop that might fail but does not -/
theorem optLoop {σ : Type*} {hi : ℕ} (s : σ) (f : ℕ → σ → Option σ) (P : ℕ → σ → Prop) (h0 : P 0 s)
    (hs : ∀ k t, k < hi → P k t → ∃ t', f k t = some t' ∧ P (k + 1) t') :
    ∃ t, forRange 0 hi (some s) (fun k r => r.bind (f k)) = some t ∧ P hi t := by
  refine forRange_ind (s := some s) (f := fun k r => r.bind (f k)) (Nat.zero_le hi) (fun K r => ∃ t, r = some t ∧ P K t) ⟨s, rfl, h0⟩ ?_
  rintro k r _ hk ⟨t, rfl, ht⟩
  exact hs k t hk ht

/-- the values of a row of the system -/
def lhs (nv : ℕ) (T : ℕ → ℕ → ℝ) (i : ℕ) (v : ℕ → ℝ) : ℝ := ∑ j ∈ Finset.range nv, T i j * v j

/-- `v` satisfies the equations of the Tableau -/
def Sat (nv ne : ℕ) (T : ℕ → ℕ → ℝ) (v : ℕ → ℝ) : Prop := ∀ i < ne, lhs nv T i v = T i nv

/-- basic variables: the variable of row `i` is `B i` -/
structure Basis (nv ne : ℕ) (T : ℕ → ℕ → ℝ) (basic : ℕ → Bool) (B : ℕ → ℕ) : Prop where
  lt : ∀ i < ne, B i < nv
  mem : ∀ j, basic j = true ↔ ∃ i < ne, B i = j
  unit : ∀ i < ne, ∀ i' < ne, T i' (B i) = if i' = i then 1 else 0
  obj : ∀ i < ne, T ne (B i) = 0
  aux : ∀ i < ne, T (ne + 1) (B i) = 0
  nonneg : ∀ i < ne, 0 ≤ T i nv

theorem Basis.inj {nv ne : ℕ} {T : ℕ → ℕ → ℝ} {basic : ℕ → Bool} {B : ℕ → ℕ} (h : Basis nv ne T basic B) {i i' : ℕ}
    (hi : i < ne) (hi' : i' < ne) (e : B i = B i') : i = i' := by
  have h1 := h.unit i hi i hi
  rw [e, h.unit i' hi' i hi, if_pos rfl] at h1
  by_contra hne
  rw [if_neg hne] at h1
  exact absurd h1 (by norm_num)

open Classical in
/-- the solution with value `t` of the variable `jm`, that is not basic -/
noncomputable def point (nv ne : ℕ) (T : ℕ → ℕ → ℝ) (B : ℕ → ℕ) (jm : ℕ) (t : ℝ) (j : ℕ) : ℝ :=
  if j = jm then t else if h : ∃ i < ne, B i = j then T h.choose nv - T h.choose jm * t else 0

section point

variable {nv ne : ℕ} {T : ℕ → ℕ → ℝ} {basic : ℕ → Bool} {B : ℕ → ℕ} {jm : ℕ}

theorem point_basic (h : Basis nv ne T basic B) (hj : basic jm ≠ true) {i : ℕ} (hi : i < ne) (t : ℝ) :
    point nv ne T B jm t (B i) = T i nv - T i jm * t := by
  have hb := (h.mem (B i)).2 ⟨i, hi, rfl⟩
  have hne : B i ≠ jm := by rintro e; rw [e] at hb; exact hj hb
  have hex : ∃ i' < ne, B i' = B i := ⟨i, hi, rfl⟩
  unfold point
  rw [if_neg hne, dif_pos hex, h.inj hex.choose_spec.1 hi hex.choose_spec.2]

theorem point_nonbasic (h : Basis nv ne T basic B) {j : ℕ} (hb : basic j ≠ true) (hne : j ≠ jm) (t : ℝ) :
    point nv ne T B jm t j = 0 := by
  unfold point
  rw [if_neg hne, dif_neg (fun hc => hb ((h.mem j).2 hc))]

theorem point_self (t : ℝ) : point nv ne T B jm t jm = t := by
  unfold point
  rw [if_pos rfl]

/-- a row of the Tableau at the point -/
theorem lhs_point (h : Basis nv ne T basic B) (hj : basic jm ≠ true) (hjn : jm < nv) (t : ℝ) (r : ℕ) :
    lhs nv T r (point nv ne T B jm t) = T r jm * t + ∑ i ∈ Finset.range ne, T r (B i) * (T i nv - T i jm * t) := by
  classical
  unfold lhs
  have hsub : insert jm ((Finset.range ne).image B) ⊆ Finset.range nv := by
    intro j hj
    rw [Finset.mem_insert, Finset.mem_image] at hj
    rcases hj with rfl | ⟨i, hi, rfl⟩
    · exact Finset.mem_range.2 hjn
    · exact Finset.mem_range.2 (h.lt i (Finset.mem_range.1 hi))
  rw [← Finset.sum_subset hsub (fun j _ hn => ?_)]
  · rw [Finset.sum_insert, Finset.sum_image, point_self]
    · congr 1
      refine Finset.sum_congr rfl fun i hi => ?_
      rw [point_basic h hj (Finset.mem_range.1 hi)]
    · intro a ha b hb e
      exact h.inj (Finset.mem_range.1 ha) (Finset.mem_range.1 hb) e
    · rw [Finset.mem_image]
      rintro ⟨i, hi, e⟩
      exact hj (e ▸ (h.mem (B i)).2 ⟨i, Finset.mem_range.1 hi, rfl⟩)
  · rw [Finset.mem_insert, Finset.mem_image, not_or] at hn
    rw [point_nonbasic h _ hn.1, mul_zero]
    intro hb
    obtain ⟨i, hi, e⟩ := (h.mem j).1 hb
    exact hn.2 ⟨i, Finset.mem_range.2 hi, e⟩

theorem point_sat (h : Basis nv ne T basic B) (hj : basic jm ≠ true) (hjn : jm < nv) (t : ℝ) : Sat nv ne T (point nv ne T B jm t) := by
  intro r hr
  rw [lhs_point h hj hjn, Finset.sum_eq_single r]
  · rw [h.unit r hr r hr, if_pos rfl]; ring
  · intro i hi hne
    rw [h.unit i (Finset.mem_range.1 hi) r hr, if_neg (Ne.symm hne), zero_mul]
  · intro hc; exact absurd (Finset.mem_range.2 hr) hc

theorem point_obj (h : Basis nv ne T basic B) (hj : basic jm ≠ true) (hjn : jm < nv) (t : ℝ) {r : ℕ} (hr : ∀ i < ne, T r (B i) = 0) :
    lhs nv T r (point nv ne T B jm t) = T r jm * t := by
  rw [lhs_point h hj hjn, Finset.sum_eq_zero, add_zero]
  intro i hi
  rw [hr i (Finset.mem_range.1 hi), zero_mul]

end point

end CppAD.AbsOpt
