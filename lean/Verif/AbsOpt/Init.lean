import Verif.AbsOpt.Pivot

/-!
# Linear programs: the initial Tableau
-/

namespace CppAD.AbsOpt

theorem numAux_succ (i : ℕ) (b : ℕ → ℝ) : numAux (i + 1) b = if b i > 0 then numAux i b + 1 else numAux i b := by
  unfold numAux
  rw [forRange_succ (Nat.zero_le i)]

theorem numAux_mono (b : ℕ → ℝ) {i i' : ℕ} (h : i ≤ i') : numAux i b ≤ numAux i' b := by
  induction i' with
  | zero => obtain rfl : i = 0 := by omega
            exact le_rfl
  | succ m ih =>
    by_cases e : i = m + 1
    · rw [e]
    · have := ih (by omega)
      rw [numAux_succ]
      split <;> omega

theorem numAux_lt {b : ℕ → ℝ} {i ne : ℕ} (hi : i < ne) (hb : b i > 0) : numAux i b < numAux ne b := by
  have := numAux_mono b (show i + 1 ≤ ne by omega)
  rw [numAux_succ, if_pos hb] at this
  omega

theorem numAux_inj {b : ℕ → ℝ} {i i' : ℕ} (hb : b i > 0) (hb' : b i' > 0) (e : numAux i b = numAux i' b) : i = i' := by
  rcases lt_trichotomy i i' with h | h | h
  · have := numAux_lt h hb; omega
  · exact h
  · have := numAux_lt h hb'; omega

theorem numAux_surj {b : ℕ → ℝ} {ne k : ℕ} (hk : k < numAux ne b) : ∃ i < ne, b i > 0 ∧ numAux i b = k := by
  induction ne with
  | zero => exact absurd hk (by unfold numAux; rw [forRange_of_le le_rfl]; omega)
  | succ m ih =>
    rw [numAux_succ] at hk
    by_cases hb : b m > 0
    · rw [if_pos hb] at hk
      by_cases e : k = numAux m b
      · exact ⟨m, by omega, hb, e.symm⟩
      · obtain ⟨i, h1, h2, h3⟩ := ih (by omega)
        exact ⟨i, by omega, h2, h3⟩
    · rw [if_neg hb] at hk
      obtain ⟨i, h1, h2, h3⟩ := ih hk
      exact ⟨i, by omega, h2, h3⟩

open Classical in
/-- closed form of the initial equations -/
noncomputable def tab0 (nx ne na : ℕ) (A b : ℕ → ℝ) (i j : ℕ) : ℝ :=
  if j < nx then (if b i > 0 then - A (i * nx + j) else A (i * nx + j))
  else if j = nx + i then (if b i > 0 then -1 else 1)
  else if b i > 0 ∧ j = nx + ne + numAux i b then 1
  else if j = nx + ne + na then (if b i > 0 then b i else - b i) else 0

/-- the variable that is basic in row `i` -/
noncomputable def basis0 (nx ne : ℕ) (b : ℕ → ℝ) (i : ℕ) : ℕ := if b i > 0 then nx + ne + numAux i b else nx + i

theorem placeRow_entries (nx i : ℕ) (p q last : ℕ) (g : ℕ → ℝ) (a r l : ℝ) (T : ℕ → ℕ → ℝ) (i' j' : ℕ) (hp : nx ≤ p) (hpq : p < q) (hq : q < last) :
    setRC (setRC (setRC (forRange 0 nx T fun j T => setRC T i j (g j)) i p a) i q r) i last l i' j' =
      if i' = i then (if j' < nx then g j' else if j' = p then a else if j' = q then r else if j' = last then l else T i' j') else T i' j' := by
  have hl := rowLoop nx i id (fun _ _ h => h) g T i' j'
  simp only [id] at hl
  rw [setRC_apply, setRC_apply, setRC_apply]
  by_cases e : i' = i
  · subst e
    simp only [true_and, if_true]
    by_cases h1 : j' < nx
    · rw [if_neg (by omega), if_neg (by omega), if_neg (by omega), if_pos h1, hl.1 j' h1 rfl rfl]
    · rw [if_neg h1]
      by_cases h2 : j' = p
      · rw [if_neg (by omega), if_neg (by omega), if_pos h2, if_pos h2]
      · rw [if_neg h2, if_neg h2]
        by_cases h3 : j' = q
        · rw [if_neg (by omega), if_pos h3, if_pos h3]
        · rw [if_neg h3, if_neg h3]
          by_cases h4 : j' = last
          · rw [if_pos h4, if_pos h4]
          · rw [if_neg h4, if_neg h4, hl.2 (Or.inr (fun k hk => by omega))]
  · rw [if_neg (by tauto), if_neg (by tauto), if_neg (by tauto), if_neg e, hl.2 (Or.inl e)]

theorem placeRow_entries' (nx i : ℕ) (p last : ℕ) (g : ℕ → ℝ) (a l : ℝ) (T : ℕ → ℕ → ℝ) (i' j' : ℕ) (hp : nx ≤ p) (hpq : p < last) :
    setRC (setRC (forRange 0 nx T fun j T => setRC T i j (g j)) i p a) i last l i' j' =
      if i' = i then (if j' < nx then g j' else if j' = p then a else if j' = last then l else T i' j') else T i' j' := by
  have hl := rowLoop nx i id (fun _ _ h => h) g T i' j'
  simp only [id] at hl
  rw [setRC_apply, setRC_apply]
  by_cases e : i' = i
  · subst e
    simp only [true_and, if_true]
    by_cases h1 : j' < nx
    · rw [if_neg (by omega), if_neg (by omega), if_pos h1, hl.1 j' h1 rfl rfl]
    · rw [if_neg h1]
      by_cases h2 : j' = p
      · rw [if_neg (by omega), if_pos h2, if_pos h2]
      · rw [if_neg h2, if_neg h2]
        by_cases h4 : j' = last
        · rw [if_pos h4, if_pos h4]
        · rw [if_neg h4, if_neg h4, hl.2 (Or.inr (fun k hk => by omega))]
  · rw [if_neg (by tauto), if_neg (by tauto), if_neg e, hl.2 (Or.inl e)]

theorem placeRows_ok (nx ne : ℕ) (A b : ℕ → ℝ) :
    (placeRows nx ne (nx + ne + numAux ne b) A b).1 = numAux ne b ∧
    (∀ i j, (placeRows nx ne (nx + ne + numAux ne b) A b).2.1 i j = if i < ne then tab0 nx ne (numAux ne b) A b i j else 0) ∧
    ∀ j, (placeRows nx ne (nx + ne + numAux ne b) A b).2.2 j = true ↔ ∃ i < ne, basis0 nx ne b i = j := by
  unfold placeRows
  refine forRange_ind (s := (0, fun _ _ => 0, fun _ => false)) (Nat.zero_le ne)
    (fun K (s : ℕ × (ℕ → ℕ → ℝ) × (ℕ → Bool)) => s.1 = numAux K b ∧
      (∀ i j, s.2.1 i j = if i < K then tab0 nx ne (numAux ne b) A b i j else 0) ∧ ∀ j, s.2.2 j = true ↔ ∃ i < K, basis0 nx ne b i = j)
    ⟨by unfold numAux; rw [forRange_of_le le_rfl], by intro i j; simp, by intro j; simp⟩ ?_
  rintro i ⟨k, T, bs⟩ _ hi ⟨h1, h2, h3⟩
  dsimp only at h1 h2 h3
  subst h1
  have hbasic : ∀ j, (Function.update bs (basis0 nx ne b i) true) j = true ↔ ∃ i' < i + 1, basis0 nx ne b i' = j := by
    intro j
    by_cases e : j = basis0 nx ne b i
    · subst e
      rw [Function.update_self]
      exact ⟨fun _ => ⟨i, by omega, rfl⟩, fun _ => rfl⟩
    · rw [Function.update_of_ne e, h3]
      constructor
      · rintro ⟨i', h, h'⟩; exact ⟨i', by omega, h'⟩
      · rintro ⟨i', h, h'⟩
        by_cases ei : i' = i
        · subst ei; exact absurd h'.symm e
        · exact ⟨i', by omega, h'⟩
  unfold placeRow
  by_cases hb : b i > 0
  · have hlt := numAux_lt hi hb
    dsimp only
    rw [if_pos hb]
    refine ⟨by rw [numAux_succ, if_pos hb], fun i' j => ?_, ?_⟩
    · dsimp only
      rw [placeRow_entries nx i (nx + i) (nx + ne + numAux i b) (nx + ne + numAux ne b) (fun j => - A (i * nx + j)) (-1) 1 (b i) T i' j
        (by omega) (by omega) (by omega)]
      by_cases e : i' = i
      · subst e
        rw [if_pos rfl, if_pos (Nat.lt_succ_self i'), h2, if_neg (lt_irrefl _)]
        unfold tab0
        simp only [hb, if_true, true_and]
      · rw [if_neg e, h2]
        by_cases e' : i' < i
        · rw [if_pos e', if_pos (by omega)]
        · rw [if_neg e', if_neg (by omega)]
    · have : basis0 nx ne b i = nx + ne + numAux i b := if_pos hb
      rw [this] at hbasic
      exact hbasic
  · dsimp only
    rw [if_neg hb]
    refine ⟨by rw [numAux_succ, if_neg hb], fun i' j => ?_, ?_⟩
    · dsimp only
      rw [placeRow_entries' nx i (nx + i) (nx + ne + numAux ne b) (fun j => A (i * nx + j)) 1 (- b i) T i' j (by omega) (by omega)]
      by_cases e : i' = i
      · subst e
        rw [if_pos rfl, if_pos (Nat.lt_succ_self i'), h2, if_neg (lt_irrefl _)]
        unfold tab0
        simp only [hb, if_false, false_and]
      · rw [if_neg e, h2]
        by_cases e' : i' < i
        · rw [if_pos e', if_pos (by omega)]
        · rw [if_neg e', if_neg (by omega)]
    · have : basis0 nx ne b i = nx + i := if_neg hb
      rw [this] at hbasic
      exact hbasic

theorem placeObj_ok (nx ne na : ℕ) (c : ℕ → ℝ) (T : ℕ → ℕ → ℝ) (hT : ∀ i j, ne ≤ i → T i j = 0) (i j : ℕ) :
    placeObj nx ne na c T i j = if i = ne then (if j < nx then - c j else 0)
      else if i = ne + 1 then (if nx + ne ≤ j ∧ j < nx + ne + na then -1 else 0) else T i j := by
  unfold placeObj
  have h1 := rowLoop na (ne + 1) (fun k => nx + ne + k) (fun _ _ h => by omega) (fun _ => -1)
    (forRange 0 nx T fun j T => setRC T ne j (- c j)) i j
  have h2 := rowLoop nx ne id (fun _ _ h => h) (fun j => - c j) T i j
  simp only [id] at h2
  by_cases e : i = ne
  · rw [if_pos e, h1.2 (Or.inl (by omega))]
    by_cases hj : j < nx
    · rw [if_pos hj, h2.1 j hj e rfl]
    · rw [if_neg hj, h2.2 (Or.inr (fun k hk => by omega)), hT i j (by omega)]
  · rw [if_neg e]
    by_cases e' : i = ne + 1
    · rw [if_pos e']
      by_cases hj : nx + ne ≤ j ∧ j < nx + ne + na
      · rw [if_pos hj, h1.1 (j - (nx + ne)) (by omega) e' (by omega)]
      · rw [if_neg hj, h1.2 (Or.inr (fun k hk => by omega)), h2.2 (Or.inl e), hT i j (by omega)]
    · rw [if_neg e', h1.2 (Or.inl e'), h2.2 (Or.inl e)]

theorem findRow_ok {ne ja ia : ℕ} {T : ℕ → ℕ → ℝ} (hia : ia < ne) (h1 : T ia ja = 1) (hw : T (ne + 1) ja = -1)
    (h0 : ∀ i < ne, i ≠ ia → T i ja = 0) : findRow ne ja T = some ia := by
  unfold findRow
  obtain ⟨t, ht, hP⟩ := optLoop (hi := ne) ne (fun i ia =>
    if T i ja ≠ 0 then (if T i ja = 1 ∧ T (ne + 1) ja = -1 ∧ ia = ne then some i else none) else some ia)
    (fun K t => t = if ia < K then ia else ne) (by simp) (by
      intro i t hi ht
      by_cases e : i = ia
      · subst e
        rw [if_neg (lt_irrefl _)] at ht
        refine ⟨i, by rw [h1, if_pos (by norm_num), if_pos ⟨rfl, hw, ht⟩], by rw [if_pos (by omega)]⟩
      · refine ⟨t, by rw [h0 i hi e, if_neg (by simp)], ?_⟩
        rw [ht]
        by_cases e' : ia < i
        · rw [if_pos e', if_pos (by omega)]
        · rw [if_neg e', if_neg (by omega)])
  rw [ht, Option.bind_some, hP, if_pos hia, if_pos hia]

/-- an equation of the initial system -/
theorem lhs_tab0 (nx ne : ℕ) (A b : ℕ → ℝ) {i : ℕ} (hi : i < ne) (v : ℕ → ℝ) :
    lhs (nx + ne + numAux ne b) (tab0 nx ne (numAux ne b) A b) i v =
      (if b i > 0 then -1 else 1) * (∑ j ∈ Finset.range nx, A (i * nx + j) * v j + v (nx + i)) +
        if b i > 0 then v (nx + ne + numAux i b) else 0 := by
  unfold lhs
  rw [Finset.sum_range_add, Finset.sum_range_add]
  have h1 : ∑ j ∈ Finset.range nx, tab0 nx ne (numAux ne b) A b i j * v j =
      (if b i > 0 then -1 else 1) * ∑ j ∈ Finset.range nx, A (i * nx + j) * v j := by
    rw [Finset.mul_sum]
    refine Finset.sum_congr rfl fun j hj => ?_
    unfold tab0
    rw [if_pos (Finset.mem_range.1 hj)]
    split <;> ring
  have h2 : ∑ j ∈ Finset.range ne, tab0 nx ne (numAux ne b) A b i (nx + j) * v (nx + j) = (if b i > 0 then -1 else 1) * v (nx + i) := by
    rw [Finset.sum_eq_single i]
    · unfold tab0
      rw [if_neg (by omega), if_pos rfl]
    · intro j hj hne
      rw [Finset.mem_range] at hj
      unfold tab0
      rw [if_neg (by omega), if_neg (by omega), if_neg (by omega), if_neg (by omega), zero_mul]
    · intro hc; exact absurd (Finset.mem_range.2 hi) hc
  have h3 : ∑ k ∈ Finset.range (numAux ne b), tab0 nx ne (numAux ne b) A b i (nx + ne + k) * v (nx + ne + k) =
      if b i > 0 then v (nx + ne + numAux i b) else 0 := by
    by_cases hb : b i > 0
    · rw [if_pos hb, Finset.sum_eq_single (numAux i b)]
      · unfold tab0
        rw [if_neg (by omega), if_neg (by omega), if_pos ⟨hb, rfl⟩, one_mul]
      · intro k hk hne
        rw [Finset.mem_range] at hk
        unfold tab0
        rw [if_neg (by omega), if_neg (by omega), if_neg (by omega), if_neg (by omega), zero_mul]
      · intro hc; exact absurd (Finset.mem_range.2 (numAux_lt hi hb)) hc
    · rw [if_neg hb, Finset.sum_eq_zero]
      intro k hk
      rw [Finset.mem_range] at hk
      unfold tab0
      rw [if_neg (by omega), if_neg (by omega), if_neg (by tauto), if_neg (by omega), zero_mul]
  rw [h1, h2, h3]; ring

theorem tab0_last (nx ne : ℕ) (A b : ℕ → ℝ) {i : ℕ} (hi : i < ne) :
    tab0 nx ne (numAux ne b) A b i (nx + ne + numAux ne b) = if b i > 0 then b i else - b i := by
  unfold tab0
  rw [if_neg (by omega), if_neg (by omega), if_neg, if_pos rfl]
  rintro ⟨hb, e⟩
  have := numAux_lt hi hb
  omega

theorem tab0_unit (nx ne : ℕ) (A b : ℕ → ℝ) {i i' : ℕ} (hi : i < ne) (hi' : i' < ne) :
    tab0 nx ne (numAux ne b) A b i' (basis0 nx ne b i) = if i' = i then 1 else 0 := by
  unfold basis0
  by_cases hb : b i > 0
  · have hlt := numAux_lt hi hb
    rw [if_pos hb]
    unfold tab0
    rw [if_neg (by omega), if_neg (by omega)]
    by_cases e : i' = i
    · subst e; rw [if_pos ⟨hb, rfl⟩, if_pos rfl]
    · rw [if_neg (by rintro ⟨h1, h2⟩; exact e (numAux_inj h1 hb (by omega))), if_neg (by omega), if_neg e]
  · rw [if_neg hb]
    unfold tab0
    rw [if_neg (by omega)]
    by_cases e : i' = i
    · subst e; rw [if_pos rfl, if_pos rfl, if_neg hb]
    · rw [if_neg (by omega), if_neg (by omega), if_neg (by omega), if_neg e]

/-- the Tableau before the first iteration -/
theorem fixObj_ok (nx ne : ℕ) (A b : ℕ → ℝ) (T : ℕ → ℕ → ℝ) (hT : ∀ i < ne, ∀ j, T i j = tab0 nx ne (numAux ne b) A b i j)
    (hw : ∀ j, T (ne + 1) j = if nx + ne ≤ j ∧ j < nx + ne + numAux ne b then -1 else 0) :
    ∃ T', fixObj nx ne (numAux ne b) (nx + ne + numAux ne b + 1) T = some T' ∧ (∀ i ≤ ne, ∀ j, T' i j = T i j) ∧
      (∀ k < numAux ne b, T' (ne + 1) (nx + ne + k) = 0) ∧ (∀ i < ne, ¬ b i > 0 → T' (ne + 1) (nx + i) = 0) ∧
      ∀ v, Sat (nx + ne + numAux ne b) ne T v → T' (ne + 1) (nx + ne + numAux ne b) - lhs (nx + ne + numAux ne b) T' (ne + 1) v =
        ∑ k ∈ Finset.range (numAux ne b), v (nx + ne + k) := by
  unfold fixObj
  obtain ⟨T', h1, h2, h3, h4, h5⟩ := optLoop (hi := numAux ne b) T (fun k T => (findRow ne (nx + ne + k) T).bind fun ia =>
      some (setRC (forRange 0 (nx + ne + numAux ne b + 1) T fun j T => setRC T (ne + 1) j (T (ne + 1) j + T ia j)) (ne + 1) (nx + ne + k) 0))
    (fun K T' => (∀ i ≤ ne, ∀ j, T' i j = T i j) ∧
      (∀ k < numAux ne b, T' (ne + 1) (nx + ne + k) = if k < K then 0 else -1) ∧ (∀ i < ne, ¬ b i > 0 → T' (ne + 1) (nx + i) = 0) ∧
      ∀ v, Sat (nx + ne + numAux ne b) ne T v → T' (ne + 1) (nx + ne + numAux ne b) - lhs (nx + ne + numAux ne b) T' (ne + 1) v =
        ∑ k ∈ Finset.range (numAux ne b), v (nx + ne + k)) (by
      refine ⟨fun _ _ _ => rfl, fun k hk => ?_, fun i hi _ => ?_, fun v _ => ?_⟩
      · rw [hw, if_pos (by omega), if_neg (by omega)]
      · rw [hw, if_neg (by omega)]
      · rw [hw, if_neg (by omega)]
        unfold lhs
        rw [Finset.sum_range_add, Finset.sum_eq_zero, zero_add, zero_sub, ← Finset.sum_neg_distrib]
        · refine Finset.sum_congr rfl fun k hk => ?_
          rw [hw, if_pos (by have := Finset.mem_range.1 hk; omega)]; ring
        · intro j hj
          rw [hw, if_neg (by have := Finset.mem_range.1 hj; omega), zero_mul]) (by
      intro k t hk ⟨g1, g2, g3, g4⟩
      obtain ⟨ia, hia, hb, hkk⟩ := numAux_surj hk
      have hcol : ∀ i < ne, t i (nx + ne + k) = if i = ia then 1 else 0 := by
        intro i hi
        rw [g1 i hi.le, hT i hi, ← tab0_unit nx ne A b hia hi]
        unfold basis0
        rw [if_pos hb, hkk]
      have hfind : findRow ne (nx + ne + k) t = some ia :=
        findRow_ok hia (by rw [hcol ia hia, if_pos rfl]) (by rw [g2 k hk, if_neg (by omega)]) (fun i hi hne => by rw [hcol i hi, if_neg hne])
      rw [hfind, Option.bind_some]
      have hnew : ∀ i j, setRC (forRange 0 (nx + ne + numAux ne b + 1) t fun j T => setRC T (ne + 1) j (T (ne + 1) j + T ia j)) (ne + 1) (nx + ne + k) 0 i j =
          if i = ne + 1 ∧ j < nx + ne + numAux ne b + 1 then t (ne + 1) j + t ia j else t i j := by
        intro i j
        rw [setRC_apply, rowUpd _ (ne + 1) (fun j T => T (ne + 1) j + T ia j) (fun j => t (ne + 1) j + t ia j) t (by
          intro j t' _ ht'
          rw [ht' _ _ (Or.inr le_rfl), ht' ia j (Or.inl (by omega))])]
        by_cases e : i = ne + 1 ∧ j = nx + ne + k
        · rw [if_pos e, if_pos ⟨e.1, by omega⟩, e.2, g2 k hk, if_neg (by omega), hcol ia hia, if_pos rfl]; ring
        · rw [if_neg e]
      refine ⟨_, rfl, fun i hi j => ?_, fun k' hk' => ?_, fun i hi hbi => ?_, fun v hv => ?_⟩
      · rw [hnew, if_neg (by omega), g1 i hi]
      · rw [hnew, if_pos ⟨rfl, by omega⟩, g2 k' hk', g1 ia hia.le, hT ia hia]
        obtain ⟨i', hi', hb', hk2⟩ := numAux_surj hk'
        have := tab0_unit nx ne A b hi' hia
        unfold basis0 at this
        rw [if_pos hb', hk2] at this
        rw [this]
        by_cases e : k' = k
        · have : ia = i' := numAux_inj hb hb' (by omega)
          rw [if_neg (by omega), if_pos this, if_pos (by omega)]; ring
        · have : ia ≠ i' := by rintro rfl; omega
          rw [if_neg this, add_zero]
          by_cases e' : k' < k
          · rw [if_pos e', if_pos (by omega)]
          · rw [if_neg e', if_neg (by omega)]
      · rw [hnew, if_pos ⟨rfl, by omega⟩, g3 i hi hbi, g1 ia hia.le, hT ia hia]
        have := tab0_unit nx ne A b hi hia
        unfold basis0 at this
        rw [if_neg hbi] at this
        rw [this, if_neg (by rintro rfl; exact hbi hb), add_zero]
      · rw [← g4 v hv, hnew, if_pos ⟨rfl, by omega⟩]
        have : lhs (nx + ne + numAux ne b)
            (setRC (forRange 0 (nx + ne + numAux ne b + 1) t fun j T => setRC T (ne + 1) j (T (ne + 1) j + T ia j)) (ne + 1) (nx + ne + k) 0) (ne + 1) v =
            lhs (nx + ne + numAux ne b) t (ne + 1) v + lhs (nx + ne + numAux ne b) T ia v := by
          unfold lhs
          rw [← Finset.sum_add_distrib]
          refine Finset.sum_congr rfl fun j hj => ?_
          rw [hnew, if_pos ⟨rfl, by have := Finset.mem_range.1 hj; omega⟩, g1 ia hia.le]; ring
        rw [this, hv ia hia, g1 ia hia.le]; ring)
  refine ⟨T', h1, h2, fun k hk => ?_, h4, h5⟩
  rw [h3 k hk, if_pos hk]

theorem simplex_inv (ne nx : ℕ) (A b c : ℕ → ℝ) (maxitr : ℕ) (nan : ℝ) (xout : ℕ → ℝ) :
    ∃ s, simplexMethod ne nx A b c maxitr nan xout = iterate nx ne (numAux ne b) nan maxitr s ∧
      Inv nx ne (numAux ne b) (tab0 nx ne (numAux ne b) A b) c s ∧ Basis (nx + ne + numAux ne b) ne s.T s.basic (basis0 nx ne b) ∧
      (∀ i < ne, ∀ j, s.T i j = tab0 nx ne (numAux ne b) A b i j) ∧ s.iobj = if numAux ne b > 0 then ne + 1 else ne := by
  obtain ⟨p1, p2, p3⟩ := placeRows_ok nx ne A b
  unfold simplexMethod
  dsimp only
  rw [Nat.add_sub_cancel, p1, if_pos rfl]
  have ho := placeObj_ok nx ne (numAux ne b) c (placeRows nx ne (nx + ne + numAux ne b) A b).2.1 (fun i j hi => by rw [p2, if_neg (by omega)])
  obtain ⟨T', f1, f2, f3, f4, f5⟩ := fixObj_ok nx ne A b (placeObj nx ne (numAux ne b) c (placeRows nx ne (nx + ne + numAux ne b) A b).2.1) (fun i hi j => by rw [ho, if_neg (by omega), if_neg (by omega), p2, if_pos hi])
    (fun j => by rw [ho, if_neg (by omega), if_pos rfl])
  rw [f1, Option.bind_some]
  refine ⟨_, rfl, ?_⟩
  have hrow : ∀ i < ne, ∀ j, T' i j = tab0 nx ne (numAux ne b) A b i j := by
    intro i hi j
    rw [f2 i hi.le, ho, if_neg (by omega), if_neg (by omega), p2, if_pos hi]
  have hobj : ∀ j, T' ne j = if j < nx then - c j else 0 := by
    intro j
    rw [f2 ne le_rfl, ho, if_pos rfl]
  have hlt : ∀ i < ne, nx ≤ basis0 nx ne b i ∧ basis0 nx ne b i < nx + ne + numAux ne b := by
    intro i hi
    unfold basis0
    by_cases hb : b i > 0
    · rw [if_pos hb]; have := numAux_lt hi hb; omega
    · rw [if_neg hb]; omega
  have hsat : ∀ T : ℕ → ℕ → ℝ, (∀ i < ne, ∀ j, T i j = tab0 nx ne (numAux ne b) A b i j) → ∀ v,
      Sat (nx + ne + numAux ne b) ne T v ↔ Sat (nx + ne + numAux ne b) ne (tab0 nx ne (numAux ne b) A b) v := by
    intro T hT v
    refine forall_congr' fun i => forall_congr' fun hi => ?_
    unfold lhs
    rw [hT i hi, Finset.sum_congr rfl (fun j _ => by rw [hT i hi])]
  have hB : Basis (nx + ne + numAux ne b) ne T' (placeRows nx ne (nx + ne + numAux ne b) A b).2.2 (basis0 nx ne b) := by
    refine ⟨fun i hi => (hlt i hi).2, p3, fun i hi i' hi' => ?_, fun i hi => ?_, fun i hi => ?_, fun i hi => ?_⟩
    · rw [hrow i' hi', tab0_unit nx ne A b hi hi']
    · rw [hobj, if_neg (by have := hlt i hi; omega)]
    · unfold basis0
      by_cases hb : b i > 0
      · rw [if_pos hb]; exact f3 _ (numAux_lt hi hb)
      · rw [if_neg hb]; exact f4 i hi hb
    · rw [hrow i hi, tab0_last nx ne A b hi]
      split <;> linarith
  refine ⟨⟨⟨basis0 nx ne b, hB⟩, hsat T' hrow, fun v hv => ?_, fun v hv => ?_, ?_⟩, hB, hrow, rfl⟩
  · dsimp only
    rw [hobj, if_neg (by omega), zero_sub]
    unfold lhs cost
    rw [add_assoc, Finset.sum_range_add, Finset.sum_congr rfl (fun j hj => by rw [hobj, if_pos (Finset.mem_range.1 hj)]),
      Finset.sum_eq_zero (s := Finset.range (ne + numAux ne b)) (fun j _ => by rw [hobj, if_neg (by omega), zero_mul]), add_zero, ← Finset.sum_neg_distrib]
    exact Finset.sum_congr rfl fun j _ => by ring
  · exact f5 v ((hsat _ (fun i hi j => by rw [ho, if_neg (by omega), if_neg (by omega), p2, if_pos hi]) v).2 hv)
  · dsimp only
    by_cases h0 : numAux ne b > 0
    · rw [if_pos h0]; exact Or.inl rfl
    · rw [if_neg h0]; exact Or.inr ⟨rfl, fun k hk => by omega⟩

theorem solves_of_opt {ne nx : ℕ} {A b c x : ℕ → ℝ} (h : Opt nx ne (numAux ne b) (tab0 nx ne (numAux ne b) A b) c x) :
    Solves ne nx A b c x := by
  obtain ⟨v, h1, h2, h3, h4, h5⟩ := h
  have hrow : ∀ i, ∑ j ∈ Finset.range nx, A (i * nx + j) * x j = ∑ j ∈ Finset.range nx, A (i * nx + j) * v j := fun i =>
    Finset.sum_congr rfl fun j hj => by rw [h1 j (Finset.mem_range.1 hj)]
  refine ⟨⟨fun j hj => by rw [h1 j hj]; exact h2 j, fun i hi => ?_⟩, fun y hy => ?_⟩
  · have := h4 i hi
    rw [lhs_tab0 nx ne A b hi, tab0_last nx ne A b hi] at this
    have h0 := h2 (nx + i)
    unfold rowVal
    rw [hrow]
    by_cases hb : b i > 0
    · rw [if_pos hb, if_pos hb, if_pos hb, h3 _ (numAux_lt hi hb)] at this
      linarith
    · rw [if_neg hb, if_neg hb, if_neg hb] at this
      linarith
  · have hcost : cost nx c x = cost nx c v := Finset.sum_congr rfl fun j hj => by rw [h1 j (Finset.mem_range.1 hj)]
    set u : ℕ → ℝ := fun j => if j < nx then y j else if j < nx + ne then - rowVal nx A b y (j - nx) else 0 with hu
    have hux : ∀ j < nx, u j = y j := fun j hj => by rw [hu]; dsimp only; rw [if_pos hj]
    have hus : ∀ i < ne, u (nx + i) = - rowVal nx A b y i := fun i hi => by
      rw [hu]; dsimp only; rw [if_neg (by omega), if_pos (by omega), Nat.add_sub_cancel_left]
    have hua : ∀ k, u (nx + ne + k) = 0 := fun k => by rw [hu]; dsimp only; rw [if_neg (by omega), if_neg (by omega)]
    have hcu : cost nx c u = cost nx c y := Finset.sum_congr rfl fun j hj => by rw [hux j (Finset.mem_range.1 hj)]
    rw [hcost, ← hcu]
    refine h5 u (fun j => ?_) (fun k _ => hua k) (fun i hi => ?_)
    · by_cases hj : j < nx
      · rw [hux j hj]; exact hy.1 j hj
      · by_cases hj' : j < nx + ne
        · obtain ⟨i, rfl⟩ : ∃ i, j = nx + i := ⟨j - nx, by omega⟩
          rw [hus i (by omega)]
          have := hy.2 i (by omega)
          linarith
        · obtain ⟨k, rfl⟩ : ∃ k, j = nx + ne + k := ⟨j - (nx + ne), by omega⟩
          rw [hua]
    · rw [lhs_tab0 nx ne A b hi, tab0_last nx ne A b hi, hus i hi, hua]
      have : ∑ j ∈ Finset.range nx, A (i * nx + j) * u j = ∑ j ∈ Finset.range nx, A (i * nx + j) * y j :=
        Finset.sum_congr rfl fun j hj => by rw [hux j (Finset.mem_range.1 hj)]
      rw [this]
      unfold rowVal
      split <;> ring

/-- **C57.** `simplex_method` never fails an assertion, and when it returns true the point is a solution of the linear program. -/
theorem simplexMethod_ok (ne nx : ℕ) (A b c : ℕ → ℝ) (maxitr : ℕ) (nan : ℝ) (xout : ℕ → ℝ) :
    ∃ ok x, simplexMethod ne nx A b c maxitr nan xout = some (ok, x) ∧ (ok = true → Solves ne nx A b c x) := by
  obtain ⟨s, h1, h2, _⟩ := simplex_inv ne nx A b c maxitr nan xout
  obtain ⟨ok, x, h3, h4⟩ := iterate_ok nan maxitr h2
  exact ⟨ok, x, h1.trans h3, fun h => solves_of_opt (h4 h)⟩

end CppAD.AbsOpt
