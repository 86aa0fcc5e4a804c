import Verif.AtomEx.MatFwd

/-! # Atomic matrix product: reverse mode -/

open scoped ContDiff Topology
open PowerSeries

namespace CppAD.AtomEx

theorem sum_range_mul' {M : Type*} [AddCommMonoid M] (n m : ℕ) (f : ℕ → M) :
    ∑ r ∈ Finset.range (n * m), f r = ∑ i ∈ Finset.range n, ∑ j ∈ Finset.range m, f (i * m + j) := by
  induction n with
  | zero => simp
  | succ n ih => rw [Nat.add_mul, Nat.one_mul, Finset.sum_range_add, ih, Finset.sum_range_succ]

theorem matU1_val (nl nm nr q k ell : ℕ) (tx py : ℕ → ℝ) :
    (∀ a < nl * nr, matU1 nl nm nr q k ell tx py a = py (a * q + k)) ∧
    ∀ i < nm, ∀ j < nr, matU1 nl nm nr q k ell tx py (nl * nr + j * nm + i) = tx ((nl * nm + (i * nr + j)) * q + k - ell) := by
  unfold matU1
  have h1 : ∀ a < nl * nr, (forRange 0 (nl * nr) (fun _ => (0 : ℝ)) fun i u => vset u i (py (i * q + k))) a
      = py (a * q + k) := fun a ha =>
    forRange_assign _ (fun i => py (i * q + k)) _ (fun i t _ => vset_eq_update _ _ _) ha
  set x0 := forRange 0 (nl * nr) (fun _ => (0 : ℝ)) fun i u => vset u i (py (i * q + k)) with hx0
  have h2 := fill_mat (n := nm) (m := nr) x0 (fun i j => tx ((nl * nm + (i * nr + j)) * q + k - ell))
    (fun i j => nl * nr + (j * nm + i)) (fun i j u => vset u (nl * nr + (j * nm + i)) (tx ((nl * nm + (i * nr + j)) * q + k - ell)))
    (fun i j t _ _ => vset_eq_update _ _ _) (by
      intro i j i' j' hi _ hi' _ h
      have h' : j * nm + i = j' * nm + i' := by omega
      exact ⟨(idx_inj hi hi' h').2, (idx_inj hi hi' h').1⟩)
  refine ⟨fun a ha => ?_, fun i hi j hj => ?_⟩
  · exact (h2.2 a (fun i _ j _ => by omega)).trans (h1 a ha)
  · rw [Nat.add_assoc]; exact h2.1 i hi j hj

theorem matU2_val (nl nm nr q k ell : ℕ) (tx py : ℕ → ℝ) :
    (∀ i < nl, ∀ j < nm, matU2 nl nm nr q k ell tx py (j * nl + i) = tx ((i * nm + j) * q + ell)) ∧
    ∀ a < nl * nr, matU2 nl nm nr q k ell tx py (nm * nl + a) = py (a * q + k) := by
  unfold matU2
  have h1 := (fill_mat (n := nl) (m := nm) (fun _ => (0 : ℝ)) (fun i j => tx ((i * nm + j) * q + ell))
    (fun i j => j * nl + i) (fun i j u => vset u (j * nl + i) (tx ((i * nm + j) * q + ell)))
    (fun i j t _ _ => vset_eq_update _ _ _) (by
      intro i j i' j' hi _ hi' _ h
      exact ⟨(idx_inj hi hi' h).2, (idx_inj hi hi' h).1⟩)).1
  set x0 := forRange 0 nl (fun _ => (0 : ℝ)) fun i u => forRange 0 nm u fun j u =>
    vset u (j * nl + i) (tx ((i * nm + j) * q + ell)) with hx0
  have h2 := forRange_ind (s := x0) (f := fun i u => vset u (nm * nl + i) (py (i * q + k)))
    (Nat.zero_le (nl * nr)) (fun K t => (∀ c < nm * nl, t c = x0 c) ∧ ∀ a < K, t (nm * nl + a) = py (a * q + k))
    ⟨fun _ _ => rfl, by intros; omega⟩ ?_
  · refine ⟨fun i hi j hj => ?_, h2.2⟩
    exact (h2.1 _ (idx_lt hj hi)).trans (h1 i hi j hj)
  · rintro K t _ _ ⟨a1, a2⟩
    refine ⟨fun a ha => ?_, fun b hb => ?_⟩
    · rw [vset_ne _ _ (by omega)]; exact a1 a ha
    · by_cases e : b = K
      · subst e; rw [vset_self]
      · rw [vset_ne _ _ (by omega)]; exact a2 b (by omega)

/-- what is added to the element of `A` -/
theorem matV1_val (nl nm nr q k ell : ℕ) (tx py : ℕ → ℝ) {a b : ℕ} (ha : a < nl) (hb : b < nm) :
    baseMatMul nl nr nm (matU1 nl nm nr q k ell tx py) (fun _ => 0) (a * nm + b)
      = ∑ j ∈ Finset.range nr, py ((a * nr + j) * q + k) * tx ((nl * nm + (b * nr + j)) * q + k - ell) := by
  obtain ⟨h1, h2⟩ := matU1_val nl nm nr q k ell tx py
  rw [baseMatMul_val _ _ _ _ _ ha hb]
  refine Finset.sum_congr rfl fun j hj => ?_
  rw [Finset.mem_range] at hj
  rw [h1 _ (idx_lt ha hj), h2 b hb j hj]

/-- what is added to the element of `B` -/
theorem matV2_val (nl nm nr q k ell : ℕ) (tx py : ℕ → ℝ) {b j : ℕ} (hb : b < nm) (hj : j < nr) :
    baseMatMul nm nl nr (matU2 nl nm nr q k ell tx py) (fun _ => 0) (b * nr + j)
      = ∑ a ∈ Finset.range nl, tx ((a * nm + b) * q + ell) * py ((a * nr + j) * q + k) := by
  obtain ⟨h1, h2⟩ := matU2_val nl nm nr q k ell tx py
  rw [baseMatMul_val _ _ _ _ _ hb hj]
  refine Finset.sum_congr rfl fun a ha => ?_
  rw [Finset.mem_range] at ha
  rw [h1 a ha b hb, Nat.add_assoc, h2 _ (idx_lt ha hj)]

/-- what one step adds to element `c` of `partial_x` -/
noncomputable def matG (nl nm nr q : ℕ) (tx py : ℕ → ℝ) (k ell c : ℕ) : ℝ :=
  (∑ i ∈ Finset.Ico 0 (nl * nm), if c = i * q + ell then
      baseMatMul nl nr nm (matU1 nl nm nr q k ell tx py) (fun _ => 0) i else 0)
  + ∑ i ∈ Finset.Ico 0 (nm * nr), if c = (nl * nm + i) * q + k - ell then
      baseMatMul nm nl nr (matU2 nl nm nr q k ell tx py) (fun _ => 0) i else 0

theorem matRevBody_val (nl nm nr q : ℕ) (tx py : ℕ → ℝ) (k ell : ℕ) (px : ℕ → ℝ) (c : ℕ) :
    matRevBody nl nm nr q tx py k ell px c = px c + matG nl nm nr q tx py k ell c := by
  unfold matRevBody matG
  rw [← add_assoc]
  refine (forRange_additive _ _ (fun i c => if c = (nl * nm + i) * q + k - ell then
      baseMatMul nm nl nr (matU2 nl nm nr q k ell tx py) (fun _ => 0) i else 0) (fun r v c _ _ => vadd_apply _ _ _ _) c).trans ?_
  congr 1
  exact forRange_additive _ _ (fun i c => if c = i * q + ell then
      baseMatMul nl nr nm (matU1 nl nm nr q k ell tx py) (fun _ => 0) i else 0) (fun r v c _ _ => vadd_apply _ _ _ _) c

theorem matReverseTo_val (hi : ℕ → ℕ) (px0 : ℕ → ℝ) (nl nm nr up : ℕ) (tx py : ℕ → ℝ) {c : ℕ}
    (hc : c < matN nl nm nr * (up + 1)) :
    matReverseTo hi px0 nl nm nr up tx py c
      = ∑ k ∈ Finset.range (up + 1), ∑ ell ∈ Finset.range (hi k), matG nl nm nr (up + 1) tx py k ell c := by
  unfold matReverseTo
  refine (forDown0_additive _ _ (fun k c => ∑ ell ∈ Finset.Ico 0 (hi k), matG nl nm nr (up + 1) tx py k ell c)
    (fun k v c _ => ?_) c).trans ?_
  · exact forRange_additive v _ (fun ell c => matG nl nm nr (up + 1) tx py k ell c)
      (fun ell v c _ _ => matRevBody_val _ _ _ _ _ _ _ _ _ _) c
  · have : (forRange 0 (matN nl nm nr * (up + 1)) px0 fun i px => vset px i 0) c = 0 :=
      forRange_assign px0 (fun _ => (0 : ℝ)) _ (fun i t _ => vset_eq_update _ _ _) hc
    rw [this, zero_add]
    simp only [Finset.range_eq_Ico]

/-- a weight that is zero adds nothing -/
theorem matG_zero (nl nm nr q : ℕ) (tx py : ℕ → ℝ) (k ell c : ℕ) (h : ∀ i < nl * nr, py (i * q + k) = 0) :
    matG nl nm nr q tx py k ell c = 0 := by
  unfold matG
  rw [Finset.sum_eq_zero, Finset.sum_eq_zero, add_zero]
  · intro i hi
    obtain ⟨b, hb, j, hj, rfl⟩ := exists_row_col (Finset.mem_Ico.1 hi).2
    split_ifs
    · rw [matV2_val _ _ _ _ _ _ _ _ hb hj]
      exact Finset.sum_eq_zero fun a ha => by rw [h _ (idx_lt (Finset.mem_range.1 ha) hj), mul_zero]
    · rfl
  · intro i hi
    obtain ⟨a, ha, b, hb, rfl⟩ := exists_row_col (Finset.mem_Ico.1 hi).2
    split_ifs
    · rw [matV1_val _ _ _ _ _ _ _ _ ha hb]
      exact Finset.sum_eq_zero fun j hj => by rw [h _ (idx_lt ha (Finset.mem_range.1 hj)), zero_mul]
    · rfl

theorem matG_left (nl nm nr q : ℕ) (tx py : ℕ → ℝ) {k ell a b k' : ℕ} (hk : k < q) (hl : ell ≤ k) (ha : a < nl) (hb : b < nm)
    (hk' : k' < q) :
    matG nl nm nr q tx py k ell ((a * nm + b) * q + k') = if ell = k' then
      ∑ j ∈ Finset.range nr, py ((a * nr + j) * q + k) * tx ((nl * nm + (b * nr + j)) * q + (k - k')) else 0 := by
  unfold matG
  rw [Finset.sum_eq_single (a * nm + b)]
  · rw [Finset.sum_eq_zero, add_zero]
    · by_cases e : ell = k'
      · subst e
        rw [if_pos rfl, if_pos rfl, matV1_val _ _ _ _ _ _ _ _ ha hb]
        refine Finset.sum_congr rfl fun j _ => ?_
        rw [Nat.add_sub_assoc hl]
      · rw [if_neg e, if_neg (by omega)]
    · intro i hi
      rw [Nat.add_sub_assoc hl, if_neg]
      intro h
      have := (idx_inj hk' (by omega) h).1
      have := idx_lt ha hb
      omega
  · intro i hi hne
    rw [if_neg]
    intro h
    exact hne (idx_inj hk' (by omega) h).1.symm
  · intro h
    exact absurd (Finset.mem_Ico.2 ⟨Nat.zero_le _, idx_lt ha hb⟩) h

theorem matG_right (nl nm nr q : ℕ) (tx py : ℕ → ℝ) {k ell b j k' : ℕ} (hk : k < q) (hl : ell ≤ k) (hb : b < nm) (hj : j < nr)
    (hk' : k' < q) :
    matG nl nm nr q tx py k ell ((nl * nm + (b * nr + j)) * q + k') = if k - ell = k' then
      ∑ a ∈ Finset.range nl, tx ((a * nm + b) * q + ell) * py ((a * nr + j) * q + k) else 0 := by
  unfold matG
  rw [Finset.sum_eq_zero, zero_add, Finset.sum_eq_single (b * nr + j)]
  · rw [Nat.add_sub_assoc hl]
    by_cases e : k - ell = k'
    · rw [if_pos e, if_pos (by omega), matV2_val _ _ _ _ _ _ _ _ hb hj]
    · rw [if_neg e, if_neg (by omega)]
  · intro i hi hne
    rw [Nat.add_sub_assoc hl, if_neg]
    intro h
    have := (idx_inj hk' (by omega) h).1
    omega
  · intro h
    exact absurd (Finset.mem_Ico.2 ⟨Nat.zero_le _, idx_lt hb hj⟩) h
  · intro i hi
    rw [if_neg]
    intro h
    have := (idx_inj hk' (by omega) h).1
    have := (Finset.mem_Ico.1 hi).2
    omega

/-- what the documented loop computes -/
noncomputable def matR (nl nm nr q : ℕ) (tx py : ℕ → ℝ) (c : ℕ) : ℝ :=
  ∑ k ∈ Finset.range q, ∑ ell ∈ Finset.range (k + 1), matG nl nm nr q tx py k ell c

theorem matR_left (nl nm nr q : ℕ) (tx py : ℕ → ℝ) {a b k' : ℕ} (ha : a < nl) (hb : b < nm) (hk' : k' < q) :
    matR nl nm nr q tx py ((a * nm + b) * q + k') = ∑ j ∈ Finset.range nr, ∑ k ∈ Finset.range q,
      py ((a * nr + j) * q + k) * if k' ≤ k then tx ((nl * nm + (b * nr + j)) * q + (k - k')) else 0 := by
  unfold matR
  rw [Finset.sum_comm (s := Finset.range nr)]
  refine Finset.sum_congr rfl fun k hk => ?_
  rw [Finset.mem_range] at hk
  rw [Finset.sum_congr rfl fun ell hell => matG_left nl nm nr q tx py hk (by rw [Finset.mem_range] at hell; omega) ha hb hk',
    Finset.sum_ite_eq']
  by_cases h : k' ≤ k
  · rw [if_pos (Finset.mem_range.2 (by omega))]
    simp only [if_pos h]
  · rw [if_neg (fun h' => h (by rw [Finset.mem_range] at h'; omega))]
    simp only [if_neg h, mul_zero, Finset.sum_const_zero]

theorem matR_right (nl nm nr q : ℕ) (tx py : ℕ → ℝ) {b j k' : ℕ} (hb : b < nm) (hj : j < nr) (hk' : k' < q) :
    matR nl nm nr q tx py ((nl * nm + (b * nr + j)) * q + k') = ∑ a ∈ Finset.range nl, ∑ k ∈ Finset.range q,
      py ((a * nr + j) * q + k) * if k' ≤ k then tx ((a * nm + b) * q + (k - k')) else 0 := by
  unfold matR
  rw [Finset.sum_comm (s := Finset.range nl)]
  refine Finset.sum_congr rfl fun k hk => ?_
  rw [Finset.mem_range] at hk
  rw [Finset.sum_congr rfl fun ell hell => matG_right nl nm nr q tx py hk (by rw [Finset.mem_range] at hell; omega) hb hj hk']
  by_cases h : k' ≤ k
  · simp only [if_pos h]
    rw [Finset.sum_eq_single (k - k')]
    · rw [if_pos (by omega)]
      exact Finset.sum_congr rfl fun a _ => mul_comm _ _
    · intro ell hell hne
      rw [Finset.mem_range] at hell
      rw [if_neg (by omega)]
    · intro h'; exact absurd (Finset.mem_range.2 (by omega)) h'
  · simp only [if_neg h, mul_zero, Finset.sum_const_zero]
    refine Finset.sum_eq_zero fun ell hell => ?_
    rw [if_neg (by omega)]

/-- every argument is an element of `A` or of `B` -/
theorem mat_arg {nl nm nr c : ℕ} (hc : c < matN nl nm nr) :
    (∃ a < nl, ∃ b < nm, c = a * nm + b) ∨ ∃ b < nm, ∃ j < nr, c = nl * nm + (b * nr + j) := by
  by_cases h : c < nl * nm
  · obtain ⟨a, ha, b, hb, e⟩ := exists_row_col h
    exact Or.inl ⟨a, ha, b, hb, e⟩
  · have : c - nl * nm < nm * nr := by
      unfold matN at hc; rw [Nat.mul_add, Nat.mul_comm nm nl] at hc; omega
    obtain ⟨b, hb, j, hj, e⟩ := exists_row_col this
    exact Or.inr ⟨b, hb, j, hj, by omega⟩

theorem sum_single_row {n : ℕ} {a : ℕ} (ha : a < n) (f : ℕ → ℝ) (h : ∀ i < n, i ≠ a → f i = 0) :
    ∑ i ∈ Finset.range n, f i = f a :=
  Finset.sum_eq_single a (fun i hi hne => h i (Finset.mem_range.1 hi) hne) (fun h => absurd (Finset.mem_range.2 ha) h)

/-- the documented loop computes the derivatives of the weighted sum of Taylor coefficients -/
theorem matR_ok {nl nm nr q : ℕ} {X' : ℝ → Fin (matN nl nm nr) → ℝ} {tx : ℕ → ℝ} (py : ℕ → ℝ)
    (hX : ∀ j, Sm (fun t => X' t j))
    (htx : ∀ j : Fin (matN nl nm nr), ∀ k ≤ q, tx (j * (q + 1) + k) = tc (fun t => X' t j) k)
    (j : Fin (matN nl nm nr)) {k : ℕ} (hk : k ≤ q) :
    HasDerivAt (fun h => ∑ i ∈ Finset.range (nl * nr), ∑ l ∈ Finset.range (q + 1),
        py (i * (q + 1) + l) * tc (fun t => matFn nl nm nr (Function.update (X' t) j (X' t j + h * t ^ k)) i) l)
      (matR nl nm nr (q + 1) tx py (j * (q + 1) + k)) 0 := by
  have htx' : ∀ j < matN nl nm nr, ∀ k ≤ q, tx (j * (q + 1) + k) = coeff k (T fun t => ev (X' t) j) := by
    intro j hj k hk
    rw [htx ⟨j, hj⟩ k hk, coeff_T]
    simp only [ev_of_lt _ hj]
  have hS' := fun a h => ev_update_sm hX j k a h
  have hT := fun a h => T_ev_update hX j k a h
  refine (hasDeriv_wsum (m := nl * nr) (q := q + 1) py (D := fun r l => ∑ c ∈ Finset.range nm, coeff l
      (bump j k (r / nr * nm + c) * T (fun t => ev (X' t) (nl * nm + c * nr + r % nr))
        + T (fun t => ev (X' t) (r / nr * nm + c)) * bump j k (nl * nm + c * nr + r % nr))) ?_).congr_deriv ?_
  · intro r hr l hl
    unfold matFn
    simp only [tc_eq]
    have e : ∀ h : ℝ, coeff l (T fun t => ∑ c ∈ Finset.range nm,
        ev (Function.update (X' t) j (X' t j + h * t ^ k)) (r / nr * nm + c)
          * ev (Function.update (X' t) j (X' t j + h * t ^ k)) (nl * nm + c * nr + r % nr))
        = ∑ c ∈ Finset.range nm, coeff l ((T (fun t => ev (X' t) (r / nr * nm + c)) + C h * bump j k (r / nr * nm + c))
          * (T (fun t => ev (X' t) (nl * nm + c * nr + r % nr)) + C h * bump j k (nl * nm + c * nr + r % nr))) := by
      intro h
      rw [T_sum (fun c t => ev (Function.update (X' t) j (X' t j + h * t ^ k)) (r / nr * nm + c)
          * ev (Function.update (X' t) j (X' t j + h * t ^ k)) (nl * nm + c * nr + r % nr))
        (fun c => ContDiffAt.mul (hS' _ _) (hS' _ _)), map_sum]
      refine Finset.sum_congr rfl fun c _ => ?_
      rw [T_mul (hS' _ _) (hS' _ _), hT, hT]
    simp only [e]
    exact HasDerivAt.fun_sum fun c _ => coeff_mul_deriv _ _ _ _ l
  · rw [sum_range_mul']
    have hsimp : ∀ a < nl, ∀ i < nr, ∀ l, (∑ c ∈ Finset.range nm, coeff l
        (bump j k ((a * nr + i) / nr * nm + c) * T (fun t => ev (X' t) (nl * nm + c * nr + (a * nr + i) % nr))
        + T (fun t => ev (X' t) ((a * nr + i) / nr * nm + c)) * bump j k (nl * nm + c * nr + (a * nr + i) % nr)))
        = ∑ c ∈ Finset.range nm, coeff l
        (bump j k (a * nm + c) * T (fun t => ev (X' t) (nl * nm + c * nr + i))
        + T (fun t => ev (X' t) (a * nm + c)) * bump j k (nl * nm + c * nr + i)) := by
      intro a _ i hi l
      rw [(div_mod_idx hi).1, (div_mod_idx hi).2]
    rcases mat_arg j.isLt with ⟨a0, ha0, b0, hb0, ej⟩ | ⟨b0, hb0, j0, hj0, ej⟩
    · rw [ej, matR_left _ _ _ _ _ _ ha0 hb0 (by omega)]
      rw [sum_single_row ha0]
      · refine Finset.sum_congr rfl fun i hi => Finset.sum_congr rfl fun l hl => ?_
        rw [Finset.mem_range] at hi hl
        rw [← ej, hsimp a0 ha0 i hi, sum_single_row hb0]
        · have z1 : bump j k (a0 * nm + b0) = X ^ k := if_pos ej.symm
          have z2 : bump j k (nl * nm + b0 * nr + i) = 0 := if_neg (by have := idx_lt ha0 hb0; omega)
          rw [z1, z2, mul_zero, add_zero, coeff_X_pow_mul_ite]
          split_ifs
          · rw [htx' _ (by rw [← Nat.add_assoc]; exact mat_right_lt hb0 hi) _ (by omega), Nat.add_assoc]
          · rfl
        · intro c hc hne
          have z1 : bump j k (a0 * nm + c) = 0 := if_neg (by omega)
          have z2 : bump j k (nl * nm + c * nr + i) = 0 := if_neg (by have := idx_lt ha0 hb0; omega)
          rw [z1, z2]; simp
      · intro a ha hne
        refine Finset.sum_eq_zero fun i hi => Finset.sum_eq_zero fun l hl => ?_
        rw [Finset.mem_range] at hi
        rw [← ej, hsimp a ha i hi, Finset.sum_eq_zero, mul_zero]
        intro c hc
        rw [Finset.mem_range] at hc
        have z1 : bump j k (a * nm + c) = 0 := if_neg (fun h => hne (idx_inj hc hb0 (h.trans ej)).1)
        have z2 : bump j k (nl * nm + c * nr + i) = 0 := if_neg (by have := idx_lt ha0 hb0; omega)
        rw [z1, z2]; simp
    · rw [ej, matR_right _ _ _ _ _ _ hb0 hj0 (by omega)]
      refine Finset.sum_congr rfl fun a ha => ?_
      rw [Finset.mem_range] at ha
      rw [sum_single_row hj0]
      · refine Finset.sum_congr rfl fun l hl => ?_
        rw [Finset.mem_range] at hl
        rw [← ej, hsimp a ha j0 hj0, sum_single_row hb0]
        · have z1 : bump j k (a * nm + b0) = 0 := if_neg (by have := idx_lt ha hb0; omega)
          have z2 : bump j k (nl * nm + b0 * nr + j0) = X ^ k := if_pos (by omega)
          rw [z1, z2, zero_mul, zero_add, mul_comm (T _), coeff_X_pow_mul_ite]
          split_ifs
          · rw [htx' _ (mat_left_lt ha hb0) _ (by omega)]
          · rfl
        · intro c hc hne
          have z1 : bump j k (a * nm + c) = 0 := if_neg (by have := idx_lt ha hc; omega)
          have z2 : bump j k (nl * nm + c * nr + j0) = 0 := if_neg (fun h => hne (idx_inj (a := c) (b := b0) hj0 hj0 (by omega)).1)
          rw [z1, z2]; simp
      · intro i hi hne
        refine Finset.sum_eq_zero fun l hl => ?_
        rw [← ej, hsimp a ha i hi, Finset.sum_eq_zero, mul_zero]
        intro c hc
        rw [Finset.mem_range] at hc
        have z1 : bump j k (a * nm + c) = 0 := if_neg (by have := idx_lt ha hc; omega)
        have z2 : bump j k (nl * nm + c * nr + i) = 0 := if_neg (fun h => hne (idx_inj (a := c) (b := b0) hi hj0 (by omega)).2)
        rw [z1, z2]; simp

theorem mat_idx_lt {nl nm nr q : ℕ} (j : Fin (matN nl nm nr)) {k : ℕ} (hk : k ≤ q) :
    (j : ℕ) * (q + 1) + k < matN nl nm nr * (q + 1) := idx_lt j.isLt (by omega)

/-- **C54** the loop that the comment in mat_mul/reverse.hpp:84 describes computes the derivatives of all weighted sums of
Taylor coefficients -/
theorem matReverseDoc_ok (px0 : ℕ → ℝ) (nl nm nr : ℕ) :
    ReverseOk (matN nl nm nr) (nl * nr) (matFn nl nm nr) Set.univ
      (fun _ q tx _ py => matReverseTo (fun k => k + 1) px0 nl nm nr q tx py) := by
  intro sel q X' tx ty py _ hX _ htx _ j _ k hk
  dsimp only
  rw [matReverseTo_val _ _ _ _ _ _ _ _ (mat_idx_lt j hk)]
  exact matR_ok py hX htx j hk

/-- **C54** (reverse mode of the matrix product) the code is correct when only the weights of the highest order are not
zero, as they are in `Reverse(q, w)` with one weight for each result.  Missing: the other weights, for which
`matReverse_not_ok` shows that the code is wrong. -/
theorem matReverse_ok_partial (px0 : ℕ → ℝ) (nl nm nr : ℕ) :
    ReverseOkFor (matN nl nm nr) (nl * nr) (matFn nl nm nr) Set.univ
      (fun q py => ∀ i < nl * nr, ∀ k < q, py (i * (q + 1) + k) = 0) (matReverse px0 nl nm nr) := by
  intro sel q X' tx ty py hW hX _ htx _ j _ k hk
  unfold matReverse
  rw [matReverseTo_val _ _ _ _ _ _ _ _ (mat_idx_lt j hk)]
  have : ∑ k' ∈ Finset.range (q + 1), ∑ ell ∈ Finset.range (q + 1), matG nl nm nr (q + 1) tx py k' ell (j * (q + 1) + k)
      = matR nl nm nr (q + 1) tx py (j * (q + 1) + k) := by
    unfold matR
    refine Finset.sum_congr rfl fun k' hk' => ?_
    rw [Finset.mem_range] at hk'
    by_cases e : k' = q
    · rw [e]
    · rw [Finset.sum_eq_zero, Finset.sum_eq_zero]
      · intro ell _; exact matG_zero _ _ _ _ _ _ _ _ _ (fun i hi => hW i hi k' (by omega))
      · intro ell _; exact matG_zero _ _ _ _ _ _ _ _ _ (fun i hi => hW i hi k' (by omega))
  rw [this]
  exact matR_ok py hX htx j hk

/-- the weights of `matReverse_ok_partial` include all weights of first order reverse mode (order zero) -/
example (nl nr : ℕ) (py : ℕ → ℝ) : ∀ i < nl * nr, ∀ k < 0, py (i * (0 + 1) + k) = 0 := by intros; omega

/-- the curve `x(t) = (3 + 5 t, 7 + 11 t)` -/
noncomputable def exCurve (t : ℝ) (j : Fin (matN 1 1 1)) : ℝ := if (j : ℕ) = 0 then 3 + 5 * t else 7 + 11 * t

theorem tc_lin (a b : ℝ) (k : ℕ) : tc (fun t => a + b * t) k = if k = 0 then a else if k = 1 then b else 0 := by
  have hs : Sm (fun _ : ℝ => a) := contDiffAt_const
  have h := T_bump hs b 1
  rw [tc_eq]
  simp only [pow_one] at h
  rw [h, T_const, map_add, coeff_C_mul, coeff_X, coeff_C]
  by_cases h0 : k = 0
  · subst h0; simp
  · simp [h0]

/-- **C54** (defect) the code is not correct for all weights: with 1 × 1 matrices, `A(t) = 3 + 5 t`, `B(t) = 7 + 11 t` and the
weight one for `C(0)`, the derivative with respect to the coefficient of `t` in `A` is zero, and the code computes
twice the coefficient of `t` in `A` (it reads and adds at an index that is one row below the intended one).  mat_mul/reverse.hpp:87 has `ell < q`, should be `ell <= k`. -/
theorem matReverse_not_ok (px0 : ℕ → ℝ) :
    ¬ ReverseOk (matN 1 1 1) (1 * 1) (matFn 1 1 1) Set.univ (matReverse px0 1 1 1) := by
  intro h
  have hX : ∀ j, Sm (fun t => exCurve t j) := by
    intro j
    unfold exCurve Sm
    by_cases e : (j : ℕ) = 0
    · simp only [if_pos e]; fun_prop
    · simp only [if_neg e]; fun_prop
  have htc : ∀ j k, tc (fun t => exCurve t j) k
      = if (j : ℕ) = 0 then (if k = 0 then 3 else if k = 1 then 5 else 0) else (if k = 0 then 7 else if k = 1 then 11 else 0) := by
    intro j k
    unfold exCurve
    by_cases e : (j : ℕ) = 0
    · simp only [if_pos e]; exact tc_lin 3 5 k
    · simp only [if_neg e]; exact tc_lin 7 11 k
  set tx : ℕ → ℝ := fun c => if c = 0 then 3 else if c = 1 then 5 else if c = 2 then 7 else 11 with htxd
  set py : ℕ → ℝ := fun c => if c = 0 then 1 else 0 with hpy
  have htx : ∀ j : Fin (matN 1 1 1), ∀ k ≤ 1, tx (j * (1 + 1) + k) = tc (fun t => exCurve t j) k := by
    intro j k hk
    rw [htc]
    have hj : (j : ℕ) < 2 := j.isLt
    rcases Nat.lt_or_ge (j : ℕ) 1 with h0 | h0
    · have e : (j : ℕ) = 0 := by omega
      rw [e]
      rcases Nat.lt_or_ge k 1 with h1 | h1
      · have : k = 0 := by omega
        subst this; simp [htxd]
      · have : k = 1 := by omega
        subst this; simp [htxd]
    · have e : (j : ℕ) = 1 := by omega
      rw [e]
      rcases Nat.lt_or_ge k 1 with h1 | h1
      · have : k = 0 := by omega
        subst this; simp [htxd]
      · have : k = 1 := by omega
        subst this; simp [htxd]
  have h0 : (0 : ℕ) < matN 1 1 1 := by decide
  have := h (fun _ => true) 1 exCurve tx
    (fun c => tc (fun t => matFn 1 1 1 (exCurve t) (c / 2)) (c % 2)) py trivial hX (Set.mem_univ _) htx
    (by
      intro i hi k hk
      have e1 : (i * (1 + 1) + k) / 2 = i := by omega
      have e2 : (i * (1 + 1) + k) % 2 = k := by omega
      rw [e1, e2]) ⟨0, h0⟩ rfl 1 le_rfl
  have h2 := matR_ok (q := 1) py hX htx ⟨0, h0⟩ (k := 1) le_rfl
  have h3 := this.unique h2
  have e1 : matR 1 1 1 (1 + 1) tx py ((⟨0, h0⟩ : Fin (matN 1 1 1)) * (1 + 1) + 1) = 0 := by
    have := matR_left 1 1 1 2 tx py (a := 0) (b := 0) (k' := 1) (by omega) (by omega) (by omega)
    refine this.trans ?_
    simp [Finset.sum_range_succ, hpy]
  rw [e1] at h3
  unfold matReverse at h3
  rw [matReverseTo_val _ _ _ _ _ _ _ _ (mat_idx_lt _ le_rfl)] at h3
  have hV1 : ∀ k ell, baseMatMul 1 1 1 (matU1 1 1 1 2 k ell tx py) (fun _ => 0) 0 = py k * tx (2 + k - ell) := by
    intro k ell
    have := matV1_val 1 1 1 2 k ell tx py (a := 0) (b := 0) (by omega) (by omega)
    simpa using this
  have hV2 : ∀ k ell, baseMatMul 1 1 1 (matU2 1 1 1 2 k ell tx py) (fun _ => 0) 0 = tx ell * py k := by
    intro k ell
    have := matV2_val 1 1 1 2 k ell tx py (b := 0) (j := 0) (by omega) (by omega)
    simpa using this
  simp [Finset.sum_range_succ, matG, hV1, hV2] at h3
  norm_num [hpy, htxd] at h3

end CppAD.AtomEx
