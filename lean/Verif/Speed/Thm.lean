import Verif.Speed.Model
import Verif.Taylor.Drivers
import Verif.AtomEx.Base
import Verif.AbsOpt.EvalThm

/-! # Derivatives of the functions of Verif/Speed/Model.lean (property C66) -/

namespace CppAD.Speed

open CppAD.AtomEx (forRange_additive)

/-! ## components of a vector along a coordinate -/

/-- derivative of component `i` with respect to component `a` -/
def dlt (i a : ℕ) : ℝ := if i = a then 1 else 0

theorem comp_zero (x : ℕ → ℝ) (a i : ℕ) : Function.update x a (x a + 0) i = x i := by simp

theorem comp_deriv (x : ℕ → ℝ) (a i : ℕ) : HasDerivAt (fun ε => Function.update x a (x a + ε) i) (dlt i a) 0 := by
  unfold dlt
  by_cases h : i = a
  · subst h
    simp only [Function.update_self, if_true]
    exact (hasDerivAt_id' (0 : ℝ)).const_add (x i)
  · simp only [Function.update_of_ne h, if_neg h]
    exact hasDerivAt_const 0 (x i)

theorem partial_sum {K : ℕ} {g : ℕ → (ℕ → ℝ) → ℝ} {x : ℕ → ℝ} {a : ℕ} {d : ℕ → ℝ}
    (h : ∀ k < K, IsPartial (g k) x a (d k)) :
    IsPartial (fun x => ∑ k ∈ Finset.range K, g k x) x a (∑ k ∈ Finset.range K, d k) :=
  HasDerivAt.fun_sum fun k hk => h k (Finset.mem_range.1 hk)

/-! ## sparse_jac_fun -/

theorem sparseJac_val (m K : ℕ) (x : ℕ → ℝ) (row col : ℕ → ℕ) (fp : ℕ → ℝ) {i : ℕ} (hi : i < m) :
    sparseJacFun m K x row col 0 fp i =
      ∑ k ∈ Finset.range K, if row k = i then Real.exp (x (col k) * x (col k) / 2) else 0 := by
  unfold sparseJacFun
  simp only [if_true]
  rw [forRange_additive (G := fun k c => if row k = c then Real.exp (x (col k) * x (col k) / 2) else 0)]
  · have h0 : forRange 0 m fp (fun i fp => Function.update fp i 0) i = 0 := by
      refine forRange_ind (Nat.zero_le m) (P := fun K (t : ℕ → ℝ) => ∀ i < K, t i = 0) (by intro i hi; omega) ?_ i hi
      intro k t _ _ ih i hi
      by_cases e : i = k
      · subst e; simp
      · rw [Function.update_of_ne e]; exact ih i (by omega)
    rw [h0, zero_add, Finset.range_eq_Ico]
  · intro k v c _ _
    by_cases h : c = row k
    · subst h; simp
    · rw [Function.update_of_ne h, if_neg (fun e => h e.symm), add_zero]

theorem sparseJac_der (m K : ℕ) (x : ℕ → ℝ) (row col : ℕ → ℕ) (fp : ℕ → ℝ) {k : ℕ} (hk : k < K) :
    sparseJacFun m K x row col 1 fp k = Real.exp (x (col k) * x (col k) / 2) * x (col k) := by
  unfold sparseJacFun
  simp only [one_ne_zero, if_false]
  refine forRange_ind (Nat.zero_le K) (P := fun L (t : ℕ → ℝ) => ∀ k < L, t k = Real.exp (x (col k) * x (col k) / 2) * x (col k))
    (by intro i hi; omega) ?_ k hk
  intro l t _ _ ih i hi
  by_cases e : i = l
  · subst e; simp
  · rw [Function.update_of_ne e]; exact ih i (by omega)

theorem jac_partial (K : ℕ) (x : ℕ → ℝ) (row col : ℕ → ℕ) (i j : ℕ) :
    IsPartial (fun x => ∑ k ∈ Finset.range K, if row k = i then Real.exp (x (col k) * x (col k) / 2) else 0) x j
      (∑ k ∈ Finset.range K, if row k = i ∧ col k = j then Real.exp (x j * x j / 2) * x j else 0) := by
  refine partial_sum fun k _ => ?_
  unfold IsPartial
  by_cases h : row k = i
  · simp only [if_pos h, h, true_and]
    have h1 := comp_deriv x j (col k)
    have h2 := ((h1.fun_mul h1).div_const 2).exp
    refine h2.congr_deriv ?_
    simp only [comp_zero, dlt]
    split_ifs with h3
    · subst h3; ring
    · ring
  · simp only [if_neg h, h, false_and, if_false]
    exact hasDerivAt_const 0 (0 : ℝ)

/-- **C66, sparse_jac_fun.**  When no entry is requested twice, the result for `p = 1` are the derivatives of the result for `p = 0`,
and all the other entries of the Jacobian are zero.  `_partial`: the documentation does not require that the entries are
different, and then the result is wrong (`sparseJac_dup_wrong`). -/
theorem sparseJac_ok_partial (m K : ℕ) (row col : ℕ → ℕ) (hr : ∀ k < K, row k < m)
    (hd : ∀ k < K, ∀ l < K, row k = row l → col k = col l → k = l) (x fp : ℕ → ℝ) :
    (∀ k < K, IsPartial (fun x => sparseJacFun m K x row col 0 fp (row k)) x (col k) (sparseJacFun m K x row col 1 fp k)) ∧
    ∀ i < m, ∀ j, (∀ k < K, ¬ (row k = i ∧ col k = j)) →
      IsPartial (fun x => sparseJacFun m K x row col 0 fp i) x j 0 := by
  have hf : ∀ i < m, (fun x => sparseJacFun m K x row col 0 fp i) =
      fun x => ∑ k ∈ Finset.range K, if row k = i then Real.exp (x (col k) * x (col k) / 2) else 0 :=
    fun i hi => funext fun x => sparseJac_val m K x row col fp hi
  constructor
  · intro k hk
    rw [hf _ (hr k hk), sparseJac_der m K x row col fp hk]
    refine (jac_partial K x row col (row k) (col k)).congr_deriv ?_
    rw [Finset.sum_eq_single k]
    · simp
    · intro l hl hne
      rw [if_neg]
      rintro ⟨h1, h2⟩
      exact hne (hd l (Finset.mem_range.1 hl) k hk h1 h2)
    · intro h; exact absurd (Finset.mem_range.2 hk) h
  · intro i hi j h
    rw [hf i hi]
    refine (jac_partial K x row col i j).congr_deriv ?_
    refine Finset.sum_eq_zero fun k hk => ?_
    rw [if_neg (h k (Finset.mem_range.1 hk))]

/-- the hypotheses are met -/
example : ∃ row col : ℕ → ℕ, (∀ k < 2, row k < 2) ∧ (∀ k < 2, ∀ l < 2, row k = row l → col k = col l → k = l) ∧
    sparseJacFun 2 2 (fun _ => 0) row col 0 (fun _ => 5) 1 = 1 := by
  refine ⟨fun k => k, fun _ => 0, fun k h => h, fun k _ l _ h _ => h, ?_⟩
  rw [sparseJac_val _ _ _ _ _ _ (by omega)]
  simp [Finset.sum_range_succ]

/-- the claim is false of the code when an entry is requested twice: the derivative is counted once in `fp` -/
theorem sparseJac_dup_wrong : ∃ (m K : ℕ) (row col : ℕ → ℕ) (x fp : ℕ → ℝ), m ≤ K ∧ (∀ k < K, row k < m) ∧ ∃ k < K,
    ¬ IsPartial (fun x => sparseJacFun m K x row col 0 fp (row k)) x (col k) (sparseJacFun m K x row col 1 fp k) := by
  refine ⟨1, 2, fun _ => 0, fun _ => 0, fun _ => 1, fun _ => 0, by omega, fun k _ => by simp, 0, by omega, fun h => ?_⟩
  have hf : (fun x => sparseJacFun 1 2 x (fun _ => 0) (fun _ => 0) 0 (fun _ => 0) 0) =
      fun x => ∑ k ∈ Finset.range 2, if (fun _ => 0 : ℕ → ℕ) k = 0 then
        Real.exp (x ((fun _ => 0 : ℕ → ℕ) k) * x ((fun _ => 0 : ℕ → ℕ) k) / 2) else 0 :=
    funext fun x => sparseJac_val 1 2 x (fun _ => 0) (fun _ => 0) (fun _ => 0) (by omega)
  dsimp only at h
  rw [hf, sparseJac_der 1 2 _ _ _ _ (by omega)] at h
  have h2 := HasDerivAt.unique h (jac_partial 2 (fun _ => 1) (fun _ => 0) (fun _ => 0) 0 0)
  simp [Finset.sum_range_succ] at h2

/-! ## sparse_hes_fun -/

/-- the function, when `p` is zero -/
theorem sparseHes_val (n K : ℕ) (x : ℕ → ℝ) (row col : ℕ → ℕ) (fp : ℕ → ℝ) (d0 : ℕ → ℕ) (f0 : ℕ → ℝ) :
    sparseHesFun n K x row col 0 fp d0 f0 0 = ∑ k ∈ Finset.range K, Real.exp (x (row k) * x (col k)) := by
  unfold sparseHesFun
  simp only [if_true]
  rw [AbsOpt.accum]
  simp

/-- the second partial of `exp(x[i] * x[j])` with respect to `x[a]`, `x[b]` -/
noncomputable def hesEntry (x : ℕ → ℝ) (i j a b : ℕ) : ℝ :=
  (dlt i a * dlt j b + dlt j a * dlt i b) * Real.exp (x i * x j) +
    (dlt i a * x j + x i * dlt j a) * ((dlt i b * x j + x i * dlt j b) * Real.exp (x i * x j))

theorem hes_partial1 (x : ℕ → ℝ) (i j a : ℕ) :
    IsPartial (fun x => Real.exp (x i * x j)) x a ((dlt i a * x j + x i * dlt j a) * Real.exp (x i * x j)) := by
  unfold IsPartial
  refine (((comp_deriv x a i).fun_mul (comp_deriv x a j)).exp).congr_deriv ?_
  simp only [comp_zero]
  ring

theorem hes_partial2 (x : ℕ → ℝ) (i j a b : ℕ) :
    IsPartial (fun x => (dlt i a * x j + x i * dlt j a) * Real.exp (x i * x j)) x b (hesEntry x i j a b) := by
  have h1 := hes_partial1 x i j b
  unfold IsPartial at h1 ⊢
  have h2 := ((comp_deriv x b j).const_mul (dlt i a)).fun_add ((comp_deriv x b i).mul_const (dlt j a))
  refine (h2.fun_mul h1).congr_deriv ?_
  simp only [comp_zero, hesEntry]
  ring

theorem hes_sum (K : ℕ) (x : ℕ → ℝ) (row col : ℕ → ℕ) (a b : ℕ) :
    IsPartial2 (fun x => ∑ k ∈ Finset.range K, Real.exp (x (row k) * x (col k))) x b a
      (∑ k ∈ Finset.range K, hesEntry x (row k) (col k) a b) :=
  ⟨fun x => ∑ k ∈ Finset.range K, (dlt (row k) a * x (col k) + x (row k) * dlt (col k) a) * Real.exp (x (row k) * x (col k)),
    Filter.Eventually.of_forall fun _ => partial_sum fun k _ => hes_partial1 _ (row k) (col k) a,
    partial_sum fun k _ => hes_partial2 x (row k) (col k) a b⟩

/-- no entry is requested twice -/
def NoDup (K : ℕ) (row col : ℕ → ℕ) : Prop := ∀ k < K, ∀ l < K, row k = row l → col k = col l → k = l

theorem hesDiagonal_ok {n K : ℕ} {row col : ℕ → ℕ} (hr : ∀ k < K, row k < n) (hd : NoDup K row col) (d0 : ℕ → ℕ) :
    (hesDiagonal n K row col d0).2 = true ∧ ∀ i < n,
      (∀ k < K, row k = i → col k = i → (hesDiagonal n K row col d0).1 i = k) ∧
      ((∀ k < K, ¬ (row k = i ∧ col k = i)) → (hesDiagonal n K row col d0).1 i = K) := by
  have hinit : ∀ i < n, forRange 0 n d0 (fun i d => Function.update d i K) i = K := by
    refine forRange_ind (Nat.zero_le n) (P := fun L (t : ℕ → ℕ) => ∀ i < L, t i = K) (by intro i hi; omega) ?_
    intro k t _ _ ih i hi
    by_cases e : i = k
    · subst e; simp
    · rw [Function.update_of_ne e]; exact ih i (by omega)
  unfold hesDiagonal
  dsimp only
  refine forRange_ind (Nat.zero_le K) (P := fun L (s : (ℕ → ℕ) × Bool) => s.2 = true ∧ ∀ i < n,
      (∀ k < L, row k = i → col k = i → s.1 i = k) ∧ ((∀ k < L, ¬ (row k = i ∧ col k = i)) → s.1 i = K)) ?_ ?_
  · exact ⟨rfl, fun i hi => ⟨fun k hk => absurd hk (by omega), fun _ => hinit i hi⟩⟩
  · intro k s _ hk ih
    by_cases h : row k = col k
    · rw [if_pos h]
      have hno : ∀ l < k, ¬ (row l = row k ∧ col l = row k) := by
        rintro l hl ⟨h1, h2⟩
        have := hd l (by omega) k hk h1 (h2.trans h)
        omega
      have hK := (ih.2 (row k) (hr k hk)).2 hno
      refine ⟨by simp [ih.1, hK], fun i hi => ⟨fun l hl h1 h2 => ?_, fun hall => ?_⟩⟩
      · dsimp only
        by_cases e : l = k
        · subst e; rw [← h1]; simp
        · by_cases e2 : i = row k
          · exact absurd ⟨h1.trans e2, h2.trans e2⟩ (hno l (by omega))
          · rw [Function.update_of_ne e2]
            exact (ih.2 i hi).1 l (by omega) h1 h2
      · have e2 : i ≠ row k := by
          rintro rfl
          exact hall k (by omega) ⟨rfl, h.symm⟩
        dsimp only
        rw [Function.update_of_ne e2]
        exact (ih.2 i hi).2 fun l hl => hall l (by omega)
    · rw [if_neg h]
      refine ⟨ih.1, fun i hi => ⟨fun l hl h1 h2 => ?_, fun hall => (ih.2 i hi).2 fun l hl => hall l (by omega)⟩⟩
      by_cases e : l = k
      · subst e; exact absurd (h1.trans h2.symm) h
      · exact (ih.2 i hi).1 l (by omega) h1 h2

/-- the assertion in `sparse_hes_fun` fails when a diagonal entry is requested twice -/
theorem hesDiagonal_assert {n K : ℕ} {row col : ℕ → ℕ} (d0 : ℕ → ℕ) (h : (hesDiagonal n K row col d0).2 = true)
    {k l : ℕ} (hk : k < K) (hl : l < K) (dk : row k = col k) (dl : row l = col l) (e : row k = row l) : k = l := by
  have key : (∀ k < K, row k = col k → (hesDiagonal n K row col d0).1 (row k) ≠ K) ∧
      ((hesDiagonal n K row col d0).2 = true → ∀ k < K, ∀ l < K, row k = col k → row l = col l → row k = row l → k = l) := by
    unfold hesDiagonal
    dsimp only
    refine forRange_ind (Nat.zero_le K) (P := fun L (s : (ℕ → ℕ) × Bool) => (∀ k < L, row k = col k → s.1 (row k) ≠ K) ∧
      (s.2 = true → ∀ k < L, ∀ l < L, row k = col k → row l = col l → row k = row l → k = l)) ?_ ?_
    · exact ⟨fun k hk => absurd hk (by omega), fun _ k hk => absurd hk (by omega)⟩
    · intro m s _ hm ih
      by_cases hd : row m = col m
      · rw [if_pos hd]
        refine ⟨fun k hk dk => ?_, fun ht k hk l hl dk dl e => ?_⟩
        · dsimp only
          by_cases e2 : row k = row m
          · rw [e2, Function.update_self]; omega
          · rw [Function.update_of_ne e2]
            exact ih.1 k (by rcases Nat.lt_succ_iff_lt_or_eq.1 hk with h | h; exact h; exact absurd (by rw [h]) e2) dk
        · simp only [Bool.and_eq_true, decide_eq_true_eq] at ht
          rcases Nat.lt_succ_iff_lt_or_eq.1 hk with h1 | h1 <;> rcases Nat.lt_succ_iff_lt_or_eq.1 hl with h2 | h2
          · exact ih.2 ht.1 k h1 l h2 dk dl e
          · subst h2
            exact absurd (by rw [e]; exact ht.2) (ih.1 k h1 dk)
          · subst h1
            exact absurd (by rw [← e]; exact ht.2) (ih.1 l h2 dl)
          · omega
      · rw [if_neg hd]
        refine ⟨fun k hk dk => ?_, fun ht k hk l hl dk dl e => ?_⟩
        · rcases Nat.lt_succ_iff_lt_or_eq.1 hk with h | h
          · exact ih.1 k h dk
          · subst h; exact absurd dk hd
        · rcases Nat.lt_succ_iff_lt_or_eq.1 hk with h1 | h1
          · rcases Nat.lt_succ_iff_lt_or_eq.1 hl with h2 | h2
            · exact ih.2 ht k h1 l h2 dk dl e
            · subst h2; exact absurd dl hd
          · subst h1; exact absurd dk hd
  exact key.2 h k hk l hl dk dl e

/-- the hypothesis can be met, and fails for a repeated diagonal entry -/
example : (hesDiagonal 2 2 (fun k => k) (fun k => k) fun _ => 0).2 = true ∧
    (hesDiagonal 2 2 (fun _ => 1) (fun _ => 1) fun _ => 0).2 = false := by
  decide +kernel

open Classical in
theorem hesFactor_ok (K : ℕ) (row col : ℕ → ℕ) (f0 : ℕ → ℝ) {k : ℕ} (hk : k < K) :
    hesFactor K row col f0 k = if ∃ l < K, k ≠ l ∧ row k ≠ col k ∧ row k = col l ∧ col k = row l then 2 else 1 := by
  have inner : ∀ (k : ℕ) (f : ℕ → ℝ), forRange 0 K (Function.update f k 1) (fun k1 f =>
      if k ≠ k1 ∧ row k ≠ col k ∧ row k = col k1 ∧ col k = row k1 then Function.update f k 2 else f) =
      Function.update f k (if ∃ l < K, k ≠ l ∧ row k ≠ col k ∧ row k = col l ∧ col k = row l then 2 else 1) := by
    intro k f
    refine forRange_ind (Nat.zero_le K) (P := fun L (t : ℕ → ℝ) => t = Function.update f k
      (if ∃ l < L, k ≠ l ∧ row k ≠ col k ∧ row k = col l ∧ col k = row l then 2 else 1)) ?_ ?_
    · simp
    · intro l t _ _ ih
      rw [ih]
      by_cases h : k ≠ l ∧ row k ≠ col k ∧ row k = col l ∧ col k = row l
      · have hex : ∃ q < l + 1, k ≠ q ∧ row k ≠ col k ∧ row k = col q ∧ col k = row q := ⟨l, by omega, h⟩
        rw [if_pos h, if_pos hex, Function.update_idem]
      · rw [if_neg h]
        congr 1
        congr 1
        refine propext ⟨fun ⟨q, h1, h2⟩ => ⟨q, by omega, h2⟩, fun ⟨q, h1, h2⟩ => ⟨q, ?_, h2⟩⟩
        by_contra hc
        exact h ((show q = l by omega) ▸ h2)
  unfold hesFactor
  refine forRange_ind (Nat.zero_le K) (P := fun L (t : ℕ → ℝ) => ∀ k < L, t k =
    if ∃ l < K, k ≠ l ∧ row k ≠ col k ∧ row k = col l ∧ col k = row l then 2 else 1) (by intro i hi; omega) ?_ k hk
  intro l t _ _ ih i hi
  rw [inner]
  by_cases e : i = l
  · subst e; simp
  · rw [Function.update_of_ne e]; exact ih i (by omega)

/-- what one term adds to element `c` -/
noncomputable def hesAdd (K : ℕ) (x : ℕ → ℝ) (row col diagonal : ℕ → ℕ) (factor : ℕ → ℝ) (k c : ℕ) : ℝ :=
  let i := row k
  let j := col k
  let t := Real.exp (x i * x j)
  if i = j then (if c = k then (2 + 4 * x i * x i) * t else 0)
  else (if c = k then factor k * (1 + x i * x j) * t else 0) +
    ((if diagonal i ≠ K ∧ c = diagonal i then x j * x j * t else 0) +
      if diagonal j ≠ K ∧ c = diagonal j then x i * x i * t else 0)

theorem update_add (v : ℕ → ℝ) (k c : ℕ) (d : ℝ) : Function.update v k (v k + d) c = v c + if c = k then d else 0 := by
  by_cases h : c = k
  · subst h; simp
  · rw [Function.update_of_ne h, if_neg h, add_zero]

theorem cond_update (b : Prop) [Decidable b] (v : ℕ → ℝ) (k c : ℕ) (d : ℝ) :
    (if b then Function.update v k (v k + d) else v) c = v c + if b ∧ c = k then d else 0 := by
  by_cases h : b
  · simp only [if_pos h, h, true_and]; exact update_add v k c d
  · simp [h]

theorem hesTerm_add (K : ℕ) (x : ℕ → ℝ) (row col diagonal : ℕ → ℕ) (factor : ℕ → ℝ) (k : ℕ) (fp : ℕ → ℝ) (c : ℕ) :
    hesTerm K x row col diagonal factor k fp c = fp c + hesAdd K x row col diagonal factor k c := by
  unfold hesTerm hesAdd
  dsimp only
  by_cases h : row k = col k
  · rw [if_pos h, if_pos h, update_add]
  · rw [if_neg h, if_neg h]
    rw [cond_update, cond_update, update_add]
    ring

theorem sparseHes_der (n K : ℕ) (x : ℕ → ℝ) (row col : ℕ → ℕ) (fp : ℕ → ℝ) (d0 : ℕ → ℕ) (f0 : ℕ → ℝ) {c : ℕ} (hc : c < K) :
    sparseHesFun n K x row col 2 fp d0 f0 c = ∑ k ∈ Finset.range K,
      hesAdd K x row col (hesDiagonal n K row col d0).1 (hesFactor K row col f0) k c := by
  unfold sparseHesFun
  simp only [OfNat.ofNat_ne_zero, if_false]
  rw [forRange_additive (G := fun k c => hesAdd K x row col (hesDiagonal n K row col d0).1 (hesFactor K row col f0) k c)]
  · have h0 : forRange 0 K fp (fun i fp => Function.update fp i 0) c = 0 := by
      refine forRange_ind (Nat.zero_le K) (P := fun L (t : ℕ → ℝ) => ∀ i < L, t i = 0) (by intro i hi; omega) ?_ c hc
      intro k t _ _ ih i hi
      by_cases e : i = k
      · subst e; simp
      · rw [Function.update_of_ne e]; exact ih i (by omega)
    rw [h0, zero_add, Finset.range_eq_Ico]
  · intro k v c _ _
    exact hesTerm_add ..

/-- the sum of what the terms add to element `l` is the second partial -/
theorem hes_total {n K : ℕ} {row col : ℕ → ℕ} (hr : ∀ k < K, row k < n) (hc : ∀ k < K, col k < n) (hd : NoDup K row col)
    (x : ℕ → ℝ) (d0 : ℕ → ℕ) (f0 : ℕ → ℝ) {l : ℕ} (hl : l < K) :
    ∑ k ∈ Finset.range K, hesAdd K x row col (hesDiagonal n K row col d0).1 (hesFactor K row col f0) k l =
      ∑ k ∈ Finset.range K, hesEntry x (row k) (col k) (row l) (col l) := by
  classical
  have hdg := (hesDiagonal_ok hr hd d0).2
  set D := (hesDiagonal n K row col d0).1 with hD
  -- diagonal entries
  have hdi : ∀ i < n, (D i ≠ K ∧ l = D i) ↔ (row l = i ∧ col l = i) := by
    intro i hi
    constructor
    · rintro ⟨h1, h2⟩
      by_contra hcn
      by_cases hex : ∃ k < K, row k = i ∧ col k = i
      · obtain ⟨k, hk, e1, e2⟩ := hex
        have := (hdg i hi).1 k hk e1 e2
        rw [h2, this] at hcn
        exact hcn ⟨e1, e2⟩
      · exact h1 ((hdg i hi).2 fun k hk e => hex ⟨k, hk, e⟩)
    · rintro ⟨e1, e2⟩
      have := (hdg i hi).1 l hl e1 e2
      exact ⟨by omega, this.symm⟩
  by_cases hab : row l = col l
  · refine Finset.sum_congr rfl fun k hk => ?_
    have hk := Finset.mem_range.1 hk
    unfold hesAdd hesEntry
    dsimp only
    rw [← hab]
    by_cases hij : row k = col k
    · rw [if_pos hij, ← hij]
      by_cases hlk : l = k
      · subst hlk; simp only [if_true, dlt]; ring
      · rw [if_neg hlk]
        have : row k ≠ row l := fun e => hlk (hd l hl k hk e.symm (by rw [← hab, ← hij, e]))
        simp [dlt, this]
    · rw [if_neg hij]
      have hlk : l ≠ k := by rintro rfl; exact hij hab
      rw [if_neg hlk]
      simp only [hdi _ (hr k hk), hdi _ (hc k hk), ← hab, and_self]
      simp only [dlt, eq_comm (a := row l)]
      by_cases h1 : row k = row l <;> by_cases h2 : col k = row l
      · exact absurd (h1.trans h2.symm) hij
      · simp only [if_pos h1, if_neg h2]; ring
      · simp only [if_neg h1, if_pos h2]; ring
      · simp only [if_neg h1, if_neg h2]; ring
  · -- off the diagonal
    have hH : ∀ k ∈ Finset.range K, hesEntry x (row k) (col k) (row l) (col l) =
        (if k = l then (1 + x (row l) * x (col l)) * Real.exp (x (row l) * x (col l)) else 0) +
        if row k = col l ∧ col k = row l then (1 + x (row l) * x (col l)) * Real.exp (x (row l) * x (col l)) else 0 := by
      intro k hk
      have hk := Finset.mem_range.1 hk
      unfold hesEntry dlt
      by_cases h1 : row k = row l
      · by_cases h2 : col k = col l
        · have e := hd k hk l hl h1 h2
          subst e
          simp only [if_true, hab, Ne.symm hab, if_false, false_and]; ring
        · have e : k ≠ l := by rintro rfl; exact h2 rfl
          have e2 : ¬ (row k = col l ∧ col k = row l) := fun h => hab (h1.symm.trans h.1)
          have e3 : row k ≠ col l := fun h => hab (h1.symm.trans h)
          simp only [if_pos h1, if_neg h2, if_neg e, if_neg e2, if_neg e3]; ring
      · have e : k ≠ l := by rintro rfl; exact h1 rfl
        by_cases h3 : row k = col l ∧ col k = row l
        · have e4 : col k ≠ col l := fun h => hab (h3.2.symm.trans h)
          have e5 : row k ≠ row l := h1
          simp only [if_neg e, if_neg e5, if_neg e4, if_pos h3, if_pos h3.1, if_pos h3.2]
          rw [h3.1, h3.2]
          rw [mul_comm (x (col l)) (x (row l))]
          ring
        · rw [if_neg e, if_neg h3]
          simp only [if_neg h1]
          by_cases h4 : row k = col l
          · have h5 : col k ≠ row l := fun h => h3 ⟨h4, h⟩
            simp only [if_neg h5]; ring
          · simp only [if_neg h4]
            by_cases h5 : col k = row l
            · have : col k ≠ col l := fun h => hab (h5.symm.trans h)
              simp only [if_neg this]; ring
            · simp only [if_neg h5]; ring
    have hA : ∀ k ∈ Finset.range K, hesAdd K x row col D (hesFactor K row col f0) k l =
        if k = l then hesFactor K row col f0 l * (1 + x (row l) * x (col l)) * Real.exp (x (row l) * x (col l)) else 0 := by
      intro k hk
      have hk := Finset.mem_range.1 hk
      unfold hesAdd
      dsimp only
      by_cases hlk : k = l
      · subst hlk
        have g1 : ¬ (D (row k) ≠ K ∧ k = D (row k)) := by
          rw [hdi _ (hr k hk)]; exact fun h => hab (h.1.trans h.2.symm)
        have g2 : ¬ (D (col k) ≠ K ∧ k = D (col k)) := by
          rw [hdi _ (hc k hk)]; exact fun h => hab (h.1.trans h.2.symm)
        rw [if_neg hab, if_neg g1, if_neg g2]; simp
      · have hlk' : l ≠ k := fun e => hlk e.symm
        rw [if_neg hlk', if_neg hlk', if_neg hlk]
        by_cases hij : row k = col k
        · rw [if_pos hij]
        · have g1 : ¬ (D (row k) ≠ K ∧ l = D (row k)) := by
            rw [hdi _ (hr k hk)]; exact fun h => hab (h.1.trans h.2.symm)
          have g2 : ¬ (D (col k) ≠ K ∧ l = D (col k)) := by
            rw [hdi _ (hc k hk)]; exact fun h => hab (h.1.trans h.2.symm)
          rw [if_neg hij, if_neg g1, if_neg g2]; simp
    rw [Finset.sum_congr rfl hH, Finset.sum_congr rfl hA, Finset.sum_add_distrib, Finset.sum_ite_eq', Finset.sum_ite_eq',
      if_pos (Finset.mem_range.2 hl), if_pos (Finset.mem_range.2 hl), hesFactor_ok K row col f0 hl]
    by_cases hex : ∃ k < K, l ≠ k ∧ row l ≠ col l ∧ row l = col k ∧ col l = row k
    · rw [if_pos hex]
      obtain ⟨k, hk, h1, _, h3, h4⟩ := hex
      rw [Finset.sum_eq_single k, if_pos ⟨h4.symm, h3.symm⟩]
      · ring
      · intro q hq hne
        rw [if_neg]
        rintro ⟨e1, e2⟩
        exact hne (hd q (Finset.mem_range.1 hq) k hk (e1.trans h4) (e2.trans h3))
      · intro h; exact absurd (Finset.mem_range.2 hk) h
    · rw [if_neg hex, Finset.sum_eq_zero]
      · ring
      · intro q hq
        rw [if_neg]
        rintro ⟨e1, e2⟩
        refine hex ⟨q, Finset.mem_range.1 hq, ?_, hab, e2.symm, e1.symm⟩
        rintro rfl; exact hab e1

/-- **C66, sparse_hes_fun.**  The result for `p = 2` are the second partial derivatives of the result for `p = 0`, a second partial
that is not of one of the documented forms is zero, and the assertion does not fail. -/
theorem sparseHes_ok (n K : ℕ) (row col : ℕ → ℕ) (hr : ∀ k < K, row k < n) (hc : ∀ k < K, col k < n)
    (hd : NoDup K row col) (x fp : ℕ → ℝ) (d0 : ℕ → ℕ) (f0 : ℕ → ℝ) :
    (hesDiagonal n K row col d0).2 = true ∧
    (∀ k < K, IsPartial2 (fun x => sparseHesFun n K x row col 0 fp d0 f0 0) x (row k) (col k)
      (sparseHesFun n K x row col 2 fp d0 f0 k)) ∧
    ∀ a b, (∀ k < K, ¬ ((a = row k ∨ a = col k) ∧ (b = row k ∨ b = col k))) →
      IsPartial2 (fun x => sparseHesFun n K x row col 0 fp d0 f0 0) x a b 0 := by
  have hf : (fun x => sparseHesFun n K x row col 0 fp d0 f0 0) =
      fun x => ∑ k ∈ Finset.range K, Real.exp (x (row k) * x (col k)) :=
    funext fun x => sparseHes_val n K x row col fp d0 f0
  have hsymm : ∀ i j a b, hesEntry x i j a b = hesEntry x i j b a := by
    intro i j a b; unfold hesEntry; ring
  refine ⟨(hesDiagonal_ok hr hd d0).1, fun k hk => ?_, fun a b h => ?_⟩
  · rw [hf, sparseHes_der n K x row col fp d0 f0 hk, hes_total hr hc hd x d0 f0 hk]
    have := hes_sum K x row col (col k) (row k)
    simpa only [hsymm _ _ (col k) (row k)] using this
  · rw [hf]
    have h0 := hes_sum K x row col b a
    have : ∑ k ∈ Finset.range K, hesEntry x (row k) (col k) b a = 0 := by
      refine Finset.sum_eq_zero fun k hk => ?_
      have hk := h k (Finset.mem_range.1 hk)
      unfold hesEntry dlt
      by_cases h1 : a = row k ∨ a = col k
      · have h2 : ¬ (b = row k ∨ b = col k) := fun h2 => hk ⟨h1, h2⟩
        push Not at h2
        simp [h2.1.symm, h2.2.symm]
      · push Not at h1
        simp [h1.1.symm, h1.2.symm]
    rwa [this] at h0

/-- the hypotheses are met, with a diagonal entry and two entries that are reflections of each other -/
example : ∃ row col : ℕ → ℕ, (∀ k < 3, row k < 2) ∧ (∀ k < 3, col k < 2) ∧ NoDup 3 row col ∧
    hesFactor 3 row col (fun _ => 0) 1 = 2 := by
  classical
  refine ⟨fun k => if k = 2 then 1 else 0, fun k => if k = 1 then 1 else 0, ?_, ?_, ?_, ?_⟩
  · intro k _; dsimp only; split_ifs <;> omega
  · intro k _; dsimp only; split_ifs <;> omega
  · intro k hk l hl h1 h2
    dsimp only at h1 h2
    split_ifs at h1 h2 <;> omega
  · rw [hesFactor_ok _ _ _ _ (by omega), if_pos]
    exact ⟨2, by omega, by omega, by simp, by simp, by simp⟩

end CppAD.Speed
