import Verif.AtomEx.MatModel

/-! # Atomic matrix product: forward mode -/

open scoped ContDiff Topology
open PowerSeries

namespace CppAD.AtomEx

theorem idx_lt {a b n m : ℕ} (ha : a < n) (hb : b < m) : a * m + b < n * m := by
  have : (a + 1) * m ≤ n * m := Nat.mul_le_mul_right m ha
  rw [Nat.add_mul, Nat.one_mul] at this
  omega

/-- assignments in a double loop -/
theorem fill_mat {α : Type*} {n m : ℕ} (y : ℕ → α) (g : ℕ → ℕ → α) (pos : ℕ → ℕ → ℕ)
    (body : ℕ → ℕ → (ℕ → α) → ℕ → α) (hb : ∀ i j t, i < n → j < m → body i j t = Function.update t (pos i j) (g i j))
    (hpos : ∀ i j i' j', i < n → j < m → i' < n → j' < m → pos i j = pos i' j' → i = i' ∧ j = j') :
    (∀ i < n, ∀ j < m, (forRange 0 n y fun i y => forRange 0 m y fun j y => body i j y) (pos i j) = g i j) ∧
    ∀ c, (∀ i < n, ∀ j < m, c ≠ pos i j) → (forRange 0 n y fun i y => forRange 0 m y fun j y => body i j y) c = y c := by
  refine forRange_ind (s := y) (f := fun i y => forRange 0 m y fun j y => body i j y) (Nat.zero_le n)
    (fun I t => (∀ i < I, ∀ j < m, t (pos i j) = g i j) ∧ ∀ c, (∀ i < n, ∀ j < m, c ≠ pos i j) → t c = y c)
    ⟨by intros; omega, fun _ _ => rfl⟩ ?_
  rintro I t _ hI ⟨h1, h2⟩
  have h3 := forRange_ind (s := t) (f := fun j y => body I j y) (Nat.zero_le m)
    (fun J t => (∀ i < I, ∀ j < m, t (pos i j) = g i j) ∧ (∀ j < J, t (pos I j) = g I j) ∧
      ∀ c, (∀ i < n, ∀ j < m, c ≠ pos i j) → t c = y c) ⟨h1, by intros; omega, h2⟩ ?_
  · refine ⟨?_, h3.2.2⟩
    intro i hi j hj
    by_cases e : i = I
    · subst e; exact h3.2.1 j hj
    · exact h3.1 i (by omega) j hj
  · rintro J s _ hJ ⟨a1, a2, a3⟩
    rw [hb I J s hI hJ]
    refine ⟨?_, ?_, ?_⟩
    · intro i hi j hj
      rw [Function.update_of_ne (fun h => by have := (hpos i j I J (by omega) hj hI hJ h).1; omega)]
      exact a1 i hi j hj
    · intro j hj
      by_cases e : j = J
      · subst e; simp
      · rw [Function.update_of_ne (fun h => e (hpos I j I J hI (by omega) hI hJ h).2)]
        exact a2 j (by omega)
    · intro c hc
      rw [Function.update_of_ne (hc I hI J hJ)]
      exact a3 c hc

theorem vset_eq_update (v : ℕ → ℝ) (i : ℕ) (x : ℝ) : vset v i x = Function.update v i x := by
  funext c
  by_cases e : c = i
  · subst e; simp [vset]
  · simp [vset, e]

theorem forRange_sum' (n : ℕ) (h : ℕ → ℝ) :
    forRange 0 n (0 : ℝ) (fun k v => v + h k) = ∑ k ∈ Finset.range n, h k := by
  refine forRange_ind (s := (0 : ℝ)) (Nat.zero_le n) (fun k t => t = ∑ k ∈ Finset.range k, h k) (by simp) ?_
  intro k t _ _ ht
  rw [ht, Finset.sum_range_succ]

/-- **C54** `base_mat_mul` computes the product of the two matrices in `x` -/
theorem baseMatMul_val (nl nm nr : ℕ) (x y : ℕ → ℝ) {i j : ℕ} (hi : i < nl) (hj : j < nr) :
    baseMatMul nl nm nr x y (i * nr + j) = ∑ k ∈ Finset.range nm, x (i * nm + k) * x (nl * nm + k * nr + j) := by
  unfold baseMatMul
  refine (fill_mat y (fun i j => ∑ k ∈ Finset.range nm, x (i * nm + k) * x (nl * nm + k * nr + j)) (fun i j => i * nr + j) _
    ?_ ?_).1 i hi j hj
  · intro i j t _ _
    rw [vset_eq_update, forRange_sum']
  · intro i j i' j' _ hj _ hj' h
    exact idx_inj hj hj' h

/-- the same with the matrices of Mathlib -/
theorem baseMatMul_matrix (nl nm nr : ℕ) (x y : ℕ → ℝ) (i : Fin nl) (j : Fin nr) :
    baseMatMul nl nm nr x y (i * nr + j)
      = ((Matrix.of fun (i : Fin nl) (k : Fin nm) => x (i * nm + k))
          * (Matrix.of fun (k : Fin nm) (j : Fin nr) => x (nl * nm + (k * nr + j)))) i j := by
  rw [baseMatMul_val nl nm nr x y i.isLt j.isLt, Matrix.mul_apply, Finset.sum_range]
  simp only [Matrix.of_apply, Nat.add_assoc]

theorem matX_val (nl nm nr q k ell : ℕ) (tx : ℕ → ℝ) :
    (∀ a < nl * nm, matX nl nm nr q k ell tx a = tx (a * q + ell)) ∧
    ∀ b < nm * nr, matX nl nm nr q k ell tx (nl * nm + b) = tx ((nl * nm + b) * q + (k - ell)) := by
  unfold matX
  have h1 : ∀ a < nl * nm, (forRange 0 (nl * nm) (fun _ => (0 : ℝ)) fun i x => vset x i (tx (i * q + ell))) a
      = tx (a * q + ell) := fun a ha =>
    forRange_assign _ (fun i => tx (i * q + ell)) _ (fun i t _ => vset_eq_update _ _ _) ha
  set x0 := forRange 0 (nl * nm) (fun _ => (0 : ℝ)) fun i x => vset x i (tx (i * q + ell)) with hx0
  have h2 := forRange_ind (s := x0) (f := fun i x => vset x (nl * nm + i) (tx ((nl * nm + i) * q + (k - ell))))
    (Nat.zero_le (nm * nr)) (fun K t => (∀ a < nl * nm, t a = tx (a * q + ell)) ∧
      ∀ b < K, t (nl * nm + b) = tx ((nl * nm + b) * q + (k - ell))) ⟨h1, by intros; omega⟩ ?_
  · exact h2
  · rintro K t _ _ ⟨a1, a2⟩
    refine ⟨fun a ha => ?_, fun b hb => ?_⟩
    · rw [vset_ne _ _ (by omega)]; exact a1 a ha
    · by_cases e : b = K
      · subst e; rw [vset_self]
      · rw [vset_ne _ _ (by omega)]; exact a2 b (by omega)

/-- what `forward` computes -/
theorem matForward_val (nl nm nr : ℕ) (sel : ℕ → Bool) {p up : ℕ} (hp : p ≤ up) (tx ty : ℕ → ℝ) {i j k : ℕ} (hi : i < nl)
    (hj : j < nr) (hpk : p ≤ k) (hk : k ≤ up) :
    matForward nl nm nr sel p up tx ty ((i * nr + j) * (up + 1) + k) = ∑ ell ∈ Finset.range (k + 1),
      ∑ c ∈ Finset.range nm, tx ((i * nm + c) * (up + 1) + ell) * tx ((nl * nm + c * nr + j) * (up + 1) + (k - ell)) := by
  unfold matForward
  set S : ℕ → ℕ → ℝ := fun k => forRange 0 (k + 1) (fun _ => (0 : ℝ)) fun ell sum =>
      forRange 0 (nl * nr) sum fun i sum => vset sum i (sum i
        + baseMatMul nl nm nr (matX nl nm nr (up + 1) k ell tx) (fun _ => 0) i) with hS
  have := fill_outer (m := nl * nr) (p := p) (q := up + 1) (by omega) ty (fun i k => S k i) (idx_lt hi hj) hpk
    (by omega : k < up + 1)
  refine this.trans ?_
  have hadd : S k (i * nr + j) = (fun _ => (0 : ℝ)) (i * nr + j) + ∑ ell ∈ Finset.Ico 0 (k + 1),
      ∑ r ∈ Finset.Ico 0 (nl * nr), if (i * nr + j) = r then
        baseMatMul nl nm nr (matX nl nm nr (up + 1) k ell tx) (fun _ => 0) r else 0 := by
    refine forRange_additive _ _ (fun ell c => ∑ r ∈ Finset.Ico 0 (nl * nr), if c = r then
        baseMatMul nl nm nr (matX nl nm nr (up + 1) k ell tx) (fun _ => 0) r else 0) (fun ell v c _ _ => ?_) _
    exact forRange_additive v _ (fun r c => if c = r then
        baseMatMul nl nm nr (matX nl nm nr (up + 1) k ell tx) (fun _ => 0) r else 0) (fun r v c _ _ => vadd_apply _ _ _ _) _
  rw [hadd, zero_add, Finset.range_eq_Ico]
  refine Finset.sum_congr rfl fun ell _ => ?_
  rw [Finset.sum_ite_eq, if_pos (Finset.mem_Ico.2 ⟨Nat.zero_le _, idx_lt hi hj⟩), baseMatMul_val _ _ _ _ _ hi hj]
  refine Finset.sum_congr rfl fun c hc => ?_
  rw [Finset.mem_range] at hc
  obtain ⟨h1, h2⟩ := matX_val nl nm nr (up + 1) k ell tx
  rw [h1 _ (idx_lt hi hc), Nat.add_assoc, h2 _ (idx_lt hc hj)]

theorem div_mod_idx {nr i j : ℕ} (hj : j < nr) : (i * nr + j) / nr = i ∧ (i * nr + j) % nr = j := by
  rw [Nat.mul_comm, Nat.mul_add_div (by omega), Nat.div_eq_of_lt hj, Nat.mul_add_mod, Nat.mod_eq_of_lt hj]
  exact ⟨by omega, rfl⟩

/-- **C54** the specification is the product of the two matrices in `x` -/
theorem matFn_val (nl nm nr : ℕ) (x : Fin (matN nl nm nr) → ℝ) {i j : ℕ} (hj : j < nr) :
    matFn nl nm nr x (i * nr + j) = ∑ c ∈ Finset.range nm, ev x (i * nm + c) * ev x (nl * nm + c * nr + j) := by
  unfold matFn
  rw [(div_mod_idx hj).1, (div_mod_idx hj).2]

theorem mat_left_lt {nl nm nr i c : ℕ} (hi : i < nl) (hc : c < nm) : i * nm + c < matN nl nm nr := by
  have := idx_lt hi hc
  unfold matN
  rw [Nat.mul_add, Nat.mul_comm nm nl]; omega

theorem mat_right_lt {nl nm nr c j : ℕ} (hc : c < nm) (hj : j < nr) : nl * nm + c * nr + j < matN nl nm nr := by
  have := idx_lt hc hj
  unfold matN
  rw [Nat.mul_add, Nat.mul_comm nm nl]; omega

/-- every result index is an element of the product -/
theorem exists_row_col {nl nr r : ℕ} (hr : r < nl * nr) : ∃ i < nl, ∃ j < nr, r = i * nr + j := by
  have hnr : 0 < nr := by
    rcases Nat.eq_zero_or_pos nr with h | h
    · subst h; simp at hr
    · exact h
  exact ⟨r / nr, Nat.div_lt_of_lt_mul (by rwa [Nat.mul_comm]), r % nr, Nat.mod_lt _ hnr, by
    rw [Nat.mul_comm]; exact (Nat.div_add_mod r nr).symm⟩

/-- **C54** (values) `forward` computes the product at every point -/
theorem matForward_zero (nl nm nr : ℕ) : ForwardZero (matN nl nm nr) (nl * nr) (matFn nl nm nr) (matForward nl nm nr) := by
  intro sel q tx ty r hr _
  obtain ⟨i, hi, j, hj, rfl⟩ := exists_row_col hr
  have := matForward_val nl nm nr sel (Nat.zero_le q) tx ty hi hj le_rfl (Nat.zero_le q)
  rw [Nat.add_zero] at this
  rw [this, matFn_val _ _ _ _ hj]
  simp only [Nat.zero_add, Finset.sum_range_one, Nat.sub_self, Nat.add_zero]
  refine Finset.sum_congr rfl fun c hc => ?_
  rw [Finset.mem_range] at hc
  rw [ev_of_lt _ (mat_left_lt hi hc), ev_of_lt _ (mat_right_lt hc hj)]

theorem T_sum {n : ℕ} (f : ℕ → ℝ → ℝ) (hf : ∀ c, Sm (f c)) :
    T (fun t => ∑ c ∈ Finset.range n, f c t) = ∑ c ∈ Finset.range n, T (f c) := by
  induction n with
  | zero =>
    simp only [Finset.range_zero, Finset.sum_empty]
    rw [T_const]; simp
  | succ n ih =>
    simp only [Finset.sum_range_succ]
    rw [T_add (ContDiffAt.sum fun c _ => hf c) (hf n), ih]

/-- **C54** (Taylor coefficients) `forward` computes the requested Taylor coefficients of the product -/
theorem matForward_ok (nl nm nr : ℕ) :
    ForwardOk (matN nl nm nr) (nl * nr) (matFn nl nm nr) Set.univ (matForward nl nm nr) := by
  intro sel p q X tx ty hpq hX _ htx _ r hr _ k hpk hkq
  have htx' : ∀ j < matN nl nm nr, ∀ k ≤ q, tx (j * (q + 1) + k) = tc (fun t => ev (X t) j) k := by
    intro j hj k hk
    rw [htx ⟨j, hj⟩ k hk]
    simp only [ev_of_lt _ hj]
  have hS : ∀ j, Sm (fun t => ev (X t) j) := ev_sm hX
  obtain ⟨i, hi, j, hj, rfl⟩ := exists_row_col hr
  rw [matForward_val nl nm nr sel hpq tx ty hi hj hpk hkq]
  simp only [matFn_val _ _ _ _ hj]
  rw [tc_eq, T_sum (fun c t => ev (X t) (i * nm + c) * ev (X t) (nl * nm + c * nr + j))
    (fun c => ContDiffAt.mul (hS _) (hS _)), map_sum, Finset.sum_comm]
  refine Finset.sum_congr rfl fun c hc => ?_
  rw [Finset.mem_range] at hc
  rw [T_mul (hS _) (hS _), coeff_mul_range]
  refine Finset.sum_congr rfl fun ell hell => ?_
  rw [Finset.mem_range] at hell
  rw [htx' _ (mat_left_lt hi hc) _ (by omega), htx' _ (mat_right_lt hc hj) _ (by omega), coeff_T, coeff_T]

end CppAD.AtomEx
