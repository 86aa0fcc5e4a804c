import Verif.AtomEx.MatRev

/-! # Atomic matrix product: sparsity, dependency and types -/

open scoped ContDiff Topology

namespace CppAD.AtomEx

/-- a loop that adds the elements with `P i` in step `i` -/
theorem forRange_mem {α : Type*} {n : ℕ} (l : List α) (P : ℕ → α → Prop) (body : ℕ → List α → List α) (e : α)
    (h : ∀ i l, i < n → (e ∈ body i l ↔ e ∈ l ∨ P i e)) :
    e ∈ forRange 0 n l body ↔ e ∈ l ∨ ∃ i < n, P i e := by
  refine forRange_ind (s := l) (Nat.zero_le n) (fun k t => e ∈ t ↔ e ∈ l ∨ ∃ i < k, P i e) (by simp) ?_
  intro k t _ h2 ht
  rw [h k t h2, ht, or_assoc]
  refine or_congr_right ?_
  constructor
  · rintro (⟨i, a, c⟩ | h)
    · exact ⟨i, by omega, c⟩
    · exact ⟨k, by omega, h⟩
  · rintro ⟨i, a, c⟩
    by_cases e : i = k
    · subst e; exact Or.inr c
    · exact Or.inl ⟨i, by omega, c⟩

theorem mem_matJac (nl nm nr : ℕ) (id : ℕ → Bool) (dep : Bool) (sx sy : ℕ → Bool) (e : ℕ × ℕ) :
    e ∈ matJac nl nm nr id dep sx sy ↔ ∃ i < nl, ∃ j < nr, sy (i * nr + j) = true ∧ ∃ k < nm,
      (sx (i * nm + k) = true ∧ id (nl * nm + k * nr + j) = false ∧ e = (i * nr + j, i * nm + k)) ∨
      (sx (nl * nm + k * nr + j) = true ∧ id (i * nr + j) = false ∧ e = (i * nr + j, nl * nm + k * nr + j)) := by
  unfold matJac
  rw [forRange_mem [] (fun i e => ∃ j < nr, sy (i * nr + j) = true ∧ ∃ k < nm,
      (sx (i * nm + k) = true ∧ id (nl * nm + k * nr + j) = false ∧ e = (i * nr + j, i * nm + k)) ∨
      (sx (nl * nm + k * nr + j) = true ∧ id (i * nr + j) = false ∧ e = (i * nr + j, nl * nm + k * nr + j)))]
  · simp
  · intro i l _
    refine forRange_mem l (fun j e => sy (i * nr + j) = true ∧ ∃ k < nm,
      (sx (i * nm + k) = true ∧ id (nl * nm + k * nr + j) = false ∧ e = (i * nr + j, i * nm + k)) ∨
      (sx (nl * nm + k * nr + j) = true ∧ id (i * nr + j) = false ∧ e = (i * nr + j, nl * nm + k * nr + j))) _ e ?_
    intro j l _
    dsimp only
    by_cases hs : sy (i * nr + j) = true
    · rw [if_pos hs, forRange_mem l (fun k e =>
        (sx (i * nm + k) = true ∧ id (nl * nm + k * nr + j) = false ∧ e = (i * nr + j, i * nm + k)) ∨
        (sx (nl * nm + k * nr + j) = true ∧ id (i * nr + j) = false ∧ e = (i * nr + j, nl * nm + k * nr + j)))]
      · simp [hs]
      · intro k l _
        generalize sx (i * nm + k) = s1
        generalize sx (nl * nm + k * nr + j) = s2
        generalize id (i * nr + j) = i1
        generalize id (nl * nm + k * nr + j) = i2
        cases s1 <;> cases s2 <;> cases i1 <;> cases i2 <;> simp [or_assoc]
    · rw [if_neg hs]
      simp [hs]

/-- **C54** (Jacobian pattern) only selected rows and columns -/
theorem matJac_sel (nl nm nr : ℕ) : JacSel (matN nl nm nr) (nl * nr) (matJac nl nm nr) := by
  intro id dep sx sy e he
  rw [mem_matJac] at he
  obtain ⟨i, hi, j, hj, hs, k, hk, ⟨h1, _, rfl⟩ | ⟨h1, _, rfl⟩⟩ := he
  · exact ⟨⟨idx_lt hi hj, hs⟩, mat_left_lt hi hk, h1⟩
  · exact ⟨⟨idx_lt hi hj, hs⟩, mat_right_lt hk hj, h1⟩

/-- the result does not depend on an argument when the pair is not in the pattern -/
theorem matFn_update {nl nm nr : ℕ} {id sx sy : ℕ → Bool} {dep : Bool} (hI : ∀ r < nl * nr, id r = false) {r : ℕ}
    (hr : r < nl * nr) (hs : sy r = true) {J : Fin (matN nl nm nr)} (hJ : sx J = true)
    (hno : (r, (J : ℕ)) ∉ matJac nl nm nr id dep sx sy) {x : Fin (matN nl nm nr) → ℝ}
    (hx : ∀ k : Fin (matN nl nm nr), id k = true → x k = 0) (c : ℝ) :
    matFn nl nm nr (Function.update x J c) r = matFn nl nm nr x r := by
  obtain ⟨i, hi, j, hj, rfl⟩ := exists_row_col hr
  rw [matFn_val _ _ _ _ hj, matFn_val _ _ _ _ hj]
  refine Finset.sum_congr rfl fun k hk => ?_
  rw [Finset.mem_range] at hk
  rw [mem_matJac] at hno
  have hlt : i * nm + k < nl * nm := idx_lt hi hk
  rw [ev_update, ev_update]
  by_cases e1 : i * nm + k = J
  · have e2 : nl * nm + k * nr + j ≠ J := by omega
    rw [if_pos e1, if_neg e2]
    have : ev x (nl * nm + k * nr + j) = 0 := by
      rw [ev_of_lt _ (mat_right_lt hk hj)]
      refine hx _ ?_
      by_contra hid
      exact hno ⟨i, hi, j, hj, hs, k, hk, Or.inl ⟨by rw [e1]; exact hJ, Bool.eq_false_iff.2 hid, by rw [e1]⟩⟩
    rw [this, mul_zero, mul_zero]
  · rw [if_neg e1]
    by_cases e2 : nl * nm + k * nr + j = J
    · exact absurd ⟨i, hi, j, hj, hs, k, hk, Or.inr ⟨by rw [e2]; exact hJ, hI _ (idx_lt hi hj), by rw [e2]⟩⟩ hno
    · rw [if_neg e2]

/-- **C54** (Jacobian pattern) selected pairs that are not in the pattern have zero derivative, when `ident_zero_x` is false
for the first `n_left * n_right` arguments.  Missing: the other `ident_zero_x`, for which `matJac_zero_wrong` shows that the
code is wrong. -/
theorem matJac_zero_partial (nl nm nr : ℕ) :
    JacZeroFor (matN nl nm nr) (nl * nr) (matFn nl nm nr) Set.univ (fun id => ∀ r < nl * nr, id r = false)
      (matJac nl nm nr) := by
  intro id sx sy hI i hi hs j hj _ hno x _ hx
  exact fderiv_indep fun c => matFn_update hI hi hs hj hno hx c

/-- **C54** (dependency pattern) selected pairs that are not in the pattern: the result does not depend on the argument, when
`ident_zero_x` is false for the first `n_left * n_right` arguments -/
theorem matJac_dep_partial (nl nm nr : ℕ) :
    JacDepFor (matN nl nm nr) (nl * nr) (matFn nl nm nr) (fun id => ∀ r < nl * nr, id r = false) (matJac nl nm nr) := by
  intro id sx sy hI i hi hs j hj _ hno x c hx
  exact matFn_update hI hi hs hj hno hx c

/-- the hypothesis of `matJac_zero_partial` allows that elements of the matrix on the right are identically zero:
2 × 2 × 1 with `B_10 = 0`; then `(C_00, A_01)` is not in the pattern -/
example : (∀ r < 2 * 1, (fun j => decide (j = 5)) r = false) ∧
    matJac 2 2 1 (fun j => decide (j = 5)) false (fun _ => true) (fun _ => true)
      = [(0, 0), (0, 4), (0, 5), (1, 2), (1, 4), (1, 5)] := by
  constructor
  · decide
  · decide

/-- **C54** (defect) for 1 × 1 × 2 with `B_00` identically zero, the pattern does not have `(C_01, B_01)`, and the derivative is
`A_00`.  mat_mul/jac_sparsity.hpp:73 has `ident_zero_x[ij]`, should be `ident_zero_x[ik]`. -/
theorem matJac_zero_wrong :
    ¬ JacZeroFor (matN 1 1 2) (1 * 2) (matFn 1 1 2) Set.univ (fun _ => True) (matJac 1 1 2) := by
  intro h
  have hn : 2 < matN 1 1 2 := by decide
  have := h (fun j => decide (j = 1)) (fun _ => true) (fun _ => true) trivial 1 (by omega) rfl ⟨2, hn⟩ rfl rfl
    (show (1, 2) ∉ matJac 1 1 2 (fun j => decide (j = 1)) false (fun _ => true) (fun _ => true) by decide) (fun j => if (j : ℕ) = 0 then 1 else 0) (Set.mem_univ _) (by
      intro k hk
      have : (k : ℕ) = 1 := by simpa using hk
      simp [this])
  have e : (fun x : Fin (matN 1 1 2) → ℝ => matFn 1 1 2 x 1) = fun x => ev x 0 * ev x 2 := by
    funext x
    simp [matFn]
  rw [e, fderiv_mul_ev] at this
  rw [ev_of_lt _ (by decide : 0 < matN 1 1 2)] at this
  simp at this

theorem mem_matHes (nl nm nr : ℕ) (id sx sy : ℕ → Bool) (e : ℕ × ℕ) :
    e ∈ matHes nl nm nr id sx sy ↔ ∃ i < nl, ∃ j < nr, sy (i * nr + j) = true ∧ ∃ k < nm,
      sx (i * nm + k) = true ∧ sx (nl * nm + k * nr + j) = true ∧
      (e = (i * nm + k, nl * nm + k * nr + j) ∨ e = (nl * nm + k * nr + j, i * nm + k)) := by
  unfold matHes
  rw [forRange_mem [] (fun i e => ∃ j < nr, sy (i * nr + j) = true ∧ ∃ k < nm,
      sx (i * nm + k) = true ∧ sx (nl * nm + k * nr + j) = true ∧
      (e = (i * nm + k, nl * nm + k * nr + j) ∨ e = (nl * nm + k * nr + j, i * nm + k)))]
  · simp
  · intro i l _
    refine forRange_mem l (fun j e => sy (i * nr + j) = true ∧ ∃ k < nm,
      sx (i * nm + k) = true ∧ sx (nl * nm + k * nr + j) = true ∧
      (e = (i * nm + k, nl * nm + k * nr + j) ∨ e = (nl * nm + k * nr + j, i * nm + k))) _ e ?_
    intro j l _
    dsimp only
    by_cases hs : sy (i * nr + j) = true
    · rw [if_pos hs, forRange_mem l (fun k e => sx (i * nm + k) = true ∧ sx (nl * nm + k * nr + j) = true ∧
        (e = (i * nm + k, nl * nm + k * nr + j) ∨ e = (nl * nm + k * nr + j, i * nm + k)))]
      · simp [hs]
      · intro k l _
        generalize sx (i * nm + k) = s1
        generalize sx (nl * nm + k * nr + j) = s2
        cases s1 <;> cases s2 <;> simp
    · rw [if_neg hs]
      simp [hs]

/-- **C54** (Hessian pattern) only selected arguments -/
theorem matHes_sel (nl nm nr : ℕ) : HesSel (matN nl nm nr) (matHes nl nm nr) := by
  intro id sx sy e he
  rw [mem_matHes] at he
  obtain ⟨i, hi, j, hj, hs, k, hk, h1, h2, rfl | rfl⟩ := he
  · exact ⟨⟨mat_left_lt hi hk, h1⟩, mat_right_lt hk hj, h2⟩
  · exact ⟨⟨mat_right_lt hk hj, h2⟩, mat_left_lt hi hk, h1⟩

/-- **C54** (Hessian pattern) every second derivative that is not zero, of a selected result with respect to selected
arguments, is in the pattern -/
theorem matHes_zero (nl nm nr : ℕ) :
    HesZero (matN nl nm nr) (nl * nr) (matFn nl nm nr) Set.univ (matHes nl nm nr) := by
  intro id sx sy r hr hs J K hJ hK _ _ h1 h2 x _ _
  obtain ⟨i, hi, j, hj, rfl⟩ := exists_row_col hr
  simp only [matFn_val _ _ _ _ hj]
  have d1 : ∀ c, Differentiable ℝ (fun x : Fin (matN nl nm nr) → ℝ => ev x (i * nm + c) * ev x (nl * nm + c * nr + j)) :=
    fun c => (fderiv_ev _).mul (fderiv_ev _)
  have e1 : ∀ x : Fin (matN nl nm nr) → ℝ, fderiv ℝ (fun x : Fin (matN nl nm nr) → ℝ => ∑ c ∈ Finset.range nm,
      ev x (i * nm + c) * ev x (nl * nm + c * nr + j)) x (Pi.single K 1)
      = ∑ c ∈ Finset.range nm,
        fderiv ℝ (fun x : Fin (matN nl nm nr) → ℝ => ev x (i * nm + c) * ev x (nl * nm + c * nr + j)) x (Pi.single K 1) := by
    intro x
    rw [fderiv_fun_sum (fun c _ => d1 c x), sum_apply]
  simp only [e1]
  have d2 : ∀ c, Differentiable ℝ (fun x : Fin (matN nl nm nr) → ℝ =>
      fderiv ℝ (fun x : Fin (matN nl nm nr) → ℝ => ev x (i * nm + c) * ev x (nl * nm + c * nr + j)) x (Pi.single K 1)) := by
    intro c
    simp only [fderiv_mul_ev]
    exact ((fderiv_ev _).mul_const _).add ((fderiv_ev _).mul_const _)
  rw [fderiv_fun_sum (fun c _ => d2 c x), sum_apply]
  refine Finset.sum_eq_zero fun c hc => ?_
  rw [Finset.mem_range] at hc
  rw [fderiv2_mul_ev]
  rw [mem_matHes] at h1 h2
  have n1 : ¬ (i * nm + c = J ∧ nl * nm + c * nr + j = K) := by
    rintro ⟨a, b⟩
    exact h1 ⟨i, hi, j, hj, hs, c, hc, by rw [a]; exact hJ, by rw [b]; exact hK, Or.inl (by rw [a, b])⟩
  have n2 : ¬ (nl * nm + c * nr + j = J ∧ i * nm + c = K) := by
    rintro ⟨a, b⟩
    exact h1 ⟨i, hi, j, hj, hs, c, hc, by rw [b]; exact hK, by rw [a]; exact hJ, Or.inr (by rw [a, b])⟩
  have t1 : (if i * nm + c = J then (1 : ℝ) else 0) * (if nl * nm + c * nr + j = K then 1 else 0) = 0 := by
    rcases Classical.em (i * nm + c = J) with a | a
    · rw [if_neg (fun b => n1 ⟨a, b⟩), mul_zero]
    · rw [if_neg a, zero_mul]
  have t2 : (if nl * nm + c * nr + j = J then (1 : ℝ) else 0) * (if i * nm + c = K then 1 else 0) = 0 := by
    rcases Classical.em (nl * nm + c * nr + j = J) with a | a
    · rw [if_neg (fun b => n2 ⟨a, b⟩), mul_zero]
    · rw [if_neg a, zero_mul]
  rw [t1, t2, add_zero]

/-- the pattern of the 1 × 2 × 1 product when `A_01` is not selected -/
example : matHes 1 2 1 (fun _ => false) (fun j => decide (j ≠ 1)) (fun _ => true) = [(0, 2), (2, 0)] := by decide

/-- **C54** (dependency) when two points agree at the arguments that `rev_depend` says are needed, the results that are needed
agree -/
theorem matRevDepend_ok (nl nm nr : ℕ) : RevDepend (matN nl nm nr) (nl * nr) (matFn nl nm nr) (matRevDepend nl nm nr) := by
  intro dy x x' h r hr hd
  obtain ⟨i, hi, j, hj, rfl⟩ := exists_row_col hr
  rw [matFn_val _ _ _ _ hj, matFn_val _ _ _ _ hj]
  have key : ∀ k < nm, matRevDepend nl nm nr dy (i * nm + k) = true ∧ matRevDepend nl nm nr dy (nl * nm + k * nr + j) = true := by
    -- elements never become false
    have mono3 : ∀ i j (dx : ℕ → Bool) c, dx c = true → (forRange 0 nm dx fun k dx =>
        Function.update (Function.update dx (i * nm + k) true) (nl * nm + k * nr + j) true) c = true := by
      intro i j dx c hc
      refine forRange_ind (s := dx) (Nat.zero_le nm) (fun _ t => t c = true) hc ?_
      intro k t _ _ ht
      simp only [Function.update_apply]; split_ifs <;> first | rfl | exact ht
    have mono2 : ∀ i j (dx : ℕ → Bool) c, dx c = true → (if dy (i * nr + j) then forRange 0 nm dx fun k dx =>
        Function.update (Function.update dx (i * nm + k) true) (nl * nm + k * nr + j) true else dx) c = true := by
      intro i j dx c hc
      split_ifs
      · exact mono3 i j dx c hc
      · exact hc
    have mono1 : ∀ i (dx : ℕ → Bool) c, dx c = true → (forRange 0 nr dx fun j dx => if dy (i * nr + j) then forRange 0 nm dx
        fun k dx => Function.update (Function.update dx (i * nm + k) true) (nl * nm + k * nr + j) true else dx) c = true := by
      intro i dx c hc
      exact forRange_ind (s := dx) (Nat.zero_le nr) (fun _ t => t c = true) hc (fun j t _ _ ht => mono2 i j t c ht)
    have h3 : ∀ dx : ℕ → Bool, ∀ k < nm, (forRange 0 nm dx fun k dx =>
        Function.update (Function.update dx (i * nm + k) true) (nl * nm + k * nr + j) true) (i * nm + k) = true ∧
        (forRange 0 nm dx fun k dx =>
        Function.update (Function.update dx (i * nm + k) true) (nl * nm + k * nr + j) true) (nl * nm + k * nr + j) = true := by
      intro dx
      refine forRange_ind (s := dx) (Nat.zero_le nm)
        (fun K t => ∀ k < K, t (i * nm + k) = true ∧ t (nl * nm + k * nr + j) = true) (by intros; omega) ?_
      intro K t _ _ ht k hk
      by_cases e : k = K
      · subst e
        simp [Function.update_apply]
      · obtain ⟨a, b⟩ := ht k (by omega)
        simp only [Function.update_apply]
        constructor <;> split_ifs <;> first | rfl | assumption
    have h2 : ∀ dx : ℕ → Bool, ∀ k < nm, (forRange 0 nr dx fun j dx => if dy (i * nr + j) then forRange 0 nm dx
        fun k dx => Function.update (Function.update dx (i * nm + k) true) (nl * nm + k * nr + j) true else dx) (i * nm + k) = true ∧
        (forRange 0 nr dx fun j dx => if dy (i * nr + j) then forRange 0 nm dx
        fun k dx => Function.update (Function.update dx (i * nm + k) true) (nl * nm + k * nr + j) true else dx)
          (nl * nm + k * nr + j) = true := by
      intro dx
      refine forRange_ind (s := dx) (Nat.zero_le nr)
        (fun J t => j < J → ∀ k < nm, t (i * nm + k) = true ∧ t (nl * nm + k * nr + j) = true) (by intros; omega) ?_ hj
      intro J t _ _ ht hJ k hk
      by_cases e : j = J
      · subst e
        rw [if_pos hd]
        exact h3 t k hk
      · obtain ⟨a, b⟩ := ht (by omega) k hk
        exact ⟨mono2 i J t _ a, mono2 i J t _ b⟩
    unfold matRevDepend
    refine forRange_ind (s := fun _ => false) (Nat.zero_le nl)
      (fun I t => i < I → ∀ k < nm, t (i * nm + k) = true ∧ t (nl * nm + k * nr + j) = true) (by intros; omega) ?_ hi
    intro I t _ _ ht hI k hk
    by_cases e : i = I
    · subst e; exact h2 t k hk
    · obtain ⟨a, b⟩ := ht (by omega) k hk
      exact ⟨mono1 I t _ a, mono1 I t _ b⟩
  refine Finset.sum_congr rfl fun k hk => ?_
  rw [Finset.mem_range] at hk
  rw [ev_of_lt _ (mat_left_lt hi hk), ev_of_lt _ (mat_right_lt hk hj), ev_of_lt _ (mat_left_lt hi hk),
    ev_of_lt _ (mat_right_lt hk hj)]
  rw [h ⟨_, mat_left_lt hi hk⟩ (key k hk).1, h ⟨_, mat_right_lt hk hj⟩ (key k hk).2]

/-- not every argument is needed: 2 × 1 × 1 and only `C_00` is needed -/
example : (List.range 3).map (matRevDepend 2 1 1 fun i => decide (i = 0)) = [true, false, true] := by decide

/-- the type of one element of the product -/
theorem matForType_val (nl nm nr : ℕ) (ty tx : ℕ → AdT) {i j : ℕ} (hi : i < nl) (hj : j < nr) {k : ℕ} (hk : k < nm)
    (h1 : tx (i * nm + k) ≠ .identicalZero) (h2 : tx (nl * nm + k * nr + j) ≠ .identicalZero) :
    (tx (i * nm + k)).rank ≤ (matForType nl nm nr ty tx (i * nr + j)).rank ∧
    (tx (nl * nm + k * nr + j)).rank ≤ (matForType nl nm nr ty tx (i * nr + j)).rank := by
  have hval := (fill_mat ty (fun i j => forRange 0 nm AdT.identicalZero fun k t =>
      if tx (i * nm + k) ≠ .identicalZero then
        (if tx (nl * nm + k * nr + j) ≠ .identicalZero then
          (t.max (tx (i * nm + k))).max (tx (nl * nm + k * nr + j)) else t)
      else t) (fun i j => i * nr + j) (fun i j ty =>
    Function.update ty (i * nr + j) (forRange 0 nm AdT.identicalZero fun k t =>
      if tx (i * nm + k) ≠ .identicalZero then
        (if tx (nl * nm + k * nr + j) ≠ .identicalZero then
          (t.max (tx (i * nm + k))).max (tx (nl * nm + k * nr + j)) else t)
      else t)) (fun _ _ _ _ _ => rfl) (fun i j i' j' _ hj _ hj' h => idx_inj hj hj' h)).1 i hi j hj
  have : matForType nl nm nr ty tx (i * nr + j) = forRange 0 nm AdT.identicalZero fun k t =>
      if tx (i * nm + k) ≠ .identicalZero then
        (if tx (nl * nm + k * nr + j) ≠ .identicalZero then
          (t.max (tx (i * nm + k))).max (tx (nl * nm + k * nr + j)) else t)
      else t := hval
  rw [this]
  refine forRange_ind (s := AdT.identicalZero) (f := fun k t =>
      if tx (i * nm + k) ≠ .identicalZero then
        (if tx (nl * nm + k * nr + j) ≠ .identicalZero then
          (t.max (tx (i * nm + k))).max (tx (nl * nm + k * nr + j)) else t)
      else t) (Nat.zero_le nm)
    (fun K t => k < K → (tx (i * nm + k)).rank ≤ t.rank ∧ (tx (nl * nm + k * nr + j)).rank ≤ t.rank) (by intros; omega) ?_ hk
  intro K t _ _ ht hK
  have hm := fun a b : AdT => (AdT.max_le (a := a) (b := b) (r := (a.max b).rank)).1 le_rfl
  by_cases e : k = K
  · subst e
    rw [if_pos h1, if_pos h2]
    have a1 := hm (t.max (tx (i * nm + k))) (tx (nl * nm + k * nr + j))
    have a2 := hm t (tx (i * nm + k))
    exact ⟨a2.2.trans a1.1, a1.2⟩
  · obtain ⟨a, b⟩ := ht (by omega)
    split_ifs
    · have a1 := hm (t.max (tx (i * nm + K))) (tx (nl * nm + K * nr + j))
      have a2 := hm t (tx (i * nm + K))
      exact ⟨a.trans (a2.1.trans a1.1), b.trans (a2.1.trans a1.1)⟩
    · exact ⟨a, b⟩
    · exact ⟨a, b⟩

/-- **C54** (types) a result of a type only depends on arguments of at most that type -/
theorem matForType_ok (nl nm nr : ℕ) (ty : ℕ → AdT) :
    ForType (matN nl nm nr) (nl * nr) (matFn nl nm nr) (matForType nl nm nr ty) := by
  intro tx x x' r hr h0
  obtain ⟨i, hi, j, hj, rfl⟩ := exists_row_col hr
  have hz : ∀ a < matN nl nm nr, tx a = .identicalZero → ev x a = 0 ∧ ev x' a = 0 := by
    intro a ha h; rw [ev_of_lt _ ha, ev_of_lt _ ha]; exact h0 ⟨a, ha⟩ h
  rw [matFn_val _ _ _ _ hj, matFn_val _ _ _ _ hj]
  constructor
  · intro ht
    refine Finset.sum_eq_zero fun k hk => ?_
    rw [Finset.mem_range] at hk
    by_cases h1 : tx (i * nm + k) = .identicalZero
    · rw [(hz _ (mat_left_lt hi hk) h1).1, zero_mul]
    by_cases h2 : tx (nl * nm + k * nr + j) = .identicalZero
    · rw [(hz _ (mat_right_lt hk hj) h2).1, mul_zero]
    have := (matForType_val nl nm nr ty tx hi hj hk h1 h2).1
    rw [ht] at this
    exact absurd (AdT.rank_inj (Nat.le_antisymm this (Nat.zero_le _))) h1
  · intro heq
    refine Finset.sum_congr rfl fun k hk => ?_
    rw [Finset.mem_range] at hk
    by_cases h1 : tx (i * nm + k) = .identicalZero
    · obtain ⟨a, b⟩ := hz _ (mat_left_lt hi hk) h1
      rw [a, b, zero_mul, zero_mul]
    by_cases h2 : tx (nl * nm + k * nr + j) = .identicalZero
    · obtain ⟨a, b⟩ := hz _ (mat_right_lt hk hj) h2
      rw [a, b, mul_zero, mul_zero]
    obtain ⟨a, b⟩ := matForType_val nl nm nr ty tx hi hj hk h1 h2
    rw [ev_of_lt _ (mat_left_lt hi hk), ev_of_lt _ (mat_right_lt hk hj), ev_of_lt _ (mat_left_lt hi hk),
      ev_of_lt _ (mat_right_lt hk hj)]
    rw [heq ⟨_, mat_left_lt hi hk⟩ a, heq ⟨_, mat_right_lt hk hj⟩ b]

/-- the type of `A_00 * B_00 + A_01 * B_10` when `A_00` is a variable, `B_00` identically zero, `A_01` a constant and `B_10` a
dynamic parameter -/
example : matForType 1 2 1 (fun _ => .var)
    (fun j => if j = 0 then .var else if j = 1 then .constant else if j = 2 then .identicalZero else .dynamic) 0
      = .dynamic := by decide

end CppAD.AtomEx
