import Verif.AbsOpt.EvalSpec
import Verif.AbsOpt.QpThm

/-!
# `abs_eval` computes the abs-normal approximation
-/

namespace CppAD.AbsOpt

theorem accum_frame (N j : ℕ) (r : ℕ → ℝ) (F : ℕ → (ℕ → ℝ) → ℝ) (h : ∀ i < N, ∀ v, F i (Function.update r j v) = F i r) :
    forRange 0 N r (fun i r => Function.update r j (r j + F i r)) = Function.update r j (r j + ∑ i ∈ Finset.range N, F i r) := by
  induction N with
  | zero => rw [forRange_of_le le_rfl]; simp
  | succ N ih =>
    rw [forRange_succ (Nat.zero_le N), ih (fun i hi => h i (by omega)), Function.update_idem, Function.update_self, Finset.sum_range_succ, add_assoc,
      h N (by omega)]

theorem absCheck_iff (n m s : ℕ) (gj : ℕ → ℝ) : absCheck n m s gj = true ↔ IsTri n m s gj := by
  have h1 : ∀ i ≤ s, ∀ b, forRange i s b (fun j b => b && decide (gj ((m + i) * (n + s) + (n + j)) = 0)) = true ↔
      b = true ∧ ∀ j < s, i ≤ j → gj ((m + i) * (n + s) + n + j) = 0 := by
    intro i hi b
    refine forRange_ind (s := b) (f := fun j b => b && decide (gj ((m + i) * (n + s) + (n + j)) = 0)) hi
      (fun K t => t = true ↔ b = true ∧ ∀ j < K, i ≤ j → gj ((m + i) * (n + s) + n + j) = 0) ?_ ?_
    · exact ⟨fun h => ⟨h, fun j h1 h2 => by omega⟩, fun h => h.1⟩
    · intro k t _ _ ih
      rw [Bool.and_eq_true, ih, decide_eq_true_iff, ← add_assoc]
      constructor
      · rintro ⟨⟨h1, h2⟩, h3⟩
        refine ⟨h1, fun j hj hij => ?_⟩
        by_cases e : j = k
        · subst e; exact h3
        · exact h2 j (by omega) hij
      · rintro ⟨h1, h2⟩
        exact ⟨⟨h1, fun j hj => h2 j (by omega)⟩, h2 k (by omega) (by omega)⟩
  unfold absCheck
  refine (forRange_ind (s := true) (Nat.zero_le s)
    (fun K t => t = true ↔ ∀ i < K, ∀ j < s, i ≤ j → gj ((m + i) * (n + s) + n + j) = 0) (by simp) ?_)
  intro k t _ hk ih
  rw [h1 k (by omega), ih]
  constructor
  · rintro ⟨h1, h2⟩ i hi
    by_cases e : i = k
    · subst e; exact h2
    · exact h1 i (by omega)
  · intro h
    exact ⟨fun i hi => h i (by omega), h k (by omega)⟩

/-- one component -/
theorem absRow (n m s N i : ℕ) (g gj dx gt : ℕ → ℝ) (hm : ∀ j < N, m + j ≠ i) :
    (forRange 0 N (forRange 0 n (Function.update gt i (g i)) fun j gt => Function.update gt i (gt i + gj (i * (n + s) + j) * dx j)) fun j gt =>
      Function.update gt i (gt i + gj (i * (n + s) + n + j) * (|gt (m + j)| - |g (m + j)|))) =
    Function.update gt i (g i + ∑ j ∈ Finset.range n, gj (i * (n + s) + j) * dx j +
      ∑ j ∈ Finset.range N, gj (i * (n + s) + n + j) * (|gt (m + j)| - |g (m + j)|)) := by
  rw [accum, Function.update_self, Function.update_idem]
  rw [accum_frame N i _ (fun j gt => gj (i * (n + s) + n + j) * (|gt (m + j)| - |g (m + j)|))]
  · rw [Function.update_idem, Function.update_self]
    congr 2
    refine Finset.sum_congr rfl fun j hj => ?_
    rw [Function.update_of_ne (hm j (Finset.mem_range.1 hj))]
  · intro j hj v
    rw [Function.update_of_ne (hm j hj), Function.update_of_ne (hm j hj)]

theorem absEvalZ_ok {n m s : ℕ} {gj : ℕ → ℝ} (ht : IsTri n m s gj) (g dx junk : ℕ → ℝ) :
    ∀ i < s, absEvalZ n m s g gj dx junk (m + i) = lin n m s g gj dx (absEvalZ n m s g gj dx junk) (m + i) := by
  -- the sum over j < i
  have key : ∀ i < s, absEvalZ n m s g gj dx junk (m + i) = g (m + i) + ∑ j ∈ Finset.range n, gj ((m + i) * (n + s) + j) * dx j +
      ∑ j ∈ Finset.range i, gj ((m + i) * (n + s) + n + j) * (|absEvalZ n m s g gj dx junk (m + j)| - |g (m + j)|) := by
    unfold absEvalZ
    refine forRange_ind (s := junk) (Nat.zero_le s) (fun K t => ∀ i < K, t (m + i) = g (m + i) + ∑ j ∈ Finset.range n, gj ((m + i) * (n + s) + j) * dx j +
      ∑ j ∈ Finset.range i, gj ((m + i) * (n + s) + n + j) * (|t (m + j)| - |g (m + j)|)) (by intros; omega) ?_
    intro k t _ hk ih i hi
    rw [absRow n m s k (m + k) g gj dx t (by intro j hj; omega)]
    by_cases e : i = k
    · subst e
      rw [Function.update_self]
      congr 1
      refine Finset.sum_congr rfl fun j hj => ?_
      have := Finset.mem_range.1 hj
      rw [Function.update_of_ne (by omega)]
    · rw [Function.update_of_ne (by omega), ih i (by omega)]
      congr 1
      refine Finset.sum_congr rfl fun j hj => ?_
      have := Finset.mem_range.1 hj
      rw [Function.update_of_ne (by omega)]
  intro i hi
  rw [key i hi]
  unfold lin
  congr 1
  refine Finset.sum_subset (fun j hj => Finset.mem_range.2 ((Finset.mem_range.1 hj).trans hi)) fun j hj hn => ?_
  rw [ht i hi j (Finset.mem_range.1 hj) (by have : ¬ j < i := fun h => hn (Finset.mem_range.2 h); omega), zero_mul]

/-- **C59.** When `z_i(x, u)` does not depend on `u_j` for `j ≥ i`, `abs_eval` returns the abs-normal approximation; otherwise its assertion fails. -/
theorem absEval_ok (n m s : ℕ) (g gj dx junk : ℕ → ℝ) :
    (IsTri n m s gj → ∃ gt, absEval n m s g gj dx junk = some gt ∧ IsApprox n m s g gj dx gt) ∧
    (¬ IsTri n m s gj → absEval n m s g gj dx junk = none) := by
  unfold absEval
  refine ⟨fun ht => ?_, fun ht => ?_⟩
  · rw [if_pos ((absCheck_iff n m s gj).2 ht)]
    refine ⟨_, rfl, ?_⟩
    have hz := absEvalZ_ok ht g dx junk
    set z := absEvalZ n m s g gj dx junk with hzd
    have hy : (∀ i < m, absEvalY n m s g gj dx z i = lin n m s g gj dx z i) ∧ ∀ c, m ≤ c → absEvalY n m s g gj dx z c = z c := by
      unfold absEvalY
      refine forRange_ind (s := z) (Nat.zero_le m) (fun K t => (∀ i < K, t i = lin n m s g gj dx z i) ∧ ∀ c, m ≤ c → t c = z c)
        ⟨by intros; omega, fun _ _ => rfl⟩ ?_
      rintro k t _ hk ⟨h1, h2⟩
      dsimp only
      rw [absRow n m s s k g gj dx t (by intro j hj; omega)]
      refine ⟨fun i hi => ?_, fun c hc => ?_⟩
      · by_cases e : i = k
        · subst e
          rw [Function.update_self]
          unfold lin
          congr 1
          exact Finset.sum_congr rfl fun j _ => by rw [h2 _ (by omega)]
        · rw [Function.update_of_ne e]; exact h1 i (by omega)
      · rw [Function.update_of_ne (by omega)]; exact h2 c hc
    have hl : ∀ i, lin n m s g gj dx (absEvalY n m s g gj dx z) i = lin n m s g gj dx z i := by
      intro i
      unfold lin
      congr 1
      exact Finset.sum_congr rfl fun j _ => by rw [hy.2 _ (by omega)]
    intro i hi
    rw [hl]
    by_cases h : i < m
    · exact hy.1 i h
    · obtain ⟨k, rfl⟩ := Nat.exists_eq_add_of_le (not_lt.1 h)
      rw [hy.2 _ (by omega)]
      exact hz k (by omega)
  · rw [if_neg]
    intro h
    exact ht ((absCheck_iff n m s gj).1 h)

/-- **C59.** The equations of the abs-normal approximation have only one solution. -/
theorem isApprox_unique {n m s : ℕ} {g gj dx dx' gt gt' : ℕ → ℝ} (ht : IsTri n m s gj) (hd : ∀ j < n, dx j = dx' j)
    (h : IsApprox n m s g gj dx gt) (h' : IsApprox n m s g gj dx' gt') : ∀ i < m + s, gt i = gt' i := by
  have hx : ∀ i, ∑ j ∈ Finset.range n, gj (i * (n + s) + j) * dx j = ∑ j ∈ Finset.range n, gj (i * (n + s) + j) * dx' j :=
    fun i => Finset.sum_congr rfl fun j hj => by rw [hd j (Finset.mem_range.1 hj)]
  have hz : ∀ i < s, gt (m + i) = gt' (m + i) := by
    intro i
    induction i using Nat.strong_induction_on with
    | _ i ih =>
      intro hi
      rw [h _ (by omega), h' _ (by omega)]
      unfold lin
      rw [hx]
      congr 1
      refine Finset.sum_congr rfl fun j hj => ?_
      by_cases hji : j < i
      · rw [ih j hji (Finset.mem_range.1 hj)]
      · rw [ht i hi j (Finset.mem_range.1 hj) (by omega), zero_mul, zero_mul]
  intro i hi
  by_cases hm : i < m
  · rw [h _ hi, h' _ hi]
    unfold lin
    rw [hx]
    congr 1
    exact Finset.sum_congr rfl fun j hj => by rw [hz j (Finset.mem_range.1 hj)]
  · obtain ⟨k, rfl⟩ := Nat.exists_eq_add_of_le (not_lt.1 hm)
    exact hz k (by omega)

end CppAD.AbsOpt
