import Verif.Taylor.Rev

/-! # Operators whose results are computed one after the other -/

namespace CppAD

/-- compute all the orders of result `0`, then of result `1`, ... -/
noncomputable def stages (p q nv : ℕ) (G : ℕ → ℕ → Tay → ℝ) : ℕ → Tay → Tay
  | 0, s => s
  | n + 1, s => forRange p (q + 1) (stages p q nv G n s) fun j s => s.set (nv + n) j (G n j s)

theorem stages_ok {p q nv : ℕ} (hpq : p ≤ q) (G : ℕ → ℕ → Tay → ℝ)
    (hG : ∀ i j s s', (∀ v k, (v < nv + i ∨ (v = nv + i ∧ k < j)) → s v k = s' v k) →
      G i j s = G i j s') (n : ℕ) (s : Tay) :
    (∀ i < n, ∀ j, p ≤ j → j ≤ q → stages p q nv G n s (nv + i) j = G i j (stages p q nv G n s)) ∧
    (∀ v k, ¬ ((nv ≤ v ∧ v < nv + n) ∧ p ≤ k ∧ k ≤ q) → stages p q nv G n s v k = s v k) := by
  induction n with
  | zero => exact ⟨fun i hi => by omega, fun v k _ => rfl⟩
  | succ n ih =>
    have a := fwd_single (p := p) (q := q) (z := nv + n) hpq (stages p q nv G n s) (G n)
      (fun j s s' h => hG n j s s' fun v k hvk => h v k (by omega))
    change _ ∧ _
    refine ⟨fun i hi j h1 h2 => ?_, fun v k hvk => ?_⟩
    · rcases Nat.lt_succ_iff_lt_or_eq.mp hi with h | rfl
      · have := ih.1 i h j h1 h2
        rw [stages, a.2 (nv + i) j (by omega), this]
        exact hG i j _ _ fun v k hvk => (a.2 v k (by omega)).symm
      · exact a.1 j h1 h2
    · rw [stages, a.2 v k (by omega), ih.2 v k (by omega)]

/-- the same for the order `q` of all the directions -/
noncomputable def dstages (q r nv : ℕ) (G : ℕ → ℕ → Tay → ℝ) : ℕ → Tay → Tay
  | 0, s => s
  | n + 1, s => forRange 0 r (dstages q r nv G n s) fun ell s =>
      s.set (nv + n) ((q - 1) * r + 1 + ell) (G n ell s)

theorem dstages_ok {q r nv : ℕ} (G : ℕ → ℕ → Tay → ℝ)
    (hG : ∀ i ell s s', ell < r →
      (∀ v k, (v < nv + i ∨ (v = nv + i ∧ k < (q - 1) * r + 1)) → s v k = s' v k) →
      G i ell s = G i ell s') (n : ℕ) (s : Tay) :
    (∀ i < n, ∀ ell < r, dstages q r nv G n s (nv + i) ((q - 1) * r + 1 + ell)
      = G i ell (dstages q r nv G n s)) ∧
    (∀ v m, ¬ ((nv ≤ v ∧ v < nv + n) ∧ (q - 1) * r + 1 ≤ m ∧ m < (q - 1) * r + 1 + r) →
      dstages q r nv G n s v m = s v m) := by
  induction n with
  | zero => exact ⟨fun i hi => by omega, fun v k _ => rfl⟩
  | succ n ih =>
    have a := dir_single (q := q) (r := r) (z := nv + n) (dstages q r nv G n s) (G n)
      (fun ell s s' hl h => hG n ell s s' hl fun v k hvk => h v k (by omega))
    refine ⟨fun i hi ell hl => ?_, fun v k hvk => ?_⟩
    · rcases Nat.lt_succ_iff_lt_or_eq.mp hi with h | rfl
      · have := ih.1 i h ell hl
        rw [dstages, a.2 (nv + i) _ (by omega), this]
        exact hG i ell _ _ hl fun v k hvk => (a.2 v k (by omega)).symm
      · exact a.1 ell hl
    · rw [dstages, a.2 v k (by omega), ih.2 v k (by omega)]

end CppAD
