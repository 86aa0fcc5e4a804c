import Verif.Ode.Runge45
import Mathlib.Algebra.BigOperators.Fin
import Mathlib.Analysis.Calculus.ContDiff.RCLike

/-! # The loops of `Runge45` over the real numbers (property C67) -/

namespace CppAD.Rk

/-- a function of `n` variables as a function of vectors in memory: what `F.Ode` computes -/
noncomputable def ode (n : ℕ) (F : ℝ → (Fin n → ℝ) → Fin n → ℝ) (t : ℝ) (x : ℕ → ℝ) (i : ℕ) : ℝ :=
  if h : i < n then F t (fun r => x r) ⟨i, h⟩ else 0

/-- the rational constants as real numbers -/
noncomputable abbrev re (q : ℚ) : ℝ := (q : ℝ)

variable {n : ℕ} (F : ℝ → (Fin n → ℝ) → Fin n → ℝ)

theorem row_apply (c : ℝ) (fh : ℕ → ℝ) (k : ℕ) (x : ℕ → ℝ) (i : ℕ) :
    forRange 0 n x (fun i x => Function.update x i (x i + c * fh (i * 6 + k))) i =
      if i < n then x i + c * fh (i * 6 + k) else x i := by
  have key := forRange_ind (Nat.zero_le n) (s := x)
    (f := fun i x => Function.update x i (x i + c * fh (i * 6 + k)))
    (fun L (y : ℕ → ℝ) => ∀ i, y i = if i < L then x i + c * fh (i * 6 + k) else x i) (by intro i; simp)
    (by
      intro L y _ hL ih i
      by_cases hi : i = L
      · subst hi
        rw [Function.update_self, ih]
        simp
      · rw [Function.update_of_ne hi, ih]
        have : (i < L + 1) ↔ (i < L) := by omega
        simp only [this])
  exact key i

theorem xtmp_apply (fh xf : ℕ → ℝ) (j i : ℕ) (hi : i < n) :
    forRange 0 j xf (fun k x => forRange 0 n x fun i x =>
      Function.update x i (x i + re (tabB ((j - 1) * 5 + k)) * fh (i * 6 + k))) i =
      xf i + ∑ k ∈ Finset.range j, re (tabB ((j - 1) * 5 + k)) * fh (i * 6 + k) := by
  have key := forRange_ind (Nat.zero_le j) (s := xf)
    (f := fun k x => forRange 0 n x fun i x =>
      Function.update x i (x i + re (tabB ((j - 1) * 5 + k)) * fh (i * 6 + k)))
    (fun L (y : ℕ → ℝ) => ∀ i, i < n → y i = xf i + ∑ k ∈ Finset.range L, re (tabB ((j - 1) * 5 + k)) * fh (i * 6 + k))
    (by intro i _; simp)
    (by
      intro L y _ hL ih i hi
      rw [row_apply, if_pos hi, ih i hi, Finset.sum_range_succ, add_assoc])
  exact key i hi

theorem zn_apply (f : ℕ → ℝ) : forRange 0 n (0 : ℝ) (fun i z => z * f i) = 0 :=
  forRange_ind (Nat.zero_le n) (s := (0 : ℝ)) (f := fun i z => z * f i) (fun _ (z : ℝ) => z = 0) rfl
    (by intro L z _ _ ih; rw [ih, zero_mul])

theorem store_apply (ft : ℕ → ℝ) (h c4 c5 zn : ℝ) (j : ℕ) (hj : j < 6) (fh x4 x5 : ℕ → ℝ) :
    let v := forRange 0 n (fh, x4, x5) fun i v =>
      (Function.update v.1 (i * 6 + j) (ft i * h), Function.update v.2.1 i (v.2.1 i + c4 * (ft i * h)),
        Function.update v.2.2 i (v.2.2 i + c5 * (ft i * h) + zn))
    (∀ i < n, v.1 (i * 6 + j) = ft i * h) ∧ (∀ i < n, ∀ k < 6, k ≠ j → v.1 (i * 6 + k) = fh (i * 6 + k)) ∧
    (∀ i < n, v.2.1 i = x4 i + c4 * (ft i * h)) ∧ (∀ i < n, v.2.2 i = x5 i + c5 * (ft i * h) + zn) := by
  intro v
  have key := forRange_ind (Nat.zero_le n) (s := (fh, x4, x5)) (f := fun i v =>
      (Function.update v.1 (i * 6 + j) (ft i * h), Function.update v.2.1 i (v.2.1 i + c4 * (ft i * h)),
        Function.update v.2.2 i (v.2.2 i + c5 * (ft i * h) + zn)))
    (fun L (v : (ℕ → ℝ) × (ℕ → ℝ) × (ℕ → ℝ)) => (∀ i < L, v.1 (i * 6 + j) = ft i * h) ∧
      (∀ i, ∀ k < 6, k ≠ j → v.1 (i * 6 + k) = fh (i * 6 + k)) ∧
      (∀ i, v.2.1 i = if i < L then x4 i + c4 * (ft i * h) else x4 i) ∧
      (∀ i, v.2.2 i = if i < L then x5 i + c5 * (ft i * h) + zn else x5 i))
    ⟨by intro i hi; omega, fun _ _ _ _ => rfl, by intro i; simp, by intro i; simp⟩
    (by
      rintro L ⟨v1, v2, v3⟩ _ hL ⟨i1, i2, i3, i4⟩
      refine ⟨fun i hi => ?_, fun i k hk hkj => ?_, fun i => ?_, fun i => ?_⟩
      · by_cases e : i = L
        · subst e; exact Function.update_self _ _ _
        · show Function.update v1 _ _ _ = _
          rw [Function.update_of_ne (by omega)]
          exact i1 i (by omega)
      · show Function.update v1 _ _ _ = _
        rw [Function.update_of_ne (by omega)]
        exact i2 i k hk hkj
      · show Function.update v2 _ _ _ = _
        by_cases e : i = L
        · subst e
          rw [Function.update_self, i3 i]; simp
        · rw [Function.update_of_ne e, show v2 i = _ from i3 i]
          have : (i < L + 1) ↔ (i < L) := by omega
          simp only [this]
      · show Function.update v3 _ _ _ = _
        by_cases e : i = L
        · subst e
          rw [Function.update_self, i4 i]; simp
        · rw [Function.update_of_ne e, show v3 i = _ from i4 i]
          have : (i < L + 1) ↔ (i < L) := by omega
          simp only [this])
  obtain ⟨k1, k2, k3, k4⟩ := key
  exact ⟨k1, fun i _ => k2 i, fun i hi => by rw [k3 i, if_pos hi], fun i hi => by rw [k4 i, if_pos hi]⟩

end CppAD.Rk
