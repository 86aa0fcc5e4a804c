import Verif.Ode.GearModel
import Mathlib.LinearAlgebra.Lagrange

/-! # The vectors `alpha` and `beta` of `OdeGear` differentiate polynomials -/

namespace CppAD.Ode

open Polynomial Finset

/-- the weights in the documentation of `OdeGear`
(`ode_gear.hpp:290-305`) for the derivative at the point with index `l` -/
noncomputable def derivW (s : Finset ℕ) (T : ℕ → ℝ) (l j : ℕ) : ℝ :=
  if j = l then ∑ k ∈ s.erase l, 1 / (T l - T k)
  else 1 / (T j - T l) * ∏ k ∈ (s.erase j).erase l, (T l - T k) / (T j - T k)

theorem eval_derivative_basis {s : Finset ℕ} {T : ℕ → ℝ} (hT : Set.InjOn T s) {l j : ℕ}
    (hl : l ∈ s) (hj : j ∈ s) :
    eval (T l) (derivative (Lagrange.basis s T j)) = derivW s T l j := by
  have hd : ∀ k, eval (T l) (derivative (Lagrange.basisDivisor (T j) (T k))) = (T j - T k)⁻¹ := by
    intro k
    simp [Lagrange.basisDivisor]
  have he : ∀ k, eval (T l) (Lagrange.basisDivisor (T j) (T k)) = (T l - T k) / (T j - T k) := by
    intro k
    simp [Lagrange.basisDivisor]
    ring
  unfold Lagrange.basis
  rw [derivative_prod_finset, eval_finsetSum]
  simp only [eval_mul, eval_prod, hd, he]
  unfold derivW
  by_cases h : j = l
  · subst h
    rw [if_pos rfl]
    refine Finset.sum_congr rfl ?_
    intro k hk
    rw [Finset.prod_eq_one, one_mul, one_div]
    intro q hq
    have hq' := Finset.mem_of_mem_erase hq
    have : T j - T q ≠ 0 := by
      rw [sub_ne_zero]
      intro e
      exact (Finset.ne_of_mem_erase hq') (hT (Finset.mem_of_mem_erase hq') hj e.symm)
    exact div_self this
  · rw [if_neg h]
    have hl' : l ∈ s.erase j := Finset.mem_erase.2 ⟨Ne.symm h, hl⟩
    rw [Finset.sum_eq_single_of_mem l hl']
    · rw [one_div, mul_comm]
    · intro k hk hkl
      rw [Finset.prod_eq_zero (i := l) (Finset.mem_erase.2 ⟨hkl.symm, hl'⟩) (by simp), zero_mul]

/-- the weights differentiate every polynomial of degree less than the number of points -/
theorem derivW_ok {s : Finset ℕ} {T : ℕ → ℝ} (hT : Set.InjOn T s) {l : ℕ} (hl : l ∈ s)
    {p : ℝ[X]} (hp : p.degree < #s) :
    eval (T l) (derivative p) = ∑ j ∈ s, derivW s T l j * eval (T j) p := by
  have h := Lagrange.eq_interpolate hT hp
  conv_lhs => rw [h]
  rw [Lagrange.interpolate_apply, derivative_sum, eval_finsetSum]
  refine Finset.sum_congr rfl ?_
  intro j hj
  rw [derivative_C_mul, eval_C_mul, eval_derivative_basis hT hl hj, mul_comm]

/-! ### Loops that change one element -/

theorem forRange_cell (g : ℕ → ℝ → ℝ) (j lo hi : ℕ) (al : ℕ → ℝ) :
    forRange lo hi al (fun k (al : ℕ → ℝ) => Function.update al j (g k (al j)))
      = Function.update al j (forRange lo hi (al j) g) := by
  rcases le_total hi lo with h | h
  · rw [forRange_of_le h, forRange_of_le h, Function.update_eq_self]
  · refine forRange_ind (s := al) (lo := lo) (hi := hi) h
      (fun k (t : ℕ → ℝ) => t = Function.update al j (forRange lo k (al j) g)) ?_ ?_
    · rw [forRange_of_le le_rfl, Function.update_eq_self]
    · intro k t h1 h2 ht
      subst ht
      rw [forRange_succ h1]
      simp

theorem forRange_set {n : ℕ} (v : ℕ → ℝ) (al : ℕ → ℝ) :
    forRange 0 n al (fun j (al : ℕ → ℝ) => Function.update al j (v j))
      = fun i => if i < n then v i else al i := by
  refine forRange_ind (s := al) (lo := 0) (hi := n) (Nat.zero_le n)
    (fun k (t : ℕ → ℝ) => t = fun i => if i < k then v i else al i) (by simp) ?_
  intro k t _ hk ht
  subst ht
  funext i
  by_cases e : i = k
  · subst e; simp
  · rw [Function.update_of_ne e]
    have : i < k + 1 ↔ i < k := by omega
    simp only [this]

theorem forRange_sum (n : ℕ) (a : ℝ) (h : ℕ → ℝ) :
    forRange 0 n a (fun k (v : ℝ) => v + h k) = a + ∑ k ∈ range n, h k := by
  refine forRange_ind (s := a) (lo := 0) (hi := n) (Nat.zero_le n)
    (fun k (t : ℝ) => t = a + ∑ k ∈ range k, h k) (by simp) ?_
  intro k t _ hk ht
  rw [ht, Finset.sum_range_succ]; ring

theorem forRange_sub (n : ℕ) (a : ℝ) (h : ℕ → ℝ) :
    forRange 0 n a (fun k (v : ℝ) => v - h k) = a - ∑ k ∈ range n, h k := by
  refine forRange_ind (s := a) (lo := 0) (hi := n) (Nat.zero_le n)
    (fun k (t : ℝ) => t = a - ∑ k ∈ range k, h k) (by simp) ?_
  intro k t _ hk ht
  rw [ht, Finset.sum_range_succ]; ring

theorem forRange_prod (n : ℕ) (a : ℝ) (P : ℕ → Prop) [DecidablePred P] (u w : ℕ → ℝ) :
    forRange 0 n a (fun k (v : ℝ) => if P k then v * u k / w k else v)
      = a * ∏ k ∈ (range n).filter P, u k / w k := by
  refine forRange_ind (s := a) (lo := 0) (hi := n) (Nat.zero_le n)
    (fun k (t : ℝ) => t = a * ∏ k ∈ (range k).filter P, u k / w k) (by simp) ?_
  intro k t _ hk ht
  rw [ht, Finset.range_add_one, Finset.filter_insert]
  split_ifs with h
  · rw [Finset.prod_insert (by simp)]; ring
  · rfl

theorem alpha_inner (P : ℕ → Prop) [DecidablePred P] (u w : ℕ → ℝ) (j n : ℕ) (al : ℕ → ℝ) :
    forRange 0 n al (fun k (al : ℕ → ℝ) =>
      if P k then
        let al := Function.update al j (al j * u k)
        Function.update al j (al j / w k)
      else al) = Function.update al j (al j * ∏ k ∈ (range n).filter P, u k / w k) := by
  rw [← forRange_prod, ← forRange_cell]
  refine forRange_congr al ?_
  intro k t _ _
  by_cases h : P k
  · rw [if_pos h, if_pos h]
    simp
  · rw [if_neg h, if_neg h]
    simp

/-- the elements of `alpha` are the weights in the documentation -/
theorem gearAlpha_eq (m : ℕ) (T : ℕ → ℝ) {j : ℕ} (hj : j ≤ m) :
    gearAlpha m T j = derivW (range (m + 1)) T m j := by
  unfold gearAlpha
  dsimp only
  rw [forRange_cell (fun k v => v + 1 / (T m - T k)), forRange_sum]
  simp only [alpha_inner]
  simp only [Function.update_self, Function.update_idem]
  rw [forRange_set (fun j => 1 / (T j - T m) *
    ∏ k ∈ (range m).filter (fun k => k ≠ j), (T m - T k) / (T j - T k))]
  dsimp only
  unfold derivW
  have e1 : (range (m + 1)).erase m = range m := by
    ext x; simp; omega
  by_cases h : j = m
  · subst h
    rw [if_neg (lt_irrefl _), if_pos rfl, Function.update_self, e1, zero_add]
  · have hj' : j < m := lt_of_le_of_ne hj h
    rw [if_pos hj', if_neg h]
    congr 1
    refine Finset.prod_congr ?_ (fun _ _ => rfl)
    ext x; simp; omega

/-- the elements of `beta` are the weights in the documentation -/
theorem gearBeta_eq {m : ℕ} (hm : 1 ≤ m) (T : ℕ → ℝ) {j : ℕ} (hj : j ≤ m) :
    gearBeta m T j = derivW (range (m + 1)) T (m - 1) j := by
  unfold gearBeta
  dsimp only
  rw [forRange_cell (fun k v => v + 1 / (T (m - 1) - T k)), forRange_sum]
  simp only [fun j => alpha_inner (fun k => k ≠ j ∧ k ≠ m - 1) (fun k => T (m - 1) - T k)
    (fun k => T j - T k) j (m + 1)]
  simp only [Function.update_self, Function.update_idem]
  set be : ℕ → ℝ := Function.update (fun _ => 0) (m - 1)
    (1 / (T (m - 1) - T m) + ∑ k ∈ range (m - 1), 1 / (T (m - 1) - T k)) with hbe
  have key := forRange_ind (s := be) (lo := 0) (hi := m + 1) (Nat.zero_le _)
    (f := fun j (beta : ℕ → ℝ) => if j ≠ m - 1 then Function.update beta j (1 / (T j - T (m - 1)) *
      ∏ k ∈ (range (m + 1)).filter (fun k => k ≠ j ∧ k ≠ m - 1), (T (m - 1) - T k) / (T j - T k))
      else beta)
    (fun k (t : ℕ → ℝ) => t = fun i => if i < k ∧ i ≠ m - 1 then 1 / (T i - T (m - 1)) *
      ∏ k ∈ (range (m + 1)).filter (fun k => k ≠ i ∧ k ≠ m - 1), (T (m - 1) - T k) / (T i - T k)
      else be i) (by simp) (by
      intro k t _ hk ht
      subst ht
      funext i
      by_cases e : k = m - 1
      · rw [if_neg (by simpa using e)]
        have : (i < k + 1 ∧ i ≠ m - 1) ↔ (i < k ∧ i ≠ m - 1) := by omega
        simp only [this]
      · rw [if_pos e]
        by_cases e2 : i = k
        · subst e2
          rw [Function.update_self, if_pos ⟨Nat.lt_succ_self _, e⟩]
        · rw [Function.update_of_ne e2]
          have : (i < k + 1 ∧ i ≠ m - 1) ↔ (i < k ∧ i ≠ m - 1) := by omega
          simp only [this])
  rw [key]
  dsimp only
  unfold derivW
  by_cases h : j = m - 1
  · subst h
    rw [if_neg (by simp), if_pos rfl, hbe, Function.update_self]
    have e1 : (range (m + 1)).erase (m - 1) = insert m (range (m - 1)) := by
      ext x; simp; omega
    rw [e1, Finset.sum_insert (by simp)]
  · rw [if_pos ⟨by omega, h⟩, if_neg h]
    congr 1
    refine Finset.prod_congr ?_ (fun _ _ => rfl)
    ext x; simp; omega

end CppAD.Ode
