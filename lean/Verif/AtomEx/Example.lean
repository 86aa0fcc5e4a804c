import Verif.AtomEx.MatSparse

/-! # The hypotheses of the theorems about the atomic functions are met -/

open scoped ContDiff Topology

namespace CppAD.AtomEx

/-- curves, with all the Taylor coefficients that the callbacks get, that satisfy the hypotheses of `ForwardOk` and
`ReverseOk` for every operator, size and order -/
example (op : VOpE) (m q : ℕ) : ∃ (X : ℝ → Fin (op.n m) → ℝ) (tx ty : ℕ → ℝ), (∀ j, Sm (fun t => X t j)) ∧ X 0 ∈ op.dom m ∧
    (∀ j : Fin (op.n m), ∀ k ≤ q, tx (j * (q + 1) + k) = tc (fun t => X t j) k) ∧
    (∀ i < m, ∀ k ≤ q, ty (i * (q + 1) + k) = tc (fun t => op.fn m (X t) i) k) ∧
    (∀ j, tc (fun t => X t j) 0 = 1 + (j : ℕ) ∧ tc (fun t => X t j) 1 = 2) := by
  have hdm : ∀ i k : ℕ, k ≤ q → (i * (q + 1) + k) / (q + 1) = i ∧ (i * (q + 1) + k) % (q + 1) = k := fun i k hk =>
    div_mod_idx (by omega)
  refine ⟨fun t j => (1 + (j : ℕ)) + 2 * t,
    fun c => tc (fun t => ev (fun j : Fin (op.n m) => (1 + ((j : ℕ) : ℝ)) + 2 * t) (c / (q + 1))) (c % (q + 1)),
    fun c => tc (fun t => op.fn m (fun j => (1 + ((j : ℕ) : ℝ)) + 2 * t) (c / (q + 1))) (c % (q + 1)), ?_, ?_, ?_, ?_, ?_⟩
  · intro j; unfold Sm; fun_prop
  · cases op <;> simp only [VOpE.dom, Set.mem_univ]
    intro i hi
    have hn : m + i < VOpE.n VOpE.div m := by simp [VOpE.n, VOpE.isUnary]; omega
    rw [ev_of_lt _ hn]
    dsimp only
    have : (0 : ℝ) ≤ ((m + i : ℕ) : ℝ) := Nat.cast_nonneg _
    intro h; rw [mul_zero, add_zero] at h; linarith
  · intro j k hk
    dsimp only
    rw [(hdm j k hk).1, (hdm j k hk).2]
    simp only [ev_val]
  · intro i _ k hk
    dsimp only
    rw [(hdm i k hk).1, (hdm i k hk).2]
  · intro j
    constructor
    · rw [tc_lin]; simp
    · rw [tc_lin]; simp

/-- the same for matrix products -/
example (nl nm nr q : ℕ) : ∃ (X : ℝ → Fin (matN nl nm nr) → ℝ) (tx ty : ℕ → ℝ), (∀ j, Sm (fun t => X t j)) ∧
    (∀ j : Fin (matN nl nm nr), ∀ k ≤ q, tx (j * (q + 1) + k) = tc (fun t => X t j) k) ∧
    (∀ i < nl * nr, ∀ k ≤ q, ty (i * (q + 1) + k) = tc (fun t => matFn nl nm nr (X t) i) k) ∧
    (∀ j, tc (fun t => X t j) 0 = 1 + (j : ℕ) ∧ tc (fun t => X t j) 1 = 2) := by
  have hdm : ∀ i k : ℕ, k ≤ q → (i * (q + 1) + k) / (q + 1) = i ∧ (i * (q + 1) + k) % (q + 1) = k := fun i k hk =>
    div_mod_idx (by omega)
  refine ⟨fun t j => (1 + (j : ℕ)) + 2 * t,
    fun c => tc (fun t => ev (fun j : Fin (matN nl nm nr) => (1 + ((j : ℕ) : ℝ)) + 2 * t) (c / (q + 1))) (c % (q + 1)),
    fun c => tc (fun t => matFn nl nm nr (fun j => (1 + ((j : ℕ) : ℝ)) + 2 * t) (c / (q + 1))) (c % (q + 1)), ?_, ?_, ?_, ?_⟩
  · intro j; unfold Sm; fun_prop
  · intro j k hk
    dsimp only
    rw [(hdm j k hk).1, (hdm j k hk).2]
    simp only [ev_val]
  · intro i _ k hk
    dsimp only
    rw [(hdm i k hk).1, (hdm i k hk).2]
  · intro j
    constructor
    · rw [tc_lin]; simp
    · rw [tc_lin]; simp

/-- the Jacobian pattern of a product of vectors of length two when `v_1` is not selected -/
example : vecJac .mul 2 (fun _ => false) false (fun j => decide (j ≠ 3)) (fun _ => true) = [(0, 0), (0, 2), (1, 1)] := by
  decide

/-- `rev_depend` for a quotient when only the second result is needed -/
example : (List.range 4).map (vecRevDepend .div 2 fun i => decide (i = 1)) = [false, true, false, true] := by decide

end CppAD.AtomEx
