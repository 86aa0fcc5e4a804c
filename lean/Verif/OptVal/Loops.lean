import Verif.OptVal.Model
import Verif.OptVal.Calc
import Verif.AtomEx.MatFwd
import Verif.AtomEx.VecSparse

/-!
# opt_val_hes: the loops, and the recordings
-/

open scoped Topology
open CppAD.AtomEx (ev ev_of_lt ev_update idx_inj idx_lt fill_mat forRange_assign forRange_additive)

namespace CppAD.OptVal

/-- a loop on a state that might fail, but never does -/
theorem forRange_some {σ : Type*} {lo hi : ℕ} (v : σ) (F : ℕ → Option σ → Option σ) (g : ℕ → σ → σ)
    (h : ∀ k s, lo ≤ k → k < hi → F k (some s) = some (g k s)) :
    forRange lo hi (some v) F = some (forRange lo hi v g) := by
  rcases le_total hi lo with hle | hle
  · rw [forRange_of_le hle, forRange_of_le hle]
  · refine forRange_ind (s := some v) (f := F) hle (fun k t => t = some (forRange lo k v g))
      (by rw [forRange_of_le le_rfl]) ?_
    intro k t h1 h2 ht
    rw [ht, h k _ h1 h2, forRange_succ h1]

theorem copyY_some {ay m : ℕ} (h : m ≤ ay) (y v : ℕ → ℝ) : ∃ u, copyY ay m y v = some u := by
  refine ⟨_, forRange_some v _ (fun j v => Function.update v j (y j)) ?_⟩
  intro k s _ hk
  simp [setAt, show k < ay by omega]

theorem addTo_apply (n : ℕ) (v u : ℕ → ℝ) (c : ℕ) : addTo n v u c = if c < n then v c + u c else v c := by
  unfold addTo
  refine forRange_ind (s := v) (Nat.zero_le n) (fun K t => t c = if c < K then v c + u c else v c) (by simp) ?_
  intro k t _ _ ht
  by_cases e : c = k
  · subst e; simp at ht; simp [ht]
  · rw [Function.update_of_ne e, ht]
    by_cases h : c < k
    · rw [if_pos h, if_pos (by omega)]
    · rw [if_neg h, if_neg (by omega)]

/-- set to zero, then add the terms -/
theorem accum (N ell : ℕ) (v : ℕ → ℝ) (u : ℕ → ℕ → ℝ) {c : ℕ} (hc : c < N) :
    forRange 0 ell (forRange 0 N v fun j v => Function.update v j 0) (fun k v => addTo N v (u k)) c
      = ∑ k ∈ Finset.range ell, u k c := by
  rw [forRange_additive (G := fun k c => if c < N then u k c else 0)]
  · rw [forRange_assign (g := fun _ => 0) (hi := hc) (h := fun _ _ _ => rfl)]
    simp [hc]
  · intro k v c _ _
    rw [addTo_apply]; split <;> simp

theorem fHes_some {ay n m ell : ℕ} (hay : m ≤ ay) (sxy : ℕ → ADFun) (J : ℕ → Junk) (xy : List ℝ) (y h0 v : ℕ → ℝ) :
    ∃ h, fHes ay n m ell sxy J xy y h0 v = some h ∧ ∀ a < n + m, ∀ b < n + m,
      h (a * (n + m) + b) = ∑ k ∈ Finset.range ell,
        ((sxy k).hessianIdx (J k).zero (J k).fwd (J k).back (J k).nan (J k).out xy 0).2 (a * (n + m) + b) := by
  obtain ⟨u, hu⟩ := copyY_some hay y v
  refine ⟨_, forRange_some _ _ (fun k h => addTo ((n + m) * (n + m)) h
    ((sxy k).hessianIdx (J k).zero (J k).fwd (J k).back (J k).nan (J k).out xy 0).2) ?_, ?_⟩
  · intro k s _ _
    simp only [Option.bind_some, hu]
  · intro a ha b hb
    exact accum _ _ _ (fun k => ((sxy k).hessianIdx (J k).zero (J k).fwd (J k).back (J k).nan (J k).out xy 0).2)
      (idx_lt ha hb)

theorem fYX_apply (n m : ℕ) (h v : ℕ → ℝ) {i j : ℕ} (hi : i < m) (hj : j < n) :
    fYX n m h v (i * n + j) = h ((i + n) * (n + m) + j) :=
  (fill_mat v (fun i j => h ((i + n) * (n + m) + j)) (fun i j => i * n + j) _ (fun _ _ _ _ _ => rfl)
    (fun _ _ _ _ _ hj _ hj' e => idx_inj hj hj' e)).1 i hi j hj

theorem fYY_some {fyy n m : ℕ} (hf : m * m ≤ fyy) (h v : ℕ → ℝ) :
    ∃ u, fYY fyy n m h v = some u ∧ ∀ i < m, ∀ j < m, u (i * m + j) = h ((i + n) * (n + m) + j + n) := by
  refine ⟨_, forRange_some v _ (fun i v => forRange 0 m v fun j v =>
    Function.update v (i * m + j) (h ((i + n) * (n + m) + j + n))) ?_, ?_⟩
  · intro i v _ hi
    refine forRange_some v _ _ ?_
    intro j s _ hj
    have := idx_lt hi hj
    simp [setAt, show i * m + j < fyy by omega]
  · intro i hi j hj
    exact (fill_mat v (fun i j => h ((i + n) * (n + m) + j + n)) (fun i j => i * m + j) _ (fun _ _ _ _ _ => rfl)
      (fun _ _ _ _ _ hj _ hj' e => idx_inj hj hj' e)).1 i hi j hj

theorem hesPart_apply (n m : ℕ) (h negY hes : ℕ → ℝ) {i j : ℕ} (hi : i < n) (hj : j < n) :
    hesPart n m h negY hes (i * n + j) = h (i * (n + m) + j)
      - ∑ k ∈ Finset.range m, h (i * (n + m) + k + n) * negY (k * n + j) := by
  refine (fill_mat hes (fun i j => h (i * (n + m) + j)
      - ∑ k ∈ Finset.range m, h (i * (n + m) + k + n) * negY (k * n + j)) (fun i j => i * n + j) _ ?_
    (fun _ _ _ _ _ hj _ hj' e => idx_inj hj hj' e)).1 i hi j hj
  intro i j t _ _
  refine forRange_ind (s := Function.update t (i * n + j) (h (i * (n + m) + j))) (Nat.zero_le m)
    (fun K t' => t' = Function.update t (i * n + j) (h (i * (n + m) + j)
      - ∑ k ∈ Finset.range K, h (i * (n + m) + k + n) * negY (k * n + j))) (by simp) ?_
  intro k t' _ _ e
  rw [e, Function.update_idem, Function.update_self, Finset.sum_range_succ]
  congr 1; ring

/-! ### recordings -/

theorem at_ofFn {N : ℕ} (x : Fin N → ℝ) : at' (List.ofFn x) = ev x := by
  funext i
  unfold at' ev
  by_cases h : i < N
  · rw [dif_pos h, List.getD_eq_getElem _ _ (by simpa using h), List.getElem_ofFn]
  · rw [dif_neg h, List.getD_eq_default _ _ (by simpa using h)]

theorem ofFn_append {n m : ℕ} (x : Fin n → ℝ) (y : Fin m → ℝ) :
    List.ofFn x ++ List.ofFn y = List.ofFn (Fin.append x y) := (List.ofFn_fin_append x y).symm

theorem Records.jacobian {N : ℕ} {f : ADFun} {x : Fin N → ℝ} {φ : (Fin N → ℝ) → ℝ} (h : Records f x φ)
    (hφ : DifferentiableAt ℝ φ x) (J : Junk) (j : Fin N) :
    (f.jacobian J.zero J.fwd J.nan J.out (List.ofFn x)).2 j = fderiv ℝ φ x (Pi.single j 1) := by
  obtain ⟨T, S, hr, hT, rfl, hd, hD, he⟩ := h
  have := jacobian_ok hT hr J.zero J.fwd J.nan J.out (List.ofFn x) (by simp) (by rw [at_ofFn]; exact hD) 0
    (by omega) j j.isLt
  rw [at_ofFn, Nat.zero_mul, Nat.zero_add] at this
  exact partial_fderiv he hφ j this

theorem Records.hessian {N : ℕ} {f : ADFun} {x : Fin N → ℝ} {φ : (Fin N → ℝ) → ℝ} (h : Records f x φ)
    (hφ : ContDiffAt ℝ 2 φ x) (J : Junk) (i j : Fin N) :
    (f.hessianIdx J.zero J.fwd J.back J.nan J.out (List.ofFn x) 0).2 (i * N + j)
      = fderiv ℝ (fderiv ℝ φ) x (Pi.single i 1) (Pi.single j 1) := by
  obtain ⟨T, S, hr, hT, rfl, hd, hD, he⟩ := h
  have := hessianIdx_ok hT hr J.zero J.fwd J.back J.nan J.out (List.ofFn x) (by simp) (l := 0)
    (by omega) (by rw [at_ofFn]; exact hD) i i.isLt j j.isLt
  rw [at_ofFn] at this
  exact partial2_fderiv he (c2_ev hφ).1 (c2_ev hφ).2 i j this

end CppAD.OptVal
