import Verif.AtomEx.CholObj
import Verif.AtomEx.CholPos
import Verif.AtomEx.InvWrong

/-! # C62: two calls of one Cholesky object, matrices of different sizes, and an example -/

open scoped ContDiff Topology
open PowerSeries Filter

namespace CppAD.AtomEx

theorem chol1 {a : ℝ} (ha : 0 < a) : IsChol (Matrix.of fun _ _ => a : Mat 1) (Matrix.of fun _ _ => √a) := by
  refine ⟨fun i j hij => ?_, fun i => Real.sqrt_pos.2 ha, ?_⟩
  · obtain rfl : i = 0 := Subsingleton.elim _ _
    obtain rfl : j = 0 := Subsingleton.elim _ _
    exact absurd hij (lt_irrefl _)
  · ext i j
    rw [Matrix.mul_apply, Fin.sum_univ_one]
    simp only [Matrix.transpose_apply, Matrix.of_apply]
    exact Real.mul_self_sqrt ha.le

theorem cst1_symCurve {a : ℝ} (ha : 0 < a) : SymCurve (cst1 a) :=
  ⟨cst1_sm a, fun _ => rfl, _, chol1 ha⟩

theorem tx1_holdsT (a : ℝ) : HoldsT 1 0 (cst1 a) (tx1 a) := by
  refine ⟨by simp [tx1], ?_⟩
  intro i j _ k hk
  obtain rfl : k = 0 := by omega
  obtain rfl : i = 0 := Subsingleton.elim _ _
  obtain rfl : j = 0 := Subsingleton.elim _ _
  rw [tc_zero]
  simp [tx1, cst1]

/-- the weighted sum of the results of a call with one element -/
noncomputable def chol1Sum (a h : ℝ) : ℝ :=
  ∑ i : Fin 1, ∑ j ∈ Finset.Iic i, ∑ l ∈ Finset.range (0 + 1),
    (1 : ℝ) * tc (fun t : ℝ => chol (cst1 a t + (h * t ^ 0) • symE 0 0 : Mat 1) i j) l

/-- the derivative that `reverse` should compute -/
theorem chol1_deriv {a : ℝ} (ha : 0 < a) {d : ℝ} (h : HasDerivAt (chol1Sum a) d 0) : d = (2 * √a)⁻¹ := by
  have h1 : HasDerivAt (fun h => √(a + h)) (1 / (2 * √(a + 0))) 0 :=
    ((hasDerivAt_id' (0 : ℝ)).const_add a).sqrt (by simpa using ha.ne')
  have hn : ∀ᶠ h in 𝓝 (0 : ℝ), 0 < a + h := by
    have : Tendsto (fun h : ℝ => a + h) (𝓝 0) (𝓝 (a + 0)) := (continuous_const.add continuous_id).tendsto 0
    rw [add_zero] at this
    exact this.eventually_const_lt ha
  have h2 := h.unique (h1.congr_of_eventuallyEq (hn.mono fun h hh => ?_))
  · rw [h2, add_zero, one_div]
  · have e1 : ∀ t : ℝ, (cst1 a t + (h * t ^ 0) • symE 0 0) = (Matrix.of fun _ _ => a + h : Mat 1) := by
      intro t
      ext i j
      obtain rfl : i = 0 := Subsingleton.elim _ _
      obtain rfl : j = 0 := Subsingleton.elim _ _
      simp [cst1, symE]
    have e2 : Finset.Iic (0 : Fin 1) = {0} := rfl
    unfold chol1Sum
    simp only [e1, (chol1 hh).chol_eq, Finset.sum_range_one, Nat.zero_add, tc_zero, one_mul, Fin.sum_univ_one, e2,
      Finset.sum_singleton, Matrix.of_apply]

/-- **C62** (two calls) An object is used for two matrices, `a` and then `b`, as it is by a recording with two calls.
`reverse` for the first of them computes `1 / (2 √b)` although the derivative is `1 / (2 √a)`: `f_result_` is the one of the
last call. -/
theorem cholReverse_wrong {a b : ℝ} (ha : 0 < a) (hb : 0 < b) (hab : a ≠ b) (px : ℕ → ℝ) :
    ∃ o1 o2 o3 ya yb px', MatObj.fresh.cholForward 0 (tx1 a) (fun _ => 0) = some (o1, ya) ∧
      o1.cholForward 0 (tx1 b) (fun _ => 0) = some (o2, yb) ∧
      o2.cholReverse 0 (tx1 a) ya px (fun _ => 1) = some (o3, px') ∧ px' 1 = (2 * √b)⁻¹ ∧
      ¬ HasDerivAt (fun h : ℝ => ∑ i : Fin 1, ∑ j ∈ Finset.Iic i, ∑ l ∈ Finset.range (0 + 1),
          (1 : ℝ) * tc (fun t : ℝ => chol (cst1 a t + (h * t ^ 0) • symE 0 0 : Mat 1) i j) l) (px' 1) 0 := by
  obtain ⟨o1, ya, e1, _⟩ := cholForward_partial (nr := 1) .fresh (cst1_symCurve ha) (tx1_holdsT a) (fun _ => 0)
  have h1 : CholHist 1 o1 := .forward .fresh (tx1_holdsT a).1 e1
  obtain ⟨o2, yb, e2, _⟩ := cholForward_partial h1 (cst1_symCurve hb) (tx1_holdsT b) (fun _ => 0)
  have h2 : CholLast 1 0 (cst1 b) o2 := .forward h1 (tx1_holdsT b) e2
  obtain ⟨o3, pxb, e3, _, hpx⟩ := cholReverse_partial (cst1_symCurve hb) h2 le_rfl (tx1_holdsT a).1 ya px (fun _ => 1)
  have hv := chol1_deriv hb (hpx 0 0 le_rfl 0 le_rfl)
  refine ⟨o1, o2, o3, ya, yb, pxb, e1, e2, e3, hv, fun hc => hab ?_⟩
  have := chol1_deriv ha hc
  have hv' : pxb 1 = (2 * √b)⁻¹ := hv
  rw [hv', inv_inj] at this
  exact ((Real.sqrt_inj hb.le ha.le).1 (by linarith)).symm

/-- **C62** (matrix sizes) An object that has been used with a matrix of one size is not resized when a matrix of another
size comes with the same number of orders; the class is documented to allow this (eigen_cholesky.hpp:22-25). -/
theorem cholForward_size_wrong {n m : ℕ} (hnm : n ≠ m) {q q' : ℕ} (hq : q' ≤ q) {tx tx' : ℕ → ℝ} (h0 : tx 0 = (n : ℝ))
    (h0' : tx' 0 = (m : ℝ)) (ty ty' : ℕ → ℝ) :
    ∃ o y, MatObj.fresh.cholForward q tx ty = some (o, y) ∧ o.cholForward q' tx' ty' = none := by
  have hd : (MatObj.fresh.grow n (q + 1)).dim = n := MatObj.grow_dim' (CholHist.fresh (nr := n)).sized (by omega)
  refine ⟨_, _, MatObj.cholForward_eq ty h0 hd, ?_⟩
  have e : ⌊tx' (0 * (q' + 1) + 0)⌋₊ = m := by
    rw [Nat.zero_mul, Nat.zero_add, h0', Nat.floor_natCast]
  have hs := MatObj.fresh.grow_size n (q + 1)
  unfold MatObj.cholForward
  dsimp only
  rw [e, if_neg]
  unfold MatObj.grow
  rw [if_neg]
  · dsimp only
    change ¬ (MatObj.fresh.grow n (q + 1)).dim = m
    rw [hd]; exact hnm
  · change ¬ (MatObj.fresh.grow n (q + 1)).size < q' + 1
    omega

/-- A curve of symmetric matrices of size two that meets the hypotheses, and the calls of `forward` and `reverse` for it. -/
noncomputable def exS (t : ℝ) : Mat 2 := Matrix.of ![![4 + t, 2], ![2, 5 + t ^ 2]]

theorem exS_curve : SymCurve exS := by
  refine ⟨?_, ?_, Matrix.of ![![2, 0], ![1, 2]], ?_, ?_, ?_⟩
  · intro i j
    unfold Sm exS
    fin_cases i <;> fin_cases j <;> simp <;> fun_prop
  · intro t
    ext i j
    unfold exS
    fin_cases i <;> fin_cases j <;> simp
  · intro i j hij
    fin_cases i <;> fin_cases j <;> simp at hij ⊢
  · intro i
    fin_cases i <;> simp
  · unfold exS
    ext i j
    fin_cases i <;> fin_cases j <;> simp [Matrix.mul_apply, Fin.sum_univ_two] <;> norm_num

/-- position of the first element of a row of the triangle in the example -/
def exPos (c : ℕ) : Fin 2 × Fin 2 := if c = 0 then (0, 0) else if c = 1 then (1, 0) else (1, 1)

example (ty px py : ℕ → ℝ) : ∃ (tx : ℕ → ℝ) (o o' : MatObj) (ty' px' : ℕ → ℝ),
    HoldsT 2 3 exS tx ∧ MatObj.fresh.cholForward 3 tx ty = some (o, ty') ∧ GivesT 2 3 (fun t => chol (exS t)) ty' ∧
    o.cholReverse 3 tx ty' px py = some (o', px') := by
  let tx : ℕ → ℝ := fun c => if c = 0 then 2 else tcM exS (c % 4) (exPos (c / 4 - 1)).1 (exPos (c / 4 - 1)).2
  have hx : HoldsT 2 3 exS tx := by
    refine ⟨by simp [tx], fun i j hij k hk => ?_⟩
    have h1 : ((1 + ((i : ℕ) * (i + 1) / 2 + j)) * (3 + 1) + k) % 4 = k := by omega
    have h2 : ((1 + ((i : ℕ) * (i + 1) / 2 + j)) * (3 + 1) + k) / 4 - 1 = (i : ℕ) * (i + 1) / 2 + j := by omega
    simp only [tx]
    rw [if_neg (by omega), h1, h2]
    fin_cases i <;> fin_cases j <;> first | rfl | exact absurd hij (by decide)
  obtain ⟨o, ty', e1, h1⟩ := cholForward_partial .fresh exS_curve hx ty
  obtain ⟨o', px', e2, _⟩ := cholReverse_partial exS_curve (.forward .fresh hx e1) le_rfl hx.1 ty' px py
  exact ⟨tx, o, o', ty', px', hx, e1, h1, e2⟩

end CppAD.AtomEx
