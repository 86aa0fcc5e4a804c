import Verif.AtomEx.InvObj

/-! # C62: two calls of one matrix inverse object, and an example -/

open scoped ContDiff Topology
open PowerSeries Filter

namespace CppAD.AtomEx

/-- **C62** every result is a variable when some element of the matrix is a variable -/
theorem invVy_ok (ny : ℕ) (vx vy : ℕ → Bool) {i : ℕ} (hi : i < ny) :
    invVy ny vx vy i = true ↔ ∃ j < ny, vx (1 + j) = true := by
  have h1 : forRange 0 ny false (fun i var => var || vx (1 + i)) = true ↔ ∃ j < ny, vx (1 + j) = true := by
    refine forRange_ind (lo := 0) (hi := ny) (Nat.zero_le _) (P := fun m b => b = true ↔ ∃ j < m, vx (1 + j) = true)
      (by simp) ?_
    intro k b _ _ ih
    rw [Bool.or_eq_true, ih]
    constructor
    · rintro (⟨j, hj, h⟩ | h)
      · exact ⟨j, by omega, h⟩
      · exact ⟨k, by omega, h⟩
    · rintro ⟨j, hj, h⟩
      rcases Nat.lt_succ_iff_lt_or_eq.1 hj with hj | rfl
      · exact Or.inl ⟨j, hj, h⟩
      · exact Or.inr h
  unfold invVy
  rw [← h1]
  have h2 := forRange_ind (lo := 0) (hi := ny) (Nat.zero_le _) (s := vy)
    (f := fun i vy => Function.update vy i (forRange 0 ny false (fun i var => var || vx (1 + i))))
    (P := fun m v => ∀ c < m, v c = forRange 0 ny false (fun i var => var || vx (1 + i))) (by intro c hc; omega) (by
      intro k v _ _ ih c hc
      by_cases e : c = k
      · subst e; rw [Function.update_self]
      · rw [Function.update_of_ne e]; exact ih c (by omega))
  rw [h2 i hi]

/-- constant curve of matrices with one element -/
def cst1 (a : ℝ) (_ : ℝ) : Mat 1 := Matrix.of fun _ _ => a

theorem cst1_sm (a : ℝ) : SmM (cst1 a) := fun _ _ => contDiffAt_const

theorem cst1_det {a : ℝ} (ha : a ≠ 0) : (cst1 a 0).det ≠ 0 := by
  rw [Matrix.det_fin_one]; exact ha

/-- arguments of a call with a matrix that has one element -/
def tx1 (a : ℝ) (i : ℕ) : ℝ := if i = 0 then 1 else a

theorem tx1_holds (a : ℝ) : HoldsM 1 0 (cst1 a) (tx1 a) := by
  refine ⟨by simp [tx1], ?_⟩
  intro i j k hk
  obtain rfl : k = 0 := by omega
  obtain rfl : i = 0 := Subsingleton.elim _ _
  obtain rfl : j = 0 := Subsingleton.elim _ _
  rw [tc_zero]
  simp [tx1, cst1]

theorem inv1 (a : ℝ) (i j : Fin 1) : ((Matrix.of fun _ _ => a : Mat 1))⁻¹ i j = a⁻¹ := by
  rw [Matrix.inv_def, Matrix.smul_apply, Matrix.det_fin_one, Ring.inverse_eq_inv', Matrix.adjugate_fin_one]
  obtain rfl : i = 0 := Subsingleton.elim _ _
  obtain rfl : j = 0 := Subsingleton.elim _ _
  simp

/-- the derivative that `reverse` should compute -/
theorem inv1_deriv {a : ℝ} (ha : a ≠ 0) {d : ℝ} (h : HasDerivAt (fun h : ℝ => ∑ i : Fin 1, ∑ j : Fin 1, ∑ l ∈ Finset.range (0 + 1),
    (1 : ℝ) * tc (fun t : ℝ => (cst1 a t + Matrix.single 0 0 (h * t ^ 0) : Mat 1)⁻¹ i j) l) d 0) : d = - (a ^ 2)⁻¹ := by
  have h1 : HasDerivAt (fun h => (a + h)⁻¹) (-1 / (a + 0) ^ 2) 0 :=
    ((hasDerivAt_id' (0 : ℝ)).const_add a).fun_inv (by simpa using ha)
  have h2 := h.unique (h1.congr_of_eventuallyEq (Filter.Eventually.of_forall fun h => ?_))
  · rw [h2, add_zero, div_eq_mul_inv, neg_one_mul]
  · have e : (fun _ _ => a : Matrix (Fin 1) (Fin 1) ℝ) = (Matrix.of fun _ _ => a : Mat 1) := rfl
    have e1 : ∀ t : ℝ, (cst1 a t + Matrix.single 0 0 (h * t ^ 0)) = (Matrix.of fun _ _ => a + h : Mat 1) := by
      intro t
      ext i j
      obtain rfl : i = 0 := Subsingleton.elim _ _
      obtain rfl : j = 0 := Subsingleton.elim _ _
      simp [cst1]
    simp only [e1, Finset.sum_range_one, Nat.zero_add, tc_zero, one_mul, inv1]
    simp

/-- **C62** (two calls) An object is used for two matrices, `a` and then `b`, as it is by a recording with two calls.
`reverse` for the first of them computes `- 1 / b ^ 2` although the derivative is `- 1 / a ^ 2`: `f_result_` is the one of
the last call. -/
theorem invReverse_wrong {a b : ℝ} (ha : a ≠ 0) (hb : b ≠ 0) (hab : a ^ 2 ≠ b ^ 2) (px : ℕ → ℝ) :
    ∃ o1 o2 o3 ya yb px', MatObj.fresh.forward 0 (tx1 a) (fun _ => 0) = some (o1, ya) ∧
      o1.forward 0 (tx1 b) (fun _ => 0) = some (o2, yb) ∧
      o2.reverse 0 (tx1 a) ya px (fun _ => 1) = some (o3, px') ∧ px' 1 = - (b ^ 2)⁻¹ ∧
      ¬ HasDerivAt (fun h : ℝ => ∑ i : Fin 1, ∑ j : Fin 1, ∑ l ∈ Finset.range (0 + 1),
          (1 : ℝ) * tc (fun t : ℝ => (cst1 a t + Matrix.single 0 0 (h * t ^ 0) : Mat 1)⁻¹ i j) l) (px' 1) 0 := by
  obtain ⟨o1, ya, e1, _⟩ := invForward_partial (nr := 1) .fresh (cst1_sm a) (cst1_det ha) (tx1_holds a) (fun _ => 0)
  have h1 : InvHist 1 o1 := .forward .fresh (tx1_holds a).1 e1
  obtain ⟨o2, yb, e2, _⟩ := invForward_partial h1 (cst1_sm b) (cst1_det hb) (tx1_holds b) (fun _ => 0)
  have h2 : InvLast 1 0 (cst1 b) o2 := .forward h1 (tx1_holds b) e2
  obtain ⟨o3, pxb, e3, hpx⟩ := invReverse_partial (cst1_sm b) (cst1_det hb) h2 le_rfl (tx1_holds b) ya px (fun _ => 1)
  have hv := inv1_deriv hb (hpx 0 0 0 le_rfl)
  -- the argument `tx` is not used in order zero
  have hs := h2.hist.sized
  obtain ⟨s1, s2, s3⟩ := h2.res (cst1_sm b) (cst1_det hb)
  have g2 : (o2.rgrow 1 (0 + 1)).dim = 1 := by rw [(o2.rgrow_f 1 (0 + 1)).2.1, s2]
  have g3 := MatObj.rgrow_dim (no := 0 + 1) hs (by omega)
  have ea := MatObj.reverse_eq (tx := tx1 a) ya px (fun _ => 1) (tx1_holds a).1 s1 g2 g3
  have eb := MatObj.reverse_eq (tx := tx1 b) ya px (fun _ => 1) (tx1_holds b).1 s1 g2 g3
  have hsame : o2.reverse 0 (tx1 a) ya px (fun _ => 1) = o2.reverse 0 (tx1 b) ya px (fun _ => 1) := by
    rw [ea, eb]
    rfl
  refine ⟨o1, o2, o3, ya, yb, pxb, e1, e2, hsame.trans e3, hv, fun hc => hab ?_⟩
  have := inv1_deriv ha hc
  have hv' : pxb 1 = - (b ^ 2)⁻¹ := hv
  rw [hv', neg_inj, inv_inj] at this
  exact this.symm

/-- **C62** (matrix sizes) An object that has been used with a matrix of one size is not resized when a matrix of another
size comes with the same number of orders; the class is documented to allow this (lines 22-25). -/
theorem invForward_size_wrong {n m : ℕ} (hnm : n ≠ m) {q q' : ℕ} (hq : q' ≤ q) {tx tx' : ℕ → ℝ} (h0 : tx 0 = (n : ℝ))
    (h0' : tx' 0 = (m : ℝ)) (ty ty' : ℕ → ℝ) :
    ∃ o y, MatObj.fresh.forward q tx ty = some (o, y) ∧ o.forward q' tx' ty' = none := by
  have hd : (MatObj.fresh.grow n (q + 1)).dim = n := MatObj.grow_dim (InvHist.fresh (nr := n)).sized (by omega)
  refine ⟨_, _, MatObj.forward_eq ty h0 hd, ?_⟩
  have e : ⌊tx' (0 * (q' + 1) + 0)⌋₊ = m := by
    rw [Nat.zero_mul, Nat.zero_add, h0', Nat.floor_natCast]
  have hs := MatObj.fresh.grow_size n (q + 1)
  unfold MatObj.forward
  dsimp only
  rw [e, if_neg]
  unfold MatObj.grow
  rw [if_neg]
  · dsimp only
    change ¬ (MatObj.fresh.grow n (q + 1)).dim = m
    rw [hd]; exact hnm
  · change ¬ (MatObj.fresh.grow n (q + 1)).size < q' + 1
    omega

/-- A curve of matrices of size two that meets the hypotheses, and the calls of `forward` and `reverse` for it. -/
noncomputable def exF (t : ℝ) : Mat 2 := Matrix.of ![![2 + t, 1], ![t ^ 2, 3]]

theorem exF_sm : SmM exF := by
  intro i j
  unfold Sm exF
  fin_cases i <;> fin_cases j <;> simp <;> fun_prop

example (ty px py : ℕ → ℝ) : ∃ (tx : ℕ → ℝ) (o o' : MatObj) (ty' px' : ℕ → ℝ),
    HoldsM 2 3 exF tx ∧ MatObj.fresh.forward 3 tx ty = some (o, ty') ∧ GivesM 2 3 (fun t => (exF t)⁻¹) ty' ∧
    o.reverse 3 tx ty' px py = some (o', px') := by
  have hd : (exF 0).det ≠ 0 := by
    unfold exF
    rw [Matrix.det_fin_two]
    simp
  let tx : ℕ → ℝ := fun c => if c = 0 then 2 else dataAt (tcM exF (c % 4)) (c / 4 - 1)
  have hx : HoldsM 2 3 exF tx := by
    refine ⟨by simp [tx], fun i j k hk => ?_⟩
    have h1 : ((1 + ((i : ℕ) * 2 + j)) * (3 + 1) + k) % 4 = k := by omega
    have h2 : ((1 + ((i : ℕ) * 2 + j)) * (3 + 1) + k) / 4 - 1 = (i : ℕ) * 2 + j := by omega
    simp only [tx]
    rw [if_neg (by omega), h1, h2, dataAt_val]
    rfl
  obtain ⟨o, ty', e1, h1⟩ := invForward_partial .fresh exF_sm hd hx ty
  obtain ⟨o', px', e2, _⟩ := invReverse_partial exF_sm hd (.forward .fresh hx e1) le_rfl hx ty' px py
  exact ⟨tx, o, o', ty', px', hx, e1, h1, e2⟩

end CppAD.AtomEx
