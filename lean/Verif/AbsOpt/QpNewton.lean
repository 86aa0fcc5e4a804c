import Verif.AbsOpt.QpThm
import Mathlib.LinearAlgebra.Matrix.ToLinearEquiv

/-!
# Quadratic programs: the Newton step
-/

namespace CppAD.AbsOpt

open CppAD.AtomEx (forRange_assign forRange_additive idx_inj)

/-- `G + C^T D(y / s) C` -/
noncomputable def leftX (n m : ℕ) (C G y s : ℕ → ℝ) : ℕ → ℝ :=
  forRange 0 n G fun i L => forRange 0 n L fun j L => forRange 0 m L fun k L =>
    Function.update L (i * n + j) (L (i * n + j) + C (k * n + j) * (y k / s k) * C (k * n + i))

theorem leftX_ok (n m : ℕ) (C G y s : ℕ → ℝ) {i j : ℕ} (hi : i < n) (hj : j < n) :
    leftX n m C G y s (i * n + j) = G (i * n + j) + ∑ k ∈ Finset.range m, C (k * n + j) * (y k / s k) * C (k * n + i) := by
  unfold leftX
  rw [forRange_additive G _ (fun i' c => ∑ j' ∈ Finset.Ico 0 n, if c = i' * n + j' then ∑ k ∈ Finset.range m, C (k * n + j') * (y k / s k) * C (k * n + i') else 0)]
  · congr 1
    rw [Finset.sum_eq_single i]
    · rw [Finset.sum_eq_single j]
      · rw [if_pos rfl]
      · intro j' hj' hne
        rw [if_neg]
        intro hc
        exact hne (idx_inj (q := n) (a := i) (b := i) (k := j) (l := j') hj (Finset.mem_Ico.1 hj').2 hc).2.symm
      · intro hc; exact absurd (Finset.mem_Ico.2 ⟨Nat.zero_le _, hj⟩) hc
    · intro i' hi' hne
      refine Finset.sum_eq_zero fun j' hj' => ?_
      rw [if_neg]
      intro hc
      exact hne (idx_inj (q := n) (a := i) (b := i') (k := j) (l := j') hj (Finset.mem_Ico.1 hj').2 hc).1.symm
    · intro hc; exact absurd (Finset.mem_Ico.2 ⟨Nat.zero_le _, hi⟩) hc
  · intro i' v c _ _
    rw [forRange_additive v _ (fun j' c => if c = i' * n + j' then ∑ k ∈ Finset.range m, C (k * n + j') * (y k / s k) * C (k * n + i') else 0)]
    intro j' v c _ _
    rw [accum m (i' * n + j') v (fun k => C (k * n + j') * (y k / s k) * C (k * n + i'))]
    by_cases e : c = i' * n + j'
    · rw [if_pos e, e, Function.update_self]
    · rw [if_neg e, Function.update_of_ne e, add_zero]

/-- *Specification*: `G + C^T C` is positive definite -/
def IsPd (n m : ℕ) (C G : ℕ → ℝ) : Prop :=
  ∀ v : ℕ → ℝ, (∃ j < n, v j ≠ 0) → 0 < quad n G v + ∑ i ∈ Finset.range m, (∑ j ∈ Finset.range n, C (i * n + j) * v j) ^ 2

theorem leftX_det {n m : ℕ} {C G y s : ℕ → ℝ} (hG : IsPsd n G) (hC : IsPd n m C G) (hy : ∀ i < m, 0 < y i) (hs : ∀ i < m, 0 < s i) :
    (Lu.mat n n (leftX n m C G y s)).det ≠ 0 := by
  intro hdet
  obtain ⟨v, hv, h0⟩ := Matrix.exists_mulVec_eq_zero_iff.2 hdet
  set u : ℕ → ℝ := fun j => if h : j < n then v ⟨j, h⟩ else 0 with hu
  have hun : ∀ j (h : j < n), u j = v ⟨j, h⟩ := fun j h => by rw [hu]; dsimp only; rw [dif_pos h]
  have hrow : ∀ i < n, ∑ j ∈ Finset.range n, leftX n m C G y s (i * n + j) * u j = 0 := by
    intro i hi
    have := congrFun h0 ⟨i, hi⟩
    rw [Matrix.mulVec, dotProduct] at this
    rw [Finset.sum_range]
    refine Eq.trans (Finset.sum_congr rfl fun j _ => ?_) this
    rw [hun j j.2]; rfl
  have hq : quad n (leftX n m C G y s) u = 0 := by
    unfold quad
    refine Finset.sum_eq_zero fun i hi => ?_
    have := hrow i (Finset.mem_range.1 hi)
    calc _ = u i * ∑ j ∈ Finset.range n, leftX n m C G y s (i * n + j) * u j := by
          rw [Finset.mul_sum]; exact Finset.sum_congr rfl fun j _ => by ring
      _ = 0 := by rw [this, mul_zero]
  have hexp : quad n (leftX n m C G y s) u = quad n G u + ∑ k ∈ Finset.range m, y k / s k * (∑ j ∈ Finset.range n, C (k * n + j) * u j) ^ 2 := by
    have e1 : ∀ k, y k / s k * (∑ j ∈ Finset.range n, C (k * n + j) * u j) ^ 2 =
        ∑ i ∈ Finset.range n, ∑ j ∈ Finset.range n, u i * (C (k * n + j) * (y k / s k) * C (k * n + i)) * u j := by
      intro k
      rw [sq, Finset.sum_mul_sum, Finset.mul_sum]
      refine Finset.sum_congr rfl fun i _ => ?_
      rw [Finset.mul_sum]
      exact Finset.sum_congr rfl fun j _ => by ring
    simp only [e1]
    rw [Finset.sum_comm]
    unfold quad
    rw [← Finset.sum_add_distrib]
    refine Finset.sum_congr rfl fun i hi => ?_
    rw [Finset.sum_comm, ← Finset.sum_add_distrib]
    refine Finset.sum_congr rfl fun j hj => ?_
    rw [leftX_ok n m C G y s (Finset.mem_range.1 hi) (Finset.mem_range.1 hj), mul_add, add_mul, Finset.mul_sum, Finset.sum_mul]
  rw [hq] at hexp
  have hq0 := hG u
  have hterm : ∀ k ∈ Finset.range m, 0 ≤ y k / s k * (∑ j ∈ Finset.range n, C (k * n + j) * u j) ^ 2 := fun k hk =>
    mul_nonneg (div_pos (hy k (Finset.mem_range.1 hk)) (hs k (Finset.mem_range.1 hk))).le (sq_nonneg _)
  have hsum := Finset.sum_nonneg hterm
  have hz := (Finset.sum_eq_zero_iff_of_nonneg hterm).1 (by linarith)
  have hpos := hC u (by
    obtain ⟨j, hj⟩ := Function.ne_iff.1 hv
    exact ⟨j, j.2, by rw [hun j j.2]; exact hj⟩)
  have : ∑ i ∈ Finset.range m, (∑ j ∈ Finset.range n, C (i * n + j) * u j) ^ 2 = 0 := by
    refine Finset.sum_eq_zero fun k hk => ?_
    have hd := div_pos (hy k (Finset.mem_range.1 hk)) (hs k (Finset.mem_range.1 hk))
    rcases mul_eq_zero.1 (hz k hk) with h | h
    · exact absurd h (ne_of_gt hd)
    · exact h
  linarith

/-- **C58.** The step of `qp_interior` is the Newton step, when the matrix is invertible. -/
theorem qpStep_newton (n m : ℕ) (C G junk : ℕ → ℝ) (ip jp : ℕ → ℕ) (F y s : ℕ → ℝ) (hs : ∀ i < m, s i ≠ 0)
    (hdet : (Lu.mat n n (leftX n m C G y s)).det ≠ 0) : Newton n m C G y s F (qpStep n m C G junk ip jp F y s) := by
  unfold qpStep
  dsimp only
  obtain ⟨p1, p2⟩ := qpSplit_ok n m F junk junk junk
  set rx := (qpSplit n m F junk junk junk).1
  set ry := (qpSplit n m F junk junk junk).2.1
  set rs := (qpSplit n m F junk junk junk).2.2
  set tmp := forRange 0 m junk fun i t => Function.update t i ((rs i - y i * ry i) / s i) with htmp
  have tmp_ok : ∀ i < m, tmp i = (rs i - y i * ry i) / s i := fun i hi =>
    forRange_assign junk (fun i => (rs i - y i * ry i) / s i) _ (fun _ _ _ => rfl) hi
  set right := forRange 0 n junk fun j t =>
    Function.update (forRange 0 m (Function.update t j 0) fun i t => Function.update t j (t j + C (i * n + j) * tmp i)) j
      ((forRange 0 m (Function.update t j 0) fun i t => Function.update t j (t j + C (i * n + j) * tmp i)) j - rx j) with hright
  have right_ok : ∀ j < n, right j = ∑ i ∈ Finset.range m, C (i * n + j) * tmp i - rx j := fun j hj =>
    forRange_assign junk (fun j => ∑ i ∈ Finset.range m, C (i * n + j) * tmp i - rx j) _ (fun j t _ => by
      rw [accum m j _ (fun i => C (i * n + j) * tmp i)]
      simp) hj
  have hlu := ((Lu.luSolve_real n 1 ip jp junk (leftX n m C G y s) right).2 hdet).2.2
  set dx := (CppAD.Lu.luSolve CppAD.Lu.absGeq CppAD.Lu.leqZero Real.log n 1 ip jp junk (leftX n m C G y s) right).1 with hdx
  have hsol : ∀ i < n, ∑ j ∈ Finset.range n, leftX n m C G y s (i * n + j) * dx j = right i := by
    intro i hi
    have := congrFun (congrFun hlu ⟨i, hi⟩) 0
    rw [Matrix.mul_apply] at this
    have e2 : Lu.mat n 1 right ⟨i, hi⟩ 0 = right i := by unfold Lu.mat; simp
    rw [e2] at this
    rw [Finset.sum_range, ← this]
    refine Finset.sum_congr rfl fun j _ => ?_
    unfold Lu.mat
    simp
  set Cdx := forRange 0 m junk fun i t => forRange 0 n (Function.update t i 0) fun j t => Function.update t i (t i + C (i * n + j) * dx j) with hCdx
  have Cdx_ok : ∀ i < m, Cdx i = ∑ j ∈ Finset.range n, C (i * n + j) * dx j := fun i hi =>
    forRange_assign junk (fun i => ∑ j ∈ Finset.range n, C (i * n + j) * dx j) _ (fun i t _ => by
      rw [accum n i _ (fun j => C (i * n + j) * dx j)]
      simp) hi
  set dy := forRange 0 m junk fun i t => Function.update (Function.update t i (y i * ry i - rs i + y i * Cdx i)) i
    (Function.update t i (y i * ry i - rs i + y i * Cdx i) i / s i) with hdy
  have dy_ok : ∀ i < m, dy i = (y i * ry i - rs i + y i * Cdx i) / s i := fun i hi =>
    forRange_assign junk (fun i => (y i * ry i - rs i + y i * Cdx i) / s i) _ (fun i t _ => by simp) hi
  set ds := forRange 0 m junk fun i t => Function.update t i (- ry i - Cdx i) with hds
  have ds_ok : ∀ i < m, ds i = - ry i - Cdx i := fun i hi => forRange_assign junk (fun i => - ry i - Cdx i) _ (fun _ _ _ => rfl) hi
  obtain ⟨j1, j2, j3⟩ := qpJoin_ok n m junk dx dy ds
  change Newton n m C G y s F (qpJoin n m junk dx dy ds)
  refine ⟨fun j hj => ?_, fun i hi => ?_, fun i hi => ?_⟩
  · have e1 : ∑ i ∈ Finset.range n, G (j * n + i) * qpJoin n m junk dx dy ds i = ∑ i ∈ Finset.range n, G (j * n + i) * dx i :=
      Finset.sum_congr rfl fun i hi => by rw [j1 i (Finset.mem_range.1 hi)]
    have e2 : ∑ i ∈ Finset.range m, C (i * n + j) * qpJoin n m junk dx dy ds (n + i) =
        ∑ i ∈ Finset.range m, (C (i * n + j) * (y i / s i) * Cdx i - C (i * n + j) * tmp i) :=
      Finset.sum_congr rfl fun i hi => by
        have hi := Finset.mem_range.1 hi
        have := hs i hi
        rw [j2 i hi, dy_ok i hi, tmp_ok i hi]
        field_simp
        ring
    have e3 := hsol j hj
    rw [right_ok j hj] at e3
    have e4 : ∑ i ∈ Finset.range n, leftX n m C G y s (j * n + i) * dx i =
        ∑ i ∈ Finset.range n, G (j * n + i) * dx i + ∑ k ∈ Finset.range m, C (k * n + j) * (y k / s k) * Cdx k := by
      have : ∑ k ∈ Finset.range m, C (k * n + j) * (y k / s k) * Cdx k =
          ∑ i ∈ Finset.range n, ∑ k ∈ Finset.range m, C (k * n + i) * (y k / s k) * C (k * n + j) * dx i := by
        rw [Finset.sum_comm]
        refine Finset.sum_congr rfl fun k hk => ?_
        rw [Cdx_ok k (Finset.mem_range.1 hk), Finset.mul_sum]
        exact Finset.sum_congr rfl fun i _ => by ring
      rw [this, ← Finset.sum_add_distrib]
      refine Finset.sum_congr rfl fun i hi => ?_
      rw [leftX_ok n m C G y s hj (Finset.mem_range.1 hi), add_mul, Finset.sum_mul]
    rw [e1, e2, Finset.sum_sub_distrib]
    rw [e4] at e3
    have := p1 j hj
    linarith
  · have e1 : ∑ j ∈ Finset.range n, C (i * n + j) * qpJoin n m junk dx dy ds j = ∑ j ∈ Finset.range n, C (i * n + j) * dx j :=
      Finset.sum_congr rfl fun j hj => by rw [j1 j (Finset.mem_range.1 hj)]
    rw [e1, j3 i hi, ds_ok i hi, Cdx_ok i hi, ← (p2 i hi).1]
    change _ + (- ry i - _) = - ry i
    ring
  · rw [j2 i hi, j3 i hi, dy_ok i hi, ds_ok i hi, ← (p2 i hi).2]
    change _ = - rs i
    have := hs i hi
    field_simp
    ring

/-- **C58.** Under the assumptions of the documentation (`G` positive semi-definite, `G + C^T C` positive definite) the step at a point with
`y > 0` and `s > 0` is the Newton step. -/
theorem qpStep_ok {n m : ℕ} {C G : ℕ → ℝ} (hG : IsPsd n G) (hC : IsPd n m C G) (junk : ℕ → ℝ) (ip jp : ℕ → ℕ) (F : ℕ → ℝ) {y s : ℕ → ℝ}
    (hy : ∀ i < m, 0 < y i) (hs : ∀ i < m, 0 < s i) : Newton n m C G y s F (qpStep n m C G junk ip jp F y s) :=
  qpStep_newton n m C G junk ip jp F y s (fun i hi => ne_of_gt (hs i hi)) (leftX_det hG hC hy hs)

end CppAD.AbsOpt
