import Verif.OptVal.Bender

/-!
# opt_val_hes: sizes for which it fails, and an example
-/

open scoped Topology ContDiff
open CppAD.AtomEx (ev ev_of_lt)

namespace CppAD.OptVal

/-! ### sizes for which opt_val_hes fails -/

theorem copyY_none {ay m : ℕ} (h : ay < m) (y v : ℕ → ℝ) : copyY ay m y v = none := by
  have := forRange_ind (s := some v) (f := fun j s => s.bind fun v => setAt ay v j (y j)) (Nat.zero_le m)
    (fun K t => ay < K → t = none) (by omega) (by
      intro k t _ _ ht h
      by_cases e : ay < k
      · rw [ht e]; rfl
      · have : k = ay := by omega
        subst this
        cases t <;> simp [setAt])
  exact this h

/-- **C55** (defect) when `y` has more elements than `x` and the gradient is requested, for every function and every
recording, opt_val_hes writes outside of the vector `a_y` (core/opt_val_hes.hpp:414,423) -/
theorem optVal_outside {n m : ℕ} (h : n < m) (ell : ℕ) (sx sxy : ℕ → ADFun) (J J' : ℕ → Junk) (M : Mem)
    (x : Fin n → ℝ) (y : Fin m → ℝ) (hesW : Bool) (jac hes : ℕ → ℝ) :
    optVal ell sx sxy J J' M x y true hesW jac hes = none := by
  unfold optVal optValWith jacPart
  rw [if_pos rfl, copyY_none h]
  rfl

/-- **C55** (defect) whenever `y` and `x` do not have the same number of elements and the Hessian is requested, for every
function and every recording, opt_val_hes writes outside of the vector `a_y` or `F_yy` or it makes the assertion in LuSolve
fail (core/opt_val_hes.hpp:414,500) -/
theorem optVal_assert {n m : ℕ} (h : n ≠ m) (hm : 0 < m) (ell : ℕ) (sx sxy : ℕ → ADFun) (J J' : ℕ → Junk) (M : Mem)
    (x : Fin n → ℝ) (y : Fin m → ℝ) (jacW : Bool) (jac hes : ℕ → ℝ) :
    optVal ell sx sxy J J' M x y jacW true jac hes = none := by
  have hne : n * m ≠ m * m := fun e => h (Nat.eq_of_mul_eq_mul_right hm e)
  unfold optVal optValWith
  rw [Option.bind_eq_none_iff]
  intro jac' _
  rw [if_neg (by simp), Option.bind_eq_none_iff]
  intro h _
  rw [Option.bind_eq_none_iff]
  intro yy _
  rw [if_pos hne]

/-! ### an example: `F(x, y) = x² y + y²`, `Y(x) = - x² / 2` -/

abbrev R1 := Fin 1 → ℝ

/-- the function of the example -/
def exF (w : R1 × R1) : ℝ := w.1 0 * w.1 0 * w.2 0 + w.2 0 * w.2 0

/-- the solution of `∂_y F = 0` -/
noncomputable def exY (x : R1) : R1 := fun _ => - (x 0 * x 0) / 2

theorem exF_smooth : ContDiff ℝ 2 exF := by
  unfold exF; fun_prop

theorem exF_y (w : R1 × R1) (v : R1) : fderiv ℝ exF w (0, v) = w.1 0 * w.1 0 * v 0 + 2 * w.2 0 * v 0 := by
  have h1 := hasDeriv_line (exF_smooth.differentiable (by simp) w) ((0, v) : R1 × R1)
  refine h1.unique ?_
  have e : (fun ε : ℝ => exF (w + ε • ((0, v) : R1 × R1)))
      = fun ε => w.1 0 * w.1 0 * (w.2 0 + ε * v 0) + (w.2 0 + ε * v 0) * (w.2 0 + ε * v 0) := by
    funext ε; simp [exF]
  rw [e]
  have h2 : HasDerivAt (fun ε : ℝ => w.2 0 + ε * v 0) (v 0) 0 := by
    simpa using ((hasDerivAt_id' (0 : ℝ)).mul_const (v 0)).const_add (w.2 0)
  refine ((h2.const_mul (w.1 0 * w.1 0)).add (h2.mul h2)).congr_deriv ?_
  simp; ring

theorem exF_yy (w : R1 × R1) (u v : R1) : fderiv ℝ (fderiv ℝ exF) w (0, u) (0, v) = 2 * u 0 * v 0 := by
  have hd := (c2_ev (exF_smooth.contDiffAt (x := w))).2
  have h1 := (hasDeriv_line hd ((0, u) : R1 × R1)).clm_apply (hasDerivAt_const (0 : ℝ) ((0, v) : R1 × R1))
  simp only [exF_y] at h1
  have h2 : HasDerivAt (fun ε : ℝ => w.1 0 * w.1 0 * v 0 + 2 * (w.2 0 + ε * u 0) * v 0) (2 * u 0 * v 0) 0 := by
    have h2 : HasDerivAt (fun ε : ℝ => w.2 0 + ε * u 0) (u 0) 0 := by
      simpa using ((hasDerivAt_id' (0 : ℝ)).mul_const (u 0)).const_add (w.2 0)
    exact ((h2.const_mul 2).mul_const (v 0)).const_add _
  have e : (fun ε : ℝ => (w + ε • ((0, u) : R1 × R1)).1 0 * (w + ε • ((0, u) : R1 × R1)).1 0 * v 0
      + 2 * (w + ε • ((0, u) : R1 × R1)).2 0 * v 0)
      = fun ε : ℝ => w.1 0 * w.1 0 * v 0 + 2 * (w.2 0 + ε * u 0) * v 0 := by
    funext ε; simp
  rw [e] at h1
  have h3 := h1.unique h2
  simpa using h3

theorem ex_sol (x : R1) : IsSol exF x (exY x) exY := by
  refine ⟨rfl, Filter.Eventually.of_forall fun x' => ?_, Filter.Eventually.of_forall fun x' v => ?_⟩
  · unfold exY
    fun_prop
  · rw [exF_y]; simp [exY]; ring

theorem ex_det (x y : R1) : (Fyy exF x y).det = 2 := by
  rw [Matrix.det_fin_one]
  simp [Fyy, exF_yy]

/-- the recording of `F(x', y)` where `y` is constant -/
def exTx (y : ℝ) : Tape := ⟨1, [.mulvv 1 1, .mulpv y 2, .addpv (y * y) 3], [4]⟩

/-- the recording of `F(x', y')` -/
def exTxy : Tape := ⟨2, [.mulvv 1 1, .mulvv 3 2, .mulvv 2 2, .addvv 4 5], [6]⟩

/-- the recording of `F(x', y + dy)` where `dy = - (x'² + 2 y) / 2` -/
noncomputable def exTb (y : ℝ) : Tape :=
  ⟨1, [.mulvv 1 1, .addpv (2 * y) 2, .mulpv (-1 / 2) 3, .addpv y 4, .mulvv 2 5, .mulvv 5 5, .addvv 6 7], [8]⟩

theorem exTx_rec (junk : ℕ → ℝ) (x y : R1) : Records ((exTx (y 0)).initial junk) x fun x' => exF (x', y) := by
  refine ⟨exTx (y 0), _, Reach.start junk (fun _ _ _ => 0), ⟨by simp [exTx], ?_, ?_⟩, rfl, rfl, ?_,
    Filter.Eventually.of_forall fun x' => ?_⟩
  · simp [exTx, WFOps, Tape.ind, Op.args, Op.nres, addRes, Op.naux]
  · intro d hd
    simp only [exTx, List.mem_singleton] at hd
    subst hd
    simp [exTx, usable, Tape.ind, Op.nres, addRes, Op.naux]
  · simp [Tape.Dom, exTx, domOps, Op.dom]
  · simp [Tape.eval, exTx, evalOps, stepEnv, Op.nres, Op.val, indEnv, exF, ev]
    ring

theorem exTxy_rec (junk : ℕ → ℝ) (x y : R1) :
    Records (exTxy.initial junk) (Fin.append x y) fun w => exF (split 1 1 w) := by
  refine ⟨exTxy, _, Reach.start junk (fun _ _ _ => 0), ⟨by decide, ?_, ?_⟩, rfl, rfl, ?_,
    Filter.Eventually.of_forall fun x' => ?_⟩
  · simp [exTxy, WFOps, Tape.ind, Op.args, Op.nres, addRes, Op.naux]
  · intro d hd
    simp only [exTxy, List.mem_singleton] at hd
    subst hd
    simp [exTxy, usable, Tape.ind, Op.nres, addRes, Op.naux]
  · simp [Tape.Dom, exTxy, domOps, Op.dom]
  · simp [Tape.eval, exTxy, evalOps, stepEnv, Op.nres, Op.val, indEnv, exF, ev, split, Fin.castAdd, Fin.natAdd]

theorem exTb_rec (junk : ℕ → ℝ) (x y : R1) : Records ((exTb (y 0)).initial junk) x
    fun x' => exF (x', y + fun _ => - (x' 0 * x' 0 + 2 * y 0) / 2) := by
  refine ⟨exTb (y 0), _, Reach.start junk (fun _ _ _ => 0), ⟨by simp [exTb], ?_, ?_⟩, rfl, rfl, ?_,
    Filter.Eventually.of_forall fun x' => ?_⟩
  · simp [exTb, WFOps, Tape.ind, Op.args, Op.nres, addRes, Op.naux]
  · intro d hd
    simp only [exTb, List.mem_singleton] at hd
    subst hd
    simp [exTb, usable, Tape.ind, Op.nres, addRes, Op.naux]
  · simp [Tape.Dom, exTb, domOps, Op.dom]
  · simp [Tape.eval, exTb, evalOps, stepEnv, Op.nres, Op.val, indEnv, exF, ev]
    ring

/-- the hypotheses of `optVal_ok_partial` are met, and its conclusions are not empty: the determinant is two -/
example (junk : ℕ → ℝ) (J J' : ℕ → Junk) (M : Mem) (jac hes : ℕ → ℝ) (x : R1) :
    ∃ sd jac' hes', optVal 1 (fun _ => (exTx (exY x 0)).initial junk) (fun _ => exTxy.initial junk) J J' M x (exY x)
        true true jac hes = some (sd, jac', hes') ∧ (sd = 1 ∨ sd = -1) ∧
      IsGrad (fun x' => exF (x', exY x')) x jac' ∧ IsHess (fun x' => exF (x', exY x')) x hes' := by
  have hs : (fun w => ∑ k ∈ Finset.range 1, (fun _ => exF) k w) = exF := by funext w; simp
  obtain ⟨sd, j, h, h1, h2, h3⟩ := optVal_ok_partial (n := 1) (m := 1) (ell := 1) (S := fun _ => exF) (Y := exY) le_rfl
    (fun _ _ => exF_smooth.contDiffAt) (by rw [hs]; exact ex_sol x) (fun _ _ => exTx_rec junk x (exY x))
    (fun _ _ => exTxy_rec junk x (exY x)) J J' M true true jac hes (fun _ => rfl)
  refine ⟨sd, j, h, h1, ?_⟩
  have h3 := h3 rfl
  dsimp only at h3
  rw [hs, ex_det] at h3
  have h4 := h3.2 (by norm_num)
  have h2 := h2 rfl
  simp only [Finset.range_one, Finset.sum_singleton] at h2 h4
  exact ⟨h4.1, h2, h4.2.2⟩

/-- the hypotheses of `benderQuad_ok` are met with `H = ∂_y F` -/
example (junk : ℕ → ℝ) (J : Junk) (gx gxx : ℕ → ℝ) (x : R1) :
    let r := bender ((exTb (exY x 0)).initial junk) J x gx gxx
    r.1 = - (x 0 * x 0 * (x 0 * x 0)) / 4 ∧ IsGrad (fun x' => exF (x', exY x')) x r.2.1 ∧
      IsHess (fun x' => exF (x', exY x')) x r.2.2 := by
  have hH : ContDiff ℝ 2 fun w : R1 × R1 => (fun _ => w.1 0 * w.1 0 + 2 * w.2 0 : R1) := by fun_prop
  have := benderQuad_ok (F := exF) (H := fun w => fun _ => w.1 0 * w.1 0 + 2 * w.2 0) (x := x) (y := exY x) (Y := exY)
    (dy := fun h => fun _ => - h 0 / 2) exF_smooth.contDiffAt hH.contDiffAt (ex_sol x)
    (Filter.Eventually.of_forall fun x' => by funext i; simp [exY]; ring) (fun h => by
      have h1 := hasDeriv_line (hH.differentiable (by simp) (x, exY x)) ((0, fun _ => - h 0 / 2) : R1 × R1)
      refine h1.unique ?_
      rw [hasDerivAt_pi]
      intro i
      have e : (fun ε : ℝ => ((x, exY x) + ε • ((0, fun _ => - h 0 / 2) : R1 × R1)).1 0 *
          ((x, exY x) + ε • ((0, fun _ => - h 0 / 2) : R1 × R1)).1 0
          + 2 * ((x, exY x) + ε • ((0, fun _ => - h 0 / 2) : R1 × R1)).2 0)
          = fun ε : ℝ => x 0 * x 0 + 2 * (exY x 0 + ε * (- h 0 / 2)) := by
        funext ε; simp
      rw [e]
      have hi : i = 0 := Subsingleton.elim _ _
      subst hi
      have h2 : HasDerivAt (fun ε : ℝ => exY x 0 + ε * (- h 0 / 2)) (- h 0 / 2) 0 := by
        simpa using ((hasDerivAt_id' (0 : ℝ)).mul_const (- h 0 / 2)).const_add (exY x 0)
      refine ((h2.const_mul 2).const_add _).congr_deriv ?_
      simp; ring)
    (exTb_rec junk x (exY x)) J gx gxx
  refine ⟨this.1.trans ?_, this.2⟩
  simp [exF, exY]; ring

end CppAD.OptVal
