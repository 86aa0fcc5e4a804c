import Verif.AbsOpt.EvalApprox
import Verif.Chkpoint.Contract
import Verif.OptVal.Calc
import Mathlib.Analysis.Calculus.ContDiff.RCLike

/-!
# `abs_eval` at the results of `abs_normal_fun`
-/

namespace CppAD.AbsOpt

open CppAD.AbsNormal (pair)
open CppAD.Chkpoint
open scoped ContDiff Topology

theorem second_order {E : Type*} [NormedAddCommGroup E] [NormedSpace ℝ E] {ψ : E → ℝ} {x : E} (h : ContDiffAt ℝ 2 ψ x) :
    ∃ C δ : ℝ, 0 ≤ C ∧ 0 < δ ∧ ∀ v, ‖v‖ ≤ δ → |ψ (x + v) - ψ x - fderiv ℝ ψ x v| ≤ C * ‖v‖ ^ 2 := by
  obtain ⟨K, t, ht, hK⟩ := (h.fderiv_right (m := 1) (by norm_num)).exists_lipschitzOnWith
  have hd := (OptVal.c2_ev h).1
  obtain ⟨ε, hε, hb⟩ := Metric.mem_nhds_iff.1 (Filter.inter_mem ht hd)
  refine ⟨K, ε / 2, K.2, by positivity, fun v hv => ?_⟩
  have hin : ∀ y ∈ Metric.closedBall x ‖v‖, y ∈ Metric.ball x ε := fun y hy => by
    have := Metric.mem_closedBall.1 hy
    exact Metric.mem_ball.2 (by linarith)
  have hxm : x ∈ t := (hb (Metric.mem_ball_self hε)).1
  have := Convex.norm_image_sub_le_of_norm_fderiv_le' (𝕜 := ℝ) (f := ψ) (C := K * ‖v‖) (s := Metric.closedBall x ‖v‖) (φ := fderiv ℝ ψ x) (x := x) (y := x + v)
    (fun y hy => (hb (hin y hy)).2) (fun y hy => by
      have h1 := hK.dist_le_mul y (hb (hin y hy)).1 x hxm
      rw [dist_eq_norm] at h1
      exact h1.trans (mul_le_mul_of_nonneg_left (Metric.mem_closedBall.1 hy) K.2))
    (convex_closedBall x ‖v‖) (Metric.mem_closedBall_self (norm_nonneg _)) (by simp)
  rw [add_sub_cancel_left, Real.norm_eq_abs, mul_assoc, ← pow_two] at this
  exact this

/-- the Jacobian of a recorded function is its linear approximation, with a remainder of second order -/
theorem isLinear_tape {T : Tape} (hT : T.WF) {p : ℕ → ℝ} (hD : T.Dom p) {i : ℕ} (hi : i < T.dep.length) {J : ℕ → ℝ}
    (hJ : ∀ k < T.n, IsPartial (fun y => T.eval y i) p k (J k)) : IsLinear T.n (fun y => T.eval y i) p J := by
  set q : Fin T.n → ℝ := fun k => p k with hq
  have hpq : ∀ k < T.n, ext q k = p k := fun k hk => ext_fin q ⟨k, hk⟩
  have hD' : T.Dom (ext q) := T.Dom_congr hT (fun k hk => (hpq k hk).symm) hD
  set ψ : (Fin T.n → ℝ) → ℝ := fun y => T.eval (ext y) i with hψ
  have hs : ContDiffAt ℝ 2 ψ q := (fn_smooth hT hD' hi).of_le (by norm_cast)
  have hJψ : ∀ k : Fin T.n, J k = fderiv ℝ ψ q (Pi.single k 1) := by
    intro k
    have h1 := hJ k k.2
    unfold IsPartial at h1
    refine h1.unique ((OptVal.hasDeriv_line (hs.differentiableAt (by norm_num)) (Pi.single k 1)).congr_of_eventuallyEq
      (Filter.Eventually.of_forall fun ε => ?_))
    refine T.eval_congr hT (fun j hj => ?_) hi
    have h2 := ext_fin (q + ε • Pi.single k 1) ⟨j, hj⟩
    refine Eq.trans ?_ h2.symm
    by_cases e : j = k
    · subst e; simp [hq]
    · have e' : (⟨j, hj⟩ : Fin T.n) ≠ k := fun h => e (congrArg Fin.val h)
      rw [Function.update_of_ne e]
      simp [hq, Pi.single_eq_of_ne e']
  obtain ⟨C, δ, hC, hδ, h⟩ := second_order hs
  refine ⟨C, δ, hC, hδ, fun r hr hrd v hv => ?_⟩
  set w : Fin T.n → ℝ := fun k => v k with hw
  have hwn : ‖w‖ ≤ r := (pi_norm_le_iff_of_nonneg hr).2 fun k => by rw [Real.norm_eq_abs]; exact hv k k.2
  have h1 := h w (hwn.trans hrd)
  have e1 : ψ (q + w) = T.eval (fun k => p k + v k) i := T.eval_congr hT (fun k hk => ext_fin (q + w) ⟨k, hk⟩) hi
  have e2 : ψ q = T.eval p i := T.eval_congr hT hpq hi
  have e3 : fderiv ℝ ψ q w = ∑ k ∈ Finset.range T.n, J k * v k := by
    rw [Finset.sum_range, ← Finset.univ_sum_single w, map_sum]
    refine Finset.sum_congr rfl fun k _ => ?_
    rw [hJψ k, mul_comm, ← smul_eq_mul, ← map_smul]
    congr 1
    funext j
    by_cases e : j = k
    · subst e; simp [hw]
    · simp [Pi.single_eq_of_ne e]
  rw [e1, e2, e3] at h1
  refine h1.trans (mul_le_mul_of_nonneg_left ?_ hC)
  exact pow_le_pow_left₀ (norm_nonneg _) hwn 2

/-- **C59.** For every function that `abs_normal_fun` can represent and every point where its operations other than the absolute values
are smooth: with the values and the Jacobian of `g` at `(x, a(x))`, `abs_eval` does not fail and its first `m` components are
`f(x + delta_x)`, up to an error that is of second order in `delta_x`. -/
theorem absEval_second (f : AbsNormal.Raw) (disc : ℕ → ℝ → ℝ) (hw : (f.tape disc).WF) (hc : ∀ c ∈ f.codes, c.copied) (x ghat gj : ℕ → ℝ) :
    let F := f.tape disc
    let s := AbsNormal.numAbs F.ops
    let m := F.dep.length
    let g := (AbsNormal.absNormal f).1.tape disc
    let a := (AbsNormal.absNormal f).2.tape disc
    AbsNormal.SmoothBut F.ops (F.n + 1) (indEnv x) →
    (∀ i < m + s, ghat i = g.eval (pair F.n x (a.eval x)) i) →
    (∀ i < m + s, ∀ k < F.n + s, IsPartial (fun p => g.eval p i) (pair F.n x (a.eval x)) k (gj (i * (F.n + s) + k))) →
    ∃ C δ : ℝ, 0 < δ ∧ ∀ r, 0 ≤ r → r ≤ δ → ∀ dx : ℕ → ℝ, (∀ j < F.n, |dx j| ≤ r) → ∀ junk,
      ∃ gt, absEval F.n m s ghat gj dx junk = some gt ∧
        (∀ i < m, |gt i - F.eval (fun j => x j + dx j) i| ≤ C * r ^ 2) ∧
        ∀ i < s, |gt (m + i) - g.eval (pair F.n (fun j => x j + dx j) (a.eval fun j => x j + dx j)) (m + i)| ≤ C * r ^ 2 := by
  intro F s m g a hsm hg hj
  obtain ⟨⟨_, hgn, hgd, _, _⟩, ⟨hgw, _⟩, _⟩ := AbsNormal.abs_normal_partial f disc hw hc
  obtain ⟨hr1, hr2, hr3, hr4⟩ := AbsNormal.abs_normal_relations_partial f disc hw hc
  have hD : g.Dom (pair F.n x (a.eval x)) := (hr4 x).1 hsm
  have hgn' : g.n = F.n + s := hgn
  have hgd' : g.dep.length = m + s := hgd
  have ht : IsTri F.n m s gj := by
    intro i hi j hjs hij
    have h1 := hj (m + i) (by omega) (F.n + j) (by omega)
    unfold IsPartial at h1
    rw [← add_assoc] at h1
    refine h1.unique ((hasDerivAt_const (0 : ℝ) (g.eval (pair F.n x (a.eval x)) (m + i))).congr_of_eventuallyEq (Filter.Eventually.of_forall fun ε => ?_))
    have e : Function.update (pair F.n x (a.eval x)) (F.n + j) (pair F.n x (a.eval x) (F.n + j) + ε) =
        pair F.n x (Function.update (a.eval x) j (a.eval x j + ε)) := by
      funext k
      unfold pair
      by_cases h : k < F.n
      · rw [Function.update_of_ne (by omega), if_pos h, if_pos h]
      · by_cases e : k = F.n + j
        · subst e
          rw [Function.update_self, if_neg (by omega), if_neg (by omega), Nat.add_sub_cancel_left, Function.update_self]
        · rw [Function.update_of_ne e, if_neg h, if_neg h, Function.update_of_ne (by omega)]
    dsimp only
    rw [e]
    exact hr3 x _ _ i hi fun l hl => by rw [Function.update_of_ne (by omega)]
  have hlin : ∀ i < m + s, IsLinear (F.n + s) (fun p => g.eval p i) (pair F.n x (a.eval x)) fun k => gj (i * (F.n + s) + k) := by
    intro i hi
    rw [← hgn']
    refine isLinear_tape hgw hD (lt_of_lt_of_eq hi hgd'.symm) fun k hk => ?_
    rw [hgn']
    exact hj i hi k (lt_of_lt_of_eq hk hgn')
  obtain ⟨C, δ, hδ, h⟩ := isApprox_second (a := a.eval) (G := g.eval) hg hlin ht hr2 (fun x u u' i hi hu => hr3 x u u' i hi hu) (fun x u u' i hi hu => by
    refine g.eval_congr hgw (fun k hk => ?_) (by omega)
    unfold pair
    by_cases h : k < F.n
    · rw [if_pos h, if_pos h]
    · rw [if_neg h, if_neg h]; exact hu _ (by omega))
  refine ⟨C, δ, hδ, fun r hr hrd dx hdx junk => ?_⟩
  obtain ⟨gt, h1, h2⟩ := (absEval_ok F.n m s ghat gj dx junk).1 ht
  have h3 := h r hr hrd dx hdx gt h2
  refine ⟨gt, h1, fun i hi => ?_, fun i hi => h3 _ (by omega)⟩
  have h4 := h3 i (by omega)
  rwa [hr1 _ i hi] at h4

/-- the partial derivatives of a recorded function exist -/
theorem partial_exists {T : Tape} (hT : T.WF) {p : ℕ → ℝ} (hD : T.Dom p) {i k : ℕ} (hi : i < T.dep.length) (hk : k < T.n) :
    ∃ d, IsPartial (fun y => T.eval y i) p k d := by
  set q : Fin T.n → ℝ := fun k => p k with hq
  have hpq : ∀ k < T.n, ext q k = p k := fun k hk => ext_fin q ⟨k, hk⟩
  have hD' : T.Dom (ext q) := T.Dom_congr hT (fun k hk => (hpq k hk).symm) hD
  have hs : ContDiffAt ℝ 2 (fun y => T.eval (ext y) i) q := (fn_smooth hT hD' hi).of_le (by norm_cast)
  refine ⟨_, (OptVal.hasDeriv_line (hs.differentiableAt (by norm_num)) (Pi.single ⟨k, hk⟩ 1)).congr_of_eventuallyEq (Filter.Eventually.of_forall fun ε => ?_)⟩
  refine T.eval_congr hT (fun j hj => ?_) hi
  have h2 := ext_fin (q + ε • Pi.single (⟨k, hk⟩ : Fin T.n) 1) ⟨j, hj⟩
  refine Eq.trans ?_ h2.symm
  by_cases e : j = k
  · subst e; simp [hq]
  · have e' : (⟨j, hj⟩ : Fin T.n) ≠ ⟨k, hk⟩ := fun h => e (congrArg Fin.val h)
    rw [Function.update_of_ne e]
    simp [hq, Pi.single_eq_of_ne e']

/-- the function `(| x0 * |x0 - x1| | + sin x1, 3)`, at every point, meets the hypotheses -/
example (disc : ℕ → ℝ → ℝ) (x : ℕ → ℝ) :
    let f := AbsNormal.exRaw
    let F := f.tape disc
    let s := AbsNormal.numAbs F.ops
    let m := F.dep.length
    let g := (AbsNormal.absNormal f).1.tape disc
    let a := (AbsNormal.absNormal f).2.tape disc
    F.WF ∧ (∀ c ∈ f.codes, c.copied) ∧ AbsNormal.SmoothBut F.ops (F.n + 1) (indEnv x) ∧
      ∃ gj : ℕ → ℝ, ∀ i < m + s, ∀ k < F.n + s, IsPartial (fun p => g.eval p i) (pair F.n x (a.eval x)) k (gj (i * (F.n + s) + k)) := by
  have hw : (AbsNormal.exRaw.tape disc).WF := by
    rw [AbsNormal.exRaw_tape]
    refine ⟨Nat.succ_pos _, ?_, ?_⟩
    · simp [WFOps, addRes, Op.args, Op.nres, Op.naux, Tape.ind]
    · simp [usable, addRes, Op.nres, Op.naux, Tape.ind]
  intro f F s m g a
  have hc : ∀ c ∈ f.codes, c.copied := by simp [f, AbsNormal.exRaw, AbsNormal.Code.copied]
  have hsm : AbsNormal.SmoothBut F.ops (F.n + 1) (indEnv x) := by
    show AbsNormal.SmoothBut (AbsNormal.exRaw.tape disc).ops _ _
    rw [AbsNormal.exRaw_tape]
    simp [AbsNormal.SmoothBut, AbsNormal.IsAbs, Op.dom]
  obtain ⟨⟨_, hgn, hgd, _, _⟩, ⟨hgw, _⟩, _⟩ := AbsNormal.abs_normal_partial f disc hw hc
  obtain ⟨_, _, _, hr4⟩ := AbsNormal.abs_normal_relations_partial f disc hw hc
  have hD : g.Dom (pair F.n x (a.eval x)) := (hr4 x).1 hsm
  have hgn' : g.n = F.n + s := hgn
  have hgd' : g.dep.length = m + s := hgd
  have hex : ∀ i < m + s, ∀ k < F.n + s, ∃ d, IsPartial (fun p => g.eval p i) (pair F.n x (a.eval x)) k d := fun i hi k hk =>
    partial_exists hgw hD (lt_of_lt_of_eq hi hgd'.symm) (lt_of_lt_of_eq hk hgn'.symm)
  choose! J hJ using hex
  refine ⟨hw, hc, hsm, fun q => J (q / (F.n + s)) (q % (F.n + s)), fun i hi k hk => ?_⟩
  have e1 : (i * (F.n + s) + k) / (F.n + s) = i := by
    rw [mul_comm, Nat.mul_add_div (by omega), Nat.div_eq_of_lt hk, add_zero]
  have e2 : (i * (F.n + s) + k) % (F.n + s) = k := by rw [mul_comm, Nat.mul_add_mod, Nat.mod_eq_of_lt hk]
  dsimp only
  rw [e1, e2]
  exact hJ i hi k hk

end CppAD.AbsOpt
