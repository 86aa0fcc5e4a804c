import Verif.Taylor.ModelErf
import Verif.Taylor.Stages
import Verif.Taylor.Arith
import Verif.Taylor.Exp
import Mathlib.MeasureTheory.Integral.IntervalIntegral.FundThmCalculus
import Mathlib.Analysis.Calculus.ContDiff.Deriv
import Mathlib.Tactic.IntervalCases

/-! # Certificates of the operators Erf and Erfc -/

open scoped ContDiff Topology PowerSeries
open PowerSeries (coeff)

namespace CppAD

/-- *Specification* of the error function -/
noncomputable def erf (x : ℝ) : ℝ := 2 / Real.sqrt Real.pi * ∫ t in (0 : ℝ)..x, Real.exp (-(t * t))

/-- *Specification* of the complementary error function -/
noncomputable def erfc (x : ℝ) : ℝ := 1 - erf x

/-- recurrence of result `i` -/
noncomputable def erfR (f : ℝ → ℝ) (sgn c : ℝ) (i : ℕ) (x : ℕ → ℝ) (z : ℕ → ℕ → ℝ) (j : ℕ) : ℝ :=
  match i with
  | 0 => mulG x x (z 0) j
  | 1 => affG (-1) 0 (z 0) (z 1) j
  | 2 => expG (z 1) (z 2) j
  | 3 => c * z 2 j
  | _ => if j = 0 then f (x 0) else
    ∑ k ∈ Finset.Ico 1 (j + 1), sgn * ((k : ℝ) / (j : ℝ)) * x k * z 3 (j - k)

theorem erfR_congr {f : ℝ → ℝ} {sgn c : ℝ} {i : ℕ} {x x' : ℕ → ℝ} {z z' : ℕ → ℕ → ℝ} {j : ℕ}
    (hx : ∀ k ≤ j, x k = x' k) (hz : ∀ r < i, ∀ k ≤ j, z r k = z' r k) (hi : ∀ k < j, z i k = z' i k) :
    erfR f sgn c i x z j = erfR f sgn c i x' z' j := by
  unfold erfR
  split
  · exact Finset.sum_congr rfl fun k hk => by
      rw [Finset.mem_Ico] at hk; rw [hx _ (by omega), hx _ (by omega)]
  · unfold affG; rw [hz 0 (by omega) 0 (by omega), hz 0 (by omega) j le_rfl]
  · exact expG_congr (hz 1 (by omega)) hi
  · rw [hz 2 (by omega) j le_rfl]
  · rw [hx 0 (by omega)]
    split
    · rfl
    · rename_i h0 h1 h2 h3 _
      have : 4 ≤ i := by
        by_contra h
        interval_cases i <;> simp_all
      exact Finset.sum_congr rfl fun k hk => by
        rw [Finset.mem_Ico] at hk; rw [hx _ (by omega), hz 3 (by omega) _ (by omega)]

theorem erfForward_eq (f : ℝ → ℝ) (sgn c : ℝ) (ix p q nv : ℕ) (s : Tay) (hx : ix < nv) (hpq : p ≤ q) :
    erfForward f sgn c ix p q (nv + 4) s
      = stages p q nv (fun i j s => erfR f sgn c i (s ix) (fun r => s (nv + r)) j) 5 s := by
  unfold erfForward
  simp only [Nat.add_sub_cancel, add_zero]
  rw [mulvvForward_eq _ _ _ _ _ _ (by omega) (by omega), expForward_eq _ _ _ _ _ (by omega) hpq]
  simp only [stages, erfR, add_zero]
  have e1 : ∀ s : Tay, subpvForward 0 nv p q (nv + 1) s
      = forRange p (q + 1) s (fun j s => s.set (nv + 1) j (affG (-1) 0 (s nv) (s (nv + 1)) j)) := by
    intro s
    rw [← forRange_peel (by omega : p < q + 1)]
    unfold subpvForward
    simp only [affG, if_true]
    have : ∀ a : ℝ, 0 - a = -1 * a + 0 := fun a => by ring
    rw [this]
    refine forRange_congr _ fun j s h1 h2 => ?_
    have hj : 1 ≤ j := by split at h1 <;> omega
    rw [if_neg (by omega)]; congr 1; ring
  rw [e1]
  unfold mulpvForward
  generalize forRange p (q + 1) _ (fun j (s : Tay) => s.set (nv + 3) j (c * s (nv + 2) j)) = S
  rw [← forRange_peel (p := p) (s := S) (by omega : p < q + 1)]
  simp only [if_true]
  refine forRange_congr _ fun j s h1 h2 => ?_
  have hj : 1 ≤ j := by split at h1 <;> omega
  rw [forRange_accum, if_neg (by omega)]
  · simp only [Tay.set_set, Tay.set_self, zero_add, Tay.set_ne_row _ _ _ _ (by omega : ix ≠ nv + 4),
      Tay.set_ne_row _ _ _ _ (by omega : nv + 3 ≠ nv + 4)]
  · intro k v _ _
    simp only [Tay.set_ne_row _ _ _ _ (by omega : ix ≠ nv + 4),
      Tay.set_ne_row _ _ _ _ (by omega : nv + 3 ≠ nv + 4)]

theorem erfDir_eq (f : ℝ → ℝ) (sgn c : ℝ) (ix q r nv : ℕ) (s : Tay) (hx : ix < nv) (hq : 1 ≤ q) :
    erfDir sgn c ix q r (nv + 4) s
      = dstages q r nv (fun i ell s => erfR f sgn c i (view r ell s ix)
          (fun i => view r ell s (nv + i)) q) 5 s := by
  unfold erfDir
  simp only [Nat.add_sub_cancel, add_zero]
  rw [mulvvDir_eq _ _ _ _ _ _ (by omega) (by omega) hq, expDir_eq _ _ _ _ _ (by omega) hq]
  simp only [dstages, erfR, add_zero]
  have e1 : ∀ s : Tay, subpvDir 0 nv q r (nv + 1) s
      = forRange 0 r s (fun ell s => s.set (nv + 1) ((q - 1) * r + 1 + ell)
        (affG (-1) 0 (view r ell s nv) (view r ell s (nv + 1)) q)) := by
    intro s
    unfold subpvDir
    refine forRange_congr _ fun ell s h1 h2 => ?_
    rw [affG, if_neg (by omega), view_apply, dirIdx_top hq]; congr 1; ring
  have e2 : ∀ s : Tay, mulpvDir c (nv + 2) q r (nv + 3) s
      = forRange 0 r s (fun ell s => s.set (nv + 3) ((q - 1) * r + 1 + ell)
        (c * view r ell s (nv + 2) q)) := by
    intro s
    unfold mulpvDir
    refine forRange_congr _ fun ell s h1 h2 => ?_
    rw [view_apply, dirIdx_top hq]
  rw [e1, e2]
  refine forRange_congr _ fun ell s _ hl => ?_
  rw [if_neg (by omega), (by omega : (q - 1) * r + ell + 1 = (q - 1) * r + 1 + ell), forRange_accum]
  · simp only [Tay.set_set, Tay.set_self, Tay.set_ne_row _ _ _ _ (by omega : ix ≠ nv + 4),
      Tay.set_ne_row _ _ _ _ (by omega : nv + 3 ≠ nv + 4)]
    congr 1
    rw [Finset.sum_Ico_succ_top hq, add_comm]
    have hqr : (q : ℝ) ≠ 0 := by positivity
    congr 1
    · exact Finset.sum_congr rfl fun k hk => by
        rw [Finset.mem_Ico] at hk
        simp only [view_apply]
        rw [dirIdx_pos (by omega), dirIdx_pos (by omega)]
    · simp only [view_apply, dirIdx_top hq, Nat.sub_self, dirIdx_zero]
      field_simp
  · intro k v _ _
    simp only [Tay.set_ne_row _ _ _ _ (by omega : ix ≠ nv + 4),
      Tay.set_ne_row _ _ _ _ (by omega : nv + 3 ≠ nv + 4)]

/-- reverse of the last result -/
theorem erf_rev (ix iy nv n : ℕ) (s P δ : Tay) (sgn : ℝ) {X Y dX dY dZ : ℝ⟦X⟧} (hix : ix < nv) (hiy : iy < nv)
    (hs : ∀ k ≤ n, s ix k = coeff k X) (hy : ∀ k ≤ n, s iy k = coeff k Y)
    (hδ : ∀ k, δ ix k = coeff k dX) (hδy : ∀ k, δ iy k = coeff k dY) (hδz : ∀ k, δ nv k = coeff k dZ)
    (h2 : dZ = PowerSeries.C sgn * Y * dX) (h3 : θ Y * dX = θ X * dY) :
    Phi nv (fun _ => n + 1) δ ((fun P : Tay => P.add ix 0 (sgn * azmul (P nv 0) (s iy 0)))
      (forDown n P fun j P =>
        let P := P.set nv j (P nv j / (j : ℝ))
        forRange 1 (j + 1) P fun k P =>
          let P := P.add ix k (sgn * azmul (P nv j) (s iy (j - k)) * (k : ℝ))
          P.add iy (j - k) (sgn * azmul (P nv j) (s ix k) * (k : ℝ))))
      = Phi (nv + 1) (fun _ => n + 1) δ P := by
  have lin : ∀ j : ℕ, (j : ℝ) * coeff j dZ = ∑ k ∈ Finset.Ico 1 (j + 1),
      sgn * ((k : ℝ) * (coeff k dX * coeff (j - k) Y + coeff k X * coeff (j - k) dY)) := by
    intro j
    have : θ dZ = PowerSeries.C sgn * (θ dX * Y + θ X * dY) := by
      rw [h2, mul_assoc, θ_mul, θ_C, θ_mul, ← h3]; ring
    rw [← coeff_θ, this, PowerSeries.coeff_C_mul, map_add, coeff_θ_mul, coeff_θ_mul,
      ← Finset.sum_add_distrib, Finset.mul_sum]
    exact Finset.sum_congr rfl fun k _ => by ring
  refine rev_loop' (m := 1) _ _ (fun P => P.add ix 0 (sgn * azmul (P nv 0) (s iy 0))) _
      (fun j Q hj1 hj => ?_) fun Q => ?_
  · simp only [Finset.sum_range_one, add_zero]
    set c := Q nv j / (j : ℝ) with hc
    rw [Ext.phi_set (v := nv) (k := j) (y := c) (P := Q) (Ext.loop (fun k =>
        sgn * (c * coeff (j - k) Y) * (k : ℝ) * δ ix k
        + sgn * (c * coeff k X) * (k : ℝ) * δ iy (j - k)) fun k R h1 h2 hR => ?_) (Act_out le_rfl)]
    · congr 1
      simp only [hδ, hδy, hδz]
      have e : Q nv j * coeff j dZ = c * ((j : ℝ) * coeff j dZ) := by
        rw [hc]; field_simp
      rw [e, lin, Finset.mul_sum]
      exact Finset.sum_congr rfl fun k _ => by ring
    · have hc' : R nv j = c := by rw [hR nv j (Act_out le_rfl), Tay.set_self]
      simp only [azmul_eq]
      rw [Tay.add_ne_row _ _ _ _ (by omega : nv ≠ ix), hc', hy _ (by omega), hs _ (by omega)]
      exact (Ext.add _ _ (by omega) (Act_arg hix (by omega))).add_to _ (by omega)
        (Act_arg hiy (by omega))
  · simp only [Finset.sum_range_one, add_zero]
    rw [Phi_add _ _ _ _ _ (by omega) (Act_arg hix (by omega)), azmul_eq,
      hδ, hδz, hy 0 (by omega), h2, mul_assoc (PowerSeries.C sgn), PowerSeries.coeff_C_mul]
    simp only [coeff_mul_range, zero_add, Finset.sum_range_one, Nat.sub_zero]
    ring

/-- `f` has derivative `sgn * c * exp(-x^2)` -/
def ErfLike (f : ℝ → ℝ) (sgn c : ℝ) : Prop :=
  ∀ x, HasDerivAt f (sgn * (c * Real.exp (0 - x * x))) x

theorem ErfLike.contDiff {f : ℝ → ℝ} {sgn c : ℝ} (h : ErfLike f sgn c) : ContDiff ℝ ∞ f := by
  rw [contDiff_infty_iff_deriv]
  refine ⟨fun x => (h x).differentiableAt, ?_⟩
  rw [funext fun x => (h x).deriv]
  fun_prop

theorem erfLike_erf : ErfLike erf 1 (2 / Real.sqrt Real.pi) := by
  intro x
  have hc : Continuous fun t : ℝ => Real.exp (-(t * t)) := by fun_prop
  have := (intervalIntegral.integral_hasDerivAt_right (hc.intervalIntegrable 0 x)
    (hc.stronglyMeasurableAtFilter _ _) hc.continuousAt).const_mul (2 / Real.sqrt Real.pi)
  refine this.congr_deriv ?_
  rw [zero_sub]; ring

theorem erfLike_erfc : ErfLike erfc (-1) (2 / Real.sqrt Real.pi) := by
  intro x
  have := (erfLike_erf x).const_sub 1
  exact this.congr_deriv (by ring)

/-- the five results -/
noncomputable def erfVal (f : ℝ → ℝ) (c : ℝ) (r : ℕ) (x : ℝ) : ℝ :=
  if r = 0 then x * x else if r = 1 then 0 - x * x else if r = 2 then Real.exp (0 - x * x)
  else if r = 3 then c * Real.exp (0 - x * x) else f x

theorem erf_series {f : ℝ → ℝ} {sgn c : ℝ} (hf : ErfLike f sgn c) {x dx : ℝ → ℝ} (sx : Sm x) (sd : Sm dx) :
    T (fun t => erfVal f c 0 (x t)) = T x * T x ∧
    T (fun t => erfVal f c 1 (x t)) = PowerSeries.C (-1) * T (fun t => erfVal f c 0 (x t)) ∧
    θ (T (fun t => erfVal f c 2 (x t))) = θ (T (fun t => erfVal f c 1 (x t))) * T (fun t => erfVal f c 2 (x t)) ∧
    T (fun t => erfVal f c 3 (x t)) = PowerSeries.C c * T (fun t => erfVal f c 2 (x t)) ∧
    θ (T (fun t => erfVal f c 4 (x t))) = PowerSeries.C sgn * θ (T x) * T (fun t => erfVal f c 3 (x t)) ∧
    T (fun t => deriv (erfVal f c 0) (x t) * dx t) = T x * T dx + T x * T dx ∧
    T (fun t => deriv (erfVal f c 1) (x t) * dx t)
      = PowerSeries.C (-1) * T (fun t => deriv (erfVal f c 0) (x t) * dx t) ∧
    T (fun t => deriv (erfVal f c 2) (x t) * dx t)
      = T (fun t => erfVal f c 2 (x t)) * T (fun t => deriv (erfVal f c 1) (x t) * dx t) ∧
    T (fun t => deriv (erfVal f c 3) (x t) * dx t)
      = PowerSeries.C c * T (fun t => deriv (erfVal f c 2) (x t) * dx t) ∧
    T (fun t => deriv (erfVal f c 4) (x t) * dx t)
      = PowerSeries.C sgn * T (fun t => erfVal f c 3 (x t)) * T dx ∧
    θ (T (fun t => erfVal f c 3 (x t))) * T dx = θ (T x) * T (fun t => deriv (erfVal f c 3) (x t) * dx t) := by
  have v0 : erfVal f c 0 = fun x => x * x := by funext x; simp [erfVal]
  have v1 : erfVal f c 1 = fun x => 0 - x * x := by funext x; simp [erfVal]
  have v2 : erfVal f c 2 = fun x => Real.exp (0 - x * x) := by funext x; simp [erfVal]
  have v3 : erfVal f c 3 = fun x => c * Real.exp (0 - x * x) := by funext x; simp [erfVal]
  have v4 : erfVal f c 4 = f := by funext x; simp [erfVal]
  have h0 : ∀ y : ℝ, HasDerivAt (fun x : ℝ => x * x) (y + y) y := fun y => by
    simpa [two_mul] using (hasDerivAt_id y).fun_mul (hasDerivAt_id y)
  have h1 : ∀ y : ℝ, HasDerivAt (fun x : ℝ => 0 - x * x) (-(y + y)) y := fun y => by
    simpa using (h0 y).const_sub 0
  have h2 : ∀ y : ℝ, HasDerivAt (fun x : ℝ => Real.exp (0 - x * x)) (Real.exp (0 - y * y) * -(y + y)) y :=
    fun y => (h1 y).exp
  have h3 : ∀ y : ℝ, HasDerivAt (fun x : ℝ => c * Real.exp (0 - x * x))
    (c * (Real.exp (0 - y * y) * -(y + y))) y := fun y => (h2 y).const_mul c
  have d0 : deriv (fun x : ℝ => x * x) = fun y => y + y := funext fun y => (h0 y).deriv
  have d1 : deriv (fun x : ℝ => 0 - x * x) = fun y => -(y + y) := funext fun y => (h1 y).deriv
  have d2 : deriv (fun x : ℝ => Real.exp (0 - x * x)) = fun y => Real.exp (0 - y * y) * -(y + y) :=
    funext fun y => (h2 y).deriv
  have d3 : deriv (fun x : ℝ => c * Real.exp (0 - x * x)) = fun y => c * (Real.exp (0 - y * y) * -(y + y)) :=
    funext fun y => (h3 y).deriv
  have d4 : deriv f = fun y => sgn * (c * Real.exp (0 - y * y)) := funext fun y => (hf y).deriv
  simp only [v0, v1, v2, v3, v4, d0, d1, d2, d3, d4]
  have s0 : Sm (fun t => x t * x t) := sx.mul sx
  have s1 : Sm (fun t => 0 - x t * x t) := contDiffAt_const.sub s0
  have s2 : Sm (fun t => Real.exp (0 - x t * x t)) := s1.exp
  have s3 : Sm (fun t => c * Real.exp (0 - x t * x t)) := contDiffAt_const.mul s2
  have sxx : Sm (fun t => x t + x t) := sx.add sx
  have snn : Sm (fun t => -(x t + x t)) := sxx.neg
  have e0 : T (fun t => x t * x t) = T x * T x := T_mul sx sx
  have e1 : T (fun t => 0 - x t * x t) = PowerSeries.C (-1) * T (fun t => x t * x t) := by
    rw [T_sub contDiffAt_const s0, T_const]; simp
  have e3 : T (fun t => c * Real.exp (0 - x t * x t)) = PowerSeries.C c * T (fun t => Real.exp (0 - x t * x t)) := by
    rw [T_mul contDiffAt_const s2, T_const]
  have e2 : θ (T fun t => Real.exp (0 - x t * x t))
      = θ (T fun t => 0 - x t * x t) * T (fun t => Real.exp (0 - x t * x t)) := by
    rw [θ_unary (f := Real.exp) (g := Real.exp) s1 s2
      (Filter.Eventually.of_forall fun t => Real.hasDerivAt_exp _), mul_comm]
  have f0 : T (fun t => (x t + x t) * dx t) = T x * T dx + T x * T dx := by
    rw [T_mul sxx sd, T_add sx sx]; ring
  have f1 : T (fun t => -(x t + x t) * dx t) = PowerSeries.C (-1) * T (fun t => (x t + x t) * dx t) := by
    have : (fun t => -(x t + x t) * dx t) = fun t => -((x t + x t) * dx t) := by funext t; ring
    rw [this, T_neg]; simp
  have f2 : T (fun t => Real.exp (0 - x t * x t) * -(x t + x t) * dx t)
      = T (fun t => Real.exp (0 - x t * x t)) * T (fun t => -(x t + x t) * dx t) := by
    rw [← T_mul s2 (snn.mul sd)]; congr 1; funext t; ring
  have f3 : T (fun t => c * (Real.exp (0 - x t * x t) * -(x t + x t)) * dx t)
      = PowerSeries.C c * T (fun t => Real.exp (0 - x t * x t) * -(x t + x t) * dx t) := by
    rw [← T_const, ← T_mul contDiffAt_const ((s2.mul snn).mul sd)]; congr 1; funext t; ring
  have f4 : T (fun t => sgn * (c * Real.exp (0 - x t * x t)) * dx t)
      = PowerSeries.C sgn * T (fun t => c * Real.exp (0 - x t * x t)) * T dx := by
    rw [T_mul (contDiffAt_const.mul s3) sd, T_mul contDiffAt_const s3, T_const]
  refine ⟨e0, e1, e2, e3, ?_, f0, f1, f2, f3, f4, ?_⟩
  · have := θ_unary (f := f) (g := fun y => sgn * (c * Real.exp (0 - y * y))) sx
      (contDiffAt_const.mul s3) (Filter.Eventually.of_forall fun t => hf _)
    rw [this, T_mul contDiffAt_const s3, T_const]; ring
  · rw [f3, f2, f1, f0, e3, θ_mul, θ_C, e2, e1, θ_mul, θ_C, e0, θ_mul]; ring

noncomputable def mkErf (f : ℝ → ℝ) (sgn c : ℝ) (hf : ErfLike f sgn c) (ix : ℕ) : OpCert 5 [ix]
    (fun e r => erfVal f c r (e ix)) (fun e => e ix ∈ Set.univ)
    (erfForward f sgn c ix) (erfDir sgn c ix) (erfReverse sgn c ix) :=
  mkUnary 5 ix (by omega) (fun r => erfVal f c r) Set.univ isOpen_univ
    (fun r hr y _ => by
      have hfc := hf.contDiff.contDiffAt (x := y)
      interval_cases r <;> unfold erfVal <;> simp <;> fun_prop)
    _ _ _
    (fun x z j => ∀ i < 5, z i j = erfR f sgn c i x z j)
    (fun x x' z z' j hx hz h i hi => by
      rw [← hz i hi j le_rfl, h i hi]
      exact erfR_congr hx (fun r hr => hz r (by omega)) fun k hk => hz i hi k hk.le)
    (fun x x' z z' j hx hz h h' => by
      intro r
      induction r using Nat.strong_induction_on with
      | _ r ih =>
        intro hr
        rw [h r hr, h' r hr]
        refine erfR_congr hx (fun i hi k hk => ?_) (hz r hr)
        rcases hk.lt_or_eq with h | rfl
        · exact hz i (by omega) k h
        · exact ih i hi (by omega))
    (fun nv p q s hpq hix => by
      rw [(by omega : nv + 5 - 1 = nv + 4), erfForward_eq _ _ _ _ _ _ _ _ hix hpq]
      have := stages_ok (nv := nv) hpq (fun i j s => erfR f sgn c i (s ix) (fun r => s (nv + r)) j)
        (fun i j s s' h => erfR_congr (fun k hk => h ix k (by omega))
          (fun r hr k hk => h _ _ (by omega)) fun k hk => h _ _ (by omega)) 5 s
      exact ⟨fun j h1 h2 i hi => this.1 i hi j h1 h2, this.2⟩)
    (fun nv q r s hq hix => by
      rw [(by omega : nv + 5 - 1 = nv + 4), erfDir_eq f _ _ _ _ _ _ _ hix hq]
      have := dstages_ok (nv := nv) (q := q) (r := r) (fun i ell s => erfR f sgn c i (view r ell s ix)
          (fun i => view r ell s (nv + i)) q)
        (fun i ell s s' hl h => erfR_congr (fun k hk => h ix _ (by omega))
          (fun r hr k hk => h _ _ (by omega)) fun k hk => h _ _ (Or.inr ⟨rfl, dirIdx_lt hk hl⟩)) 5 s
      refine ⟨fun ell hl i hi => ?_, this.2⟩
      have h := this.1 i hi ell hl
      rw [← dirIdx_top hq] at h
      exact h)
    (fun x hc j i hi => by
      obtain ⟨e0, e1, e2, e3, e4, -⟩ := erf_series hf hc.sx (dx := fun _ => 0) contDiffAt_const
      interval_cases i <;> beta_reduce
      · rw [← coeff_T, e0, mulG_T]; simp [erfR, mulG]
      · rw [← coeff_T, e1, PowerSeries.coeff_C_mul, coeff_T]
        simp only [erfR, affG]; split
        · rename_i h; rw [h]; ring
        · rfl
      · simp only [erfR, expG]
        split
        · rename_i h; subst h; simp [tc_zero, erfVal]
        · rename_i h
          rw [← coeff_θ_mul_T, ← e2, coeff_θ, coeff_T]
          field_simp
      · rw [← coeff_T, e3, PowerSeries.coeff_C_mul, coeff_T]; rfl
      · simp only [erfR]
        split
        · rename_i h; subst h; simp [tc_zero, erfVal]
        · rename_i h
          have h1 := congrArg (coeff j) e4
          rw [coeff_θ, mul_assoc, PowerSeries.coeff_C_mul, coeff_θ_mul, coeff_T] at h1
          have hj : (j : ℝ) ≠ 0 := by positivity
          have : ∑ k ∈ Finset.Ico 1 (j + 1), sgn * ((k : ℝ) / (j : ℝ)) * tc x k
              * tc (fun t => erfVal f c 3 (x t)) (j - k)
              = (sgn * ∑ k ∈ Finset.Ico 1 (j + 1), (k : ℝ) * coeff k (T x)
                * coeff (j - k) (T fun t => erfVal f c 3 (x t))) / (j : ℝ) := by
            rw [Finset.mul_sum, Finset.sum_div]
            exact Finset.sum_congr rfl fun k _ => by simp only [coeff_T]; ring
          rw [this, ← h1]; field_simp)
    (fun nv x dx n s P δ hix hc hdx h1 h2 h3 h4 h5 => by
      obtain ⟨-, -, e2, -, -, f0, f1, f2, f3, f4, f5⟩ := erf_series hf hc.sx hdx
      unfold erfReverse
      split
      · rename_i hall
        refine rev_skip _ _ fun r hr k hk => ?_
        by_cases h : r + 1 < 5
        · exact h5 r h k hk
        · obtain rfl : r = 4 := by omega
          exact hall k hk
      · simp only [(by omega : nv + 5 - 1 - 4 = nv)]
        have w0 : ∀ k ≤ n, s nv k = coeff k (T fun t => erfVal f c 0 (x t)) := fun k hk => by
          rw [coeff_T]; exact h2 0 (by omega) k hk
        have w1 : ∀ k ≤ n, s (nv + 1) k = coeff k (T fun t => erfVal f c 1 (x t)) := fun k hk => by
          rw [coeff_T]; exact h2 1 (by omega) k hk
        have w2 : ∀ k ≤ n, s (nv + 2) k = coeff k (T fun t => erfVal f c 2 (x t)) := fun k hk => by
          rw [coeff_T]; exact h2 2 (by omega) k hk
        have w3 : ∀ k ≤ n, s (nv + 3) k = coeff k (T fun t => erfVal f c 3 (x t)) := fun k hk => by
          rw [coeff_T]; exact h2 3 (by omega) k hk
        have g0 : ∀ k, δ nv k = coeff k (T fun t => deriv (erfVal f c 0) (x t) * dx t) := fun k => by
          rw [coeff_T]; exact h4 0 (by omega) k
        have g1 : ∀ k, δ (nv + 1) k = coeff k (T fun t => deriv (erfVal f c 1) (x t) * dx t) := fun k => by
          rw [coeff_T]; exact h4 1 (by omega) k
        have g2 : ∀ k, δ (nv + 2) k = coeff k (T fun t => deriv (erfVal f c 2) (x t) * dx t) := fun k => by
          rw [coeff_T]; exact h4 2 (by omega) k
        have g3 : ∀ k, δ (nv + 3) k = coeff k (T fun t => deriv (erfVal f c 3) (x t) * dx t) := fun k => by
          rw [coeff_T]; exact h4 3 (by omega) k
        have g4 : ∀ k, δ (nv + 4) k = coeff k (T fun t => deriv (erfVal f c 4) (x t) * dx t) := fun k => by
          rw [coeff_T]; exact h4 4 (by omega) k
        have hx : ∀ k ≤ n, s ix k = coeff k (T x) := by simpa using h1
        have hdx' : ∀ k, δ ix k = coeff k (T dx) := by simpa using h3
        have r4 := erf_rev ix (nv + 3) (nv + 4) n s P δ sgn (by omega) (by omega) hx w3 hdx' g3 g4 f4 f5
        beta_reduce at r4
        rw [(by omega : nv + 5 = nv + 4 + 1), ← r4]
        generalize Tay.add _ ix 0 _ = P1
        have r3 := aff_rev (nv + 2) (nv + 3) n P1 δ c (by omega) g2 g3 f3
        have m3 : mulpvReverse c (nv + 2) n (nv + 3) s P1
          = forDown0 (n + 1) P1 fun j P => P.add (nv + 2) j (P (nv + 3) j * c) := by
            unfold mulpvReverse; simp only [azmul_eq]
        rw [← m3] at r3
        rw [← r3]
        generalize mulpvReverse c (nv + 2) n (nv + 3) s P1 = P2
        rw [← exp_rev (nv + 1) (nv + 2) n s P2 δ (by omega) w1 w2 g1 g2 e2 f2]
        generalize expReverse _ _ _ _ _ = P3
        have r1 := aff_rev nv (nv + 1) n P3 δ (-1) (by omega) g0 g1 f1
        have m1 : subpvReverse 0 nv n (nv + 1) s P3
          = forDown0 (n + 1) P3 fun j P => P.add nv j (P (nv + 1) j * -1) := by
            unfold subpvReverse; simp only [mul_neg, mul_one]
        rw [← m1] at r1
        rw [← r1]
        exact mul_rev ix ix nv n s _ δ hix hix hx hx hdx' hdx' g0 f0)
    (fun nv n s P v hv hx => by
      have e0 : v ≠ nv := by omega
      have e1 : v ≠ nv + 1 := by omega
      have e2 : v ≠ nv + 2 := by omega
      have e3 : v ≠ nv + 3 := by omega
      have e4 : v ≠ nv + 4 := by omega
      unfold erfReverse
      split
      · rfl
      · simp only [(by omega : nv + 5 - 1 - 4 = nv)]
        unfold mulvvReverse subpvReverse expReverse mulpvReverse
        split
        · simp (maxDischargeDepth := 8) [add_row, set_row, forDown_row, forDown0_row, forRange_row, hx, e0, e1, e2, e3, e4]
        · simp (maxDischargeDepth := 8) [add_row, set_row, forDown_row, forDown0_row, forRange_row, hx, e0, e1, e2, e3, e4])

noncomputable def erfCert (ix : ℕ) := mkErf erf 1 (2 / Real.sqrt Real.pi) erfLike_erf ix
noncomputable def erfcCert (ix : ℕ) := mkErf erfc (-1) (2 / Real.sqrt Real.pi) erfLike_erfc ix

end CppAD
