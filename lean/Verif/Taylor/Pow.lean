import Verif.Taylor.ModelPow
import Verif.Taylor.Arith
import Verif.Taylor.Log
import Mathlib.Analysis.SpecialFunctions.Pow.Deriv
import Mathlib.Tactic.IntervalCases

/-! # Certificates of the pow operators -/

open scoped ContDiff Topology PowerSeries
open PowerSeries (coeff)

namespace CppAD

/-- recurrence of the last result of Powvv and Powpv: order zero is `z0` -/
noncomputable def powZ (z0 : ℝ) (m z : ℕ → ℝ) (j : ℕ) : ℝ := if j = 0 then z0 else expG m z j

theorem powZ_congr {z0 z0' : ℝ} {x x' z z' : ℕ → ℝ} {j : ℕ} (h0 : z0 = z0')
    (hx : ∀ k ≤ j, x k = x' k) (hz : ∀ k < j, z k = z' k) :
    powZ z0 x z j = powZ z0' x' z' j := by
  unfold powZ; rw [h0, expG_congr hx hz]

theorem pow_exp_stage (im p q iz : ℕ) (s : Tay) (w : Tay → ℝ) (h : im ≠ iz) (hpq : p ≤ q) :
    (let s := if p = 0 then s.set iz 0 (w s) else s
     let p := if p = 0 then 1 else p
     if p ≤ q then expForward im p q iz s else s)
      = forRange p (q + 1) s (fun j s => s.set iz j (powZ (w s) (s im) (s iz) j)) := by
  rw [← forRange_peel (by omega : p < q + 1)]
  by_cases hp : p = 0
  · subst hp
    simp only [powZ, if_true]
    by_cases hq : 1 ≤ q
    · rw [if_pos hq, expForward_eq _ _ _ _ _ h hq]
      refine forRange_congr _ fun j s h1 h2 => ?_
      rw [if_neg (by omega)]
    · rw [if_neg hq, forRange_of_le (by omega)]
  · simp only [hp, if_false, if_pos hpq]
    rw [expForward_eq _ _ _ _ _ h hpq]
    refine forRange_congr _ fun j s h1 h2 => ?_
    rw [powZ, if_neg (by omega)]

theorem powvvForward_eq (ix iy p q nv : ℕ) (s : Tay) (hx : ix < nv) (hy : iy < nv) (hpq : p ≤ q) :
    powvvForward ix iy p q (nv + 2) s =
      forRange p (q + 1) (forRange p (q + 1) (forRange p (q + 1) s
        (fun j s => s.set nv j (logG Real.log id (s ix) (s nv) j)))
        (fun j s => s.set (nv + 1) j (mulG (s nv) (s iy) (s (nv + 1)) j)))
        (fun j s => s.set (nv + 2) j (powZ (s ix 0 ^ s iy 0) (s (nv + 1)) (s (nv + 2)) j)) := by
  unfold powvvForward
  simp only [Nat.add_sub_cancel]
  rw [logForward_eq _ _ _ _ _ (by omega) hpq, mulvvForward_eq _ _ _ _ _ _ (by omega) (by omega)]
  exact pow_exp_stage (nv + 1) p q (nv + 2) _ (fun s => s ix 0 ^ s iy 0) (by omega) hpq

theorem powvvDir_eq (ix iy q r nv : ℕ) (s : Tay) (hx : ix < nv) (hy : iy < nv) (hq : 1 ≤ q) :
    powvvDir ix iy q r (nv + 2) s =
      forRange 0 r (forRange 0 r (forRange 0 r s
        (fun ell s => s.set nv ((q - 1) * r + 1 + ell) (logG Real.log id (view r ell s ix) (view r ell s nv) q)))
        (fun ell s => s.set (nv + 1) ((q - 1) * r + 1 + ell)
          (mulG (view r ell s nv) (view r ell s iy) (view r ell s (nv + 1)) q)))
        (fun ell s => s.set (nv + 2) ((q - 1) * r + 1 + ell)
          (powZ (s ix 0 ^ s iy 0) (view r ell s (nv + 1)) (view r ell s (nv + 2)) q)) := by
  unfold powvvDir
  simp only [Nat.add_sub_cancel]
  rw [logDir_eq _ _ _ _ _ (by omega) hq, mulvvDir_eq _ _ _ _ _ _ (by omega) (by omega) hq,
    expDir_eq _ _ _ _ _ (by omega) hq]
  simp only [powZ, if_neg (by omega : ¬ q = 0)]

theorem BFun_pow : BFun 3
    (fun r x y => if r = 0 then Real.log x else if r = 1 then Real.log x * y else x ^ y)
    (fun r x y => if r = 0 then x⁻¹ else if r = 1 then x⁻¹ * y else y * x ^ (y - 1))
    (fun r x y => if r = 0 then 0 else if r = 1 then Real.log x else x ^ y * Real.log x)
    {u : ℝ × ℝ | 0 < u.1} where
  hD := isOpen_lt continuous_const continuous_fst
  hf r hr u hu := by
    have h0 : u.1 ≠ 0 := ne_of_gt hu
    have hl : ContDiffAt ℝ ∞ (fun u : ℝ × ℝ => Real.log u.1) u := contDiffAt_fst.log h0
    interval_cases r
    · simpa using hl
    · simpa using hl.mul contDiffAt_snd
    · simpa using Real.contDiffAt_rpow_of_ne u h0
  hfx r hr u hu := by
    have h0 : u.1 ≠ 0 := ne_of_gt hu
    have hi : ContDiffAt ℝ ∞ (fun u : ℝ × ℝ => u.1⁻¹) u := contDiffAt_fst.inv h0
    interval_cases r
    · simpa using hi
    · simpa using hi.mul contDiffAt_snd
    · have : ContDiffAt ℝ ∞ (fun u : ℝ × ℝ => u.1 ^ (u.2 - 1)) u :=
        ContDiffAt.comp (f := fun u : ℝ × ℝ => (u.1, u.2 - 1)) (g := fun u : ℝ × ℝ => u.1 ^ u.2) u
          (Real.contDiffAt_rpow_of_ne (u.1, u.2 - 1) h0)
          (contDiffAt_fst.prodMk (contDiffAt_snd.sub contDiffAt_const))
      simpa using contDiffAt_snd.mul this
  hfy r hr u hu := by
    have h0 : u.1 ≠ 0 := ne_of_gt hu
    have hl : ContDiffAt ℝ ∞ (fun u : ℝ × ℝ => Real.log u.1) u := contDiffAt_fst.log h0
    interval_cases r
    · simpa using contDiffAt_const
    · simpa using hl
    · simpa using (Real.contDiffAt_rpow_of_ne u h0).mul hl
  hd r hr x y dx dy t hx hy ht := by
    have ht' : 0 < x t := ht
    have hl := hx.log ht'.ne'
    interval_cases r
    · simp only [if_true]
      exact hl.congr_deriv (by field_simp; ring)
    · simp only [one_ne_zero, if_false, if_true]
      exact (hl.fun_mul hy).congr_deriv (by field_simp)
    · simp only [OfNat.ofNat_ne_zero, if_false, OfNat.ofNat_ne_one]
      exact (hx.rpow hy ht').congr_deriv (by ring)

theorem T_one' : (1 : ℝ⟦X⟧) = T (fun _ => 1) := by rw [T_const]; simp

/-- power series facts about `log x`, `log x * y`, `x ^ y` -/
theorem pow_series {x y dx dy : ℝ → ℝ} (hc : BCurve {u : ℝ × ℝ | 0 < u.1} x y) (hdx : Sm dx) (hdy : Sm dy)
    {dL dM dZ : ℝ → ℝ} (hL : dL =ᶠ[𝓝 0] fun t => (x t)⁻¹ * dx t)
    (hM : dM =ᶠ[𝓝 0] fun t => (x t)⁻¹ * y t * dx t + Real.log (x t) * dy t)
    (hZ : dZ =ᶠ[𝓝 0] fun t => y t * x t ^ (y t - 1) * dx t + x t ^ y t * Real.log (x t) * dy t) :
    T x * θ (T (fun t => Real.log (x t))) = θ (T x) ∧ T x * T dL = T dx ∧
    T (fun t => Real.log (x t) * y t) = T (fun t => Real.log (x t)) * T y ∧
    T dM = T y * T dL + T (fun t => Real.log (x t)) * T dy ∧
    θ (T (fun t => x t ^ y t)) = θ (T (fun t => Real.log (x t) * y t)) * T (fun t => x t ^ y t) ∧
    T dZ = T (fun t => x t ^ y t) * T dM := by
  have hx0 : ∀ᶠ t in 𝓝 (0 : ℝ), 0 < x t := hc.ev
  have h0 : x 0 ≠ 0 := ne_of_gt hc.h0
  have si : Sm (fun t => (x t)⁻¹) := ContDiffAt.inv hc.sx h0
  have sl : Sm (fun t => Real.log (x t)) := ContDiffAt.log hc.sx h0
  have sm : Sm (fun t => Real.log (x t) * y t) := sl.mul hc.sy
  have e1 : T x * T (fun t => (x t)⁻¹) = 1 := by
    rw [← T_mul hc.sx si, T_one']
    exact T_congr (hx0.mono fun t ht => mul_inv_cancel₀ ht.ne')
  have eL : T dL = T (fun t => (x t)⁻¹) * T dx := by rw [T_congr hL, T_mul si hdx]
  have eM : T dM = T y * T dL + T (fun t => Real.log (x t)) * T dy := by
    rw [T_congr hM, T_add ((si.mul hc.sy).mul hdx) (sl.mul hdy), T_mul (si.mul hc.sy) hdx,
      T_mul si hc.sy, T_mul sl hdy, eL]; ring
  have eZ : (fun t => x t ^ y t) =ᶠ[𝓝 0] fun t => Real.exp (Real.log (x t) * y t) :=
    hx0.mono fun t ht => Real.rpow_def_of_pos ht _
  have sZ : Sm (fun t => Real.exp (Real.log (x t) * y t)) := sm.exp
  have sdL : Sm (fun t => (x t)⁻¹ * dx t) := si.mul hdx
  refine ⟨?_, ?_, T_mul sl hc.sy, eM, ?_, ?_⟩
  · have := θ_unary (f := Real.log) (g := fun y => y⁻¹) hc.sx si
      (hx0.mono fun t ht => Real.hasDerivAt_log ht.ne')
    rw [this, ← mul_assoc, e1, one_mul]
  · rw [eL, ← mul_assoc, e1, one_mul]
  · rw [T_congr eZ]
    have := θ_unary (f := Real.exp) (g := Real.exp) sm sZ
      (Filter.Eventually.of_forall fun t => Real.hasDerivAt_exp _)
    rw [this, mul_comm]
  · have h1 : dZ =ᶠ[𝓝 0] fun t => Real.exp (Real.log (x t) * y t) *
        (y t * ((x t)⁻¹ * dx t) + Real.log (x t) * dy t) := by
      filter_upwards [hZ, hx0, eZ] with t h1 h2 h3
      rw [h1, ← h3, Real.rpow_sub_one h2.ne']; field_simp
    rw [T_congr h1, T_congr eZ, T_mul sZ ((hc.sy.mul sdL).add (sl.mul hdy)), T_add (hc.sy.mul sdL) (sl.mul hdy),
      T_mul hc.sy sdL, T_mul sl hdy, eM, T_congr hL]

theorem powZ_taylor {m z : ℝ → ℝ} {z0 : ℝ} (h0 : z0 = z 0)
    (h : θ (T z) = θ (T m) * T z) (j : ℕ) : tc z j = powZ z0 (tc m) (tc z) j := by
  unfold powZ expG
  by_cases hj : j = 0
  · subst hj; simp [tc_zero, h0]
  · rw [if_neg hj, if_neg hj, ← coeff_θ_mul_T, ← h, coeff_θ, coeff_T]
    field_simp

noncomputable def powvvCert (ix iy : ℕ) : OpCert 3 [ix, iy]
    (fun e r => if r = 0 then Real.log (e ix) else if r = 1 then Real.log (e ix) * e iy else e ix ^ e iy)
    (fun e => (e ix, e iy) ∈ {u : ℝ × ℝ | 0 < u.1})
    (powvvForward ix iy) (powvvDir ix iy) (powvvReverse ix iy) :=
  mkBinary 3 ix iy (by omega) _ _ _ _ BFun_pow _ _ _
    (fun x y z j => z 0 j = logG Real.log id x (z 0) j ∧ z 1 j = mulG (z 0) y (z 1) j ∧
      z 2 j = powZ (x 0 ^ y 0) (z 1) (z 2) j)
    (fun x x' y y' z z' j hx hy hz => by
      have z0 := hz 0 (by omega)
      have z1 := hz 1 (by omega)
      have z2 := hz 2 (by omega)
      rintro ⟨h0, h1, h2⟩
      refine ⟨?_, ?_, ?_⟩
      · rw [← z0 j le_rfl, h0]; exact logG_congr hx fun k hk => z0 k hk.le
      · rw [← z1 j le_rfl, h1]
        exact Finset.sum_congr rfl fun k hk => by
          rw [Finset.mem_Ico] at hk; rw [z0 _ (by omega), hy _ (by omega)]
      · rw [← z2 j le_rfl, h2, hx 0 (by omega), hy 0 (by omega)]
        exact powZ_congr rfl z1 fun k hk => z2 k hk.le)
    (fun x x' y y' z z' j hx hy hz => by
      have z0 := hz 0 (by omega)
      have z1 := hz 1 (by omega)
      have z2 := hz 2 (by omega)
      rintro ⟨h0, h1, h2⟩ ⟨h0', h1', h2'⟩
      have e0 : z 0 j = z' 0 j := by rw [h0, h0']; exact logG_congr hx z0
      have z0' : ∀ k ≤ j, z 0 k = z' 0 k := fun k hk => by
        rcases hk.lt_or_eq with h | rfl
        · exact z0 k h
        · exact e0
      have e1 : z 1 j = z' 1 j := by
        rw [h1, h1']
        exact Finset.sum_congr rfl fun k hk => by
          rw [Finset.mem_Ico] at hk; rw [z0' _ (by omega), hy _ (by omega)]
      have z1' : ∀ k ≤ j, z 1 k = z' 1 k := fun k hk => by
        rcases hk.lt_or_eq with h | rfl
        · exact z1 k h
        · exact e1
      have e2 : z 2 j = z' 2 j := by
        rw [h2, h2', hx 0 (by omega), hy 0 (by omega)]
        exact powZ_congr rfl z1' z2
      intro r hr
      interval_cases r
      · exact e0
      · exact e1
      · exact e2)
    (fun nv p q s hpq hix hiy => by
      rw [(by omega : nv + 3 - 1 = nv + 2), powvvForward_eq _ _ _ _ _ _ hix hiy hpq]
      have a1 := fwd_single (p := p) (q := q) (z := nv) hpq s
        (fun j s => logG Real.log id (s ix) (s nv) j)
        (fun j s s' h => logG_congr (fun k _ => h ix k (Or.inl (by omega)))
          (fun k hk => h nv k (Or.inr hk)))
      set S1 := forRange p (q + 1) s fun j s => s.set nv j (logG Real.log id (s ix) (s nv) j)
      have a2 := fwd_single (p := p) (q := q) (z := nv + 1) hpq S1
        (fun j s => mulG (s nv) (s iy) (s (nv + 1)) j)
        (fun j s s' h => Finset.sum_congr rfl fun k hk => by
          rw [h nv _ (Or.inl (by omega)), h iy _ (Or.inl (by omega))])
      set S2 := forRange p (q + 1) S1 fun j s => s.set (nv + 1) j (mulG (s nv) (s iy) (s (nv + 1)) j)
      have a3 := fwd_single (p := p) (q := q) (z := nv + 2) hpq S2
        (fun j s => powZ (s ix 0 ^ s iy 0) (s (nv + 1)) (s (nv + 2)) j)
        (fun j s s' h => by
          rw [h ix 0 (Or.inl (by omega)), h iy 0 (Or.inl (by omega))]
          exact powZ_congr rfl (fun k _ => h (nv + 1) k (Or.inl (by omega)))
            (fun k hk => h _ k (Or.inr hk)))
      set S3 := forRange p (q + 1) S2 fun j s => s.set (nv + 2) j
        (powZ (s ix 0 ^ s iy 0) (s (nv + 1)) (s (nv + 2)) j)
      have f3 : ∀ v, v ≠ nv + 2 → S3 v = S2 v := fun v hv => by funext k; exact a3.2 v k (by tauto)
      have f2 : ∀ v, v ≠ nv + 1 → S2 v = S1 v := fun v hv => by funext k; exact a2.2 v k (by tauto)
      refine ⟨fun j h1 h2 => ⟨?_, ?_, ?_⟩, fun v k hvk => ?_⟩
      · have := a1.1 j h1 h2
        beta_reduce
        rw [f3 _ (by omega), f3 _ (by omega), f2 _ (by omega), f2 _ (by omega)]
        exact this
      · have := a2.1 j h1 h2
        beta_reduce
        rw [f3 _ (by omega), f3 _ (by omega), f3 _ (by omega)]
        exact this
      · exact a3.1 j h1 h2
      · rw [a3.2 v k (by omega), a2.2 v k (by omega), a1.2 v k (by omega)])
    (fun nv q r s hq hix hiy => by
      rw [(by omega : nv + 3 - 1 = nv + 2), powvvDir_eq _ _ _ _ _ _ hix hiy hq]
      have a1 := dir_single (q := q) (r := r) (z := nv) s
        (fun ell s => logG Real.log id (view r ell s ix) (view r ell s nv) q)
        (fun ell s s' hl h => logG_congr (fun k _ => h ix _ (Or.inl (by omega)))
          (fun k hk => h nv _ (Or.inr (dirIdx_lt hk hl))))
      set S1 := forRange 0 r s fun ell s => s.set nv ((q - 1) * r + 1 + ell)
        (logG Real.log id (view r ell s ix) (view r ell s nv) q)
      have a2 := dir_single (q := q) (r := r) (z := nv + 1) S1
        (fun ell s => mulG (view r ell s nv) (view r ell s iy) (view r ell s (nv + 1)) q)
        (fun ell s s' hl h => Finset.sum_congr rfl fun k hk => by
          simp only [view_apply]
          rw [h nv _ (Or.inl (by omega)), h iy _ (Or.inl (by omega))])
      set S2 := forRange 0 r S1 fun ell s => s.set (nv + 1) ((q - 1) * r + 1 + ell)
          (mulG (view r ell s nv) (view r ell s iy) (view r ell s (nv + 1)) q)
      have a3 := dir_single (q := q) (r := r) (z := nv + 2) S2
        (fun ell s => powZ (s ix 0 ^ s iy 0) (view r ell s (nv + 1)) (view r ell s (nv + 2)) q)
        (fun ell s s' hl h => by
          rw [h ix 0 (Or.inl (by omega)), h iy 0 (Or.inl (by omega))]
          exact powZ_congr rfl (fun k _ => h (nv + 1) _ (Or.inl (by omega)))
            (fun k hk => h _ _ (Or.inr (dirIdx_lt hk hl))))
      set S3 := forRange 0 r S2 fun ell s => s.set (nv + 2) ((q - 1) * r + 1 + ell)
          (powZ (s ix 0 ^ s iy 0) (view r ell s (nv + 1)) (view r ell s (nv + 2)) q)
      have f3 : ∀ v, v ≠ nv + 2 → S3 v = S2 v := fun v hv => by funext k; exact a3.2 v k (by tauto)
      have f2 : ∀ v, v ≠ nv + 1 → S2 v = S1 v := fun v hv => by funext k; exact a2.2 v k (by tauto)
      have w3 : ∀ v, v ≠ nv + 2 → ∀ ell, view r ell S3 v = view r ell S2 v := fun v hv ell => by
        funext k; simp only [view_apply, f3 v hv]
      have w2 : ∀ v, v ≠ nv + 1 → ∀ ell, view r ell S2 v = view r ell S1 v := fun v hv ell => by
        funext k; simp only [view_apply, f2 v hv]
      refine ⟨fun ell hl => ⟨?_, ?_, ?_⟩, fun v k hvk => ?_⟩
      · have := a1.1 ell hl
        rw [← dirIdx_top hq] at this
        beta_reduce
        rw [w3 _ (by omega), w3 _ (by omega), w2 _ (by omega), w2 _ (by omega)]
        exact this
      · have := a2.1 ell hl
        rw [← dirIdx_top hq] at this
        beta_reduce
        rw [w3 _ (by omega), w3 _ (by omega), w3 _ (by omega)]
        exact this
      · have := a3.1 ell hl
        rw [← dirIdx_top hq] at this
        exact this
      · rw [a3.2 v k (by omega), a2.2 v k (by omega), a1.2 v k (by omega)])
    (fun x y hc hs j => by
      obtain ⟨h1, -, h3, -, h5, -⟩ := pow_series hc (dx := fun _ => 0) (dy := fun _ => 0)
        contDiffAt_const contDiffAt_const (Filter.EventuallyEq.refl _ _)
        (Filter.EventuallyEq.refl _ _) (Filter.EventuallyEq.refl _ _)
      have hx0 : x 0 ≠ 0 := ne_of_gt hc.h0
      simp only [if_true, one_ne_zero, if_false, OfNat.ofNat_ne_zero, OfNat.ofNat_ne_one]
      refine ⟨?_, ?_, ?_⟩
      · by_cases h : j = 0
        · subst h; simp [tc_zero, logG]
        · rw [← coeff_T]
          exact log_coeff (B := T x) (X := T x) h (by simp) (by simp) (fun _ _ => rfl)
            (by simp [tc_zero, -PowerSeries.coeff_zero_eq_constantCoeff]) hx0 h1
      · rw [← coeff_T, h3, mulG_T]; simp [mulG]
      · exact powZ_taylor (by simp [tc_zero]) h5 j)
    (fun nv x y dx dy n s P δ hix hiy hc hdx hdy hs h1 h2 h3 h4 h5 h6 _ => by
      have g0 := h3 0 (by omega)
      have g1 := h3 1 (by omega)
      have g2 := h3 2 (by omega)
      have d0 := h6 0 (by omega)
      have d1 := h6 1 (by omega)
      have d2 := h6 2 (by omega)
      simp only [if_true, one_ne_zero, if_false, OfNat.ofNat_ne_zero, OfNat.ofNat_ne_one, add_zero,
        zero_mul] at g0 g1 g2 d0 d1 d2
      obtain ⟨s1, s2, s3, s4, s5, s6⟩ := pow_series hc hdx hdy (Filter.EventuallyEq.refl _ _)
        (Filter.EventuallyEq.refl _ _) (Filter.EventuallyEq.refl _ _)
      have hx0 : x 0 ≠ 0 := ne_of_gt hc.h0
      simp only [powvvReverse, (by omega : nv + 3 - 1 - 2 = nv)]
      have r3 := exp_rev (nv + 1) (nv + 2) n s P δ (X := T fun t => Real.log (x t) * y t)
        (Z := T fun t => x t ^ y t) (dX := T _) (dZ := T _) (by omega) (by simpa using g1)
        (by simpa using g2) (fun k => by rw [coeff_T]; exact d1 k) (fun k => by rw [coeff_T]; exact d2 k) s5 s6
      rw [(by omega : nv + 3 = nv + 2 + 1), ← r3]
      have r2 := mul_rev nv iy (nv + 1) n s (expReverse (nv + 1) n (nv + 2) s P) δ
        (X := T fun t => Real.log (x t)) (Y := T y) (dX := T _) (dY := T dy) (dZ := T _)
        (by omega) (by omega) (by simpa using g0) (by simpa using h2)
        (fun k => by rw [coeff_T]; exact d0 k) (by simpa using h5) (fun k => by rw [coeff_T]; exact d1 k) s4
      rw [← r2]
      have r1 := log_rev ix nv n s (mulvvReverse nv iy n (nv + 1) s (expReverse (nv + 1) n (nv + 2) s P)) δ
        (B := T x) (X := T x) (Z := T (fun t => Real.log (x t))) (dX := T dx)
        (dZ := T _) (b0 := s ix 0) hix (by simpa using h1)
        (by simpa using g0) (by simpa using h4) (fun k => by rw [coeff_T]; exact d0 k) (fun _ _ => rfl)
        (by rw [h1 0 (by omega), coeff_T]) (by rw [h1 0 (by omega), tc_zero]; exact hx0)
        rfl s1 s2
      rw [← r1]; rfl)
    (fun nv n s P v hv hx hy => by
      have e1 : v ≠ nv := by omega
      have e2 : v ≠ nv + 1 := by omega
      have e3 : v ≠ nv + 2 := by omega
      simp only [powvvReverse, (by omega : nv + 3 - 1 - 2 = nv)]
      unfold logReverse mulvvReverse expReverse
      split
      · simp (maxDischargeDepth := 6) [add_row, set_row, forDown_row, forDown0_row, forRange_row, hx, hy, e1, e2, e3]
      · simp (maxDischargeDepth := 6) [add_row, set_row, forDown_row, forDown0_row, forRange_row, hx, hy, e1, e2, e3])

end CppAD
