import Verif.Taylor.Pow

/-! # Certificates of the operators Powpv and Powvp -/

open scoped ContDiff Topology PowerSeries
open PowerSeries (coeff)

namespace CppAD

/-- coefficients of a constant -/
def constG (c : ℝ) (j : ℕ) : ℝ := if j = 0 then c else 0

theorem tc_constG (c : ℝ) (j : ℕ) : tc (fun _ => c) j = constG c j := by
  rw [← coeff_T, T_const, PowerSeries.coeff_C]; rfl

theorem powpvForward_eq (x : ℝ) (iy p q nv : ℕ) (s : Tay) (_hy : iy < nv) (hpq : p ≤ q) :
    ∃ c, c = (forRange p (q + 1) s (fun j s => s.set nv j (constG (Real.log x) j))) nv 0 ∧
    powpvForward x iy p q (nv + 2) s =
      forRange p (q + 1) (forRange p (q + 1) (forRange p (q + 1) s
        (fun j s => s.set nv j (constG (Real.log x) j)))
        (fun j s => s.set (nv + 1) j (c * s iy j)))
        (fun j s => s.set (nv + 2) j (powZ (x ^ s iy 0) (s (nv + 1)) (s (nv + 2)) j)) := by
  have e : ∀ (d : ℕ) (s : Tay), (if d = 0 then s.set nv d (Real.log x) else s.set nv d 0)
      = s.set nv d (constG (Real.log x) d) := by
    intro d s; unfold constG; split <;> rfl
  refine ⟨_, rfl, ?_⟩
  unfold powpvForward
  simp only [Nat.add_sub_cancel, e]
  unfold mulpvForward
  exact pow_exp_stage (nv + 1) p q (nv + 2) _ (fun s => x ^ s iy 0) (by omega) hpq

theorem powpvDir_eq (iy q r nv : ℕ) (s : Tay) (_hy : iy < nv) (hq : 1 ≤ q) :
    powpvDir iy q r (nv + 2) s =
      forRange 0 r (forRange 0 r (forRange 0 r s
        (fun ell s => s.set nv ((q - 1) * r + 1 + ell) 0))
        (fun ell t => t.set (nv + 1) ((q - 1) * r + 1 + ell)
          ((forRange 0 r s (fun ell s => s.set nv ((q - 1) * r + 1 + ell) 0)) nv 0
            * view r ell t iy q)))
        (fun ell s => s.set (nv + 2) ((q - 1) * r + 1 + ell)
          (expG (view r ell s (nv + 1)) (view r ell s (nv + 2)) q)) := by
  unfold powpvDir
  simp only [Nat.add_sub_cancel]
  rw [expDir_eq _ _ _ _ _ (by omega) hq]
  unfold mulpvDir
  simp only [view_apply, dirIdx_top hq]

noncomputable def powpvCert (c : ℝ) (iy : ℕ) : OpCert 3 [iy]
    (fun e r => if r = 0 then Real.log c else if r = 1 then Real.log c * e iy else c ^ e iy)
    (fun e => e iy ∈ {_y : ℝ | 0 < c})
    (powpvForward c iy) (powpvDir iy) (powpvReverse iy) :=
  mkUnary 3 iy (by omega)
    (fun r y => if r = 0 then Real.log c else if r = 1 then Real.log c * y else c ^ y)
    {_y : ℝ | 0 < c} isOpen_const
    (fun r hr y hy => by
      have h0 : 0 < c := hy
      interval_cases r
      · simpa using contDiffAt_const
      · simpa using contDiffAt_const.mul contDiffAt_id
      · simpa using contDiffAt_const.rpow contDiffAt_id h0.ne')
    _ _ _
    (fun y z j => z 0 j = constG (Real.log c) j ∧ z 1 j = z 0 0 * y j ∧
      z 2 j = powZ (c ^ y 0) (z 1) (z 2) j)
    (fun y y' z z' j hy hz => by
      have z0 := hz 0 (by omega)
      have z1 := hz 1 (by omega)
      have z2 := hz 2 (by omega)
      rintro ⟨h0, h1, h2⟩
      refine ⟨?_, ?_, ?_⟩
      · rw [← z0 j le_rfl, h0]
      · rw [← z1 j le_rfl, h1, z0 0 (by omega), hy j le_rfl]
      · rw [← z2 j le_rfl, h2, hy 0 (by omega)]
        exact powZ_congr rfl z1 fun k hk => z2 k hk.le)
    (fun y y' z z' j hy hz => by
      have z0 := hz 0 (by omega)
      have z1 := hz 1 (by omega)
      have z2 := hz 2 (by omega)
      rintro ⟨h0, h1, h2⟩ ⟨h0', h1', h2'⟩
      have e0 : z 0 j = z' 0 j := by rw [h0, h0']
      have z0' : ∀ k ≤ j, z 0 k = z' 0 k := fun k hk => by
        rcases hk.lt_or_eq with h | rfl
        · exact z0 k h
        · exact e0
      have e1 : z 1 j = z' 1 j := by
        rw [h1, h1', z0' 0 (by omega), hy j le_rfl]
      have z1' : ∀ k ≤ j, z 1 k = z' 1 k := fun k hk => by
        rcases hk.lt_or_eq with h | rfl
        · exact z1 k h
        · exact e1
      have e2 : z 2 j = z' 2 j := by
        rw [h2, h2', hy 0 (by omega)]
        exact powZ_congr rfl z1' z2
      intro r hr
      interval_cases r
      · exact e0
      · exact e1
      · exact e2)
    (fun nv p q s hpq hiy => by
      obtain ⟨w, hw, he⟩ := powpvForward_eq c iy p q nv s hiy hpq
      rw [(by omega : nv + 3 - 1 = nv + 2), he]
      have a1 := fwd_single (p := p) (q := q) (z := nv) hpq s
        (fun j s => constG (Real.log c) j) (fun j s s' h => rfl)
      set S1 := forRange p (q + 1) s fun j s => s.set nv j (constG (Real.log c) j)
      have a2 := fwd_single (p := p) (q := q) (z := nv + 1) hpq S1
        (fun j s => w * s iy j)
        (fun j s s' h => by rw [h iy _ (Or.inl (by omega))])
      set S2 := forRange p (q + 1) S1 fun j s => s.set (nv + 1) j (w * s iy j)
      have a3 := fwd_single (p := p) (q := q) (z := nv + 2) hpq S2
        (fun j s => powZ (c ^ s iy 0) (s (nv + 1)) (s (nv + 2)) j)
        (fun j s s' h => by
          rw [h iy 0 (Or.inl (by omega))]
          exact powZ_congr rfl (fun k _ => h (nv + 1) k (Or.inl (by omega)))
            (fun k hk => h _ k (Or.inr hk)))
      set S3 := forRange p (q + 1) S2 fun j s => s.set (nv + 2) j
        (powZ (c ^ s iy 0) (s (nv + 1)) (s (nv + 2)) j)
      have f3 : ∀ v, v ≠ nv + 2 → S3 v = S2 v := fun v hv => by funext k; exact a3.2 v k (by tauto)
      have f2 : ∀ v, v ≠ nv + 1 → S2 v = S1 v := fun v hv => by funext k; exact a2.2 v k (by tauto)
      refine ⟨fun j h1 h2 => ⟨?_, ?_, ?_⟩, fun v k hvk => ?_⟩
      · have := a1.1 j h1 h2
        beta_reduce
        rw [f3 _ (by omega), f2 _ (by omega)]
        exact this
      · have := a2.1 j h1 h2
        beta_reduce
        rw [f3 _ (by omega), f3 _ (by omega), f3 _ (by omega), this, hw, f2 (nv + 0) (by omega)]
        rfl
      · exact a3.1 j h1 h2
      · rw [a3.2 v k (by omega), a2.2 v k (by omega), a1.2 v k (by omega)])
    (fun nv q r s hq hiy => by
      rw [(by omega : nv + 3 - 1 = nv + 2), powpvDir_eq _ _ _ _ _ hiy hq]
      have a1 := dir_single (q := q) (r := r) (z := nv) s
        (fun ell s => 0) (fun ell s s' hl h => rfl)
      set S1 := forRange 0 r s fun ell s => s.set nv ((q - 1) * r + 1 + ell) 0
      have a2 := dir_single (q := q) (r := r) (z := nv + 1) S1
        (fun ell s => S1 nv 0 * view r ell s iy q)
        (fun ell s s' hl h => by
          simp only [view_apply]
          rw [h iy _ (Or.inl (by omega))])
      set S2 := forRange 0 r S1 fun ell s => s.set (nv + 1) ((q - 1) * r + 1 + ell)
          (S1 nv 0 * view r ell s iy q)
      have a3 := dir_single (q := q) (r := r) (z := nv + 2) S2
        (fun ell s => expG (view r ell s (nv + 1)) (view r ell s (nv + 2)) q)
        (fun ell s s' hl h => by
          exact expG_congr (fun k _ => h (nv + 1) _ (Or.inl (by omega)))
            (fun k hk => h _ _ (Or.inr (dirIdx_lt hk hl))))
      set S3 := forRange 0 r S2 fun ell s => s.set (nv + 2) ((q - 1) * r + 1 + ell)
          (expG (view r ell s (nv + 1)) (view r ell s (nv + 2)) q)
      have f3 : ∀ v, v ≠ nv + 2 → S3 v = S2 v := fun v hv => by funext k; exact a3.2 v k (by tauto)
      have f2 : ∀ v, v ≠ nv + 1 → S2 v = S1 v := fun v hv => by funext k; exact a2.2 v k (by tauto)
      have w3 : ∀ v, v ≠ nv + 2 → ∀ ell, view r ell S3 v = view r ell S2 v := fun v hv ell => by
        funext k; simp only [view_apply, f3 v hv]
      have w2 : ∀ v, v ≠ nv + 1 → ∀ ell, view r ell S2 v = view r ell S1 v := fun v hv ell => by
        funext k; simp only [view_apply, f2 v hv]
      refine ⟨fun ell hl => ⟨?_, ?_, ?_⟩, fun v k hvk => ?_⟩
      · have := a1.1 ell hl
        rw [← dirIdx_top hq] at this
        beta_reduce
        rw [w3 _ (by omega), w2 _ (by omega), constG, if_neg (by omega)]
        exact this
      · have := a2.1 ell hl
        rw [← dirIdx_top hq] at this
        beta_reduce
        rw [w3 _ (by omega), w3 _ (by omega), w3 _ (by omega), w2 (nv + 0) (by omega)]
        exact this
      · have := a3.1 ell hl
        rw [← dirIdx_top hq] at this
        rw [powZ, if_neg (by omega)]
        exact this
      · rw [a3.2 v k (by omega), a2.2 v k (by omega), a1.2 v k (by omega)])
    (fun y hc j => by
      have hc0 : 0 < c := hc.h0
      simp only [if_true, one_ne_zero, if_false, OfNat.ofNat_ne_zero, OfNat.ofNat_ne_one]
      refine ⟨tc_constG _ _, ?_, ?_⟩
      · rw [← coeff_T, T_mul contDiffAt_const hc.sx, T_const, PowerSeries.coeff_C_mul, coeff_T,
          tc_zero]
      · have e : (fun t => c ^ y t) = fun t => Real.exp (Real.log c * y t) := by
          funext t; exact Real.rpow_def_of_pos hc0 _
        refine powZ_taylor (by simp [tc_zero]) ?_ j
        have sm : Sm (fun t => Real.log c * y t) := contDiffAt_const.mul hc.sx
        have := θ_unary (f := Real.exp) (g := Real.exp) sm sm.exp
          (Filter.Eventually.of_forall fun t => Real.hasDerivAt_exp _)
        rw [e, this, mul_comm])
    (fun nv y dy n s P δ hiy hc hdy h2 h3 h5 h6 _ => by
      have hc0 : 0 < c := hc.h0
      have g0 := h3 0 (by omega)
      have g1 := h3 1 (by omega)
      have g2 := h3 2 (by omega)
      have d0 := h6 0 (by omega)
      have d1 := h6 1 (by omega)
      have d2 := h6 2 (by omega)
      simp only [if_true, one_ne_zero, if_false, OfNat.ofNat_ne_zero, OfNat.ofNat_ne_one, add_zero,
        ] at g0 g1 g2 d0 d1 d2
      have e : (fun t => c ^ y t) = fun t => Real.exp (Real.log c * y t) := by
        funext t; exact Real.rpow_def_of_pos hc0 _
      have sm : Sm (fun t => Real.log c * y t) := contDiffAt_const.mul hc.sx
      have s5 := θ_unary (f := Real.exp) (g := Real.exp) sm sm.exp
          (Filter.Eventually.of_forall fun t => Real.hasDerivAt_exp _)
      have e0 : (fun t => deriv (fun _ : ℝ => Real.log c) (y t) * dy t) = fun _ => 0 := by
        funext t; simp
      have e1 : (fun t => deriv (fun y : ℝ => Real.log c * y) (y t) * dy t)
          = fun t => Real.log c * dy t := by
        funext t; simp
      have e2 : (fun t => deriv (fun y : ℝ => c ^ y) (y t) * dy t)
          = fun t => Real.exp (Real.log c * y t) * (Real.log c * dy t) := by
        funext t
        rw [((Real.hasStrictDerivAt_const_rpow hc0 (y t)).hasDerivAt).deriv, Real.rpow_def_of_pos hc0]
        ring
      simp only [e0] at d0
      simp only [e1] at d1
      simp only [e2] at d2
      rw [e] at g2
      have sd : Sm (fun t => Real.log c * dy t) := contDiffAt_const.mul hdy
      simp only [powpvReverse, (by omega : nv + 3 - 1 - 2 = nv)]
      have r3 := exp_rev (nv + 1) (nv + 2) n s P δ (X := T fun t => Real.log c * y t)
        (Z := T fun t => Real.exp (Real.log c * y t)) (dX := T _) (dZ := T _) (by omega) (by simpa using g1)
        (by simpa using g2) (fun k => by rw [coeff_T]; exact d1 k) (fun k => by rw [coeff_T]; exact d2 k)
        (by rw [s5, mul_comm]) (T_mul sm.exp sd)
      rw [(by omega : nv + 3 = nv + 2 + 1), ← r3]
      have r2 := aff_rev iy (nv + 1) n (expReverse (nv + 1) n (nv + 2) s P) δ (s nv 0) 
        (dX := T dy) (dZ := T fun t => Real.log c * dy t)
        (by omega) (by simpa using h5) (fun k => by rw [coeff_T]; exact d1 k)
        (by rw [T_mul contDiffAt_const hdy, T_const, g0 0 (by omega), tc_zero])
      rw [← r2]
      have : ∀ Q : Tay, Phi nv (fun _ => n + 1) δ Q = Phi (nv + 1) (fun _ => n + 1) δ Q := by
        intro Q
        unfold Phi
        rw [Finset.sum_range_succ]
        simp [d0, tc_constG, constG]
      rw [this]; unfold mulpvReverse; simp only [azmul_eq, mul_comm])
    (fun nv n s P v hv hy => by
      have e2 : v ≠ nv + 1 := by omega
      have e3 : v ≠ nv + 2 := by omega
      simp only [powpvReverse, (by omega : nv + 3 - 1 - 2 = nv)]
      unfold mulpvReverse expReverse
      split
      · simp (maxDischargeDepth := 6) [add_row, set_row, forDown_row, forDown0_row, forRange_row, hy, e2, e3]
      · simp (maxDischargeDepth := 6) [add_row, set_row, forDown_row, forDown0_row, forRange_row, hy, e2, e3])

/-! ## Powvp -/

theorem forRange_sim {σ τ : Type*} (h : σ → τ) {lo hi : ℕ} (s : σ) (f : ℕ → σ → σ) (g : ℕ → τ → τ)
    (hfg : ∀ k s, h (f k s) = g k (h s)) : h (forRange lo hi s f) = forRange lo hi (h s) g := by
  unfold forRange
  induction List.range' lo (hi - lo) generalizing s with
  | nil => rfl
  | cons a l ih => rw [List.foldl_cons, List.foldl_cons, ih, hfg]

theorem forDown_sim {σ τ : Type*} (h : σ → τ) {n : ℕ} (s : σ) (f : ℕ → σ → σ) (g : ℕ → τ → τ)
    (hfg : ∀ k s, h (f k s) = g k (h s)) : h (forDown n s f) = forDown n (h s) g := by
  induction n generalizing s with
  | zero => rfl
  | succ n ih => rw [forDown, forDown, ih, hfg]

/-- the array `P` with row `ix` replaced by the work vector -/
def comb (ix : ℕ) (P w : Tay) : Tay := fun v k => if v = ix then w 0 k else P v k

theorem comb_w (ix : ℕ) (P w : Tay) (k : ℕ) (a : ℝ) :
    comb ix P (w.add 0 k a) = (comb ix P w).add ix k a := by
  funext v k'
  unfold comb
  simp only [Tay.add_apply]
  by_cases hv : v = ix
  · subst hv; simp
  · simp [hv]

theorem comb_P {ix iz : ℕ} (h : ix ≠ iz) (P w : Tay) (k : ℕ) (a : ℝ) :
    comb ix (P.add iz k a) w = (comb ix P w).add iz k a := by
  funext v k'
  unfold comb
  simp only [Tay.add_apply]
  by_cases hv : v = ix
  · subst hv; simp [h]
  · simp [hv, h.symm]

theorem comb_iz {ix iz : ℕ} (h : ix ≠ iz) (P w : Tay) (k : ℕ) : comb ix P w iz k = P iz k := by
  simp [comb, h.symm]

/-- closed form of the Powvp recurrence -/
noncomputable def powvpG (y : ℝ) (x z : ℕ → ℝ) (j : ℕ) : ℝ :=
  if j = 0 then x 0 ^ y else if x 0 = 0 then 0 else
    (y * z 0 * x j + (∑ k ∈ Finset.Ico 1 j, (k : ℝ) * (y * x k * z (j - k) - z k * x (j - k))) / (j : ℝ))
      / x 0

theorem powvpG_congr {y : ℝ} {x x' z z' : ℕ → ℝ} {j : ℕ} (hx : ∀ k ≤ j, x k = x' k)
    (hz : ∀ k < j, z k = z' k) : powvpG y x z j = powvpG y x' z' j := by
  unfold powvpG
  rw [hx 0 (by omega)]
  split
  · rfl
  · split
    · rfl
    · rw [hx j le_rfl, hz 0 (by omega)]
      congr 3
      exact Finset.sum_congr rfl fun k hk => by
        rw [Finset.mem_Ico] at hk
        rw [hx k (by omega), hz (j - k) (by omega), hz k (by omega), hx (j - k) (by omega)]

theorem forRange_add_sum (lo hi : ℕ) (f : ℕ → ℝ) (a : ℝ) :
    forRange lo hi a (fun k s => s + f k) = a + ∑ k ∈ Finset.Ico lo hi, f k := by
  rcases le_total hi lo with hh | hh
  · rw [forRange_of_le hh, Finset.Ico_eq_empty_of_le hh, Finset.sum_empty, add_zero]
  · refine forRange_ind (P := fun m s => s = a + ∑ k ∈ Finset.Ico lo m, f k) hh (by simp) ?_
    intro k s h1 h2 hs
    rw [Finset.sum_Ico_succ_top h1, hs, add_assoc]

theorem powvpForward_eq (ix : ℕ) (y : ℝ) (p q iz : ℕ) (s : Tay) (_h : ix ≠ iz) (hpq : p ≤ q) :
    powvpForward ix y p q iz s
      = forRange p (q + 1) s (fun j s => s.set iz j (powvpG y (s ix) (s iz) j)) := by
  rw [← forRange_peel (by omega : p < q + 1)]
  unfold powvpForward
  simp only [powvpG, if_true]
  refine forRange_congr _ fun j s h1 h2 => ?_
  have hj : 1 ≤ j := by split at h1 <;> omega
  rw [forRange_add_sum, zero_add, if_neg (by omega : ¬ j = 0)]

theorem powvpDir_eq (ix : ℕ) (y : ℝ) (q r iz : ℕ) (s : Tay) (_h : ix ≠ iz) (hq : 1 ≤ q) :
    powvpDir ix y q r iz s = forRange 0 r s (fun ell s => s.set iz ((q - 1) * r + 1 + ell)
      (powvpG y (view r ell s ix) (view r ell s iz) q)) := by
  unfold powvpDir
  refine forRange_congr _ fun ell s _ hl => ?_
  have hv0 : view r ell s ix 0 = s ix 0 := by rw [view_apply, dirIdx_zero]
  unfold powvpG
  rw [if_neg (by omega : ¬ q = 0), hv0]
  by_cases h0 : s ix 0 = 0
  · simp only [if_pos h0]
  · simp only [if_neg h0, view_apply, dirIdx_zero]
    rw [forRange_add_sum, zero_add]
    congr 1
    congr 1
    congr 1
    · rw [dirIdx_pos hq]
    · congr 1
      refine Finset.sum_congr rfl fun k hk => ?_
      rw [Finset.mem_Ico] at hk
      rw [dirIdx_pos (by omega), dirIdx_pos (by omega)]

/-- `x^y` for a constant `y`: `x z' = y z x'` -/
theorem powvp_series {y : ℝ} {x dx : ℝ → ℝ} (hc : UCurve 1 (fun _ x => x ^ y) {x : ℝ | x ≠ 0} x)
    (hdx : Sm dx) :
    θ (T fun t => x t ^ y) * T x = PowerSeries.C y * T (fun t => x t ^ y) * θ (T x) ∧
    T (fun t => deriv (fun x => x ^ y) (x t) * dx t) * T x
      = PowerSeries.C y * T (fun t => x t ^ y) * T dx := by
  have hd : ∀ a : ℝ, a ≠ 0 → deriv (fun x : ℝ => x ^ y) a * a = y * a ^ y := by
    intro a ha
    rw [(Real.hasDerivAt_rpow_const (Or.inl ha)).deriv, Real.rpow_sub_one ha]; field_simp
  have key : T (fun t => deriv (fun x => x ^ y) (x t)) * T x = PowerSeries.C y * T (fun t => x t ^ y) := by
    rw [← T_mul (hc.sg (r := 0) one_pos) hc.sx, ← T_const, ← T_mul contDiffAt_const (hc.sz (r := 0) one_pos)]
    exact T_congr (hc.ev.mono fun t ht => hd _ ht)
  refine ⟨?_, ?_⟩
  · have := hc.theta (r := 0) one_pos
    rw [this, ← key]; ring
  · have := hc.delta (r := 0) one_pos hdx
    rw [this, ← key]; ring

theorem coeff_θ_mul' (F G : ℝ⟦X⟧) {j : ℕ} (hj : 1 ≤ j) :
    coeff j (θ F * G) = (j : ℝ) * coeff j F * coeff 0 G +
      ∑ k ∈ Finset.Ico 1 j, (k : ℝ) * coeff k F * coeff (j - k) G := by
  rw [coeff_θ_mul, Finset.sum_Ico_succ_top hj, Nat.sub_self, add_comm]

theorem powvp_lin {y : ℝ} {X Z dX dZ : ℝ⟦X⟧} (h1 : θ Z * X = PowerSeries.C y * Z * θ X)
    (h2 : dZ * X = PowerSeries.C y * Z * dX) (hX : X ≠ 0) {j : ℕ} (hj : 1 ≤ j) :
    (j : ℝ) * coeff 0 X * coeff j dZ = (j : ℝ) * (y * coeff 0 Z * coeff j dX + y * coeff j X * coeff 0 dZ
      - coeff j Z * coeff 0 dX) +
      (∑ k ∈ Finset.Ico 1 j, ((k : ℝ) * y - ((j - k : ℕ) : ℝ)) * coeff (j - k) Z * coeff k dX) +
      ∑ k ∈ Finset.Ico 1 j, (((j - k : ℕ) : ℝ) * y - (k : ℝ)) * coeff (j - k) X * coeff k dZ := by
  have h3 : θ dZ * X + θ Z * dX = PowerSeries.C y * (θ X * dZ + θ dX * Z) := by
    have e : θ (dZ * X) = θ (PowerSeries.C y * Z * dX) := by rw [h2]
    rw [mul_assoc, θ_mul, θ_mul, θ_C, θ_mul, zero_mul, zero_add] at e
    have e2 : X * (θ dZ * X + θ Z * dX) = X * (PowerSeries.C y * (θ X * dZ + θ dX * Z)) := by
      have : dZ * θ X * X = PowerSeries.C y * Z * dX * θ X := by rw [← h2]; ring
      have e3 : θ dZ * X = PowerSeries.C y * (θ Z * dX + Z * θ dX) - dZ * θ X := by
        rw [← e]; ring
      have h1' : θ Z * X = PowerSeries.C y * Z * θ X := h1
      calc X * (θ dZ * X + θ Z * dX) = X * (θ dZ * X) + (θ Z * X) * dX := by ring
        _ = PowerSeries.C y * (θ Z * X * dX + X * Z * θ dX) - dZ * X * θ X + (θ Z * X) * dX := by
            rw [e3]; ring
        _ = PowerSeries.C y * (PowerSeries.C y * Z * θ X * dX + X * Z * θ dX)
            - PowerSeries.C y * Z * dX * θ X + (PowerSeries.C y * Z * θ X) * dX := by rw [h1', h2]
        _ = PowerSeries.C y * (dZ * X * θ X + X * Z * θ dX) := by rw [h2]; ring
        _ = _ := by ring
    exact mul_left_cancel₀ hX e2
  have := congrArg (coeff j) h3
  rw [map_add, PowerSeries.coeff_C_mul, map_add, coeff_θ_mul' _ _ hj, coeff_θ_mul' _ _ hj,
    coeff_θ_mul' _ _ hj, coeff_θ_mul' _ _ hj] at this
  have rfl1 : ∀ f : ℕ → ℕ → ℝ, ∑ k ∈ Finset.Ico 1 j, f k (j - k) = ∑ k ∈ Finset.Ico 1 j, f (j - k) k := by
    intro f
    refine Finset.sum_bij' (fun k _ => j - k) (fun k _ => j - k) ?_ ?_ ?_ ?_ ?_ <;>
      simp only [Finset.mem_Ico] <;> intro k hk
    · omega
    · omega
    · omega
    · omega
    · congr 1; omega
  have r1 := rfl1 fun k l => (k : ℝ) * coeff k Z * coeff l dX
  have r2 := rfl1 fun k l => (k : ℝ) * coeff k X * coeff l dZ
  rw [r1, r2] at this
  have s1 : ∑ k ∈ Finset.Ico 1 j, ((k : ℝ) * y - ((j - k : ℕ) : ℝ)) * coeff (j - k) Z * coeff k dX
      = y * (∑ k ∈ Finset.Ico 1 j, (k : ℝ) * coeff k dX * coeff (j - k) Z)
        - ∑ k ∈ Finset.Ico 1 j, ((j - k : ℕ) : ℝ) * coeff (j - k) Z * coeff k dX := by
    rw [Finset.mul_sum, ← Finset.sum_sub_distrib]
    exact Finset.sum_congr rfl fun k _ => by ring
  have s2 : ∑ k ∈ Finset.Ico 1 j, (((j - k : ℕ) : ℝ) * y - (k : ℝ)) * coeff (j - k) X * coeff k dZ
      = y * (∑ k ∈ Finset.Ico 1 j, ((j - k : ℕ) : ℝ) * coeff (j - k) X * coeff k dZ)
        - ∑ k ∈ Finset.Ico 1 j, (k : ℝ) * coeff k dZ * coeff (j - k) X := by
    rw [Finset.mul_sum, ← Finset.sum_sub_distrib]
    exact Finset.sum_congr rfl fun k _ => by ring
  rw [s1, s2]
  linarith

/-- the body of the reverse loop on the combined array -/
noncomputable def powvpBody (s : Tay) (ix iz : ℕ) (y : ℝ) (j : ℕ) (P : Tay) : Tay :=
  let P := P.add ix j (azmul (P iz j) (y * s iz 0 / s ix 0))
  let c := P iz j
  let P := forRange 1 j P fun k P =>
    P.add ix k (azmul c (((k : ℝ) * y - ((j - k : ℕ) : ℝ)) * s iz (j - k) / ((j : ℝ) * s ix 0)))
  let P := forRange 1 j P fun k P =>
    P.add iz k (azmul (P iz j) ((((j - k : ℕ) : ℝ) * y - (k : ℝ)) * s ix (j - k) / ((j : ℝ) * s ix 0)))
  let P := P.add ix 0 (-(azmul (P iz j) (s iz j / s ix 0)))
  P.add iz 0 (azmul (P iz j) (y * s ix j / s ix 0))

theorem powvp_comb {ix iz : ℕ} (y : ℝ) (d : ℕ) (s P : Tay) (h : ix ≠ iz) (h0 : s ix 0 ≠ 0) :
    ∃ w : Tay, (∀ k ≤ d, w 0 k = P ix k) ∧ ∀ v k, (v = ix → k ≤ d) →
      powvpReverse ix y d iz s P v k =
        ((fun P : Tay => P.add ix 0 (azmul (P iz 0) (y * s iz 0 / s ix 0)))
          (forDown d (comb ix P w) (powvpBody s ix iz y))) v k := by
  refine ⟨forRange 0 (d + 1) (fun _ _ => 0 : Tay) fun j (w : Tay) => w.set 0 j (P ix j), ?_, ?_⟩
  · have := (fwd_single (p := 0) (q := d) (z := 0) (Nat.zero_le d) (fun _ _ => 0)
      (fun j _ => P ix j) (fun _ _ _ _ => rfl)).1
    exact fun k hk => this k (Nat.zero_le k) hk
  · intro v k hk
    unfold powvpReverse
    simp only
    set w0 := forRange 0 (d + 1) (fun _ _ => 0 : Tay) fun j (w : Tay) => w.set 0 j (P ix j) with hw0
    rw [← forDown_sim (fun pw : Tay × Tay => comb ix pw.1 pw.2) (P, w0) (fun j pw =>
      ((forRange 1 j pw.1 fun k P => P.add iz k (azmul (P iz j)
          ((((j - k : ℕ) : ℝ) * y - (k : ℝ)) * s ix (j - k) / ((j : ℝ) * s ix 0)))).add iz 0
        (azmul ((forRange 1 j pw.1 fun k P => P.add iz k (azmul (P iz j)
          ((((j - k : ℕ) : ℝ) * y - (k : ℝ)) * s ix (j - k) / ((j : ℝ) * s ix 0)))) iz j)
          (y * s ix j / s ix 0)),
       (forRange 1 j (pw.2.add 0 j (azmul (pw.1 iz j) (y * s iz 0 / s ix 0))) fun k w =>
        w.add 0 k (azmul (pw.1 iz j) (((k : ℝ) * y - ((j - k : ℕ) : ℝ)) * s iz (j - k) / ((j : ℝ) * s ix 0)))).add 0 0
        (-(azmul ((forRange 1 j pw.1 fun k P => P.add iz k (azmul (P iz j)
          ((((j - k : ℕ) : ℝ) * y - (k : ℝ)) * s ix (j - k) / ((j : ℝ) * s ix 0)))) iz j) (s iz j / s ix 0)))))
      (powvpBody s ix iz y)]
    · set pw := forDown d (P, w0) _
      have e := (fwd_single (p := 0) (q := d) (z := ix) (Nat.zero_le d) pw.1
        (fun j _ => if s ix 0 = 0 then 0 else (Tay.add pw.2 0 0 (azmul (pw.1 iz 0) (y * s iz 0 / s ix 0))) 0 j)
        (fun _ _ _ _ => rfl))
      beta_reduce
      rw [comb_iz h, ← comb_w]
      by_cases hv : v = ix
      · subst hv
        rw [e.1 k (Nat.zero_le k) (hk rfl), if_neg h0]; simp [comb]
      · rw [e.2 v k (by tauto)]; simp [comb, hv]
    · rintro j ⟨P, w⟩
      simp only [powvpBody]
      rw [comb_P h, comb_w]
      set P' := forRange 1 j P fun k P => P.add iz k (azmul (P iz j)
          ((((j - k : ℕ) : ℝ) * y - (k : ℝ)) * s ix (j - k) / ((j : ℝ) * s ix 0))) with hP'
      set w' := forRange 1 j (w.add 0 j (azmul (P iz j) (y * s iz 0 / s ix 0))) fun k w =>
        w.add 0 k (azmul (P iz j) (((k : ℝ) * y - ((j - k : ℕ) : ℝ)) * s iz (j - k) / ((j : ℝ) * s ix 0))) with hw'
      have e1 : forRange 1 j ((comb ix P w).add ix j (azmul (comb ix P w iz j) (y * s iz 0 / s ix 0)))
          (fun k Q => Q.add ix k (azmul (((comb ix P w).add ix j
            (azmul (comb ix P w iz j) (y * s iz 0 / s ix 0))) iz j)
            (((k : ℝ) * y - ((j - k : ℕ) : ℝ)) * s iz (j - k) / ((j : ℝ) * s ix 0)))) = comb ix P w' := by
        rw [hw', forRange_sim (fun w => comb ix P w) (g := fun k Q => Q.add ix k (azmul (P iz j)
          (((k : ℝ) * y - ((j - k : ℕ) : ℝ)) * s iz (j - k) / ((j : ℝ) * s ix 0))))
          (hfg := fun k s => comb_w _ _ _ _ _)]
        rw [Tay.add_ne_row _ _ _ _ h.symm]
        simp only [comb_iz h, comb_w]
      rw [e1]
      have e2 : forRange 1 j (comb ix P w') (fun k P => P.add iz k (azmul (P iz j)
          ((((j - k : ℕ) : ℝ) * y - (k : ℝ)) * s ix (j - k) / ((j : ℝ) * s ix 0)))) = comb ix P' w' := by
        rw [hP', forRange_sim (fun P => comb ix P w') (g := fun k Q => Q.add iz k (azmul (Q iz j)
          ((((j - k : ℕ) : ℝ) * y - (k : ℝ)) * s ix (j - k) / ((j : ℝ) * s ix 0))))
          (hfg := fun k s => by rw [comb_P h, comb_iz h])]
      rw [e2, Tay.add_ne_row _ _ _ _ h.symm, comb_iz h]

noncomputable def powvpCert (ix : ℕ) (y : ℝ) : OpCert 1 [ix] (fun e _ => e ix ^ y)
    (fun e => e ix ∈ {x : ℝ | x ≠ 0}) (powvpForward ix y) (powvpDir ix y) (powvpReverse ix y) :=
  mkUnary1 ix (fun x => x ^ y) {x : ℝ | x ≠ 0} isOpen_ne
    (fun a ha => (Real.contDiffAt_rpow_const_of_ne ha)) _ _ _ (powvpG y)
    (fun _ _ _ _ _ => powvpG_congr)
    (fun p q iz s => powvpForward_eq ix y p q iz s) (fun q r iz s => powvpDir_eq ix y q r iz s)
    (fun x hc j => by
      have h0 : x 0 ≠ 0 := hc.h0
      unfold powvpG
      by_cases hj : j = 0
      · subst hj; simp [tc_zero]
      · have hx0 : tc x 0 ≠ 0 := by rw [tc_zero]; exact h0
        rw [if_neg hj, if_neg hx0]
        have h1 := congrArg (coeff j) (powvp_series hc (dx := fun _ => 0) contDiffAt_const).1
        have hj1 : 1 ≤ j := by omega
        rw [mul_assoc, PowerSeries.coeff_C_mul, mul_comm (T fun t => x t ^ y), coeff_θ_mul' _ _ hj1,
          coeff_θ_mul' _ _ hj1] at h1
        simp only [coeff_T] at h1
        have e : ∑ k ∈ Finset.Ico 1 j, (k : ℝ) * (y * tc x k * tc (fun t => x t ^ y) (j - k)
              - tc (fun t => x t ^ y) k * tc x (j - k))
            = y * (∑ k ∈ Finset.Ico 1 j, (k : ℝ) * tc x k * tc (fun t => x t ^ y) (j - k))
              - ∑ k ∈ Finset.Ico 1 j, (k : ℝ) * tc (fun t => x t ^ y) k * tc x (j - k) := by
          rw [Finset.mul_sum, ← Finset.sum_sub_distrib]
          exact Finset.sum_congr rfl fun k _ => by ring
        rw [e, eq_div_iff hx0]
        have hjr : (j : ℝ) ≠ 0 := by positivity
        field_simp
        linarith)
    (fun nv x dx n s P δ hix hc hd h1 h2 h3 h4 => by
      have h0 : x 0 ≠ 0 := hc.h0
      have hs0 : s ix 0 ≠ 0 := by rw [h1 0 (by omega), tc_zero]; exact h0
      obtain ⟨s1, s2⟩ := powvp_series hc hd
      obtain ⟨w, hw, hr⟩ := powvp_comb y n s P (by omega : ix ≠ nv) hs0
      have e1 : Phi nv (fun _ => n + 1) δ (powvpReverse ix y n nv s P)
          = Phi nv (fun _ => n + 1) δ ((fun P : Tay => P.add ix 0 (azmul (P nv 0) (y * s nv 0 / s ix 0)))
          (forDown n (comb ix P w) (powvpBody s ix nv y))) := by
        unfold Phi
        refine Finset.sum_congr rfl fun v hv => Finset.sum_congr rfl fun k hk => ?_
        rw [hr v k fun _ => by have := Finset.mem_range.mp hk; beta_reduce at this; omega]
      have e2 : Phi (nv + 1) (fun _ => n + 1) δ P = Phi (nv + 1) (fun _ => n + 1) δ (comb ix P w) := by
        unfold Phi
        refine Finset.sum_congr rfl fun v hv => Finset.sum_congr rfl fun k hk => ?_
        unfold comb
        split
        · rename_i h; rw [h, hw k (by have := Finset.mem_range.mp hk; beta_reduce at this; omega)]
        · rfl
      rw [e1, e2]
      have hX : T x ≠ 0 := fun h => h0 (by rw [← tc_zero x, ← coeff_T, h]; simp)
      set X := T x with hXd
      set Z := T fun t => x t ^ y with hZd
      set dX := T dx with hdXd
      set dZ := T fun t => deriv (fun x => x ^ y) (x t) * dx t with hdZd
      have g1 : ∀ k ≤ n, s ix k = coeff k X := by simpa [hXd] using h1
      have g2 : ∀ k ≤ n, s nv k = coeff k Z := by simpa [hZd] using h2
      have g3 : ∀ k, δ ix k = coeff k dX := by simpa [hdXd] using h3
      have g4 : ∀ k, δ nv k = coeff k dZ := by simpa [hdZd] using h4
      have hX0 : coeff 0 X ≠ 0 := by rw [← g1 0 (by omega)]; exact hs0
      refine rev_loop' (m := 1) _ _ (fun P => P.add ix 0 (azmul (P nv 0) (y * s nv 0 / s ix 0))) _
        (fun j Q hj1 hj => ?_) fun Q => ?_
      · simp only [Finset.sum_range_one, add_zero]
        set c := Q nv j with hc'
        have hjr : (j : ℝ) ≠ 0 := by positivity
        have key : Ext (nv + 1) (Act nv n j) δ Q (powvpBody s ix nv y j Q)
          (c * (y * coeff 0 Z / coeff 0 X) * δ ix j +
            (∑ k ∈ Finset.Ico 1 j, c * (((k : ℝ) * y - ((j - k : ℕ) : ℝ)) * coeff (j - k) Z
              / ((j : ℝ) * coeff 0 X)) * δ ix k) +
            (∑ k ∈ Finset.Ico 1 j, c * ((((j - k : ℕ) : ℝ) * y - (k : ℝ)) * coeff (j - k) X
              / ((j : ℝ) * coeff 0 X)) * δ nv k) +
            (-(c * (coeff j Z / coeff 0 X))) * δ ix 0 +
            c * (y * coeff j X / coeff 0 X) * δ nv 0) := by
          unfold powvpBody
          simp only [azmul_eq]
          have q1 : Ext (nv + 1) (Act nv n j) δ Q (Q.add ix j (Q nv j * (y * s nv 0 / s ix 0)))
              (c * (y * coeff 0 Z / coeff 0 X) * δ ix j) := by
            rw [g2 0 (by omega), g1 0 (by omega)]
            exact Ext.add _ _ (by omega) (Act_arg hix (by omega))
          set Q1 := Q.add ix j (Q nv j * (y * s nv 0 / s ix 0))
          have c1 : Q1 nv j = c := q1.1 nv j (Act_out le_rfl)
          have q2 : Ext (nv + 1) (Act nv n j) δ Q1 (forRange 1 j Q1 fun k P =>
              P.add ix k (Q1 nv j * (((k : ℝ) * y - ((j - k : ℕ) : ℝ)) * s nv (j - k) / ((j : ℝ) * s ix 0))))
              (∑ k ∈ Finset.Ico 1 j, c * (((k : ℝ) * y - ((j - k : ℕ) : ℝ)) * coeff (j - k) Z
              / ((j : ℝ) * coeff 0 X)) * δ ix k) := by
            refine Ext.loop _ fun k R h1 h2 hR => ?_
            rw [c1, g2 _ (by omega), g1 0 (by omega)]
            exact Ext.add _ _ (by omega) (Act_arg hix (by omega))
          set Q2 := forRange 1 j Q1 fun k P =>
              P.add ix k (Q1 nv j * (((k : ℝ) * y - ((j - k : ℕ) : ℝ)) * s nv (j - k) / ((j : ℝ) * s ix 0)))
          have c2 : Q2 nv j = c := by rw [q2.1 nv j (Act_out le_rfl), c1]
          have q3 : Ext (nv + 1) (Act nv n j) δ Q2 (forRange 1 j Q2 fun k P =>
              P.add nv k (P nv j * ((((j - k : ℕ) : ℝ) * y - (k : ℝ)) * s ix (j - k) / ((j : ℝ) * s ix 0))))
              (∑ k ∈ Finset.Ico 1 j, c * ((((j - k : ℕ) : ℝ) * y - (k : ℝ)) * coeff (j - k) X
              / ((j : ℝ) * coeff 0 X)) * δ nv k) := by
            refine Ext.loop _ fun k R h1 h2 hR => ?_
            rw [hR nv j (Act_out le_rfl), c2, g1 _ (by omega), g1 0 (by omega)]
            exact Ext.add _ _ (by omega) (Act_res le_rfl (by omega))
          set Q3 := forRange 1 j Q2 fun k P =>
              P.add nv k (P nv j * ((((j - k : ℕ) : ℝ) * y - (k : ℝ)) * s ix (j - k) / ((j : ℝ) * s ix 0)))
          have c3 : Q3 nv j = c := by rw [q3.1 nv j (Act_out le_rfl), c2]
          rw [Tay.add_ne_row _ _ _ _ (by omega : nv ≠ ix), c3, g1 0 (by omega), g2 j hj, g1 j hj]
          exact (((q1.trans q2).trans q3).add_to _ (by omega) (Act_arg hix (by omega))).add_to _ (by omega)
            (Act_res le_rfl (by omega))
        rw [key.2]
        congr 1
        have lin := powvp_lin s1 s2 hX hj1
        simp only [g3, g4]
        have t1 : ∑ k ∈ Finset.Ico 1 j, c * (((k : ℝ) * y - ((j - k : ℕ) : ℝ)) * coeff (j - k) Z
              / ((j : ℝ) * coeff 0 X)) * coeff k dX = c / ((j : ℝ) * coeff 0 X) *
            ∑ k ∈ Finset.Ico 1 j, ((k : ℝ) * y - ((j - k : ℕ) : ℝ)) * coeff (j - k) Z * coeff k dX := by
          rw [Finset.mul_sum]; exact Finset.sum_congr rfl fun k _ => by ring
        have t2 : ∑ k ∈ Finset.Ico 1 j, c * ((((j - k : ℕ) : ℝ) * y - (k : ℝ)) * coeff (j - k) X
              / ((j : ℝ) * coeff 0 X)) * coeff k dZ = c / ((j : ℝ) * coeff 0 X) *
            ∑ k ∈ Finset.Ico 1 j, (((j - k : ℕ) : ℝ) * y - (k : ℝ)) * coeff (j - k) X * coeff k dZ := by
          rw [Finset.mul_sum]; exact Finset.sum_congr rfl fun k _ => by ring
        rw [t1, t2]
        have : coeff j dZ = ((j : ℝ) * coeff 0 X * coeff j dZ) / ((j : ℝ) * coeff 0 X) := by
          field_simp
        rw [this, lin]
        field_simp
        ring
      · simp only [Finset.sum_range_one, add_zero]
        rw [Phi_add _ _ _ _ _ (by omega) (Act_arg hix (by omega)), azmul_eq, g3, g4,
          g2 0 (by omega), g1 0 (by omega)]
        have := congrArg (coeff 0) s2
        rw [mul_assoc, PowerSeries.coeff_C_mul] at this
        simp only [coeff_mul_range, zero_add, Finset.sum_range_one, Nat.sub_zero] at this
        have e : coeff 0 dZ = y * (coeff 0 Z * coeff 0 dX) / coeff 0 X := by
          rw [eq_div_iff hX0]; exact this
        rw [e]; ring)
    (fun nv n s P v hv hx => by
      have : v ≠ nv := by omega
      unfold powvpReverse
      simp only
      rw [forRange_row fun k s => set_row hx]
      refine forDown_ind (P := fun _ (t : Tay × Tay) => t.1 v = P v) rfl fun j t _ ht => ?_
      simp only
      rw [add_row this, forRange_row fun k s => add_row this, ht])

end CppAD
