import Verif.Taylor.Rev
import Verif.Taylor.ModelExp
import Mathlib.Analysis.SpecialFunctions.ExpDeriv

open scoped ContDiff Topology PowerSeries

namespace CppAD

/-- closed form of the exp recurrence -/
noncomputable def expG (x z : ℕ → ℝ) (j : ℕ) : ℝ :=
  if j = 0 then Real.exp (x 0) else ksum x z 1 (j + 1) j / (j : ℝ)

theorem expForward_eq (ix p q iz : ℕ) (s : Tay) (h : ix ≠ iz) (hpq : p ≤ q) :
    expForward ix p q iz s
      = forRange p (q + 1) s (fun j s => s.set iz j (expG (s ix) (s iz) j)) := by
  rw [← forRange_peel (by omega : p < q + 1)]
  unfold expForward
  simp only [expG, if_true]
  refine forRange_congr _ fun j s h1 h2 => ?_
  have hj : 1 ≤ j := by split at h1 <;> omega
  rw [forRange_ksum _ _ _ _ h (by omega) le_rfl, if_neg (by omega)]
  simp only [Tay.set_set, Tay.set_self]
  congr 2
  rw [ksum_head (by omega : 1 < j + 1)]
  congr 1
  · simp
  · exact ksum_congr fun k h1 h2 => ⟨Tay.set_ne_row _ _ _ _ h, Tay.set_ne_ord _ _ _ _ (by omega)⟩


theorem expDir_eq (ix q r iz : ℕ) (s : Tay) (h : ix ≠ iz) (hq : 1 ≤ q) :
    expDir ix q r iz s = forRange 0 r s (fun ell s => s.set iz ((q - 1) * r + 1 + ell)
      (expG (view r ell s ix) (view r ell s iz) q)) := by
  unfold expDir
  refine forRange_congr _ fun ell s _ hl => ?_
  simp only
  rw [dir_ksum _ _ _ h le_rfl hl]
  simp only [Tay.set_set, Tay.set_self, expG, if_neg (by omega : ¬ q = 0)]
  congr 2
  rw [ksum_last hq, add_comm]
  congr 1
  · exact ksum_congr fun k h1 h2 => ⟨by simp [view_apply, Tay.set_ne_row _ _ _ _ h], by
      have := dirIdx_lt (q := q) (k := q - k) (by omega) hl
      rw [view_apply, Tay.set_ne_ord _ _ _ _ (by omega)]; rfl⟩
  · simp [view_apply, dirIdx_top hq]

theorem expG_congr {x x' z z' : ℕ → ℝ} {j : ℕ} (hx : ∀ k ≤ j, x k = x' k) (hz : ∀ k < j, z k = z' k) :
    expG x z j = expG x' z' j := by
  unfold expG
  split
  · rw [hx 0 (by omega)]
  · rw [ksum_congr fun k h1 h2 => ⟨hx k (by omega), hz _ (by omega)⟩]

theorem exp_curve {x : ℝ → ℝ} (h : UCurve 1 (fun _ => Real.exp) Set.univ x) :
    θ (T (fun t => Real.exp (x t))) = θ (T x) * T (fun t => Real.exp (x t)) := by
  have := h.theta (r := 0) (by simp)
  simp only [Real.deriv_exp] at this
  rw [this, mul_comm]

open PowerSeries in
theorem exp_rev (ix nv n : ℕ) (s P δ : Tay) {X Z dX dZ : ℝ⟦X⟧} (hix : ix < nv)
    (hs : ∀ k ≤ n, s ix k = coeff k X) (hz : ∀ k ≤ n, s nv k = coeff k Z)
    (hδ : ∀ k, δ ix k = coeff k dX) (hδz : ∀ k, δ nv k = coeff k dZ)
    (h1 : θ Z = θ X * Z) (h2 : dZ = Z * dX) :
    Phi nv (fun _ => n + 1) δ (expReverse ix n nv s P) = Phi (nv + 1) (fun _ => n + 1) δ P := by
  have h3 : θ dZ = θ dX * Z + θ X * dZ := by rw [h2, θ_mul, h1]; ring
  have lin : ∀ j : ℕ, (j : ℝ) * coeff j dZ = ∑ k ∈ Finset.Ico 1 (j + 1),
      (k : ℝ) * (coeff k dX * coeff (j - k) Z + coeff k X * coeff (j - k) dZ) := by
    intro j
    rw [← coeff_θ, h3, map_add, coeff_θ_mul, coeff_θ_mul, ← Finset.sum_add_distrib]
    exact Finset.sum_congr rfl fun k _ => by ring
  unfold expReverse
  split
  · rename_i hall
    exact rev_skip _ _ fun r hr k hk => by obtain rfl : r = 0 := by omega
                                           exact hall k hk
  · refine rev_loop' (m := 1) _ _ (fun P => P.add ix 0 (azmul (P nv 0) (s nv 0))) _
      (fun j Q hj1 hj => ?_) fun Q => ?_
    rotate_left
    · simp only [Finset.sum_range_one, add_zero]
      rw [Phi_add _ _ _ _ _ (by omega) (Act_arg hix (by omega)), azmul_eq,
        hδ, hδz, hz 0 (by omega), h2]
      simp; ring
    · simp only [Finset.sum_range_one, add_zero]
      set c := Q nv j / (j : ℝ) with hc
      rw [Ext.phi_set (v := nv) (k := j) (y := c) (P := Q) (Ext.loop (fun k => (k : ℝ) * (c * coeff (j - k) Z) * δ ix k
        + (k : ℝ) * (c * coeff k X) * δ nv (j - k)) fun k R h1 h2 hR => ?_) (Act_out le_rfl)]
      · congr 1
        simp only [hδ, hδz]
        have e : Q nv j * coeff j dZ = c * ((j : ℝ) * coeff j dZ) := by
          rw [hc]; field_simp
        rw [e, lin, Finset.mul_sum]
        exact Finset.sum_congr rfl fun k _ => by ring
      · have hc' : R nv j = c := by rw [hR nv j (Act_out le_rfl), Tay.set_self]
        simp only [azmul_eq]
        rw [Tay.add_ne_row _ _ _ _ (by omega : nv ≠ ix), hc', hz _ (by omega), hs _ (by omega)]
        exact (Ext.add _ _ (by omega) (Act_arg hix (by omega))).add_to _ (by omega)
          (Act_res le_rfl (by omega))

/-- certificate of the exp operator -/
noncomputable def expCert (ix : ℕ) : OpCert 1 [ix] (fun e _ => Real.exp (e ix))
    (fun e => e ix ∈ Set.univ) (expForward ix) (expDir ix) (expReverse ix) :=
  mkUnary1 ix Real.exp Set.univ isOpen_univ (fun _ _ => Real.contDiff_exp.contDiffAt) _ _ _ expG
    (fun _ _ _ _ _ => expG_congr)
    (fun p q iz s => expForward_eq ix p q iz s) (fun q r iz s => expDir_eq ix q r iz s)
    (fun x hc j => by
      unfold expG
      split
      · rename_i h; subst h; simp [tc_zero]
      · rename_i h
        rw [← coeff_θ_mul_T, ← exp_curve hc, coeff_θ, coeff_T]
        field_simp)
    (fun nv x dx n s P δ hix hc hd h1 h2 h3 h4 => by
      refine exp_rev ix nv n s P δ (X := T x) (Z := T (fun t => Real.exp (x t))) (dX := T dx)
        (dZ := T (fun t => deriv Real.exp (x t) * dx t)) hix ?_ ?_ ?_ ?_ (exp_curve hc) ?_
      · simpa using h1
      · simpa using h2
      · simpa using h3
      · simpa using h4
      · rw [hc.delta (r := 0) one_pos hd]; simp)
    (fun nv n s P v hv hx => by
      have : v ≠ nv := by omega
      unfold expReverse
      split
      · rfl
      · simp (maxDischargeDepth := 6) [add_row, set_row, forDown_row, forRange_row, hx, this])

end CppAD
