import Verif.Taylor.Tan
import Mathlib.Analysis.SpecialFunctions.Trigonometric.InverseDeriv
import Mathlib.Analysis.SpecialFunctions.Log.Deriv
import Mathlib.Analysis.SpecialFunctions.Sqrt

/-! # Certificates of atan, atanh, asin, acos, asinh, acosh -/

open scoped ContDiff Topology PowerSeries
open PowerSeries (coeff)

namespace CppAD

theorem dir_csumI {r q ell : ℕ} (s : Tay) (a b : ℕ) :
    ∑ k ∈ Finset.Ico 1 q, s a ((k - 1) * r + 1 + ell) * s b ((q - k - 1) * r + 1 + ell)
      = csumI (view r ell s a) (view r ell s b) q :=
  Finset.sum_congr rfl fun k hk => by
    rw [Finset.mem_Ico] at hk
    rw [dirIdx_a hk.1, dirIdx_b hk.2]; rfl

theorem dir_ksumI {r q ell : ℕ} (s : Tay) (a b : ℕ) :
    ∑ k ∈ Finset.Ico 1 q, (k : ℝ) * s a ((k - 1) * r + 1 + ell) * s b ((q - k - 1) * r + 1 + ell)
      = ksum (view r ell s a) (view r ell s b) 1 q q :=
  Finset.sum_congr rfl fun k hk => by
    rw [Finset.mem_Ico] at hk
    rw [dirIdx_a hk.1, dirIdx_b hk.2]; rfl

/-! ## atan, atanh -/

noncomputable def atanGa (sg : ℝ) (x : ℕ → ℝ) (_ : ℕ → ℕ → ℝ) (j : ℕ) : ℝ :=
  if j = 0 then 1 + sg * (x 0 * x 0) else sg * (2 * x 0 * x j) + sg * csumI x x j

/-- recurrence of `z` when `b z' = sz x'` -/
noncomputable def quotG (f : ℝ → ℝ) (sz : ℝ) (x : ℕ → ℝ) (z : ℕ → ℕ → ℝ) (_ : ℝ) (j : ℕ) : ℝ :=
  if j = 0 then f (x 0) else (sz * x j - ksum (z 1) (z 0) 1 j j / (j : ℝ)) / z 0 0

theorem atanGa_congr {sg : ℝ} {x x' : ℕ → ℝ} {z z' : ℕ → ℕ → ℝ} {j : ℕ} (hx : ∀ k ≤ j, x k = x' k) :
    atanGa sg x z j = atanGa sg x' z' j := by
  unfold atanGa
  rw [hx 0 (by omega), hx j le_rfl, csumI_congr (fun k hk => hx k (by omega)) (fun k hk => hx k (by omega))]

theorem quotG_congr {f : ℝ → ℝ} {sz u : ℝ} {x x' : ℕ → ℝ} {z z' : ℕ → ℕ → ℝ} {j : ℕ}
    (hx : ∀ k ≤ j, x k = x' k) (hz : ∀ r < 2, ∀ k < j, z r k = z' r k) :
    quotG f sz x z u j = quotG f sz x' z' u j := by
  unfold quotG
  split
  · rw [hx 0 (by omega)]
  · rw [ksum_congr fun k h1 h2 => ⟨hz 1 (by omega) k (by omega), hz 0 (by omega) _ (by omega)⟩, hx j le_rfl,
      hz 0 (by omega) 0 (by omega)]

theorem atanForward_eq (f : ℝ → ℝ) (sg : ℝ) (ix p q nv : ℕ) (s : Tay) (hx : ix < nv) (hpq : p ≤ q) :
    atanForwardG f sg ix p q (nv + 1) s
      = forRange p (q + 1) s (fun j s => s.set2 (nv + 0) (nv + 1) j
          (atanGa sg (s ix) (fun r => s (nv + r)) j)
          (quotG f 1 (s ix) (fun r => s (nv + r)) (atanGa sg (s ix) (fun r => s (nv + r)) j) j)) := by
  have hn : nv ≠ nv + 1 := by omega
  rw [← forRange_peel (by omega : p < q + 1)]
  simp only [atanForwardG, Nat.add_sub_cancel, atanGa, quotG, if_true, add_zero,
    Tay.set_ne_row _ _ _ _ (by omega : ix ≠ nv + 1)]
  rw [Tay.set_set2 hn.symm, Tay.set2_swap hn]
  refine forRange_congr _ fun j s h1 h2 => ?_
  have hj : j ≠ 0 := by split at h1 <;> omega
  rw [Tay.set_set2 (s := s) hn, forRange_accum2 s hn _ _ (fun k s => sg * (s ix k * s ix (j - k)))
    (fun k s => -((k : ℝ) * s (nv + 1) k * s nv (j - k)))
    (fun k u v h1 h2 => by
      simp only [Tay.set2_row hn (by omega : ix ≠ nv) (by omega)])
    (fun k u v h1 h2 => by
      simp only [Tay.set2_ord hn (by omega : j - k ≠ j), Tay.set2_ord hn (by omega : k ≠ j)]),
    ← Finset.mul_sum, Finset.sum_neg_distrib]
  simp only [Tay.set2_b hn, Tay.set2_set_b hn, Tay.set2_add_b hn, Tay.set2_row hn (by omega : ix ≠ nv)
    (by omega : ix ≠ nv + 1), Tay.set2_ord hn (by omega : 0 ≠ j), if_neg hj]
  congr 2
  change (0 + -ksum (s (nv + 1)) (s nv) 1 j j) / (j : ℝ) + s ix j = _
  ring

theorem atanDir_eq (f : ℝ → ℝ) (sg : ℝ) (ix q r nv : ℕ) (s : Tay) (hx : ix < nv) (hq : 1 ≤ q) :
    atanDirG sg ix q r (nv + 1) s
      = forRange 0 r s (fun ell s => s.set2 (nv + 0) (nv + 1) ((q - 1) * r + 1 + ell)
          (atanGa sg (view r ell s ix) (fun i => view r ell s (nv + i)) q)
          (quotG f 1 (view r ell s ix) (fun i => view r ell s (nv + i))
            (atanGa sg (view r ell s ix) (fun i => view r ell s (nv + i)) q) q)) := by
  have hn : nv ≠ nv + 1 := by omega
  have hq0 : (q : ℝ) ≠ 0 := by positivity
  refine forRange_congr _ fun ell s _ hl => ?_
  simp only [Nat.add_sub_cancel, add_zero]
  rw [Tay.set_ne_row _ _ _ _ (by omega : ix ≠ nv), Tay.set_set2 (s := s) hn,
    forRange_accum2 s hn _ _ (fun k s => sg * (s ix ((k - 1) * r + 1 + ell) * s ix ((q - k - 1) * r + 1 + ell)))
    (fun k s => -((k : ℝ) * s (nv + 1) ((k - 1) * r + 1 + ell) * s nv ((q - k - 1) * r + 1 + ell)))
    (fun k u v h1 h2 => by
      simp only [Tay.set2_row hn (by omega : ix ≠ nv) (by omega)])
    (fun k u v h1 h2 => by
      have i1 := dirIdx_lt (q := q) (k := q - k) (by omega) hl
      have i2 := dirIdx_lt (q := q) (k := k) (by omega) hl
      rw [← dirIdx_b h2] at i1
      rw [← dirIdx_a h1] at i2
      simp only [Tay.set2_ord hn (by omega : (q - k - 1) * r + 1 + ell ≠ (q - 1) * r + 1 + ell),
        Tay.set2_ord hn (by omega : (k - 1) * r + 1 + ell ≠ (q - 1) * r + 1 + ell)]),
    ← Finset.mul_sum, Finset.sum_neg_distrib, dir_csumI, dir_ksumI]
  simp only [Tay.set2_b hn, Tay.set2_set_b hn,
    Tay.set2_ord hn (by omega : 0 ≠ (q - 1) * r + 1 + ell)]
  have hq1 : q ≠ 0 := by omega
  simp only [atanGa, quotG, if_neg hq1, view_apply _ _ _ ix, dirIdx_top hq, dirIdx_zero, add_zero,
    view_apply _ _ _ nv 0]
  congr 1
  · ring
  · rw [← div_div]
    congr 1
    generalize ksum _ _ 1 q q = K
    field_simp
    ring

/-- linearization of `b z' = sz x'` -/
theorem quot_lin {B Z dB dX dZ : ℝ⟦X⟧} {sz : ℝ} (h : sz • θ dX = θ dZ * B + θ Z * dB) (j : ℕ) (hj : 1 ≤ j) :
    (j : ℝ) * (coeff 0 B * coeff j dZ) = sz * (j * coeff j dX) - j * (coeff j Z * coeff 0 dB)
      - ∑ k ∈ Finset.Ico 1 j, (k : ℝ) * (coeff k dZ * coeff (j - k) B + coeff k Z * coeff (j - k) dB) := by
  have := congrArg (coeff j) h
  rw [PowerSeries.coeff_smul, map_add, coeff_θ_mul, coeff_θ_mul, coeff_θ, Finset.sum_Ico_succ_top hj,
      Finset.sum_Ico_succ_top hj, Nat.sub_self, smul_eq_mul] at this
  have e : ∑ k ∈ Finset.Ico 1 j, (k : ℝ) * (coeff k dZ * coeff (j - k) B + coeff k Z * coeff (j - k) dB)
      = ∑ k ∈ Finset.Ico 1 j, (k : ℝ) * coeff k dZ * coeff (j - k) B
        + ∑ k ∈ Finset.Ico 1 j, (k : ℝ) * coeff k Z * coeff (j - k) dB := by
    rw [← Finset.sum_add_distrib]
    exact Finset.sum_congr rfl fun k hk => by ring
  rw [e]; linarith

theorem atan_rev (sg : ℝ) (ix nv n : ℕ) (s P δ : Tay) {X B Z dX dB dZ : ℝ⟦X⟧} (hix : ix < nv)
    (hs : ∀ k ≤ n, s ix k = coeff k X) (hB : ∀ k ≤ n, s nv k = coeff k B)
    (hZ : ∀ k ≤ n, s (nv + 1) k = coeff k Z)
    (hδ : ∀ k, δ ix k = coeff k dX) (hδB : ∀ k, δ nv k = coeff k dB) (hδZ : ∀ k, δ (nv + 1) k = coeff k dZ)
    (hb0 : coeff 0 B ≠ 0)
    (h1 : B * θ Z = θ X) (h2 : B * dZ = dX) (h3 : dB = sg • (2 * (X * dX))) (h4 : θ B = sg • (2 * (X * θ X))) :
    Phi nv (fun _ => n + 1) δ (atanReverseG sg ix n (nv + 1) s P) = Phi (nv + 2) (fun _ => n + 1) δ P := by
  have hθ : (1 : ℝ) • θ dX = θ dZ * B + θ Z * dB := by
    rw [one_smul]; nth_rw 1 [← h2]
    rw [θ_mul, h4, h3, ← h1, ← h2]
    simp only [PowerSeries.smul_eq_C_mul]; ring
  have linB : ∀ j : ℕ, 1 ≤ j → coeff j dB = sg * (2 * (coeff 0 X * coeff j dX + coeff j X * coeff 0 dX
      + ∑ k ∈ Finset.Ico 1 j, coeff k dX * coeff (j - k) X)) := by
    intro j hj
    rw [h3, PowerSeries.coeff_smul, two_mul, map_add, ← two_mul, mul_comm X, coeff_mul_ends _ _ hj, smul_eq_mul]
    unfold csumI; ring
  simp only [atanReverseG, Nat.add_sub_cancel]
  rw [hB 0 (by omega)]
  set b0 := coeff 0 B with hb
  refine rev_loop' (m := 2) _ _ (fun P => P.add ix 0 (azmul (P (nv + 1) 0) (1 / b0)
    + sg * (2 * azmul (P nv 0) (s ix 0)))) _ (fun j Q hj1 hj => ?_) fun Q => ?_
  rotate_left
  · rw [Finset.sum_range_succ, Finset.sum_range_one, add_zero,
      Phi_add _ _ _ _ _ (by omega) (Act_arg hix (by omega))]
    simp only [azmul_eq]
    rw [hδ, hδB, hδZ, hs 0 (by omega), h3, ← h2, PowerSeries.coeff_smul, two_mul (X * _), map_add, smul_eq_mul]
    have : ∀ F G : ℝ⟦X⟧, coeff 0 (F * G) = coeff 0 F * coeff 0 G := fun F G => by simp
    simp only [this, ← hb]
    field_simp; ring
  · rw [Finset.sum_range_succ, Finset.sum_range_one, add_zero]
    have hj' : (j : ℝ) ≠ 0 := by positivity
    simp only [Tay.set_self, Tay.set_ne_row _ _ _ _ (by omega : nv ≠ nv + 1),
      Tay.set_ne_row _ _ _ _ (by omega : nv + 1 ≠ nv),
      Tay.add_ne_row _ _ _ _ (by omega : nv + 1 ≠ ix), Tay.add_ne_row _ _ _ _ (by omega : nv ≠ ix),
      Tay.add_ne_row _ _ _ _ (by omega : nv + 1 ≠ nv), Tay.add_ne_row _ _ _ _ (by omega : nv ≠ nv + 1),
      Tay.add_ne_ord _ _ _ _ (by omega : j ≠ 0)]
    set c := azmul (Q (nv + 1) j) (1 / b0) with hc
    rw [azmul_eq] at hc
    set d := Q nv j * 2 with hd
    set R0 := ((((Q.set (nv + 1) j c).set nv j d).add nv 0 (-azmul c (s (nv + 1) j))).add ix j
      (c + sg * azmul d (s ix 0))).add ix 0 (sg * azmul d (s ix j)) with hR0
    have key := Ext.loop (N := nv + 2) (A := Act nv n j) (δ := δ) (lo := 1) (hi := j)
      (P := R0.set (nv + 1) j (c / j))
      (body := fun k P => ((P.add nv (j - k) (-((k : ℝ) * azmul (P (nv + 1) j) (s (nv + 1) k)))).add (nv + 1) k
        (-((k : ℝ) * azmul ((P.add nv (j - k) (-((k : ℝ) * azmul (P (nv + 1) j) (s (nv + 1) k)))) (nv + 1) j)
          (s nv (j - k))))).add ix k
        (sg * azmul (((P.add nv (j - k) (-((k : ℝ) * azmul (P (nv + 1) j) (s (nv + 1) k)))).add (nv + 1) k
        (-((k : ℝ) * azmul ((P.add nv (j - k) (-((k : ℝ) * azmul (P (nv + 1) j) (s (nv + 1) k)))) (nv + 1) j)
          (s nv (j - k))))) nv j) (s ix (j - k))))
      (fun k => (-((k : ℝ) * (c / j * coeff k Z))) * δ nv (j - k)
        + (-((k : ℝ) * (c / j * coeff (j - k) B))) * δ (nv + 1) k
        + (sg * (d * coeff (j - k) X)) * δ ix k) (fun k R h1 h2 hR => by
        have hR1 : R (nv + 1) j = c / j := by rw [hR _ _ (Act_out (by omega)), Tay.set_self]
        have hR2 : R nv j = d := by
          rw [hR _ _ (Act_out (by omega)), Tay.set_ne_row _ _ _ _ (by omega), hR0,
            Tay.add_ne_row _ _ _ _ (by omega), Tay.add_ne_row _ _ _ _ (by omega),
            Tay.add_ne_ord _ _ _ _ (by omega), Tay.set_self]
        simp only [azmul_eq, Tay.add_ne_row _ _ _ _ (by omega : nv ≠ nv + 1),
          Tay.add_ne_row _ _ _ _ (by omega : nv + 1 ≠ nv), Tay.add_ne_ord _ _ _ _ (by omega : j ≠ j - k), hR1,
          hR2]
        rw [hB _ (by omega), hs _ (by omega), hZ _ (by omega)]
        exact ((Ext.add _ _ (by omega) (Act_res (by omega) (by omega))).add_to _ (by omega)
          (Act_res (by omega) (by omega))).add_to _ (by omega) (Act_arg hix (by omega)))
    simp only [Tay.add_ne_row _ _ _ _ (by omega : nv ≠ nv + 1),
          Tay.add_ne_row _ _ _ _ (by omega : nv + 1 ≠ nv)] at key
    rw [Ext.phi_set key (Act_out (by omega)), hR0,
        Phi_add _ _ _ _ _ (by omega) (Act_arg hix (by omega)),
        Phi_add _ _ _ _ _ (by omega) (Act_arg hix (by omega)),
        Phi_add _ _ _ _ _ (by omega) (Act_res (by omega) (by omega)),
        Phi_set_out _ _ _ _ _ (Act_out (by omega)), Phi_set_out _ _ _ _ _ (Act_out (by omega)),
        add_assoc, add_assoc, add_assoc]
    congr 1
    simp only [hδ, hδB, hδZ, azmul_eq]
    rw [hZ j hj, hs j hj, hs 0 (by omega)]
    have e : Q (nv + 1) j * coeff j dZ = c / j * (j * (b0 * coeff j dZ)) := by
      rw [hc]; field_simp
    have e' : Q nv j * coeff j dB = d / 2 * coeff j dB := by rw [hd]; ring
    rw [e, e', hb, quot_lin hθ j hj1, linB j hj1]
    have es : ∑ k ∈ Finset.Ico 1 j, ((-((k : ℝ) * (c / j * coeff k Z))) * coeff (j - k) dB
        + (-((k : ℝ) * (c / j * coeff (j - k) B))) * coeff k dZ
        + (sg * (d * coeff (j - k) X)) * coeff k dX)
      = -(c / j) * ∑ k ∈ Finset.Ico 1 j, (k : ℝ) * (coeff k dZ * coeff (j - k) B + coeff k Z * coeff (j - k) dB)
        + sg * d * ∑ k ∈ Finset.Ico 1 j, coeff k dX * coeff (j - k) X := by
      rw [Finset.mul_sum, Finset.mul_sum, ← Finset.sum_add_distrib]
      exact Finset.sum_congr rfl fun k _ => by ring
    rw [es]
    field_simp
    ring

/-- coefficients of `z` satisfy `quotG` when `b z' = sz x'` -/
theorem quot_coeff {f g : ℝ → ℝ} {sz : ℝ} {x : ℝ → ℝ} {z : ℕ → ℕ → ℝ} {u : ℝ} {j : ℕ} (hj : j ≠ 0)
    (h0 : z 0 = tc (fun t => g (x t))) (h1 : z 1 = tc (fun t => f (x t))) (hb0 : g (x 0) ≠ 0)
    (h : T (fun t => g (x t)) * θ (T (fun t => f (x t))) = sz • θ (T x)) :
    tc (fun t => f (x t)) j = quotG f sz (tc x) z u j := by
  unfold quotG
  have := congrArg (coeff j) h
  rw [mul_comm, coeff_θ_mul_T, ksum_last (by omega), Nat.sub_self, PowerSeries.coeff_smul, coeff_θ, coeff_T,
    smul_eq_mul] at this
  rw [if_neg hj, h0, h1]
  have hj' : (j : ℝ) ≠ 0 := by positivity
  have hb : tc (fun t => g (x t)) 0 ≠ 0 := by rw [tc_zero]; exact hb0
  generalize ksum _ _ 1 j j = K at *
  field_simp
  linarith

noncomputable def atanCertG (ix : ℕ) (f : ℝ → ℝ) (sg : ℝ) (D : Set ℝ) (hD : IsOpen D)
    (hf : ∀ y ∈ D, ContDiffAt ℝ ∞ f y) (hb : ∀ y ∈ D, 1 + sg * (y * y) ≠ 0)
    (df : ∀ y ∈ D, (1 + sg * (y * y)) * deriv f y = 1) :
    OpCert 2 [ix] (fun e r => (if r = 0 then fun y => 1 + sg * (y * y) else f) (e ix)) (fun e => e ix ∈ D)
      (atanForwardG f sg ix) (atanDirG sg ix) (atanReverseG sg ix) :=
  have hsm : ∀ r < 2, ∀ y ∈ D, ContDiffAt ℝ ∞ ((fun r => if r = 0 then fun y => 1 + sg * (y * y) else f) r) y :=
    fun r _ y hy => by
      simp only
      split
      · exact contDiffAt_const.add (contDiffAt_const.mul (contDiffAt_id.mul contDiffAt_id))
      · exact hf y hy
  have key : ∀ x, UCurve 2 (fun r => if r = 0 then fun y => 1 + sg * (y * y) else f) D x →
      T (fun t => 1 + sg * (x t * x t)) * T (fun t => deriv f (x t)) = 1 := fun x hx => by
    have s0 : Sm (fun t => 1 + sg * (x t * x t)) := hx.sz (r := 0) (by omega)
    have s1 : Sm (fun t => deriv f (x t)) := hx.sg (r := 1) (by omega)
    rw [← T_mul s0 s1, ← T_one]
    exact T_congr (hx.ev.mono fun t ht => df _ ht)
  have d0 : ∀ y, deriv (fun y => 1 + sg * (y * y)) y = sg * (2 * y) := fun y => by
    have h := ((hasDerivAt_id y).fun_mul (hasDerivAt_id y)).const_mul sg |>.const_add 1
    have := h.deriv
    simp only [id] at this
    rw [this]; ring
  have kb : ∀ x, Sm x → T (fun t => deriv (fun y => 1 + sg * (y * y)) (x t)) = sg • (2 * T x) := fun x hx => by
    simp only [d0]
    rw [T_mul contDiffAt_const (contDiffAt_const.mul hx), T_mul contDiffAt_const hx, T_const,
      PowerSeries.smul_eq_C_mul, T_const]
    rfl
  mkUnary2 ix 0 1 rfl (fun r => if r = 0 then fun y => 1 + sg * (y * y) else f) D hD hsm _ _ _
    (atanGa sg) (quotG f 1)
    (fun _ _ _ _ _ h _ => atanGa_congr h) (fun _ _ _ _ _ _ => quotG_congr)
    (fun nv p q s hix hpq => atanForward_eq f sg ix p q nv s hix hpq)
    (fun nv q r s hix hq => atanDir_eq f sg ix q r nv s hix hq)
    (fun x hx j => by
      have tz := hx.theta (r := 1) (by omega)
      simp only [one_ne_zero, if_false, if_true] at tz ⊢
      refine ⟨?_, ?_⟩
      · unfold atanGa
        by_cases hj : j = 0
        · subst hj; simp [tc_zero]
        · rw [if_neg hj, ← coeff_T, T_add contDiffAt_const (contDiffAt_const.mul (hx.sx.mul hx.sx)), T_one,
            T_mul contDiffAt_const (hx.sx.mul hx.sx), T_const, map_add,
            PowerSeries.coeff_one, if_neg hj,
            PowerSeries.coeff_C_mul, T_mul hx.sx hx.sx, coeff_mul_ends _ _ (by omega)]
          simp only [coeff_T]; ring
      · by_cases hj : j = 0
        · subst hj; simp [tc_zero, quotG]
        · refine quot_coeff (g := fun y => 1 + sg * (y * y)) hj (by simp) (by simp) (hb _ hx.h0) ?_
          rw [tz, ← mul_assoc, key x hx, one_mul, one_smul])
    (fun nv x dx n s P δ hix hx hd h1 h2 h3 h4 h5 h6 h7 => by
      have dz := hx.delta (r := 1) (by omega) hd
      have tz := hx.theta (r := 1) (by omega)
      have db := hx.delta (r := 0) (by omega) hd
      have tb := hx.theta (r := 0) (by omega)
      simp only [one_ne_zero, if_false, if_true] at *
      refine atan_rev sg ix nv n s P δ (X := T x) (B := T (fun t => 1 + sg * (x t * x t)))
        (Z := T (fun t => f (x t))) (dX := T dx)
        (dB := T (fun t => deriv (fun y => 1 + sg * (y * y)) (x t) * dx t))
        (dZ := T (fun t => deriv f (x t) * dx t)) hix
        (by simpa using h1) (by simpa using h2) (by simpa using h3) (by simpa using h4) (by simpa using h5)
        (by simpa using h6) ?_ ?_ ?_ ?_ ?_
      · rw [coeff_T, tc_zero]; exact hb _ hx.h0
      · rw [tz, ← mul_assoc, key x hx, one_mul]
      · rw [dz, ← mul_assoc, key x hx, one_mul]
      · rw [db, kb x hx.sx, Algebra.smul_mul_assoc, mul_assoc]
      · rw [tb, kb x hx.sx, Algebra.smul_mul_assoc, mul_assoc])
    (fun nv n s P v hv hne => by
      have a1 : v ≠ nv := by omega
      have a2 : v ≠ nv + 1 := by omega
      unfold atanReverseG
      simp (maxDischargeDepth := 8) [add_row, set_row, forDown_row, forRange_row, hne, a1, a2])

noncomputable def atanCert (ix : ℕ) : OpCert 2 [ix]
    (fun e r => (if r = 0 then fun y => 1 + 1 * (y * y) else Real.arctan) (e ix))
    (fun e => e ix ∈ Set.univ) (atanForward ix) (atanDir ix) (atanReverse ix) :=
  atanCertG ix Real.arctan 1 Set.univ isOpen_univ (fun _ _ => Real.contDiff_arctan.contDiffAt)
    (fun y _ => by nlinarith [mul_self_nonneg y])
    (fun y _ => by
      have : 1 + y * y ≠ 0 := by nlinarith [mul_self_nonneg y]
      rw [Real.deriv_arctan]; field_simp)

noncomputable def atanhCert (ix : ℕ) : OpCert 2 [ix]
    (fun e r => (if r = 0 then fun y => 1 + -1 * (y * y) else Real.artanh) (e ix))
    (fun e => e ix ∈ Set.Ioo (-1 : ℝ) 1) (atanhForward ix) (atanhDir ix) (atanhReverse ix) :=
  have hev : ∀ y ∈ Set.Ioo (-1 : ℝ) 1, Real.artanh =ᶠ[𝓝 y] fun x => 1 / 2 * (Real.log (1 + x) - Real.log (1 - x)) :=
    fun y hy => by
      filter_upwards [isOpen_Ioo.mem_nhds hy] with x hx
      have h1 : 1 + x ≠ 0 := by linarith [hx.1]
      have h2 : 1 - x ≠ 0 := by linarith [hx.2]
      rw [Real.artanh_eq_half_log ⟨hx.1.le, hx.2.le⟩, Real.log_div h1 h2]
  have hd : ∀ y ∈ Set.Ioo (-1 : ℝ) 1, 1 + y ≠ 0 ∧ 1 - y ≠ 0 := fun y hy =>
    ⟨by linarith [hy.1], by linarith [hy.2]⟩
  atanCertG ix Real.artanh (-1) (Set.Ioo (-1) 1) isOpen_Ioo
    (fun y hy => by
      refine ContDiffAt.congr_of_eventuallyEq ?_ (hev y hy)
      exact contDiffAt_const.mul (((contDiffAt_const.add contDiffAt_id).log (hd y hy).1).sub
        ((contDiffAt_const.sub contDiffAt_id).log (hd y hy).2)))
    (fun y hy => by nlinarith [hy.1, hy.2])
    (fun y hy => by
      have h := ((((hasDerivAt_id y).const_add 1).log (hd y hy).1).fun_sub
        (((hasDerivAt_id y).const_sub 1).log (hd y hy).2)).const_mul (1 / 2)
      have h1 := (hd y hy).1
      have h2 := (hd y hy).2
      rw [(hev y hy).deriv_eq]
      simp only [id] at h
      rw [h.deriv]
      field_simp
      ring)

/-! ## asin, acos, asinh, acosh -/

noncomputable def asinGa (u0 : ℝ → ℝ) (su : ℝ) (x : ℕ → ℝ) (z : ℕ → ℕ → ℝ) (j : ℕ) : ℝ :=
  if j = 0 then Real.sqrt (u0 (x 0)) else
    (su * (2 * x 0 * x j + csumI x x j) / 2 - ksum (z 0) (z 0) 1 j j / (j : ℝ)) / z 0 0

theorem asinGa_congr {u0 : ℝ → ℝ} {su : ℝ} {x x' : ℕ → ℝ} {z z' : ℕ → ℕ → ℝ} {j : ℕ}
    (hx : ∀ k ≤ j, x k = x' k) (hz : ∀ r < 2, ∀ k < j, z r k = z' r k) :
    asinGa u0 su x z j = asinGa u0 su x' z' j := by
  unfold asinGa
  rw [hx 0 (by omega), hx j le_rfl, csumI_congr (fun k hk => hx k (by omega)) (fun k hk => hx k (by omega))]
  split
  · rfl
  · rw [ksum_congr fun k h1 h2 => ⟨hz 0 (by omega) k (by omega), hz 0 (by omega) _ (by omega)⟩,
      hz 0 (by omega) 0 (by omega)]

theorem forRange_sum {lo hi : ℕ} (h : lo ≤ hi) (u : ℝ) (g : ℕ → ℝ) :
    forRange lo hi u (fun k u => u + g k) = u + ∑ k ∈ Finset.Ico lo hi, g k := by
  refine forRange_ind (P := fun m t => t = u + ∑ k ∈ Finset.Ico lo m, g k) h (by simp) ?_
  intro k t h1 h2 ht
  rw [ht, Finset.sum_Ico_succ_top h1, add_assoc]

theorem asinForward_eq (f u0 : ℝ → ℝ) (su sz : ℝ) (ix p q nv : ℕ) (s : Tay) (hx : ix < nv) (hpq : p ≤ q) :
    asinForwardG f u0 su sz ix p q (nv + 1) s
      = forRange p (q + 1) s (fun j s => s.set2 (nv + 0) (nv + 1) j
          (asinGa u0 su (s ix) (fun r => s (nv + r)) j)
          (quotG f sz (s ix) (fun r => s (nv + r)) (asinGa u0 su (s ix) (fun r => s (nv + r)) j) j)) := by
  have hn : nv ≠ nv + 1 := by omega
  rw [← forRange_peel (by omega : p < q + 1)]
  simp only [asinForwardG, Nat.add_sub_cancel, asinGa, quotG, if_true, add_zero,
    Tay.set_ne_row _ _ _ _ (by omega : ix ≠ nv + 1)]
  rw [Tay.set_set2 hn.symm, Tay.set2_swap hn]
  refine forRange_congr _ fun j s h1 h2 => ?_
  have hj : j ≠ 0 := by split at h1 <;> omega
  rw [Tay.set_set2 (s := s) hn, forRange_accum2 s hn _ _ (fun k s => -((k : ℝ) * s nv k * s nv (j - k)))
    (fun k s => -((k : ℝ) * s (nv + 1) k * s nv (j - k)))
    (fun k u v h1 h2 => by
      simp only [Tay.set2_ord hn (by omega : j - k ≠ j), Tay.set2_ord hn (by omega : k ≠ j)])
    (fun k u v h1 h2 => by
      simp only [Tay.set2_ord hn (by omega : j - k ≠ j), Tay.set2_ord hn (by omega : k ≠ j)]),
    Finset.sum_neg_distrib, Finset.sum_neg_distrib, forRange_sum (by omega), ← Finset.mul_sum]
  simp only [Tay.set2_a hn, Tay.set2_set_a hn, Tay.set2_add_a hn, Tay.set2_b hn, Tay.set2_set_b hn,
    Tay.set2_add_b hn, Tay.set2_row hn (by omega : ix ≠ nv)
    (by omega : ix ≠ nv + 1), Tay.set2_ord hn (by omega : 0 ≠ j), if_neg hj]
  rw [Finset.sum_Ico_succ_top (by omega), Finset.sum_eq_sum_Ico_succ_bot (a := 0) (by omega), Nat.sub_self,
    Nat.sub_zero]
  congr 2
  · change (0 + -ksum (s nv) (s nv) 1 j j) / (j : ℝ)
      + (0 + su * (s ix 0 * s ix j + csumI (s ix) (s ix) j + s ix j * s ix 0)) / 2 = _
    ring
  · change (0 + -ksum (s (nv + 1)) (s nv) 1 j j) / (j : ℝ) + sz * s ix j = _
    ring

theorem asinDir_eq (f u0 : ℝ → ℝ) (su sz : ℝ) (ix q r nv : ℕ) (s : Tay) (hx : ix < nv) (hq : 1 ≤ q) :
    asinDirG su sz ix q r (nv + 1) s
      = forRange 0 r s (fun ell s => s.set2 (nv + 0) (nv + 1) ((q - 1) * r + 1 + ell)
          (asinGa u0 su (view r ell s ix) (fun i => view r ell s (nv + i)) q)
          (quotG f sz (view r ell s ix) (fun i => view r ell s (nv + i))
            (asinGa u0 su (view r ell s ix) (fun i => view r ell s (nv + i)) q) q)) := by
  have hn : nv ≠ nv + 1 := by omega
  have hq0 : (q : ℝ) ≠ 0 := by positivity
  refine forRange_congr _ fun ell s _ hl => ?_
  simp only [Nat.add_sub_cancel, add_zero]
  have frame : ∀ (c k : ℕ) (u v : ℝ), 1 ≤ k → k < q →
      s.set2 nv (nv + 1) ((q - 1) * r + 1 + ell) u v c ((q - k - 1) * r + 1 + ell)
        = s c ((q - k - 1) * r + 1 + ell) ∧
      s.set2 nv (nv + 1) ((q - 1) * r + 1 + ell) u v c ((k - 1) * r + 1 + ell)
        = s c ((k - 1) * r + 1 + ell) := fun c k u v h1 h2 => by
    have i1 := dirIdx_lt (q := q) (k := q - k) (by omega) hl
    have i2 := dirIdx_lt (q := q) (k := k) (by omega) hl
    rw [← dirIdx_b h2] at i1
    rw [← dirIdx_a h1] at i2
    exact ⟨Tay.set2_ord hn (by omega), Tay.set2_ord hn (by omega)⟩
  rw [Tay.set_set2 (s := s) hn, forRange_sum hq, ← Finset.mul_sum, dir_csumI,
    forRange_accum2 s hn _ _ (fun k s => (k : ℝ) * s nv ((k - 1) * r + 1 + ell) * s nv ((q - k - 1) * r + 1 + ell))
    (fun k s => (k : ℝ) * s (nv + 1) ((k - 1) * r + 1 + ell) * s nv ((q - k - 1) * r + 1 + ell))
    (fun k u v h1 h2 => by
      rw [(frame nv k u v h1 h2).1, (frame nv k u v h1 h2).2])
    (fun k u v h1 h2 => by
      rw [(frame nv k u v h1 h2).1, (frame (nv + 1) k u v h1 h2).2]), dir_ksumI, dir_ksumI]
  simp only [Tay.set2_a hn, Tay.set2_set_a hn, Tay.set2_b hn, Tay.set2_set_b hn,
    Tay.set2_ord hn (by omega : 0 ≠ (q - 1) * r + 1 + ell), Tay.set2_row hn (by omega : ix ≠ nv)
    (by omega : ix ≠ nv + 1)]
  have hq1 : q ≠ 0 := by omega
  simp only [asinGa, quotG, if_neg hq1, view_apply _ _ _ ix, dirIdx_top hq, dirIdx_zero, add_zero,
    view_apply _ _ _ nv 0]
  congr 2
  · ring
  · ring

theorem asin_rev (su sz : ℝ) (ix nv n : ℕ) (s P δ : Tay) {X B Z dX dB dZ : ℝ⟦X⟧} (hix : ix < nv)
    (hs : ∀ k ≤ n, s ix k = coeff k X) (hB : ∀ k ≤ n, s nv k = coeff k B)
    (hZ : ∀ k ≤ n, s (nv + 1) k = coeff k Z)
    (hδ : ∀ k, δ ix k = coeff k dX) (hδB : ∀ k, δ nv k = coeff k dB) (hδZ : ∀ k, δ (nv + 1) k = coeff k dZ)
    (hb0 : coeff 0 B ≠ 0)
    (h1 : B * θ Z = sz • θ X) (h2 : B * dZ = sz • dX) (h3 : B * dB = su • (X * dX))
    (h4 : B * θ B = su • (X * θ X)) :
    Phi nv (fun _ => n + 1) δ (asinReverseG su sz ix n (nv + 1) s P) = Phi (nv + 2) (fun _ => n + 1) δ P := by
  have hB0 : B ≠ 0 := by rintro rfl; simp at hb0
  have hsm : ∀ F : ℝ⟦X⟧, θ (sz • F) = sz • θ F := fun F => by
    ext k; simp only [coeff_θ, PowerSeries.coeff_smul, smul_eq_mul]; ring
  have hθ : sz • θ dX = θ dZ * B + θ Z * dB := by
    rw [← hsm, ← h2, θ_mul]
    have : θ B * dZ = θ Z * dB := by
      refine mul_left_cancel₀ hB0 (mul_left_cancel₀ hB0 ?_)
      have e1 : B * (B * (θ B * dZ)) = (B * θ B) * (B * dZ) := by ring
      have e2 : B * (B * (θ Z * dB)) = (B * θ Z) * (B * dB) := by ring
      rw [e1, e2, h1, h2, h3, h4]
      simp only [PowerSeries.smul_eq_C_mul]; ring
    rw [this]; ring
  have linB : ∀ j : ℕ, 1 ≤ j → coeff 0 B * coeff j dB = su * (coeff 0 X * coeff j dX + coeff j X * coeff 0 dX
      + ∑ k ∈ Finset.Ico 1 j, coeff k dX * coeff (j - k) X) - coeff j B * coeff 0 dB
      - ∑ k ∈ Finset.Ico 1 j, coeff k B * coeff (j - k) dB := by
    intro j hj
    have := congrArg (coeff j) h3
    rw [PowerSeries.coeff_smul, mul_comm X, coeff_mul_ends _ _ hj, coeff_mul_ends _ _ hj, smul_eq_mul] at this
    unfold csumI at this; linarith
  simp only [asinReverseG, Nat.add_sub_cancel]
  rw [hB 0 (by omega)]
  set b0 := coeff 0 B with hb
  refine rev_loop' (m := 2) _ _ (fun P => P.add ix 0 (azmul (sz * P (nv + 1) 0 + su * azmul (P nv 0) (s ix 0))
    (1 / b0))) _ (fun j Q hj1 hj => ?_) fun Q => ?_
  rotate_left
  · rw [Finset.sum_range_succ, Finset.sum_range_one, add_zero,
      Phi_add _ _ _ _ _ (by omega) (Act_arg hix (by omega))]
    simp only [azmul_eq]
    rw [hδ, hδB, hδZ, hs 0 (by omega)]
    have e0 : ∀ F G : ℝ⟦X⟧, coeff 0 (F * G) = coeff 0 F * coeff 0 G := fun F G => by simp
    have e1 := congrArg (coeff 0) h2
    have e2 := congrArg (coeff 0) h3
    rw [PowerSeries.coeff_smul, e0, smul_eq_mul, ← hb] at e1
    rw [PowerSeries.coeff_smul, e0, e0, smul_eq_mul, ← hb] at e2
    have e3 : coeff 0 dZ = sz * coeff 0 dX / b0 := by rw [← e1]; field_simp
    have e4 : coeff 0 dB = su * (coeff 0 X * coeff 0 dX) / b0 := by rw [← e2]; field_simp
    rw [e3, e4]; ring
  · rw [Finset.sum_range_succ, Finset.sum_range_one, add_zero]
    have hj' : (j : ℝ) ≠ 0 := by positivity
    simp only [Tay.set_self, Tay.set_ne_row _ _ _ _ (by omega : nv ≠ nv + 1),
      Tay.set_ne_row _ _ _ _ (by omega : nv + 1 ≠ nv),
      Tay.add_ne_row _ _ _ _ (by omega : nv + 1 ≠ ix), Tay.add_ne_row _ _ _ _ (by omega : nv ≠ ix),
      Tay.add_ne_row _ _ _ _ (by omega : nv + 1 ≠ nv), Tay.add_ne_row _ _ _ _ (by omega : nv ≠ nv + 1),
      Tay.add_ne_ord _ _ _ _ (by omega : j ≠ 0)]
    set c := azmul (Q (nv + 1) j) (1 / b0) with hc
    rw [azmul_eq] at hc
    set d := azmul (Q nv j) (1 / b0) with hd
    rw [azmul_eq] at hd
    set R0 := ((((Q.set nv j d).set (nv + 1) j c).add nv 0 (-(azmul c (s (nv + 1) j) + azmul d (s nv j)))).add ix 0
      (su * azmul d (s ix j))).add ix j (sz * c + su * azmul d (s ix 0)) with hR0
    have key := Ext.loop (N := nv + 2) (A := Act nv n j) (δ := δ) (lo := 1) (hi := j)
      (P := R0.set (nv + 1) j (c / j))
      (body := fun k P => ((P.add nv (j - k) (-((k : ℝ) * azmul (P (nv + 1) j) (s (nv + 1) k)
          + azmul (P nv j) (s nv k)))).add ix k
        (su * azmul ((P.add nv (j - k) (-((k : ℝ) * azmul (P (nv + 1) j) (s (nv + 1) k)
          + azmul (P nv j) (s nv k)))) nv j) (s ix (j - k)))).add (nv + 1) k
        (-((k : ℝ) * azmul (P (nv + 1) j) (s nv (j - k)))))
      (fun k => (-((k : ℝ) * (c / j * coeff k Z) + d * coeff k B)) * δ nv (j - k)
        + (su * (d * coeff (j - k) X)) * δ ix k
        + (-((k : ℝ) * (c / j * coeff (j - k) B))) * δ (nv + 1) k) (fun k R h1 h2 hR => by
        have hR1 : R (nv + 1) j = c / j := by rw [hR _ _ (Act_out (by omega)), Tay.set_self]
        have hR2 : R nv j = d := by
          rw [hR _ _ (Act_out (by omega)), Tay.set_ne_row _ _ _ _ (by omega), hR0,
            Tay.add_ne_row _ _ _ _ (by omega), Tay.add_ne_row _ _ _ _ (by omega),
            Tay.add_ne_ord _ _ _ _ (by omega), Tay.set_ne_row _ _ _ _ (by omega), Tay.set_self]
        simp only [azmul_eq, Tay.add_ne_ord _ _ _ _ (by omega : j ≠ j - k), hR1, hR2]
        rw [hB _ (by omega), hB _ (by omega), hs _ (by omega), hZ _ (by omega)]
        exact ((Ext.add _ _ (by omega) (Act_res (by omega) (by omega))).add_to _ (by omega)
          (Act_arg hix (by omega))).add_to _ (by omega) (Act_res (by omega) (by omega)))
    rw [Ext.phi_set key (Act_out (by omega)), hR0,
        Phi_add _ _ _ _ _ (by omega) (Act_arg hix (by omega)),
        Phi_add _ _ _ _ _ (by omega) (Act_arg hix (by omega)),
        Phi_add _ _ _ _ _ (by omega) (Act_res (by omega) (by omega)),
        Phi_set_out _ _ _ _ _ (Act_out (by omega)), Phi_set_out _ _ _ _ _ (Act_out (by omega)),
        add_assoc, add_assoc, add_assoc]
    congr 1
    simp only [hδ, hδB, hδZ, azmul_eq]
    rw [hZ j hj, hs j hj, hs 0 (by omega), hB j hj]
    have e : Q (nv + 1) j * coeff j dZ = c / j * (j * (b0 * coeff j dZ)) := by
      rw [hc]; field_simp
    have e' : Q nv j * coeff j dB = d * (b0 * coeff j dB) := by rw [hd]; field_simp
    rw [e, e', hb, quot_lin hθ j hj1, linB j hj1]
    have es : ∑ k ∈ Finset.Ico 1 j, ((-((k : ℝ) * (c / j * coeff k Z) + d * coeff k B)) * coeff (j - k) dB
        + (su * (d * coeff (j - k) X)) * coeff k dX
        + (-((k : ℝ) * (c / j * coeff (j - k) B))) * coeff k dZ)
      = -(c / j) * ∑ k ∈ Finset.Ico 1 j, (k : ℝ) * (coeff k dZ * coeff (j - k) B + coeff k Z * coeff (j - k) dB)
        + su * d * ∑ k ∈ Finset.Ico 1 j, coeff k dX * coeff (j - k) X
        + (- d) * ∑ k ∈ Finset.Ico 1 j, coeff k B * coeff (j - k) dB := by
      rw [Finset.mul_sum, Finset.mul_sum, Finset.mul_sum, ← Finset.sum_add_distrib, ← Finset.sum_add_distrib]
      exact Finset.sum_congr rfl fun k _ => by ring
    rw [es]
    field_simp
    ring

noncomputable def asinCertG (ix : ℕ) (f u0 : ℝ → ℝ) (c su sz : ℝ) (hu : ∀ y, u0 y = c + su * (y * y))
    (D : Set ℝ) (hD : IsOpen D)
    (hf : ∀ y ∈ D, ContDiffAt ℝ ∞ f y) (hb : ∀ y ∈ D, 0 < u0 y)
    (df : ∀ y ∈ D, Real.sqrt (u0 y) * deriv f y = sz) :
    OpCert 2 [ix] (fun e r => (if r = 0 then fun y => Real.sqrt (u0 y) else f) (e ix)) (fun e => e ix ∈ D)
      (asinForwardG f u0 su sz ix) (asinDirG su sz ix) (asinReverseG su sz ix) :=
  have hu' : u0 = fun y => c + su * (y * y) := funext hu
  have hsb : ∀ y ∈ D, ContDiffAt ℝ ∞ (fun y => Real.sqrt (u0 y)) y := fun y hy => by
    refine ContDiffAt.sqrt ?_ (hb y hy).ne'
    rw [hu']
    exact contDiffAt_const.add (contDiffAt_const.mul (contDiffAt_id.mul contDiffAt_id))
  have hsm : ∀ r < 2, ∀ y ∈ D, ContDiffAt ℝ ∞ ((fun r => if r = 0 then fun y => Real.sqrt (u0 y) else f) r) y :=
    fun r _ y hy => by
      simp only
      split
      · exact hsb y hy
      · exact hf y hy
  have db : ∀ y ∈ D, Real.sqrt (u0 y) * deriv (fun y => Real.sqrt (u0 y)) y = su * y := fun y hy => by
    have h1 : HasDerivAt u0 (su * (2 * y)) y := by
      rw [hu']
      have := ((hasDerivAt_id y).fun_mul (hasDerivAt_id y)).const_mul su |>.const_add c
      exact this.congr_deriv (by simp only [id]; ring)
    rw [(h1.sqrt (hb y hy).ne').deriv]
    have : Real.sqrt (u0 y) ≠ 0 := (Real.sqrt_pos.mpr (hb y hy)).ne'
    field_simp
  have key : ∀ x, UCurve 2 (fun r => if r = 0 then fun y => Real.sqrt (u0 y) else f) D x →
      T (fun t => Real.sqrt (u0 (x t))) * T (fun t => deriv f (x t)) = sz • 1 ∧
      T (fun t => Real.sqrt (u0 (x t))) * T (fun t => deriv (fun y => Real.sqrt (u0 y)) (x t)) = su • T x :=
    fun x hx => by
      have s0 : Sm (fun t => Real.sqrt (u0 (x t))) := hx.sz (r := 0) (by omega)
      have s1 : Sm (fun t => deriv f (x t)) := hx.sg (r := 1) (by omega)
      have s2 : Sm (fun t => deriv (fun y => Real.sqrt (u0 y)) (x t)) := hx.sg (r := 0) (by omega)
      rw [← T_mul s0 s1, ← T_mul s0 s2, PowerSeries.smul_eq_C_mul, PowerSeries.smul_eq_C_mul, mul_one,
        ← T_const, ← T_const, ← T_mul contDiffAt_const hx.sx]
      exact ⟨T_congr (hx.ev.mono fun t ht => df _ ht), T_congr (hx.ev.mono fun t ht => db _ ht)⟩
  mkUnary2 ix 0 1 rfl (fun r => if r = 0 then fun y => Real.sqrt (u0 y) else f) D hD hsm _ _ _
    (asinGa u0 su) (quotG f sz)
    (fun _ _ _ _ _ => asinGa_congr) (fun _ _ _ _ _ _ => quotG_congr)
    (fun nv p q s hix hpq => asinForward_eq f u0 su sz ix p q nv s hix hpq)
    (fun nv q r s hix hq => asinDir_eq f u0 su sz ix q r nv s hix hq)
    (fun x hx j => by
      have tz := hx.theta (r := 1) (by omega)
      have tb := hx.theta (r := 0) (by omega)
      simp only [one_ne_zero, if_false, if_true] at tz tb ⊢
      have hb0 : Real.sqrt (u0 (x 0)) ≠ 0 := (Real.sqrt_pos.mpr (hb _ hx.h0)).ne'
      refine ⟨?_, ?_⟩
      · unfold asinGa
        by_cases hj : j = 0
        · subst hj; simp [tc_zero]
        · have e1 : θ (T (fun t => Real.sqrt (u0 (x t)))) * T (fun t => Real.sqrt (u0 (x t)))
              = su • (θ (T x) * T x) := by
            rw [tb, mul_comm _ (T (fun t => Real.sqrt (u0 (x t)))), ← mul_assoc, (key x hx).2,
              Algebra.smul_mul_assoc, mul_comm (T x)]
          have e2 := congrArg (coeff j) e1
          rw [PowerSeries.coeff_smul, coeff_θ_mul_T, smul_eq_mul, ksum_last (by omega), Nat.sub_self] at e2
          have e3 : 2 * coeff j (θ (T x) * T x) = j * coeff j (T x * T x) := by
            rw [← coeff_θ, θ_mul, two_mul, ← map_add]; congr 1; ring
          rw [coeff_mul_ends (T x) (T x) (by omega)] at e3
          simp only [coeff_T] at e3
          rw [if_neg hj]
          have hj' : (j : ℝ) ≠ 0 := by positivity
          have hb : tc (fun t => Real.sqrt (u0 (x t))) 0 ≠ 0 := by rw [tc_zero]; exact hb0
          simp only [if_true]
          generalize ksum _ _ 1 j j = K at *
          generalize csumI _ _ j = L at *
          generalize PowerSeries.coeff (R := ℝ) j _ = M at *
          field_simp
          linear_combination 2 * e2 + su * e3
      · by_cases hj : j = 0
        · subst hj; simp [tc_zero, quotG]
        · refine quot_coeff (g := fun y => Real.sqrt (u0 y)) hj (by simp) (by simp) hb0 ?_
          rw [tz, ← mul_assoc, (key x hx).1, Algebra.smul_mul_assoc, one_mul])
    (fun nv x dx n s P δ hix hx hd h1 h2 h3 h4 h5 h6 h7 => by
      have dz := hx.delta (r := 1) (by omega) hd
      have tz := hx.theta (r := 1) (by omega)
      have db := hx.delta (r := 0) (by omega) hd
      have tb := hx.theta (r := 0) (by omega)
      simp only [one_ne_zero, if_false, if_true] at *
      refine asin_rev su sz ix nv n s P δ (X := T x) (B := T (fun t => Real.sqrt (u0 (x t))))
        (Z := T (fun t => f (x t))) (dX := T dx)
        (dB := T (fun t => deriv (fun y => Real.sqrt (u0 y)) (x t) * dx t))
        (dZ := T (fun t => deriv f (x t) * dx t)) hix
        (by simpa using h1) (by simpa using h2) (by simpa using h3) (by simpa using h4) (by simpa using h5)
        (by simpa using h6) ?_ ?_ ?_ ?_ ?_
      · rw [coeff_T, tc_zero]; exact (Real.sqrt_pos.mpr (hb _ hx.h0)).ne'
      · rw [tz, ← mul_assoc, (key x hx).1, Algebra.smul_mul_assoc, one_mul]
      · rw [dz, ← mul_assoc, (key x hx).1, Algebra.smul_mul_assoc, one_mul]
      · rw [db, ← mul_assoc, (key x hx).2, Algebra.smul_mul_assoc]
      · rw [tb, ← mul_assoc, (key x hx).2, Algebra.smul_mul_assoc])
    (fun nv n s P v hv hne => by
      have a1 : v ≠ nv := by omega
      have a2 : v ≠ nv + 1 := by omega
      unfold asinReverseG
      simp (maxDischargeDepth := 8) [add_row, set_row, forDown_row, forRange_row, hne, a1, a2])

noncomputable def asinCert (ix : ℕ) : OpCert 2 [ix]
    (fun e r => (if r = 0 then fun y => Real.sqrt (1 - y * y) else Real.arcsin) (e ix))
    (fun e => e ix ∈ Set.Ioo (-1 : ℝ) 1) (asinForward ix) (asinDir ix) (asinReverse ix) :=
  asinCertG ix Real.arcsin (fun y => 1 - y * y) 1 (-1) 1 (fun y => by ring) (Set.Ioo (-1) 1) isOpen_Ioo
    (fun y hy => Real.contDiffAt_arcsin hy.1.ne' hy.2.ne)
    (fun y hy => by nlinarith [hy.1, hy.2])
    (fun y hy => by
      have h : 0 < 1 - y * y := by nlinarith [hy.1, hy.2]
      have h' : Real.sqrt (1 - y * y) ≠ 0 := (Real.sqrt_pos.mpr h).ne'
      rw [Real.deriv_arcsin]; simp only [pow_two]
      exact mul_one_div_cancel h')

noncomputable def acosCert (ix : ℕ) : OpCert 2 [ix]
    (fun e r => (if r = 0 then fun y => Real.sqrt (1 - y * y) else Real.arccos) (e ix))
    (fun e => e ix ∈ Set.Ioo (-1 : ℝ) 1) (acosForward ix) (acosDir ix) (acosReverse ix) :=
  asinCertG ix Real.arccos (fun y => 1 - y * y) 1 (-1) (-1) (fun y => by ring) (Set.Ioo (-1) 1) isOpen_Ioo
    (fun y hy => Real.contDiffAt_arccos hy.1.ne' hy.2.ne)
    (fun y hy => by nlinarith [hy.1, hy.2])
    (fun y hy => by
      have h : 0 < 1 - y * y := by nlinarith [hy.1, hy.2]
      have h' : Real.sqrt (1 - y * y) ≠ 0 := (Real.sqrt_pos.mpr h).ne'
      rw [Real.deriv_arccos]; simp only [pow_two]
      rw [mul_neg, mul_one_div_cancel h'])

noncomputable def asinhCert (ix : ℕ) : OpCert 2 [ix]
    (fun e r => (if r = 0 then fun y => Real.sqrt (1 + y * y) else Real.arsinh) (e ix))
    (fun e => e ix ∈ Set.univ) (asinhForward ix) (asinhDir ix) (asinhReverse ix) :=
  asinCertG ix Real.arsinh (fun y => 1 + y * y) 1 1 1 (fun y => by ring) Set.univ isOpen_univ
    (fun y _ => Real.contDiff_arsinh.contDiffAt)
    (fun y _ => by nlinarith [mul_self_nonneg y])
    (fun y _ => by
      have h : 0 < 1 + y * y := by nlinarith [mul_self_nonneg y]
      have h' : Real.sqrt (1 + y * y) ≠ 0 := (Real.sqrt_pos.mpr h).ne'
      rw [(Real.hasDerivAt_arsinh y).deriv, pow_two]
      exact mul_inv_cancel₀ h')

noncomputable def acoshCert (ix : ℕ) : OpCert 2 [ix]
    (fun e r => (if r = 0 then fun y => Real.sqrt (y * y - 1) else Real.arcosh) (e ix))
    (fun e => e ix ∈ Set.Ioi (1 : ℝ)) (acoshForward ix) (acoshDir ix) (acoshReverse ix) :=
  asinCertG ix Real.arcosh (fun y => y * y - 1) (-1) 1 1 (fun y => by ring) (Set.Ioi 1) isOpen_Ioi
    (fun y hy => Real.contDiffAt_arcosh hy)
    (fun y hy => by have : 1 < y := hy; nlinarith)
    (fun y hy => by
      have h : 0 < y * y - 1 := by have : 1 < y := hy; nlinarith
      have h' : Real.sqrt (y * y - 1) ≠ 0 := (Real.sqrt_pos.mpr h).ne'
      rw [(Real.hasDerivAt_arcosh hy).deriv, pow_two]
      exact mul_inv_cancel₀ h')

end CppAD
