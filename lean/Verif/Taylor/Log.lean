import Verif.Taylor.Exp
import Verif.Taylor.Arith
import Verif.Taylor.ModelLog
import Mathlib.Analysis.SpecialFunctions.Log.Deriv
import Mathlib.Analysis.SpecialFunctions.Sqrt

/-! # Certificates of expm1, log, log1p and sqrt -/

open scoped ContDiff Topology PowerSeries
open PowerSeries (coeff)

namespace CppAD

/-! ## expm1 -/

noncomputable def expm1G (x z : ℕ → ℝ) (j : ℕ) : ℝ :=
  if j = 0 then Real.exp (x 0) - 1 else ksum x z 1 (j + 1) j / (j : ℝ) + x j

theorem expm1G_congr {x x' z z' : ℕ → ℝ} {j : ℕ} (hx : ∀ k ≤ j, x k = x' k) (hz : ∀ k < j, z k = z' k) :
    expm1G x z j = expm1G x' z' j := by
  unfold expm1G
  split
  · rw [hx 0 (by omega)]
  · rw [ksum_congr fun k h1 h2 => ⟨hx k (by omega), hz _ (by omega)⟩, hx j le_rfl]

theorem expm1Forward_eq (ix p q iz : ℕ) (s : Tay) (h : ix ≠ iz) (hpq : p ≤ q) :
    expm1Forward ix p q iz s
      = forRange p (q + 1) s (fun j s => s.set iz j (expm1G (s ix) (s iz) j)) := by
  rw [← forRange_peel (by omega : p < q + 1)]
  simp only [expm1Forward, expm1G, if_true]
  refine forRange_congr _ fun j s h1 h2 => ?_
  have hj : 1 ≤ j := by split at h1 <;> omega
  rw [acc_add s ix iz iz j _ (by omega) le_rfl (Or.inl h), if_neg (by omega)]
  simp only [Tay.set_set, Tay.set_self, Tay.set_add, Tay.set_ne_row _ _ _ _ h]
  rw [ksum_head (by omega : 1 < j + 1)]
  simp

theorem expm1Dir_eq (ix q r iz : ℕ) (s : Tay) (h : ix ≠ iz) (hq : 1 ≤ q) :
    expm1Dir ix q r iz s = forRange 0 r s (fun ell s => s.set iz ((q - 1) * r + 1 + ell)
      (expm1G (view r ell s ix) (view r ell s iz) q)) := by
  refine forRange_congr _ fun ell s _ hl => ?_
  simp only
  rw [dir_acc_add s ix iz iz _ _ _ le_rfl hl (fun k h1 h2 => (dirIdx_pos h1).symm)
    (fun k h1 h2 => (dirIdx_pos (by omega)).symm)]
  simp only [Tay.set_set, Tay.set_self, Tay.set_add, Tay.set_ne_row _ _ _ _ h, expm1G,
    if_neg (by omega : ¬ q = 0)]
  rw [ksum_last hq, add_comm (ksum _ _ _ _ _)]
  simp [view_apply, dirIdx_top hq]

theorem expm1_curve {x : ℝ → ℝ} (h : UCurve 1 (fun _ y => Real.exp y - 1) Set.univ x) :
    T (fun t => deriv (fun y => Real.exp y - 1) (x t)) = T (fun t => Real.exp (x t) - 1) + 1 := by
  have : (1 : ℝ⟦X⟧) = T (fun _ => 1) := by rw [T_const]; simp
  rw [this, ← T_add (h.sz (r := 0) one_pos) contDiffAt_const]
  simp

theorem expm1_rev (ix nv n : ℕ) (s P δ : Tay) {X Z dX dZ : ℝ⟦X⟧} (hix : ix < nv)
    (hs : ∀ k ≤ n, s ix k = coeff k X) (hz : ∀ k ≤ n, s nv k = coeff k Z)
    (hδ : ∀ k, δ ix k = coeff k dX) (hδz : ∀ k, δ nv k = coeff k dZ)
    (h1 : θ Z = (Z + 1) * θ X) (h2 : dZ = (Z + 1) * dX) :
    Phi nv (fun _ => n + 1) δ (expm1Reverse ix n nv s P) = Phi (nv + 1) (fun _ => n + 1) δ P := by
  have h3 : θ dZ = θ dX + θ dX * Z + θ X * dZ := by
    rw [h2, θ_mul, θ_add, θ_one, h1]; ring
  have lin : ∀ j : ℕ, (j : ℝ) * coeff j dZ = j * coeff j dX + ∑ k ∈ Finset.Ico 1 (j + 1),
      (k : ℝ) * (coeff k dX * coeff (j - k) Z + coeff k X * coeff (j - k) dZ) := by
    intro j
    rw [← coeff_θ, h3, map_add, map_add, coeff_θ_mul, coeff_θ_mul, add_assoc, ← Finset.sum_add_distrib,
      coeff_θ]
    congr 1
    exact Finset.sum_congr rfl fun k _ => by ring
  unfold expm1Reverse
  split
  · rename_i hall
    exact rev_skip _ _ fun r hr k hk => by obtain rfl : r = 0 := by omega
                                           exact hall k hk
  · refine rev_loop' (m := 1) _ _ (fun P => P.add ix 0 (P nv 0 + azmul (P nv 0) (s nv 0))) _
      (fun j Q hj1 hj => ?_) fun Q => ?_
    rotate_left
    · simp only [Finset.sum_range_one, add_zero]
      rw [Phi_add _ _ _ _ _ (by omega) (Act_arg hix (by omega)), azmul_eq,
        hδ, hδz, hz 0 (by omega), h2]
      simp; ring
    · simp only [Finset.sum_range_one, add_zero]
      rw [Tay.add_ne_row _ _ _ _ (by omega : nv ≠ ix)]
      set c := Q nv j / (j : ℝ) with hc
      rw [Ext.phi_set (v := nv) (k := j) (y := c) (P := Q.add ix j (Q nv j))
        (Ext.loop (fun k => (k : ℝ) * (c * coeff (j - k) Z) * δ ix k
        + (k : ℝ) * (c * coeff k X) * δ nv (j - k)) fun k R h1 h2 hR => ?_) (Act_out le_rfl),
        Phi_add _ _ _ _ _ (by omega) (Act_arg hix (by omega)), add_assoc]
      · congr 1
        simp only [hδ, hδz]
        have hj' : (j : ℝ) ≠ 0 := by positivity
        have e : Q nv j * coeff j dZ = c * ((j : ℝ) * coeff j dZ) := by
          rw [hc]; field_simp
        have e2 : Q nv j * coeff j dX = c * ((j : ℝ) * coeff j dX) := by
          rw [hc]; field_simp
        rw [e, lin, e2, mul_add, Finset.mul_sum]
        congr 1
        exact Finset.sum_congr rfl fun k _ => by ring
      · have hc' : R nv j = c := by rw [hR nv j (Act_out le_rfl), Tay.set_self]
        simp only [azmul_eq]
        rw [Tay.add_ne_row _ _ _ _ (by omega : nv ≠ ix), hc', hz _ (by omega), hs _ (by omega)]
        exact (Ext.add _ _ (by omega) (Act_arg hix (by omega))).add_to _ (by omega)
          (Act_res le_rfl (by omega))

noncomputable def expm1Cert (ix : ℕ) : OpCert 1 [ix] (fun e _ => Real.exp (e ix) - 1)
    (fun e => e ix ∈ Set.univ) (expm1Forward ix) (expm1Dir ix) (expm1Reverse ix) :=
  mkUnary1 ix (fun y => Real.exp y - 1) Set.univ isOpen_univ
    (fun _ _ => Real.contDiff_exp.contDiffAt.sub contDiffAt_const) _ _ _ expm1G
    (fun _ _ _ _ _ => expm1G_congr)
    (fun p q iz s => expm1Forward_eq ix p q iz s) (fun q r iz s => expm1Dir_eq ix q r iz s)
    (fun x hc j => by
      unfold expm1G
      split
      · rename_i h; subst h; simp [tc_zero]
      · rename_i h
        have h1 := hc.theta (r := 0) one_pos
        rw [expm1_curve hc] at h1
        have h2 := congrArg (coeff j) h1
        rw [add_mul, one_mul, map_add, mul_comm (T _), coeff_θ_mul_T, coeff_θ, coeff_θ, coeff_T, coeff_T] at h2
        field_simp
        linarith)
    (fun nv x dx n s P δ hix hc hd h1 h2 h3 h4 => by
      refine expm1_rev ix nv n s P δ (X := T x) (Z := T (fun t => Real.exp (x t) - 1)) (dX := T dx)
        (dZ := T (fun t => deriv (fun y => Real.exp y - 1) (x t) * dx t)) hix ?_ ?_ ?_ ?_ ?_ ?_
      · simpa using h1
      · simpa using h2
      · simpa using h3
      · simpa using h4
      · rw [← expm1_curve hc]; exact hc.theta (r := 0) one_pos
      · rw [hc.delta (r := 0) one_pos hd, expm1_curve hc])
    (fun nv n s P v hv hx => by
      have : v ≠ nv := by omega
      unfold expm1Reverse
      split
      · rfl
      · simp (maxDischargeDepth := 6) [add_row, set_row, forDown_row, forRange_row, hx, this])

/-! ## log and log1p -/

/-- recurrence; `f` is the function and `b` is `x` or `1 + x` -/
noncomputable def logG (f : ℝ → ℝ) (b : ℝ → ℝ) (x z : ℕ → ℝ) (j : ℕ) : ℝ :=
  if j = 0 then f (x 0) else (x j - ksum z x 1 j j / (j : ℝ)) / b (x 0)

theorem logG_congr {f b : ℝ → ℝ} {x x' z z' : ℕ → ℝ} {j : ℕ} (hx : ∀ k ≤ j, x k = x' k)
    (hz : ∀ k < j, z k = z' k) : logG f b x z j = logG f b x' z' j := by
  unfold logG
  rw [hx 0 (by omega)]
  split
  · rfl
  · rw [ksum_congr fun k h1 h2 => ⟨hz k (by omega), hx _ (by omega)⟩, hx j le_rfl]

theorem log_body (ix iz j : ℕ) (s : Tay) (h : ix ≠ iz) (hj : 2 ≤ j) (b : ℝ → ℝ) (f : ℝ → ℝ) :
    (let s := s.set iz j (-s iz 1 * s ix (j - 1))
    let s := forRange 2 j s fun k s => s.add iz j (-((k : ℝ) * s iz k * s ix (j - k)))
    let s := s.set iz j (s iz j / (j : ℝ))
    let s := s.add iz j (s ix j)
    s.set iz j (s iz j / b (s ix 0))) = s.set iz j (logG f b (s ix) (s iz) j) := by
  simp only
  rw [acc_sub s iz ix iz j _ (by omega) (by omega) (Or.inr le_rfl)]
  simp only [Tay.set_set, Tay.set_self, Tay.set_add, Tay.set_ne_row _ _ _ _ h, logG,
    if_neg (by omega : ¬ j = 0)]
  rw [ksum_head (by omega : 1 < j)]
  congr 2
  push_cast; ring

theorem log_one (ix iz : ℕ) (s : Tay) (b f : ℝ → ℝ) :
    s.set iz 1 (s ix 1 / b (s ix 0)) = s.set iz 1 (logG f b (s ix) (s iz) 1) := by
  simp [logG, ksum]

theorem logForward_eq (ix p q iz : ℕ) (s : Tay) (h : ix ≠ iz) (hpq : p ≤ q) :
    logForward ix p q iz s
      = forRange p (q + 1) s (fun j s => s.set iz j (logG Real.log id (s ix) (s iz) j)) := by
  rw [← forRange_peel2 hpq]
  simp only [← log_one ix iz _ id Real.log]
  simp only [logForward, logG, if_true, id]
  congr 1
  refine forRange_congr _ fun j s h1 h2 => ?_
  have hj : 2 ≤ j := by split_ifs at h1 <;> omega
  exact log_body ix iz j s h hj id Real.log

theorem log1pForward_eq (ix p q iz : ℕ) (s : Tay) (h : ix ≠ iz) (hpq : p ≤ q) :
    log1pForward ix p q iz s
      = forRange p (q + 1) s (fun j s => s.set iz j
        (logG (fun y => Real.log (1 + y)) (fun y => 1 + y) (s ix) (s iz) j)) := by
  rw [← forRange_peel2 hpq]
  simp only [← log_one ix iz _ (fun y => 1 + y) (fun y => Real.log (1 + y))]
  simp only [log1pForward, logG, if_true]
  congr 1
  refine forRange_congr _ fun j s h1 h2 => ?_
  have hj : 2 ≤ j := by split_ifs at h1 <;> omega
  exact log_body ix iz j s h hj (fun y => 1 + y) (fun y => Real.log (1 + y))

theorem log_dir_body (ix iz q r ell : ℕ) (s : Tay) (h : ix ≠ iz) (hq : 1 ≤ q) (hl : ell < r)
    (b f : ℝ → ℝ) (c : ℝ → ℝ) (hc : ∀ y, c y = q * b y) :
    (let s := s.set iz ((q - 1) * r + 1 + ell) ((q : ℝ) * s ix ((q - 1) * r + 1 + ell))
    let s := forRange 1 q s fun k s => s.add iz ((q - 1) * r + 1 + ell)
      (-((k : ℝ) * s iz ((k - 1) * r + 1 + ell) * s ix ((q - k - 1) * r + 1 + ell)))
    s.set iz ((q - 1) * r + 1 + ell) (s iz ((q - 1) * r + 1 + ell) / c (s ix 0)))
    = s.set iz ((q - 1) * r + 1 + ell) (logG f b (view r ell s ix) (view r ell s iz) q) := by
  simp only
  rw [dir_acc_sub s iz ix iz _ _ _ le_rfl hl (fun k h1 h2 => dirIdx_a h1) (fun k h1 h2 => dirIdx_b h2)]
  simp only [Tay.set_set, Tay.set_self, Tay.set_ne_row _ _ _ _ h, logG, if_neg (by omega : ¬ q = 0), hc]
  congr 1
  simp only [view_apply, dirIdx_top hq, dirIdx_zero]
  have : (q : ℝ) ≠ 0 := by positivity
  rw [← div_div]
  congr 1
  field_simp

theorem logDir_eq (ix q r iz : ℕ) (s : Tay) (h : ix ≠ iz) (hq : 1 ≤ q) :
    logDir ix q r iz s = forRange 0 r s (fun ell s => s.set iz ((q - 1) * r + 1 + ell)
      (logG Real.log id (view r ell s ix) (view r ell s iz) q)) :=
  forRange_congr _ fun ell s _ hl =>
    log_dir_body ix iz q r ell s h hq hl id Real.log (fun y => (q : ℝ) * y) (fun _ => rfl)

theorem log1pDir_eq (ix q r iz : ℕ) (s : Tay) (h : ix ≠ iz) (hq : 1 ≤ q) :
    log1pDir ix q r iz s = forRange 0 r s (fun ell s => s.set iz ((q - 1) * r + 1 + ell)
      (logG (fun y => Real.log (1 + y)) (fun y => 1 + y) (view r ell s ix) (view r ell s iz) q)) :=
  forRange_congr _ fun ell s _ hl =>
    log_dir_body ix iz q r ell s h hq hl (fun y => 1 + y) _ (fun y => (q : ℝ) + (q : ℝ) * y)
      (fun _ => by ring)

/-- `B` is `X` or `1 + X` -/
theorem log_rev (ix nv n : ℕ) (s P δ : Tay) {B X Z dX dZ : ℝ⟦X⟧} (hix : ix < nv) {b0 : ℝ}
    (hs : ∀ k ≤ n, s ix k = coeff k X) (hz : ∀ k ≤ n, s nv k = coeff k Z)
    (hδ : ∀ k, δ ix k = coeff k dX) (hδz : ∀ k, δ nv k = coeff k dZ)
    (hB : ∀ k, 1 ≤ k → coeff k B = coeff k X) (hb : coeff 0 B = b0) (hb0 : b0 ≠ 0)
    (hθ : θ B = θ X) (h1 : B * θ Z = θ X) (h2 : B * dZ = dX) :
    Phi nv (fun _ => n + 1) δ (
  let inv_x0 := 1 / b0
  let P := forDown n P fun j P =>
    let P := P.set nv j (azmul (P nv j) inv_x0)
    let P := P.add ix 0 (-(azmul (P nv j) (s nv j)))
    let P := P.add ix j (P nv j)
    let P := P.set nv j (P nv j / (j : ℝ))
    forRange 1 j P fun k P =>
      let P := P.add nv k (-((k : ℝ) * azmul (P nv j) (s ix (j - k))))
      P.add ix (j - k) (-((k : ℝ) * azmul (P nv j) (s nv k)))
  P.add ix 0 (azmul (P nv 0) inv_x0)) = Phi (nv + 1) (fun _ => n + 1) δ P := by
  have h3 : θ dX = θ dZ * B + θ Z * dX := by
    rw [← h2, θ_mul, hθ, ← h1]; ring
  have lin : ∀ j : ℕ, 1 ≤ j → (j : ℝ) * (b0 * coeff j dZ) = j * coeff j dX - j * (coeff j Z * coeff 0 dX)
      - ∑ k ∈ Finset.Ico 1 j,
      (k : ℝ) * (coeff k dZ * coeff (j - k) X + coeff k Z * coeff (j - k) dX) := by
    intro j hj
    have := congrArg (coeff j) h3
    rw [map_add, coeff_θ_mul, coeff_θ_mul, coeff_θ, Finset.sum_Ico_succ_top hj,
      Finset.sum_Ico_succ_top hj, Nat.sub_self, hb] at this
    have e : ∑ k ∈ Finset.Ico 1 j, (k : ℝ) * (coeff k dZ * coeff (j - k) X + coeff k Z * coeff (j - k) dX)
      = ∑ k ∈ Finset.Ico 1 j, (k : ℝ) * coeff k dZ * coeff (j - k) B
        + ∑ k ∈ Finset.Ico 1 j, (k : ℝ) * coeff k Z * coeff (j - k) dX := by
      rw [← Finset.sum_add_distrib]
      refine Finset.sum_congr rfl fun k hk => ?_
      rw [Finset.mem_Ico] at hk
      rw [hB (j - k) (by omega)]; ring
    rw [e]; linarith
  refine rev_loop' (m := 1) _ _ (fun P => P.add ix 0 (azmul (P nv 0) (1 / b0))) _
      (fun j Q hj1 hj => ?_) fun Q => ?_
  rotate_left
  · simp only [Finset.sum_range_one, add_zero]
    rw [Phi_add _ _ _ _ _ (by omega) (Act_arg hix (by omega)), azmul_eq, hδ, hδz, ← h2]
    simp only [PowerSeries.coeff_zero_eq_constantCoeff, map_mul] at *
    rw [hb]; field_simp
  · simp only [Finset.sum_range_one, add_zero, Tay.set_self,
      Tay.add_ne_row _ _ _ _ (by omega : nv ≠ ix)]
    have hj' : (j : ℝ) ≠ 0 := by positivity
    set c := azmul (Q nv j) (1 / b0) with hc
    rw [azmul_eq] at hc
    set R0 := (Q.set nv j c).add ix 0 (-(azmul c (s nv j))) with hR0
    rw [Ext.phi_set (v := nv) (k := j) (P := R0.add ix j c)
        (Ext.loop (fun k => (-((k : ℝ) * (c / j * coeff (j - k) X))) * δ nv k
        + (-((k : ℝ) * (c / j * coeff k Z))) * δ ix (j - k)) fun k R h1 h2 hR => ?_) (Act_out le_rfl),
        Phi_add _ _ _ _ _ (by omega) (Act_arg hix (by omega)), hR0,
        Phi_add _ _ _ _ _ (by omega) (Act_arg hix (by omega)),
        Phi_set_out _ _ _ _ _ (Act_out le_rfl), add_assoc, add_assoc]
    · congr 1
      simp only [hδ, hδz, azmul_eq, hz j hj]
      have e : Q nv j * coeff j dZ = c / j * (j * (b0 * coeff j dZ)) := by
        rw [hc]; field_simp
      rw [e, lin j hj1, mul_sub, mul_sub, Finset.mul_sum, sub_eq_add_neg _ (∑ k ∈ _, _),
        ← Finset.sum_neg_distrib]
      rw [Finset.sum_congr rfl (g := fun k : ℕ => -(c / j * ((k : ℝ) * (coeff k dZ * coeff (j - k) X
        + coeff k Z * coeff (j - k) dX)))) (fun k _ => by ring)]
      field_simp
      ring
    · have hc' : R nv j = c / j := by rw [hR nv j (Act_out le_rfl), Tay.set_self]
      simp only [azmul_eq]
      rw [Tay.add_ne_ord (k := k) _ _ _ _ (by omega : j ≠ k), hc', hz _ (by omega), hs _ (by omega)]
      exact (Ext.add _ _ (by omega) (Act_res le_rfl (by omega))).add_to _ (by omega)
          (Act_arg hix (by omega))

/-- Taylor coefficients satisfy the recurrence -/
theorem log_coeff {f b : ℝ → ℝ} {x : ℝ → ℝ} {B X Z : ℝ⟦X⟧} {j : ℕ} (hj : j ≠ 0)
    (hX : ∀ k, tc x k = coeff k X) (hZ : ∀ k, tc (fun t => f (x t)) k = coeff k Z)
    (hB : ∀ k, 1 ≤ k → coeff k B = coeff k X) (hb : coeff 0 B = b (x 0)) (hb0 : b (x 0) ≠ 0)
    (h1 : B * θ Z = θ X) :
    coeff j Z = logG f b (tc x) (tc (fun t => f (x t))) j := by
  unfold logG
  rw [if_neg hj, hX, tc_zero]
  have := congrArg (coeff j) h1
  rw [mul_comm, coeff_θ_mul, coeff_θ, Finset.sum_Ico_succ_top (by omega), Nat.sub_self, hb] at this
  have e : ksum (tc (fun t => f (x t))) (tc x) 1 j j
      = ∑ k ∈ Finset.Ico 1 j, (k : ℝ) * coeff k Z * coeff (j - k) B :=
    Finset.sum_congr rfl fun k hk => by
      rw [Finset.mem_Ico] at hk
      rw [hX, hZ, hB (j - k) (by omega)]
  rw [e]
  have hj' : (j : ℝ) ≠ 0 := by positivity
  field_simp
  linarith

noncomputable def logCert (ix : ℕ) : OpCert 1 [ix] (fun e _ => Real.log (e ix))
    (fun e => e ix ∈ {x : ℝ | 0 < x}) (logForward ix) (logDir ix) (logReverse ix) :=
  have inv : ∀ x, UCurve 1 (fun _ => Real.log) {x : ℝ | 0 < x} x →
      T x * T (fun t => deriv Real.log (x t)) = 1 := fun x hc => by
    rw [← T_mul hc.sx (hc.sg (r := 0) one_pos), (by rw [T_const]; simp : (1 : ℝ⟦X⟧) = T (fun _ => 1))]
    exact T_congr (hc.ev.mono fun t ht => by
      have : x t ≠ 0 := ne_of_gt ht
      simp [this])
  mkUnary1 ix Real.log {x : ℝ | 0 < x} (isOpen_lt continuous_const continuous_id)
    (fun _ h => Real.contDiffAt_log.mpr (ne_of_gt h)) _ _ _ (logG Real.log id)
    (fun _ _ _ _ _ => logG_congr)
    (fun p q iz s => logForward_eq ix p q iz s) (fun q r iz s => logDir_eq ix q r iz s)
    (fun x hc j => by
      by_cases h : j = 0
      · subst h; simp [tc_zero, logG]
      · rw [← coeff_T]
        refine log_coeff (B := T x) (X := T x) h (by simp) (by simp) (fun _ _ => rfl)
          (by simp [tc_zero, -PowerSeries.coeff_zero_eq_constantCoeff]) (ne_of_gt hc.h0) ?_
        rw [hc.theta (r := 0) one_pos, ← mul_assoc, inv x hc, one_mul])
    (fun nv x dx n s P δ hix hc hd h1 h2 h3 h4 => by
      have := log_rev ix nv n s P δ (B := T x) (X := T x) (Z := T (fun t => Real.log (x t))) (dX := T dx)
        (dZ := T (fun t => deriv Real.log (x t) * dx t)) (b0 := s ix 0) hix (by simpa using h1)
        (by simpa using h2) (by simpa using h3) (by simpa using h4) (fun _ _ => rfl)
        (by rw [h1 0 (by omega), coeff_T]) (by rw [h1 0 (by omega), tc_zero]; exact ne_of_gt hc.h0)
        rfl (by rw [hc.theta (r := 0) one_pos, ← mul_assoc, inv x hc, one_mul])
        (by rw [hc.delta (r := 0) one_pos hd, ← mul_assoc, inv x hc, one_mul])
      exact this)
    (fun nv n s P v hv hx => by
      have : v ≠ nv := by omega
      unfold logReverse
      simp (maxDischargeDepth := 6) [add_row, set_row, forDown_row, forRange_row, hx, this])

noncomputable def log1pCert (ix : ℕ) : OpCert 1 [ix] (fun e _ => Real.log (1 + e ix))
    (fun e => e ix ∈ {x : ℝ | -1 < x}) (log1pForward ix) (log1pDir ix) (log1pReverse ix) :=
  have hcd : ∀ y ∈ {x : ℝ | -1 < x}, ContDiffAt ℝ ∞ (fun y => Real.log (1 + y)) y := fun y hy => by
    have : 1 + y ≠ 0 := by have : -1 < y := hy; linarith
    exact (Real.contDiffAt_log.mpr this).comp y (contDiffAt_const.add contDiffAt_id)
  have inv : ∀ x, UCurve 1 (fun _ y => Real.log (1 + y)) {x : ℝ | -1 < x} x →
      (1 + T x) * T (fun t => deriv (fun y => Real.log (1 + y)) (x t)) = 1 := fun x hc => by
    have e1 : (1 : ℝ⟦X⟧) = T (fun _ => 1) := by rw [T_const]; simp
    rw [e1, ← T_add contDiffAt_const hc.sx,
      ← T_mul (contDiffAt_const.add hc.sx) (hc.sg (r := 0) one_pos)]
    exact T_congr (hc.ev.mono fun t ht => by
      have : 1 + x t ≠ 0 := by have : -1 < x t := ht; linarith
      have hd : HasDerivAt (fun y => Real.log (1 + y)) (1 / (1 + x t)) (x t) :=
        HasDerivAt.log ((hasDerivAt_id _).const_add 1) this
      simp only [hd.deriv]; field_simp)
  have hB : ∀ (x : ℝ → ℝ) (k : ℕ), 1 ≤ k → coeff k (1 + T x) = coeff k (T x) := fun x k hk => by
    rw [map_add, PowerSeries.coeff_one, if_neg (by omega), zero_add]
  mkUnary1 ix (fun y => Real.log (1 + y)) {x : ℝ | -1 < x} (isOpen_lt continuous_const continuous_id)
    hcd _ _ _ (logG (fun y => Real.log (1 + y)) (fun y => 1 + y))
    (fun _ _ _ _ _ => logG_congr)
    (fun p q iz s => log1pForward_eq ix p q iz s) (fun q r iz s => log1pDir_eq ix q r iz s)
    (fun x hc j => by
      by_cases h : j = 0
      · subst h; simp [tc_zero, logG]
      · rw [← coeff_T]
        refine log_coeff (f := fun y => Real.log (1 + y)) (B := 1 + T x) (X := T x) h (by simp) (by simp)
          (hB x)
          (by simp [tc_zero, -PowerSeries.coeff_zero_eq_constantCoeff, PowerSeries.coeff_one])
          (by have : -1 < x 0 := hc.h0
              linarith) ?_
        rw [hc.theta (r := 0) one_pos, ← mul_assoc, inv x hc, one_mul])
    (fun nv x dx n s P δ hix hc hd h1 h2 h3 h4 => by
      have := log_rev ix nv n s P δ (B := 1 + T x) (X := T x) (Z := T (fun t => Real.log (1 + x t)))
        (dX := T dx)
        (dZ := T (fun t => deriv (fun y => Real.log (1 + y)) (x t) * dx t)) (b0 := 1 + s ix 0) hix
        (by simpa using h1)
        (by simpa using h2) (by simpa using h3) (by simpa using h4) (hB x)
        (by rw [h1 0 (by omega), map_add, coeff_T, PowerSeries.coeff_one, if_pos rfl])
        (by rw [h1 0 (by omega), tc_zero]
            have : -1 < x 0 := hc.h0
            linarith)
        (by rw [θ_add, θ_one, zero_add]) (by rw [hc.theta (r := 0) one_pos, ← mul_assoc, inv x hc, one_mul])
        (by rw [hc.delta (r := 0) one_pos hd, ← mul_assoc, inv x hc, one_mul])
      exact this)
    (fun nv n s P v hv hx => by
      have : v ≠ nv := by omega
      unfold log1pReverse
      simp (maxDischargeDepth := 6) [add_row, set_row, forDown_row, forRange_row, hx, this])

/-! ## sqrt -/

noncomputable def sqrtG (x z : ℕ → ℝ) (j : ℕ) : ℝ :=
  if j = 0 then Real.sqrt (x 0) else (x j / 2 - ksum z z 1 j j / (j : ℝ)) / z 0

theorem sqrtG_congr {x x' z z' : ℕ → ℝ} {j : ℕ} (hx : ∀ k ≤ j, x k = x' k)
    (hz : ∀ k < j, z k = z' k) : sqrtG x z j = sqrtG x' z' j := by
  unfold sqrtG
  split
  · rw [hx 0 (by omega)]
  · rw [ksum_congr fun k h1 h2 => ⟨hz k (by omega), hz _ (by omega)⟩, hx j le_rfl, hz 0 (by omega)]

theorem sqrtForward_eq (ix p q iz : ℕ) (s : Tay) (h : ix ≠ iz) (hpq : p ≤ q) :
    sqrtForward ix p q iz s
      = forRange p (q + 1) s (fun j s => s.set iz j (sqrtG (s ix) (s iz) j)) := by
  rw [← forRange_peel (by omega : p < q + 1)]
  simp only [sqrtForward, sqrtG, if_true]
  refine forRange_congr _ fun j s h1 h2 => ?_
  have hj : 1 ≤ j := by split at h1 <;> omega
  rw [acc_sub s iz iz iz j _ (by omega) (by omega) (Or.inr le_rfl), if_neg (by omega)]
  simp only [Tay.set_set, Tay.set_self, Tay.set_add, Tay.set_ne_row _ _ _ _ h,
    Tay.set_ne_ord (k := j) (k' := 0) _ _ _ _ (by omega : (0 : ℕ) ≠ j)]
  congr 2; ring

theorem sqrtDir_eq (ix q r iz : ℕ) (s : Tay) (h : ix ≠ iz) (hq : 1 ≤ q) :
    sqrtDir ix q r iz s = forRange 0 r s (fun ell s => s.set iz ((q - 1) * r + 1 + ell)
      (sqrtG (view r ell s ix) (view r ell s iz) q)) := by
  refine forRange_congr _ fun ell s _ hl => ?_
  simp only
  rw [dir_acc_sub s iz iz iz _ _ _ le_rfl hl (fun k h1 h2 => dirIdx_a h1) (fun k h1 h2 => dirIdx_b h2)]
  simp only [Tay.set_set, Tay.set_self, Tay.set_add, Tay.set_ne_row _ _ _ _ h, sqrtG,
    if_neg (by omega : ¬ q = 0),
    Tay.set_ne_ord (k := (q - 1) * r + 1 + ell) (k' := 0) _ _ _ _ (by omega)]
  simp only [view_apply, dirIdx_top hq, dirIdx_zero]
  congr 2; ring

theorem sqrt_rev (ix nv n : ℕ) (s P δ : Tay) {Z dX dZ : ℝ⟦X⟧} (hix : ix < nv)
    (hz : ∀ k ≤ n, s nv k = coeff k Z)
    (hδ : ∀ k, δ ix k = coeff k dX) (hδz : ∀ k, δ nv k = coeff k dZ)
    (hz0 : coeff 0 Z ≠ 0) (h2 : 2 * (Z * dZ) = dX) :
    Phi nv (fun _ => n + 1) δ (sqrtReverse ix n nv s P) = Phi (nv + 1) (fun _ => n + 1) δ P := by
  have lin : ∀ j : ℕ, 1 ≤ j → coeff 0 Z * coeff j dZ = coeff j dX / 2 - coeff j Z * coeff 0 dZ
      - ∑ k ∈ Finset.Ico 1 j, coeff k dZ * coeff (j - k) Z := by
    intro j hj
    have := congrArg (coeff j) h2
    rw [two_mul, map_add, mulG_T, Finset.sum_Ico_succ_top (by omega),
      Finset.sum_eq_sum_Ico_succ_bot (a := 0) (by omega), Nat.sub_self] at this
    have e : ∑ k ∈ Finset.Ico 1 j, coeff k dZ * coeff (j - k) Z
      = ∑ k ∈ Finset.Ico (0 + 1) j, coeff (j - k) Z * coeff k dZ :=
      Finset.sum_congr rfl fun k _ => by ring
    rw [e]
    simp only [Nat.sub_zero] at this
    linarith
  simp only [sqrtReverse]
  refine rev_loop' (m := 1) _ _ (fun P => P.add ix 0 (azmul (P nv 0) (1 / s nv 0) / 2)) _
      (fun j Q hj1 hj => ?_) fun Q => ?_
  rotate_left
  · simp only [Finset.sum_range_one, add_zero]
    rw [Phi_add _ _ _ _ _ (by omega) (Act_arg hix (by omega)), azmul_eq, hδ, hδz, ← h2, hz 0 (by omega),
      two_mul]
    simp only [PowerSeries.coeff_zero_eq_constantCoeff, map_mul, map_add] at *
    field_simp; ring
  · simp only [Finset.sum_range_one, add_zero, Tay.set_self, hz 0 (by omega),
      Tay.add_ne_row _ _ _ _ (by omega : nv ≠ ix), Tay.add_ne_ord _ _ _ _ (by omega : j ≠ 0)]
    set c := azmul (Q nv j) (1 / coeff 0 Z) with hc
    rw [azmul_eq] at hc
    have key := Ext.loop (N := nv + 1) (A := Act nv n j) (δ := δ) (lo := 1) (hi := j)
      (P := ((Q.set nv j c).add nv 0 (-azmul c (s nv j))).add ix j (c / 2))
      (body := fun k P => P.add nv k (-azmul (P nv j) (s nv (j - k))))
      (fun k => (-(c * coeff (j - k) Z)) * δ nv k) ?_
    · rw [Ext.phi_set (v := nv) (k := j) (P := Q) (((Ext.add _ _ (by omega)
        (Act_res (nv := nv) (n := n) le_rfl (by omega))).add_to _ (by omega)
        (Act_arg hix (by omega))).trans key) (Act_out le_rfl)]
      congr 1
      simp only [hδ, hδz, azmul_eq, hz j hj]
      have e : Q nv j * coeff j dZ = c * (coeff 0 Z * coeff j dZ) := by
        rw [hc]; field_simp
      rw [e, lin j hj1, mul_sub, Finset.mul_sum, sub_eq_add_neg _ (∑ k ∈ _, _),
        ← Finset.sum_neg_distrib]
      rw [Finset.sum_congr rfl (g := fun k : ℕ => -(c * (coeff k dZ * coeff (j - k) Z)))
        (fun k _ => by ring)]
      ring
    · intro k R h1 h2 hR
      have hc' : R nv j = c := by
        rw [hR nv j (Act_out le_rfl), Tay.add_ne_row _ _ _ _ (by omega),
          Tay.add_ne_ord _ _ _ _ (by omega), Tay.set_self]
      simp only [azmul_eq]
      rw [hc', hz _ (by omega)]
      exact Ext.add _ _ (by omega) (Act_res le_rfl (by omega))

noncomputable def sqrtCert (ix : ℕ) : OpCert 1 [ix] (fun e _ => Real.sqrt (e ix))
    (fun e => e ix ∈ {x : ℝ | 0 < x}) (sqrtForward ix) (sqrtDir ix) (sqrtReverse ix) :=
  have inv : ∀ x, UCurve 1 (fun _ => Real.sqrt) {x : ℝ | 0 < x} x →
      2 * (T (fun t => Real.sqrt (x t)) * T (fun t => deriv Real.sqrt (x t))) = 1 := fun x hc => by
    have e1 : (1 : ℝ⟦X⟧) = T (fun _ => 1) := by rw [T_const]; simp
    have sz := hc.sz (r := 0) one_pos
    have sg := hc.sg (r := 0) one_pos
    rw [two_mul, e1, ← T_mul sz sg, ← T_add (sz.mul sg) (sz.mul sg)]
    exact T_congr (hc.ev.mono fun t ht => by
      have h0 : x t ≠ 0 := ne_of_gt ht
      have h1 : Real.sqrt (x t) ≠ 0 := by
        rw [Real.sqrt_ne_zero']; exact ht
      simp only [(Real.hasDerivAt_sqrt h0).deriv]; field_simp; norm_num)
  mkUnary1 ix Real.sqrt {x : ℝ | 0 < x} (isOpen_lt continuous_const continuous_id)
    (fun _ h => Real.contDiffAt_sqrt (ne_of_gt h)) _ _ _ sqrtG
    (fun _ _ _ _ _ => sqrtG_congr)
    (fun p q iz s => sqrtForward_eq ix p q iz s) (fun q r iz s => sqrtDir_eq ix q r iz s)
    (fun x hc j => by
      by_cases h : j = 0
      · subst h; simp [tc_zero, sqrtG]
      · have h1 : 2 * (θ (T (fun t => Real.sqrt (x t))) * T (fun t => Real.sqrt (x t))) = θ (T x) := by
          rw [hc.theta (r := 0) one_pos]
          linear_combination (θ (T x)) * inv x hc
        have h2 := congrArg (coeff j) h1
        rw [two_mul, map_add, coeff_θ_mul_T, ksum_last (by omega), Nat.sub_self, coeff_θ, coeff_T] at h2
        unfold sqrtG
        rw [if_neg h]
        have hz0 : tc (fun t => Real.sqrt (x t)) 0 ≠ 0 := by
          rw [tc_zero, Real.sqrt_ne_zero']; exact hc.h0
        have hj' : (j : ℝ) ≠ 0 := by positivity
        field_simp
        linarith)
    (fun nv x dx n s P δ hix hc hd h1 h2 h3 h4 => by
      refine sqrt_rev ix nv n s P δ (Z := T (fun t => Real.sqrt (x t))) (dX := T dx)
        (dZ := T (fun t => deriv Real.sqrt (x t) * dx t)) hix 
        (by simpa using h2) (by simpa using h3) (by simpa using h4) ?_ ?_
      · rw [coeff_T, tc_zero, Real.sqrt_ne_zero']; exact hc.h0
      · rw [hc.delta (r := 0) one_pos hd]
        linear_combination (T dx) * inv x hc)
    (fun nv n s P v hv hx => by
      have : v ≠ nv := by omega
      unfold sqrtReverse
      simp (maxDischargeDepth := 6) [add_row, set_row, forDown_row, forRange_row, hx, this])

end CppAD
