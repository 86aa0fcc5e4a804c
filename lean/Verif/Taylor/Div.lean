import Verif.Taylor.Arith
import Mathlib.Analysis.Calculus.ContDiff.Operations
import Mathlib.Analysis.Calculus.Deriv.Inv

/-! # Certificates of the division operators -/

open scoped ContDiff Topology PowerSeries
open PowerSeries (coeff)

namespace CppAD

/-- recurrence of division -/
noncomputable def divG (x y z : ℕ → ℝ) (j : ℕ) : ℝ :=
  (x j - ∑ k ∈ Finset.Ico 1 (j + 1), z (j - k) * y k) / y 0

theorem divG_congr {x x' y y' z z' : ℕ → ℝ} {j : ℕ} (hx : ∀ k ≤ j, x k = x' k)
    (hy : ∀ k ≤ j, y k = y' k) (hz : ∀ k < j, z k = z' k) : divG x y z j = divG x' y' z' j := by
  unfold divG
  rw [hx j le_rfl, hy 0 (by omega), Finset.sum_congr rfl fun k hk => ?_]
  rw [Finset.mem_Ico] at hk
  rw [hz _ (by omega), hy _ (by omega)]

theorem div_accum (iy iz j : ℕ) (s : Tay) (w : ℝ) (hy : iy ≠ iz) :
    forRange 1 (j + 1) (s.set iz j w) (fun k s => s.add iz j (-(s iz (j - k) * s iy k)))
      = s.set iz j (w - ∑ k ∈ Finset.Ico 1 (j + 1), s iz (j - k) * s iy k) := by
  rw [forRange_accum]
  · rw [Tay.set_set, Tay.set_self, sub_eq_add_neg, ← Finset.sum_neg_distrib]
    congr 2
    exact Finset.sum_congr rfl fun k hk => by
      rw [Finset.mem_Ico] at hk
      rw [Tay.set_ne_row _ _ _ _ hy, Tay.set_ne_ord _ _ _ _ (by omega)]
  · intro k v h1 h2
    rw [Tay.set_ne_row _ _ _ _ hy, Tay.set_ne_ord (k := j) _ _ _ _ (by omega),
      Tay.set_ne_ord (k := j) _ _ _ _ (by omega), Tay.set_ne_row _ _ _ _ hy]

theorem div_accum_dir (iy iz q r ell : ℕ) (s : Tay) (w : ℝ) (hy : iy ≠ iz) (hl : ell < r) :
    forRange 1 q (s.set iz ((q - 1) * r + 1 + ell) w) (fun k s => s.add iz ((q - 1) * r + 1 + ell)
      (-(s iz ((q - k - 1) * r + 1 + ell) * s iy ((k - 1) * r + 1 + ell))))
      = s.set iz ((q - 1) * r + 1 + ell)
          (w - ∑ k ∈ Finset.Ico 1 q, view r ell s iz (q - k) * view r ell s iy k) := by
  rw [forRange_accum]
  · rw [Tay.set_set, Tay.set_self, sub_eq_add_neg, ← Finset.sum_neg_distrib]
    congr 2
    refine Finset.sum_congr rfl fun k hk => ?_
    rw [Finset.mem_Ico] at hk
    have := dirIdx_lt (q := q) (k := q - k) (by omega) hl
    rw [dirIdx_pos (by omega)] at this
    rw [Tay.set_ne_row _ _ _ _ hy, Tay.set_ne_ord _ _ _ _ (by omega), view_apply, view_apply,
      dirIdx_pos (by omega), dirIdx_pos (by omega)]
    ring_nf
  · intro k v h1 h2
    have := dirIdx_lt (q := q) (k := q - k) (by omega) hl
    rw [dirIdx_pos (by omega)] at this
    rw [Tay.set_ne_row _ _ _ _ hy, Tay.set_ne_ord (k := (q - 1) * r + 1 + ell) _ _ _ _ (by omega),
      Tay.set_ne_ord (k := (q - 1) * r + 1 + ell) _ _ _ _ (by omega), Tay.set_ne_row _ _ _ _ hy]

theorem divvvForward_eq (ix iy p q iz : ℕ) (s : Tay) (hy : iy ≠ iz) :
    divvvForward ix iy p q iz s
      = forRange p (q + 1) s (fun j s => s.set iz j (divG (s ix) (s iy) (s iz) j)) := by
  refine forRange_congr _ fun j s _ _ => ?_
  simp only [div_accum _ _ _ _ _ hy, Tay.set_set, Tay.set_self, Tay.set_ne_row _ _ _ _ hy, divG]

theorem divvvDir_eq (ix iy q r iz : ℕ) (s : Tay) (hy : iy ≠ iz) (hq : 1 ≤ q) :
    divvvDir ix iy q r iz s = forRange 0 r s (fun ell s => s.set iz ((q - 1) * r + 1 + ell)
      (divG (view r ell s ix) (view r ell s iy) (view r ell s iz) q)) := by
  refine forRange_congr _ fun ell s _ hl => ?_
  simp only [div_accum_dir _ _ _ _ _ _ _ hy hl, Tay.set_set, Tay.set_self, Tay.set_ne_row _ _ _ _ hy,
    divG]
  rw [Finset.sum_Ico_succ_top hq]
  simp only [view_apply, dirIdx_top hq, Nat.sub_self, dirIdx_zero]
  congr 2; ring

/-- coefficients of a parameter -/
def parRow (x : ℝ) (j : ℕ) : ℝ := if j = 0 then x else 0

theorem divpvForward_eq (x : ℝ) (iy p q iz : ℕ) (s : Tay) (hy : iy ≠ iz) (hpq : p ≤ q) :
    divpvForward x iy p q iz s
      = forRange p (q + 1) s (fun j s => s.set iz j (divG (parRow x) (s iy) (s iz) j)) := by
  rw [← forRange_peel (by omega : p < q + 1)]
  have e : ∀ s : Tay, divG (parRow x) (s iy) (s iz) 0 = x / s iy 0 := by simp [divG, parRow]
  simp only [divpvForward, e]
  refine forRange_congr _ fun j s hj _ => ?_
  have hj : j ≠ 0 := by split at hj <;> omega
  simp only [div_accum _ _ _ _ _ hy, Tay.set_set, Tay.set_self, Tay.set_ne_row _ _ _ _ hy, divG, parRow,
    if_neg hj]

theorem divpvDir_eq (x : ℝ) (iy q r iz : ℕ) (s : Tay) (hy : iy ≠ iz) (hq : 1 ≤ q) :
    divpvDir x iy q r iz s = forRange 0 r s (fun ell s => s.set iz ((q - 1) * r + 1 + ell)
      (divG (parRow x) (view r ell s iy) (view r ell s iz) q)) := by
  refine forRange_congr _ fun ell s _ hl => ?_
  simp only [div_accum_dir _ _ _ _ _ _ _ hy hl, Tay.set_set, Tay.set_self, Tay.set_ne_row _ _ _ _ hy,
    divG]
  rw [Finset.sum_Ico_succ_top hq]
  simp only [view_apply, dirIdx_top hq, Nat.sub_self, dirIdx_zero, parRow,
    if_neg (by omega : ¬ q = 0)]
  congr 2; ring

theorem div_coeff {X Y Z : ℝ⟦X⟧} (h : Z * Y = X) (j : ℕ) (h0 : coeff 0 Y ≠ 0) :
    coeff j Z = divG (fun k => coeff k X) (fun k => coeff k Y) (fun k => coeff k Z) j := by
  unfold divG
  rw [← h]
  simp only
  rw [mulG_T, Finset.sum_eq_sum_Ico_succ_bot (a := 0) (by omega)]
  simp only [Nat.sub_zero]
  field_simp
  ring

/-- the part of the reverse loop common to `vv` and `pv` -/
theorem div_inner (iy nv n j : ℕ) (s Q δ : Tay) {Y Z : ℝ⟦X⟧} (hiy : iy < nv) (hj : j ≤ n)
    (hy : ∀ k ≤ n, s iy k = coeff k Y) (hz : ∀ k ≤ n, s nv k = coeff k Z) :
    Ext (nv + 1) (Act nv n j) δ Q
      ((forRange 1 (j + 1) Q fun k P =>
        (P.add nv (j - k) (-(azmul (P nv j) (s iy k)))).add iy k
          (-(azmul (P.add nv (j - k) (-(azmul (P nv j) (s iy k))) nv j) (s nv (j - k))))).add iy 0
        (-(azmul ((forRange 1 (j + 1) Q fun k P =>
        (P.add nv (j - k) (-(azmul (P nv j) (s iy k)))).add iy k
          (-(azmul (P.add nv (j - k) (-(azmul (P nv j) (s iy k))) nv j) (s nv (j - k)))))
            nv j) (s nv j))))
      (-Q nv j * (∑ k ∈ Finset.Ico 1 (j + 1), (δ nv (j - k) * coeff k Y + coeff (j - k) Z * δ iy k)
        + coeff j Z * δ iy 0)) := by
  have h := Ext.loop (N := nv + 1) (A := Act nv n j) (δ := δ) (lo := 1) (hi := j + 1) (P := Q)
    (body := fun k P => (P.add nv (j - k) (-(azmul (P nv j) (s iy k)))).add iy k
          (-(azmul (P.add nv (j - k) (-(azmul (P nv j) (s iy k))) nv j) (s nv (j - k)))))
    (fun k => (-(Q nv j * coeff k Y)) * δ nv (j - k) + (-(Q nv j * coeff (j - k) Z)) * δ iy k) ?_
  · refine (h.add_to _ (by omega) (Act_arg hiy (by omega))).val ?_
    rw [h.1 nv j (Act_out le_rfl), azmul_eq, hz j hj, mul_add, Finset.mul_sum]
    congr 1
    · exact Finset.sum_congr rfl fun k _ => by ring
    · ring
  · intro k R h1 h2 hR
    have hc' : R nv j = Q nv j := hR nv j (Act_out le_rfl)
    simp only [azmul_eq]
    rw [Tay.add_ne_ord (k := j - k) _ _ _ _ (by omega), hc', hy _ (by omega), hz _ (by omega)]
    exact (Ext.add _ _ (by omega) (Act_res le_rfl (by omega))).add_to _ (by omega)
          (Act_arg hiy (by omega))

theorem div_lin {Y Z dX dY dZ : ℝ⟦X⟧} (h : dZ * Y + Z * dY = dX) (j : ℕ) :
    coeff 0 Y * coeff j dZ = coeff j dX - (∑ k ∈ Finset.Ico 1 (j + 1),
      (coeff (j - k) dZ * coeff k Y + coeff (j - k) Z * coeff k dY) + coeff j Z * coeff 0 dY) := by
  rw [← h, map_add, mulG_T, mulG_T, Finset.sum_eq_sum_Ico_succ_bot (a := 0) (by omega),
    Finset.sum_eq_sum_Ico_succ_bot (a := 0) (by omega), Finset.sum_add_distrib]
  simp only [Nat.sub_zero, Nat.zero_add]; ring

theorem divvv_rev (ix iy nv n : ℕ) (s P δ : Tay) {Y Z dX dY dZ : ℝ⟦X⟧} (hix : ix < nv) (hiy : iy < nv)
    (hy : ∀ k ≤ n, s iy k = coeff k Y) (hz : ∀ k ≤ n, s nv k = coeff k Z)
    (hδ : ∀ k, δ ix k = coeff k dX) (hδy : ∀ k, δ iy k = coeff k dY) (hδz : ∀ k, δ nv k = coeff k dZ)
    (h2 : dZ * Y + Z * dY = dX) (h0 : coeff 0 Y ≠ 0) :
    Phi nv (fun _ => n + 1) δ (divvvReverse ix iy n nv s P) = Phi (nv + 1) (fun _ => n + 1) δ P := by
  simp only [divvvReverse]
  refine rev_loop (m := 1) _ _ _ fun j Q hj => ?_
  simp only [Finset.sum_range_one, add_zero, Tay.set_self]
  rw [Ext.phi_set (v := nv) (k := j) (P := Q) (Ext.trans (Ext.add (v := ix) (k := j) _ _ (by omega)
    (Act_arg hix (by omega))) (div_inner iy nv n j s _ δ hiy hj hy hz)) (Act_out le_rfl)]
  congr 1
  rw [Tay.add_ne_row _ _ _ _ (by omega), Tay.set_self]
  simp only [azmul_eq, hδ, hδy, hδz, hy 0 (by omega)]
  have := div_lin h2 j
  have e : Q nv j * coeff j dZ = Q nv j * (1 / coeff 0 Y) * (coeff 0 Y * coeff j dZ) := by
    field_simp
  rw [e, this]; ring

theorem divpv_rev (x : ℝ) (iy nv n : ℕ) (s P δ : Tay) {Y Z dY dZ : ℝ⟦X⟧} (hiy : iy < nv)
    (hy : ∀ k ≤ n, s iy k = coeff k Y) (hz : ∀ k ≤ n, s nv k = coeff k Z)
    (hδy : ∀ k, δ iy k = coeff k dY) (hδz : ∀ k, δ nv k = coeff k dZ)
    (h2 : dZ * Y + Z * dY = 0) (h0 : coeff 0 Y ≠ 0) :
    Phi nv (fun _ => n + 1) δ (divpvReverse x iy n nv s P) = Phi (nv + 1) (fun _ => n + 1) δ P := by
  simp only [divpvReverse]
  refine rev_loop (m := 1) _ _ _ fun j Q hj => ?_
  simp only [Finset.sum_range_one, add_zero]
  rw [Ext.phi_set (v := nv) (k := j) (P := Q) (div_inner iy nv n j s _ δ hiy hj hy hz) (Act_out le_rfl)]
  congr 1
  rw [Tay.set_self]
  simp only [azmul_eq, hδy, hδz, hy 0 (by omega)]
  have := div_lin h2 j
  rw [map_zero] at this
  have e : Q nv j * coeff j dZ = Q nv j * (1 / coeff 0 Y) * (coeff 0 Y * coeff j dZ) := by
    field_simp
  rw [e, this]; ring

theorem BFun_div : BFun 1 (fun _ x y => x / y) (fun _ _ y => 1 / y) (fun _ x y => - x / y ^ 2)
    {u | u.2 ≠ 0} where
  hD := isOpen_ne_fun continuous_snd continuous_const
  hf _ _ u hu := contDiffAt_fst.div contDiffAt_snd hu
  hfx _ _ u hu := contDiffAt_const.div contDiffAt_snd hu
  hfy _ _ u hu := contDiffAt_fst.neg.div (contDiffAt_snd.pow 2) (pow_ne_zero 2 hu)
  hd _ _ x y dx dy t hx hy hu := (hx.fun_div hy hu).congr_deriv (by
    have : y t ≠ 0 := hu
    field_simp; ring)

noncomputable def divvvCert (ix iy : ℕ) : OpCert 1 [ix, iy] (fun e _ => e ix / e iy)
    (fun e => (e ix, e iy) ∈ {u : ℝ × ℝ | u.2 ≠ 0})
    (divvvForward ix iy) (divvvDir ix iy) (divvvReverse ix iy) :=
  mkBinary1 ix iy (fun x y => x / y) (fun _ y => 1 / y) (fun x y => - x / y ^ 2) _ BFun_div _ _ _ divG
    (fun _ _ _ _ _ _ _ => divG_congr)
    (fun p q iz s _ hy _ => divvvForward_eq ix iy p q iz s hy)
    (fun q r iz s _ hy hq => divvvDir_eq ix iy q r iz s hy hq)
    (fun x y hc hs j => by
      have h : T (fun t => x t / y t) * T y = T x := by
        rw [← T_mul hs hc.sy]
        exact T_congr (hc.ev.mono fun t ht => div_mul_cancel₀ _ ht)
      have := div_coeff h j (by simpa [tc_zero, -PowerSeries.coeff_zero_eq_constantCoeff] using hc.h0)
      simpa using this)
    (fun nv x y dx dy n s P δ hix hiy hc hdx hdy hs h0 h1 h2 h3 h4 h5 => by
      have sfx : Sm (fun t => 1 / y t) := contDiffAt_const.div hc.sy hc.h0
      have sfy : Sm (fun t => -x t / y t ^ 2) := hc.sx.neg.div (hc.sy.pow 2) (pow_ne_zero 2 hc.h0)
      refine divvv_rev ix iy nv n s P δ (Y := T y) (Z := T (fun t => x t / y t)) (dX := T dx) (dY := T dy)
        (dZ := T (fun t => 1 / y t * dx t + -x t / y t ^ 2 * dy t)) hix hiy ?_ ?_ ?_ ?_ ?_ ?_ ?_
      · simpa using h1
      · simpa using h2
      · simpa using h3
      · simpa using h4
      · simpa using h5
      · rw [← T_mul ((sfx.mul hdx).add (sfy.mul hdy)) hc.sy, ← T_mul hs hdy,
          ← T_add (((sfx.mul hdx).add (sfy.mul hdy)).mul hc.sy) (hs.mul hdy)]
        refine T_congr (hc.ev.mono fun t ht => ?_)
        have : y t ≠ 0 := ht
        simp only
        field_simp; ring
      · simpa [tc_zero, -PowerSeries.coeff_zero_eq_constantCoeff] using hc.h0)
    (fun nv n s P v hv hx hy => by
      have : v ≠ nv := by omega
      unfold divvvReverse
      simp (maxDischargeDepth := 6) [add_row, set_row, forDown0_row, forRange_row, hx, hy, this])

noncomputable def divpvCert (x : ℝ) (iy : ℕ) : OpCert 1 [iy] (fun e _ => x / e iy)
    (fun e => e iy ∈ {y : ℝ | y ≠ 0}) (divpvForward x iy) (divpvDir x iy) (divpvReverse x iy) :=
  mkUnary1 iy (fun y => x / y) _ isOpen_ne (fun y hy => contDiffAt_const.div contDiffAt_id hy) _ _ _
    (fun y z j => divG (parRow x) y z j)
    (fun _ _ _ _ _ hy hz => divG_congr (fun _ _ => rfl) hy hz)
    (fun p q iz s hy hpq => divpvForward_eq x iy p q iz s hy hpq)
    (fun q r iz s hy hq => divpvDir_eq x iy q r iz s hy hq)
    (fun y hc j => by
      have h : T (fun t => x / y t) * T y = PowerSeries.C x := by
        rw [← T_mul (hc.sz (r := 0) one_pos) hc.sx, ← T_const]
        exact T_congr (hc.ev.mono fun t ht => div_mul_cancel₀ _ ht)
      have := div_coeff h j (by simpa [tc_zero, -PowerSeries.coeff_zero_eq_constantCoeff] using hc.h0)
      have e : (fun k => coeff k (PowerSeries.C x)) = parRow x := by
        funext k; simp [parRow, PowerSeries.coeff_C]
      rw [e] at this
      simpa using this)
    (fun nv y dy n s P δ hiy hc hdy h1 h2 h3 h4 => by
      refine divpv_rev x iy nv n s P δ (Y := T y) (Z := T (fun t => x / y t)) (dY := T dy)
        (dZ := T (fun t => deriv (fun y => x / y) (y t) * dy t)) hiy ?_ ?_ ?_ ?_ ?_ ?_
      · simpa using h1
      · simpa using h2
      · simpa using h3
      · simpa using h4
      · have sz := hc.sz (r := 0) one_pos
        have sg := hc.sg (r := 0) one_pos
        rw [← T_mul (sg.mul hdy) hc.sx, ← T_mul sz hdy, ← T_add ((sg.mul hdy).mul hc.sx) (sz.mul hdy)]
        have : (0 : ℝ⟦X⟧) = T (fun _ => 0) := by rw [T_const]; simp
        rw [this]
        refine T_congr (hc.ev.mono fun t ht => ?_)
        have : y t ≠ 0 := ht
        have hd : HasDerivAt (fun y => x / y) (- x / (y t) ^ 2) (y t) :=
          ((hasDerivAt_const (y t) x).fun_div (hasDerivAt_id (y t)) ht).congr_deriv (by simp)
        simp only [hd.deriv]
        field_simp; ring
      · simpa [tc_zero, -PowerSeries.coeff_zero_eq_constantCoeff] using hc.h0)
    (fun nv n s P v hv hy => by
      have : v ≠ nv := by omega
      unfold divpvReverse
      simp (maxDischargeDepth := 6) [add_row, set_row, forDown0_row, forRange_row, hy, this])

end CppAD
