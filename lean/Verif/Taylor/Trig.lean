import Verif.Taylor.Two
import Verif.Taylor.ModelTrig
import Mathlib.Analysis.SpecialFunctions.Trigonometric.Deriv

/-! # Certificates of sin, cos, sinh and cosh -/

open scoped ContDiff Topology PowerSeries
open PowerSeries (coeff)

namespace CppAD

noncomputable def trigGa (b : ℕ) (fs : ℝ → ℝ) (x : ℕ → ℝ) (z : ℕ → ℕ → ℝ) (j : ℕ) : ℝ :=
  if j = 0 then fs (x 0) else ksum x (z b) 1 (j + 1) j / (j : ℝ)

noncomputable def trigGb (a : ℕ) (fc : ℝ → ℝ) (sg : ℝ) (x : ℕ → ℝ) (z : ℕ → ℕ → ℝ) (_ : ℝ) (j : ℕ) : ℝ :=
  if j = 0 then fc (x 0) else sg * ksum x (z a) 1 (j + 1) j / (j : ℝ)

theorem trigGa_congr {b : ℕ} (hb : b < 2) {fs : ℝ → ℝ} {x x' : ℕ → ℝ} {z z' : ℕ → ℕ → ℝ} {j : ℕ}
    (hx : ∀ k ≤ j, x k = x' k) (hz : ∀ r < 2, ∀ k < j, z r k = z' r k) :
    trigGa b fs x z j = trigGa b fs x' z' j := by
  unfold trigGa
  split
  · rw [hx 0 (by omega)]
  · rw [ksum_congr fun k h1 h2 => ⟨hx k (by omega), hz b hb _ (by omega)⟩]

theorem trigGb_congr {a : ℕ} (ha : a < 2) {fc : ℝ → ℝ} {sg : ℝ} {x x' : ℕ → ℝ} {z z' : ℕ → ℕ → ℝ} {u : ℝ}
    {j : ℕ} (hx : ∀ k ≤ j, x k = x' k) (hz : ∀ r < 2, ∀ k < j, z r k = z' r k) :
    trigGb a fc sg x z u j = trigGb a fc sg x' z' u j := by
  unfold trigGb
  split
  · rw [hx 0 (by omega)]
  · rw [ksum_congr fun k h1 h2 => ⟨hx k (by omega), hz a ha _ (by omega)⟩]

theorem trigForward_eq (fs fc : ℝ → ℝ) (sg : ℝ) (ix p q nv a b : ℕ) (s : Tay) (hx : ix < nv) (hab : a ≠ b)
    (hpq : p ≤ q) :
    trigForward fs fc sg ix p q (nv + a) (nv + b) s
      = forRange p (q + 1) s (fun j s => s.set2 (nv + a) (nv + b) j
          (trigGa b fs (s ix) (fun r => s (nv + r)) j)
          (trigGb a fc sg (s ix) (fun r => s (nv + r)) (trigGa b fs (s ix) (fun r => s (nv + r)) j) j)) := by
  have hn : nv + a ≠ nv + b := by omega
  rw [← forRange_peel (by omega : p < q + 1)]
  simp only [trigForward, trigGa, trigGb, if_true, Tay.set_ne_row _ _ _ _ (by omega : ix ≠ nv + a),
    Tay.set_set2 hn]
  refine forRange_congr _ fun j s h1 h2 => ?_
  have hj : j ≠ 0 := by split at h1 <;> omega
  rw [forRange_accum2 s hn 0 0 (fun k s => (k : ℝ) * s ix k * s (nv + b) (j - k))
    (fun k s => sg * ((k : ℝ) * s ix k * s (nv + a) (j - k)))
    (fun k u v h1 h2 => by
      simp only [Tay.set2_row hn (by omega : ix ≠ nv + a) (by omega), Tay.set2_ord hn (by omega : j - k ≠ j)])
    (fun k u v h1 h2 => by
      simp only [Tay.set2_row hn (by omega : ix ≠ nv + a) (by omega), Tay.set2_ord hn (by omega : j - k ≠ j)])]
  rw [Tay.set2_a hn, Tay.set2_set_a hn, Tay.set2_b hn, Tay.set2_set2 hn, if_neg hj, if_neg hj,
    ← Finset.mul_sum, zero_add, zero_add]
  rfl

theorem trigDir_eq (fs fc : ℝ → ℝ) (sg : ℝ) (ix q r nv a b : ℕ) (s : Tay) (hx : ix < nv) (hab : a ≠ b)
    (hq : 1 ≤ q) :
    trigDir sg ix q r (nv + a) (nv + b) s
      = forRange 0 r s (fun ell s => s.set2 (nv + a) (nv + b) ((q - 1) * r + 1 + ell)
          (trigGa b fs (view r ell s ix) (fun i => view r ell s (nv + i)) q)
          (trigGb a fc sg (view r ell s ix) (fun i => view r ell s (nv + i))
            (trigGa b fs (view r ell s ix) (fun i => view r ell s (nv + i)) q) q)) := by
  have hn : nv + a ≠ nv + b := by omega
  refine forRange_congr _ fun ell s _ hl => ?_
  simp only
  rw [Tay.set_ne_row _ _ _ _ (by omega : ix ≠ nv + a), Tay.set_ne_ord (k' := 0) _ _ _ _ (by omega),
    Tay.set_set2 (s := s) hn,
    forRange_accum2 s hn _ _ (fun k s => (k : ℝ) * s ix ((k - 1) * r + 1 + ell)
      * s (nv + b) ((q - k - 1) * r + 1 + ell))
    (fun k s => sg * ((k : ℝ) * s ix ((k - 1) * r + 1 + ell) * s (nv + a) ((q - k - 1) * r + 1 + ell)))
    (fun k u v h1 h2 => by
      have := dirIdx_lt (q := q) (k := q - k) (by omega) hl
      rw [← dirIdx_b h2] at this
      simp only [Tay.set2_row hn (by omega : ix ≠ nv + a) (by omega),
        Tay.set2_ord hn (by omega : (q - k - 1) * r + 1 + ell ≠ (q - 1) * r + 1 + ell)])
    (fun k u v h1 h2 => by
      have := dirIdx_lt (q := q) (k := q - k) (by omega) hl
      rw [← dirIdx_b h2] at this
      simp only [Tay.set2_row hn (by omega : ix ≠ nv + a) (by omega),
        Tay.set2_ord hn (by omega : (q - k - 1) * r + 1 + ell ≠ (q - 1) * r + 1 + ell)]),
    Tay.set2_a hn, Tay.set2_set_a hn, Tay.set2_b hn, Tay.set2_set_b hn, trigGa, trigGb, if_neg (by omega),
    if_neg (by omega), ksum_last hq, ksum_last hq, ← Finset.mul_sum]
  have e : ∀ c : ℕ, ∑ k ∈ Finset.Ico 1 q, (k : ℝ) * s ix ((k - 1) * r + 1 + ell) * s c ((q - k - 1) * r + 1 + ell)
      = ksum (view r ell s ix) (view r ell s c) 1 q q := fun c =>
    Finset.sum_congr rfl fun k hk => by
      rw [Finset.mem_Ico] at hk
      rw [dirIdx_a hk.1, dirIdx_b hk.2]; rfl
  rw [e, e, Nat.sub_self]
  simp only [view_apply, dirIdx_top hq, dirIdx_zero]
  congr 1 <;> ring

theorem trig_rev (sg : ℝ) (ix nv n is ic : ℕ) (s P δ : Tay) {X S C dX dS dC : ℝ⟦X⟧} (hix : ix < nv)
    (his : nv ≤ is ∧ is < nv + 2) (hic : nv ≤ ic ∧ ic < nv + 2) (hne : is ≠ ic)
    (hs : ∀ k ≤ n, s ix k = coeff k X) (hS : ∀ k ≤ n, s is k = coeff k S) (hC : ∀ k ≤ n, s ic k = coeff k C)
    (hδ : ∀ k, δ ix k = coeff k dX) (hδS : ∀ k, δ is k = coeff k dS) (hδC : ∀ k, δ ic k = coeff k dC)
    (h1 : θ S = C * θ X) (h2 : θ C = (sg : ℝ) • (S * θ X))
    (h3 : dS = C * dX) (h4 : dC = sg • (S * dX)) :
    Phi nv (fun _ => n + 1) δ (trigReverse sg ix n is ic s P) = Phi (nv + 2) (fun _ => n + 1) δ P := by
  have e1 : θ dS = θ dX * C + θ X * dC := by
    rw [h3, θ_mul, h2, h4, Algebra.mul_smul_comm]; ring_nf
    rw [Algebra.smul_mul_assoc]; ring_nf
  have hsm : ∀ F : ℝ⟦X⟧, θ (sg • F) = sg • θ F := fun F => by
    ext k; simp only [coeff_θ, PowerSeries.coeff_smul, smul_eq_mul]; ring
  have e2 : θ dC = sg • (θ dX * S + θ X * dS) := by
    rw [h4, hsm, θ_mul, h1, h3]; congr 1; ring
  have lin1 : ∀ j : ℕ, (j : ℝ) * coeff j dS = ∑ k ∈ Finset.Ico 1 (j + 1),
      (k : ℝ) * (coeff k dX * coeff (j - k) C + coeff k X * coeff (j - k) dC) := by
    intro j
    rw [← coeff_θ, e1, map_add, coeff_θ_mul, coeff_θ_mul, ← Finset.sum_add_distrib]
    exact Finset.sum_congr rfl fun k _ => by ring
  have lin2 : ∀ j : ℕ, (j : ℝ) * coeff j dC = ∑ k ∈ Finset.Ico 1 (j + 1),
      (k : ℝ) * (sg * (coeff k dX * coeff (j - k) S + coeff k X * coeff (j - k) dS)) := by
    intro j
    rw [← coeff_θ, e2, PowerSeries.coeff_smul, smul_eq_mul, map_add, coeff_θ_mul, coeff_θ_mul,
      ← Finset.sum_add_distrib, Finset.mul_sum]
    exact Finset.sum_congr rfl fun k _ => by ring
  have sum2 : ∀ g : ℕ → ℝ, ∑ r ∈ Finset.range 2, g (nv + r) = g is + g ic := fun g => by
    rw [Finset.sum_range_succ, Finset.sum_range_one, add_zero]
    rcases (by omega : (is = nv ∧ ic = nv + 1) ∨ (is = nv + 1 ∧ ic = nv)) with ⟨rfl, rfl⟩ | ⟨rfl, rfl⟩
    · rfl
    · exact add_comm _ _
  refine rev_loop' (m := 2) _ _ (fun P => (P.add ix 0 (azmul (P is 0) (s ic 0))).add ix 0
    (sg * azmul ((P.add ix 0 (azmul (P is 0) (s ic 0))) ic 0) (s is 0))) _ (fun j Q hj1 hj => ?_) fun Q => ?_
  rotate_left
  · rw [sum2 (fun v => Q v 0 * δ v 0)]
    simp only [Tay.add_ne_row _ _ _ _ (by omega : ic ≠ ix)]
    rw [Phi_add _ _ _ _ _ (by omega) (Act_arg hix (by omega)),
      Phi_add _ _ _ _ _ (by omega) (Act_arg hix (by omega))]
    simp only [azmul_eq]
    rw [hδ, hδS, hδC, hS 0 (by omega), hC 0 (by omega), h3, h4, PowerSeries.coeff_smul]
    simp; ring
  · rw [sum2 (fun v => Q v j * δ v j)]
    simp only
    set c1 := Q is j / (j : ℝ) with hc1
    rw [Tay.set_ne_row _ _ _ _ hne.symm]
    set c2 := Q ic j / (j : ℝ) with hc2
    rw [Ext.phi_set (v := ic) (k := j) (y := c2) (P := Q.set is j c1)
        (Ext.loop (fun k => ((k : ℝ) * (c1 * coeff (j - k) C)) * δ ix k
        + (sg * ((k : ℝ) * (c2 * coeff (j - k) S))) * δ ix k
        + (sg * ((k : ℝ) * (c2 * coeff k X))) * δ is (j - k)
        + ((k : ℝ) * (c1 * coeff k X)) * δ ic (j - k)) fun k R h1 h2 hR => ?_) (Act_out hic.1),
        Phi_set_out _ _ _ _ _ (Act_out his.1)]
    · congr 1
      simp only [hδ, hδS, hδC]
      have hj' : (j : ℝ) ≠ 0 := by positivity
      have e : Q is j * coeff j dS = c1 * ((j : ℝ) * coeff j dS) := by
        rw [hc1]; field_simp
      have e' : Q ic j * coeff j dC = c2 * ((j : ℝ) * coeff j dC) := by
        rw [hc2]; field_simp
      rw [e, e', lin1, lin2, Finset.mul_sum, Finset.mul_sum, ← Finset.sum_add_distrib]
      exact Finset.sum_congr rfl fun k _ => by ring
    · have hR1 : R is j = c1 := by
        rw [hR is j (Act_out his.1), Tay.set_ne_row _ _ _ _ hne, Tay.set_self]
      have hR2 : R ic j = c2 := by rw [hR ic j (Act_out hic.1), Tay.set_self]
      simp only [azmul_eq, Tay.add_ne_row _ _ _ _ (by omega : is ≠ ix),
        Tay.add_ne_row _ _ _ _ (by omega : ic ≠ ix), Tay.add_ne_ord _ _ _ _ (by omega : j ≠ j - k),
        hR1, hR2]
      rw [hC _ (by omega), hs _ (by omega), hS _ (by omega)]
      exact (((Ext.add _ _ (by omega) (Act_arg hix (by omega))).add_to _ (by omega)
          (Act_arg hix (by omega))).add_to _ (by omega) (Act_res his.1 (by omega))).add_to _ (by omega)
          (Act_res hic.1 (by omega))

theorem trig_frame (sg : ℝ) (ix n is ic v : ℕ) (s P : Tay) (h1 : v ≠ ix) (h2 : v ≠ is) (h3 : v ≠ ic) :
    trigReverse sg ix n is ic s P v = P v := by
  unfold trigReverse
  simp (maxDischargeDepth := 8) [add_row, set_row, forDown_row, forRange_row, h1, h2, h3]

/-- certificate; `f a = fs` is the sine like function and `f b = fc` the cosine like function -/
noncomputable def trigCert (ix a b : ℕ) (hab : a + b = 1) (fs fc : ℝ → ℝ) (sg : ℝ) (f : ℕ → ℝ → ℝ)
    (hfa : f a = fs) (hfb : f b = fc) (hs : ContDiff ℝ ∞ fs) (hc : ContDiff ℝ ∞ fc)
    (ds : ∀ y, deriv fs y = fc y) (dc : ∀ y, deriv fc y = sg * fs y)
    (fwd dir : ℕ → ℕ → ℕ → Tay → Tay) (rev : ℕ → ℕ → Tay → Tay → Tay)
    (hfwd : ∀ nv p q s, fwd p q (nv + 1) s = trigForward fs fc sg ix p q (nv + a) (nv + b) s)
    (hdir : ∀ nv q r s, dir q r (nv + 1) s = trigDir sg ix q r (nv + a) (nv + b) s)
    (hrev : ∀ nv n s P, rev n (nv + 1) s P = trigReverse sg ix n (nv + a) (nv + b) s P) :
    OpCert 2 [ix] (fun e r => f r (e ix)) (fun e => e ix ∈ Set.univ) fwd dir rev :=
  have hcase : ∀ r < 2, r = a ∨ r = b := fun r hr => by omega
  have hsm : ∀ (r : ℕ), r < 2 → ∀ y ∈ Set.univ, ContDiffAt ℝ ∞ (f r) y := fun r hr y _ => by
    rcases hcase r hr with rfl | rfl
    · rw [hfa]; exact hs.contDiffAt
    · rw [hfb]; exact hc.contDiffAt
  have key : ∀ x, UCurve 2 f Set.univ x →
      θ (T (fun t => fs (x t))) = T (fun t => fc (x t)) * θ (T x) ∧
      θ (T (fun t => fc (x t))) = sg • (T (fun t => fs (x t)) * θ (T x)) := fun x hx => by
    have h1 := hx.theta (r := a) (by omega)
    have h2 := hx.theta (r := b) (by omega)
    rw [hfa] at h1; rw [hfb] at h2
    rw [h1, h2]
    constructor
    · simp only [ds]
    · simp only [dc]
      have := hx.sz (r := a) (by omega); rw [hfa] at this
      rw [T_mul contDiffAt_const this, T_const, ← Algebra.smul_mul_assoc, PowerSeries.smul_eq_C_mul]
  mkUnary2 ix a b hab f Set.univ isOpen_univ hsm fwd dir rev (trigGa b fs) (trigGb a fc sg)
    (fun _ _ _ _ _ => trigGa_congr (by omega)) (fun _ _ _ _ _ _ => trigGb_congr (by omega))
    (fun nv p q s hix hpq => by
      rw [hfwd]; exact trigForward_eq fs fc sg ix p q nv a b s hix (by omega) hpq)
    (fun nv q r s hix hq => by
      rw [hdir]; exact trigDir_eq fs fc sg ix q r nv a b s hix (by omega) hq)
    (fun x hx j => by
      obtain ⟨h1, h2⟩ := key x hx
      unfold trigGa trigGb
      rw [hfa, hfb]
      by_cases hj : j = 0
      · subst hj; simp [tc_zero]
      · have hj' : (j : ℝ) ≠ 0 := by positivity
        have e1 := congrArg (coeff j) h1
        have e2 := congrArg (coeff j) h2
        rw [mul_comm, coeff_θ_mul_T, coeff_θ, coeff_T] at e1
        rw [PowerSeries.coeff_smul, mul_comm, coeff_θ_mul_T, coeff_θ, coeff_T, smul_eq_mul] at e2
        simp only [if_neg hj, hfa, hfb]
        rw [← e1, ← e2]
        constructor <;> field_simp)
    (fun nv x dx n s P δ hix hx hd h1 h2 h3 h4 h5 h6 _ => by
      obtain ⟨k1, k2⟩ := key x hx
      have hS : ∀ r < 2, (∀ k ≤ n, s (nv + r) k = tc (fun t => f r (x t)) k) ∧
          (∀ k, δ (nv + r) k = tc (fun t => deriv (f r) (x t) * dx t) k) := fun r hr => by
        rcases (by omega : r = 0 ∨ r = 1) with rfl | rfl
        · exact ⟨h2, h5⟩
        · exact ⟨h3, h6⟩
      have da := hx.delta (r := a) (by omega) hd
      have db := hx.delta (r := b) (by omega) hd
      have s1 := hx.sz (r := a) (by omega)
      obtain ⟨a1, a2⟩ := hS a (by omega)
      obtain ⟨b1, b2⟩ := hS b (by omega)
      rw [hfa] at a1 a2 da s1
      rw [hfb] at b1 b2 db
      rw [hrev]
      refine trig_rev sg ix nv n (nv + a) (nv + b) s P δ (X := T x) (S := T (fun t => fs (x t)))
        (C := T (fun t => fc (x t))) (dX := T dx) (dS := T (fun t => deriv fs (x t) * dx t))
        (dC := T (fun t => deriv fc (x t) * dx t)) hix ⟨by omega, by omega⟩ ⟨by omega, by omega⟩ (by omega)
        (by simpa using h1) (by simpa using a1) (by simpa using b1) (by simpa using h4) (by simpa using a2)
        (by simpa using b2) k1 k2 ?_ ?_
      · rw [da]; simp only [ds]
      · rw [db]; simp only [dc]
        rw [T_mul contDiffAt_const s1, T_const, ← Algebra.smul_mul_assoc, PowerSeries.smul_eq_C_mul])
    (fun nv n s P v hv hne => by
      rw [hrev]; exact trig_frame _ _ _ _ _ _ _ _ hne (by omega) (by omega))

/-- sin: row `nv` is cos, row `nv + 1` is sin -/
noncomputable def sinCert (ix : ℕ) : OpCert 2 [ix]
    (fun e r => (if r = 0 then Real.cos else Real.sin) (e ix))
    (fun e => e ix ∈ Set.univ) (sinForward ix) (sinDir ix) (sinReverse ix) :=
  trigCert ix 1 0 rfl Real.sin Real.cos (-1) (fun r => if r = 0 then Real.cos else Real.sin) rfl rfl
    Real.contDiff_sin Real.contDiff_cos (fun y => by simp) (fun y => by simp) _ _ _
    (fun _ _ _ _ => rfl) (fun _ _ _ _ => rfl) (fun _ _ _ _ => rfl)

/-- cos: row `nv` is sin, row `nv + 1` is cos -/
noncomputable def cosCert (ix : ℕ) : OpCert 2 [ix]
    (fun e r => (if r = 0 then Real.sin else Real.cos) (e ix))
    (fun e => e ix ∈ Set.univ) (cosForward ix) (cosDir ix) (cosReverse ix) :=
  trigCert ix 0 1 rfl Real.sin Real.cos (-1) (fun r => if r = 0 then Real.sin else Real.cos) rfl rfl
    Real.contDiff_sin Real.contDiff_cos (fun y => by simp) (fun y => by simp) _ _ _
    (fun _ _ _ _ => rfl) (fun _ _ _ _ => rfl) (fun _ _ _ _ => rfl)

/-- sinh: row `nv` is cosh, row `nv + 1` is sinh -/
noncomputable def sinhCert (ix : ℕ) : OpCert 2 [ix]
    (fun e r => (if r = 0 then Real.cosh else Real.sinh) (e ix))
    (fun e => e ix ∈ Set.univ) (sinhForward ix) (sinhDir ix) (sinhReverse ix) :=
  trigCert ix 1 0 rfl Real.sinh Real.cosh 1 (fun r => if r = 0 then Real.cosh else Real.sinh) rfl rfl
    Real.contDiff_sinh Real.contDiff_cosh (fun y => by simp) (fun y => by simp) _ _ _
    (fun _ _ _ _ => rfl) (fun _ _ _ _ => rfl) (fun _ _ _ _ => rfl)

/-- the text of `trigDir` is symmetric in `s`, `c` when the sign is plus -/
theorem trigDir_symm (ix q r nv : ℕ) (s : Tay) (hx : ix < nv) (hq : 1 ≤ q) :
    trigDir 1 ix q r (nv + 1) nv s = trigDir 1 ix q r nv (nv + 1) s := by
  have h1 := trigDir_eq Real.sinh Real.cosh 1 ix q r nv 1 0 s hx (by omega) hq
  have h2 := trigDir_eq Real.sinh Real.cosh 1 ix q r nv 0 1 s hx (by omega) hq
  simp only [add_zero] at h1 h2
  rw [h1, h2]
  refine forRange_congr _ fun ell s _ _ => ?_
  rw [Tay.set2_swap (by omega)]
  have : q ≠ 0 := by omega
  simp [trigGa, trigGb, this]

/-- `trigCert` for cosh needs `trigDir_symm`, so it is built directly -/
noncomputable def coshCert (ix : ℕ) : OpCert 2 [ix]
    (fun e r => (if r = 0 then Real.sinh else Real.cosh) (e ix))
    (fun e => e ix ∈ Set.univ) (coshForward ix) (coshDir ix) (coshReverse ix) :=
  let c := trigCert ix 0 1 rfl Real.sinh Real.cosh 1 (fun r => if r = 0 then Real.sinh else Real.cosh) rfl rfl
    Real.contDiff_sinh Real.contDiff_cosh (fun y => by simp) (fun y => by simp)
    (coshForward ix) (fun q r iz => trigDir 1 ix q r (iz - 1) iz) (coshReverse ix)
    (fun _ _ _ _ => rfl) (fun _ _ _ _ => rfl) (fun _ _ _ _ => rfl)
  { c with
    dir_ok := fun nv q r s hq ha => by
      have := c.dir_ok nv q r s hq ha
      rw [show nv + 2 - 1 = nv + 1 by omega] at this ⊢
      have e : coshDir ix q r (nv + 1) s = trigDir 1 ix q r (nv + 1 - 1) (nv + 1) s :=
        trigDir_symm ix q r nv s (ha ix (by simp)) hq
      rw [e]; exact this }

end CppAD
