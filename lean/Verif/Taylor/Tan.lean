import Verif.Taylor.Trig
import Mathlib.Analysis.SpecialFunctions.Trigonometric.ArctanDeriv

/-! # Certificates of tan and tanh -/

open scoped ContDiff Topology PowerSeries
open PowerSeries (coeff)

namespace CppAD

/-- `∑_{k=1}^{j-1} a_k b_{j-k}` -/
noncomputable def csumI (a b : ℕ → ℝ) (j : ℕ) : ℝ := ∑ k ∈ Finset.Ico 1 j, a k * b (j - k)

theorem csumI_congr {a a' b b' : ℕ → ℝ} {j : ℕ} (ha : ∀ k < j, a k = a' k) (hb : ∀ k < j, b k = b' k) :
    csumI a b j = csumI a' b' j := by
  refine Finset.sum_congr rfl fun k hk => ?_
  rw [Finset.mem_Ico] at hk
  rw [ha k hk.2, hb _ (by omega)]

/-- coefficient of a product, first and last term separated -/
theorem coeff_mul_ends (F G : ℝ⟦X⟧) {j : ℕ} (hj : 1 ≤ j) :
    coeff j (F * G) = coeff 0 F * coeff j G + csumI (fun k => coeff k F) (fun k => coeff k G) j
      + coeff j F * coeff 0 G := by
  rw [mul_comm F G, mulG_T, Finset.sum_Ico_succ_top (by omega),
    Finset.sum_eq_sum_Ico_succ_bot (a := 0) (by omega), Nat.sub_self, Nat.sub_zero]
  have : csumI (fun k => coeff k F) (fun k => coeff k G) j
      = ∑ k ∈ Finset.Ico (0 + 1) j, coeff (j - k) G * coeff k F :=
    Finset.sum_congr rfl fun k _ => mul_comm _ _
  rw [this]; ring

noncomputable def tanGa (f : ℝ → ℝ) (sg : ℝ) (x : ℕ → ℝ) (z : ℕ → ℕ → ℝ) (j : ℕ) : ℝ :=
  if j = 0 then f (x 0) else x j + sg * (ksum x (z 0) 1 (j + 1) j / (j : ℝ))

noncomputable def tanGb (_ : ℕ → ℝ) (z : ℕ → ℕ → ℝ) (u : ℝ) (j : ℕ) : ℝ :=
  if j = 0 then u * u else 2 * u * z 1 0 + csumI (z 1) (z 1) j

theorem tanGa_congr {f : ℝ → ℝ} {sg : ℝ} {x x' : ℕ → ℝ} {z z' : ℕ → ℕ → ℝ} {j : ℕ}
    (hx : ∀ k ≤ j, x k = x' k) (hz : ∀ r < 2, ∀ k < j, z r k = z' r k) :
    tanGa f sg x z j = tanGa f sg x' z' j := by
  unfold tanGa
  split
  · rw [hx 0 (by omega)]
  · rw [ksum_congr fun k h1 h2 => ⟨hx k (by omega), hz 0 (by omega) _ (by omega)⟩, hx j le_rfl]

theorem tanGb_congr {x x' : ℕ → ℝ} {z z' : ℕ → ℕ → ℝ} {u : ℝ}
    {j : ℕ} (hz : ∀ r < 2, ∀ k < j, z r k = z' r k) : tanGb x z u j = tanGb x' z' u j := by
  unfold tanGb
  split
  · rfl
  · rw [csumI_congr (hz 1 (by omega)) (hz 1 (by omega)), hz 1 (by omega) 0 (by omega)]

theorem tanForward_eq (f : ℝ → ℝ) (sg : ℝ) (ix p q nv : ℕ) (s : Tay) (hx : ix < nv) (hpq : p ≤ q) :
    tanForwardG f sg ix p q (nv + 1) s
      = forRange p (q + 1) s (fun j s => s.set2 (nv + 1) (nv + 0) j
          (tanGa f sg (s ix) (fun r => s (nv + r)) j)
          (tanGb (s ix) (fun r => s (nv + r)) (tanGa f sg (s ix) (fun r => s (nv + r)) j) j)) := by
  rw [← forRange_peel (by omega : p < q + 1)]
  simp only [tanForwardG, Nat.add_sub_cancel, tanGa, tanGb, if_true, Tay.set_self, add_zero]
  refine forRange_congr _ fun j s h1 h2 => ?_
  have hj : j ≠ 0 := by split at h1 <;> omega
  rw [forRange_accum (s.set (nv + 1) j (s ix j)) (nv + 1) j
    (fun k s => sg * ((k : ℝ) * s ix k * s nv (j - k) / (j : ℝ)))
    (fun k v h1 h2 => by
      simp only [Tay.set_ne_row _ _ _ _ (by omega : ix ≠ nv + 1), Tay.set_ne_row _ _ _ _ (by omega : nv ≠ nv + 1)])]
  simp only [Tay.set_self, Tay.set_set, Tay.set_ne_row _ _ _ _ (by omega : ix ≠ nv + 1),
    Tay.set_ne_row _ _ _ _ (by omega : nv ≠ nv + 1), if_neg hj]
  have e : ∑ k ∈ Finset.Ico 1 (j + 1), sg * ((k : ℝ) * s ix k * s nv (j - k) / (j : ℝ))
      = sg * (ksum (s ix) (s nv) 1 (j + 1) j / (j : ℝ)) := by
    rw [← Finset.mul_sum, ← Finset.sum_div]; rfl
  rw [e]
  set u := s ix j + sg * (ksum (s ix) (s nv) 1 (j + 1) j / (j : ℝ)) with hu
  rw [Tay.set_ne_ord (k' := 0) _ _ _ _ (by omega),
    forRange_accum _ nv j (fun k s => s (nv + 1) k * s (nv + 1) (j - k))
    (fun k v h1 h2 => by
      simp only [Tay.set_ne_row _ _ _ _ (by omega : nv + 1 ≠ nv)])]
  simp only [Tay.set_self, Tay.set_set, Tay.set_ne_row _ _ _ _ (by omega : nv + 1 ≠ nv)]
  rw [Tay.set_set2 (by omega)]
  congr 1
  rw [Finset.sum_Ico_succ_top (by omega), Nat.sub_self, Tay.set_self,
    Tay.set_ne_ord (k' := 0) _ _ _ _ (by omega)]
  have e2 : ∑ k ∈ Finset.Ico 1 j, s.set (nv + 1) j u (nv + 1) k * s.set (nv + 1) j u (nv + 1) (j - k)
      = csumI (s (nv + 1)) (s (nv + 1)) j :=
    Finset.sum_congr rfl fun k hk => by
      rw [Finset.mem_Ico] at hk
      rw [Tay.set_ne_ord _ _ _ _ (by omega), Tay.set_ne_ord _ _ _ _ (by omega)]
  rw [e2]; ring

theorem tanDir_eq (f : ℝ → ℝ) (sg : ℝ) (ix q r nv : ℕ) (s : Tay) (hx : ix < nv) (hq : 1 ≤ q) :
    tanDirG sg ix q r (nv + 1) s
      = forRange 0 r s (fun ell s => s.set2 (nv + 1) (nv + 0) ((q - 1) * r + 1 + ell)
          (tanGa f sg (view r ell s ix) (fun i => view r ell s (nv + i)) q)
          (tanGb (view r ell s ix) (fun i => view r ell s (nv + i))
            (tanGa f sg (view r ell s ix) (fun i => view r ell s (nv + i)) q) q)) := by
  refine forRange_congr _ fun ell s _ hl => ?_
  have hq0 : (q : ℝ) ≠ 0 := by positivity
  simp only [Nat.add_sub_cancel, add_zero]
  set m := (q - 1) * r + 1 + ell with hm
  rw [forRange_accum _ (nv + 1) m (fun k s => sg * ((k : ℝ) * s ix ((k - 1) * r + 1 + ell)
      * s nv ((q - k - 1) * r + 1 + ell)))
    (fun k v h1 h2 => by
      simp only [Tay.set_ne_row _ _ _ _ (by omega : ix ≠ nv + 1), Tay.set_ne_row _ _ _ _ (by omega : nv ≠ nv + 1)])]
  simp only [Tay.set_self, Tay.set_set, Tay.set_ne_row _ _ _ _ (by omega : ix ≠ nv + 1),
    Tay.set_ne_row _ _ _ _ (by omega : nv ≠ nv + 1)]
  have e : ∑ k ∈ Finset.Ico 1 q, sg * ((k : ℝ) * s ix ((k - 1) * r + 1 + ell) * s nv ((q - k - 1) * r + 1 + ell))
      = sg * ksum (view r ell s ix) (view r ell s nv) 1 q q := by
    rw [← Finset.mul_sum]
    congr 1
    refine Finset.sum_congr rfl fun k hk => ?_
    rw [Finset.mem_Ico] at hk
    rw [dirIdx_a hk.1, dirIdx_b hk.2]; rfl
  have e1 : ((q : ℝ) * (s ix m + sg * (s ix m * s nv 0))
      + sg * ksum (view r ell s ix) (view r ell s nv) 1 q q) / (q : ℝ)
      = tanGa f sg (view r ell s ix) (fun i => view r ell s (nv + i)) q := by
    rw [tanGa, if_neg (by omega), ksum_last hq, Nat.sub_self]
    simp only [view_apply, dirIdx_top hq, dirIdx_zero, ← hm, add_zero]
    field_simp; ring
  rw [e, e1]
  set u := tanGa f sg (view r ell s ix) (fun i => view r ell s (nv + i)) q with hu
  rw [Tay.set_ne_ord (k' := 0) _ _ _ _ (by omega),
    forRange_accum _ nv m (fun k s => s (nv + 1) ((k - 1) * r + 1 + ell) * s (nv + 1) ((q - k - 1) * r + 1 + ell))
    (fun k v h1 h2 => by
      simp only [Tay.set_ne_row _ _ _ _ (by omega : nv + 1 ≠ nv)])]
  simp only [Tay.set_self, Tay.set_set, Tay.set_ne_row _ _ _ _ (by omega : nv + 1 ≠ nv)]
  rw [Tay.set_set2 (by omega)]
  congr 1
  rw [tanGb, if_neg (by omega), view_apply, dirIdx_zero]
  congr 1
  refine Finset.sum_congr rfl fun k hk => ?_
  rw [Finset.mem_Ico] at hk
  have i1 := dirIdx_lt (q := q) (k := q - k) (by omega) hl
  have i2 := dirIdx_lt (q := q) (k := k) (by omega) hl
  rw [dirIdx_a hk.1, dirIdx_b hk.2, Tay.set_ne_ord _ _ _ _ (by omega), Tay.set_ne_ord _ _ _ _ (by omega)]
  rfl

/-- active orders in the reverse mode of tan before the iteration for order `j` -/
def ActT (nv n jy jz : ℕ) : ℕ → ℕ := fun v => if v < nv then n + 1 else if v = nv then jy else jz

theorem ActT_drop_z (nv n jy j : ℕ) (δ P : Tay) : Phi (nv + 2) (ActT nv n jy (j + 1)) δ P
    = Phi (nv + 2) (ActT nv n jy j) δ P + P (nv + 1) j * δ (nv + 1) j := by
  rw [Phi_drop (nv + 2) _ δ P (v := nv + 1) (j := j) (by omega) (by simp [ActT])]
  congr 1
  refine Phi_congr_A _ _ _ fun v hv => ?_
  simp only [ActT, Function.update_apply]
  split_ifs <;> omega

theorem ActT_drop_y (nv n j jz : ℕ) (δ P : Tay) : Phi (nv + 2) (ActT nv n (j + 1) jz) δ P
    = Phi (nv + 2) (ActT nv n j jz) δ P + P nv j * δ nv j := by
  rw [Phi_drop (nv + 2) _ δ P (v := nv) (j := j) (by omega) (by simp [ActT])]
  congr 1
  refine Phi_congr_A _ _ _ fun v hv => ?_
  simp only [ActT, Function.update_apply]
  split_ifs <;> omega

theorem tan_rev (sg : ℝ) (ix nv n : ℕ) (s P δ : Tay) {X Y Z dX dY dZ : ℝ⟦X⟧} (hix : ix < nv)
    (hs : ∀ k ≤ n, s ix k = coeff k X) (hY : ∀ k ≤ n, s nv k = coeff k Y)
    (hZ : ∀ k ≤ n, s (nv + 1) k = coeff k Z)
    (hδ : ∀ k, δ ix k = coeff k dX) (hδY : ∀ k, δ nv k = coeff k dY) (hδZ : ∀ k, δ (nv + 1) k = coeff k dZ)
    (h1 : θ Z = θ X + sg • (Y * θ X)) (h2 : Y = Z * Z) (h3 : dZ = dX + sg • (Y * dX)) (h4 : dY = 2 * (Z * dZ))
    (hP : ∀ k ≤ n, P nv k = 0) :
    Phi nv (fun _ => n + 1) δ (tanReverseG sg ix n (nv + 1) s P) = Phi (nv + 2) (fun _ => n + 1) δ P := by
  have hsm : ∀ F : ℝ⟦X⟧, θ (sg • F) = sg • θ F := fun F => by
    ext k; simp only [coeff_θ, PowerSeries.coeff_smul, smul_eq_mul]; ring
  have hθ : θ dZ = θ dX + sg • (θ dX * Y + θ X * dY) := by
    rw [h3, θ_add, hsm, θ_mul]
    congr 2
    rw [h4, h2, θ_mul, h1, h3]
    simp only [h2, PowerSeries.smul_eq_C_mul]
    ring
  have lin : ∀ j : ℕ, (j : ℝ) * coeff j dZ = j * coeff j dX + ∑ k ∈ Finset.Ico 1 (j + 1),
      (k : ℝ) * (sg * (coeff k dX * coeff (j - k) Y + coeff k X * coeff (j - k) dY)) := by
    intro j
    rw [← coeff_θ, hθ, map_add, PowerSeries.coeff_smul, map_add, coeff_θ_mul, coeff_θ_mul, coeff_θ,
      ← Finset.sum_add_distrib, smul_eq_mul, Finset.mul_sum]
    congr 1
    exact Finset.sum_congr rfl fun k _ => by ring
  have linY : ∀ j : ℕ, coeff j dY = ∑ k ∈ Finset.Ico 0 (j + 1), 2 * (coeff (j - k) Z * coeff k dZ) := by
    intro j
    rw [h4, two_mul, map_add, mulG_T, ← two_mul, Finset.mul_sum]
  have key := forDown_ind (n := n) (s := P) (f := fun j P =>
    let P := P.add ix j (P (nv + 1) j)
    let P := P.set (nv + 1) j (P (nv + 1) j / (j : ℝ))
    let P := forRange 1 (j + 1) P fun k P =>
      let P := P.add ix k (sg * (azmul (P (nv + 1) j) (s nv (j - k)) * (k : ℝ)))
      P.add nv (j - k) (sg * (azmul (P (nv + 1) j) (s ix k) * (k : ℝ)))
    forRange 0 j P fun k P => P.add (nv + 1) k (azmul (P nv (j - 1)) (s (nv + 1) (j - k - 1)) * 2))
    (fun j Q => j ≤ n ∧ Phi (nv + 2) (ActT nv n j (j + 1)) δ Q = Phi (nv + 2) (fun _ => n + 1) δ P)
    ⟨le_rfl, ?_⟩ ?_
  · simp only [tanReverseG, Nat.add_sub_cancel]
    obtain ⟨_, key⟩ := key
    rw [← key]
    set R := forDown n P _
    rw [ActT_drop_z]
    have e := Phi_shrink nv 2 (n + 1) (ActT nv n 0 0) δ
      (R.add ix 0 (azmul (R (nv + 1) 0) (1 + sg * s nv 0)))
      (fun v h1 h2 => by unfold ActT; split_ifs <;> omega) (fun v hv => by simp [ActT, hv])
    rw [← e, Phi_add _ _ _ _ _ (by omega) (by simp [ActT, hix])]
    congr 1
    rw [azmul_eq, hY 0 (by omega), hδ, hδZ, h3]
    simp; ring
  · have e : Phi (nv + 2) (fun _ => n + 1) δ P = Phi (nv + 2) (ActT nv n (n + 1) (n + 1)) δ P :=
      Phi_congr_A _ _ _ fun v hv => by simp [ActT]
    rw [e, ActT_drop_y, hP n le_rfl, zero_mul, add_zero]
  · rintro j Q hj ⟨_, hQ⟩
    refine ⟨by omega, ?_⟩
    rw [← hQ, ActT_drop_z nv n (j + 1) (j + 1)]
    simp only [Nat.add_sub_cancel, Tay.add_ne_row _ _ _ _ (by omega : nv + 1 ≠ ix)]
    have hj' : ((j + 1 : ℕ) : ℝ) ≠ 0 := by positivity
    set c := Q (nv + 1) (j + 1) / ((j + 1 : ℕ) : ℝ) with hc
    have out1 : ¬ (nv + 1 < nv + 2 ∧ j + 1 < ActT nv n (j + 1) (j + 1) (nv + 1)) := by
      simp [ActT]
    have argA : ∀ k ≤ n, ∀ a b, k < ActT nv n a b ix := fun k hk a b => by simp [ActT, hix]; omega
    have L1 := Ext.loop (N := nv + 2) (A := ActT nv n (j + 1) (j + 1)) (δ := δ)
      (lo := 1) (hi := j + 1 + 1) (P := (Q.add ix (j + 1) (Q (nv + 1) (j + 1))).set (nv + 1) (j + 1) c)
      (body := fun k P =>
        (P.add ix k (sg * (azmul (P (nv + 1) (j + 1)) (s nv (j + 1 - k)) * (k : ℝ)))).add
          nv (j + 1 - k) (sg * (azmul (P (nv + 1) (j + 1)) (s ix k) * (k : ℝ))))
      (fun k => (sg * (c * coeff (j + 1 - k) Y * (k : ℝ))) * δ ix k
        + (sg * (c * coeff k X * (k : ℝ))) * δ nv (j + 1 - k)) (fun k R h1 h2 hR => by
        have hR1 : R (nv + 1) (j + 1) = c := by rw [hR _ _ out1, Tay.set_self]
        simp only [azmul_eq, Tay.add_ne_row _ _ _ _ (by omega : nv + 1 ≠ ix), hR1]
        rw [hY _ (by omega), hs _ (by omega)]
        exact (Ext.add _ _ (by omega) (argA _ (by omega) _ _)).add_to _ (by omega)
          (by simp [ActT]; omega))
    set R := forRange 1 (j + 1 + 1) ((Q.add ix (j + 1) (Q (nv + 1) (j + 1))).set (nv + 1) (j + 1) c) _ with hR
    have L2 := Ext.loop (N := nv + 2) (A := ActT nv n j (j + 1)) (δ := δ)
      (lo := 0) (hi := j + 1) (P := R)
      (body := fun k P => P.add (nv + 1) k (azmul (P nv j) (s (nv + 1) (j + 1 - k - 1)) * 2))
      (fun k => (R nv j * coeff (j - k) Z * 2) * δ (nv + 1) k) (fun k R' h1 h2 hR' => by
        have hR1 : R' nv j = R nv j := by rw [hR' _ _ (by simp [ActT])]
        simp only [azmul_eq, hR1]
        rw [hZ _ (by omega), show j + 1 - k - 1 = j - k by omega]
        exact Ext.add _ _ (by omega) (by simp [ActT]; omega))
    rw [L2.2]
    have eY : ∑ k ∈ Finset.Ico 0 (j + 1), (R nv j * coeff (j - k) Z * 2) * δ (nv + 1) k = R nv j * δ nv j := by
      rw [hδY, linY, Finset.mul_sum]
      exact Finset.sum_congr rfl fun k _ => by rw [hδZ]; ring
    rw [eY, ← ActT_drop_y, Ext.phi_set (R := R) L1 out1, Phi_add _ _ _ _ _ (by omega) (argA _ (by omega) _ _), add_assoc]
    congr 1
    simp only [hδ, hδY, hδZ]
    have e : Q (nv + 1) (j + 1) * coeff (j + 1) dZ = c * (((j + 1 : ℕ) : ℝ) * coeff (j + 1) dZ) := by
      rw [hc]; field_simp
    have e' : Q (nv + 1) (j + 1) * coeff (j + 1) dX = c * (((j + 1 : ℕ) : ℝ) * coeff (j + 1) dX) := by
      rw [hc]; field_simp
    rw [e, e', lin, mul_add, Finset.mul_sum]
    congr 1
    exact Finset.sum_congr rfl fun k _ => by ring

theorem T_one : T (fun _ => (1 : ℝ)) = 1 := by rw [T_const]; simp

noncomputable def tanCertG (ix : ℕ) (f : ℝ → ℝ) (sg : ℝ) (D : Set ℝ) (hD : IsOpen D)
    (hf : ∀ y ∈ D, ContDiffAt ℝ ∞ f y) (df : ∀ y ∈ D, deriv f y = 1 + sg * (f y * f y)) :
    OpCert 2 [ix] (fun e r => (if r = 0 then fun y => f y * f y else f) (e ix)) (fun e => e ix ∈ D)
      (tanForwardG f sg ix) (tanDirG sg ix) (tanReverseG sg ix) :=
  have key : ∀ x, UCurve 2 (fun r => if r = 0 then fun y => f y * f y else f) D x →
      T (fun t => deriv f (x t)) = 1 + sg • T (fun t => f (x t) * f (x t)) := fun x hx => by
    have s1 : Sm (fun t => f (x t)) := hx.sz (r := 1) (by omega)
    rw [PowerSeries.smul_eq_C_mul, ← T_const, ← T_mul contDiffAt_const (s1.mul s1), ← T_one,
      ← T_add contDiffAt_const (contDiffAt_const.mul (s1.mul s1))]
    exact T_congr (hx.ev.mono fun t ht => df _ ht)
  have hsm : ∀ r < 2, ∀ y ∈ D, ContDiffAt ℝ ∞ ((fun r => if r = 0 then fun y => f y * f y else f) r) y :=
    fun r _ y hy => by
      simp only
      split
      · exact (hf y hy).mul (hf y hy)
      · exact hf y hy
  mkUnary2 ix 1 0 rfl (fun r => if r = 0 then fun y => f y * f y else f) D hD hsm _ _ _
    (tanGa f sg) tanGb
    (fun _ _ _ _ _ => tanGa_congr) (fun _ _ _ _ _ _ _ => tanGb_congr)
    (fun nv p q s hix hpq => tanForward_eq f sg ix p q nv s hix hpq)
    (fun nv q r s hix hq => tanDir_eq f sg ix q r nv s hix hq)
    (fun x hx j => by
      simp only [one_ne_zero, if_false, if_true, tanGa, tanGb]
      have s1 : Sm (fun t => f (x t)) := hx.sz (r := 1) (by omega)
      by_cases hj : j = 0
      · subst hj; simp [tc_zero]
      · have hj' : (j : ℝ) ≠ 0 := by positivity
        have e1 := hx.theta (r := 1) (by omega)
        simp only [one_ne_zero, if_false] at e1
        rw [key x hx, add_mul, one_mul, Algebra.smul_mul_assoc, mul_comm (T _)] at e1
        have e2 := congrArg (coeff j) e1
        rw [map_add, PowerSeries.coeff_smul, coeff_θ_mul_T, coeff_θ, coeff_T, coeff_θ, coeff_T,
          smul_eq_mul] at e2
        rw [if_neg hj, if_neg hj]
        refine ⟨?_, ?_⟩
        · generalize ksum (tc x) _ 1 (j + 1) j = K at e2 ⊢
          field_simp; linarith
        · have e3 := congrArg (coeff j) (T_mul s1 s1)
          rw [coeff_mul_ends _ _ (by omega)] at e3
          simp only [coeff_T] at e3
          rw [e3]; ring)
    (fun nv x dx n s P δ hix hx hd h1 h2 h3 h4 h5 h6 h7 => by
      have s1 : Sm (fun t => f (x t)) := hx.sz (r := 1) (by omega)
      have dz := hx.delta (r := 1) (by omega) hd
      have tz := hx.theta (r := 1) (by omega)
      simp only [one_ne_zero, if_false, if_true] at *
      refine tan_rev sg ix nv n s P δ (X := T x) (Y := T (fun t => f (x t) * f (x t)))
        (Z := T (fun t => f (x t))) (dX := T dx)
        (dY := T (fun t => deriv (fun y => f y * f y) (x t) * dx t))
        (dZ := T (fun t => deriv f (x t) * dx t)) hix
        (by simpa using h1) (by simpa using h2) (by simpa using h3) (by simpa using h4) (by simpa using h5)
        (by simpa using h6) ?_ (T_mul s1 s1) ?_ ?_ h7
      · rw [tz, key x hx, add_mul, one_mul, Algebra.smul_mul_assoc]
      · rw [dz, key x hx, add_mul, one_mul, Algebra.smul_mul_assoc]
      · have sd : Sm (fun t => deriv f (x t) * dx t) := ContDiffAt.mul (hx.sg (r := 1) (by omega)) hd
        rw [two_mul, ← T_mul s1 sd, ← T_add (s1.mul sd) (s1.mul sd)]
        refine T_congr (hx.ev.mono fun t ht => ?_)
        have hdf := cd_hasDerivAt (hf _ ht)
        simp only [(hdf.fun_mul hdf).deriv]
        ring)
    (fun nv n s P v hv hne => by
      have a1 : v ≠ nv := by omega
      have a2 : v ≠ nv + 1 := by omega
      unfold tanReverseG
      simp (maxDischargeDepth := 8) [add_row, set_row, forDown_row, forRange_row, hne, a1, a2])

noncomputable def tanCert (ix : ℕ) : OpCert 2 [ix]
    (fun e r => (if r = 0 then fun y => Real.tan y * Real.tan y else Real.tan) (e ix))
    (fun e => e ix ∈ {y : ℝ | Real.cos y ≠ 0}) (tanForward ix) (tanDir ix) (tanReverse ix) :=
  tanCertG ix Real.tan 1 {y : ℝ | Real.cos y ≠ 0} (isOpen_ne_fun Real.continuous_cos continuous_const)
    (fun y hy => Real.contDiffAt_tan.mpr hy)
    (fun y hy => by
      rw [Real.deriv_tan, Real.tan_eq_sin_div_cos]
      have : Real.cos y ≠ 0 := hy
      field_simp
      nlinarith [Real.sin_sq_add_cos_sq y])

noncomputable def tanhCert (ix : ℕ) : OpCert 2 [ix]
    (fun e r => (if r = 0 then fun y => Real.tanh y * Real.tanh y else Real.tanh) (e ix))
    (fun e => e ix ∈ Set.univ) (tanhForward ix) (tanhDir ix) (tanhReverse ix) :=
  have e : Real.tanh = fun y => Real.sinh y / Real.cosh y := by
    funext y; exact Real.tanh_eq_sinh_div_cosh y
  tanCertG ix Real.tanh (-1) Set.univ isOpen_univ
    (fun y _ => by
      rw [e]
      exact Real.contDiff_sinh.contDiffAt.div Real.contDiff_cosh.contDiffAt (Real.cosh_pos y).ne')
    (fun y _ => by
      have h : Real.cosh y ≠ 0 := (Real.cosh_pos y).ne'
      rw [e, ((Real.hasDerivAt_sinh y).fun_div (Real.hasDerivAt_cosh y) h).deriv]
      field_simp
      ring)

end CppAD
