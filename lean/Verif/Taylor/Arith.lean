import Verif.Taylor.Binary
import Verif.Taylor.Exp
import Verif.Taylor.ModelArith

/-! # Certificates of the arithmetic operators -/

open scoped ContDiff Topology PowerSeries
open PowerSeries (coeff)

namespace CppAD

/-! ## functions `a * x + b` -/

/-- recurrence of an affine function -/
noncomputable def affG (a b : ℝ) (x _z : ℕ → ℝ) (j : ℕ) : ℝ := if j = 0 then a * x 0 + b else a * x j

theorem aff_rev (ix nv n : ℕ) (P δ : Tay) (a : ℝ) {dX dZ : ℝ⟦X⟧} (hix : ix < nv)
    (hδ : ∀ k, δ ix k = coeff k dX) (hδz : ∀ k, δ nv k = coeff k dZ)
    (h2 : dZ = PowerSeries.C a * dX) :
    Phi nv (fun _ => n + 1) δ (forDown0 (n + 1) P fun j P => P.add ix j (P nv j * a))
      = Phi (nv + 1) (fun _ => n + 1) δ P := by
  refine rev_loop (m := 1) _ _ _ fun j Q hj => ?_
  simp only [Finset.sum_range_one, add_zero]
  rw [Phi_add _ _ _ _ _ (by omega) (Act_arg hix (by omega)), hδ, hδz, h2, PowerSeries.coeff_C_mul]
  ring

noncomputable def mkAffine (ix : ℕ) (a b : ℝ) (f : ℝ → ℝ) (hf : ∀ x, f x = a * x + b)
    (fwd dir : ℕ → ℕ → ℕ → Tay → Tay) (rev : ℕ → ℕ → Tay → Tay → Tay)
    (fwd_eq : ∀ p q iz s, ix ≠ iz → p ≤ q → fwd p q iz s
      = forRange p (q + 1) s (fun j s => s.set iz j (affG a b (s ix) (s iz) j)))
    (dir_eq : ∀ q r iz s, ix ≠ iz → 1 ≤ q → dir q r iz s
      = forRange 0 r s (fun ell s => s.set iz ((q - 1) * r + 1 + ell)
          (a * s ix ((q - 1) * r + 1 + ell))))
    (rev_ok : ∀ nv n s P (δ : Tay) (dX dZ : ℝ⟦X⟧), ix < nv →
      (∀ k, δ ix k = coeff k dX) → (∀ k, δ nv k = coeff k dZ) → dZ = PowerSeries.C a * dX →
      Phi nv (fun _ => n + 1) δ (rev n nv s P) = Phi (nv + 1) (fun _ => n + 1) δ P)
    (rev_frame : ∀ nv n s P v, v < nv → v ≠ ix → rev n nv s P v = P v) :
    OpCert 1 [ix] (fun e _ => f (e ix)) (fun e => e ix ∈ Set.univ) fwd dir rev := by
  have e : f = fun x => a * x + b := funext hf
  have hder : deriv f = fun _ => a := by funext x; rw [e]; simp
  refine mkUnary1 ix f Set.univ isOpen_univ (fun y _ => ?_) fwd dir rev (affG a b)
    (fun x x' z z' j hx _ => by unfold affG; rw [hx 0 (by omega), hx j le_rfl]) fwd_eq ?_ ?_ ?_ rev_frame
  · rw [e]; fun_prop
  · intro q r iz s h1 h2
    rw [dir_eq q r iz s h1 h2]
    refine forRange_congr _ fun ell s _ _ => ?_
    rw [affG, if_neg (by omega), view_apply, dirIdx_top h2]
  · intro x hc j
    have e1 : T (fun t => f (x t)) = PowerSeries.C a * T x + PowerSeries.C b := by
      rw [← T_const, ← T_const, ← T_mul contDiffAt_const hc.sx,
        ← T_add (contDiffAt_const.mul hc.sx) contDiffAt_const]
      simp only [hf]
    rw [← coeff_T, e1, affG]
    cases j <;> simp [PowerSeries.coeff_C, PowerSeries.coeff_C_mul, -PowerSeries.coeff_zero_eq_constantCoeff]
  · intro nv x dx n s P δ hix hc hd h1 h2 h3 h4
    refine rev_ok nv n s P δ (T dx) (T (fun t => deriv f (x t) * dx t)) hix (by simpa using h3)
      (by simpa using h4) ?_
    simp only [hder]
    rw [T_mul contDiffAt_const hd, T_const]

theorem row_aff {ix nv n v : ℕ} {P : Tay} {g : ℕ → Tay → ℝ} (_hv : v < nv) (hx : v ≠ ix) :
    (forDown0 (n + 1) P fun j P => P.add ix j (g j P)) v = P v :=
  forDown0_row fun k s => add_row hx

noncomputable def addpvCert (x : ℝ) (iy : ℕ) : OpCert 1 [iy] (fun e _ => x + e iy)
    (fun e => e iy ∈ Set.univ) (addpvForward x iy) (addpvDir x iy) (addpvReverse x iy) :=
  mkAffine iy 1 x (fun y => x + y) (fun y => by ring) _ _ _
    (fun p q iz s _ h2 => by
      rw [← forRange_peel (by omega : p < q + 1)]
      simp only [addpvForward, affG, if_true, one_mul, add_comm x]
      refine forRange_congr _ fun j s hj1 _ => ?_
      rw [if_neg (by split at hj1 <;> omega)])
    (fun q r iz s _ _ => by simp [addpvDir])
    (fun nv n s P δ dX dZ hix h1 h2 h3 => by
      have := aff_rev iy nv n P δ 1 hix h1 h2 h3
      simpa [addpvReverse] using this)
    (fun nv n s P v hv hx => row_aff hv hx)

noncomputable def subpvCert (x : ℝ) (iy : ℕ) : OpCert 1 [iy] (fun e _ => x - e iy)
    (fun e => e iy ∈ Set.univ) (subpvForward x iy) (subpvDir x iy) (subpvReverse x iy) :=
  mkAffine iy (-1) x (fun y => x - y) (fun y => by ring) _ _ _
    (fun p q iz s _ h2 => by
      rw [← forRange_peel (by omega : p < q + 1)]
      simp only [subpvForward, affG, if_true, neg_mul, one_mul, neg_add_eq_sub]
      refine forRange_congr _ fun j s hj1 _ => ?_
      rw [if_neg (by split at hj1 <;> omega)])
    (fun q r iz s _ _ => by simp [subpvDir])
    (fun nv n s P δ dX dZ hix h1 h2 h3 => by
      have := aff_rev iy nv n P δ (-1) hix h1 h2 h3
      simpa [subpvReverse] using this)
    (fun nv n s P v hv hx => row_aff hv hx)

noncomputable def subvpCert (ix : ℕ) (y : ℝ) : OpCert 1 [ix] (fun e _ => e ix - y)
    (fun e => e ix ∈ Set.univ) (subvpForward ix y) (subvpDir ix y) (subvpReverse ix y) :=
  mkAffine ix 1 (-y) (fun x => x - y) (fun x => by ring) _ _ _
    (fun p q iz s _ h2 => by
      rw [← forRange_peel (by omega : p < q + 1)]
      simp only [subvpForward, affG, if_true, one_mul, ← sub_eq_add_neg]
      refine forRange_congr _ fun j s hj1 _ => ?_
      rw [if_neg (by split at hj1 <;> omega)])
    (fun q r iz s _ _ => by simp [subvpDir])
    (fun nv n s P δ dX dZ hix h1 h2 h3 => by
      have := aff_rev ix nv n P δ 1 hix h1 h2 h3
      simpa [subvpReverse] using this)
    (fun nv n s P v hv hx => row_aff hv hx)

noncomputable def mulpvCert (x : ℝ) (iy : ℕ) : OpCert 1 [iy] (fun e _ => x * e iy)
    (fun e => e iy ∈ Set.univ) (mulpvForward x iy) (mulpvDir x iy) (mulpvReverse x iy) :=
  mkAffine iy x 0 (fun y => x * y) (fun y => by ring) _ _ _
    (fun p q iz s _ h2 => forRange_congr _ fun j s _ _ => by
      unfold affG; split
      · rename_i h; subst h; simp
      · rfl)
    (fun q r iz s _ _ => by simp [mulpvDir])
    (fun nv n s P δ dX dZ hix h1 h2 h3 => by
      have := aff_rev iy nv n P δ x hix h1 h2 h3
      simpa [mulpvReverse] using this)
    (fun nv n s P v hv hx => row_aff hv hx)

noncomputable def zmulpvCert (x : ℝ) (iy : ℕ) : OpCert 1 [iy] (fun e _ => x * e iy)
    (fun e => e iy ∈ Set.univ) (zmulpvForward x iy) (zmulpvDir x iy) (zmulpvReverse x iy) :=
  mkAffine iy x 0 (fun y => x * y) (fun y => by ring) _ _ _
    (fun p q iz s _ h2 => forRange_congr _ fun j s _ _ => by
      unfold affG; split
      · rename_i h; subst h; simp
      · simp)
    (fun q r iz s _ _ => by simp [zmulpvDir])
    (fun nv n s P δ dX dZ hix h1 h2 h3 => by
      have := aff_rev iy nv n P δ x hix h1 h2 h3
      simpa [zmulpvReverse] using this)
    (fun nv n s P v hv hx => row_aff hv hx)

noncomputable def zmulvpCert (ix : ℕ) (y : ℝ) : OpCert 1 [ix] (fun e _ => e ix * y)
    (fun e => e ix ∈ Set.univ) (zmulvpForward ix y) (zmulvpDir ix y) (zmulvpReverse ix y) :=
  mkAffine ix y 0 (fun x => x * y) (fun y => by ring) _ _ _
    (fun p q iz s _ h2 => forRange_congr _ fun j s _ _ => by
      unfold affG; split
      · rename_i h; subst h; simp [mul_comm]
      · simp [mul_comm])
    (fun q r iz s _ _ => by simp [zmulvpDir, mul_comm])
    (fun nv n s P δ dX dZ hix h1 h2 h3 => by
      have := aff_rev ix nv n P δ y hix h1 h2 h3
      simpa [zmulvpReverse] using this)
    (fun nv n s P v hv hx => row_aff hv hx)

noncomputable def divvpCert (ix : ℕ) (y : ℝ) : OpCert 1 [ix] (fun e _ => e ix / y)
    (fun e => e ix ∈ Set.univ) (divvpForward ix y) (divvpDir ix y) (divvpReverse ix y) :=
  mkAffine ix (1 / y) 0 (fun x => x / y) (fun y => by ring) _ _ _
    (fun p q iz s _ h2 => forRange_congr _ fun j s _ _ => by
      unfold affG; split
      · rename_i h; subst h; congr 1; ring
      · congr 1; ring)
    (fun q r iz s _ _ => forRange_congr _ fun j s _ _ => by congr 1; ring)
    (fun nv n s P δ dX dZ hix h1 h2 h3 => by
      have := aff_rev ix nv n P δ (1 / y) hix h1 h2 h3
      simpa [divvpReverse] using this)
    (fun nv n s P v hv hx => by simp only [divvpReverse]; exact row_aff hv hx)

noncomputable def negCert (ix : ℕ) : OpCert 1 [ix] (fun e _ => - e ix)
    (fun e => e ix ∈ Set.univ) (negForward ix) (negDir ix) (negReverse ix) :=
  mkAffine ix (-1) 0 (fun x => -x) (fun y => by ring) _ _ _
    (fun p q iz s _ h2 => forRange_congr _ fun j s _ _ => by
      unfold affG; split
      · rename_i h; subst h; simp
      · simp)
    (fun q r iz s _ _ => by simp [negDir])
    (fun nv n s P δ dX dZ hix h1 h2 h3 => by
      refine rev_once (m := 1) ?_
      simp only [negReverse, Finset.sum_range_one, add_zero]
      refine Ext.loop _ fun k Q _ hk hQ => ?_
      refine (Ext.add _ _ (by omega) (Act_arg hix (by omega))).val ?_
      rw [hQ nv k (by simp [act]), h1, h2, h3, PowerSeries.coeff_C_mul, azmul_eq]; ring)
    (fun nv n s P v hv hx => by
      simp only [negReverse]
      exact forRange_row fun k s => add_row hx)

/-! ## two variable arguments -/

theorem BFun_add : BFun 1 (fun _ x y => x + y) (fun _ _ _ => 1) (fun _ _ _ => 1) Set.univ where
  hD := isOpen_univ
  hf _ _ _ _ := by fun_prop
  hfx _ _ _ _ := by fun_prop
  hfy _ _ _ _ := by fun_prop
  hd _ _ x y dx dy t hx hy _ := (hx.fun_add hy).congr_deriv (by ring)

theorem BFun_sub : BFun 1 (fun _ x y => x - y) (fun _ _ _ => 1) (fun _ _ _ => -1) Set.univ where
  hD := isOpen_univ
  hf _ _ _ _ := by fun_prop
  hfx _ _ _ _ := by fun_prop
  hfy _ _ _ _ := by fun_prop
  hd _ _ x y dx dy t hx hy _ := (hx.fun_sub hy).congr_deriv (by ring)

theorem BFun_mul : BFun 1 (fun _ x y => x * y) (fun _ _ y => y) (fun _ x _ => x) Set.univ where
  hD := isOpen_univ
  hf _ _ _ _ := by fun_prop
  hfx _ _ _ _ := by fun_prop
  hfy _ _ _ _ := by fun_prop
  hd _ _ x y dx dy t hx hy _ := (hx.fun_mul hy).congr_deriv (by ring)

noncomputable def addvvCert (ix iy : ℕ) : OpCert 1 [ix, iy] (fun e _ => e ix + e iy)
    (fun e => (e ix, e iy) ∈ Set.univ) (addvvForward ix iy) (addvvDir ix iy) (addvvReverse ix iy) :=
  mkBinary1 ix iy (fun x y => x + y) (fun _ _ => 1) (fun _ _ => 1) Set.univ BFun_add _ _ _
    (fun x y _ j => x j + y j)
    (fun x x' y y' z z' j hx hy hz => by rw [hx j le_rfl, hy j le_rfl])
    (fun p q iz s _ _ _ => rfl)
    (fun q r iz s _ _ hq => forRange_congr _ fun ell s _ _ => by
      simp only [view_apply, dirIdx_top hq])
    (fun x y hc _ j => by rw [← coeff_T, T_add hc.sx hc.sy]; simp)
    (fun nv x y dx dy n s P δ hix hiy hc hdx hdy _ _ _ _ h3 h4 h5 => by
      refine rev_loop (m := 1) _ _ _ fun j Q hj => ?_
      simp only [Finset.sum_range_one, add_zero]
      rw [Phi_add _ _ _ _ _ (by omega) (Act_arg hiy (by omega)),
        Phi_add _ _ _ _ _ (by omega) (Act_arg hix (by omega)),
        Tay.add_ne_row _ _ _ _ (by omega), h3, h4, h5]
      simp only [one_mul]
      rw [← coeff_T (fun t => dx t + dy t), T_add hdx hdy]
      simp; ring)
    (fun nv n s P v hv hx hy => forDown0_row fun k s => by rw [add_row hy, add_row hx])

noncomputable def subvvCert (ix iy : ℕ) : OpCert 1 [ix, iy] (fun e _ => e ix - e iy)
    (fun e => (e ix, e iy) ∈ Set.univ) (subvvForward ix iy) (subvvDir ix iy) (subvvReverse ix iy) :=
  mkBinary1 ix iy (fun x y => x - y) (fun _ _ => 1) (fun _ _ => -1) Set.univ BFun_sub _ _ _
    (fun x y _ j => x j - y j)
    (fun x x' y y' z z' j hx hy hz => by rw [hx j le_rfl, hy j le_rfl])
    (fun p q iz s _ _ _ => rfl)
    (fun q r iz s _ _ hq => forRange_congr _ fun ell s _ _ => by
      simp only [view_apply, dirIdx_top hq])
    (fun x y hc _ j => by rw [← coeff_T, T_sub hc.sx hc.sy]; simp)
    (fun nv x y dx dy n s P δ hix hiy hc hdx hdy _ _ _ _ h3 h4 h5 => by
      refine rev_loop (m := 1) _ _ _ fun j Q hj => ?_
      simp only [Finset.sum_range_one, add_zero]
      rw [Phi_add _ _ _ _ _ (by omega) (Act_arg hiy (by omega)),
        Phi_add _ _ _ _ _ (by omega) (Act_arg hix (by omega)),
        Tay.add_ne_row _ _ _ _ (by omega), h3, h4, h5]
      simp only [one_mul, neg_mul, ← sub_eq_add_neg]
      rw [← coeff_T (fun t => dx t - dy t), T_sub hdx hdy]
      simp; ring)
    (fun nv n s P v hv hx hy => forDown0_row fun k s => by rw [add_row hy, add_row hx])

/-- recurrence of multiplication -/
noncomputable def mulG (x y _z : ℕ → ℝ) (j : ℕ) : ℝ := ∑ k ∈ Finset.Ico 0 (j + 1), x (j - k) * y k

theorem mulvvForward_eq (ix iy p q iz : ℕ) (s : Tay) (hx : ix ≠ iz) (hy : iy ≠ iz) :
    mulvvForward ix iy p q iz s
      = forRange p (q + 1) s (fun j s => s.set iz j (mulG (s ix) (s iy) (s iz) j)) := by
  refine forRange_congr _ fun j s _ _ => ?_
  rw [forRange_accum]
  · simp only [Tay.set_set, Tay.set_self, zero_add, mulG, Tay.set_ne_row _ _ _ _ hx,
      Tay.set_ne_row _ _ _ _ hy]
  · intro k v _ _
    simp only [Tay.set_ne_row _ _ _ _ hx, Tay.set_ne_row _ _ _ _ hy]

theorem mulvvDir_eq (ix iy q r iz : ℕ) (s : Tay) (hx : ix ≠ iz) (hy : iy ≠ iz) (hq : 1 ≤ q) :
    mulvvDir ix iy q r iz s = forRange 0 r s (fun ell s => s.set iz ((q - 1) * r + 1 + ell)
      (mulG (view r ell s ix) (view r ell s iy) (view r ell s iz) q)) := by
  refine forRange_congr _ fun ell s _ hl => ?_
  simp only
  rw [forRange_accum]
  · rw [(by omega : (q - 1) * r + ell + 1 = (q - 1) * r + 1 + ell)]
    simp only [Tay.set_set, Tay.set_self, mulG, Tay.set_ne_row _ _ _ _ hx,
      Tay.set_ne_row _ _ _ _ hy]
    congr 1
    rw [Finset.sum_Ico_succ_top (by omega), Finset.sum_eq_sum_Ico_succ_bot (a := 0) (by omega)]
    simp only [view_apply, dirIdx_top hq, Nat.sub_zero, Nat.sub_self]
    have : dirIdx r ell 0 = 0 := rfl
    rw [this]
    have e : ∑ k ∈ Finset.Ico 1 q, s ix ((q - k - 1) * r + ell + 1) * s iy ((k - 1) * r + ell + 1)
      = ∑ k ∈ Finset.Ico (0 + 1) q, s ix (dirIdx r ell (q - k)) * s iy (dirIdx r ell k) :=
      Finset.sum_congr rfl fun k hk => by
        rw [Finset.mem_Ico] at hk
        rw [dirIdx_pos (by omega), dirIdx_pos (by omega)]
    rw [e]; ring
  · intro k v _ _
    simp only [Tay.set_ne_row _ _ _ _ hx, Tay.set_ne_row _ _ _ _ hy]

theorem mulG_T (F G : ℝ⟦X⟧) (j : ℕ) :
    coeff j (F * G) = ∑ k ∈ Finset.Ico 0 (j + 1), coeff (j - k) F * coeff k G := by
  rw [mul_comm, coeff_mul_range, Finset.range_eq_Ico]
  exact Finset.sum_congr rfl fun k _ => by ring

theorem mul_rev (ix iy nv n : ℕ) (s P δ : Tay) {X Y dX dY dZ : ℝ⟦X⟧} (hix : ix < nv) (hiy : iy < nv)
    (hs : ∀ k ≤ n, s ix k = coeff k X) (hy : ∀ k ≤ n, s iy k = coeff k Y)
    (hδ : ∀ k, δ ix k = coeff k dX) (hδy : ∀ k, δ iy k = coeff k dY) (hδz : ∀ k, δ nv k = coeff k dZ)
    (h2 : dZ = Y * dX + X * dY) :
    Phi nv (fun _ => n + 1) δ (mulvvReverse ix iy n nv s P) = Phi (nv + 1) (fun _ => n + 1) δ P := by
  refine rev_loop (m := 1) _ _ _ fun j Q hj => ?_
  simp only [Finset.sum_range_one, add_zero]
  rw [(Ext.loop (fun k => (Q nv j * coeff k Y) * δ ix (j - k) + (Q nv j * coeff (j - k) X) * δ iy k)
    fun k R _ h2 hR => ?_).2]
  · congr 1
    simp only [hδ, hδy, hδz, h2]
    rw [map_add, mul_comm Y, mulG_T, mulG_T, ← Finset.sum_add_distrib, Finset.mul_sum]
    exact Finset.sum_congr rfl fun k _ => by ring
  · have hc' : R nv j = Q nv j := hR nv j (Act_out le_rfl)
    simp only [azmul_eq]
    rw [Tay.add_ne_row _ _ _ _ (by omega : nv ≠ ix), hc', hy _ (by omega), hs _ (by omega)]
    exact (Ext.add _ _ (by omega) (Act_arg hix (by omega))).add_to _ (by omega)
          (Act_arg hiy (by omega))

noncomputable def mkMul (ix iy : ℕ) (fwd dir : ℕ → ℕ → ℕ → Tay → Tay) (rev : ℕ → ℕ → Tay → Tay → Tay)
    (hf : fwd = mulvvForward ix iy) (hd : dir = mulvvDir ix iy) (hr : rev = mulvvReverse ix iy) :
    OpCert 1 [ix, iy] (fun e _ => e ix * e iy) (fun e => (e ix, e iy) ∈ Set.univ) fwd dir rev :=
  mkBinary1 ix iy (fun x y => x * y) (fun _ y => y) (fun x _ => x) Set.univ BFun_mul _ _ _ mulG
    (fun x x' y y' z z' j hx hy hz => Finset.sum_congr rfl fun k hk => by
      rw [Finset.mem_Ico] at hk; rw [hx _ (by omega), hy _ (by omega)])
    (fun p q iz s hx hy _ => by rw [hf]; exact mulvvForward_eq ix iy p q iz s hx hy)
    (fun q r iz s hx hy hq => by rw [hd]; exact mulvvDir_eq ix iy q r iz s hx hy hq)
    (fun x y hc _ j => by rw [← coeff_T, T_mul hc.sx hc.sy, mulG_T]; simp [mulG])
    (fun nv x y dx dy n s P δ hix hiy hc hdx hdy _ h0 h1 _ h3 h4 h5 => by
      rw [hr]
      refine mul_rev ix iy nv n s P δ (X := T x) (Y := T y) (dX := T dx) (dY := T dy)
        (dZ := T (fun t => y t * dx t + x t * dy t)) hix hiy ?_ ?_ ?_ ?_ ?_ ?_
      · simpa using h0
      · simpa using h1
      · simpa using h3
      · simpa using h4
      · simpa using h5
      · rw [T_add (hc.sy.mul hdx) (hc.sx.mul hdy), T_mul hc.sy hdx, T_mul hc.sx hdy])
    (fun nv n s P v hv hx hy => by
      rw [hr]
      exact forDown0_row fun k s => forRange_row fun k s => by rw [add_row hy, add_row hx])

noncomputable def mulvvCert (ix iy : ℕ) := mkMul ix iy _ _ _ rfl rfl rfl

noncomputable def zmulvvCert (ix iy : ℕ) : OpCert 1 [ix, iy] (fun e _ => e ix * e iy)
    (fun e => (e ix, e iy) ∈ Set.univ) (zmulvvForward ix iy) (zmulvvDir ix iy) (zmulvvReverse ix iy) :=
  mkMul ix iy _ _ _ (by funext p q z s; simp [zmulvvForward, mulvvForward])
    (by funext p q z s; simp [zmulvvDir, mulvvDir]) rfl

end CppAD
