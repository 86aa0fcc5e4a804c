import Verif.Ode.RosLoops

/-! # `Rosen34` computes the stages (property C68) -/

namespace CppAD.Rk

open scoped ContDiff

set_option maxHeartbeats 1000000

variable {n : ℕ}

/-- the solutions of the linear equations of one step -/
noncomputable def ks (F : ℝ → (Fin n → ℝ) → Fin n → ℝ) (h : ℝ) (z : ℝ × (Fin n → ℝ)) : ℕ → ℕ → ℝ × (Fin n → ℝ)
  | 0 => fun _ => 0
  | k + 1 => Function.update (ks F h z k) k (Ring.inverse (opE F h z)
      (auto F (z + h • ∑ l ∈ Finset.range (min k 2), (bR (min k 2) l : ℝ) • ks F h z k l) +
        ∑ l ∈ Finset.range k, (cR k l : ℝ) • ks F h z k l))

theorem ks_stable (F : ℝ → (Fin n → ℝ) → Fin n → ℝ) (h : ℝ) (z : ℝ × (Fin n → ℝ)) {l j J : ℕ} (hl : l < j) (hj : j ≤ J) :
    ks F h z J l = ks F h z j l := by
  induction J with
  | zero => omega
  | succ J ih =>
    by_cases e : j = J + 1
    · rw [e]
    · rw [ks, Function.update_of_ne (by omega), ih (by omega)]

theorem sumCt : ∀ k < 4, 1 + ∑ l ∈ Finset.range k, cR k l * (2 * rosCt l) = 2 * rosCt k := by decide +kernel
theorem sumB : ∀ k < 3, ∑ l ∈ Finset.range k, bR k l * (2 * rosCt l) = rosA k := by decide +kernel
theorem sumD4 : ∑ k ∈ Finset.range 4, rosD4 k * (2 * rosCt k) = 1 := by decide +kernel

variable {F : ℝ → (Fin n → ℝ) → Fin n → ℝ} (hF : ContDiff ℝ ∞ fun p : ℝ × (Fin n → ℝ) => F p.1 p.2)
  {fT fX : ℝ → (ℕ → ℝ) → ℕ → ℝ} (hJ : IsJac F fT fX) (ip0 jp0 : ℕ → ℕ) (x0 : ℕ → ℝ)

/-- the value of the variables after `k` stages -/
structure RInv (F : ℝ → (Fin n → ℝ) → Fin n → ℝ) (t h : ℝ) (xf : ℕ → ℝ) (k : ℕ) (s : RSt ℝ) : Prop where
  ret : s.ret = false
  tau : ∀ l < k, (ks F h (t, res n xf) k l).1 = ((2 * rosCt l : ℚ) : ℝ)
  g : ∀ i : Fin n, ∀ l < k, s.g (i * 3 + l) = (ks F h (t, res n xf) k l).2 i
  ftmp : 1 ≤ k → ∀ i : Fin n, s.ftmp i = (auto F ((t, res n xf) + h • ∑ l ∈ Finset.range (k - 1),
    (bR (k - 1) l : ℝ) • ks F h (t, res n xf) k l)).2 i
  x3 : ∀ i : Fin n, s.x3 i = xf i + h * ∑ l ∈ Finset.range k, (rosD3 l : ℝ) * (ks F h (t, res n xf) k l).2 i
  x4 : ∀ i : Fin n, s.x4 i = xf i + h * ∑ l ∈ Finset.range k, (rosD4 l : ℝ) * (ks F h (t, res n xf) k l).2 i

include hF hJ in
/-- the solution of one equation, for a stage and for the last update -/
theorem solve_stage (t h : ℝ) (xf : ℕ → ℝ) (hU : IsUnit (opE F h (t, res n xf))) (k : ℕ) (hk : k < 4) {g ftmp Eg : ℕ → ℝ}
    (htau : ∀ l < k, (ks F h (t, res n xf) k l).1 = ((2 * rosCt l : ℚ) : ℝ))
    (hg : ∀ i : Fin n, ∀ l < k, g (i * 3 + l) = (ks F h (t, res n xf) k l).2 i)
    (hf : ∀ i : Fin n, ftmp i = (auto F ((t, res n xf) + h • ∑ l ∈ Finset.range (min k 2),
      (bR (min k 2) l : ℝ) • ks F h (t, res n xf) k l)).2 i) :
    let v := realEnv n F fT fX ip0 jp0 x0
    ks F h (t, res n xf) (k + 1) k = (((2 * rosCt k : ℚ) : ℝ),
      res n (v.inv (v.fac (rosE n (re 2) h (fX t xf))) (rosEg re n k (k - 1) h (fT t xf) ftmp g Eg))) := by
  intro v
  set K := ks F h (t, res n xf) with hK
  set r := auto F ((t, res n xf) + h • ∑ l ∈ Finset.range (min k 2), (bR (min k 2) l : ℝ) • K k l) +
        ∑ l ∈ Finset.range k, (cR k l : ℝ) • K k l with hr
  have h1 : K (k + 1) k = Ring.inverse (opE F h (t, res n xf)) r := Function.update_self _ _ _
  have r1 : r.1 = ((2 * rosCt k : ℚ) : ℝ) := by
    rw [hr, Prod.fst_add, Prod.fst_sum]
    have e1 : ∀ l ∈ Finset.range k, ((cR k l : ℝ) • K k l).1 = ((cR k l * (2 * rosCt l) : ℚ) : ℝ) := by
      intro l hl
      rw [Prod.smul_fst, htau l (Finset.mem_range.1 hl), smul_eq_mul]
      push_cast
      ring
    rw [Finset.sum_congr rfl e1, ← sumCt k hk]
    show (1 : ℝ) + _ = _
    push_cast
    ring
  rw [h1, ← r1]
  refine solve_code hF hJ ip0 jp0 x0 t h xf hU _ r fun i => ?_
  rw [rosEg_apply k (k - 1) h (fT t xf) ftmp g Eg i i.2, r1, hr, Prod.snd_add, Pi.add_apply, Prod.snd_sum, Finset.sum_apply, hf i]
  have e2 : ∀ l ∈ Finset.range k, re (rosCg ((k - 1) * 3 + l)) * g (i * 3 + l) = ((cR k l : ℝ) • K k l).2 i := by
    intro l hl
    rw [hg i l (Finset.mem_range.1 hl), cR]
    rfl
  rw [Finset.sum_congr rfl e2]
  push_cast
  simp only [re]
  ring

include hF hJ in
theorem rosStage_inv (t h : ℝ) (xf : ℕ → ℝ) (hU : IsUnit (opE F h (t, res n xf))) {k : ℕ} (hk : k < 3) {s : RSt ℝ}
    (hs : RInv F t h xf k s) :
    let v := realEnv n F fT fX ip0 jp0 x0
    RInv F t h xf (k + 1) (rosStage v n t h xf (fT t xf) (v.fac (rosE n (re 2) h (fX t xf))) k s) := by
  intro v
  set K := ks F h (t, res n xf) with hK
  have hold : ∀ l, l < k → K (k + 1) l = K k l := by
    intro l hl
    exact ks_stable F h _ hl (Nat.le_succ k)
  set xtmp := forRange 0 k xf (fun l x => forRange 0 n x fun i x =>
      Function.update x i (x i + re (rosB ((k - 1) * 2 + l)) * s.g (i * 3 + l) * h)) with hx
  set ftmp := ode n F (t + re (rosA k) * h) xtmp with hf
  have ht : ((t, res n xf) + h • ∑ l ∈ Finset.range k, (bR k l : ℝ) • K k l).1 = t + re (rosA k) * h := by
    have e1 : ∑ l ∈ Finset.range k, ((bR k l : ℝ) • K k l).1 = re (rosA k) := by
      rw [← sumB k hk]
      push_cast
      refine Finset.sum_congr rfl fun l hl => ?_
      show (bR k l : ℝ) * (K k l).1 = _
      rw [hs.tau l (Finset.mem_range.1 hl)]
      push_cast
      ring
    show t + h * (∑ l ∈ Finset.range k, (bR k l : ℝ) • K k l).1 = _
    rw [Prod.fst_sum, e1, mul_comm]
  have hxt : ((t, res n xf) + h • ∑ l ∈ Finset.range k, (bR k l : ℝ) • K k l).2 = res n xtmp := by
    funext i
    show res n xf i + h * (∑ l ∈ Finset.range k, (bR k l : ℝ) • K k l).2 i = xtmp i
    rw [hx, xloc_apply (fun l => re (rosB ((k - 1) * 2 + l))) h s.g xf k i i.2, Prod.snd_sum, Finset.sum_apply, Finset.mul_sum]
    show xf i + _ = _
    congr 1
    refine Finset.sum_congr rfl fun l hl => ?_
    rw [hs.g i l (Finset.mem_range.1 hl)]
    show h * ((bR k l : ℝ) * (K k l).2 i) = _
    rw [bR]
    ring
  have hft : ∀ i : Fin n, ftmp i = (auto F ((t, res n xf) + h • ∑ l ∈ Finset.range k, (bR k l : ℝ) • K k l)).2 i := by
    intro i
    rw [hf, ode, dif_pos i.2]
    show _ = F _ _ i
    rw [ht, hxt]
    rfl
  have hmin : min k 2 = k := by omega
  set lu := v.fac (rosE n (re 2) h (fX t xf)) with hlu
  set Eg := v.inv lu (rosEg re n k (k - 1) h (fT t xf) ftmp s.g s.Eg) with hEg
  have hnew : K (k + 1) k = (((2 * rosCt k : ℚ) : ℝ), res n Eg) := by
    refine solve_stage hF hJ ip0 jp0 x0 t h xf hU k (by omega) hs.tau hs.g ?_
    rw [hmin]
    exact hft
  obtain ⟨s1, s2, s3, s4⟩ := store3_apply (n := n) Eg h (re (rosD3 k)) (re (rosD4 k)) k hk s.g s.x3 s.x4
  have hsum : ∀ (c : ℕ → ℚ) (i : Fin n), ∑ l ∈ Finset.range (k + 1), (c l : ℝ) * (K (k + 1) l).2 i =
      ∑ l ∈ Finset.range k, (c l : ℝ) * (K k l).2 i + (c k : ℝ) * Eg i := by
    intro c i
    rw [Finset.sum_range_succ, hnew]
    congr 1
    exact Finset.sum_congr rfl fun l hl => by rw [hold l (Finset.mem_range.1 hl)]
  have estage : rosStage v n t h xf (fT t xf) lu k s = ⟨(forRange 0 n (s.g, s.x3, s.x4) fun i w =>
      (Function.update w.1 (i * 3 + k) (Eg i), Function.update w.2.1 i (w.2.1 i + h * re (rosD3 k) * Eg i),
        Function.update w.2.2 i (w.2.2 i + h * re (rosD4 k) * Eg i))).1,
      (forRange 0 n (s.g, s.x3, s.x4) fun i w =>
      (Function.update w.1 (i * 3 + k) (Eg i), Function.update w.2.1 i (w.2.1 i + h * re (rosD3 k) * Eg i),
        Function.update w.2.2 i (w.2.2 i + h * re (rosD4 k) * Eg i))).2.1,
      (forRange 0 n (s.g, s.x3, s.x4) fun i w =>
      (Function.update w.1 (i * 3 + k) (Eg i), Function.update w.2.1 i (w.2.1 i + h * re (rosD3 k) * Eg i),
        Function.update w.2.2 i (w.2.2 i + h * re (rosD4 k) * Eg i))).2.2, Eg, ftmp, false, (n, ftmp) :: s.tr⟩ := by
    have e0 : hasnan v.isnan n ftmp = false := hasnan_false _ _
    have e1 : rosStage v n t h xf (fT t xf) lu k s =
        if s.ret then s else if hasnan v.isnan n ftmp then { s with ftmp := ftmp, ret := true, tr := (n, ftmp) :: s.tr }
        else ⟨(forRange 0 n (s.g, s.x3, s.x4) fun i w =>
      (Function.update w.1 (i * 3 + k) (Eg i), Function.update w.2.1 i (w.2.1 i + h * re (rosD3 k) * Eg i),
        Function.update w.2.2 i (w.2.2 i + h * re (rosD4 k) * Eg i))).1,
      (forRange 0 n (s.g, s.x3, s.x4) fun i w =>
      (Function.update w.1 (i * 3 + k) (Eg i), Function.update w.2.1 i (w.2.1 i + h * re (rosD3 k) * Eg i),
        Function.update w.2.2 i (w.2.2 i + h * re (rosD4 k) * Eg i))).2.1,
      (forRange 0 n (s.g, s.x3, s.x4) fun i w =>
      (Function.update w.1 (i * 3 + k) (Eg i), Function.update w.2.1 i (w.2.1 i + h * re (rosD3 k) * Eg i),
        Function.update w.2.2 i (w.2.2 i + h * re (rosD4 k) * Eg i))).2.2, Eg, ftmp, false, (n, ftmp) :: s.tr⟩ := rfl
    rw [e1, hs.ret, e0]
    rfl
  rw [estage]
  refine ⟨rfl, fun l hl => ?_, fun i l hl => ?_, fun _ i => ?_, fun i => ?_, fun i => ?_⟩
  · by_cases e : l = k
    · subst e
      rw [← hK, hnew]
    · rw [← hK, hold l (by omega)]
      exact hs.tau l (by omega)
  · by_cases e : l = k
    · subst e
      rw [← hK, hnew]
      exact s1 i i.2
    · rw [← hK, hold l (by omega), ← hs.g i l (by omega)]
      exact s2 i i.2 l (by omega) e
  · rw [← hK, Nat.add_sub_cancel]
    refine (hft i).trans ?_
    have he : ∑ l ∈ Finset.range k, (bR k l : ℝ) • K k l = ∑ l ∈ Finset.range k, (bR k l : ℝ) • K (k + 1) l :=
      Finset.sum_congr rfl fun l hl => by rw [hold l (Finset.mem_range.1 hl)]
    rw [he]
  · rw [← hK, hsum]
    refine (s3 i i.2).trans ?_
    rw [hs.x3 i]
    simp only [re]
    ring
  · rw [← hK, hsum]
    refine (s4 i i.2).trans ?_
    rw [hs.x4 i]
    simp only [re]
    ring

/-- one step of the method as a function of `(t, x)` -/
noncomputable def advR (F : ℝ → (Fin n → ℝ) → Fin n → ℝ) (h : ℝ) (z : ℝ × (Fin n → ℝ)) : ℝ × (Fin n → ℝ) :=
  z + h • ∑ k ∈ Finset.range 4, (rosD4 k : ℝ) • ks F h z 4 k

include hF hJ in
/-- one step of `Rosen34` -/
theorem rosStep_ok (M : ℕ) (ti tf : ℝ) (m : ℕ) (o : ROut ℝ) (hret : o.ret = false) :
    let h := (tf - ti) / M
    let t := ti * (((M - m : ℕ) : ℝ) / M) + tf * ((m : ℝ) / M)
    let o' := rosStep (realEnv n F fT fX ip0 jp0 x0) n M ti tf m o
    IsUnit (opE F h (t, res n o.xf)) →
    o'.ret = false ∧ res n o'.xf = (advR F h (t, res n o.xf)).2 ∧
      (∀ k < 4, (ks F h (t, res n o.xf) 4 k).1 = ((2 * rosCt k : ℚ) : ℝ)) ∧
      ∀ i : Fin n, o'.e i = o.e i + |h * ∑ k ∈ Finset.range 4, ((rosD4 k - rosD3 k : ℚ) : ℝ) *
        (ks F h (t, res n o.xf) 4 k).2 i| := by
  intro h t o' hU
  set v := realEnv n F fT fX ip0 jp0 x0 with hv
  have hh : (tf - ti) / v.ofQ M = h := by simp [h, v, realEnv]
  have htt : ti * (v.ofQ ((M - m : ℕ) : ℚ) / v.ofQ M) + tf * (v.ofQ m / v.ofQ M) = t := by simp [t, v, realEnv]
  set lu := v.fac (rosE n (re 2) h (fX t o.xf)) with hlu
  set tr := (n * n, fX t o.xf) :: (n, fT t o.xf) :: o.tr with htr
  set s := forRange 0 3 (⟨o.g, o.xf, o.xf, o.Eg, o.ftmp, false, tr⟩ : RSt ℝ) (fun k s =>
        rosStage v n t h o.xf (fT t o.xf) lu k s) with hs
  have inv : RInv F t h o.xf 3 s :=
    forRange_ind (by omega : 0 ≤ 3) (s := (⟨o.g, o.xf, o.xf, o.Eg, o.ftmp, false, tr⟩ : RSt ℝ))
      (f := fun k s => rosStage v n t h o.xf (fT t o.xf) lu k s) (fun L (s : RSt ℝ) => RInv F t h o.xf L s)
      ⟨rfl, by intro l hl; omega, by intro i l hl; omega, by intro hl; omega, by intro i; simp, by intro i; simp⟩
      (by intro L s _ hL ih; exact rosStage_inv hF hJ ip0 jp0 x0 t h o.xf hU hL ih)
  set Eg := v.inv lu (rosEg v.ofQ n 3 2 h (fT t o.xf) s.ftmp s.g s.Eg) with hEg
  set K := ks F h (t, res n o.xf) with hK
  have hnew : K 4 3 = (((2 * rosCt 3 : ℚ) : ℝ), res n Eg) :=
    solve_stage hF hJ ip0 jp0 x0 t h o.xf hU 3 (by omega) inv.tau inv.g (inv.ftmp (by omega))
  have hold : ∀ l, l < 3 → K 4 l = K 3 l := fun l hl => ks_stable F h _ hl (by omega)
  have hsum : ∀ (c : ℕ → ℚ) (i : Fin n), ∑ l ∈ Finset.range 4, (c l : ℝ) * (K 4 l).2 i =
      ∑ l ∈ Finset.range 3, (c l : ℝ) * (K 3 l).2 i + (c 3 : ℝ) * Eg i := by
    intro c i
    rw [Finset.sum_range_succ, hnew]
    congr 1
  let W := forRange 0 n (s.x4, o.e) fun i w =>
          let x4 := Function.update w.1 i (w.1 i + h * v.ofQ (rosD4 3) * Eg i)
          let diff := x4 i - s.x3 i
          (x4, Function.update w.2 i (if v.neg diff then w.2 i - diff else w.2 i + diff))
  have eo : o' = ⟨s.g, Eg, s.ftmp, W.1, W.2, false, s.tr⟩ := by
    have e0 : (hasnan v.isnan n (fT t o.xf) || hasnan v.isnan (n * n) (fX t o.xf)) = false := by
      rw [show hasnan v.isnan n (fT t o.xf) = false from hasnan_false _ _,
        show hasnan v.isnan (n * n) (fX t o.xf) = false from hasnan_false _ _]
      rfl
    have e1 : o' = if o.ret then o else
        if hasnan v.isnan n (v.fT (ti * (v.ofQ ((M - m : ℕ) : ℚ) / v.ofQ M) + tf * (v.ofQ m / v.ofQ M)) o.xf) ||
            hasnan v.isnan (n * n) (v.fX (ti * (v.ofQ ((M - m : ℕ) : ℚ) / v.ofQ M) + tf * (v.ofQ m / v.ofQ M)) o.xf) then _ else
          _ := rfl
    rw [e1]
    simp only [hh, htt, hret]
    rw [show v.fT t o.xf = fT t o.xf from rfl, show v.fX t o.xf = fX t o.xf from rfl, e0]
    show (if s.ret then _ else _) = _
    rw [inv.ret]
    rfl
  have key := forRange_ind (Nat.zero_le n) (s := (s.x4, o.e)) (f := fun i w =>
          let x4 := Function.update w.1 i (w.1 i + h * v.ofQ (rosD4 3) * Eg i)
          let diff := x4 i - s.x3 i
          (x4, Function.update w.2 i (if v.neg diff then w.2 i - diff else w.2 i + diff)))
      (fun L (w : (ℕ → ℝ) × (ℕ → ℝ)) =>
        (∀ i, w.1 i = if i < L then s.x4 i + h * re (rosD4 3) * Eg i else s.x4 i) ∧
        (∀ i, w.2 i = if i < L then o.e i + |s.x4 i + h * re (rosD4 3) * Eg i - s.x3 i| else o.e i))
      ⟨by intro i; simp, by intro i; simp⟩
      (by
        rintro L ⟨w1, w2⟩ _ hL ⟨i1, i2⟩
        have q1 : w1 L = s.x4 L := by rw [show w1 L = _ from i1 L]; simp
        have q2 : w2 L = o.e L := by rw [show w2 L = _ from i2 L]; simp
        refine ⟨fun i => ?_, fun i => ?_⟩
        · show Function.update w1 L _ i = _
          by_cases e : i = L
          · subst e
            rw [Function.update_self, show (w1, w2).1 i = s.x4 i from q1, if_pos (Nat.lt_succ_self _)]
            rfl
          · rw [Function.update_of_ne e, show w1 i = _ from i1 i]
            have : (i < L + 1) ↔ (i < L) := by omega
            simp only [this]
        · show Function.update w2 L _ i = _
          by_cases e : i = L
          · subst e
            rw [Function.update_self, Function.update_self, if_pos (Nat.lt_succ_self _)]
            show (if decide (w1 i + h * re (rosD4 3) * Eg i - s.x3 i < 0) = true then w2 i - (w1 i + h * re (rosD4 3) * Eg i - s.x3 i)
              else w2 i + (w1 i + h * re (rosD4 3) * Eg i - s.x3 i)) = _
            rw [q1, q2]
            by_cases hn : s.x4 i + h * re (rosD4 3) * Eg i - s.x3 i < 0
            · rw [if_pos (decide_eq_true hn), abs_of_neg hn]; ring
            · rw [if_neg (by simpa using hn), abs_of_nonneg (not_lt.1 hn)]
          · rw [Function.update_of_ne e, show w2 i = _ from i2 i]
            have : (i < L + 1) ↔ (i < L) := by omega
            simp only [this])
  have x4v : ∀ i : Fin n, s.x4 i + h * re (rosD4 3) * Eg i =
      o.xf i + h * ∑ l ∈ Finset.range 4, (rosD4 l : ℝ) * (K 4 l).2 i := by
    intro i
    rw [hsum, inv.x4 i]
    simp only [re]
    ring
  have x3v : ∀ i : Fin n, s.x3 i = o.xf i + h * ∑ l ∈ Finset.range 4, (rosD3 l : ℝ) * (K 4 l).2 i := by
    intro i
    rw [hsum, inv.x3 i]
    have : rosD3 3 = 0 := rfl
    rw [this]
    push_cast
    ring
  rw [eo]
  refine ⟨rfl, ?_, fun k hk => ?_, fun i => ?_⟩
  · funext i
    show W.1 i = _
    refine (key.1 i).trans ?_
    rw [if_pos i.2, x4v i, advR]
    show _ = o.xf i + h * (∑ k ∈ Finset.range 4, (rosD4 k : ℝ) • K 4 k).2 i
    rw [Prod.snd_sum, Finset.sum_apply]
    rfl
  · by_cases e : k = 3
    · subst e
      rw [hnew]
    · rw [hold k (by omega)]
      exact inv.tau k (by omega)
  · refine (key.2 i).trans ?_
    rw [if_pos i.2, x4v i, x3v i]
    congr 2
    push_cast
    simp only [sub_mul, Finset.sum_sub_distrib]
    ring

end CppAD.Rk
