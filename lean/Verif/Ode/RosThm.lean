import Verif.Ode.RosRefine
import Mathlib.Analysis.SpecialFunctions.ExpDeriv

/-! # `Rosen34` (property C68): the theorem -/

namespace CppAD.Rk

open Filter Topology Asymptotics
open scoped ContDiff

variable {n : ℕ} (F : ℝ → (Fin n → ℝ) → Fin n → ℝ) (fT fX : ℝ → (ℕ → ℝ) → ℕ → ℝ) (ip0 jp0 : ℕ → ℕ) (x0 : ℕ → ℝ)

/-- the variables of `Rosen34` after `m` of `M` steps of size `h` -/
noncomputable def atR (M : ℕ) (ti : ℝ) (xi g0 Eg0 ftmp0 e0 : ℕ → ℝ) (m : ℕ) (h : ℝ) : ROut ℝ :=
  forRange 0 m (⟨g0, Eg0, ftmp0, xi, forRange 0 n e0 fun i e => Function.update e i 0, false, []⟩ : ROut ℝ) fun m o =>
    rosStep (realEnv n F fT fX ip0 jp0 x0) n M ti (ti + M * h) m o

/-- the time and the solution after `m` steps -/
noncomputable def zR (M : ℕ) (ti : ℝ) (xi g0 Eg0 ftmp0 e0 : ℕ → ℝ) (m : ℕ) (h : ℝ) : ℝ × (Fin n → ℝ) :=
  (ti + m * h, res n (atR F fT fX ip0 jp0 x0 M ti xi g0 Eg0 ftmp0 e0 m h).xf)

variable {F fT fX} (hF : ContDiff ℝ ∞ fun p : ℝ × (Fin n → ℝ) => F p.1 p.2) (hJ : IsJac F fT fX)

include hF hJ in
theorem atR_succ {M : ℕ} (hM : 1 ≤ M) (ti : ℝ) (xi g0 Eg0 ftmp0 e0 : ℕ → ℝ) {m : ℕ} (hm : m < M) (h : ℝ)
    (hret : (atR F fT fX ip0 jp0 x0 M ti xi g0 Eg0 ftmp0 e0 m h).ret = false)
    (hU : IsUnit (opE F h (zR F fT fX ip0 jp0 x0 M ti xi g0 Eg0 ftmp0 e0 m h))) :
    (atR F fT fX ip0 jp0 x0 M ti xi g0 Eg0 ftmp0 e0 (m + 1) h).ret = false ∧
    zR F fT fX ip0 jp0 x0 M ti xi g0 Eg0 ftmp0 e0 (m + 1) h = advR F h (zR F fT fX ip0 jp0 x0 M ti xi g0 Eg0 ftmp0 e0 m h) ∧
    ∀ i : Fin n, (atR F fT fX ip0 jp0 x0 M ti xi g0 Eg0 ftmp0 e0 (m + 1) h).e i =
      (atR F fT fX ip0 jp0 x0 M ti xi g0 Eg0 ftmp0 e0 m h).e i +
      |(h • ∑ k ∈ Finset.range 4, ((rosD4 k - rosD3 k : ℚ) : ℝ) •
        ks F h (zR F fT fX ip0 jp0 x0 M ti xi g0 Eg0 ftmp0 e0 m h) 4 k).2 i| := by
  have hM0 : (M : ℝ) ≠ 0 := by
    have : (0 : ℝ) < M := by exact_mod_cast hM
    exact this.ne'
  have e1 : (ti + M * h - ti) / M = h := by field_simp; ring
  have e2 : ti * (((M - m : ℕ) : ℝ) / M) + (ti + M * h) * ((m : ℝ) / M) = ti + m * h := by
    rw [Nat.cast_sub hm.le]
    field_simp
    ring
  have es : atR F fT fX ip0 jp0 x0 M ti xi g0 Eg0 ftmp0 e0 (m + 1) h =
      rosStep (realEnv n F fT fX ip0 jp0 x0) n M ti (ti + M * h) m (atR F fT fX ip0 jp0 x0 M ti xi g0 Eg0 ftmp0 e0 m h) :=
    forRange_succ (Nat.zero_le m) _ _
  have key := rosStep_ok hF hJ ip0 jp0 x0 M ti (ti + M * h) m (atR F fT fX ip0 jp0 x0 M ti xi g0 Eg0 ftmp0 e0 m h) hret
  have ez : (ti + (m : ℝ) * h, res n (atR F fT fX ip0 jp0 x0 M ti xi g0 Eg0 ftmp0 e0 m h).xf) =
    zR F fT fX ip0 jp0 x0 M ti xi g0 Eg0 ftmp0 e0 m h := rfl
  simp only [e1, e2, ← es, ez] at key
  obtain ⟨k1, k2, k3, k4⟩ := key hU
  refine ⟨k1, Prod.ext ?_ k2, fun i => ?_⟩
  · show ti + ((m + 1 : ℕ) : ℝ) * h = ti + m * h + h * (∑ k ∈ Finset.range 4, (rosD4 k : ℝ) • ks F h _ 4 k).1
    have : (∑ k ∈ Finset.range 4, (rosD4 k : ℝ) • ks F h (zR F fT fX ip0 jp0 x0 M ti xi g0 Eg0 ftmp0 e0 m h) 4 k).1 = 1 := by
      rw [Prod.fst_sum]
      have h1 : ∀ k ∈ Finset.range 4, ((rosD4 k : ℝ) • ks F h (zR F fT fX ip0 jp0 x0 M ti xi g0 Eg0 ftmp0 e0 m h) 4 k).1 =
          ((rosD4 k * (2 * rosCt k) : ℚ) : ℝ) := by
        intro k hk
        rw [Prod.smul_fst, k3 k (Finset.mem_range.1 hk), smul_eq_mul]
        push_cast
        ring
      rw [Finset.sum_congr rfl h1]
      exact_mod_cast sumD4
    rw [this]
    push_cast
    ring
  · rw [k4 i, Prod.smul_snd, Pi.smul_apply, smul_eq_mul, Prod.snd_sum, Finset.sum_apply]
    rfl

/-- `I - G' h / 2` is invertible for small steps -/
theorem opE_unit {z : ℝ → ℝ × (Fin n → ℝ)} {z0 : ℝ × (Fin n → ℝ)} {s : Fin 17 → ℚ} (hG : ContDiff ℝ ∞ (auto F))
    (hz : Ord 5 fun h => z h - (z0 + h • ser (auto F) z0 s h)) : ∀ᶠ h in 𝓝 (0 : ℝ), IsUnit (opE F h (z h)) := by
  have o1 : Ord 1 fun h => h • G1 (auto F) (z h) := (G1_bdd hG hz).step
  have t0 : Tendsto (fun h : ℝ => h ^ 1) (𝓝 0) (𝓝 0) := by
    simpa using (continuous_pow 1).tendsto (0 : ℝ)
  have t1 := (IsBigO.trans_tendsto o1 t0).norm
  rw [norm_zero] at t1
  filter_upwards [t1.eventually (gt_mem_nhds one_pos)] with h hh
  have : ‖(h / 2) • G1 (auto F) (z h)‖ < 1 := by
    have e : (h / 2) • G1 (auto F) (z h) = (1 / 2 : ℝ) • (h • G1 (auto F) (z h)) := by module
    rw [e, norm_smul, Real.norm_of_nonneg (by norm_num)]
    linarith [norm_nonneg (h • G1 (auto F) (z h))]
  exact isUnit_one_sub_of_norm_lt_one this

/-- the series of the solutions of the linear equations of the code -/
theorem ks_series {z : ℝ → ℝ × (Fin n → ℝ)} {z0 : ℝ × (Fin n → ℝ)} {s : Fin 17 → ℚ} (hG : ContDiff ℝ ∞ (auto F))
    (hz : Ord 5 fun h => z h - (z0 + h • ser (auto F) z0 s h)) :
    ∀ l < 4, Ord 4 fun h => ks F h (z h) 4 l - ser (auto F) z0 (uf s 4 l) h := by
  refine solves hG hz (u := fun l h => ks F h (z h) 4 l) (fun k hk => ?_) 4 le_rfl
  filter_upwards [opE_unit hG hz] with h hh
  have e1 : ks F h (z h) 4 k = Ring.inverse (opE F h (z h))
      (auto F (z h + h • ∑ l ∈ Finset.range (min k 2), (bR (min k 2) l : ℝ) • ks F h (z h) k l) +
        ∑ l ∈ Finset.range k, (cR k l : ℝ) • ks F h (z h) k l) := by
    rw [ks_stable F h (z h) (Nat.lt_succ_self k) (by omega : k + 1 ≤ 4)]
    exact Function.update_self _ _ _
  have e2 : ∀ l < k, ks F h (z h) k l = ks F h (z h) 4 l := fun l hl => (ks_stable F h (z h) hl (by omega)).symm
  have e3 : ∑ l ∈ Finset.range (min k 2), (bR (min k 2) l : ℝ) • ks F h (z h) k l =
      ∑ l ∈ Finset.range (min k 2), (bR (min k 2) l : ℝ) • ks F h (z h) 4 l :=
    Finset.sum_congr rfl fun l hl => by rw [e2 l (by have := Finset.mem_range.1 hl; omega)]
  have e4 : ∑ l ∈ Finset.range k, (cR k l : ℝ) • ks F h (z h) k l = ∑ l ∈ Finset.range k, (cR k l : ℝ) • ks F h (z h) 4 l :=
    Finset.sum_congr rfl fun l hl => by rw [e2 l (Finset.mem_range.1 hl)]
  rw [e3, e4] at e1
  have e5 := congrArg (opE F h (z h)) e1
  have e6 : ∀ r, opE F h (z h) (Ring.inverse (opE F h (z h)) r) = r := fun r =>
    congrArg (fun L : ℝ × (Fin n → ℝ) →L[ℝ] ℝ × (Fin n → ℝ) => L r) (Ring.mul_inverse_cancel _ hh)
  rw [e6] at e5
  exact e5

include hF hJ in
/-- the series of the numerical solution -/
theorem numericR {M : ℕ} (hM : 1 ≤ M) (ti : ℝ) (xi g0 Eg0 ftmp0 e0 : ℕ → ℝ) {m : ℕ} (hm : m ≤ M) :
    (∀ᶠ h in 𝓝 (0 : ℝ), (atR F fT fX ip0 jp0 x0 M ti xi g0 Eg0 ftmp0 e0 m h).ret = false) ∧
    Ord 5 fun h => zR F fT fX ip0 jp0 x0 M ti xi g0 Eg0 ftmp0 e0 m h -
      ((ti, res n xi) + h • ser (auto F) (ti, res n xi) (after m) h) := by
  have hG := auto_smooth' hF
  induction m with
  | zero =>
    refine ⟨Eventually.of_forall fun h => rfl, (Ord.zero 5).congr fun h => ?_⟩
    have : ser (auto F) (ti, res n xi) (after ((0 : ℕ) : ℚ)) h = 0 := by
      rw [ser]
      exact Finset.sum_eq_zero fun i _ => by simp [after]
    rw [this, smul_zero, add_zero, zR]
    simp [atR, forRange]
  | succ m ih =>
    obtain ⟨ih1, ih2⟩ := ih (by omega)
    have hs : ∀ᶠ h in 𝓝 (0 : ℝ), _ := (ih1.and (opE_unit hG ih2)).mono fun h hh =>
      atR_succ ip0 jp0 x0 hF hJ hM ti xi g0 Eg0 ftmp0 e0 (by omega : m < M) h hh.1 hh.2
    refine ⟨hs.mono fun h hh => hh.1, ?_⟩
    have h1 := comb (w := rosD4) (J := 4) ih2 (ks_series hG ih2)
    have h2 : Ord 5 fun h => h • (ser (auto F) (ti, res n xi) (fun i => after (m : ℚ) i +
        ∑ k ∈ Finset.range 4, rosD4 k * uf (after m) 4 k i) h - ser (auto F) (ti, res n xi) (after ((m + 1 : ℕ) : ℚ)) h) := by
      refine (ser_agree (auto F) (ti, res n xi) 4 fun i hi => ?_).step
      rw [order4R m i (by omega)]
      push_cast
      rfl
    have h3 := h1.add h2
    refine IsBigO.congr' h3 ?_ EventuallyEq.rfl
    filter_upwards [hs] with h hh
    rw [hh.2.1, advR]
    module

include hF hJ in
/-- the order of the estimate of the error -/
theorem estimateR {M : ℕ} (hM : 1 ≤ M) (ti : ℝ) (xi g0 Eg0 ftmp0 e0 : ℕ → ℝ) {m : ℕ} (hm : m ≤ M) (i : Fin n) :
    Ord 4 fun h => (atR F fT fX ip0 jp0 x0 M ti xi g0 Eg0 ftmp0 e0 m h).e i := by
  have hG := auto_smooth' hF
  induction m with
  | zero =>
    refine (Ord.zero 4).congr fun h => ?_
    have key := forRange_ind (Nat.zero_le n) (s := e0) (f := fun i e => Function.update e i 0)
      (fun L (y : ℕ → ℝ) => ∀ i < L, y i = 0) (by intro i hi; omega)
      (by
        intro L y _ hL ih i hi
        by_cases e : i = L
        · subst e; exact Function.update_self _ _ _
        · rw [Function.update_of_ne e]; exact ih i (by omega))
    exact (key i i.2).symm
  | succ m ih =>
    obtain ⟨n1, n2⟩ := numericR ip0 jp0 x0 hF hJ hM ti xi g0 Eg0 ftmp0 e0 (by omega : m ≤ M)
    have hs : ∀ᶠ h in 𝓝 (0 : ℝ), _ := (n1.and (opE_unit hG n2)).mono fun h hh =>
      atR_succ ip0 jp0 x0 hF hJ hM ti xi g0 Eg0 ftmp0 e0 (by omega : m < M) h hh.1 hh.2
    have h1 := ks_series hG n2
    have h2 : Ord 4 fun h => ∑ k ∈ Finset.range 4, ((rosD4 k - rosD3 k : ℚ) : ℝ) •
        (ks F h (zR F fT fX ip0 jp0 x0 M ti xi g0 Eg0 ftmp0 e0 m h) 4 k - ser (auto F) (ti, res n xi) (uf (after m) 4 k) h) :=
      Ord.sum _ fun k hk => (h1 k (Finset.mem_range.1 hk)).smul _
    have h3 : Ord 3 fun h => ser (auto F) (ti, res n xi) (fun i => (fun _ => 0) i +
        ∑ k ∈ Finset.range 4, (rosD4 k - rosD3 k) * uf (after m) 4 k i) h - ser (auto F) (ti, res n xi) (fun _ => 0) h := by
      refine ser_agree (auto F) (ti, res n xi) 3 fun i hi => ?_
      rw [order3R m i (by omega), add_zero]
    have h4 : Ord 3 fun h => ∑ k ∈ Finset.range 4, ((rosD4 k - rosD3 k : ℚ) : ℝ) •
        ks F h (zR F fT fX ip0 jp0 x0 M ti xi g0 Eg0 ftmp0 e0 m h) 4 k := by
      refine ((h2.mono (by omega : 3 ≤ 4)).add h3).congr fun h => ?_
      rw [ser_comb]
      simp only [smul_sub, Finset.sum_sub_distrib]
      abel
    have h5 : Ord 4 fun h => (h • ∑ k ∈ Finset.range 4, ((rosD4 k - rosD3 k : ℚ) : ℝ) •
        ks F h (zR F fT fX ip0 jp0 x0 M ti xi g0 Eg0 ftmp0 e0 m h) 4 k).2 i := by
      refine IsBigO.trans (IsBigO.of_bound 1 (Eventually.of_forall fun h => ?_)) h4.step
      rw [one_mul]
      exact (norm_le_pi_norm _ i).trans (norm_snd_le _)
    have h6 : Ord 4 _ := (ih (by omega)).add (IsBigO.abs_left h5)
    refine IsBigO.congr' h6 ?_ EventuallyEq.rfl
    filter_upwards [hs] with h hh
    exact (hh.2.2 i).symm

include hF hJ in
/-- *Property C68*: for a smooth `F` and a fixed number of steps `M`, the value that `Rosen34` returns differs from the
value `X(tf)` of the solution of the initial value problem by `O(h^5)`, and the error bound `e` is `O(h^4)`, where
`h = (tf - ti) / M` is the step size. -/
theorem rosen34_ok {M : ℕ} (hM : 1 ≤ M) (ti : ℝ) (xi g0 Eg0 ftmp0 e0 : ℕ → ℝ) (X : ℝ → Fin n → ℝ) (h0 : ∀ i, X ti i = xi i)
    (hX : ∀ᶠ t in 𝓝 ti, HasDerivAt X (F t (X t)) t) (i : Fin n) :
    ((fun tf => X tf i - (rosen34 (realEnv n F fT fX ip0 jp0 x0) n M ti tf xi g0 Eg0 ftmp0 e0).xf i)
      =O[𝓝 ti] fun tf => ((tf - ti) / M) ^ 5) ∧
    (fun tf => (rosen34 (realEnv n F fT fX ip0 jp0 x0) n M ti tf xi g0 Eg0 ftmp0 e0).e i)
      =O[𝓝 ti] fun tf => ((tf - ti) / M) ^ 4 := by
  have hM0 : (M : ℝ) ≠ 0 := by
    have : (0 : ℝ) < M := by exact_mod_cast hM
    exact this.ne'
  let Z : ℝ → ℝ × (Fin n → ℝ) := fun s => (ti + s, X (ti + s))
  have hZ : ∀ᶠ s in 𝓝 (0 : ℝ), HasDerivAt Z (auto F (Z s)) s := by
    have t0 : Tendsto (fun s : ℝ => ti + s) (𝓝 0) (𝓝 ti) := by
      have c0 : Continuous fun s : ℝ => ti + s := by fun_prop
      simpa using c0.tendsto 0
    filter_upwards [t0.eventually hX] with s hs
    have d1 : HasDerivAt (fun s : ℝ => ti + s) 1 s := by simpa using (hasDerivAt_id' s).const_add ti
    have d2 : HasDerivAt (fun s : ℝ => X (ti + s)) (F (ti + s) (X (ti + s))) s := by
      have := HasDerivAt.scomp s hs d1
      rwa [one_smul] at this
    exact HasDerivAt.prodMk d1 d2
  have hz0 : Z 0 = (ti, res n xi) := by
    refine Prod.ext (by simp [Z]) (funext fun i => ?_)
    show X (ti + 0) i = xi i
    rw [add_zero, h0]
  have sol := solution (auto_smooth' hF) hZ
  have tM : Tendsto (fun h : ℝ => (M : ℝ) * h) (𝓝 0) (𝓝 0) := by
    have c0 : Continuous fun h : ℝ => (M : ℝ) * h := by fun_prop
    simpa using c0.tendsto 0
  have sol2 : Ord 6 fun h => Z (M * h) - ((ti, res n xi) + h • ser (auto F) (ti, res n xi) (after M) h) := by
    have s1 := IsBigO.comp_tendsto sol tM
    have s2 : (fun h : ℝ => ((M : ℝ) * h) ^ 6) =O[𝓝 0] fun h => h ^ 6 := by
      refine IsBigO.of_bound ((M : ℝ) ^ 6) (Eventually.of_forall fun h => ?_)
      rw [mul_pow, norm_mul, Real.norm_of_nonneg (by positivity : (0 : ℝ) ≤ (M : ℝ) ^ 6)]
    refine Ord.congr (IsBigO.trans s1 s2) fun h => ?_
    show Z (M * h) - (Z 0 + (M * h) • ser (auto F) (Z 0) exact (M * h)) = _
    rw [hz0]
    congr 2
    rw [ser, ser, Finset.smul_sum, Finset.smul_sum]
    refine Finset.sum_congr rfl fun i _ => ?_
    rw [smul_smul, smul_smul]
    congr 1
    rw [after]
    push_cast
    rw [pow_succ, mul_pow]
    ring
  have num := (numericR ip0 jp0 x0 hF hJ hM ti xi g0 Eg0 ftmp0 e0 le_rfl).2
  have tend : Tendsto (fun tf : ℝ => (tf - ti) / M) (𝓝 ti) (𝓝 0) := by
    have : Continuous fun tf : ℝ => (tf - ti) / M := (continuous_id.sub continuous_const).div_const _
    simpa using this.tendsto ti
  have back : ∀ tf : ℝ, ti + M * ((tf - ti) / M) = tf := by
    intro tf
    field_simp
    ring
  have same : ∀ tf : ℝ, atR F fT fX ip0 jp0 x0 M ti xi g0 Eg0 ftmp0 e0 M ((tf - ti) / M) =
      rosen34 (realEnv n F fT fX ip0 jp0 x0) n M ti tf xi g0 Eg0 ftmp0 e0 := by
    intro tf
    rw [atR, back, rosen34]
  constructor
  · have d : Ord 5 fun h => Z (M * h) - zR F fT fX ip0 jp0 x0 M ti xi g0 Eg0 ftmp0 e0 M h :=
      ((sol2.mono (by omega : 5 ≤ 6)).sub num).congr fun h => by abel
    have d1 := IsBigO.comp_tendsto d tend
    refine IsBigO.trans (IsBigO.of_bound 1 (Eventually.of_forall fun tf => ?_)) d1
    rw [one_mul]
    have e : X tf i - (rosen34 (realEnv n F fT fX ip0 jp0 x0) n M ti tf xi g0 Eg0 ftmp0 e0).xf i =
        (Z (M * ((tf - ti) / M)) - zR F fT fX ip0 jp0 x0 M ti xi g0 Eg0 ftmp0 e0 M ((tf - ti) / M)).2 i := by
      show _ = X (ti + M * ((tf - ti) / M)) i - (atR F fT fX ip0 jp0 x0 M ti xi g0 Eg0 ftmp0 e0 M ((tf - ti) / M)).xf i
      rw [back, same]
    rw [e]
    exact (norm_le_pi_norm _ i).trans (norm_snd_le _)
  · have d1 := IsBigO.comp_tendsto (estimateR ip0 jp0 x0 hF hJ hM ti xi g0 Eg0 ftmp0 e0 le_rfl i) tend
    refine IsBigO.trans (IsBigO.of_bound 1 (Eventually.of_forall fun tf => ?_)) d1
    show _ ≤ 1 * ‖(atR F fT fX ip0 jp0 x0 M ti xi g0 Eg0 ftmp0 e0 M ((tf - ti) / M)).e i‖
    rw [one_mul, same]

/-- the hypotheses hold for `x' = x`, `x(0) = 1`, with two steps -/
example : (fun tf => Real.exp tf - (rosen34 (realEnv 1 (fun _ x => x) (fun _ _ _ => 0) (fun _ _ _ => 1) (fun _ => 5) (fun _ => 5)
    (fun _ => 4)) 1 2 0 tf (fun _ => 1) (fun _ => 7) (fun _ => 3) (fun _ => 2) (fun _ => 8)).xf 0)
      =O[𝓝 0] fun tf : ℝ => ((tf - 0) / (2 : ℕ)) ^ 5 := by
  have hJ : IsJac (n := 1) (fun _ x => x) (fun _ _ _ => (0 : ℝ)) (fun _ _ _ => 1) :=
    ⟨fun t x i => by simp, fun t x i j => by
      have : i = j := Subsingleton.elim _ _
      subst this
      simp⟩
  have := (rosen34_ok (n := 1) (F := fun _ x => x) (fun _ => 5) (fun _ => 5) (fun _ => 4) contDiff_snd hJ (M := 2) (by omega) 0
    (fun _ => 1) (fun _ => 7) (fun _ => 3) (fun _ => 2) (fun _ => 8)
    (fun t _ => Real.exp t) (fun i => Real.exp_zero)
    (Eventually.of_forall fun t => hasDerivAt_pi.2 fun i => Real.hasDerivAt_exp t) 0).1
  exact this

end CppAD.Rk
