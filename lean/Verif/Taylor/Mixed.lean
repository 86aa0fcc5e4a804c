import Verif.Taylor.Series
import Mathlib.Analysis.Calculus.FDeriv.Symmetric
import Mathlib.Analysis.Calculus.Deriv.Prod

/-! # Derivative of Taylor coefficients with respect to a parameter -/

open scoped ContDiff Topology PowerSeries

namespace CppAD

/-- partial derivative with respect to the second argument -/
noncomputable def Dt (G : ℝ × ℝ → ℝ) : ℝ × ℝ → ℝ := fun p => fderiv ℝ G p (0, 1)
/-- partial derivative with respect to the first argument -/
noncomputable def De (G : ℝ × ℝ → ℝ) : ℝ × ℝ → ℝ := fun p => fderiv ℝ G p (1, 0)

variable {G : ℝ × ℝ → ℝ}

theorem smooth_dir (hG : ContDiffAt ℝ ∞ G 0) (v : ℝ × ℝ) : ContDiffAt ℝ ∞ (fun p => fderiv ℝ G p v) 0 :=
  (hG.fderiv_right (m := ∞) (by simp)).clm_apply contDiffAt_const

theorem ev_diff (hG : ContDiffAt ℝ ∞ G 0) : ∀ᶠ p in 𝓝 (0 : ℝ × ℝ), DifferentiableAt ℝ G p := by
  have h1 : ContDiffAt ℝ 1 G 0 := hG.of_le (by exact_mod_cast le_top)
  filter_upwards [h1.eventually (by simp)] with p hp using hp.differentiableAt (by simp)

theorem hasDeriv_t {p : ℝ × ℝ} (h : DifferentiableAt ℝ G p) :
    HasDerivAt (fun t => G (p.1, t)) (Dt G p) p.2 := by
  have h1 : HasDerivAt (fun t : ℝ => (p.1, t)) ((0 : ℝ), (1 : ℝ)) p.2 :=
    (hasDerivAt_const _ _).prodMk (hasDerivAt_id _)
  exact HasFDerivAt.comp_hasDerivAt (x := p.2) (l := G) h.hasFDerivAt h1

theorem hasDeriv_e {p : ℝ × ℝ} (h : DifferentiableAt ℝ G p) :
    HasDerivAt (fun e => G (e, p.2)) (De G p) p.1 := by
  have h1 : HasDerivAt (fun e : ℝ => (e, p.2)) ((1 : ℝ), (0 : ℝ)) p.1 :=
    (hasDerivAt_id _).prodMk (hasDerivAt_const _ _)
  exact HasFDerivAt.comp_hasDerivAt (x := p.1) (l := G) h.hasFDerivAt h1

theorem ev_slice {P : ℝ × ℝ → Prop} (h : ∀ᶠ p in 𝓝 (0 : ℝ × ℝ), P p) :
    ∀ᶠ e in 𝓝 (0 : ℝ), ∀ᶠ t in 𝓝 (0 : ℝ), P (e, t) := by
  have : 𝓝 (0 : ℝ × ℝ) = 𝓝 (0 : ℝ) ×ˢ 𝓝 (0 : ℝ) := by rw [← nhds_prod_eq]; rfl
  rw [this] at h
  exact h.curry

theorem iter_t (k : ℕ) : ∀ {G : ℝ × ℝ → ℝ}, ContDiffAt ℝ ∞ G 0 →
    ∀ᶠ e in 𝓝 (0 : ℝ), iteratedDeriv k (fun t => G (e, t)) 0 = (Dt^[k] G) (e, 0) := by
  induction k with
  | zero => intro G _; exact Filter.Eventually.of_forall fun e => by simp
  | succ k ih =>
    intro G hG
    filter_upwards [ev_slice (ev_diff hG), ih (G := Dt G) (smooth_dir hG (0, 1))]
      with e he hi
    rw [iteratedDeriv_succ', Function.iterate_succ, Function.comp_apply, ← hi]
    have : deriv (fun t => G (e, t)) =ᶠ[𝓝 0] fun t => Dt G (e, t) := by
      filter_upwards [he] with t ht using (hasDeriv_t (p := (e, t)) ht).deriv
    exact this.iteratedDeriv_eq k

theorem of_nat (hG : ContDiffAt ℝ ∞ G 0) (n : ℕ) : ContDiffAt ℝ n G 0 :=
  hG.of_le (by exact_mod_cast le_top)

theorem symm_et (hG : ContDiffAt ℝ ∞ G 0) : De (Dt G) =ᶠ[𝓝 0] Dt (De G) := by
  have h2 : ContDiffAt ℝ 2 G 0 := by
    exact_mod_cast of_nat hG 2
  filter_upwards [h2.eventually (by simp)] with p hp
  have hs := hp.isSymmSndFDerivAt (by simp)
  have hd : DifferentiableAt ℝ (fderiv ℝ G) p :=
    (hp.fderiv_right (m := 1) (by norm_num)).differentiableAt (by simp)
  have e1 : ∀ v w : ℝ × ℝ, fderiv ℝ (fun q => fderiv ℝ G q v) p w = fderiv ℝ (fderiv ℝ G) p w v := by
    intro v w
    rw [fderiv_clm_apply hd (differentiableAt_const _)]
    simp
  show fderiv ℝ (fun q => fderiv ℝ G q (0, 1)) p (1, 0) = fderiv ℝ (fun q => fderiv ℝ G q (1, 0)) p (0, 1)
  rw [e1, e1, hs.eq]

theorem Dt_congr {G H : ℝ × ℝ → ℝ} (h : G =ᶠ[𝓝 0] H) : Dt G =ᶠ[𝓝 0] Dt H := by
  filter_upwards [h.eventuallyEq_nhds] with p hp
  unfold Dt; rw [hp.fderiv_eq]

theorem De_congr {G H : ℝ × ℝ → ℝ} (h : G =ᶠ[𝓝 0] H) : De G =ᶠ[𝓝 0] De H := by
  filter_upwards [h.eventuallyEq_nhds] with p hp
  unfold De; rw [hp.fderiv_eq]

theorem iter_smooth (k : ℕ) : ∀ {G : ℝ × ℝ → ℝ}, ContDiffAt ℝ ∞ G 0 → ContDiffAt ℝ ∞ (Dt^[k] G) 0 := by
  induction k with
  | zero => intro G h; exact h
  | succ k ih => intro G h; exact ih (smooth_dir h _ : ContDiffAt ℝ ∞ (Dt G) 0)

theorem iter_congr (k : ℕ) : ∀ {G H : ℝ × ℝ → ℝ}, G =ᶠ[𝓝 0] H → Dt^[k] G =ᶠ[𝓝 0] Dt^[k] H := by
  induction k with
  | zero => intro G H h; exact h
  | succ k ih => intro G H h; exact ih (Dt_congr h)

theorem De_iter (k : ℕ) : ∀ {G : ℝ × ℝ → ℝ}, ContDiffAt ℝ ∞ G 0 → De (Dt^[k] G) =ᶠ[𝓝 0] Dt^[k] (De G) := by
  induction k with
  | zero => intro G h; exact Filter.EventuallyEq.rfl
  | succ k ih =>
    intro G h
    exact (ih (smooth_dir h _ : ContDiffAt ℝ ∞ (Dt G) 0)).trans (iter_congr k (symm_et h))

/-- The derivative with respect to `e` of the order `k` Taylor coefficient in `t` of `G (e, t)` is the order
`k` Taylor coefficient of the derivative. -/
theorem hasDerivAt_tc (hG : ContDiffAt ℝ ∞ G 0) {D : ℝ → ℝ}
    (hD : ∀ᶠ t in 𝓝 (0 : ℝ), HasDerivAt (fun e => G (e, t)) (D t) 0) (k : ℕ) :
    HasDerivAt (fun e => tc (fun t => G (e, t)) k) (tc D k) 0 := by
  have hd := (iter_smooth k hG).differentiableAt (by simp)
  have h1 : HasDerivAt (fun e => (Dt^[k] G) (e, 0)) (De (Dt^[k] G) 0) 0 :=
    hasDeriv_e (p := (0 : ℝ × ℝ)) hd
  have h2 : De (Dt^[k] G) 0 = iteratedDeriv k D 0 := by
    rw [(De_iter k hG).eq_of_nhds]
    have h3 := (iter_t k (G := De G) (smooth_dir hG (1, 0))).self_of_nhds
    have h4 : D =ᶠ[𝓝 0] fun t => De G (0, t) := by
      filter_upwards [hD, (ev_slice (ev_diff hG)).self_of_nhds] with t h5 h6
      exact h5.unique (hasDeriv_e (p := (0, t)) h6)
    rw [h4.iteratedDeriv_eq k]; exact h3.symm
  rw [h2] at h1
  have h5 : (fun e => tc (fun t => G (e, t)) k) =ᶠ[𝓝 0] fun e => (Dt^[k] G) (e, 0) / (k.factorial : ℝ) := by
    filter_upwards [iter_t k hG] with e he
    simp only [tc, he]
  exact (h1.div_const _).congr_of_eventuallyEq h5

open PowerSeries in
theorem T_id : T (fun t => t) = X := by
  have h := T_deriv (fun t : ℝ => t)
  ext k
  rcases k with _ | k
  · simp [tc]
  · have h1 : deriv (fun t : ℝ => t) = fun _ => 1 := by funext t; simp
    rw [h1, T_const] at h
    have := congrArg (coeff k) h
    rw [coeff_derivative, coeff_T] at this
    rw [coeff_T, coeff_X]
    have h2 : (k : ℝ) + 1 ≠ 0 := by positivity
    rw [coeff_C] at this
    by_cases hk : k = 0
    · subst hk; simpa using this.symm
    · simp only [hk, if_false] at this
      have : tc (fun t => t) (k + 1) = 0 := by
        rcases mul_eq_zero.mp this.symm with h | h
        · exact h
        · exact absurd h h2
      simp [this, hk]

theorem Sm_pow (s : ℕ) : Sm (fun t => t ^ s) := contDiffAt_id.pow s

open PowerSeries in
theorem T_pow (s : ℕ) : T (fun t => t ^ s) = (X : ℝ⟦X⟧) ^ s := by
  induction s with
  | zero => simp only [pow_zero, T_const]; simp
  | succ s ih =>
    simp only [pow_succ]
    rw [T_mul (g := fun t => t) (Sm_pow s) contDiffAt_id, ih, T_id]

open PowerSeries in
theorem tc_pow_mul {g : ℝ → ℝ} (hg : Sm g) (s k : ℕ) : tc (fun t => t ^ s * g t) (s + k) = tc g k := by
  rw [← coeff_T, T_mul (Sm_pow s) hg, T_pow, add_comm, coeff_X_pow_mul, coeff_T]

open PowerSeries in
theorem tc_pow_mul' {g : ℝ → ℝ} (hg : Sm g) (s k : ℕ) :
    tc (fun t => t ^ s * g t) k = if s ≤ k then tc g (k - s) else 0 := by
  rw [← coeff_T, T_mul (Sm_pow s) hg, T_pow, coeff_X_pow_mul', coeff_T]

theorem tc_const (c : ℝ) (k : ℕ) : tc (fun _ => c) k = if k = 0 then c else 0 := by
  rw [← coeff_T, T_const, PowerSeries.coeff_C]

theorem tc_sum {ι : Type*} (s : Finset ι) (f : ι → ℝ → ℝ) (h : ∀ i ∈ s, Sm (f i)) (k : ℕ) :
    tc (fun t => ∑ i ∈ s, f i t) k = ∑ i ∈ s, tc (f i) k := by
  classical
  induction s using Finset.induction_on with
  | empty => simp [tc_const]
  | insert a s ha ih =>
    simp only [Finset.sum_insert ha]
    rw [← coeff_T, T_add (h a (by simp)) (ContDiffAt.sum fun i hi => h i (by simp [hi])), map_add, coeff_T, coeff_T,
      ih fun i hi => h i (by simp [hi])]

theorem tc_mul_range {f g : ℝ → ℝ} (hf : Sm f) (hg : Sm g) (n : ℕ) :
    tc (fun t => f t * g t) n = ∑ k ∈ Finset.range (n + 1), tc f k * tc g (n - k) := by
  rw [← coeff_T, T_mul hf hg, coeff_mul_range]
  simp only [coeff_T]

end CppAD
