import Verif.Ode.RkRefine
import Verif.Ode.RkCoef4
import Mathlib.Analysis.Calculus.Deriv.Prod
import Mathlib.Analysis.SpecialFunctions.ExpDeriv

/-! # `Runge45` (property C67): the theorem -/

namespace CppAD.Rk

open Filter Topology Asymptotics
open scoped ContDiff

variable {n : ℕ} (F : ℝ → (Fin n → ℝ) → Fin n → ℝ)

/-- the variables of `Runge45` after `m` of `M` steps of size `h` -/
noncomputable def at_ (M : ℕ) (ti : ℝ) (xi fh0 e0 : ℕ → ℝ) (m : ℕ) (h : ℝ) : Out ℝ :=
  forRange 0 m (⟨fh0, xi, forRange 0 n e0 fun i e => Function.update e i 0, 0, []⟩ : Out ℝ) fun m o =>
    rkStep re (fun x => |x|) n M (ode n F) ti (ti + M * h) m o

/-- the time and the solution after `m` steps -/
noncomputable def zAt (M : ℕ) (ti : ℝ) (xi fh0 e0 : ℕ → ℝ) (m : ℕ) (h : ℝ) : ℝ × (Fin n → ℝ) :=
  (ti + m * h, res n (at_ F M ti xi fh0 e0 m h).xf)

theorem sumC5 : ∑ k ∈ Finset.range 6, tabC5 k = 1 := by decide +kernel

theorem at_succ {M : ℕ} (hM : 1 ≤ M) (ti : ℝ) (xi fh0 e0 : ℕ → ℝ) {m : ℕ} (hm : m < M) (h : ℝ)
    (hz : (at_ F M ti xi fh0 e0 m h).zn = 0) :
    (at_ F M ti xi fh0 e0 (m + 1) h).zn = 0 ∧
    zAt F M ti xi fh0 e0 (m + 1) h = adv F tabC5 h (zAt F M ti xi fh0 e0 m h) ∧
    ∀ i : Fin n, (at_ F M ti xi fh0 e0 (m + 1) h).e i = (at_ F M ti xi fh0 e0 m h).e i +
      |(h • ∑ k ∈ Finset.range 6, ((tabC5 k - tabC4 k : ℚ) : ℝ) • kf bt (auto F) h (zAt F M ti xi fh0 e0 m h) 6 k).2 i| := by
  have hM0 : (M : ℝ) ≠ 0 := by
    have : (0 : ℝ) < M := by exact_mod_cast hM
    exact this.ne'
  have e1 : (ti + M * h - ti) / M = h := by field_simp; ring
  have e2 : ti * (((M - m : ℕ) : ℝ) / M) + (ti + M * h) * ((m : ℝ) / M) = ti + m * h := by
    rw [Nat.cast_sub hm.le]
    field_simp
    ring
  have es : at_ F M ti xi fh0 e0 (m + 1) h =
      rkStep re (fun x => |x|) n M (ode n F) ti (ti + M * h) m (at_ F M ti xi fh0 e0 m h) :=
    forRange_succ (Nat.zero_le m) _ _
  have key := rkStep_ok F M ti (ti + M * h) m (at_ F M ti xi fh0 e0 m h) hz
  have ez : (ti + (m : ℝ) * h, res n (at_ F M ti xi fh0 e0 m h).xf) = zAt F M ti xi fh0 e0 m h := rfl
  simp only [e1, e2, ← es, ez] at key
  obtain ⟨k1, k2, k3, k4⟩ := key
  refine ⟨k1, Prod.ext ?_ k2, fun i => ?_⟩
  · show ti + ((m + 1 : ℕ) : ℝ) * h = ti + m * h + h * (∑ k ∈ Finset.range 6, (tabC5 k : ℝ) • kf bt (auto F) h _ 6 k).1
    have : (∑ k ∈ Finset.range 6, (tabC5 k : ℝ) • kf bt (auto F) h (zAt F M ti xi fh0 e0 m h) 6 k).1 = 1 := by
      rw [Prod.fst_sum]
      have h1 : ∀ k ∈ Finset.range 6, ((tabC5 k : ℝ) • kf bt (auto F) h (zAt F M ti xi fh0 e0 m h) 6 k).1 = (tabC5 k : ℝ) := by
        intro k hk
        show (tabC5 k : ℝ) * (kf bt (auto F) h (zAt F M ti xi fh0 e0 m h) 6 k).1 = _
        rw [k3 k (Finset.mem_range.1 hk), mul_one]
      rw [Finset.sum_congr rfl h1]
      exact_mod_cast sumC5
    rw [this]
    push_cast
    ring
  · rw [k4 i]
    congr 2

theorem at_zn {M : ℕ} (hM : 1 ≤ M) (ti : ℝ) (xi fh0 e0 : ℕ → ℝ) (h : ℝ) {m : ℕ} (hm : m ≤ M) :
    (at_ F M ti xi fh0 e0 m h).zn = 0 := by
  induction m with
  | zero => rfl
  | succ m ih => exact (at_succ F hM ti xi fh0 e0 (by omega) h (ih (by omega))).1

variable {F} (hF : ContDiff ℝ ∞ fun p : ℝ × (Fin n → ℝ) => F p.1 p.2)
include hF

theorem auto_smooth : ContDiff ℝ ∞ (auto F) := contDiff_const.prodMk hF

/-- the series of the numerical solution -/
theorem numeric {M : ℕ} (hM : 1 ≤ M) (ti : ℝ) (xi fh0 e0 : ℕ → ℝ) {m : ℕ} (hm : m ≤ M) :
    Ord 6 fun h => zAt F M ti xi fh0 e0 m h - ((ti, res n xi) + h • ser (auto F) (ti, res n xi) (after m) h) := by
  induction m with
  | zero =>
    refine (Ord.zero 6).congr fun h => ?_
    have : ser (auto F) (ti, res n xi) (after ((0 : ℕ) : ℚ)) h = 0 := by
      rw [ser]
      exact Finset.sum_eq_zero fun i _ => by simp [after]
    rw [this, smul_zero, add_zero, zAt]
    simp [at_, forRange]
  | succ m ih =>
    have h1 := one_step (auto_smooth hF) (ti, res n xi) bt tabC5 6 (ih (by omega))
    have e1 : (fun i => after (m : ℚ) i + ∑ k ∈ Finset.range 6, tabC5 k * cf bt (after m) 6 k i) = after ((m + 1 : ℕ) : ℚ) := by
      funext i
      rw [order5]
      push_cast
      rfl
    rw [e1] at h1
    refine h1.congr fun h => ?_
    rw [(at_succ F hM ti xi fh0 e0 (by omega) h (at_zn F hM ti xi fh0 e0 h (by omega))).2.1, adv]

/-- the order of the estimate of the error -/
theorem estimate {M : ℕ} (hM : 1 ≤ M) (ti : ℝ) (xi fh0 e0 : ℕ → ℝ) {m : ℕ} (hm : m ≤ M) (i : Fin n) :
    Ord 5 fun h => (at_ F M ti xi fh0 e0 m h).e i := by
  induction m with
  | zero =>
    refine (Ord.zero 5).congr fun h => ?_
    have key := forRange_ind (Nat.zero_le n) (s := e0) (f := fun i e => Function.update e i 0)
      (fun L (y : ℕ → ℝ) => ∀ i < L, y i = 0) (by intro i hi; omega)
      (by
        intro L y _ hL ih i hi
        by_cases e : i = L
        · subst e; exact Function.update_self _ _ _
        · rw [Function.update_of_ne e]; exact ih i (by omega))
    exact (key i i.2).symm
  | succ m ih =>
    have h1 := stages (auto_smooth hF) (ti, res n xi) bt (numeric hF hM ti xi fh0 e0 (by omega : m ≤ M)) 6
    have h2 : Ord 5 fun h => ∑ k ∈ Finset.range 6, ((tabC5 k - tabC4 k : ℚ) : ℝ) •
        (kf bt (auto F) h (zAt F M ti xi fh0 e0 m h) 6 k - ser (auto F) (ti, res n xi) (cf bt (after m) 6 k) h) :=
      Ord.sum _ fun k hk => (h1 k (Finset.mem_range.1 hk)).smul _
    have h3 : Ord 4 (ser (auto F) (ti, res n xi) fun i => ∑ k ∈ Finset.range 6, (tabC5 k - tabC4 k) * cf bt (after m) 6 k i) := by
      refine Ord.sum _ fun i _ => ?_
      by_cases hi : deg i ≤ 3
      · refine (Ord.zero 4).congr fun h => ?_
        simp only [order4 m i hi]; simp
      · refine ((Ord.pow (deg i) (((∑ k ∈ Finset.range 6, (tabC5 k - tabC4 k) * cf bt (after m) 6 k i : ℚ) : ℝ) •
          T (auto F) (ti, res n xi) i)).mono (by omega)).congr fun t => ?_
        rw [smul_smul]
    have h4 : Ord 4 fun h => ∑ k ∈ Finset.range 6, ((tabC5 k - tabC4 k : ℚ) : ℝ) •
        kf bt (auto F) h (zAt F M ti xi fh0 e0 m h) 6 k := by
      refine ((h2.mono (by omega : 4 ≤ 5)).add h3).congr fun h => ?_
      have := ser_comb (auto F) (ti, res n xi) (fun _ => 0) 6 (fun k => tabC5 k - tabC4 k) (cf bt (after m) 6) h
      have z : ser (auto F) (ti, res n xi) (fun _ => 0) h = 0 := by
        rw [ser]
        exact Finset.sum_eq_zero fun i _ => by simp
      simp only [zero_add, z] at this
      rw [this]
      simp only [smul_sub, Finset.sum_sub_distrib]
      abel
    have h5 : Ord 5 fun h => (h • ∑ k ∈ Finset.range 6, ((tabC5 k - tabC4 k : ℚ) : ℝ) •
        kf bt (auto F) h (zAt F M ti xi fh0 e0 m h) 6 k).2 i := by
      refine IsBigO.trans (IsBigO.of_bound 1 (Eventually.of_forall fun h => ?_)) h4.step
      rw [one_mul]
      exact (norm_le_pi_norm _ i).trans (norm_snd_le _)
    refine ((ih (by omega)).add (IsBigO.abs_left h5)).congr fun h => ?_
    rw [(at_succ F hM ti xi fh0 e0 (by omega) h (at_zn F hM ti xi fh0 e0 h (by omega))).2.2 i]

/-- *Property C67*: for a smooth `F` and a fixed number of steps `M`, the value that `Runge45` returns differs from the
value `X(tf)` of the solution of the initial value problem by `O(h^6)`, and the error bound `e` is `O(h^5)`, where
`h = (tf - ti) / M` is the step size. -/
theorem runge45_ok {M : ℕ} (hM : 1 ≤ M) (ti : ℝ) (xi fh0 e0 : ℕ → ℝ) (X : ℝ → Fin n → ℝ) (h0 : ∀ i, X ti i = xi i)
    (hX : ∀ᶠ t in 𝓝 ti, HasDerivAt X (F t (X t)) t) (i : Fin n) :
    ((fun tf => X tf i - (runge45 re (fun x => |x|) n M (ode n F) ti tf xi fh0 e0).xf i)
      =O[𝓝 ti] fun tf => ((tf - ti) / M) ^ 6) ∧
    (fun tf => (runge45 re (fun x => |x|) n M (ode n F) ti tf xi fh0 e0).e i)
      =O[𝓝 ti] fun tf => ((tf - ti) / M) ^ 5 := by
  have hM0 : (M : ℝ) ≠ 0 := by
    have : (0 : ℝ) < M := by exact_mod_cast hM
    exact this.ne'
  -- the exact solution
  let Z : ℝ → ℝ × (Fin n → ℝ) := fun s => (ti + s, X (ti + s))
  have hZ : ∀ᶠ s in 𝓝 (0 : ℝ), HasDerivAt Z (auto F (Z s)) s := by
    have t0 : Tendsto (fun s : ℝ => ti + s) (𝓝 0) (𝓝 ti) := by
      have c0 : Continuous fun s : ℝ => ti + s := by fun_prop
      simpa using c0.tendsto 0
    filter_upwards [t0.eventually hX] with s hs
    have d1 : HasDerivAt (fun s : ℝ => ti + s) 1 s := by simpa using (hasDerivAt_id' s).const_add ti
    have d2 : HasDerivAt (fun s : ℝ => X (ti + s)) (F (ti + s) (X (ti + s))) s := by
      have := HasDerivAt.scomp s hs d1
      rwa [one_smul] at this
    exact HasDerivAt.prodMk d1 d2
  have hz0 : Z 0 = (ti, res n xi) := by
    refine Prod.ext (by simp [Z]) (funext fun i => ?_)
    show X (ti + 0) i = xi i
    rw [add_zero, h0]
  have sol := solution (auto_smooth hF) hZ
  have tM : Tendsto (fun h : ℝ => (M : ℝ) * h) (𝓝 0) (𝓝 0) := by
    have c0 : Continuous fun h : ℝ => (M : ℝ) * h := by fun_prop
    simpa using c0.tendsto 0
  have sol2 : Ord 6 fun h => Z (M * h) - ((ti, res n xi) + h • ser (auto F) (ti, res n xi) (after M) h) := by
    have s1 := IsBigO.comp_tendsto sol tM
    have s2 : (fun h : ℝ => ((M : ℝ) * h) ^ 6) =O[𝓝 0] fun h => h ^ 6 := by
      refine IsBigO.of_bound ((M : ℝ) ^ 6) (Eventually.of_forall fun h => ?_)
      rw [mul_pow, norm_mul, Real.norm_of_nonneg (by positivity : (0 : ℝ) ≤ (M : ℝ) ^ 6)]
    refine Ord.congr (IsBigO.trans s1 s2) fun h => ?_
    show Z (M * h) - (Z 0 + (M * h) • ser (auto F) (Z 0) exact (M * h)) = _
    rw [hz0]
    congr 2
    rw [ser, ser, Finset.smul_sum, Finset.smul_sum]
    refine Finset.sum_congr rfl fun i _ => ?_
    rw [smul_smul, smul_smul]
    congr 1
    rw [after]
    push_cast
    rw [pow_succ, mul_pow]
    ring
  have num := numeric hF hM ti xi fh0 e0 le_rfl
  have tend : Tendsto (fun tf : ℝ => (tf - ti) / M) (𝓝 ti) (𝓝 0) := by
    have : Continuous fun tf : ℝ => (tf - ti) / M := (continuous_id.sub continuous_const).div_const _
    simpa using this.tendsto ti
  have back : ∀ tf : ℝ, ti + M * ((tf - ti) / M) = tf := by
    intro tf
    field_simp
    ring
  have same : ∀ tf : ℝ, at_ F M ti xi fh0 e0 M ((tf - ti) / M) = runge45 re (fun x => |x|) n M (ode n F) ti tf xi fh0 e0 := by
    intro tf
    rw [at_, back, runge45]
  constructor
  · have d : Ord 6 fun h => Z (M * h) - zAt F M ti xi fh0 e0 M h := (sol2.sub num).congr fun h => by abel
    have d1 := IsBigO.comp_tendsto d tend
    refine IsBigO.trans (IsBigO.of_bound 1 (Eventually.of_forall fun tf => ?_)) d1
    rw [one_mul]
    have e : X tf i - (runge45 re (fun x => |x|) n M (ode n F) ti tf xi fh0 e0).xf i =
        (Z (M * ((tf - ti) / M)) - zAt F M ti xi fh0 e0 M ((tf - ti) / M)).2 i := by
      show _ = X (ti + M * ((tf - ti) / M)) i - (at_ F M ti xi fh0 e0 M ((tf - ti) / M)).xf i
      rw [back, same]
    rw [e]
    exact (norm_le_pi_norm _ i).trans (norm_snd_le _)
  · have d1 := IsBigO.comp_tendsto (estimate hF hM ti xi fh0 e0 le_rfl i) tend
    refine IsBigO.trans (IsBigO.of_bound 1 (Eventually.of_forall fun tf => ?_)) d1
    show _ ≤ 1 * ‖(at_ F M ti xi fh0 e0 M ((tf - ti) / M)).e i‖
    rw [one_mul, same]

/-- the hypotheses hold for `x' = x`, `x(0) = 1`, with two steps -/
example : (fun tf => Real.exp tf - (runge45 re (fun x => |x|) 1 2 (ode 1 fun _ x => x) 0 tf (fun _ => 1) (fun _ => 7) (fun _ => 3)).xf 0)
      =O[𝓝 0] fun tf : ℝ => ((tf - 0) / (2 : ℕ)) ^ 6 := by
  have := (runge45_ok (n := 1) (F := fun _ x => x) contDiff_snd (M := 2) (by omega) 0 (fun _ => 1) (fun _ => 7) (fun _ => 3)
    (fun t _ => Real.exp t) (fun i => Real.exp_zero)
    (Eventually.of_forall fun t => hasDerivAt_pi.2 fun i => Real.hasDerivAt_exp t) 0).1
  exact this

end CppAD.Rk
