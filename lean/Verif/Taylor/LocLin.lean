import Verif.Taylor.Rev

/-! # Certificates for operators that are affine with locally constant coefficients

`z = ∑ c_i x_{v_i} + b` where the coefficients, the selected variables and `b` are locally constant
on the domain: abs, sign, conditional expressions, cumulative sums, discrete functions, parameters. -/

open scoped ContDiff Topology PowerSeries

namespace CppAD

/-- `∑ c_i e(v_i)` -/
def linSum (ts : List (ℝ × ℕ)) (e : ℕ → ℝ) : ℝ := (ts.map fun t => t.1 * e t.2).sum

@[simp] theorem linSum_nil (e : ℕ → ℝ) : linSum [] e = 0 := rfl
@[simp] theorem linSum_cons (t : ℝ × ℕ) (ts : List (ℝ × ℕ)) (e : ℕ → ℝ) :
    linSum (t :: ts) e = t.1 * e t.2 + linSum ts e := by simp [linSum]

theorem linSum_congr {ts : List (ℝ × ℕ)} {e e' : ℕ → ℝ} (h : ∀ t ∈ ts, e t.2 = e' t.2) :
    linSum ts e = linSum ts e' := by
  unfold linSum; congr 1; exact List.map_congr_left fun t ht => by rw [h t ht]

theorem linSum_smooth {E : Type} [NormedAddCommGroup E] [NormedSpace ℝ E] (ts : List (ℝ × ℕ))
    (env : E → ℕ → ℝ) (x : E) (h : ∀ t ∈ ts, ContDiffAt ℝ ∞ (fun e => env e t.2) x) :
    ContDiffAt ℝ ∞ (fun e => linSum ts (env e)) x := by
  induction ts with
  | nil => exact contDiffAt_const
  | cons t ts ih =>
    simp only [linSum_cons]
    exact (contDiffAt_const.mul (h t (by simp))).add (ih fun t ht => h t (by simp [ht]))

theorem linSum_hasDeriv (ts : List (ℝ × ℕ)) (env : ℝ → ℕ → ℝ) (d : ℕ → ℝ) (t : ℝ)
    (h : ∀ a ∈ ts, HasDerivAt (fun u => env u a.2) (d a.2) t) :
    HasDerivAt (fun u => linSum ts (env u)) (linSum ts d) t := by
  induction ts with
  | nil => exact hasDerivAt_const _ _
  | cons a ts ih =>
    simp only [linSum_cons]
    exact ((h a (by simp)).const_mul _).fun_add (ih fun t ht => h t (by simp [ht]))

theorem T_linSum (ts : List (ℝ × ℕ)) (env : ℝ → ℕ → ℝ) (h : ∀ a ∈ ts, Sm (fun u => env u a.2)) (k : ℕ) :
    tc (fun t => linSum ts (env t)) k = linSum ts (fun v => tc (fun t => env t v) k) := by
  induction ts with
  | nil => simp [← coeff_T, T_const]
  | cons a ts ih =>
    simp only [linSum_cons]
    rw [← ih fun t ht => h t (by simp [ht]), ← coeff_T,
      T_add (contDiffAt_const.mul (h a (by simp))) (linSum_smooth ts env 0 fun t ht => h t (by simp [ht])),
      T_mul contDiffAt_const (h a (by simp)), T_const]
    simp [PowerSeries.coeff_C_mul]

/-- order zero environment of a Taylor array -/
def env0 (s : Tay) : ℕ → ℝ := fun v => s v 0

/-- order `k` coefficient of `∑ c x + b` -/
noncomputable def locG (ts : (ℕ → ℝ) → List (ℝ × ℕ)) (b : (ℕ → ℝ) → ℝ) (s : Tay) (k : ℕ) : ℝ :=
  linSum (ts (env0 s)) (fun v => s v k) + if k = 0 then b (env0 s) else 0

noncomputable def mkLocLin (args : List ℕ) (ts : (ℕ → ℝ) → List (ℝ × ℕ)) (b : (ℕ → ℝ) → ℝ)
    (val : (ℕ → ℝ) → ℝ) (dom : (ℕ → ℝ) → Prop)
    (fwd dir : ℕ → ℕ → ℕ → Tay → Tay) (rev : ℕ → ℕ → Tay → Tay → Tay)
    (h_args : ∀ e, ∀ t ∈ ts e, t.2 ∈ args)
    (ts_congr : ∀ e e', (∀ a ∈ args, e a = e' a) → ts e = ts e')
    (b_congr : ∀ e e', (∀ a ∈ args, e a = e' a) → b e = b e')
    (dom_congr : ∀ e e', (∀ a ∈ args, e a = e' a) → dom e → dom e')
    (hval : ∀ e, val e = linSum (ts e) e + b e)
    (hopen : ∀ {E : Type} [TopologicalSpace E] (env : E → ℕ → ℝ) (x : E),
      (∀ a ∈ args, ContinuousAt (fun e => env e a) x) → dom (env x) →
      ∀ᶠ e in 𝓝 x, dom (env e) ∧ ts (env e) = ts (env x) ∧ b (env e) = b (env x))
    (fwd_eq : ∀ p q iz s, (∀ a ∈ args, a ≠ iz) → p ≤ q → ∀ v k, fwd p q iz s v k
      = if v = iz ∧ p ≤ k ∧ k ≤ q then locG ts b s k else s v k)
    (dir_eq : ∀ q r iz s, (∀ a ∈ args, a ≠ iz) → 1 ≤ q → ∀ v m, dir q r iz s v m
      = if v = iz ∧ (q - 1) * r + 1 ≤ m ∧ m < (q - 1) * r + 1 + r
        then linSum (ts (env0 s)) (fun v => s v m) else s v m)
    (rev_ok : ∀ nv n s P (δ : Tay), (∀ a ∈ args, a < nv) →
      Phi nv (fun _ => n + 1) δ (rev n nv s P) = Phi nv (fun _ => n + 1) δ P
        + ∑ k ∈ Finset.range (n + 1), P nv k * linSum (ts (env0 s)) (fun v => δ v k))
    (rev_frame : ∀ nv n s P v, v < nv → v ∉ args → rev n nv s P v = P v) :
    OpCert 1 args (fun e _ => val e) dom fwd dir rev where
  lin e d _ := linSum (ts e) d
  Rec nv s j := s nv j = locG ts b s j
  nres_pos := one_pos
  val_congr e e' h _ := by
    rw [hval, hval, ts_congr e e' h, b_congr e e' h,
      linSum_congr fun t ht => h t.2 (h_args e' t ht)]
  dom_congr := dom_congr
  lin_congr e e' d d' h _ := by
    rw [ts_congr e e' fun a ha => (h a ha).1]
    exact linSum_congr fun t ht => (h t.2 (h_args e' t ht)).2
  smooth env x h hd r _ := by
    have h1 := hopen env x (fun a ha => (h a ha).continuousAt) hd
    have h2 : ContDiffAt ℝ ∞ (fun e => linSum (ts (env x)) (env e) + b (env x)) x :=
      (linSum_smooth _ env x fun t ht => h t.2 (h_args _ t ht)).add contDiffAt_const
    refine h2.congr_of_eventuallyEq (h1.mono fun e he => ?_)
    simp only [hval, he.2.1, he.2.2]
  lin_smooth env d h h' hd r _ := by
    have h1 := hopen env 0 (fun a ha => (h a ha).continuousAt) hd
    have h2 : Sm (fun e => linSum (ts (env 0)) (d e)) :=
      (linSum_smooth _ d 0 fun t ht => h' t.2 (h_args _ t ht))
    refine h2.congr_of_eventuallyEq (h1.mono fun e he => ?_)
    simp only [he.2.1]
  dom_open env x h hd := (hopen env x h hd).mono fun _ he => he.1
  hasDeriv env d t h hd r _ := by
    have h1 := hopen env t (fun a ha => (h a ha).continuousAt) hd
    have h2 := (linSum_hasDeriv (ts (env t)) env d t fun a ha => h a.2 (h_args _ a ha)).add_const
      (b (env t))
    refine h2.congr_of_eventuallyEq (h1.mono fun e he => ?_)
    simp only [hval, he.2.1, he.2.2]
  rec_loc nv s s' j ha h h' := by
    have h0 : ∀ a ∈ args, env0 s a = env0 s' a := fun a hA => h a (by have := ha a hA; omega) 0 (by omega)
    rw [← h nv (by omega) j le_rfl, h', locG, locG, ts_congr _ _ h0, b_congr _ _ h0,
      linSum_congr (e' := fun v => s' v j) fun t ht => h t.2 (by have := ha t.2 (h_args _ t ht); omega) j le_rfl]
  rec_unique nv s s' j ha h _ h1 h2 r hr := by
    obtain rfl : r = 0 := by omega
    have h0 : ∀ a ∈ args, env0 s a = env0 s' a := fun a hA => h a (ha a hA) 0 (by omega)
    simp only [add_zero]
    rw [h1, h2, locG, locG, ts_congr _ _ h0, b_congr _ _ h0,
      linSum_congr (e' := fun v => s' v j) fun t ht => h t.2 (ha t.2 (h_args _ t ht)) j le_rfl]
  fwd_ok nv p q s hpq ha := by
    have e := fwd_eq p q nv s (fun a hA => by have := ha a hA; omega) hpq
    simp only [Nat.add_sub_cancel]
    have e' : ∀ v < nv, ∀ k, fwd p q nv s v k = s v k := fun v hv k => by rw [e, if_neg (by omega)]
    have h0 : ∀ a ∈ args, env0 (fwd p q nv s) a = env0 s a := fun a hA => e' a (ha a hA) 0
    refine ⟨fun j h1 h2 => ?_, fun v k h => by rw [e, if_neg (by omega)]⟩
    rw [e, if_pos ⟨rfl, h1, h2⟩, locG, locG, ts_congr _ _ h0, b_congr _ _ h0]
    rw [linSum_congr (e' := fun v => fwd p q nv s v j) fun t ht => (e' t.2 (ha t.2 (h_args _ t ht)) j).symm]
  dir_ok nv q r s hq ha := by
    have e := dir_eq q r nv s (fun a hA => by have := ha a hA; omega) hq
    simp only [Nat.add_sub_cancel]
    have e' : ∀ v < nv, ∀ k, dir q r nv s v k = s v k := fun v hv k => by rw [e, if_neg (by omega)]
    refine ⟨fun ell hl => ?_, fun v k h => by rw [e, if_neg (by omega)]⟩
    have h0 : ∀ a ∈ args, env0 (view r ell (dir q r nv s)) a = env0 s a := fun a hA => e' a (ha a hA) 0
    rw [view_apply, dirIdx_top hq, e, if_pos ⟨rfl, by omega, by omega⟩, locG, ts_congr _ _ h0,
      if_neg (by omega), add_zero]
    refine linSum_congr fun t ht => ?_
    rw [view_apply, dirIdx_top hq, e' _ (ha t.2 (h_args _ t ht))]
  taylor nv env ha hs hr hd j := by
    have h1 := hopen env 0 (fun a hA => (hs a (by have := ha a hA; omega)).continuousAt) hd
    have e0 : env0 (fun v => tc (fun t => env t v)) = env 0 := by funext v; simp [env0, tc_zero]
    have e2 : (fun t => env t nv) =ᶠ[𝓝 0] fun t => linSum (ts (env 0)) (env t) + b (env 0) :=
      h1.mono fun t he => by
        have := hr t 0 one_pos
        simp only [add_zero] at this
        show env t nv = _
        rw [this, hval, he.2.1, he.2.2]
    show tc (fun t => env t nv) j = _
    rw [locG, e0, ← coeff_T (fun t => env t nv), T_congr e2, T_add _ contDiffAt_const, T_const, map_add,
      coeff_T, T_linSum, PowerSeries.coeff_C]
    · exact fun a hA => hs a.2 (by have := ha a.2 (h_args _ a hA); omega)
    · exact linSum_smooth _ _ _ fun a hA => hs a.2 (by have := ha a.2 (h_args _ a hA); omega)
  rev_ok nv env d n s P ha hs hds hr hdr hd hsv hP := by
    have h1 := hopen env 0 (fun a hA => (hs a (by have := ha a hA; omega)).continuousAt) hd
    have e0 : ts (env0 s) = ts (env 0) := ts_congr _ _ fun a hA => by
      rw [env0, hsv a (by have := ha a hA; omega) 0 (by omega), tc_zero]
    have e2 : (fun t => d t nv) =ᶠ[𝓝 0] fun t => linSum (ts (env 0)) (d t) :=
      h1.mono fun t he => by
        have := hdr t 0 one_pos
        simp only [add_zero] at this
        show d t nv = _
        rw [this, he.2.1]
    have e3 : ∀ k, tc (fun t => d t nv) k = linSum (ts (env 0)) (fun v => tc (fun t => d t v) k) := by
      intro k
      rw [← coeff_T, T_congr e2, coeff_T, T_linSum]
      exact fun a hA => hds a.2 (by have := ha a.2 (h_args _ a hA); omega)
    simp only [Nat.add_sub_cancel]
    rw [rev_ok nv n s P _ ha, e0]
    unfold Phi
    rw [Finset.sum_range_succ (n := nv)]
    simp only [e3]
  rev_frame := rev_frame

end CppAD
