import Verif.Romberg.Quad
import Mathlib.Analysis.Calculus.IteratedDeriv.Lemmas
import Mathlib.MeasureTheory.Integral.DominatedConvergence

/-! # The order of the error of `RombergMul` -/

open scoped Nat
open Set MeasureTheory

namespace CppAD.Romberg

/-- the multiple integral `∫_{a[0]}^{b[0]} ... ∫_{a[m-1]}^{b[m-1]} f(x) dx`, romberg_mul.hpp:27-35 -/
noncomputable def iterInt : List Dim → (List ℝ → ℝ) → ℝ
  | [], f => f []
  | d :: l, f => ∫ x in d.a..d.b, iterInt l fun y => f (x :: y)

/-- the conditions on the integrand: it is continuous, and as a function of its `i`-th argument it has continuous derivatives up
to order `2 (p[i] + 1)`, the last one is bounded by `M i` -/
structure Smooth (l : List Dim) (M : ℕ → ℝ) (f : List ℝ → ℝ) : Prop where
  cont : ContinuousOn (fun x : Fin l.length → ℝ => f (List.ofFn x)) {x | List.ofFn x ∈ box l}
  diff : ∀ (i : ℕ) (hi : i < l.length), ∀ z ∈ box l, ContDiffOn ℝ (2 * (l[i].p + 1) : ℕ) (fun t => f (z.set i t)) (Icc l[i].a l[i].b) ∧
    ∀ t ∈ Icc l[i].a l[i].b, |iteratedDerivWithin (2 * (l[i].p + 1)) (fun t => f (z.set i t)) (Icc l[i].a l[i].b) t| ≤ M i

/-! ## weighted sums -/

theorem wsum_smooth {X : Type} {s : Set ℝ} (hs : UniqueDiffOn ℝ s) (n : ℕ) (g : ℝ → X → ℝ) (M : ℝ) (W : List (ℝ × X))
    (h : ∀ w ∈ W, ContDiffOn ℝ n (fun x => g x w.2) s ∧ ∀ x ∈ s, |iteratedDerivWithin n (fun x => g x w.2) s x| ≤ M) :
    ContDiffOn ℝ n (fun x => (W.map fun w => w.1 * g x w.2).sum) s ∧
    ∀ x ∈ s, |iteratedDerivWithin n (fun x => (W.map fun w => w.1 * g x w.2).sum) s x| ≤ (W.map fun w => |w.1|).sum * M := by
  induction W with
  | nil =>
    simp only [List.map_nil, List.sum_nil, zero_mul]
    refine ⟨contDiffOn_const, fun x hx => ?_⟩
    have : iteratedDerivWithin n (fun _ : ℝ => (0 : ℝ)) s x = 0 := by
      simp
    rw [this, abs_zero]
  | cons w W ih =>
    obtain ⟨i1, i2⟩ := ih fun v hv => h v (by simp [hv])
    obtain ⟨w1, w2⟩ := h w (by simp)
    simp only [List.map_cons, List.sum_cons]
    have w1' : ContDiffOn ℝ n (fun x => w.1 * g x w.2) s := contDiffOn_const.mul w1
    refine ⟨w1'.add i1, fun x hx => ?_⟩
    rw [iteratedDerivWithin_fun_add hx hs (w1' x hx) (i1 x hx), iteratedDerivWithin_const_mul_field]
    refine (abs_add_le _ _).trans ?_
    rw [abs_mul, add_mul]
    exact add_le_add (mul_le_mul_of_nonneg_left (w2 x hx) (abs_nonneg _)) (i2 x hx)

/-! ## the error, dimension by dimension -/

/-- conditions for the induction -/
def Nice : List Dim → (ℕ → ℝ) → (List ℝ → ℝ) → Prop
  | [], _, _ => True
  | d :: l, M, f =>
    (∀ y ∈ box l, ContDiffOn ℝ (2 * d.p + 2 : ℕ) (fun x => f (x :: y)) (Icc d.a d.b) ∧
      ∀ x ∈ Icc d.a d.b, |iteratedDerivWithin (2 * d.p + 2) (fun x => f (x :: y)) (Icc d.a d.b) x| ≤ M 0) ∧
    (∀ x ∈ Icc d.a d.b, Nice l (fun i => M (i + 1)) fun y => f (x :: y)) ∧
    IntervalIntegrable (fun x => iterInt l fun y => f (x :: y)) volume d.a d.b

/-- bound for the error -/
noncomputable def errBnd : List Dim → (ℕ → ℝ) → ℝ
  | [], _ => 0
  | d :: l, M => errConst d.p * (bnd l * M 0) * (d.b - d.a) * ((d.b - d.a) / 2 ^ (d.n - 1)) ^ (2 * d.p + 2) +
      errBnd l (fun i => M (i + 1)) * (d.b - d.a)

theorem nest_error : ∀ (l : List Dim) (M : ℕ → ℝ) (f : List ℝ → ℝ), (∀ d ∈ l, d.a < d.b ∧ d.p < d.n) → (∀ i, 0 ≤ M i) → Nice l M f →
    |nest l f - iterInt l f| ≤ errBnd l M := by
  intro l
  induction l with
  | nil => intro M f _ _ _; simp [nest, iterInt, errBnd]
  | cons d l ih =>
    intro M f hd hM0 hf
    obtain ⟨f1, f2, f3⟩ := hf
    obtain ⟨hab, hpn⟩ := hd d (by simp)
    have hdl : ∀ e ∈ l, e.a < e.b ∧ e.p < e.n := fun e he => hd e (by simp [he])
    obtain ⟨W, w1, w2, w3⟩ := quad_nest l fun e he => (hdl e he).1.le
    have hg : (fun x => nest l fun y => f (x :: y)) = fun x => (W.map fun w => w.1 * f (x :: w.2)).sum := funext fun x => w1 _
    obtain ⟨s1, s2⟩ := wsum_smooth (uniqueDiffOn_Icc hab) (2 * d.p + 2) (fun x y => f (x :: y)) (M 0) W fun w hw => f1 _ (w2 w hw)
    rw [← hg] at s1 s2
    have e1 := Rv_error hab (n := d.n - 1) (by omega) s1 fun x hx => (s2 x hx).trans (mul_le_mul_of_nonneg_right w3 (hM0 0))
    have hgi : IntervalIntegrable (fun x => nest l fun y => f (x :: y)) volume d.a d.b := by
      refine ContinuousOn.intervalIntegrable ?_
      rw [uIcc_of_le hab.le]; exact s1.continuousOn
    have e2 : |(∫ x in d.a..d.b, nest l fun y => f (x :: y)) - ∫ x in d.a..d.b, iterInt l fun y => f (x :: y)| ≤
        errBnd l (fun i => M (i + 1)) * |d.b - d.a| := by
      rw [← intervalIntegral.integral_sub hgi f3, ← Real.norm_eq_abs]
      refine intervalIntegral.norm_integral_le_of_norm_le_const fun x hx => ?_
      rw [uIoc_of_le hab.le] at hx
      exact ih (fun i => M (i + 1)) _ hdl (fun i => hM0 (i + 1)) (f2 x ⟨hx.1.le, hx.2⟩)
    rw [abs_of_pos (a := d.b - d.a) (by linarith)] at e2
    have e3 : nest (d :: l) f = Rv (fun i => trap (fun x => nest l fun y => f (x :: y)) d.a d.b (2 ^ i)) d.p (d.n - 1) := by
      rw [nest, romOne, show min d.p (d.n - 1) = d.p by omega]
    rw [e3, errBnd, iterInt]
    refine (abs_sub_le _ (∫ x in d.a..d.b, nest l fun y => f (x :: y)) _).trans (add_le_add e1 e2)

/-! ## continuity of the inner integrals -/

theorem iterInt_congr : ∀ (l : List Dim) {f g : List ℝ → ℝ}, (∀ d ∈ l, d.a ≤ d.b) → (∀ z ∈ box l, f z = g z) → iterInt l f = iterInt l g := by
  intro l
  induction l with
  | nil => intro f g _ h; exact h [] List.Forall₂.nil
  | cons d l ih =>
    intro f g hd h
    refine intervalIntegral.integral_congr fun x hx => ?_
    rw [uIcc_of_le (hd d (by simp))] at hx
    exact ih (fun e he => hd e (by simp [he])) fun y hy => h _ (List.Forall₂.cons hx hy)

theorem iterInt_continuous : ∀ (l : List Dim) {X : Type} [TopologicalSpace X] (g : X → List ℝ → ℝ),
    (Continuous fun q : X × (Fin l.length → ℝ) => g q.1 (List.ofFn q.2)) → Continuous fun x => iterInt l (g x) := by
  intro l
  induction l with
  | nil =>
    intro X _ g hg
    have : Continuous fun x : X => (x, (fun i => i.elim0 : Fin ([] : List Dim).length → ℝ)) := by fun_prop
    have := hg.comp this
    simp only [Function.comp_def, List.length_nil, List.ofFn_zero] at this
    exact this
  | cons d l ih =>
    intro X _ g hg
    refine intervalIntegral.continuous_parametric_intervalIntegral_of_continuous' (f := fun x t => iterInt l fun y => g x (t :: y)) ?_ _ _
    refine ih (X := X × ℝ) (fun q y => g q.1 (q.2 :: y)) ?_
    have hc : Continuous fun q : (X × ℝ) × (Fin l.length → ℝ) => (q.1.1, (Fin.cons q.1.2 q.2 : Fin (l.length + 1) → ℝ)) := by
      refine Continuous.prodMk (by fun_prop) (continuous_pi fun i => ?_)
      refine Fin.cases ?_ (fun j => ?_) i
      · simp only [Fin.cons_zero]; fun_prop
      · simp only [Fin.cons_succ]; fun_prop
    have := hg.comp hc
    simp only [Function.comp_def] at this
    convert this using 2 with q
    rw [List.ofFn_succ]
    simp

/-- the nearest point of the box -/
noncomputable def clampTo (l : List Dim) (z : List ℝ) : List ℝ := List.ofFn fun i : Fin l.length => max l[i].a (min l[i].b (z.getD i 0))

theorem clampTo_mem {l : List Dim} (h : ∀ d ∈ l, d.a ≤ d.b) (z : List ℝ) : clampTo l z ∈ box l := by
  refine List.forall₂_iff_get.2 ⟨by simp [clampTo], fun i h1 h2 => ?_⟩
  have := h _ (List.getElem_mem h1)
  simp only [clampTo, List.get_eq_getElem, List.getElem_ofFn]
  exact ⟨le_max_left _ _, max_le this (min_le_left _ _)⟩

theorem clampTo_self {l : List Dim} {z : List ℝ} (hz : z ∈ box l) : clampTo l z = z := by
  obtain ⟨h1, h2⟩ := List.forall₂_iff_get.1 hz
  refine List.ext_getElem (by simp [clampTo, h1]) fun i hi hi' => ?_
  have := h2 i (by omega) hi'
  simp only [List.get_eq_getElem] at this
  simp only [clampTo, List.getElem_ofFn, List.getD_eq_getElem?_getD, List.getElem?_eq_getElem hi', Option.getD_some]
  show max l[i].a (min l[i].b z[i]) = z[i]
  rw [min_eq_right this.2, max_eq_right this.1]

theorem clamp_continuous {l : List Dim} {f : List ℝ → ℝ} (h : ∀ d ∈ l, d.a ≤ d.b)
    (hf : ContinuousOn (fun x : Fin l.length → ℝ => f (List.ofFn x)) {x | List.ofFn x ∈ box l}) :
    Continuous fun x : Fin l.length → ℝ => f (clampTo l (List.ofFn x)) := by
  have e : ∀ x : Fin l.length → ℝ, clampTo l (List.ofFn x) = List.ofFn fun i : Fin l.length => max l[i].a (min l[i].b (x i)) := by
    intro x
    unfold clampTo
    congr 1
    funext i
    simp
  have hc : Continuous fun (x : Fin l.length → ℝ) (i : Fin l.length) => max l[i].a (min l[i].b (x i)) :=
    continuous_pi fun i => continuous_const.max (continuous_const.min (continuous_apply i))
  have := hf.comp_continuous hc fun x => by
    show _ ∈ box l
    rw [← e]
    exact clampTo_mem h _
  simp only [Function.comp_def] at this
  simpa only [e] using this

theorem box_length {l : List Dim} {z : List ℝ} (h : z ∈ box l) : z.length = l.length := (List.Forall₂.length_eq h).symm

theorem smooth_nice : ∀ (l : List Dim) (M : ℕ → ℝ) (f : List ℝ → ℝ), (∀ d ∈ l, d.a < d.b) → Smooth l M f → Nice l M f := by
  intro l
  induction l with
  | nil => intro M f _ _; trivial
  | cons d l ih =>
    intro M f hd hf
    have hab := hd d (by simp)
    refine ⟨fun y hy => ?_, fun x hx => ih _ _ (fun e he => hd e (by simp [he])) ⟨?_, fun i hi z hz => ?_⟩, ?_⟩
    · exact hf.diff 0 (by simp) (d.a :: y) (List.Forall₂.cons ⟨le_rfl, hab.le⟩ hy)
    · have hc : Continuous fun y : Fin l.length → ℝ => (Fin.cons x y : Fin (l.length + 1) → ℝ) := by
        refine continuous_pi fun i => ?_
        refine Fin.cases ?_ (fun j => ?_) i
        · simp only [Fin.cons_zero]; fun_prop
        · simp only [Fin.cons_succ]; fun_prop
      have e : ∀ y : Fin l.length → ℝ, List.ofFn (Fin.cons x y : Fin (l.length + 1) → ℝ) = x :: List.ofFn y := by
        intro y; rw [List.ofFn_succ]; simp
      have := hf.cont.comp (t := {x | List.ofFn x ∈ box (d :: l)}) (s := {y : Fin l.length → ℝ | List.ofFn y ∈ box l}) hc.continuousOn (fun y hy => by
        show List.ofFn (Fin.cons x y : Fin (l.length + 1) → ℝ) ∈ box (d :: l)
        rw [e]
        exact List.Forall₂.cons hx hy)
      refine this.congr fun y _ => ?_
      show _ = f (List.ofFn (Fin.cons x y : Fin (l.length + 1) → ℝ))
      rw [e]
    · exact hf.diff (i + 1) (by simpa using hi) (x :: z) (List.Forall₂.cons hx hz)
    · have hle : ∀ e ∈ d :: l, e.a ≤ e.b := fun e he => (hd e he).le
      have hc := clamp_continuous hle hf.cont
      have hc' : Continuous fun x => iterInt l fun y => f (clampTo (d :: l) (x :: y)) := by
        refine iterInt_continuous l (fun x y => f (clampTo (d :: l) (x :: y))) ?_
        have hcc : Continuous fun q : ℝ × (Fin l.length → ℝ) => (Fin.cons q.1 q.2 : Fin (l.length + 1) → ℝ) := by
          refine continuous_pi fun i => ?_
          refine Fin.cases ?_ (fun j => ?_) i
          · simp only [Fin.cons_zero]; fun_prop
          · simp only [Fin.cons_succ]; fun_prop
        have := hc.comp hcc
        simp only [Function.comp_def] at this
        convert this using 3 with q
        show clampTo _ _ = clampTo _ (List.ofFn (Fin.cons q.1 q.2 : Fin (l.length + 1) → ℝ))
        rw [List.ofFn_succ]
        simp
      refine (hc'.intervalIntegrable d.a d.b).congr fun x hx => ?_
      rw [uIoc_of_le hab.le] at hx
      refine iterInt_congr l (fun e he => hle e (by simp [he])) fun y hy => ?_
      rw [clampTo_self]
      exact List.Forall₂.cons ⟨hx.1.le, hx.2⟩ hy

/-! ## the size of the bound -/

/-- the constant, it only depends on `p` -/
noncomputable def mulConst : List ℕ → ℝ
  | [] => 0
  | p :: l => errConst p * (5 / 3) ^ l.sum + mulConst l

theorem errConst_nonneg (p : ℕ) : 0 ≤ errConst p := by unfold errConst; positivity

theorem mulConst_nonneg : ∀ l, 0 ≤ mulConst l := by
  intro l
  induction l with
  | nil => simp [mulConst]
  | cons p l ih => exact add_nonneg (mul_nonneg (errConst_nonneg p) (by positivity)) ih

theorem bnd_eq : ∀ l : List Dim, bnd l = (5 / 3) ^ (l.map Dim.p).sum * (l.map fun d => d.b - d.a).prod := by
  intro l
  induction l with
  | nil => simp [bnd]
  | cons d l ih => simp only [bnd, ih, List.map_cons, List.sum_cons, List.prod_cons, pow_add]; ring

theorem errBnd_le : ∀ (l : List Dim) (M : ℕ → ℝ), (∀ d ∈ l, d.a < d.b) → (∀ i, 0 ≤ M i) →
    errBnd l M ≤ mulConst (l.map Dim.p) * (l.map fun d => d.b - d.a).prod *
      (l.mapIdx fun i d => M i * ((d.b - d.a) / 2 ^ (d.n - 1)) ^ (2 * (d.p + 1))).sum := by
  intro l
  induction l with
  | nil => intro M _ _; simp [errBnd]
  | cons d l ih =>
    intro M hd hM
    have hab : 0 < d.b - d.a := by linarith [hd d (by simp)]
    have h1 := ih (fun i => M (i + 1)) (fun e he => hd e (by simp [he])) fun i => hM (i + 1)
    have hpr : 0 ≤ (l.map fun d => d.b - d.a).prod := by
      refine List.prod_nonneg fun x hx => ?_
      obtain ⟨e, he, rfl⟩ := List.mem_map.1 hx
      linarith [hd e (by simp [he])]
    simp only [errBnd, bnd_eq, mulConst, List.map_cons, List.prod_cons, List.mapIdx_cons, List.sum_cons]
    have hs : 0 ≤ (l.mapIdx fun i d => M (i + 1) * ((d.b - d.a) / 2 ^ (d.n - 1)) ^ (2 * (d.p + 1))).sum := by
      refine List.sum_nonneg fun x hx => ?_
      obtain ⟨i, hi, rfl⟩ := List.mem_mapIdx.1 hx
      have := hM (i + 1)
      have := hd l[i] (by simp)
      exact mul_nonneg (hM _) (pow_nonneg (div_nonneg (by linarith) (by positivity)) _)
    have hx : 0 ≤ M 0 * ((d.b - d.a) / 2 ^ (d.n - 1)) ^ (2 * d.p + 2) := mul_nonneg (hM _) (by positivity)
    have hm := mulConst_nonneg (l.map Dim.p)
    have he := mul_nonneg (errConst_nonneg d.p) (by positivity : (0 : ℝ) ≤ (5 / 3) ^ (l.map Dim.p).sum)
    rw [show 2 * (d.p + 1) = 2 * d.p + 2 by ring]
    generalize (l.mapIdx fun i d => M (i + 1) * ((d.b - d.a) / 2 ^ (d.n - 1)) ^ (2 * (d.p + 1))).sum = S at *
    generalize (l.map fun d => d.b - d.a).prod = P at *
    generalize mulConst (l.map Dim.p) = m at *
    have e1 : errConst d.p * ((5 / 3) ^ (l.map Dim.p).sum * P * M 0) * (d.b - d.a) * ((d.b - d.a) / 2 ^ (d.n - 1)) ^ (2 * d.p + 2)
        = errConst d.p * (5 / 3) ^ (l.map Dim.p).sum * ((d.b - d.a) * P) * (M 0 * ((d.b - d.a) / 2 ^ (d.n - 1)) ^ (2 * d.p + 2)) := by ring
    rw [e1]
    generalize M 0 * ((d.b - d.a) / 2 ^ (d.n - 1)) ^ (2 * d.p + 2) = x at *
    generalize errConst d.p * (5 / 3) ^ (l.map Dim.p).sum = e at *
    have hQ : 0 ≤ (d.b - d.a) * P := mul_nonneg hab.le hpr
    have h2 := mul_le_mul_of_nonneg_right h1 hab.le
    have h3 : m * P * S * (d.b - d.a) = m * ((d.b - d.a) * P) * S := by ring
    rw [h3] at h2
    generalize (d.b - d.a) * P = Q at *
    have k1 : 0 ≤ e * Q * S := mul_nonneg (mul_nonneg he hQ) hs
    have k2 : 0 ≤ m * Q * x := mul_nonneg (mul_nonneg hm hQ) hx
    nlinarith

end CppAD.Romberg
