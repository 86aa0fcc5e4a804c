import Mathlib.Analysis.Real.Sqrt
import Mathlib.Tactic.Linarith
import Mathlib.Tactic.NormNum
import Mathlib.Tactic.Positivity

/-! # `NearEqual` (property C69)

`include/cppad/utility/near_equal.hpp`.  The scalars are real numbers, two infinities and not a number: floating point
numbers without rounding and overflow of finite numbers, and with one zero. -/

namespace CppAD.NearEq

open Classical

/-- a scalar -/
inductive Fl
  | nan
  | pinf
  | ninf
  | fin (r : ℝ)

namespace Fl

noncomputable section

/-- an infinity with the sign of `r` -/
def signed (r : ℝ) : Fl := if r = 0 then nan else if 0 < r then pinf else ninf

/-- the sum -/
def add : Fl → Fl → Fl
  | nan, _ => nan
  | _, nan => nan
  | pinf, ninf => nan
  | ninf, pinf => nan
  | pinf, _ => pinf
  | _, pinf => pinf
  | ninf, _ => ninf
  | _, ninf => ninf
  | fin a, fin b => fin (a + b)

/-- the unary minus -/
def neg : Fl → Fl
  | nan => nan
  | pinf => ninf
  | ninf => pinf
  | fin a => fin (-a)

/-- the product -/
def mul : Fl → Fl → Fl
  | nan, _ => nan
  | _, nan => nan
  | fin a, fin b => fin (a * b)
  | pinf, fin a => signed a
  | fin a, pinf => signed a
  | ninf, fin a => signed (-a)
  | fin a, ninf => signed (-a)
  | pinf, pinf => pinf
  | ninf, ninf => pinf
  | pinf, ninf => ninf
  | ninf, pinf => ninf

/-- the operator `<=` -/
def le : Fl → Fl → Prop
  | nan, _ => False
  | _, nan => False
  | ninf, _ => True
  | _, pinf => True
  | fin a, fin b => a ≤ b
  | _, _ => False

/-- the operator `==` -/
def eq : Fl → Fl → Prop
  | nan, _ => False
  | _, nan => False
  | pinf, pinf => True
  | ninf, ninf => True
  | fin a, fin b => a = b
  | _, _ => False

/-- `std::abs` of a complex number: infinite if a part is infinite, otherwise not a number if a part is not a number -/
def cabs : Fl → Fl → Fl
  | pinf, _ => pinf
  | ninf, _ => pinf
  | _, pinf => pinf
  | _, ninf => pinf
  | fin a, fin b => fin (Real.sqrt (a ^ 2 + b ^ 2))
  | _, _ => nan

end

end Fl

noncomputable section

/-- `near_equal_isfinite` (near_equal.hpp:148-161); `yInf` is computed from `x` in the code -/
def isfinite (x y : Fl) : Bool :=
  let xNan := decide (¬ x.eq x)
  let yNan := decide (¬ y.eq y)
  let xInf := decide (x.eq .pinf ∨ x.eq (Fl.neg .pinf))
  let yInf := decide (x.eq .pinf ∨ x.eq (Fl.neg .pinf))
  !(xNan || yNan || xInf || yInf)

/-- `if( ax <= zero ) ax = - ax;` (near_equal.hpp:182-184, 186-188, 190-192) -/
def absv (x : Fl) : Fl := if x.le (.fin 0) then x.neg else x

/-- `NearEqual` for real arguments (near_equal.hpp:163-201); the checks of `r`, `a` and of the type are not modelled -/
def nearEqual (x y r a : Fl) : Bool :=
  if isfinite x y = false then false
  else
    let ax := absv x
    let ay := absv y
    let ad := absv (x.add y.neg)
    if ad.le a then true
    else if ad.le (r.mul (ax.add ay)) then true
    else false

/-- `NearEqual` for complex arguments (near_equal.hpp:203-242) -/
def nearEqualC (x y : Fl × Fl) (r a : Fl) : Bool :=
  if isfinite x.1 x.2 = false then false
  else if isfinite y.1 y.2 = false then false
  else
    let d : Fl × Fl := (x.1.add y.1.neg, x.2.add y.2.neg)
    let ad := Fl.cabs d.1 d.2
    if ad.le a then true
    else
      let ax := Fl.cabs x.1 x.2
      let ay := Fl.cabs y.1 y.2
      if ad.le (r.mul (ax.add ay)) then true else false

/-- a complex and a real argument (near_equal.hpp:244-252) -/
def nearEqualCR (x : Fl × Fl) (y r a : Fl) : Bool := nearEqualC x (y, .fin 0) r a

/-- a real and a complex argument (near_equal.hpp:254-262) -/
def nearEqualRC (x : Fl) (y : Fl × Fl) (r a : Fl) : Bool := nearEqualC (x, .fin 0) y r a

end

/-- *Specification*: the documented value for real arguments: neither is infinite or not a number, and the relative or
the absolute error condition holds -/
def Near (x y : Fl) (r a : ℝ) : Prop :=
  ∃ u v : ℝ, x = .fin u ∧ y = .fin v ∧ (|u - v| ≤ a ∨ |u - v| ≤ r * (|u| + |v|))

/-- *Specification*: the complex number whose parts are finite -/
def IsC (x : Fl × Fl) (z : ℝ × ℝ) : Prop := x.1 = .fin z.1 ∧ x.2 = .fin z.2

/-- *Specification*: the absolute value of a complex number -/
noncomputable def mag (z : ℝ × ℝ) : ℝ := Real.sqrt (z.1 ^ 2 + z.2 ^ 2)

/-- *Specification*: the documented value for complex arguments -/
def NearC (x y : Fl × Fl) (r a : ℝ) : Prop :=
  ∃ u v : ℝ × ℝ, IsC x u ∧ IsC y v ∧ (mag (u - v) ≤ a ∨ mag (u - v) ≤ r * (mag u + mag v))

/-- *Specification*: infinite -/
def Inf (x : Fl) : Prop := x = .pinf ∨ x = .ninf

theorem isfinite_iff (x y : Fl) : isfinite x y = true ↔ (∃ u, x = .fin u) ∧ y ≠ .nan := by
  cases x <;> cases y <;> simp [isfinite, Fl.eq, Fl.neg]

theorem absv_fin (u : ℝ) : absv (.fin u) = .fin |u| := by
  by_cases h : u ≤ 0
  · simp [absv, Fl.le, h, Fl.neg, abs_of_nonpos h]
  · simp [absv, Fl.le, h, abs_of_pos (not_le.mp h)]

theorem absv_pinf : absv .pinf = .pinf := by simp [absv, Fl.le]

theorem absv_ninf : absv .ninf = .pinf := by simp [absv, Fl.le, Fl.neg]

/-- `NearEqual` of real arguments, for all arguments: the documented value, except that it is also true when the first
argument is finite, the second is infinite and the relative error is positive -/
theorem nearEqual_iff (x y : Fl) {r a : ℝ} (hr : 0 ≤ r) (_ha : 0 ≤ a) :
    nearEqual x y (.fin r) (.fin a) = true ↔ Near x y r a ∨ ((∃ u, x = .fin u) ∧ Inf y ∧ 0 < r) := by
  rcases x with _ | _ | _ | u
  · simp [nearEqual, isfinite, Fl.eq, Near]
  · simp [nearEqual, isfinite, Fl.eq, Near]
  · simp [nearEqual, isfinite, Fl.eq, Fl.neg, Near]
  rcases y with _ | _ | _ | v
  · simp [nearEqual, isfinite, Fl.eq, Near, Inf]
  · have h1 : isfinite (.fin u) .pinf = true := by rw [isfinite_iff]; simp
    rcases hr.eq_or_lt with h | h
    · subst h
      simp [nearEqual, h1, Near, Inf, Fl.neg, Fl.add, absv_fin, absv_pinf, absv_ninf, Fl.le, Fl.mul, Fl.signed]
    · simp [nearEqual, h1, Near, Inf, Fl.neg, Fl.add, absv_fin, absv_pinf, absv_ninf, Fl.le, Fl.mul, Fl.signed, h, h.ne']
  · have h1 : isfinite (.fin u) .ninf = true := by rw [isfinite_iff]; simp
    rcases hr.eq_or_lt with h | h
    · subst h
      simp [nearEqual, h1, Near, Inf, Fl.neg, Fl.add, absv_fin, absv_pinf, absv_ninf, Fl.le, Fl.mul, Fl.signed]
    · simp [nearEqual, h1, Near, Inf, Fl.neg, Fl.add, absv_fin, absv_pinf, absv_ninf, Fl.le, Fl.mul, Fl.signed, h, h.ne']
  · have h1 : isfinite (.fin u) (.fin v) = true := by rw [isfinite_iff]; simp
    simp only [nearEqual, h1, Near, Inf, Fl.neg, Fl.add, absv_fin, Fl.le, Fl.mul, ← sub_eq_add_neg]
    simp

/-- when the second argument is not infinite, `NearEqual` has the documented value -/
theorem nearEqual_partial (x y : Fl) {r a : ℝ} (hr : 0 ≤ r) (ha : 0 ≤ a) (hy : ¬ Inf y) :
    nearEqual x y (.fin r) (.fin a) = true ↔ Near x y r a := by
  rw [nearEqual_iff x y hr ha]
  tauto

/-- the hypotheses can be met, with both results -/
example : ¬ Inf (.fin (1 : ℝ)) ∧ nearEqual (.fin 1) (.fin 1) (.fin 0) (.fin 0) = true ∧
    nearEqual (.fin 1) (.fin 2) (.fin 0) (.fin (1 / 2)) = false ∧ ¬ Inf .nan := by
  refine ⟨by simp [Inf], ?_, ?_, by simp [Inf]⟩
  · rw [nearEqual_partial _ _ le_rfl le_rfl (by simp [Inf])]
    exact ⟨1, 1, rfl, rfl, Or.inl (by norm_num)⟩
  · have := (nearEqual_partial (.fin 1) (.fin 2) (le_refl (0 : ℝ)) (show (0 : ℝ) ≤ 1 / 2 by norm_num) (by simp [Inf]))
    rw [← Bool.not_eq_true, this]
    rintro ⟨u, v, hu, hv, h⟩
    simp only [Fl.fin.injEq] at hu hv
    subst hu hv
    norm_num [abs_of_neg] at h

/-- for finite arguments the order of the arguments does not matter -/
theorem nearEqual_comm_partial (x y : Fl) {r a : ℝ} (hr : 0 ≤ r) (ha : 0 ≤ a) (hx : ¬ Inf x) (hy : ¬ Inf y) :
    nearEqual x y (.fin r) (.fin a) = nearEqual y x (.fin r) (.fin a) := by
  rw [Bool.eq_iff_iff, nearEqual_partial x y hr ha hy, nearEqual_partial y x hr ha hx]
  constructor <;>
  · rintro ⟨u, v, hu, hv, h⟩
    refine ⟨v, u, hv, hu, ?_⟩
    rwa [abs_sub_comm, add_comm]

/-- the code is wrong: one and infinity are nearly equal for every positive relative error, and the result depends on
the order of the arguments -/
theorem nearEqual_inf_wrong {r : ℝ} (hr : 0 < r) :
    nearEqual (.fin 1) .pinf (.fin r) (.fin 0) = true ∧ nearEqual .pinf (.fin 1) (.fin r) (.fin 0) = false ∧
      ¬ Near (.fin 1) .pinf r 0 := by
  refine ⟨?_, ?_, ?_⟩
  · rw [nearEqual_iff _ _ hr.le le_rfl]
    exact Or.inr ⟨⟨1, rfl⟩, Or.inl rfl, hr⟩
  · rw [← Bool.not_eq_true, nearEqual_iff _ _ hr.le le_rfl]
    rintro (⟨u, v, h, _⟩ | ⟨⟨u, h⟩, _⟩) <;> exact absurd h (by simp)
  · rintro ⟨u, v, _, h, _⟩
    exact absurd h (by simp)

theorem isfinite_part {x : Fl × Fl} (h : ¬ Inf x.2) : isfinite x.1 x.2 = true ↔ ∃ z, IsC x z := by
  rw [isfinite_iff]
  constructor
  · rintro ⟨⟨u, hu⟩, hn⟩
    rcases h2 : x.2 with _ | _ | _ | v
    · exact absurd h2 hn
    · exact absurd (Or.inl h2) h
    · exact absurd (Or.inr h2) h
    · exact ⟨(u, v), hu, h2⟩
  · rintro ⟨z, h1, h2⟩
    exact ⟨⟨_, h1⟩, by rw [h2]; simp⟩

/-- when no imaginary part is infinite, `NearEqual` of complex arguments has the documented value -/
theorem nearEqualC_partial (x y : Fl × Fl) {r a : ℝ} (_hr : 0 ≤ r) (_ha : 0 ≤ a) (hx : ¬ Inf x.2) (hy : ¬ Inf y.2) :
    nearEqualC x y (.fin r) (.fin a) = true ↔ NearC x y r a := by
  by_cases h1 : ∃ u, IsC x u
  swap
  · have : isfinite x.1 x.2 = false := by
      rw [← Bool.not_eq_true, isfinite_part hx]; exact h1
    simp only [nearEqualC, this, if_true, Bool.false_eq_true, false_iff]
    rintro ⟨u, v, hu, _⟩
    exact h1 ⟨u, hu⟩
  by_cases h2 : ∃ v, IsC y v
  swap
  · have : isfinite y.1 y.2 = false := by
      rw [← Bool.not_eq_true, isfinite_part hy]; exact h2
    have h1' := (isfinite_part hx).2 h1
    simp only [nearEqualC, this, h1', if_true, Bool.true_eq_false, if_false, Bool.false_eq_true, false_iff]
    rintro ⟨u, v, _, hv, _⟩
    exact h2 ⟨v, hv⟩
  have h1' := (isfinite_part hx).2 h1
  have h2' := (isfinite_part hy).2 h2
  obtain ⟨u, hu1, hu2⟩ := h1
  obtain ⟨v, hv1, hv2⟩ := h2
  obtain ⟨x1, x2⟩ := x
  obtain ⟨y1, y2⟩ := y
  dsimp only at hu1 hu2 hv1 hv2
  subst hu1 hu2 hv1 hv2
  simp only [nearEqualC, h1', h2', NearC, IsC, mag, Fl.cabs, Fl.neg, Fl.add, Fl.mul, Fl.le, ← sub_eq_add_neg]
  constructor
  · intro h
    refine ⟨u, v, ⟨rfl, rfl⟩, ⟨rfl, rfl⟩, ?_⟩
    by_cases c : √((u.1 - v.1) ^ 2 + (u.2 - v.2) ^ 2) ≤ a
    · exact Or.inl c
    · right
      by_contra c2
      simp [c] at h
      exact c2 h
  · rintro ⟨u', v', ⟨a1, a2⟩, ⟨b1, b2⟩, h⟩
    simp only [Fl.fin.injEq] at a1 a2 b1 b2
    have e1 : u' = u := Prod.ext a1.symm a2.symm
    have e2 : v' = v := Prod.ext b1.symm b2.symm
    subst e1 e2
    simp only [Prod.fst_sub, Prod.snd_sub] at h
    by_cases c : √((u'.1 - v'.1) ^ 2 + (u'.2 - v'.2) ^ 2) ≤ a
    · simp [c]
    · simp [c, h.resolve_left c]

/-- `NearEqual` of complex arguments, for all arguments: the documented value, except that it is also true when the
relative error is positive, the real parts are finite, an imaginary part is infinite and the imaginary parts differ -/
theorem nearEqualC_iff (x y : Fl × Fl) {r a : ℝ} (hr : 0 ≤ r) (ha : 0 ≤ a) :
    nearEqualC x y (.fin r) (.fin a) = true ↔ NearC x y r a ∨
      ((∃ u, x.1 = .fin u) ∧ (∃ v, y.1 = .fin v) ∧ x.2 ≠ .nan ∧ y.2 ≠ .nan ∧ (Inf x.2 ∨ Inf y.2) ∧ x.2 ≠ y.2 ∧ 0 < r) := by
  by_cases hi : Inf x.2 ∨ Inf y.2
  swap
  · rw [nearEqualC_partial x y hr ha (fun h => hi (Or.inl h)) (fun h => hi (Or.inr h))]
    tauto
  obtain ⟨x1, x2⟩ := x
  obtain ⟨y1, y2⟩ := y
  dsimp only at hi ⊢
  have hN : ¬ NearC (x1, x2) (y1, y2) r a := by
    rintro ⟨u, v, ⟨_, h1⟩, ⟨_, h2⟩, _⟩
    dsimp only at h1 h2
    rw [h1, h2] at hi
    simp [Inf] at hi
  by_cases f1 : isfinite x1 x2 = true
  swap
  · have f1' := Bool.eq_false_iff.2 f1
    rw [isfinite_iff] at f1
    simp only [nearEqualC, f1', if_true, Bool.false_eq_true, false_iff]
    tauto
  by_cases f2 : isfinite y1 y2 = true
  swap
  · have f2' := Bool.eq_false_iff.2 f2
    rw [isfinite_iff] at f2
    simp only [nearEqualC, f1, f2', if_true, Bool.true_eq_false, if_false, Bool.false_eq_true, false_iff]
    tauto
  have g1 := (isfinite_iff _ _).1 f1
  have g2 := (isfinite_iff _ _).1 f2
  obtain ⟨⟨u, rfl⟩, n1⟩ := g1
  obtain ⟨⟨v, rfl⟩, n2⟩ := g2
  rcases x2 with _ | _ | _ | p <;> rcases y2 with _ | _ | _ | q <;>
    first
    | exact absurd rfl n1
    | exact absurd rfl n2
    | (exfalso; simp [Inf] at hi; done)
    | (rcases hr.eq_or_lt with h | h
       · subst h
         simp [nearEqualC, f1, f2, hN, Inf, Fl.neg, Fl.add, Fl.cabs, Fl.le, Fl.mul, Fl.signed]
       · simp [nearEqualC, f1, f2, hN, Inf, Fl.neg, Fl.add, Fl.cabs, Fl.le, Fl.mul, Fl.signed, h, h.ne'])

/-- the hypotheses can be met, with the result true for different numbers -/
example : nearEqualC (.fin 0, .fin 1) (.fin 0, .fin 2) (.fin (1 / 2)) (.fin 0) = true ∧ ¬ Inf (.fin (1 : ℝ)) := by
  refine ⟨?_, by simp [Inf]⟩
  rw [nearEqualC_partial _ _ (by norm_num) le_rfl (by simp [Inf]) (by simp [Inf])]
  refine ⟨(0, 1), (0, 2), ⟨rfl, rfl⟩, ⟨rfl, rfl⟩, Or.inr ?_⟩
  have e1 : mag ((0, 1) - (0, 2)) = 1 := by norm_num [mag]
  have e2 : mag (0, 1) = 1 := by norm_num [mag]
  have e3 : mag (0, 2) = 2 := by
    simp only [mag]
    rw [show ((0 : ℝ) ^ 2 + 2 ^ 2) = 2 ^ 2 by norm_num]
    exact Real.sqrt_sq (by norm_num)
  rw [e1, e2, e3]
  norm_num

/-- a real argument is a complex number with a zero imaginary part -/
theorem nearEqualCR_partial (x : Fl × Fl) (y : Fl) {r a : ℝ} (hr : 0 ≤ r) (ha : 0 ≤ a) (hx : ¬ Inf x.2) :
    (nearEqualCR x y (.fin r) (.fin a) = true ↔ NearC x (y, .fin 0) r a) ∧
      (nearEqualRC y x (.fin r) (.fin a) = true ↔ NearC (y, .fin 0) x r a) :=
  ⟨nearEqualC_partial x (y, .fin 0) hr ha hx (by simp [Inf]), nearEqualC_partial (y, .fin 0) x hr ha (by simp [Inf]) hx⟩

/-- real arguments may be given as complex numbers with zero imaginary parts -/
theorem nearEqual_complex_partial (x y : Fl) {r a : ℝ} (hr : 0 ≤ r) (ha : 0 ≤ a) (hy : ¬ Inf y) :
    nearEqual x y (.fin r) (.fin a) = nearEqualC (x, .fin 0) (y, .fin 0) (.fin r) (.fin a) := by
  rw [Bool.eq_iff_iff, nearEqual_partial x y hr ha hy,
    nearEqualC_partial _ _ hr ha (by simp [Inf]) (by simp [Inf])]
  have e : ∀ u : ℝ, mag (u, 0) = |u| := fun u => by simp [mag, Real.sqrt_sq_eq_abs]
  constructor
  · rintro ⟨u, v, hu, hv, h⟩
    refine ⟨(u, 0), (v, 0), ⟨hu, rfl⟩, ⟨hv, rfl⟩, ?_⟩
    rwa [show ((u, 0) - (v, 0) : ℝ × ℝ) = (u - v, 0) by simp, e, e, e]
  · rintro ⟨⟨u, u'⟩, ⟨v, v'⟩, ⟨h1, h2⟩, ⟨h3, h4⟩, h⟩
    simp only [Fl.fin.injEq] at h2 h4
    subst h2 h4
    refine ⟨u, v, h1, h3, ?_⟩
    rwa [show ((u, 0) - (v, 0) : ℝ × ℝ) = (u - v, 0) by simp, e, e, e] at h

/-- the code is wrong for complex numbers too: zero and an infinite imaginary number are nearly equal -/
theorem nearEqualC_inf_wrong {r : ℝ} (hr : 0 < r) :
    nearEqualC (.fin 0, .fin 0) (.fin 0, .pinf) (.fin r) (.fin 0) = true ∧
      ¬ NearC (.fin 0, .fin 0) (.fin 0, .pinf) r 0 := by
  constructor
  · simp [nearEqualC, isfinite, Fl.eq, Fl.neg, Fl.add, Fl.cabs, Fl.le, Fl.mul, Fl.signed, hr, hr.ne']
  · rintro ⟨u, v, _, ⟨_, h⟩, _⟩
    exact absurd h (by simp)

end CppAD.NearEq
