import Verif.Ode.GearWeights

/-!
# `OdeGear`: the method of Gear

* `odeGear_weights`: `alpha` and `beta` are the weights that differentiate, at `T[m]` and `T[m-1]`,
  the polynomial through the `m + 1` points.
* `odeGear_exact`: when the solution is a polynomial of degree at most `m`, the result is its value
  at `T[m]` and the error estimate is zero.
* `odeGear_linear`: when the differential equation is linear in `x`, the interpolating polynomial
  through the points, including the new one, satisfies the differential equation at `T[m]`.
-/

namespace CppAD.Ode

open Polynomial Finset CppAD.Lu

/-- the functions use only the first `n` elements of `x` -/
def OdeFun.Local (n : ℕ) (F : OdeFun) : Prop :=
  ∀ t x y, (∀ i < n, x i = y i) →
    (∀ i < n, F.ode t x i = F.ode t y i) ∧ (∀ i < n, ∀ j < n, F.odeDep t x (i * n + j) = F.odeDep t y (i * n + j))

section basic
variable (F : OdeFun) (m n : ℕ) (T X : ℕ → ℝ)

theorem gearPredict_eq {i : ℕ} (hi : i < n) :
    gearPredict F m n T X i = (F.ode (T (m - 1)) (fun i => if i < n then X ((m - 1) * n + i) else 0) i
      - ∑ j ∈ range m, gearBeta m T j * X (j * n + i)) / gearBeta m T m := by
  unfold gearPredict
  dsimp only
  rw [forRange_set (fun i => X ((m - 1) * n + i))]
  have e : ∀ i (x : ℕ → ℝ), forRange 0 m x (fun j (x_m : ℕ → ℝ) =>
      Function.update x_m i (x_m i - gearBeta m T j * X (j * n + i)))
      = Function.update x i (x i - ∑ j ∈ range m, gearBeta m T j * X (j * n + i)) := by
    intro i x
    rw [forRange_cell (fun j v => v - gearBeta m T j * X (j * n + i)), forRange_sub]
  simp only [e, Function.update_self, Function.update_idem]
  rw [forRange_set (fun i => (F.ode (T (m - 1)) (fun i => if i < n then X ((m - 1) * n + i) else 0) i
      - ∑ j ∈ range m, gearBeta m T j * X (j * n + i)) / gearBeta m T m)]
  simp [hi]

theorem gearRhs_eq (alpha f_x x_m : ℕ → ℝ) {i : ℕ} (hi : i < n) :
    gearRhs F m n T X alpha f_x x_m i = F.ode (T m) x_m i
      - ∑ j ∈ range n, f_x (i * n + j) * x_m j - ∑ j ∈ range m, alpha j * X (j * n + i) := by
  unfold gearRhs
  dsimp only
  have e1 : ∀ i (x : ℕ → ℝ), forRange 0 n x (fun j (b : ℕ → ℝ) =>
      Function.update b i (b i - f_x (i * n + j) * x_m j))
      = Function.update x i (x i - ∑ j ∈ range n, f_x (i * n + j) * x_m j) := by
    intro i x
    rw [forRange_cell (fun j v => v - f_x (i * n + j) * x_m j), forRange_sub]
  have e2 : ∀ i (x : ℕ → ℝ), forRange 0 m x (fun j (b : ℕ → ℝ) =>
      Function.update b i (b i - alpha j * X (j * n + i)))
      = Function.update x i (x i - ∑ j ∈ range m, alpha j * X (j * n + i)) := by
    intro i x
    rw [forRange_cell (fun j v => v - alpha j * X (j * n + i)), forRange_sub]
  simp only [e1, e2, Function.update_self, Function.update_idem]
  rw [forRange_set (fun i => F.ode (T m) x_m i
      - ∑ j ∈ range n, f_x (i * n + j) * x_m j - ∑ j ∈ range m, alpha j * X (j * n + i))]
  simp [hi]

theorem gearMat_eq (a : ℝ) (f_x : ℕ → ℝ) {i j : ℕ} (hi : i < n) (hj : j < n) :
    gearMat n a f_x (i * n + j) = (if i = j then a else 0) - f_x (i * n + j) := by
  unfold gearMat
  have inner : ∀ i (A : ℕ → ℝ), (∀ b < n, forRange 0 n A (fun j (A : ℕ → ℝ) =>
      Function.update A (i * n + j) (- f_x (i * n + j))) (i * n + b) = - f_x (i * n + b)) ∧
      (∀ x, (∀ b < n, x ≠ i * n + b) → forRange 0 n A (fun j (A : ℕ → ℝ) =>
      Function.update A (i * n + j) (- f_x (i * n + j))) x = A x) := by
    intro i A
    refine forRange_ind (s := A) (lo := 0) (hi := n) (Nat.zero_le n)
      (fun k (t : ℕ → ℝ) => (∀ b < k, t (i * n + b) = - f_x (i * n + b)) ∧
        (∀ x, (∀ b < n, x ≠ i * n + b) → t x = A x)) (by simp) ?_
    intro k t _ hk ⟨h1, h2⟩
    constructor
    · intro b hb
      by_cases e : b = k
      · subst e; simp
      · rw [Function.update_of_ne (by omega)]
        exact h1 b (by omega)
    · intro x hx
      rw [Function.update_of_ne (hx k hk)]
      exact h2 x hx
  have := forRange_ind (s := fun _ => (0 : ℝ)) (lo := 0) (hi := n) (Nat.zero_le n)
    (f := fun i (A : ℕ → ℝ) =>
      let A := forRange 0 n A fun j (A : ℕ → ℝ) =>
        Function.update A (i * n + j) (- f_x (i * n + j))
      Function.update A (i * n + i) (A (i * n + i) + a))
    (fun k (t : ℕ → ℝ) => ∀ i < k, ∀ j < n, t (i * n + j) = (if i = j then a else 0) - f_x (i * n + j))
    (by simp) (by
      intro k t _ hk ih i' hi' j' hj'
      dsimp only
      obtain ⟨g1, g2⟩ := inner k t
      by_cases e : i' = k
      · subst e
        by_cases e2 : i' = j'
        · subst e2
          rw [Function.update_self, g1 _ hj', if_pos rfl]; ring
        · rw [Function.update_of_ne (by omega), g1 _ hj', if_neg e2]; ring
      · have hlt : i' < k := by omega
        have hne : ∀ b < n, i' * n + j' ≠ k * n + b := by
          intro b hb h
          exact e (idx_inj hj' hb h).1
        rw [Function.update_of_ne (hne k hk), g2 _ hne]
        exact ih i' hlt j' hj')
  exact this i hi j hj

end basic

/-- one Newton iteration solves the linear equations -/
theorem gear_solve {n : ℕ} {A : ℕ → ℝ} (hdet : (mat n n A).det ≠ 0) (b : ℕ → ℝ) :
    ∀ i < n, ∑ j ∈ range n, A (i * n + j) *
      luInvert n 1 (luFactor absGeq n (fun _ => 0) (fun _ => 0) A).1
        (luFactor absGeq n (fun _ => 0) (fun _ => 0) A).2.1
        (luFactor absGeq n (fun _ => 0) (fun _ => 0) A).2.2.1 b (fun _ => 0) j = b i := by
  intro i hi
  rcases luFactor_ok absGeq_ok n (fun _ => 0) (fun _ => 0) A with ⟨_, h0⟩ | ⟨σ, τ, hfac, _, _⟩
  · exact absurd h0 hdet
  · have h := congrFun (congrFun (luInvert_ok hfac 1 b (fun _ => 0)) ⟨i, hi⟩) 0
    rw [Matrix.mul_apply] at h
    simp only [mat, Fin.val_zero, mul_one, add_zero] at h
    rw [← h, Finset.sum_range]

theorem gear_unique {n : ℕ} {A : ℕ → ℝ} (hdet : (mat n n A).det ≠ 0) {x y : ℕ → ℝ}
    (h : ∀ i < n, ∑ j ∈ range n, A (i * n + j) * x j = ∑ j ∈ range n, A (i * n + j) * y j) :
    ∀ i < n, x i = y i := by
  have h1 : (mat n n A).mulVec (fun j : Fin n => x j) = (mat n n A).mulVec (fun j : Fin n => y j) := by
    funext i
    have := h i i.2
    rw [Finset.sum_range, Finset.sum_range] at this
    exact this
  have h2 := Matrix.mulVec_injective_of_isUnit
    ((Matrix.isUnit_iff_isUnit_det _).2 (isUnit_iff_ne_zero.2 hdet)) h1
  intro i hi
  exact congrFun h2 ⟨i, hi⟩

/-- the Newton iterates -/
noncomputable def gearNewton (F : OdeFun) (m n : ℕ) (T X : ℕ → ℝ) : ℕ → ℝ :=
  let alpha := gearAlpha m T
  let x_m := gearPredict F m n T X
  let f_x := F.odeDep (T m) x_m
  let A := gearMat n (alpha m) f_x
  let lu := luFactor absGeq n (fun _ => 0) (fun _ => 0) A
  forRange 0 3 x_m fun _ (x_m : ℕ → ℝ) =>
    luInvert n 1 lu.1 lu.2.1 lu.2.2.1 (gearRhs F m n T X alpha f_x x_m) (fun _ => 0)

theorem gear_store (m n : ℕ) (X e x x0 : ℕ → ℝ) :
    let r := forRange 0 n (X, e) fun i (s : (ℕ → ℝ) × (ℕ → ℝ)) =>
      let X := Function.update s.1 (m * n + i) (x i)
      let e := Function.update s.2 i (x i - x0 i)
      let e := if e i < 0 then Function.update e i (- e i) else e
      (X, e)
    (∀ i < n, r.1 (m * n + i) = x i) ∧
    (∀ k, (∀ i < n, k ≠ m * n + i) → r.1 k = X k) ∧
    (∀ i < n, r.2 i = |x i - x0 i|) := by
  intro r
  refine forRange_ind (s := (X, e)) (lo := 0) (hi := n) (Nat.zero_le n)
    (fun k (t : (ℕ → ℝ) × (ℕ → ℝ)) => (∀ i < k, t.1 (m * n + i) = x i) ∧
      (∀ q, (∀ i < n, q ≠ m * n + i) → t.1 q = X q) ∧
      (∀ i < k, t.2 i = |x i - x0 i|)) (by simp) ?_
  intro k t _ hk ⟨h1, h2, h3⟩
  refine ⟨?_, ?_, ?_⟩
  · intro i hi
    dsimp only
    by_cases e : i = k
    · subst e; simp
    · rw [Function.update_of_ne (by omega)]
      exact h1 i (by omega)
  · intro q hq
    dsimp only
    rw [Function.update_of_ne (hq k hk)]
    exact h2 q hq
  · intro i hi
    dsimp only
    by_cases e : i = k
    · subst e
      rw [Function.update_self]
      split_ifs with hneg
      · rw [Function.update_self, abs_of_neg hneg]
      · rw [Function.update_self, abs_of_nonneg (not_lt.1 hneg)]
    · split_ifs
      · rw [Function.update_of_ne e, Function.update_of_ne e]
        exact h3 i (by omega)
      · rw [Function.update_of_ne e]
        exact h3 i (by omega)

theorem odeGear_fields (F : OdeFun) (m n : ℕ) (T X e : ℕ → ℝ) :
    (∀ i < n, (odeGear F m n T X e).1 (m * n + i) = gearNewton F m n T X i) ∧
    (∀ k, (∀ i < n, k ≠ m * n + i) → (odeGear F m n T X e).1 k = X k) ∧
    (∀ i < n, (odeGear F m n T X e).2 i = |gearNewton F m n T X i - gearPredict F m n T X i|) :=
  gear_store m n X e (gearNewton F m n T X) (gearPredict F m n T X)

section main
variable {F : OdeFun} {m n : ℕ} {T X : ℕ → ℝ}

theorem inj_of_mono (hT : ∀ j < m, T j < T (j + 1)) : Set.InjOn T (range (m + 1) : Finset ℕ) := by
  have hlt : ∀ a b, a < b → b ≤ m → T a < T b := by
    intro a b hab hb
    induction b, hab using Nat.le_induction with
    | base => exact hT a (by omega)
    | succ b hab ih => exact (ih (by omega)).trans (hT b (by omega))
  intro a ha b hb h
  simp only [Finset.coe_range, Set.mem_Iio] at ha hb
  rcases lt_trichotomy a b with h1 | h1 | h1
  · exact absurd h (hlt a b h1 (by omega)).ne
  · exact h1
  · exact absurd h (hlt b a h1 (by omega)).ne'

/-- **The weights of the method.** For every polynomial `p` of degree at most `m`, the linear
combination with the weights `alpha` (`beta`) of its values at `T[0], …, T[m]` is its derivative at
`T[m]` (at `T[m-1]`). -/
theorem odeGear_weights (hm : 1 ≤ m) (hT : ∀ j < m, T j < T (j + 1)) {p : ℝ[X]} (hp : p.natDegree ≤ m) :
    ∑ j ∈ range (m + 1), gearAlpha m T j * eval (T j) p = eval (T m) (derivative p) ∧
    ∑ j ∈ range (m + 1), gearBeta m T j * eval (T j) p = eval (T (m - 1)) (derivative p) := by
  have hinj := inj_of_mono hT
  have hd : p.degree < #(range (m + 1)) := by
    rw [Finset.card_range]
    refine lt_of_le_of_lt (natDegree_le_iff_degree_le.1 hp) ?_
    exact_mod_cast Nat.lt_succ_self m
  constructor
  · rw [derivW_ok hinj (l := m) (by simp) hd]
    refine Finset.sum_congr rfl fun j hj => ?_
    rw [gearAlpha_eq m T (by simp at hj; omega)]
  · rw [derivW_ok hinj (l := m - 1) (Finset.mem_range.2 (by omega)) hd]
    refine Finset.sum_congr rfl fun j hj => ?_
    rw [gearBeta_eq hm T (by simp at hj; omega)]

theorem gearBeta_ne (hm : 1 ≤ m) (hT : ∀ j < m, T j < T (j + 1)) : gearBeta m T m ≠ 0 := by
  have hinj := inj_of_mono hT
  have hne : ∀ a b, a ≤ m → b ≤ m → a ≠ b → T a - T b ≠ 0 := by
    intro a b ha hb hab h
    exact hab (hinj (by simp; omega) (by simp; omega) (sub_eq_zero.1 h))
  rw [gearBeta_eq hm T le_rfl]
  unfold derivW
  rw [if_neg (by omega)]
  refine mul_ne_zero (one_div_ne_zero (hne _ _ le_rfl (by omega) (by omega))) ?_
  rw [Finset.prod_ne_zero_iff]
  intro k hk
  simp only [Finset.mem_erase, Finset.mem_range] at hk
  exact div_ne_zero (hne _ _ (by omega) (by omega) (by omega)) (hne _ _ le_rfl (by omega) (by omega))

/-- **Polynomial solutions are exact.**  Suppose the components `p i` of a function have degree at
most `m`, satisfy the differential equation at `T[m-1]` and at `T[m]`, and the input values are the
values of this function at `T[0], …, T[m-1]`.  Then `OdeGear` returns the value of the function at
`T[m]`, the other elements of `X` are not changed, and the error estimate is zero.  The assumption
about the determinant is the one that `OdeGear` checks (`ode_gear.hpp:528-531`). -/
theorem odeGear_exact (hF : F.Local n) (hm : 1 ≤ m) (hT : ∀ j < m, T j < T (j + 1))
    (p : ℕ → ℝ[X]) (hp : ∀ i < n, (p i).natDegree ≤ m)
    (h1 : ∀ i < n, F.ode (T (m - 1)) (fun i => eval (T (m - 1)) (p i)) i
      = eval (T (m - 1)) (derivative (p i)))
    (h2 : ∀ i < n, F.ode (T m) (fun i => eval (T m) (p i)) i = eval (T m) (derivative (p i)))
    (hX : ∀ j < m, ∀ i < n, X (j * n + i) = eval (T j) (p i))
    (hdet : (Matrix.of fun i j : Fin n => (if i = j then gearAlpha m T m else 0)
      - F.odeDep (T m) (fun i => eval (T m) (p i)) (i * n + j)).det ≠ 0) (e : ℕ → ℝ) :
    (∀ i < n, (odeGear F m n T X e).1 (m * n + i) = eval (T m) (p i)) ∧
    (∀ k, (∀ i < n, k ≠ m * n + i) → (odeGear F m n T X e).1 k = X k) ∧
    (∀ i < n, (odeGear F m n T X e).2 i = 0) := by
  -- the predictor is exact
  have hpred : ∀ i < n, gearPredict F m n T X i = eval (T m) (p i) := by
    intro i hi
    rw [gearPredict_eq F m n T X hi]
    have e1 := (hF (T (m - 1)) (fun i => if i < n then X ((m - 1) * n + i) else 0)
      (fun i => eval (T (m - 1)) (p i)) (by
        intro i hi
        rw [if_pos hi, hX (m - 1) (by omega) i hi])).1 i hi
    rw [e1, h1 i hi, ← (odeGear_weights hm hT (hp i hi)).2, Finset.sum_range_succ]
    have e2 : ∑ j ∈ range m, gearBeta m T j * X (j * n + i)
        = ∑ j ∈ range m, gearBeta m T j * eval (T j) (p i) := by
      refine Finset.sum_congr rfl fun j hj => ?_
      rw [hX j (Finset.mem_range.1 hj) i hi]
    rw [e2, add_sub_cancel_left, mul_div_cancel_left₀ _ (gearBeta_ne hm hT)]
  -- the matrix
  set A := gearMat n (gearAlpha m T m) (F.odeDep (T m) (gearPredict F m n T X)) with hA
  have hdetA : (mat n n A).det ≠ 0 := by
    have : mat n n A = Matrix.of fun i j : Fin n => (if i = j then gearAlpha m T m else 0)
        - F.odeDep (T m) (fun i => eval (T m) (p i)) (i * n + j) := by
      ext i j
      show A (i * n + j) = _
      rw [hA, gearMat_eq n _ _ i.2 j.2]
      rw [(hF (T m) _ _ hpred).2 i i.2 j j.2]
      simp only [Matrix.of_apply, Fin.ext_iff]
    rw [this]; exact hdet
  -- every Newton iterate is exact
  have hnewton : ∀ i < n, gearNewton F m n T X i = eval (T m) (p i) := by
    unfold gearNewton
    refine forRange_inv (fun (x : ℕ → ℝ) => ∀ i < n, x i = eval (T m) (p i)) hpred ?_
    intro k x _ _ hx
    refine gear_unique hdetA ?_
    intro i hi
    rw [hA, gear_solve (hA ▸ hdetA) _ i hi, gearRhs_eq F m n T X _ _ _ hi,
      (hF (T m) x (fun i => eval (T m) (p i)) hx).1 i hi, h2 i hi,
      ← (odeGear_weights hm hT (hp i hi)).1, Finset.sum_range_succ]
    have e2 : ∑ j ∈ range m, gearAlpha m T j * X (j * n + i)
        = ∑ j ∈ range m, gearAlpha m T j * eval (T j) (p i) := by
      refine Finset.sum_congr rfl fun j hj => ?_
      rw [hX j (Finset.mem_range.1 hj) i hi]
    have e3 : ∑ j ∈ range n, gearMat n (gearAlpha m T m) (F.odeDep (T m) (gearPredict F m n T X)) (i * n + j)
        * eval (T m) (p j) = gearAlpha m T m * eval (T m) (p i)
          - ∑ j ∈ range n, F.odeDep (T m) (gearPredict F m n T X) (i * n + j) * x j := by
      have : ∀ j ∈ range n, gearMat n (gearAlpha m T m) (F.odeDep (T m) (gearPredict F m n T X)) (i * n + j)
          * eval (T m) (p j) = (if i = j then gearAlpha m T m * eval (T m) (p i) else 0)
            - F.odeDep (T m) (gearPredict F m n T X) (i * n + j) * x j := by
        intro j hj
        have hj' := Finset.mem_range.1 hj
        rw [gearMat_eq n _ _ hi hj', hx j hj']
        by_cases h : i = j
        · subst h; rw [if_pos rfl, if_pos rfl]; ring
        · rw [if_neg h, if_neg h]; ring
      rw [Finset.sum_congr rfl this, Finset.sum_sub_distrib, Finset.sum_ite_eq, if_pos (Finset.mem_range.2 hi)]
    rw [e3, e2]
    ring
  obtain ⟨g1, g2, g3⟩ := odeGear_fields F m n T X e
  refine ⟨fun i hi => (g1 i hi).trans (hnewton i hi), g2, fun i hi => ?_⟩
  rw [g3 i hi, hnewton i hi, hpred i hi, sub_self, abs_zero]

/-- **Linear equations.** When, at the time `T[m]`, the function is affine in `x`, `f(x) = B x + c`,
the polynomials of degree at most `m` through the points in `X` (including the new point)
satisfy the differential equation at `T[m]`; i.e. `OdeGear` solves Gear's equation exactly. -/
theorem odeGear_linear (hm : 1 ≤ m) (hT : ∀ j < m, T j < T (j + 1))
    (B : ℕ → ℕ → ℝ) (c : ℕ → ℝ)
    (hode : ∀ x, ∀ i < n, F.ode (T m) x i = ∑ j ∈ range n, B i j * x j + c i)
    (hdep : ∀ x, ∀ i < n, ∀ j < n, F.odeDep (T m) x (i * n + j) = B i j)
    (hdet : (Matrix.of fun i j : Fin n => (if i = j then gearAlpha m T m else 0) - B i j).det ≠ 0)
    (e : ℕ → ℝ) (p : ℕ → ℝ[X]) (hp : ∀ i < n, (p i).natDegree ≤ m)
    (hX : ∀ j ≤ m, ∀ i < n, eval (T j) (p i) = (odeGear F m n T X e).1 (j * n + i)) :
    ∀ i < n, eval (T m) (derivative (p i)) = F.ode (T m) (fun i => eval (T m) (p i)) i := by
  set A := gearMat n (gearAlpha m T m) (F.odeDep (T m) (gearPredict F m n T X)) with hA
  have hAe : ∀ i < n, ∀ j < n, A (i * n + j) = (if i = j then gearAlpha m T m else 0) - B i j := by
    intro i hi j hj
    rw [hA, gearMat_eq n _ _ hi hj, hdep _ i hi j hj]
  have hdetA : (mat n n A).det ≠ 0 := by
    have : mat n n A = Matrix.of fun i j : Fin n => (if i = j then gearAlpha m T m else 0) - B i j := by
      ext i j
      show A (i * n + j) = _
      rw [hAe i i.2 j j.2]
      simp only [Matrix.of_apply, Fin.ext_iff]
    rw [this]; exact hdet
  have hnewton : ∀ i < n, ∑ j ∈ range n, A (i * n + j) * gearNewton F m n T X j
      = c i - ∑ j ∈ range m, gearAlpha m T j * X (j * n + i) := by
    intro i hi
    unfold gearNewton
    rw [forRange_succ (Nat.zero_le 2), ← hA, gear_solve hdetA _ i hi, gearRhs_eq F m n T X _ _ _ hi,
      hode _ i hi]
    have : ∀ x : ℕ → ℝ, ∑ j ∈ range n, F.odeDep (T m) (gearPredict F m n T X) (i * n + j) * x j
        = ∑ j ∈ range n, B i j * x j := by
      intro x
      refine Finset.sum_congr rfl fun j hj => ?_
      rw [hdep _ i hi j (Finset.mem_range.1 hj)]
    rw [this]; ring
  obtain ⟨g1, g2, g3⟩ := odeGear_fields F m n T X e
  intro i hi
  rw [hode _ i hi, ← (odeGear_weights hm hT (hp i hi)).1, Finset.sum_range_succ]
  have hm' : ∀ j < n, eval (T m) (p j) = gearNewton F m n T X j := by
    intro j hj
    rw [hX m le_rfl j hj, g1 j hj]
  have hold : ∀ j < m, eval (T j) (p i) = X (j * n + i) := by
    intro j hj
    rw [hX j hj.le i hi, g2]
    intro a ha h
    have := (idx_inj hi ha h).1
    omega
  have e1 : ∑ j ∈ range m, gearAlpha m T j * eval (T j) (p i)
      = ∑ j ∈ range m, gearAlpha m T j * X (j * n + i) :=
    Finset.sum_congr rfl fun j hj => by rw [hold j (Finset.mem_range.1 hj)]
  have e2 : ∑ j ∈ range n, B i j * eval (T m) (p j) = ∑ j ∈ range n, B i j * gearNewton F m n T X j :=
    Finset.sum_congr rfl fun j hj => by rw [hm' j (Finset.mem_range.1 hj)]
  have e3 : ∑ j ∈ range n, A (i * n + j) * gearNewton F m n T X j
      = gearAlpha m T m * gearNewton F m n T X i - ∑ j ∈ range n, B i j * gearNewton F m n T X j := by
    have : ∀ j ∈ range n, A (i * n + j) * gearNewton F m n T X j
        = (if i = j then gearAlpha m T m * gearNewton F m n T X i else 0)
          - B i j * gearNewton F m n T X j := by
      intro j hj
      rw [hAe i hi j (Finset.mem_range.1 hj)]
      by_cases h : i = j
      · subst h; rw [if_pos rfl, if_pos rfl]; ring
      · rw [if_neg h, if_neg h]; ring
    rw [Finset.sum_congr rfl this, Finset.sum_sub_distrib, Finset.sum_ite_eq, if_pos (Finset.mem_range.2 hi)]
  have h3 := hnewton i hi
  rw [e3] at h3
  rw [e1, e2, hm' i hi]
  linarith

/-! ### A concrete case: `x' = 2 t` with `x = t^2`, at the times `0, 1, 3` -/

/-- `f(t, x) = 2 t` -/
def sqFun : OdeFun := ⟨fun t _ _ => 2 * t, fun _ _ _ => 0⟩

/-- the hypotheses of `odeGear_exact` are met, and the result is the value `9` of `t^2` at `t = 3` -/
example : (odeGear sqFun 2 1 (fun j => if j = 2 then 3 else j) (fun j => (j : ℝ) ^ 2) (fun _ => 7)).1 2 = 9 ∧
    (odeGear sqFun 2 1 (fun j => if j = 2 then 3 else j) (fun j => (j : ℝ) ^ 2) (fun _ => 7)).2 0 = 0 := by
  set T : ℕ → ℝ := fun j => if j = 2 then 3 else j with hT
  have hmono : ∀ j < 2, T j < T (j + 1) := by
    intro j hj
    rcases (by omega : j = 0 ∨ j = 1) with h | h <;> subst h <;> norm_num [hT]
  have h := odeGear_exact (F := sqFun) (m := 2) (n := 1) (T := T) (X := fun j => (j : ℝ) ^ 2)
    (by intro t x y _; exact ⟨fun _ _ => rfl, fun _ _ _ _ => rfl⟩) (by norm_num) hmono
    (fun _ => (Polynomial.X : ℝ[X]) ^ 2) (by intro i _; simp)
    (by intro i _; simp [sqFun, hT]; norm_num) (by intro i _; simp [sqFun, hT]; norm_num)
    (by
      intro j hj i hi
      have : i = 0 := by omega
      subst this
      rcases (by omega : j = 0 ∨ j = 1) with h | h <;> subst h <;> simp [hT])
    (by
      simp only [Matrix.det_unique, Matrix.of_apply, sqFun, if_true, sub_zero]
      rw [gearAlpha_eq 2 T le_rfl]
      simp [derivW, hT, Finset.sum_erase_eq_sub, Finset.sum_range_succ]
      norm_num)
    (fun _ => 7)
  refine ⟨?_, h.2.2 0 (by norm_num)⟩
  have := h.1 0 (by norm_num)
  simp only [hT] at this ⊢
  norm_num at this ⊢
  exact this

end main

end CppAD.Ode
