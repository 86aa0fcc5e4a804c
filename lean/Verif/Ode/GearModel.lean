import Verif.Util.Lu

/-!
# Model of `OdeGear`

`include/cppad/utility/ode_gear.hpp:404-558`.  Scalars are real numbers; a
vector is a function of the index (the elements that are not yet assigned have
the value zero in the model).
-/

namespace CppAD.Ode

open CppAD CppAD.Lu

/-- the argument `F` of `OdeGear` (`ode_gear.hpp:60-96`): `F.Ode(t, x, f)` and
`F.Ode_dep(t, x, f_x)` -/
structure OdeFun where
  ode : ℝ → (ℕ → ℝ) → (ℕ → ℝ)
  odeDep : ℝ → (ℕ → ℝ) → (ℕ → ℝ)

/-- the vector `alpha` (`ode_gear.hpp:461-464` and `472-482`) -/
noncomputable def gearAlpha (m : ℕ) (T : ℕ → ℝ) : ℕ → ℝ :=
  let alpha : ℕ → ℝ := fun _ => 0
  let alpha := Function.update alpha m 0
  let alpha := forRange 0 m alpha fun k (alpha : ℕ → ℝ) =>
    Function.update alpha m (alpha m + 1 / (T m - T k))
  forRange 0 m alpha fun j (alpha : ℕ → ℝ) =>
    let alpha := Function.update alpha j (1 / (T j - T m))
    forRange 0 m alpha fun k (alpha : ℕ → ℝ) =>
      if k ≠ j then
        let alpha := Function.update alpha j (alpha j * (T m - T k))
        Function.update alpha j (alpha j / (T j - T k))
      else alpha

/-- the vector `beta` (`ode_gear.hpp:466-469` and `484-496`) -/
noncomputable def gearBeta (m : ℕ) (T : ℕ → ℝ) : ℕ → ℝ :=
  let beta : ℕ → ℝ := fun _ => 0
  let beta := Function.update beta (m - 1) (1 / (T (m - 1) - T m))
  let beta := forRange 0 (m - 1) beta fun k (beta : ℕ → ℝ) =>
    Function.update beta (m - 1) (beta (m - 1) + 1 / (T (m - 1) - T k))
  forRange 0 (m + 1) beta fun j (beta : ℕ → ℝ) =>
    if j ≠ m - 1 then
      let beta := Function.update beta j (1 / (T j - T (m - 1)))
      forRange 0 (m + 1) beta fun k (beta : ℕ → ℝ) =>
        if k ≠ j ∧ k ≠ m - 1 then
          let beta := Function.update beta j (beta j * (T (m - 1) - T k))
          Function.update beta j (beta j / (T j - T k))
        else beta
    else beta

/-- the starting point `x_m0` of Newton's method (`ode_gear.hpp:498-510`) -/
noncomputable def gearPredict (F : OdeFun) (m n : ℕ) (T X : ℕ → ℝ) : ℕ → ℝ :=
  let beta := gearBeta m T
  let x_m := forRange 0 n (fun _ => 0) fun i (x_m : ℕ → ℝ) =>
    Function.update x_m i (X ((m - 1) * n + i))
  let f := F.ode (T (m - 1)) x_m
  forRange 0 n x_m fun i (x_m : ℕ → ℝ) =>
    let x_m := Function.update x_m i (f i)
    let x_m := forRange 0 m x_m fun j (x_m : ℕ → ℝ) =>
      Function.update x_m i (x_m i - beta j * X (j * n + i))
    Function.update x_m i (x_m i / beta m)

/-- the matrix `A = alpha[m] * I - f_x` (`ode_gear.hpp:515-520`) -/
noncomputable def gearMat (n : ℕ) (alpham : ℝ) (f_x : ℕ → ℝ) : ℕ → ℝ :=
  forRange 0 n (fun _ => 0) fun i (A : ℕ → ℝ) =>
    let A := forRange 0 n A fun j (A : ℕ → ℝ) =>
      Function.update A (i * n + j) (- f_x (i * n + j))
    Function.update A (i * n + i) (A (i * n + i) + alpham)

/-- the right hand side of one Newton iteration (`ode_gear.hpp:536-546`) -/
noncomputable def gearRhs (F : OdeFun) (m n : ℕ) (T X alpha f_x x_m : ℕ → ℝ) : ℕ → ℝ :=
  let f := F.ode (T m) x_m
  forRange 0 n (fun _ => 0) fun i (b : ℕ → ℝ) =>
    let b := Function.update b i (f i)
    let b := forRange 0 n b fun j (b : ℕ → ℝ) =>
      Function.update b i (b i - f_x (i * n + j) * x_m j)
    forRange 0 m b fun j (b : ℕ → ℝ) =>
      Function.update b i (b i - alpha j * X (j * n + i))

/-- `OdeGear` (`ode_gear.hpp:406-558`).  The result is `(X, e)` on return. -/
noncomputable def odeGear (F : OdeFun) (m n : ℕ) (T X e : ℕ → ℝ) : (ℕ → ℝ) × (ℕ → ℝ) :=
  let alpha := gearAlpha m T
  let x_m := gearPredict F m n T X
  let x_m0 := x_m
  let f_x := F.odeDep (T m) x_m
  let A := gearMat n (alpha m) f_x
  let lu := luFactor absGeq n (fun _ => 0) (fun _ => 0) A
  let x_m := forRange 0 3 x_m fun _ (x_m : ℕ → ℝ) =>
    luInvert n 1 lu.1 lu.2.1 lu.2.2.1 (gearRhs F m n T X alpha f_x x_m) (fun _ => 0)
  forRange 0 n (X, e) fun i (s : (ℕ → ℝ) × (ℕ → ℝ)) =>
    let X := Function.update s.1 (m * n + i) (x_m i)
    let e := Function.update s.2 i (x_m i - x_m0 i)
    let e := if e i < 0 then Function.update e i (- e i) else e
    (X, e)

end CppAD.Ode
