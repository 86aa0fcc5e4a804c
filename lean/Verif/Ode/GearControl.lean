import Verif.Ode.GearThm
import Verif.Ode.ErrInv

/-!
# Model of `OdeGearControl`

`include/cppad/utility/ode_gear_control.hpp:391-561`.  Real arithmetic; the
ghost variable `calls` is the list of calls of `OdeGear`.
-/

namespace CppAD.Ode

open scoped Classical

/-- one call of `OdeGear(F, m, n, T, X, e)` with the values of `T`, `X` and `e`
on return; `acc` is the value of `advance` -/
structure GCall where
  m : ℕ
  T : ℕ → ℝ
  X : ℕ → ℝ
  e : ℕ → ℝ
  acc : Bool

/-- the arguments of `OdeGearControl` (`ode_gear_control.hpp:393-406`) -/
structure GearArgs where
  F : OdeFun
  n : ℕ
  M : ℕ
  ti : ℝ
  tf : ℝ
  xi : ℕ → ℝ
  smin : ℝ
  smax : ℝ
  sini : ℝ
  eabs : ℕ → ℝ
  erel : ℝ

/-- the variables of the `while` loop (`ode_gear_control.hpp:442-475`) -/
structure GState where
  m : ℕ
  T : ℕ → ℝ
  X : ℕ → ℝ
  e : ℕ → ℝ
  step : ℝ
  ef : ℕ → ℝ
  maxabs : ℕ → ℝ
  nstep : ℕ
  calls : List GCall

instance : Nonempty GState :=
  ⟨⟨0, fun _ => 0, fun _ => 0, fun _ => 0, 0, fun _ => 0, fun _ => 0, 0, []⟩⟩

/-- `axi = x; if( axi <= zero ) axi = - axi;` (`ode_gear_control.hpp:507-509`) -/
noncomputable def absIf' (x : ℝ) : ℝ := if x ≤ 0 then - x else x

/-- the requested step size (`ode_gear_control.hpp:480-491`) -/
noncomputable def gRequest (A : GearArgs) (m : ℕ) (step : ℝ) : ℝ :=
  let step := if A.smax ≤ step then A.smax else step
  if m < A.M then if step ≤ A.sini then A.sini else step
  else if step ≤ A.smin then A.smin else step

/-- the end of the step (`ode_gear_control.hpp:493-497`) -/
noncomputable def gEnd (A : GearArgs) (t step : ℝ) : ℝ :=
  if A.tf ≤ t + 3 / 2 * step then A.tf else t + step

/-- `lambda` for this step (`ode_gear_control.hpp:504-521`) -/
noncomputable def gLambda (A : GearArgs) (m : ℕ) (sprevious step : ℝ) (X e : ℕ → ℝ) : ℝ :=
  forRange 0 A.n (10 * sprevious / step) fun i (lambda : ℝ) =>
    let axi := absIf' (X (m * A.n + i))
    let a := A.eabs i + A.erel * axi
    if e i > 0 then
      let rt := if m = 1 then some ((a / e i) / 10)
        else root ((m - 1 : ℕ) : ℝ) ((a / e i) * step / (A.tf - A.ti))
      match rt with
      | some ρ => if ρ ≤ lambda then ρ else lambda
      | none => lambda
    else lambda

/-- shift for next step (`ode_gear_control.hpp:535-539`) -/
def gShift (n m : ℕ) (T X : ℕ → ℝ) : (ℕ → ℝ) × (ℕ → ℝ) :=
  forRange 0 m (T, X) fun k (s : (ℕ → ℝ) × (ℕ → ℝ)) =>
    (Function.update s.1 k (s.1 (k + 1)),
      forRange 0 n s.2 fun i (X : ℕ → ℝ) => Function.update X (k * n + i) (X ((k + 1) * n + i)))

/-- update `ef` and `maxabs` (`ode_gear_control.hpp:541-549`); the result is `(ef, maxabs)` -/
noncomputable def gUpdate (n m : ℕ) (X e ef maxabs : ℕ → ℝ) : (ℕ → ℝ) × (ℕ → ℝ) :=
  forRange 0 n (ef, maxabs) fun i (s : (ℕ → ℝ) × (ℕ → ℝ)) =>
    let ef := Function.update s.1 i (s.1 i + e i)
    let axi := absIf' (X (m * n + i))
    (ef, if axi > s.2 i then Function.update s.2 i axi else s.2)

/-- the body of the `while` loop (`ode_gear_control.hpp:478-555`) -/
noncomputable def gBody (A : GearArgs) (s : GState) : GState :=
  let m := s.m
  let sprevious := s.step
  let T := Function.update s.T m (gEnd A (s.T (m - 1)) (gRequest A m s.step))
  let g := odeGear A.F m A.n T s.X s.e
  let X := g.1
  let e := g.2
  let step := T m - T (m - 1)
  let lambda := gLambda A m sprevious step X e
  let advance : Bool :=
    if m = A.M then decide (1 ≤ lambda) || decide (step ≤ 3 / 2 * A.smin)
    else decide (1 ≤ lambda) || decide (step ≤ 3 / 2 * A.sini)
  let calls := s.calls ++ [⟨m, T, X, e, advance⟩]
  let nstep := s.nstep + 1
  let next := (if 10 < lambda then 10 else lambda) * step / 2
  if advance then
    let TX := if m = A.M then gShift A.n m T X else (T, X)
    let u := gUpdate A.n m TX.2 e s.ef s.maxabs
    ⟨if m ≠ A.M then m + 1 else m, TX.1, TX.2, e, next, u.1, u.2, nstep, calls⟩
  else ⟨m, T, X, e, next, s.ef, s.maxabs, nstep, calls⟩

/-- the initial values (`ode_gear_control.hpp:454-475`).  Elements that are not assigned by the
code are zero. -/
noncomputable def gInit (A : GearArgs) : GState where
  m := 1
  T := fun k => if k = 0 then A.ti else 0
  X := fun k => if k < A.n then A.xi k else 0
  e := fun _ => 0
  step := A.smin
  ef := fun _ => 0
  maxabs := fun i => absIf (A.xi i)
  nstep := 0
  calls := []

/-- the condition of the `while` loop (`ode_gear_control.hpp:477`) -/
noncomputable def gCond (A : GearArgs) (s : GState) : Bool := decide (s.T (s.m - 1) < A.tf)

/-- what `OdeGearControl` returns, and the calls of `OdeGear` that it made -/
structure GResult where
  xf : ℕ → ℝ
  ef : ℕ → ℝ
  maxabs : ℕ → ℝ
  nstep : ℕ
  calls : List GCall

/-- `OdeGearControl` (`ode_gear_control.hpp:392-561`) -/
noncomputable def odeGearControl (A : GearArgs) : GResult :=
  let s := whileLoop (gCond A) (gBody A) (gInit A)
  ⟨fun i => s.X ((s.m - 1) * A.n + i), s.ef, s.maxabs, s.nstep, s.calls⟩

/-! ## Specification -/

/-- the requirements in the documentation, and positive minimum step sizes -/
structure GearArgs.Valid (A : GearArgs) : Prop where
  M : 1 ≤ A.M
  time : A.ti ≤ A.tf
  smin_pos : 0 < A.smin
  sini_pos : 0 < A.sini
  smin_smax : A.smin ≤ A.smax
  sini_smax : A.sini ≤ A.smax
  eabs : ∀ i < A.n, 0 ≤ A.eabs i
  erel : 0 ≤ A.erel

/-- the steps that were accepted -/
def gAccepted (cs : List GCall) : List GCall := cs.filter (·.acc)

/-- the new point of a call -/
def GCall.point (n : ℕ) (c : GCall) : ℝ × (ℕ → ℝ) := (c.T c.m, fun i => c.X (c.m * n + i))

/-- the size of the step -/
def GCall.size (c : GCall) : ℝ := c.T c.m - c.T (c.m - 1)

/-- the points on the approximate solution: the initial point, and the new points of the accepted steps -/
def points (A : GearArgs) (cs : List GCall) : List (ℝ × (ℕ → ℝ)) :=
  (A.ti, A.xi) :: (gAccepted cs).map (GCall.point A.n)

/-- the first `m` elements of `T` and `X` are the last `m` points, in order -/
def Recent (n : ℕ) (pts : List (ℝ × (ℕ → ℝ))) (m : ℕ) (T X : ℕ → ℝ) : Prop :=
  m ≤ pts.length ∧ ∀ j < m, ∃ q, pts[pts.length - m + j]? = some q ∧ T j = q.1 ∧
    ∀ i < n, X (j * n + i) = q.2 i

/-- the minimum step size for a call with order `m` -/
noncomputable def GearArgs.least (A : GearArgs) (m : ℕ) : ℝ := if m < A.M then A.sini else A.smin

/-- the error estimate is within the requested bounds: for `m = 1` it is at most a tenth of the bound;
for other `m` it is at most the part of the bound that corresponds to the step size -/
def GCall.Within (A : GearArgs) (c : GCall) : Prop :=
  ∀ i < A.n, c.e i ≤ (A.eabs i + A.erel * |c.X (c.m * A.n + i)|) *
    (if c.m = 1 then 1 / 10 else c.size / (A.tf - A.ti))

end CppAD.Ode
