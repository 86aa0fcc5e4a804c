import Mathlib.Analysis.SpecialFunctions.Log.Basic
import Mathlib.Analysis.SpecialFunctions.Exp
import Verif.Util.While
import Verif.Taylor.Loop

/-!
# Model of `OdeErrControl`

`include/cppad/utility/ode_err_control.hpp`.

Scalars are real numbers; the values that `method.step` writes may also be
`nan`, which is `none` (a comparison with `nan` is false).  Infinite values are
not modelled.  The method may have a state: what a call of `method.step`
returns may depend on all the calls that were made before it.  `calls` is a
ghost variable, the list of calls of `method.step` in the order in which they
were made; `acc` in an element of this list records that the step was accepted.
-/

namespace CppAD.Ode

open scoped Classical

/-- one call of `method.step(ta, tb, xa, xb, eb)`
(`ode_err_control.hpp:77-131`) with the values that it returned -/
structure Call where
  ta : ℝ
  tb : ℝ
  xa : ℕ → ℝ
  xb : ℕ → Option ℝ
  eb : ℕ → Option ℝ
  /-- this step was accepted by the error control -/
  acc : Bool

/-- the object `method` (`ode_err_control.hpp:67-155`): the result of `step` is
`(xb, eb)`; the first argument is the list of previous calls, so that the
object may have a state.  `order` is the value of `method.order()` -/
structure Method where
  step : List Call → ℝ → ℝ → (ℕ → ℝ) → (ℕ → Option ℝ) × (ℕ → Option ℝ)
  order : ℕ

/-- the arguments of `OdeErrControl` that it does not change
(`ode_err_control.hpp:433-446`); `n` is `xi.size()` -/
structure ErrArgs where
  n : ℕ
  method : Method
  ti : ℝ
  tf : ℝ
  xi : ℕ → ℝ
  smin : ℝ
  smax : ℝ
  eabs : ℕ → ℝ
  erel : ℝ

/-- the variables of the `while` loop (`ode_err_control.hpp:474-496`);
`failed` is true when the statement `return nan_vec` at line 524 was reached -/
structure ErrState where
  ta : ℝ
  xa : ℕ → ℝ
  scur : ℝ
  ef : ℕ → ℝ
  maxabs : ℕ → ℝ
  nstep : ℕ
  failed : Bool
  calls : List Call

instance : Nonempty ErrState := ⟨⟨0, fun _ => 0, 0, fun _ => 0, fun _ => 0, 0, false, []⟩⟩

/-- `if( zero <= x ) x else - x` (`ode_err_control.hpp:530-533`) -/
noncomputable def absIf (x : ℝ) : ℝ := if 0 ≤ x then x else - x

/-- `hasnan(v)` (`nan.hpp:175-188`) for a vector of size `n` -/
noncomputable def hasnan (n : ℕ) (v : ℕ → Option ℝ) : Bool :=
  forRange 0 n false fun i found => found || (v i).isNone

/-- `root = exp( log(r) / m1 )` (`ode_err_control.hpp:537`) in IEEE arithmetic:
`nan` when `r < 0`, and zero when `r` is zero (because then `log(r)` is minus
infinity) -/
noncomputable def root (m1 r : ℝ) : Option ℝ :=
  if r < 0 then none else if r = 0 then some 0 else some (Real.exp (Real.log r / m1))

/-- `ode_err_control.hpp:497-507`, the step size that is requested and the flag
`minimum_step`.  The pair is `(step, minimum_step)` -/
noncomputable def request (A : ErrArgs) (scur : ℝ) : ℝ × Bool :=
  let step := scur
  let step := if A.smax ≤ step then A.smax else step
  let minimum_step : Bool := decide (step ≤ A.smin)
  let step := if minimum_step then A.smin else step
  (step, minimum_step)

/-- `ode_err_control.hpp:509-513`, the end of the step -/
noncomputable def stepEnd (A : ErrArgs) (ta step : ℝ) : ℝ :=
  if A.tf ≤ ta + step * 3 / 2 then A.tf else ta + step

/-- `ode_err_control.hpp:527-541`, the value of `lambda` for this step -/
noncomputable def lambdaOf (A : ErrArgs) (scur step : ℝ) (xb eb : ℕ → Option ℝ) : ℝ :=
  forRange 0 A.n (10 * scur / step) fun i (lambda : ℝ) =>
    match xb i, eb i with
    | some x, some e =>
      let a := A.eabs i + A.erel * absIf x
      if ¬ (e = 0) then
        let r := (a / e) * step / (A.tf - A.ti)
        match root ((A.method.order - 1 : ℕ) : ℝ) r with
        | some ρ => if ρ ≤ lambda then ρ else lambda
        | none => lambda
      else lambda
    | _, _ => lambda

/-- `ode_err_control.hpp:545-555`, the update when the step is accepted -/
noncomputable def accept (A : ErrArgs) (s : ErrState) (tb : ℝ) (xb eb : ℕ → Option ℝ) : ErrState :=
  let s := { s with ta := tb }
  forRange 0 A.n s fun i (s : ErrState) =>
    let s := { s with xa := Function.update s.xa i ((xb i).getD 0) }
    let s := { s with ef := Function.update s.ef i (s.ef i + (eb i).getD 0) }
    let axbi := absIf ((xb i).getD 0)
    if s.maxabs i < axbi then { s with maxabs := Function.update s.maxabs i axbi } else s

/-- the body of the `while` loop (`ode_err_control.hpp:497-565`) -/
noncomputable def errBody (A : ErrArgs) (s : ErrState) : ErrState :=
  let rq := request A s.scur
  let minimum_step := rq.2
  let tb := stepEnd A s.ta rq.1
  let r := A.method.step s.calls s.ta tb s.xa
  let xb := r.1
  let eb := r.2
  let step := tb - s.ta
  let ok : Bool := ! (hasnan A.n xb || hasnan A.n eb)
  let call : Call := ⟨s.ta, tb, s.xa, xb, eb, false⟩
  if !ok && minimum_step then
    { s with nstep := s.nstep + 1, failed := true, calls := s.calls ++ [call] }
  else
    let lambda := lambdaOf A s.scur step xb eb
    let good : Bool := ok && (decide (1 ≤ lambda) || decide (step ≤ A.smin * 3 / 2))
    let s := { s with nstep := s.nstep + 1, calls := s.calls ++ [{ call with acc := good }] }
    let s := if good then accept A s tb xb eb else s
    if !ok then { s with scur := step / 2 }
    else if ¬ (s.ta = A.tf) then { s with scur := lambda * step / 2 } else s

/-- `ode_err_control.hpp:476-493` -/
noncomputable def errInit (A : ErrArgs) (scur : ℝ) : ErrState where
  ta := A.ti
  xa := A.xi
  scur := scur
  ef := fun _ => 0
  maxabs := fun i => absIf (A.xi i)
  nstep := 0
  failed := false
  calls := []

/-- the condition of the `while` loop (`ode_err_control.hpp:496`), false also
after the `return` inside the loop -/
noncomputable def errCond (A : ErrArgs) (s : ErrState) : Bool :=
  decide (¬ (s.ta = A.tf)) && !s.failed

/-- what a call of `OdeErrControl` returns: the return value `xf`, the outputs
`ef`, `maxabs`, `nstep` and `scur`, and the list of calls of `method.step` that
it made -/
structure ErrResult where
  xf : ℕ → Option ℝ
  ef : ℕ → Option ℝ
  maxabs : ℕ → ℝ
  nstep : ℕ
  scur : ℝ
  calls : List Call

/-- `OdeErrControl` (`ode_err_control.hpp:433-568`).  The vectors of `nan` that
are returned at lines 523-524 are `none` -/
noncomputable def odeErrControl (A : ErrArgs) (scur : ℝ) : ErrResult :=
  let s := whileLoop (errCond A) (errBody A) (errInit A scur)
  if s.failed then ⟨fun _ => none, fun _ => none, s.maxabs, s.nstep, s.scur, s.calls⟩
  else ⟨fun i => some (s.xa i), fun i => some (s.ef i), s.maxabs, s.nstep, s.scur, s.calls⟩

end CppAD.Ode
