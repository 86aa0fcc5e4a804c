import Verif.Ode.ErrModel
import Mathlib.Order.Bounds.Basic

/-!
# What `OdeErrControl` should do, independently of how it does it

These definitions speak only about the calls of `method.step` that a user's
method object sees.
-/

namespace CppAD.Ode

/-- neither `xb` nor `eb` has a `nan` -/
def Call.Ok (n : ℕ) (c : Call) : Prop := ∀ i < n, (c.xb i).isSome ∧ (c.eb i).isSome

/-- the error estimate of this step is within the part of the requested error
bound that corresponds to the size of this step:
`|eb_i| ≤ (eabs_i + erel * |xb_i|) * (tb - ta) / (tf - ti)` -/
def Call.Within (A : ErrArgs) (c : Call) : Prop :=
  ∀ i < A.n, ∀ x e, c.xb i = some x → c.eb i = some e →
    |e| ≤ (A.eabs i + A.erel * |x|) * (c.tb - c.ta) / (A.tf - A.ti)

/-- the error estimates of this step are not negative -/
def Call.Nonneg (n : ℕ) (c : Call) : Prop := ∀ i < n, ∀ e, c.eb i = some e → 0 ≤ e

/-- the steps in a list connect time `t` and value `x` with time `t'` and value
`x'`: every step goes forward in time, starts where the previous one ended and
with the value that the previous one returned -/
def IsPath (n : ℕ) : ℝ → (ℕ → ℝ) → List Call → ℝ → (ℕ → ℝ) → Prop
  | t, x, [], t', x' => t' = t ∧ ∀ i < n, x' i = x i
  | t, x, c :: cs, t', x' =>
    c.ta = t ∧ (∀ i < n, c.xa i = x i) ∧ c.ta < c.tb ∧
      ∃ y : ℕ → ℝ, (∀ i < n, c.xb i = some (y i)) ∧ IsPath n c.tb y cs t' x'

/-- the accepted steps in a list of calls -/
def accepted (cs : List Call) : List Call := cs.filter (·.acc)

/-- the arguments satisfy the requirements in the documentation, in exact
arithmetic, and the minimum step size is positive -/
structure ErrArgs.Valid (A : ErrArgs) : Prop where
  order : 1 < A.method.order
  time : A.ti ≤ A.tf
  smin_pos : 0 < A.smin
  smin_smax : A.smin ≤ A.smax
  eabs : ∀ i < A.n, 0 ≤ A.eabs i
  erel : 0 ≤ A.erel

end CppAD.Ode
