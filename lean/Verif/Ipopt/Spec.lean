import Verif.Ipopt.Model
import Verif.AtomEx.Base

/-!
# The callback object of `ipopt::solve`: specification
-/

open scoped Topology
open CppAD.AtomEx (ev)

namespace CppAD.Ipopt

open IndexSort

/-- *Specification*: `d` is the partial derivative of `φ` with respect to component `j` at `x` -/
def PartialAt {n : ℕ} (φ : (Fin n → ℝ) → ℝ) (x : Fin n → ℝ) (j : Fin n) (d : ℝ) : Prop :=
  HasDerivAt (fun ε : ℝ => φ (x + ε • Pi.single j 1)) d 0

/-- *Specification*: `d` is the second partial derivative of `φ` at `x`, first with respect to component `j` and then with
respect to component `k` -/
def Partial2At {n : ℕ} (φ : (Fin n → ℝ) → ℝ) (x : Fin n → ℝ) (k j : Fin n) (d : ℝ) : Prop :=
  ∃ dφ : (Fin n → ℝ) → ℝ, (∀ᶠ ε in 𝓝 (0 : ℝ), PartialAt φ (x + ε • Pi.single k 1) j (dφ (x + ε • Pi.single k 1))) ∧
    PartialAt dφ x k d

/-- the operation sequence used at `x` -/
def Arg.tape (A : Arg) (x : List ℝ) : Tape := if A.retape then A.record x else A.optimize (A.record (vec A.nx A.xi))

/-- *Specification*: the recordings of the problem are legal: `nx` arguments and `nf + ng` results; retape and
sparse is not used together, and not both sparse forward and sparse reverse (ipopt/solve.hpp:548-565, 593-596).
In the sparse case there is no call of an atomic function. -/
structure Problem (A : Arg) : Prop where
  wf : ∀ x, x.length = A.nx → (A.tape x).WF
  dom : ∀ x, x.length = A.nx → (A.tape x).n = A.nx
  range : ∀ x, x.length = A.nx → (A.tape x).dep.length = A.nf + A.ng
  modes : (A.sparseForward || A.sparseReverse) = true → A.retape = false
  atomic : (A.sparseForward || A.sparseReverse) = true → ∀ x, x.length = A.nx → ∀ op ∈ (A.tape x).ops, ∀ c, op ≠ .atom c

/-- *Specification*: at `x`, the recording that is used computes `fg` near `x`, and its operations are smooth at `x` -/
def Records (A : Arg) (fg : (Fin A.nx → ℝ) → ℕ → ℝ) (x : Fin A.nx → ℝ) : Prop :=
  (A.tape (List.ofFn x)).Dom (ev x) ∧
    ∀ᶠ x' in 𝓝 x, ∀ i < A.nf + A.ng, (A.tape (List.ofFn x)).eval (ev x') i = fg x' i

/-- *Specification*: the environment -/
structure Env.Ok (E : Env) : Prop where
  bits : 0 < E.bits
  sort : StdSort Element.lt E.sort
  maxR : 0 < E.maxR

/-- A call of an evaluation function: the point, `new_x` and the other arguments -/
inductive Call (n : ℕ)
  | f (x : Fin n → ℝ) (newX : Bool)
  | gradF (x : Fin n → ℝ) (newX : Bool) (grad : ℕ → ℝ)
  | g (x : Fin n → ℝ) (newX : Bool) (g : ℕ → ℝ)
  | jacG (x : Fin n → ℝ) (newX : Bool) (values : ℕ → ℝ)
  | h (x : Fin n → ℝ) (newX : Bool) (objFactor : ℝ) (lambda values : ℕ → ℝ)

/-- the point of a call -/
def Call.x {n : ℕ} : Call n → Fin n → ℝ
  | .f x _ => x
  | .gradF x _ _ => x
  | .g x _ _ => x
  | .jacG x _ _ => x
  | .h x _ _ _ _ => x

/-- the flag `new_x` of a call -/
def Call.newX {n : ℕ} : Call n → Bool
  | .f _ b => b
  | .gradF _ b _ => b
  | .g _ b _ => b
  | .jacG _ b _ => b
  | .h _ b _ _ _ => b

/-- the object after a call -/
noncomputable def Obj.call (A : Arg) (E : Env) (J : Junk) (o : Obj) : Call A.nx → Obj
  | .f x b => (o.evalF A E J (ev x) b).1
  | .gradF x b v => (o.evalGradF A E J (ev x) b v).1
  | .g x b v => (o.evalG A E J (ev x) b v).1
  | .jacG x b v => (o.evalJacG A E J (ev x) b v).1
  | .h x b s l v => (o.evalH A E J (ev x) b s l v).1

/-- *Specification*: objects after the constructor and any number of calls, and the point of the last call.  A
call is legal if `new_x` is true or its point is the point of the previous call; this is what Ipopt guarantees. -/
inductive Hist (A : Arg) (E : Env) : Obj → Option (Fin A.nx → ℝ) → Prop
  | init (J : Junk) : Hist A E (Obj.init A E J) none
  | call {o cur} (J : Junk) (c : Call A.nx) : Hist A E o cur → (c.newX = true ∨ cur = some c.x) →
      Hist A E (o.call A E J c) (some c.x)

/-- the Lagrangian, solve_callback.hpp:113 -/
noncomputable def lagrangian (A : Arg) (fg : (Fin A.nx → ℝ) → ℕ → ℝ) (objFactor : ℝ) (lambda : ℕ → ℝ) (x : Fin A.nx → ℝ) : ℝ :=
  objFactor * ∑ i ∈ Finset.range A.nf, fg x i + ∑ i ∈ Finset.range A.ng, lambda i * fg x (A.nf + i)

end CppAD.Ipopt
