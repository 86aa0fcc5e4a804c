import Verif.Taylor.ModelMisc
import Verif.Taylor.Series

/-! # Model of the atomic function operators (AFunOp, FunapOp, FunavOp, FunrpOp, FunrvOp)

An atomic function is written by the user of the library: `Atom` holds its callbacks together with the
mathematical function it represents and what the documentation requires of the callbacks
(cppad/core/atomic/four/forward.hpp, reverse.hpp, and the same pages of atomic/three).
`AtomCall` is one call, between a pair of AFunOp operators. -/

open scoped ContDiff Topology

namespace CppAD

/-- The callbacks of an atomic function for one value of `call_id`, and their contract.
Vectors are functions of the index; the Taylor coefficient of order `k` of component `i` is at index
`i * (order_up + 1) + k`.
A callback is a function of its arguments (it does not remember previous calls). -/
structure Atom where
  /-- number of arguments -/
  n : ℕ
  /-- number of results -/
  m : ℕ
  /-- `forward(call_id, select_y, order_low, order_up, taylor_x, taylor_y)` returns the new `taylor_y`;
  core/atomic/four/forward.hpp:20-150, core/atomic/three/forward.hpp -/
  forward : (ℕ → Bool) → ℕ → ℕ → (ℕ → ℝ) → (ℕ → ℝ) → ℕ → ℝ
  /-- `reverse(call_id, select_x, order_up, taylor_x, taylor_y, partial_x, partial_y)` returns the new
  `partial_x`; core/atomic/four/reverse.hpp:20-190, core/atomic/three/reverse.hpp -/
  reverse : (ℕ → Bool) → ℕ → (ℕ → ℝ) → (ℕ → ℝ) → (ℕ → ℝ) → ℕ → ℝ
  /-- *Specification*: the mathematical function -/
  fn : (Fin n → ℝ) → ℕ → ℝ
  /-- *Specification*: the points where it is smooth and the callbacks are used for derivatives -/
  dom : Set (Fin n → ℝ)
  dom_open : IsOpen dom
  smooth : ∀ x ∈ dom, ∀ i < m, ContDiffAt ℝ ∞ (fun x => fn x i) x
  /-- function values, at every point -/
  forward_zero : ∀ sel q tx ty, ∀ i < m, sel i = true →
    forward sel 0 q tx ty (i * (q + 1)) = fn (fun j => tx (j * (q + 1))) i
  /-- When `taylor_x` contains the coefficients of a curve `X(t)` and `taylor_y` contains the coefficients of
  `fn(X(t))` of orders less than `order_low`, the coefficients of orders `order_low` to `order_up` of the
  selected results are computed. -/
  forward_ok : ∀ sel p q (X : ℝ → Fin n → ℝ) (tx ty : ℕ → ℝ), p ≤ q → (∀ j, Sm (fun t => X t j)) → X 0 ∈ dom →
    (∀ j : Fin n, ∀ k ≤ q, tx (j * (q + 1) + k) = tc (fun t => X t j) k) →
    (∀ i < m, ∀ k < p, ty (i * (q + 1) + k) = tc (fun t => fn (X t) i) k) →
    ∀ i < m, sel i = true → ∀ k, p ≤ k → k ≤ q →
      forward sel p q tx ty (i * (q + 1) + k) = tc (fun t => fn (X t) i) k
  /-- `partial_x` is the derivative of `∑ partial_y[i,l] * y_i^(l)` with respect to the coefficients `x_j^(k)`
  of the selected arguments. -/
  reverse_ok : ∀ sel q (X : ℝ → Fin n → ℝ) (tx ty py : ℕ → ℝ), (∀ j, Sm (fun t => X t j)) → X 0 ∈ dom →
    (∀ j : Fin n, ∀ k ≤ q, tx (j * (q + 1) + k) = tc (fun t => X t j) k) →
    (∀ i < m, ∀ k ≤ q, ty (i * (q + 1) + k) = tc (fun t => fn (X t) i) k) →
    ∀ j : Fin n, sel j = true → ∀ k ≤ q,
      HasDerivAt (fun h => ∑ i ∈ Finset.range m, ∑ l ∈ Finset.range (q + 1),
          py (i * (q + 1) + l) * tc (fun t => fn (Function.update (X t) j (X t j + h * t ^ k)) i) l)
        (reverse sel q tx ty py (j * (q + 1) + k)) 0
  /-- `jac_sparsity(call_id, dependency, ident_zero_x, select_x, select_y, pattern_out)`;
  core/atomic/four/jac_sparsity.hpp:10-130.  The first argument is `ident_zero_x`. -/
  jac : (ℕ → Bool) → Bool → (ℕ → Bool) → (ℕ → Bool) → List (ℕ × ℕ)
  /-- the pattern is in the selected range; this is checked by four/devel/jac_sparsity.hpp:121-125 -/
  jac_sel : ∀ id dep sx sy, ∀ e ∈ jac id dep sx sy, (e.1 < m ∧ sy e.1 = true) ∧ e.2 < n ∧ sx e.2 = true
  /-- selected pairs that are not in the pattern have zero derivative (at the points where the arguments in
  `ident_zero_x` are zero) -/
  jac_zero : ∀ id sx sy, ∀ i < m, sy i = true → ∀ j : Fin n, sx j = true → id j = false → (i, (j : ℕ)) ∉ jac id false sx sy →
    ∀ x ∈ dom, (∀ k : Fin n, id k = true → x k = 0) → fderiv ℝ (fun x => fn x i) x (Pi.single j 1) = 0
  /-- selected pairs that are not in the dependency pattern: the result does not depend on the argument -/
  jac_dep : ∀ id sx sy, ∀ i < m, sy i = true → ∀ j : Fin n, sx j = true → id j = false → (i, (j : ℕ)) ∉ jac id true sx sy →
    ∀ (x : Fin n → ℝ) (c : ℝ), (∀ k : Fin n, id k = true → x k = 0) → fn (Function.update x j c) i = fn x i
  /-- `hes_sparsity(call_id, ident_zero_x, select_x, select_y, pattern_out)`;
  core/atomic/four/hes_sparsity.hpp:10-120 -/
  hes : (ℕ → Bool) → (ℕ → Bool) → (ℕ → Bool) → List (ℕ × ℕ)
  hes_sel : ∀ id sx sy, ∀ e ∈ hes id sx sy, (e.1 < n ∧ sx e.1 = true) ∧ e.2 < n ∧ sx e.2 = true
  /-- selected pairs that are not in the pattern (in one or the other order) have zero second derivative, for all the
  selected results -/
  hes_zero : ∀ id sx sy, ∀ i < m, sy i = true → ∀ j k : Fin n, sx j = true → sx k = true → id j = false → id k = false →
    ((j : ℕ), (k : ℕ)) ∉ hes id sx sy → ((k : ℕ), (j : ℕ)) ∉ hes id sx sy →
    ∀ x ∈ dom, (∀ l : Fin n, id l = true → x l = 0) →
      fderiv ℝ (fun x => fderiv ℝ (fun x => fn x i) x (Pi.single k 1)) x (Pi.single j 1) = 0

/-- One call of an atomic function: the operators between two AFunOp, op_code_var.hpp:195,214-217, var_op/atomic_op.hpp:120-215.
`x j` is the operand of the `j`-th FunapOp (`par`) or FunavOp (`var`), `y i = some c` for FunrpOp with
parameter value `c`, `y i = none` for FunrvOp. -/
structure AtomCall where
  A : Atom
  x : ℕ → Opd
  y : ℕ → Option ℝ
  /-- recording puts a call on the tape only if some result is a variable; core/atomic/four/call.hpp:192-235 -/
  some_var : ∃ i < A.m, y i = none
  /-- results that are recorded as parameters do not depend on the variables and have the recorded value -/
  par_res : ∀ (e : ℕ → ℝ), ∀ i < A.m, ∀ c, y i = some c →
    A.fn (fun j => match x j with | .par c => c | .var v => e v) i = c
  /-- `ident_zero_x`: arguments that are constants and identically zero; local/sweep/call_atomic.hpp:432-443 -/
  ident : ℕ → Bool
  ident_ok : ∀ j, ident j = true → x j = .par 0

namespace AtomCall

variable (c : AtomCall)

/-- `variable_y` (also `select_y`); var_op/atomic_op.hpp:328-350 -/
def selY (i : ℕ) : Bool := (c.y i).isNone

/-- `variable_x` (also `select_x`); var_op/atomic_op.hpp:851-868 -/
def selX (j : ℕ) : Bool :=
  match c.x j with
  | .par _ => false
  | .var _ => true

/-- **C43** the callbacks are told exactly which arguments of the call are variables -/
theorem selX_iff (j : ℕ) : c.selX j = true ↔ ∃ v, c.x j = .var v := by
  unfold selX
  split
  · rename_i a h; simp [h]
  · rename_i v h; simp [h]

/-- **C43** the callbacks are told exactly which results of the call are variables -/
theorem selY_iff (i : ℕ) : c.selY i = true ↔ c.y i = none := by
  simp [selY]

/-- number of FunrvOp before result `i` -/
def pos (i : ℕ) : ℕ := ((List.range i).filter c.selY).length

/-- number of variables that result from the call (one for each FunrvOp) -/
def nres : ℕ := c.pos c.A.m

/-- indices of the results that are variables -/
def out : List ℕ := (List.range c.A.m).filter c.selY

/-- the arguments that are variables -/
def args : List ℕ := (List.range c.A.n).flatMap fun j => match c.x j with
  | .par _ => []
  | .var v => [v]

/-- `index_y[i]` when the first result of the call has index `nv` -/
def idx (nv i : ℕ) : ℕ := nv + c.pos i

end AtomCall

/-- assignment `v[i] = x` -/
def vset (v : ℕ → ℝ) (i : ℕ) (x : ℝ) : ℕ → ℝ := fun i' => if i' = i then x else v i'

/-- `taylor_x` for argument `j` when `o` is the operand and `tay a k` is the coefficient of order `k` of variable
`a`; var_op/atomic_op.hpp:286-310, 582-593, 849-877 -/
def atomSetX (no : ℕ) (tay : ℕ → ℕ → ℝ) (j : ℕ) (o : Opd) (tx : ℕ → ℝ) : ℕ → ℝ :=
  match o with
  | .par c => forRange 1 no (vset tx (j * no + 0) c) fun k tx => vset tx (j * no + k) 0
  | .var a => forRange 0 no tx fun k tx => vset tx (j * no + k) (tay a k)

/-- `taylor_y` of orders less than `p` for result `i`; var_op/atomic_op.hpp:326-353, 597-609 -/
def atomSetY (no p : ℕ) (tay : ℕ → ℕ → ℝ) (i iy : ℕ) (o : Option ℝ) (ty : ℕ → ℝ) : ℕ → ℝ :=
  match o with
  | some c =>
    let ty := if 0 < p then vset ty (i * no + 0) c else ty
    forRange 1 p ty fun k ty => vset ty (i * no + k) 0
  | none => forRange 0 p ty fun k ty => vset ty (i * no + k) (tay iy k)

/-- var_op/atomic_op.hpp:216-397 atomic_forward_any.  The first result of the call is variable `iz + 1 - nres`
(`iz` is the index of the last one).  The work vectors `taylor_x`, `taylor_y` are zero before they are set. -/
def atomForward (c : AtomCall) (p q iz : ℕ) (s : Tay) : Tay :=
  let nv := iz + 1 - c.nres
  let no := q + 1
  let tx := forRange 0 c.A.n (fun _ => 0) fun j tx => atomSetX no s j (c.x j) tx
  let ty := forRange 0 c.A.m (fun _ => 0) fun i ty => atomSetY no p s i (c.idx nv i) (c.y i) ty
  let ty := c.A.forward c.selY p q tx ty
  forRange 0 c.A.m s fun i s =>
    if c.selY i then forRange p no s fun k s => s.set (c.idx nv i) k (ty (i * no + k)) else s

/-- `taylor_index`; var_op/atomic_op.hpp:446-455 (without the offset of the variable) -/
def taylorIndex (r ell k : ℕ) : ℕ := if 0 < k then (k - 1) * r + 1 + ell else 0

/-- var_op/atomic_op.hpp:427-651 atomic_forward_dir -/
def atomDir (c : AtomCall) (q r iz : ℕ) (s : Tay) : Tay :=
  let nv := iz + 1 - c.nres
  let no := q + 1
  forRange 0 r s fun ell s =>
    let tx := forRange 0 c.A.n (fun _ => 0) fun j tx =>
      atomSetX no (fun v k => s v (taylorIndex r ell k)) j (c.x j) tx
    let ty := forRange 0 c.A.m (fun _ => 0) fun i ty =>
      atomSetY no q (fun v k => s v (taylorIndex r ell k)) i (c.idx nv i) (c.y i) ty
    let ty := c.A.forward c.selY q q tx ty
    forRange 0 c.A.m s fun i s =>
      if c.selY i then forRange q no s fun k s => s.set (c.idx nv i) (taylorIndex r ell k) (ty (i * no + k)) else s

/-- `taylor_y` (`t = taylor`) and `partial_y` (`t = partial`) in reverse mode for result `i`, `o` is the parameter
value (zero for `partial_y`); var_op/atomic_op.hpp:792-812 -/
def atomRevY (no : ℕ) (t : ℕ → ℕ → ℝ) (i iy : ℕ) (o : Option ℝ) (ty : ℕ → ℝ) : ℕ → ℝ :=
  match o with
  | some c => forRange 1 no (vset ty (i * no + 0) c) fun k ty => vset ty (i * no + k) 0
  | none => forRange 0 no ty fun k ty => vset ty (i * no + k) (t iy k)

/-- var_op/atomic_op.hpp:717-910 atomic_reverse, `n_order = d + 1` -/
def atomReverse (c : AtomCall) (d iz : ℕ) (s P : Tay) : Tay :=
  let nv := iz + 1 - c.nres
  let no := d + 1
  let ty := forDown0 c.A.m (fun _ => 0) fun i ty => atomRevY no s i (c.idx nv i) (c.y i) ty
  let py := forDown0 c.A.m (fun _ => 0) fun i py => atomRevY no P i (c.idx nv i) ((c.y i).map fun _ => 0) py
  let tx := forDown0 c.A.n (fun _ => 0) fun j tx => atomSetX no s j (c.x j) tx
  let px := c.A.reverse c.selX d tx ty py
  forRange 0 c.A.n P fun j P =>
    match c.x j with
    | .par _ => P
    | .var a => forRange 0 no P fun k P => P.add a k (px (j * no + k))

end CppAD
