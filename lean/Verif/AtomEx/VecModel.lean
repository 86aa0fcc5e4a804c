import Verif.AtomEx.Base

/-!
# Model of the atomic vector operations, include/cppad/example/atomic_four/vector

`y_i = u_i op v_i` for `i < m`, with `x = (u, v)`; `y_i = - u_i` for the unary operator, with `x = u`.
Vectors are functions of the index, the coefficient of order `k` of component `i` is at index `i * q + k` where
`q = order_up + 1` is the number of orders.  The versions with `AD<Base>` coefficients are not modelled.
-/

namespace CppAD.AtomEx

/-- `op_enum_t`; vector/vector.hpp:67-77 -/
inductive VOpE
  | add | div | mul | neg | sub
  deriving DecidableEq

/-- `is_unary`; vector/vector.hpp:88-104 -/
def VOpE.isUnary : VOpE → Bool
  | .neg => true
  | _ => false

/-- number of arguments for `m` results -/
def VOpE.n (op : VOpE) (m : ℕ) : ℕ := if op.isUnary then m else 2 * m

/-- `forward_add`; vector/add_op.hpp:44-61 -/
def forwardAdd (m p q : ℕ) (tx ty : ℕ → ℝ) : ℕ → ℝ :=
  forRange p q ty fun k ty => forRange 0 m ty fun i ty => vset ty (i * q + k) (tx (i * q + k) + tx ((m + i) * q + k))

/-- `forward_sub`; vector/sub_op.hpp:43-60 -/
noncomputable def forwardSub (m p q : ℕ) (tx ty : ℕ → ℝ) : ℕ → ℝ :=
  forRange p q ty fun k ty => forRange 0 m ty fun i ty => vset ty (i * q + k) (tx (i * q + k) - tx ((m + i) * q + k))

/-- `forward_neg`; vector/neg_op.hpp:32-48 -/
noncomputable def forwardNeg (m p q : ℕ) (tx ty : ℕ → ℝ) : ℕ → ℝ :=
  forRange p q ty fun k ty => forRange 0 m ty fun i ty => vset ty (i * q + k) (- tx (i * q + k))

/-- `forward_mul`; vector/mul_op.hpp:43-64 -/
noncomputable def forwardMul (m p q : ℕ) (tx ty : ℕ → ℝ) : ℕ → ℝ :=
  forRange 0 m ty fun i ty => forRange p q ty fun k ty =>
    forRange 0 (k + 1) (vset ty (i * q + k) 0) fun d ty =>
      vset ty (i * q + k) (ty (i * q + k) + tx (i * q + (k - d)) * tx ((m + i) * q + d))

/-- `forward_div`; vector/div_op.hpp:43-68 -/
noncomputable def forwardDiv (m p q : ℕ) (tx ty : ℕ → ℝ) : ℕ → ℝ :=
  forRange 0 m ty fun i ty => forRange p q ty fun k ty =>
    let ty := forRange 1 (k + 1) (vset ty (i * q + k) (tx (i * q + k))) fun d ty =>
      vset ty (i * q + k) (ty (i * q + k) - ty (i * q + (k - d)) * tx ((i + m) * q + d))
    vset ty (i * q + k) (ty (i * q + k) / tx ((i + m) * q + 0))

/-- `forward`; vector/forward_op.hpp:39-100.  The selection of results is not used. -/
noncomputable def vecForward (op : VOpE) (m : ℕ) (_sel : ℕ → Bool) (p up : ℕ) (tx ty : ℕ → ℝ) : ℕ → ℝ :=
  match op with
  | .add => forwardAdd m p (up + 1) tx ty
  | .sub => forwardSub m p (up + 1) tx ty
  | .mul => forwardMul m p (up + 1) tx ty
  | .div => forwardDiv m p (up + 1) tx ty
  | .neg => forwardNeg m p (up + 1) tx ty

/-- `reverse_add`; vector/add_op.hpp:100-119 -/
def reverseAdd (m q : ℕ) (px py : ℕ → ℝ) : ℕ → ℝ :=
  forRange 0 q px fun k px => forRange 0 m px fun i px =>
    vset (vset px (i * q + k) (py (i * q + k))) ((m + i) * q + k) (py (i * q + k))

/-- `reverse_sub`; vector/sub_op.hpp:98-117 -/
noncomputable def reverseSub (m q : ℕ) (px py : ℕ → ℝ) : ℕ → ℝ :=
  forRange 0 q px fun k px => forRange 0 m px fun i px =>
    vset (vset px (i * q + k) (py (i * q + k))) ((m + i) * q + k) (- py (i * q + k))

/-- `reverse_neg`; vector/neg_op.hpp:81-98 -/
noncomputable def reverseNeg (m q : ℕ) (px py : ℕ → ℝ) : ℕ → ℝ :=
  forRange 0 q px fun k px => forRange 0 m px fun i px => vset px (i * q + k) (- py (i * q + k))

/-- `reverse_mul`; vector/mul_op.hpp:125-167 -/
noncomputable def reverseMul (m q : ℕ) (tx px py : ℕ → ℝ) : ℕ → ℝ :=
  let px := forRange 0 (2 * m) px fun j px => forRange 0 q px fun k px => vset px (j * q + k) 0
  forRange 0 m px fun i px => forDown0 q px fun k px =>
    forRange 0 (k + 1) px fun d px =>
      let px := vset px (i * q + (k - d)) (px (i * q + (k - d)) + azmul (py (i * q + k)) (tx ((m + i) * q + d)))
      vset px ((m + i) * q + d) (px ((m + i) * q + d) + azmul (py (i * q + k)) (tx (i * q + (k - d))))

/-- the body of the loop over orders in `reverse_div`; vector/div_op.hpp:168-187.  The state is `(px, py_copy)`. -/
noncomputable def divBody (m q : ℕ) (tx ty : ℕ → ℝ) (i k : ℕ) (s : (ℕ → ℝ) × (ℕ → ℝ)) : (ℕ → ℝ) × (ℕ → ℝ) :=
  let scaled := s.2 (i * q + k) / tx ((i + m) * q + 0)
  let s := forRange 1 (k + 1) s fun d (s : (ℕ → ℝ) × (ℕ → ℝ)) =>
    (vset s.1 ((i + m) * q + d) (s.1 ((i + m) * q + d) - scaled * ty (i * q + (k - d))),
     vset s.2 (i * q + (k - d)) (s.2 (i * q + (k - d)) - scaled * tx ((i + m) * q + d)))
  let px := vset s.1 (i * q + k) scaled
  (vset px ((i + m) * q + 0) (px ((i + m) * q + 0) - scaled * ty (i * q + k)), s.2)

/-- `reverse_div`; vector/div_op.hpp:135-189 -/
noncomputable def reverseDiv (m q : ℕ) (tx ty px py : ℕ → ℝ) : ℕ → ℝ :=
  let px := forRange 0 m px fun i px => forRange 0 q px fun k px => vset px ((i + m) * q + k) 0
  (forRange 0 m (px, py) fun i s => forDown0 q s (divBody m q tx ty i)).1

/-- `reverse`; vector/reverse_op.hpp:39-100.  The elements of `partial_x` before the call are `px0` (they are not used, see the
theorems). -/
noncomputable def vecReverse (px0 : ℕ → ℝ) (op : VOpE) (m : ℕ) (_sel : ℕ → Bool) (up : ℕ) (tx ty py : ℕ → ℝ) : ℕ → ℝ :=
  match op with
  | .add => reverseAdd m (up + 1) px0 py
  | .sub => reverseSub m (up + 1) px0 py
  | .mul => reverseMul m (up + 1) tx px0 py
  | .div => reverseDiv m (up + 1) tx ty px0 py
  | .neg => reverseNeg m (up + 1) px0 py

/-- `jac_sparsity`; vector/jac_sparsity.hpp:39-84.  The number of elements is first counted, `set(k++, ...)` is an append. -/
def vecJac (op : VOpE) (m : ℕ) (_ident : ℕ → Bool) (_dep : Bool) (sx sy : ℕ → Bool) : List (ℕ × ℕ) :=
  forRange 0 m [] fun i l =>
    if sy i then
      let l := if sx i then l ++ [(i, i)] else l
      if op.n m ≠ m then (if sx (m + i) then l ++ [(i, m + i)] else l) else l
    else l

/-- `hes_sparsity`; vector/hes_sparsity.hpp:39-102 -/
def vecHes (op : VOpE) (m : ℕ) (_ident sx sy : ℕ → Bool) : List (ℕ × ℕ) :=
  match op with
  | .add | .sub | .neg => []
  | op => forRange 0 m [] fun i l =>
    if sy i then
      let l := if sx i && decide (op ≠ .mul) then l ++ [(i, i)] else l
      if op.n m ≠ m then (if sx (m + i) then l ++ [(i, m + i), (m + i, i)] else l) else l
    else l

/-- `rev_depend`; vector/rev_depend.hpp:39-64.  `depend_x` is false on entry. -/
def vecRevDepend (op : VOpE) (m : ℕ) (dy : ℕ → Bool) : ℕ → Bool :=
  if op.n m = m then
    forRange 0 m (fun _ => false) fun i dx => Function.update dx i (dy i)
  else
    forRange 0 m (fun _ => false) fun i dx => Function.update (Function.update dx i (dy i)) (m + i) (dy i)

/-- The mathematical function: *specification* -/
noncomputable def VOpE.fn (op : VOpE) (m : ℕ) (x : Fin (op.n m) → ℝ) (i : ℕ) : ℝ :=
  match op with
  | .add => ev x i + ev x (m + i)
  | .sub => ev x i - ev x (m + i)
  | .mul => ev x i * ev x (m + i)
  | .div => ev x i / ev x (m + i)
  | .neg => - ev x i

/-- Points where the function is smooth: *specification* -/
def VOpE.dom (op : VOpE) (m : ℕ) : Set (Fin (op.n m) → ℝ) :=
  match op with
  | .div => {x | ∀ i < m, ev x (m + i) ≠ 0}
  | _ => Set.univ

end CppAD.AtomEx
