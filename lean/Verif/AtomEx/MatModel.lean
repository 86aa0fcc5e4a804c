import Verif.AtomEx.VecSparse

/-!
# Model of the atomic matrix product, include/cppad/example/atomic_four/mat_mul

`C = A * B` where `A` is `nl × nm` and `B` is `nm × nr`, both in row major order in `x = (A, B)`.
The object looks up `(nl, nm, nr)` for the `call_id` of the call, mat_mul/get.hpp; here they are parameters.
The versions with `AD<Base>` coefficients are not modelled.
-/

namespace CppAD.AtomEx

/-- number of arguments -/
def matN (nl nm nr : ℕ) : ℕ := nm * (nl + nr)

/-- The mathematical function: *specification*.  Result `r` is element `(r / nr, r % nr)` of the product. -/
noncomputable def matFn (nl nm nr : ℕ) (x : Fin (matN nl nm nr) → ℝ) (r : ℕ) : ℝ :=
  ∑ c ∈ Finset.range nm, ev x (r / nr * nm + c) * ev x (nl * nm + c * nr + r % nr)

/-- `base_mat_mul`; mat_mul/base_mat_mul.hpp:28-65 -/
noncomputable def baseMatMul (nl nm nr : ℕ) (x y : ℕ → ℝ) : ℕ → ℝ :=
  forRange 0 nl y fun i y => forRange 0 nr y fun j y =>
    vset y (i * nr + j) (forRange 0 nm 0 fun k s => s + x (i * nm + k) * x (nl * nm + k * nr + j))

/-- `x = [ A^ell, B^{k-ell} ]`; mat_mul/forward.hpp:72-76.  The elements of the local vectors before the assignments are
zero here (they are not used). -/
noncomputable def matX (nl nm nr q k ell : ℕ) (tx : ℕ → ℝ) : ℕ → ℝ :=
  let x := forRange 0 (nl * nm) (fun _ => (0 : ℝ)) fun i x => vset x i (tx (i * q + ell))
  forRange 0 (nm * nr) x fun i x => vset x (nl * nm + i) (tx ((nl * nm + i) * q + (k - ell)))

/-- `forward`; mat_mul/forward.hpp:34-90 -/
noncomputable def matForward (nl nm nr : ℕ) (_sel : ℕ → Bool) (p up : ℕ) (tx ty : ℕ → ℝ) : ℕ → ℝ :=
  forRange p (up + 1) ty fun k ty =>
    let sum := forRange 0 (k + 1) (fun _ => (0 : ℝ)) fun ell sum =>
      let y := baseMatMul nl nm nr (matX nl nm nr (up + 1) k ell tx) fun _ => 0
      forRange 0 (nl * nr) sum fun i sum => vset sum i (sum i + y i)
    forRange 0 (nl * nr) ty fun i ty => vset ty (i * (up + 1) + k) (sum i)

/-- `u = [ bar C^k, (B^{k-ell})^T ]`; mat_mul/reverse.hpp:89-102.  The index `(x_offset + ij) * q + (k - ell)` is computed
with unsigned integers; it is the natural number `(x_offset + ij) * q + k - ell` also when `ell > k` (and `x_offset > 0`). -/
noncomputable def matU1 (nl nm nr q k ell : ℕ) (tx py : ℕ → ℝ) : ℕ → ℝ :=
  let u := forRange 0 (nl * nr) (fun _ => (0 : ℝ)) fun i u => vset u i (py (i * q + k))
  forRange 0 nm u fun i u => forRange 0 nr u fun j u =>
    vset u (nl * nr + (j * nm + i)) (tx ((nl * nm + (i * nr + j)) * q + k - ell))

/-- `u = [ (A^ell)^T, bar C^k ]`; mat_mul/reverse.hpp:113-125 -/
noncomputable def matU2 (nl nm nr q k ell : ℕ) (tx py : ℕ → ℝ) : ℕ → ℝ :=
  let u := forRange 0 nl (fun _ => (0 : ℝ)) fun i u => forRange 0 nm u fun j u =>
    vset u (j * nl + i) (tx ((i * nm + j) * q + ell))
  forRange 0 (nl * nr) u fun i u => vset u (nm * nl + i) (py (i * q + k))

/-- body of the loop over `ell`; mat_mul/reverse.hpp:87-135 -/
noncomputable def matRevBody (nl nm nr q : ℕ) (tx py : ℕ → ℝ) (k ell : ℕ) (px : ℕ → ℝ) : ℕ → ℝ :=
  let v := baseMatMul nl nr nm (matU1 nl nm nr q k ell tx py) fun _ => 0
  let px := forRange 0 (nl * nm) px fun i px => vset px (i * q + ell) (px (i * q + ell) + v i)
  let v := baseMatMul nm nl nr (matU2 nl nm nr q k ell tx py) fun _ => 0
  forRange 0 (nm * nr) px fun i px =>
    vset px ((nl * nm + i) * q + k - ell) (px ((nl * nm + i) * q + k - ell) + v i)

/-- `reverse`, when the loop over `ell` has `hi k` steps; mat_mul/reverse.hpp:38-138 -/
noncomputable def matReverseTo (hi : ℕ → ℕ) (px0 : ℕ → ℝ) (nl nm nr up : ℕ) (tx py : ℕ → ℝ) : ℕ → ℝ :=
  let px := forRange 0 (matN nl nm nr * (up + 1)) px0 fun i px => vset px i 0
  forDown0 (up + 1) px fun k px => forRange 0 (hi k) px (matRevBody nl nm nr (up + 1) tx py k)

/-- `reverse`; mat_mul/reverse.hpp:38-138.  The loop is `for(size_t ell = 0; ell < q; ++ell)`, line 87, although the comment at
line 84 is `for ell = 0, ..., k`.  The elements of `partial_x` before the call are `px0`. -/
noncomputable def matReverse (px0 : ℕ → ℝ) (nl nm nr : ℕ) (_sel : ℕ → Bool) (up : ℕ) (tx _ty py : ℕ → ℝ) : ℕ → ℝ :=
  matReverseTo (fun _ => up + 1) px0 nl nm nr up tx py

/-- `jac_sparsity`; mat_mul/jac_sparsity.hpp:39-80.  Line 73 reads `ident_zero_x[ij]`. -/
def matJac (nl nm nr : ℕ) (id : ℕ → Bool) (_dep : Bool) (sx sy : ℕ → Bool) : List (ℕ × ℕ) :=
  forRange 0 nl [] fun i l => forRange 0 nr l fun j l =>
    let ij := i * nr + j
    if sy ij then forRange 0 nm l fun k l =>
      let ik := i * nm + k
      let kj := nl * nm + k * nr + j
      let l := if sx ik && !id kj then l ++ [(ij, ik)] else l
      if sx kj && !id ij then l ++ [(ij, kj)] else l
    else l

/-- `hes_sparsity`; mat_mul/hes_sparsity.hpp:39-86 -/
def matHes (nl nm nr : ℕ) (_id sx sy : ℕ → Bool) : List (ℕ × ℕ) :=
  forRange 0 nl [] fun i l => forRange 0 nr l fun j l =>
    let ij := i * nr + j
    if sy ij then forRange 0 nm l fun k l =>
      let ik := i * nm + k
      let kj := nl * nm + k * nr + j
      if sx ik && sx kj then l ++ [(ik, kj), (kj, ik)] else l
    else l

/-- `rev_depend`; mat_mul/rev_depend.hpp:33-75 -/
def matRevDepend (nl nm nr : ℕ) (dy : ℕ → Bool) : ℕ → Bool :=
  forRange 0 nl (fun _ => false) fun i dx => forRange 0 nr dx fun j dx =>
    if dy (i * nr + j) then forRange 0 nm dx fun k dx =>
      Function.update (Function.update dx (i * nm + k) true) (nl * nm + k * nr + j) true
    else dx

/-- `for_type`; mat_mul/for_type.hpp:34-78.  `type_y` is `ty` on entry. -/
def matForType (nl nm nr : ℕ) (ty tx : ℕ → AdT) : ℕ → AdT :=
  forRange 0 nl ty fun i ty => forRange 0 nr ty fun j ty =>
    Function.update ty (i * nr + j) (forRange 0 nm AdT.identicalZero fun k t =>
      if tx (i * nm + k) ≠ .identicalZero then
        (if tx (nl * nm + k * nr + j) ≠ .identicalZero then
          (t.max (tx (i * nm + k))).max (tx (nl * nm + k * nr + j)) else t)
      else t)

end CppAD.AtomEx
