import Verif.Taylor.Tape

/-! # The reverse operators over an arbitrary `Base`

`ADFun<Base>` is a template.  Here the reverse mode operators (the same loops as in the files `Model*.lean`) are written
over an arbitrary type with the operations that reverse mode uses, so that a value such as the floating point nan can be
present.  Only the laws in `RevLaws` are assumed: nothing is assumed about a product with a factor that is not one of the
integer constants, a sign or zero.  `GOp.rev_real` shows that over the real numbers they are the operators of `Op.rev`.
Simplification: a statement `a -= b` is `a += -b`; atomic function calls are not here. -/

open scoped Classical

namespace CppAD.Gen

/-- the operations of `Base` used by reverse mode, cppad/base_require.hpp and core/base_double.hpp:
`+ - * /`, conversion from an integer, `sign`, the comparisons and the constant `2 / sqrt(pi)` of erf_op.hpp:544-547 -/
class RevBase (B : Type) extends Zero B, One B, Add B, Sub B, Neg B, Mul B, Div B, NatCast B, OfNat B 2 where
  sgn : B → B
  holds : CompareOp → B → B → Prop
  erfCon : B

export RevBase (sgn holds erfCon)

/-- the laws of `Base` that are used: all but the first are about the result of an operation on zero;
they hold for floating point numbers (with the two zeros identified) whatever `a` is -/
class RevLaws (B : Type) [RevBase B] : Prop where
  add_zero : ∀ a : B, a + 0 = a
  neg_zero : -(0 : B) = 0
  cast_mul_zero : ∀ k : ℕ, (k : B) * 0 = 0
  zero_mul_cast : ∀ k : ℕ, 0 * (k : B) = 0
  zero_div_cast : ∀ k : ℕ, k ≠ 0 → 0 / (k : B) = 0
  zero_div_two : (0 : B) / 2 = 0
  zero_mul_two : (0 : B) * 2 = 0
  two_mul_zero : (2 : B) * 0 = 0
  one_mul_zero : (1 : B) * 0 = 0
  neg_one_mul_zero : (-1 : B) * 0 = 0
  sgn_mul_zero : ∀ a : B, sgn a * 0 = 0

variable {B : Type} [RevBase B]

/-- two dimensional array of `Base` -/
abbrev GTay (B : Type) := ℕ → ℕ → B

/-- assignment `a[i][k] = v` -/
def GTay.set (s : GTay B) (i k : ℕ) (v : B) : GTay B := fun i' k' => if i' = i ∧ k' = k then v else s i' k'

/-- `a[i][k] += v` -/
def GTay.add (s : GTay B) (i k : ℕ) (v : B) : GTay B := GTay.set s i k (s i k + v)

/-- absolute zero multiplication, cppad/core/azmul.hpp and base_require: `if( x == 0 ) return 0; return x * y` -/
noncomputable def azmul (x y : B) : B := if x = 0 then 0 else x * y

/-- `skip` test at the start of some reverse functions, exp_op.hpp:137-141 -/
def allZero (d iz : ℕ) (P : GTay B) : Prop := ∀ k ≤ d, P iz k = 0

/-- an operand that is either a parameter or a variable (bits of `arg[1]` in cexp_op.hpp:14-30) -/
inductive GOpd (B : Type) | par (c : B) | var (v : ℕ)

/-- value of an operand: cexp_op.hpp:690-705 -/
def GOpd.at0 (s : GTay B) : GOpd B → B
  | .par c => c
  | .var v => s v 0

/-- cppad/core/cond_exp.hpp CondExpTemplate -/
noncomputable def condExp (cop : CompareOp) (left right t f : B) : B := if holds cop left right then t else f

/-- add_op.hpp:100-131 -/
noncomputable def addvvReverse (ix iy d iz : ℕ) (_s P : GTay B) : GTay B :=
  forDown0 (d + 1) P fun i P =>
    let P := GTay.add P ix i (P iz i)
    GTay.add P iy i (P iz i)

/-- add_op.hpp:227-255 -/
noncomputable def addpvReverse (_x : B) (iy d iz : ℕ) (_s P : GTay B) : GTay B :=
  forDown0 (d + 1) P fun i P => GTay.add P iy i (P iz i)

/-- sub_op.hpp:98-127 -/
noncomputable def subvvReverse (ix iy d iz : ℕ) (_s P : GTay B) : GTay B :=
  forDown0 (d + 1) P fun i P =>
    let P := GTay.add P ix i (P iz i)
    GTay.add P iy i (-(P iz i))

/-- sub_op.hpp:223-250 -/
noncomputable def subpvReverse (_x : B) (iy d iz : ℕ) (_s P : GTay B) : GTay B :=
  forDown0 (d + 1) P fun i P => GTay.add P iy i (-(P iz i))

/-- sub_op.hpp:347-374 -/
noncomputable def subvpReverse (ix : ℕ) (_y : B) (d iz : ℕ) (_s P : GTay B) : GTay B :=
  forDown0 (d + 1) P fun i P => GTay.add P ix i (P iz i)

/-- mul_op.hpp:106-146 -/
noncomputable def mulvvReverse (ix iy d iz : ℕ) (s P : GTay B) : GTay B :=
  forDown0 (d + 1) P fun j P =>
    forRange 0 (j + 1) P fun k P =>
      let P := GTay.add P ix (j - k) (azmul (P iz j) (s iy k))
      GTay.add P iy k (azmul (P iz j) (s ix (j - k)))

/-- mul_op.hpp:240-272 -/
noncomputable def mulpvReverse (x : B) (iy d iz : ℕ) (_s P : GTay B) : GTay B :=
  forDown0 (d + 1) P fun j P => GTay.add P iy j (azmul (P iz j) x)

/-- div_op.hpp:114-159 -/
noncomputable def divvvReverse (ix iy d iz : ℕ) (s P : GTay B) : GTay B :=
  let inv_y0 := 1 / s iy 0
  forDown0 (d + 1) P fun j P =>
    let P := GTay.set P iz j (azmul (P iz j) inv_y0)
    let P := GTay.add P ix j (P iz j)
    let P := forRange 1 (j + 1) P fun k P =>
      let P := GTay.add P iz (j - k) (-(azmul (P iz j) (s iy k)))
      GTay.add P iy k (-(azmul (P iz j) (s iz (j - k))))
    GTay.add P iy 0 (-(azmul (P iz j) (s iz j)))

/-- div_op.hpp:269-312 -/
noncomputable def divpvReverse (_x : B) (iy d iz : ℕ) (s P : GTay B) : GTay B :=
  let inv_y0 := 1 / s iy 0
  forDown0 (d + 1) P fun j P =>
    let P := GTay.set P iz j (azmul (P iz j) inv_y0)
    let P := forRange 1 (j + 1) P fun k P =>
      let P := GTay.add P iz (j - k) (-(azmul (P iz j) (s iy k)))
      GTay.add P iy k (-(azmul (P iz j) (s iz (j - k))))
    GTay.add P iy 0 (-(azmul (P iz j) (s iz j)))

/-- div_op.hpp:414-448 -/
noncomputable def divvpReverse (ix : ℕ) (y : B) (d iz : ℕ) (_s P : GTay B) : GTay B :=
  let inv_y := 1 / y
  forDown0 (d + 1) P fun j P => GTay.add P ix j (azmul (P iz j) inv_y)

/-- zmul_op.hpp:106-143 -/
noncomputable def zmulvvReverse (ix iy d iz : ℕ) (s P : GTay B) : GTay B :=
  forDown0 (d + 1) P fun j P =>
    forRange 0 (j + 1) P fun k P =>
      let P := GTay.add P ix (j - k) (azmul (P iz j) (s iy k))
      GTay.add P iy k (azmul (P iz j) (s ix (j - k)))

/-- zmul_op.hpp:237-267 -/
noncomputable def zmulpvReverse (x : B) (iy d iz : ℕ) (_s P : GTay B) : GTay B :=
  forDown0 (d + 1) P fun j P => GTay.add P iy j (azmul (P iz j) x)

/-- zmul_op.hpp:361-391 -/
noncomputable def zmulvpReverse (ix : ℕ) (y : B) (d iz : ℕ) (_s P : GTay B) : GTay B :=
  forDown0 (d + 1) P fun j P => GTay.add P ix j (azmul (P iz j) y)

/-- neg_op.hpp:99-128 -/
noncomputable def negReverse (ix d iz : ℕ) (_s P : GTay B) : GTay B :=
  let neg_one : B := -1
  forRange 0 (d + 1) P fun k P => GTay.add P ix k (azmul (P iz k) neg_one)

/-- body after the test: exp_op.hpp:115-164 -/
noncomputable def expBody (ix d iz : ℕ) (s P : GTay B) : GTay B :=
  let P := forDown d P fun j P =>
    let P := GTay.set P iz j (P iz j / (j : B))
    forRange 1 (j + 1) P fun k P =>
      let P := GTay.add P ix k ((k : B) * azmul (P iz j) (s iz (j - k)))
      GTay.add P iz (j - k) ((k : B) * azmul (P iz j) (s ix k))
  GTay.add P ix 0 (azmul (P iz 0) (s iz 0))

/-- exp_op.hpp:115-164 -/
noncomputable def expReverse (ix d iz : ℕ) (s P : GTay B) : GTay B :=
  if allZero d iz P then P else expBody ix d iz s P

/-- body after the test: expm1_op.hpp:114-165 -/
noncomputable def expm1Body (ix d iz : ℕ) (s P : GTay B) : GTay B :=
  let P := forDown d P fun j P =>
    let P := GTay.add P ix j (P iz j)
    let P := GTay.set P iz j (P iz j / (j : B))
    forRange 1 (j + 1) P fun k P =>
      let P := GTay.add P ix k ((k : B) * azmul (P iz j) (s iz (j - k)))
      GTay.add P iz (j - k) ((k : B) * azmul (P iz j) (s ix k))
  GTay.add P ix 0 (P iz 0 + azmul (P iz 0) (s iz 0))

/-- expm1_op.hpp:114-165 -/
noncomputable def expm1Reverse (ix d iz : ℕ) (s P : GTay B) : GTay B :=
  if allZero d iz P then P else expm1Body ix d iz s P

/-- log_op.hpp:124-173 -/
noncomputable def logReverse (ix d iz : ℕ) (s P : GTay B) : GTay B :=
  let inv_x0 := 1 / s ix 0
  let P := forDown d P fun j P =>
    let P := GTay.set P iz j (azmul (P iz j) inv_x0)
    let P := GTay.add P ix 0 (-(azmul (P iz j) (s iz j)))
    let P := GTay.add P ix j (P iz j)
    let P := GTay.set P iz j (P iz j / (j : B))
    forRange 1 j P fun k P =>
      let P := GTay.add P iz k (-((k : B) * azmul (P iz j) (s ix (j - k))))
      GTay.add P ix (j - k) (-((k : B) * azmul (P iz j) (s iz k)))
  GTay.add P ix 0 (azmul (P iz 0) inv_x0)

/-- log1p_op.hpp:121-170 -/
noncomputable def log1pReverse (ix d iz : ℕ) (s P : GTay B) : GTay B :=
  let inv_1px0 := 1 / (1 + s ix 0)
  let P := forDown d P fun j P =>
    let P := GTay.set P iz j (azmul (P iz j) inv_1px0)
    let P := GTay.add P ix 0 (-(azmul (P iz j) (s iz j)))
    let P := GTay.add P ix j (P iz j)
    let P := GTay.set P iz j (P iz j / (j : B))
    forRange 1 j P fun k P =>
      let P := GTay.add P iz k (-((k : B) * azmul (P iz j) (s ix (j - k))))
      GTay.add P ix (j - k) (-((k : B) * azmul (P iz j) (s iz k)))
  GTay.add P ix 0 (azmul (P iz 0) inv_1px0)

/-- sqrt_op.hpp:118-163 -/
noncomputable def sqrtReverse (ix d iz : ℕ) (s P : GTay B) : GTay B :=
  let inv_z0 := 1 / s iz 0
  let P := forDown d P fun j P =>
    let P := GTay.set P iz j (azmul (P iz j) inv_z0)
    let P := GTay.add P iz 0 (-(azmul (P iz j) (s iz j)))
    let P := GTay.add P ix j (P iz j / 2)
    forRange 1 j P fun k P => GTay.add P iz k (-(azmul (P iz j) (s iz (j - k))))
  GTay.add P ix 0 (azmul (P iz 0) inv_z0 / 2)

/-- abs_op.hpp:100-130 (`n_order = d + 1`) -/
noncomputable def absReverse (ix d iz : ℕ) (s P : GTay B) : GTay B :=
  forRange 0 (d + 1) P fun j P => GTay.add P ix j (sgn (s ix 0) * P iz j)

/-- sign_op.hpp:99-115 -/
noncomputable def signReverse (_ix _d _iz : ℕ) (_s P : GTay B) : GTay B := P

/-- the loop `j = d + 1; while(j--) py[j] += ...` when the operand is a variable;
cexp_op.hpp:720-733, 734-747 -/
def opdAdd (o : GOpd B) (d : ℕ) (g : ℕ → GTay B → B) (P : GTay B) : GTay B :=
  match o with
  | .par _ => P
  | .var v => forDown0 (d + 1) P fun j P => GTay.add P v j (g j P)

/-- cexp_op.hpp:679-749 -/
noncomputable def cexpReverse (cop : CompareOp) (l r t f : GOpd B) (d iz : ℕ) (s P : GTay B) : GTay B :=
  let y0 := l.at0 s
  let y1 := r.at0 s
  let P := opdAdd t d (fun j P => condExp cop y0 y1 (P iz j) 0) P
  opdAdd f d (fun j P => condExp cop y0 y1 0 (P iz j)) P

/-- csum_op.hpp:353-387 -/
noncomputable def csumReverse (addv subv : List ℕ) (d iz : ℕ) (_s P : GTay B) : GTay B :=
  let P := addv.foldl (fun P x => forDown0 (d + 1) P fun k P => GTay.add P x k (P iz k)) P
  subv.foldl (fun P x => forDown0 (d + 1) P fun k P => GTay.add P x k (- P iz k)) P

/-- local/sweep/reverse.hpp:520-521 -/
noncomputable def parReverse (_d _iz : ℕ) (_s P : GTay B) : GTay B := P

/-- local/sweep/reverse.hpp:397-400 -/
noncomputable def disReverse (_ix _d _iz : ℕ) (_s P : GTay B) : GTay B := P

/-- `sin_reverse` sin_op.hpp:135-188, `cos_reverse` cos_op.hpp:133-186,
`sinh_reverse` sinh_op.hpp:134-187, `cosh_reverse` cosh_op.hpp:133-186 -/
noncomputable def trigReverse (sg : B) (ix d is ic : ℕ) (s P : GTay B) : GTay B :=
  let P := forDown d P fun j P =>
    let P := GTay.set P is j (P is j / (j : B))
    let P := GTay.set P ic j (P ic j / (j : B))
    forRange 1 (j + 1) P fun k P =>
      let P := GTay.add P ix k ((k : B) * azmul (P is j) (s ic (j - k)))
      let P := GTay.add P ix k (sg * ((k : B) * azmul (P ic j) (s is (j - k))))
      let P := GTay.add P is (j - k) (sg * ((k : B) * azmul (P ic j) (s ix k)))
      GTay.add P ic (j - k) ((k : B) * azmul (P is j) (s ix k))
  let P := GTay.add P ix 0 (azmul (P is 0) (s ic 0))
  GTay.add P ix 0 (sg * azmul (P ic 0) (s is 0))

/-- `tan_reverse` tan_op.hpp:130-179, `tanh_reverse` tanh_op.hpp:129-178 -/
noncomputable def tanReverseG (sg : B) (ix d iz : ℕ) (s P : GTay B) : GTay B :=
  let iy := iz - 1
  let P := forDown d P fun j P =>
    let P := GTay.add P ix j (P iz j)
    let P := GTay.set P iz j (P iz j / (j : B))
    let P := forRange 1 (j + 1) P fun k P =>
      let P := GTay.add P ix k (sg * (azmul (P iz j) (s iy (j - k)) * (k : B)))
      GTay.add P iy (j - k) (sg * (azmul (P iz j) (s ix k) * (k : B)))
    forRange 0 j P fun k P => GTay.add P iz k (azmul (P iy (j - 1)) (s iz (j - k - 1)) * 2)
  GTay.add P ix 0 (azmul (P iz 0) (1 + sg * s iy 0))

/-- `atan_reverse` atan_op.hpp:127-183, `atanh_reverse` atanh_op.hpp:128-184 -/
noncomputable def atanReverseG (sg : B) (ix d iz : ℕ) (s P : GTay B) : GTay B :=
  let ib := iz - 1
  let inv_b0 := 1 / s ib 0
  let P := forDown d P fun j P =>
    let P := GTay.set P iz j (azmul (P iz j) inv_b0)
    let P := GTay.set P ib j (P ib j * 2)
    let P := GTay.add P ib 0 (-azmul (P iz j) (s iz j))
    let P := GTay.add P ix j (P iz j + sg * azmul (P ib j) (s ix 0))
    let P := GTay.add P ix 0 (sg * azmul (P ib j) (s ix j))
    let P := GTay.set P iz j (P iz j / (j : B))
    forRange 1 j P fun k P =>
      let P := GTay.add P ib (j - k) (-((k : B) * azmul (P iz j) (s iz k)))
      let P := GTay.add P iz k (-((k : B) * azmul (P iz j) (s ib (j - k))))
      GTay.add P ix k (sg * azmul (P ib j) (s ix (j - k)))
  GTay.add P ix 0 (azmul (P iz 0) inv_b0 + sg * (2 * azmul (P ib 0) (s ix 0)))

/-- `asin_reverse` asin_op.hpp:140-211, `acos_reverse` acos_op.hpp:140-211,
`asinh_reverse` asinh_op.hpp:141-212, `acosh_reverse` acosh_op.hpp:141-212.
acos_op.hpp:191,210 are written `px[j] -= pz[j] + pb[j] * x[0]`,
`px[0] -= (pz[0] + pb[0] * x[0]) * inv_b0`. -/
noncomputable def asinReverseG (su sz : B) (ix d iz : ℕ) (s P : GTay B) : GTay B :=
  let ib := iz - 1
  let inv_b0 := 1 / s ib 0
  let P := forDown d P fun j P =>
    let P := GTay.set P ib j (azmul (P ib j) inv_b0)
    let P := GTay.set P iz j (azmul (P iz j) inv_b0)
    let P := GTay.add P ib 0 (-(azmul (P iz j) (s iz j) + azmul (P ib j) (s ib j)))
    let P := GTay.add P ix 0 (su * azmul (P ib j) (s ix j))
    let P := GTay.add P ix j (sz * P iz j + su * azmul (P ib j) (s ix 0))
    let P := GTay.set P iz j (P iz j / (j : B))
    forRange 1 j P fun k P =>
      let P := GTay.add P ib (j - k) (-((k : B) * azmul (P iz j) (s iz k) + azmul (P ib j) (s ib k)))
      let P := GTay.add P ix k (su * azmul (P ib j) (s ix (j - k)))
      GTay.add P iz k (-((k : B) * azmul (P iz j) (s ib (j - k))))
  GTay.add P ix 0 (azmul (sz * P iz 0 + su * azmul (P ib 0) (s ix 0)) inv_b0)

/-- body after the test: erf_op.hpp:508-600 -/
noncomputable def erfBody (sg c : B) (ix d iz : ℕ) (s P : GTay B) : GTay B :=
  let iz := iz - 4
  let P := forDown d P fun j P =>
    let P := GTay.set P (iz + 4) j (P (iz + 4) j / (j : B))
    forRange 1 (j + 1) P fun k P =>
      let P := GTay.add P ix k (sg * azmul (P (iz + 4) j) (s (iz + 3) (j - k)) * (k : B))
      GTay.add P (iz + 3) (j - k) (sg * azmul (P (iz + 4) j) (s ix k) * (k : B))
  let P := GTay.add P ix 0 (sg * azmul (P (iz + 4) 0) (s (iz + 3) 0))
  let P := mulpvReverse c (iz + 2) d (iz + 3) s P
  let P := expReverse (iz + 1) d (iz + 2) s P
  let P := subpvReverse 0 iz d (iz + 1) s P
  mulvvReverse ix ix d (iz + 0) s P

/-- erf_op.hpp:508-600 -/
noncomputable def erfReverse (sg c : B) (ix d iz : ℕ) (s P : GTay B) : GTay B :=
  if allZero d iz P then P else erfBody sg c ix d iz s P

/-- pow_op.hpp:184-224 -/
noncomputable def powvvReverse (ix iy d iz : ℕ) (s P : GTay B) : GTay B :=
  let iz := iz - 2
  let P := expReverse (iz + 1) d (iz + 2) s P
  let P := mulvvReverse iz iy d (iz + 1) s P
  logReverse ix d iz s P

/-- pow_op.hpp:433-476 -/
noncomputable def powpvReverse (iy d iz : ℕ) (s P : GTay B) : GTay B :=
  let iz := iz - 2
  let P := expReverse (iz + 1) d (iz + 2) s P
  mulpvReverse (s iz 0) iy d (iz + 1) s P

/-- pow_op.hpp:657-733; the `work` vector is the row `ix` of a second array until the final loop -/
noncomputable def powvpReverse (ix : ℕ) (y : B) (d iz : ℕ) (s P : GTay B) : GTay B :=
  let work : GTay B := forRange 0 (d + 1) (fun _ _ => 0) fun j w => GTay.set w 0 j (P ix j)
  let pw : GTay B × GTay B := forDown d (P, work) fun j pw =>
    let P := pw.1
    let w := pw.2
    let w := GTay.add w 0 j (azmul (P iz j) (y * s iz 0 / s ix 0))
    let w := forRange 1 j w fun k w =>
      let term := ((k : B) * y - ((j - k : ℕ) : B)) * s iz (j - k) / ((j : B) * s ix 0)
      GTay.add w 0 k (azmul (P iz j) term)
    let P := forRange 1 j P fun k P =>
      let term := (((j - k : ℕ) : B) * y - (k : B)) * s ix (j - k) / ((j : B) * s ix 0)
      GTay.add P iz k (azmul (P iz j) term)
    let w := GTay.add w 0 0 (-(azmul (P iz j) (s iz j / s ix 0)))
    let P := GTay.add P iz 0 (azmul (P iz j) (y * s ix j / s ix 0))
    (P, w)
  let P := pw.1
  let w := GTay.add pw.2 0 0 (azmul (P iz 0) (y * s iz 0 / s ix 0))
  forRange 0 (d + 1) P fun j P => GTay.set P ix j (if s ix 0 = 0 then 0 else w 0 j)

/-- the elementary operators of cppad/local/op_code_var.hpp:194-268 over `Base` -/
inductive GOp (B : Type)
  | abs (ix : ℕ)
  | acos (ix : ℕ)
  | acosh (ix : ℕ)
  | addpv (x : B) (iy : ℕ)
  | addvv (ix iy : ℕ)
  | asin (ix : ℕ)
  | asinh (ix : ℕ)
  | atan (ix : ℕ)
  | atanh (ix : ℕ)
  | cexp (cop : CompareOp) (l r t f : GOpd B)
  | cos (ix : ℕ)
  | cosh (ix : ℕ)
  | csum (c : B) (addv subv : List ℕ) (addp subp : List B)
  | dis (fn : B → B) (ix : ℕ)
  | divpv (x : B) (iy : ℕ)
  | divvp (ix : ℕ) (y : B)
  | divvv (ix iy : ℕ)
  | erf (ix : ℕ)
  | erfc (ix : ℕ)
  | exp (ix : ℕ)
  | expm1 (ix : ℕ)
  | log (ix : ℕ)
  | log1p (ix : ℕ)
  | mulpv (x : B) (iy : ℕ)
  | mulvv (ix iy : ℕ)
  | neg (ix : ℕ)
  | par (c : B)
  | powpv (x : B) (iy : ℕ)
  | powvp (ix : ℕ) (y : B)
  | powvv (ix iy : ℕ)
  | sign (ix : ℕ)
  | sin (ix : ℕ)
  | sinh (ix : ℕ)
  | sqrt (ix : ℕ)
  | subpv (x : B) (iy : ℕ)
  | subvp (ix : ℕ) (y : B)
  | subvv (ix iy : ℕ)
  | tan (ix : ℕ)
  | tanh (ix : ℕ)
  | zmulpv (x : B) (iy : ℕ)
  | zmulvp (ix : ℕ) (y : B)
  | zmulvv (ix iy : ℕ)

/-- number of results, op_code_var.hpp:420-520 -/
def GOp.nres : GOp B → ℕ
  | .abs _ => 1
  | .acos _ => 2
  | .acosh _ => 2
  | .addpv _ _ => 1
  | .addvv _ _ => 1
  | .asin _ => 2
  | .asinh _ => 2
  | .atan _ => 2
  | .atanh _ => 2
  | .cexp _ _ _ _ _ => 1
  | .cos _ => 2
  | .cosh _ => 2
  | .csum _ _ _ _ _ => 1
  | .dis _ _ => 1
  | .divpv _ _ => 1
  | .divvp _ _ => 1
  | .divvv _ _ => 1
  | .erf _ => 5
  | .erfc _ => 5
  | .exp _ => 1
  | .expm1 _ => 1
  | .log _ => 1
  | .log1p _ => 1
  | .mulpv _ _ => 1
  | .mulvv _ _ => 1
  | .neg _ => 1
  | .par _ => 1
  | .powpv _ _ => 3
  | .powvp _ _ => 1
  | .powvv _ _ => 3
  | .sign _ => 1
  | .sin _ => 2
  | .sinh _ => 2
  | .sqrt _ => 1
  | .subpv _ _ => 1
  | .subvp _ _ => 1
  | .subvv _ _ => 1
  | .tan _ => 2
  | .tanh _ => 2
  | .zmulpv _ _ => 1
  | .zmulvp _ _ => 1
  | .zmulvv _ _ => 1

/-- variable operand of a conditional expression, cexp_op.hpp:14-30 -/
def GOpd.vars : GOpd B → List ℕ
  | .par _ => []
  | .var v => [v]

/-- indices of the arguments that are variables, op_code_var.hpp:28-190 -/
def GOp.args : GOp B → List ℕ
  | .abs ix => [ix]
  | .acos ix => [ix]
  | .acosh ix => [ix]
  | .addpv _ iy => [iy]
  | .addvv ix iy => [ix, iy]
  | .asin ix => [ix]
  | .asinh ix => [ix]
  | .atan ix => [ix]
  | .atanh ix => [ix]
  | .cexp _ l r t f => l.vars ++ (r.vars ++ (t.vars ++ f.vars))
  | .cos ix => [ix]
  | .cosh ix => [ix]
  | .csum _ addv subv _ _ => addv ++ subv
  | .dis _ ix => [ix]
  | .divpv _ iy => [iy]
  | .divvp ix _ => [ix]
  | .divvv ix iy => [ix, iy]
  | .erf ix => [ix]
  | .erfc ix => [ix]
  | .exp ix => [ix]
  | .expm1 ix => [ix]
  | .log ix => [ix]
  | .log1p ix => [ix]
  | .mulpv _ iy => [iy]
  | .mulvv ix iy => [ix, iy]
  | .neg ix => [ix]
  | .par _ => []
  | .powpv _ iy => [iy]
  | .powvp ix _ => [ix]
  | .powvv ix iy => [ix, iy]
  | .sign ix => [ix]
  | .sin ix => [ix]
  | .sinh ix => [ix]
  | .sqrt ix => [ix]
  | .subpv _ iy => [iy]
  | .subvp ix _ => [ix]
  | .subvv ix iy => [ix, iy]
  | .tan ix => [ix]
  | .tanh ix => [ix]
  | .zmulpv _ iy => [iy]
  | .zmulvp ix _ => [ix]
  | .zmulvv ix iy => [ix, iy]

/-- dispatch of reverse, cppad/local/sweep/reverse.hpp:268-685; arguments `d i_z taylor partial` -/
noncomputable def GOp.rev : GOp B → ℕ → ℕ → GTay B → GTay B → GTay B
  | .abs ix => absReverse ix
  | .acos ix => asinReverseG (-1) (-1) ix
  | .acosh ix => asinReverseG 1 1 ix
  | .addpv x iy => addpvReverse x iy
  | .addvv ix iy => addvvReverse ix iy
  | .asin ix => asinReverseG (-1) 1 ix
  | .asinh ix => asinReverseG 1 1 ix
  | .atan ix => atanReverseG 1 ix
  | .atanh ix => atanReverseG (-1) ix
  | .cexp cop l r t f => cexpReverse cop l r t f
  | .cos ix => fun d iz => trigReverse (-1) ix d (iz - 1) iz
  | .cosh ix => fun d iz => trigReverse 1 ix d (iz - 1) iz
  | .csum _ addv subv _ _ => csumReverse addv subv
  | .dis _ ix => disReverse ix
  | .divpv x iy => divpvReverse x iy
  | .divvp ix y => divvpReverse ix y
  | .divvv ix iy => divvvReverse ix iy
  | .erf ix => erfReverse 1 erfCon ix
  | .erfc ix => erfReverse (-1) erfCon ix
  | .exp ix => expReverse ix
  | .expm1 ix => expm1Reverse ix
  | .log ix => logReverse ix
  | .log1p ix => log1pReverse ix
  | .mulpv x iy => mulpvReverse x iy
  | .mulvv ix iy => mulvvReverse ix iy
  | .neg ix => negReverse ix
  | .par _ => parReverse
  | .powpv _ iy => powpvReverse iy
  | .powvp ix y => powvpReverse ix y
  | .powvv ix iy => powvvReverse ix iy
  | .sign ix => signReverse ix
  | .sin ix => fun d iz => trigReverse (-1) ix d iz (iz - 1)
  | .sinh ix => fun d iz => trigReverse 1 ix d iz (iz - 1)
  | .sqrt ix => sqrtReverse ix
  | .subpv x iy => subpvReverse x iy
  | .subvp ix y => subvpReverse ix y
  | .subvv ix iy => subvvReverse ix iy
  | .tan ix => tanReverseG 1 ix
  | .tanh ix => tanReverseG (-1) ix
  | .zmulpv x iy => zmulpvReverse x iy
  | .zmulvp ix y => zmulvpReverse ix y
  | .zmulvv ix iy => zmulvvReverse ix iy

/-- cppad/local/sweep/reverse.hpp:160-690; the last operator is processed first -/
noncomputable def sweep (d : ℕ) : List (GOp B) → ℕ → GTay B → GTay B → GTay B
  | [], _, _, P => P
  | op :: ops, nv, s, P => op.rev d (nv + op.nres - 1) s (sweep d ops (nv + op.nres) s P)

/-- *Specification*: the sweep that leaves out every operator whose partials are all zero (orders `0` to `d`) -/
noncomputable def sweepSkip (d : ℕ) : List (GOp B) → ℕ → GTay B → GTay B → GTay B
  | [], _, _, P => P
  | op :: ops, nv, s, P =>
    let P := sweepSkip d ops (nv + op.nres) s P
    if ∀ r < op.nres, ∀ k ≤ d, P (nv + r) k = 0 then P else op.rev d (nv + op.nres - 1) s P

/-! ## The real numbers -/

/-- the real numbers, the `Base` of the other files -/
noncomputable instance : RevBase ℝ where
  sgn := Real.sign
  holds := CompareOp.holds
  erfCon := 2 / Real.sqrt Real.pi

/-- an operand over the reals -/
def GOpd.toOpd : GOpd ℝ → Opd
  | .par c => .par c
  | .var v => .var v

/-- an operator over the reals as an operator of `Op` -/
def GOp.toOp : GOp ℝ → Op
  | .abs ix => .abs ix
  | .acos ix => .acos ix
  | .acosh ix => .acosh ix
  | .addpv x iy => .addpv x iy
  | .addvv ix iy => .addvv ix iy
  | .asin ix => .asin ix
  | .asinh ix => .asinh ix
  | .atan ix => .atan ix
  | .atanh ix => .atanh ix
  | .cexp cop l r t f => .cexp cop l.toOpd r.toOpd t.toOpd f.toOpd
  | .cos ix => .cos ix
  | .cosh ix => .cosh ix
  | .csum c addv subv addp subp => .csum c addv subv addp subp
  | .dis fn ix => .dis fn ix
  | .divpv x iy => .divpv x iy
  | .divvp ix y => .divvp ix y
  | .divvv ix iy => .divvv ix iy
  | .erf ix => .erf ix
  | .erfc ix => .erfc ix
  | .exp ix => .exp ix
  | .expm1 ix => .expm1 ix
  | .log ix => .log ix
  | .log1p ix => .log1p ix
  | .mulpv x iy => .mulpv x iy
  | .mulvv ix iy => .mulvv ix iy
  | .neg ix => .neg ix
  | .par c => .par c
  | .powpv x iy => .powpv x iy
  | .powvp ix y => .powvp ix y
  | .powvv ix iy => .powvv ix iy
  | .sign ix => .sign ix
  | .sin ix => .sin ix
  | .sinh ix => .sinh ix
  | .sqrt ix => .sqrt ix
  | .subpv x iy => .subpv x iy
  | .subvp ix y => .subvp ix y
  | .subvv ix iy => .subvv ix iy
  | .tan ix => .tan ix
  | .tanh ix => .tanh ix
  | .zmulpv x iy => .zmulpv x iy
  | .zmulvp ix y => .zmulvp ix y
  | .zmulvv ix iy => .zmulvv ix iy

theorem GOp.nres_real (op : GOp ℝ) : op.toOp.nres = op.nres := by cases op <;> rfl

theorem cexp_real (cop : CompareOp) (l r t f : GOpd ℝ) : Gen.cexpReverse cop l r t f
    = CppAD.cexpReverse cop l.toOpd r.toOpd t.toOpd f.toOpd := by
  cases l <;> cases r <;> cases t <;> cases f <;> rfl

/-- over the reals these are the operators of the model of reverse mode -/
theorem GOp.rev_real (op : GOp ℝ) : op.toOp.rev = op.rev := by
  cases op with
  | cexp cop l r t f => exact (cexp_real cop l r t f).symm
  | _ => rfl

/-- over the reals this is the sweep of the model of reverse mode -/
theorem sweep_real (d : ℕ) (ops : List (GOp ℝ)) : ∀ nv s P,
    reverseSweep d (ops.map GOp.toOp) nv s P = sweep d ops nv s P := by
  induction ops with
  | nil => intros; rfl
  | cons op ops ih =>
    intro nv s P
    rw [List.map_cons, reverseSweep, sweep, GOp.rev_real, GOp.nres_real, ih]

end CppAD.Gen
