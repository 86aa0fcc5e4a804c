import Verif.Chkpoint.Inline

/-! # Model of `ADFun::abs_normal_fun`, cppad/core/abs_normal_fun.hpp

The recordings are modelled as they are stored: a vector of operator codes and one vector with the arguments of all the
operators, where an operator takes as many arguments as its code says. The parameter vector is the same in `f` and `g`
(abs_normal_fun.hpp:394-452).
Simplification: operators that abs_normal_fun does not handle (CSumOp, CSkipOp), VecAD, PriOp and atomic calls are not here. -/

namespace CppAD.AbsNormal

/-- unary operators in abs_normal_fun.hpp:540-558 -/
inductive Un
  | acos | acosh | asin | asinh | atan | atanh | cos | cosh | exp | expm1 | log | log1p | neg | sign | sin | sinh | sqrt | tan | tanh

/-- the operator of the sweeps, local/sweep/forward_0.hpp:200-520 -/
def Un.op : Un → ℕ → Op
  | .acos => .acos
  | .acosh => .acosh
  | .asin => .asin
  | .asinh => .asinh
  | .atan => .atan
  | .atanh => .atanh
  | .cos => .cos
  | .cosh => .cosh
  | .exp => .exp
  | .expm1 => .expm1
  | .log => .log
  | .log1p => .log1p
  | .neg => .neg
  | .sign => .sign
  | .sin => .sin
  | .sinh => .sinh
  | .sqrt => .sqrt
  | .tan => .tan
  | .tanh => .tanh

/-- operators with a variable and a parameter, abs_normal_fun.hpp:582-585 -/
inductive Vp | sub | div | pow | zmul

/-- the operator of the sweeps, local/sweep/forward_0.hpp:200-520 -/
def Vp.op : Vp → ℕ → ℝ → Op
  | .sub => .subvp
  | .div => .divvp
  | .pow => .powvp
  | .zmul => .zmulvp

/-- operators with two operands, abs_normal_fun.hpp:605-610 (parameter and variable) and 627-632 (two variables) -/
inductive Bin | add | sub | mul | div | pow | zmul

/-- the operator of the sweeps, local/sweep/forward_0.hpp:200-520 -/
def Bin.pv : Bin → ℝ → ℕ → Op
  | .add => .addpv
  | .sub => .subpv
  | .mul => .mulpv
  | .div => .divpv
  | .pow => .powpv
  | .zmul => .zmulpv

/-- the operator of the sweeps, local/sweep/forward_0.hpp:200-520 -/
def Bin.vv : Bin → ℕ → ℕ → Op
  | .add => .addvv
  | .sub => .subvv
  | .mul => .mulvv
  | .div => .divvv
  | .pow => .powvv
  | .zmul => .zmulvv

/-- operator codes, local/op_code_var.hpp:194-268; the number `k` distinguishes the comparisons of one kind -/
inductive Code
  | abs | par | un (u : Un) | erf | erfc | vp (b : Vp) | dis | pv (b : Bin) | vv (b : Bin) | cexp
  | cmpPv (k : ℕ) | cmpVp (k : ℕ) | cmpVv (k : ℕ)

/-- number of arguments, local/op_code_var.hpp:330-420 -/
def Code.narg : Code → ℕ
  | .abs => 1
  | .par => 1
  | .un _ => 1
  | .erf => 3
  | .erfc => 3
  | .vp _ => 2
  | .dis => 2
  | .pv _ => 2
  | .vv _ => 2
  | .cexp => 6
  | .cmpPv _ => 2
  | .cmpVp _ => 2
  | .cmpVv _ => 2

/-- number of results, local/op_code_var.hpp:420-520 -/
def Code.nres : Code → ℕ
  | .abs => 1
  | .par => 1
  | .un u => (u.op 0).nres
  | .erf => 5
  | .erfc => 5
  | .vp _ => 1
  | .dis => 1
  | .pv .pow => 3
  | .pv _ => 1
  | .vv .pow => 3
  | .vv _ => 1
  | .cexp => 1
  | .cmpPv _ => 0
  | .cmpVp _ => 0
  | .cmpVv _ => 0

/-- the comparison in the first argument of CExpOp, core/compare.hpp enum CompareOp -/
def copOf : ℕ → CompareOp
  | 0 => .lt
  | 1 => .le
  | 2 => .eq
  | 3 => .ge
  | 4 => .gt
  | _ => .ne

/-- an operand of CExpOp: a variable when the bit is set, local/var_op/cexp_op.hpp:14-30 -/
def opdOf (par : ℕ → ℝ) (bit : Bool) (a : ℕ) : Opd := if bit then .var a else .par (par a)

/-- what the sweeps do for an operator with the arguments `a`, local/sweep/forward_0.hpp:180-560;
`disc` are the discrete functions and `par` the parameter vector; comparisons have no result -/
noncomputable def toOp (disc : ℕ → ℝ → ℝ) (par : ℕ → ℝ) (c : Code) (a : List ℕ) : Option Op :=
  match c with
  | .abs => some (.abs (a.getD 0 0))
  | .par => some (.par (par (a.getD 0 0)))
  | .un u => some (u.op (a.getD 0 0))
  | .erf => some (.erf (a.getD 0 0))
  | .erfc => some (.erfc (a.getD 0 0))
  | .vp b => some (b.op (a.getD 0 0) (par (a.getD 1 0)))
  | .dis => some (.dis (disc (a.getD 0 0)) (a.getD 1 0))
  | .pv b => some (b.pv (par (a.getD 0 0)) (a.getD 1 0))
  | .vv b => some (b.vv (a.getD 0 0) (a.getD 1 0))
  | .cexp => some (.cexp (copOf (a.getD 0 0)) (opdOf par ((a.getD 1 0).testBit 0) (a.getD 2 0))
      (opdOf par ((a.getD 1 0).testBit 1) (a.getD 3 0)) (opdOf par ((a.getD 1 0).testBit 2) (a.getD 4 0))
      (opdOf par ((a.getD 1 0).testBit 3) (a.getD 5 0)))
  | .cmpPv _ => none
  | .cmpVp _ => none
  | .cmpVv _ => none

/-- the sweeps go through the codes and the arguments in step, local/play/sequential_iterator.hpp:90-180 -/
noncomputable def decode (disc : ℕ → ℝ → ℝ) (par : ℕ → ℝ) : List Code → List ℕ → List Op
  | [], _ => []
  | c :: cs, a => (toOp disc par c a).toList ++ decode disc par cs (a.drop c.narg)

/-- the members of `ADFun` that `abs_normal_fun` uses, core/ad_fun.hpp:89-126: the number of independent variables, the
operators after the independent variables (`play_`), `dep_taddr_` and `dep_parameter_` -/
structure Raw where
  n : ℕ
  codes : List Code
  args : List ℕ
  par : ℕ → ℝ
  dep : List ℕ
  depPar : List Bool

/-- the operation sequence that the sweeps evaluate -/
noncomputable def Raw.tape (f : Raw) (disc : ℕ → ℝ → ℝ) : Tape := ⟨f.n, decode disc f.par f.codes f.args, f.dep⟩

/-- `ADFun::Parameter(i)`, core/ad_fun.hpp:660-680 -/
def Raw.parameter (f : Raw) (i : ℕ) : Bool := f.depPar.getD i false

/-- first sweep: argument and result index of the absolute value operators, abs_normal_fun.hpp:347-374 -/
def scan : List Code → List ℕ → ℕ → List (ℕ × ℕ)
  | [], _, _ => []
  | .abs :: cs, a, nv => (a.getD 0 0, nv) :: scan cs (a.drop 1) (nv + 1)
  | c :: cs, a, nv => scan cs (a.drop c.narg) (nv + c.nres)

/-- `f2g_var` for the independent variables and for the results of the absolute value operators,
abs_normal_fun.hpp:462-502; `numVar` is the value for a variable that should not be used -/
def start (numVar n : ℕ) (res : List ℕ) : ℕ → ℕ :=
  let f2g : ℕ → ℕ := fun _ => numVar
  let f2g := forRange 0 (n + 1) f2g fun v f2g => Function.update f2g v v
  forRange 0 res.length f2g fun j f2g => Function.update f2g (res.getD j 0) (n + 1 + j)

/-- the arguments put in the new recording for an operator, abs_normal_fun.hpp:512-714.  For the error functions
(lines 569-579) only the second and third argument are put. -/
def newArgs (f2g : ℕ → ℕ) (c : Code) (a : List ℕ) : List ℕ :=
  match c with
  | .abs => []
  | .par => [a.getD 0 0]
  | .un _ => [f2g (a.getD 0 0)]
  | .erf => [a.getD 1 0, a.getD 2 0]
  | .erfc => [a.getD 1 0, a.getD 2 0]
  | .vp _ => [f2g (a.getD 0 0), a.getD 1 0]
  | .dis => [a.getD 0 0, f2g (a.getD 1 0)]
  | .pv _ => [a.getD 0 0, f2g (a.getD 1 0)]
  | .vv _ => [f2g (a.getD 0 0), f2g (a.getD 1 0)]
  | .cexp => [a.getD 0 0, a.getD 1 0,
      if (a.getD 1 0).testBit 0 then f2g (a.getD 2 0) else a.getD 2 0,
      if (a.getD 1 0).testBit 1 then f2g (a.getD 3 0) else a.getD 3 0,
      if (a.getD 1 0).testBit 2 then f2g (a.getD 4 0) else a.getD 4 0,
      if (a.getD 1 0).testBit 3 then f2g (a.getD 5 0) else a.getD 5 0]
  | .cmpPv _ => [a.getD 0 0, f2g (a.getD 1 0)]
  | .cmpVp _ => [f2g (a.getD 0 0), a.getD 1 0]
  | .cmpVv _ => [f2g (a.getD 0 0), f2g (a.getD 1 0)]

/-- second sweep, abs_normal_fun.hpp:507-892: the codes and arguments that are put in the new recording and the final
`f2g_var`; `nv` and `nvg` are the number of variables so far in `f` and in the new recording
(`rec.PutOp(op)` returns the index of the last result of the new operator, local/record/put_op.hpp) -/
def emit : List Code → List ℕ → ℕ → ℕ → (ℕ → ℕ) → List Code × List ℕ × (ℕ → ℕ)
  | [], _, _, _, f2g => ([], [], f2g)
  | .abs :: cs, a, nv, nvg, f2g => emit cs (a.drop 1) (nv + 1) nvg f2g
  | c :: cs, a, nv, nvg, f2g =>
    let f2g' := if c.nres = 0 then f2g else Function.update f2g (nv + c.nres - 1) (nvg + c.nres - 1)
    let r := emit cs (a.drop c.narg) (nv + c.nres) (nvg + c.nres) f2g'
    (c :: r.1, newArgs f2g c a ++ r.2.1, r.2.2)

/-- number of variables in the recording, `play_.num_var()` -/
def Raw.numVar (f : Raw) : ℕ := f.n + 1 + (f.codes.map Code.nres).sum

/-- **abs_normal_fun(g, a)**, abs_normal_fun.hpp:340-988: the functions `g` and `a` -/
def absNormal (f : Raw) : Raw × Raw :=
  let info := scan f.codes f.args (f.n + 1)
  let s := info.length
  let r := emit f.codes f.args (f.n + 1) (f.n + s + 1) (start f.numVar f.n (info.map Prod.snd))
  let g : Raw := { n := f.n + s, codes := r.1, args := r.2.1, par := f.par
                   dep := f.dep.map r.2.2 ++ (info.map Prod.fst).map r.2.2
                   depPar := f.depPar ++ List.replicate s false }
  let a : Raw := { f with dep := info.map Prod.snd }
  (g, a)

end CppAD.AbsNormal
