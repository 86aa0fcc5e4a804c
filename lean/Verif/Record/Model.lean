import Verif.Taylor.History
import Verif.Taylor.AtomType

/-! # Recording: AD objects, the recorder, and the functions that act on AD objects

The Base type is `ℝ`.  One recording (tape) is in progress; `id` is its identifier.  The hash function
used for constant parameters and the table of discrete functions are arbitrary.  Vectors are lists.
The separate argument vectors of the C++ recorder (`arg_vec_`, `dyn_par_arg_`) are stored with their
operators. -/

open scoped Classical

namespace CppAD.Record

open CppAD

/-! ## Codes -/

/-- the unary functions of AD objects: cppad/core/standard_math.hpp:21-95 (macro CPPAD_STANDARD_MATH_UNARY_AD),
cppad/core/std_math_11.hpp, abs.hpp, sign.hpp, unary_minus.hpp -/
inductive UnF
  | abs | acos | acosh | asin | asinh | atan | atanh | cos | cosh | erf | erfc | exp | expm1
  | log | log1p | neg | sign | sin | sinh | sqrt | tan | tanh

/-- *Specification*: the mathematical function -/
noncomputable def UnF.fn : UnF → ℝ → ℝ
  | .abs => fun x => |x|
  | .acos => Real.arccos
  | .acosh => Real.arcosh
  | .asin => Real.arcsin
  | .asinh => Real.arsinh
  | .atan => Real.arctan
  | .atanh => Real.artanh
  | .cos => Real.cos
  | .cosh => Real.cosh
  | .erf => CppAD.erf
  | .erfc => CppAD.erfc
  | .exp => Real.exp
  | .expm1 => fun x => Real.exp x - 1
  | .log => Real.log
  | .log1p => fun x => Real.log (1 + x)
  | .neg => fun x => -x
  | .sign => Real.sign
  | .sin => Real.sin
  | .sinh => Real.sinh
  | .sqrt => Real.sqrt
  | .tan => Real.tan
  | .tanh => Real.tanh

/-- the corresponding variable operator (AbsOp, AcosOp, ...), cppad/local/op_code_var.hpp:194-268 -/
def UnF.op : UnF → ℕ → Op
  | .abs => .abs
  | .acos => .acos
  | .acosh => .acosh
  | .asin => .asin
  | .asinh => .asinh
  | .atan => .atan
  | .atanh => .atanh
  | .cos => .cos
  | .cosh => .cosh
  | .erf => .erf
  | .erfc => .erfc
  | .exp => .exp
  | .expm1 => .expm1
  | .log => .log
  | .log1p => .log1p
  | .neg => .neg
  | .sign => .sign
  | .sin => .sin
  | .sinh => .sinh
  | .sqrt => .sqrt
  | .tan => .tan
  | .tanh => .tanh

/-- binary functions of AD objects -/
inductive BinF | add | sub | mul | div | azmul | pow

/-- *Specification*: the mathematical function; `azmul x y` is zero when `x` is zero, else `x * y`
(cppad/core/azmul.hpp:17-40) -/
noncomputable def BinF.fn : BinF → ℝ → ℝ → ℝ
  | .add => fun x y => x + y
  | .sub => fun x y => x - y
  | .mul => fun x y => x * y
  | .div => fun x y => x / y
  | .azmul => fun x y => if x = 0 then 0 else x * y
  | .pow => fun x y => x ^ y

/-- operators of dynamic parameters with their arguments (indices of parameters, except for the
index `k` of a discrete function), cppad/local/op_code_dyn.hpp.  `ind` is an independent dynamic parameter.
`atom A sel i args` is the result `i` of a call of an atomic function: atom_dyn for the first result of the call that is a dynamic parameter,
result_dyn for the other ones.  (The arguments, stored once with atom_dyn by local/record/put_dyn_atomic.hpp, are here repeated for each result.)
`sel` tells which results are dynamic parameters. -/
inductive DynOp
  | ind
  | un (f : UnF) (a : ℕ)
  | bin (f : BinF) (a b : ℕ)
  | dis (k a : ℕ)
  | cexp (cop : CompareOp) (l r t f : ℕ)
  | atom (A : Atom) (sel : List Bool) (i : ℕ) (args : List ℕ)

/-- the parameter indices among the arguments -/
def DynOp.args : DynOp → List ℕ
  | .ind => []
  | .un _ a => [a]
  | .bin _ a b => [a, b]
  | .dis _ a => [a]
  | .cexp _ l r t f => [l, r, t, f]
  | .atom _ _ _ args => args

/-- an argument of a call of an atomic function: FunapOp when the parameter `p` is a constant (`con`) or a dynamic parameter (`dyn`), or
FunavOp; local/record/put_var_atomic.hpp:128-142 -/
inductive FunArg | con (p : ℕ) | dyn (p : ℕ) | var (v : ℕ)

/-- recorded variable operators with their arguments, cppad/local/op_code_var.hpp:28-190.
Letters `p` and `v` in the names tell which arguments are indices of parameters or variables.
`flag` of `cexp` has bits 1, 2, 4, 8 set when left, right, if_true, if_false are variables.
`ld`, `st` are LdpOp, LdvOp, StppOp, ...: `k` is a VecAD vector (its position among the vectors in the recording
instead of its offset in `var_vecad_ind_`), then the index, and for a store the new element.
`atom A xs ys` is a complete call of an atomic function, from AFunOp to AFunOp: `ys` is `none` for a FunrvOp and `some q` for FunrpOp with
parameter index `q`; local/record/put_var_atomic.hpp:97-166.
`pri` is PriOp: `flag` has bits 1, 2 set when notpos, value are variables, `before` and `after` are offsets in the text vector;
core/print_for.hpp:146-187. -/
inductive ROp
  | un (f : UnF) (ix : ℕ)
  | addpv (p v : ℕ) | addvv (v w : ℕ)
  | subpv (p v : ℕ) | subvp (v p : ℕ) | subvv (v w : ℕ)
  | mulpv (p v : ℕ) | mulvv (v w : ℕ)
  | divpv (p v : ℕ) | divvp (v p : ℕ) | divvv (v w : ℕ)
  | zmulpv (p v : ℕ) | zmulvp (v p : ℕ) | zmulvv (v w : ℕ)
  | powpv (p v : ℕ) | powvp (v p : ℕ) | powvv (v w : ℕ)
  | dis (k v : ℕ)
  | par (p : ℕ)
  | cexp (cop : CompareOp) (flag l r t f : ℕ)
  | eqpp (p q : ℕ) | eqpv (p v : ℕ) | eqvv (v w : ℕ)
  | lepp (p q : ℕ) | lepv (p v : ℕ) | levp (v p : ℕ) | levv (v w : ℕ)
  | ltpp (p q : ℕ) | ltpv (p v : ℕ) | ltvp (v p : ℕ) | ltvv (v w : ℕ)
  | nepp (p q : ℕ) | nepv (p v : ℕ) | nevv (v w : ℕ)
  | ldp (k p : ℕ) | ldv (k v : ℕ)
  | stpp (k p q : ℕ) | stpv (k p v : ℕ) | stvp (k v q : ℕ) | stvv (k v w : ℕ)
  | atom (A : Atom) (xs : List FunArg) (ys : List (Option ℕ))
  | pri (flag np before v after : ℕ)

/-- number of operators on the tape: a call of an atomic function has two AFunOp, one operator for each argument and one for each
result; local/record/put_var_atomic.hpp:120-164 -/
def ROp.width : ROp → ℕ
  | .atom _ xs ys => 2 + xs.length + ys.length
  | _ => 1

/-- number of operators on the tape -/
def opCount (ops : List ROp) : ℕ := (ops.map ROp.width).sum

/-! ## AD objects and the recorder -/

/-- cppad/local/declare_ad.hpp enum ad_type_enum -/
inductive AdType | constant | dynamic | variable
  deriving DecidableEq

/-- class AD, cppad/core/ad.hpp:32-46: `value_`, `tape_id_`, `taddr_`, `ad_type_` -/
structure AD where
  value : ℝ
  tapeId : ℕ
  taddr : ℕ
  adType : AdType

/-- AD object constructed from a Base value, cppad/core/ad_ctor.hpp:151-158 -/
def AD.con (v : ℝ) : AD := ⟨v, 0, 0, .constant⟩

/-- What is recorded for the parameters, cppad/local/record/dyn_recorder.hpp:66-94: `par_all_`,
`par_is_dyn_`, `dyn_par_op_` with `dyn_par_arg_`, and the hash table.  Generic in the Base type. -/
structure DynRec (B : Type) where
  parAll : List B
  parIsDyn : List Bool
  dynOps : List DynOp
  hashTable : ℕ → ℕ

/-- dyn_recorder.hpp:405-446.  `hash` is `hash_code`, `idEq` is IdenticalEqualCon. -/
def DynRec.putConPar {B : Type} (hash : B → ℕ) (idEq : B → B → Bool) (r : DynRec B) (par : B) : DynRec B × ℕ :=
  let code := hash par
  let index := r.hashTable code
  let push : DynRec B × ℕ :=
    ({ r with
        parAll := r.parAll ++ [par]
        parIsDyn := r.parIsDyn ++ [false]
        hashTable := Function.update r.hashTable code r.parAll.length }, r.parAll.length)
  if 0 < index then
    match r.parAll[index]? with
    | some c => if !r.parIsDyn.getD index false && idEq c par then (r, index) else push
    | none => push
  else push

/-- dyn_recorder.hpp:233-273 (put_dyn_par) and 326-347 (put_dyn_cond_exp) -/
def DynRec.putDynPar {B : Type} (r : DynRec B) (par : B) (op : DynOp) : DynRec B × ℕ :=
  ({ r with
      parAll := r.parAll ++ [par]
      parIsDyn := r.parIsDyn ++ [true]
      dynOps := r.dynOps ++ [op] }, r.parAll.length)

/-- result `i` of a call of an atomic function is a variable -/
def resVar (ys : List (Option ℕ)) (i : ℕ) : Bool :=
  match ys[i]? with
  | some (some _) => false
  | _ => true

/-- number of results, cppad/local/op_code_var.hpp:420-520 (NumRes); comparisons have none, a call of an atomic function has one for each FunrvOp -/
def ROp.nres : ROp → ℕ
  | .un f _ => (f.op 0).nres
  | .powpv .. => 3
  | .powvv .. => 3
  | .eqpp .. | .eqpv .. | .eqvv .. | .lepp .. | .lepv .. | .levp .. | .levv .. | .ltpp .. | .ltpv .. | .ltvp .. | .ltvv ..
  | .nepp .. | .nepv .. | .nevv .. => 0
  | .stpp .. | .stpv .. | .stvp .. | .stvv .. | .pri .. => 0
  | .atom A _ ys => ((List.range A.m).filter fun i => resVar ys i).length
  | _ => 1

/-- The recorder of one tape: cppad/local/record/recorder.hpp:29-90 (`num_var_`, operators) with its base
class dyn_recorder, plus the tape `id_`.  BeginOp and the InvOp's are not stored in `ops`:
they are the first `n + 1` operators.  `recordCompare` is `record_compare_`.  `vecs` are the VecAD vectors in the
recording, each is the list of the parameter indices of its initial elements: `var_vecad_ind_` is the concatenation of
these lists, each preceded by its length.  `text` is `var_text_`. -/
structure Rec extends DynRec ℝ where
  id : ℕ
  n : ℕ
  numVar : ℕ
  ops : List ROp
  recordCompare : Bool
  vecs : List (List ℕ) := []
  text : List Char := []

/-- Parameters of the model: the hash function for reals and the discrete functions
(cppad/core/discrete/discrete.hpp:334-352, `eval(index, x)`). -/
structure Cfg where
  hash : ℝ → ℕ
  disc : ℕ → ℝ → ℝ

/-- recorder::put_con_par for Base = ℝ, dyn_recorder.hpp:405-446 -/
noncomputable def Rec.putCon (c : Cfg) (r : Rec) (v : ℝ) : Rec × ℕ :=
  let d := r.toDynRec.putConPar c.hash (fun a b => decide (a = b)) v
  ({ r with toDynRec := d.1 }, d.2)

/-- dyn_recorder.hpp:233-273, together with making the result a dynamic parameter of this tape -/
def Rec.putDyn (r : Rec) (op : DynOp) (v : ℝ) : Rec × AD :=
  let d := r.toDynRec.putDynPar v op
  ({ r with toDynRec := d.1 }, ⟨v, r.id, d.2, .dynamic⟩)

/-- recorder.hpp:422-445 (PutOp) together with its PutArg; the index of the last result is returned -/
def Rec.putOp (r : Rec) (op : ROp) : Rec × ℕ :=
  ({ r with ops := r.ops ++ [op], numVar := r.numVar + op.nres }, r.numVar + op.nres - 1)

/-- PutOp together with making the result a variable of this tape -/
def Rec.putVar (r : Rec) (op : ROp) (v : ℝ) : Rec × AD :=
  let d := r.putOp op
  (d.1, ⟨v, r.id, d.2, .variable⟩)

/-- `dyn = (tape_id_ == tape_id) & (ad_type_ == dynamic_enum)`, e.g. add.hpp:28-33 -/
def Rec.dyn (r : Rec) (a : AD) : Bool := decide (a.tapeId = r.id) && decide (a.adType = .dynamic)

/-- `var = (tape_id_ == tape_id) & (ad_type_ != dynamic_enum)`, e.g. add.hpp:35-37 -/
def Rec.var (r : Rec) (a : AD) : Bool := decide (a.tapeId = r.id) && !decide (a.adType = .dynamic)

/-- `p = a.taddr_; if( ! dyn ) p = put_con_par(value)`, e.g. add.hpp:68-70 -/
noncomputable def Rec.parAddr (c : Cfg) (r : Rec) (a : AD) : Rec × ℕ :=
  if r.dyn a then (r, a.taddr) else r.putCon c a.value

/-- put_dyn_par of a binary operator, both operands parameters, e.g. add.hpp:112-124 -/
noncomputable def Rec.putDynBin (c : Cfg) (r : Rec) (f : BinF) (x y : AD) (v : ℝ) : Rec × AD :=
  let a0 := r.parAddr c x
  let a1 := a0.1.parAddr c y
  a1.1.putDyn (.bin f a0.2 a1.2) v

/-- `make_variable(a.tape_id_, a.taddr_)`, cppad/core/ad.hpp:275-282 -/
def AD.likeVar (a : AD) (v : ℝ) : AD := ⟨v, a.tapeId, a.taddr, .variable⟩

/-- `make_dynamic(a.tape_id_, a.taddr_)`, cppad/core/ad.hpp:285-292 -/
def AD.likeDyn (a : AD) (v : ℝ) : AD := ⟨v, a.tapeId, a.taddr, .dynamic⟩

/-! ## Operators -/

/-- cppad/core/add.hpp:12-128 -/
noncomputable def addAD (c : Cfg) (r : Rec) (x y : AD) : Rec × AD :=
  let v := x.value + y.value
  if r.var x then
    if r.var y then r.putVar (.addvv x.taddr y.taddr) v
    else if !r.dyn y && decide (y.value = 0) then (r, x.likeVar v)
    else let p := r.parAddr c y; p.1.putVar (.addpv p.2 x.taddr) v
  else if r.var y then
    if !r.dyn x && decide (x.value = 0) then (r, y.likeVar v)
    else let p := r.parAddr c x; p.1.putVar (.addpv p.2 y.taddr) v
  else if r.dyn x || r.dyn y then
    if !r.dyn x && decide (x.value = 0) then (r, y.likeDyn v)
    else if !r.dyn y && decide (y.value = 0) then (r, x.likeDyn v)
    else r.putDynBin c .add x y v
  else (r, AD.con v)

/-- cppad/core/sub.hpp:12-118 -/
noncomputable def subAD (c : Cfg) (r : Rec) (x y : AD) : Rec × AD :=
  let v := x.value - y.value
  if r.var x then
    if r.var y then r.putVar (.subvv x.taddr y.taddr) v
    else if !r.dyn y && decide (y.value = 0) then (r, x.likeVar v)
    else let p := r.parAddr c y; p.1.putVar (.subvp x.taddr p.2) v
  else if r.var y then
    let p := r.parAddr c x; p.1.putVar (.subpv p.2 y.taddr) v
  else if r.dyn x || r.dyn y then
    if !r.dyn y && decide (y.value = 0) then (r, x.likeDyn v)
    else r.putDynBin c .sub x y v
  else (r, AD.con v)

/-- cppad/core/mul.hpp:12-139 -/
noncomputable def mulAD (c : Cfg) (r : Rec) (x y : AD) : Rec × AD :=
  let v := x.value * y.value
  if r.var x then
    if r.var y then r.putVar (.mulvv x.taddr y.taddr) v
    else if !r.dyn y && decide (y.value = 0) then (r, AD.con 0)
    else if !r.dyn y && decide (y.value = 1) then (r, x.likeVar v)
    else let p := r.parAddr c y; p.1.putVar (.mulpv p.2 x.taddr) v
  else if r.var y then
    if !r.dyn x && decide (x.value = 0) then (r, AD.con 0)
    else if !r.dyn x && decide (x.value = 1) then (r, y.likeVar v)
    else let p := r.parAddr c x; p.1.putVar (.mulpv p.2 y.taddr) v
  else if r.dyn x || r.dyn y then
    if !r.dyn x && decide (x.value = 0) then (r, AD.con 0)
    else if !r.dyn y && decide (y.value = 0) then (r, AD.con 0)
    else if !r.dyn x && decide (x.value = 1) then (r, y.likeDyn v)
    else if !r.dyn y && decide (y.value = 1) then (r, x.likeDyn v)
    else r.putDynBin c .mul x y v
  else (r, AD.con v)

/-- cppad/core/div.hpp:12-125 -/
noncomputable def divAD (c : Cfg) (r : Rec) (x y : AD) : Rec × AD :=
  let v := x.value / y.value
  if r.var x then
    if r.var y then r.putVar (.divvv x.taddr y.taddr) v
    else if !r.dyn y && decide (y.value = 1) then (r, x.likeVar v)
    else let p := r.parAddr c y; p.1.putVar (.divvp x.taddr p.2) v
  else if r.var y then
    if !r.dyn x && decide (x.value = 0) then (r, AD.con 0)
    else let p := r.parAddr c x; p.1.putVar (.divpv p.2 y.taddr) v
  else if r.dyn x || r.dyn y then
    if !r.dyn x && decide (x.value = 0) then (r, AD.con 0)
    else if !r.dyn y && decide (y.value = 1) then (r, x.likeDyn v)
    else r.putDynBin c .div x y v
  else (r, AD.con v)

/-- cppad/core/azmul.hpp:89-221 -/
noncomputable def azmulAD (c : Cfg) (r : Rec) (x y : AD) : Rec × AD :=
  let v := BinF.azmul.fn x.value y.value
  if r.var x then
    if r.var y then r.putVar (.zmulvv x.taddr y.taddr) v
    else if !r.dyn y && decide (y.value = 0) then (r, AD.con v)
    else if !r.dyn y && decide (y.value = 1) then (r, x.likeVar v)
    else let p := r.parAddr c y; p.1.putVar (.zmulvp x.taddr p.2) v
  else if r.var y then
    if !r.dyn x && decide (x.value = 0) then (r, AD.con v)
    else if !r.dyn x && decide (x.value = 1) then (r, y.likeVar v)
    else let p := r.parAddr c x; p.1.putVar (.zmulpv p.2 y.taddr) v
  else if r.dyn x || r.dyn y then
    if !r.dyn x && decide (x.value = 0) then (r, AD.con v)
    else if !r.dyn y && decide (y.value = 0) then (r, AD.con v)
    else if !r.dyn x && decide (x.value = 1) then (r, y.likeDyn v)
    else if !r.dyn y && decide (y.value = 1) then (r, x.likeDyn v)
    else r.putDynBin c .azmul x y v
  else (r, AD.con v)

/-- cppad/core/pow.hpp:108-227 -/
noncomputable def powAD (c : Cfg) (r : Rec) (x y : AD) : Rec × AD :=
  let v := x.value ^ y.value
  if r.var x then
    if r.var y then r.putVar (.powvv x.taddr y.taddr) v
    else if !r.dyn y && decide (y.value = 0) then (r, AD.con v)
    else let p := r.parAddr c y; p.1.putVar (.powvp x.taddr p.2) v
  else if r.var y then
    if !r.dyn x && decide (x.value = 0) then (r, AD.con v)
    else let p := r.parAddr c x; p.1.putVar (.powpv p.2 y.taddr) v
  else if r.dyn x || r.dyn y then
    if !r.dyn x && decide (x.value = 0) then (r, AD.con v)
    else if !r.dyn y && decide (y.value = 0) then (r, AD.con v)
    else r.putDynBin c .pow x y v
  else (r, AD.con v)

/-- cppad/core/add_eq.hpp:12-125; `x` is `*this`, the new value of `*this` is returned -/
noncomputable def addEqAD (c : Cfg) (r : Rec) (x y : AD) : Rec × AD :=
  let v := x.value + y.value
  if r.var x then
    if r.var y then r.putVar (.addvv x.taddr y.taddr) v
    else if r.dyn y || !decide (y.value = 0) then let p := r.parAddr c y; p.1.putVar (.addpv p.2 x.taddr) v
    else (r, { x with value := v })
  else if r.var y then
    if !r.dyn x && decide (x.value = 0) then (r, y.likeVar v)
    else let p := r.parAddr c x; p.1.putVar (.addpv p.2 y.taddr) v
  else if r.dyn x || r.dyn y then
    if !r.dyn y && decide (y.value = 0) then (r, { x with value := v })
    else if !r.dyn x && decide (x.value = 0) then (r, y.likeDyn v)
    else r.putDynBin c .add x y v
  else (r, { x with value := v })

/-- cppad/core/sub_eq.hpp:12-117 -/
noncomputable def subEqAD (c : Cfg) (r : Rec) (x y : AD) : Rec × AD :=
  let v := x.value - y.value
  if r.var x then
    if r.var y then r.putVar (.subvv x.taddr y.taddr) v
    else if !r.dyn y && decide (y.value = 0) then (r, { x with value := v })
    else let p := r.parAddr c y; p.1.putVar (.subvp x.taddr p.2) v
  else if r.var y then
    let p := r.parAddr c x; p.1.putVar (.subpv p.2 y.taddr) v
  else if r.dyn x || r.dyn y then
    if !r.dyn y && decide (y.value = 0) then (r, { x with value := v })
    else r.putDynBin c .sub x y v
  else (r, { x with value := v })

/-- cppad/core/mul_eq.hpp:12-138 -/
noncomputable def mulEqAD (c : Cfg) (r : Rec) (x y : AD) : Rec × AD :=
  let v := x.value * y.value
  if r.var x then
    if r.var y then r.putVar (.mulvv x.taddr y.taddr) v
    else if !r.dyn y && decide (y.value = 1) then (r, { x with value := v })
    else if !r.dyn y && decide (y.value = 0) then (r, { x with value := v, tapeId := 0 })
    else let p := r.parAddr c y; p.1.putVar (.mulpv p.2 x.taddr) v
  else if r.var y then
    if !r.dyn x && decide (x.value = 0) then (r, { x with value := v })
    else if !r.dyn x && decide (x.value = 1) then (r, y.likeVar v)
    else let p := r.parAddr c x; p.1.putVar (.mulpv p.2 y.taddr) v
  else if r.dyn x || r.dyn y then
    if !r.dyn y && decide (y.value = 1) then (r, { x with value := v })
    else if !r.dyn y && decide (y.value = 0) then (r, { x with value := v, tapeId := 0 })
    else if !r.dyn x && decide (x.value = 1) then (r, y.likeDyn v)
    else if !r.dyn x && decide (x.value = 0) then (r, { x with value := v })
    else r.putDynBin c .mul x y v
  else (r, { x with value := v })

/-- cppad/core/div_eq.hpp:12-123 -/
noncomputable def divEqAD (c : Cfg) (r : Rec) (x y : AD) : Rec × AD :=
  let v := x.value / y.value
  if r.var x then
    if r.var y then r.putVar (.divvv x.taddr y.taddr) v
    else if !r.dyn y && decide (y.value = 1) then (r, { x with value := v })
    else let p := r.parAddr c y; p.1.putVar (.divvp x.taddr p.2) v
  else if r.var y then
    if !r.dyn x && decide (x.value = 0) then (r, { x with value := v })
    else let p := r.parAddr c x; p.1.putVar (.divpv p.2 y.taddr) v
  else if r.dyn x || r.dyn y then
    if !r.dyn y && decide (y.value = 1) then (r, { x with value := v })
    else if !r.dyn x && decide (x.value = 0) then (r, { x with value := v })
    else r.putDynBin c .div x y v
  else (r, { x with value := v })

/-- dispatch of the binary functions -/
noncomputable def binAD (c : Cfg) (r : Rec) : BinF → AD → AD → Rec × AD
  | .add => addAD c r
  | .sub => subAD c r
  | .mul => mulAD c r
  | .div => divAD c r
  | .azmul => azmulAD c r
  | .pow => powAD c r

/-- the compound assignment operators += -= *= /= -/
inductive EqF | add | sub | mul | div

/-- *Specification*: the binary operation of a compound assignment -/
def EqF.bin : EqF → BinF
  | .add => .add
  | .sub => .sub
  | .mul => .mul
  | .div => .div

/-- dispatch of the compound assignments -/
noncomputable def eqAD (c : Cfg) (r : Rec) : EqF → AD → AD → Rec × AD
  | .add => addEqAD c r
  | .sub => subEqAD c r
  | .mul => mulEqAD c r
  | .div => divEqAD c r

/-- Unary functions: cppad/core/abs.hpp:75-114, sign.hpp:72-111, unary_minus.hpp:76-116 and the macro in
standard_math.hpp / std_math_11.hpp, which all have this form. -/
noncomputable def unAD (r : Rec) (f : UnF) (x : AD) : Rec × AD :=
  let v := f.fn x.value
  if x.tapeId ≠ r.id then (r, AD.con v)
  else if x.adType = .dynamic then r.putDyn (.un f x.taddr) v
  else r.putVar (.un f x.taddr) v

/-- cppad/core/discrete/discrete.hpp:250-313 -/
noncomputable def disAD (c : Cfg) (r : Rec) (k : ℕ) (x : AD) : Rec × AD :=
  let v := c.disc k x.value
  if x.tapeId ≠ r.id then (r, AD.con v)
  else if x.adType = .dynamic then r.putDyn (.dis k x.taddr) v
  else r.putVar (.dis k x.taddr) v

/-- Constant(x), cppad/core/con_dyn_var.hpp:93-100, for an object that is not on the tape of an other thread -/
def Rec.constant (r : Rec) (a : AD) : Bool := !decide (a.tapeId = r.id)

/-- One operand of cond_exp, cppad/local/record/cond_exp.hpp:95-104: address and whether it is a variable.
`bit` is what is added to `arg1` when it is. -/
noncomputable def Rec.cexpOpd (c : Cfg) (r : Rec) (a : AD) (bit : ℕ) : Rec × ℕ × ℕ :=
  if r.constant a then let p := r.putCon c a.value; (p.1, p.2, 0)
  else (r, a.taddr, if a.adType = .dynamic then 0 else bit)

/-- CondExpOp, cppad/core/cond_exp.hpp:164-194 and recorder::cond_exp, cppad/local/record/cond_exp.hpp:74-174 -/
noncomputable def cexpAD (c : Cfg) (r : Rec) (cop : CompareOp) (left right t f : AD) : Rec × AD :=
  let v := condExp cop left.value right.value t.value f.value
  if r.constant left && r.constant right then (r, AD.con v)
  else
    let a2 := r.cexpOpd c left 1
    let a3 := a2.1.cexpOpd c right 2
    let a4 := a3.1.cexpOpd c t 4
    let a5 := a4.1.cexpOpd c f 8
    let arg1 := a2.2.2 + a3.2.2 + a4.2.2 + a5.2.2
    if arg1 = 0 then a5.1.putDyn (.cexp cop a2.2.1 a3.2.1 a4.2.1 a5.2.1) v
    else a5.1.putVar (.cexp cop arg1 a2.2.1 a3.2.1 a4.2.1 a5.2.1) v

/-- The operator recorded for a comparison with outcome `res`, operands variable and variable
(`vv`), variable and parameter (`vp`), parameter and variable (`pv`), or both parameters (`pp`):
cppad/core/compare.hpp `<` 145-203, `<=` 241-299, `>` 337-395, `>=` 433-491, `!=` 570-617,
cppad/local/record/comp_op.hpp:86-142 (`==`). -/
def cmpVV (cop : CompareOp) (res : Bool) (x y : ℕ) : ROp :=
  match cop, res with
  | .lt, true => .ltvv x y | .lt, false => .levv y x
  | .le, true => .levv x y | .le, false => .ltvv y x
  | .gt, true => .ltvv y x | .gt, false => .levv x y
  | .ge, true => .levv y x | .ge, false => .ltvv x y
  | .eq, true => .eqvv x y | .eq, false => .nevv x y
  | .ne, true => .nevv x y | .ne, false => .eqvv x y

/-- variable `x`, parameter `p`; see `cmpVV` -/
def cmpVP (cop : CompareOp) (res : Bool) (x p : ℕ) : ROp :=
  match cop, res with
  | .lt, true => .ltvp x p | .lt, false => .lepv p x
  | .le, true => .levp x p | .le, false => .ltpv p x
  | .gt, true => .ltpv p x | .gt, false => .levp x p
  | .ge, true => .lepv p x | .ge, false => .ltvp x p
  | .eq, true => .eqpv p x | .eq, false => .nepv p x
  | .ne, true => .nepv p x | .ne, false => .eqpv p x

/-- parameter `p`, variable `y`; see `cmpVV` -/
def cmpPV (cop : CompareOp) (res : Bool) (p y : ℕ) : ROp :=
  match cop, res with
  | .lt, true => .ltpv p y | .lt, false => .levp y p
  | .le, true => .lepv p y | .le, false => .ltvp y p
  | .gt, true => .ltvp y p | .gt, false => .lepv p y
  | .ge, true => .levp y p | .ge, false => .ltpv p y
  | .eq, true => .eqpv p y | .eq, false => .nepv p y
  | .ne, true => .nepv p y | .ne, false => .eqpv p y

/-- parameters `p` and `q`; see `cmpVV` -/
def cmpPP (cop : CompareOp) (res : Bool) (p q : ℕ) : ROp :=
  match cop, res with
  | .lt, true => .ltpp p q | .lt, false => .lepp q p
  | .le, true => .lepp p q | .le, false => .ltpp q p
  | .gt, true => .ltpp q p | .gt, false => .lepp p q
  | .ge, true => .lepp q p | .ge, false => .ltpp p q
  | .eq, true => .eqpp p q | .eq, false => .nepp p q
  | .ne, true => .nepp p q | .ne, false => .eqpp p q

/-- A comparison of AD objects, cppad/core/compare.hpp:116-619.  Returns the recorder, the
bool result, and the operator index (BeginOp and the `n` InvOp are before the other operators) of the recorded comparison operator if any. -/
noncomputable def compareAD (c : Cfg) (r : Rec) (cop : CompareOp) (x y : AD) : Rec × Bool × Option ℕ :=
  let res := decide (cop.holds x.value y.value)
  if !r.recordCompare then (r, res, none)
  else if r.var x then
    if r.var y then ((r.putOp (cmpVV cop res x.taddr y.taddr)).1, res, some (r.n + 1 + opCount r.ops))
    else
      let p := r.parAddr c y
      ((p.1.putOp (cmpVP cop res x.taddr p.2)).1, res, some (r.n + 1 + opCount r.ops))
  else if r.var y then
    let p := r.parAddr c x
    ((p.1.putOp (cmpPV cop res p.2 y.taddr)).1, res, some (r.n + 1 + opCount r.ops))
  else if r.dyn x || r.dyn y then
    let a0 := r.parAddr c x
    let a1 := a0.1.parAddr c y
    ((a1.1.putOp (cmpPP cop res a0.2 a1.2)).1, res, some (r.n + 1 + opCount r.ops))
  else (r, res, none)

/-! ## PrintFor -/

/-- the characters of a C string: those before the first `'\0'` -/
def cstr (t : List Char) : List Char := t.takeWhile (· ≠ '\x00')

/-- recorder::PutTxt, cppad/local/record/recorder.hpp:754-782; `t` are the characters at the address `text` -/
def Rec.putTxt (r : Rec) (t : List Char) : Rec × ℕ := ({ r with text := r.text ++ (cstr t ++ ['\x00']) }, r.text.length)

/-- the address of `notpos` or `value`, and whether it is a variable; core/print_for.hpp:149-158, 163-172 -/
noncomputable def Rec.priAddr (c : Cfg) (r : Rec) (a : AD) : Rec × ℕ × Bool :=
  if r.constant a then let p := r.putCon c a.value; (p.1, p.2, false)
  else (r, a.taddr, !r.dyn a)

/-- PrintFor(notpos, before, value, after), core/print_for.hpp:132-188; the other versions (print_for.hpp:190-232) call this one.
The check that the strings have at most 1000 characters is not modelled. -/
noncomputable def printFor (c : Cfg) (r : Rec) (notpos : AD) (before : List Char) (value : AD) (after : List Char) : Rec :=
  let a1 := r.priAddr c notpos
  let a2 := a1.1.putTxt before
  let a3 := a2.1.priAddr c value
  let a4 := a3.1.putTxt after
  (a4.1.putOp (.pri ((if a1.2.2 then 1 else 0) + (if a3.2.2 then 2 else 0)) a1.2.1 a2.2 a3.2.1 a4.2)).1

/-! ## VecAD -/

/-- class VecAD, cppad/core/vec_ad/vec_ad.hpp:364-382: `data_`, `tape_id_`, the vector in the recording (`offset_`), and
whether `ad_type_` is `variable_enum` (else it is `constant_enum`).  `taddr_` is only used
temporarily.  VecAD objects cannot be copied (pod_vector.hpp:128). -/
structure VecAD where
  data : List ℝ
  tapeId : ℕ
  vec : ℕ
  isVar : Bool

/-- VecAD(length) followed by setting its elements using size_t indices, vec_ad.hpp:396-437 -/
def VecAD.con (data : List ℝ) : VecAD := ⟨data, 0, 0, false⟩

/-- The element of a vector with `len` elements selected by the index `x`: `Integer(x)` is the integer part (towards zero).
`none`: the index is not in range, which is an error reported by the tests in vec_ad.hpp:442-449,
load_op.hpp:237-240, store_op.hpp:225-228. -/
noncomputable def vecIndex (len : ℕ) (x : ℝ) : Option ℕ := if -1 < x ∧ ⌊x⌋₊ < len then some ⌊x⌋₊ else none

/-- read an element, zero when the index is not in range (the C++ program has then stopped with an error message) -/
noncomputable def vecGet (d : List ℝ) (x : ℝ) : ℝ :=
  match vecIndex d.length x with
  | some i => at' d i
  | none => 0

/-- change an element, nothing when the index is not in range -/
noncomputable def vecSet (d : List ℝ) (x y : ℝ) : List ℝ :=
  match vecIndex d.length x with
  | some i => d.set i y
  | none => d

/-- `var_vec`, vec_ad.hpp:207, 215 -/
def Rec.varVec (r : Rec) (v : VecAD) : Bool := decide (v.tapeId = r.id) && v.isVar

/-- `var_ind`, `var_right`, vec_ad.hpp:216, 539, 540.  Here the test is `ad_type_ == variable_enum`. -/
def Rec.isV (r : Rec) (a : AD) : Bool := decide (a.tapeId = r.id) && decide (a.adType = .variable)

/-- the loop `taddr_[i] = put_con_par( data_[i] )`, vec_ad.hpp:485-486, 565-566 -/
noncomputable def Rec.putCons (c : Cfg) (r : Rec) : List ℝ → Rec × List ℕ
  | [] => (r, [])
  | v :: l =>
    let d := r.putCon c v
    let e := d.1.putCons c l
    (e.1, d.2 :: e.2)

/-- place a copy of a vector in the recording, vec_ad.hpp:484-498 and 564-577, put_var_vecad.hpp:104-125 -/
noncomputable def VecAD.put (c : Cfg) (r : Rec) (v : VecAD) (tapeId : ℕ) : Rec × VecAD :=
  let d := r.putCons c v.data
  ({ d.1 with vecs := d.1.vecs ++ [d.2] }, { v with tapeId := tapeId, vec := d.1.vecs.length, isVar := true })

/-- VecAD::operator[](const AD& ind), vec_ad.hpp:440-502: the effect on the recorder and the vector -/
noncomputable def VecAD.index (c : Cfg) (r : Rec) (v : VecAD) (ind : AD) : Rec × VecAD :=
  if !r.varVec v && !(r.dyn ind || r.isV ind) then (r, v)
  else if !r.varVec v then v.put c r ind.tapeId
  else (r, v)

/-- the address of an index or element: `taddr_` or `put_con_par(value_)` if it is a constant, vec_ad.hpp:230-233, 582-591 -/
noncomputable def opdAddr (c : Cfg) (r : Rec) (a : AD) : Rec × ℕ :=
  if !(r.dyn a || r.isV a) then r.putCon c a.value else (r, a.taddr)

/-- VecAD_reference::ADBase, vec_ad.hpp:187-273 -/
noncomputable def VecAD.load (c : Cfg) (r : Rec) (v : VecAD) (ind : AD) : Rec × AD :=
  let val := vecGet v.data ind.value
  if !r.varVec v && !(r.dyn ind || r.isV ind) then (r, AD.con val)
  else
    let p := opdAddr c r ind
    if r.isV ind then p.1.putVar (.ldv v.vec p.2) val
    else p.1.putVar (.ldp v.vec p.2) val

/-- recording a store in a vector that is in the recording, vec_ad.hpp:582-639 -/
noncomputable def VecAD.putStore (c : Cfg) (r : Rec) (v : VecAD) (ind right : AD) : Rec :=
  let p := opdAddr c r ind
  let q := opdAddr c p.1 right
  let op := if r.isV right then
      if !r.isV ind then ROp.stpv v.vec p.2 q.2 else ROp.stvv v.vec p.2 q.2
    else if !r.isV ind then ROp.stpp v.vec p.2 q.2 else ROp.stvp v.vec p.2 q.2
  (q.1.putOp op).1

/-- VecAD_reference::operator=(const AD& right), vec_ad.hpp:507-640 -/
noncomputable def VecAD.store (c : Cfg) (r : Rec) (v : VecAD) (ind right : AD) : Rec × VecAD :=
  let v := { v with data := vecSet v.data ind.value right.value }
  if !r.varVec v && !(r.dyn right || r.isV right) then (r, v)
  else if !r.varVec v then
    let d := v.put c r right.tapeId
    (d.2.putStore c d.1 ind right, d.2)
  else (v.putStore c r ind right, v)

/-! ## Calls of atomic functions -/

/-- an atomic function: its callbacks (for one value of `call_id`) including `for_type`, which returns `type_y` given `type_x`;
cppad/core/atomic/four/for_type.hpp -/
structure RAtom where
  A : Atom
  forType : (ℕ → AtomEx.AdT) → ℕ → AtomEx.AdT
  /-- the contract of `for_type` -/
  type_ok : AtomEx.ForType A.n A.m A.fn forType

/-- `type_x[j]`, cppad/core/atomic/four/call.hpp:140-151 -/
noncomputable def Rec.atomType (r : Rec) (a : AD) : AtomEx.AdT :=
  if a.tapeId ≠ r.id then if a.value = 0 then .identicalZero else .constant
  else if a.adType = .dynamic then .dynamic else .var

/-- `type_x`, call.hpp:140-168 -/
noncomputable def Rec.atomTypes (r : Rec) (ax : List AD) (j : ℕ) : AtomEx.AdT :=
  match ax[j]? with
  | some a => r.atomType a
  | none => .constant

/-- the arguments of a call in put_dyn_atomic, cppad/local/record/put_dyn_atomic.hpp:121-143; variables are replaced by the phantom
parameter index zero -/
noncomputable def Rec.dynAtomArgs (c : Cfg) (r : Rec) : List AD → Rec × List ℕ
  | [] => (r, [])
  | a :: l =>
    let d := match r.atomType a with
      | .identicalZero | .constant => r.putCon c a.value
      | .dynamic => (r, a.taddr)
      | .var => (r, 0)
    let e := d.1.dynAtomArgs c l
    (e.1, d.2 :: e.2)

/-- the results of a call in put_dyn_atomic, put_dyn_atomic.hpp:144-175: results `i` of type dynamic are put in the recording, the other
ones are constants (call.hpp:197-205; `ad_type_` of a constant is not changed by the code, it is not used when `tape_id_` is zero).
`is` are the indices of the results. -/
noncomputable def Rec.dynAtomRes (r : Rec) (op : ℕ → DynOp) (ty : ℕ → AtomEx.AdT) (val : ℕ → ℝ) : List ℕ → Rec × List AD
  | [] => (r, [])
  | i :: is =>
    let d := if ty i = .dynamic then r.putDyn (op i) (val i) else (r, AD.con (val i))
    let e := d.1.dynAtomRes op ty val is
    (e.1, d.2 :: e.2)

/-- the arguments of a call in put_var_atomic, cppad/local/record/put_var_atomic.hpp:128-142 -/
noncomputable def Rec.varAtomArgs (c : Cfg) (r : Rec) : List AD → Rec × List FunArg
  | [] => (r, [])
  | a :: l =>
    let d : Rec × FunArg := match r.atomType a with
      | .var => (r, .var a.taddr)
      | .dynamic => (r, .dyn a.taddr)
      | _ => let p := r.putCon c a.value; (p.1, .con p.2)
    let e := d.1.varAtomArgs c l
    (e.1, d.2 :: e.2)

/-- the results of a call in put_var_atomic, put_var_atomic.hpp:147-161: `none` is FunrvOp, `some q` is FunrpOp with parameter `q`.
`ay` are the results after put_dyn_atomic, `i` is the index of the first one. -/
noncomputable def Rec.varAtomRes (c : Cfg) (r : Rec) (ty : ℕ → AtomEx.AdT) : ℕ → List AD → Rec × List (Option ℕ)
  | _, [] => (r, [])
  | i, a :: l =>
    let d : Rec × Option ℕ := match ty i with
      | .var => (r, none)
      | .dynamic => (r, some a.taddr)
      | _ => let p := r.putCon c a.value; (p.1, some p.2)
    let e := d.1.varAtomRes c ty (i + 1) l
    (e.1, d.2 :: e.2)

/-- `taddr_` of the results that are variables: the `k`-th FunrvOp has variable index `nv + k`; put_var_atomic.hpp:148-152 -/
def atomVars (id nv : ℕ) (ty : ℕ → AtomEx.AdT) : ℕ → List AD → List AD
  | _, [] => []
  | i, a :: l =>
    if ty i = .var then ⟨a.value, id, nv, .variable⟩ :: atomVars id (nv + 1) ty (i + 1) l
    else a :: atomVars id nv ty (i + 1) l

/-- atomic_four::operator(), cppad/core/atomic/four/call.hpp:102-243.  `ax` has size `A.n`.  The operators of the call are put in the recording together at the end of put_var_atomic; the
constants found on the way are in a separate vector.  If all the arguments are constants, a result that is not (which is a mistake in
`for_type`) is an error in the code. -/
noncomputable def atomAD (c : Cfg) (r : Rec) (F : RAtom) (ax : List AD) : Rec × List AD :=
  let ty := F.forType (r.atomTypes ax)
  let val := F.A.forward (fun _ => true) 0 0 (fun j => (ax.getD j (AD.con 0)).value) (fun _ => 0)
  let is := List.range F.A.m
  let d : Rec × List AD := if is.any fun i => ty i = .dynamic then
      let a := r.dynAtomArgs c ax
      a.1.dynAtomRes (fun i => .atom F.A (is.map fun k => ty k = .dynamic) i a.2) ty val is
    else (r, is.map fun i => AD.con (val i))
  if is.any fun i => ty i = .var then
    let a := d.1.varAtomArgs c ax
    let b := a.1.varAtomRes c ty 0 d.2
    ((b.1.putOp (.atom F.A a.2 b.2)).1, atomVars r.id b.1.numVar ty 0 d.2)
  else d

/-! ## Starting and ending the recording -/

/-- ADTape::Independent, cppad/local/independent.hpp:34-110: the new recorder, the independent variables and the
independent dynamic parameters.  `nan` is the value stored at parameter index zero. -/
def independent (nan : ℝ) (hashNan id : ℕ) (recordCompare : Bool) (x p : List ℝ) : Rec × List AD × List AD :=
  let d : DynRec ℝ :=
    { parAll := nan :: p
      parIsDyn := false :: p.map fun _ => true
      dynOps := p.map fun _ => .ind
      hashTable := Function.update (fun _ => 0) hashNan 0 }
  ({ toDynRec := d, id := id, n := x.length, numVar := x.length + 1, ops := [], recordCompare := recordCompare },
   x.mapIdx fun j v => ⟨v, id, j + 1, .variable⟩,
   p.mapIdx fun j v => ⟨v, id, j + 1, .dynamic⟩)

/-- one dependent variable: cppad/core/dependent.hpp:251-263 and RecordParOp, cppad/local/ad_tape.hpp:162-176 -/
noncomputable def Rec.dependent (c : Cfg) (r : Rec) (y : AD) : Rec × ℕ :=
  if r.var y then (r, y.taddr)
  else
    let p := r.parAddr c y
    p.1.putOp (.par p.2)

/-- the loop over the dependent variables, cppad/core/dependent.hpp:251-263; returns `dep_taddr_` -/
noncomputable def Rec.dependents (c : Cfg) (r : Rec) : List AD → Rec × List ℕ
  | [] => (r, [])
  | y :: ys =>
    let d := r.dependent c y
    let e := d.1.dependents c ys
    (e.1, d.2 :: e.2)

/-! ## Playing the recording back -/

/-- dyn2par_index, cppad/local/play/dyn_player.hpp:327-362: indices of the dynamic parameters -/
def dyn2par (isDyn : List Bool) : List ℕ := (List.range isDyn.length).filter fun i => isDyn.getD i false

/-- one step of the dynamic sweep, cppad/local/sweep/dynamic.hpp:167-520: the new value of dynamic parameter
number `i` -/
noncomputable def DynOp.eval (disc : ℕ → ℝ → ℝ) (ind : List ℝ) (i : ℕ) (par : List ℝ) : DynOp → ℝ
  | .ind => at' ind i
  | .un f a => f.fn (at' par a)
  | .bin f a b => f.fn (at' par a) (at' par b)
  | .dis k a => disc k (at' par a)
  | .cexp cop l r t f => condExp cop (at' par l) (at' par r) (at' par t) (at' par f)
  | .atom A sel i args => A.forward (fun k => sel.getD k false) 0 0 (fun j => (args[j]?.map (at' par)).getD 0) (fun _ => 0) i

/-- cppad/local/sweep/dynamic.hpp:87-563; the results of atom_dyn: dynamic.hpp:425-513 -/
noncomputable def dynamicSweep (disc : ℕ → ℝ → ℝ) (ind : List ℝ) (isDyn : List Bool) (ops : List DynOp)
    (par : List ℝ) : List ℝ :=
  let d2p := dyn2par isDyn
  forRange 0 d2p.length par fun i par => par.set (d2p.getD i 0) ((ops.getD i .ind).eval disc ind i par)

/-- `var` or `par` operand of CExpOp by bit `k` of `flag`, cppad/local/var_op/cexp_op.hpp:84-130 -/
def cexpArg (flag bit i : ℕ) (par : ℕ → ℝ) : Opd := if flag.testBit bit then .var i else .par (par i)

/-- operand of FunapOp, FunavOp; cppad/local/var_op/atomic_op.hpp:286-310 -/
def atomX (xs : List FunArg) (par : ℕ → ℝ) (j : ℕ) : Opd :=
  match xs[j]? with
  | some (.con p) => .par (par p)
  | some (.dyn p) => .par (par p)
  | some (.var v) => .var v
  | none => .par 0

/-- `ident_zero_x`, cppad/local/sweep/call_atomic.hpp:432-443 -/
noncomputable def atomIdent (xs : List FunArg) (par : ℕ → ℝ) (j : ℕ) : Bool :=
  match xs[j]? with
  | some (.con p) => decide (par p = 0)
  | _ => false

/-- value of FunrpOp, none for FunrvOp; cppad/local/var_op/atomic_op.hpp:326-353 -/
def atomY (ys : List (Option ℕ)) (par : ℕ → ℝ) (i : ℕ) : Option ℝ :=
  match ys[i]? with
  | some (some q) => some (par q)
  | _ => none

theorem atomIdent_ok (xs : List FunArg) (par : ℕ → ℝ) (j : ℕ) (h : atomIdent xs par j = true) : atomX xs par j = .par 0 := by
  unfold atomIdent at h
  unfold atomX
  split at h
  · rename_i p hp
    rw [hp]
    simp only [decide_eq_true_eq] at h
    simp only [h]
  · simp at h

/-- The call of an atomic function that is executed by the sweeps, when the parameter values are `par`; none if no result is a
variable.  The parameters that are results must have the values of the results (`AtomCall.par_res`); this is so for all recordings, see
`atomAD_ok`.  If it is not, this is another call with the same number of results. -/
noncomputable def atomOp (A : Atom) (xs : List FunArg) (ys : List (Option ℕ)) (par : ℕ → ℝ) : Option Op :=
  if h0 : ∃ i < A.m, atomY ys par i = none then
    some (.atom (
      if h : ∀ (e : ℕ → ℝ), ∀ i < A.m, ∀ c, atomY ys par i = some c →
          A.fn (fun j => match atomX xs par j with | .par c => c | .var v => e v) i = c then
        ⟨A, atomX xs par, atomY ys par, h0, h, atomIdent xs par, atomIdent_ok xs par⟩
      else
        ⟨A, fun _ => .par 0, fun i => (atomY ys par i).map fun _ => A.fn (fun _ => 0) i,
          h0.imp fun i hi => ⟨hi.1, by rw [hi.2]; rfl⟩,
          fun e i _ c hc => by
            simp only [Option.map_eq_some_iff] at hc
            obtain ⟨_, _, hc⟩ := hc
            exact hc,
          fun _ => false, fun _ h => by simp at h⟩))
  else none

/-- the operator executed by the sweeps for a recorded operator when the parameter values are `par`;
none for the comparison operators.  Dispatch in cppad/local/sweep/forward_0.hpp:150-560. -/
noncomputable def ROp.toOp (disc : ℕ → ℝ → ℝ) (par : ℕ → ℝ) : ROp → Option Op
  | .un f ix => some (f.op ix)
  | .addpv p v => some (.addpv (par p) v)
  | .addvv v w => some (.addvv v w)
  | .subpv p v => some (.subpv (par p) v)
  | .subvp v p => some (.subvp v (par p))
  | .subvv v w => some (.subvv v w)
  | .mulpv p v => some (.mulpv (par p) v)
  | .mulvv v w => some (.mulvv v w)
  | .divpv p v => some (.divpv (par p) v)
  | .divvp v p => some (.divvp v (par p))
  | .divvv v w => some (.divvv v w)
  | .zmulpv p v => some (.zmulpv (par p) v)
  | .zmulvp v p => some (.zmulvp v (par p))
  | .zmulvv v w => some (.zmulvv v w)
  | .powpv p v => some (.powpv (par p) v)
  | .powvp v p => some (.powvp v (par p))
  | .powvv v w => some (.powvv v w)
  | .dis k v => some (.dis (disc k) v)
  | .par p => some (.par (par p))
  | .cexp cop flag l r t f =>
    some (.cexp cop (cexpArg flag 0 l par) (cexpArg flag 1 r par) (cexpArg flag 2 t par) (cexpArg flag 3 f par))
  | .atom A xs ys => atomOp A xs ys par
  | _ => none

/-- an element of a VecAD vector: `vec_ad2isvar` and `vec_ad2index`, forward_0.hpp:78-91 -/
inductive Cell | par (p : ℕ) | var (v : ℕ)

/-- the elements of the vectors in the recording -/
abbrev Mem := ℕ → ℕ → Cell

/-- forward_0.hpp:84-91: the initial elements are parameters -/
def initMem (vecs : List (List ℕ)) : Mem := fun k i => .par ((vecs.getD k []).getD i 0)

/-- load_forward_0, cppad/local/var_op/load_op.hpp:196-263: the operation that is executed by the sweeps for a load.
`addpv 0 v` copies the variable `v` (see `loadForward`, `loadReverse`), this corresponds to `load_op2var` equal to `v`; `par c` is
the value of a parameter, `load_op2var` is zero. -/
noncomputable def vecLoad (par : ℕ → ℝ) (vecs : List (List ℕ)) (mem : Mem) (k : ℕ) (x : ℝ) : Op :=
  match vecIndex (vecs.getD k []).length x with
  | some i => match mem k i with
    | .par p => .par (par p)
    | .var v => .addpv 0 v
  | none => .par 0

/-- store_forward_0, cppad/local/var_op/store_op.hpp:169-233 -/
noncomputable def vecStore (vecs : List (List ℕ)) (mem : Mem) (k : ℕ) (x : ℝ) (a : Cell) : Mem :=
  match vecIndex (vecs.getD k []).length x with
  | some i => Function.update mem k (Function.update (mem k) i a)
  | none => mem

/-- the operation executed by the sweeps, VecAD operators included; `e` are the order zero Taylor coefficients.
None for comparisons and stores. -/
noncomputable def ROp.toOpM (disc : ℕ → ℝ → ℝ) (par : ℕ → ℝ) (vecs : List (List ℕ)) (e : ℕ → ℝ) (mem : Mem) (op : ROp) :
    Option Op :=
  match op with
  | .ldp k p => some (vecLoad par vecs mem k (par p))
  | .ldv k v => some (vecLoad par vecs mem k (e v))
  | op => op.toOp disc par

/-- the elements of the vectors after an operator -/
noncomputable def ROp.memM (par : ℕ → ℝ) (vecs : List (List ℕ)) (e : ℕ → ℝ) (mem : Mem) : ROp → Mem
  | .stpp k p q => vecStore vecs mem k (par p) (.par q)
  | .stpv k p v => vecStore vecs mem k (par p) (.var v)
  | .stvp k v q => vecStore vecs mem k (e v) (.par q)
  | .stvv k v w => vecStore vecs mem k (e v) (.var w)
  | _ => mem

/-- The operations executed by the sweeps when the order zero Taylor coefficients before them are `e`, and the elements of the vectors
at the end.  (The sweep finds them while it computes the order zero coefficients, see `sweep0_fst`.) -/
noncomputable def resolve (disc : ℕ → ℝ → ℝ) (par : ℕ → ℝ) (vecs : List (List ℕ)) : List ROp → ℕ → (ℕ → ℝ) → Mem → List Op × Mem
  | [], _, _, mem => ([], mem)
  | op :: ops, nv, e, mem =>
    match op.toOpM disc par vecs e mem with
    | some o =>
      let d := resolve disc par vecs ops (nv + o.nres) (stepEnv o nv e) mem
      (o :: d.1, d.2)
    | none => resolve disc par vecs ops nv e (op.memM par vecs e mem)

/-- compare_forward_any, cppad/local/var_op/compare_op.hpp:186-263: whether the outcome is different from
the one recorded; `e` are the order zero Taylor coefficients.  None if the operator is not a comparison. -/
noncomputable def ROp.change (par : ℕ → ℝ) (e : ℕ → ℝ) : ROp → Bool
  | .eqpp p q => decide (par p ≠ par q)
  | .eqpv p v => decide (par p ≠ e v)
  | .eqvv v w => decide (e v ≠ e w)
  | .lepp p q => decide (0 < par p - par q)
  | .lepv p v => decide (0 < par p - e v)
  | .levp v p => decide (0 < e v - par p)
  | .levv v w => decide (0 < e v - e w)
  | .ltpp p q => decide (0 ≤ par p - par q)
  | .ltpv p v => decide (0 ≤ par p - e v)
  | .ltvp v p => decide (0 ≤ e v - par p)
  | .ltvv v w => decide (0 ≤ e v - e w)
  | .nepp p q => decide (par p = par q)
  | .nepv p v => decide (par p = e v)
  | .nevv v w => decide (e v = e w)
  | _ => false

/-- compare_change_number_ and compare_change_op_index_, cppad/core/ad_fun.hpp:76-86 -/
structure CmpCount where
  number : ℕ
  opIndex : ℕ

/-- compare_op.hpp:181-183 and 264-268 -/
def CmpCount.add (k : CmpCount) (count iop : ℕ) (change : Bool) : CmpCount :=
  if count = 0 then k
  else if change then ⟨k.number + 1, if k.number + 1 = count then iop else k.opIndex⟩
  else k

/-- cppad/local/sweep/forward_0.hpp:46-572 for recorded operators, including the comparisons and the VecAD operators.
`iop` is the index of the next operator and `nv` the number of variables before it. -/
noncomputable def sweep0 (disc : ℕ → ℝ → ℝ) (par : ℕ → ℝ) (vecs : List (List ℕ)) (count : ℕ) :
    List ROp → ℕ → ℕ → Tay → Mem → CmpCount → Tay × CmpCount
  | [], _, _, s, _, k => (s, k)
  | op :: ops, iop, nv, s, mem, k =>
    match op.toOpM disc par vecs (fun v => s v 0) mem with
    | some o => sweep0 disc par vecs count ops (iop + op.width) (nv + o.nres) (o.fwd0 (nv + o.nres - 1) s) mem k
    | none => sweep0 disc par vecs count ops (iop + op.width) nv s (op.memM par vecs (fun v => s v 0) mem)
        (k.add count iop (op.change par fun v => s v 0))

/-- one line of output: `before`, `value`, `after` (how the stream formats a number is not modelled) -/
abbrev Printed := List Char × ℝ × List Char

/-- the C string at `text + i`, local/var_op/pri_op.hpp:152, 165 -/
def readTxt (text : List Char) (i : ℕ) : List Char := cstr (text.drop i)

/-- pri_forward_0, local/var_op/pri_op.hpp:124-171; `e` are the order zero Taylor coefficients -/
noncomputable def ROp.print (text : List Char) (par : ℕ → ℝ) (e : ℕ → ℝ) : ROp → List Printed
  | .pri flag np before v after =>
    let pos := if flag.testBit 0 then e np else par np
    let value := if flag.testBit 1 then e v else par v
    if ¬ 0 < pos then [(readTxt text before, value, readTxt text after)] else []
  | _ => []

/-- What is printed by the sweep for orders zero to `q`: forward_0.hpp:418-422 (`q = 0`), forward_any.hpp:502-506 (`0 < q`). -/
noncomputable def sweepPri (disc : ℕ → ℝ → ℝ) (par : ℕ → ℝ) (vecs : List (List ℕ)) (text : List Char) (q : ℕ) :
    List ROp → ℕ → Tay → Mem → List Printed
  | [], _, _, _ => []
  | op :: ops, nv, s, mem =>
    match op.toOpM disc par vecs (fun v => s v 0) mem with
    | some o => sweepPri disc par vecs text q ops (nv + o.nres)
        (if q = 0 then o.fwd0 (nv + o.nres - 1) s else o.fwd 0 q (nv + o.nres - 1) s) mem
    | none => op.print text par (fun v => s v 0) ++
        sweepPri disc par vecs text q ops nv s (op.memM par vecs (fun v => s v 0) mem)

/-- cppad/local/sweep/forward_any.hpp:46-620 with `order_low = 0` and `order_up = q` for recorded operators (without the count of the
comparisons); loads: forward_any.hpp:392-432, stores: forward_any.hpp:543-560. -/
noncomputable def sweepAny0 (disc : ℕ → ℝ → ℝ) (par : ℕ → ℝ) (vecs : List (List ℕ)) (q : ℕ) :
    List ROp → ℕ → Tay → Mem → Tay
  | [], _, s, _ => s
  | op :: ops, nv, s, mem =>
    match op.toOpM disc par vecs (fun v => s v 0) mem with
    | some o => sweepAny0 disc par vecs q ops (nv + o.nres) (o.fwd 0 q (nv + o.nres - 1) s) mem
    | none => sweepAny0 disc par vecs q ops nv s (op.memM par vecs (fun v => s v 0) mem)

/-- load_forward_nonzero, cppad/local/var_op/load_op.hpp:318-367 (one direction); `iy` is `load_op2var[arg[2]]` -/
noncomputable def loadForward (iy p q iz : ℕ) (s : Tay) : Tay :=
  if 0 < iy then forRange p (q + 1) s fun k s => s.set iz k (s iy k)
  else forRange p (q + 1) s fun k s => s.set iz k 0

/-- load_reverse, cppad/local/var_op/load_op.hpp:437-468 -/
noncomputable def loadReverse (iy d iz : ℕ) (P : Tay) : Tay :=
  if 0 < iy then forDown0 (d + 1) P fun j P => P.add iy j (P iz j) else P

/-- `load_op2var`, load_op.hpp:241-256: the variable that is loaded, zero if it is a parameter -/
def loadVar : Op → ℕ
  | .addpv _ v => v
  | _ => 0

/-- The function object made from a recording: the player and `dep_taddr_`, cppad/core/dependent.hpp:232-328.
`parAll` may be changed by `new_dynamic`. -/
structure Fun where
  n : ℕ
  parAll : List ℝ
  parIsDyn : List Bool
  dynOps : List DynOp
  ops : List ROp
  dep : List ℕ
  vecs : List (List ℕ)
  text : List Char := []

/-- player::get_recording, cppad/local/play/player.hpp and dependent.hpp:290-302 -/
def Rec.toFun (r : Rec) (dep : List ℕ) : Fun := ⟨r.n, r.parAll, r.parIsDyn, r.dynOps, r.ops, dep, r.vecs, r.text⟩

/-- cppad/core/new_dynamic.hpp:95-128 (that the Taylor coefficients are
dropped is in `Session.Hist.newDynamic`) -/
noncomputable def Fun.newDynamic (disc : ℕ → ℝ → ℝ) (f : Fun) (p : List ℝ) : Fun :=
  { f with parAll := dynamicSweep disc p f.parIsDyn f.dynOps f.parAll }

/-- parameter values used by the sweeps (`play_.GetPar(i)`) -/
def Fun.par (f : Fun) (i : ℕ) : ℝ := at' f.parAll i

/-- the elementary operation sequence executed by the sweeps with the current parameter values, when the order zero
coefficients of the independent variables are `x` -/
noncomputable def Fun.tape (disc : ℕ → ℝ → ℝ) (f : Fun) (x : List ℝ) : Tape :=
  ⟨f.n, (resolve disc f.par f.vecs f.ops (f.n + 1) (indEnv (at' x)) (initMem f.vecs)).1, f.dep⟩

/-- compare_change_number() and compare_change_op_index() after Forward(0, x) with
compare_change_count(count); cppad/core/forward/forward.hpp:200-228.  `s` are the Taylor coefficients after the
independent variables have been set. -/
noncomputable def Fun.compareChange (disc : ℕ → ℝ → ℝ) (f : Fun) (count : ℕ) (s : Tay) : CmpCount :=
  (sweep0 disc f.par f.vecs count f.ops (f.n + 1) (f.n + 1) s (initMem f.vecs) ⟨0, 0⟩).2

/-- What Forward(q, xq, s) prints on the stream `s`; the lowest order that is computed is `p`: core/forward/forward.hpp:191-228,
forward_0.hpp:418-422, forward_any.hpp:502-506.  `s` are the Taylor coefficients after the independent variables have been set. -/
noncomputable def Fun.printed (disc : ℕ → ℝ → ℝ) (f : Fun) (p q : ℕ) (s : Tay) : List Printed :=
  if p = 0 then sweepPri disc f.par f.vecs f.text q f.ops (f.n + 1) s (initMem f.vecs) else []

end CppAD.Record
