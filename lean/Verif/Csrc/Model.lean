import Verif.Graph.Thm
import Verif.Graph.Json

/-! # C source code for a function

Model of `ADFun::to_csrc` (cppad/core/to_csrc.hpp) and `csrc_writer` (cppad_lib/csrc_writer.cpp).

The text that is written is represented by its abstract syntax (`CFun`); names of C functions and operators are the
characters that are written.  The meaning of that C code is defined here independently of the writer (`CFun.call`):
reading an element of the local array that has not been set, or an access outside an array, is
undefined behaviour (`none`); so is a statement that does not compile.

Simplifications: floating point numbers are real numbers (the decimal representation of a constant is the
constant); indentation, line breaks, comments, declarations and the float_point_t typedef are not represented; `NAN`
is some number. -/

open scoped Classical

namespace CppAD.Csrc

open CppAD CppAD.Record CppAD.Optim CppAD.Graph

/-! ## Abstract syntax of the C code that is written -/

/-- expressions; csrc_writer.cpp:52-129 -/
inductive CExpr
  | nan                                -- NAN
  | call1 (f : Txt) (a : ℕ)            -- f( v[a] )
  | call2 (f : Txt) (a b : ℕ)          -- f( v[a], v[b] )
  | op2 (o : Txt) (a b : ℕ)            -- v[a] o v[b]
  | zero                               -- (float_point_t) 0
  | sum (l : List ℕ)                   -- v[l0] + v[l1] + ...

/-- statements in the body of the function -/
inductive CStmt
  | retNu (n flag : ℕ)                 -- if( nu != n ) return flag;
  | retNy (n flag : ℕ)                 -- if( ny != n ) return flag;
  | copyU                              -- for(i = 0; i < nu; ++i) v[1+i] = u[i];
  | setCon (i : ℕ) (c : ℝ)             -- v[1+nu+i] = c;
  | set (k : ℕ) (e : CExpr)            -- v[k] = e;
  | incIf (o : Txt) (a b : ℕ)          -- if( v[a] o v[b] ) ++(*compare_change);
  | atom (f : Txt) (id nw res : ℕ) (args : List ℕ)
      -- { u[j] = v[args j]; flag = f(id, nu, u, nw, v + res, compare_change);
      --   if( flag == 1 || flag == 2 ) return 3; if( flag != 0 ) return flag; }
  | setY (i k : ℕ)                     -- y[i] = v[k];
  | ret (flag : ℕ)                     -- return flag;

/-- a function: the number of elements in its local array `v`, and its body -/
structure CFun where
  nv : ℕ
  body : List CStmt

/-! ## Meaning of the C code -/

/-- the functions in math.h with one argument that the C code may call, and the static function `sign` -/
inductive CMath1
  | fabs | acos | acosh | asin | asinh | atan | atanh | cos | cosh | erf | erfc | exp | expm1 | log | log1p | sign
  | sin | sinh | sqrt | tan | tanh
  deriving DecidableEq

/-- what the functions in math.h compute; `sign` is the static function written by csrc_writer.cpp:277-284 -/
noncomputable def CMath1.fn : CMath1 → ℝ → ℝ
  | .fabs => fun x => |x|
  | .acos => Real.arccos
  | .acosh => Real.arcosh
  | .asin => Real.arcsin
  | .asinh => Real.arsinh
  | .atan => Real.arctan
  | .atanh => Real.artanh
  | .cos => Real.cos
  | .cosh => Real.cosh
  | .erf => CppAD.erf
  | .erfc => CppAD.erfc
  | .exp => Real.exp
  | .expm1 => fun x => Real.exp x - 1
  | .log => Real.log
  | .log1p => fun x => Real.log (1 + x)
  | .sign => fun x => if x > 0 then 1 else if x = 0 then 0 else -1
  | .sin => Real.sin
  | .sinh => Real.sinh
  | .sqrt => Real.sqrt
  | .tan => Real.tan
  | .tanh => Real.tanh

/-- names in C (math.h; `sign` is defined in the file that is written) -/
def mathNames1 : List (Txt × CMath1) :=
  [("fabs".toList, .fabs), ("acos".toList, .acos), ("acosh".toList, .acosh), ("asin".toList, .asin), ("asinh".toList, .asinh),
   ("atan".toList, .atan), ("atanh".toList, .atanh), ("cos".toList, .cos), ("cosh".toList, .cosh), ("erf".toList, .erf),
   ("erfc".toList, .erfc), ("exp".toList, .exp), ("expm1".toList, .expm1), ("log".toList, .log), ("log1p".toList, .log1p),
   ("sign".toList, .sign), ("sin".toList, .sin), ("sinh".toList, .sinh), ("sqrt".toList, .sqrt), ("tan".toList, .tan),
   ("tanh".toList, .tanh)]

/-- functions and operators with two arguments; `azmul` is the static function written by csrc_writer.cpp:268-274 -/
inductive CMath2 | pow | azmul | plus | minus | times | divide
  deriving DecidableEq

/-- what they compute -/
noncomputable def CMath2.fn : CMath2 → ℝ → ℝ → ℝ
  | .pow => fun x y => x ^ y
  | .azmul => fun x y => if x = 0 then 0 else x * y
  | .plus => fun x y => x + y
  | .minus => fun x y => x - y
  | .times => fun x y => x * y
  | .divide => fun x y => x / y

/-- names in C of the functions with two arguments -/
def mathNames2 : List (Txt × CMath2) := [("pow".toList, .pow), ("azmul".toList, .azmul)]

/-- the binary operators of C -/
def cOps : List (Txt × CMath2) := [("+".toList, .plus), ("-".toList, .minus), ("*".toList, .times), ("/".toList, .divide)]

/-- comparison operators of C -/
inductive CRel | eq | ne | gt | ge | lt | le
  deriving DecidableEq

/-- what they compute -/
def CRel.holds : CRel → ℝ → ℝ → Prop
  | .eq => fun x y => x = y
  | .ne => fun x y => x ≠ y
  | .gt => fun x y => x > y
  | .ge => fun x y => x ≥ y
  | .lt => fun x y => x < y
  | .le => fun x y => x ≤ y

/-- their names -/
def cRels : List (Txt × CRel) :=
  [("==".toList, .eq), ("!=".toList, .ne), (">".toList, .gt), (">=".toList, .ge), ("<".toList, .lt), ("<=".toList, .le)]

/-- find a name -/
def lookup {α : Type} (l : List (Txt × α)) (s : Txt) : Option α := (l.find? fun e => decide (e.1 = s)).map Prod.snd

/-- what a call of an atomic callback does: the flag it returns, the values it stores in its result vector, and the amount it
adds to compare_change; to_csrc.hpp:94-150 -/
structure AtomOut where
  flag : ℕ
  w : ℕ → ℝ
  count : ℕ

/-- the external functions: cppad_discrete_name and cppad_atomic_name(call_id, nu, u, ny, y, compare_change),
and the value of NAN -/
structure CEnv where
  disc : Txt → ℝ → ℝ
  atom : Txt → ℕ → List ℝ → ℕ → AtomOut
  nan : ℝ

/-- memory: the local array `v` (`none` is an element that has not been set), the vector `y` and `*compare_change` -/
structure CMem where
  v : ℕ → Option ℝ
  y : ℕ → ℝ
  cc : ℕ

/-- names of the external functions: csrc_writer.cpp:142 and 172 -/
def discPre : Txt := "cppad_discrete_".toList
def atomPre : Txt := "cppad_atomic_".toList

/-- the part of a name after a prefix -/
def after : Txt → Txt → Option Txt
  | [], s => some s
  | _ :: _, [] => none
  | p :: ps, c :: cs => if p = c then after ps cs else none

/-- function with one argument: in math.h, or an external discrete function -/
noncomputable def extern1 (E : CEnv) (f : Txt) : Option (ℝ → ℝ) :=
  match lookup mathNames1 f with
  | some m => some m.fn
  | none => (after discPre f).map E.disc

/-- value of an expression -/
noncomputable def CExpr.eval (E : CEnv) (v : ℕ → Option ℝ) : CExpr → Option ℝ
  | .nan => some E.nan
  | .call1 f a => do let g ← extern1 E f; let x ← v a; pure (g x)
  | .call2 f a b => do let g ← lookup mathNames2 f; let x ← v a; let y ← v b; pure (g.fn x y)
  | .op2 o a b => do let g ← lookup cOps o; let x ← v a; let y ← v b; pure (g.fn x y)
  | .zero => some 0
  | .sum l => if l = [] then none else do let xs ← l.mapM v; pure xs.sum

/-- what the arguments of the function and its local array are: `nu`, `u`, `ny` and the size of `v` -/
structure CArgs where
  nu : ℕ
  u : ℕ → ℝ
  ny : ℕ

/-- One statement: `none` is undefined behaviour, `(some flag, m)` is a return from the function,
`(none, m)` continues with the next statement. -/
noncomputable def CStmt.exec (E : CEnv) (A : CArgs) (nv : ℕ) (m : CMem) : CStmt → Option (Option ℕ × CMem)
  | .retNu n flag => some (if A.nu ≠ n then some flag else none, m)
  | .retNy n flag => some (if A.ny ≠ n then some flag else none, m)
  | .copyU =>
    if A.nu = 0 ∨ A.nu < nv then some (none, { m with v := fun k => if 1 ≤ k ∧ k ≤ A.nu then some (A.u (k - 1)) else m.v k }) else none
  | .setCon i c => if 1 + A.nu + i < nv then some (none, { m with v := Function.update m.v (1 + A.nu + i) (some c) }) else none
  | .set k e => do
    let x ← e.eval E m.v
    if k < nv then some (none, { m with v := Function.update m.v k (some x) }) else none
  | .incIf o a b => do
    let r ← lookup cRels o
    let x ← m.v a
    let y ← m.v b
    some (none, { m with cc := m.cc + if r.holds x y then 1 else 0 })
  | .atom f id nw res args => do
    let name ← after atomPre f
    let xs ← args.mapM m.v
    if args = [] ∨ nv < res + nw then none
    else
      let o := E.atom name id xs nw
      let m := { m with
        v := fun k => if res ≤ k ∧ k < res + nw then some (o.w (k - res)) else m.v k
        cc := m.cc + o.count }
      some (if o.flag = 1 ∨ o.flag = 2 then some 3 else if o.flag ≠ 0 then some o.flag else none, m)
  | .setY i k => do
    let x ← m.v k
    if i < A.ny then some (none, { m with y := Function.update m.y i x }) else none
  | .ret flag => some (some flag, m)

/-- statements one after the other until one of them returns; the end of the body without a return has no value -/
noncomputable def exec (E : CEnv) (A : CArgs) (nv : ℕ) : List CStmt → CMem → Option (ℕ × CMem)
  | [], _ => none
  | s :: ss, m => do
    let r ← s.exec E A nv m
    match r.1 with
    | some flag => some (flag, r.2)
    | none => exec E A nv ss r.2

/-- A call of the function: the flag it returns, and `y` and `*compare_change` when it returns -/
noncomputable def CFun.call (E : CEnv) (f : CFun) (nu : ℕ) (u : ℕ → ℝ) (ny : ℕ) (y : ℕ → ℝ) (cc : ℕ) : Option (ℕ × (ℕ → ℝ) × ℕ) :=
  (exec E ⟨nu, u, ny⟩ f.nv f.body ⟨fun _ => none, y, cc⟩).map fun r => (r.1, r.2.y, r.2.cc)

/-! ## The writer -/

/-- op_csrc for functions with one argument, csrc_writer.cpp:425-455; `none` is "not yet implemented" (neg) -/
def csrcUn (f : UnF) : Option Txt :=
  match f with
  | .neg => none
  | .abs => some "fabs".toList
  | f => some (GCode.un f).name

/-- binary functions and operators, csrc_writer.cpp:390-410, 477-499 -/
def csrcBin (f : BinF) (a b : ℕ) : CExpr :=
  match f with
  | .azmul => .call2 (GCode.bin .azmul).name a b
  | .pow => .call2 (GCode.bin .pow).name a b
  | .add => .op2 "+".toList a b
  | .div => .op2 "/".toList a b
  | .mul => .op2 "*".toList a b
  | .sub => .op2 "-".toList a b

/-- comparisons are written as their negation, csrc_writer.cpp:412-423 -/
def csrcCmp : CmpF → Txt
  | .eq => "!=".toList
  | .le => ">".toList
  | .lt => ">=".toList
  | .ne => "==".toList

/-- sum_operator, csrc_writer.cpp:107-129 -/
def csrcSum (args : List ℕ) : CExpr := if args.length = 1 then .zero else .sum args

/-- one operator, csrc_writer.cpp:365-586; `none` is the error "The operator is not yet implemented" -/
def csrcNode (g : CppGraph) (res : ℕ) : GNode → Option CStmt
  | .un f a => (csrcUn f).map fun s => .set res (.call1 s a)
  | .bin f a b => some (.set res (csrcBin f a b))
  | .dis name a => some (.set res (.call1 (discPre ++ g.discreteNames.getD name []) a))
  | .atom4 name id n args => some (.atom (atomPre ++ g.atomicNames.getD name []) id n res args)
  | .comp c a b => some (.incIf (csrcCmp c) a b)
  | .sum args => some (.set res (csrcSum args))
  | .atom .. | .print .. | .cexp .. => none

/-- the operators, `res` is result_node; csrc_writer.cpp:357-586 -/
def csrcNodes (g : CppGraph) : List GNode → ℕ → Option (List CStmt)
  | [], _ => some []
  | n :: ns, res => do
    let s ← csrcNode g res n
    let ss ← csrcNodes g ns (res + n.nres)
    pure (s :: ss)

/-- csrc_writer, csrc_writer.cpp:183-606.  `none` is an error. -/
noncomputable def csrcWriter (g : CppGraph) : Option CFun :=
  if g.name = [] then none
  else do
    let first := 1 + g.nDyn + g.nVar + g.constants.length
    let ops ← csrcNodes g g.nodes first
    pure
      { nv := first + (g.nodes.map GNode.nres).sum
        body := [.retNu (g.nDyn + g.nVar) 1, .retNy g.deps.length 2, .set 0 .nan, .copyU] ++
          ((List.range g.constants.length).map fun i => .setCon i (at' g.constants i)) ++ ops ++
          ((List.range g.deps.length).map fun i => .setY i (g.deps.getD i 0)) ++ [.ret 0] }

/-- ADFun::to_csrc, to_csrc.hpp:215-242; `names k` is the name of discrete function `k` -/
noncomputable def toCsrc (names : ℕ → Txt) (fname : Txt) (T : OTape) : Option CFun := csrcWriter (toGraph names fname T)

/-! ## *Specification*: the function defined by a graph, including the calls of atomic functions -/

/-- values of the results of an operator; the results of an atomic function are what the callback stores -/
noncomputable def nodeResults (E : CEnv) (g : CppGraph) (val : ℕ → ℝ) : GNode → List ℝ
  | .atom4 name id n args => (List.range n).map (E.atom (g.atomicNames.getD name []) id (args.map val) n).w
  | n => n.results E.disc g.discreteNames val

/-- flag of the operator: zero unless it is an atomic function that fails -/
noncomputable def nodeFlag (E : CEnv) (g : CppGraph) (val : ℕ → ℝ) : GNode → ℕ
  | .atom4 name id n args => (E.atom (g.atomicNames.getD name []) id (args.map val) n).flag
  | _ => 0

/-- number of comparisons that changed -/
noncomputable def nodeCount (E : CEnv) (g : CppGraph) (val : ℕ → ℝ) : GNode → ℕ
  | .atom4 name id n args => (E.atom (g.atomicNames.getD name []) id (args.map val) n).count
  | n => n.failed val

/-- The values of the nodes, the first flag that is not zero (zero when there is none), and the number of comparisons that
changed.  Operators after the one that failed are not evaluated. -/
noncomputable def evalAll (E : CEnv) (g : CppGraph) : List GNode → List ℝ → ℕ → List ℝ × ℕ × ℕ
  | [], vals, c => (vals, 0, c)
  | n :: ns, vals, c =>
    let flag := nodeFlag E g (at' vals) n
    if flag ≠ 0 then (vals, flag, c + nodeCount E g (at' vals) n)
    else evalAll E g ns (vals ++ nodeResults E g (at' vals) n) (c + nodeCount E g (at' vals) n)

/-- the result for a graph: values of the dependent nodes, flag, number of comparisons that changed -/
noncomputable def evalGraph (E : CEnv) (g : CppGraph) (d x : List ℝ) : List ℝ × ℕ × ℕ :=
  let r := evalAll E g g.nodes (g.start d x) 0
  (g.deps.map (at' r.1), r.2)

/-- operators that csrc_writer implements correctly: no neg, no conditional expressions, no printing, atomic functions are
atomic_four functions with at least one argument, and a sum has more than one term -/
def nodeOk : GNode → Prop
  | .un .neg _ => False
  | .atom .. => False
  | .print .. => False
  | .cexp .. => False
  | .sum args => 2 ≤ args.length
  | .atom4 _ _ _ args => args ≠ []
  | _ => True

/-- the flag the C function returns when a callback returned `flag`: csrc_writer.cpp:158-159 -/
def retFlag (flag : ℕ) : ℕ := if flag = 1 ∨ flag = 2 then 3 else flag

end CppAD.Csrc
