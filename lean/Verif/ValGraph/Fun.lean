/-
`f.optimize("val_graph no_conditional_skip ...")` : from the operation sequence of a function to a
value graph (`fun2val`), the passes of `ValGraph.Model`, and back to an operation sequence
(`val2fun`).

Simplifications: operation sequences are `CppAD.Optim.OTape` (see Optimize/Model.lean and
Graph/Model.lean: no atomic functions, no PriOp).  The VecAD operators are not modelled here
(`fun2val` is `none` for them).  Wherever the source stores an invalid index (`invalid_addr_t`,
`number_op_enum`), reads an index that was not set, or has a failing assertion, the model is `none`.
-/
import Verif.Graph.From3
import Verif.ValGraph.Optimize

namespace CppAD.ValGraph
open CppAD CppAD.Record CppAD.Optim CppAD.Graph Classical

/-! ### fun2val -/

/-- `var_op2val_op` for the unary operators (fun2val.hpp:116-139) -/
def unKind : UnF → Kind
  | .abs => .un .abs | .acos => .un .acos | .acosh => .un .acosh | .asin => .un .asin
  | .asinh => .un .asinh | .atan => .un .atan | .atanh => .un .atanh | .cos => .un .cos
  | .cosh => .un .cosh | .erf => .un .erf | .erfc => .un .erfc | .exp => .un .exp
  | .expm1 => .un .expm1 | .log => .un .log | .log1p => .un .log1p | .neg => .neg
  | .sign => .un .sign | .sin => .un .sin | .sinh => .un .sinh | .sqrt => .un .sqrt
  | .tan => .un .tan | .tanh => .un .tanh

/-- `var_op2val_op` for the binary operators (fun2val.hpp:142-163); the default of the switch in
lines 474-477 is an error -/
def binKind : BinF → Option Kind
  | .add => some .add
  | .sub => some .sub
  | .mul => some .mul
  | .div => some .div
  | .pow => some .pow
  | .azmul => none

/-- `compare_enum` of a conditional expression (fun2val.hpp:349-383 and 804-838); the second is true
when `if_true` and `if_false` are swapped -/
def cexpCmp : CompareOp → Cmp × Bool
  | .lt => (.lt, false)
  | .le => (.le, false)
  | .eq => (.eq, false)
  | .ge => (.lt, true)
  | .gt => (.le, true)
  | .ne => (.eq, true)

/-- an operator to be recorded: its kind, its operands in the order in which their value indices are
determined, and if the last two of four are swapped afterwards -/
structure Todo where
  kind : Kind
  args : List Arg
  swap : Bool

/-- the conditional expressions (fun2val.hpp:343-391, 782-844) -/
def cexpTodo (cop : CompareOp) (l r t f : Arg) : Todo :=
  ⟨.cexp (cexpCmp cop).1, [l, r, t, f], (cexpCmp cop).2⟩

/-- operators for dynamic parameters (fun2val.hpp:103-109, 292-391).  `dyn_op2val_op` is only set for
`add_dyn`, `neg_dyn` and `sub_dyn`. -/
def dynTodo : DynOp → Option Todo
  | .un .neg a => some ⟨.neg, [.par a], false⟩
  | .bin .add a b => some ⟨.add, [.par a, .par b], false⟩
  | .bin .sub a b => some ⟨.sub, [.par a, .par b], false⟩
  | .dis k a => some ⟨.dis k, [.par a], false⟩
  | .cexp cop l r t f => some (cexpTodo cop (.par l) (.par r) (.par t) (.par f))
  | _ => none

/-- operators for variables that put an operator with a result on the tape: unary (fun2val.hpp:456-469),
binary (471-526), DisOp (649-659), CSumOp (752-780), CExpOp (782-844).  The addends of a CSumOp are
the constant, the variables and the dynamic parameters; looking up a variable does not change the
state, so the order of the subtracted variables and the added dynamic parameters is immaterial. -/
def varTodo : VOp → Option Todo
  | .un f v => some ⟨unKind f, [.var v], false⟩
  | .pv f p v => (binKind f).map fun k => ⟨k, [.par p, .var v], false⟩
  | .vp f v p => (binKind f).map fun k => ⟨k, [.var v, .par p], false⟩
  | .vv f v u => (binKind f).map fun k => ⟨k, [.var v, .var u], false⟩
  | .dis k v => some ⟨.dis k, [.var v], false⟩
  | .cexp cop l r t f => some (cexpTodo cop l r t f)
  | .csum c av sv ad sd =>
    some ⟨.csum (1 + av.length + ad.length) (sv.length + sd.length),
      .par c :: (av.map .var ++ (ad.map .par ++ (sv.map .var ++ sd.map .par))), false⟩
  | _ => none

/-- `val_tape`, `par2val_index` and `var2val_index` (`none` is `invalid_addr_t`) -/
structure F2V where
  T : VTape
  p2v : ℕ → Option ℕ
  v2v : ℕ → Option ℕ

/-- `parameter[i]`; parameter zero is nan -/
def parV (T : OTape) (p : ℕ) : V := if p = 0 then none else some (at' T.dyn.parAll p)

/-- `ensure_par2val_index` (fun2val.hpp:265-276) -/
noncomputable def F2V.ensure (T : OTape) (s : F2V) (p : ℕ) : F2V × ℕ :=
  match s.p2v p with
  | some a => (s, a)
  | none =>
    let r := s.T.recordCon (parV T p)
    (⟨r.1, Function.update s.p2v p (some r.2), s.v2v⟩, r.2)

/-- the value index of an operand (fun2val.hpp:303-306, 464, 510-515, 653, 758-774, 786-801) -/
noncomputable def F2V.arg (T : OTape) (s : F2V) : Arg → Option (F2V × ℕ)
  | .par p => some (s.ensure T p)
  | .var v => (s.v2v v).map fun a => (s, a)

/-- the value indices of a list of operands -/
noncomputable def F2V.args (T : OTape) : List Arg → F2V → Option (F2V × List ℕ)
  | [], s => some (s, [])
  | a :: l, s => (s.arg T a).bind fun r => (F2V.args T l r.1).map fun q => (q.1, r.2 :: q.2)

/-- the last two of four elements are swapped -/
def swapLast {α : Type} : List α → List α
  | [l, r, t, f] => [l, r, f, t]
  | l => l

/-- one operator is put on the tape; returns the index of its result -/
noncomputable def F2V.put (T : OTape) (s : F2V) (d : Todo) : Option (F2V × ℕ) :=
  (F2V.args T d.args s).map fun q =>
    let r := q.1.T.push ⟨d.kind, if d.swap = true then swapLast q.2 else q.2⟩
    (⟨r.1, q.1.p2v, q.1.v2v⟩, r.2)

/-- one dynamic parameter (fun2val.hpp:283-423) -/
noncomputable def f2vDyn (T : OTape) (k : ℕ) (s : F2V) : Option F2V :=
  (dynTodo (T.dyn.dynOps.getD k .ind)).bind fun d =>
    (s.put T d).map fun r =>
      ⟨r.1.T, Function.update r.1.p2v ((dyn2par T.dyn.parIsDyn).getD k 0) (some r.2), r.1.v2v⟩

/-- the value index of an operand of a comparison: `par2val_index[...]` or `var2val_index[...]`
without `ensure_par2val_index` (fun2val.hpp:541-573) -/
def F2V.look (s : F2V) : Arg → Option ℕ
  | .par p => s.p2v p
  | .var v => s.v2v v

/-- `compare_enum` (fun2val.hpp:577-614) -/
def cmpKind : CmpF → Cmp
  | .eq => .eq
  | .ne => .ne
  | .lt => .lt
  | .le => .le

/-- one variable operator (fun2val.hpp:440-897): InvOp (645), ParOp (633-636), comparisons (528-621)
and `varTodo`.  BeginOp is skipped by `(++itr)`. -/
noncomputable def f2vVar (T : OTape) (i : ℕ) (s : F2V) : Option F2V :=
  match T.op i with
  | .begin => some s
  | .inv => some s
  | .par p =>
    let r := s.ensure T p
    some ⟨r.1.T, r.1.p2v, Function.update r.1.v2v i (some r.2)⟩
  | .cmp c a b =>
    (s.look a).bind fun l => (s.look b).map fun r =>
      ⟨(s.T.push ⟨.comp (cmpKind c), [l, r]⟩).1, s.p2v, s.v2v⟩
  | op =>
    (varTodo op).bind fun d =>
      (s.put T d).map fun r => ⟨r.1.T, r.1.p2v, Function.update r.1.v2v i (some r.2)⟩

/-- before the operators (fun2val.hpp:200-255, 425-431) -/
def f2vInit (T : OTape) : F2V :=
  ⟨setInd (T.nInd + T.n) true true,
    fun p => if 1 ≤ p ∧ p ≤ T.nInd then some (p - 1) else none,
    fun v => if 1 ≤ v ∧ v ≤ T.n then some (T.nInd + (v - 1)) else none⟩

/-- `dep_vec` (fun2val.hpp:898-903) -/
def f2vDep (s : F2V) : List ℕ → Option (List ℕ)
  | [] => some []
  | d :: l => (s.v2v d).bind fun a => (f2vDep s l).map fun r => a :: r

/-- `fun2val` (fun2val.hpp:78-904) -/
noncomputable def fun2val (T : OTape) : Option VTape :=
  (forRange T.nInd T.dyn.dynOps.length (some (f2vInit T)) fun k s => s.bind (f2vDyn T k)).bind fun s =>
    (forRange 0 T.ops.length (some s) fun i s => s.bind (f2vVar T i)).bind fun s =>
      (f2vDep s T.dep).map fun d => { s.T with dep := d }

/-! ### val2fun -/

/-- the operator for a dynamic parameter or a variable (val2fun.hpp:392-413, 426-467): `local::f_dyn`,
`AbsOp` and so on -/
def Un.op : Un → UnF
  | .abs => .abs | .acos => .acos | .acosh => .acosh | .asin => .asin | .asinh => .asinh
  | .atan => .atan | .atanh => .atanh | .cos => .cos | .cosh => .cosh | .erf => .erf
  | .erfc => .erfc | .exp => .exp | .expm1 => .expm1 | .log => .log | .log1p => .log1p
  | .sign => .sign | .sin => .sin | .sinh => .sinh | .sqrt => .sqrt | .tan => .tan | .tanh => .tanh

/-- position of a value in the vectors `fun_ad_type` and `val2fun_index`: here these vectors have one
element more, element zero is the one for the nan value (which is after the independents), and the
independents have elements `1, 2, ...` -/
def vix (nInd a : ℕ) : ℕ := if a < nInd then a + 1 else if a = nInd then 0 else a

/-- `val_index2con` where it is a constant -/
noncomputable def conAt (c : FCfg) (nan : List V) (a : ℕ) : ℝ := (rd nan a).getD c.nan

/-- unary operators (val2fun.hpp:377-471).  There is no case for `tanh` of a dynamic parameter. -/
noncomputable def v2fUn (c : FCfg) (s : FromSt) (f : UnF) (a : ℕ) : Option FromSt :=
  match s.ty a with
  | .variable => some (FromSt.push (s.op (.un f (s.ix a))) .variable)
  | .dynamic => if f = .tanh then none else some (FromSt.push (s.dyn c (.un f (s.ix a))) .dynamic)
  | .constant => none

/-- binary operators (val2fun.hpp:472-547): the cases are those of `from_graph`, without the one for
constants -/
noncomputable def v2fBin (c : FCfg) (s : FromSt) (f : BinF) (a b : ℕ) : Option FromSt :=
  if s.ty a = .constant ∧ s.ty b = .constant then none else some (s.bin c f a b)

/-- discrete functions (val2fun.hpp:557-577) -/
noncomputable def v2fDis (c : FCfg) (s : FromSt) (k a : ℕ) : Option FromSt :=
  if s.ty a = .constant then none else some (s.dis c k a)

/-- `cop` (val2fun.hpp:621-634) -/
def cmpCop : Cmp → Option GCmp
  | .eq => some .eq
  | .le => some .le
  | .lt => some .lt
  | _ => none

/-- conditional expressions (val2fun.hpp:618-657) -/
noncomputable def v2fCexp (c : FCfg) (s : FromSt) (k : Cmp) (l r t f : ℕ) : Option FromSt :=
  if s.anyVar [l, r, t, f] = false ∧ s.anyDyn [l, r, t, f] = false then none
  else (cmpCop k).map fun g => s.cexp c g l r t f

/-- `comp_eq`, `comp_le`, `comp_lt` and the value of `res` (val2fun.hpp:688-724) -/
def cmpFun : Cmp → Option CmpF
  | .eq => some .eq
  | .ne => some .ne
  | .lt => some .lt
  | .le => some .le
  | .no => none

/-- comparisons (val2fun.hpp:659-726 and cppad/local/record/comp_op.hpp:85-286, see `FromSt.comp`).
The value of a constant operand is `con_x`. -/
noncomputable def v2fComp (c : FCfg) (s : FromSt) (k : Cmp) (a b : ℕ) (va vb : ℝ) : FromSt :=
  match cmpFun k with
  | none => s
  | some g => s.comp { c with out := fun j => if j = 0 then va else vb } g a b

/-- `sum_constant` (val2fun.hpp:738-747), `con a` is `con_x` of the operand `a` -/
noncomputable def v2fSumCon (s : FromSt) (con : ℕ → ℝ) (ix : ℕ → ℕ) (add sub : List ℕ) : ℝ :=
  sumOver con (add.filter fun a => decide (s.ty (ix a) = .constant)) -
    sumOver con (sub.filter fun a => decide (s.ty (ix a) = .constant))

/-- cumulative summation (val2fun.hpp:728-818).  When there is no variable and a dynamic parameter
all the operands are added, also the constants and the ones that are subtracted (lines 752-760).
When all the operands are constants, or there are none, nothing is set. -/
noncomputable def v2fSum (c : FCfg) (s : FromSt) (con : ℕ → ℝ) (ix : ℕ → ℕ) (add sub : List ℕ) : Option FromSt :=
  let all := (add ++ sub).map ix
  let p := s.con c (v2fSumCon s con ix add sub)
  if s.anyVar all then
    some (FromSt.push (p.1.op (.csum p.2 (s.sel .variable (add.map ix)) (s.sel .variable (sub.map ix))
      (s.sel .dynamic (add.map ix)) (s.sel .dynamic (sub.map ix)))) .variable)
  else if s.anyDyn all then some (FromSt.push (addDyns c (all.map s.ix) p) .dynamic)
  else none

/-- body of the loop over the operators (val2fun.hpp:334-929); the list is what remains of
`rec_con_index`, `nan` is `val_index2con`.  The first operator is the nan constant (see `vix`). -/
noncomputable def v2fNode (c : FCfg) (nan : List V) (nInd : ℕ) (s : FromSt × List ℕ) (nd : Node) : Option (FromSt × List ℕ) :=
  let a := fun k => vix nInd (nd.args.getD k 0)
  let con := fun k => conAt c nan (nd.args.getD k 0)
  let keep := fun t : FromSt => (t, s.2)
  match nd.kind with
  | .con none => some s
  | .con (some _) =>
    match s.2 with
    | [] => none
    | p :: l => some (FromSt.push (s.1, p) .constant, l)
  | .un u => (v2fUn c s.1 u.op (a 0)).map keep
  | .neg => (v2fUn c s.1 .neg (a 0)).map keep
  | .add => (v2fBin c s.1 .add (a 0) (a 1)).map keep
  | .sub => (v2fBin c s.1 .sub (a 0) (a 1)).map keep
  | .mul => (v2fBin c s.1 .mul (a 0) (a 1)).map keep
  | .div => (v2fBin c s.1 .div (a 0) (a 1)).map keep
  | .pow => (v2fBin c s.1 .pow (a 0) (a 1)).map keep
  | .dis k => (v2fDis c s.1 k (a 0)).map keep
  | .cexp k => (v2fCexp c s.1 k (a 0) (a 1) (a 2) (a 3)).map keep
  | .comp k => some (keep (v2fComp c s.1 k (a 0) (a 1) (con 0) (con 1)))
  | .csum n _ => (v2fSum c s.1 (conAt c nan) (vix nInd) (nd.args.take n) (nd.args.drop n)).map keep
  | _ => none

/-- loop over the operators -/
noncomputable def v2fNodes (c : FCfg) (nan : List V) (nInd : ℕ) : List Node → FromSt × List ℕ → Option (FromSt × List ℕ)
  | [], s => some s
  | nd :: l, s => (v2fNode c nan nInd s nd).bind (v2fNodes c nan nInd l)

/-- `val_con_vec` without its first element, which is nan: one element for every constant operator
(`record_con_op`, record.hpp:215-243) -/
def VTape.cons (T : VTape) : List ℝ := T.nodes.filterMap fun nd => match nd.kind with | .con v => v | _ => none

/-- `rec_con_index` (val2fun.hpp:297-303) -/
noncomputable def putCons (c : FCfg) : List ℝ → FromSt → FromSt × List ℕ
  | [], s => (s, [])
  | v :: l, s => let p := s.con c v; let q := putCons c l p.1; (q.1, p.2 :: q.2)

/-- before the operators (val2fun.hpp:229-311); `nd` and `nv` are the numbers of independent dynamic
parameters and variables -/
noncomputable def v2fInit (c : FCfg) (nd nv : ℕ) (cons : List ℝ) : FromSt × List ℕ :=
  let s : FromSt := ⟨⟨[], [], [], fun _ => 0⟩, [], [.constant], [0]⟩
  let s := (s.con c c.nan).1
  let s := (s.op .begin).1
  let s := (List.replicate nd false ++ List.replicate nv true).foldl (fun s b => s.ind c b) s
  let q := putCons c cons s
  (((q.1.con c 0).1.con c (1 / Real.sqrt (Real.arctan 1))).1, q.2)

/-- `val2fun` (val2fun.hpp:141-1005) with `dyn_ind = 0, ..., nd - 1` and `var_ind = nd, nd + 1, ...`
(val_optimize.hpp:52-62); `P` are the functions used by `val_tape.eval` in line 206 -/
noncomputable def val2fun (c : FCfg) (P : Prim) (nd : ℕ) (T : VTape) : Option OTape :=
  (v2fNodes c (T.nanVal P) T.nInd T.nodes (v2fInit c nd (T.nInd - nd) T.cons)).map fun s =>
    let e := fromDeps (T.dep.map (vix T.nInd)) s.1
    { dyn := e.1.r
      nInd := nd
      n := T.nInd - nd
      ops := e.1.ops
      dep := e.2
      vecs := [] }

/-! ### the meaning of the operators of a value graph -/

/-- *Specification*: the function that a unary operator of a value graph stands for
(val_type.hpp:52-91, unary_op.hpp:221-242) -/
def Un.spec : Un → UnF
  | .abs => .abs | .acos => .acos | .acosh => .acosh | .asin => .asin | .asinh => .asinh
  | .atan => .atan | .atanh => .atanh | .cos => .cos | .cosh => .cosh | .erf => .erf
  | .erfc => .erfc | .exp => .exp | .expm1 => .expm1 | .log => .log | .log1p => .log1p
  | .sign => .sign | .sin => .sin | .sinh => .sinh | .sqrt => .sqrt | .tan => .tan | .tanh => .tanh

/-- *Specification*: the functions that the operators of a value graph stand for; the value is nan
when an operand is.  There are no atomic functions. -/
noncomputable def realPrim (disc : ℕ → ℝ → ℝ) : Prim where
  un u x := x.map u.spec.fn
  div x y := x.bind fun a => y.map fun b => BinF.div.fn a b
  pow x y := x.bind fun a => y.map fun b => BinF.pow.fn a b
  dis k x := x.map (disc k)
  atom _ _ _ _ := none
  conY _ _ _ _ _ := false
  depX _ _ _ _ _ := true

/-! ### optimize -/

/-- `val_optimize` (val_optimize.hpp:37-111) -/
noncomputable def optimizeVal (c : FCfg) (hash : Kind → List ℕ → ℕ) (compareOp cumulativeSum printOp : Bool) (T : OTape) : Option OTape :=
  (fun2val T).bind fun VT =>
    val2fun c (realPrim c.disc) T.nInd (valOptimize hash compareOp cumulativeSum printOp VT (realPrim c.disc))

end CppAD.ValGraph
