import Verif.Optimize.Sem

/-! # C++ AD graphs

Model of `cpp_graph`, its iterator, `ADFun::to_graph` and `ADFun::from_graph` (cppad/core/graph/,
cppad/local/graph/).

Simplifications:
* Operation sequences are `CppAD.Optim.OTape` (a variable is named by the index of its operator; PriOp and
  atomic functions are not part of them).  In `from_graph` print operators record nothing and atomic function
  operators are not supported; both are part of the graph itself.
* Base is `ℝ`, vectors are lists, names are lists of characters. -/

open scoped Classical

namespace CppAD.Graph

open CppAD CppAD.Record CppAD.Optim

/-- names and text in a graph (std::string) -/
abbrev Txt := List Char

/-- the conditional expressions of a graph: cexp_eq, cexp_le, cexp_lt; cppad/core/graph/graph_op_enum.hpp -/
inductive GCmp | eq | le | lt
  deriving DecidableEq

/-- from_graph.hpp:399-405 -/
def GCmp.cop : GCmp → CompareOp
  | .eq => .eq
  | .le => .le
  | .lt => .lt

deriving instance DecidableEq for UnF
deriving instance DecidableEq for BinF
deriving instance DecidableEq for CmpF

/-- graph_op_enum, cppad/core/graph/graph_op_enum.hpp:180-223 -/
inductive GCode
  | un (f : UnF) | bin (f : BinF) | dis | atom | atom4 | print | cexp (c : GCmp) | comp (c : CmpF) | sum
  deriving DecidableEq

/-- class cpp_graph, cppad/core/graph/cpp_graph.hpp:16-30 -/
structure CppGraph where
  name : Txt
  nDyn : ℕ
  nVar : ℕ
  discreteNames : List Txt
  atomicNames : List Txt
  printText : List Txt
  constants : List ℝ
  ops : List GCode
  args : List ℕ
  deps : List ℕ

/-- one operator usage: what the iterator returns (op_enum, str_index, call_id, n_result, arg_node) -/
inductive GNode
  | un (f : UnF) (a : ℕ)
  | bin (f : BinF) (a b : ℕ)
  | dis (name a : ℕ)
  | atom (name nres : ℕ) (args : List ℕ)
  | atom4 (name callId nres : ℕ) (args : List ℕ)
  | print (before after notpos value : ℕ)
  | cexp (c : GCmp) (l r t f : ℕ)
  | comp (c : CmpF) (a b : ℕ)
  | sum (args : List ℕ)

/-! ## The iterator -/

/-- set_value, cppad/local/graph/cpp_graph_itr.hpp:128-261, and the next `first_arg_` (line 389) -/
def setValue (args : List ℕ) (fa : ℕ) (code : GCode) : GNode × ℕ :=
  let a := fun i => args.getD i 0
  match code with
  | .un f => (.un f (a fa), fa + 1)
  | .bin f => (.bin f (a fa) (a (fa + 1)), fa + 2)
  | .dis => let fn := fa + 1; (.dis (a (fn - 1)) (a fn), fn + 1)
  | .atom =>
    let fn := fa + 3
    (.atom (a (fn - 3)) (a (fn - 2)) ((List.range (a (fn - 1))).map fun i => a (fn + i)), fn + a (fn - 1))
  | .atom4 =>
    let fn := fa + 4
    (.atom4 (a (fn - 4)) (a (fn - 3)) (a (fn - 2)) ((List.range (a (fn - 1))).map fun i => a (fn + i)), fn + a (fn - 1))
  | .print => let fn := fa + 2; (.print (a (fn - 2)) (a (fn - 1)) (a fn) (a (fn + 1)), fn + 2)
  | .cexp c => (.cexp c (a fa) (a (fa + 1)) (a (fa + 2)) (a (fa + 3)), fa + 4)
  | .comp c => (.comp c (a fa) (a (fa + 1)), fa + 2)
  | .sum => let fn := fa + 1; (.sum ((List.range (a (fn - 1))).map fun i => a (fn + i)), fn + a (fn - 1))

/-- the iterator applied to the operators with the given codes, the first argument of the first is `fa`;
cpp_graph_itr.hpp:348-392 -/
def nodesFrom (args : List ℕ) : List GCode → ℕ → List GNode
  | [], _ => []
  | c :: cs, fa => (setValue args fa c).1 :: nodesFrom args cs (setValue args fa c).2

/-- all the operator usages of a graph: from graph_obj.begin() to graph_obj.end() -/
def CppGraph.nodes (g : CppGraph) : List GNode := nodesFrom g.args g.ops 0

/-! ## to_graph -/

/-- operator code of an operator usage -/
def GNode.code : GNode → GCode
  | .un f _ => .un f
  | .bin f _ _ => .bin f
  | .dis .. => .dis
  | .atom .. => .atom
  | .atom4 .. => .atom4
  | .print .. => .print
  | .cexp c .. => .cexp c
  | .comp c .. => .comp c
  | .sum _ => .sum

/-- elements pushed to operator_arg by to_graph: to_graph.hpp:343-344, 381-401, 445-460, 799-805, 907-909,
936-963, 1028-1030, 1061-1066, 1193-1197 -/
def GNode.enc : GNode → List ℕ
  | .un _ a => [a]
  | .bin _ a b => [a, b]
  | .dis name a => [name, a]
  | .atom name nres args => name :: nres :: args.length :: args
  | .atom4 name callId nres args => name :: callId :: nres :: args.length :: args
  | .print before after notpos value => [before, after, notpos, value]
  | .cexp _ l r t f => [l, r, t, f]
  | .comp _ a b => [a, b]
  | .sum args => args.length :: args

/-- operator_vec_push_back and operator_arg_push_back, cppad/core/graph/cpp_graph.hpp:374-383 -/
def CppGraph.push (g : CppGraph) (n : GNode) : CppGraph := { g with ops := g.ops ++ [n.code], args := g.args ++ n.enc }

/-- discrete_name_vec_find and discrete_name_vec_push_back, to_graph.hpp:337-339 and 1023-1025 -/
def CppGraph.discreteName (g : CppGraph) (name : Txt) : CppGraph × ℕ :=
  let k := g.discreteNames.findIdx (fun s => decide (s = name))
  if k = g.discreteNames.length then ({ g with discreteNames := g.discreteNames ++ [name] }, k) else (g, k)

/-- conditional expressions, to_graph.hpp:413-444 and 1158-1189 -/
def cexpNode (cop : CompareOp) (l r t f : ℕ) : GNode :=
  match cop with
  | .lt => .cexp .lt l r t f
  | .le => .cexp .le l r t f
  | .eq => .cexp .eq l r t f
  | .ge => .cexp .lt l r f t
  | .gt => .cexp .le l r f t
  | .ne => .cexp .eq l r f t

/-- previous_node, par2node, var2node and graph_obj -/
structure ToSt where
  prev : ℕ
  p2n : ℕ → ℕ
  v2n : ℕ → ℕ
  g : CppGraph

/-- one dynamic parameter, to_graph.hpp:161-464; `names k` is the name of discrete function `k`.
Results of atomic functions that are dynamic parameters are not modelled here (`TapeOk.dargs`). -/
def toDyn (names : ℕ → Txt) (T : OTape) (k : ℕ) (s : ToSt) : ToSt :=
  let iPar := (dyn2par T.dyn.parIsDyn).getD k 0
  let s := { s with prev := s.prev + 1, p2n := Function.update s.p2n iPar (s.prev + 1) }
  match T.dyn.dynOps.getD k .ind with
  | .ind => s
  | .un f a => { s with g := s.g.push (.un f (s.p2n a)) }
  | .bin f a b => { s with g := s.g.push (.bin f (s.p2n a) (s.p2n b)) }
  | .dis k a => let d := s.g.discreteName (names k); { s with g := d.1.push (.dis d.2 (s.p2n a)) }
  | .cexp cop l r t f => { s with g := s.g.push (cexpNode cop (s.p2n l) (s.p2n r) (s.p2n t) (s.p2n f)) }
  | .atom .. => s

/-- node of an argument -/
def ToSt.arg (s : ToSt) : Arg → ℕ
  | .par p => s.p2n p
  | .var v => s.v2n v

/-- `var2node[i_var] = ++previous_node` -/
def ToSt.next (s : ToSt) (i : ℕ) : ToSt := { s with prev := s.prev + 1, v2n := Function.update s.v2n i (s.prev + 1) }

/-- one variable operator, to_graph.hpp:482-1226.  The operators that to_graph does not support (CSkipOp and
the VecAD operators) do nothing: in C++ this is an error. -/
def toVar (names : ℕ → Txt) (T : OTape) (i : ℕ) (s : ToSt) : ToSt :=
  match T.op i with
  | .un f v => let s := s.next i; { s with g := s.g.push (.un f (s.v2n v)) }
  | .pv f p v => let s := s.next i; { s with g := s.g.push (.bin f (s.p2n p) (s.v2n v)) }
  | .vp f v p => let s := s.next i; { s with g := s.g.push (.bin f (s.v2n v) (s.p2n p)) }
  | .vv f v u => let s := s.next i; { s with g := s.g.push (.bin f (s.v2n v) (s.v2n u)) }
  | .cmp c a b => { s with g := s.g.push (.comp c (s.arg a) (s.arg b)) }
  | .csum c av sv ad sd =>
    let has := !sv.isEmpty || !sd.isEmpty
    let v2n := Function.update s.v2n i (s.prev + if has then 3 else 1)
    let g := s.g.push (.sum (s.p2n c :: (av.map v2n ++ ad.map s.p2n)))
    if has then
      let g := g.push (.sum (sv.map v2n ++ sd.map s.p2n))
      let g := g.push (.bin .sub (s.prev + 1) (s.prev + 2))
      { s with prev := s.prev + 3, v2n := v2n, g := g }
    else { s with prev := s.prev + 1, v2n := v2n, g := g }
  | .dis k v =>
    let d := s.g.discreteName (names k)
    let g := d.1.push (.dis d.2 (s.v2n v))
    { s with g := g, prev := s.prev + 1, v2n := Function.update s.v2n i (s.prev + 1) }
  | .cexp cop l r t f =>
    let n := cexpNode cop (s.arg l) (s.arg r) (s.arg t) (s.arg f)
    let s := s.next i
    { s with g := s.g.push n }
  | .par p => { s with v2n := Function.update s.v2n i (s.p2n p) }
  | _ => s

/-- before the operators: the independent dynamic parameters, the independent variables, and the constants;
to_graph.hpp:71-146, 466-472 -/
def toInit (fname : Txt) (T : OTape) : ToSt :=
  let n := T.dyn.parAll.length
  let s : ToSt :=
    { prev := T.nInd + T.n
      p2n := fun i => if 1 ≤ i ∧ i ≤ T.nInd then i else 0
      v2n := fun i => if 1 ≤ i ∧ i ≤ T.n then T.nInd + i else 0
      g := ⟨fname, T.nInd, T.n, [], [], [], [], [], [], []⟩ }
  forRange 1 n s fun i s =>
    if T.dyn.parIsDyn.getD i false then s
    else { s with
      prev := s.prev + 1
      p2n := Function.update s.p2n i (s.prev + 1)
      g := { s.g with constants := s.g.constants ++ [at' T.dyn.parAll i] } }

/-- ADFun::to_graph, to_graph.hpp:61-1234 -/
def toGraph (names : ℕ → Txt) (fname : Txt) (T : OTape) : CppGraph :=
  let s := toInit fname T
  let s := forRange T.nInd T.dyn.dynOps.length s (toDyn names T)
  let s := forRange 0 T.ops.length s (toVar names T)
  { s.g with deps := T.dep.map s.v2n }

/-! ## from_graph -/

/-- what from_graph uses besides its arguments: `discrete<Base>` (names and functions), hash_code, nan, and the value of
`parameter_x[j]` when the vector `parameter_x` is empty (an access out of range) -/
structure FCfg where
  names : List Txt
  disc : ℕ → ℝ → ℝ
  hash : ℝ → ℕ
  nan : ℝ
  out : ℕ → ℝ

/-- the recorder, node_type and node2fun; the element with index zero is not used -/
structure FromSt where
  r : DynRec ℝ
  ops : List VOp
  typ : List AdType
  n2f : List ℕ

/-- rec.put_con_par -/
noncomputable def FromSt.con (c : FCfg) (s : FromSt) (v : ℝ) : FromSt × ℕ :=
  let d := s.r.putConPar c.hash (fun a b => decide (a = b)) v
  ({ s with r := d.1 }, d.2)

/-- rec.put_dyn_par(nan, ...) and rec.put_dyn_cond_exp(nan, ...) -/
def FromSt.dyn (c : FCfg) (s : FromSt) (op : DynOp) : FromSt × ℕ :=
  let d := s.r.putDynPar c.nan op
  ({ s with r := d.1 }, d.2)

/-- rec.PutOp with its rec.PutArg -/
def FromSt.op (s : FromSt) (op : VOp) : FromSt × ℕ := ({ s with ops := s.ops ++ [op] }, s.ops.length)

/-- node_type.push_back and node2fun.push_back -/
def FromSt.push (s : FromSt × ℕ) (t : AdType) : FromSt := { s.1 with typ := s.1.typ ++ [t], n2f := s.1.n2f ++ [s.2] }

/-- type_x[j] -/
def FromSt.ty (s : FromSt) (a : ℕ) : AdType := s.typ.getD a .constant

/-- arg[j] -/
def FromSt.ix (s : FromSt) (a : ℕ) : ℕ := s.n2f.getD a 0

/-- argument of CExpOp or of a comparison -/
def FromSt.opd (s : FromSt) (a : ℕ) : Arg := if s.ty a = .variable then .var (s.ix a) else .par (s.ix a)

/-- `parameter[ arg[j] ]` -/
def FromSt.par (s : FromSt) (a : ℕ) : ℝ := at' s.r.parAll (s.ix a)

/-- n_var_arg > 0 -/
def FromSt.anyVar (s : FromSt) (l : List ℕ) : Bool := l.any fun a => decide (s.ty a = .variable)

/-- n_dyn_arg > 0 -/
def FromSt.anyDyn (s : FromSt) (l : List ℕ) : Bool := l.any fun a => decide (s.ty a = .dynamic)

/-- independent dynamic parameter or independent variable, from_graph.hpp:281-291 and 297-307 -/
def FromSt.ind (c : FCfg) (s : FromSt) (var : Bool) : FromSt :=
  if var then FromSt.push (s.op .inv) .variable else FromSt.push (s.dyn c .ind) .dynamic

/-- conditional expressions, from_graph.hpp:394-437, 1458-1464 -/
noncomputable def FromSt.cexp (c : FCfg) (s : FromSt) (k : GCmp) (l r t f : ℕ) : FromSt :=
  if s.anyVar [l, r, t, f] then FromSt.push (s.op (.cexp k.cop (s.opd l) (s.opd r) (s.opd t) (s.opd f))) .variable
  else if s.anyDyn [l, r, t, f] then FromSt.push (s.dyn c (.cexp k.cop (s.ix l) (s.ix r) (s.ix t) (s.ix f))) .dynamic
  else FromSt.push (s.con c (condExp k.cop (s.par l) (s.par r) (s.par t) (s.par f))) .constant

/-- address of a parameter operand of a comparison: `ax[j]` of from_graph.hpp:453-463 and
`p = ax[j].taddr_; if( ! dyn ) p = put_con_par(ax[j].value_)` of comp_op.hpp.  The value of a constant operand is
`parameter_x[j]`, a vector that is empty unless there was an atomic function call. -/
noncomputable def FromSt.cmpPar (c : FCfg) (s : FromSt) (j a : ℕ) : FromSt × ℕ :=
  if s.ty a = .dynamic then (s, s.ix a) else s.con c (c.out j)

/-- comparisons, from_graph.hpp:439-500 and cppad/local/record/comp_op.hpp:85-286 with `result` as in from_graph.
EqpvOp and NepvOp have the parameter first. -/
noncomputable def FromSt.comp (c : FCfg) (s : FromSt) (k : CmpF) (a b : ℕ) : FromSt :=
  if s.ty a = .variable then
    if s.ty b = .variable then (s.op (.cmp k (.var (s.ix a)) (.var (s.ix b)))).1
    else
      let p := s.cmpPar c 1 b
      if k = .eq ∨ k = .ne then (p.1.op (.cmp k (.par p.2) (.var (s.ix a)))).1
      else (p.1.op (.cmp k (.var (s.ix a)) (.par p.2))).1
  else if s.ty b = .variable then
    let p := s.cmpPar c 0 a
    (p.1.op (.cmp k (.par p.2) (.var (s.ix b)))).1
  else if s.ty a = .dynamic ∨ s.ty b = .dynamic then
    let p := s.cmpPar c 0 a
    let q := p.1.cmpPar c 1 b
    (q.1.op (.cmp k (.par p.2) (.par q.2))).1
  else s

/-- arguments of a sum with a certain type -/
def FromSt.sel (s : FromSt) (t : AdType) (l : List ℕ) : List ℕ := (l.filter fun a => decide (s.ty a = t)).map s.ix

/-- sum_constant, from_graph.hpp:511-520 and 540-550 -/
noncomputable def FromSt.sumCon (s : FromSt) (l : List ℕ) : ℝ := sumOver (at' s.r.parAll) (s.sel .constant l)

/-- the dynamic parameters are added one at a time, from_graph.hpp:527-533 -/
def addDyns (c : FCfg) : List ℕ → FromSt × ℕ → FromSt × ℕ
  | [], s => s
  | p :: ps, s => addDyns c ps (s.1.dyn c (.bin .add s.2 p))

/-- sum operator, from_graph.hpp:504-567, 1458-1464 -/
noncomputable def FromSt.sum (c : FCfg) (s : FromSt) (l : List ℕ) : FromSt :=
  if s.anyVar l then
    let p := s.con c (s.sumCon l)
    FromSt.push (p.1.op (.csum p.2 (s.sel .variable l) [] (s.sel .dynamic l) [])) .variable
  else FromSt.push (addDyns c (s.sel .dynamic l) (s.con c (s.sumCon l))) (if s.anyDyn l then .dynamic else .constant)

/-- discrete functions, from_graph.hpp:598-636, 1458-1464; `k` is function_index -/
noncomputable def FromSt.dis (c : FCfg) (s : FromSt) (k a : ℕ) : FromSt :=
  match s.ty a with
  | .variable => FromSt.push (s.op (.dis k (s.ix a))) .variable
  | .dynamic => FromSt.push (s.dyn c (.dis k (s.ix a))) .dynamic
  | .constant => FromSt.push (s.con c (c.disc k (s.par a))) .constant

/-- the parameters of ErfOp and ErfcOp, from_graph.hpp:843-851 and 862-870 -/
noncomputable def FromSt.erfPars (c : FCfg) (s : FromSt) (f : UnF) : FromSt :=
  if f = .erf ∨ f = .erfc then ((s.con c 0).1.con c (1 / Real.sqrt (Real.arctan 1))).1 else s

/-- unary operators, from_graph.hpp:807-1228, 1458-1464 -/
noncomputable def FromSt.un (c : FCfg) (s : FromSt) (f : UnF) (a : ℕ) : FromSt :=
  match s.ty a with
  | .variable => let o := s.op (.un f (s.ix a)); FromSt.push (o.1.erfPars c f, o.2) .variable
  | .dynamic => FromSt.push (s.dyn c (.un f (s.ix a))) .dynamic
  | .constant => FromSt.push (s.con c (f.fn (s.par a))) .constant

/-- binary operators, from_graph.hpp:1232-1449, 1458-1464 -/
noncomputable def FromSt.bin (c : FCfg) (s : FromSt) (f : BinF) (a b : ℕ) : FromSt :=
  if s.ty a = .variable ∧ s.ty b = .variable then FromSt.push (s.op (.vv f (s.ix a) (s.ix b))) .variable
  else if s.ty a = .variable then
    if f = .add ∨ f = .mul then FromSt.push (s.op (.pv f (s.ix b) (s.ix a))) .variable
    else FromSt.push (s.op (.vp f (s.ix a) (s.ix b))) .variable
  else if s.ty b = .variable then FromSt.push (s.op (.pv f (s.ix a) (s.ix b))) .variable
  else if s.ty a = .dynamic ∨ s.ty b = .dynamic then FromSt.push (s.dyn c (.bin f (s.ix a) (s.ix b))) .dynamic
  else FromSt.push (s.con c (f.fn (s.par a) (s.par b))) .constant

/-- discrete_index, from_graph.hpp:170-198: none when two discrete functions have the same name.
The value `n_list_discrete` means that there is no such function. -/
def discreteIndex (names gnames : List Txt) : Option (ℕ → ℕ) :=
  forRange 0 names.length (some fun _ => names.length) fun i r =>
    r.bind fun d =>
      let gi := gnames.findIdx (fun s => decide (s = names.getD i []))
      if gi = gnames.length then some d
      else if d gi = names.length then some (Function.update d gi i)
      else none

/-- one operator of the graph, from_graph.hpp:342-1472; none is an error or an atomic function -/
noncomputable def fromNode (c : FCfg) (dix : ℕ → ℕ) (s : FromSt) : GNode → Option FromSt
  | .un f a => some (s.un c f a)
  | .bin f a b => some (s.bin c f a b)
  | .dis name a => if dix name = c.names.length then none else some (s.dis c (dix name) a)
  | .atom .. => none
  | .atom4 .. => none
  | .print .. => some s
  | .cexp k l r t f => some (s.cexp c k l r t f)
  | .comp k a b => some (s.comp c k a b)
  | .sum l => some (s.sum c l)

/-- loop over the operators, from_graph.hpp:342-1472 -/
noncomputable def fromNodes (c : FCfg) (dix : ℕ → ℕ) : List GNode → FromSt → Option FromSt
  | [], s => some s
  | n :: ns, s => (fromNode c dix s n).bind (fromNodes c dix ns)

/-- one dependent variable, from_graph.hpp:1478-1492 -/
def FromSt.dep (s : FromSt) (d : ℕ) : FromSt × ℕ :=
  if s.ty d = .variable then (s, s.ix d) else s.op (.par (s.ix d))

/-- from_graph.hpp:1475-1492 -/
def fromDeps : List ℕ → FromSt → FromSt × List ℕ
  | [], s => (s, [])
  | d :: ds, s => let o := s.dep d; let e := fromDeps ds o.1; (e.1, o.2 :: e.2)

/-- the recording before the operators, from_graph.hpp:244-320: `d2v` is dyn2var, `v2d` is var2dyn -/
noncomputable def fromInit (c : FCfg) (g : CppGraph) (d2v v2d : List Bool) : FromSt :=
  let s : FromSt := ⟨⟨[], [], [], fun _ => 0⟩, [], [.constant], [0]⟩
  let s := (s.con c c.nan).1
  let s := (s.op .begin).1
  let s := d2v.foldl (fun s b => s.ind c b) s
  let s := v2d.foldl (fun s b => s.ind c (!b)) s
  g.constants.foldl (fun s v => FromSt.push (s.con c v) .constant) s

/-- ADFun::from_graph(graph_obj, dyn2var, var2dyn), from_graph.hpp:111-1551 -/
noncomputable def fromGraph (c : FCfg) (g : CppGraph) (d2v v2d : List Bool) : Option OTape :=
  (discreteIndex c.names g.discreteNames).bind fun dix =>
    (fromNodes c dix g.nodes (fromInit c g d2v v2d)).map fun s =>
      let e := fromDeps g.deps s
      { dyn := e.1.r
        nInd := d2v.count false + v2d.count true
        n := d2v.count true + v2d.count false
        ops := e.1.ops
        dep := e.2
        vecs := [] }

/-- from_graph(graph_obj), from_graph.hpp:1553-1566 -/
noncomputable def fromGraph' (c : FCfg) (g : CppGraph) : Option OTape :=
  fromGraph c g (List.replicate g.nDyn false) (List.replicate g.nVar false)

/-! ## The comparisons of an operation sequence -/

/-- the comparison asserted by EqOp, LeOp, LtOp, NeOp -/
def CmpF.holds : CmpF → ℝ → ℝ → Prop
  | .eq, x, y => x = y
  | .le, x, y => x ≤ y
  | .lt, x, y => x < y
  | .ne, x, y => x ≠ y

/-- number of comparison operators whose result is not the same as during the recording:
compare_change_number() after Forward(0, x); cppad/local/sweep/forward_0.hpp:150-420 (EqppOp, ..., NevvOp) and
cppad/local/var_op/compare_op.hpp -/
noncomputable def countOps (disc : ℕ → ℝ → ℝ) (par : ℕ → ℝ) : List VOp → ℕ → FSt → ℕ
  | [], _, _ => 0
  | op :: ops, i, s =>
    if s.skip i then countOps disc par ops (i + 1) s
    else
      (match op with
        | .cmp k a b => if CmpF.holds k (a.val par s.val) (b.val par s.val) then 0 else 1
        | _ => 0) + countOps disc par ops (i + 1) (op.step disc par i s)

/-- `new_dynamic(ind)`, `Forward(0, x)`, `compare_change_number()` -/
noncomputable def compareChange (disc : ℕ → ℝ → ℝ) (T : OTape) (ind : List ℝ) (x junk : ℕ → ℝ) : ℕ :=
  countOps disc (at' (parVals disc ind T.dyn)) T.ops 0 (T.start x junk)

/-! ## *Specification*: the function defined by a graph -/

/-- The values of the results of an operator, `val k` is the value of node `k`, `fn name` is the
discrete function with that name.  cppad/core/graph/graph_op_enum.hpp (documentation of the operators).  Atomic functions
are not specified. -/
noncomputable def GNode.results (fn : Txt → ℝ → ℝ) (dnames : List Txt) (val : ℕ → ℝ) : GNode → List ℝ
  | .un f a => [f.fn (val a)]
  | .bin f a b => [f.fn (val a) (val b)]
  | .dis name a => [fn (dnames.getD name []) (val a)]
  | .atom .. => []
  | .atom4 .. => []
  | .print .. => []
  | .cexp c l r t f => [condExp c.cop (val l) (val r) (val t) (val f)]
  | .comp .. => []
  | .sum args => [sumOver val args]

/-- values of the nodes: the results of each operator are the next nodes -/
noncomputable def evalNodes (fn : Txt → ℝ → ℝ) (dnames : List Txt) : List GNode → List ℝ → List ℝ
  | [], vals => vals
  | n :: ns, vals => evalNodes fn dnames ns (vals ++ n.results fn dnames (at' vals))

/-- There is no node zero; then come the independent dynamic parameters, the independent variables and the constants
(cppad/core/graph/cpp_ad_graph.xrst). -/
def CppGraph.start (g : CppGraph) (d x : List ℝ) : List ℝ := 0 :: (d ++ x ++ g.constants)

/-- values of the dependent nodes -/
noncomputable def CppGraph.eval (fn : Txt → ℝ → ℝ) (g : CppGraph) (d x : List ℝ) : List ℝ :=
  g.deps.map (at' (evalNodes fn g.discreteNames g.nodes (g.start d x)))

/-- is the operator a comparison that is false -/
noncomputable def GNode.failed (val : ℕ → ℝ) : GNode → ℕ
  | .comp c a b => if CmpF.holds c (val a) (val b) then 0 else 1
  | _ => 0

/-- number of comparisons in the graph that are false -/
noncomputable def CppGraph.failed (fn : Txt → ℝ → ℝ) (g : CppGraph) (d x : List ℝ) : ℕ :=
  (g.nodes.map (GNode.failed (at' (evalNodes fn g.discreteNames g.nodes (g.start d x))))).sum

/-- the values for which the flag is true, in order -/
def pick (flag : List Bool) (vals : List ℝ) : List ℝ := ((flag.zip vals).filter Prod.fst).map Prod.snd

/-- The independent dynamic parameters of the function that from_graph creates: the ones of the graph that were not
changed to variables, and then the variables that were changed to dynamic parameters;
documentation of dyn2var and var2dyn, cppad/core/graph/from_graph.hpp:76-95 -/
def newDyn (d2v v2d : List Bool) (d x : List ℝ) : List ℝ := pick (d2v.map not) d ++ pick v2d x

/-- The independent variables of the function that from_graph creates -/
def newVar (d2v v2d : List Bool) (d x : List ℝ) : List ℝ := pick d2v d ++ pick (v2d.map not) x

/-! ## Well formed graphs and recordings -/

/-- nodes that are arguments of an operator -/
def GNode.argNodes : GNode → List ℕ
  | .un _ a => [a]
  | .bin _ a b => [a, b]
  | .dis _ a => [a]
  | .atom _ _ args => args
  | .atom4 _ _ _ args => args
  | .print _ _ notpos value => [notpos, value]
  | .cexp _ l r t f => [l, r, t, f]
  | .comp _ a b => [a, b]
  | .sum args => args

/-- n_result -/
def GNode.nres : GNode → ℕ
  | .atom _ n _ => n
  | .atom4 _ _ n _ => n
  | .print .. => 0
  | .comp .. => 0
  | _ => 1

/-- the index of a discrete function is in range -/
def GNode.nameOk (dnames : List Txt) : GNode → Prop
  | .dis name _ => name < dnames.length
  | _ => True

/-- is this an atomic function call -/
def GNode.isAtom : GNode → Bool
  | .atom .. => true
  | .atom4 .. => true
  | _ => false

/-- the arguments of operators are previous nodes, `n` is the index of the next result -/
def NodesOk (dnames : List Txt) : List GNode → ℕ → Prop
  | [], _ => True
  | nd :: ns, n => (∀ a ∈ nd.argNodes, 1 ≤ a ∧ a < n) ∧ nd.nameOk dnames ∧ NodesOk dnames ns (n + nd.nres)

/-- number of nodes including node zero -/
def CppGraph.numNodes (g : CppGraph) : ℕ := 1 + g.nDyn + g.nVar + g.constants.length + (g.nodes.map GNode.nres).sum

/-- A graph that from_graph accepts: arguments are previous nodes, there are no atomic functions, the vector of
discrete function names has no duplicates -/
structure CppGraph.WF (g : CppGraph) : Prop where
  nodes : NodesOk g.discreteNames g.nodes (1 + g.nDyn + g.nVar + g.constants.length)
  deps : ∀ d ∈ g.deps, 1 ≤ d ∧ d < g.numNodes
  noAtom : ∀ n ∈ g.nodes, n.isAtom = false
  names : g.discreteNames.Nodup

/-- neither of the operands of a comparison is a constant; `con k` tells whether node `k` is a constant -/
def GNode.cmpOk (con : ℕ → Bool) : GNode → Prop
  | .comp _ a b => con a = false ∧ con b = false
  | _ => True

/-- No comparison has an operand that is a constant: the result of an operator is a constant when all its arguments are
constants. `con` are the nodes so far. -/
def noConCmp : List GNode → List Bool → Prop
  | [], _ => True
  | nd :: ns, con => nd.cmpOk (fun a => con.getD a false) ∧
    noConCmp ns (con ++ List.replicate nd.nres (nd.argNodes.all fun a => con.getD a false))

/-- no comparison in the graph has an operand that is a constant -/
def CppGraph.NoConCmp (g : CppGraph) : Prop :=
  noConCmp g.nodes (true :: (List.replicate (g.nDyn + g.nVar) false ++ List.replicate g.constants.length true))

/-- to_graph supports this operator: no CSkipOp and no VecAD operator.  Calls of atomic functions are supported by to_graph, but
their translation is not modelled here. -/
def _root_.CppAD.Optim.VOp.supported : VOp → Bool
  | .cskip .. | .ldp .. | .ldv .. | .stpp .. | .stpv .. | .stvp .. | .stvv .. | .afun .. | .frv .. | .frp .. => false
  | _ => true

/-- discrete function of a variable operator -/
def _root_.CppAD.Optim.VOp.disIdx : VOp → Option ℕ
  | .dis k _ => some k
  | _ => none

/-- discrete function of a dynamic parameter operator -/
def dynDisIdx : DynOp → Option ℕ
  | .dis k _ => some k
  | _ => none

/-- A recording made by CppAD: the independent variables come first, arguments refer to previous results that
are not parameter zero, the independent dynamic parameters have indices `1, ..., nInd`. -/
structure TapeOk (T : OTape) : Prop where
  len : T.n < T.ops.length
  ind : ∀ i < T.ops.length, (T.op i).isInd = true ↔ i ≤ T.n
  vars : ∀ i < T.ops.length, ∀ v ∈ (T.op i).vars, 1 ≤ v ∧ v < i ∧ (T.op v).hasRes = true
  pars : ∀ i < T.ops.length, ∀ p ∈ (T.op i).pars, 1 ≤ p ∧ p < T.dyn.parAll.length
  supported : ∀ i < T.ops.length, (T.op i).supported = true
  dep : ∀ d ∈ T.dep, 1 ≤ d ∧ d < T.ops.length ∧ (T.op d).hasRes = true
  dyn : DynWf T.dyn.parIsDyn T.dyn.dynOps
  plen : T.dyn.parAll.length = T.dyn.parIsDyn.length
  par0 : 0 < T.dyn.parAll.length ∧ T.dyn.parIsDyn.getD 0 false = false
  dargs : ∀ op ∈ T.dyn.dynOps, op.elem ∧ ∀ a ∈ op.args, 1 ≤ a
  nind : T.nInd ≤ T.dyn.dynOps.length ∧ ∀ k < T.dyn.dynOps.length, T.dyn.dynOps.getD k .ind = .ind ↔ k < T.nInd
  d2p : ∀ k < T.nInd, (dyn2par T.dyn.parIsDyn).getD k 0 = k + 1

/-- the discrete functions used by a recording are in the list of discrete functions and have a name that is
different from the others -/
structure DiscOk (names : List Txt) (T : OTape) : Prop where
  nodup : names.Nodup
  var : ∀ i < T.ops.length, ∀ k, (T.op i).disIdx = some k → k < names.length
  dyn : ∀ op ∈ T.dyn.dynOps, ∀ k, dynDisIdx op = some k → k < names.length

end CppAD.Graph
