import Verif.Taylor.FunModel
import Verif.Util.While
import Verif.Util.IndexSort
import Verif.Util.SparseRc

/-! # Model of the subgraph calculations

The operators of a recording are numbered: operator `0` is BeginOp, operators `1 .. n` are the InvOp of the independent
variables, operator `n + 1 + k` is the `k`-th elementary operator of the recording and the last one is EndOp.
A call of an atomic function is one operator here: the tape has one operator for each argument and result of the call
between two AFunOp, `map_user_op_` (local/subgraph/info.hpp:259-297) maps all of them to the first AFunOp, only this one is
put in a subgraph by init_rev and get_rev, and `entire_call` (local/subgraph/entire_call.hpp:32-66) adds the others.  Vectors with unspecified elements after `resize` are arbitrary functions. -/

namespace CppAD.Subgraph

/-- number of operators of the recording, `play->num_var_op()`, local/play/player.hpp -/
def numOp (T : Tape) : ℕ := T.n + 1 + T.ops.length + 1

/-- the elementary operator with operator index `i` (BeginOp, InvOp and EndOp have none), `GetOp`,
local/play/player.hpp -/
def opAt (T : Tape) (i : ℕ) : Option Op := if i ≤ T.n then none else T.ops[i - (T.n + 1)]?

/-- `NumRes(op)` of operator `i`: one for BeginOp and InvOp, zero for EndOp; local/op_code_var.hpp:420-520 -/
def nres (T : Tape) (i : ℕ) : ℕ := if i ≤ T.n then 1 else (opAt T i).elim 0 Op.nres

/-- number of results of operator `i` that are not operands of other operators (auxiliary results) -/
def naux (T : Tape) (i : ℕ) : ℕ := (opAt T i).elim 0 Op.naux

/-- `get_argument_variable`, local/subgraph/arg_variable.hpp:41-101 -/
def argVars (T : Tape) (i : ℕ) : List ℕ := (opAt T i).elim [] Op.args

/-- operator `i` is an InvOp -/
def isInv (T : Tape) (i : ℕ) : Prop := 1 ≤ i ∧ i ≤ T.n

instance (T : Tape) (i : ℕ) : Decidable (isInv T i) := by unfold isInv; infer_instance

/-- tables for random access to the operators, local/play/random_iterator.hpp -/
structure Rnd where
  op2var : ℕ → ℕ
  var2op : ℕ → ℕ

/-- local/play/random_setup.hpp:55-133 (the table of argument positions is not needed here);
`junk` is the content of the vectors after `resize`.  `var2op` is set for the last result of an operator; for
an atomic function call it is set for every result (each is the result of a FunrvOp), and
the model's `var2op` includes the map `map_user_op_`. -/
def randomSetup (T : Tape) (junk : Rnd) : Rnd :=
  (forRange 0 (numOp T) ((0, junk) : ℕ × Rnd) fun i s =>
    let v := s.1 + nres T i
    if 0 < nres T i then
      (v, ⟨Function.update s.2.op2var i (v - 1),
        forRange (s.1 + naux T i) v s.2.var2op fun u t => Function.update t u i⟩)
    else (v, s.2)).2

/-- the class `subgraph_info`, local/subgraph/info.hpp:20-59 (`n_ind_`, `n_dep_`, `n_op_` are those of the recording) -/
structure Info where
  inSub : ℕ → ℕ
  select : ℕ → Bool
  process : ℕ → Bool

/-- `init_rev`, local/subgraph/init_rev.hpp:56-158 -/
def initRev (T : Tape) (rnd : Rnd) (info : Info) (select : ℕ → Bool) : Info :=
  let dependYes := T.dep.length
  let dependNo := T.dep.length + 1
  ⟨forRange 0 (numOp T) info.inSub fun i ins =>
      let ins := Function.update ins i dependNo
      if isInv T i then
        if select (i - 1) then Function.update ins i dependYes else ins
      else if 0 < nres T i then
        (argVars T i).foldl (fun ins a =>
          if ins (rnd.var2op a) = dependYes then Function.update ins i dependYes else ins) ins
      else ins,
    select, fun _ => false⟩

/-- local/subgraph/get_rev.hpp:135-150: scan the arguments of one operator -/
def scanArgs (T : Tape) (rnd : Rnd) (select : ℕ → Bool) (iDep : ℕ) (args : List ℕ) (s : List ℕ × (ℕ → ℕ)) :
    List ℕ × (ℕ → ℕ) :=
  args.foldl (fun s jVar =>
    let jOp := rnd.var2op jVar
    let add := decide (s.2 jOp ≤ T.dep.length)
    let add := add && decide (s.2 jOp ≠ iDep)
    let add := if isInv T jOp then add && select (jVar - 1) else add
    if add then (s.1 ++ [jOp], Function.update s.2 jOp iDep) else s) s

/-- `get_rev`, local/subgraph/get_rev.hpp:78-154.  The state of the loop is `sub_index`, `subgraph`, `in_subgraph_`. -/
def getRev (T : Tape) (rnd : Rnd) (info : Info) (iDep : ℕ) : Info × List ℕ :=
  let i0 := rnd.var2op (T.dep.getD iDep 0)
  let s0 : List ℕ × (ℕ → ℕ) :=
    if info.inSub i0 ≤ T.dep.length then ([i0], Function.update info.inSub i0 iDep) else ([], info.inSub)
  let r := whileLoop (σ := ℕ × List ℕ × (ℕ → ℕ)) (fun s => decide (s.1 < s.2.1.length))
    (fun s => (s.1 + 1, scanArgs T rnd info.select iDep (argVars T (s.2.1.getD s.1 0)) s.2)) (0, s0)
  (⟨r.2.2, info.select, Function.update info.process iDep true⟩, r.2.1)

/-- local/subgraph/sparsity.hpp:148-180: the pairs `(row_out, col_out)` -/
def sparsityLoop (T : Tape) (rnd : Rnd) (range : ℕ → Bool) (info : Info) : Info × List (ℕ × ℕ) :=
  forRange 0 T.dep.length ((info, []) : Info × List (ℕ × ℕ)) fun i s =>
    if range i then
      let r := getRev T rnd s.1 i
      (r.1, r.2.foldl (fun out iOp => if isInv T iOp then out ++ [(i, iOp - 1)] else out) s.2)
    else s

/-- `f.subgraph_sparsity(select_domain, select_range, transpose, pattern_out)`, core/subgraph_sparsity.hpp:171-243 and
local/subgraph/sparsity.hpp:82-181; returns the new `subgraph_info_` and the pattern as `(nr, nc, entries)` -/
def sparsity (T : Tape) (junk : Rnd) (info : Info) (domain range : ℕ → Bool) (transpose : Bool) :
    Info × (ℕ × ℕ × List (ℕ × ℕ)) :=
  let rnd := randomSetup T junk
  let r := sparsityLoop T rnd range (initRev T rnd info domain)
  (r.1, if transpose then (T.n, T.dep.length, r.2.map fun e => (e.2, e.1))
    else (T.dep.length, T.n, r.2))

/-- `f.subgraph_reverse(select_domain)`, core/subgraph_reverse.hpp:194-239 -/
def select (T : Tape) (junk : Rnd) (info : Info) (domain : ℕ → Bool) : Info :=
  initRev T (randomSetup T junk) info domain

/-- core/subgraph_reverse.hpp:368-392: zero the partials of the results of the operators in the subgraph -/
def zeroPartial (T : Tape) (rnd : Rnd) (q : ℕ) (sub : List ℕ) (P : Tay) : Tay :=
  sub.foldl (fun P i =>
    if nres T i = 0 then P
    else if i ≠ 0 then
      forRange (rnd.op2var i + 1 - nres T i) (rnd.op2var i + 1) P fun v P => forRange 0 q P fun k P => P.set v k 0
    else P) P

/-- local/sweep/reverse.hpp:160-690 with a subgraph iterator (local/play/subgraph_iterator.hpp): only the operators in
`sub` are processed, the last one first -/
noncomputable def sweep (T : Tape) (rnd : Rnd) (d : ℕ) (s : Tay) (sub : List ℕ) (P : Tay) : Tay :=
  sub.foldr (fun i P => (opAt T i).elim P fun op => op.rev d (rnd.op2var i) s P) P

/-- `f.subgraph_reverse(q, ell, col, dw)`, core/subgraph_reverse.hpp:294-460.  `sort` is `std::sort`, `junk` the content
of `subgraph_partial_` after its `resize` (it keeps the values of previous calls), `dw` the content of the user's
vector after `dw.resize(n * q)`.  Returns the new `subgraph_info_`, `col` and `dw`. -/
noncomputable def reverse (f : ADFun) (sort : List ℕ → List ℕ) (jrnd : Rnd) (junk : Tay) (info : Info) (q ell : ℕ)
    (dw : List ℝ) : Info × List ℕ × List ℝ :=
  let T := f.toTape
  let rnd := randomSetup T jrnd
  let r := getRev T rnd info ell
  let sub := sort (r.2 ++ [0] ++ [numOp T - 1])
  let P := zeroPartial T rnd q sub junk
  let P := P.set (T.dep.getD ell 0) (q - 1) 1
  let P := sweep T rnd (q - 1) (unflat f.cap f.taylor) sub P
  -- number of InvOp in the subgraph, they follow BeginOp
  let colSize := ((sub.drop 1).takeWhile fun i => decide (i ≤ T.n)).length
  let col := (List.range colSize).map fun c => sub.getD (c + 1) 0 - 1
  let dw := forRange 0 colSize dw fun c dw =>
    let j := sub.getD (c + 1) 0 - 1
    forRange 0 q dw fun k dw => dw.set (j * q + k) (P (j + 1) k)
  (r.1, col, dw)

/-! ## Specification -/

/-- variable `v` is a result of the `k`-th operator `op` of the recording (not an auxiliary result) -/
def ResultOf (T : Tape) (k : ℕ) (op : Op) (v : ℕ) : Prop :=
  T.ops[k]? = some op ∧ CppAD.numVar (T.ops.take k) (T.n + 1) + op.naux ≤ v ∧
    v < CppAD.numVar (T.ops.take k) (T.n + 1) + op.nres

/-- *Specification*: variable `u` can be reached from variable `v` going from results to operands, i.e. `v` depends
on `u` in the operation graph -/
inductive Reaches (T : Tape) : ℕ → ℕ → Prop
  | refl (v : ℕ) : Reaches T v v
  | step {k : ℕ} {op : Op} {v a u : ℕ} : ResultOf T k op v → a ∈ op.args → Reaches T a u → Reaches T v u

/-- *Specification*: states of `subgraph_info_` after `f.subgraph_reverse(domain)` followed by calls
`f.subgraph_reverse(q, ell, col, dw)` for different components `ell`; `done ell` says that `ell` has been processed -/
inductive Selected (T : Tape) (domain : ℕ → Bool) : Info → (ℕ → Bool) → Prop
  | select (jrnd : Rnd) (info : Info) : Selected T domain (select T jrnd info domain) fun _ => false
  | reverse {info : Info} {done : ℕ → Bool} (jrnd : Rnd) (ell : ℕ) : Selected T domain info done → ell < T.dep.length →
      done ell = false →
      Selected T domain (getRev T (randomSetup T jrnd) info ell).1 (Function.update done ell true)

end CppAD.Subgraph
