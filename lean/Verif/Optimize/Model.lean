import Verif.Record.Model
import Verif.Util.While

/-! # Optimizing an operation sequence

Model of `local::optimize::optimize_run` (cppad/local/optimize/) and of the zero order forward sweep that
plays the operation sequence back, including the operators that `optimize` creates (CSumOp, CSkipOp) and the
VecAD operators.

Simplifications:
* A variable is named by the index of the operator that creates it (`random_itr.var2op` is the identity), so
  the auxiliary results of an operator have no name.  `new_var` and `new_op` are both operator indices.
* A VecAD vector is named by its position instead of by its offset in `vec_ind`.
* A conditional expression is named by the index of its CExpOp instead of by its position among the CExpOp's.
* Sets stored in `list_setvec` objects are finite sets (see C23); `post_element` acts at once.
* The operators of one call of an atomic function (AFunOp, FunapOp and FunavOp for each argument, FunrpOp or FunrvOp for each
  result, AFunOp) are represented by one operator `afun` with all the arguments, followed by `frv` or `frp` for each result.
  The number of an operator in this model is therefore not the number in the code.
* EndOp and PriOp are not modelled.
* The operator of a dynamic parameter that is a result of an atomic function (atom_dyn, result_dyn) contains all the arguments of the
  call, see `CppAD.Record.DynOp`.
* Base is `ℝ`. -/

open scoped Classical

namespace CppAD.Optim

open CppAD CppAD.Record

/-! ## Operation sequences -/

/-- an argument that is either the index of a parameter or of a variable (according to a bit of a flag) -/
inductive Arg | par (p : ℕ) | var (v : ℕ)

/-- the comparisons EqOp, LeOp, LtOp, NeOp, cppad/local/op_code_var.hpp:214-250 -/
inductive CmpF | eq | le | lt | ne

/-- What optimize uses of an atomic function: the results of zero order forward mode as a function of the arguments (`atomic_four::forward`,
`atomic_three::forward`, `atomic_base::forward`), and the `rev_depend` callback, which gets for every argument its type and its value (`none` is the nan
that is passed for a variable), and the results that are used, and returns the arguments that those depend on
(cppad/core/atomic/four/rev_depend.hpp:20-110, three/rev_depend.hpp).  `depend_ok` is the contract of the callback in that documentation: the results
that are used do not change when other arguments change; the constants have the value that was passed. -/
structure AtomF where
  fn : List ℝ → ℕ → ℝ
  depend : List (AdType × Option ℝ) → (ℕ → Bool) → ℕ → Bool
  depend_ok : ∀ (tx : List (AdType × Option ℝ)) (dy : ℕ → Bool) (x x' : List ℝ), x.length = tx.length → x'.length = tx.length →
    (∀ (j : ℕ) (v : ℝ), tx[j]? = some (AdType.constant, some v) → x[j]? = some v) → (∀ j < tx.length, depend tx dy j = true → x[j]? = x'[j]?) →
    ∀ r, dy r = true → fn x r = fn x' r

/-- variable operators with their arguments, cppad/local/op_code_var.hpp:28-190.  Letters `p` and `v`: the argument
is the index of a parameter or of a variable; `w` is a VecAD vector.  `csum c av sv ad sd` is CSumOp: constant
parameter, variables added, variables subtracted, dynamic parameters added, subtracted.
`cskip cop l r tr fa` is CSkipOp: `tr` (`fa`) are the operators skipped when the comparison is true (false).
`afun A args m` is a call of `A` with arguments `args` and `m` results (AFunOp with FunapOp and FunavOp); `frv A args g r` is FunrvOp: result `r` of
the call at operator `g`, which is a variable; `frp g p` is FunrpOp: a result of the call at operator `g` that is parameter `p`. -/
inductive VOp
  | begin | inv
  | un (f : UnF) (v : ℕ)
  | pv (f : BinF) (p v : ℕ) | vp (f : BinF) (v p : ℕ) | vv (f : BinF) (v u : ℕ)
  | dis (k v : ℕ)
  | par (p : ℕ)
  | cexp (cop : CompareOp) (l r t f : Arg)
  | cmp (c : CmpF) (a b : Arg)
  | csum (c : ℕ) (av sv ad sd : List ℕ)
  | cskip (cop : CompareOp) (l r : Arg) (tr fa : List ℕ)
  | ldp (w p : ℕ) | ldv (w v : ℕ)
  | stpp (w p q : ℕ) | stpv (w p v : ℕ) | stvp (w v q : ℕ) | stvv (w v u : ℕ)
  | afun (A : AtomF) (args : List Arg) (m : ℕ) | frv (A : AtomF) (args : List Arg) (g r : ℕ) | frp (g p : ℕ)

/-- a recording: parameters, number of independent dynamic parameters, number of independent variables,
operators, dependent variables and the initial parameters of the VecAD vectors.
cppad/local/play/player.hpp:39-100, dyn_player.hpp.  `adep` is the `rev_depend` callback of the atomic functions that compute dynamic
parameters (it has the same arguments as `AtomF.depend`); a function without this callback depends on all its arguments. -/
structure OTape where
  dyn : DynRec ℝ
  nInd : ℕ
  n : ℕ
  ops : List VOp
  dep : List ℕ
  vecs : List (List ℕ)
  adep : Atom → List (AdType × Option ℝ) → (ℕ → Bool) → ℕ → Bool := fun _ _ _ _ => true

/-- play->GetOp(i) with its arguments -/
def OTape.op (T : OTape) (i : ℕ) : VOp := T.ops.getD i .begin

/-! ## The zero order forward sweep -/

/-- Taylor coefficients of order zero, `vec_ad2isvar` and `vec_ad2index`, `cskip_op`;
cppad/local/sweep/forward_0.hpp:48-54, 78-97 -/
structure FSt where
  val : ℕ → ℝ
  mem : ℕ → ℕ → Arg
  skip : ℕ → Bool

/-- value of a parameter or variable -/
def Arg.val (par env : ℕ → ℝ) : Arg → ℝ
  | .par p => par p
  | .var v => env v

/-- result of one operator -/
def FSt.set (s : FSt) (i : ℕ) (v : ℝ) : FSt := { s with val := Function.update s.val i v }

/-- store_forward_0, cppad/local/var_op/store_op.hpp:169-233.  `Integer(x)` is `⌊x⌋₊`; an index out of range
is an error in C++ and not checked here. -/
noncomputable def FSt.store (s : FSt) (w : ℕ) (ind : ℝ) (a : Arg) : FSt :=
  { s with mem := Function.update s.mem w (Function.update (s.mem w) ⌊ind⌋₊ a) }

/-- load_forward_0, cppad/local/var_op/load_op.hpp:196-263 -/
noncomputable def FSt.load (s : FSt) (par : ℕ → ℝ) (w : ℕ) (ind : ℝ) : ℝ := (s.mem w ⌊ind⌋₊).val par s.val

/-- sum over a list of indices -/
def sumOver (g : ℕ → ℝ) (l : List ℕ) : ℝ := (l.map g).sum

/-- one operator of the forward sweep, cppad/local/sweep/forward_0.hpp:170-560.
CSkipOp: cppad/local/var_op/cskip_op.hpp:145-226; CSumOp: csum_op.hpp:167-219; CExpOp: cexp_op.hpp.
The comparison operators only count changes, see `CppAD.Record`.
A call of an atomic function is executed when its AFunOp is reached (forward_0.hpp:500-513, cppad/local/var_op/atomic_op.hpp); here each result is
computed at its FunrvOp.  AFunOp has no result in the code, here it has a result that nobody uses. -/
noncomputable def VOp.step (disc : ℕ → ℝ → ℝ) (par : ℕ → ℝ) (i : ℕ) (op : VOp) (s : FSt) : FSt :=
  match op with
  | .begin => s
  | .inv => s
  | .un f v => s.set i (f.fn (s.val v))
  | .pv f p v => s.set i (f.fn (par p) (s.val v))
  | .vp f v p => s.set i (f.fn (s.val v) (par p))
  | .vv f v u => s.set i (f.fn (s.val v) (s.val u))
  | .dis k v => s.set i (disc k (s.val v))
  | .par p => s.set i (par p)
  | .cexp cop l r t f => s.set i (condExp cop (l.val par s.val) (r.val par s.val) (t.val par s.val) (f.val par s.val))
  | .cmp .. => s
  | .csum c av sv ad sd => s.set i (par c + sumOver par ad - sumOver par sd + sumOver s.val av - sumOver s.val sv)
  | .cskip cop l r tr fa =>
    { s with skip := fun k => s.skip k ||
        if cop.holds (l.val par s.val) (r.val par s.val) then decide (k ∈ tr) else decide (k ∈ fa) }
  | .ldp w p => s.set i (s.load par w (par p))
  | .ldv w v => s.set i (s.load par w (s.val v))
  | .stpp w p q => s.store w (par p) (.par q)
  | .stpv w p v => s.store w (par p) (.var v)
  | .stvp w v q => s.store w (s.val v) (.par q)
  | .stvv w v u => s.store w (s.val v) (.var u)
  | .afun .. => s.set i 0
  | .frv A args _ r => s.set i (A.fn (args.map fun a => a.val par s.val) r)
  | .frp .. => s

/-- the operator whose `cskip_op` decides whether this one is executed: all the operators of a call of an atomic function are
skipped when its first AFunOp is, forward_0.hpp:145-174 -/
def VOp.home (i : ℕ) : VOp → ℕ
  | .frv _ _ g _ => g
  | .frp g _ => g
  | _ => i

/-- forward_0.hpp:137-560: operators with `cskip_op` true are not executed.  `obey = false` is the sweep that
ignores `cskip_op`: it is only used to state properties. -/
noncomputable def sweepOps (disc : ℕ → ℝ → ℝ) (par : ℕ → ℝ) (obey : Bool) : List VOp → ℕ → FSt → FSt
  | [], _, s => s
  | op :: ops, i, s => sweepOps disc par obey ops (i + 1) (if obey && s.skip (op.home i) then s else op.step disc par i s)

/-- new_dynamic, cppad/core/new_dynamic.hpp and cppad/local/sweep/dynamic.hpp:87-563: the values of all the
parameters when the independent dynamic parameters have values `ind` -/
noncomputable def parVals (disc : ℕ → ℝ → ℝ) (ind : List ℝ) (r : DynRec ℝ) : List ℝ :=
  dynamicSweep disc ind r.parIsDyn r.dynOps r.parAll

/-- Taylor coefficients before the sweep, cppad/core/forward/forward.hpp:195-215: `junk` is what was left in the
coefficient vector, the independent variables are set to `x`; forward_0.hpp:78-97: the VecAD vectors have
their initial parameters and no operator is skipped. -/
def OTape.start (T : OTape) (x junk : ℕ → ℝ) : FSt where
  val := fun i => if 1 ≤ i ∧ i ≤ T.n then x (i - 1) else junk i
  mem := fun w k => .par ((T.vecs.getD w []).getD k 0)
  skip := fun _ => false

/-- `new_dynamic(ind)` followed by `Forward(0, x)` -/
noncomputable def OTape.eval (disc : ℕ → ℝ → ℝ) (T : OTape) (obey : Bool) (ind : List ℝ) (x junk : ℕ → ℝ) : List ℝ :=
  let s := sweepOps disc (at' (parVals disc ind T.dyn)) obey T.ops 0 (T.start x junk)
  T.dep.map s.val

/-! ## get_op_usage -/

/-- options of optimize that are modelled, cppad/local/optimize/extract_option.hpp:47-54 -/
structure Options where
  compare : Bool
  cskip : Bool
  csum : Bool
  limit : ℕ

/-- cppad/local/optimize/usage.hpp:20-35 -/
inductive Usage | no | yes | csum
  deriving DecidableEq

/-- op_add_or_sub, get_op_usage.hpp:15-34 -/
def VOp.addOrSub : VOp → Bool
  | .pv .add _ _ | .pv .sub _ _ | .vp .sub _ _ | .vv .add _ _ | .vv .sub _ _ => true
  | _ => false

/-- State of the reverse pass.  `cset i` is `cexp_set` of operator `i`: an element `(k, b)` corresponds to
`2 * k + b`: operator `i` can be skipped when the comparison of conditional expression `k` is `b`. -/
structure UseSt where
  usage : ℕ → Usage
  cset : ℕ → Finset (ℕ × Bool)
  vused : ℕ → Bool

/-- op_inc_arg_usage, get_op_usage.hpp:100-140; `nset` tells whether `cexp_set.n_set()` is positive -/
def incArg (op : ℕ → VOp) (nset : Bool) (check : Bool) (i j : ℕ) (s : UseSt) : UseSt :=
  { s with
    usage := Function.update s.usage j (if check && decide (s.usage j = .no) && (op j).addOrSub then .csum else .yes)
    cset := if nset then Function.update s.cset j (if s.usage j = .no then s.cset i else s.cset j ∩ s.cset i) else s.cset }

/-- `incArg` for an argument that may be a parameter -/
def incOpd (op : ℕ → VOp) (nset : Bool) (i : ℕ) (a : Arg) (s : UseSt) : UseSt :=
  match a with
  | .par _ => s
  | .var j => incArg op nset false i j s

/-- one of the cases of a conditional expression, get_op_usage.hpp:497-532; `b` is the compare part of the
element -/
def incCase (o : Options) (op : ℕ → VOp) (nset same : Bool) (i : ℕ) (b : Bool) (a : Arg) (s : UseSt) : UseSt :=
  match a with
  | .par _ => s
  | .var j =>
    let can := o.cskip && !same && decide (s.usage j = .no)
    let s' := incArg op nset false i j s
    if can then
      { s' with cset := Function.update s'.cset j (insert (i, b) (s'.cset j)), usage := Function.update s'.usage j .yes }
    else s'

/-- are if_true and if_false the same variable, get_op_usage.hpp:492-494 -/
def sameVar : Arg → Arg → Bool
  | .var v, .var u => decide (v = u)
  | _, _ => false

/-- set the usage of one operator to yes -/
def UseSt.mark (s : UseSt) (i : ℕ) : UseSt := { s with usage := Function.update s.usage i .yes }

/-- type and value of the arguments that are passed to `rev_depend`, get_op_usage.hpp:778-817 and get_par_usage.hpp:357-380; `tx p` is type and value of
parameter `p` -/
def Arg.depArg (tx : ℕ → AdType × ℝ) : Arg → AdType × Option ℝ
  | .par p => ((tx p).1, some (tx p).2)
  | .var _ => (.variable, none)

/-- The arguments that the used results of the call at operator `i` depend on: get_op_usage.hpp:712-751, 819-835,
get_par_usage.hpp:344-346, 382-398 -/
def dependX (tx : ℕ → AdType × ℝ) (usage : ℕ → Usage) (i : ℕ) (A : AtomF) (args : List Arg) (m : ℕ) : ℕ → Bool :=
  A.depend (args.map (Arg.depArg tx)) fun r => decide (r < m) && decide (usage (i + 1 + r) ≠ .no)

/-- the arguments in `args` that the used results depend on -/
def depArgs (tx : ℕ → AdType × ℝ) (usage : ℕ → Usage) (i : ℕ) (A : AtomF) (args : List Arg) (m : ℕ) : List Arg :=
  ((List.range args.length).filter (dependX tx usage i A args m)).map fun j => args.getD j (.par 0)

/-- one operator of the reverse pass, get_op_usage.hpp:371-853.  There is no case for StppOp and StvpOp.  The usage of the last AFunOp of a call
(`last_atom_i_op`) is here the usage of `afun`. -/
def useStep (o : Options) (tx : ℕ → AdType × ℝ) (op : ℕ → VOp) (nset : Bool) (i : ℕ) (s : UseSt) : UseSt :=
  match op i with
  | .un _ v => if s.usage i ≠ .no then incArg op nset false i v s else s
  | .vp f v _ => if s.usage i ≠ .no then incArg op nset (o.csum && (VOp.vp f v 0).addOrSub) i v s else s
  | .dis _ v => if s.usage i ≠ .no then incArg op nset false i v s else s
  | .pv f _ v => if s.usage i ≠ .no then incArg op nset (o.csum && (VOp.pv f 0 v).addOrSub) i v s else s
  | .vv f v u =>
    let check := o.csum && (VOp.vv f v u).addOrSub
    if s.usage i ≠ .no then incArg op nset check i u (incArg op nset check i v s) else s
  | .cexp _ l r t f =>
    if s.usage i ≠ .no then
      let s1 := incOpd op nset i r (incOpd op nset i l s)
      let same := sameVar t f
      incCase o op nset same i true f (incCase o op nset same i false t s1)
    else s
  | .cskip .. => s
  | .par _ => s
  | .inv => s.mark i
  | .begin => s.mark i
  | .cmp _ a b => if o.compare then incOpd op nset i b (incOpd op nset i a (s.mark i)) else s
  | .ldp w _ => if s.usage i ≠ .no then { s with vused := Function.update s.vused w true } else s
  | .ldv w v => if s.usage i ≠ .no then { s with vused := Function.update s.vused w true }.mark v else s
  | .stpv w _ v => if s.vused w then (s.mark i).mark v else s
  | .stvv w v u => if s.vused w then ((s.mark i).mark v).mark u else s
  | .stpp .. => s
  | .stvp .. => s
  | .csum _ av sv _ _ => (av ++ sv).foldl (fun s j => incArg op nset false i j s) s
  | .afun A args m => if s.usage i ≠ .no then (depArgs tx s.usage i A args m).foldl (fun s a => incOpd op nset i a s) s else s
  | .frv _ _ g _ => if s.usage i ≠ .no then incArg op nset false i g s else s
  | .frp .. => s

/-- is this a CExpOp -/
def VOp.isCexp : VOp → Bool
  | .cexp .. => true
  | _ => false

/-- the conditional expressions, get_op_usage.hpp:328-338 and 471-474 (`cexp2op`): empty without conditional_skip -/
def OTape.cexps (o : Options) (T : OTape) : List ℕ :=
  if o.cskip then (List.range T.ops.length).filter fun i => (T.op i).isCexp else []

/-- get_op_usage.hpp:340-350: `cexp_set.n_set() > 0` -/
def OTape.nset (o : Options) (T : OTape) : Bool := !(T.cexps o).isEmpty

/-- type and value of a parameter when optimize is called, get_op_usage.hpp:789-796 -/
def OTape.tx (T : OTape) (p : ℕ) : AdType × ℝ := (if T.dyn.parIsDyn.getD p false then .dynamic else .constant, at' T.dyn.parAll p)

/-- get_op_usage.hpp:352-359 -/
def OTape.useInit (T : OTape) : UseSt where
  usage := fun i => if i ∈ T.dep then .yes else .no
  cset := fun _ => ∅
  vused := fun _ => false

/-- get_op_usage, get_op_usage.hpp:250-855: the state after the reverse pass has processed the operators with
index `i` or more -/
def OTape.useFrom (o : Options) (T : OTape) (i : ℕ) : UseSt :=
  (List.range' i (T.ops.length - i)).foldr (fun k s => useStep o T.tx T.op (T.nset o) k s) T.useInit

/-- result of get_op_usage -/
def OTape.use (o : Options) (T : OTape) : UseSt := T.useFrom o 0

/-! ## get_op_previous -/

/-- change of the index in a variable argument -/
def Arg.map (gp gv : ℕ → ℕ) : Arg → Arg
  | .par p => .par (gp p)
  | .var v => .var (gv v)

/-- change all the variable arguments by `gv` and the parameter arguments by `gp` -/
def VOp.map (gp gv gw : ℕ → ℕ) : VOp → VOp
  | .begin => .begin
  | .inv => .inv
  | .un f v => .un f (gv v)
  | .pv f p v => .pv f (gp p) (gv v)
  | .vp f v p => .vp f (gv v) (gp p)
  | .vv f v u => .vv f (gv v) (gv u)
  | .dis k v => .dis k (gv v)
  | .par p => .par (gp p)
  | .cexp cop l r t f => .cexp cop (l.map gp gv) (r.map gp gv) (t.map gp gv) (f.map gp gv)
  | .cmp c a b => .cmp c (a.map gp gv) (b.map gp gv)
  | .csum c av sv ad sd => .csum (gp c) (av.map gv) (sv.map gv) (ad.map gp) (sd.map gp)
  | .cskip cop l r tr fa => .cskip cop (l.map gp gv) (r.map gp gv) tr fa
  | .ldp w p => .ldp (gw w) (gp p)
  | .ldv w v => .ldv (gw w) (gv v)
  | .stpp w p q => .stpp (gw w) (gp p) (gp q)
  | .stpv w p v => .stpv (gw w) (gp p) (gv v)
  | .stvp w v q => .stvp (gw w) (gv v) (gp q)
  | .stvv w v u => .stvv (gw w) (gv v) (gv u)
  | .afun A args m => .afun A (args.map (Arg.map gp gv)) m
  | .frv A args g r => .frv A (args.map (Arg.map gp gv)) (gv g) r
  | .frp g p => .frp (gv g) (gp p)

/-- the operators that may match a previous operator, get_op_previous.hpp:146-247 -/
def VOp.matchable : VOp → Bool
  | .un .. | .pv .. | .vp .. | .vv .. | .dis .. | .cmp .. => true
  | _ => false

/-- swap the operands of AddvvOp and MulvvOp; none for other operators -/
def VOp.swap : VOp → Option VOp
  | .vv .add v u => some (.vv .add u v)
  | .vv .mul v u => some (.vv .mul u v)
  | _ => none

/-- put the operands of AddvvOp and MulvvOp in order, match_op.hpp:212-220 -/
def VOp.order : VOp → VOp
  | .vv .add v u => if u < v then .vv .add u v else .vv .add v u
  | .vv .mul v u => if u < v then .vv .mul u v else .vv .mul v u
  | op => op

/-- State of get_op_previous: `op_previous`, `op_usage`, `cexp_set`, `var2previous_var` (`work_addr_t`) and
`hash_table_op` -/
structure PrevSt where
  prev : ℕ → ℕ
  use : UseSt
  v2p : ℕ → ℕ
  table : ℕ → Finset ℕ

/-- does candidate `c` match: `key` is the current operator with arguments `arg_match`, match_op.hpp:243-270 -/
noncomputable def isMatch (v2p : ℕ → ℕ) (key c : VOp) : Bool :=
  let c' := c.map id v2p id
  decide (c' = key) || decide (c'.swap = some key)

/-- match_op, cppad/local/optimize/match_op.hpp:117-296; `hash` is optimize_hash_code -/
noncomputable def matchOp (limit : ℕ) (op : ℕ → VOp) (hash : VOp → ℕ) (i : ℕ) (s : PrevSt) : PrevSt :=
  let key := ((op i).map id s.v2p id).order
  let code := hash key
  let cands := (s.table code).sort (· ≤ ·)
  match cands.find? fun c => isMatch s.v2p key (op c) with
  | some c => { s with prev := Function.update s.prev i c, v2p := Function.update s.v2p i c }
  | none =>
    let old := if cands.length = limit then ∅ else s.table code
    { s with table := Function.update s.table code (insert i old) }

/-- one operator of get_op_previous, get_op_previous.hpp:142-253 -/
noncomputable def prevStep (limit : ℕ) (op : ℕ → VOp) (nset : Bool) (hash : VOp → ℕ) (i : ℕ) (s : PrevSt) : PrevSt :=
  let s := { s with prev := Function.update s.prev i 0 }
  if s.use.usage i = .yes ∧ (op i).matchable = true then
    let s := matchOp limit op hash i s
    if s.prev i ≠ 0 then { s with use := incArg op nset false i (s.prev i) s.use } else s
  else s

/-- get_op_previous.hpp:112-266 -/
noncomputable def OTape.prevUpTo (o : Options) (hash : VOp → ℕ) (T : OTape) (i : ℕ) : PrevSt :=
  forRange 0 i (⟨fun _ => 0, T.use o, id, fun _ => ∅⟩ : PrevSt) (prevStep o.limit T.op (T.nset o) hash)

/-- result of get_op_previous -/
noncomputable def OTape.previous (o : Options) (hash : VOp → ℕ) (T : OTape) : PrevSt := T.prevUpTo o hash T.ops.length

/-! ## get_cexp_info -/

/-- the operators that are kept, get_cexp_info.hpp:198-200 -/
def PrevSt.keep (s : PrevSt) (i : ℕ) : Bool :=
  decide (s.use.usage i ≠ .no) && decide (s.use.usage i ≠ .csum) && decide (s.prev i = 0)

/-- the operators that are considered: the ones after the first AFunOp of a call with a non-empty set are not, get_cexp_info.hpp:203-222, 247 -/
noncomputable def PrevSt.visit (s : PrevSt) : VOp → Bool
  | .frv _ _ g _ => !(s.keep g && decide (s.use.cset g ≠ ∅))
  | _ => true

/-- skip_op_true (`b = true`) and skip_op_false (`b = false`) of conditional expression `k`, in increasing
order; get_cexp_info.hpp:194-253 -/
noncomputable def PrevSt.skipOps (s : PrevSt) (op : ℕ → VOp) (numOp k : ℕ) (b : Bool) : List ℕ :=
  (List.range numOp).filter fun i => s.keep i && (s.visit (op i) && decide ((k, b) ∈ s.use.cset i))

/-- index of a variable argument, zero for a parameter; get_cexp_info.hpp:185-189 -/
def Arg.varIdx : Arg → ℕ
  | .par _ => 0
  | .var v => v

/-- max_left_right, get_cexp_info.hpp:184-190 -/
def VOp.maxLR : VOp → ℕ
  | .cexp _ l r _ _ => max l.varIdx r.varIdx
  | _ => 0

/-! ## get_par_usage -/

/-- the parameters of a kept operator, get_par_usage.hpp:165-404.  Of the parameters of CSumOp only the constant
is marked (line 254-266). -/
def parMarks (tx : ℕ → AdType × ℝ) (isDyn : ℕ → Bool) (usage : ℕ → Usage) (i : ℕ) : VOp → List ℕ
  | .pv .add p v | .pv .sub p v => if isDyn p then [p] else if usage i = .csum then [] else if usage v = .csum then [] else [p]
  | .vp .sub v p => if isDyn p then [p] else if usage i = .csum then [] else if usage v = .csum then [] else [p]
  | .pv _ p _ => [p]
  | .vp _ _ p => [p]
  | .par p => [p]
  | .csum c _ _ _ _ => [c]
  | .cmp _ a b | .cexp _ _ _ a b => parOf a ++ parOf b
  | .ldp _ p => [p]
  | .stpp _ p q => [p, q]
  | .stpv _ p _ => [p]
  | .stvp _ _ q => [q]
  | .afun A args m => (depArgs tx usage i A args m).flatMap parOf
  | _ => []
where
  parOf : Arg → List ℕ
    | .par p => [p]
    | .var _ => []

/-- left and right of a conditional expression, get_par_usage.hpp:296-301 -/
def parMarksLR : VOp → List ℕ
  | .cexp _ l r _ _ => parMarks.parOf l ++ parMarks.parOf r
  | _ => []

/-- mark a list of parameters as used -/
def markPars (u : ℕ → Bool) (l : List ℕ) : ℕ → Bool := fun p => u p || decide (p ∈ l)

/-- the number of results before `i` of a call of an atomic function that are dynamic parameters: position of result `i` among the
operators atom_dyn, result_dyn, ... , result_dyn of the call -/
def selRank (sel : List Bool) (i : ℕ) : ℕ := ((List.range i).filter fun r => sel.getD r false).length

/-- `parameter_x` and `type_x` of a call of an atomic function of dynamic parameters, get_par_usage.hpp:433-446; the argument that is the
phantom parameter with index zero is a variable -/
def dynDepArg (tx : ℕ → AdType × ℝ) (a : ℕ) : AdType × Option ℝ :=
  if a = 0 then (.variable, none) else ((tx a).1, some (tx a).2)

/-- `depend_y` of the call whose first result is dynamic parameter `k0`, get_par_usage.hpp:448-456.  The index of a result that is not a
dynamic parameter is zero. -/
def dynDepY (isDyn : List Bool) (u : ℕ → Bool) (m : ℕ) (sel : List Bool) (k0 r : ℕ) : Bool :=
  decide (r < m) && u (if sel.getD r false then (dyn2par isDyn).getD (k0 + selRank sel r) 0 else 0)

/-- one dynamic parameter of the reverse pass, get_par_usage.hpp:412-488 -/
def OTape.dynUse (T : OTape) (k : ℕ) (u : ℕ → Bool) : ℕ → Bool :=
  match T.dyn.dynOps.getD k .ind with
  | .atom A sel i args =>
    -- result_dyn: lines 417-421; atom_dyn: lines 422-471
    if selRank sel i = 0 then
      markPars u (((List.range args.length).filter
        (T.adep A (args.map (dynDepArg T.tx)) (dynDepY T.dyn.parIsDyn u A.m sel k))).map fun j => args.getD j 0)
    else u
  | op => if u ((dyn2par T.dyn.parIsDyn).getD k 0) then markPars u op.args else u

/-- get_par_usage, cppad/local/optimize/get_par_usage.hpp:77-494 -/
def OTape.parUsage (T : OTape) (usage : ℕ → Usage) (vused : ℕ → Bool) : ℕ → Bool :=
  let isDyn := fun i => T.dyn.parIsDyn.getD i false
  -- lines 110-137
  let u0 := fun i => decide (i ≤ T.nInd)
  let u1 := forRange 0 T.vecs.length u0 fun w u => if vused w then markPars u (T.vecs.getD w []) else u
  -- lines 155-405
  let u2 := forRange 0 T.ops.length u1 fun i u =>
    if usage i = .no then u else markPars (markPars u (parMarks T.tx isDyn usage i (T.op i))) (parMarksLR (T.op i))
  -- lines 407-490
  forDown0 T.dyn.dynOps.length u2 T.dynUse

/-! ## get_dyn_previous -/

/-- the operator is not the result of an atomic function (atom_dyn, result_dyn) -/
def _root_.CppAD.Record.DynOp.elem : DynOp → Prop
  | .atom .. => False
  | _ => True

/-- change the parameter arguments of an operator for dynamic parameters -/
def dynMap (g : ℕ → ℕ) : DynOp → DynOp
  | .ind => .ind
  | .un f a => .un f (g a)
  | .bin f a b => .bin f (g a) (g b)
  | .dis k a => .dis k (g a)
  | .cexp cop l r t f => .cexp cop (g l) (g r) (g t) (g f)
  | .atom A sel i args => .atom A sel i (args.map g)

/-- operators that may match a previous one, get_dyn_previous.hpp:223-417 -/
def dynMatchable : DynOp → Bool
  | .un .. | .bin .. => true
  | _ => false

/-- swapped operands of add_dyn and mul_dyn -/
def dynSwap : DynOp → Option DynOp
  | .bin .add a b => some (.bin .add b a)
  | .bin .mul a b => some (.bin .mul b a)
  | _ => none

/-- `dyn_previous` (none is `num_dynamic_par`) and `hash_table_dyn` -/
structure DynPrevSt where
  prev : ℕ → Option ℕ
  table : ℕ → Finset ℕ

/-- dyn_arg_match, get_dyn_previous.hpp:60-104: the parameter that replaces parameter `j` -/
def dynArg (isDyn : List Bool) (prev : ℕ → Option ℕ) (j : ℕ) : ℕ :=
  if isDyn.getD j false then
    match prev ((dyn2par isDyn).idxOf j) with
    | some k => (dyn2par isDyn).getD k 0
    | none => j
  else j

/-- one dynamic parameter, get_dyn_previous.hpp:193-432 -/
noncomputable def dynPrevStep (isDyn : List Bool) (ops : List DynOp) (parUsage : ℕ → Bool) (hash : DynOp → ℕ)
    (i : ℕ) (s : DynPrevSt) : DynPrevSt :=
  let s := { s with prev := Function.update s.prev i none }
  let op := ops.getD i .ind
  if parUsage ((dyn2par isDyn).getD i 0) && dynMatchable op then
    let key := dynMap (dynArg isDyn s.prev) op
    let cands := (s.table (hash key)).sort (· ≤ ·)
    match cands.find? fun k => decide (ops.getD k .ind = key) with
    | some k => { s with prev := Function.update s.prev i (some k) }
    | none =>
      let second := match dynSwap key with
        | some key' => ((s.table (hash key')).sort (· ≤ ·)).find? fun k => decide (ops.getD k .ind = key')
        | none => none
      match second with
      | some k => { s with prev := Function.update s.prev i (some k) }
      | none =>
        let old := if cands.length = 10 then ∅ else s.table (hash key)
        { s with table := Function.update s.table (hash key) (insert i old) }
  else s

/-- get_dyn_previous.hpp:134-433 -/
noncomputable def OTape.dynPrevious (T : OTape) (parUsage : ℕ → Bool) (hash : DynOp → ℕ) : ℕ → Option ℕ :=
  (forRange T.nInd T.dyn.dynOps.length (⟨fun _ => none, fun _ => ∅⟩ : DynPrevSt)
    (dynPrevStep T.dyn.parIsDyn T.dyn.dynOps parUsage hash)).prev

/-! ## The new parameters -/

/-- recorder::put_con_par -/
noncomputable def putCon (hash : ℝ → ℕ) (r : DynRec ℝ) (v : ℝ) : DynRec ℝ × ℕ :=
  r.putConPar hash (fun a b => decide (a = b)) v

/-- the recorder for the new recording, `new_par` and `zero_par_index` -/
structure ParSt where
  pars : DynRec ℝ
  newPar : ℕ → ℕ
  zero : ℕ

/-- the index `addr_t_max` that means: this parameter is not used, optimize_run.hpp:319-322 -/
def unused : ℕ := 2147483647

/-- is any result of the call used that is a dynamic parameter, optimize_run.hpp:378-399; `k0` is the first one -/
def callUsed (isDyn : List Bool) (usage : ℕ → Bool) (m : ℕ) (sel : List Bool) (k0 : ℕ) : Bool :=
  (List.range m).any fun r => sel.getD r false && usage ((dyn2par isDyn).getD (k0 + selRank sel r) 0)

/-- an argument of a call of an atomic function in the new recording, optimize_run.hpp:407-413 -/
def atomArg (usage : ℕ → Bool) (newPar : ℕ → ℕ) (a : ℕ) : ℕ := if 0 < a ∧ usage a = true then newPar a else 0

/-- One dependent dynamic parameter, optimize_run.hpp:357-508.  In the code the results of a call of an atomic function are all put in the
new recording when atom_dyn is reached (lines 414-441), nothing happens for result_dyn; here each of the results, which follow
each other in the recording, is put when it is reached. -/
noncomputable def OTape.newDyn (T : OTape) (usage : ℕ → Bool) (dprev : ℕ → Option ℕ) (k : ℕ) (s : ParSt) : ParSt :=
  let i := (dyn2par T.dyn.parIsDyn).getD k 0
  match T.dyn.dynOps.getD k .ind with
  | .atom A sel r args =>
    if callUsed T.dyn.parIsDyn usage A.m sel (k - selRank sel r) then
      let d := s.pars.putDynPar (at' T.dyn.parAll i) (.atom A sel r (args.map (atomArg usage s.newPar)))
      ⟨d.1, Function.update s.newPar i d.2, s.zero⟩
    else s
  | op =>
    if usage i then
      match dprev k with
      | some j => ⟨s.pars, Function.update s.newPar i (s.newPar ((dyn2par T.dyn.parIsDyn).getD j 0)), s.zero⟩
      | none =>
        let d := s.pars.putDynPar (at' T.dyn.parAll i) (dynMap s.newPar op)
        ⟨d.1, Function.update s.newPar i d.2, s.zero⟩
    else s

/-- The new parameters, optimize_run.hpp:317-508: first the parameter with index zero, then the independent
dynamic parameters, the constants that are used, the constant zero and the dependent dynamic parameters that
are used. -/
noncomputable def OTape.newPars (hashR : ℝ → ℕ) (T : OTape) (usage : ℕ → Bool) (dprev : ℕ → Option ℕ) : ParSt :=
  let isDyn := fun i => T.dyn.parIsDyn.getD i false
  let numPar := T.dyn.parAll.length
  let r0 : DynRec ℝ := ⟨[], [], [], fun _ => 0⟩
  -- line 331-333
  let p0 : ParSt := ⟨(putCon hashR r0 (at' T.dyn.parAll 0)).1, Function.update (fun _ => unused) 0 0, 0⟩
  -- line 335-341
  let p1 := forRange 1 (T.nInd + 1) p0 fun i s =>
    let d := s.pars.putDynPar (at' T.dyn.parAll i) .ind
    (⟨d.1, Function.update s.newPar i d.2, s.zero⟩ : ParSt)
  -- line 343-352
  let p2 := forRange (T.nInd + 1) numPar p1 fun i s =>
    if !isDyn i && usage i then
      let d := putCon hashR s.pars (at' T.dyn.parAll i)
      (⟨d.1, Function.update s.newPar i d.2, s.zero⟩ : ParSt)
    else s
  -- line 355
  let p3 : ParSt := ⟨(putCon hashR p2.pars 0).1, p2.newPar, (putCon hashR p2.pars 0).2⟩
  -- line 357-508
  forRange T.nInd T.dyn.dynOps.length p3 (T.newDyn usage dprev)

/-! ## record_csum -/

/-- the stacks of struct_csum_stacks (the top is the head of the list) and `sum_par`,
cppad/local/optimize/csum_stacks.hpp:20-36; an entry of `op_info` is an operator and its sign `add` -/
structure CsumSt where
  stack : List (VOp × Bool)
  sum : ℝ
  addV : List ℕ
  subV : List ℕ
  addD : List ℕ
  subD : List ℕ

instance : Nonempty CsumSt := ⟨⟨[], 0, [], [], [], []⟩⟩

/-- a variable argument with sign `add`, record_csum.hpp:281-301 -/
def CsumSt.var (op : ℕ → VOp) (usage : ℕ → Usage) (s : CsumSt) (add : Bool) (v : ℕ) : CsumSt :=
  if usage v = .csum then { s with stack := (op v, add) :: s.stack }
  else if add then { s with addV := v :: s.addV } else { s with subV := v :: s.subV }

/-- a parameter argument with sign `add`, record_csum.hpp:260-279 -/
def CsumSt.par (isDyn : ℕ → Bool) (par : ℕ → ℝ) (s : CsumSt) (add : Bool) (p : ℕ) : CsumSt :=
  if isDyn p then
    if add then { s with addD := p :: s.addD } else { s with subD := p :: s.subD }
  else { s with sum := if add then s.sum + par p else s.sum - par p }

/-- a variable argument of a CSumOp, record_csum.hpp:180-201: an argument with csum usage gets the sign of the
CSumOp (line 190), the others get `addVar` -/
def CsumSt.varC (op : ℕ → VOp) (usage : ℕ → Usage) (add addVar : Bool) (s : CsumSt) (v : ℕ) : CsumSt :=
  if usage v = .csum then { s with stack := (op v, add) :: s.stack }
  else if addVar then { s with addV := v :: s.addV } else { s with subV := v :: s.subV }

/-- body of the loop over the stack, record_csum.hpp:155-307 -/
noncomputable def csumStep (op : ℕ → VOp) (usage : ℕ → Usage) (isDyn : ℕ → Bool) (par : ℕ → ℝ) (s : CsumSt) : CsumSt :=
  match s.stack with
  | [] => s
  | (o, add) :: rest =>
    let s := { s with stack := rest }
    match o with
    | .csum c av sv ad sd =>
      let s := { s with sum := if add then s.sum + par c else s.sum - par c }
      let s := av.foldl (CsumSt.varC op usage add add) s
      let s := sv.foldl (CsumSt.varC op usage add (!add)) s
      let s := ad.foldl (fun s p => if add then { s with addD := p :: s.addD } else { s with subD := p :: s.subD }) s
      sd.foldl (fun s p => if !add then { s with addD := p :: s.addD } else { s with subD := p :: s.subD }) s
    | .pv f p v => (s.par isDyn par add p).var op usage (if f = .sub then !add else add) v
    | .vp f v p => (s.var op usage add v).par isDyn par (if f = .sub then !add else add) p
    | .vv f v u => (s.var op usage add v).var op usage (if f = .sub then !add else add) u
    | _ => s

/-- the loop, record_csum.hpp:132-307 -/
noncomputable def csumRun (op : ℕ → VOp) (usage : ℕ → Usage) (isDyn : ℕ → Bool) (par : ℕ → ℝ) (i : ℕ) : CsumSt :=
  whileLoop (fun s => !s.stack.isEmpty) (csumStep op usage isDyn par) ⟨[(op i, true)], 0, [], [], [], []⟩

/-! ## The new operators -/

/-- The recorder for the new operators, `new_var`, `new_op`, the remaining part of `cskip_order`, for each
conditional expression the position of its CSkipOp in the new recording (if there is one), and the new `left`
and `right` (`cskip_new`) -/
structure RecSt where
  pars : DynRec ℝ
  ops : List VOp
  newVar : ℕ → ℕ
  newOp : ℕ → ℕ
  order : List ℕ
  skipAt : ℕ → Option ℕ
  left : ℕ → Arg
  right : ℕ → Arg

/-- put an operator with a result in the new recording -/
def RecSt.putVar (s : RecSt) (i : ℕ) (op : VOp) : RecSt :=
  { s with ops := s.ops ++ [op], newOp := Function.update s.newOp i s.ops.length,
           newVar := Function.update s.newVar i s.ops.length }

/-- put an operator without a result in the new recording -/
def RecSt.putOp (s : RecSt) (i : ℕ) (op : VOp) : RecSt :=
  { s with ops := s.ops ++ [op], newOp := Function.update s.newOp i s.ops.length }

/-- What optimize_run knows when it creates the new recording -/
structure Plan where
  op : ℕ → VOp
  numOp : ℕ
  use : PrevSt
  isDyn : ℕ → Bool
  par : ℕ → ℝ
  newPar : ℕ → ℕ
  newVec : ℕ → ℕ
  cskip : Bool
  zero : ℕ
  parUsed : ℕ → Bool

/-- insert a CSkipOp (its arguments are set at the end), but not inside of a call of an atomic function, optimize_run.hpp:598-631 -/
noncomputable def insertSkip (P : Plan) (i : ℕ) (s : RecSt) : RecSt :=
  match P.op i with
  | .begin => s
  | .inv => s
  | .frv .. => s
  | .frp .. => s
  | _ =>
    match s.order with
    | [] => s
    | j :: rest =>
      if P.cskip && decide ((P.op j).maxLR < i) then
        let s := { s with order := rest }
        if 0 < (P.use.skipOps P.op P.numOp j true).length ∨ 0 < (P.use.skipOps P.op P.numOp j false).length then
          { s with ops := s.ops ++ [.cskip .lt (.par 0) (.par 0) [] []],
                   skipAt := Function.update s.skipAt j (some s.ops.length) }
        else s
      else s

/-- record_csum.hpp:308-377 -/
noncomputable def recordCsum (hashR : ℝ → ℕ) (P : Plan) (i : ℕ) (s : RecSt) : RecSt :=
  let c := csumRun P.op P.use.use.usage P.isDyn P.par i
  let d := putCon hashR s.pars c.sum
  let s := { s with pars := d.1 }
  s.putVar i (.csum d.2 (c.addV.map s.newVar) (c.subV.map s.newVar) (c.addD.map P.newPar) (c.subD.map P.newPar))

/-- is operator `i` the top of a cumulative summation, optimize_run.hpp:720-724, 782-785, 826-831 -/
def Plan.top (P : Plan) (op : VOp) : Bool :=
  op.addOrSub && match op with
    | .pv _ _ v => decide (P.use.use.usage v = .csum)
    | .vp _ v _ => decide (P.use.use.usage v = .csum)
    | .vv _ v u => decide (P.use.use.usage v = .csum) || decide (P.use.use.usage u = .csum)
    | _ => false

/-- argument of a call in the new recording: a parameter or variable that is not in the new recording is replaced by the constant zero,
optimize_run.hpp:1180-1219.  The test `new_par[p] == addr_t_max` is here the test that parameter `p` is not used. -/
def Arg.emit (zero : ℕ) (pu : ℕ → Bool) (gp gv : ℕ → ℕ) : Arg → Arg
  | .par p => .par (if pu p then gp p else zero)
  | .var v => if gv v = 0 then .par zero else .var (gv v)

/-- the operator in the new recording -/
def VOp.emit (zero : ℕ) (pu : ℕ → Bool) (gp gv gw : ℕ → ℕ) : VOp → VOp
  | .afun A args m => .afun A (args.map (Arg.emit zero pu gp gv)) m
  | .frv A args g r => .frv A (args.map (Arg.emit zero pu gp gv)) (gv g) r
  | op => op.map gp gv gw

/-- A result of a call that is in the new recording although it is not used: FunrpOp is copied, FunrvOp becomes a FunrpOp,
optimize_run.hpp:1221-1238 and 1240-1257 -/
def VOp.dead (P : Plan) (newVar : ℕ → ℕ) : VOp → Option VOp
  | .frv _ _ g _ => if P.use.use.usage g = .yes then some (.frp (newVar g) P.zero) else none
  | .frp g p => if P.use.use.usage g = .yes then some (.frp (newVar g) (if P.parUsed p then P.newPar p else P.zero)) else none
  | _ => none

/-- one operator, optimize_run.hpp:572-1283 -/
noncomputable def recStep (hashR : ℝ → ℕ) (P : Plan) (i : ℕ) (s : RecSt) : RecSt :=
  let previous := P.use.prev i
  let s := { s with newOp := Function.update s.newOp i 0,
                    newVar := Function.update s.newVar i (if P.use.use.usage i = .yes then s.newVar previous else 0) }
  let s := insertSkip P i s
  if P.use.use.usage i ≠ .yes then
    match (P.op i).dead P s.newVar with
    | some op => s.putOp i op
    | none => s
  else
    let new := (P.op i).emit P.zero P.parUsed P.newPar s.newVar P.newVec
    match P.op i with
    | .begin | .inv | .par _ | .ldp .. | .ldv .. | .afun .. | .frv .. => s.putVar i new
    | .un .. | .dis .. => if previous = 0 then s.putVar i new else s
    | .pv .. | .vp .. | .vv .. =>
      if P.top (P.op i) then recordCsum hashR P i s
      else if previous = 0 then s.putVar i new else s
    | .cexp _ l r _ _ =>
      let s' := s.putVar i new
      if P.cskip then
        { s' with left := Function.update s'.left i (l.map P.newPar s.newVar),
                  right := Function.update s'.right i (r.map P.newPar s.newVar) }
      else s'
    | .cmp .. => if previous = 0 then s.putOp i new else s
    | .stpp .. | .stpv .. | .stvp .. | .stvv .. => s.putOp i new
    | .csum .. => recordCsum hashR P i s
    | .cskip .. => s
    | .frp .. => s

/-- compare operator of a conditional expression -/
def VOp.cop : VOp → CompareOp
  | .cexp cop .. => cop
  | _ => .lt

/-- fill in the arguments of the CSkipOp of conditional expression `k`, optimize_run.hpp:1303-1343 -/
noncomputable def fillSkip (P : Plan) (s : RecSt) (ops : List VOp) (k : ℕ) : List VOp :=
  match s.skipAt k with
  | none => ops
  | some pos => ops.set pos (.cskip (P.op k).cop (s.left k) (s.right k)
      ((P.use.skipOps P.op P.numOp k true).map s.newOp) ((P.use.skipOps P.op P.numOp k false).map s.newOp))

/-- hash functions: for constants, operators and dynamic operators -/
structure Hashes where
  real : ℝ → ℕ
  op : VOp → ℕ
  dyn : DynOp → ℕ

/-- position of a VecAD vector in the new recording, optimize_run.hpp:517-538 -/
def newVec (vused : ℕ → Bool) (w : ℕ) : ℕ := ((List.range w).filter vused).length

/-- everything that is computed before the new operators are recorded, optimize_run.hpp:214-541 -/
noncomputable def OTape.plan (h : Hashes) (o : Options) (T : OTape) : Plan × DynRec ℝ :=
  let s := T.previous o h.op
  let pu := T.parUsage s.use.usage s.use.vused
  let p := T.newPars h.real pu (T.dynPrevious pu h.dyn)
  (⟨T.op, T.ops.length, s, fun i => T.dyn.parIsDyn.getD i false, at' T.dyn.parAll, p.newPar, newVec s.use.vused, o.cskip, p.zero, pu⟩,
   p.pars)

/-- the new operators before the arguments of the CSkipOp's are filled in, optimize_run.hpp:552-1283;
`order` is `cskip_order`, the result of index_sort with the keys max_left_right (optimize_run.hpp:285-293) -/
noncomputable def OTape.newOps (h : Hashes) (o : Options) (order : List ℕ) (T : OTape) (i : ℕ) : RecSt :=
  forRange 0 i (⟨(T.plan h o).2, [], fun _ => 0, fun _ => 0, order, fun _ => none, fun _ => .par 0, fun _ => .par 0⟩ : RecSt)
    (recStep h.real (T.plan h o).1)

/-- optimize_run, cppad/local/optimize/optimize_run.hpp:153-1345 -/
noncomputable def OTape.optimize (h : Hashes) (o : Options) (order : List ℕ) (T : OTape) : OTape :=
  let P := (T.plan h o).1
  let s := T.newOps h o order T.ops.length
  { dyn := s.pars
    nInd := T.nInd
    n := T.n
    ops := (T.cexps o).foldl (fillSkip P s) s.ops
    dep := T.dep.map s.newVar
    vecs := ((List.range T.vecs.length).filter P.use.use.vused).map fun w => (T.vecs.getD w []).map P.newPar
    adep := T.adep }

end CppAD.Optim
