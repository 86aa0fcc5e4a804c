import Verif.Legacy.Hes

/-!
# The callback object of `ipopt::solve`

include/cppad/ipopt/solve_callback.hpp.  The object is created by the constructor, then Ipopt calls its member functions.
Pointers to numbers are functions `ℕ → ℝ`, the C arrays that receive results are functions that are updated.  The
conversion between `Index` and `size_t` is the identity.
-/

namespace CppAD.Ipopt

open Sparsity Legacy IndexSort SparseJac SparseHes

/-- The arguments of the constructor (solve_callback.hpp:214-240).  `record x` is the operation sequence that results from
`Independent(a_x)`, `fg_eval(a_fg, a_x)`, `Dependent(a_x, a_fg)` at the point `x`, and `optimize` is its `optimize()`. -/
structure Arg where
  nf : ℕ
  nx : ℕ
  ng : ℕ
  xi : ℕ → ℝ
  xl : ℕ → ℝ
  xu : ℕ → ℝ
  gl : ℕ → ℝ
  gu : ℕ → ℝ
  retape : Bool
  sparseForward : Bool
  sparseReverse : Bool
  record : List ℝ → Tape
  optimize : Tape → Tape

/-- What does not depend on the arguments: `bits` is `vectorBool::bit_per_unit()`, `sort` is the `std::sort` used by
`index_sort`, `maxR` is CPPAD_SPARSE_JACOBIAN_MAX_MULTIPLE_DIRECTION (sparse_jacobian.hpp:11) and `nan` is quiet_NaN -/
structure Env where
  bits : ℕ
  sort : List (Element ℕ) → List (Element ℕ)
  maxR : ℕ
  nan : ℝ

/-- contents of newly allocated memory during one call -/
structure Junk where
  zero : ℕ → ℝ
  fwd : ℕ → ℕ → ℝ
  back : ℕ → ℕ → ℝ
  out : ℕ → ℝ
  flag : ℕ → Bool
  flags : ℕ → ℕ → Bool

/-- the data members, solve_callback.hpp:83-124 (the arguments of the constructor are in `Arg`).  An empty work vector is `none`. -/
structure Obj where
  f : ADFun
  x0 : List ℝ
  fg0 : List ℝ
  patJac : ℕ → Bool
  rowJac : List ℕ
  colJac : List ℕ
  colOrder : List ℕ
  workJac : Option Work
  patHes : ℕ → Bool
  rowHes : List ℕ
  colHes : List ℕ
  workHes : Option HWork

/-- element access of a result that is a vector of bool -/
def bools : SetVec → ℕ → Bool
  | .bools v => v
  | .sets _ => fun _ => false

/-- the pattern that picks out `q` columns starting at `i0`: solve_callback.hpp:288-291 and 379-382.  The vector `r` is reused;
all its elements are assigned so its previous contents is not represented. -/
def pick (n q i0 : ℕ) (junk : ℕ → Bool) : ℕ → Bool :=
  forRange 0 n junk fun i r => forRange 0 q r fun j r => Function.update r (i * q + j) (decide (i = i0 + j))

/-- the pattern that picks out `q` rows starting at `i0`: solve_callback.hpp:320-323 -/
def pickRow (q m i0 : ℕ) (junk : ℕ → Bool) : ℕ → Bool :=
  forRange 0 q junk fun i r => forRange 0 m r fun j r => Function.update r (i * m + j) (decide (i0 + i = j))

/-- copying columns to the complete pattern: solve_callback.hpp:295-301 and 391-397 -/
def copyCols (m q nx i0 : ℕ) (s pat : ℕ → Bool) : ℕ → Bool :=
  forRange 0 m pat fun i pat => forRange 0 q pat fun j pat =>
    if i0 + j < nx then Function.update pat (i * nx + i0 + j) (s (i * q + j)) else pat

/-- copying rows to the complete pattern: solve_callback.hpp:327-332 -/
def copyRows (q m nx i0 : ℕ) (s pat : ℕ → Bool) : ℕ → Bool :=
  forRange 0 q pat fun i pat => forRange 0 nx pat fun j pat =>
    if i0 + i < m then Function.update pat ((i0 + i) * nx + j) (s (i * nx + j)) else pat

/-- Jacobian pattern, solve_callback.hpp:271-334 -/
def jacPattern (T : Tape) (bits m nx : ℕ) (J : Junk) : ℕ → Bool :=
  if nx ≤ m then
    forRange 0 ((nx - 1) / bits + 1) J.flag fun l pat =>
      copyCols m bits nx (l * bits) (bools (forSparseJac T (J.flags l) bits (.bools (pick nx bits (l * bits) J.flag)) false false).1) pat
  else
    forRange 0 ((m - 1) / bits + 1) J.flag fun l pat =>
      copyRows bits m nx (l * bits) (bools (revSparseJac T (J.flags l) bits (.bools (pickRow bits m (l * bits) J.flag)) false false)) pat

/-- Hessian pattern, solve_callback.hpp:359-398; `h = adfun_.RevSparseHes(n_column, s, true)` uses the sets kept by
`ForSparseJac` -/
def hesPattern (T : Tape) (bits m nx : ℕ) (J : Junk) : ℕ → Bool :=
  let s := forRange 0 m J.flag fun i s => Function.update s i true
  forRange 0 ((nx - 1) / bits + 1) J.flag fun l pat =>
    let kept := (forSparseJac T (J.flags l) bits (.bools (pick nx bits (l * bits) J.flag)) false false).2
    copyCols nx bits nx (l * bits) (bools (revSparseHes T (J.flags l) bits kept (.bools s) true)) pat

/-- `row.push_back(i); col.push_back(j)` -/
def push (i j : ℕ) (rc : List ℕ × List ℕ) : List ℕ × List ℕ := (rc.1 ++ [i], rc.2 ++ [j])

/-- solve_callback.hpp:347-354 -/
def jacIdxSparse (nf nfg nx : ℕ) (pat : ℕ → Bool) : List ℕ × List ℕ :=
  forRange nf nfg ([], []) fun i rc => forRange 0 nx rc fun j rc => if pat (i * nx + j) then push i j rc else rc

/-- solve_callback.hpp:401-409 -/
def hesIdxSparse (nx : ℕ) (pat : ℕ → Bool) : List ℕ × List ℕ :=
  forRange 0 nx ([], []) fun i rc => forRange 0 nx rc fun j rc =>
    if pat (i * nx + j) then (if j ≤ i then push i j rc else rc) else rc

/-- solve_callback.hpp:414-419 -/
def jacIdxDense (nf nfg nx : ℕ) : List ℕ × List ℕ :=
  forRange nf nfg ([], []) fun i rc => forRange 0 nx rc fun j rc => push i j rc

/-- solve_callback.hpp:422-427 -/
def hesIdxDense (nx : ℕ) : List ℕ × List ℕ :=
  forRange 0 nx ([], []) fun i rc => forRange 0 (i + 1) rc fun j rc => push i j rc

/-- an operation sequence without operations; it is in the default constructed `adfun_` -/
def emptyTape : Tape := ⟨0, [], []⟩

/-- the vector with elements `x[0], … , x[n-1]` -/
def vec (n : ℕ) (x : ℕ → ℝ) : List ℝ := (List.range n).map x

/-- The constructor, solve_callback.hpp:241-433.  The elements of `x0_` and `fg0_` are nan. -/
noncomputable def Obj.init (A : Arg) (E : Env) (J : Junk) : Obj :=
  let nfg := A.nf + A.ng
  let T := if A.retape then emptyTape else A.optimize (A.record (vec A.nx A.xi))
  let x0 := List.replicate A.nx E.nan
  let fg0 := List.replicate nfg E.nan
  if A.sparseForward || A.sparseReverse then
    let patJac := jacPattern T E.bits nfg A.nx J
    let rc := jacIdxSparse A.nf nfg A.nx patJac
    let patHes := hesPattern T E.bits nfg A.nx J
    let rcH := hesIdxSparse A.nx patHes
    ⟨T.initial J.zero, x0, fg0, patJac, rc.1, rc.2, indexSort E.sort rc.2, none, patHes, rcH.1, rcH.2, none⟩
  else
    let rc := jacIdxDense A.nf nfg A.nx
    let rcH := hesIdxDense A.nx
    ⟨T.initial J.zero, x0, fg0, fun _ => false, rc.1, rc.2, indexSort E.sort rc.2, none, fun _ => false, rcH.1, rcH.2, none⟩

/-- `cache_new_x`, solve_callback.hpp:147-166 -/
noncomputable def Obj.cacheNewX (A : Arg) (E : Env) (J : Junk) (o : Obj) (x : ℕ → ℝ) : Obj :=
  let x0 := vec A.nx x
  let f := if A.retape then (A.record x0).initial J.zero else o.f
  let r := f.forward J.zero E.nan 0 x0
  { o with f := r.1, x0 := x0, fg0 := r.2 }

/-- `if( new_x ) cache_new_x(x)`, the first statement of every evaluation -/
noncomputable def Obj.start (A : Arg) (E : Env) (J : Junk) (o : Obj) (x : ℕ → ℝ) (newX : Bool) : Obj :=
  if newX then o.cacheNewX A E J x else o

/-- `get_nlp_info`, solve_callback.hpp:454-480: n, m, nnz_jac_g, nnz_h_lag -/
def Obj.nlpInfo (A : Arg) (o : Obj) : ℕ × ℕ × ℕ × ℕ := (A.nx, A.ng, o.rowJac.length, o.rowHes.length)

/-- `get_bounds_info`, solve_callback.hpp:527-535: x_l, x_u, g_l, g_u -/
def boundsInfo (A : Arg) (xl xu gl gu : ℕ → ℝ) : (ℕ → ℝ) × (ℕ → ℝ) × (ℕ → ℝ) × (ℕ → ℝ) :=
  let x := forRange 0 A.nx (xl, xu) fun i s => (Function.update s.1 i (A.xl i), Function.update s.2 i (A.xu i))
  let g := forRange 0 A.ng (gl, gu) fun i s => (Function.update s.1 i (A.gl i), Function.update s.2 i (A.gu i))
  (x.1, x.2, g.1, g.2)

/-- `get_starting_point`, solve_callback.hpp:592-593 -/
def startingPoint (A : Arg) (x : ℕ → ℝ) : ℕ → ℝ := forRange 0 A.nx x fun j x => Function.update x j (A.xi j)

/-- `eval_f`, solve_callback.hpp:618-632 -/
noncomputable def Obj.evalF (A : Arg) (E : Env) (J : Junk) (o : Obj) (x : ℕ → ℝ) (newX : Bool) : Obj × ℝ :=
  let o := o.start A E J x newX
  (o, forRange 0 A.nf 0 fun i sum => sum + at' o.fg0 i)

/-- `eval_grad_f`, solve_callback.hpp:657-675 -/
noncomputable def Obj.evalGradF (A : Arg) (E : Env) (J : Junk) (o : Obj) (x : ℕ → ℝ) (newX : Bool) (grad : ℕ → ℝ) :
    Obj × (ℕ → ℝ) :=
  let o := o.start A E J x newX
  let w := forRange 0 A.nf J.out fun i w => Function.update w i 1
  let w := forRange 0 A.ng w fun i w => Function.update w (A.nf + i) 0
  let r := o.f.reverse J.zero 1 (vec (A.nf + A.ng) w)
  ({ o with f := r.1 }, forRange 0 A.nx grad fun i g => Function.update g i (at' r.2 i))

/-- `eval_g`, solve_callback.hpp:703-716 -/
noncomputable def Obj.evalG (A : Arg) (E : Env) (J : Junk) (o : Obj) (x : ℕ → ℝ) (newX : Bool) (g : ℕ → ℝ) : Obj × (ℕ → ℝ) :=
  let o := o.start A E J x newX
  (o, forRange 0 A.ng g fun i g => Function.update g i (at' o.fg0 (A.nf + i)))

/-- `eval_jac_g` when `values` is NULL, solve_callback.hpp:795-804: iRow, jCol -/
def Obj.jacStructure (A : Arg) (o : Obj) (iRow jCol : ℕ → ℕ) : (ℕ → ℕ) × (ℕ → ℕ) :=
  forRange 0 o.rowJac.length (iRow, jCol) fun k s =>
    (Function.update s.1 k (o.rowJac.getD k 0 - A.nf), Function.update s.2 k (o.colJac.getD k 0))

/-- the dense forward mode case of `eval_jac_g`, solve_callback.hpp:826-847; the loop state is the object, `ell`, `k`, `values`.
The vector `x1` is zero except for element `j` during the calculations for column `j`. -/
noncomputable def Obj.jacDenseFor (A : Arg) (E : Env) (J : Junk) (o : Obj) (values : ℕ → ℝ) : ADFun × (ℕ → ℝ) :=
  let nk := o.rowJac.length
  let s := forRange 0 A.nx (o.f, 0, o.colOrder.getD 0 0, values) fun j s =>
    let r := s.1.forward (J.fwd j) E.nan 1 (unitVec A.nx j)
    (r.1, whileLoop (fun t : ℕ × ℕ × (ℕ → ℝ) => decide (t.1 < nk ∧ o.colJac.getD t.2.1 0 ≤ j)) (fun t =>
      (t.1 + 1, (if t.1 + 1 < nk then o.colOrder.getD (t.1 + 1) 0 else t.2.1),
        Function.update t.2.2 t.2.1 (at' r.2 (o.rowJac.getD t.2.1 0)))) s.2)
  (s.1, s.2.2.2)

/-- the dense reverse mode case of `eval_jac_g`, solve_callback.hpp:850-870; the loop state is the object, `k`, `values` -/
noncomputable def Obj.jacDenseRev (A : Arg) (J : Junk) (o : Obj) (values : ℕ → ℝ) : ADFun × (ℕ → ℝ) :=
  let nk := o.rowJac.length
  let nfg := A.nf + A.ng
  let s := forRange A.nf nfg (o.f, 0, values) fun i s =>
    let r := s.1.reverse (J.back i) 1 (unitVec nfg i)
    (r.1, whileLoop (fun t : ℕ × (ℕ → ℝ) => decide (t.1 < nk ∧ o.rowJac.getD t.1 0 ≤ i)) (fun t =>
      (t.1 + 1, Function.update t.2 t.1 (at' r.2 (o.colJac.getD t.1 0)))) s.2)
  (s.1, s.2.2)

/-- `eval_jac_g` when `values` is not NULL, solve_callback.hpp:774-793, 806-872 -/
noncomputable def Obj.evalJacG (A : Arg) (E : Env) (J : Junk) (o : Obj) (x : ℕ → ℝ) (newX : Bool) (values : ℕ → ℝ) :
    Obj × (ℕ → ℝ) :=
  let o := o.start A E J x newX
  let nk := o.rowJac.length
  if nk = 0 then (o, values)
  else if A.sparseForward then
    let r := sparseJacobianForward E.sort o.f J.zero J.fwd J.flag E.nan E.maxR o.x0 (.bools o.patJac) nk
      (fun k => o.rowJac.getD k 0) (fun k => o.colJac.getD k 0) J.out o.workJac
    ({ o with f := r.1, workJac := r.2.2.2 }, forRange 0 nk values fun k v => Function.update v k (r.2.2.1 k))
  else if A.sparseReverse then
    let r := sparseJacobianReverse E.sort o.f J.zero J.back J.flag E.nan o.x0 (.bools o.patJac) nk
      (fun k => o.rowJac.getD k 0) (fun k => o.colJac.getD k 0) J.out o.workJac
    ({ o with f := r.1, workJac := r.2.2.2 }, forRange 0 nk values fun k v => Function.update v k (r.2.2.1 k))
  else if A.nx < A.ng then
    let r := o.jacDenseFor A E J values
    ({ o with f := r.1 }, r.2)
  else
    let r := o.jacDenseRev A J values
    ({ o with f := r.1 }, r.2)

/-- `eval_h` when `values` is NULL, solve_callback.hpp:975-983: iRow, jCol -/
def Obj.hesStructure (o : Obj) (iRow jCol : ℕ → ℕ) : (ℕ → ℕ) × (ℕ → ℕ) :=
  forRange 0 o.rowHes.length (iRow, jCol) fun k s =>
    (Function.update s.1 k (o.rowHes.getD k 0), Function.update s.2 k (o.colHes.getD k 0))

/-- `eval_h` when `values` is not NULL, solve_callback.hpp:953-973, 985-1013 -/
noncomputable def Obj.evalH (A : Arg) (E : Env) (J : Junk) (o : Obj) (x : ℕ → ℝ) (newX : Bool) (objFactor : ℝ)
    (lambda values : ℕ → ℝ) : Obj × (ℕ → ℝ) :=
  let o := o.start A E J x newX
  let nk := o.rowHes.length
  if nk = 0 then (o, values)
  else
    let w := forRange 0 A.nf J.out fun i w => Function.update w i objFactor
    let w := forRange 0 A.ng w fun i w => Function.update w (i + A.nf) (lambda i)
    let w := vec (A.nf + A.ng) w
    if A.sparseForward || A.sparseReverse then
      let r := sparseHessianWork E.sort o.f J.zero J.fwd J.back J.flag E.nan o.x0 w (.bools o.patHes) nk
        (fun k => o.rowHes.getD k 0) (fun k => o.colHes.getD k 0) J.out .symmetric o.workHes
      ({ o with f := r.1, workHes := r.2.2.2 }, forRange 0 nk values fun k v => Function.update v k (r.2.2.1 k))
    else
      let r := o.f.hessian J.zero J.fwd J.back E.nan J.out o.x0 w
      ({ o with f := r.1 }, forRange 0 nk values fun k v =>
        Function.update v k (r.2 (o.rowHes.getD k 0 * A.nx + o.colHes.getD k 0)))

/-- `Ipopt::SolverReturn` -/
inductive SolverReturn
  | success | maxiterExceeded | cputimeExceeded | stopAtTinyStep | stopAtAcceptablePoint | localInfeasibility
  | userRequestedStop | feasiblePointFound | divergingIterates | restorationFailure | errorInStepComputation
  | invalidNumberDetected | tooFewDegreesOfFreedom | invalidOption | outOfMemory | internalError | unassigned

/-- `solve_result::status_type`, ipopt/solve_result.hpp -/
inductive Status
  | notDefined | success | maxiterExceeded | stopAtTinyStep | stopAtAcceptablePoint | localInfeasibility
  | userRequestedStop | feasiblePointFound | divergingIterates | restorationFailure | errorInStepComputation
  | invalidNumberDetected | tooFewDegreesOfFreedom | internalError | unknown
deriving DecidableEq

/-- solve_callback.hpp:1102-1161 -/
def toStatus : SolverReturn → Status
  | .success => .success
  | .maxiterExceeded => .maxiterExceeded
  | .stopAtTinyStep => .stopAtTinyStep
  | .stopAtAcceptablePoint => .stopAtAcceptablePoint
  | .localInfeasibility => .localInfeasibility
  | .userRequestedStop => .userRequestedStop
  | .divergingIterates => .divergingIterates
  | .restorationFailure => .restorationFailure
  | .errorInStepComputation => .errorInStepComputation
  | .invalidNumberDetected => .invalidNumberDetected
  | .internalError => .internalError
  | _ => .unknown

/-- `solve_result`, ipopt/solve_result.hpp -/
structure Solution where
  status : Status
  x : List ℝ
  zl : List ℝ
  zu : List ℝ
  g : List ℝ
  lambda : List ℝ
  objValue : ℝ

/-- solve_callback.hpp:1163-1176: a vector is resized to `n` (its contents is then `junk`) and filled -/
def fill (n : ℕ) (junk : List ℝ) (src : ℕ → ℝ) : List ℝ :=
  forRange 0 n (junk.takeD n 0) fun j v => v.set j (src j)

/-- `finalize_solution`, solve_callback.hpp:1084-1179 -/
def finalizeSolution (A : Arg) (sol : Solution) (status : SolverReturn) (x zL zU g lambda : ℕ → ℝ) (objValue : ℝ) : Solution :=
  ⟨toStatus status, fill A.nx sol.x x, fill A.nx sol.zl zL, fill A.nx sol.zu zU, fill A.ng sol.g g, fill A.ng sol.lambda lambda,
    objValue⟩

end CppAD.Ipopt
