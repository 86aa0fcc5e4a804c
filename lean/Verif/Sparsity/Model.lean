import Verif.Sparsity.Closure
import Verif.Color.SparseHes

/-!
# The sparsity sweeps and the sparsity functions of `ADFun`

The vectors of sets `pack_setvec`, `list_setvec` are represented by the sets they contain
(C22, C23 prove that both classes implement exactly these operations).
VecAD operators are added in `VecModel.lean`.
-/

namespace CppAD.Sparsity

/-- a vector of sets -/
abbrev Sp := ℕ → Finset ℕ

/-- `assignment(this_target, other_value, other)` with `other` = this -/
def Sp.assignment (s : Sp) (target value : ℕ) : Sp := Function.update s target (s value)

/-- `binary_union(this_target, this_left, other_right, other)` -/
def Sp.binaryUnion (s : Sp) (target left right : ℕ) (other : Sp) : Sp :=
  Function.update s target (s left ∪ other right)

/-- `clear(target)` -/
def Sp.clear (s : Sp) (target : ℕ) : Sp := Function.update s target ∅

/-- `add_element(index, element)` -/
def Sp.addElement (s : Sp) (i e : ℕ) : Sp := Function.update s i (insert e (s i))

/-- one_var.hpp:105-115 -/
def oneVarForJac (iz iv : ℕ) (s : Sp) : Sp := s.assignment iz iv

/-- two_var.hpp:105-118 -/
def twoVarForJac (iz ix iy : ℕ) (s : Sp) : Sp := s.binaryUnion iz ix iy s

/-- csum_op.hpp:442-465; `arg[5] .. arg[arg[2]-1]` are the addition and subtraction variables -/
def csumForJac (iz : ℕ) (vars : List ℕ) (s : Sp) : Sp :=
  vars.foldl (fun s a => s.binaryUnion iz iz a s) (s.clear iz)

/-- `binary_union(i_z, i_z, arg, sparsity)` when the operand is a variable; cexp_op.hpp:869-880 -/
def addOpd (iz : ℕ) (o : Opd) (s : Sp) : Sp :=
  match o with
  | .par _ => s
  | .var v => s.binaryUnion iz iz v s

/-- cexp_op.hpp:849-881 -/
def cexpForJac (dependency : Bool) (iz : ℕ) (l r t f : Opd) (s : Sp) : Sp :=
  let s := s.clear iz
  let s := if dependency then addOpd iz r (addOpd iz l s) else s
  addOpd iz f (addOpd iz t s)

/-- `x_index[j]`: zero if argument `j` is a parameter; var_op/atomic_op.hpp:1020-1041 -/
def xIdx (c : AtomCall) (j : ℕ) : ℕ :=
  match c.x j with
  | .par _ => 0
  | .var v => v

/-- `y_index[i]`: zero if result `i` is a parameter; var_op/atomic_op.hpp:1055-1070 -/
def yIdx (c : AtomCall) (nv i : ℕ) : ℕ := if c.selY i then c.idx nv i else 0

/-- `post_element(target, e)` for all elements `e` of the set `source` of `s`; `p` are the posts -/
def postSet (s : Sp) (target source : ℕ) (p : Sp) : Sp := Function.update p target (p target ∪ s source)

/-- `process_post(target)` for all the targets; `p` are the posts -/
def processPost (targets : List ℕ) (s p : Sp) : Sp × Sp :=
  targets.foldl (fun q t => (Function.update q.1 t (q.1 t ∪ q.2 t), Function.update q.2 t ∅)) (s, p)

/-- `atomic_four::for_jac_sparsity`, core/atomic/four/devel/jac_sparsity.hpp:71-137; `iz` is the index of the last result -/
def atomForJac (dependency : Bool) (c : AtomCall) (iz : ℕ) (s : Sp) : Sp :=
  let nv := iz + 1 - c.nres
  let selectY := fun i => decide (yIdx c nv i ≠ 0)
  let selectX := fun j => decide (xIdx c j ≠ 0 ∧ s (xIdx c j) ≠ ∅)
  let p := (c.A.jac c.ident dependency selectX selectY).foldl
    (fun p e => postSet s (yIdx c nv e.1) (xIdx c e.2) p) (fun _ => ∅)
  (processPost ((List.range c.A.m).map (yIdx c nv)) s p).1

/-- sweep/for_jac.hpp:162-396, one operator; `iz` is the index of the primary result -/
def forJacOp (dependency : Bool) (op : Op) (iz : ℕ) (s : Sp) : Sp :=
  match op with
  | .abs ix | .acos ix | .acosh ix | .asin ix | .asinh ix | .atan ix | .atanh ix | .cos ix | .cosh ix | .divvp ix _
  | .erf ix | .erfc ix | .exp ix | .expm1 ix | .log ix | .neg ix | .log1p ix | .powvp ix _ | .sin ix | .sinh ix
  | .sqrt ix | .subvp ix _ | .tan ix | .tanh ix | .zmulvp ix _ => oneVarForJac iz ix s
  | .addpv _ iy | .divpv _ iy | .mulpv _ iy | .powpv _ iy | .subpv _ iy | .zmulpv _ iy => oneVarForJac iz iy s
  | .addvv ix iy | .divvv ix iy | .mulvv ix iy | .powvv ix iy | .subvv ix iy | .zmulvv ix iy => twoVarForJac iz ix iy s
  | .csum _ addv subv _ _ => csumForJac iz (addv ++ subv) s
  | .cexp _ l r t f => cexpForJac dependency iz l r t f s
  | .dis _ ix | .sign ix => if dependency then oneVarForJac iz ix s else s.clear iz
  | .par _ => s.clear iz
  | .atom c => atomForJac dependency c iz s

/-- sweep/for_jac.hpp:82-428 -/
def forJac (dependency : Bool) : List Op → ℕ → Sp → Sp
  | [], _, s => s
  | op :: ops, nv, s => forJac dependency ops (nv + op.nres) (forJacOp dependency op (nv + op.nres - 1) s)

/-- one_var.hpp:158-170 -/
def oneVarRevJac (iz iv : ℕ) (s : Sp) : Sp := s.binaryUnion iv iv iz s

/-- two_var.hpp:161-175 -/
def twoVarRevJac (iz ix iy : ℕ) (s : Sp) : Sp :=
  let s := s.binaryUnion ix ix iz s
  s.binaryUnion iy iy iz s

/-- csum_op.hpp:507-526 -/
def csumRevJac (iz : ℕ) (vars : List ℕ) (s : Sp) : Sp :=
  vars.foldl (fun s a => s.binaryUnion a a iz s) s

/-- cexp_op.hpp:1011-1021, one operand -/
def revOpd (iz : ℕ) (o : Opd) (s : Sp) : Sp :=
  match o with
  | .par _ => s
  | .var v => s.binaryUnion v v iz s

/-- cexp_op.hpp:991-1023 -/
def cexpRevJac (dependency : Bool) (iz : ℕ) (l r t f : Opd) (s : Sp) : Sp :=
  let s := if dependency then revOpd iz r (revOpd iz l s) else s
  revOpd iz f (revOpd iz t s)

/-- `atomic_four::rev_jac_sparsity`, core/atomic/four/devel/jac_sparsity.hpp:215-282 -/
def atomRevJac (dependency : Bool) (c : AtomCall) (iz : ℕ) (s : Sp) : Sp :=
  let nv := iz + 1 - c.nres
  let selectX := fun j => decide (xIdx c j ≠ 0)
  let selectY := fun i => decide (yIdx c nv i ≠ 0 ∧ s (yIdx c nv i) ≠ ∅)
  let p := (c.A.jac c.ident dependency selectX selectY).foldl
    (fun p e => postSet s (xIdx c e.2) (yIdx c nv e.1) p) (fun _ => ∅)
  (processPost ((List.range c.A.n).map (xIdx c)) s p).1

/-- sweep/rev_jac.hpp:196-426, one operator -/
def revJacOp (dependency : Bool) (op : Op) (iz : ℕ) (s : Sp) : Sp :=
  match op with
  | .abs ix | .acos ix | .acosh ix | .asin ix | .asinh ix | .atan ix | .atanh ix | .cos ix | .cosh ix | .divvp ix _
  | .erf ix | .erfc ix | .exp ix | .expm1 ix | .log ix | .neg ix | .log1p ix | .powvp ix _ | .sin ix | .sinh ix
  | .sqrt ix | .subvp ix _ | .tan ix | .tanh ix | .zmulvp ix _ => oneVarRevJac iz ix s
  | .addpv _ iy | .divpv _ iy | .mulpv _ iy | .powpv _ iy | .subpv _ iy | .zmulpv _ iy => oneVarRevJac iz iy s
  | .addvv ix iy | .divvv ix iy | .mulvv ix iy | .powvv ix iy | .subvv ix iy | .zmulvv ix iy => twoVarRevJac iz ix iy s
  | .csum _ addv subv _ _ => csumRevJac iz (addv ++ subv) s
  | .cexp _ l r t f => cexpRevJac dependency iz l r t f s
  | .dis _ ix | .sign ix => if dependency then oneVarRevJac iz ix s else s
  | .par _ => s
  | .atom c => atomRevJac dependency c iz s

/-- sweep/rev_jac.hpp:101-466; the last operator is processed first -/
def revJac (dependency : Bool) : List Op → ℕ → Sp → Sp
  | [], _, s => s
  | op :: ops, nv, s => revJacOp dependency op (nv + op.nres - 1) (revJac dependency ops (nv + op.nres) s)

/-- the state of the reverse Hessian sweep: `RevJac` and `rev_hes_sparse` -/
abbrev RH := (ℕ → Bool) × Sp

/-- one_var.hpp:261-283; `J` is `for_jac_sparsity` -/
def oneVarRevHes (iz iv : ℕ) (linear : Bool) (J : Sp) (s : RH) : RH :=
  if !s.1 iz then s
  else
    let h := s.2.binaryUnion iv iv iz s.2
    let h := if !linear then h.binaryUnion iv iv iv J else h
    (Function.update s.1 iv true, h)

/-- two_var.hpp:477-521 -/
def twoVarRevHes (iz ix iy : ℕ) (linX linY linXY : Bool) (J : Sp) (s : RH) : RH :=
  if !s.1 iz then s
  else
    let h := s.2.binaryUnion ix ix iz s.2
    let h := h.binaryUnion iy iy iz h
    let h := if !linX then (let h := h.binaryUnion ix ix ix J; h.binaryUnion iy iy ix J) else h
    let h := if !linY then (let h := h.binaryUnion ix ix iy J; h.binaryUnion iy iy iy J) else h
    let h := if !linXY then (let h := h.binaryUnion ix ix iy J; h.binaryUnion iy iy ix J) else h
    (Function.update (Function.update s.1 ix true) iy true, h)

/-- csum_op.hpp:585-604 and cexp_op.hpp:1170-1179: one linear argument -/
def linArgRevHes (iz a : ℕ) (s : RH) : RH :=
  let h := s.2.binaryUnion a a iz s.2
  (Function.update s.1 a (s.1 a || s.1 iz), h)

/-- csum_op.hpp:579-604 -/
def csumRevHes (iz : ℕ) (vars : List ℕ) (s : RH) : RH := vars.foldl (fun s a => linArgRevHes iz a s) s

/-- cexp_op.hpp:1170-1179, one operand -/
def opdRevHes (iz : ℕ) (o : Opd) (s : RH) : RH :=
  match o with
  | .par _ => s
  | .var v => linArgRevHes iz v s

/-- cexp_op.hpp:1149-1181 -/
def cexpRevHes (iz : ℕ) (t f : Opd) (s : RH) : RH := opdRevHes iz f (opdRevHes iz t s)

/-- `atomic_four::rev_hes_sparsity`, core/atomic/four/devel/hes_sparsity.hpp:279-375 -/
def atomRevHes (J : Sp) (c : AtomCall) (iz : ℕ) (s : RH) : RH :=
  let nv := iz + 1 - c.nres
  let selectX := fun j => decide (J (xIdx c j) ≠ ∅)
  let selectY := fun i => s.1 (yIdx c nv i)
  let jac := c.A.jac c.ident false selectX selectY
  let hes := c.A.hes c.ident selectX selectY
  let h := jac.foldl (fun h e => Sp.binaryUnion h (xIdx c e.2) (xIdx c e.2) (yIdx c nv e.1) h) s.2
  let f := jac.foldl (fun f e => Function.update f (xIdx c e.2) true) s.1
  let h := hes.foldl (fun h e =>
    let h := Sp.binaryUnion h (xIdx c e.1) (xIdx c e.1) (xIdx c e.2) J
    Sp.binaryUnion h (xIdx c e.2) (xIdx c e.2) (xIdx c e.1) J) h
  (f, h)

/-- sweep/rev_hes.hpp:188-435, one operator -/
def revHesOp (J : Sp) (op : Op) (iz : ℕ) (s : RH) : RH :=
  match op with
  | .abs ix | .divvp ix _ | .neg ix | .subvp ix _ | .zmulvp ix _ => oneVarRevHes iz ix true J s
  | .acos ix | .acosh ix | .asin ix | .asinh ix | .atan ix | .atanh ix | .cos ix | .cosh ix
  | .erf ix | .erfc ix | .exp ix | .expm1 ix | .log ix | .log1p ix | .powvp ix _ | .sin ix | .sinh ix
  | .sqrt ix | .tan ix | .tanh ix => oneVarRevHes iz ix false J s
  | .addpv _ iy | .mulpv _ iy | .subpv _ iy | .zmulpv _ iy => oneVarRevHes iz iy true J s
  | .powpv _ iy | .divpv _ iy => oneVarRevHes iz iy false J s
  | .addvv ix iy | .subvv ix iy => twoVarRevHes iz ix iy true true true J s
  | .csum _ addv subv _ _ => csumRevHes iz (addv ++ subv) s
  | .cexp _ _ _ t f => cexpRevHes iz t f s
  | .dis _ _ | .sign _ | .par _ => s
  | .divvv ix iy => twoVarRevHes iz ix iy true false false J s
  | .mulvv ix iy | .zmulvv ix iy => twoVarRevHes iz ix iy true true false J s
  | .powvv ix iy => twoVarRevHes iz ix iy false false false J s
  | .atom c => atomRevHes J c iz s

/-- sweep/rev_hes.hpp:95-483; the last operator is processed first -/
def revHes (J : Sp) : List Op → ℕ → RH → RH
  | [], _, s => s
  | op :: ops, nv, s => revHesOp J op (nv + op.nres - 1) (revHes J ops (nv + op.nres) s)

/-- the loops `i_x = *itr; while(i_x < np1) { binary_union(i_x, i_x, b, s); i_x = *(++itr) }` over the elements
of set `a`, where neither `a` nor `b` is smaller than `np1`; one_var.hpp:379-389, two_var.hpp:293-311 -/
def unionLoop (a b : ℕ) (s : Sp) : Sp :=
  ((s a).sort (· ≤ ·)).foldl (fun s u => s.binaryUnion u u b s) s

/-- one_var.hpp:354-392 -/
def oneVarForHes (np1 iz iv : ℕ) (linear : Bool) (s : Sp) : Sp :=
  let s := s.assignment (np1 + iz) (np1 + iv)
  if !linear then unionLoop (iv + np1) (iv + np1) s else s

/-- two_var.hpp:261-370 -/
def twoVarForHes (np1 iz ix iy : ℕ) (linX linY linXY : Bool) (s : Sp) : Sp :=
  let s := s.binaryUnion (np1 + iz) (np1 + ix) (np1 + iy) s
  let s := if !linX then unionLoop (ix + np1) (if !linXY then iz + np1 else ix + np1) s else s
  let s := if !linY then unionLoop (iy + np1) (if !linXY then iz + np1 else iy + np1) s else s
  let s := if !linXY && linX then unionLoop (ix + np1) (iy + np1) s else s
  if !linXY && linY then unionLoop (iy + np1) (ix + np1) s else s

/-- csum_op.hpp:654-681 -/
def csumForHes (np1 iz : ℕ) (vars : List ℕ) (s : Sp) : Sp :=
  vars.foldl (fun s a => s.binaryUnion (np1 + iz) (np1 + iz) (np1 + a) s) (s.clear (np1 + iz))

/-- `atomic_four::for_hes_sparsity`, core/atomic/four/devel/hes_sparsity.hpp:102-193 -/
def atomForHes (np1 : ℕ) (R : Sp) (c : AtomCall) (iz : ℕ) (s : Sp) : Sp :=
  let nv := iz + 1 - c.nres
  let selectX := fun j => decide (s (np1 + xIdx c j) ≠ ∅)
  let selectY := fun i => decide (R (yIdx c nv i) ≠ ∅)
  let p := (c.A.jac c.ident false selectX selectY).foldl
    (fun p e => postSet s (np1 + yIdx c nv e.1) (np1 + xIdx c e.2) p) (fun _ => ∅)
  let s := (processPost ((List.range c.A.m).map fun i => np1 + yIdx c nv i) s p).1
  (c.A.hes c.ident selectX selectY).foldl (fun s e =>
    let s := unionLoop (np1 + xIdx c e.1) (np1 + xIdx c e.2) s
    if e.2 ≠ e.1 then unionLoop (np1 + xIdx c e.2) (np1 + xIdx c e.1) s else s) s

/-- sweep/for_hes.hpp:237-508, one operator that is not a call to an atomic function; `R` is `rev_jac_sparse`.  There is no case for ZmulpvOp: it reaches
`default: CPPAD_ASSERT_UNKNOWN(0)`, which does nothing in a release build (line 507). -/
def forHesElem (np1 : ℕ) (R : Sp) (op : Op) (iz : ℕ) (s : Sp) : Sp :=
  if 0 ∈ R iz then
    match op with
    | .cexp _ _ _ _ _ | .dis _ _ | .par _ | .sign _ => s
    | .abs ix | .divvp ix _ | .subvp ix _ | .zmulvp ix _ => oneVarForHes np1 iz ix true s
    | .addpv _ iy | .mulpv _ iy | .subpv _ iy => oneVarForHes np1 iz iy true s
    | .addvv ix iy | .subvv ix iy => twoVarForHes np1 iz ix iy true true true s
    | .acos ix | .asin ix | .atan ix | .cos ix | .cosh ix | .exp ix | .log ix | .neg ix | .sin ix | .sinh ix
    | .sqrt ix | .tan ix | .tanh ix | .acosh ix | .asinh ix | .atanh ix | .expm1 ix | .log1p ix | .erf ix
    | .erfc ix => oneVarForHes np1 iz ix false s
    | .csum _ addv subv _ _ => csumForHes np1 iz (addv ++ subv) s
    | .divvv ix iy => twoVarForHes np1 iz ix iy true false false s
    | .divpv _ iy | .powpv _ iy => oneVarForHes np1 iz iy false s
    | .powvp ix _ => oneVarForHes np1 iz ix false s
    | .mulvv ix iy | .zmulvv ix iy => twoVarForHes np1 iz ix iy true true false s
    | .powvv ix iy => twoVarForHes np1 iz ix iy false false false s
    | .zmulpv _ _ | .atom _ => s
  else s

/-- sweep/for_hes.hpp:237-540, one operator; the atomic function operators are always included (245-262, 485-492) -/
def forHesOp (np1 : ℕ) (R : Sp) (op : Op) (iz : ℕ) (s : Sp) : Sp :=
  match op with
  | .atom c => atomForHes np1 R c iz s
  | _ => forHesElem np1 R op iz s

theorem forHesOp_eq {op : Op} (h : ∀ c, op ≠ .atom c) (np1 : ℕ) (R : Sp) (iz : ℕ) (s : Sp) :
    forHesOp np1 R op iz s = forHesElem np1 R op iz s := by
  unfold forHesOp
  split
  · exact absurd rfl (h _)
  · rfl

/-- sweep/for_hes.hpp:231-568, operators after the independent variables -/
def forHesOps (np1 : ℕ) (R : Sp) : List Op → ℕ → Sp → Sp
  | [], _, s => s
  | op :: ops, nv, s => forHesOps np1 R ops (nv + op.nres) (forHesOp np1 R op (nv + op.nres - 1) s)

/-- sweep/for_hes.hpp:291-300 (InvOp): variable `j + 1` is independent variable `j` -/
def forHesInv (n : ℕ) (sel : ℕ → Bool) (R : Sp) (s : Sp) : Sp :=
  forRange 0 n s fun j s => if 0 ∈ R (j + 1) ∧ sel j = true then s.addElement (n + 1 + (j + 1)) (j + 1) else s

/-- sweep/for_hes.hpp:121-572 -/
def forHes (n : ℕ) (ops : List Op) (sel : ℕ → Bool) (R : Sp) (s : Sp) : Sp :=
  forHesOps (n + 1) R ops (n + 1) (forHesInv n sel R s)

/-- internal.hpp:97-140 with `zero_empty` true -/
def setInternalPattern (transpose : Bool) (idx : ℕ → ℕ) (s : Sp) (pat : Pattern) : Sp :=
  forRange 0 pat.nnz s fun k s =>
    let r := if transpose then pat.col k else pat.row k
    let c := if transpose then pat.row k else pat.col k
    if idx r = 0 then s else s.addElement (idx r) c

/-- `sparse_rc` with the given entries -/
def Pattern.ofList (l : List (ℕ × ℕ)) : Pattern := ⟨l.length, fun k => (l.getD k (0, 0)).1, fun k => (l.getD k (0, 0)).2⟩

/-- internal.hpp:297-346; the iterator returns the elements in increasing order -/
def getInternalPattern (transpose : Bool) (nr nc : ℕ) (idx : ℕ → ℕ) (s : Sp) : Pattern :=
  Pattern.ofList ((List.range nr).flatMap fun i =>
    (((s (idx i)).sort (· ≤ ·)).takeWhile (· < nc)).map fun j => if transpose then (j, i) else (i, j))

/-- `ADFun::for_jac_sparsity`, for_jac_sparsity.hpp:213-303: result and the sets kept in
`for_jac_sparse_pack_` or `for_jac_sparse_set_`; `ell` is the number of columns of `R` -/
def forJacSparsity (T : Tape) (ell : ℕ) (pat : Pattern) (transpose dependency : Bool) : Pattern × Sp :=
  let s := setInternalPattern transpose (fun j => j + 1) (fun _ => ∅) pat
  let s := forJac dependency T.ops (T.n + 1) s
  (getInternalPattern transpose T.dep.length ell (fun i => T.dep.getD i 0) s, s)

/-- `ADFun::rev_jac_sparsity`, rev_jac_sparsity.hpp:163-255 -/
def revJacSparsity (T : Tape) (ell : ℕ) (pat : Pattern) (transpose dependency : Bool) : Pattern :=
  let s := setInternalPattern (!transpose) (fun i => T.dep.getD i 0) (fun _ => ∅) pat
  let s := revJac dependency T.ops (T.n + 1) s
  getInternalPattern (!transpose) T.n ell (fun j => j + 1) s

/-- `ADFun::rev_hes_sparsity`, rev_hes_sparsity.hpp:165-249; `J` is the result of the previous call to
`for_jac_sparsity`, with `ell` columns -/
def revHesSparsity (T : Tape) (ell : ℕ) (J : Sp) (selRange : ℕ → Bool) (transpose : Bool) : Pattern :=
  let rj := forRange 0 T.dep.length (fun _ => false) fun i rj => Function.update rj (T.dep.getD i 0) (selRange i)
  let s := revHes J T.ops (T.n + 1) (rj, fun _ => ∅)
  getInternalPattern transpose T.n ell (fun j => j + 1) s.2

/-- `ADFun::for_hes_sparsity`, for_hes_sparsity.hpp:160-285 -/
def forHesSparsity (T : Tape) (selDomain selRange : ℕ → Bool) : Pattern :=
  let r : Sp := forRange 0 T.dep.length (fun _ => ∅) fun i s =>
    if selRange i then s.addElement (T.dep.getD i 0) 0 else s
  let r := revJac false T.ops (T.n + 1) r
  let h := forHes T.n T.ops selDomain r (fun _ => ∅)
  let p := getInternalPattern false T.n (T.n + 1) (fun j => j + 1) h
  ⟨p.nnz, p.row, fun k => p.col k - 1⟩

end CppAD.Sparsity
