/-
Value graphs (include/cppad/local/val_graph/): the tape, its evaluation and the passes that are used
by `f.optimize("val_graph no_conditional_skip")`.

Values.  `Value` is modelled by `V = Option ℝ` : `none` is nan and `some r` is a number (no
infinities and no rounding).  The primitive functions that the theorems do not look into (the unary
functions other than `neg`, division, `pow`, discrete functions and atomic functions) are
parameters, collected in `Prim`.

Tape.  In the source a tape is a vector of operator enums `op_enum_vec_` and one flat vector
`var_arg_` in which the arguments of an operator are `n_before` auxiliary arguments, then value
indices, then `n_after` auxiliary arguments.  Here the auxiliary arguments are part of `Kind` and
the value indices are `args`.  The flat layout and `op_iterator` are not modelled.
-/
import Mathlib.Data.Real.Basic
import Mathlib.Algebra.Order.Floor.Defs
import Mathlib.Algebra.Order.Archimedean.Real.Basic
import Mathlib.Algebra.BigOperators.Group.List.Basic
import Verif.Taylor.Loop

namespace CppAD.ValGraph
open Classical

/-- a `Value`: a number, or nan (`none`) -/
abbrev V := Option ℝ

/-- unary operators other than `neg` (unary_op.hpp:221-242, val_type.hpp:52-91) -/
inductive Un
  | abs | acos | acosh | asin | asinh | atan | atanh | cos | cosh | erf | erfc | exp | expm1
  | log | log1p | sign | sin | sinh | sqrt | tan | tanh
  deriving DecidableEq

/-- `compare_enum_t` (val_type.hpp:103-110) -/
inductive Cmp
  | eq | ne | lt | le | no
  deriving DecidableEq

/-- the integer value of a `compare_enum_t` (val_type.hpp:103-110) -/
def Cmp.code : Cmp → ℕ
  | eq => 0 | ne => 1 | lt => 2 | le => 3 | no => 4

/-- an operator together with its auxiliary arguments (val_type.hpp:52-91 and the `n_before`,
`n_after` of every class in *_op.hpp).  `con` holds the constant itself, in the source an index in
`con_vec_`; `pri` holds the strings, in the source indices in `str_vec_` (equal strings have equal
indices, record.hpp:618-627). -/
inductive Kind
  | un (u : Un)
  | neg | add | sub | mul | div | pow
  | con (c : V)
  | dis (k : ℕ)
  | cexp (c : Cmp)
  | comp (c : Cmp)
  | csum (nAdd nSub : ℕ)
  | call (atom callId nRes : ℕ)
  | pri (before after : String)
  | vec (which : ℕ)
  | load (which : ℕ)
  | store (which : ℕ)

/-- one operator use on the tape -/
structure Node where
  kind : Kind
  args : List ℕ

/-- the dummy that an index past the end of a tape reads -/
instance : Inhabited Node := ⟨⟨.con none, []⟩⟩

/-- `tape_t` (tape.hpp:192-213): number of independents, operators, dependents, initial indices of
the dynamic vectors and the two options (option.hpp:40-69) -/
structure VTape where
  nInd : ℕ
  nodes : List Node
  dep : List ℕ
  vecInit : List (List ℕ)
  keepCompare : Bool
  keepPrint : Bool

/-- the functions the tape calls: unary operators, `/`, `pow`, discrete functions (by index), and
atomic functions: zero order forward, `for_type` and `rev_depend` (by atomic index and call id) -/
structure Prim where
  un : Un → V → V
  div : V → V → V
  pow : V → V → V
  dis : ℕ → V → V
  /-- result `i` of the atomic function at `x` -/
  atom : ℕ → ℕ → List V → ℕ → V
  /-- `for_type`: is result `i` of type constant (or identically zero), given `constant_x` and for
  each argument if it is constant -/
  conY : ℕ → ℕ → List V → List Bool → ℕ → Bool
  /-- `rev_depend`: is argument `k` needed, given the constants in `x` (nan for the others) and
  which of the results are needed -/
  depX : ℕ → ℕ → List V → List Bool → ℕ → Bool

/-- addition with nan -/
def vadd : V → V → V
  | some a, some b => some (a + b)
  | _, _ => none

/-- subtraction with nan -/
def vsub : V → V → V
  | some a, some b => some (a - b)
  | _, _ => none

/-- multiplication with nan -/
def vmul : V → V → V
  | some a, some b => some (a * b)
  | _, _ => none

/-- negation with nan -/
def vneg : V → V
  | some a => some (-a)
  | none => none

/-- result of a comparison (comp_op.hpp:145-180); only `!=` is true when an operand is nan -/
def Cmp.holds : Cmp → V → V → Prop
  | eq, some a, some b => a = b
  | ne, some a, some b => a ≠ b
  | ne, _, _ => True
  | lt, some a, some b => a < b
  | le, some a, some b => a ≤ b
  | no, _, _ => True
  | _, _, _ => False

/-- a conditional expression (cexp_op.hpp:147-171); the other comparisons give nan -/
noncomputable def cexpVal (c : Cmp) (l r t f : V) : V :=
  match c with
  | .eq => if Cmp.eq.holds l r then t else f
  | .lt => if Cmp.lt.holds l r then t else f
  | .le => if Cmp.le.holds l r then t else f
  | _ => none

/-- `n_res` of every operator class (*_op.hpp) -/
def Kind.nres : Kind → ℕ
  | .comp _ => 0
  | .pri _ _ => 0
  | .vec _ => 0
  | .store _ => 0
  | .call _ _ n => n
  | _ => 1

/-- `n_arg - n_before - n_after` of every operator class (*_op.hpp) -/
def Kind.arityOk (k : Kind) (n : ℕ) : Prop :=
  match k with
  | .un _ => n = 1
  | .neg => n = 1
  | .add => n = 2
  | .sub => n = 2
  | .mul => n = 2
  | .div => n = 2
  | .pow => n = 2
  | .con _ => n = 0
  | .dis _ => n = 1
  | .cexp _ => n = 4
  | .comp _ => n = 2
  | .csum a s => n = a + s
  | .call _ _ _ => True
  | .pri _ _ => n = 2
  | .vec _ => n = 0
  | .load _ => n = 1
  | .store _ => n = 2

/-- `is_binary` (base_op.hpp:265, binary_op.hpp:121) -/
def Kind.isBinary : Kind → Bool
  | .add => true
  | .sub => true
  | .mul => true
  | .div => true
  | .pow => true
  | _ => false

/-- the operator is one of the dynamic vector operators (vector_op.hpp) -/
def Kind.isVector : Kind → Bool
  | .vec _ => true
  | .load _ => true
  | .store _ => true
  | _ => false

/-- element `i` of a vector of values -/
def rd (l : List V) (i : ℕ) : V := l.getD i none

/-- results of the operators that have results and are not `load` as a function of the argument
values `x`: unary_op.hpp:25-39, binary_op.hpp:28-43,243-260, con_op.hpp:116-141, dis_op.hpp:126-158,
cexp_op.hpp:118-185, csum_op.hpp:174-215, call_op.hpp:174-252 -/
noncomputable def Kind.out (P : Prim) (k : Kind) (x : List V) : List V :=
  match k with
  | .un u => [P.un u (rd x 0)]
  | .neg => [vneg (rd x 0)]
  | .add => [vadd (rd x 0) (rd x 1)]
  | .sub => [vsub (rd x 0) (rd x 1)]
  | .mul => [vmul (rd x 0) (rd x 1)]
  | .div => [P.div (rd x 0) (rd x 1)]
  | .pow => [P.pow (rd x 0) (rd x 1)]
  | .con c => [c]
  | .dis j => [P.dis j (rd x 0)]
  | .cexp c => [cexpVal c (rd x 0) (rd x 1) (rd x 2) (rd x 3)]
  | .csum nAdd _ => [(x.drop nAdd).foldl vsub ((x.take nAdd).foldl vadd (some 0))]
  | .call a id n => (List.range n).map (P.atom a id x)
  | _ => []

/-- state of an evaluation: `val_vec`, `ind_vec_vec` (for every dynamic vector the value index of
each element and the flag kept in its last element), `compare_false` and what was printed -/
structure St where
  val : List V
  vecs : List (List ℕ × Bool)
  cf : ℕ
  out : List (String × V × String)

/-- `Integer(index)` for a non-negative index -/
noncomputable def toIdx : V → ℕ
  | some r => ⌊r⌋₊
  | none => 0

/-- `eval` of one operator.  comp_op.hpp:119-192, pri_op.hpp:148-182, vector_op.hpp:149-192 (vec),
301-350 (load), 465-510 (store), and `Kind.out` for the others.  `val_vec[res_index + k]` is
assigned in increasing order of the index, here the results are appended. -/
noncomputable def step (P : Prim) (nInd : ℕ) (vecInit : List (List ℕ)) (s : St) (nd : Node) : St :=
  match nd.kind with
  | .comp c =>
    { s with
      cf := if c.holds (rd s.val (nd.args.getD 0 0)) (rd s.val (nd.args.getD 1 0)) then s.cf
        else s.cf + 1 }
  | .pri b a =>
    if nd.args.getD 0 0 = nInd then s
    else if Cmp.le.holds (rd s.val (nd.args.getD 0 0)) (some 0) then
      { s with out := s.out ++ [(b, rd s.val (nd.args.getD 1 0), a)] }
    else s
  | .vec w => { s with vecs := s.vecs ++ [(vecInit.getD w [], false)] }
  | .load w =>
    let this := s.vecs.getD w ([], false)
    let index := rd s.val (nd.args.getD 0 0)
    if this.2 = true ∨ index = none then { s with val := s.val ++ [rd s.val nInd] }
    else { s with val := s.val ++ [rd s.val (this.1.getD (toIdx index) 0)] }
  | .store w =>
    let this := s.vecs.getD w ([], false)
    let index := rd s.val (nd.args.getD 0 0)
    if index = none then { s with vecs := s.vecs.set w (this.1, true) }
    else { s with vecs := s.vecs.set w (this.1.set (toIdx index) (nd.args.getD 1 0), this.2) }
  | k => { s with val := s.val ++ k.out P (nd.args.map (rd s.val)) }

/-- `tape.eval(trace, val_vec, compare_false)` with independents `x` (tape.hpp:293-367) -/
noncomputable def VTape.run (T : VTape) (P : Prim) (x : List V) : St :=
  T.nodes.foldl (step P T.nInd T.vecInit) ⟨x, [], 0, []⟩

/-- the dependents as a function of the independents -/
noncomputable def VTape.eval (T : VTape) (P : Prim) (x : List V) : List V :=
  T.dep.map (rd (T.run P x).val)

/-- `compare_false` as a function of the independents -/
noncomputable def VTape.compareFalse (T : VTape) (P : Prim) (x : List V) : ℕ := (T.run P x).cf

/-- what an evaluation prints -/
noncomputable def VTape.printed (T : VTape) (P : Prim) (x : List V) : List (String × V × String) :=
  (T.run P x).out

/-- `n_res` -/
def Node.nres (nd : Node) : ℕ := nd.kind.nres

/-- number of results of a list of operators -/
def nresSum (l : List Node) : ℕ := (l.map Node.nres).sum

/-- operator `i` -/
def VTape.node (T : VTape) (i : ℕ) : Node := T.nodes.getD i default

/-- `n_op` (tape.hpp:238) -/
def VTape.nOp (T : VTape) : ℕ := T.nodes.length

/-- `n_val` (tape.hpp:233; kept current by record.hpp) -/
def VTape.nVal (T : VTape) : ℕ := T.nInd + nresSum T.nodes

/-- `res_index` of operator `i` (op_iterator.hpp:96-151 accumulates `n_res`) -/
def VTape.res (T : VTape) (i : ℕ) : ℕ := T.nInd + nresSum (T.nodes.take i)

/-! ### recording (record.hpp) -/

/-- `set_ind` (record.hpp:60-93) on a tape with the options of `T` -/
def setInd (n : ℕ) (keepCompare keepPrint : Bool) : VTape :=
  ⟨n, [⟨.con none, []⟩], [], [], keepCompare, keepPrint⟩

/-- the operator is put at the end of the tape; returns the tape and the index of its first result
(`record_op`, `record_dis_op`, `record_call_op`, `record_csum_op`, `record_cexp_op`,
`record_load_op`, record.hpp:160-192, 267-285, 391-419, 454-484, 531-557, 743-766).  The index is
not used for the operators without result (record.hpp:324-342, 608-650, 801-823). -/
def VTape.push (T : VTape) (nd : Node) : VTape × ℕ :=
  ({ T with nodes := T.nodes ++ [nd] }, T.nVal)

/-- `record_con_op` (record.hpp:215-243) -/
noncomputable def VTape.recordCon (T : VTape) (c : V) : VTape × ℕ :=
  if c = none then (T, T.nInd) else T.push ⟨.con c, []⟩

/-- `record_vec_op` (record.hpp:691-708) -/
def VTape.recordVec (T : VTape) (initial : List ℕ) : VTape × ℕ :=
  ({ T with
      nodes := T.nodes ++ [⟨.vec T.vecInit.length, []⟩]
      vecInit := T.vecInit ++ [initial] },
    T.vecInit.length)

/-- an index map after it was set to `new + k` at `old + k` for `k < n` -/
def setRange (f : ℕ → ℕ) (old new n : ℕ) : ℕ → ℕ :=
  fun i => if old ≤ i ∧ i < old + n then new + (i - old) else f i

/-! ### renumber (renumber.hpp, op_hash_table.hpp) -/

/-- the comparison of two operators in `match_op` (op_hash_table.hpp:250-284); `idx` is
`new_val_index` -/
def matches' (idx : ℕ → ℕ) (a b : Node) : Prop :=
  a.kind = b.kind ∧ a.args.length = b.args.length ∧
    (a.args.map idx = b.args.map idx ∨
      (a.kind = .add ∨ a.kind = .mul) ∧
        idx (a.args.getD 0 0) = idx (b.args.getD 1 0) ∧
        idx (a.args.getD 1 0) = idx (b.args.getD 0 0))

/-- `match_op` (op_hash_table.hpp:209-293) for a hash code function `hash` of the operator and its
mapped arguments.  `table` holds for every hash code the operators that were added, in increasing
order.  Returns the operator that matches `i` (or `i`) and the table. -/
noncomputable def matchOp (hash : Kind → List ℕ → ℕ) (node : ℕ → Node) (idx : ℕ → ℕ)
    (table : ℕ → List ℕ) (i : ℕ) : ℕ × (ℕ → List ℕ) :=
  if (node i).kind = .con none then (0, table)
  else
    let code := hash (node i).kind ((node i).args.map idx)
    match (table code).find? (fun j => decide (matches' idx (node i) (node j))) with
    | some j => (j, table)
    | none => (i, Function.update table code (table code ++ [i]))

/-- the operator that a matched operator without results is changed to (renumber.hpp:123-133): a
print gets the flag index `n_ind`; for any other operator its first (auxiliary) argument is set to
`compare_no_enum` -/
def noOp (nInd : ℕ) (nd : Node) : Node :=
  match nd.kind with
  | .pri _ _ => { nd with args := nd.args.set 0 nInd }
  | .comp _ => { nd with kind := .comp .no }
  | .store _ => { nd with kind := .store Cmp.no.code }
  | .vec _ => { nd with kind := .vec Cmp.no.code }
  | _ => nd

/-- state of the first loop of `renumber` -/
structure RenSt where
  nodes : List Node
  idx : ℕ → ℕ
  table : ℕ → List ℕ

/-- body of the first loop of `renumber` (renumber.hpp:104-137) -/
noncomputable def renStep (hash : Kind → List ℕ → ℕ) (T : VTape) (s : RenSt) (i : ℕ) : RenSt :=
  let m := matchOp hash (fun j => s.nodes.getD j default) s.idx s.table i
  if m.1 = i then ⟨s.nodes, s.idx, m.2⟩
  else if (T.node i).nres = 0 then
    ⟨s.nodes.set i (noOp T.nInd (s.nodes.getD i default)), s.idx, m.2⟩
  else ⟨s.nodes, setRange s.idx (T.res i) (T.res m.1) (T.node i).nres, m.2⟩

/-- the first loop of `renumber` (renumber.hpp:83-137) -/
noncomputable def renLoop (hash : Kind → List ℕ → ℕ) (T : VTape) (n : ℕ) : RenSt :=
  forRange 0 n ⟨T.nodes, id, fun _ => []⟩ (fun i s => renStep hash T s i)

/-- `renumber` (renumber.hpp:69-174) -/
noncomputable def renumber (hash : Kind → List ℕ → ℕ) (T : VTape) : VTape :=
  let s := renLoop hash T T.nOp
  { T with
    nodes := s.nodes.map (fun nd => ⟨nd.kind, nd.args.map s.idx⟩)
    dep := T.dep.map s.idx }

/-! ### rev_depend (rev_depend.hpp) -/

/-- `inc_val_use_case` (rev_depend.hpp:131-137) -/
def incUse (nOp : ℕ) (use : ℕ → ℕ) (v i : ℕ) : ℕ → ℕ :=
  Function.update use v (if use v = 0 then i else nOp)

/-- state of `rev_depend` -/
structure DepSt where
  use : ℕ → ℕ
  lastLoad : ℕ → ℕ

/-- `val_index2con` (rev_depend.hpp:107-112, fold_con.hpp:87-92): the values when all the
independents are nan -/
noncomputable def VTape.nanVal (T : VTape) (P : Prim) : List V :=
  (T.run P (List.replicate T.nInd none)).val

/-- body of the loop of `rev_depend` (rev_depend.hpp:144-235).  Operators with no results do
nothing. -/
noncomputable def depStep (T : VTape) (P : Prim) (s : DepSt) (i : ℕ) : DepSt :=
  let nd := T.node i
  let r := T.res i
  if nd.nres = 0 then s
  else match nd.kind with
    | .call a id n =>
      let conX := nd.args.map (rd (T.nanVal P))
      let depY := (List.range n).map (fun k => decide (s.use (r + k) ≠ 0))
      { s with
        use := forRange 0 nd.args.length s.use (fun k use =>
          if P.depX a id conX depY k = true then incUse T.nOp use (nd.args.getD k 0) i else use) }
    | .load w =>
      if s.use r = 0 then s
      else
        { use := incUse T.nOp s.use (nd.args.getD 0 0) i
          lastLoad :=
            if s.lastLoad w = 0 then Function.update s.lastLoad w i else s.lastLoad }
    | k =>
      if s.use r = 0 then s
      else if k.isBinary = true then
        let left := nd.args.getD 0 0
        let right := nd.args.getD 1 0
        let u := incUse T.nOp s.use left i
        { s with use := if left ≠ right then incUse T.nOp u right i else u }
      else { s with use := nd.args.foldl (fun u v => incUse T.nOp u v i) s.use }

/-- initial state of `rev_depend` (rev_depend.hpp:114-128) -/
def depInit (T : VTape) : DepSt :=
  ⟨fun v => if v ∈ T.dep then T.nOp else 0, fun _ => 0⟩

/-- `rev_depend` (rev_depend.hpp:83-242) -/
noncomputable def revDepend (T : VTape) (P : Prim) : DepSt :=
  forDown0 T.nOp (depInit T) (fun i s => depStep T P s i)

/-! ### dead_code (dead_code.hpp, record_new.hpp) -/

/-- state of the loop of `dead_code` and `compress`: `new_tape`, `new_which_vec`, `new_val_index` -/
structure NewSt where
  new : VTape
  which : ℕ → ℕ
  idx : ℕ → ℕ

/-- `record_new` (record_new.hpp:87-256); returns the new state (the index map is not changed) and
`new_res_index` -/
noncomputable def recordNew (T : VTape) (use : ℕ → ℕ) (s : NewSt) (nd : Node) : NewSt × ℕ :=
  match nd.kind with
  | .con c => let p := s.new.recordCon c; ({ s with new := p.1 }, p.2)
  | .load w =>
    let p := s.new.push ⟨.load (s.which w), nd.args.map s.idx⟩; ({ s with new := p.1 }, p.2)
  | .store w =>
    let p := s.new.push ⟨.store (s.which w), nd.args.map s.idx⟩; ({ s with new := p.1 }, p.2)
  | .vec w =>
    let p := s.new.recordVec (T.vecInit.getD w [])
    ({ s with new := p.1, which := Function.update s.which w p.2 }, p.2)
  | .call _ _ _ =>
    let p := s.new.push
      ⟨nd.kind, nd.args.map (fun a => if use a ≠ 0 then s.idx a else s.new.nInd)⟩
    ({ s with new := p.1 }, p.2)
  | _ => let p := s.new.push ⟨nd.kind, nd.args.map s.idx⟩; ({ s with new := p.1 }, p.2)

/-- `need_op` in `dead_code` (dead_code.hpp:171-189) -/
noncomputable def needOp (T : VTape) (d : DepSt) (i : ℕ) : Prop :=
  match (T.node i).kind with
  | .vec w => i < d.lastLoad w
  | .store w => i < d.lastLoad w
  | .pri _ _ => T.keepPrint = true ∧ (T.node i).args.getD 0 0 ≠ T.nInd
  | .comp c => T.keepCompare = true ∧ c ≠ .no
  | k => ∃ j, j < k.nres ∧ d.use (T.res i + j) ≠ 0

/-- body of the loop of `dead_code` (dead_code.hpp:157-213) -/
noncomputable def deadStep (T : VTape) (d : DepSt) (s : NewSt) (i : ℕ) : NewSt :=
  if needOp T d i then
    let p := recordNew T d.use s (T.node i)
    { p.1 with idx := setRange p.1.idx (T.res i) p.2 (T.node i).nres }
  else s

/-- initial state in `dead_code` and `compress` (dead_code.hpp:117-133, compress.hpp:109-125).  The
options of `new_tape` are the default ones, and they are the options after the `swap`. -/
def newInit (T : VTape) : NewSt :=
  ⟨setInd T.nInd true true, fun _ => T.vecInit.length,
    fun i => if i ≤ T.nInd then i else T.nVal⟩

/-- `dead_code` (dead_code.hpp:94-233); `new_use_val` is not modelled -/
noncomputable def deadCode (T : VTape) (P : Prim) : VTape :=
  let d := revDepend T P
  let s := forRange 1 T.nOp (newInit T) (fun i s => deadStep T d s i)
  { s.new with dep := T.dep.map s.idx }

/-! ### compress (compress.hpp) -/

/-- `use_op` in `compress` (compress.hpp:157-173) -/
noncomputable def useOp (T : VTape) (d : DepSt) (i : ℕ) : Prop :=
  match (T.node i).kind with
  | .vec w => i < d.lastLoad w
  | .store w => i < d.lastLoad w
  | .pri _ _ => T.keepPrint = true
  | .comp _ => T.keepCompare = true
  | k => ∃ j, j < k.nres ∧ d.use (T.res i + j) ≠ 0

/-- body of the loop of `compress` (compress.hpp:147-214) -/
noncomputable def comprStep (hash : Kind → List ℕ → ℕ) (T : VTape) (d : DepSt)
    (s : NewSt × (ℕ → List ℕ)) (i : ℕ) : NewSt × (ℕ → List ℕ) :=
  if useOp T d i then
    let m := matchOp hash T.node s.1.idx s.2 i
    if m.1 ≠ i then
      ({ s.1 with idx := setRange s.1.idx (T.res i) (T.res m.1) (T.node i).nres }, m.2)
    else
      let p := recordNew T d.use s.1 (T.node i)
      ({ p.1 with idx := setRange p.1.idx (T.res i) p.2 (T.node i).nres }, m.2)
  else s

/-- `compress` (compress.hpp:75-234) -/
noncomputable def compress (hash : Kind → List ℕ → ℕ) (T : VTape) (P : Prim) : VTape :=
  let d := revDepend T P
  let s := forRange 1 T.nOp (newInit T, fun _ => []) (fun i s => comprStep hash T d s i)
  { s.1.new with dep := T.dep.map s.1.idx }

/-! ### fold_con (fold_con.hpp) -/

/-- state of the loop of `fold_con` -/
structure FoldSt where
  new : VTape
  isCon : ℕ → Bool
  idx : ℕ → ℕ

/-- the loop over the results of a call (fold_con.hpp:229-241) -/
noncomputable def foldCall (T : VTape) (P : Prim) (r newRes : ℕ) (conY : ℕ → Bool) (n : ℕ)
    (s : FoldSt) : FoldSt :=
  forRange 0 n s (fun k s =>
    if conY k = true then
      let p := s.new.recordCon (rd (T.nanVal P) (r + k))
      ⟨p.1, Function.update s.isCon (r + k) true, Function.update s.idx (r + k) p.2⟩
    else
      ⟨s.new, Function.update s.isCon (r + k) false,
        Function.update s.idx (r + k) (newRes + k)⟩)

/-- body of the loop of `fold_con` (fold_con.hpp:124-245); `none` is the error "This operator not
yet implemented" -/
noncomputable def foldStep (T : VTape) (P : Prim) (s : FoldSt) (i : ℕ) : Option FoldSt :=
  let nd := T.node i
  let r := T.res i
  match nd.kind with
  | .con _ =>
    let p := s.new.recordCon (rd (T.nanVal P) r)
    some ⟨p.1, Function.update s.isCon r true, Function.update s.idx r p.2⟩
  | .call a id n =>
    if n = 1 then
      if ∀ v ∈ nd.args, s.isCon v = true then
        let p := s.new.recordCon (rd (T.nanVal P) r)
        some ⟨p.1, Function.update s.isCon r true, Function.update s.idx r p.2⟩
      else
        let p := s.new.push ⟨nd.kind, nd.args.map s.idx⟩
        some ⟨p.1, s.isCon, Function.update s.idx r p.2⟩
    else
      let conX := nd.args.map (rd (T.nanVal P))
      let conY := P.conY a id conX (nd.args.map s.isCon)
      let p := s.new.push ⟨nd.kind, nd.args.map s.idx⟩
      some (foldCall T P r p.2 conY n ⟨p.1, s.isCon, s.idx⟩)
  | .comp _ => none
  | .pri _ _ => none
  | .vec _ => none
  | .store _ => none
  | _ =>
    if ∀ v ∈ nd.args, s.isCon v = true then
      let p := s.new.recordCon (rd (T.nanVal P) r)
      some ⟨p.1, Function.update s.isCon r true, Function.update s.idx r p.2⟩
    else
      let p := s.new.push ⟨nd.kind, nd.args.map s.idx⟩
      some ⟨p.1, s.isCon, Function.update s.idx r p.2⟩

/-- `fold_con` (fold_con.hpp:74-261) -/
noncomputable def foldCon (T : VTape) (P : Prim) : Option VTape :=
  let s0 : FoldSt :=
    ⟨setInd T.nInd true true, fun i => decide (i = T.nInd), fun i => i⟩
  (forRange 1 T.nOp (some s0) (fun i s => s.bind (fun s => foldStep T P s i))).map
    (fun s => { s.new with dep := T.dep.map s.idx })

/-! ### summation (summation.hpp) -/

/-- `csum_info_t` (summation.hpp:73-80) -/
structure CsumInfo where
  first : Bool
  second : Bool
  add : List ℕ
  sub : List ℕ

/-- state of `summation`: the operators and `csum_map` -/
structure SumSt where
  nodes : List Node
  map : ℕ → Option CsumInfo

/-- `sum_op` (summation.hpp:190-196) -/
def Kind.isSum : Kind → Bool
  | .neg => true
  | .add => true
  | .sub => true
  | _ => false

/-- the entry for operator `i` with its remaining operands added (summation.hpp:266-302) -/
def finish (nd : Node) (c : CsumInfo) : CsumInfo :=
  let x := nd.args.getD 0 0
  let y := nd.args.getD 1 0
  match nd.kind with
  | .add =>
    let a := if c.first = false then c.add ++ [x] else c.add
    ⟨true, true, if c.second = false then a ++ [y] else a, c.sub⟩
  | .sub =>
    ⟨true, true, if c.first = false then c.add ++ [x] else c.add,
      if c.second = false then c.sub ++ [y] else c.sub⟩
  | _ => ⟨true, true, c.add, c.sub⟩

/-- a new entry for operator `i` (summation.hpp:335-364) -/
def fresh (nd : Node) : CsumInfo :=
  let x := nd.args.getD 0 0
  let y := nd.args.getD 1 0
  match nd.kind with
  | .neg => ⟨false, false, [], [x]⟩
  | .add => ⟨false, false, [x, y], []⟩
  | .sub => if x ≠ y then ⟨false, false, [x], [y]⟩ else ⟨false, false, [], []⟩
  | _ => ⟨false, false, [], []⟩

/-- the entry `cj` of operator `j` after the entry `ci` of its operand `r` was put in it
(summation.hpp:369-436) -/
noncomputable def absorb (j : Node) (r : ℕ) (ci cj : CsumInfo) : CsumInfo :=
  let left := j.args.getD 0 0
  let right := j.args.getD 1 0
  let second := (j.kind = .add ∨ j.kind = .sub) ∧ right = r
  let equal := (j.kind = .add ∨ j.kind = .sub) ∧ right = left
  let lists : List ℕ × List ℕ :=
    match j.kind with
    | .neg => (cj.add ++ ci.sub, cj.sub ++ ci.add)
    | .add =>
      if right = left then (cj.add ++ ci.add ++ ci.add, cj.sub ++ ci.sub ++ ci.sub)
      else (cj.add ++ ci.add, cj.sub ++ ci.sub)
    | .sub =>
      if right = r then
        if right = left then (cj.add, cj.sub) else (cj.add ++ ci.sub, cj.sub ++ ci.add)
      else if right = left then
        (cj.add ++ ci.add ++ ci.add, cj.sub ++ ci.sub ++ ci.sub)
      else (cj.add ++ ci.add, cj.sub ++ ci.sub)
    | _ => (cj.add, cj.sub)
  if equal then ⟨true, true, lists.1, lists.2⟩
  else if second then ⟨cj.first, true, lists.1, lists.2⟩
  else ⟨true, cj.second, lists.1, lists.2⟩

/-- `replace_csum_op` (summation.hpp:125-169): operator `i` becomes a cumulative summation -/
def csumNode (c : CsumInfo) : Node := ⟨.csum c.add.length c.sub.length, c.add ++ c.sub⟩

/-- body of the loop of `summation` (summation.hpp:226-440).  When the entry of `i` is put in the
entry of `j`, `std::list::splice` moves the elements out of the entry of `i`; that entry is not used
again, so it is dropped here. -/
noncomputable def sumStep (T : VTape) (use : ℕ → ℕ) (s : SumSt) (i : ℕ) : SumSt :=
  let nd := T.node i
  let r := T.res i
  if nd.kind.isSum = true ∧ use r ≠ 0 then
    let entry := (s.map i).map (finish nd)
    let j := use r
    if j = T.nOp ∨ (s.nodes.getD j default).kind.isSum = false then
      match entry with
      | some c => ⟨s.nodes.set i (csumNode c), Function.update s.map i none⟩
      | none => s
    else
      let ci := entry.getD (fresh nd)
      let cj := (s.map j).getD ⟨false, false, [], []⟩
      ⟨s.nodes, Function.update s.map j (some (absorb (s.nodes.getD j default) r ci cj))⟩
  else s

/-- `summation` (summation.hpp:172-446) -/
noncomputable def summation (T : VTape) (P : Prim) : VTape :=
  let use := (revDepend T P).use
  { T with
    nodes := (forRange 1 T.nOp (⟨T.nodes, fun _ => none⟩ : SumSt)
      (fun i s => sumStep T use s i)).nodes }

/-- the value graph part of `optimize("val_graph no_conditional_skip ...")`
(val_optimize.hpp:82-100): `renumber`, `summation` when wanted, the options, `dead_code` -/
noncomputable def valOptimize (hash : Kind → List ℕ → ℕ) (compareOp cumulativeSum printOp : Bool)
    (T : VTape) (P : Prim) : VTape :=
  let T1 := renumber hash T
  let T2 := if cumulativeSum = true then summation T1 P else T1
  deadCode { T2 with keepCompare := compareOp, keepPrint := printOp } P

end CppAD.ValGraph
