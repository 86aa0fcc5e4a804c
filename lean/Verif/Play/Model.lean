import Verif.Taylor.FunModel

/-!
# Storing and playing back an operation sequence

The recorder appends operator codes to one vector and their arguments to another; the player goes through both vectors
with a sequential iterator (forward and backward) or with random access tables.
`addr_t` and `size_t` do not overflow (the recorder asserts this for `addr_t`).
-/

namespace CppAD.Play

/-- `enum op_code_var`, local/op_code_var.hpp:194-268 -/
inductive Code
  | afun | abs | acos | acosh | addpv | addvv | asin | asinh | atan | atanh | begin_ | cexp | cskip | csum | cos
  | cosh | dis | divpv | divvp | divvv | end_ | eqpp | eqpv | eqvv | erf | erfc | exp | expm1 | funap | funav | funrp
  | funrv | inv | ldp | ldv | lepp | lepv | levp | levv | log1p | log | ltpp | ltpv | ltvp | ltvv | mulpv | mulvv
  | neg | nepp | nepv | nevv | par | powpv | powvp | powvv | pri | sign | sin | sinh | sqrt | stpp | stpv | stvp
  | stvv | subpv | subvp | subvv | tan | tanh | zmulpv | zmulvp | zmulvv
  deriving DecidableEq

/-- `NumArg`, local/op_code_var.hpp:299-404 -/
def numArg : Code → ℕ
  | .afun => 4
  | .abs => 1
  | .acos => 1
  | .acosh => 1
  | .addpv => 2
  | .addvv => 2
  | .asin => 1
  | .asinh => 1
  | .atan => 1
  | .atanh => 1
  | .begin_ => 1
  | .cexp => 6
  | .cskip => 0
  | .csum => 0
  | .cos => 1
  | .cosh => 1
  | .dis => 2
  | .divpv => 2
  | .divvp => 2
  | .divvv => 2
  | .end_ => 0
  | .eqpp => 2
  | .eqpv => 2
  | .eqvv => 2
  | .erf => 3
  | .erfc => 3
  | .exp => 1
  | .expm1 => 1
  | .funap => 1
  | .funav => 1
  | .funrp => 1
  | .funrv => 0
  | .inv => 0
  | .ldp => 3
  | .ldv => 3
  | .lepp => 2
  | .lepv => 2
  | .levp => 2
  | .levv => 2
  | .log1p => 1
  | .log => 1
  | .ltpp => 2
  | .ltpv => 2
  | .ltvp => 2
  | .ltvv => 2
  | .mulpv => 2
  | .mulvv => 2
  | .neg => 1
  | .nepp => 2
  | .nepv => 2
  | .nevv => 2
  | .par => 1
  | .powpv => 2
  | .powvp => 2
  | .powvv => 2
  | .pri => 5
  | .sign => 1
  | .sin => 1
  | .sinh => 1
  | .sqrt => 1
  | .stpp => 3
  | .stpv => 3
  | .stvp => 3
  | .stvv => 3
  | .subpv => 2
  | .subvp => 2
  | .subvv => 2
  | .tan => 1
  | .tanh => 1
  | .zmulpv => 2
  | .zmulvp => 2
  | .zmulvv => 2

/-- `NumRes`, local/op_code_var.hpp:422-519 -/
def numRes : Code → ℕ
  | .afun => 0
  | .abs => 1
  | .acos => 2
  | .acosh => 2
  | .addpv => 1
  | .addvv => 1
  | .asin => 2
  | .asinh => 2
  | .atan => 2
  | .atanh => 2
  | .begin_ => 1
  | .cexp => 1
  | .cskip => 0
  | .csum => 1
  | .cos => 2
  | .cosh => 2
  | .dis => 1
  | .divpv => 1
  | .divvp => 1
  | .divvv => 1
  | .end_ => 0
  | .eqpp => 0
  | .eqpv => 0
  | .eqvv => 0
  | .erf => 5
  | .erfc => 5
  | .exp => 1
  | .expm1 => 1
  | .funap => 0
  | .funav => 0
  | .funrp => 0
  | .funrv => 1
  | .inv => 1
  | .ldp => 1
  | .ldv => 1
  | .lepp => 0
  | .lepv => 0
  | .levp => 0
  | .levv => 0
  | .log1p => 1
  | .log => 1
  | .ltpp => 0
  | .ltpv => 0
  | .ltvp => 0
  | .ltvv => 0
  | .mulpv => 1
  | .mulvv => 1
  | .neg => 1
  | .nepp => 0
  | .nepv => 0
  | .nevv => 0
  | .par => 1
  | .powpv => 3
  | .powvp => 1
  | .powvv => 3
  | .pri => 0
  | .sign => 1
  | .sin => 2
  | .sinh => 2
  | .sqrt => 1
  | .stpp => 0
  | .stpv => 0
  | .stvp => 0
  | .stvv => 0
  | .subpv => 1
  | .subvp => 1
  | .subvv => 1
  | .tan => 2
  | .tanh => 2
  | .zmulpv => 1
  | .zmulvp => 1
  | .zmulvv => 1

/-- codes that are recorded without arguments: independent variables and results of an atomic function that are variables,
independent/independent.hpp and record/put_var_atomic.hpp:118-131; `EndOp` is put by dependent.hpp -/
inductive Nul | inv | funrv | end_

/-- codes that are recorded with one argument: the standard math functions (std_math_11.hpp, standard_math.hpp), `ParOp`
(dependent.hpp), the arguments and the parameter results of an atomic function (record/put_var_atomic.hpp), `BeginOp`
(independent/independent.hpp) -/
inductive Un
  | abs | acos | acosh | asin | asinh | atan | atanh | begin_ | cos | cosh | exp | expm1 | funap | funav | funrp | log | log1p | neg
  | par | sign | sin | sinh | sqrt | tan | tanh

/-- codes that are recorded with two arguments: add.hpp, sub.hpp, mul.hpp, div.hpp, pow.hpp, azmul.hpp, discrete/, record/comp_op.hpp -/
inductive Bin
  | addpv | addvv | dis | divpv | divvp | divvv | eqpp | eqpv | eqvv | lepp | lepv | levp | levv | ltpp | ltpv | ltvp | ltvv
  | mulpv | mulvv | nepp | nepv | nevv | powpv | powvp | powvv | subpv | subvp | subvv | zmulpv | zmulvp | zmulvv

/-- codes that are recorded with three arguments: std_math_11.hpp (erf, erfc), vec_ad/vec_ad.hpp -/
inductive Tri | erf | erfc | ldp | ldv | stpp | stpv | stvp | stvv

/-- one recorded operation -/
inductive Instr
  | nul (c : Nul)
  | un (c : Un) (x : ℕ)
  | bin (c : Bin) (x y : ℕ)
  | tri (c : Tri) (x y z : ℕ)
  /-- start and end of a call to an atomic function: index, call id, number of arguments and results, record/put_var_atomic.hpp:76-79 -/
  | afun (index call n m : ℕ)
  /-- print_for.hpp:80-115 -/
  | pri (flag pos before value after : ℕ)
  /-- record/cond_exp.hpp -/
  | cexp (cop flag left right ifTrue ifFalse : ℕ)
  /-- constant, variables that are added, subtracted, dynamic parameters that are added, subtracted -/
  | csum (c : ℕ) (av sv ad sd : List ℕ)
  /-- comparison, flag, operands, operators that are skipped if the comparison is true, false -/
  | cskip (cop flag left right : ℕ) (sTrue sFalse : List ℕ)

/-- the code that is put for the operation, local/op_code_var.hpp:194-268 -/
def Nul.code : Nul → Code
  | .inv => .inv
  | .funrv => .funrv
  | .end_ => .end_

/-- the code that is put for the operation, local/op_code_var.hpp:194-268 -/
def Un.code : Un → Code
  | .abs => .abs
  | .acos => .acos
  | .acosh => .acosh
  | .asin => .asin
  | .asinh => .asinh
  | .atan => .atan
  | .atanh => .atanh
  | .begin_ => .begin_
  | .cos => .cos
  | .cosh => .cosh
  | .exp => .exp
  | .expm1 => .expm1
  | .funap => .funap
  | .funav => .funav
  | .funrp => .funrp
  | .log => .log
  | .log1p => .log1p
  | .neg => .neg
  | .par => .par
  | .sign => .sign
  | .sin => .sin
  | .sinh => .sinh
  | .sqrt => .sqrt
  | .tan => .tan
  | .tanh => .tanh

/-- the code that is put for the operation, local/op_code_var.hpp:194-268 -/
def Bin.code : Bin → Code
  | .addpv => .addpv
  | .addvv => .addvv
  | .dis => .dis
  | .divpv => .divpv
  | .divvp => .divvp
  | .divvv => .divvv
  | .eqpp => .eqpp
  | .eqpv => .eqpv
  | .eqvv => .eqvv
  | .lepp => .lepp
  | .lepv => .lepv
  | .levp => .levp
  | .levv => .levv
  | .ltpp => .ltpp
  | .ltpv => .ltpv
  | .ltvp => .ltvp
  | .ltvv => .ltvv
  | .mulpv => .mulpv
  | .mulvv => .mulvv
  | .nepp => .nepp
  | .nepv => .nepv
  | .nevv => .nevv
  | .powpv => .powpv
  | .powvp => .powvp
  | .powvv => .powvv
  | .subpv => .subpv
  | .subvp => .subvp
  | .subvv => .subvv
  | .zmulpv => .zmulpv
  | .zmulvp => .zmulvp
  | .zmulvv => .zmulvv

/-- the code that is put for the operation, local/op_code_var.hpp:194-268 -/
def Tri.code : Tri → Code
  | .erf => .erf
  | .erfc => .erfc
  | .ldp => .ldp
  | .ldv => .ldv
  | .stpp => .stpp
  | .stpv => .stpv
  | .stvp => .stvp
  | .stvv => .stvv

/-- the code of an operation -/
def Instr.code : Instr → Code
  | .nul c => c.code
  | .un c _ => c.code
  | .bin c _ _ => c.code
  | .tri c _ _ _ => c.code
  | .afun _ _ _ _ => .afun
  | .pri _ _ _ _ _ => .pri
  | .cexp _ _ _ _ _ _ => .cexp
  | .csum _ _ _ _ _ => .csum
  | .cskip _ _ _ _ _ _ => .cskip

/-! ## recorder -/

/-- the vectors `var_op_`, `var_arg_` and `num_var_`, `var_text_` of a recorder, record/recorder.hpp:147-169 -/
structure Rec where
  ops : List Code
  args : List ℕ
  numVar : ℕ

/-- `PutOp` and `PutLoadOp`, record/recorder.hpp:422-445, 630-656: the result is the index of the last result -/
def Rec.putOp (r : Rec) (c : Code) : Rec × ℕ :=
  let nv := r.numVar + numRes c
  ({ r with ops := r.ops ++ [c], numVar := nv }, nv - 1)

/-- `PutArg`, record/recorder.hpp:511-582, for any number of arguments -/
def Rec.putArg (r : Rec) (a : List ℕ) : Rec := { r with args := r.args ++ a }

/-- `ReserveArg`, record/recorder.hpp:684-690; the new elements are `junk` -/
def Rec.reserve (r : Rec) (junk : ℕ → ℕ) (n : ℕ) : Rec × ℕ :=
  ({ r with args := r.args ++ (List.range n).map junk }, r.args.length)

/-- `ReplaceArg`, record/recorder.hpp:721-725 -/
def Rec.replace (r : Rec) (i v : ℕ) : Rec := { r with args := r.args.set i v }

/-- consecutive calls `ReplaceArg(i_arg++, ...)`, optimize/optimize_run.hpp:1310-1337 -/
def Rec.replaceAll (r : Rec) (i : ℕ) : List ℕ → Rec
  | [] => r
  | v :: vs => (r.replace i v).replaceAll (i + 1) vs

/-- Recording one operation.  Returns the recorder, the index of the last result (what becomes `taddr_`) and,
for CSkipOp, the position that was reserved.  CSumOp: optimize/record_csum.hpp:320-374, also graph/from_graph.hpp;
CSkipOp: optimize/optimize_run.hpp:618-629 (the arguments are set later).  The others: PutArg and PutOp. -/
def Rec.put (r : Rec) (junk : ℕ → ℕ) : Instr → Rec × ℕ × ℕ
  | .nul c => let p := r.putOp c.code; (p.1, p.2, 0)
  | .un c x => let p := (r.putArg [x]).putOp c.code; (p.1, p.2, 0)
  | .bin c x y => let p := (r.putArg [x, y]).putOp c.code; (p.1, p.2, 0)
  | .tri c x y z => let p := (r.putArg [x, y, z]).putOp c.code; (p.1, p.2, 0)
  | .afun a b c d => let p := (r.putOp .afun); (p.1.putArg [a, b, c, d], p.2, 0)
  | .pri a b c d e => let p := (r.putArg [a, b, c, d, e]).putOp .pri; (p.1, p.2, 0)
  | .cexp a b c d e f => let p := (r.putArg [a, b, c, d, e, f]).putOp .cexp; (p.1, p.2, 0)
  | .csum c av sv ad sd =>
    let r := r.putArg [c]
    let e := av.length + 5
    let r := r.putArg [e]
    let e := e + sv.length
    let r := r.putArg [e]
    let e := e + ad.length
    let r := r.putArg [e]
    let e := e + sd.length
    let r := r.putArg [e]
    let r := av.foldl (fun r v => r.putArg [v]) r
    let r := sv.foldl (fun r v => r.putArg [v]) r
    let r := ad.foldl (fun r v => r.putArg [v]) r
    let r := sd.foldl (fun r v => r.putArg [v]) r
    let r := r.putArg [e + 1]
    let p := r.putOp .csum
    (p.1, p.2, 0)
  | .cskip _ _ _ _ sT sF =>
    let q := r.reserve junk (7 + sT.length + sF.length)
    let p := q.1.putOp .cskip
    (p.1, p.2, q.2)

/-- the arguments of a CSkipOp, optimize/optimize_run.hpp:1303-1343 -/
def Rec.fix (r : Rec) (i : ℕ) : Instr → Rec
  | .cskip cop flag left right sT sF =>
    r.replaceAll i ([cop, flag, left, right, sT.length, sF.length] ++ sT ++ sF ++ [7 + sT.length + sF.length])
  | _ => r

/-- all the operations; returns the recorder, and for each operation the index of its last result and its reserved position -/
def putAll (junk : ℕ → ℕ) : List Instr → Rec → Rec × List (ℕ × ℕ)
  | [], r => (r, [])
  | i :: is, r =>
    let p := r.put junk i
    let q := putAll junk is p.1
    (q.1, p.2 :: q.2)

/-- the arguments of all the CSkipOp operators, after everything has been recorded -/
def fixAll (r : Rec) (l : List (Instr × ℕ)) : Rec := l.foldl (fun r p => r.fix p.2 p.1) r

/-- a recording: `num_var_` is zero in a new recorder, record/recorder.hpp:174-179 -/
def record (junk : ℕ → ℕ) (l : List Instr) : Rec :=
  let p := putAll junk l ⟨[], [], 0⟩
  fixAll p.1 (l.zip (p.2.map Prod.snd))

/-! ## sequential iterator -/

/-- play/sequential_iterator.hpp:40-53; pointers are positions in the vectors -/
structure Itr where
  cur : ℕ
  arg : ℕ
  var : ℕ
  op : Code

/-- code at a position of `var_op` -/
def Rec.code (r : Rec) (k : ℕ) : Code := r.ops.getD k .end_

/-- constructor for `op_index == 0`, play/sequential_iterator.hpp:112-125 -/
def Itr.first (r : Rec) : Itr := ⟨0, 0, 0, r.code 0⟩

/-- constructor for the last operator, play/sequential_iterator.hpp:126-140 -/
def Itr.last (r : Rec) : Itr := ⟨r.ops.length - 1, r.args.length, r.numVar - 1, r.code (r.ops.length - 1)⟩

/-- `operator++`, play/sequential_iterator.hpp:145-158 -/
def Itr.inc (r : Rec) (i : Itr) : Itr :=
  let arg := i.arg + numArg i.op
  let cur := i.cur + 1
  let op := r.code cur
  ⟨cur, arg, i.var + numRes op, op⟩

/-- element of `var_arg` -/
def Rec.at (r : Rec) (k : ℕ) : ℕ := r.args.getD k 0

/-- `correct_before_increment`, play/sequential_iterator.hpp:163-192 -/
def Itr.fixInc (r : Rec) (i : Itr) : Itr :=
  match i.op with
  | .csum => { i with arg := i.arg + (r.at (i.arg + 4) + 1) }
  | .cskip => { i with arg := i.arg + (7 + r.at (i.arg + 4) + r.at (i.arg + 5)) }
  | _ => i

/-- `operator--`, play/sequential_iterator.hpp:196-209 -/
def Itr.dec (r : Rec) (i : Itr) : Itr :=
  let var := i.var - numRes i.op
  let cur := i.cur - 1
  let op := r.code cur
  ⟨cur, i.arg - numArg op, var, op⟩

/-- `correct_after_decrement`, play/sequential_iterator.hpp:217-252 -/
def Itr.fixDec (r : Rec) (i : Itr) : Itr :=
  match i.op with
  | .csum => { i with arg := i.arg - r.at (i.arg - 1) }
  | .cskip => { i with arg := i.arg - r.at (i.arg - 1) }
  | _ => i

/-- how the sweeps go to the next operator: sweep/forward_0.hpp:282-296 and 556-558 (also for operators that are skipped,
forward_0.hpp:155-180), forward_any.hpp, forward_dir.hpp, for_jac.hpp, for_hes.hpp -/
def Itr.next (r : Rec) (i : Itr) : Itr :=
  if i.op = .csum ∨ i.op = .cskip then (i.fixInc r).inc r else i.inc r

/-- how the sweeps go to the previous operator: sweep/reverse.hpp:205-225, 350-362, rev_jac.hpp:170-270, rev_hes.hpp -/
def Itr.prev (r : Rec) (i : Itr) : Itr :=
  let i := i.dec r
  if i.op = .csum ∨ i.op = .cskip then i.fixDec r else i

/-! ## random access -/

/-- state of the loop in play/random_setup.hpp:76-132 -/
structure Tables where
  argIndex : ℕ
  varIndex : ℕ
  op2arg : ℕ → ℕ
  op2var : ℕ → ℕ
  var2op : ℕ → ℕ

/-- body of the loop, play/random_setup.hpp:91-132 -/
def Tables.step (r : Rec) (k : ℕ) (t : Tables) : Tables :=
  let op := r.code k
  let o2a := Function.update t.op2arg k t.argIndex
  let arg := t.argIndex + numArg op
  let var := t.varIndex + numRes op
  let o2v := if numRes op > 0 then Function.update t.op2var k (var - 1) else t.op2var
  let v2o := if numRes op > 0 then Function.update t.var2op (var - 1) k else t.var2op
  let arg := if op = .csum then arg + (r.at (arg + 4) + 1) else arg
  let arg := if op = .cskip then arg + (7 + r.at (arg + 4) + r.at (arg + 5)) else arg
  ⟨arg, var, o2a, o2v, v2o⟩

/-- `random_setup`, play/random_setup.hpp:55-133; the vectors are not initialized when NDEBUG is defined -/
def randomSetup (r : Rec) (junk1 junk2 junk3 : ℕ → ℕ) : Tables :=
  forRange 0 r.ops.length ⟨0, 0, junk1, junk2, junk3⟩ (Tables.step r)

/-! ## what the sweeps read from the arguments -/

/-- the arguments `arg[lo], ..., arg[hi-1]` -/
def Rec.range (r : Rec) (arg lo hi : ℕ) : List ℕ := (List.range' lo (hi - lo)).map fun i => r.at (arg + i)

/-- CSumOp, var_op/csum_op.hpp:192-217: the constant and the operands -/
def Rec.readCsum (r : Rec) (arg : ℕ) : ℕ × List ℕ × List ℕ × List ℕ × List ℕ :=
  (r.at arg, r.range arg 5 (r.at (arg + 1)), r.range arg (r.at (arg + 1)) (r.at (arg + 2)),
    r.range arg (r.at (arg + 2)) (r.at (arg + 3)), r.range arg (r.at (arg + 3)) (r.at (arg + 4)))

/-- CSkipOp, var_op/cskip_op.hpp:155-224: comparison, flag, operands, operators to skip -/
def Rec.readCskip (r : Rec) (arg : ℕ) : ℕ × ℕ × ℕ × ℕ × List ℕ × List ℕ :=
  (r.at arg, r.at (arg + 1), r.at (arg + 2), r.at (arg + 3), (List.range (r.at (arg + 4))).map fun i => r.at (arg + (6 + i)),
    (List.range (r.at (arg + 5))).map fun i => r.at (arg + (6 + r.at (arg + 4) + i)))

/-! ## text -/

/-- `PutTxt`, record/recorder.hpp:755-779: `text` has no zero character; the result is the position -/
def putTxt (buf : List ℕ) (text : List ℕ) : List ℕ × ℕ := (buf ++ (text ++ [0]), buf.length)

/-- the zero terminated string at a position, play/player.hpp:682-686 -/
def getTxt (buf : List ℕ) (i : ℕ) : List ℕ := (buf.drop i).takeWhile (· ≠ 0)

end CppAD.Play
