import Verif.Graph.Model

/-! # JSON representation of a graph

Model of `json_writer`, `json_lexer` and `json_parser` (cppad_lib/json_writer.cpp, json_lexer.cpp, json_parser.cpp).

Simplifications:
* text is a list of characters;
* the lexer is represented by the text that starts at `index_`; the line and character numbers and the text of the error
  messages are not modelled, an error is `none`;
* conversion between text and floating point numbers is a parameter, and so is `atoi` for values that are not in the
  range of int. -/

namespace CppAD.Graph

open CppAD CppAD.Record CppAD.Optim

/-! ## Operator information -/

/-- op_info_vec, cppad_lib/cpp_graph_op.cpp:41-82, in the order of graph_op_enum -/
def opTable : List (GCode × Txt × ℕ) :=
  [(.un .abs, "abs".toList, 1), (.un .acos, "acos".toList, 1), (.un .acosh, "acosh".toList, 1), (.bin .add, "add".toList, 2),
   (.un .asin, "asin".toList, 1), (.un .asinh, "asinh".toList, 1), (.un .atan, "atan".toList, 1),
   (.un .atanh, "atanh".toList, 1), (.atom4, "atom4".toList, 0), (.atom, "atom".toList, 0), (.bin .azmul, "azmul".toList, 2),
   (.cexp .eq, "cexp_eq".toList, 4), (.cexp .le, "cexp_le".toList, 4), (.cexp .lt, "cexp_lt".toList, 4),
   (.comp .eq, "comp_eq".toList, 0), (.comp .le, "comp_le".toList, 0), (.comp .lt, "comp_lt".toList, 0),
   (.comp .ne, "comp_ne".toList, 0), (.un .cos, "cos".toList, 1), (.un .cosh, "cosh".toList, 1),
   (.dis, "discrete".toList, 0), (.bin .div, "div".toList, 2), (.un .erf, "erf".toList, 1), (.un .erfc, "erfc".toList, 1),
   (.un .exp, "exp".toList, 1), (.un .expm1, "expm1".toList, 1), (.un .log1p, "log1p".toList, 1), (.un .log, "log".toList, 1),
   (.bin .mul, "mul".toList, 2), (.un .neg, "neg".toList, 1), (.bin .pow, "pow".toList, 2), (.print, "print".toList, 0),
   (.un .sign, "sign".toList, 1), (.un .sin, "sin".toList, 1), (.un .sinh, "sinh".toList, 1), (.un .sqrt, "sqrt".toList, 1),
   (.bin .sub, "sub".toList, 2), (.sum, "sum".toList, 0), (.un .tan, "tan".toList, 1), (.un .tanh, "tanh".toList, 1)]

/-- op_enum2name, cpp_graph_op.cpp:93 -/
def GCode.name (c : GCode) : Txt := ((opTable.find? fun e => decide (e.1 = c)).map fun e => e.2.1).getD []

/-- op_enum2fixed_n_arg, cpp_graph_op.cpp:94 -/
def GCode.nArg (c : GCode) : ℕ := ((opTable.find? fun e => decide (e.1 = c)).map fun e => e.2.2).getD 0

/-- op_name2enum[name], cpp_graph_op.cpp:95; a name that is not in the map is inserted with the value zero -/
def name2code (s : Txt) : GCode := ((opTable.find? fun e => decide (e.2.1 = s)).map fun e => e.1).getD (.un .abs)

/-- conversions: `fmt` is to_string(double), cppad/utility/to_string.hpp:111-120; `atof` is std::atof; `big` is
std::atoi converted to size_t for text that is not the decimal representation of an int -/
structure JCfg where
  fmt : ℝ → Txt
  atof : Txt → ℝ
  big : Txt → ℕ

/-- to_string(size_t), cppad/utility/to_string.hpp:102-109 -/
def dec (n : ℕ) : Txt := Nat.toDigits 10 n

/-! ## The writer -/

/-- items separated by `s`: the loops with `if( j + 1 < n ) json += s` -/
def joinSep (s : Txt) : List Txt → Txt
  | [] => []
  | [x] => x
  | x :: y :: l => x ++ (s ++ joinSep s (y :: l))

/-- operators that are used, in the order of graph_op_enum; json_writer.cpp:28-33 -/
def defines (ops : List GCode) : List GCode := (opTable.map fun e => e.1).filter fun c => decide (c ∈ ops)

/-- graph_code, json_writer.cpp:35-42 -/
def graphCode (ops : List GCode) (c : GCode) : ℕ := if c ∈ ops then (defines ops).idxOf c + 1 else 0

/-- definition of one operator, json_writer.cpp:55-63 -/
def writeDefine (ops : List GCode) (c : GCode) : Txt :=
  "{ 'op_code':".toList ++ (dec (graphCode ops c) ++ (", 'name':'".toList ++ (c.name ++ ("'".toList ++
    ((if c.nArg ≠ 0 then ", 'n_arg':".toList ++ dec c.nArg else []) ++ " }".toList)))))

/-- the loop over the arguments of atom, atom4 and of the operators with a fixed number of arguments: the bracket is written after the
last argument; json_writer.cpp:143-149 and 202-208 -/
def writeArgs (args : List ℕ) : Txt := if args = [] then [] else joinSep ", ".toList (args.map dec) ++ " ]".toList

/-- one operator usage, json_writer.cpp:96-211; `k` is op_code -/
def writeUsage (g : CppGraph) (k : ℕ) (n : GNode) : Txt :=
  match n with
  | .sum args =>
    "[ ".toList ++ (dec k ++ (", 1, ".toList ++ (dec args.length ++ (", [ ".toList ++
      (joinSep ", ".toList (args.map dec) ++ "] ]".toList)))))
  | .atom name nres args =>
    "[ ".toList ++ (dec k ++ (", ".toList ++ ("'".toList ++ (g.atomicNames.getD name [] ++ ("', ".toList ++
      (dec nres ++ (", ".toList ++ (dec args.length ++ (", [".toList ++ (writeArgs args ++ " ]".toList))))))))))
  | .atom4 name callId nres args =>
    "[ ".toList ++ (dec k ++ (", ".toList ++ ("'".toList ++ (g.atomicNames.getD name [] ++ ("', ".toList ++
      (dec callId ++ (", ".toList ++
      (dec nres ++ (", ".toList ++ (dec args.length ++ (", [".toList ++ (writeArgs args ++ " ]".toList))))))))))))
  | .comp _ a b =>
    "[ ".toList ++ (dec k ++ (", 0, 2, [ ".toList ++ (dec a ++ (", ".toList ++ (dec b ++ " ] ]".toList)))))
  | .dis name a =>
    "[ ".toList ++ (dec k ++ (", ".toList ++ ("'".toList ++ (g.discreteNames.getD name [] ++ ("', ".toList ++
      (dec 1 ++ (", ".toList ++ (dec 1 ++ (", [ ".toList ++ (dec a ++ " ] ]".toList))))))))))
  | .print before after notpos value =>
    "[ ".toList ++ (dec k ++ (", ".toList ++ ("'".toList ++ (g.printText.getD before [] ++ ("', ".toList ++ ("'".toList ++
      (g.printText.getD after [] ++ ("', 0, 2, [ ".toList ++ (dec notpos ++ (", ".toList ++ (dec value ++ " ] ]".toList)))))))))))
  | n => "[ ".toList ++ (dec k ++ (", ".toList ++ writeArgs n.argNodes))

/-- json_writer.cpp:230-232 -/
def quote (c : Char) : Char := if c = '\'' then '"' else c

/-- json_writer, cppad_lib/json_writer.cpp:15-235, before the quotes are changed -/
def writeRaw (J : JCfg) (g : CppGraph) : Txt :=
  "{\n".toList ++ ("'function_name' : '".toList ++ (g.name ++ ("',\n".toList ++
  ("'op_define_vec' : [ ".toList ++ (dec (defines g.ops).length ++ (", [\n".toList ++
  (joinSep ",\n".toList ((defines g.ops).map (writeDefine g.ops)) ++ (" ]\n] ,\n".toList ++
  ("'n_dynamic_ind' : ".toList ++ (dec g.nDyn ++ (",\n".toList ++
  ("'n_variable_ind' : ".toList ++ (dec g.nVar ++ (",\n".toList ++
  ("'constant_vec' : [ ".toList ++ (dec g.constants.length ++ (", [\n".toList ++
  (joinSep ",\n".toList (g.constants.map J.fmt) ++ (" ] ],\n".toList ++
  ("'op_usage_vec' : [ ".toList ++ (dec g.ops.length ++ (", [\n".toList ++
  (joinSep ",\n".toList (g.nodes.map fun n => writeUsage g (graphCode g.ops n.code) n) ++ ("\n] ],\n".toList ++
  ("'dependent_vec' : [ ".toList ++ (dec g.deps.length ++ (", [ ".toList ++
  (joinSep ", ".toList (g.deps.map dec) ++ (" ] ]\n".toList ++ "}\n".toList)))))))))))))))))))))))))))))

/-- json_writer, cppad_lib/json_writer.cpp:15-235 -/
def writeJson (J : JCfg) (g : CppGraph) : Txt := (writeRaw J g).map quote

/-! ## The lexer -/

/-- isspace -/
def isSpace (c : Char) : Bool := c == ' ' || c == '\n' || c == '\t' || c == '\r' || c == '\x0b' || c == '\x0c'

/-- characters of a floating point number, json_lexer.cpp:243-245 -/
def isFlt (c : Char) : Bool := c.isDigit || c == '.' || c == '+' || c == '-' || c == 'e' || c == 'E'

/-- a function that moves the lexer, which is the text from `index_` to the end; `none` is a call to report_error -/
abbrev P := StateT Txt Option

/-- next_index and skip_white_space, json_lexer.cpp:50-64 -/
def adv (s : Txt) : Txt := s.tail.dropWhile isSpace

/-- constructor, json_lexer.cpp:67-88 -/
def lexInit (json : Txt) : Option Txt :=
  match json.dropWhile isSpace with
  | [] => none
  | c :: t => if c = '{' then some (c :: t) else none

/-- check_next_char, json_lexer.cpp:116-142 -/
def chk (c : Char) : P Unit := fun s =>
  match adv s with
  | [] => none
  | d :: t => if d = c then some ((), d :: t) else none

/-- check_next_string(match_any_string) and token, json_lexer.cpp:145-199 -/
def str : P Txt := fun s =>
  match adv s with
  | [] => none
  | q :: t =>
    if q = '"' then
      match t.dropWhile (fun c => c != '"') with
      | [] => none
      | r :: u => some (t.takeWhile (fun c => c != '"'), r :: u)
    else none

/-- check_next_string(expected), json_lexer.cpp:145-199 -/
def key (expected : Txt) : P Unit := fun s => (str s).bind fun r => if r.1 = expected then some ((), r.2) else none

/-- next_non_neg_int and next_float: the token is the longest sequence of characters that satisfy `p`, the lexer stays at the last of
them; json_lexer.cpp:202-270 -/
def tok (p : Char → Bool) : P Txt := fun s =>
  match (adv s).takeWhile p with
  | [] => none
  | c :: w => some (c :: w, (adv s).drop w.length)

/-- token2size_t, json_lexer.cpp:108-109: size_t( std::atoi(token) ) -/
def JCfg.atoi (J : JCfg) (w : Txt) : ℕ :=
  if (w.all Char.isDigit) = true ∧ Nat.ofDigitChars 10 w 0 < 2 ^ 31 then Nat.ofDigitChars 10 w 0 else J.big w

/-- next_non_neg_int and token2size_t -/
def JCfg.int (J : JCfg) : P ℕ := fun s => (tok Char.isDigit s).map fun r => (J.atoi r.1, r.2)

/-- next_float and token2double -/
def JCfg.flt (J : JCfg) : P ℝ := fun s => (tok isFlt s).map fun r => (J.atof r.1, r.2)

/-- next_float and token2size_t, json_parser.cpp:317-318 -/
def JCfg.dep (J : JCfg) : P ℕ := fun s => (tok isFlt s).map fun r => (J.atoi r.1, r.2)

/-! ## The parser -/

/-- a loop that reads `n` items with a comma after each of them except for the last -/
def sepBy {α : Type} (p : P α) : ℕ → P (List α)
  | 0 => pure []
  | 1 => do
    let x ← p
    pure [x]
  | n + 2 => do
    let x ← p
    chk ','
    let l ← sepBy p (n + 1)
    pure (x :: l)

/-- one operator definition, json_parser.cpp:57-93 -/
def pDefine (J : JCfg) : P GCode := do
  chk '{'
  key "op_code".toList
  chk ':'
  let _ ← J.int
  chk ','
  key "name".toList
  chk ':'
  let s ← str
  let c := name2code s
  if c.nArg > 0 then
    chk ','
    key "n_arg".toList
    chk ':'
    let k ← J.int
    if k = c.nArg then
      chk '}'
      pure c
    else failure
  else
    chk '}'
    pure c

/-- index of a name in a vector, and the vector after it is added if necessary: `find` and `push_back`;
json_parser.cpp:185-188, 196-199, 207-220 -/
def addName (l : List Txt) (s : Txt) : List Txt × ℕ :=
  let k := l.findIdx fun x => decide (x = s)
  if k = l.length then (l ++ [s], k) else (l, k)

/-- operator_vec_push_back and operator_arg_push_back -/
def CppGraph.add (g : CppGraph) (c : GCode) (args : List ℕ) : CppGraph :=
  { g with ops := g.ops ++ [c], args := g.args ++ args }

/-- the strings of an operator and the graph with the names added; json_parser.cpp:179-228 -/
def pStrings (c : GCode) (g : CppGraph) : P (CppGraph × List ℕ) :=
  match c with
  | .dis => do
    let s ← str
    chk ','
    let d := addName g.discreteNames s
    pure ({ g with discreteNames := d.1 }, [d.2])
  | .atom => do
    let s ← str
    chk ','
    let d := addName g.atomicNames s
    pure ({ g with atomicNames := d.1 }, [d.2])
  | .atom4 => do
    let s ← str
    chk ','
    let d := addName g.atomicNames s
    pure ({ g with atomicNames := d.1 }, [d.2])
  | .print => do
    let s ← str
    chk ','
    let b := addName g.printText s
    let s ← str
    chk ','
    let a := addName b.1 s
    pure ({ g with printText := a.1 }, [b.2, a.2])
  | _ => pure (g, [])

/-- json_parser.cpp:229-233 -/
def pCall (J : JCfg) (c : GCode) : P (List ℕ) :=
  match c with
  | .atom4 => do
    let k ← J.int
    chk ','
    pure [k]
  | _ => pure []

/-- what is pushed to operator_arg before the arguments, json_parser.cpp:246-278; `str` is str_index and `call` is call_id -/
def prefixArgs (c : GCode) (str call : List ℕ) (nres narg : ℕ) : List ℕ :=
  match c with
  | .atom => str ++ [nres, narg]
  | .atom4 => call ++ str ++ [nres, narg]
  | .dis => str
  | .print => str
  | .sum => [narg]
  | _ => []

/-- n_result, n_arg and the arguments when the number of arguments is not fixed, json_parser.cpp:234-243 and 284-296 -/
def pTail (J : JCfg) : P (ℕ × ℕ × List ℕ) := do
  let nres ← J.int
  chk ','
  let narg ← J.int
  chk ','
  chk '['
  let args ← sepBy J.int narg
  chk ']'
  chk ']'
  pure (nres, narg, args)

/-- one operator usage, json_parser.cpp:162-296 -/
def pUsage (J : JCfg) (codes : List GCode) (g : CppGraph) : P CppGraph := do
  chk '['
  let k ← J.int
  let c := codes.getD k (.un .abs)
  chk ','
  if c.nArg > 0 then
    let args ← sepBy J.int c.nArg
    chk ']'
    pure (g.add c (prefixArgs c [] [] 1 c.nArg ++ args))
  else
    let s ← pStrings c g
    let call ← pCall J c
    let r ← pTail J
    pure (s.1.add c (prefixArgs c s.2 call r.1 r.2.1 ++ r.2.2))

/-- the loop over the operator usages, json_parser.cpp:161-301 -/
def pUsages (J : JCfg) (codes : List GCode) : ℕ → CppGraph → P CppGraph
  | 0, g => pure g
  | 1, g => pUsage J codes g
  | n + 2, g => do
    let g ← pUsage J codes g
    chk ','
    pUsages J codes (n + 1) g

/-- json_parser after the constructor of the lexer, cppad_lib/json_parser.cpp:36-327 -/
def pGraph (J : JCfg) : P CppGraph := do
  key "function_name".toList
  chk ':'
  let name ← str
  chk ','
  key "op_define_vec".toList
  chk ':'
  chk '['
  let nDefine ← J.int
  chk ','
  chk '['
  let defs ← sepBy (pDefine J) nDefine
  chk ']'
  chk ']'
  chk ','
  key "n_dynamic_ind".toList
  chk ':'
  let nDyn ← J.int
  chk ','
  key "n_variable_ind".toList
  chk ':'
  let nVar ← J.int
  chk ','
  key "constant_vec".toList
  chk ':'
  chk '['
  let nCon ← J.int
  chk ','
  chk '['
  let con ← sepBy J.flt nCon
  chk ']'
  chk ']'
  chk ','
  key "op_usage_vec".toList
  chk ':'
  chk '['
  let nUsage ← J.int
  chk ','
  chk '['
  let g ← pUsages J (.un .abs :: defs) nUsage ⟨name, nDyn, nVar, [], [], [], con, [], [], []⟩
  chk ']'
  chk ']'
  chk ','
  key "dependent_vec".toList
  chk ':'
  chk '['
  let nDep ← J.int
  chk ','
  chk '['
  let deps ← sepBy J.dep nDep
  chk ']'
  chk ']'
  chk '}'
  pure { g with deps := deps }

/-- json_parser, cppad_lib/json_parser.cpp:16-330 -/
def parseJson (J : JCfg) (json : Txt) : Option CppGraph :=
  (lexInit json).bind fun s => ((pGraph J).run s).map Prod.fst

/-! ## *Specification* -/

/-- the names and text that an operator refers to -/
def GNode.strs (g : CppGraph) : GNode → List Txt
  | .dis name _ => [g.discreteNames.getD name []]
  | .atom name _ _ => [g.atomicNames.getD name []]
  | .atom4 name _ _ _ => [g.atomicNames.getD name []]
  | .print before after _ _ => [g.printText.getD before [], g.printText.getD after []]
  | _ => []

/-- call_id of an atomic function call -/
def GNode.callId : GNode → Option ℕ
  | .atom4 _ c _ _ => some c
  | _ => none

/-- What an operator usage means, without reference to the vectors of names in the graph: its operator, names, call id, number of
results and arguments.  (The JSON format refers to functions by name.) -/
structure GUse where
  code : GCode
  strs : List Txt
  callId : Option ℕ
  nres : ℕ
  args : List ℕ

/-- meaning of an operator usage -/
def GNode.use (g : CppGraph) (n : GNode) : GUse := ⟨n.code, n.strs g, n.callId, n.nres, n.argNodes⟩

/-- text that does not contain a quote -/
def Clean (s : Txt) : Prop := ∀ c ∈ s, c ≠ '\'' ∧ c ≠ '"'

/-- an operator usage that the JSON format can represent: numbers are in the range of int, text has no quotes, an atomic function has
arguments; atom4 is not included -/
structure GNode.JsonOk (g : CppGraph) (n : GNode) : Prop where
  noAtom4 : n.code ≠ .atom4
  strs : ∀ s ∈ n.strs g, Clean s
  nres : n.nres < 2 ^ 31
  nargs : n.argNodes.length < 2 ^ 31
  args : ∀ a ∈ n.argNodes, a < 2 ^ 31
  atom : n.code = .atom → n.argNodes ≠ []

/-- A graph that the JSON format can represent.  The text of each constant consists of characters of floating point numbers (it is
not the text of nan or infinity). -/
structure CppGraph.JsonOk (J : JCfg) (g : CppGraph) : Prop where
  name : Clean g.name
  nDyn : g.nDyn < 2 ^ 31
  nVar : g.nVar < 2 ^ 31
  nCon : g.constants.length < 2 ^ 31
  con : ∀ v ∈ g.constants, J.fmt v ≠ [] ∧ ∀ c ∈ J.fmt v, isFlt c = true
  nOps : g.ops.length < 2 ^ 31
  nodes : ∀ n ∈ g.nodes, n.JsonOk g
  nDeps : g.deps.length < 2 ^ 31
  deps : ∀ d ∈ g.deps, d < 2 ^ 31

end CppAD.Graph
