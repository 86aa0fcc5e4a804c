import Verif.Record.Model

/-! # Algorithms written with AD objects

An algorithm is a tree: instructions that create or change AD objects and VecAD vectors in a growing store, two way branches on
comparisons, and leaves that return the dependent variables.  (Loops are unrolled: for each input a terminating
algorithm is such a tree.)

*Specification*: `Prog.run` executes the algorithm directly on real numbers.  `Prog.follow` executes the
operation sequence selected by a given list of comparison outcomes.  `Prog.record` executes it on AD
objects while recording. -/

open scoped Classical

namespace CppAD.Record

open CppAD

/-- instructions; natural numbers are positions of objects in the store.  `k` is the position of a VecAD vector.
`vnew d`: a new vector with elements `d`.  `vset k i v`, `vget k i`: access to a constant vector with a size_t index `i`.
`touch k i`: the expression `V[x_i]` alone.  `vload k i`: a new object equal to `V[x_i]`.  `vstore k i j`: `V[x_i] = x_j`.
`atom F args`: a call of the atomic function `F`, the `F.A.m` results are new objects.
`print i before j after`: `PrintFor(x_i, before, x_j, after)`. -/
inductive Instr
  | con (c : ℝ)
  | un (f : UnF) (i : ℕ)
  | bin (f : BinF) (i j : ℕ)
  | opEq (f : EqF) (i j : ℕ)
  | dis (k i : ℕ)
  | cexp (cop : CompareOp) (l r t f : ℕ)
  | assign (i j : ℕ)
  | vnew (d : List ℝ)
  | vset (k i : ℕ) (v : ℝ)
  | vget (k i : ℕ)
  | touch (k i : ℕ)
  | vload (k i : ℕ)
  | vstore (k i j : ℕ)
  | atom (F : RAtom) (args : List ℕ)
  | print (i : ℕ) (before : List Char) (j : ℕ) (after : List Char)

/-- algorithms -/
inductive Prog
  | ret (ys : List ℕ)
  | instr (i : Instr) (next : Prog)
  | branch (cop : CompareOp) (i j : ℕ) (yes no : Prog)

/-! ## Direct execution on Base values (specification) -/

/-- *Specification*: a store of real numbers and of vectors of real numbers -/
structure Vals where
  m : List ℝ
  vs : List (List ℝ) := []

/-- *Specification*: effect of an instruction on a store `s` of real numbers.  The elements of vectors that are loaded and stored are selected by the
store `z`; direct execution has `z = s`.  When the index of a vector element is not in range the C++ program stops
with an error message; here it reads zero and stores nothing. -/
noncomputable def Instr.run (disc : ℕ → ℝ → ℝ) (z s : Vals) : Instr → Vals
  | .con c => { s with m := s.m ++ [c] }
  | .un f i => { s with m := s.m ++ [f.fn (at' s.m i)] }
  | .bin f i j => { s with m := s.m ++ [f.fn (at' s.m i) (at' s.m j)] }
  | .opEq f i j => { s with m := s.m.set i (f.bin.fn (at' s.m i) (at' s.m j)) }
  | .dis k i => { s with m := s.m ++ [disc k (at' s.m i)] }
  | .cexp cop l r t f => { s with m := s.m ++ [condExp cop (at' s.m l) (at' s.m r) (at' s.m t) (at' s.m f)] }
  | .assign i j => { s with m := s.m.set i (at' s.m j) }
  | .vnew d => { s with vs := s.vs ++ [d] }
  | .vset k i v => { s with vs := s.vs.set k ((s.vs.getD k []).set i v) }
  | .vget k i => { s with m := s.m ++ [at' (s.vs.getD k []) i] }
  | .touch _ _ => s
  | .vload k i => { s with m := s.m ++ [vecGet (s.vs.getD k []) (at' z.m i)] }
  | .vstore k i j => { s with vs := s.vs.set k (vecSet (s.vs.getD k []) (at' z.m i) (at' s.m j)) }
  | .atom F args => { s with m := s.m ++ (List.range F.A.m).map fun i => F.A.fn (fun j => at' s.m (args.getD j 0)) i }
  | .print _ _ _ _ => s

/-- *Specification*: the documented output of `PrintFor(notpos, before, value, after)`: `before`, `value` and `after` are printed if and only
if `notpos` is not greater than zero -/
noncomputable def Instr.prints (s : Vals) : Instr → List Printed
  | .print i before j after => if 0 < at' s.m i then [] else [(cstr before, at' s.m j, cstr after)]
  | _ => []

/-- *Specification*: the vector element that an instruction loads or stores -/
noncomputable def Instr.access (s : Vals) : Instr → List (Option ℕ)
  | .vload k i => [vecIndex (s.vs.getD k []).length (at' s.m i)]
  | .vstore k i _ => [vecIndex (s.vs.getD k []).length (at' s.m i)]
  | _ => []

/-- *Specification*: direct execution of the algorithm -/
noncomputable def Prog.run (disc : ℕ → ℝ → ℝ) : Prog → Vals → List ℝ
  | .ret ys, s => ys.map (at' s.m)
  | .instr i k, s => k.run disc (i.run disc s s)
  | .branch cop i j yes no, s =>
    if cop.holds (at' s.m i) (at' s.m j) then yes.run disc s else no.run disc s

/-- *Specification*: the output of the direct execution of the algorithm -/
noncomputable def Prog.runPrints (disc : ℕ → ℝ → ℝ) : Prog → Vals → List Printed
  | .ret _, _ => []
  | .instr i k, s => i.prints s ++ k.runPrints disc (i.run disc s s)
  | .branch cop i j yes no, s =>
    if cop.holds (at' s.m i) (at' s.m j) then yes.runPrints disc s else no.runPrints disc s

/-- *Specification*: direct execution, starting at the store `s`, of the operation sequence selected by the outcomes `bs`.  The vector elements that are loaded and
stored are those of the direct execution (of the same sequence) that starts at `z`; usually `z = s`. -/
noncomputable def Prog.follow (disc : ℕ → ℝ → ℝ) : Prog → List Bool → Vals → Vals → List ℝ
  | .ret ys, _, _, s => ys.map (at' s.m)
  | .instr i k, bs, z, s => k.follow disc bs (i.run disc z z) (i.run disc z s)
  | .branch _ _ _ yes no, bs, z, s =>
    if bs.headD true then yes.follow disc bs.tail z s else no.follow disc bs.tail z s

/-- *Specification*: outcomes of the comparisons met when the operation sequence selected by `bs` is executed, see `follow` -/
noncomputable def Prog.outcomes (disc : ℕ → ℝ → ℝ) : Prog → List Bool → Vals → Vals → List Bool
  | .ret _, _, _, _ => []
  | .instr i k, bs, z, s => k.outcomes disc bs (i.run disc z z) (i.run disc z s)
  | .branch cop i j yes no, bs, z, s =>
    decide (cop.holds (at' s.m i) (at' s.m j)) ::
      (if bs.headD true then yes.outcomes disc bs.tail z s else no.outcomes disc bs.tail z s)

/-- *Specification*: the output when the operation sequence selected by `bs` is executed, see `follow` -/
noncomputable def Prog.prints (disc : ℕ → ℝ → ℝ) : Prog → List Bool → Vals → Vals → List Printed
  | .ret _, _, _, _ => []
  | .instr i k, bs, z, s => i.prints s ++ k.prints disc bs (i.run disc z z) (i.run disc z s)
  | .branch _ _ _ yes no, bs, z, s =>
    if bs.headD true then yes.prints disc bs.tail z s else no.prints disc bs.tail z s

/-- *Specification*: the vector elements that are loaded or stored, in order, when the operation sequence selected by `bs` is executed -/
noncomputable def Prog.accesses (disc : ℕ → ℝ → ℝ) : Prog → List Bool → Vals → List (Option ℕ)
  | .ret _, _, _ => []
  | .instr i k, bs, s => i.access s ++ k.accesses disc bs (i.run disc s s)
  | .branch _ _ _ yes no, bs, s =>
    if bs.headD true then yes.accesses disc bs.tail s else no.accesses disc bs.tail s

/-! ## Execution on AD objects while recording -/

/-- read an object of the store -/
def reg (m : List AD) (i : ℕ) : AD := m.getD i (AD.con 0)

/-- AD objects and VecAD vectors -/
structure Objs where
  m : List AD
  vs : List VecAD

/-- a vector of the store -/
def vreg (vs : List VecAD) (k : ℕ) : VecAD := vs.getD k (VecAD.con [])

/-- effect of an instruction on the recorder and the store of AD objects -/
noncomputable def Instr.record (c : Cfg) (r : Rec) (s : Objs) : Instr → Rec × Objs
  | .con v => (r, { s with m := s.m ++ [AD.con v] })
  | .un f i => let d := unAD r f (reg s.m i); (d.1, { s with m := s.m ++ [d.2] })
  | .bin f i j => let d := binAD c r f (reg s.m i) (reg s.m j); (d.1, { s with m := s.m ++ [d.2] })
  | .opEq f i j => let d := eqAD c r f (reg s.m i) (reg s.m j); (d.1, { s with m := s.m.set i d.2 })
  | .dis k i => let d := disAD c r k (reg s.m i); (d.1, { s with m := s.m ++ [d.2] })
  | .cexp cop l rt t f =>
    let d := cexpAD c r cop (reg s.m l) (reg s.m rt) (reg s.m t) (reg s.m f); (d.1, { s with m := s.m ++ [d.2] })
  | .assign i j => (r, { s with m := s.m.set i (reg s.m j) })
  | .vnew d => (r, { s with vs := s.vs ++ [VecAD.con d] })
  | .vset k i v => (r, { s with vs := s.vs.set k { vreg s.vs k with data := (vreg s.vs k).data.set i v } })
  | .vget k i => (r, { s with m := s.m ++ [AD.con (at' (vreg s.vs k).data i)] })
  | .touch k i => let d := (vreg s.vs k).index c r (reg s.m i); (d.1, { s with vs := s.vs.set k d.2 })
  | .vload k i =>
    let d := (vreg s.vs k).index c r (reg s.m i)
    let e := d.2.load c d.1 (reg s.m i)
    (e.1, { m := s.m ++ [e.2], vs := s.vs.set k d.2 })
  | .vstore k i j =>
    let d := (vreg s.vs k).index c r (reg s.m i)
    let e := d.2.store c d.1 (reg s.m i) (reg s.m j)
    (e.1, { s with vs := s.vs.set k e.2 })
  | .atom F args =>
    let d := atomAD c r F ((List.range F.A.n).map fun j => reg s.m (args.getD j 0))
    (d.1, { s with m := s.m ++ d.2 })
  | .print i before j after => (printFor c r (reg s.m i) before (reg s.m j) after, s)

/-- The result of recording an algorithm: recorder, `dep_taddr_`, the outcomes of the comparisons, and for each
of them the index of the recorded operator (if there is one). -/
structure Recorded where
  r : Rec
  dep : List ℕ
  outcomes : List Bool
  marks : List (Option ℕ)

/-- recording an algorithm -/
noncomputable def Prog.record (c : Cfg) : Prog → Rec → Objs → Recorded
  | .ret ys, r, m => let d := r.dependents c (ys.map (reg m.m)); ⟨d.1, d.2, [], []⟩
  | .instr i k, r, m => let d := i.record c r m; k.record c d.1 d.2
  | .branch cop i j yes no, r, m =>
    let d := compareAD c r cop (reg m.m i) (reg m.m j)
    let e := if d.2.1 then yes.record c d.1 m else no.record c d.1 m
    ⟨e.r, e.dep, d.2.1 :: e.outcomes, d.2.2 :: e.marks⟩

/-! ## The API: Independent, algorithm, ADFun f(x, y) -/

/-- A recording session: objects that existed before, the tape identifier, whether comparisons are recorded, and the values
of the independent variables and dynamic parameters. -/
structure Session where
  cfg : Cfg
  nan : ℝ
  id : ℕ
  recordCompare : Bool
  old : List AD
  x : List ℝ
  p : List ℝ
  oldVecs : List VecAD := []

/-- The session is one that can happen: tape identifiers are not zero, and the objects in `old` and `oldVecs` are
not on the new tape (property C08), there is at least one independent variable. -/
structure Session.Ok (s : Session) : Prop where
  id_pos : 0 < s.id
  old_id : ∀ a ∈ s.old, a.tapeId ≠ s.id
  x_pos : s.x ≠ []
  oldVecs_id : ∀ V ∈ s.oldVecs, V.tapeId ≠ s.id

/-- store of real numbers for the direct execution at `x`, `p`: old values, then `x`, then `p` -/
def Session.store (s : Session) (x p : List ℝ) : Vals :=
  { m := s.old.map AD.value ++ x ++ p, vs := s.oldVecs.map VecAD.data }

/-- the recorded algorithm -/
noncomputable def Session.recorded (s : Session) (P : Prog) : Recorded :=
  let i := independent s.nan (s.cfg.hash s.nan) s.id s.recordCompare s.x s.p
  P.record s.cfg i.1 { m := s.old ++ i.2.1 ++ i.2.2, vs := s.oldVecs }

/-- the function object -/
noncomputable def Session.fun_ (s : Session) (P : Prog) : Fun :=
  (s.recorded P).r.toFun (s.recorded P).dep

/-! ## The cases in which the recording is not faithful

Two special cases in the code turn a result into a constant although it depends on variables or
dynamic parameters; see `condExp_constant_wrong` and `pow_zero_wrong`. -/

/-- the instruction does not meet one of the two defective special cases; access with size_t indices is only allowed (in the C++ code) for
constant vectors -/
def Instr.Faithful (r : Rec) (s : Objs) : Instr → Prop
  | .cexp _ l rt t f => r.constant (reg s.m l) → r.constant (reg s.m rt) → r.constant (reg s.m t) ∧ r.constant (reg s.m f)
  | .bin .pow i j => r.constant (reg s.m i) → (reg s.m i).value = 0 → r.constant (reg s.m j)
  | .vset k _ _ => r.varVec (vreg s.vs k) = false
  | .vget k _ => r.varVec (vreg s.vs k) = false
  | _ => True

/-- no instruction executed during the recording meets one of the two defective special cases: CondExp with constant
`left` and `right` but non constant branches, and `pow(0, y)` with constant zero and non constant `y` -/
def Prog.Faithful (c : Cfg) : Prog → Rec → Objs → Prop
  | .ret _, _, _ => True
  | .instr i k, r, m => i.Faithful r m ∧ let d := i.record c r m; k.Faithful c d.1 d.2
  | .branch cop i j yes no, r, m =>
    let d := compareAD c r cop (reg m.m i) (reg m.m j)
    if d.2.1 then yes.Faithful c d.1 m else no.Faithful c d.1 m

/-- see `Prog.Faithful` -/
def Session.Faithful (s : Session) (P : Prog) : Prop :=
  let i := independent s.nan (s.cfg.hash s.nan) s.id s.recordCompare s.x s.p
  P.Faithful s.cfg i.1 { m := s.old ++ i.2.1 ++ i.2.2, vs := s.oldVecs }

end CppAD.Record
