# Formal model of CppAD in Lean 4 — design

## What is here

* `properties.jsonl` — the properties (generated by `tools/props.py`).
* `lean/Verif/**` — the model (files `Model*.lean` or the head of a file), the
  specifications (`Spec*`), helper lemmas and the property theorems (`Props*.lean`
  or the section marked *Property theorems*).
* `MANIFEST.json` — which theorem proves which property and how far.
* `seeded/LOG.jsonl` — mutation tests of the theorems.

## Modelling conventions

* Each C++ function is modelled by a total Lean function returning the new state.
  A C++ loop becomes a fold (`forRange lo hi s body`), structural recursion or a fuel
  recursion with a proof that the fuel suffices.
* `size_t` is `ℕ` (no wrap-around) unless the property concerns machine words
  (`pack_setvec`, `vectorBool`), where the word size is a parameter.
* A violated `CPPAD_ASSERT`/out-of-range access is a distinct outcome (`none`/error)
  where the property is about memory or assertion safety; otherwise the theorem carries the
  documented precondition as an explicit hypothesis, with a witness beside it.
* For derivative properties `Base = ℝ` (exact arithmetic, Mathlib's `Real.exp`, ...).
  Floating point rounding, NaN and infinities are not modelled there.
  For recording / optimisation / graph properties `Base` is an arbitrary type with
  the algebraic laws listed as explicit class fields.
* Taylor coefficient storage `taylor[ i * J + k ]` is modelled as a function
  `ℕ → ℕ → ℝ` (variable, order); the flat layout is the subject of C29.

## Plan per property

| id | model | proof |
|----|-------|-------|
| C01 | every `*_forward_op` of `local/var_op`, the operator sequence, `sweep/forward_any` | Spec: `iteratedDeriv k (F ∘ X) 0 / k!`. Taylor map `T` to power series is a ring homomorphism commuting with `d/dt`; each operator's loop is shown to solve the coefficient form of the operator's differential equation; induction over the tape |
| C02 | every `*_reverse_op`, `sweep/reverse`, seeding in `core/reverse.hpp` | adjoint pairing `Σ partial·δ` is invariant under each operator's reverse loop where `δ` is the derivative of the coefficients along a perturbation; spec is `HasDerivAt` of `W` |
| C03 | the `w.size()==m` path of `ADFun::Reverse` | C02 + symmetry of mixed partials: `∂y^(k+s)/∂x^(s) = ∂y^(k)/∂x^(0)` |
| C04 | `ADFun::Forward(q,xq)` with several orders | each operator's loop is determined by its recurrence: induction over orders and tape |
| C05 | every `*_forward_op_dir`, `sweep/forward_dir` | each direction's row satisfies the same recurrence |
| C06 | `AD` operators and functions with their parameter shortcuts, VecAD, calls of atomic functions, recorder, `Dependent`, `forward_0` | simulation: recorder state evaluated at `x'` equals direct execution |
| C07 | `dyn_recorder`, `sweep/dynamic`, `new_dynamic` | same simulation with dynamic parameters |
| C08 | `tape_manage`, tape ids, `Variable/Constant/Dynamic` tests | invariant over all call histories: ids of live tapes fresh |
| C09 | `put_con_par` with hash table | invariant: table entries in range; every returned index holds an identical value |
| C10 | `comp_eq`.. recording and `compare` counting in `forward_0` | count = number of recorded comparisons which now differ; branch replay |
| C11 | `cond_exp` recording and `cexp_op` | value, Taylor and reverse of selected branch |
| C12 | `VecAD`, `load_op`, `store_op` | refinement to array semantics |
| C13 | optimizer: usage, previous-op matching, renumbering, csum | semantics preservation by simulation |
| C14 | `cskip` | skipped operations not reachable from any dependent under the active branch |
| C15,C16,C17 | sparsity sweeps for every operator | derivative is zero outside the computed pattern, induction over tape |
| C18,C19 | the coloring loops | loop invariants |
| C20,C21 | `sparse_jac_for/rev`, `sparse_hes` compression loops | from C18/C19 and linearity |
| C22–C25 | `pack_setvec`, `list_setvec`, `svec_setvec` | refinement to `ℕ → Finset ℕ`; heap invariant (SetVec/). `svec_setvec` (Svec*.lean): the array `data_` with an ownership map of its cells, compaction included; `process_post` sorts a copy of the posts (raw pointers into `data_` kept across `extend` are not modelled) |
| C26,C27 | `index_sort`, `sparse_rc` | permutation + sortedness |
| C28 | `thread_alloc` | state machine invariant over all histories |
| C29 | `capacity_order`, size bookkeeping | state machine refinement |
| C30 | `val_graph` passes | semantics preservation |
| C31 | `to_graph`/`from_graph`, JSON writer and lexer | round trip |
| C32,C33 | `vectorBool`, `vector` | refinement to lists |
| C34,C35 | `pow_int`, `Poly`, `LuFactor`, `LuInvert`, `LuSolve` | algebra over any field |
| C36 | driver loops | from the Forward/Reverse specification |
| C37,C38 | `subgraph` | reachability; reverse restricted to reachable set |
| C39 | `azmul` over the reals; the reverse operators over an arbitrary `Base` (Taylor/Gen*.lean, linked to the real model by `GOp.rev_real`) | algebra; induction on the recording with the laws of zero only |
| C40 | `ErrorHandler` | stack discipline |
| C41 | `subgraph_jac_rev` | merge loop invariants, from C37 and C38 |
| C42 | `chkpoint_two` | the checkpoint object is an instance of the atomic function contract for every state of the inner object (from C01, C02, C15–C17); replacing the call by the inner operations is a renaming simulation |
| C43 | calls of atomic functions in every sweep | one more operator in C01–C05, C15–C17, with the contract as hypothesis |
| C44 | `abs_normal_fun` on the stored codes and arguments | simulation: the new recording with any `u` against the evaluation with replaced absolute values |
| C45 | `ForSparseJac`, `RevSparseJac`, `RevSparseHes`, `ForSparseHes`, `SparseJacobian*`, `SparseHessian` | reading and writing of the vectors of bool and sets is related to the sets of C15–C17; the compression loops as in C20, C21; the pattern of `RevSparseHes` is shown to be symmetric |
| C46 | `recorder::PutOp/PutArg/ReserveArg/ReplaceArg/PutTxt`, `const_sequential_iterator`, `random_setup`, `const_random_iterator`, `NumArg`/`NumRes`, layout of `CSumOp`, `CSkipOp` | the recorded arrays are the concatenation of what was put; the iterator position is an invariant of every walk of `++`, `--`, `correct_before_increment`, `correct_after_decrement` |
| C47 | `RombergOne`, `RombergMul` (`IntegrateLast`, `SliceLast`) over the reals, with the conversions to `int` | loop invariants give Richardson extrapolation of trapezoidal rules; Faulhaber's formula gives exactness on polynomials; Taylor's theorem on blocks gives the order; nested rules are finite weighted sums |
| C48 | `OdeErrControl` over the reals with nan; the method is any function of the previous calls and its arguments | ghost list of calls; invariant of the `while` loop; a measure bounds the number of calls by step sizes that shrink by 3/4 |
| C49 | `OdeGear` (with `LuFactor`, `LuInvert` from C35) and `OdeGearControl` | the weights are derivatives of Lagrange basis polynomials; ghost list of calls, invariant of the `while` loop |
| C50 | `fun2val` and `val2fun` between `OTape` (C13) and `VTape` (C30), a failed index lookup is `none`; `optimizeVal` composes them with the passes of C30 | invariants of the two conversion loops: the values of the new representation are those of the old one; only the constant nan is nan |
| C51 | the model of C08 (identifier table, one tape per thread, AD objects at addresses); a schedule is a list of calls with their threads | simulation between the schedule and every thread alone: same tape, same identifier, same objects of that thread |
| C52 | `det_of_minor` with the linked lists r and c changed in place, `det_by_minor` objects, `det_by_lu` on the LU model of C35 | induction on n: the loop computes the Laplace expansion along the first row and restores r and c |
| C53 | abstract syntax of the C function that `csrc_writer` writes (names of functions and operators are text), a semantics of that C code with undefined behaviour, `to_csrc` on recordings through `to_graph` of C31, atomic callbacks | induction on the operators: after each statement the local array contains the values of the nodes; counterexample for sums with one term |
| C54 | the callbacks of `example/atomic_four/vector` and `example/atomic_four/mat_mul` loop by loop, on flat arrays `x[j * q + k]`; the contract of C43, one proposition per callback | loops as sums; Taylor series as formal power series; the adjoint of the division recursion by transposing a triangular system; counterexamples for the four defects |
| C55 | `opt_val_hes` and `BenderQuad` on top of the drivers of C36 and LuSolve of C35; sizes of vectors are checked at every write | Taylor recordings to Fréchet derivatives (partials along lines); first derivative of the optimal value by the envelope theorem in a neighbourhood, differentiate it and the critical point equation; the Newton step is the inverse of the partial of H by dimension counting; counterexamples for n ≠ m |
| C56 | the callback object of `ipopt::solve`: constructor (patterns in groups of columns, index lists), cached point, every evaluation, structures, `finalize_solution` | invariant over all histories of legal calls (Taylor coefficients of order zero are at the current point, work vectors are good for the pattern); group-wise patterns by C45 and the symmetric relation of `Sparsity/Symm`; counterexample with an atomic call for every group size |
| C57 | `AbsOpt/Model.lean`: `simplex_method` (Tableau, both phases, every assertion) and `lp_box` | invariant of the iterations: a basis exists, the equations have the same solutions as the initial ones, and the two objective rows are the cost and the sum of the auxiliary variables. Defect (degenerate first phase) in `AbsOpt/Example.lean`. |
| C58 | `AbsOpt/QpModel.lean`: `qp_interior` (all helper functions, line search, iterations) and `qp_box` | invariant of the iterations: `y, s > 0` and `F` is the residual at the current point; duality argument for the cost; the Newton system is solved by elimination (uses `luSolve_real`, C35). |
| C59 | `AbsOpt/EvalModel.lean`: `abs_eval`, `abs_min_linear` (the solver for linear programs is a parameter, instantiated with the model of `lp_box`) and `min_nso_linear` (the values of `g`, `a` and the Jacobian are functions) | `abs_eval` by a loop invariant; the second order error by induction on the absolute values with the Taylor theorem for recorded functions (uses C44); cutting planes are minorants by convexity at nearby points where all signs are fixed; invariants of the iterations. Three defects are theorems. |
| C60 | `Record/Atan2.lean`: the AD operations of `atan2` as instructions of the Record model | the values by running the instructions; the angle by the uniqueness of polar coordinates; which objects are constants by an abstract interpretation of the recording; the recording with one constant argument equals that of an algorithm whose last conditional expressions are constants |
| C61 | `PrintFor`, `PutTxt`, PriOp in forward_0 and forward_any (`Record/Model.lean`, `Record/Print.lean`) | the list of what is printed is part of the invariant of the recorder (next to the comparisons); text is only appended and each string is terminated; the sweep prints this list at every argument |
| C62 | `AtomEx/InvModel.lean`, `AtomEx/CholModel.lean`: the objects with `f_arg_`, `f_result_`, `r_arg_`, `r_result_`, unpacking, the recursions over the orders, packing | Taylor coefficients of matrix curves (`AtomEx/MatCalc.lean`), the factor is unique and smooth by a formula for it (`AtomEx/MatChol.lean`), derivatives of all weighted sums by induction over the orders from the highest; positive definite matrices have a factor by LDL (`CholPos`); histories of calls as inductive predicates |
| C63 | `Chkpoint/OneModel.lean`: the `checkpoint` object with its function and four cached patterns, forward, reverse, the three sparsity calculations in both pattern types | the invariant of `Chkpoint/OneHist.lean` (what each cache covers, whether it is a dependency pattern) over an inductive predicate for all histories of calls; patterns from C45, values from C01, C02 |
| C64 | `Util/Pod.lean`: pod_vector and pod_vector_maybe over the memory model of C33, with the construction and destruction of elements that are not plain old data | an invariant over all histories: each block is owned by one vector, objects are everywhere in the capacity; the effect of each operation on the sequences |
| C65 | `Util/LuRatio.lean`: LuRatio with elements that are functions of the evaluation point | the choices at the recording point are those of LuFactor (C35); for every other point an invariant conditional on nonzero pivots, with the Schur complements as specification of the sub-matrices |
| C66 | `Speed/*`: sparse_jac_fun, sparse_hes_fun, mat_sum_sq, the gradient in ode_evaluate | the loops add for each entry; derivatives of the sum of exponentials; the solution of the differential equation is unique |
| C67 | `Ode/Runge45`: Runge45, polymorphic in the scalar; `Rk*`: expansions modulo powers of h | expansion of G along a curve to fourth order, series in 17 elementary differentials, order conditions as polynomial identities in the step number, Picard iteration for the exact solution; absorbing NaN for the second sentence |
| C68 | `Ode/Rosen34`: Rosen34, polymorphic in the scalar, with the model of LuFactor and LuInvert (C35) | autonomous form (the constants ct, a are the time components of the stages), series of the solutions of the linear equations, order conditions as polynomial identities in the step number; invariant of the loops for nan |
| C69 | `Util/NearEqual`: near_equal_isfinite and the four NearEqual functions over real numbers with two infinities and not a number | cases of the arguments; the value for all real arguments (`nearEqual_iff`), which shows the defect for an infinite second argument |
| C70 | `Optimize/NumSkip`: number_skip over the sweep of `Optimize/Model`, with the table NumRes | log of the executed operators as specification; induction over the sequence with monotonicity and a frame for `cskip_op` |

The status of each property is in `MANIFEST.json`.

## Modules, and what is modelled

`T` = theorem modules; all line citations are in the definitions.

| modules | code modelled | simplifications |
|---|---|---|
| `Taylor/Model*`, `Op`, `Tape`, `FunModel` | every unary and binary operator of `local/var_op` (forward 0, forward any, forward dir, reverse), CSumOp, CExpOp, DisOp, ParOp, calls of atomic functions (AFunOp ... AFunOp, `ModelAtom.lean`, from `local/sweep/call_atomic.hpp`); sweeps forward_0, forward_any, forward_dir, reverse; `ADFun::Forward` (both forms), `Reverse`, `capacity_order`, with the flat Taylor buffer and its reallocation | `Base = ℝ`; the callbacks of an atomic function are assumed to satisfy the documented contract (structure `Atom`); not: PriOp, CSkipOp (in `Optimize`), the `check_for_nan` output |
| `Chkpoint/*` | `core/chkpoint_two`: constructor, forward, reverse, for_type, rev_depend, jac_sparsity, hes_sparsity, and the recording of a call (`core/atomic/three/afun.hpp`) | versions with `AD<Base>` arguments (base2ad) not modelled |
| `Taylor/Gen*` | the reverse operators and the reverse sweep over an arbitrary `Base` | calls of atomic functions not included; only the laws of `RevLaws` are assumed of `Base` |
| `Taylor/Drivers*` | Jacobian, Hessian, ForOne, RevOne, ForTwo, RevTwo, SparseJacobian-like use | arguments of the right size |
| `Record/*` | `AD<Base>` arithmetic, compound assignment, unary and discrete functions, CondExp, comparisons (all with their parameter shortcuts), `VecAD` (create, index, load, store), `Independent`, `Dependent`, constant hash table, `new_dynamic`, the dynamic sweep, compare_change, load and store in the sweeps; calls of atomic functions (`core/atomic/four/call.hpp`, `put_dyn_atomic`, `put_var_atomic`, atom_dyn in the dynamic sweep; `AtomOk.lean`); tape ids and threads (`Threads.lean`); PrintFor (`Print.lean`) | real arithmetic; the results of an atomic call are a new vector (not the argument vector); the arguments of atom_dyn are repeated for each result; a program is a finite tree of instructions and branches (a terminating run of any C++ algorithm is such a path); an index out of range, which stops the C++ program, reads zero |
| `Optimize/*` | `local/optimize`: get_op_usage, get_op_previous (match_op), get_par_usage, csum stacks, record_csum, record_pv/vp/vv, cexp skipping (get_cexp_info, CSkipOp in forward_0), renumbering, vecad copying, dynamic parameters (including atom_dyn and result_dyn), calls of atomic functions (rev_depend, removal of arguments and results that are not used, skipping of whole calls) | a call is one `afun` operator followed by its results; an atomic function is what its zero order forward and rev_depend callbacks do, with the contract of rev_depend as a field (`AtomF`); PriOp not modelled; `std::stack`, `std::sort` by lists and a parameter; hash functions arbitrary |
| `Graph/*` | `core/graph/to_graph.hpp`, `from_graph.hpp`, `cpp_graph.hpp` (fields), the iterator `local/graph/cpp_graph_itr.hpp`; `cppad_lib/json_writer.cpp`, `json_lexer.cpp`, `json_parser.cpp`, `cpp_graph_op.cpp` (modules `Json*`) | conversion of floating point numbers to and from text is a parameter; CSkipOp, VecAD operators and atomic functions not included; printing has no effect in the model |
| `Sparsity/*` | sparsity sweeps for_jac, rev_jac, for_hes, rev_hes for every operator of `Op` including calls of atomic functions (`atomic_four` jac_sparsity and hes_sparsity), and the functions that call them (`core/for_jac_sparsity.hpp`, `rev_jac_sparsity`, `for_hes_sparsity`, `rev_hes_sparsity`) | a vector of sets is `ℕ → Finset ℕ` (justified by C22, C23); VecAD loads and stores are in `VecModel`, `VecJac`, `VecHes`, `VecThm` (on the operators of `Record`, so without atomic calls); the sparsity callbacks of the older atomic_two/three interfaces not included |
| `AbsNormal/*` | `core/abs_normal_fun.hpp` on operator codes and the argument vector | VecAD, PriOp, atomic calls, CSumOp, CSkipOp not included |
| `Legacy/*` | `core/for_sparse_jac.hpp`, `rev_sparse_jac.hpp`, `rev_sparse_hes.hpp`, `for_sparse_hes.hpp`, `sparse_jacobian.hpp`, `sparse_hessian.hpp`, `sparsity_user2internal` | ColPack colorings; assertions on sizes; the one-direction loop for CPPAD_SPARSE_JACOBIAN_MAX_MULTIPLE_DIRECTION = 1 |
| `Play/*` | `local/record/recorder.hpp`, `local/play/sequential_iterator.hpp`, `random_setup.hpp`, `random_iterator.hpp`, `op_code_var.hpp`, the argument layouts written by `record_csum.hpp` and `optimize_run.hpp` | subgraph iterator (C37, C38); overflow of addr_t |
| `Romberg/*` | `utility/romberg_one.hpp`, `utility/romberg_mul.hpp` | real arithmetic; `int` has 32 bits and wraps; evaluation order left to right |
| `Ode/*` | `utility/ode_err_control.hpp`, `utility/ode_gear.hpp`, `utility/ode_gear_control.hpp` | real arithmetic (`nan` is a separate value, infinities are not modelled) |
| `Color/*` | `color_general` (cppad and colpack free), `color_symmetric`, `sparse_jac_for/rev`, `sparse_hes`, their use of Forward and Reverse | exact arithmetic |
| `SetVec/*` | `pack_setvec`, `list_setvec`, `svec_setvec` (all member functions, word level for pack, free list of cells for list, garbage collected index vector for svec) | memory of vectors is a list |
| `Subgraph/*` | `subgraph_info`, `get_rev`, entire call, subgraph_sparsity, subgraph_reverse, subgraph_jac_rev | a call of an atomic function is one operator of the subgraph (the `entire_call` case) |
| `ValGraph/*` | `local/val_graph`: tape, eval, renumber, rev_depend, dead_code, fold_con, summation, compress | values `Option ℝ` with nan; fun2val and val2fun without VecAD, atomic functions and PrintFor |
| `Util/*` | `vector`, `vectorBool`, `thread_alloc`, `index_sort`, `sparse_rc`, `pow_int`, `Poly`, `LuFactor/Invert/Solve`, `ErrorHandler` | `std::sort` has its standard contract; the system allocator returns memory that is not in use |

## Specifications

The statements use: `iteratedDeriv`, `HasDerivAt` (C01–C05, C20, C21, C36), direct execution of a program on real numbers
(`Prog.run`, `Prog.follow`, C06–C12), evaluation of an operation sequence (`Tape.eval`, `OTape.eval`, C13, C14, C30), finite sets
and lists (C18, C19, C22–C27, C32, C33), histories of API calls given as inductive predicates (`Reach`, `Session.Hist`,
`Reachable`, C05, C07, C08, C28, C29, C40).

## Defects of the code that are theorems

The names end in `_wrong` or are in modules `Wrong.lean`: number_elements of pack_setvec, growth and compaction of the posted elements of svec_setvec, reverse mode of pow(x, parameter) at zero, operator== of sparse_rc, for_hes sweep of
CExpOp and ZmulpvOp, duplicates in rev_hes_sparsity, rev_hes_sparsity of an atomic function with an empty forward Jacobian row, CondExp with constant operands (hence atan2 with one constant argument), pow(0, y), self assignment of vector,
argument check of thread_alloc, subgraph_jac_rev, dead_code / compress / renumber / summation of val_graph, optimize (stores of
parameters, conditional skip of stored values, dynamic parameters in CSumOp), Hessian sparsity of chkpoint_two, abs_normal_fun with erf and its Parameter flags, RombergOne with p = n or p = 16, the assertion in RombergMul, optimize with val_graph for products of dynamic parameters, azmul, comparisons with constants and cancelling sums.  The positive theorems carry the hypothesis that excludes
exactly these cases and have the suffix `_partial`.

## Trusted base

* `size_t` arithmetic does not overflow; exceptions from memory exhaustion do not occur.
* Real numbers replace IEEE arithmetic: rounding, signed zero, infinity and (except in `ValGraph` and `Taylor/Gen*`) nan are outside the model.
* Pointers and references are modelled by positions in lists or functions; aliasing is modelled where the code permits it
  (self assignment of `vector`, `x op= x`).
* An atomic function given by the user is a structure `Atom` (`Taylor/ModelAtom.lean`) whose fields are the documented contract of its
  callbacks: forward gives the Taylor coefficients of one smooth function, reverse its adjoint, the sparsity callbacks cover the
  derivatives. `Sparsity/AtomWrong.lean` contains an instance.
* Lean 4.33.0 kernel; axioms `propext`, `Classical.choice`, `Quot.sound` only.
* Mathlib definitions used in statements: `ℝ`, `Real.exp`, ..., `iteratedDeriv`, `HasDerivAt`, `Finset`, `List`.
* The reading of `/repo`: every definition of the model cites the lines it models.
