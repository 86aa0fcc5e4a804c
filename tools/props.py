#!/usr/bin/env python3
# Source of /verif/properties.jsonl (run from anywhere).  One entry per property.
import json, os
I="include/cppad/"
P=[]
def p(title, statement, quantifier, why, anchors):
    P.append(dict(id="C%02d"%(len(P)+1), title=title, statement=statement, quantifier=quantifier,
                  why_tests_cant=why, anchors=[I+a if not a.startswith('/') else a[1:] for a in anchors]))

p("Forward mode returns the Taylor coefficients of the composite function",
  "For an ADFun f recording F and Taylor coefficients x^(0..q) of the argument, f.Forward(q, xq) returns y^(k) = (1/k!) d^k/dt^k F(sum_j x^(j) t^j) at t=0 for every k <= q, for every operation sequence built from the elementary operators, at every point where each elementary operation is smooth.",
  "all operation sequences, all orders q, all argument coefficients in the smooth domain",
  "tests sample a few functions, points and low orders; the claim is about every composition at every order",
  ["core/forward/forward.hpp:ADFun::Forward","local/sweep/forward_any.hpp:forward_any","local/var_op/*_op.hpp:*_forward_any"])
p("Reverse mode returns the exact gradient of a weighted sum of Taylor coefficients",
  "f.Reverse(q, w) with w of size m*q returns dw with dw[j*q+k] = d W / d x_j^(k), where W = sum_i sum_k w[i*q+k] * y_i^(k) is viewed as a function of the argument Taylor coefficients.",
  "all operation sequences, all orders q, all weights, all points of the smooth domain",
  "each test checks one function at one point; an error in one partial of one operator at one order only shows for special graphs",
  ["core/reverse.hpp:ADFun::Reverse","local/sweep/reverse.hpp:reverse","local/var_op/*_op.hpp:*_reverse"])
p("Reverse with one weight per component returns derivatives of each lower order coefficient (reverse identity)",
  "f.Reverse(q, w) with w of size m returns dw with dw[j*q+k] = d (sum_i w[i] y_i^(k)) / d x_j^(0) for k = 0..q-1, although only the order q-1 weights are seeded.",
  "all operation sequences, orders, weights",
  "relies on a theorem about all Taylor recurrences (shift invariance); no finite sample establishes it",
  ["core/reverse.hpp:ADFun::Reverse"])
p("Forward orders computed one at a time equal orders computed together",
  "Calling f.Forward(0,x0), f.Forward(1,x1), ..., f.Forward(q,xq) one order at a time gives exactly the coefficients of the single call f.Forward(q, all orders), for every way of splitting.",
  "all operation sequences, orders and splits",
  "depends on every operator's recurrence only reading already computed orders",
  ["core/forward/forward.hpp:ADFun::Forward","local/sweep/forward_any.hpp:forward_any"])
p("Multiple direction forward mode equals independent single direction forward mode",
  "f.Forward(q, r, xq) gives, for each direction ell < r, the same order q coefficients as single direction Forward(q, .) applied to that direction's coefficients.",
  "all operation sequences, q, r, direction vectors",
  "interleaved storage index arithmetic and a second copy of every recurrence; tests use r <= 3 and low q",
  ["core/forward/forward.hpp:ADFun::Forward(q,r,xq)","local/sweep/forward_dir.hpp:forward_dir","local/var_op/*_op.hpp:*_forward_dir"])
p("A recording replays the algorithm that was recorded",
  "If an algorithm written with AD<Base> operators is executed between Independent(x) and ADFun f(x,y), then f.Forward(0, x') returns, for every x', the value obtained by executing the same operation sequence directly on Base values at x', including where constants 0 and 1 were simplified away during recording.",
  "all straight line programs, all recording points, all evaluation points",
  "the recorder chooses between many operator variants (vv, pv, vp, dynamic, identical zero/one); the number of programs is unbounded",
  ["core/add.hpp:operator+","core/sub.hpp:operator-","core/mul.hpp:operator*","core/div.hpp:operator/","local/record/recorder.hpp:recorder","core/dependent.hpp:ADFun::Dependent","local/sweep/forward_0.hpp:forward_0"])
p("Changing dynamic parameters is equivalent to re-recording with the new values",
  "After f.new_dynamic(p'), f.Forward(0,x') equals what is obtained by evaluating the recorded operation sequence with dynamic parameters p' and arguments x'.",
  "all programs mixing constants, dynamic parameters and variables; all p', x'",
  "the parameter graph is a second tape with its own evaluation order",
  ["core/new_dynamic.hpp:ADFun::new_dynamic","local/sweep/dynamic.hpp:dynamic","local/record/dyn_recorder.hpp:dyn_recorder"])
p("AD values of a finished recording are constants for every later recording",
  "After a recording stops (ADFun constructor, Dependent or abort_recording), every AD object that was a variable or dynamic parameter of it is treated as a constant parameter by all later recordings on any thread; no AD object is a variable of two recordings.",
  "all histories of Independent / Dependent / abort_recording on any number of threads",
  "needs tape identifiers never to be reused over arbitrarily long histories",
  ["core/tape_link.hpp:AD::tape_manage","core/independent/independent.hpp:Independent","core/abort_recording.hpp:abort_recording","core/con_dyn_var.hpp"])
p("Constant parameters are stored faithfully",
  "Every constant passed to the recorder is found again, identically equal, at the index returned for it, whatever hash collisions occur and however many parameters are stored.",
  "all sequences of recorded constants and dynamic parameters, all hash functions",
  "hash collisions and reuse depend on the history; tests do not produce adversarial collisions",
  ["local/record/dyn_recorder.hpp:put_con_par","local/hash_code.hpp"])
p("compare_change_number counts exactly the comparisons whose outcome changed",
  "After f.Forward(0,x'), compare_change_number() is the number of recorded comparisons whose result at x' differs from the recorded result, and compare_change_op_index() identifies the count-th of them; if it is zero then executing the original branching algorithm at x' takes the same branches.",
  "all programs with comparisons, all x', all counts",
  "branches are unbounded in number and order",
  ["core/compare.hpp","local/record/comp_op.hpp:comp_eq","local/var_op/compare_op.hpp","local/sweep/forward_0.hpp:forward_0","core/fun_check.hpp"])
p("Conditional expressions select by the values at evaluation time",
  "CondExpOp(left,right,if_true,if_false) recorded in f evaluates at every x' to the branch selected by comparing left and right at x', and its Taylor coefficients and reverse partials are those of the selected branch.",
  "all five comparison types, all argument kinds (constant, dynamic, variable), all points and orders",
  "the recorded branch and the evaluated branch may differ at every evaluation",
  ["core/cond_exp.hpp","local/record/cond_exp.hpp","local/var_op/cexp_op.hpp"])
p("VecAD element access follows array semantics",
  "A VecAD load at index i returns the value most recently stored at index i (or the initial value), at every evaluation point, for variable, dynamic and constant indices and values; derivatives flow to exactly the variable that was stored.",
  "all sequences of loads and stores, all index values",
  "which store a load sees depends on run time index values",
  ["core/vec_ad/vec_ad.hpp","local/var_op/load_op.hpp","local/var_op/store_op.hpp","local/record/put_var_vecad.hpp"])
p("Optimizing a recording does not change its function",
  "After f.optimize(options), f.Forward(0,x') returns the same dependent values as before for every x' and every dynamic parameter value.",
  "all recordings, options and points",
  "the optimizer rewrites arbitrary graphs: dead code, common subexpressions, cumulative sums, conditional skips",
  ["core/optimize.hpp:ADFun::optimize","local/optimize/optimize_run.hpp:optimize_run","local/optimize/get_op_usage.hpp","local/optimize/get_op_previous.hpp","local/optimize/match_op.hpp","local/optimize/record_csum.hpp"])
p("Conditional skip never skips an operation that influences a result",
  "Operations skipped by conditional skip during a zero order sweep do not influence any dependent variable at that point, so results with and without conditional_skip agree.",
  "all graphs and points",
  "depends on data-dependent skip sets",
  ["local/optimize/get_cexp_info.hpp","local/optimize/cexp_info.hpp","local/var_op/cskip_op.hpp"])
p("Forward Jacobian sparsity patterns are conservative",
  "f.for_jac_sparsity(R pattern) contains entry (i,j) whenever the (i,j) entry of F'(x) R is non-zero at any x; with dependency=true whenever the i-th result depends on the j-th direction at all.",
  "all operation sequences, seed patterns and evaluation points",
  "a missed entry gives a silently wrong sparse derivative and occurs only for particular graphs",
  ["core/for_jac_sparsity.hpp:ADFun::for_jac_sparsity","local/sweep/for_jac.hpp:for_jac"])
p("Reverse Jacobian sparsity patterns are conservative",
  "f.rev_jac_sparsity(R pattern) contains entry (i,j) whenever the (i,j) entry of R F'(x) is non-zero at any x.",
  "all operation sequences, seed patterns and evaluation points",
  "as for forward",
  ["core/rev_jac_sparsity.hpp:ADFun::rev_jac_sparsity","local/sweep/rev_jac.hpp:rev_jac"])
p("Hessian sparsity patterns are conservative",
  "The patterns returned by f.for_hes_sparsity(select_domain, select_range) and f.rev_hes_sparsity(select_range) contain (i,j) whenever the second partial (i,j) of sum_{k in select_range} y_k is non-zero at any x (restricted to the selected domain / multiplied by R).",
  "all operation sequences, selections and evaluation points",
  "second order interactions over arbitrary graphs",
  ["core/for_hes_sparsity.hpp","core/rev_hes_sparsity.hpp","local/sweep/for_hes.hpp:for_hes","local/sweep/rev_hes.hpp:rev_hes","local/var_op/one_var.hpp","local/var_op/two_var.hpp"])
p("General coloring never merges rows whose values collide",
  "For requested entries contained in the pattern, color_general_cppad colors every row that has a requested entry, and for each requested entry (r,c) no other row with the color of r is non-zero in column c; rows without requested entries get no color; the search for a color always terminates in range.",
  "all patterns, all requested subsets",
  "greedy algorithm on arbitrary sparse graphs",
  ["local/color_general.hpp:color_general_cppad"])
p("Symmetric coloring makes every requested entry recoverable directly or by reflection",
  "For a symmetric pattern, color_symmetric_cppad returns for every requested entry either the entry itself or its reflection, whose row is colored, and no other row with the same color is non-zero in its column.",
  "all symmetric patterns, all requested subsets",
  "greedy algorithm with destructive updates of the set of needed pairs",
  ["local/color_symmetric.hpp:color_symmetric_cppad","utility/index_sort.hpp:index_sort"])
p("sparse_jac_for and sparse_jac_rev return the exact requested Jacobian entries",
  "For any subset of a valid pattern, any group_max and either mode, subset.val()[k] equals dF_row[k]/dx_col[k] at x, and the return value is the number of sweeps (colors).",
  "all functions, patterns, subsets, group sizes, and reuse of the work object",
  "correctness of compression and recovery for all colorings",
  ["core/sparse_jac.hpp:ADFun::sparse_jac_for","core/sparse_jac.hpp:ADFun::sparse_jac_rev"])
p("sparse_hes returns the exact requested Hessian entries",
  "For a symmetric valid pattern and any subset, subset.val()[k] equals the (row[k],col[k]) second partial of w^T F at x, for the cppad.general and cppad.symmetric colorings.",
  "all functions, weights, patterns and subsets",
  "as for sparse_jac plus reflection bookkeeping",
  ["core/sparse_hes.hpp:ADFun::sparse_hes"])
p("Packed sets behave as a vector of finite sets",
  "Any sequence of resize, add/post element, process_post, clear, assignment, union and intersection on packed vectors of sets has the same membership, iteration and size results as the same operations on a vector of mathematical sets, for every word size and end value.",
  "all operation histories, all set counts, all end values",
  "bit arithmetic at word boundaries; tests use few sizes",
  ["local/sparse/pack_setvec.hpp:pack_setvec"])
p("Linked list sets behave as a vector of finite sets",
  "Any sequence of operations on the reference counted shared linked list representation has the same observable results as on a vector of mathematical sets: sharing is never observable, and iteration is strictly increasing and complete.",
  "all operation histories including self assignment and aliasing between target, left, right and other",
  "aliasing and reference count errors need particular histories",
  ["local/sparse/size_setvec.hpp:size_setvec","local/sparse/list_setvec.hpp"])
p("Linked list sets account for every cell",
  "After any operation history every allocated cell is either the sentinel, in exactly one live list, in exactly one posting list, or on the free list, and number_not_used is the length of the free list; so no cell is leaked or used twice.",
  "all operation histories",
  "memory accounting is a global invariant of the history",
  ["local/sparse/size_setvec.hpp:drop","local/sparse/size_setvec.hpp:get_data_index","local/sparse/size_setvec.hpp:check_data_structure"])
p("Sorted vector sets behave as a vector of finite sets",
  "Any sequence of operations on the reference counted sorted vector representation, including its garbage collection, has the same observable results as on a vector of mathematical sets.",
  "all operation histories",
  "garbage collection moves live data",
  ["local/sparse/svec_setvec.hpp:svec_setvec"])
p("index_sort returns a sorting permutation",
  "index_sort(keys, ind) sets ind to a permutation of 0..n-1 such that keys[ind[0]] <= keys[ind[1]] <= ...",
  "all key vectors",
  "all orders and ties",
  ["utility/index_sort.hpp:index_sort"])
p("sparse_rc row_major and col_major are sorting permutations and equality is order independent",
  "row_major() and col_major() return permutations that order the entries lexicographically; operator== holds exactly when the two patterns have the same size and the same entries up to order; set_row_major/set_col_major keep the set of entries.",
  "all patterns",
  "all orders, duplicates",
  ["utility/sparse_rc.hpp:sparse_rc"])
p("thread_alloc never hands out a block that is in use and accounts for every byte",
  "For any history of get_memory, return_memory, hold_memory and free_available over any number of threads, the returned block has at least min_bytes capacity, is not currently in use, and inuse(thread) and available(thread) equal the total capacity of the blocks in use by and held for that thread.",
  "all allocation histories, all sizes, all thread assignments, hold on or off",
  "history dependent free lists",
  ["utility/thread_alloc.hpp:thread_alloc"])
p("Forward order and capacity bookkeeping keeps stored coefficients",
  "capacity_order, Forward and Reverse keep size_order, size_direction and the stored coefficients consistent: for every call history, each call that is allowed reads exactly the coefficients produced by the latest Forward calls, for any capacity.",
  "all histories of Forward / Reverse / capacity_order calls",
  "index arithmetic for reallocation with changing capacity and direction count",
  ["core/capacity_order.hpp:ADFun::capacity_order","core/forward/forward.hpp","core/reverse.hpp"])
p("Value graph tapes: optimization passes preserve the function",
  "fold_con, renumber, dead_code, compress and summation applied to a value graph tape leave the map from independent to dependent values unchanged (and the count of false comparisons when comparisons are kept).",
  "all tapes and argument values, any sequence of passes",
  "graph rewriting over arbitrary tapes",
  ["local/val_graph/fold_con.hpp","local/val_graph/renumber.hpp","local/val_graph/dead_code.hpp","local/val_graph/compress.hpp","local/val_graph/summation.hpp"])
p("Converting a function to a graph and back preserves the function",
  "f.to_graph(g) followed by h.from_graph(g) gives h equal to f at every argument and dynamic parameter; the JSON text of a graph parses back to the same graph.",
  "all functions, graphs",
  "unbounded graphs and many operator variants",
  ["core/graph/to_graph.hpp","core/graph/from_graph.hpp","core/graph/to_json.hpp","core/graph/from_json.hpp"])
p("vectorBool behaves as a vector of bool",
  "Any sequence of resize, push_back, element assignment, copy and swap on vectorBool has the same results as on an unpacked vector of bool, for every word size.",
  "all operation histories",
  "word boundary arithmetic",
  ["utility/vector_bool.hpp:vectorBool"])
p("CppAD::vector keeps its elements across growth",
  "Any history of resize, push_back, push_vector, assignment, clear and swap on CppAD::vector behaves as on a mathematical sequence; capacity is never smaller than size.",
  "all histories",
  "reallocation points depend on history",
  ["utility/vector.hpp:vector"])
p("Integer powers, polynomial evaluation and its derivatives are exact",
  "pow(x, n) for integer n equals the repeated product (or its inverse for negative n), and Poly(k, a, z) equals the k-th derivative of the polynomial with coefficients a at z, over any field.",
  "all exponents, degrees, derivative orders and values",
  "loop bounds at all sizes",
  ["utility/pow_int.hpp:pow","utility/poly.hpp:Poly"])
p("LU factorization and solution are exact",
  "LuFactor produces ip, jp and LU with L*U equal to the permuted matrix and returns the sign of the permutations (0 iff singular); LuInvert then solves the equations; LuSolve returns the exact solution and determinant.",
  "all square matrices over a field, all right hand sides",
  "pivoting paths",
  ["utility/lu_factor.hpp:LuFactor","utility/lu_invert.hpp:LuInvert","utility/lu_solve.hpp:LuSolve"])
p("Drivers return the derivatives they name",
  "Jacobian, ForOne, RevOne, ForTwo, RevTwo and Hessian return the first and second partial derivatives of F at x in the documented layout, whichever mode is selected internally.",
  "all functions, points, index choices",
  "mode selection and layout for all n, m",
  ["core/jacobian.hpp","core/for_one.hpp","core/rev_one.hpp","core/for_two.hpp","core/rev_two.hpp","core/hessian.hpp"])
p("Subgraph sparsity is exactly the dependency relation",
  "f.subgraph_sparsity contains (i,j) exactly when the j-th selected independent variable can reach the i-th selected dependent variable through the operation graph.",
  "all operation sequences and selections",
  "graph search with marking reused between dependents",
  ["core/subgraph_sparsity.hpp","local/subgraph/sparsity.hpp","local/subgraph/get_rev.hpp"])
p("Subgraph reverse mode equals full reverse mode",
  "f.subgraph_reverse(q, ell, col, dw) returns the same partials for component ell as full reverse mode, and col lists exactly the independent variables in its subgraph.",
  "all operation sequences, components, orders",
  "only part of the tape is visited",
  ["core/subgraph_reverse.hpp","local/subgraph/init_rev.hpp","local/subgraph/get_rev.hpp"])
p("Absolute zero multiplication and identical-zero shortcuts never change reverse results over finite values",
  "azmul(x,y) is zero when x is zero and x*y otherwise; replacing products by azmul and skipping operators whose partials are all zero leaves reverse results unchanged.",
  "all values and operation sequences",
  "zero patterns in partials depend on the graph",
  ["core/azmul.hpp","local/var_op/*_op.hpp:*_reverse"])
p("User error handlers nest",
  "While any nesting of ErrorHandler objects is alive, errors are reported to the most recently constructed live handler and destruction restores the previous one.",
  "all nesting histories",
  "history dependent global state",
  ["utility/error_handler.hpp:ErrorHandler"])
exec(open(os.path.join(os.path.dirname(os.path.abspath(__file__)),'props_more.py')).read())
with open(os.path.join(os.path.dirname(os.path.abspath(__file__)),'..','properties.jsonl'),'w') as f:
    for x in P: f.write(json.dumps(x)+"\n")
print(len(P))
