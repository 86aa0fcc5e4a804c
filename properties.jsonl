{"id": "C01", "title": "Forward mode returns the Taylor coefficients of the composite function", "statement": "For an ADFun f recording F and Taylor coefficients x^(0..q) of the argument, f.Forward(q, xq) returns y^(k) = (1/k!) d^k/dt^k F(sum_j x^(j) t^j) at t=0 for every k <= q, for every operation sequence built from the elementary operators, at every point where each elementary operation is smooth.", "quantifier": "all operation sequences, all orders q, all argument coefficients in the smooth domain", "why_tests_cant": "tests sample a few functions, points and low orders; the claim is about every composition at every order", "anchors": ["include/cppad/core/forward/forward.hpp:ADFun::Forward", "include/cppad/local/sweep/forward_any.hpp:forward_any", "include/cppad/local/var_op/*_op.hpp:*_forward_any"]}
{"id": "C02", "title": "Reverse mode returns the exact gradient of a weighted sum of Taylor coefficients", "statement": "f.Reverse(q, w) with w of size m*q returns dw with dw[j*q+k] = d W / d x_j^(k), where W = sum_i sum_k w[i*q+k] * y_i^(k) is viewed as a function of the argument Taylor coefficients.", "quantifier": "all operation sequences, all orders q, all weights, all points of the smooth domain", "why_tests_cant": "each test checks one function at one point; an error in one partial of one operator at one order only shows for special graphs", "anchors": ["include/cppad/core/reverse.hpp:ADFun::Reverse", "include/cppad/local/sweep/reverse.hpp:reverse", "include/cppad/local/var_op/*_op.hpp:*_reverse"]}
{"id": "C03", "title": "Reverse with one weight per component returns derivatives of each lower order coefficient (reverse identity)", "statement": "f.Reverse(q, w) with w of size m returns dw with dw[j*q+k] = d (sum_i w[i] y_i^(k)) / d x_j^(0) for k = 0..q-1, although only the order q-1 weights are seeded.", "quantifier": "all operation sequences, orders, weights", "why_tests_cant": "relies on a theorem about all Taylor recurrences (shift invariance); no finite sample establishes it", "anchors": ["include/cppad/core/reverse.hpp:ADFun::Reverse"]}
{"id": "C04", "title": "Forward orders computed one at a time equal orders computed together", "statement": "Calling f.Forward(0,x0), f.Forward(1,x1), ..., f.Forward(q,xq) one order at a time gives exactly the coefficients of the single call f.Forward(q, all orders), for every way of splitting.", "quantifier": "all operation sequences, orders and splits", "why_tests_cant": "depends on every operator's recurrence only reading already computed orders", "anchors": ["include/cppad/core/forward/forward.hpp:ADFun::Forward", "include/cppad/local/sweep/forward_any.hpp:forward_any"]}
{"id": "C05", "title": "Multiple direction forward mode equals independent single direction forward mode", "statement": "f.Forward(q, r, xq) gives, for each direction ell < r, the same order q coefficients as single direction Forward(q, .) applied to that direction's coefficients.", "quantifier": "all operation sequences, q, r, direction vectors", "why_tests_cant": "interleaved storage index arithmetic and a second copy of every recurrence; tests use r <= 3 and low q", "anchors": ["include/cppad/core/forward/forward.hpp:ADFun::Forward(q,r,xq)", "include/cppad/local/sweep/forward_dir.hpp:forward_dir", "include/cppad/local/var_op/*_op.hpp:*_forward_dir"]}
{"id": "C06", "title": "A recording replays the algorithm that was recorded", "statement": "If an algorithm written with AD<Base> operators is executed between Independent(x) and ADFun f(x,y), then f.Forward(0, x') returns, for every x', the value obtained by executing the same operation sequence directly on Base values at x', including where constants 0 and 1 were simplified away during recording.", "quantifier": "all straight line programs, all recording points, all evaluation points", "why_tests_cant": "the recorder chooses between many operator variants (vv, pv, vp, dynamic, identical zero/one); the number of programs is unbounded", "anchors": ["include/cppad/core/add.hpp:operator+", "include/cppad/core/sub.hpp:operator-", "include/cppad/core/mul.hpp:operator*", "include/cppad/core/div.hpp:operator/", "include/cppad/local/record/recorder.hpp:recorder", "include/cppad/core/dependent.hpp:ADFun::Dependent", "include/cppad/local/sweep/forward_0.hpp:forward_0"]}
{"id": "C07", "title": "Changing dynamic parameters is equivalent to re-recording with the new values", "statement": "After f.new_dynamic(p'), f.Forward(0,x') equals what is obtained by evaluating the recorded operation sequence with dynamic parameters p' and arguments x'.", "quantifier": "all programs mixing constants, dynamic parameters and variables; all p', x'", "why_tests_cant": "the parameter graph is a second tape with its own evaluation order", "anchors": ["include/cppad/core/new_dynamic.hpp:ADFun::new_dynamic", "include/cppad/local/sweep/dynamic.hpp:dynamic", "include/cppad/local/record/dyn_recorder.hpp:dyn_recorder"]}
{"id": "C08", "title": "AD values of a finished recording are constants for every later recording", "statement": "After a recording stops (ADFun constructor, Dependent or abort_recording), every AD object that was a variable or dynamic parameter of it is treated as a constant parameter by all later recordings on any thread; no AD object is a variable of two recordings.", "quantifier": "all histories of Independent / Dependent / abort_recording on any number of threads", "why_tests_cant": "needs tape identifiers never to be reused over arbitrarily long histories", "anchors": ["include/cppad/core/tape_link.hpp:AD::tape_manage", "include/cppad/core/independent/independent.hpp:Independent", "include/cppad/core/abort_recording.hpp:abort_recording", "include/cppad/core/con_dyn_var.hpp"]}
{"id": "C09", "title": "Constant parameters are stored faithfully", "statement": "Every constant passed to the recorder is found again, identically equal, at the index returned for it, whatever hash collisions occur and however many parameters are stored.", "quantifier": "all sequences of recorded constants and dynamic parameters, all hash functions", "why_tests_cant": "hash collisions and reuse depend on the history; tests do not produce adversarial collisions", "anchors": ["include/cppad/local/record/dyn_recorder.hpp:put_con_par", "include/cppad/local/hash_code.hpp"]}
{"id": "C10", "title": "compare_change_number counts exactly the comparisons whose outcome changed", "statement": "After f.Forward(0,x'), compare_change_number() is the number of recorded comparisons whose result at x' differs from the recorded result, and compare_change_op_index() identifies the count-th of them; if it is zero then executing the original branching algorithm at x' takes the same branches.", "quantifier": "all programs with comparisons, all x', all counts", "why_tests_cant": "branches are unbounded in number and order", "anchors": ["include/cppad/core/compare.hpp", "include/cppad/local/record/comp_op.hpp:comp_eq", "include/cppad/local/var_op/compare_op.hpp", "include/cppad/local/sweep/forward_0.hpp:forward_0", "include/cppad/core/fun_check.hpp"]}
{"id": "C11", "title": "Conditional expressions select by the values at evaluation time", "statement": "CondExpOp(left,right,if_true,if_false) recorded in f evaluates at every x' to the branch selected by comparing left and right at x', and its Taylor coefficients and reverse partials are those of the selected branch.", "quantifier": "all five comparison types, all argument kinds (constant, dynamic, variable), all points and orders", "why_tests_cant": "the recorded branch and the evaluated branch may differ at every evaluation", "anchors": ["include/cppad/core/cond_exp.hpp", "include/cppad/local/record/cond_exp.hpp", "include/cppad/local/var_op/cexp_op.hpp"]}
{"id": "C12", "title": "VecAD element access follows array semantics", "statement": "A VecAD load at index i returns the value most recently stored at index i (or the initial value), at every evaluation point, for variable, dynamic and constant indices and values; derivatives flow to exactly the variable that was stored.", "quantifier": "all sequences of loads and stores, all index values", "why_tests_cant": "which store a load sees depends on run time index values", "anchors": ["include/cppad/core/vec_ad/vec_ad.hpp", "include/cppad/local/var_op/load_op.hpp", "include/cppad/local/var_op/store_op.hpp", "include/cppad/local/record/put_var_vecad.hpp"]}
{"id": "C13", "title": "Optimizing a recording does not change its function", "statement": "After f.optimize(options), f.Forward(0,x') returns the same dependent values as before for every x' and every dynamic parameter value.", "quantifier": "all recordings, options and points", "why_tests_cant": "the optimizer rewrites arbitrary graphs: dead code, common subexpressions, cumulative sums, conditional skips", "anchors": ["include/cppad/core/optimize.hpp:ADFun::optimize", "include/cppad/local/optimize/optimize_run.hpp:optimize_run", "include/cppad/local/optimize/get_op_usage.hpp", "include/cppad/local/optimize/get_op_previous.hpp", "include/cppad/local/optimize/match_op.hpp", "include/cppad/local/optimize/record_csum.hpp"]}
{"id": "C14", "title": "Conditional skip never skips an operation that influences a result", "statement": "Operations skipped by conditional skip during a zero order sweep do not influence any dependent variable at that point, so results with and without conditional_skip agree.", "quantifier": "all graphs and points", "why_tests_cant": "depends on data-dependent skip sets", "anchors": ["include/cppad/local/optimize/get_cexp_info.hpp", "include/cppad/local/optimize/cexp_info.hpp", "include/cppad/local/var_op/cskip_op.hpp"]}
{"id": "C15", "title": "Forward Jacobian sparsity patterns are conservative", "statement": "f.for_jac_sparsity(R pattern) contains entry (i,j) whenever the (i,j) entry of F'(x) R is non-zero at any x; with dependency=true whenever the i-th result depends on the j-th direction at all.", "quantifier": "all operation sequences, seed patterns and evaluation points", "why_tests_cant": "a missed entry gives a silently wrong sparse derivative and occurs only for particular graphs", "anchors": ["include/cppad/core/for_jac_sparsity.hpp:ADFun::for_jac_sparsity", "include/cppad/local/sweep/for_jac.hpp:for_jac"]}
{"id": "C16", "title": "Reverse Jacobian sparsity patterns are conservative", "statement": "f.rev_jac_sparsity(R pattern) contains entry (i,j) whenever the (i,j) entry of R F'(x) is non-zero at any x.", "quantifier": "all operation sequences, seed patterns and evaluation points", "why_tests_cant": "as for forward", "anchors": ["include/cppad/core/rev_jac_sparsity.hpp:ADFun::rev_jac_sparsity", "include/cppad/local/sweep/rev_jac.hpp:rev_jac"]}
{"id": "C17", "title": "Hessian sparsity patterns are conservative", "statement": "The patterns returned by f.for_hes_sparsity(select_domain, select_range) and f.rev_hes_sparsity(select_range) contain (i,j) whenever the second partial (i,j) of sum_{k in select_range} y_k is non-zero at any x (restricted to the selected domain / multiplied by R).", "quantifier": "all operation sequences, selections and evaluation points", "why_tests_cant": "second order interactions over arbitrary graphs", "anchors": ["include/cppad/core/for_hes_sparsity.hpp", "include/cppad/core/rev_hes_sparsity.hpp", "include/cppad/local/sweep/for_hes.hpp:for_hes", "include/cppad/local/sweep/rev_hes.hpp:rev_hes", "include/cppad/local/var_op/one_var.hpp", "include/cppad/local/var_op/two_var.hpp"]}
{"id": "C18", "title": "General coloring never merges rows whose values collide", "statement": "For requested entries contained in the pattern, color_general_cppad colors every row that has a requested entry, and for each requested entry (r,c) no other row with the color of r is non-zero in column c; rows without requested entries get no color; the search for a color always terminates in range.", "quantifier": "all patterns, all requested subsets", "why_tests_cant": "greedy algorithm on arbitrary sparse graphs", "anchors": ["include/cppad/local/color_general.hpp:color_general_cppad"]}
{"id": "C19", "title": "Symmetric coloring makes every requested entry recoverable directly or by reflection", "statement": "For a symmetric pattern, color_symmetric_cppad returns for every requested entry either the entry itself or its reflection, whose row is colored, and no other row with the same color is non-zero in its column.", "quantifier": "all symmetric patterns, all requested subsets", "why_tests_cant": "greedy algorithm with destructive updates of the set of needed pairs", "anchors": ["include/cppad/local/color_symmetric.hpp:color_symmetric_cppad", "include/cppad/utility/index_sort.hpp:index_sort"]}
{"id": "C20", "title": "sparse_jac_for and sparse_jac_rev return the exact requested Jacobian entries", "statement": "For any subset of a valid pattern, any group_max and either mode, subset.val()[k] equals dF_row[k]/dx_col[k] at x, and the return value is the number of sweeps (colors).", "quantifier": "all functions, patterns, subsets, group sizes, and reuse of the work object", "why_tests_cant": "correctness of compression and recovery for all colorings", "anchors": ["include/cppad/core/sparse_jac.hpp:ADFun::sparse_jac_for", "include/cppad/core/sparse_jac.hpp:ADFun::sparse_jac_rev"]}
{"id": "C21", "title": "sparse_hes returns the exact requested Hessian entries", "statement": "For a symmetric valid pattern and any subset, subset.val()[k] equals the (row[k],col[k]) second partial of w^T F at x, for the cppad.general and cppad.symmetric colorings.", "quantifier": "all functions, weights, patterns and subsets", "why_tests_cant": "as for sparse_jac plus reflection bookkeeping", "anchors": ["include/cppad/core/sparse_hes.hpp:ADFun::sparse_hes"]}
{"id": "C22", "title": "Packed sets behave as a vector of finite sets", "statement": "Any sequence of resize, add/post element, process_post, clear, assignment, union and intersection on packed vectors of sets has the same membership, iteration and size results as the same operations on a vector of mathematical sets, for every word size and end value.", "quantifier": "all operation histories, all set counts, all end values", "why_tests_cant": "bit arithmetic at word boundaries; tests use few sizes", "anchors": ["include/cppad/local/sparse/pack_setvec.hpp:pack_setvec"]}
{"id": "C23", "title": "Linked list sets behave as a vector of finite sets", "statement": "Any sequence of operations on the reference counted shared linked list representation has the same observable results as on a vector of mathematical sets: sharing is never observable, and iteration is strictly increasing and complete.", "quantifier": "all operation histories including self assignment and aliasing between target, left, right and other", "why_tests_cant": "aliasing and reference count errors need particular histories", "anchors": ["include/cppad/local/sparse/size_setvec.hpp:size_setvec", "include/cppad/local/sparse/list_setvec.hpp"]}
{"id": "C24", "title": "Linked list sets account for every cell", "statement": "After any operation history every allocated cell is either the sentinel, in exactly one live list, in exactly one posting list, or on the free list, and number_not_used is the length of the free list; so no cell is leaked or used twice.", "quantifier": "all operation histories", "why_tests_cant": "memory accounting is a global invariant of the history", "anchors": ["include/cppad/local/sparse/size_setvec.hpp:drop", "include/cppad/local/sparse/size_setvec.hpp:get_data_index", "include/cppad/local/sparse/size_setvec.hpp:check_data_structure"]}
{"id": "C25", "title": "Sorted vector sets behave as a vector of finite sets", "statement": "Any sequence of operations on the reference counted sorted vector representation, including its garbage collection, has the same observable results as on a vector of mathematical sets.", "quantifier": "all operation histories", "why_tests_cant": "garbage collection moves live data", "anchors": ["include/cppad/local/sparse/svec_setvec.hpp:svec_setvec"]}
{"id": "C26", "title": "index_sort returns a sorting permutation", "statement": "index_sort(keys, ind) sets ind to a permutation of 0..n-1 such that keys[ind[0]] <= keys[ind[1]] <= ...", "quantifier": "all key vectors", "why_tests_cant": "all orders and ties", "anchors": ["include/cppad/utility/index_sort.hpp:index_sort"]}
{"id": "C27", "title": "sparse_rc row_major and col_major are sorting permutations and equality is order independent", "statement": "row_major() and col_major() return permutations that order the entries lexicographically; operator== holds exactly when the two patterns have the same size and the same entries up to order; set_row_major/set_col_major keep the set of entries.", "quantifier": "all patterns", "why_tests_cant": "all orders, duplicates", "anchors": ["include/cppad/utility/sparse_rc.hpp:sparse_rc"]}
{"id": "C28", "title": "thread_alloc never hands out a block that is in use and accounts for every byte", "statement": "For any history of get_memory, return_memory, hold_memory and free_available over any number of threads, the returned block has at least min_bytes capacity, is not currently in use, and inuse(thread) and available(thread) equal the total capacity of the blocks in use by and held for that thread.", "quantifier": "all allocation histories, all sizes, all thread assignments, hold on or off", "why_tests_cant": "history dependent free lists", "anchors": ["include/cppad/utility/thread_alloc.hpp:thread_alloc"]}
{"id": "C29", "title": "Forward order and capacity bookkeeping keeps stored coefficients", "statement": "capacity_order, Forward and Reverse keep size_order, size_direction and the stored coefficients consistent: for every call history, each call that is allowed reads exactly the coefficients produced by the latest Forward calls, for any capacity.", "quantifier": "all histories of Forward / Reverse / capacity_order calls", "why_tests_cant": "index arithmetic for reallocation with changing capacity and direction count", "anchors": ["include/cppad/core/capacity_order.hpp:ADFun::capacity_order", "include/cppad/core/forward/forward.hpp", "include/cppad/core/reverse.hpp"]}
{"id": "C30", "title": "Value graph tapes: optimization passes preserve the function", "statement": "fold_con, renumber, dead_code, compress and summation applied to a value graph tape leave the map from independent to dependent values unchanged (and the count of false comparisons when comparisons are kept).", "quantifier": "all tapes and argument values, any sequence of passes", "why_tests_cant": "graph rewriting over arbitrary tapes", "anchors": ["include/cppad/local/val_graph/fold_con.hpp", "include/cppad/local/val_graph/renumber.hpp", "include/cppad/local/val_graph/dead_code.hpp", "include/cppad/local/val_graph/compress.hpp", "include/cppad/local/val_graph/summation.hpp"]}
{"id": "C31", "title": "Converting a function to a graph and back preserves the function", "statement": "f.to_graph(g) followed by h.from_graph(g) gives h equal to f at every argument and dynamic parameter; the JSON text of a graph parses back to the same graph.", "quantifier": "all functions, graphs", "why_tests_cant": "unbounded graphs and many operator variants", "anchors": ["include/cppad/core/graph/to_graph.hpp", "include/cppad/core/graph/from_graph.hpp", "include/cppad/core/graph/to_json.hpp", "include/cppad/core/graph/from_json.hpp"]}
{"id": "C32", "title": "vectorBool behaves as a vector of bool", "statement": "Any sequence of resize, push_back, element assignment, copy and swap on vectorBool has the same results as on an unpacked vector of bool, for every word size.", "quantifier": "all operation histories", "why_tests_cant": "word boundary arithmetic", "anchors": ["include/cppad/utility/vector_bool.hpp:vectorBool"]}
{"id": "C33", "title": "CppAD::vector keeps its elements across growth", "statement": "Any history of resize, push_back, push_vector, assignment, clear and swap on CppAD::vector behaves as on a mathematical sequence; capacity is never smaller than size.", "quantifier": "all histories", "why_tests_cant": "reallocation points depend on history", "anchors": ["include/cppad/utility/vector.hpp:vector"]}
{"id": "C34", "title": "Integer powers, polynomial evaluation and its derivatives are exact", "statement": "pow(x, n) for integer n equals the repeated product (or its inverse for negative n), and Poly(k, a, z) equals the k-th derivative of the polynomial with coefficients a at z, over any field.", "quantifier": "all exponents, degrees, derivative orders and values", "why_tests_cant": "loop bounds at all sizes", "anchors": ["include/cppad/utility/pow_int.hpp:pow", "include/cppad/utility/poly.hpp:Poly"]}
{"id": "C35", "title": "LU factorization and solution are exact", "statement": "LuFactor produces ip, jp and LU with L*U equal to the permuted matrix and returns the sign of the permutations (0 iff singular); LuInvert then solves the equations; LuSolve returns the exact solution and determinant.", "quantifier": "all square matrices over a field, all right hand sides", "why_tests_cant": "pivoting paths", "anchors": ["include/cppad/utility/lu_factor.hpp:LuFactor", "include/cppad/utility/lu_invert.hpp:LuInvert", "include/cppad/utility/lu_solve.hpp:LuSolve"]}
{"id": "C36", "title": "Drivers return the derivatives they name", "statement": "Jacobian, ForOne, RevOne, ForTwo, RevTwo and Hessian return the first and second partial derivatives of F at x in the documented layout, whichever mode is selected internally.", "quantifier": "all functions, points, index choices", "why_tests_cant": "mode selection and layout for all n, m", "anchors": ["include/cppad/core/jacobian.hpp", "include/cppad/core/for_one.hpp", "include/cppad/core/rev_one.hpp", "include/cppad/core/for_two.hpp", "include/cppad/core/rev_two.hpp", "include/cppad/core/hessian.hpp"]}
{"id": "C37", "title": "Subgraph sparsity is exactly the dependency relation", "statement": "f.subgraph_sparsity contains (i,j) exactly when the j-th selected independent variable can reach the i-th selected dependent variable through the operation graph.", "quantifier": "all operation sequences and selections", "why_tests_cant": "graph search with marking reused between dependents", "anchors": ["include/cppad/core/subgraph_sparsity.hpp", "include/cppad/local/subgraph/sparsity.hpp", "include/cppad/local/subgraph/get_rev.hpp"]}
{"id": "C38", "title": "Subgraph reverse mode equals full reverse mode", "statement": "f.subgraph_reverse(q, ell, col, dw) returns the same partials for component ell as full reverse mode, and col lists exactly the independent variables in its subgraph.", "quantifier": "all operation sequences, components, orders", "why_tests_cant": "only part of the tape is visited", "anchors": ["include/cppad/core/subgraph_reverse.hpp", "include/cppad/local/subgraph/init_rev.hpp", "include/cppad/local/subgraph/get_rev.hpp"]}
{"id": "C39", "title": "Absolute zero multiplication and identical-zero shortcuts never change reverse results over finite values", "statement": "azmul(x,y) is zero when x is zero and x*y otherwise; replacing products by azmul and skipping operators whose partials are all zero leaves reverse results unchanged.", "quantifier": "all values and operation sequences", "why_tests_cant": "zero patterns in partials depend on the graph", "anchors": ["include/cppad/core/azmul.hpp", "include/cppad/local/var_op/*_op.hpp:*_reverse"]}
{"id": "C40", "title": "User error handlers nest", "statement": "While any nesting of ErrorHandler objects is alive, errors are reported to the most recently constructed live handler and destruction restores the previous one.", "quantifier": "all nesting histories", "why_tests_cant": "history dependent global state", "anchors": ["include/cppad/utility/error_handler.hpp:ErrorHandler"]}
{"id": "C41", "title": "Sparse Jacobians from subgraphs are right", "statement": "f.subgraph_jac_rev(select_domain, select_range, x, matrix_out) returns, in row major order and without duplicates, exactly the selected entries whose component depends on the variable, with the value of the partial derivative; f.subgraph_jac_rev(x, subset) sets every entry of subset to the partial derivative.", "quantifier": "all operation sequences, selections, subsets (any order, duplicates), points, previous histories and contents of uninitialized memory", "why_tests_cant": "the merge of sorted column lists has boundary cases that depend on the graph, and one work vector is reused for all rows", "anchors": ["include/cppad/core/subgraph_jac_rev.hpp", "include/cppad/core/subgraph_reverse.hpp"]}
{"id": "C42", "title": "Checkpoint functions are transparent", "statement": "When an ADFun object is made into a chkpoint_two function and called while another function is recorded, the other function returns the same function values, Taylor coefficients and reverse mode derivatives as when the operations of the inner function are recorded directly; results classified as constant or dynamic by the checkpoint function do not depend on variables; the Jacobian and Hessian sparsity patterns it provides cover all nonzero derivatives.", "quantifier": "all inner and outer operation sequences, positions of the call, orders, arguments, and all histories of calls that have changed the state of the inner object and of the outer objects", "why_tests_cant": "the inner object keeps Taylor coefficients between calls, and the sparsity patterns are computed once for all later calls and selections", "anchors": ["include/cppad/core/chkpoint_two/chkpoint_two.hpp", "include/cppad/core/chkpoint_two/ctor.hpp", "include/cppad/core/chkpoint_two/forward.hpp", "include/cppad/core/chkpoint_two/reverse.hpp", "include/cppad/core/chkpoint_two/jac_sparsity.hpp", "include/cppad/core/chkpoint_two/hes_sparsity.hpp", "include/cppad/core/chkpoint_two/for_type.hpp", "include/cppad/core/chkpoint_two/rev_depend.hpp"]}
{"id": "C43", "title": "Functions that call user atomic functions have right derivatives", "statement": "If the callbacks of an atomic function satisfy their documented contract then every ADFun that contains calls to it returns right Taylor coefficients (one or several directions), reverse mode derivatives and Jacobian sparsity patterns.", "quantifier": "all atomic functions that satisfy the contract, all operation sequences with any number of calls, parameter and variable arguments and results, orders, directions and histories", "why_tests_cant": "the library gathers and scatters the coefficients of each call in flat work vectors whose layout depends on the order, the direction and on which arguments and results are parameters", "anchors": ["include/cppad/local/var_op/atomic_op.hpp", "include/cppad/local/sweep/call_atomic.hpp", "include/cppad/core/atomic/four/forward.hpp", "include/cppad/core/atomic/four/reverse.hpp", "include/cppad/core/atomic/four/devel/jac_sparsity.hpp"]}
{"id": "C44", "title": "The abs-normal form represents the function", "statement": "f.abs_normal_fun(g, a) creates g with n + s independent and m + s dependent variables and a with s dependent variables, where s is the number of absolute values in f: g contains no absolute value, g(x, u) is the evaluation of f with absolute value i replaced by u_i together with the arguments z_i of the absolute values, y(x, a(x)) = f(x), a_i(x) = |z_i(x, a(x))|, z_i does not depend on u_j for j >= i, and the dependent variables of a that Parameter reports as parameters are constant.", "quantifier": "all operation sequences, any number and nesting of absolute values, and all points x and u", "why_tests_cant": "the new recording renumbers every variable and copies the arguments of each operator by hand; a mistake for one operator shows only in functions that use it", "anchors": ["include/cppad/core/abs_normal_fun.hpp"]}
{"id": "C45", "title": "The older sparse drivers are right", "statement": "ForSparseJac, RevSparseJac, RevSparseHes and ForSparseHes return patterns (vectors of bool or of sets, transposed or not) that contain every entry that is not zero at some point; SparseJacobian, SparseJacobianForward, SparseJacobianReverse and SparseHessian return, for the whole matrix or for a requested subset, the values of the first or second partial derivatives, also when work is passed again after a previous call.", "quantifier": "all operation sequences, points, weights, patterns that contain the possible non-zeros, subsets, vectors of bool or of sets, previous histories and reused work vectors", "why_tests_cant": "colors, orders and reflections of the entries are computed once from the pattern and reused at other points; errors show only for patterns with specific overlaps", "anchors": ["include/cppad/core/for_sparse_jac.hpp", "include/cppad/core/rev_sparse_jac.hpp", "include/cppad/core/rev_sparse_hes.hpp", "include/cppad/core/for_sparse_hes.hpp", "include/cppad/core/sparse_jacobian.hpp", "include/cppad/core/sparse_hessian.hpp"]}
{"id": "C46", "title": "Playback visits what was recorded", "statement": "Every operator stored during a recording (including the ones whose number of arguments is found only in their own argument list) is visited, when the recording is played forward, backward, in any mixture of forward and backward steps, or by random access, with the operator, the arguments and the primary result variable it was stored with; the index sets of a cumulative summation and of a conditional skip, and the texts of a print command, are read back as they were stored.", "quantifier": "all sequences of operators, all argument values, all walks of the iterator, all contents of uninitialised memory", "why_tests_cant": "the argument length of two operators is data; a wrong adjustment in one direction only shows after such an operator, and the random access tables are built only by subgraph calculations", "anchors": ["include/cppad/local/record/recorder.hpp", "include/cppad/local/play/sequential_iterator.hpp", "include/cppad/local/play/random_setup.hpp", "include/cppad/local/play/random_iterator.hpp", "include/cppad/local/play/atom_op_info.hpp", "include/cppad/local/op_code_var.hpp", "include/cppad/local/optimize/record_csum.hpp", "include/cppad/local/optimize/optimize_run.hpp"]}
{"id": "C47", "title": "Romberg integration has the documented order", "statement": "RombergOne returns the integral with an error of order 2(p+1) in the step (b-a)/2^(n-1), with a constant that depends only on p and a bound on the derivative of order 2(p+1); it is exact for polynomials of degree at most 2p+1 and uses 2^(n-1)+1 evaluations. Its error output is the distance to the estimate for n-1. RombergMul has the same property in every coordinate.", "quantifier": "all smooth integrands (also objects with internal state), limits, numbers of dimensions, all n and p in the documented range p <= n", "why_tests_cant": "a wrong extrapolation weight still converges, only with a lower order; integer conversions overflow only for large p", "anchors": ["include/cppad/utility/romberg_one.hpp", "include/cppad/utility/romberg_mul.hpp"]}
{"id": "C48", "title": "OdeErrControl reaches the end of the interval within the error bounds", "statement": "OdeErrControl terminates for every method; the accepted steps lead from (ti, xi) to (tf, xf) without gap or overlap, every step is a step of the method; a rejected step is tried again from the same point; every accepted step larger than 3 smin / 2 is within its part of the requested error bounds, so the sum ef is at most eabs + erel * maxabs when no step is that small; xf is nan only when the method returned nan for a step of at most 3 smin / 2; all steps are between the documented bounds; nstep is the number of calls.", "quantifier": "all methods (with state, any error estimates, nan at any call), intervals, step size and error bounds, initial values of scur", "why_tests_cant": "the controller is a loop whose length depends on the error estimates returned; the last steps before tf are special", "anchors": ["include/cppad/utility/ode_err_control.hpp"]}
{"id": "C49", "title": "Gear's method of arbitrary order is exact, and its controller reaches the end", "statement": "OdeGear uses the weights of polynomial interpolation: it returns the exact value and a zero error estimate when the solution is a polynomial of degree at most m, and for linear equations the interpolating polynomial satisfies the equation at the new time. OdeGearControl terminates, uses in each call the m most recent points with m growing from 1 to M, reaches tf, returns the sum of the error estimates, respects the step size bounds and accepts only steps within the error bounds or near the minimum size.", "quantifier": "all orders m and M, step size sequences, dimensions, equations, intervals and bounds", "why_tests_cant": "the weights are products over all previous times, and points are shifted in place after each accepted step", "anchors": ["include/cppad/utility/ode_gear.hpp", "include/cppad/utility/ode_gear_control.hpp"]}
{"id": "C50", "title": "optimize with the val_graph option does not change the function", "statement": "f.optimize(\"val_graph ...\") converts the operation sequence to a value graph, optimizes it and converts it back. Afterwards f has the same number of dynamic parameters and independent variables, and for all values of both the dependent variables are what they were before; without comparison operators compare_change_number() is zero, with them it is zero exactly where it was zero; fun2val and val2fun alone keep values and compare_change_number().", "quantifier": "all operation sequences without VecAD, atomic functions and PrintFor; all hash functions and options; all values of the dynamic parameters and independent variables", "why_tests_cant": "the conversions use index maps for parameters, variables and values that are filled on demand, so errors depend on the order of the operators", "anchors": ["include/cppad/local/val_graph/fun2val.hpp", "include/cppad/local/val_graph/val2fun.hpp", "include/cppad/local/val_graph/val_optimize.hpp"]}
{"id": "C51", "title": "Recordings on several threads do not depend on the schedule", "statement": "When threads record at the same time and no thread changes an AD object that another thread uses, every thread stores the same functions, ends with the same recording and the same values in its objects as if it ran alone; an assertion fails in some interleaving exactly if it fails in a thread that runs alone.", "quantifier": "all interleavings of all sequences of AD operations, comparisons, conditional expressions, Independent, Dependent and abort_recording on any number of threads, from any state reachable by such operations in which no thread records", "why_tests_cant": "the number of interleavings is exponential and a shared tape identifier only matters when objects of finished recordings are used on another thread", "anchors": ["include/cppad/local/ad_tape.hpp", "include/cppad/core/tape_link.hpp", "include/cppad/core/ad_type.hpp", "include/cppad/core/independent/independent.hpp", "include/cppad/core/dependent.hpp", "include/cppad/core/abort_recording.hpp"]}
{"id": "C52", "title": "Determinants by minors and by LU factorization", "statement": "det_of_minor(a, m, n, r, c) returns the determinant of the minor of A that r and c define, and r and c have their original values afterwards; every call of one det_by_minor object, whatever was computed with it before, returns the determinant of its argument; det_by_lu returns the determinant, zero for singular matrices.", "quantifier": "all sizes m and n, all matrices over a commutative ring (det_by_lu: real matrices), all representations of minors allowed by the documentation, all sequences of calls", "why_tests_cant": "the row and column lists are changed in place in every level of the recursion, and the sizes are unbounded", "anchors": ["include/cppad/speed/det_of_minor.hpp", "include/cppad/speed/det_by_minor.hpp", "include/cppad/speed/det_by_lu.hpp"]}
{"id": "C53", "title": "The C source code that to_csrc writes computes the function", "statement": "The C function written by f.to_csrc evaluates zero order forward mode: for all values of the independent dynamic parameters and variables it returns zero, sets y[i] to the function values, changes no other element, adds the number of comparisons that changed to *compare_change, and reads no element of its local array before it is set. If nu (ny) is not the expected value it returns one (two) and changes nothing; if an atomic callback fails it returns a non-zero flag and does not change y.", "quantifier": "all functions that can be recorded with the operators that to_csrc implements, all graphs, all external discrete functions and atomic callbacks, all arguments", "why_tests_cant": "the text that is written is a different program for every function; a test compiles only some of them", "anchors": ["include/cppad/core/to_csrc.hpp", "cppad_lib/csrc_writer.cpp"]}
{"id": "C54", "title": "The atomic functions that come with the library satisfy the contract of atomic functions", "statement": "The atomic vector operations (+, -, *, /, unary -) and the atomic matrix product: forward computes the requested Taylor coefficients (function values also at singular points), reverse the derivatives of every weighted sum of Taylor coefficients whatever partial_x contains before, the Jacobian and Hessian patterns contain only selected pairs and every selected pair with a derivative that is not zero, rev_depend marks every argument that a needed result depends on, and the type of a result is at least that of the arguments it depends on.", "quantifier": "all sizes, orders, Taylor coefficients, weights, selections, ident_zero_x and types", "why_tests_cant": "a loop with a wrong limit or a wrong index only changes some orders, some weights or non-square matrices", "anchors": ["include/cppad/example/atomic_four/vector/forward_op.hpp", "include/cppad/example/atomic_four/vector/add_op.hpp", "include/cppad/example/atomic_four/vector/mul_op.hpp", "include/cppad/example/atomic_four/vector/div_op.hpp", "include/cppad/example/atomic_four/vector/hes_sparsity.hpp", "include/cppad/example/atomic_four/vector/jac_sparsity.hpp", "include/cppad/example/atomic_four/vector/rev_depend.hpp", "include/cppad/example/atomic_four/vector/for_type.hpp", "include/cppad/example/atomic_four/mat_mul/forward.hpp", "include/cppad/example/atomic_four/mat_mul/reverse.hpp", "include/cppad/example/atomic_four/mat_mul/jac_sparsity.hpp", "include/cppad/example/atomic_four/mat_mul/hes_sparsity.hpp", "include/cppad/example/atomic_four/mat_mul/rev_depend.hpp", "include/cppad/example/atomic_four/mat_mul/for_type.hpp", "include/cppad/example/atomic_four/mat_mul/base_mat_mul.hpp"]}
{"id": "C55", "title": "Derivatives of optimal values", "statement": "opt_val_hes(x, y, fun, jac, hes) returns in jac the gradient and in hes the Hessian of V(x) = F[x, Y(x)], where F is the sum of the functions S_k and Y is defined by a zero partial of F with respect to y; the result is the sign of the determinant of the second partial with respect to y, and zero if it is singular. BenderQuad(x, y, fun, g, gx, gxx) returns the value, gradient and Hessian of G(x) = F[x, Y(x)] where Y solves H[x, Y(x)] = 0 and fun.dy is a Newton step.", "quantifier": "all dimensions n, m and numbers of terms, all two times continuously differentiable functions, all differentiable solutions, all recordings of the functions", "why_tests_cant": "the Hessian is correct only because terms with second derivatives of Y cancel; a test has one function and one pair of dimensions", "anchors": ["include/cppad/core/opt_val_hes.hpp", "include/cppad/core/bender_quad.hpp"]}
{"id": "C56", "title": "The functions that ipopt::solve gives to Ipopt are the functions of the user and their derivatives", "statement": "After the constructor and any history of evaluations (dense or sparse, forward or reverse, with or without retaping), eval_f is the sum of the first nf components of fg at the point of the call, eval_grad_f its gradient, eval_g the other components, the structure of the Jacobian lists distinct positions and contains every position where a derivative is not zero at some point, eval_jac_g gives the derivatives at these positions, the structure of the Hessian lists distinct lower triangular positions and contains every position where the Hessian of the Lagrangian is not zero, eval_h gives these second derivatives for every obj_factor and lambda, and the structures do not change. The bounds, starting point and solution are copied and the status is success only when Ipopt reports success.", "quantifier": "all functions, dimensions, points, multipliers, all histories of legal calls (new_x is true or the point is that of the previous call), all contents of uninitialised memory", "why_tests_cant": "the object has a state (cached point, Taylor coefficients, work vectors) that depends on the history of calls; patterns are found in groups of columns", "anchors": ["include/cppad/ipopt/solve_callback.hpp", "include/cppad/ipopt/solve.hpp", "include/cppad/ipopt/solve_result.hpp"]}
{"id": "C57", "title": "The linear program solvers return solutions", "statement": "When simplex_method(A, b, c) returns true, xout is feasible (x >= 0, A x + b <= 0) and its cost is not greater than the cost of any feasible point; when lp_box(A, b, c, d) returns true, xout satisfies A x + b <= 0 and |x_j| <= d_j for every finite limit and its cost is minimal; no assertion of the solvers fails. When the linear program has a solution and no iteration limit is met they return true.", "quantifier": "all dimensions, matrices, vectors, limits (finite or infinite), iteration limits and contents of uninitialised memory", "why_tests_cant": "the number of pivots is unbounded, and degenerate vertices and ties of the ratio test need special data", "anchors": ["example/abs_normal/simplex_method.hpp", "example/abs_normal/lp_box.hpp"]}
{"id": "C58", "title": "The quadratic program solvers return approximate KKT points", "statement": "When qp_interior(c, C, g, G, epsilon, ...) returns true, (xout, yout, sout) satisfies the KKT conditions with maximum absolute error epsilon and yout, sout > 0, so C xout + c < epsilon and, for symmetric positive semi-definite G, the objective at xout exceeds that at any feasible point z by at most epsilon times (|z - xout|_1 + |yout|_1 + m); every step that is tried is the Newton step. When qp_box(a, b, c, C, g, G, ...) returns true the same holds for the problem with the additional limits a <= x <= b, for every combination of finite and infinite limits.", "quantifier": "all dimensions, matrices, vectors, limits (finite or infinite), starting points, tolerances, iteration limits and contents of uninitialised memory", "why_tests_cant": "the number of iterations is unbounded; the position of a limit in the larger problem depends on which other limits are finite", "anchors": ["example/abs_normal/qp_interior.hpp", "example/abs_normal/qp_box.hpp"]}
{"id": "C59", "title": "The abs-normal approximation and its minimization", "statement": "With the value and Jacobian of the abs-normal form g at (x, a(x)), abs_eval(n, m, s, g_hat, g_jac, delta_x) returns the abs-normal approximation: the unique solution of its defining equations; it differs from f(x + delta_x) by at most C |delta_x|^2. When abs_min_linear returns true and the approximation is convex, delta_x is in the trust region and its value exceeds the minimum in the trust region by at most the larger of epsilon[1] times the distance and 2 K n epsilon[0] (K is a Lipschitz constant). The objective at x_out of min_nso_linear is at least epsilon[1] |x_out - x_in| smaller than at x_in; when it returns true, zero is an approximate minimizer of the approximation at x_out in a trust region; no assertion fails.", "quantifier": "all functions with any number of (nested) absolute values, all dimensions, points, steps, bounds, tolerances and iteration limits, all solvers of the linear programs that are correct when they return true", "why_tests_cant": "the approximation is piecewise linear with exponentially many pieces, the number of cutting planes is unbounded, kinks are met only at special points", "anchors": ["example/abs_normal/abs_eval.hpp", "example/abs_normal/abs_min_linear.hpp", "example/abs_normal/min_nso_linear.hpp"]}
{"id": "C60", "title": "atan2 of AD objects is the angle of the point", "statement": "For AD objects y and x, each a constant, a dynamic parameter or a variable, the recorded result of atan2(y, x) evaluates at every point other than the origin to the angle in (-pi, pi] of the point (x, y), for the current values of the independent variables and dynamic parameters, in all four quadrants and on the axes and diagonals; its Taylor coefficients are those of the angle.", "quantifier": "all values of the two arguments, all combinations of argument types, all positions in a larger algorithm, all histories of Forward and new_dynamic calls", "why_tests_cant": "the result is selected by six conditional expressions; an error at one seam or for one combination of argument types is only seen when evaluating at other points than where it was recorded", "anchors": ["include/cppad/core/atan2.hpp", "include/cppad/core/cond_exp.hpp"]}
{"id": "C61", "title": "PrintFor prints during Forward exactly what its documentation says", "statement": "f.Forward(q, xq, s) with lowest order zero prints on s before, value, after for exactly those calls PrintFor(notpos, before, value, after) of the recorded operation sequence for which notpos is not greater than zero at the argument and the current dynamic parameters, in the order of the calls, with value also at the argument and the current dynamic parameters, and with the strings as they were at the call; Forward with higher orders only prints nothing. A call of PrintFor does not change the function that is recorded.", "quantifier": "all algorithms, strings, arguments, values of the dynamic parameters, combinations of constants, dynamic parameters and variables for notpos and value, all histories of Forward and new_dynamic calls", "why_tests_cant": "the strings share one text vector and the operands are in three tables; a wrong offset or type shows only for some combination of calls and types at other arguments than those of the recording", "anchors": ["include/cppad/core/print_for.hpp", "include/cppad/local/var_op/pri_op.hpp", "include/cppad/local/record/recorder.hpp"]}
{"id": "C62", "title": "Atomic matrix inverse and Cholesky factor", "statement": "forward of an atomic_eigen_mat_inv object computes the Taylor coefficients of all requested orders of the inverse of the matrix it is given, and reverse the derivatives of every weighted sum of them with respect to all the coefficients of the matrix; forward and reverse of an atomic_eigen_cholesky object do the same for the Cholesky factor of a symmetric positive definite matrix (the lower triangles are the arguments and the results). An object may be used in several calls and with matrices of different sizes.", "quantifier": "all sizes, orders, invertible or positive definite matrices, weights, and all histories of forward and reverse calls of one object", "why_tests_cant": "an error in one of the recursions over the orders shows only for special orders and non-commuting matrices; the object keeps the coefficients of previous calls", "anchors": ["include/cppad/example/atomic_two/eigen_mat_inv.hpp", "include/cppad/example/atomic_two/eigen_cholesky.hpp"]}
{"id": "C63", "title": "A checkpoint object (first generation) evaluates its function", "statement": "A call of an object of the class checkpoint behaves as the function f that it recorded: forward returns the Taylor coefficients of f along the argument, for every order, reverse the derivatives of every weighted sum of them; a result that is a parameter in the outer recording does not change with the arguments that are variables; for_sparse_jac, rev_sparse_jac and rev_sparse_hes contain every entry that is not zero of f'(x) R, S f'(x), f'(x)^T U + (S f)''(x) R, with vectors of bool and of sets. No assertion fails.", "quantifier": "all functions, orders, arguments, weights, patterns, and all histories of recordings, forward and reverse mode calculations and sparsity calculations with the two pattern types, which share the cached patterns of the object", "why_tests_cant": "the patterns are cached and are replaced or dropped by other calls; an error needs a certain sequence of calls and a function whose dependency and Jacobian patterns differ", "anchors": ["include/cppad/core/chkpoint_one/chkpoint_one.hpp", "include/cppad/core/chkpoint_one/forward.hpp", "include/cppad/core/chkpoint_one/rev_sparse_hes.hpp", "include/cppad/core/chkpoint_one/set_hes_sparse_set.hpp"]}
{"id": "C64", "title": "The internal vectors keep their elements and their memory", "statement": "Any history of constructors, extend, resize, clear, swap, assignment, push_back and element assignment on pod_vector and pod_vector_maybe behaves as on mathematical sequences: extend and push_back preserve all the elements, resize preserves them when the new size is at most the capacity. Capacity is never smaller than size and only clear and swap make it smaller. No memory is used after it is returned, or is leaked or shared; when the element type is not plain old data every object is constructed and destroyed once and only objects are assigned.", "quantifier": "all histories, element types, sizes, and all capacities that the allocator returns", "why_tests_cant": "reallocation points depend on the history; use of returned memory has usually no visible effect in a test", "anchors": ["include/cppad/local/pod_vector.hpp"]}
{"id": "C65", "title": "A recorded LU factorization and its pivot ratio", "statement": "When LuRatio(ip, jp, LU, ratio) with a matrix that depends on the independent variables is recorded, a zero result means that the matrix at the recording is singular. Otherwise ratio is one at the recording, and at every other argument for which the recorded pivots are not zero, L * U is the matrix at that argument with rows and columns permuted by ip and jp, sign times the product of the pivots is its determinant, and ratio is the maximum over all pivots and all elements of the corresponding sub-matrix of the absolute value of element / pivot.", "quantifier": "all sizes, all matrices, all dependencies of the matrix on the independent variables, all arguments", "why_tests_cant": "the pivots are chosen at the recording and used elsewhere; the ratio is a conditional maximum over all steps of the elimination", "anchors": ["include/cppad/core/lu_ratio.hpp"]}
{"id": "C66", "title": "The functions with known derivatives", "statement": "sparse_jac_fun(m, n, x, row, col, 1, fp) sets fp[k] to the derivative of component row[k] of the function of sparse_jac_fun with p = 0 with respect to x[col[k]], sparse_hes_fun(n, x, row, col, 2, fp) sets fp[k] to its second partial with respect to x[row[k]], x[col[k]]; derivatives that are not of the listed forms are zero; mat_sum_sq computes the square of a matrix and the sum of its elements; ode_evaluate(x, 1, fp) computes the derivative of the solution of its differential equation at t = 1 with respect to the initial value.", "quantifier": "all sizes, index vectors that the documentation permits, and arguments", "why_tests_cant": "these functions are what derivatives are compared with in tests; the value for one pattern of rows and columns says nothing about another, in particular with entries that are reflected or on the diagonal", "anchors": ["include/cppad/speed/sparse_jac_fun.hpp", "include/cppad/speed/sparse_hes_fun.hpp", "include/cppad/speed/mat_sum_sq.hpp", "include/cppad/speed/ode_evaluate.hpp"]}
{"id": "C67", "title": "The fifth order Runge-Kutta solver", "statement": "For a smooth F and a number of steps M >= 1, Runge45(F, M, ti, tf, xi, e) returns xf with X(tf) = xf + O(h^6) and sets e to O(h^5), where h = (tf - ti) / M, X(ti) = xi, X'(t) = F(t, X(t)). If an element of a vector f that F.Ode returns is not a number, then all the elements of xf and of e are not numbers. The input value of e does not matter.", "quantifier": "all smooth functions F of all dimensions, numbers of steps, initial times and values; for not a number, all functions F whatsoever", "why_tests_cant": "a test compares with one solution and a tolerance; a wrong digit in the table of the method lowers the order without large errors at the step sizes of the tests, and the order is a statement about all small steps and all F", "anchors": ["include/cppad/utility/runge_45.hpp"]}
{"id": "C68", "title": "The Rosenbrock solver for stiff equations", "statement": "For a smooth F whose partial derivatives are what Ode_ind and Ode_dep return and a number of steps M >= 1, Rosen34(F, M, ti, tf, xi, e) returns xf with X(tf) = xf + O(h^5) and sets e to O(h^4), where h = (tf - ti) / M, X(ti) = xi, X'(t) = F(t, X(t)). If an element of a vector f, f_t or f_x that F returns is not a number, then all the elements of xf and of e are not numbers. The input value of e does not matter.", "quantifier": "all smooth functions F of all dimensions, numbers of steps, initial times and values; for not a number, all functions F whatsoever", "why_tests_cant": "a test compares with one solution and a tolerance; a wrong constant of the method, a wrong time derivative, or an old evaluation in the wrong place lowers the order, which is a statement about all small steps and all F that depend on t and x", "anchors": ["include/cppad/utility/rosen_34.hpp", "include/cppad/utility/lu_factor.hpp", "include/cppad/utility/lu_invert.hpp"]}
{"id": "C69", "title": "NearEqual", "statement": "NearEqual(x, y, r, a) with r, a >= 0 is false if x or y is infinite or not a number; otherwise it is true exactly if |x - y| <= r (|x| + |y|) or |x - y| <= a. The same holds when x or y or both are complex. For real arguments given as complex numbers with zero imaginary parts the result is the same. The result does not depend on the order of x and y.", "quantifier": "all real and complex x and y whose parts are finite, infinite or not a number, and all finite r, a >= 0", "why_tests_cant": "tests compare a few pairs; the special cases are combinations of finite, infinite and not a number in each part and each argument, and a wrong variable in one of them shows only for one combination", "anchors": ["include/cppad/utility/near_equal.hpp: near_equal_isfinite, NearEqual"]}
{"id": "C70", "title": "number_skip counts the variables that are skipped", "statement": "After a zero order Forward, number_skip() plus the number of variables that this call has computed is the number of variables in the operation sequence, if every conditional skip in the sequence comes before the operators that it skips. In general number_skip() is at least the number of variables that have not been computed. A variable that has not been computed still has the value that was in memory before. Without conditional skip operators number_skip() is zero.", "quantifier": "all operation sequences (with calls of atomic functions, VecAD and cumulative sums), all values of the independent variables and dynamic parameters, all contents of the memory before the sweep", "why_tests_cant": "the count depends on which comparisons hold at the point; a test sees one sequence and few points, and an operator with several results or inside a call of an atomic function is counted wrong only there", "anchors": ["include/cppad/core/num_skip.hpp: number_skip", "include/cppad/local/sweep/forward_0.hpp", "include/cppad/local/op_code_var.hpp: NumRes"]}
