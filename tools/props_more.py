# appended properties
p("Sparse Jacobians from subgraphs are right",
  "f.subgraph_jac_rev(select_domain, select_range, x, matrix_out) returns, in row major order and without duplicates, exactly the selected entries whose component depends on the variable, with the value of the partial derivative; f.subgraph_jac_rev(x, subset) sets every entry of subset to the partial derivative.",
  "all operation sequences, selections, subsets (any order, duplicates), points, previous histories and contents of uninitialized memory",
  "the merge of sorted column lists has boundary cases that depend on the graph, and one work vector is reused for all rows",
  ["core/subgraph_jac_rev.hpp","core/subgraph_reverse.hpp"])
p("Checkpoint functions are transparent",
  "When an ADFun object is made into a chkpoint_two function and called while another function is recorded, the other function returns the same function values, Taylor coefficients and reverse mode derivatives as when the operations of the inner function are recorded directly; results classified as constant or dynamic by the checkpoint function do not depend on variables; the Jacobian and Hessian sparsity patterns it provides cover all nonzero derivatives.",
  "all inner and outer operation sequences, positions of the call, orders, arguments, and all histories of calls that have changed the state of the inner object and of the outer objects",
  "the inner object keeps Taylor coefficients between calls, and the sparsity patterns are computed once for all later calls and selections",
  ["core/chkpoint_two/chkpoint_two.hpp","core/chkpoint_two/ctor.hpp","core/chkpoint_two/forward.hpp","core/chkpoint_two/reverse.hpp","core/chkpoint_two/jac_sparsity.hpp","core/chkpoint_two/hes_sparsity.hpp","core/chkpoint_two/for_type.hpp","core/chkpoint_two/rev_depend.hpp"])
p("Functions that call user atomic functions have right derivatives",
  "If the callbacks of an atomic function satisfy their documented contract then every ADFun that contains calls to it returns right Taylor coefficients (one or several directions), reverse mode derivatives and Jacobian sparsity patterns.",
  "all atomic functions that satisfy the contract, all operation sequences with any number of calls, parameter and variable arguments and results, orders, directions and histories",
  "the library gathers and scatters the coefficients of each call in flat work vectors whose layout depends on the order, the direction and on which arguments and results are parameters",
  ["local/var_op/atomic_op.hpp","local/sweep/call_atomic.hpp","core/atomic/four/forward.hpp","core/atomic/four/reverse.hpp","core/atomic/four/devel/jac_sparsity.hpp"])
p("The abs-normal form represents the function",
  "f.abs_normal_fun(g, a) creates g with n + s independent and m + s dependent variables and a with s dependent variables, where s is the number of absolute values in f: g contains no absolute value, g(x, u) is the evaluation of f with absolute value i replaced by u_i together with the arguments z_i of the absolute values, y(x, a(x)) = f(x), a_i(x) = |z_i(x, a(x))|, z_i does not depend on u_j for j >= i, and the dependent variables of a that Parameter reports as parameters are constant.",
  "all operation sequences, any number and nesting of absolute values, and all points x and u",
  "the new recording renumbers every variable and copies the arguments of each operator by hand; a mistake for one operator shows only in functions that use it",
  ["core/abs_normal_fun.hpp"])
p("The older sparse drivers are right",
  "ForSparseJac, RevSparseJac, RevSparseHes and ForSparseHes return patterns (vectors of bool or of sets, transposed or not) that contain every entry that is not zero at some point; SparseJacobian, SparseJacobianForward, SparseJacobianReverse and SparseHessian return, for the whole matrix or for a requested subset, the values of the first or second partial derivatives, also when work is passed again after a previous call.",
  "all operation sequences, points, weights, patterns that contain the possible non-zeros, subsets, vectors of bool or of sets, previous histories and reused work vectors",
  "colors, orders and reflections of the entries are computed once from the pattern and reused at other points; errors show only for patterns with specific overlaps",
  ["core/for_sparse_jac.hpp","core/rev_sparse_jac.hpp","core/rev_sparse_hes.hpp","core/for_sparse_hes.hpp","core/sparse_jacobian.hpp","core/sparse_hessian.hpp"])
p("Playback visits what was recorded",
  "Every operator stored during a recording (including the ones whose number of arguments is found only in their own argument list) is visited, when the recording is played forward, backward, in any mixture of forward and backward steps, or by random access, with the operator, the arguments and the primary result variable it was stored with; the index sets of a cumulative summation and of a conditional skip, and the texts of a print command, are read back as they were stored.",
  "all sequences of operators, all argument values, all walks of the iterator, all contents of uninitialised memory",
  "the argument length of two operators is data; a wrong adjustment in one direction only shows after such an operator, and the random access tables are built only by subgraph calculations",
  ["local/record/recorder.hpp","local/play/sequential_iterator.hpp","local/play/random_setup.hpp","local/play/random_iterator.hpp","local/play/atom_op_info.hpp","local/op_code_var.hpp","local/optimize/record_csum.hpp","local/optimize/optimize_run.hpp"])
p("Romberg integration has the documented order",
  "RombergOne returns the integral with an error of order 2(p+1) in the step (b-a)/2^(n-1), with a constant that depends only on p and a bound on the derivative of order 2(p+1); it is exact for polynomials of degree at most 2p+1 and uses 2^(n-1)+1 evaluations. Its error output is the distance to the estimate for n-1. RombergMul has the same property in every coordinate.",
  "all smooth integrands (also objects with internal state), limits, numbers of dimensions, all n and p in the documented range p <= n",
  "a wrong extrapolation weight still converges, only with a lower order; integer conversions overflow only for large p",
  ["utility/romberg_one.hpp","utility/romberg_mul.hpp"])
p("OdeErrControl reaches the end of the interval within the error bounds",
  "OdeErrControl terminates for every method; the accepted steps lead from (ti, xi) to (tf, xf) without gap or overlap, every step is a step of the method; a rejected step is tried again from the same point; every accepted step larger than 3 smin / 2 is within its part of the requested error bounds, so the sum ef is at most eabs + erel * maxabs when no step is that small; xf is nan only when the method returned nan for a step of at most 3 smin / 2; all steps are between the documented bounds; nstep is the number of calls.",
  "all methods (with state, any error estimates, nan at any call), intervals, step size and error bounds, initial values of scur",
  "the controller is a loop whose length depends on the error estimates returned; the last steps before tf are special",
  ["utility/ode_err_control.hpp"])
p("Gear's method of arbitrary order is exact, and its controller reaches the end",
  "OdeGear uses the weights of polynomial interpolation: it returns the exact value and a zero error estimate when the solution is a polynomial of degree at most m, and for linear equations the interpolating polynomial satisfies the equation at the new time. OdeGearControl terminates, uses in each call the m most recent points with m growing from 1 to M, reaches tf, returns the sum of the error estimates, respects the step size bounds and accepts only steps within the error bounds or near the minimum size.",
  "all orders m and M, step size sequences, dimensions, equations, intervals and bounds",
  "the weights are products over all previous times, and points are shifted in place after each accepted step",
  ["utility/ode_gear.hpp","utility/ode_gear_control.hpp"])
p("optimize with the val_graph option does not change the function",
  "f.optimize(\"val_graph ...\") converts the operation sequence to a value graph, optimizes it and converts it back. Afterwards f has the same number of dynamic parameters and independent variables, and for all values of both the dependent variables are what they were before; without comparison operators compare_change_number() is zero, with them it is zero exactly where it was zero; fun2val and val2fun alone keep values and compare_change_number().",
  "all operation sequences without VecAD, atomic functions and PrintFor; all hash functions and options; all values of the dynamic parameters and independent variables",
  "the conversions use index maps for parameters, variables and values that are filled on demand, so errors depend on the order of the operators",
  ["local/val_graph/fun2val.hpp","local/val_graph/val2fun.hpp","local/val_graph/val_optimize.hpp"])
p("Recordings on several threads do not depend on the schedule",
  "When threads record at the same time and no thread changes an AD object that another thread uses, every thread stores the same functions, ends with the same recording and the same values in its objects as if it ran alone; an assertion fails in some interleaving exactly if it fails in a thread that runs alone.",
  "all interleavings of all sequences of AD operations, comparisons, conditional expressions, Independent, Dependent and abort_recording on any number of threads, from any state reachable by such operations in which no thread records",
  "the number of interleavings is exponential and a shared tape identifier only matters when objects of finished recordings are used on another thread",
  ["local/ad_tape.hpp","core/tape_link.hpp","core/ad_type.hpp","core/independent/independent.hpp","core/dependent.hpp","core/abort_recording.hpp"])
p("Determinants by minors and by LU factorization",
  "det_of_minor(a, m, n, r, c) returns the determinant of the minor of A that r and c define, and r and c have their original values afterwards; every call of one det_by_minor object, whatever was computed with it before, returns the determinant of its argument; det_by_lu returns the determinant, zero for singular matrices.",
  "all sizes m and n, all matrices over a commutative ring (det_by_lu: real matrices), all representations of minors allowed by the documentation, all sequences of calls",
  "the row and column lists are changed in place in every level of the recursion, and the sizes are unbounded",
  ["speed/det_of_minor.hpp","speed/det_by_minor.hpp","speed/det_by_lu.hpp"])
p("The C source code that to_csrc writes computes the function",
  "The C function written by f.to_csrc evaluates zero order forward mode: for all values of the independent dynamic parameters and variables it returns zero, sets y[i] to the function values, changes no other element, adds the number of comparisons that changed to *compare_change, and reads no element of its local array before it is set. If nu (ny) is not the expected value it returns one (two) and changes nothing; if an atomic callback fails it returns a non-zero flag and does not change y.",
  "all functions that can be recorded with the operators that to_csrc implements, all graphs, all external discrete functions and atomic callbacks, all arguments",
  "the text that is written is a different program for every function; a test compiles only some of them",
  ["core/to_csrc.hpp","/cppad_lib/csrc_writer.cpp"])
p("The atomic functions that come with the library satisfy the contract of atomic functions",
  "The atomic vector operations (+, -, *, /, unary -) and the atomic matrix product: forward computes the requested Taylor coefficients (function values also at singular points), reverse the derivatives of every weighted sum of Taylor coefficients whatever partial_x contains before, the Jacobian and Hessian patterns contain only selected pairs and every selected pair with a derivative that is not zero, rev_depend marks every argument that a needed result depends on, and the type of a result is at least that of the arguments it depends on.",
  "all sizes, orders, Taylor coefficients, weights, selections, ident_zero_x and types",
  "a loop with a wrong limit or a wrong index only changes some orders, some weights or non-square matrices",
  ["example/atomic_four/vector/forward_op.hpp","example/atomic_four/vector/add_op.hpp","example/atomic_four/vector/mul_op.hpp","example/atomic_four/vector/div_op.hpp","example/atomic_four/vector/hes_sparsity.hpp","example/atomic_four/vector/jac_sparsity.hpp","example/atomic_four/vector/rev_depend.hpp","example/atomic_four/vector/for_type.hpp","example/atomic_four/mat_mul/forward.hpp","example/atomic_four/mat_mul/reverse.hpp","example/atomic_four/mat_mul/jac_sparsity.hpp","example/atomic_four/mat_mul/hes_sparsity.hpp","example/atomic_four/mat_mul/rev_depend.hpp","example/atomic_four/mat_mul/for_type.hpp","example/atomic_four/mat_mul/base_mat_mul.hpp"])
p("Derivatives of optimal values",
  "opt_val_hes(x, y, fun, jac, hes) returns in jac the gradient and in hes the Hessian of V(x) = F[x, Y(x)], where F is the sum of the functions S_k and Y is defined by a zero partial of F with respect to y; the result is the sign of the determinant of the second partial with respect to y, and zero if it is singular. BenderQuad(x, y, fun, g, gx, gxx) returns the value, gradient and Hessian of G(x) = F[x, Y(x)] where Y solves H[x, Y(x)] = 0 and fun.dy is a Newton step.",
  "all dimensions n, m and numbers of terms, all two times continuously differentiable functions, all differentiable solutions, all recordings of the functions",
  "the Hessian is correct only because terms with second derivatives of Y cancel; a test has one function and one pair of dimensions",
  ["core/opt_val_hes.hpp","core/bender_quad.hpp"])
p("The functions that ipopt::solve gives to Ipopt are the functions of the user and their derivatives",
  "After the constructor and any history of evaluations (dense or sparse, forward or reverse, with or without retaping), eval_f is the sum of the first nf components of fg at the point of the call, eval_grad_f its gradient, eval_g the other components, the structure of the Jacobian lists distinct positions and contains every position where a derivative is not zero at some point, eval_jac_g gives the derivatives at these positions, the structure of the Hessian lists distinct lower triangular positions and contains every position where the Hessian of the Lagrangian is not zero, eval_h gives these second derivatives for every obj_factor and lambda, and the structures do not change. The bounds, starting point and solution are copied and the status is success only when Ipopt reports success.",
  "all functions, dimensions, points, multipliers, all histories of legal calls (new_x is true or the point is that of the previous call), all contents of uninitialised memory",
  "the object has a state (cached point, Taylor coefficients, work vectors) that depends on the history of calls; patterns are found in groups of columns",
  ["ipopt/solve_callback.hpp","ipopt/solve.hpp","ipopt/solve_result.hpp"])
p("The linear program solvers return solutions",
  "When simplex_method(A, b, c) returns true, xout is feasible (x >= 0, A x + b <= 0) and its cost is not greater than the cost of any feasible point; when lp_box(A, b, c, d) returns true, xout satisfies A x + b <= 0 and |x_j| <= d_j for every finite limit and its cost is minimal; no assertion of the solvers fails. When the linear program has a solution and no iteration limit is met they return true.",
  "all dimensions, matrices, vectors, limits (finite or infinite), iteration limits and contents of uninitialised memory",
  "the number of pivots is unbounded, and degenerate vertices and ties of the ratio test need special data",
  ["/example/abs_normal/simplex_method.hpp","/example/abs_normal/lp_box.hpp"])
p("The quadratic program solvers return approximate KKT points",
  "When qp_interior(c, C, g, G, epsilon, ...) returns true, (xout, yout, sout) satisfies the KKT conditions with maximum absolute error epsilon and yout, sout > 0, so C xout + c < epsilon and, for symmetric positive semi-definite G, the objective at xout exceeds that at any feasible point z by at most epsilon times (|z - xout|_1 + |yout|_1 + m); every step that is tried is the Newton step. When qp_box(a, b, c, C, g, G, ...) returns true the same holds for the problem with the additional limits a <= x <= b, for every combination of finite and infinite limits.",
  "all dimensions, matrices, vectors, limits (finite or infinite), starting points, tolerances, iteration limits and contents of uninitialised memory",
  "the number of iterations is unbounded; the position of a limit in the larger problem depends on which other limits are finite",
  ["/example/abs_normal/qp_interior.hpp","/example/abs_normal/qp_box.hpp"])
p("The abs-normal approximation and its minimization",
  "With the value and Jacobian of the abs-normal form g at (x, a(x)), abs_eval(n, m, s, g_hat, g_jac, delta_x) returns the abs-normal approximation: the unique solution of its defining equations; it differs from f(x + delta_x) by at most C |delta_x|^2. When abs_min_linear returns true and the approximation is convex, delta_x is in the trust region and its value exceeds the minimum in the trust region by at most the larger of epsilon[1] times the distance and 2 K n epsilon[0] (K is a Lipschitz constant). The objective at x_out of min_nso_linear is at least epsilon[1] |x_out - x_in| smaller than at x_in; when it returns true, zero is an approximate minimizer of the approximation at x_out in a trust region; no assertion fails.",
  "all functions with any number of (nested) absolute values, all dimensions, points, steps, bounds, tolerances and iteration limits, all solvers of the linear programs that are correct when they return true",
  "the approximation is piecewise linear with exponentially many pieces, the number of cutting planes is unbounded, kinks are met only at special points",
  ["/example/abs_normal/abs_eval.hpp","/example/abs_normal/abs_min_linear.hpp","/example/abs_normal/min_nso_linear.hpp"])
p("atan2 of AD objects is the angle of the point",
  "For AD objects y and x, each a constant, a dynamic parameter or a variable, the recorded result of atan2(y, x) evaluates at every point other than the origin to the angle in (-pi, pi] of the point (x, y), for the current values of the independent variables and dynamic parameters, in all four quadrants and on the axes and diagonals; its Taylor coefficients are those of the angle.",
  "all values of the two arguments, all combinations of argument types, all positions in a larger algorithm, all histories of Forward and new_dynamic calls",
  "the result is selected by six conditional expressions; an error at one seam or for one combination of argument types is only seen when evaluating at other points than where it was recorded",
  ["/include/cppad/core/atan2.hpp","/include/cppad/core/cond_exp.hpp"])
p("PrintFor prints during Forward exactly what its documentation says",
  "f.Forward(q, xq, s) with lowest order zero prints on s before, value, after for exactly those calls PrintFor(notpos, before, value, after) of the recorded operation sequence for which notpos is not greater than zero at the argument and the current dynamic parameters, in the order of the calls, with value also at the argument and the current dynamic parameters, and with the strings as they were at the call; Forward with higher orders only prints nothing. A call of PrintFor does not change the function that is recorded.",
  "all algorithms, strings, arguments, values of the dynamic parameters, combinations of constants, dynamic parameters and variables for notpos and value, all histories of Forward and new_dynamic calls",
  "the strings share one text vector and the operands are in three tables; a wrong offset or type shows only for some combination of calls and types at other arguments than those of the recording",
  ["/include/cppad/core/print_for.hpp","/include/cppad/local/var_op/pri_op.hpp","/include/cppad/local/record/recorder.hpp"])
p("Atomic matrix inverse and Cholesky factor",
  "forward of an atomic_eigen_mat_inv object computes the Taylor coefficients of all requested orders of the inverse of the matrix it is given, and reverse the derivatives of every weighted sum of them with respect to all the coefficients of the matrix; forward and reverse of an atomic_eigen_cholesky object do the same for the Cholesky factor of a symmetric positive definite matrix (the lower triangles are the arguments and the results). An object may be used in several calls and with matrices of different sizes.",
  "all sizes, orders, invertible or positive definite matrices, weights, and all histories of forward and reverse calls of one object",
  "an error in one of the recursions over the orders shows only for special orders and non-commuting matrices; the object keeps the coefficients of previous calls",
  ["/include/cppad/example/atomic_two/eigen_mat_inv.hpp","/include/cppad/example/atomic_two/eigen_cholesky.hpp"])
p("A checkpoint object (first generation) evaluates its function",
  "A call of an object of the class checkpoint behaves as the function f that it recorded: forward returns the Taylor coefficients of f along the argument, for every order, reverse the derivatives of every weighted sum of them; a result that is a parameter in the outer recording does not change with the arguments that are variables; for_sparse_jac, rev_sparse_jac and rev_sparse_hes contain every entry that is not zero of f'(x) R, S f'(x), f'(x)^T U + (S f)''(x) R, with vectors of bool and of sets. No assertion fails.",
  "all functions, orders, arguments, weights, patterns, and all histories of recordings, forward and reverse mode calculations and sparsity calculations with the two pattern types, which share the cached patterns of the object",
  "the patterns are cached and are replaced or dropped by other calls; an error needs a certain sequence of calls and a function whose dependency and Jacobian patterns differ",
  ["/include/cppad/core/chkpoint_one/chkpoint_one.hpp","/include/cppad/core/chkpoint_one/forward.hpp","/include/cppad/core/chkpoint_one/rev_sparse_hes.hpp","/include/cppad/core/chkpoint_one/set_hes_sparse_set.hpp"])
p("The internal vectors keep their elements and their memory",
  "Any history of constructors, extend, resize, clear, swap, assignment, push_back and element assignment on pod_vector and pod_vector_maybe behaves as on mathematical sequences: extend and push_back preserve all the elements, resize preserves them when the new size is at most the capacity. Capacity is never smaller than size and only clear and swap make it smaller. No memory is used after it is returned, or is leaked or shared; when the element type is not plain old data every object is constructed and destroyed once and only objects are assigned.",
  "all histories, element types, sizes, and all capacities that the allocator returns",
  "reallocation points depend on the history; use of returned memory has usually no visible effect in a test",
  ["/include/cppad/local/pod_vector.hpp"])
p("A recorded LU factorization and its pivot ratio",
  "When LuRatio(ip, jp, LU, ratio) with a matrix that depends on the independent variables is recorded, a zero result means that the matrix at the recording is singular. Otherwise ratio is one at the recording, and at every other argument for which the recorded pivots are not zero, L * U is the matrix at that argument with rows and columns permuted by ip and jp, sign times the product of the pivots is its determinant, and ratio is the maximum over all pivots and all elements of the corresponding sub-matrix of the absolute value of element / pivot.",
  "all sizes, all matrices, all dependencies of the matrix on the independent variables, all arguments",
  "the pivots are chosen at the recording and used elsewhere; the ratio is a conditional maximum over all steps of the elimination",
  ["/include/cppad/core/lu_ratio.hpp"])
p("The functions with known derivatives",
  "sparse_jac_fun(m, n, x, row, col, 1, fp) sets fp[k] to the derivative of component row[k] of the function of sparse_jac_fun with p = 0 with respect to x[col[k]], sparse_hes_fun(n, x, row, col, 2, fp) sets fp[k] to its second partial with respect to x[row[k]], x[col[k]]; derivatives that are not of the listed forms are zero; mat_sum_sq computes the square of a matrix and the sum of its elements; ode_evaluate(x, 1, fp) computes the derivative of the solution of its differential equation at t = 1 with respect to the initial value.",
  "all sizes, index vectors that the documentation permits, and arguments",
  "these functions are what derivatives are compared with in tests; the value for one pattern of rows and columns says nothing about another, in particular with entries that are reflected or on the diagonal",
  ["/include/cppad/speed/sparse_jac_fun.hpp","/include/cppad/speed/sparse_hes_fun.hpp","/include/cppad/speed/mat_sum_sq.hpp","/include/cppad/speed/ode_evaluate.hpp"])
p("The fifth order Runge-Kutta solver",
  "For a smooth F and a number of steps M >= 1, Runge45(F, M, ti, tf, xi, e) returns xf with X(tf) = xf + O(h^6) and sets e to O(h^5), where h = (tf - ti) / M, X(ti) = xi, X'(t) = F(t, X(t)). If an element of a vector f that F.Ode returns is not a number, then all the elements of xf and of e are not numbers. The input value of e does not matter.",
  "all smooth functions F of all dimensions, numbers of steps, initial times and values; for not a number, all functions F whatsoever",
  "a test compares with one solution and a tolerance; a wrong digit in the table of the method lowers the order without large errors at the step sizes of the tests, and the order is a statement about all small steps and all F",
  ["/include/cppad/utility/runge_45.hpp"])
p("The Rosenbrock solver for stiff equations",
  "For a smooth F whose partial derivatives are what Ode_ind and Ode_dep return and a number of steps M >= 1, Rosen34(F, M, ti, tf, xi, e) returns xf with X(tf) = xf + O(h^5) and sets e to O(h^4), where h = (tf - ti) / M, X(ti) = xi, X'(t) = F(t, X(t)). If an element of a vector f, f_t or f_x that F returns is not a number, then all the elements of xf and of e are not numbers. The input value of e does not matter.",
  "all smooth functions F of all dimensions, numbers of steps, initial times and values; for not a number, all functions F whatsoever",
  "a test compares with one solution and a tolerance; a wrong constant of the method, a wrong time derivative, or an old evaluation in the wrong place lowers the order, which is a statement about all small steps and all F that depend on t and x",
  ["/include/cppad/utility/rosen_34.hpp", "/include/cppad/utility/lu_factor.hpp", "/include/cppad/utility/lu_invert.hpp"])
p("NearEqual",
  "NearEqual(x, y, r, a) with r, a >= 0 is false if x or y is infinite or not a number; otherwise it is true exactly if |x - y| <= r (|x| + |y|) or |x - y| <= a. The same holds when x or y or both are complex. For real arguments given as complex numbers with zero imaginary parts the result is the same. The result does not depend on the order of x and y.",
  "all real and complex x and y whose parts are finite, infinite or not a number, and all finite r, a >= 0",
  "tests compare a few pairs; the special cases are combinations of finite, infinite and not a number in each part and each argument, and a wrong variable in one of them shows only for one combination",
  ["/include/cppad/utility/near_equal.hpp: near_equal_isfinite, NearEqual"])
p("number_skip counts the variables that are skipped",
  "After a zero order Forward, number_skip() plus the number of variables that this call has computed is the number of variables in the operation sequence, if every conditional skip in the sequence comes before the operators that it skips. In general number_skip() is at least the number of variables that have not been computed. A variable that has not been computed still has the value that was in memory before. Without conditional skip operators number_skip() is zero.",
  "all operation sequences (with calls of atomic functions, VecAD and cumulative sums), all values of the independent variables and dynamic parameters, all contents of the memory before the sweep",
  "the count depends on which comparisons hold at the point; a test sees one sequence and few points, and an operator with several results or inside a call of an atomic function is counted wrong only there",
  ["/include/cppad/core/num_skip.hpp: number_skip", "/include/cppad/local/sweep/forward_0.hpp", "/include/cppad/local/op_code_var.hpp: NumRes"])
