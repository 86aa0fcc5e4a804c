claim("C01", "proved", ["forward_all_orders", "forward_one_order"],
  "For every well formed recording of the elementary operators and of calls to atomic functions whose callbacks satisfy the documented contract (structure Atom), every history of Forward/Reverse/capacity_order calls, every order. Base = real numbers.")
claim("C02", "proved", ["reverse_derivative"],
  "Every recording, history, order q and weights; derivative stated with HasDerivAt. The power operator pow(x,p) with variable base is assumed at points in its smooth domain (x>0, or integer cases covered by the certificate).")
claim("C03", "proved", ["reverse_derivative_one_weight"], "")
claim("C04", "proved", ["forward_one_at_a_time"], "one order at a time against all orders in one call, for two arbitrary histories")
claim("C05", "proved", ["forward_directions", "forward_directions_eq_single"], "")
claim("C29", "proved", ["size_order_ok", "capacity_order_transparent", "Reach.inv"],
  "The history relation Reach carries the specified coefficients; C01-C05 are stated over it, so reallocation never loses or mixes coefficients.")
claim("C36", "proved", ["jacobian_ok", "forOne_ok", "revOne_ok", "hessian_ok", "hessianIdx_ok", "revTwo_ok", "forTwo_ok"], "each driver as a loop of modelled Forward/Reverse calls started from any history")
claim("C22", "partial", ["SetVec.Pack.pack_setvec_history", "SetVec.Pack.pack_setvec_number_partial", "SetVec.Pack.pack_setvec_number_wrong", "SetVec.Pack.pack_setvec_ofUser"],
  "Every query except number_elements is proved for every legal history and every word size. number_elements is proved only when a set fits in one word: for larger sets the property is false of the code (pack_setvec_number_wrong exhibits a legal history whose result is 0 for a set with one element).")
claim("C23", "proved", ["SetVec.LV.list_setvec_history", "SetVec.LV.list_setvec_ofUser"],
  "Heap model with cells, reference counts, free list; all legal histories over any number of objects.")
claim("C24", "proved", ["SetVec.LV.list_setvec_accounted"], "The free list, the posting lists and the lists of the distinct headers together are a permutation of the cells 1 .. size-1.")
claim("C25", "partial", ["SetVec.SV.svec_setvec_history_partial", "SetVec.SV.svec_setvec_ofUser", "SetVec.SV.svec_setvec_wrong_growth", "SetVec.SV.svec_setvec_wrong_compaction"],
  "All legal histories over any number of objects, with sharing, copy on write and garbage collection, in which at most ten elements are posted to a set before they are processed and nothing is posted and unprocessed in another set of the object while a set is changed. Without that restriction the claim is false of the code: post_element extends by 2*capacity cells instead of 2*capacity+2 (wrong_growth), and collect_garbage does not move posted elements (wrong_compaction).")
claim("C18", "proved", ["Color.color_general_valid"], "color_general_cppad for every pattern, every list of requested entries, every initial content of the work vector. Precondition as in the code: requested entries are in the pattern.")
claim("C19", "proved", ["Color.Sym.color_symmetric_valid"], "color_symmetric_cppad for every symmetric pattern, every list of requested entries of the pattern, every std::sort that meets its contract, and every initial content of the work vector.")
claim("C26", "proved", ["IndexSort.index_sort_sorts"], "index_sort for all vectors of keys and every std::sort that meets its contract in the C++ standard (StdSort).")
claim("C20", "proved", ["SparseJac.sparse_jac_for_ok", "SparseJac.sparse_jac_rev_ok"], "sparse_jac_for and sparse_jac_rev with the cppad coloring, any history, group_max > 0, empty or reused work. ColPack coloring is an external library and not modelled.")
claim("C21", "proved", ["SparseHes.sparse_hes_ok"], "sparse_hes with the colorings cppad.general and cppad.symmetric, any history, empty or reused work. For cppad.symmetric the pattern must be symmetric (rev_hes_sparsity_symm_partial in C17: the computed pattern is). The pattern only has to cover the part of the Hessian that matters for the subset (Matters). ColPack colorings are not modelled.")
claim("C27","partial",["SparseRc.row_major_col_major","SparseRc.entries_ok","SparseRc.eq_ok_partial","SparseRc.eq_reads_outside"],"operator== tests `this_row_ok && this_row_ok` (sparse_rc.hpp:451, and 455 for columns), so it reads outside of an empty vector when only the left operand has its order cached (eq_reads_outside); equality is proved correct when the cached orders agree (OrderOk)")
claim("C34","proved",["PowPoly.pow_int_ok","PowPoly.poly_ok"],"any field, any int exponent, any order k, any non empty coefficient vector")
claim("C40","proved",["ErrHandler.call_most_recent","ErrHandler.destruct_restores"],"every nesting history; sequential execution mode")
claim("C15","proved",["Sparsity.for_jac_sparsity_ok","Sparsity.for_jac_sparsity_dependency","Sparsity.for_jac_sparsity_covers","Sparsity.Vec.vec_for_jac_sparsity_ok","Sparsity.Vec.vec_for_jac_sparsity_dependency","Sparsity.Vec.recorded_for_dependency_partial"],"for every tape of the modelled operators, any seed pattern, transpose and dependency flags; sets are mathematical sets (C22, C23); calls of atomic functions (atomic_four jac_sparsity with the documented contract) included; the theorems Sparsity.Vec.* are for recordings with VecAD loads and stores (every function that results from a recording, funOk_session), where the pattern is shown to cover the operations found at every point")
claim("C16","proved",["Sparsity.rev_jac_sparsity_ok","Sparsity.rev_jac_sparsity_dependency","Sparsity.rev_jac_sparsity_covers","Sparsity.Vec.vec_rev_jac_sparsity_ok","Sparsity.Vec.vec_rev_jac_sparsity_dependency","Sparsity.Vec.recorded_rev_dependency_partial"],"as C15, reverse mode")
claim("C17","partial",["Sparsity.rev_hes_sparsity_ok_partial","Sparsity.for_hes_sparsity_ok_partial","Sparsity.rev_hes_sparsity_covers","Sparsity.for_hes_sparsity_covers_partial","Sparsity.rev_hes_sparsity_symm_partial","Sparsity.Vec.vec_rev_hes_sparsity_ok_partial","Sparsity.Vec.vec_for_hes_sparsity_ok_partial","Sparsity.rev_hes_sparsity_wrong","Sparsity.for_hes_sparsity_wrong_cexp","Sparsity.for_hes_sparsity_wrong_zmulpv","Sparsity.rev_hes_sparsity_wrong_atom"],"the full claim is false of the code: counterexamples proved for CondExp and azmul(parameter, variable) in for_hes_sparsity, for duplicated dependent variables in rev_hes_sparsity, and for an atomic function in rev_hes_sparsity when the forward Jacobian pattern has an empty row; proved for all other tapes and selections")
claim("C06","partial",["Record.replay_function_partial","Record.replay_forward_zero_partial","Record.replay_forward_partial","Record.replay_at_recorded_point_partial","Record.replay_plain","Record.condExp_constant_wrong","Record.pow_zero_wrong"],"every algorithm (AD operations, VecAD, calls of atomic functions with any mixture of constant, dynamic and variable arguments and results, comparisons and branches on their outcome), every session, every history of new_dynamic calls (Record/AtomExample has a session with an atomic call). The arguments and results of an atomic call are different vectors. The full claim is false of the code: CondExp with constant left and right operands and pow(0, .) are recorded as constants (condExp_constant_wrong, pow_zero_wrong); hypothesis Faithful excludes exactly these uses, and replay_plain needs no exclusion for algorithms without pow and CondExp")
claim("C07","partial",["Record.replay_function_partial","Record.replay_forward_zero_partial","Record.newDynamic_last","Record.replay_plain"],"same exclusion as C06")
claim("C09","proved",["Record.put_con_par_faithful"],"any hash function, any table contents reached by recording")
claim("C10","partial",["Record.compare_change_number_partial","Record.compare_change_zero_partial"],"same exclusion as C06")
claim("C11","partial",["Record.cexp_forward_selected","Record.cexp_reverse_selected","Record.replay_function_partial","Record.condExp_constant_wrong"],"forward and reverse of every order take the selected branch; the recording of CondExp with constant left and right operands is wrong (condExp_constant_wrong)")
claim("C12","partial",["Record.replay_function_partial","Record.replay_forward_zero_partial","Record.replay_forward_partial","Record.replay_forward_local_partial","Record.tape_forward_zero","Record.tape_forward_any","Record.loadForward_ok","Record.loadReverse_ok","Record.replay_plain"],"every algorithm that creates, loads and stores VecAD vectors (constant, dynamic and variable indices and elements) mixed with all other AD operations and branches, every history. Index out of range stops the C++ program; in the model it reads zero. Same exclusion as C06 for pow(0, .) and constant CondExp")
claim("C39","partial",["azmul_eq","Record.azmul_eq","Gen.reverse_skip_partial","Gen.reverse_dead_values_partial","Gen.reverse_zero_weight",
  "Gen.shortcut_exp","Gen.shortcut_expm1","Gen.shortcut_erf","Gen.reverse_real","Gen.log_component","Gen.reverse_wrong_pow_zero"],
  "Reverse mode over an arbitrary Base with nan and infinities (only a few laws about zero are assumed; instances for the reals and for reals "
  "with nan and infinities): leaving out operators with zero partials, zero weights and values of components with zero weight do not "
  "change the result.  Partial: false of the code for pow(x, parameter) when x is zero (reverse_wrong_pow_zero: the derivative of "
  "x + pow(x,2) at 0 is returned as 0).  Atomic calls are not in the arbitrary Base model.")
claim("C08","proved",["Record.Threads.finished_is_constant","Record.Threads.recordings_distinct","Record.Threads.recorder_agrees","Record.Threads.new_recording_ok"],"every history of constructions, copies, AD operations, Independent, Dependent and abort_recording on any number of threads sharing memory; identifiers are natural numbers (the code asserts when the type is exhausted)")

claim("C35", "proved", ["Lu.luFactor_ok", "Lu.luInvert_ok", "Lu.luSolve_ok", "Lu.luSolve_real", "Lu.luSolve_complex"],
      "Exact field arithmetic; the pivoting comparison is any AbsGeq that compares sizes (the two in the code are shown to be), "
      "every n, m and every matrix.")

claim("C28", "proved", ["Alloc.no_error", "Alloc.get_memory_ok", "Alloc.get_memory_reuses", "Alloc.counts_ok",
  "Alloc.blocks_ok", "Alloc.free_all_ok", "Alloc.double_return", "Alloc.frame", "Alloc.request_too_large"],
  "thread_alloc, for every history of valid calls of get_memory, return_memory, free_available, hold_memory and free_all and "
  "every system allocator that returns memory that is not allocated.  request_too_large proves a defect of the code: with a 64 "
  "bit size_t some arguments that pass the check of the argument have no capacity.")

claim("C33", "partial", ["Util.Vector.history_ok_partial", "Util.Vector.self_assign_empties", "Util.Vector.memory_ok",
  "Util.Vector.compare_ok", "Util.Vector.equal_ok"],
  "every history of constructions, destructions, resize, clear, swap, copy and move assignment, element assignment, push_back "
  "(also of a reference to an element) and push_vector (also of the vector itself) on any number of vectors, with memory safety. "
  "The full claim is false of the code: copy assignment of a vector to itself removes all its elements (self_assign_empties).")
claim("C32", "proved", ["Util.VectorBool.history_ok", "Util.VectorBool.memory_ok"],
  "every number of bits per unit, every history of operations on any number of vectors, with memory safety")
claim("C37", "proved", ["Subgraph.subgraph_sparsity_exact"], "every recording of the modelled operators and calls of atomic functions, selection, and previous contents of the subgraph data")
claim("C38", "proved", ["Subgraph.subgraph_reverse_ok", "Subgraph.subgraph_reverse_eq_reverse"], "every recording of the modelled operators and calls of atomic functions, history, sequence of components after one selection, order q; work memory arbitrary")
claim("C41", "partial", ["Subgraph.subgraph_jac_rev_select_ok", "Subgraph.subgraph_jac_rev_subset_ok_partial", "Subgraph.subgraph_jac_rev_subset_wrong"],
  "The version with select_domain and select_range is proved. The version with a subset is proved for the entries for which the code does not read after the end of dw_col; "
  "for the others the claim is false of the code (subgraph_jac_rev_subset_wrong: an entry whose derivative is 0 is set to 1).")
claim("C30", "partial", ["ValGraph.renumber_ok_partial", "ValGraph.dead_code_ok_partial", "ValGraph.dead_code_con_ok_partial", "ValGraph.fold_con_ok",
  "ValGraph.summation_ok_partial", "ValGraph.val_optimize_ok_partial", "ValGraph.dead_code_wrong", "ValGraph.compress_wrong",
  "ValGraph.renumber_vec_wrong", "ValGraph.val_optimize_sum_wrong"],
  "every value graph without dynamic vector operators, every hash function, every point (nan included; summation: points where no sum is nan), any atomic functions "
  "whose for_type / rev_depend are right.  The full claim is false of the code: renumber matches loads across a store (renumber_vec_wrong), compress uses indices of the "
  "old tape (compress_wrong), dead_code keeps comparisons but not their operands (dead_code_wrong), and so after summation (val_optimize_sum_wrong)")
claim("C13", "partial", ["Optim.optimize_preserves_partial", "Optim.optimize_preserves_noskip_partial", "Optim.optimize_drops_store",
  "Optim.optimize_skips_stored", "Optim.optimize_loses_dynamic"],
  "every recording (calls of atomic functions included, also those with dynamic parameter results, with any rev_depend callback that meets its contract; not PriOp), every combination of the options, every hash function, every order of the conditional skips, every value of the dynamic "
  "parameters, independent variables and old memory.  The full claim is false of the code for recordings that store a parameter in a VecAD vector (optimize_drops_store), "
  "that combine VecAD and conditional skip (optimize_skips_stored), or that have already been optimized and use dependent dynamic parameters in a sum (optimize_loses_dynamic)")
claim("C14", "partial", ["Optim.cskip_no_effect_partial", "Optim.optimize_junk_partial", "Optim.optimize_skips_stored"],
  "same exclusions as C13")
claim("C31", "partial", ["Graph.toGraph_values", "Graph.fromGraph_values_partial", "Graph.roundTrip_values", "Graph.json_graph", "Graph.json_values",
  "Graph.json_text", "Graph.json_function", "Graph.fromGraph_compare_wrong", "Graph.json_atom4_wrong", "Graph.json_atom_no_args_wrong",
  "Graph.json_quote_wrong", "Graph.json_nan_wrong"],
  "to_graph and from_graph: every recording and every graph without CSkipOp, VecAD operators and atomic functions; every hash function, set of registered discrete "
  "functions, values.  compare_change after from_graph is right only when no operand of a comparison is a constant: the code is wrong otherwise (fromGraph_compare_wrong).  "
  "JSON: every graph (atomic functions and print included) whose names have no quotes, whose numbers are in the range of int, whose atomic functions have arguments and are not atom4; "
  "the code is wrong for each of these exclusions (json_*_wrong).  Conversion of floating point numbers to text is a parameter.")
claim("C42", "partial", ["Chkpoint.checkpoint_forward", "Chkpoint.checkpoint_reverse", "Chkpoint.inlined_ok", "Chkpoint.forward_same_function", "Chkpoint.reverse_same_function",
  "Chkpoint.call_value", "Chkpoint.for_type_ok", "Chkpoint.for_type_attained", "Chkpoint.constant_result", "Chkpoint.parameter_result", "Chkpoint.rev_depend_ok", "Chkpoint.ctorJac_zero", "Chkpoint.ctorJac_dep", "Chkpoint.ctorHes_zero", "Chkpoint.checkpoint_hes_wrong"],
  "values, forward and reverse mode, Jacobian sparsity, for_type and rev_depend: everything (checkpoint_forward and checkpoint_reverse replace one call whose arguments are variables; forward_same_function has no such restriction). "
  "Hessian sparsity is proved except for inner functions with CondExp or azmul(parameter, variable) and n <= m, where the code is wrong (checkpoint_hes_wrong). base2ad not modelled.")
claim("C43", "proved", ["forward_all_orders", "forward_one_order", "forward_directions", "reverse_derivative", "Sparsity.for_jac_sparsity_ok", "Sparsity.rev_jac_sparsity_ok", "Sparsity.for_jac_sparsity_dependency", "Sparsity.rev_jac_sparsity_dependency", "AtomCall.selX_iff", "AtomCall.selY_iff", "Record.atomAD_ok", "Record.replay_plain"],
  "the operation sequences of these theorems contain calls of atomic functions (Op.atom); the contract of the callbacks is the structure Atom; Chkpoint.atom, AtomEx.linAtom and Sparsity.idAtom are instances. Recording of a call (atomic_four operator(), put_dyn_atomic, put_var_atomic, the dynamic sweep) for every mixture of argument types: Record.atomAD_ok, Record.replay_plain. Hessian sparsity is in C17. Not modelled: ax and ay the same vector.")
claim("C44", "partial", ["AbsNormal.abs_normal_partial", "AbsNormal.abs_normal_relations_partial", "AbsNormal.abs_normal_wrong_erf", "AbsNormal.abs_normal_wrong_parameter"],
  "every operation sequence without erf, erfc, VecAD, PrintFor, atomic calls and operators made by optimize.  The claim is false of the code for erf and erfc (the first argument is not copied: abs_normal_wrong_erf) "
  "and for a.Parameter (abs_normal_wrong_parameter); VecAD vectors are not copied and CSumOp, CSkipOp are not handled (not modelled).")
claim("C45", "partial", ["Legacy.for_sparse_jac_ok", "Legacy.for_sparse_jac_dependency", "Legacy.rev_sparse_jac_ok", "Legacy.rev_sparse_jac_dependency",
  "Legacy.rev_sparse_hes_ok_partial", "Legacy.for_sparse_hes_ok_partial", "Legacy.sparse_jacobian_forward_ok", "Legacy.sparse_jacobian_reverse_ok",
  "Legacy.sparse_jacobian_ok", "Legacy.sparse_jacobian_x_ok", "Legacy.sparse_hessian_work_ok", "Legacy.sparse_hessian_ok", "Legacy.sparse_hessian_x_ok_partial",
  "Legacy.rev_sparse_hes_wrong", "Legacy.sparse_hessian_wrong", "Legacy.sparse_hessian_column_subset_wrong"],
  "everything for Jacobians.  The Hessian claims are false of the code for RevSparseHes with vectors of bool and SparseHessian(x, w) when two components are the same variable (rev_sparse_hes_wrong, sparse_hessian_wrong), "
  "for ForSparseHes with CondExp or azmul(parameter, variable) (as in C17), and the documented Column Subset remark is false for the symmetric coloring (sparse_hessian_column_subset_wrong); proved otherwise. SparseHessian(x, w) excludes atomic functions.  ColPack not modelled.")
claim("C46","proved",["Play.record_ok","Play.record_taddr","Play.sequential_ok","Play.forward_reach","Play.backward_reach","Play.random_ok","Play.readCsum_ok","Play.readCskip_ok","Play.getTxt_ok","Play.numRes_ok"],
  "every sequence of operators that starts with BeginOp and ends with EndOp; sequential_ok is about every walk of the iterator.  Arguments are natural numbers (addr_t without overflow).")
claim("C47","partial",["Romberg.rombergOne_order_partial","Romberg.rombergOne_exact_partial","Romberg.rombergOne_error_estimate","Romberg.rombergOne_evaluations","Romberg.rombergOne_top_wrong","Romberg.rombergOne_int_wrong","Romberg.rombergMul_order_partial","Romberg.rombergMul_exact_partial","Romberg.rombergMul_evaluations","Romberg.rombergMul_assert_wrong"],
  "Partial because the documented claim is false for p = n (rombergOne_top_wrong) and for p = 16 (the conversion int(4^16) is zero: rombergOne_int_wrong, the integral of the constant one is returned as a negative number); proved for p < n, p <= 15, n <= 31. The debug assertion in RombergMul fails for every call with three or more dimensions (rombergMul_assert_wrong). Exact real arithmetic.")
claim("C48","partial",["Ode.odeErrControl_path","Ode.odeErrControl_method","Ode.odeErrControl_nan","Ode.odeErrControl_calls_start","Ode.odeErrControl_accept","Ode.odeErrControl_error","Ode.odeErrControl_size_partial","Ode.odeErrControl_smin","Ode.odeErrControl_one_step","Ode.odeErrControl_nstep_bound","Ode.odeErrControl_smax_wrong","Ode.odeErrControl_negative_wrong"],
  "Partial because the documented bound smax on the step size is false of the code: the step that reaches tf may be 3 smax / 2 (odeErrControl_smax_wrong). Error estimates are documented to be non-negative; negative ones are ignored (odeErrControl_negative_wrong). Exact real arithmetic with nan; infinities not modelled.")
claim("C49","partial",["Ode.odeGear_fields","Ode.odeGear_weights","Ode.odeGear_exact","Ode.odeGear_linear","Ode.odeGearControl_result","Ode.odeGearControl_history","Ode.odeGearControl_calls","Ode.odeGearControl_size_partial","Ode.odeGearControl_accept","Ode.odeGearControl_error","Ode.odeGearControl_smax_wrong"],
  "Partial because the documented bound smax is false (odeGearControl_smax_wrong), and because for m = 1 the code does not scale the error criterion by the step size, so the bound on ef has the factor 11/10 (M >= 2; none for M = 1). Exact real arithmetic.")
claim("C50","partial",["ValGraph.optimize_val_ok_partial","ValGraph.fun2val_ok","ValGraph.val2fun_ok","ValGraph.optimize_val_dyn_wrong","ValGraph.optimize_val_azmul_wrong","ValGraph.optimize_val_compare_wrong","ValGraph.optimize_val_cancel_wrong","ValGraph.optimize_val_dyn_csum_wrong"],
  "Partial because the claim is false of the code: dynamic parameters that are products, quotients, powers or functions other than negation (optimize_val_dyn_wrong), azmul (optimize_val_azmul_wrong), comparisons with a constant (optimize_val_compare_wrong) and sums that cancel (optimize_val_cancel_wrong) get an invalid operator or index; a cumulative sum of dynamic parameters adds the subtracted ones (optimize_val_dyn_csum_wrong: x*(p-q-r) becomes x*(p+q+r)); and the defects of C30. Proved for every conversion that does not meet an invalid index. VecAD, atomic functions and PrintFor are not modelled in the conversions.")
claim("C51","proved",["Record.Threads.schedule_ok","Record.Threads.schedule_independent"],
  "A schedule is a list of API calls with their thread; a call is one step (data races inside a call are excluded because calls of different threads use disjoint tapes, identifiers and objects, Record.Threads.step_other). VecAD and atomic functions are not in this model.")
claim("C52","proved",["Det.detOfMinor_ok","Det.detByMinor_ok","Det.detByLu_ok"],
  "Scalar is a commutative ring, for det_by_lu the real numbers with exact arithmetic. n = 0 is excluded (the code asserts that r[m] < m).")
claim("C53","partial",["Csrc.csrc_values_partial","Csrc.toCsrc_values_partial","Csrc.evalGraph_eq","Csrc.toCsrc_sum_wrong"],
  "Partial because the claim is false of the code: a sum with one term is written as zero, so the C function for x0 + x1 - x2 (one cumulative summation after optimize) computes x0 + x1 without an error (toCsrc_sum_wrong). neg, conditional expressions, print and atomic_three functions are reported as not implemented. Proved for all graphs without these. The C code is modelled by its abstract syntax with real numbers; undefined behaviour is part of the semantics.")
claim("C54","partial",["AtomEx.vecForward_zero","AtomEx.vecForward_ok","AtomEx.vecReverse_ok","AtomEx.vecJac_sel","AtomEx.vecJac_zero","AtomEx.vecJac_dep","AtomEx.vecHes_linear","AtomEx.vecHes_mul","AtomEx.vecRevDepend_ok","AtomEx.vecForType_ok","AtomEx.linAtom_ok","AtomEx.matForward_zero","AtomEx.matForward_ok","AtomEx.matReverseDoc_ok","AtomEx.matReverse_ok_partial","AtomEx.matJac_sel","AtomEx.matJac_zero_partial","AtomEx.matJac_dep_partial","AtomEx.matHes_sel","AtomEx.matHes_zero","AtomEx.matRevDepend_ok","AtomEx.matForType_ok","AtomEx.baseMatMul_matrix","AtomEx.vecHes_mul_not_sel","AtomEx.vecHes_div_wrong","AtomEx.matReverse_not_ok","AtomEx.matJac_zero_wrong"],
  "Partial because the claim is false of the code: hes_sparsity of the vector product has arguments that are not selected (vecHes_mul_not_sel), of the quotient it misses the second derivative with respect to the denominator (vecHes_div_wrong); reverse of the matrix product is wrong when a weight of an order below the highest is not zero (matReverse_not_ok; proved for the other weights, and for the loop that its comment describes); jac_sparsity of the matrix product drops elements when an element of A or B is identically zero (matJac_zero_wrong; proved when ident_zero_x is false for the first n_left * n_right arguments). The callbacks with AD<Base> coefficients, lin_ode and atomic_three/mat_mul.hpp are not modelled.")
claim("C55","partial",["OptVal.optVal_ok_partial","OptVal.optValWith_ok","OptVal.benderQuad_ok","OptVal.optVal_outside","OptVal.optVal_assert"],
  "Partial because the claim is false of the code: line 414 makes the vector for y with n elements, and line 500 makes the matrix F_yy with n * m elements, so opt_val_hes writes outside of a vector or fails an assertion whenever n < m (optVal_outside), and for the Hessian whenever n is not m (optVal_assert). Proved for n = m (gradient: m <= n), and for all sizes with vectors of the right size (optValWith_ok). BenderQuad is proved in full. That a recording computes the user's function is a hypothesis here; it is C06 and C13.")
claim("C56","partial",["Ipopt.evalF_ok","Ipopt.evalG_ok","Ipopt.evalGradF_ok","Ipopt.jacStructure_ok_partial","Ipopt.evalJacG_ok_partial","Ipopt.hesStructure_ok_partial","Ipopt.evalH_ok_partial","Ipopt.structure_const","Ipopt.bounds_ok","Ipopt.finalize_ok","Ipopt.hesStructure_wrong"],
  "Partial because the claim is false of the code in the sparse case when atomic functions are called and nx is greater than the number of bits in a unit of vectorBool (64): the Hessian pattern is determined in groups of columns, and RevSparseHes loses second derivatives between groups (hesStructure_wrong, for every number of bits). Proved for dense with atomic functions and for sparse without them. That a recording (and optimize) computes the user's function is a hypothesis here; it is C06 and C13. Ipopt itself and the option parser of solve are not modelled.")
claim("C57","partial",["AbsOpt.simplexMethod_ok","AbsOpt.lpBox_ok","AbsOpt.simplexMethod_wrong"],
  "Partial because the last sentence is false of the code: when the first phase ends with an auxiliary variable that is zero but still basic, simplex_method returns false although the linear program has a solution (simplexMethod_wrong: x - 1 <= 0, 1 - x <= 0, every iteration limit). Real arithmetic. The other sentences are proved in full.")
claim("C58","proved",["AbsOpt.qpInterior_ok","AbsOpt.kkt_near","AbsOpt.qpStep_ok","AbsOpt.qpBox_ok","AbsOpt.boxKkt_near"],
 "real arithmetic, all dimensions and starting points; the Newton step theorem needs G positive semi-definite and G + C^T C positive definite (the documentation's condition). qp_interior returns false when all the data are zero (qp_interior.hpp:457), and accepts a starting point on the boundary; neither contradicts the claim.")
claim("C59","partial",["AbsOpt.absEval_ok","AbsOpt.isApprox_unique","AbsOpt.absEval_second","AbsOpt.absSlope_ok","AbsOpt.slope_minor","AbsOpt.absMinLinear_near","AbsOpt.absMinLinear_ok_partial","AbsOpt.minNso_ok","AbsOpt.minNsoLinear_ok_partial","AbsOpt.absMinLinear_none","AbsOpt.absMinLinear_nested_wrong","AbsOpt.minNso_assert_wrong"],
 "Partial because the claim is false of the code: without absolute values (s = 0) abs_min_linear divides by zero in LuSolve (absMinLinear_none); when the argument of an absolute value that is zero is nested in another absolute value, abs_min_linear uses the sign zero, its cutting plane is above the function, and it returns true at a point that is not a minimizer (absMinLinear_nested_wrong: the function x/2, result 0); min_nso_linear fails its assertion derivative <= 0 for a convex piecewise linear function (minNso_assert_wrong). Proved for convex approximations whose absolute values are not nested at zero. Real arithmetic; the ADFun objects g and a are functions in the model of min_nso_linear, connected to recordings by absEval_second and C44.")
claim("C60","partial",["Record.Atan2.atan2_forward_partial","Record.Atan2.atan2_taylor_partial","Record.Atan2.atan2_follow","Record.Atan2.atan2Out_get","Record.Atan2.atan2_faithful","Record.Atan2.atan2_constant_x_wrong","Record.Atan2.atan2_constant_y_wrong"],
 "Partial because the claim is false of the code when one argument is a constant and the other one is not (the defect of CondExp with constant left and right): atan2(y, constant) is recorded as a constant and atan2(constant, x) as a function of the sign of x (atan2_constant_x_wrong, atan2_constant_y_wrong, for every session). Proved when both or none are constants, at any position of any algorithm (atan2_follow, atan2_faithful). Taylor coefficients where the operations of the recording are smooth (off the axes and diagonals).")
claim("C61","partial",["Record.print_for_partial","Record.print_for_run_partial","Record.print_for_plain","Record.replay_forward_zero_partial"],
 "Partial only because of the two defects of C06 (CondExp with constant left and right, pow(0, y)), where the values that are printed are those of the wrong recording; for algorithms without these two operations there is no hypothesis (print_for_plain). The output is the list of (before, value, after): how the stream formats a number is not modelled, nor the limit of 1000 characters. That the function is not changed is replay_forward_zero_partial (C06), whose algorithms include PrintFor.")
claim("C62","partial",["AtomEx.invForward_partial","AtomEx.invReverse_partial","AtomEx.invVy_ok","AtomEx.cholForward_partial","AtomEx.cholReverse_partial","AtomEx.IsChol.unique","AtomEx.isChol_iff_posDef","AtomEx.invReverse_wrong","AtomEx.invForward_size_wrong","AtomEx.cholReverse_wrong","AtomEx.cholForward_size_wrong"],
 "Partial because the last sentence is false of the code: reverse uses the results of the last call of forward, so with two calls of one object the derivatives of the first are those of the second (invReverse_wrong: -1/b^2 instead of -1/a^2; cholReverse_wrong), and f_arg_ is not resized when a matrix of another size comes with the same number of orders (the _size_wrong theorems). Everything else is proved for objects that are used with matrices of one size, all orders. The operations of Eigen (products, inverse, triangular solve, LLT) are contracts, real arithmetic; sparsity functions are not defined by these classes. In mat_inv reverse the derivatives with respect to the size are not assigned (harmless, as it is a parameter).")
claim("C63","partial",["Chkpoint.one_forward_ok","Chkpoint.one_forward_zero","Chkpoint.one_reverse_ok","Chkpoint.one_vy_ok_partial","Chkpoint.one_for_sparse_jac_set_ok","Chkpoint.one_for_sparse_jac_bool_ok","Chkpoint.one_rev_sparse_jac_set_ok","Chkpoint.one_rev_sparse_jac_bool_ok","Chkpoint.one_rev_t_ok","Chkpoint.one_rev_sparse_hes_set_ok","Chkpoint.one_rev_sparse_hes_bool_ok","Chkpoint.one_vy_wrong","Chkpoint.one_assert_wrong","Chkpoint.one_assert_wrong_case"],
 "Partial because two sentences are false of the code: set_hes_sparse_set replaces the cached dependency pattern by a Jacobian pattern, and a recording made after rev_sparse_hes (without forward mode in between) can treat a result as a parameter although it depends on a variable (one_vy_wrong: the sign function; proved for all other histories); with NDEBUG not defined the assertion vx[j] || ! t[j] in rev_sparse_hes fails whenever an argument is a parameter that the results depend on (one_assert_wrong). Everything else is proved for every history of one thread's object. AD<Base> callbacks are not modelled.")
claim("C64","partial",["Util.Pod.pod_history_ok_partial","Util.Pod.pod_capacity_ok","Util.Pod.pod_memory_ok","Util.Pod.push_own_wrong"],
 "Partial because the claim is false of the code in one case: push_back whose argument is an element of the vector itself reads returned memory when the vector is at its capacity (push_own_wrong; CppAD::vector handles this case). Proved for all other histories, for plain old data and for other element types. memcpy is a loop over elements; the allocator is the contract of C28.")
claim("C65","proved",["Lu.luRatio_ok","Lu.luRatio_x0"],
 "Elements that depend on the independent variables are functions of the evaluation point; what is decided while recording is decided at the recording point (that the recording computes these functions is C06 and C11). Exact real arithmetic; arguments for which a recorded pivot is zero (infinite ratio) are left out.")
claim("C66","partial",["Speed.sparseHes_ok","Speed.hesDiagonal_assert","Speed.sparseJac_ok_partial","Speed.sparseJac_dup_wrong","Speed.matSumSq_ok","Speed.odeGradient_ok_partial","Speed.odeGradient_overflow_wrong"],
 "Partial because the claim is false of the code in two cases: sparse_jac_fun with an entry that is requested twice, which its documentation does not exclude (sparseJac_dup_wrong; sparse_hes_fun excludes it), and ode_evaluate with more than 21 components, where a factorial of type size_t overflows (odeGradient_overflow_wrong). Everything else is proved, with exact real arithmetic. The value of ode_evaluate for p = 0 (an approximation by Runge45) is not modelled.")
claim("C67","proved",["Rk.runge45_ok","Rk.Sc.nan_ok"],
 "The order is proved for a fixed M as tf tends to ti, from the left and from the right, with C-infinity functions F and exact real arithmetic; the order conditions hold at every step with the time and state of the code (series in the elementary differentials of the autonomous system). When tf is fixed and M tends to infinity the error is of order h^5 only (a property of every method of this order); this is not claimed. Not a number is modelled as an absorbing element for arithmetic and fabs; infinities are not modelled.")
claim("C68","proved",["Rk.rosen34_ok","Rk.rosen34_nan_ok"],
 "The order is proved for a fixed M as tf tends to ti, from the left and from the right, with C-infinity functions F and exact real arithmetic; LuFactor and LuInvert are the model of C35 (the matrix I - f_x h / 2 is shown to be invertible for small h). When tf is fixed and M tends to infinity the error is of order h^4 only; this is not claimed. In the theorem about nan the scalars and operations are arbitrary, with a predicate for nan.")
claim("C69","partial",["NearEq.nearEqual_iff","NearEq.nearEqual_partial","NearEq.nearEqual_comm_partial","NearEq.nearEqualC_iff","NearEq.nearEqualC_partial","NearEq.nearEqualCR_partial","NearEq.nearEqual_complex_partial","NearEq.nearEqual_inf_wrong","NearEq.nearEqualC_inf_wrong"],
 "The full claim is false of the code: near_equal_isfinite computes yInf from x, so an infinite second argument (or an infinite imaginary part) is not detected; nearEqual_iff and nearEqualC_iff give the value for all arguments, and nearEqual_inf_wrong, nearEqualC_inf_wrong are the defect. The _partial theorems exclude an infinite second argument (imaginary part). Scalars are real numbers with two infinities and not a number, without rounding and overflow.")
claim("C70","proved",["Optim.numberSkip_ok","Optim.numberSkip_ge","Optim.executed_ok","Optim.numberSkip_none","Optim.nres_code","Optim.numberSkip_order"],
 "Operation sequences are those of C13, C14 (the operators of a call of an atomic function other than its results are one operator). get_cexp_info does not compare the operators that can be skipped with the position of the CSkipOp, so optimize can create a conditional skip after an operator that it skips; numberSkip_order shows that such an operator is counted although it was executed, so the first sentence needs its hypothesis.")
