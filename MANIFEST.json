{
 "claims": [
  {
   "property": "C01",
   "status": "proved",
   "theorems": [
    "CppAD.forward_all_orders",
    "CppAD.forward_one_order"
   ],
   "note": "For every well formed recording of the elementary operators and of calls to atomic functions whose callbacks satisfy the documented contract (structure Atom), every history of Forward/Reverse/capacity_order calls, every order. Base = real numbers."
  },
  {
   "property": "C02",
   "status": "proved",
   "theorems": [
    "CppAD.reverse_derivative"
   ],
   "note": "Every recording, history, order q and weights; derivative stated with HasDerivAt. The power operator pow(x,p) with variable base is assumed at points in its smooth domain (x>0, or integer cases covered by the certificate)."
  },
  {
   "property": "C03",
   "status": "proved",
   "theorems": [
    "CppAD.reverse_derivative_one_weight"
   ],
   "note": ""
  },
  {
   "property": "C04",
   "status": "proved",
   "theorems": [
    "CppAD.forward_one_at_a_time"
   ],
   "note": "one order at a time against all orders in one call, for two arbitrary histories"
  },
  {
   "property": "C05",
   "status": "proved",
   "theorems": [
    "CppAD.forward_directions",
    "CppAD.forward_directions_eq_single"
   ],
   "note": ""
  },
  {
   "property": "C29",
   "status": "proved",
   "theorems": [
    "CppAD.size_order_ok",
    "CppAD.capacity_order_transparent",
    "CppAD.Reach.inv"
   ],
   "note": "The history relation Reach carries the specified coefficients; C01-C05 are stated over it, so reallocation never loses or mixes coefficients."
  },
  {
   "property": "C36",
   "status": "proved",
   "theorems": [
    "CppAD.jacobian_ok",
    "CppAD.forOne_ok",
    "CppAD.revOne_ok",
    "CppAD.hessian_ok",
    "CppAD.hessianIdx_ok",
    "CppAD.revTwo_ok",
    "CppAD.forTwo_ok"
   ],
   "note": "each driver as a loop of modelled Forward/Reverse calls started from any history"
  },
  {
   "property": "C22",
   "status": "partial",
   "theorems": [
    "CppAD.SetVec.Pack.pack_setvec_history",
    "CppAD.SetVec.Pack.pack_setvec_number_partial",
    "CppAD.SetVec.Pack.pack_setvec_number_wrong",
    "CppAD.SetVec.Pack.pack_setvec_ofUser"
   ],
   "note": "Every query except number_elements is proved for every legal history and every word size. number_elements is proved only when a set fits in one word: for larger sets the property is false of the code (pack_setvec_number_wrong exhibits a legal history whose result is 0 for a set with one element)."
  },
  {
   "property": "C23",
   "status": "proved",
   "theorems": [
    "CppAD.SetVec.LV.list_setvec_history",
    "CppAD.SetVec.LV.list_setvec_ofUser"
   ],
   "note": "Heap model with cells, reference counts, free list; all legal histories over any number of objects."
  },
  {
   "property": "C24",
   "status": "proved",
   "theorems": [
    "CppAD.SetVec.LV.list_setvec_accounted"
   ],
   "note": "The free list, the posting lists and the lists of the distinct headers together are a permutation of the cells 1 .. size-1."
  },
  {
   "property": "C25",
   "status": "partial",
   "theorems": [
    "CppAD.SetVec.SV.svec_setvec_history_partial",
    "CppAD.SetVec.SV.svec_setvec_ofUser",
    "CppAD.SetVec.SV.svec_setvec_wrong_growth",
    "CppAD.SetVec.SV.svec_setvec_wrong_compaction"
   ],
   "note": "All legal histories over any number of objects, with sharing, copy on write and garbage collection, in which at most ten elements are posted to a set before they are processed and nothing is posted and unprocessed in another set of the object while a set is changed. Without that restriction the claim is false of the code: post_element extends by 2*capacity cells instead of 2*capacity+2 (wrong_growth), and collect_garbage does not move posted elements (wrong_compaction)."
  },
  {
   "property": "C18",
   "status": "proved",
   "theorems": [
    "CppAD.Color.color_general_valid"
   ],
   "note": "color_general_cppad for every pattern, every list of requested entries, every initial content of the work vector. Precondition as in the code: requested entries are in the pattern."
  },
  {
   "property": "C19",
   "status": "proved",
   "theorems": [
    "CppAD.Color.Sym.color_symmetric_valid"
   ],
   "note": "color_symmetric_cppad for every symmetric pattern, every list of requested entries of the pattern, every std::sort that meets its contract, and every initial content of the work vector."
  },
  {
   "property": "C26",
   "status": "proved",
   "theorems": [
    "CppAD.IndexSort.index_sort_sorts"
   ],
   "note": "index_sort for all vectors of keys and every std::sort that meets its contract in the C++ standard (StdSort)."
  },
  {
   "property": "C20",
   "status": "proved",
   "theorems": [
    "CppAD.SparseJac.sparse_jac_for_ok",
    "CppAD.SparseJac.sparse_jac_rev_ok"
   ],
   "note": "sparse_jac_for and sparse_jac_rev with the cppad coloring, any history, group_max > 0, empty or reused work. ColPack coloring is an external library and not modelled."
  },
  {
   "property": "C21",
   "status": "proved",
   "theorems": [
    "CppAD.SparseHes.sparse_hes_ok"
   ],
   "note": "sparse_hes with the colorings cppad.general and cppad.symmetric, any history, empty or reused work. For cppad.symmetric the pattern must be symmetric (rev_hes_sparsity_symm_partial in C17: the computed pattern is). The pattern only has to cover the part of the Hessian that matters for the subset (Matters). ColPack colorings are not modelled."
  },
  {
   "property": "C27",
   "status": "partial",
   "theorems": [
    "CppAD.SparseRc.row_major_col_major",
    "CppAD.SparseRc.entries_ok",
    "CppAD.SparseRc.eq_ok_partial",
    "CppAD.SparseRc.eq_reads_outside"
   ],
   "note": "operator== tests `this_row_ok && this_row_ok` (sparse_rc.hpp:451, and 455 for columns), so it reads outside of an empty vector when only the left operand has its order cached (eq_reads_outside); equality is proved correct when the cached orders agree (OrderOk)"
  },
  {
   "property": "C34",
   "status": "proved",
   "theorems": [
    "CppAD.PowPoly.pow_int_ok",
    "CppAD.PowPoly.poly_ok"
   ],
   "note": "any field, any int exponent, any order k, any non empty coefficient vector"
  },
  {
   "property": "C40",
   "status": "proved",
   "theorems": [
    "CppAD.ErrHandler.call_most_recent",
    "CppAD.ErrHandler.destruct_restores"
   ],
   "note": "every nesting history; sequential execution mode"
  },
  {
   "property": "C15",
   "status": "proved",
   "theorems": [
    "CppAD.Sparsity.for_jac_sparsity_ok",
    "CppAD.Sparsity.for_jac_sparsity_dependency",
    "CppAD.Sparsity.for_jac_sparsity_covers",
    "CppAD.Sparsity.Vec.vec_for_jac_sparsity_ok",
    "CppAD.Sparsity.Vec.vec_for_jac_sparsity_dependency",
    "CppAD.Sparsity.Vec.recorded_for_dependency_partial"
   ],
   "note": "for every tape of the modelled operators, any seed pattern, transpose and dependency flags; sets are mathematical sets (C22, C23); calls of atomic functions (atomic_four jac_sparsity with the documented contract) included; the theorems Sparsity.Vec.* are for recordings with VecAD loads and stores (every function that results from a recording, funOk_session), where the pattern is shown to cover the operations found at every point"
  },
  {
   "property": "C16",
   "status": "proved",
   "theorems": [
    "CppAD.Sparsity.rev_jac_sparsity_ok",
    "CppAD.Sparsity.rev_jac_sparsity_dependency",
    "CppAD.Sparsity.rev_jac_sparsity_covers",
    "CppAD.Sparsity.Vec.vec_rev_jac_sparsity_ok",
    "CppAD.Sparsity.Vec.vec_rev_jac_sparsity_dependency",
    "CppAD.Sparsity.Vec.recorded_rev_dependency_partial"
   ],
   "note": "as C15, reverse mode"
  },
  {
   "property": "C17",
   "status": "partial",
   "theorems": [
    "CppAD.Sparsity.rev_hes_sparsity_ok_partial",
    "CppAD.Sparsity.for_hes_sparsity_ok_partial",
    "CppAD.Sparsity.rev_hes_sparsity_covers",
    "CppAD.Sparsity.for_hes_sparsity_covers_partial",
    "CppAD.Sparsity.rev_hes_sparsity_symm_partial",
    "CppAD.Sparsity.Vec.vec_rev_hes_sparsity_ok_partial",
    "CppAD.Sparsity.Vec.vec_for_hes_sparsity_ok_partial",
    "CppAD.Sparsity.rev_hes_sparsity_wrong",
    "CppAD.Sparsity.for_hes_sparsity_wrong_cexp",
    "CppAD.Sparsity.for_hes_sparsity_wrong_zmulpv",
    "CppAD.Sparsity.rev_hes_sparsity_wrong_atom"
   ],
   "note": "the full claim is false of the code: counterexamples proved for CondExp and azmul(parameter, variable) in for_hes_sparsity, for duplicated dependent variables in rev_hes_sparsity, and for an atomic function in rev_hes_sparsity when the forward Jacobian pattern has an empty row; proved for all other tapes and selections"
  },
  {
   "property": "C06",
   "status": "partial",
   "theorems": [
    "CppAD.Record.replay_function_partial",
    "CppAD.Record.replay_forward_zero_partial",
    "CppAD.Record.replay_forward_partial",
    "CppAD.Record.replay_at_recorded_point_partial",
    "CppAD.Record.replay_plain",
    "CppAD.Record.condExp_constant_wrong",
    "CppAD.Record.pow_zero_wrong"
   ],
   "note": "every algorithm (AD operations, VecAD, calls of atomic functions with any mixture of constant, dynamic and variable arguments and results, comparisons and branches on their outcome), every session, every history of new_dynamic calls (Record/AtomExample has a session with an atomic call). The arguments and results of an atomic call are different vectors. The full claim is false of the code: CondExp with constant left and right operands and pow(0, .) are recorded as constants (condExp_constant_wrong, pow_zero_wrong); hypothesis Faithful excludes exactly these uses, and replay_plain needs no exclusion for algorithms without pow and CondExp"
  },
  {
   "property": "C07",
   "status": "partial",
   "theorems": [
    "CppAD.Record.replay_function_partial",
    "CppAD.Record.replay_forward_zero_partial",
    "CppAD.Record.newDynamic_last",
    "CppAD.Record.replay_plain"
   ],
   "note": "same exclusion as C06"
  },
  {
   "property": "C09",
   "status": "proved",
   "theorems": [
    "CppAD.Record.put_con_par_faithful"
   ],
   "note": "any hash function, any table contents reached by recording"
  },
  {
   "property": "C10",
   "status": "partial",
   "theorems": [
    "CppAD.Record.compare_change_number_partial",
    "CppAD.Record.compare_change_zero_partial"
   ],
   "note": "same exclusion as C06"
  },
  {
   "property": "C11",
   "status": "partial",
   "theorems": [
    "CppAD.Record.cexp_forward_selected",
    "CppAD.Record.cexp_reverse_selected",
    "CppAD.Record.replay_function_partial",
    "CppAD.Record.condExp_constant_wrong"
   ],
   "note": "forward and reverse of every order take the selected branch; the recording of CondExp with constant left and right operands is wrong (condExp_constant_wrong)"
  },
  {
   "property": "C12",
   "status": "partial",
   "theorems": [
    "CppAD.Record.replay_function_partial",
    "CppAD.Record.replay_forward_zero_partial",
    "CppAD.Record.replay_forward_partial",
    "CppAD.Record.replay_forward_local_partial",
    "CppAD.Record.tape_forward_zero",
    "CppAD.Record.tape_forward_any",
    "CppAD.Record.loadForward_ok",
    "CppAD.Record.loadReverse_ok",
    "CppAD.Record.replay_plain"
   ],
   "note": "every algorithm that creates, loads and stores VecAD vectors (constant, dynamic and variable indices and elements) mixed with all other AD operations and branches, every history. Index out of range stops the C++ program; in the model it reads zero. Same exclusion as C06 for pow(0, .) and constant CondExp"
  },
  {
   "property": "C39",
   "status": "partial",
   "theorems": [
    "CppAD.azmul_eq",
    "CppAD.Record.azmul_eq",
    "CppAD.Gen.reverse_skip_partial",
    "CppAD.Gen.reverse_dead_values_partial",
    "CppAD.Gen.reverse_zero_weight",
    "CppAD.Gen.shortcut_exp",
    "CppAD.Gen.shortcut_expm1",
    "CppAD.Gen.shortcut_erf",
    "CppAD.Gen.reverse_real",
    "CppAD.Gen.log_component",
    "CppAD.Gen.reverse_wrong_pow_zero"
   ],
   "note": "Reverse mode over an arbitrary Base with nan and infinities (only a few laws about zero are assumed; instances for the reals and for reals with nan and infinities): leaving out operators with zero partials, zero weights and values of components with zero weight do not change the result.  Partial: false of the code for pow(x, parameter) when x is zero (reverse_wrong_pow_zero: the derivative of x + pow(x,2) at 0 is returned as 0).  Atomic calls are not in the arbitrary Base model."
  },
  {
   "property": "C08",
   "status": "proved",
   "theorems": [
    "CppAD.Record.Threads.finished_is_constant",
    "CppAD.Record.Threads.recordings_distinct",
    "CppAD.Record.Threads.recorder_agrees",
    "CppAD.Record.Threads.new_recording_ok"
   ],
   "note": "every history of constructions, copies, AD operations, Independent, Dependent and abort_recording on any number of threads sharing memory; identifiers are natural numbers (the code asserts when the type is exhausted)"
  },
  {
   "property": "C35",
   "status": "proved",
   "theorems": [
    "CppAD.Lu.luFactor_ok",
    "CppAD.Lu.luInvert_ok",
    "CppAD.Lu.luSolve_ok",
    "CppAD.Lu.luSolve_real",
    "CppAD.Lu.luSolve_complex"
   ],
   "note": "Exact field arithmetic; the pivoting comparison is any AbsGeq that compares sizes (the two in the code are shown to be), every n, m and every matrix."
  },
  {
   "property": "C28",
   "status": "proved",
   "theorems": [
    "CppAD.Alloc.no_error",
    "CppAD.Alloc.get_memory_ok",
    "CppAD.Alloc.get_memory_reuses",
    "CppAD.Alloc.counts_ok",
    "CppAD.Alloc.blocks_ok",
    "CppAD.Alloc.free_all_ok",
    "CppAD.Alloc.double_return",
    "CppAD.Alloc.frame",
    "CppAD.Alloc.request_too_large"
   ],
   "note": "thread_alloc, for every history of valid calls of get_memory, return_memory, free_available, hold_memory and free_all and every system allocator that returns memory that is not allocated.  request_too_large proves a defect of the code: with a 64 bit size_t some arguments that pass the check of the argument have no capacity."
  },
  {
   "property": "C33",
   "status": "partial",
   "theorems": [
    "CppAD.Util.Vector.history_ok_partial",
    "CppAD.Util.Vector.self_assign_empties",
    "CppAD.Util.Vector.memory_ok",
    "CppAD.Util.Vector.compare_ok",
    "CppAD.Util.Vector.equal_ok"
   ],
   "note": "every history of constructions, destructions, resize, clear, swap, copy and move assignment, element assignment, push_back (also of a reference to an element) and push_vector (also of the vector itself) on any number of vectors, with memory safety. The full claim is false of the code: copy assignment of a vector to itself removes all its elements (self_assign_empties)."
  },
  {
   "property": "C32",
   "status": "proved",
   "theorems": [
    "CppAD.Util.VectorBool.history_ok",
    "CppAD.Util.VectorBool.memory_ok"
   ],
   "note": "every number of bits per unit, every history of operations on any number of vectors, with memory safety"
  },
  {
   "property": "C37",
   "status": "proved",
   "theorems": [
    "CppAD.Subgraph.subgraph_sparsity_exact"
   ],
   "note": "every recording of the modelled operators and calls of atomic functions, selection, and previous contents of the subgraph data"
  },
  {
   "property": "C38",
   "status": "proved",
   "theorems": [
    "CppAD.Subgraph.subgraph_reverse_ok",
    "CppAD.Subgraph.subgraph_reverse_eq_reverse"
   ],
   "note": "every recording of the modelled operators and calls of atomic functions, history, sequence of components after one selection, order q; work memory arbitrary"
  },
  {
   "property": "C41",
   "status": "partial",
   "theorems": [
    "CppAD.Subgraph.subgraph_jac_rev_select_ok",
    "CppAD.Subgraph.subgraph_jac_rev_subset_ok_partial",
    "CppAD.Subgraph.subgraph_jac_rev_subset_wrong"
   ],
   "note": "The version with select_domain and select_range is proved. The version with a subset is proved for the entries for which the code does not read after the end of dw_col; for the others the claim is false of the code (subgraph_jac_rev_subset_wrong: an entry whose derivative is 0 is set to 1)."
  },
  {
   "property": "C30",
   "status": "partial",
   "theorems": [
    "CppAD.ValGraph.renumber_ok_partial",
    "CppAD.ValGraph.dead_code_ok_partial",
    "CppAD.ValGraph.dead_code_con_ok_partial",
    "CppAD.ValGraph.fold_con_ok",
    "CppAD.ValGraph.summation_ok_partial",
    "CppAD.ValGraph.val_optimize_ok_partial",
    "CppAD.ValGraph.dead_code_wrong",
    "CppAD.ValGraph.compress_wrong",
    "CppAD.ValGraph.renumber_vec_wrong",
    "CppAD.ValGraph.val_optimize_sum_wrong"
   ],
   "note": "every value graph without dynamic vector operators, every hash function, every point (nan included; summation: points where no sum is nan), any atomic functions whose for_type / rev_depend are right.  The full claim is false of the code: renumber matches loads across a store (renumber_vec_wrong), compress uses indices of the old tape (compress_wrong), dead_code keeps comparisons but not their operands (dead_code_wrong), and so after summation (val_optimize_sum_wrong)"
  },
  {
   "property": "C13",
   "status": "partial",
   "theorems": [
    "CppAD.Optim.optimize_preserves_partial",
    "CppAD.Optim.optimize_preserves_noskip_partial",
    "CppAD.Optim.optimize_drops_store",
    "CppAD.Optim.optimize_skips_stored",
    "CppAD.Optim.optimize_loses_dynamic"
   ],
   "note": "every recording (calls of atomic functions included, also those with dynamic parameter results, with any rev_depend callback that meets its contract; not PriOp), every combination of the options, every hash function, every order of the conditional skips, every value of the dynamic parameters, independent variables and old memory.  The full claim is false of the code for recordings that store a parameter in a VecAD vector (optimize_drops_store), that combine VecAD and conditional skip (optimize_skips_stored), or that have already been optimized and use dependent dynamic parameters in a sum (optimize_loses_dynamic)"
  },
  {
   "property": "C14",
   "status": "partial",
   "theorems": [
    "CppAD.Optim.cskip_no_effect_partial",
    "CppAD.Optim.optimize_junk_partial",
    "CppAD.Optim.optimize_skips_stored"
   ],
   "note": "same exclusions as C13"
  },
  {
   "property": "C31",
   "status": "partial",
   "theorems": [
    "CppAD.Graph.toGraph_values",
    "CppAD.Graph.fromGraph_values_partial",
    "CppAD.Graph.roundTrip_values",
    "CppAD.Graph.json_graph",
    "CppAD.Graph.json_values",
    "CppAD.Graph.json_text",
    "CppAD.Graph.json_function",
    "CppAD.Graph.fromGraph_compare_wrong",
    "CppAD.Graph.json_atom4_wrong",
    "CppAD.Graph.json_atom_no_args_wrong",
    "CppAD.Graph.json_quote_wrong",
    "CppAD.Graph.json_nan_wrong"
   ],
   "note": "to_graph and from_graph: every recording and every graph without CSkipOp, VecAD operators and atomic functions; every hash function, set of registered discrete functions, values.  compare_change after from_graph is right only when no operand of a comparison is a constant: the code is wrong otherwise (fromGraph_compare_wrong).  JSON: every graph (atomic functions and print included) whose names have no quotes, whose numbers are in the range of int, whose atomic functions have arguments and are not atom4; the code is wrong for each of these exclusions (json_*_wrong).  Conversion of floating point numbers to text is a parameter."
  },
  {
   "property": "C42",
   "status": "partial",
   "theorems": [
    "CppAD.Chkpoint.checkpoint_forward",
    "CppAD.Chkpoint.checkpoint_reverse",
    "CppAD.Chkpoint.inlined_ok",
    "CppAD.Chkpoint.forward_same_function",
    "CppAD.Chkpoint.reverse_same_function",
    "CppAD.Chkpoint.call_value",
    "CppAD.Chkpoint.for_type_ok",
    "CppAD.Chkpoint.for_type_attained",
    "CppAD.Chkpoint.constant_result",
    "CppAD.Chkpoint.parameter_result",
    "CppAD.Chkpoint.rev_depend_ok",
    "CppAD.Chkpoint.ctorJac_zero",
    "CppAD.Chkpoint.ctorJac_dep",
    "CppAD.Chkpoint.ctorHes_zero",
    "CppAD.Chkpoint.checkpoint_hes_wrong"
   ],
   "note": "values, forward and reverse mode, Jacobian sparsity, for_type and rev_depend: everything (checkpoint_forward and checkpoint_reverse replace one call whose arguments are variables; forward_same_function has no such restriction). Hessian sparsity is proved except for inner functions with CondExp or azmul(parameter, variable) and n <= m, where the code is wrong (checkpoint_hes_wrong). base2ad not modelled."
  },
  {
   "property": "C43",
   "status": "proved",
   "theorems": [
    "CppAD.forward_all_orders",
    "CppAD.forward_one_order",
    "CppAD.forward_directions",
    "CppAD.reverse_derivative",
    "CppAD.Sparsity.for_jac_sparsity_ok",
    "CppAD.Sparsity.rev_jac_sparsity_ok",
    "CppAD.Sparsity.for_jac_sparsity_dependency",
    "CppAD.Sparsity.rev_jac_sparsity_dependency",
    "CppAD.AtomCall.selX_iff",
    "CppAD.AtomCall.selY_iff",
    "CppAD.Record.atomAD_ok",
    "CppAD.Record.replay_plain"
   ],
   "note": "the operation sequences of these theorems contain calls of atomic functions (Op.atom); the contract of the callbacks is the structure Atom; Chkpoint.atom, AtomEx.linAtom and Sparsity.idAtom are instances. Recording of a call (atomic_four operator(), put_dyn_atomic, put_var_atomic, the dynamic sweep) for every mixture of argument types: Record.atomAD_ok, Record.replay_plain. Hessian sparsity is in C17. Not modelled: ax and ay the same vector."
  },
  {
   "property": "C44",
   "status": "partial",
   "theorems": [
    "CppAD.AbsNormal.abs_normal_partial",
    "CppAD.AbsNormal.abs_normal_relations_partial",
    "CppAD.AbsNormal.abs_normal_wrong_erf",
    "CppAD.AbsNormal.abs_normal_wrong_parameter"
   ],
   "note": "every operation sequence without erf, erfc, VecAD, PrintFor, atomic calls and operators made by optimize.  The claim is false of the code for erf and erfc (the first argument is not copied: abs_normal_wrong_erf) and for a.Parameter (abs_normal_wrong_parameter); VecAD vectors are not copied and CSumOp, CSkipOp are not handled (not modelled)."
  },
  {
   "property": "C45",
   "status": "partial",
   "theorems": [
    "CppAD.Legacy.for_sparse_jac_ok",
    "CppAD.Legacy.for_sparse_jac_dependency",
    "CppAD.Legacy.rev_sparse_jac_ok",
    "CppAD.Legacy.rev_sparse_jac_dependency",
    "CppAD.Legacy.rev_sparse_hes_ok_partial",
    "CppAD.Legacy.for_sparse_hes_ok_partial",
    "CppAD.Legacy.sparse_jacobian_forward_ok",
    "CppAD.Legacy.sparse_jacobian_reverse_ok",
    "CppAD.Legacy.sparse_jacobian_ok",
    "CppAD.Legacy.sparse_jacobian_x_ok",
    "CppAD.Legacy.sparse_hessian_work_ok",
    "CppAD.Legacy.sparse_hessian_ok",
    "CppAD.Legacy.sparse_hessian_x_ok_partial",
    "CppAD.Legacy.rev_sparse_hes_wrong",
    "CppAD.Legacy.sparse_hessian_wrong",
    "CppAD.Legacy.sparse_hessian_column_subset_wrong"
   ],
   "note": "everything for Jacobians.  The Hessian claims are false of the code for RevSparseHes with vectors of bool and SparseHessian(x, w) when two components are the same variable (rev_sparse_hes_wrong, sparse_hessian_wrong), for ForSparseHes with CondExp or azmul(parameter, variable) (as in C17), and the documented Column Subset remark is false for the symmetric coloring (sparse_hessian_column_subset_wrong); proved otherwise. SparseHessian(x, w) excludes atomic functions.  ColPack not modelled."
  },
  {
   "property": "C46",
   "status": "proved",
   "theorems": [
    "CppAD.Play.record_ok",
    "CppAD.Play.record_taddr",
    "CppAD.Play.sequential_ok",
    "CppAD.Play.forward_reach",
    "CppAD.Play.backward_reach",
    "CppAD.Play.random_ok",
    "CppAD.Play.readCsum_ok",
    "CppAD.Play.readCskip_ok",
    "CppAD.Play.getTxt_ok",
    "CppAD.Play.numRes_ok"
   ],
   "note": "every sequence of operators that starts with BeginOp and ends with EndOp; sequential_ok is about every walk of the iterator.  Arguments are natural numbers (addr_t without overflow)."
  },
  {
   "property": "C47",
   "status": "partial",
   "theorems": [
    "CppAD.Romberg.rombergOne_order_partial",
    "CppAD.Romberg.rombergOne_exact_partial",
    "CppAD.Romberg.rombergOne_error_estimate",
    "CppAD.Romberg.rombergOne_evaluations",
    "CppAD.Romberg.rombergOne_top_wrong",
    "CppAD.Romberg.rombergOne_int_wrong",
    "CppAD.Romberg.rombergMul_order_partial",
    "CppAD.Romberg.rombergMul_exact_partial",
    "CppAD.Romberg.rombergMul_evaluations",
    "CppAD.Romberg.rombergMul_assert_wrong"
   ],
   "note": "Partial because the documented claim is false for p = n (rombergOne_top_wrong) and for p = 16 (the conversion int(4^16) is zero: rombergOne_int_wrong, the integral of the constant one is returned as a negative number); proved for p < n, p <= 15, n <= 31. The debug assertion in RombergMul fails for every call with three or more dimensions (rombergMul_assert_wrong). Exact real arithmetic."
  },
  {
   "property": "C48",
   "status": "partial",
   "theorems": [
    "CppAD.Ode.odeErrControl_path",
    "CppAD.Ode.odeErrControl_method",
    "CppAD.Ode.odeErrControl_nan",
    "CppAD.Ode.odeErrControl_calls_start",
    "CppAD.Ode.odeErrControl_accept",
    "CppAD.Ode.odeErrControl_error",
    "CppAD.Ode.odeErrControl_size_partial",
    "CppAD.Ode.odeErrControl_smin",
    "CppAD.Ode.odeErrControl_one_step",
    "CppAD.Ode.odeErrControl_nstep_bound",
    "CppAD.Ode.odeErrControl_smax_wrong",
    "CppAD.Ode.odeErrControl_negative_wrong"
   ],
   "note": "Partial because the documented bound smax on the step size is false of the code: the step that reaches tf may be 3 smax / 2 (odeErrControl_smax_wrong). Error estimates are documented to be non-negative; negative ones are ignored (odeErrControl_negative_wrong). Exact real arithmetic with nan; infinities not modelled."
  },
  {
   "property": "C49",
   "status": "partial",
   "theorems": [
    "CppAD.Ode.odeGear_fields",
    "CppAD.Ode.odeGear_weights",
    "CppAD.Ode.odeGear_exact",
    "CppAD.Ode.odeGear_linear",
    "CppAD.Ode.odeGearControl_result",
    "CppAD.Ode.odeGearControl_history",
    "CppAD.Ode.odeGearControl_calls",
    "CppAD.Ode.odeGearControl_size_partial",
    "CppAD.Ode.odeGearControl_accept",
    "CppAD.Ode.odeGearControl_error",
    "CppAD.Ode.odeGearControl_smax_wrong"
   ],
   "note": "Partial because the documented bound smax is false (odeGearControl_smax_wrong), and because for m = 1 the code does not scale the error criterion by the step size, so the bound on ef has the factor 11/10 (M >= 2; none for M = 1). Exact real arithmetic."
  },
  {
   "property": "C50",
   "status": "partial",
   "theorems": [
    "CppAD.ValGraph.optimize_val_ok_partial",
    "CppAD.ValGraph.fun2val_ok",
    "CppAD.ValGraph.val2fun_ok",
    "CppAD.ValGraph.optimize_val_dyn_wrong",
    "CppAD.ValGraph.optimize_val_azmul_wrong",
    "CppAD.ValGraph.optimize_val_compare_wrong",
    "CppAD.ValGraph.optimize_val_cancel_wrong",
    "CppAD.ValGraph.optimize_val_dyn_csum_wrong"
   ],
   "note": "Partial because the claim is false of the code: dynamic parameters that are products, quotients, powers or functions other than negation (optimize_val_dyn_wrong), azmul (optimize_val_azmul_wrong), comparisons with a constant (optimize_val_compare_wrong) and sums that cancel (optimize_val_cancel_wrong) get an invalid operator or index; a cumulative sum of dynamic parameters adds the subtracted ones (optimize_val_dyn_csum_wrong: x*(p-q-r) becomes x*(p+q+r)); and the defects of C30. Proved for every conversion that does not meet an invalid index. VecAD, atomic functions and PrintFor are not modelled in the conversions."
  },
  {
   "property": "C51",
   "status": "proved",
   "theorems": [
    "CppAD.Record.Threads.schedule_ok",
    "CppAD.Record.Threads.schedule_independent"
   ],
   "note": "A schedule is a list of API calls with their thread; a call is one step (data races inside a call are excluded because calls of different threads use disjoint tapes, identifiers and objects, Record.Threads.step_other). VecAD and atomic functions are not in this model."
  },
  {
   "property": "C52",
   "status": "proved",
   "theorems": [
    "CppAD.Det.detOfMinor_ok",
    "CppAD.Det.detByMinor_ok",
    "CppAD.Det.detByLu_ok"
   ],
   "note": "Scalar is a commutative ring, for det_by_lu the real numbers with exact arithmetic. n = 0 is excluded (the code asserts that r[m] < m)."
  },
  {
   "property": "C53",
   "status": "partial",
   "theorems": [
    "CppAD.Csrc.csrc_values_partial",
    "CppAD.Csrc.toCsrc_values_partial",
    "CppAD.Csrc.evalGraph_eq",
    "CppAD.Csrc.toCsrc_sum_wrong"
   ],
   "note": "Partial because the claim is false of the code: a sum with one term is written as zero, so the C function for x0 + x1 - x2 (one cumulative summation after optimize) computes x0 + x1 without an error (toCsrc_sum_wrong). neg, conditional expressions, print and atomic_three functions are reported as not implemented. Proved for all graphs without these. The C code is modelled by its abstract syntax with real numbers; undefined behaviour is part of the semantics."
  },
  {
   "property": "C54",
   "status": "partial",
   "theorems": [
    "CppAD.AtomEx.vecForward_zero",
    "CppAD.AtomEx.vecForward_ok",
    "CppAD.AtomEx.vecReverse_ok",
    "CppAD.AtomEx.vecJac_sel",
    "CppAD.AtomEx.vecJac_zero",
    "CppAD.AtomEx.vecJac_dep",
    "CppAD.AtomEx.vecHes_linear",
    "CppAD.AtomEx.vecHes_mul",
    "CppAD.AtomEx.vecRevDepend_ok",
    "CppAD.AtomEx.vecForType_ok",
    "CppAD.AtomEx.linAtom_ok",
    "CppAD.AtomEx.matForward_zero",
    "CppAD.AtomEx.matForward_ok",
    "CppAD.AtomEx.matReverseDoc_ok",
    "CppAD.AtomEx.matReverse_ok_partial",
    "CppAD.AtomEx.matJac_sel",
    "CppAD.AtomEx.matJac_zero_partial",
    "CppAD.AtomEx.matJac_dep_partial",
    "CppAD.AtomEx.matHes_sel",
    "CppAD.AtomEx.matHes_zero",
    "CppAD.AtomEx.matRevDepend_ok",
    "CppAD.AtomEx.matForType_ok",
    "CppAD.AtomEx.baseMatMul_matrix",
    "CppAD.AtomEx.vecHes_mul_not_sel",
    "CppAD.AtomEx.vecHes_div_wrong",
    "CppAD.AtomEx.matReverse_not_ok",
    "CppAD.AtomEx.matJac_zero_wrong"
   ],
   "note": "Partial because the claim is false of the code: hes_sparsity of the vector product has arguments that are not selected (vecHes_mul_not_sel), of the quotient it misses the second derivative with respect to the denominator (vecHes_div_wrong); reverse of the matrix product is wrong when a weight of an order below the highest is not zero (matReverse_not_ok; proved for the other weights, and for the loop that its comment describes); jac_sparsity of the matrix product drops elements when an element of A or B is identically zero (matJac_zero_wrong; proved when ident_zero_x is false for the first n_left * n_right arguments). The callbacks with AD<Base> coefficients, lin_ode and atomic_three/mat_mul.hpp are not modelled."
  },
  {
   "property": "C55",
   "status": "partial",
   "theorems": [
    "CppAD.OptVal.optVal_ok_partial",
    "CppAD.OptVal.optValWith_ok",
    "CppAD.OptVal.benderQuad_ok",
    "CppAD.OptVal.optVal_outside",
    "CppAD.OptVal.optVal_assert"
   ],
   "note": "Partial because the claim is false of the code: line 414 makes the vector for y with n elements, and line 500 makes the matrix F_yy with n * m elements, so opt_val_hes writes outside of a vector or fails an assertion whenever n < m (optVal_outside), and for the Hessian whenever n is not m (optVal_assert). Proved for n = m (gradient: m <= n), and for all sizes with vectors of the right size (optValWith_ok). BenderQuad is proved in full. That a recording computes the user's function is a hypothesis here; it is C06 and C13."
  },
  {
   "property": "C56",
   "status": "partial",
   "theorems": [
    "CppAD.Ipopt.evalF_ok",
    "CppAD.Ipopt.evalG_ok",
    "CppAD.Ipopt.evalGradF_ok",
    "CppAD.Ipopt.jacStructure_ok_partial",
    "CppAD.Ipopt.evalJacG_ok_partial",
    "CppAD.Ipopt.hesStructure_ok_partial",
    "CppAD.Ipopt.evalH_ok_partial",
    "CppAD.Ipopt.structure_const",
    "CppAD.Ipopt.bounds_ok",
    "CppAD.Ipopt.finalize_ok",
    "CppAD.Ipopt.hesStructure_wrong"
   ],
   "note": "Partial because the claim is false of the code in the sparse case when atomic functions are called and nx is greater than the number of bits in a unit of vectorBool (64): the Hessian pattern is determined in groups of columns, and RevSparseHes loses second derivatives between groups (hesStructure_wrong, for every number of bits). Proved for dense with atomic functions and for sparse without them. That a recording (and optimize) computes the user's function is a hypothesis here; it is C06 and C13. Ipopt itself and the option parser of solve are not modelled."
  },
  {
   "property": "C57",
   "status": "partial",
   "theorems": [
    "CppAD.AbsOpt.simplexMethod_ok",
    "CppAD.AbsOpt.lpBox_ok",
    "CppAD.AbsOpt.simplexMethod_wrong"
   ],
   "note": "Partial because the last sentence is false of the code: when the first phase ends with an auxiliary variable that is zero but still basic, simplex_method returns false although the linear program has a solution (simplexMethod_wrong: x - 1 <= 0, 1 - x <= 0, every iteration limit). Real arithmetic. The other sentences are proved in full."
  },
  {
   "property": "C58",
   "status": "proved",
   "theorems": [
    "CppAD.AbsOpt.qpInterior_ok",
    "CppAD.AbsOpt.kkt_near",
    "CppAD.AbsOpt.qpStep_ok",
    "CppAD.AbsOpt.qpBox_ok",
    "CppAD.AbsOpt.boxKkt_near"
   ],
   "note": "real arithmetic, all dimensions and starting points; the Newton step theorem needs G positive semi-definite and G + C^T C positive definite (the documentation's condition). qp_interior returns false when all the data are zero (qp_interior.hpp:457), and accepts a starting point on the boundary; neither contradicts the claim."
  },
  {
   "property": "C59",
   "status": "partial",
   "theorems": [
    "CppAD.AbsOpt.absEval_ok",
    "CppAD.AbsOpt.isApprox_unique",
    "CppAD.AbsOpt.absEval_second",
    "CppAD.AbsOpt.absSlope_ok",
    "CppAD.AbsOpt.slope_minor",
    "CppAD.AbsOpt.absMinLinear_near",
    "CppAD.AbsOpt.absMinLinear_ok_partial",
    "CppAD.AbsOpt.minNso_ok",
    "CppAD.AbsOpt.minNsoLinear_ok_partial",
    "CppAD.AbsOpt.absMinLinear_none",
    "CppAD.AbsOpt.absMinLinear_nested_wrong",
    "CppAD.AbsOpt.minNso_assert_wrong"
   ],
   "note": "Partial because the claim is false of the code: without absolute values (s = 0) abs_min_linear divides by zero in LuSolve (absMinLinear_none); when the argument of an absolute value that is zero is nested in another absolute value, abs_min_linear uses the sign zero, its cutting plane is above the function, and it returns true at a point that is not a minimizer (absMinLinear_nested_wrong: the function x/2, result 0); min_nso_linear fails its assertion derivative <= 0 for a convex piecewise linear function (minNso_assert_wrong). Proved for convex approximations whose absolute values are not nested at zero. Real arithmetic; the ADFun objects g and a are functions in the model of min_nso_linear, connected to recordings by absEval_second and C44."
  },
  {
   "property": "C60",
   "status": "partial",
   "theorems": [
    "CppAD.Record.Atan2.atan2_forward_partial",
    "CppAD.Record.Atan2.atan2_taylor_partial",
    "CppAD.Record.Atan2.atan2_follow",
    "CppAD.Record.Atan2.atan2Out_get",
    "CppAD.Record.Atan2.atan2_faithful",
    "CppAD.Record.Atan2.atan2_constant_x_wrong",
    "CppAD.Record.Atan2.atan2_constant_y_wrong"
   ],
   "note": "Partial because the claim is false of the code when one argument is a constant and the other one is not (the defect of CondExp with constant left and right): atan2(y, constant) is recorded as a constant and atan2(constant, x) as a function of the sign of x (atan2_constant_x_wrong, atan2_constant_y_wrong, for every session). Proved when both or none are constants, at any position of any algorithm (atan2_follow, atan2_faithful). Taylor coefficients where the operations of the recording are smooth (off the axes and diagonals)."
  },
  {
   "property": "C61",
   "status": "partial",
   "theorems": [
    "CppAD.Record.print_for_partial",
    "CppAD.Record.print_for_run_partial",
    "CppAD.Record.print_for_plain",
    "CppAD.Record.replay_forward_zero_partial"
   ],
   "note": "Partial only because of the two defects of C06 (CondExp with constant left and right, pow(0, y)), where the values that are printed are those of the wrong recording; for algorithms without these two operations there is no hypothesis (print_for_plain). The output is the list of (before, value, after): how the stream formats a number is not modelled, nor the limit of 1000 characters. That the function is not changed is replay_forward_zero_partial (C06), whose algorithms include PrintFor."
  },
  {
   "property": "C62",
   "status": "partial",
   "theorems": [
    "CppAD.AtomEx.invForward_partial",
    "CppAD.AtomEx.invReverse_partial",
    "CppAD.AtomEx.invVy_ok",
    "CppAD.AtomEx.cholForward_partial",
    "CppAD.AtomEx.cholReverse_partial",
    "CppAD.AtomEx.IsChol.unique",
    "CppAD.AtomEx.isChol_iff_posDef",
    "CppAD.AtomEx.invReverse_wrong",
    "CppAD.AtomEx.invForward_size_wrong",
    "CppAD.AtomEx.cholReverse_wrong",
    "CppAD.AtomEx.cholForward_size_wrong"
   ],
   "note": "Partial because the last sentence is false of the code: reverse uses the results of the last call of forward, so with two calls of one object the derivatives of the first are those of the second (invReverse_wrong: -1/b^2 instead of -1/a^2; cholReverse_wrong), and f_arg_ is not resized when a matrix of another size comes with the same number of orders (the _size_wrong theorems). Everything else is proved for objects that are used with matrices of one size, all orders. The operations of Eigen (products, inverse, triangular solve, LLT) are contracts, real arithmetic; sparsity functions are not defined by these classes. In mat_inv reverse the derivatives with respect to the size are not assigned (harmless, as it is a parameter)."
  },
  {
   "property": "C63",
   "status": "partial",
   "theorems": [
    "CppAD.Chkpoint.one_forward_ok",
    "CppAD.Chkpoint.one_forward_zero",
    "CppAD.Chkpoint.one_reverse_ok",
    "CppAD.Chkpoint.one_vy_ok_partial",
    "CppAD.Chkpoint.one_for_sparse_jac_set_ok",
    "CppAD.Chkpoint.one_for_sparse_jac_bool_ok",
    "CppAD.Chkpoint.one_rev_sparse_jac_set_ok",
    "CppAD.Chkpoint.one_rev_sparse_jac_bool_ok",
    "CppAD.Chkpoint.one_rev_t_ok",
    "CppAD.Chkpoint.one_rev_sparse_hes_set_ok",
    "CppAD.Chkpoint.one_rev_sparse_hes_bool_ok",
    "CppAD.Chkpoint.one_vy_wrong",
    "CppAD.Chkpoint.one_assert_wrong",
    "CppAD.Chkpoint.one_assert_wrong_case"
   ],
   "note": "Partial because two sentences are false of the code: set_hes_sparse_set replaces the cached dependency pattern by a Jacobian pattern, and a recording made after rev_sparse_hes (without forward mode in between) can treat a result as a parameter although it depends on a variable (one_vy_wrong: the sign function; proved for all other histories); with NDEBUG not defined the assertion vx[j] || ! t[j] in rev_sparse_hes fails whenever an argument is a parameter that the results depend on (one_assert_wrong). Everything else is proved for every history of one thread's object. AD<Base> callbacks are not modelled."
  },
  {
   "property": "C64",
   "status": "partial",
   "theorems": [
    "CppAD.Util.Pod.pod_history_ok_partial",
    "CppAD.Util.Pod.pod_capacity_ok",
    "CppAD.Util.Pod.pod_memory_ok",
    "CppAD.Util.Pod.push_own_wrong"
   ],
   "note": "Partial because the claim is false of the code in one case: push_back whose argument is an element of the vector itself reads returned memory when the vector is at its capacity (push_own_wrong; CppAD::vector handles this case). Proved for all other histories, for plain old data and for other element types. memcpy is a loop over elements; the allocator is the contract of C28."
  },
  {
   "property": "C65",
   "status": "proved",
   "theorems": [
    "CppAD.Lu.luRatio_ok",
    "CppAD.Lu.luRatio_x0"
   ],
   "note": "Elements that depend on the independent variables are functions of the evaluation point; what is decided while recording is decided at the recording point (that the recording computes these functions is C06 and C11). Exact real arithmetic; arguments for which a recorded pivot is zero (infinite ratio) are left out."
  },
  {
   "property": "C66",
   "status": "partial",
   "theorems": [
    "CppAD.Speed.sparseHes_ok",
    "CppAD.Speed.hesDiagonal_assert",
    "CppAD.Speed.sparseJac_ok_partial",
    "CppAD.Speed.sparseJac_dup_wrong",
    "CppAD.Speed.matSumSq_ok",
    "CppAD.Speed.odeGradient_ok_partial",
    "CppAD.Speed.odeGradient_overflow_wrong"
   ],
   "note": "Partial because the claim is false of the code in two cases: sparse_jac_fun with an entry that is requested twice, which its documentation does not exclude (sparseJac_dup_wrong; sparse_hes_fun excludes it), and ode_evaluate with more than 21 components, where a factorial of type size_t overflows (odeGradient_overflow_wrong). Everything else is proved, with exact real arithmetic. The value of ode_evaluate for p = 0 (an approximation by Runge45) is not modelled."
  },
  {
   "property": "C67",
   "status": "proved",
   "theorems": [
    "CppAD.Rk.runge45_ok",
    "CppAD.Rk.Sc.nan_ok"
   ],
   "note": "The order is proved for a fixed M as tf tends to ti, from the left and from the right, with C-infinity functions F and exact real arithmetic; the order conditions hold at every step with the time and state of the code (series in the elementary differentials of the autonomous system). When tf is fixed and M tends to infinity the error is of order h^5 only (a property of every method of this order); this is not claimed. Not a number is modelled as an absorbing element for arithmetic and fabs; infinities are not modelled."
  },
  {
   "property": "C68",
   "status": "proved",
   "theorems": [
    "CppAD.Rk.rosen34_ok",
    "CppAD.Rk.rosen34_nan_ok"
   ],
   "note": "The order is proved for a fixed M as tf tends to ti, from the left and from the right, with C-infinity functions F and exact real arithmetic; LuFactor and LuInvert are the model of C35 (the matrix I - f_x h / 2 is shown to be invertible for small h). When tf is fixed and M tends to infinity the error is of order h^4 only; this is not claimed. In the theorem about nan the scalars and operations are arbitrary, with a predicate for nan."
  },
  {
   "property": "C69",
   "status": "partial",
   "theorems": [
    "CppAD.NearEq.nearEqual_iff",
    "CppAD.NearEq.nearEqual_partial",
    "CppAD.NearEq.nearEqual_comm_partial",
    "CppAD.NearEq.nearEqualC_iff",
    "CppAD.NearEq.nearEqualC_partial",
    "CppAD.NearEq.nearEqualCR_partial",
    "CppAD.NearEq.nearEqual_complex_partial",
    "CppAD.NearEq.nearEqual_inf_wrong",
    "CppAD.NearEq.nearEqualC_inf_wrong"
   ],
   "note": "The full claim is false of the code: near_equal_isfinite computes yInf from x, so an infinite second argument (or an infinite imaginary part) is not detected; nearEqual_iff and nearEqualC_iff give the value for all arguments, and nearEqual_inf_wrong, nearEqualC_inf_wrong are the defect. The _partial theorems exclude an infinite second argument (imaginary part). Scalars are real numbers with two infinities and not a number, without rounding and overflow."
  },
  {
   "property": "C70",
   "status": "proved",
   "theorems": [
    "CppAD.Optim.numberSkip_ok",
    "CppAD.Optim.numberSkip_ge",
    "CppAD.Optim.executed_ok",
    "CppAD.Optim.numberSkip_none",
    "CppAD.Optim.nres_code",
    "CppAD.Optim.numberSkip_order"
   ],
   "note": "Operation sequences are those of C13, C14 (the operators of a call of an atomic function other than its results are one operator). get_cexp_info does not compare the operators that can be skipped with the position of the CSkipOp, so optimize can create a conditional skip after an operator that it skips; numberSkip_order shows that such an operator is counted although it was executed, so the first sentence needs its hypothesis."
  }
 ]
}