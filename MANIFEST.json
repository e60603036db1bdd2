{"claims": [
{"property": "C01", "status": "partial", "theorems": ["Ispc.Spmd.gang_matches_serial_partial", "Ispc.Spmd.break_after_varying_continue_loses_lanes", "Ispc.Spmd.gang_hangs_where_serial_returns", "Ispc.Spmd.gang_returns_serial_results_partial", "Ispc.Spmd.gangCall_mono", "Ispc.Spmd.hang_not_live", "Ispc.Spmd.gang_runs_dead_loop"], "note": "Equality with the serial semantics (both directions, via determinism) for every program in the uniform-variable discipline Wf, whenever the gang returns. Missing: the two refuted corners (direct-jump break after a varying continue; uniform loop left by return under a varying if). Termination: gang_returns_serial_results_partial proves that the gang returns, with the results of the serial executions, whenever every active instance does on its own, for the programs in which no loop with a uniform condition can be reached with all instances off (the check `live`); for other programs it can hang (gang_hangs_where_serial_returns, gang_runs_dead_loop)."},
{"property": "C02", "status": "proved", "theorems": ["Ispc.Spmd.inactive_instance_unmodified", "Ispc.Spmd.masked_off_instance_untouched", "Ispc.Spmd.false_test_instance_untouched"], "note": "memory is modelled per instance, so races on shared memory are out of scope"},
{"property": "C03", "status": "proved", "theorems": ["Ispc.Spmd.mask_after_statement", "Ispc.Spmd.mask_after_loop_or_switch", "Ispc.Spmd.mask_at_top_level", "Ispc.Spmd.active_iff_serial_normal_partial"], "note": "the link to the serial outcome (last theorem) is partial as C01"},
{"property": "C04", "status": "partial", "theorems": ["Ispc.Spmd.coherent_variants_equivalent", "Ispc.Spmd.hints_do_not_change_results_partial", "Ispc.Spmd.predicated_loop_hangs"], "note": "coherent variants: full equality. Predication: equality of results when both compilations return; predication may add a hang (refuted corner)."},
{"property": "C05", "status": "partial", "theorems": ["Ispc.Spmd.untaken_side_not_executed", "Ispc.Spmd.untaken_side_has_no_uniform_effect", "Ispc.Spmd.loop_not_entered", "Ispc.Spmd.safe_code_with_mask_off_changes_nothing", "Ispc.Spmd.switch_case_runs_for_inactive_instance"], "note": "if/loops proved; for switch labels the claim is refuted (label check uses the internal mask only)"},
{"property": "C06", "status": "proved", "theorems": ["Ispc.Foreach.foreach_one_dim_once", "Ispc.Foreach.foreach_one_dim_rows", "Ispc.Foreach.foreach_near_int_max_overflows"], "note": "32-bit bounds with room for one gang above them (NoOverflow); outside that the counter overflows, shown by the last theorem"},
{"property": "C07", "status": "proved", "theorems": ["Ispc.Foreach.foreach_covers_domain_once", "Ispc.Foreach.inverted_inner_range_runs_body_all_off"], "note": "any number of dimensions, any gang width (power of two when tiled); an inverted inner range may run the body with no instance active"},
{"property": "C08", "status": "proved", "theorems": ["Ispc.ForeachActive.foreach_active_serialises", "Ispc.ForeachActive.activeLanes_spec", "Ispc.ForeachActive.foreach_active_all_off"], "note": "arbitrary body; an empty mask is undefined behaviour (last theorem)"},
{"property": "C09", "status": "proved", "theorems": ["Ispc.ForeachActive.foreach_unique_groups", "Ispc.ForeachActive.foreach_unique_group_unique", "Ispc.ForeachActive.foreach_unique_nan_diverges"], "note": "for comparisons that are equivalences on the active values; NaN refuted"},
{"property": "C10", "status": "partial", "theorems": ["Ispc.Spmd.switch_matches_serial_partial", "Ispc.Spmd.switch_case_runs_for_inactive_instance"], "note": "needs the uniform-variable discipline Wf; labels nested inside other statements are not modelled"},
{"property": "C11", "status": "proved", "theorems": ["Ispc.Spmd.uniform_loop_leaves_together", "Ispc.Spmd.uniform_loop_serial_agreement_partial", "Ispc.Spmd.uniform_loop_jumps_compile"], "note": "the serial-side reading needs Wf"},
{"property": "C12", "status": "partial", "theorems": ["Ispc.Short.short_circuit_partial", "Ispc.Short.run_spec", "Ispc.Short.spec_ser", "Ispc.Short.uniform_assigned_iff", "Ispc.Short.assignment_runs_anyway", "Ispc.Short.guarded_division_by_zero"], "note": "every expression built from variables, arrays, operators, divisions, element reads, assignments, calls, &&, || and ?:, every cost estimate, mask and memory; false, with witnesses, for right operands of && and || that the compiler chooses not to short-circuit although they assign, so the theorem assumes that those do neither. Short vectors as test of ?: and targets with a hardware mask are not modelled"},
{"property": "C13", "status": "proved", "theorems": ["Ispc.FnPtr.varying_call", "Ispc.FnPtr.functions_spec", "Ispc.FnPtr.varying_call_per_instance", "Ispc.FnPtr.varying_call_converged", "Ispc.FnPtr.varying_call_all_off"], "note": "every gang of at most 64 instances, mask, vector of function pointers and behaviour of the functions, including failing and diverging ones. Targets with a hardware mask and members of a returned structure that are declared uniform are not modelled"},
{"property": "C14", "status": "partial", "theorems": ["Ispc.Gather.gather_ptrs", "Ispc.Gather.addr32_value", "Ispc.Gather.addr64_value", "Ispc.Gather.gather_factored32", "Ispc.Gather.gather_factored64", "Ispc.Gather.gather_factored_reads_base", "Ispc.Gather.gather_base32", "Ispc.Gather.gather_base64", "Ispc.Gather.scatter_ptrs", "Ispc.Gather.scatter_factored", "Ispc.Gather.masked_store", "Ispc.Gather.masked_load", "Ispc.Gather.fast_masked_load", "Ispc.Gather.scattered_unique", "Ispc.Gather.masked_store_blend"], "note": "the target-independent gathers, scatters, masked loads and masked stores are proved equivalent to the lane-by-lane specification, including which bytes they touch. The coalesced form is C46. Missing: the native gathers of AVX2, AVX-512 and Xe; the factored gathers read the element at the base for instances that are off, which contradicts the strict statement (gather_factored_reads_base)"},
{"property": "C15", "status": "partial", "theorems": ["Ispc.Scan.exclusiveScan_spec", "Ispc.Scan.exclusiveScanM4_spec", "Ispc.Scan.exclusive_scan_add", "Ispc.Scan.exclusive_scan_or", "Ispc.Scan.exclusive_scan_and", "Ispc.Scan.reduceAdd_eq", "Ispc.Scan.reduceMinS_spec", "Ispc.Scan.reduceMaxS_spec", "Ispc.Scan.reduceMinU_spec", "Ispc.Scan.reduceMaxU_spec", "Ispc.Scan.any_iff", "Ispc.Scan.all_iff", "Ispc.Scan.none_iff", "Ispc.Scan.popcntBool_eq", "Ispc.Scan.reduce_equal_generic", "Ispc.Scan.reduce_equal_m4", "Ispc.Scan.reduce_equal_m4_pairs", "Ispc.Scan.reduce_equal_empty_mask_poison", "Ispc.Scan.packed_store_active", "Ispc.Scan.packed_load_active", "Ispc.Scan.packed_load_store", "Ispc.Scan.packed_store_active2"], "note": "all masks, values and gangs of up to 64 instances; reduce_equal needs an active instance (the documented empty-mask answer is refuted by reduce_equal_empty_mask_poison); reductions of floating-point numbers are C82"},
{"property": "C16", "status": "partial", "theorems": ["Ispc.Perm.rotate_spec", "Ispc.Perm.rotateConst_spec", "Ispc.Perm.rotateViaShuffle_spec", "Ispc.Perm.broadcast_spec", "Ispc.Perm.shuffle_spec", "Ispc.Perm.shuffle2_spec", "Ispc.Perm.shiftViaShuffle_spec", "Ispc.Perm.shift_spec_partial", "Ispc.Perm.shift_out_of_bounds", "Ispc.ShiftPass.constant_shift_partial", "Ispc.ShiftPass.constant_shift_function", "Ispc.ShiftPass.overflow_undefined"], "note": "every offset, permutation and vector; the memory-based shift reads outside its array for offsets beyond one gang (last theorem), the shuffle-based one is right for every offset; the replacement of shifts by a constant is right unless the compiler's own int overflows"},
{"property": "C17", "status": "proved", "theorems": ["Ispc.Aos.aos_to_soa_spec", "Ispc.Aos.soa_to_aos_spec", "Ispc.Aos.soa_aos_roundtrip", "Ispc.Aos.aos_soa_roundtrip", "Ispc.AosNets.aos_to_soa_nets", "Ispc.AosNets.soa_to_aos_nets", "Ispc.AosNets.aos_net_generic", "Ispc.AosNets.soa_net_generic", "Ispc.AosNets.nets_cover"], "note": "the loops of generic.ispc: any number of fields and any gang; all the shuffle networks of util.m4 and util-xe.m4: every element value, address and memory. Not modelled: what noalias lets LLVM assume when the source overlaps a destination"},
{"property": "C18", "status": "partial", "theorems": ["Ispc.Atomics.local_serial", "Ispc.Atomics.localVaryingPtr_serial", "Ispc.Atomics.localUniformPtr_steps", "Ispc.Atomics.cas_one_winner", "Ispc.Atomics.local_cas_one_winner", "Ispc.Atomics.swapDouble_not_swap"], "note": "every operation, mask, pointer vector (aliasing allowed) with at least one active instance and gangs of up to 64; the one wrong instance, swap on double, is refuted by the last theorem"},
{"property": "C19", "status": "partial", "theorems": ["Ispc.Atomics.addGeneric_serial", "Ispc.Atomics.orGeneric_serial", "Ispc.Atomics.xorGeneric_serial", "Ispc.Atomics.addM4_serial", "Ispc.Atomics.andM4_serial", "Ispc.Atomics.orM4_serial", "Ispc.Atomics.xorM4_serial", "Ispc.Atomics.no_lost_update", "Ispc.Atomics.tickets", "Ispc.Atomics.swap_serial", "Ispc.Atomics.global_rmw_varying", "Ispc.Atomics.global_cas_varying", "Ispc.Atomics.global_fp_per_lane", "Ispc.Atomics.global_cas_per_lane", "Ispc.Atomics.minGlobal_memory_partial", "Ispc.Atomics.minGlobal_not_serial", "Ispc.Atomics.subM4_serial_partial", "Ispc.Atomics.subM4_not_serial", "Ispc.Atomics.subM4_single_lane_adds", "Ispc.Atomics.andGeneric_subtracts", "Ispc.Atomics.subGeneric32_returns_negated", "Ispc.Atomics.subGeneric64_not_serial", "Ispc.Atomics.cmpxchgGeneric_all_lanes", "Ispc.Atomics.cmpxchgGeneric_inactive_writes"], "note": "hardware operations are single atomic steps and other threads are an arbitrary environment; subtract, generic and, generic compare-exchange and the values returned by min/max violate the property and are refuted; the Xe versions are not modelled; only signed min is modelled"},
{"property": "C20", "status": "partial", "theorems": ["Ispc.Sat.addS_clamps", "Ispc.Sat.addU_clamps", "Ispc.Sat.subS_clamps", "Ispc.Sat.subU_clamps", "Ispc.Sat.mulS_clamps", "Ispc.Sat.mulU_clamps", "Ispc.Sat.divS_clamps", "Ispc.Sat.divU_exact", "Ispc.Sat.mulS64_clamps", "Ispc.Sat.mulU64_clamps_partial", "Ispc.Sat.mulU64_does_not_saturate"], "note": "every width and operand; the only missing case, uint64 multiplication, is refuted by the last theorem"},
{"property": "C21", "status": "partial", "theorems": ["Ispc.Sat.avgUpU_exact", "Ispc.Sat.avgDownU_exact", "Ispc.Sat.avgUpS_exact", "Ispc.Sat.avgDownS_exact", "Ispc.Average.upU_exact", "Ispc.Average.downU_exact", "Ispc.Average.pavg_exact", "Ispc.Average.upS_value", "Ispc.Average.downS_value", "Ispc.Average.upS_exact_partial", "Ispc.Average.downS_exact_partial", "Ispc.Average.upS_wrong", "Ispc.Average.downS_wrong"], "note": "any width of at least two bits; the source uses 8 and 16. The unsigned functions and the signed ones of generic.ispc are exact. The signed ones of util.m4, which the x86 targets use, are exact iff the dividend is not negative and odd; the full property is false of them (proved)"},
{"property": "C22", "status": "partial", "theorems": ["Ispc.Dispatch.called_can_run_partial", "Ispc.Dispatch.called_is_best", "Ispc.Dispatch.terminated_partial", "Ispc.Dispatch.always_same_variant", "Ispc.Dispatch.trapped_only", "Ispc.Dispatch.never_null", "Ispc.Dispatch.call_completes", "Ispc.Dispatch.vnni_variant_on_skylake", "Ispc.Dispatch.nova_lake_with_tiles", "Ispc.Dispatch.knights_landing_terminates", "Ispc.Dispatch.unordered_null_call"], "note": "every list of targets, every CPUID and XCR0 report of a machine with leaf 7, every interleaving of any number of threads; the last four theorems refute the property for the AVX2-VNNI variant on AVX-512 machines, for a Nova Lake machine with tiles, for Knights Landing, and for loads as weak as LLVM's unordered ones"},
{"property": "C23", "status": "partial", "theorems": ["Ispc.Detect.detected_has_partial", "Ispc.Detect.detected_vnni_partial", "Ispc.Detect.detected_has", "Ispc.Detect.detected_best", "Ispc.Detect.more_features", "Ispc.Detect.amx_iff", "Ispc.Detect.vnni_without_avx2", "Ispc.Detect.leaf_not_checked"], "note": "every CPUID and XCR0 report of a machine with leaf 7; the level AVX2-VNNI is claimed without a test for AVX2 (vnni_without_avx2), leaf 7 is read without a test that it exists (leaf_not_checked)"},
{"property": "C24", "status": "partial", "theorems": ["Ispc.Sched.started_at_most_once", "Ispc.Sched.only_launched_run", "Ispc.Sched.no_handle_all_finished", "Ispc.Sched.sync_waits", "Ispc.Sched.done_below", "Ispc.Sched.no_crash", "Ispc.Sched.can_always_finish", "Ispc.Sched.fair_finishes", "Ispc.Sched.empty_launch_crash"], "note": "every number of threads and workers, every interleaving and nesting of launches, without empty launches (a launch of zero tasks can stop the process: last theorem), given that AllocTaskGroup hands a group to one owner (refuted for the code in C27) and that functions sync before they return (C42); completion is shown as always reachable, and as certain in every run in which the scheduler forgets no thread that can move and the program asks for finitely many launches, syncs and calls"},
{"property": "C25", "status": "proved", "theorems": ["Ispc.TaskSys.task_index_bijection", "Ispc.TaskSys.task_index_in_range"], "note": "counts as naturals; the C int product is assumed not to overflow"},
{"property": "C26", "status": "partial", "theorems": ["Ispc.Alloc.alloc_defined", "Ispc.Alloc.blocks_ok_partial", "Ispc.Alloc.oversize_overlap"], "note": "every history of requests of up to 2^30 bytes with alignments up to 2^29 within the 16 buffers; larger sizes are truncated to int and overlap (last theorem)"},
{"property": "C27", "status": "partial", "theorems": ["Ispc.FreeList.two_owners", "Ispc.FreeList.exclusive_partial", "Ispc.FreeList.exclusive_sequential"], "note": "the property fails for concurrent calls (first theorem); it holds when no two allocations race on a slot"},
{"property": "C28", "status": "proved", "theorems": ["Ispc.SymTab.lookupVariable_spec", "Ispc.SymTab.lookupVariable_none", "Ispc.SymTab.addVar_spec", "Ispc.SymTab.lookupType_spec", "Ispc.SymTab.addType_spec", "Ispc.SymTab.lookupFunction_spec", "Ispc.SymTab.block_restores"], "note": "every history of scope and add operations that fails no assertion; function templates and intrinsics, and the suggestions, are not in this model"},
{"property": "C29", "status": "partial", "theorems": ["Ispc.Promote.common_type_symm", "Ispc.Promote.common_type_self", "Ispc.Promote.common_type_varying", "Ispc.Promote.precedence_partial", "Ispc.Promote.same_kind_keeps_values", "Ispc.Promote.keeps_values_iff", "Ispc.Promote.fits_iff", "Ispc.Promote.vector_vector", "Ispc.Promote.vector_scalar", "Ispc.Promote.vector_lengths", "Ispc.Promote.common_type_no_crash", "Ispc.Promote.float16_beats_int32", "Ispc.Promote.const_depends_on_order", "Ispc.Promote.enum_vector_crash"], "note": "every pair of operand types; symmetry holds up to const, which depends on the order of the operands (const_depends_on_order); the documented order of precedence fails for float16 with int32/uint32 (float16_beats_int32); short vectors of enum types crash the compiler (enum_vector_crash)"},
{"property": "C30", "status": "partial", "theorems": ["Ispc.Mangle.same_symbol_iff", "Ispc.Mangle.overloads_differ_partial", "Ispc.Mangle.redeclaration_same_symbol", "Ispc.Mangle.mangle_eq_iff", "Ispc.Mangle.mangles_eq_iff", "Ispc.Mangle.plain_name", "Ispc.Mangle.targets_differ", "Ispc.Mangle.const_pointer_collision", "Ispc.Mangle.function_pointer_collision", "Ispc.Mangle.anonymous_enum_collision", "Ispc.Mangle.struct_name_collision", "Ispc.Mangle.template_collision"], "note": "every name, template argument list and parameter list: the symbols are equal exactly when name, arguments and parameters are equal up to what mangling leaves out; the collision theorems refute the property for const pointers, function pointers with different results, anonymous enums, and names that contain the separators"},
{"property": "C31", "status": "partial", "theorems": ["Ispc.Overload.chosen_is_cheapest", "Ispc.Overload.chosen_is_unique", "Ispc.Overload.order_irrelevant", "Ispc.Overload.ambiguous_iff", "Ispc.Overload.noMatch_iff", "Ispc.Overload.exact_match_wins_partial", "Ispc.Overload.exact_match_rejected", "Ispc.Overload.uncallable_irrelevant", "Ispc.Overload.defaults_free", "Ispc.Overload.no_warning_dominates", "Ispc.Overload.varying_argument_needs_varying", "Ispc.Overload.atomic_converts", "Ispc.Overload.operands_convert_to_common", "Ispc.Overload.number_cost", "Ispc.Overload.widening_partial", "Ispc.Overload.lossy_widens", "Ispc.Overload.const_beats_reference", "Ispc.Overload.documented_ambiguity_compiles", "Ispc.Overload.many_arguments_rejected", "Ispc.Overload.reference_binding"], "note": "every candidate list and argument list: minimal cost, order independence, ties reported, no match exactly when nothing can be called (up to 103 arguments). Missing: an exact match does not always win, as two tying template instances make the call an error (exact_match_rejected); deduction of template arguments is C75"},
{"property": "C32", "status": "partial", "theorems": ["Ispc.Fold.fold_sound_partial", "Ispc.Fold.constant_folds", "Ispc.Fold.no_crash_partial", "Ispc.Fold.fold_undefined_iff", "Ispc.Fold.foldArith_run", "Ispc.Fold.foldCmp_run", "Ispc.Fold.foldCast_run_partial", "Ispc.Fold.double_rounding", "Ispc.Fold.truncate_toward_zero", "Ispc.Fold.rne_nearest", "Ispc.Fold.folded_cast_differs", "Ispc.Fold.negate_varying_uint16_crashes", "Ispc.Fold.mixed_logic_crashes", "Ispc.Fold.uint16_product", "Ispc.Fold.shift_of_negative"], "note": "every expression tree of constants, variables, operators, ?: and casts, every lane count, every value: the folded expression keeps the value in every lane where it was defined. Missing, because false: casts of 64-bit integers to float are rounded twice; two kinds of expression crash the compiler; some C++ operations of the compiler are undefined (characterised exactly). Arithmetic of floating-point numbers is a parameter; Legacy fast math is not modelled"},
{"property": "C33", "status": "partial", "theorems": ["Ispc.Soa.access_address_partial", "Ispc.Soa.deref_address_partial", "Ispc.Soa.elements_disjoint_partial", "Ispc.Soa.every_slot", "Ispc.Soa.ptrAdd_at", "Ispc.Soa.ptrSub_at", "Ispc.Soa.whole_load", "Ispc.Soa.locate_disjoint", "Ispc.Soa.accepted_width", "Ispc.Soa.member_matrix_aliases", "Ispc.Soa.array_of_arrays_aliases", "Ispc.Soa.member_pointer_steps_over", "Ispc.Soa.index_sum_wraps"], "note": "every structure type built from basic types, arrays and structures, every power-of-two width, array length, index and lvalue path, in the three pointer and addressing modes; false, with witnesses, for an array of arrays inside the structure, for arrays of arrays of soa structures and for arithmetic on pointers into member arrays, so the address theorems assume that no [i] directly follows another. Elements of uniform and varying pointers that are not slices are not modelled, nor are bit-level layouts other than LLVM's natural alignment"},
{"property": "C34", "status": "partial", "theorems": ["Ispc.Div.scalar_spec", "Ispc.Div.quotient_range", "Ispc.Div.division_defined", "Ispc.Div.division_result", "Ispc.Div.constant_division", "Ispc.Div.variable_minus_one_defined", "Ispc.Div.predicated_div_assign_partial", "Ispc.Div.constant_minus_one_inactive_undefined", "Ispc.Div.predicated_div_assign_undefined"], "note": "all masks, operands and widths; a constant divisor of -1 with INT_MIN in an inactive instance, and a predicated `/=` no instance takes, violate the property and are refuted by the last two theorems"},
{"property": "C35", "status": "proved", "theorems": ["Ispc.MemOps.memmove_correct", "Ispc.MemOps.memcpy_correct", "Ispc.MemOps.memset_correct", "Ispc.MemOps.memcpy_varying", "Ispc.MemOps.memset_varying", "Ispc.MemOps.memmove_varying", "Ispc.MemOps.memmove_varying_disjoint"], "note": "any length and pointers; the varying versions need at least one active instance"},
{"property": "C36", "status": "partial", "theorems": ["Ispc.RefCount.handles_safe_partial", "Ispc.RefCount.handles_exact_partial", "Ispc.RefCount.move_assign_leaks", "Ispc.RefCount.copy_assign_leaks", "Ispc.RefCount.copy_of_null", "Ispc.RefCount.queue_deletes_live_future"], "note": "every history without the operations that the last four theorems refute: move assignment onto a handle that holds an object, GenericObject copy assignment likewise, copies of an empty GenericObject, and destroying a CPU task queue whose futures are still held; one thread (the counter is atomic)"},
{"property": "C37", "status": "proved", "theorems": ["Ispc.EditDistance.distance_spec", "Ispc.EditDistance.distance_self", "Ispc.EditDistance.suggestions_spec", "Ispc.EditDistance.suggestions_sublist"], "note": "all strings, candidates and bounds; int arithmetic taken as exact (string lengths below 2^31)"},
{"property": "C38", "status": "proved", "theorems": ["Ispc.Rng.streams_independent", "Ispc.Rng.inactive_state_kept", "Ispc.Rng.frandom_value", "Ispc.Rng.frandom_varying"], "note": "every history of seedings and draws under any masks; frandom assumes that a float subtraction with a representable result is exact"},
{"property": "C39", "status": "proved", "theorems": ["Ispc.Half.half_to_float_finite", "Ispc.Half.half_to_float_special", "Ispc.Half.half_to_float_varying_eq", "Ispc.Half.float_to_half_nearest", "Ispc.Half.float_to_half_special", "Ispc.Half.float_to_half_varying_eq", "Ispc.Half.half_round_trip", "Ispc.Half.half_to_float_fast_normal", "Ispc.Half.float_to_half_fast_nearest"], "note": "all 2^16 halves and 2^32 floats; assumes that float subtraction with a representable result is exact and float multiplication rounds to a nearest float without flushing subnormals; native conversion instructions are not modelled; the fast versions on the normalised range only, as documented"},
{"property": "C40", "status": "partial", "theorems": ["Ispc.Link.nearest_linked_partial", "Ispc.Link.no_bypass_partial", "Ispc.Link.origin_in_chain", "Ispc.Link.all_resolved", "Ispc.Link.parent_bypasses_target", "Ispc.Link.chain_ends", "Ispc.Link.parent_same_shape"], "note": "every target, program and set of definitions; the nearest definition is linked for what the program itself refers to (first theorem) and seen from every linked function (second); a builtin only a parent refers to bypasses the target's own version (parent_bypasses_target); the linking of one bitcode file by LLVM is trusted to add exactly the needed definitions"},
{"property": "C41", "status": "proved", "theorems": ["Ispc.RngPeriod.draw_period", "Ispc.RngPeriod.state_period", "Ispc.RngPeriod.state_period_z1", "Ispc.RngPeriod.seed_zero_short_period"], "note": "every live state and number of draws; the excluded seed 0 is shown to have a short period"},
{"property": "C42", "status": "partial", "theorems": ["Ispc.ImplicitSync.implicit_sync_partial", "Ispc.ImplicitSync.implicit_sync_launch_first", "Ispc.ImplicitSync.missing_sync"], "note": "functions no loop of which has both a launch and a return, or that launch before any loop; refuted in general by the last theorem; goto and switch not modelled"},
{"property": "C43", "status": "partial", "theorems": ["Ispc.Short.short_circuit_partial", "Ispc.Short.increment_evaluates_index_twice"], "note": "the log of element reads, divisions and calls and the memory of each instance equal those of one evaluation by the rules of C; false, with a witness, for increments of array elements, so the theorem assumes that the index of x[i]++ has no effect. Indexing a temporary, which also evaluates the index twice, is not modelled"},
{"property": "C44", "status": "partial", "theorems": ["Ispc.Offsets.safe32_sum", "Ispc.Offsets.extract_sum", "Ispc.Offsets.extract_low", "Ispc.Offsets.scale_spec", "Ispc.Offsets.scale_values", "Ispc.Offsets.baseAndOffsets_spec", "Ispc.Offsets.factored_address_partial", "Ispc.Offsets.unfactored_address_partial", "Ispc.Offsets.moreConst_address_partial", "Ispc.Offsets.factored32_address_partial", "Ispc.Offsets.unfactored32_address_partial", "Ispc.Offsets.gather_split_partial", "Ispc.Offsets.scatter_split_partial", "Ispc.Offsets.element_address64", "Ispc.Offsets.element_address32", "Ispc.Offsets.unsigned_minus_one_wrong", "Ispc.Offsets.reassociated_wrong", "Ispc.Offsets.odd_size_wrong", "Ispc.Offsets.shift_poison", "Ispc.Offsets.factor_wrong", "Ispc.Offsets.scaled_unsigned_wrong", "Ispc.Offsets.unsigned32_wrong", "Ispc.Offsets.truncated_sum_wrong", "Ispc.Offsets.unsigned_index_poison"], "note": "proved for all expressions, values and gang sizes: the parts add up whenever no cast sees an overflow of its parts, always modulo 2^m if all casts are between at least m bits, and a[i + k] with an int index is right in both addressing modes. Missing: the unconditional property, which is false of the code (counterexamples proved); patterns with shuffles, constant expressions and extracted members"},
{"property": "C45", "status": "partial", "theorems": ["Ispc.LinearSound.all_equal_sound_partial", "Ispc.LinearSound.linear_sound_partial", "Ispc.LinearSound.roundUpPow2_spec", "Ispc.LinearSound.block_sameDiv", "Ispc.LinearSound.block_aligned", "Ispc.LinearWrong.ring_index_wrong", "Ispc.LinearWrong.ring8_index_wrong", "Ispc.LinearWrong.blocked_index_wrong", "Ispc.LinearWrong.blocked_negative_wrong", "Ispc.LinearWrong.shifted_phi_wrong", "Ispc.LinearWrong.mirror_phi_wrong", "Ispc.LinearWrong.ring_phi_wrong", "Ispc.LinearWrong.narrow_index_wrong", "Ispc.LinearWrong.accumulate_assertion", "Ispc.GatherToLoad.maskStatus_sound", "Ispc.GatherToLoad.gather_replacement", "Ispc.GatherToLoad.scatter_replacement", "Ispc.GatherToLoad.broadcast_gather", "Ispc.GatherToLoad.forward_gather", "Ispc.GatherToLoad.backward_gather", "Ispc.GatherToLoad.forward_scatter", "Ispc.GatherToLoad.backward_scatter", "Ispc.GatherToLoad.broadcast_reads", "Ispc.GatherToLoad.address_64", "Ispc.GatherToLoad.address_32"], "note": "the analysis of offset vectors is proved sound on every data-flow graph, run and depth under conditions on the constants, phis and casts that the code does not check; without each of the conditions it is wrong, by a concrete run. Missing: the unconditional property, which is false of the code"},
{"property": "C46", "status": "partial", "theorems": ["Ispc.Coalesce.loads_spec", "Ispc.Coalesce.compile_spec", "Ispc.Coalesce.run_spec", "Ispc.Coalesce.coalesced", "Ispc.Coalesce.coalesced64", "Ispc.Coalesce.coalesced32_partial", "Ispc.Coalesce.group_spec", "Ispc.Coalesce.negative_constant_wrong", "Ispc.Coalesce.unaligned_wrong", "Ispc.Coalesce.second_gather_wrong", "Ispc.Coalesce.half_finished_poison", "Ispc.Coalesce.barrier_wrong"], "note": "proved for all groups, offsets and memories with up to 16 instances, or one gather of 32 or 64 instances, under conditions on the constants that the code does not check; without them it is wrong: negative 32-bit constants, offsets that are not multiples of 4, the second gather of a gang of 32 or 64, gathers on both sides of a memory barrier. Missing: the unconditional property, which is false of the code"},
{"property": "C47", "status": "partial", "theorems": ["Ispc.ConstMask.select_partial", "Ispc.ConstMask.select_wrong", "Ispc.ConstMask.blend_partial", "Ispc.ConstMask.movmsk_sound", "Ispc.ConstMask.load_sound", "Ispc.ConstMask.store_sound", "Ispc.ConstMask.maskload_partial", "Ispc.ConstMask.maskload_wrong", "Ispc.ConstMask.checkMask_spec", "Ispc.ConstMask.store_prefix_partial", "Ispc.ConstMask.load_prefix_partial", "Ispc.ConstMask.merge_pow", "Ispc.ConstMask.merge_three", "Ispc.ConstMask.store_prefix_wrong", "Ispc.ConstMask.load_prefix_wrong"], "note": "proved for all masks and memories: movmsk; masked loads and stores of the gang's length; selects and blends not longer than the gang; prefix masks without undefined elements before elements that are on, and with three elements on only if the pass-through value has equal first and fourth elements. Otherwise the property is false of the code (counterexamples proved). Not modelled: alignment"},
{"property": "C48", "status": "partial", "theorems": ["Ispc.Average.matchUp_value", "Ispc.Average.matchDown_value", "Ispc.Average.replace_sound_partial", "Ispc.Average.replace_fn", "Ispc.Average.replace_none", "Ispc.Average.div3_replaced", "Ispc.Average.delta0_replaced"], "note": "every accepted unsigned expression computes (a + b + d)/e with d <= 1 and e <= 3, and the call returns its value if d = 1 and e = 2. The full property is false: division by 3 is accepted (proved). The signed patterns are modelled but have no theorem: no target has an instruction for them, so they are never replaced (replace_fn)"},
{"property": "C49", "status": "partial", "theorems": ["Ispc.Blend.room_partial", "Ispc.Blend.vector_partial", "Ispc.Blend.direct_partial", "Ispc.Blend.never_blended", "Ispc.Blend.disabled_never", "Ispc.Blend.variable_index_wrong", "Ispc.Blend.interior_wrong", "Ispc.Blend.lost_update_wrong", "Ispc.BlendFns.target_blends", "Ispc.BlendFns.noncanonical_differ"], "note": "the choice of ReplacePseudoMemoryOps for every type, pointer and value, and every blend of the target files. False of the code for places in structures that are not constant, for places that are not the start of a vector and when another thread writes to the variable: proved with witnesses; what holds is proved for the rest"},
{"property": "C50", "status": "partial", "theorems": ["Ispc.Literal.integer_partial", "Ispc.Literal.value_unique", "Ispc.Literal.leadingZero_crash", "Ispc.Literal.leadingZero_octal", "Ispc.Literal.octal_wrong", "Ispc.Literal.overflow_wrong", "Ispc.Literal.string_partial", "Ispc.Literal.hexa_wrong", "Ispc.Literal.hexa_string_wrong", "Ispc.Literal.rnd_nearest", "Ispc.Literal.hex_double_partial", "Ispc.Literal.hex_float_partial", "Ispc.Literal.hex_underflow_wrong", "Ispc.Literal.hex_wrong", "Ispc.Literal.decimal_partial", "Ispc.Literal.decimal_float_wrong", "Ispc.Literal.kind_spec"], "note": "integer literals with every prefix, unit and suffix, of any size: the exact condition for the value to come out right; strings; hexadecimal and decimal floating-point literals with IEEE rounding. False of the code for numbers with leading zeros, numbers that do not fit, hexadecimal escapes, hexadecimal literals with extreme exponents or many digits, decimal float literals close to a tie: proved with witnesses. Not modelled: float16 literals (LLVM), the regular expressions of the scanner, the Fortran form"},
{"property": "C51", "status": "partial", "theorems": ["Ispc.Print.print_partial", "Ispc.Print.print_accepts", "Ispc.Print.print_overflow", "Ispc.Print.fits", "Ispc.Print.txt_shows", "Ispc.Print.print_double_overflow", "Ispc.Print.print_int64_overflow", "Ispc.Print.printXe_spec", "Ispc.Print.xe_same", "Ispc.Print.xe_bool_differs"], "note": "CPU: the output is the documented text, cut at 8195 characters, if the text of each argument has less than 1024 characters (proved to be so for each type up to a number of lanes); if not, the program writes beyond a buffer on the stack, proved with two witnesses. GPU: the whole text for every format and every length, and every slice within the limit. Not modelled: the standard output itself, printf of the C library beyond the specifiers used, formats with zeros inside on the GPU"},
{"property": "C52", "status": "partial", "theorems": ["Ispc.MemPool.views_apart", "Ispc.MemPool.view_backed", "Ispc.MemPool.view_made", "Ispc.MemPool.numBytes_spec", "Ispc.MemPool.size_changes", "Ispc.MemPool.view_aligned", "Ispc.MemPool.misaligned", "Ispc.MemPool.pointer_stays", "Ispc.MemPool.refused", "Ispc.MemPool.reuse_partial", "Ispc.MemPool.reuse_after_failure", "Ispc.MemPool.no_leak_partial", "Ispc.MemPool.null_leaks", "Ispc.MemPool.crash_iff", "Ispc.MemPool.crash_reachable", "Ispc.MemPool.new_fails_iff", "Ispc.MemPool.init_iff"], "note": "all of the memory of GPU memory views, for every sequence of calls and every behaviour of Level Zero that hands out fresh memory. Reuse is proved for a Level Zero that does not refuse memory; otherwise it is false (reuse_after_failure). Return of all memory is proved unless an application-managed view is made from the null pointer; otherwise it is false (null_leaks). Not modelled: the device a pool allocates for, the CPU device, several threads"},
{"property": "C53", "status": "partial", "theorems": ["Ispc.GpuQueue.commands_are_calls", "Ispc.GpuQueue.launch_after_copies", "Ispc.GpuQueue.copy_back_after_kernels", "Ispc.GpuQueue.barrier_orders_partial", "Ispc.GpuQueue.batches_in_order", "Ispc.GpuQueue.starts_in_sync", "Ispc.GpuQueue.no_engine_no_ub", "Ispc.GpuQueue.sync_can_return", "Ispc.GpuQueue.sync_safe_iff", "Ispc.GpuQueue.starts_once", "Ispc.GpuQueue.after_sync_all_ran", "Ispc.GpuQueue.launch_future", "Ispc.GpuQueue.future_spec", "Ispc.GpuQueue.launch_throws_iff", "Ispc.GpuQueue.pool_spec", "Ispc.GpuQueue.copy_ok_partial", "Ispc.GpuQueue.refused_copies_use_up_pool", "Ispc.GpuQueue.elapsed_spec", "Ispc.GpuQueue.instances_iff"], "note": "all of TaskQueue, for every history of calls and every order in which a device may run what it was given. That sync waits for everything is false with a copy engine; sync_safe_iff says exactly when it holds. Barriers order kernels and copies between views only, unless there is one list (examples). Not modelled: CommandListImpl and CommandQueueImpl (the newer interface), several threads, errors of Level Zero other than refused commands"},
{"property": "C54", "status": "partial", "theorems": ["Ispc.Dot.spec_exact", "Ispc.Dot.targets_agree", "Ispc.Dot.native_exact", "Ispc.Dot.u8u8_iff", "Ispc.Dot.i8i8_sat_is_portable", "Ispc.Dot.i8i8_sat_partial", "Ispc.Dot.i16i16_sat_iff", "Ispc.Dot.u16i16_sat_iff", "Ispc.Dot.targets_disagree"], "note": "all twelve functions, on targets with and without the instructions. Eight are right everywhere; for the other four the property is false of the portable code, and the theorems say exactly when it is right (for dot4add_i8i8packed_sat: what it returns instead). The instructions themselves are taken from the manuals"},
{"property": "C55", "status": "partial", "theorems": ["Ispc.Braces.init_spec_partial", "Ispc.Braces.init_rejects_partial", "Ispc.Braces.inits_det", "Ispc.Braces.too_many_rejected", "Ispc.Braces.vec_too_many_rejected", "Ispc.Braces.varying_count", "Ispc.Braces.vec_missing_poison", "Ispc.Braces.vec_bool_packed", "Ispc.Braces.vec_evaluated_twice", "Ispc.Braces.vec_out_of_order", "Ispc.Braces.vec_silently_uninitialised", "Ispc.Braces.vec_malformed", "Ispc.Braces.size_of_shape", "Ispc.Braces.unsized_array_accepted", "Ispc.Braces.size_inconsistent_accepted"], "note": "InitSymbol, the constants of expression lists and SizeUnsizedArrays, for every type and every initialiser. Proved but for uniform short vectors whose list has values that are not constants; there the property is false, and the theorems show how. Pointer, reference and soa targets and values of struct type are not modelled"},
{"property": "C56", "status": "partial", "theorems": ["Ispc.Header.header_layout_partial", "Ispc.Header.natural_good", "Ispc.Header.lp64_good", "Ispc.Header.short_iff", "Ispc.Header.arm_short_wrong", "Ispc.Header.varying_enum_wrong", "Ispc.Header.varying_pointer_wrong", "Ispc.Header.varying_vector_wrong", "Ispc.Header.pointer_array_wrong", "Ispc.Header.struct_array_wrong", "Ispc.Header.hidden_name_wrong", "Ispc.Header.aligned_struct", "Ispc.Header.old_bool_wrong", "Ispc.Header.struct_order", "Ispc.Header.guards_iff", "Ispc.Header.soa_guard_wrong", "Ispc.Header.dispatch_types", "Ispc.Header.dispatch_once", "Ispc.Header.dispatch_nested_wrong", "Ispc.Header.dispatch_uniform_wrong"], "note": "Struct types of any shape, the layout LLVM gives them and the layout of the C declaration that is printed; the order of the declarations, their guards and the header of several targets. Proved for all types but those with varying enumerations, pointers, short vectors, arrays of varying structs and the aligned attribute, and for these the property is refuted. The text of the header, function prototypes and the layouts of LLVM and C compilers themselves are not modelled"},
{"property": "C57", "status": "partial", "theorems": ["Ispc.Stride.sizeof_stride_partial", "Ispc.Stride.size_iff", "Ispc.Stride.sizeof_array", "Ispc.Stride.address_partial", "Ispc.Stride.index_ok", "Ispc.Stride.plus_ok", "Ispc.Stride.minus_ok", "Ispc.Stride.at_at", "Ispc.Stride.diff_ok", "Ispc.Stride.diff_plus_partial", "Ispc.Stride.element_leaves", "Ispc.Stride.lane_ok", "Ispc.Stride.gather_address_partial", "Ispc.Stride.component_partial", "Ispc.Stride.bool_index_wrong", "Ispc.Stride.bool_overlap_wrong", "Ispc.Stride.bool_diff_wrong", "Ispc.Stride.sizeof_bool_iff", "Ispc.Stride.short_bool_wrong"], "note": "Addresses of elements as bit vectors of the width of a pointer, offsets as bit vectors of the width of the addressing mode with overflow as undefined, and the sizes of the register type and the storage type of every type. Proved for all types but varying bool and short vectors of bool, for which size_iff says exactly when the two sizes agree, and the property is refuted where they do not. Slices of soa types are C33"},
{"property": "C58", "status": "partial", "theorems": ["Ispc.New.new_varying", "Ispc.New.new_elements_partial", "Ispc.New.new_delete", "Ispc.New.init_varying", "Ispc.New.new_init", "Ispc.New.new_uniform_partial", "Ispc.New.align_valid", "Ispc.New.new_aligned_partial", "Ispc.New.align_small", "Ispc.New.overflow_wrong", "Ispc.New.generic_wrong", "Ispc.New.uniform_fail_wrong", "Ispc.New.smear_delete_wrong", "Ispc.New.short_bool_small_wrong", "Ispc.New.bool_small_wrong", "Ispc.New.align_wrong", "Ispc.New.force_wrong", "Ispc.New.guide_wrong"], "note": "The heap as a list of blocks, the allocator of the C library as any function that meets its contract, new and delete of both libraries for both systems and all addressing modes. Proved for sizes that fit in a signed offset (32 bits in builtins/generic.ispc) and for all types but bool; a uniform new that fails, blocks that are too small and alignments that are too small are refuted. The value of an initialiser is not modelled"},
{"property": "C59", "status": "partial", "theorems": ["Ispc.Agg.leaves_apart", "Ispc.Agg.walk_ok", "Ispc.Agg.gather_partial", "Ispc.Agg.scatter_partial", "Ispc.Agg.scatter_frame_partial", "Ispc.Agg.scatter_gather_partial", "Ispc.Agg.assign_partial", "Ispc.Agg.assign_frame_partial", "Ispc.Agg.bound_uniform_wrong", "Ispc.Agg.first_active", "Ispc.Agg.uniform_struct_wrong", "Ispc.Agg.rep_iff", "Ispc.Agg.bool_array_wrong"], "note": "The recursion of gather, scatter and maskedStore over types, with addresses as bit vectors and memory as a function from addresses to bytes, against the layout of C56. Proved for all types without soa members, for varying pointers without members declared uniform and without short vectors of varying bool, arrays of varying bool and arrays of short vectors of bool (their addresses are refuted in C57), for uniform pointers without a varying member in a uniform struct, which is refuted. Values in registers are the bytes that they have in memory; the representation of bool in them is separate, and right exactly if there is no array of bool"},
{"property": "C60", "status": "partial", "theorems": ["Ispc.FloatBits.val_rep", "Ispc.FloatBits.val_onto", "Ispc.FloatBits.val_inj", "Ispc.FloatBits.isnan_iff", "Ispc.FloatBits.isinf_iff", "Ispc.FloatBits.isfinite_iff", "Ispc.FloatBits.classes", "Ispc.FloatBits.abs_val", "Ispc.FloatBits.signbits_val", "Ispc.FloatBits.abs_or_signbits", "Ispc.FloatBits.iabs_val", "Ispc.FloatBits.iabs_defined", "Ispc.FloatBits.frexp_partial", "Ispc.FloatBits.frexp_iff", "Ispc.FloatBits.frexp_zero_wrong", "Ispc.FloatBits.frexp_inf_wrong", "Ispc.FloatBits.ldexp_frexp", "Ispc.FloatBits.ldexp_zero", "Ispc.FloatBits.ldexp_iff", "Ispc.FloatBits.ldexp_partial", "Ispc.FloatBits.ldexp_denormal_iff", "Ispc.FloatBits.ldexp_inf_iff", "Ispc.FloatBits.ldexp_nan_iff", "Ispc.FloatBits.ldexp_wrong", "Ispc.FloatBits.ldexp_fast_zero_wrong", "Ispc.FloatBits.fmod_special_partial", "Ispc.FloatBits.fmod_gang_special_partial", "Ispc.FloatBits.fmod_inf_inf_wrong", "Ispc.FloatBits.fmod_nan_sign_wrong", "Ispc.FloatBits.fmod_pow2_partial", "Ispc.FloatBits.fmod_wrong", "Ispc.FloatBits.fmod_zero_sign_wrong"], "note": "isnan, isinf, isfinite, abs and signbits are proved for all bit patterns of float16, float and double. frexp and ldexp are right for normal numbers and normal results only, which is characterised exactly; ldexp undoes frexp for every bit pattern. fmod: the special cases for any reciprocal, except two infinities (refuted); finite numbers for divisors that are powers of two; refuted for others, the sign of zero and the sign of NaN in the varying version. fmod of other divisors, with the reciprocals of the other targets, is not characterised"},
{"property": "C61", "status": "partial", "theorems": ["Ispc.Rounding.rounded_unique", "Ispc.Rounding.right_unique", "Ispc.Rounding.integral_right", "Ispc.Rounding.rep_integral", "Ispc.Rounding.val_enc", "Ispc.Rounding.exact_right", "Ispc.Rounding.magic_right_partial", "Ispc.Rounding.magic_odd_wrong", "Ispc.Rounding.magicFloor_partial", "Ispc.Rounding.magicCeil_partial", "Ispc.Rounding.magicFloor_sign_iff", "Ispc.Rounding.magicCeil_sign_iff", "Ispc.Rounding.magicFloor_odd_wrong", "Ispc.Rounding.magicCeil_odd_wrong", "Ispc.Rounding.halfRound_right", "Ispc.Rounding.halfRoundVarying_eq", "Ispc.Rounding.cRound_iff", "Ispc.Rounding.cRound_wrong", "Ispc.Rounding.viaFloat_eq", "Ispc.Rounding.xeTrunc_right_partial", "Ispc.Rounding.xeTrunc_sign_iff", "Ispc.Rounding.xeTrunc_large_wrong", "Ispc.Rounding.call_right_partial", "Ispc.Rounding.call_small_partial", "Ispc.Rounding.call_float_wrong", "Ispc.Rounding.call_double_wrong"], "note": "Proved for every argument and every rounding mode of the processor where a target has an instruction or an LLVM intrinsic for the function, and for round of float16 on SSE2. The emulations for float on SSE2 and WebAssembly and for double on Xe are right up to 2^23 and 4503599254740992 and refuted for every odd integer from there to the next power of two; round of double on SSE2 and WebAssembly rounds halves away from zero (exactly characterised); trunc of double on Xe is poison from 2^53 on; floor, ceil and trunc of the emulations lose the sign of zero (exactly characterised). Numbers above the next power of two are not characterised for the emulations"},
{"property": "C62", "status": "partial", "theorems": ["Ispc.TaskArgs.load_eq", "Ispc.TaskArgs.args_partial", "Ispc.TaskArgs.block_mask", "Ispc.TaskArgs.startMask_eq", "Ispc.TaskArgs.mask_wrong", "Ispc.TaskArgs.mask_iff_partial", "Ispc.TaskArgs.fine_iff_partial", "Ispc.TaskArgs.bool_lane", "Ispc.TaskArgs.align_partial", "Ispc.TaskArgs.align_wrong", "Ispc.TaskArgs.vars"], "note": "Arguments proved for every history of launches of a task group, with the blocks of the allocator of C22, writes elsewhere and every data layout, for all types of parameters except bools whose form in registers and in memory differs; those are exactly characterised (seen wrongly for a mask that has not eight bits per program instance) and refuted. The mask reaches the block but the task ignores it: refuted, and exactly characterised. The promised alignment of the stores holds up to four times the native vector width and is refuted beyond. Left out: slice pointers and soa parameters, bits of an i1 beyond its width (taken as zero), big-endian targets, Xe"},
{"property": "C63", "status": "partial", "theorems": ["Ispc.Sched.threadIndex_range", "Ispc.Sched.workers_partial", "Ispc.Sched.threadIndex_wrong"], "note": "Proved for every schedule of every number of threads of the pthreads task system: the range, and uniqueness among tasks started by worker threads. Refuted for tasks run by a thread that waits in sync, for every number of workers. The other task systems of examples/common/tasksys.cpp are not modelled (Grand Central Dispatch and ConcRT always pass 0 and 1)"},
{"property": "C64", "status": "partial", "theorems": ["Ispc.Intrin.type_name_partial", "Ispc.Intrin.type_name_wrong", "Ispc.Intrin.rmw_as_named", "Ispc.Intrin.fence_as_named", "Ispc.Intrin.cmpxchg_exchanged_partial", "Ispc.Intrin.cmpxchg_iff_partial", "Ispc.Intrin.cmpxchg_wrong", "Ispc.Intrin.replaced_partial", "Ispc.Intrin.known_names", "Ispc.Intrin.value_type", "Ispc.Intrin.bitcast_size", "Ispc.Intrin.own_function_partial", "Ispc.Intrin.own_function_wrong", "Ispc.Intrin.concat_lanes", "Ispc.Intrin.extract2_lane", "Ispc.Intrin.extract_defined", "Ispc.Intrin.insert_lanes", "Ispc.Intrin.select_lanes", "Ispc.Intrin.blend_store_lanes", "Ispc.Intrin.packmask_bits", "Ispc.Intrin.result_partial", "Ispc.Intrin.result_wrong", "Ispc.Intrin.result_iff_partial"], "note": "Proved for every operation, ordering, type and history of calls: the instruction is the one that the name asks for, except that cmpxchg exchanges its two orderings (refuted, and characterised), calls written as documented get a function of their own types (refuted for calls that mix mask types), lanes of concat, extract, insert, select, blend_store and packmask. Results are always signed, so that unsigned ones are widened wrongly (refuted, and characterised). bitcast and the streaming loads and stores are modelled as far as names and types go; the intrinsics of LLVM itself are not modelled"},
{"property": "C65", "status": "partial", "theorems": ["Ispc.Constness.part_const", "Ispc.Constness.named_rejected", "Ispc.Constness.struct_assign_iff_partial", "Ispc.Constness.const_kept_partial", "Ispc.Constness.array_member_wrong", "Ispc.Constness.reference_wrong", "Ispc.Constness.pointer_wrong", "Ispc.Constness.warned_iff", "Ispc.Constness.void_pointer", "Ispc.Constness.void_array_wrong", "Ispc.Constness.assign_allowed", "Ispc.Constness.pointer_same", "Ispc.Constness.bind_iff", "Ispc.Constness.bind_const"], "note": "Proved for all histories of accepted statements, with pointers, references, structs, arrays and short vectors: const parts of objects keep their values, in programs without arrays of structs with const members inside of structs and whose references are bound to objects of their own type. Outside of that the claim is false of the code (refuted by three histories). The rate of types, explicit casts, functions and new/delete are not modelled here"},
{"property": "C66", "status": "partial", "theorems": ["Ispc.Once.at_least_once", "Ispc.Once.once_partial", "Ispc.Once.once_iff", "Ispc.Once.step_wrong", "Ispc.Once.step_twice", "Ispc.Once.index_wrong", "Ispc.Once.index_often_wrong"], "note": "Proved for every expression that passes the type checks: each call and store that is written runs at least once, and exactly once if and only if no ++ or -- has an operand with effects and no array or short vector that is not in memory has an index with effects. For the others the claim is false of the code (refuted). Values are not modelled here; a ?: is taken to pick the same branch whenever it is evaluated"},
{"property": "C67", "status": "partial", "theorems": ["Ispc.OpAssign.common_type", "Ispc.OpAssign.same_partial", "Ispc.OpAssign.shift_same", "Ispc.OpAssign.bits_same", "Ispc.OpAssign.wrap_same", "Ispc.OpAssign.div_iff", "Ispc.OpAssign.mod_iff", "Ispc.OpAssign.div_wrong", "Ispc.OpAssign.overflow_wrong", "Ispc.OpAssign.float_wrong", "Ispc.OpAssign.wide_wrong", "Ispc.OpAssign.accepted", "Ispc.OpAssign.accepted_iff", "Ispc.OpAssign.bool_wrong"], "note": "Proved for all scalar operands: the two forms are the same if the common type of the operands is the type of x, for all shifts, and for + - * & ^ | on all integers where both are defined (always with --wrap-signed-int); for / and % on integers they are the same exactly if the common type is that of x. Otherwise the claim is false of the code (refuted). Short vectors, pointers and overloaded operators are not modelled"},
{"property": "C68", "status": "partial", "theorems": ["Ispc.PtrOps.compare_partial", "Ispc.PtrOps.equal_ok", "Ispc.PtrOps.compare_iff", "Ispc.PtrOps.compare_wrong", "Ispc.PtrOps.plusAssign_ok", "Ispc.PtrOps.minusAssign_ok", "Ispc.PtrOps.step_ok", "Ispc.PtrOps.steps_partial", "Ispc.PtrOps.plusAssign_same", "Ispc.PtrOps.plusAssign_wrong", "Ispc.PtrOps.offset_wrong"], "note": "Proved for all arrays, pointers and integers: == and != always; the order of the elements of an array exactly if it does not reach across the middle of the address space (compare_iff; refuted otherwise); p += i, p -= i, ++p and --p against p + i and p - i when the offset fits the width of addresses. With 32-bit addressing, unsigned offsets from 2 GB up are refuted. Slices, and bool with its short vectors, are left out"},
{"property": "C69", "status": "partial", "theorems": ["Ispc.Swizzle.letter_ok", "Ispc.Swizzle.letter_iff", "Ispc.Swizzle.elements_iff", "Ispc.Swizzle.member_one", "Ispc.Swizzle.member_partial", "Ispc.Swizzle.member_rejected", "Ispc.Swizzle.member_lane0", "Ispc.Swizzle.swizzle_wrong", "Ispc.Swizzle.arrow_wrong", "Ispc.Swizzle.index_ok", "Ispc.Swizzle.assignable_iff", "Ispc.Swizzle.write_other", "Ispc.Swizzle.write_ok", "Ispc.Swizzle.write_frame"], "note": "Proved for all vectors, letters, numbers of instances, pointers and masks: single letters and indices behind any pointer, rows of letters on values and behind uniform pointers, and behind varying pointers to uniform vectors with . ; writing single elements. Rows of letters on varying vectors behind varying pointers, and with -> on varying pointers to uniform vectors, are refuted. bool elements and soa data are not modelled"},
{"property": "C70", "status": "partial", "theorems": ["Ispc.StoreMask.local_partial", "Ispc.StoreMask.deeper_visible", "Ispc.StoreMask.outside_partial", "Ispc.StoreMask.assign_outside", "Ispc.StoreMask.lanes_iff", "Ispc.StoreMask.static_ok", "Ispc.StoreMask.executing_written", "Ispc.StoreMask.global_wrong", "Ispc.StoreMask.aggregate_wrong"], "note": "Proved for all programs, masks and gang widths: storing to a local variable without a mask at the depth of its declaration cannot be told from storing under the mask, and stores behind pointers, references and temporaries, to static variables and at varying addresses are for the executing instances exactly. Refuted for global variables that are not static and for data behind a pointer kept in a local array or structure. Calls that pass the variable itself, unmasked blocks and soa slices are not covered"},
{"property": "C71", "status": "partial", "theorems": ["Ispc.Declare.variable_partial", "Ispc.Declare.type_name_partial", "Ispc.Declare.meaning_unique_partial", "Ispc.Declare.default_iff", "Ispc.Declare.specs_iff", "Ispc.Declare.param_iff", "Ispc.Declare.qualifier_lost_wrong", "Ispc.Declare.star_lost_wrong", "Ispc.Declare.stars_ignored_wrong", "Ispc.Declare.prototype_wrong", "Ispc.Declare.function_crash_wrong", "Ispc.Declare.void_typedef_wrong"], "note": "Proved for all specifiers, declarators and types: named declarators have the type whose use, written like the declarator, gives the type of the specifiers, with the documented default variabilities place by place, and all others are rejected; specifiers, defaults and parameters are characterised exactly. Refuted for declarators without a name that have stars in front of brackets or parentheses (qualifiers and stars are lost) or that are functions (failed assertion), and after typedef void. soa<>, vector sizes, address spaces and templates are not modelled; the text is taken as already parsed"},
{"property": "C72", "status": "partial", "theorems": ["Ispc.Args.words_partial", "Ispc.Args.reads_iff", "Ispc.Args.round_trip", "Ispc.Args.all_args_partial", "Ispc.Args.quoting_wrong", "Ispc.Args.cycle_wrong", "Ispc.Args.double_wrong"], "note": "Proved for all texts, files and command lines: text without quotation marks is split at white space as documented; what happens with quotation marks is characterised exactly and lets every list of arguments be written; the arguments are the command line's, then those of ISPC_ARGS, with every readable @file replaced in its place, nested files included. Refuted: the documented absence of quoting, and files that include themselves, which are read until no more files can be opened. NUL characters and reading errors are outside the theorems"},
{"property": "C73", "status": "partial", "theorems": ["Ispc.Places.read_partial", "Ispc.Places.write_partial", "Ispc.Places.address_partial", "Ispc.Places.uniform_same", "Ispc.Places.update_same", "Ispc.Places.write_wrong", "Ispc.Places.step_wrong", "Ispc.Places.address_wrong", "Ispc.Places.cast_wrong"], "note": "Proved for all expressions made of variables, references, *, [], ., ->, &, pointer addition and pointer casts, all memories and all program instances: reading, assigning and taking the address mean the object that the expression denotes as in C, each program instance having its own part of a varying object, and what has a uniform type is the same for all. Refuted for varying pointers to varying objects (assignment through * misses the offset of the program instance, & of an element or member adds it once too often) and for casts on the left of an assignment. Sizes and offsets are those of C57; short vectors, soa and whole structures are C69, C33 and C59"},
{"property": "C74", "status": "partial", "theorems": ["Ispc.IntConst.val_of_type", "Ispc.IntConst.accept_iff", "Ispc.IntConst.accept_value", "Ispc.IntConst.dim_iff", "Ispc.IntConst.finalize_values", "Ispc.IntConst.enum_partial", "Ispc.IntConst.enum_accept_iff", "Ispc.IntConst.header_partial", "Ispc.IntConst.labels_partial", "Ispc.IntConst.switch_partial", "Ispc.IntConst.switch_varying_partial", "Ispc.IntConst.accept_wrong", "Ispc.IntConst.enum_scope_wrong", "Ispc.IntConst.enum_wrap_wrong", "Ispc.IntConst.header_wrong", "Ispc.IntConst.switch_wide_wrong"], "note": "Proved for all constants of all integer types, all lists of enumerators and all lists of labels: which constants are accepted and as what, sizes of arrays exactly, enumerators as in C modulo 2^32 unless a value names an enumerator of the same enumeration, the number in the header, and the label where a uniform or varying switch begins, as in C unless a 64-bit expression meets a 32-bit unsigned label of 2^31 or more. The exceptions are refuted with witnesses. Labels inside nested statements and template parameters are not modelled"},
{"property": "C75", "status": "partial", "theorems": ["Ispc.Templ.table", "Ispc.Templ.sound_partial", "Ispc.Templ.order_partial", "Ispc.Templ.complete_partial", "Ispc.Templ.explicit_kept", "Ispc.Templ.explicit_all", "Ispc.Templ.late_uniform_wrong", "Ispc.Templ.default_wrong", "Ispc.Templ.long_name_wrong", "Ispc.Templ.kind_wrong", "Ispc.Templ.mixed_wrong", "Ispc.Templ.function_wrong", "Ispc.Templ.count_wrong"], "note": "Proved for all templates whose parameters are built of type and value parameters with pointers, references and short vectors, and all plain argument types: the documented table, arguments fit the parameters of the instance, independence of the order of parameters, success with the right types when a choice fits exactly, explicit arguments are kept. Missing: deductions where a uniform type follows another, varying one, the variability in complete_partial, omitted default arguments, long names, arguments of the wrong kind: each refuted with a witness. Dependent calls inside templates and dependent function types are not modelled"},
{"property": "C76", "status": "partial", "theorems": ["Ispc.Insts.one_instance", "Ispc.Insts.specialization_partial", "Ispc.Insts.one_body_partial", "Ispc.Insts.late_rejected_partial", "Ispc.Insts.terminates", "Ispc.Insts.recursion_never", "Ispc.Insts.recursion_wrong", "Ispc.Insts.return_wrong", "Ispc.Insts.unmasked_wrong", "Ispc.Insts.explicit_wrong", "Ispc.Insts.constant_wrong"], "note": "Proved for all templates and all sequences of calls, explicit instantiations, declared and defined specializations: calls share a function exactly when template and arguments agree, a call runs the specialization of its arguments or else the template, no second body, no specialization after use. Missing: the last three hold only when specializations have the return type of the template and repeat unmasked (refuted otherwise), explicit instantiation after use and constants of another type are refuted; recursive templates never end (proved for all of them); storage classes and names of functions are not modelled"},
{"property": "C77", "status": "partial", "theorems": ["Ispc.Redecl.kinds", "Ispc.Redecl.var_types", "Ispc.Redecl.initial_value", "Ispc.Redecl.single_partial", "Ispc.Redecl.read_const", "Ispc.Redecl.read_value_partial", "Ispc.Redecl.reads_all", "Ispc.Redecl.writable_partial", "Ispc.Redecl.static_partial", "Ispc.Redecl.var_accepted_iff", "Ispc.Redecl.same_params", "Ispc.Redecl.exported_alone", "Ispc.Redecl.foreign_first", "Ispc.Redecl.one_body", "Ispc.Redecl.body", "Ispc.Redecl.call_target", "Ispc.Redecl.default_partial", "Ispc.Redecl.call_accepted_partial", "Ispc.Redecl.fn_static_partial", "Ispc.Redecl.fn_accepted_iff", "Ispc.Redecl.redefinition_wrong", "Ispc.Redecl.extern_after_wrong", "Ispc.Redecl.static_wrong", "Ispc.Redecl.const_pointer_wrong", "Ispc.Redecl.default_dropped_wrong", "Ispc.Redecl.default_changed_wrong", "Ispc.Redecl.default_unchecked_wrong", "Ispc.Redecl.default_ignored_wrong", "Ispc.Redecl.fn_static_wrong"], "note": "Proved for all sequences of declarations, definitions, reads and calls of one global name: one kind and one type per name, initial value, functions told apart by their parameters, exported and foreign functions alone, one body, calls with the same parameters reach the same function; which sequences of declarations are accepted is characterised. Missing: single definition, reads, constant memory, static and default values hold only under the stated conditions and are refuted in general; overload resolution (C31), templates of the same name, attributes and target dependent initialisers are not modelled"},
{"property": "C78", "status": "partial", "theorems": ["Ispc.Elt.holds_of_run", "Ispc.Elt.equal_partial", "Ispc.Elt.common_partial", "Ispc.Elt.first_insert", "Ispc.Elt.broadcast", "Ispc.Elt.broadcast_base", "Ispc.Elt.first_valid", "Ispc.Elt.first_partial", "Ispc.Elt.first_keeps", "Ispc.Elt.one_value_partial", "Ispc.Elt.equal_wrong", "Ispc.Elt.common_wrong", "Ispc.Elt.defined_wrong", "Ispc.Elt.chain_stops_wrong", "Ispc.Elt.search_wrong", "Ispc.Elt.phi_twice_wrong", "Ispc.Elt.regroup_wrong"], "note": "Proved for all functions in SSA form (any control flow graph, loops, types), all meanings of the operators and all executions: values that the compiler finds equal are equal wherever both are in scope; the scalar found for all elements of a chain of insertions or a broadcast is every element that is defined; base plus offset of a broadcast pointer is the pointer; the scalar computation built for the first element leaves a well formed function with the same executions and computes the first element. Partial: casts that start from different types (false, equal_wrong), bitcasts that change the number of elements (false, regroup_wrong), blocks that are twice successors of a block (false, phi_twice_wrong); the compiler may stop instead of answering (defined_wrong, chain_stops_wrong); wrap flags, the Xe variant and the last element (negative strides) are not modelled."},
{"property": "C79", "status": "partial", "theorems": ["Ispc.Multi.defined_once", "Ispc.Multi.restored", "Ispc.Multi.silent_layout", "Ispc.Multi.aligned", "Ispc.Multi.warning_iff_partial", "Ispc.Multi.nested_wrong", "Ispc.Multi.accepted_partial", "Ispc.Multi.as_single_partial", "Ispc.Multi.same_pick", "Ispc.Multi.program_count_wrong", "Ispc.Multi.sizeof_wrong", "Ispc.Multi.mismatch_wrong", "Ispc.Multi.reference_wrong", "Ispc.Multi.later_wrong", "Ispc.Multi.static_wrong", "Ispc.Multi.lowered_wrong"], "note": "Proved for all programs, all numbers of targets, gang sizes and types: each variable is defined once in the objects of the targets and the dispatcher; without a warning every target has the layout of the definition; the definition has at least the alignment each target gives; and every history of calls and accesses by the application that is defined with the program compiled for the selected target alone gives the same values with the program compiled for all targets. Partial: initialisers that depend on the gang size (accepted, with the value of the first target: program_count_wrong, sizeof_wrong), layouts that differ (only a warning: mismatch_wrong), initialisers with addresses of static variables, variables of the application or functions (no valid program: reference_wrong), variables that only a later target defines (failed assertion: later_wrong), functions compiled for different sets of targets (static_wrong)."},
{"property": "C80", "status": "partial", "theorems": ["Ispc.Export.accepted_iff", "Ispc.Export.silent_iff", "Ispc.Export.accepted_passed", "Ispc.Export.silent_alike_partial", "Ispc.Export.export_iff", "Ispc.Export.export_alike", "Ispc.Export.reference_wrong", "Ispc.Export.function_wrong", "Ispc.Export.soa_pointers_wrong", "Ispc.Export.return_struct_wrong"], "note": "Proved for all types, with structs, arrays, short vectors and pointers nested in any way: which types are accepted and which get a warning, in terms of the components of the type; what is passed has the same form for all gang sizes; without references and functions, an accepted type has no warning exactly if everything that can be reached has the same form for all gang sizes. Partial: references are not followed (reference_wrong), nor are function types (function_wrong); an soa struct of pointers is accepted (soa_pointers_wrong); a struct is accepted as a result although the generated code does not follow the conventions of C for it (return_struct_wrong)."},
{"property": "C81", "status": "partial", "theorems": ["Ispc.MaskBits.queries", "Ispc.MaskBits.same_answers", "Ispc.MaskBits.stdlib_queries", "Ispc.MaskBits.assert_varying", "Ispc.MaskBits.assert_uniform_partial", "Ispc.MaskBits.assert_enabled", "Ispc.MaskBits.assert_uniform_wrong", "Ispc.MaskBits.disabled_assert_wrong", "Ispc.MaskBits.disabled_assert_partial", "Ispc.MaskBits.other_lanes_wrong"], "note": "Proved for the code of every target and all masks: the bits of the mask, any, all, none, popcnt, lanemask and packmask, and assertions with varying conditions. Partial: an assertion with a uniform condition is also triggered while no instance is executing (assert_uniform_wrong); with assertions disabled, a false uniform condition makes the behaviour undefined (disabled_assert_wrong)."},
{"property": "C82", "status": "partial", "theorems": ["Ispc.Reduce.reduction_each_once", "Ispc.Reduce.sum_each_once", "Ispc.Reduce.reduce_float_best_partial", "Ispc.Reduce.reduce_float_none", "Ispc.Reduce.reduce_int_best", "Ispc.Reduce.pickInt_best", "Ispc.Reduce.min_max_best_partial", "Ispc.Reduce.clamp_within_partial", "Ispc.Reduce.reduce_add_exact_partial", "Ispc.Reduce.reduce_min_nan_wrong", "Ispc.Reduce.max_uniform_varying_wrong", "Ispc.Reduce.clamp_nan_wrong", "Ispc.Reduce.sum_minus_zero_wrong", "Ispc.Reduce.sum_order_wrong"], "note": "Proved for the code of every CPU target, all masks and all numbers: each reduction uses each lane once; reduce_min and reduce_max of integers; of floating-point numbers unless one is NaN, and min, max and clamp; reduce_add where no partial sum is rounded. Partial: with a NaN the result depends on the target, on its position and on whether the numbers are uniform (the theorems ending in _wrong); rounded sums depend on the target; the Xe targets are not modelled."},
{"property": "C83", "status": "partial", "theorems": ["Ispc.SrcPos.token_place", "Ispc.SrcPos.after_marker", "Ispc.SrcPos.token_place_marker", "Ispc.SrcPos.ignore_all_iff", "Ispc.SrcPos.ignore_perf_iff", "Ispc.SrcPos.pragma_step", "Ispc.SrcPos.off_iff", "Ispc.SrcPos.one_line_silenced", "Ispc.SrcPos.fails_iff", "Ispc.SrcPos.written_iff", "Ispc.SrcPos.written_once", "Ispc.SrcPos.limit_errors", "Ispc.SrcPos.union_one_line", "Ispc.SrcPos.union_starts", "Ispc.SrcPos.unroll_count", "Ispc.SrcPos.unknown_pragma_place_wrong", "Ispc.SrcPos.long_string_place_wrong", "Ispc.SrcPos.illegal_column_wrong", "Ispc.SrcPos.pragma_at_end_hangs", "Ispc.SrcPos.silent_failure", "Ispc.SrcPos.first_line_silenced_wrong", "Ispc.SrcPos.union_place_wrong", "Ispc.SrcPos.unroll_text_wrong"], "note": "Proved for all texts: the place of each token, the grammar of the ignore pragmas, the lines they silence, and which messages are written and make a compilation fail. Partial: places are wrong behind unknown pragmas, string literals over several lines and illegal characters, and a pragma silences the last line of what a warning is about (the theorems ending in _wrong); the lengths of tokens are a parameter; the positions that the parser gives to larger constructs are modelled only by the rule that joins them."},
{"property": "C84", "status": "partial", "theorems": ["Ispc.Registry.name_parses", "Ispc.Registry.name_parses_old", "Ispc.Registry.every_target", "Ispc.Registry.name_injective", "Ispc.Registry.name_says_width", "Ispc.Registry.arch_parses", "Ispc.Registry.arch_only", "Ispc.Registry.targets_list", "Ispc.Registry.targets_error_iff", "Ispc.Registry.targets_message", "Ispc.Registry.targets_all", "Ispc.Registry.class_of_name", "Ispc.Registry.one_class", "Ispc.Registry.valid_iff", "Ispc.Registry.encode_fits", "Ispc.Registry.encode_injective", "Ispc.Registry.builtins_found", "Ispc.Registry.target_found", "Ispc.Registry.chosen_fits", "Ispc.Registry.disable_zmm", "Ispc.Registry.supported_iff", "Ispc.Registry.cell_iff", "Ispc.Registry.archs_iff", "Ispc.Registry.targets_iff", "Ispc.Registry.oses_iff", "Ispc.Registry.parseOS_iff", "Ispc.Registry.accepted_made", "Ispc.Registry.x86_complete", "Ispc.Registry.nozmm_name_wrong", "Ispc.Registry.targets_empty_wrong", "Ispc.Registry.valid_riscv_wrong"], "note": "Proved for all texts and all sequences of registered libraries: names and lists of names, the keys of the registry, which library is found, that what is found fits the compilation, and that the lists of what is supported are exact. Partial: two targets are printed with the name of another one, empty entries of a list are dropped and RISC-V and WebAssembly targets pass the check of the architecture anywhere (the theorems ending in _wrong); completeness of the libraries is proved for x86; the choice of the device and of the host target is not modelled here."},
{"property": "C85", "status": "partial", "theorems": ["Ispc.BitCount.trailing_uniform", "Ispc.BitCount.leading_uniform", "Ispc.BitCount.popcnt_uniform", "Ispc.BitCount.trailing_varying", "Ispc.BitCount.leading_varying", "Ispc.BitCount.popcnt_varying", "Ispc.BitCount.trailing_unique", "Ispc.BitCount.leading_unique", "Ispc.BitCount.abs_value", "Ispc.BitCount.popcnt_accepted", "Ispc.BitCount.abs_smallest_wrong", "Ispc.BitCount.popcnt_ambiguous_wrong"], "note": "Proved for the code of every target, all values, masks and gang sizes: the number of leading and trailing zeros and of set bits, and the absolute value of integers. Partial: abs of the smallest number is negative (abs_smallest_wrong), and popcnt of an unsigned int or of an integer of 8 or 16 bits is an error (popcnt_ambiguous_wrong). The instructions of LLVM and of the GPU are given by their meaning."},
{"property": "C86", "status": "partial", "theorems": ["Ispc.OutFiles.mangle_suffix", "Ispc.OutFiles.mangle_plain", "Ispc.OutFiles.mangle_directory_partial", "Ispc.OutFiles.mangle_injective", "Ispc.OutFiles.mangle_differs", "Ispc.OutFiles.check_accepts", "Ispc.OutFiles.check_lowest", "Ispc.OutFiles.multi_succeeds", "Ispc.OutFiles.multi_files_partial", "Ispc.OutFiles.multi_stdout", "Ispc.OutFiles.failed_leaves", "Ispc.OutFiles.deps_exact", "Ispc.OutFiles.unescape_escape", "Ispc.OutFiles.rule_reads_partial", "Ispc.OutFiles.flat_lines", "Ispc.OutFiles.deps_target", "Ispc.OutFiles.mangle_directory_wrong", "Ispc.OutFiles.deps_missing_wrong", "Ispc.OutFiles.variants_overwrite_wrong", "Ispc.OutFiles.wrapper_overwritten_wrong", "Ispc.OutFiles.stdlib_name_wrong", "Ispc.OutFiles.rule_blank_wrong", "Ispc.OutFiles.flat_escaped_wrong", "Ispc.OutFiles.both_formats_wrong", "Ispc.OutFiles.deps_target_wrong"], "note": "Proved for all names, lists of targets and dependencies: where the files of each target go, that no two share a name, when a compilation for several targets succeeds and what it leaves, and what make reads in a dependency file. Partial because the code breaks parts of the property: dots in directories, blanks in names, dependencies seen by one target only, the wrapper for Python, and files written before variants of an instruction set are rejected (the theorems ending in _wrong). The files named by the user must differ from each other and from the files of targets."},
{"property": "C87", "status": "partial", "theorems": ["Ispc.Operators.builtin_unaffected", "Ispc.Operators.operator_is_call", "Ispc.Operators.exact_operator_called_partial", "Ispc.Operators.called_takes_operands", "Ispc.Operators.arities_apart", "Ispc.Operators.functions_apart", "Ispc.Operators.declarable_iff", "Ispc.Operators.undeclared", "Ispc.Operators.assignment_lost_wrong", "Ispc.Operators.comma_struct_wrong"], "note": "Proved for all declarations, operators and operands: operators on built-in types never depend on declarations, an operator on a struct is the call of its function with its operands, the exact function is called, forms of an operator do not take each other's functions, and what happens without a declaration. Partial because the code breaks parts of the property: a declared assignment takes the built-in one from all structs, and a comma with a struct is an error (the theorems ending in _wrong). Templates are given by the instances that deduction finds."},
{"property": "C88", "status": "partial", "theorems": ["Ispc.ReduceEqual.reduce_equal_to", "Ispc.ReduceEqual.reduce_equal_only_partial", "Ispc.ReduceEqual.reduce_equal_overrun_wrong"], "note": "Proved for all gang sizes up to 64, masks with an active instance, values, element sizes, addresses and contents of memory, for the three versions of the builtin. Partial because the code breaks the property: reduce_equal without a pointer writes a whole value to a variable of one byte (reduce_equal_overrun_wrong)."},
{"property": "C89", "status": "partial", "theorems": ["Ispc.Scalarize.scalarize_value", "Ispc.Scalarize.pass_sound_partial", "Ispc.Scalarize.division_defined"], "note": "Proved for all blocks of instructions, all meanings of operations and opaque instructions and all inputs: every instruction that is left has the same result, effects are the same, and undefined behaviour is never added. Partial because a function is a single block and flags of operations (nsw, fast math) are left out; the pass drops them, which can only define more."},
{"property": "C90", "status": "partial", "theorems": ["Ispc.AmxTile.tile_value_partial", "Ispc.AmxTile.constant_accepted", "Ispc.AmxTile.unknown_rejected", "Ispc.AmxTile.stored_accepted", "Ispc.AmxTile.stored_before_accepted", "Ispc.AmxTile.chain_accepted", "Ispc.AmxTile.lower_tiles_partial", "Ispc.AmxTile.lower_instruction", "Ispc.AmxTile.lower_distinct", "Ispc.AmxTile.escaped_wrong", "Ispc.AmxTile.cast_wrong"], "note": "Proved for all control flow graphs, stores and executions, if the loaded variable is written by plain stores only and no stored constant is cast. Partial because the pass breaks the property without these: it does not see writes through pointers (escaped_wrong) and takes a constant without applying its casts (cast_wrong)."},
{"property": "C91", "status": "partial", "theorems": ["Ispc.Ellipsis.fix_spaced", "Ispc.Ellipsis.fix_other", "Ispc.Ellipsis.fix_only_spaces", "Ispc.Ellipsis.range_tokens"], "note": "Proved for all texts cut into pieces, numbers and names. Partial because the cutting by the lexer of Clang is an input, escaped line ends within a number are left out, and included files do not go through this function."},
{"property": "C92", "status": "partial", "theorems": ["Ispc.Goto.goto_checked", "Ispc.Goto.filled_once_partial", "Ispc.Goto.duplicate_rejected", "Ispc.Goto.copies_wrong", "Ispc.Goto.skipped_wrong", "Ispc.Goto.into_varying_wrong", "Ispc.Goto.unreachable_wrong"], "note": "Proved for all function bodies of the modelled statements, nested without bound. Partial because the code breaks the property for labels in statements with several copies (copies_wrong), in statements that cannot be reached (skipped_wrong) and in varying statements (into_varying_wrong), and does not check a goto that cannot be reached (unreachable_wrong). switch, foreach_active, foreach_unique, unmasked and Xe are not modelled."},
{"property": "C93", "status": "partial", "theorems": ["Ispc.Unmasked.unmasked_block_partial", "Ispc.Unmasked.masked_stores", "Ispc.Unmasked.mask_lost_wrong", "Ispc.Unmasked.mask_lost_in_loop_wrong"], "note": "Proved for all bodies of the modelled statements, masks, gang sizes, numbers of iterations and uniform conditions, if no unmasked block ends with return, break or continue. Partial because the code breaks the property otherwise (mask_lost_wrong, mask_lost_in_loop_wrong), and because varying control flow, switch, goto and Xe are not modelled."}
]}
