{"id": "C01", "title": "Masked execution equals serial execution, instance by instance", "statement": "For every ispc function body built from varying and uniform assignments, if/else, for, while, do, break, continue, switch and return, with uniform assignments only where control flow is uniform, a program instance that is active on entry ends the gang's execution with exactly the variable values, and exactly the returned / not returned status, that it would have had if that instance alone had executed the body as ordinary serial C code.", "quantifier": "every program of the modelled statement language (any nesting depth, any number of loop iterations), every gang width, every entry mask, every initial value of every variable, every active instance", "why_tests_cant": "the space of programs, masks and data is infinite; a test fixes one program, one mask pattern and one data set, and masking bugs hide in rare nestings of break/continue/return under varying tests", "anchors": ["src/ctx.cpp: StartVaryingIf, EndIf, StartLoop, EndLoop, Break, Continue, RestoreContinuedLanes, ClearBreakLanes, CurrentLanesReturned, jumpIfAllLoopLanesAreDone", "src/stmt.cpp: IfStmt, ForStmt, DoStmt, SwitchStmt", "docs/ispc.rst: SPMD-on-SIMD execution model"]}
{"id": "C02", "title": "Inactive instances are never modified", "statement": "Executing any statement while a program instance's mask bit is off leaves every varying variable of that instance, its memory and its returned status unchanged, whatever the other instances do.", "quantifier": "every statement, every mask, every state, every inactive instance", "why_tests_cant": "a stray write to an off lane is only visible if the test happens to look at that lane and value; all programs and masks must be covered", "anchors": ["src/ctx.cpp: maskedStore, SetInternalMask, SetInternalMaskAnd, SetInternalMaskAndNot, GetFullMask", "src/stmt.cpp: all EmitCode methods"]}
{"id": "C03", "title": "Maximal convergence: structured statements give the mask back", "statement": "After an if, loop or switch statement completes, the set of active instances is exactly the set that was active before it, minus the instances that executed return in it (and, inside an enclosing loop or switch, minus those that executed break/continue for that enclosing statement). No instance is lost and none is resurrected.", "quantifier": "every statement, every mask, every nesting of loops and switches, every pattern of break/continue/return across instances", "why_tests_cant": "losing one lane after an unusual break/continue/return combination is not caught unless exactly that combination is tested", "anchors": ["src/ctx.cpp: EndIf, EndLoop, EndSwitch, restoreMaskGivenReturns", "docs/ispc.rst: maximal convergence"]}
{"id": "C04", "title": "Coherent control flow (cif/cfor/cwhile/cdo) and predicated ifs are pure optimisations", "statement": "Replacing cif/cfor/cwhile/cdo by their plain versions (or the other way round), and choosing straight-line predication or branching for an if, never changes the value of any varying variable or the set of instances that returned.", "quantifier": "every program of the modelled language, every choice of the coherent flag and of the predication decision at every statement, every mask and state", "why_tests_cant": "there are exponentially many combinations of flags and the all-on fast path is only taken for particular run-time masks", "anchors": ["src/stmt.cpp: IfStmt::emitVaryingIf, emitMaskAllOn, emitMaskMixed, emitMaskedTrueAndFalse, ForStmt::EmitCode, DoStmt::EmitCode"]}
{"id": "C05", "title": "Code controlled by a varying test is not run when no instance wants it", "statement": "A uniform side effect controlled by a varying if, loop or switch case that is not judged safe happens only if at least one active instance takes that path; conversely an if body that is run unconditionally with predication is one whose execution with an all-off mask changes nothing observable.", "quantifier": "every if/loop statement, every mask and test value; every body accepted by the safety analysis", "why_tests_cant": "whether a body runs with an empty mask depends on run-time masks and on a static cost heuristic; tests see a few of them", "anchors": ["src/ast.cpp: lCheckAllOffSafety, SafeToRunWithMaskAllOff", "src/stmt.cpp: IfStmt::emitVaryingIf"]}
{"id": "C06", "title": "One-dimensional foreach visits every index exactly once", "statement": "foreach (i = start ... end) executes its body exactly once for every integer i with start <= i < end, in gang-sized groups where instance k of a group handles consecutive indices, never for any other index, and terminates; if start >= end the body is never run.", "quantifier": "every start and end that do not overflow 32-bit arithmetic, every gang width, loop bodies without early exits", "why_tests_cant": "bounds times gang widths are unboundedly many; off-by-one errors only show for particular remainders and at the boundary between the full and partial paths", "anchors": ["src/stmt.cpp: ForeachStmt::EmitCode, lUpdateVaryingCounter, lCalculateDeltaForVaryingCounter"]}
{"id": "C07", "title": "Multi-dimensional foreach and foreach_tiled visit every index tuple exactly once", "statement": "foreach / foreach_tiled over any number of dimensions runs its body with each index tuple of the Cartesian product of the ranges active in exactly one instance of exactly one body execution, and no other tuple is ever active; the per-dimension spans multiply to the gang width.", "quantifier": "every number of dimensions, every list of ranges (no 32-bit overflow), every power-of-two gang width, tiled or not", "why_tests_cant": "dimension count, ranges, remainders and tilings interact; the masked edge paths are only exercised for special combinations", "anchors": ["src/stmt.cpp: lGetSpans, lCalculateDeltaForVaryingCounter, ForeachStmt::EmitCode"]}
{"id": "C08", "title": "foreach_active serialises the active instances", "statement": "foreach_active executes its body exactly once per active instance, in increasing instance order, with exactly that one instance active and the iteration variable equal to its index, and restores the mask afterwards.", "quantifier": "every gang width up to 64, every non-empty mask", "why_tests_cant": "2^64 masks", "anchors": ["src/stmt.cpp: ForeachActiveStmt::EmitCode", "src/ctx.cpp: LaneMask, ProgramIndexVector"]}
{"id": "C09", "title": "foreach_unique partitions the active instances by value", "statement": "foreach_unique executes its body once per distinct value held by the active instances, each time with exactly the active instances holding that value enabled, and terminates. (Fails for floating point values that are not equal to themselves.)", "quantifier": "every gang width up to 64, every mask, every assignment of values to instances, every equality used for the comparison", "why_tests_cant": "all masks times all value patterns", "anchors": ["src/stmt.cpp: ForeachUniqueStmt::EmitCode"]}
{"id": "C10", "title": "switch follows C semantics per instance", "statement": "For a switch on a varying value each instance starts at the case label equal to its value (or at default, or skips the switch), falls through to later labels until it executes break, and all instances that entered and did not return are active after it.", "quantifier": "every list of distinct case labels with or without default in any position, every body, every mask and switch value per instance", "why_tests_cant": "number of label orders, fall-through patterns and per-instance values is unbounded", "anchors": ["src/ctx.cpp: StartSwitch, EmitCaseLabel, EmitDefaultLabel, SwitchInst, EndSwitch, addSwitchMaskCheck", "src/stmt.cpp: SwitchStmt"]}
{"id": "C11", "title": "A loop compiled with uniform control flow really has uniform control flow", "statement": "If a loop or switch is compiled as uniform control flow, no break or continue that belongs to it can be executed by only some of its running instances: every instance running at the break/continue takes it together.", "quantifier": "every statement tree accepted by the compiler", "why_tests_cant": "the static analysis recurses over arbitrary statement trees; a missed construct would silently drop lanes", "anchors": ["src/stmt.cpp: lHasVaryingBreakOrContinue, DoStmt::TypeCheck, ForStmt::TypeCheck", "src/ctx.cpp: Break, Continue, ifsInCFAllUniform, inSwitchStatement"]}
{"id": "C12", "title": "&&, || and ?: evaluate per instance only what they must", "statement": "For varying operands, a && b, a || b and t ? x : y give every active instance its C result, and the right/selected operand's side effects happen for an instance only if C would evaluate it for that instance, unless the operand is side-effect free.", "quantifier": "every pair/triple of operand expressions (as effects on state), every mask", "why_tests_cant": "combinations of short-circuit outcomes across instances and effectful operands", "anchors": ["src/expr.cpp: lEmitLogicalOp, SelectExpr::GetValue"]}
{"id": "C13", "title": "Calls through varying function pointers reach each target exactly once", "statement": "Calling through a varying function pointer calls every distinct function held by an active instance exactly once, with exactly the instances holding it active, and every active instance receives the value returned by its own function.", "quantifier": "every gang width, mask and assignment of function pointers to instances", "why_tests_cant": "number of partitions of the gang", "anchors": ["src/ctx.cpp: CallInst (varying function pointer path)"]}
{"id": "C14", "title": "Masked loads, stores, gathers and scatters touch only active instances' elements", "statement": "A masked store or scatter changes exactly the addressed elements of active instances (the highest active instance wins on a clash), a gather or masked load returns each active instance the value at its own address; base+offset, factored and coalesced forms of these operations are equivalent to the plain lane-by-lane form.", "quantifier": "every memory, address vector, mask and value vector", "why_tests_cant": "addresses and masks are unbounded; aliasing between lanes is rarely tested", "anchors": ["builtins/generic.ispc: __gather_generic, __scatter_generic", "src/opt/ImproveMemoryOps.cpp", "src/opt/GatherCoalescePass.cpp"]}
{"id": "C15", "title": "Cross-instance scans, reductions and packed transfers have their sequential meaning", "statement": "exclusive_scan_add/and/or give each active instance the fold over the lower-numbered active instances; reduce_equal is true iff all active instances agree; packed_store_active writes the active instances' values contiguously in instance order, touches nothing else and returns their number; packed_load_active is its inverse.", "quantifier": "every width, mask, value vector and memory", "why_tests_cant": "all masks and values", "anchors": ["builtins/generic.ispc: __exclusive_scan_add, __reduce_equal, __packed_store_activei32, __packed_load_active", "stdlib/stdlib.ispc"]}
{"id": "C16", "title": "broadcast, rotate, shift and shuffle are the documented permutations", "statement": "broadcast(v,i) gives everyone instance i's value; rotate(v,o) gives instance k the value of instance (k+o) mod width for every int offset; shift(v,o) gives instance k the value of instance k+o, or zero if that is outside the gang; shuffle(v,p) and shuffle(v0,v1,p) give instance k the value selected by p, for all in-range selectors.", "quantifier": "every power-of-two width, vector, offset and permutation vector", "why_tests_cant": "offsets range over all 32-bit integers including negative ones", "anchors": ["builtins/generic.ispc: __broadcast,__rotate,__shift,__shuffle,__shuffle2", "stdlib/stdlib.ispc: __rotate_via_shuffle, __shift_via_shuffle", "src/opt/ReplaceStdlibShiftPass.cpp: replaceStdlibShiftBuiltin"]}
{"id": "C17", "title": "aos_to_soa and soa_to_aos are mutually inverse transposes", "statement": "aos_to_soaN distributes element j of structure i to vector j, instance i; soa_to_aosN is the exact inverse, writes only its N*width elements, and composing them in either order is the identity.", "quantifier": "every width, N in {2,3,4}, memory contents", "why_tests_cant": "all data and widths", "anchors": ["builtins/generic.ispc: __aos_to_soa2/3/4, __soa_to_aos2/3/4", "builtins/util.m4: aossoa4, aossoa8, aossoa16, aossoa32, aossoa64, aossoa", "builtins/util-xe.m4: aossoa4, aossoa8, aossoa16, aossoa32, aossoa"]}
{"id": "C18", "title": "Local atomics behave as if the active instances executed them one after the other", "statement": "atomic_{add,subtract,min,max,and,or,xor,swap,compare_exchange}_local on a uniform or varying pointer leave in memory, and return to each active instance, exactly what a sequential execution in instance order would; inactive instances do nothing. (The double swap overload violates this.)", "quantifier": "every operation, type, mask, address vector, values", "why_tests_cant": "address clashes between instances combined with masks", "anchors": ["stdlib/stdlib.ispc: LOCAL_ATOMIC, LOCAL_CMPXCHG, __swap(double)"]}
{"id": "C19", "title": "Global atomics are equivalent to one atomic operation per active instance", "statement": "atomic_{add,subtract,and,or,xor,swap,min,max}_global with a varying value and a uniform pointer changes memory as if every active instance had performed its own atomic operation in some order, and the returned values are explained by that order; the combined form used for add/or/xor is equivalent to the lane-by-lane form. (The generic subtract and and variants violate this.)", "quantifier": "every mask, width, memory value and value vector, for every state in which other agents may have left memory", "why_tests_cant": "the combined implementation must agree with the sequential one for all values and masks", "anchors": ["builtins/generic.ispc: __atomic_add_int32_global, __atomic_sub_int32_global, __atomic_and_int32_global, __atomic_or_int32_global, __atomic_xor_int32_global (and int64), __atomic_cmpxchg_v", "stdlib/stdlib.ispc: DEFINE_ATOMIC_SWAP, DEFINE_ATOMIC_MINMAX_OP"]}
{"id": "C20", "title": "Saturating arithmetic clamps the exact result", "statement": "saturating_add/sub/mul/div return the exact mathematical result when it fits the type and otherwise the nearest bound of the type, for 8/16/32/64-bit signed and unsigned operands. (64-bit unsigned multiplication violates this.)", "quantifier": "every pair of operands of every width", "why_tests_cant": "2^128 operand pairs", "anchors": ["stdlib/stdlib.ispc: saturating_add, saturating_sub, saturating_mul, saturating_div"]}
{"id": "C21", "title": "avg_up/avg_down compute the exact rounded average without overflow", "statement": "avg_up(a,b) = floor((a+b+1)/2) and avg_down(a,b) = floor((a+b)/2) over the integers, for 8- and 16-bit signed and unsigned values.", "quantifier": "every operand pair", "why_tests_cant": "exhaustive 16-bit pairs are not run by tests", "anchors": ["builtins/generic.ispc: __avg_up_*, __avg_down_*"]}
{"id": "C22", "title": "Function dispatch only ever calls a variant the CPU can run, and the best such one", "statement": "The dispatcher of an exported function calls the most capable compiled variant whose instruction set the system supports (AMX variants only if AMX is present), calls the same variant on every call from every thread, and terminates the program when no compiled variant is runnable.", "quantifier": "every set of compiled variants, every CPU feature report, every interleaving of concurrent first calls", "why_tests_cant": "no test machine covers all CPUs, and the unsynchronised cache is raced only on first calls", "anchors": ["src/module.cpp: lCreateDispatchFunction, lEmitISACompatibilityTest, lISARequiresAMX", "builtins/dispatch.c: __get_system_best_isa", "src/isa.h: get_x86_isa"]}
{"id": "C23", "title": "CPU feature detection never claims an instruction set whose features are missing", "statement": "The detected ISA level implies that every CPUID feature bit and OS state bit on which that level is defined is reported by the machine, and adding features to a machine never lowers the detected level.", "quantifier": "every CPUID/XGETBV report", "why_tests_cant": "there are astronomically many feature reports; only a few real CPUs can be tested", "anchors": ["src/isa.h: get_x86_isa, __os_has_avx_support, __os_has_avx512_support"]}
{"id": "C24", "title": "Every launched task runs exactly once and sync waits for all of them", "statement": "With the pthread task system, under every interleaving of launching, worker and syncing threads, each task of launch[n0,n1,n2] f(...) is executed at most once, sync returns only after every task launched in its group has finished, and when nothing more is launched all tasks have been executed.", "quantifier": "every number of threads, groups, launches and tasks; every schedule", "why_tests_cant": "schedules are unboundedly many and races are not reproducible", "anchors": ["examples/common/tasksys.cpp: TaskGroup::Launch, TaskGroup::Sync, lTaskEntry, ISPCLaunch, ISPCSync"]}
{"id": "C25", "title": "Task indices enumerate the launch domain exactly", "statement": "The (taskIndex0, taskIndex1, taskIndex2) triples seen by the taskCount0*taskCount1*taskCount2 tasks of one launch are exactly all triples below the counts, each once, and taskIndex is their row-major rank.", "quantifier": "every triple of positive counts", "why_tests_cant": "all counts", "anchors": ["examples/common/tasksys.cpp: TaskInfo::taskIndex0/1/2, ISPCLaunch"]}
{"id": "C26", "title": "Memory handed out for task arguments is aligned, in bounds and never overlaps", "statement": "All blocks returned by ISPCAlloc within one task group between two syncs are correctly aligned, lie inside one owned buffer and are pairwise disjoint.", "quantifier": "every sequence of allocation sizes and power-of-two alignments, every base address", "why_tests_cant": "allocation sequences are unbounded", "anchors": ["examples/common/tasksys.cpp: TaskGroupBase::AllocMemory, Reset"]}
{"id": "C27", "title": "A task group is owned by one launching function at a time", "statement": "Under every interleaving of concurrent allocations and frees of task groups, the free list never hands one group to two owners. (Violated: the compare-and-swap result is only tested for null.)", "quantifier": "every number of threads and every schedule of AllocTaskGroup/FreeTaskGroup", "why_tests_cant": "requires a three-thread race window of two instructions", "anchors": ["examples/common/tasksys.cpp: AllocTaskGroup, FreeTaskGroup"]}
{"id": "C28", "title": "Name lookup finds the innermost declaration", "statement": "Looking up a variable or type name returns the declaration from the innermost enclosing scope that declares it, leaving a scope restores exactly the earlier bindings, and adding a name already defined in the same scope is rejected without changing the table. Functions are not scoped: a lookup by name gives every function added under it, once per type, in order of addition.", "quantifier": "every sequence of push scope, pop scope, add and lookup operations", "why_tests_cant": "unbounded histories", "anchors": ["src/sym.cpp: SymbolTable::PushScope, PopScope, AddVariable, LookupVariable, AddFunction, LookupFunction, AddType, LookupType"]}
{"id": "C29", "title": "Implicit conversion of operands picks a well-defined common type", "statement": "The common type chosen for two operand types is symmetric in the operands (up to documented exceptions), idempotent, varying whenever one operand is varying, and never loses range among types of the same kind.", "quantifier": "every pair of operand types", "why_tests_cant": "pairs of types over all atomic/vector/enum/pointer types", "anchors": ["src/type.cpp: Type::MoreGeneralType"]}
{"id": "C30", "title": "Function symbol names are unambiguous", "statement": "Two functions with the same name but different parameter types (uniform/varying, const, atomic, pointer, array, vector, struct, function types) get different mangled symbol names, so separately compiled callers and callees agree on exactly one function.", "quantifier": "every pair of modelled parameter type lists", "why_tests_cant": "infinitely many types", "anchors": ["src/type.cpp: Mangle methods", "src/type.cpp: FunctionType::GetFunctionMangledName"]}
{"id": "C31", "title": "Overload resolution is deterministic and picks a cheapest match", "statement": "The function chosen for a call is a candidate of minimal total conversion cost, the result does not depend on the order in which overloads were declared, an exact match always wins, and a tie between different candidates is reported as ambiguous.", "quantifier": "every candidate list and every argument list", "why_tests_cant": "all overload sets and orders", "anchors": ["src/expr.cpp: FunctionSymbolExpr::ResolveOverloads, computeOverloadCost, getCandidateFunctions"]}
{"id": "C32", "title": "Constant folding computes what the generated code would compute", "statement": "Folding a unary, binary, select or cast expression on constants gives, lane by lane, the same value as evaluating the unfolded expression at run time, and folding is skipped where evaluation would be undefined (division by zero).", "quantifier": "every operator, type and operand values, every expression tree", "why_tests_cant": "operand values are 2^64 and trees are unbounded", "anchors": ["src/expr.cpp: lConstFoldBinaryIntOp, lConstFoldBinaryArithOp, lConstFoldBinaryLogicalOp, UnaryExpr::Optimize, BinaryExpr::Optimize"]}
{"id": "C33", "title": "SOA layout addressing is a bijection", "statement": "For soa<n> data, the address computed for element i of an array is the (i / n)-th SOA block, slot (i mod n): different elements and members never share storage, and every slot is used; slice pointer arithmetic p + k addresses element index(p)+k.", "quantifier": "every array length, index, soa width that is a power of two, and member layout", "why_tests_cant": "unbounded sizes and offsets", "anchors": ["src/ctx.cpp: lComputeSliceIndex, MakeSlicePointer, GetElementPtrInst, AddElementOffset, ApplySliceOffset"]}
{"id": "C34", "title": "Integer division and modulus on varying values are lane-wise", "statement": "Varying integer / and % give each active instance the C quotient/remainder of its own operands, and an inactive instance's zero divisor never traps.", "quantifier": "every operand vectors, mask", "why_tests_cant": "all masks and operand values", "anchors": ["builtins/generic.ispc: __idiv_t, __irem_t"]}
{"id": "C35", "title": "memcpy/memmove/memset act lane by lane on active instances", "statement": "The varying-pointer memset/memcpy/memmove perform, for each active instance and no other, the copy or fill that the uniform version would perform for its pointers and size.", "quantifier": "every memory, pointer vector, size vector and mask", "why_tests_cant": "address overlap across instances", "anchors": ["stdlib/stdlib.ispc: memcpy, memmove, memset"]}
{"id": "C36", "title": "Reference-counted runtime objects are destroyed exactly once, when the last reference goes", "statement": "Under every sequence of creating, copying, assigning, moving and destroying handles to an ispcrt object, the object is alive while at least one handle refers to it, is destroyed exactly once when the last handle is dropped, and is never used afterwards.", "quantifier": "every history of handle operations", "why_tests_cant": "unbounded histories", "anchors": ["ispcrt/detail/IntrusivePtr.h: RefCounted, IntrusivePtr", "ispcrt/ispcrt.hpp: GenericObject", "ispcrt/ispcrt.cpp: ispcrtRetain, ispcrtRelease", "ispcrt/detail/cpu/CPUDevice.cpp: TaskQueue, CommandListImpl"]}
{"id": "C37", "title": "Suggestions use a true edit distance", "statement": "For two different strings the distance used for 'did you mean' suggestions is the Levenshtein distance whenever that does not exceed the bound, and exceeds the bound otherwise; for identical strings it is the bound. Suggestions list exactly the candidates, other than the string itself, of minimal distance among those at distance at most 2.", "quantifier": "every pair of strings and every bound", "why_tests_cant": "all strings", "anchors": ["src/util.cpp: StringEditDistance, MatchStrings"]}
{"id": "C38", "title": "The random number generator keeps independent, reproducible per-instance streams", "statement": "seed_rng and random are functions of the instance's own seed only: the sequence drawn by an instance equals the uniform generator's sequence for the same seed, for inactive instances the state does not advance, and frandom is always in [0,1).", "quantifier": "every seed, number of draws and mask history", "why_tests_cant": "2^32 seeds, unbounded draws", "anchors": ["stdlib/stdlib.ispc: seed_rng, random, frandom"]}
{"id": "C39", "title": "half/float conversion round-trips", "statement": "half_to_float is exact for every half value, float_to_half(half_to_float(h)) = h for every non-NaN h (and a NaN for NaN), and float_to_half rounds to a nearest half.", "quantifier": "all 2^16 half patterns and all 2^32 float patterns", "why_tests_cant": "2^32 inputs are not enumerated by tests", "anchors": ["stdlib/stdlib.ispc: half_to_float, float_to_half"]}
{"id": "C40", "title": "Builtin linking picks the most specific definition", "statement": "When a target does not define a builtin itself, the linked definition is the one of the nearest ancestor in the target hierarchy that defines it, the ancestor chain always ends, and exactly one definition is linked.", "quantifier": "every target and every set of builtins defined by each target", "why_tests_cant": "sets of definitions are unbounded", "anchors": ["src/builtins.cpp: targetParentMap, GetParentTarget, lLinkTargetBuiltins, lAddBitcodeToModule"]}
{"id": "C41", "title": "The random number generator has the full period", "statement": "For every seed whose four derived words are non-degenerate, the sequence of numbers drawn by random repeats only after exactly (2^31-1)(2^29-1)(2^28-1)(2^25-1) draws (about 2^113).", "quantifier": "every seed and number of draws", "why_tests_cant": "the period is about 2^113 draws and must hold from each seed", "anchors": ["stdlib/stdlib.ispc: random, seed_rng"]}
{"id": "C42", "title": "A function never returns before the tasks it launched have finished", "statement": "However a function comes to its end (any return statement, under uniform or varying control flow, in or out of loops, or the closing brace), all tasks it has launched and not yet waited for are waited for before control goes back to its caller.", "quantifier": "every function body and every outcome of its tests", "why_tests_cant": "depends on all paths through all programs; a missed sync shows only as a race", "anchors": ["src/ctx.cpp: ReturnInst, LaunchInst, SyncInst, CurrentLanesReturned", "src/func.cpp: emitCode", "src/stmt.cpp: ReturnStmt::EmitCode"]}
{"id": "C43", "title": "An expression is evaluated exactly once", "statement": "In an expression statement, every subexpression that the rules of C evaluate is evaluated exactly once for each active program instance: assignments, increments, divisions, element reads and function calls happen once each and in the order of C, whatever the mask and however the compiler chooses to evaluate &&, || and ?:.", "quantifier": "every expression, mask, memory and cost estimate", "why_tests_cant": "expressions nest without bound and the effects depend on mask and data", "anchors": ["src/expr.cpp: lEmitLogicalOp, SelectExpr::GetValue, lEmitPrePostIncDec, lEmitOpAssign, AssignExpr::GetValue", "src/ast.cpp: SafeToRunWithMaskAllOff, EstimateCost"]}
{"id": "C44", "title": "Taking the address of a gather or scatter apart does not change the address", "statement": "When the compiler rewrites a varying access a[e] into a base, variable offsets, a scale of 1, 2, 4 or 8 and constant offsets, every active program instance still accesses the element that the value of e in that instance names, with 32-bit and with 64-bit addressing, for signed and unsigned indices and for every element size.", "quantifier": "every index expression, every value of its variables, every element size, both addressing modes and every gang size", "why_tests_cant": "the algebra of the parts depends on overflow in operands that the tests never make large or negative; the error is then a multiple of 2^32 bytes", "anchors": ["src/opt/ImproveMemoryOps.cpp: lGetBasePtrAndOffsets, lExtractConstantOffset, lExtractOffsetVector248Scale, lExtract248Scale, lIsIntegerSplat, lOffsets32BitSafe, lIs32BitSafeHelper, lGSToGSBaseOffsets, lGSBaseOffsetsGetMoreConst", "src/ctx.cpp: FunctionEmitContext::applyVaryingGEP, lExtendIntTo64"]}
{"id": "C45", "title": "A gather or scatter becomes a scalar or vector access only if that touches the same elements", "statement": "When the optimiser replaces a gather or scatter by a scalar load with broadcast, or by a vector load or store of consecutive elements, then in every execution the index vector really has equal elements, or elements that increase by the element size from lane to lane, so that each active program instance accesses the element its own index names.", "quantifier": "every index computation (with additions, multiplications, shifts, masks, casts and loop-carried variables), every value of its inputs and every number of iterations", "why_tests_cant": "the analysis answers once at compile time for all run-time values; a wrong answer shows only for some values and gang sizes", "anchors": ["src/llvmutil.cpp: LLVMVectorValuesAllEqual, LLVMVectorIsLinear, lAllDivBaseEqual, lIsExactMultiple", "src/opt/ImproveMemoryOps.cpp: lGSToLoadStore"]}
{"id": "C46", "title": "Coalescing gathers into shared loads does not change what they read", "statement": "When the optimiser replaces gathers that read at constant distances from a common address by a few scalar and vector loads, every gather still gives every program instance the element that its own index names, as memory was when the gather was reached; the loads touch no page that none of the gathers touches; and the compiler does not stop with a failed assertion.", "quantifier": "every group of gathers, every vector of constant offsets, every gang size, every memory contents and every sequence of instructions between the gathers", "why_tests_cant": "the choice of loads and shuffles depends on the whole set of offsets; the tests fix a few of them, all positive, aligned and for small gangs", "anchors": ["src/opt/GatherCoalescePass.cpp: lVectorLoadIsEfficient, lSelectLoads, lAssembleResultVectors, lExtractConstOffsets, lInstructionMayWriteToMemory"]}
{"id": "C47", "title": "Operations with a mask known at compile time keep their meaning when they are simplified", "statement": "When the mask of a select, blend, movmsk, masked load or masked store is a constant, what the compiler puts in its place selects, reads and writes exactly what the operation with that mask does: all elements that are on and none that is off, and the pass-through value in elements that are not loaded.", "quantifier": "every constant mask of every length, including masks with undefined elements, every gang size, all operands and memories", "why_tests_cant": "the tests reach a few masks; the simplifications look at masks of other lengths than the gang, at masks with undefined elements and at prefixes of three elements as well", "anchors": ["src/llvmutil.cpp: lConstElementsToMask, GetMaskFromValue, GetMaskStatusFromValue", "src/opt/InstructionSimplify.cpp: lSimplifySelect, lSimplifyCall", "src/opt/IntrinsicsOptPass.cpp: IntrinsicsOpt::optimizeIntrinsics", "src/opt/ImproveMemoryOps.cpp: lImproveMaskedStore, lImproveMaskedLoad", "src/opt/ReplaceMaskedMemOps.cpp: lCheckMask, lMaskedMergeVectors, lExtendVec3ToVec4, lReplaceMaskedStore, lReplaceMaskedLoad"]}
{"id": "C48", "title": "Averages are recognised only where the program computes one", "statement": "If the compiler replaces arithmetic on 8-bit or 16-bit values by a call of one of the avg_up/avg_down builtins, the call returns, for all values of the operands, what the arithmetic as written returns.", "quantifier": "every expression over 8-bit and 16-bit vectors and all values of its operands", "why_tests_cant": "the tests contain only expressions that are averages; what else the patterns accept is found only by looking at all constants", "anchors": ["src/opt/PeepholePass.cpp: m_UDiv2, m_SDiv2, lMatchAvgUpUInt8, lMatchAvgDownUInt8, PeepholePass::matchAndReplace, lHasIntrinsicInDefinition", "builtins/util.m4: define_avgs", "builtins/target-sse4-i8x16.ll: __avg_up_uint8"]}
{"id": "C49", "title": "Masked stores by blending touch only the variable", "statement": "When a store under a mask is done by loading the vector, blending and storing all of it, then it accesses no memory but that of the variable stored to, changes only the elements that are on, and leaves the memory that storing the elements that are on one by one leaves; memory that is not a varying variable on the stack is never accessed in elements that are off.", "quantifier": "every layout of the variable, every place in it, every size of the value stored, every mask, gang and memory", "why_tests_cant": "the accesses beyond a variable show only in what lies next to it on the stack, and the choice depends on the form of the address after the other optimizations", "anchors": ["src/opt/ReplacePseudoMemoryOps.cpp: lExtractVectorType, lCheckStructFieldAtOffset, lGetUnderlyingVectorType, lReplacePseudoMaskedStore", "src/opt/LowerISPCIntrinsics.cpp: lLowerBlendStore", "builtins/util.m4: masked_store_blend_8_16_by_4, masked_store_blend_8_16_by_8, masked_store_blend_8_16_by_16", "builtins/target-sse4-i32x4.ll: __masked_store_blend_i64", "builtins/target-avx1-i32x16.ll: __masked_store_blend_i64"]}
{"id": "C50", "title": "Literals have the value that is written", "statement": "An integer literal in decimal, hexadecimal or binary notation, with any of the units k, M, G and the suffixes u, l, ll, is a constant of the value written and of the type that the suffix names, or is refused. A floating-point literal is the number of its type nearest to the value written; hexadecimal ones are exact. A string literal is the bytes that its characters and escape sequences stand for.", "quantifier": "every literal of the language, with any number of digits", "why_tests_cant": "the values at which parsing goes wrong are far out or need many digits, and there is no bound on the length of a literal", "anchors": ["src/lex.ll: lParseBinary, lParseInteger, lParseFP, lEscapeChar, lStringConst, ipow2, lParseHexFloat", "src/parse.yy: primary_expression", "docs/ispc.rst: Integer Literals, Floating Point Literals, String Literals"]}
{"id": "C51", "title": "print writes the documented text", "statement": "A print statement is accepted if the format has one percent sign for each argument and the arguments are of basic types or pointers. It writes the format with each percent sign replaced by the value: a uniform value as itself, a varying value as the list of the values of all lanes in brackets, with those of the lanes that are off in double parentheses; numbers in decimal notation, exact for integers and to the nearest millionth for floating-point numbers. It writes no other memory.", "quantifier": "every format, every list of arguments of every type and value, every mask, every gang size", "why_tests_cant": "the text of an argument depends on the values at run time, and goes beyond a buffer only for values that tests do not print", "anchors": ["src/stmt.cpp: PrintStmt, lEncodeType, lProcessPrintArgType, checkFormatString, PrintArgsBuilder, PrintLZFormatStrBuilder, splitValidFormat, getPrintSlices", "builtins/builtins-c-cpu.cpp: ArgWriter, __do_print", "builtins/builtins-c-common.hpp: CopyTillSep, Arg2Str, GetFormatedStr", "src/builtins-info.h: PrintInfo", "docs/ispc.rst: Output Functions"]}
{"id": "C52", "title": "Memory views on the GPU have memory of their own", "statement": "The memory of each memory view is at least as large as asked for, belongs to the view alone, stays where it is until the view is destroyed, and is aligned to 64 bytes, whether it comes from Level Zero or from a memory pool. A view for memory of the application uses that memory. A request that fails leaves no trace. Memory that views give back is used again before more is asked of Level Zero, and when all views and the context are gone, Level Zero has everything back. No call crashes.", "quantifier": "every sequence of calls that make, use and destroy memory views, every size, kind and hint, every setting of the pools, every sequence of answers of Level Zero", "why_tests_cant": "the state of the pools depends on the whole history of sizes and of views destroyed, and on requests that Level Zero refuses", "anchors": ["ispcrt/detail/gpu/GPUDevice.cpp: round_up_pow2, Bulk, ChunkedPool, MemoryView, GPUContext::memPool, GPUContext::newMemoryView, GPUDevice::newMemoryView", "ispcrt/ispcrt.cpp: ispcrtNewMemoryView, ispcrtNewMemoryViewForContext, ispcrtSharedPtr, ispcrtSize", "ispcrt/ispcrt.h: ISPCRTSharedMemoryAllocationHint"]}
{"id": "C53", "title": "A GPU task queue runs commands in the order that its calls promise", "statement": "A kernel starts only when all copies to the device made before the launch have ended; a copy to the host starts only when all kernels launched before it have ended; a barrier separates what was inserted before it from what comes after. Each command runs exactly once. When sync returns, all commands have ended and nothing that is in use is freed or reset. A future becomes valid when sync returns after its launch, and not before, and its time is that of its own kernel. A launch fails only if the maximal number of launches since the last sync is reached. A launch starts as many instances as were asked for.", "quantifier": "every sequence of calls on a task queue, every order in which the device may start and end the commands it has been given, each of the three ways to set up lists and queues, every command that Level Zero refuses, every width of the device's timer", "why_tests_cant": "which commands overlap is up to the device, and the events that order them are reused over the whole life of the queue", "anchors": ["ispcrt/detail/gpu/GPUDevice.cpp: Event, EventPool, CommandList, TaskQueue::barrier, TaskQueue::copyToHost, TaskQueue::copyToDevice, TaskQueue::copyMemoryView, TaskQueue::launch, TaskQueue::sync, TaskQueue::submit", "ispcrt/ispcrt.cpp: ispcrtSync, ispcrtDeviceBarrier, ispcrtCopyToDevice, ispcrtCopyToHost, ispcrtLaunch1D, ispcrtFutureIsValid, ispcrtFutureGetTimeNs", "docs/ispc_for_xe.rst"]}
{"id": "C54", "title": "A packed dot product is the same on every target", "statement": "dot4add_* and dot2add_* return the accumulator plus the sum of the products of the packed integers, read as signed or unsigned as the name says; the result wraps around or, for a _sat function, is the nearest 32-bit integer of the result type. So the result does not depend on whether the target has instructions for it.", "quantifier": "all operands, all accumulators, every target and program instance", "why_tests_cant": "the products depend on 96 bits, and the wrong results need large or negative elements", "anchors": ["stdlib/stdlib.ispc: dot4add_u8i8packed, dot4add_u8u8packed, dot4add_i8i8packed, dot2add_i16i16packed, dot2add_u16u16packed, dot2add_u16i16packed", "builtins/target-avx512icl-x32.ll: __dot4add_u8i8packed", "builtins/target-avx10_2-x8-common.ll: __dot4add_u8u8packed", "builtins/target-neon-i8x32.ll: __dot4add_i8i8packed"]}
{"id": "C55", "title": "An initialiser list sets every part of a variable to the value it gives, and the rest to zero", "statement": "After T v = { ... } every scalar of v has the value of its own expression, converted to its type; scalars with no expression are zero. Every expression is evaluated exactly once, from left to right. A list with too many values, or with a value that does not convert, is rejected with an error. An unsized dimension of an array gets the length of its list.", "quantifier": "all types built from scalars, short vectors, arrays and structs, all initialisers, all expressions with side effects", "why_tests_cant": "lists nest without bound, and what code is generated depends on which of the values are constants and on their types", "anchors": ["src/expr.cpp: InitSymbol, lGetExprListConstant, ExprList::GetConstant, ExprList::GetStorageConstant", "src/type.cpp: ArrayType::SizeUnsizedArrays, VectorType::getVectorMemoryCount", "docs/ispc.rst"]}
{"id": "C56", "title": "The generated header describes the memory that ispc code reads and writes", "statement": "A C or C++ program that includes the header generated with -h and accesses a struct through its declaration finds every member, array element, vector component and program instance at the address where ispc code has it, and the struct has the same size and alignment. Every struct that is used in the interface is declared exactly once, and after the structs that are members of it.", "quantifier": "all struct types of any depth, all variabilities of members and structs, all gang sizes, all lists of exported types", "why_tests_cant": "types nest without bound, and the offset of a member depends on everything before it", "anchors": ["src/header.cpp: lEmitStructDecl, lEmitStructDecls, lEmitVectorTypedefs, writeDispatchHeader", "src/type.cpp: StructType::GetDeclaration, ArrayType::GetDeclaration, PointerType::GetDeclaration, EnumType::GetDeclaration, lGetVectorLLVMType, StructType::GetCStructName", "docs/ispc.rst"]}
{"id": "C57", "title": "The elements of an array are where sizeof says", "statement": "For every type, the address of a[i], p + i and p - i is i times sizeof of the element away from the beginning, whatever the width and signedness of i, and whether the pointer and i are uniform or varying; the difference of two such pointers is the difference of the indices; different elements do not overlap; and each program instance of a varying element has its own place in it. sizeof of an array is the number of elements times sizeof of one.", "quantifier": "all types, all gang sizes, all sizes of masks, all addressing modes, all indices of all integer types whose offset fits in the addressing mode", "why_tests_cant": "all indices and all types; the wrong combinations of a type and a variability are few and compile without a warning", "anchors": ["src/ctx.cpp: FunctionEmitContext::GetElementPtrInst, FunctionEmitContext::applyVaryingGEP, FunctionEmitContext::AddElementOffset, FunctionEmitContext::addVaryingOffsetsIfNeeded", "src/expr.cpp: IndexExpr::GetLValue, lEmitBinaryPointerArith, SizeOfExpr::GetValue", "src/ispc.cpp: Target::SizeOf", "src/type.cpp: lGetAtomicLLVMType, lGetVectorLLVMType"]}
{"id": "C58", "title": "new gives every running program instance memory of its own, and delete gives it back", "statement": "A varying new gives every running program instance either null or the address of a block that is large enough for the elements it asked for, aligned for them, and overlaps no other block; program instances that are not running get null and allocate nothing. An initialiser is stored once into every block. delete frees the blocks of the running program instances and no others, and null may be deleted. A uniform new allocates one block for the gang.", "quantifier": "all gang sizes, masks, numbers of elements, types, heaps and allocators that meet the contract of the C library, including those that fail at any call", "why_tests_cant": "any subset of the program instances may be running at each of the two statements, and the allocator may fail at any call", "anchors": ["src/expr.cpp: NewExpr::GetValue, NewExpr::TypeCheck", "src/stmt.cpp: DeleteStmt::EmitCode", "builtins/util.m4: __new_varying32_64rt, __new_varying64_64rt, __new_uniform_64rt, __delete_varying_64rt, per_lane", "builtins/generic.ispc: __new_varying32_64rt, __new_uniform_64rt, __delete_varying_64rt", "src/preprocessor.cpp: lSetCmdlineDependentMacroDefinitions", "docs/ispc.rst"]}
{"id": "C59", "title": "Structs, arrays and short vectors are copied for exactly the active program instances", "statement": "Reading a struct, array or short vector through a varying pointer gives every active program instance all scalars of the object at its own pointer. Writing one writes all of them at the pointer of every active instance and nothing else; if several instances have the same pointer, the object is as a whole that of the last of them. Assigning a varying one to a variable changes the scalars of the active instances and no others. No two scalars of an object overlap.", "quantifier": "all types made of scalars, pointers, enumerations, short vectors, arrays and structs of any size and depth, with any variability of the members; all masks, pointers and contents of memory; all gang sizes and addressing modes", "why_tests_cant": "all types and all masks, with all ways in which pointers of program instances can coincide", "anchors": ["src/ctx.cpp: FunctionEmitContext::gather, FunctionEmitContext::scatter, FunctionEmitContext::maskedStore, FunctionEmitContext::StoreInst, FunctionEmitContext::LoadInst, FunctionEmitContext::AddElementOffset, FunctionEmitContext::addVaryingOffsetsIfNeeded, FunctionEmitContext::SwitchBoolToStorageType", "src/expr.cpp: lStoreAssignResult, lAddVaryingOffsetsIfNeeded", "docs/ispc.rst"]}
{"id": "C60", "title": "Functions on the bits of floating-point numbers", "statement": "isnan, isinf and isfinite say of every number, infinity and NaN what it is, and exactly one of them holds. abs clears the sign and nothing else, signbits returns it; abs of an integer is its absolute value unless it is the least. frexp returns a fraction from a half to one and an exponent whose product is the number, ldexp multiplies by a power of two as in C, and undoes frexp. fmod is the remainder of C.", "quantifier": "all bit patterns of float16, float and double, all exponents, all integers of all widths, all pairs of operands of fmod; uniform and varying versions", "why_tests_cant": "all 2^64 bit patterns of double and all pairs of them", "anchors": ["stdlib/stdlib.ispc: isnan, isinf, isfinite, abs, signbits, ldexp, frexp, fmod", "builtins/generic.ispc: __rcp_uniform_float, __rcp_varying_float, __trunc_uniform_float", "src/expr.cpp: lEmitNegate", "docs/ispc.rst"]}
{"id": "C61", "title": "round, floor, ceil and trunc return the documented integer", "statement": "round returns the nearest integer, the even one of two, independent of the rounding mode of the processor and the same on all targets; floor the greatest integer not above, ceil the least not below, trunc the nearest one towards zero. NaN and infinities are returned as they are and the sign is kept.", "quantifier": "all bit patterns of float16, float and double, uniform and varying, on every family of targets, in every rounding mode of the processor", "why_tests_cant": "all 2^64 bit patterns of double on each target", "anchors": ["stdlib/stdlib.ispc: round, floor, ceil, trunc", "builtins/target-sse2-common.ll: __round_uniform_float, __floor_uniform_float, __ceil_uniform_float, __round_uniform_double", "builtins/target-wasm-i32x4.ll: __round_varying_float", "builtins/target-xe.ll: __round_uniform_double, __floor_varying_double", "builtins/target-sse4-common.ll: __round_uniform_float", "builtins/util.m4: halfMathRoundPreSSE4", "builtins/util-xe.m4: __trunc_uniform_double, __trunc_varying_double", "builtins/generic.ispc: __round_varying_float", "docs/ispc.rst"]}
{"id": "C62", "title": "A task starts with the arguments and the mask of its launch", "statement": "Every parameter of a task has the value that the launch statement gave it, whatever happens between the launch and the start of the task; the program instances active at its start are those that were active at the launch; taskIndex, taskCount and their three dimensions are those of the launch.", "quantifier": "all histories of launches of a task group, all types and values of parameters, all masks, all data layouts and targets", "why_tests_cant": "number and types of parameters, their values and the other launches are unbounded", "anchors": ["src/ctx.cpp: LaunchInst, SetFunctionMask, GetFullMask, FunctionEmitContext, SwitchBoolToMaskType", "src/func.cpp: lCopyInTaskParameter, emitCode", "src/type.cpp: LLVMFunctionArgTypes, LLVMFunctionType", "examples/common/tasksys.cpp", "docs/ispc.rst"]}
{"id": "C63", "title": "threadIndex identifies the thread that runs a task", "statement": "Inside a task threadIndex is between zero and threadCount - 1, threadCount is the number of threads that run tasks, and two tasks that run at the same time on different threads see different values of threadIndex, so data indexed by it needs no synchronisation.", "quantifier": "all schedules of all numbers of worker and application threads, all programs of launches and syncs", "why_tests_cant": "interleavings and numbers of threads are unbounded", "anchors": ["examples/common/tasksys.cpp: lTaskEntry, TaskGroup::Sync, InitTaskSystem", "docs/ispc.rst"]}
{"id": "C64", "title": "An @llvm.ispc intrinsic becomes the instruction that its name asks for", "statement": "A call of @llvm.ispc.atomicrmw, cmpxchg or fence becomes the instruction with the operation and the orderings written in the name; a call of concat, extract, insert, select, blend_store or packmask computes the documented lanes; each call is compiled for the types of its own arguments; and the result has the value that was computed. (cmpxchg exchanges its orderings, calls that differ in the type of the mask share one function, and results count as signed.)", "quantifier": "all operations, orderings and types, all sequences of calls in a module, all values", "why_tests_cant": "names, types and sequences of calls are unbounded", "anchors": ["src/intrinsics.cpp: lLookupISPCInstrinsic, lGetMangledTypeStr, lLLVMTypeToISPCType, lGetISPCIntrinsicsFuncDecl", "src/opt/LowerISPCIntrinsics.cpp: lSetMemoryOrdering, lLowerAtomicRMWIntrinsic, lLowerCmpXchgIntrinsic, lLowerFenceIntrinsic, lRunOnBasicBlock", "docs/design/ispc-intrinsics.md"]}
{"id": "C65", "title": "What is declared const keeps its value", "statement": "A program that compiles without an error or a warning about const, and without an explicit cast, never changes an object declared const, a member of a const struct, an element of an array of const elements or a const member of a struct, whatever pointers and references it takes; and objects without const parts can be assigned to. (Not for structs with arrays of structs with const members, nor for references to pointers to const.)", "quantifier": "all struct declarations, all expressions and all histories of accepted statements", "why_tests_cant": "the histories, the nesting of types and the chains of pointers are unbounded", "anchors": ["src/expr.cpp: lDoTypeConv, lCheckForConstStructMember, AssignExpr::TypeCheck, UnaryExpr::TypeCheck, IndexExpr::GetTypeImpl, StructMemberExpr::GetTypeImpl, PtrDerefExpr::GetTypeImpl, AddressOfExpr::GetTypeImpl", "src/type.cpp: StructType::GetElementType, Type::GetAsConstType, Type::EqualIgnoringConst"]}
{"id": "C66", "title": "Operands are evaluated once", "statement": "When an expression runs, every call and every assignment, ++ and -- written in it, other than in a branch of ?:, && or || that is not taken, runs exactly once. (Not for operands of ++ and --, nor for indices into arrays and short vectors that are not in memory.)", "quantifier": "all expressions, of any depth, and all choices of branches", "why_tests_cant": "expressions nest without bound", "anchors": ["src/expr.cpp: lEmitPrePostIncDec, UnaryExpr::GetValue, BinaryExpr::GetValue, AssignExpr::GetValue, lEmitOpAssign, FunctionCallExpr::GetValue, IndexExpr::GetValue, IndexExpr::GetLValue, MemberExpr::GetValue, MemberExpr::GetLValue, VectorMemberExpr::GetValue, ReferenceExpr::GetValue, AddressOfExpr::GetValue, TypeCastExpr::GetLValue, DerefExpr::GetValue, SelectExpr::GetValue"]}
{"id": "C67", "title": "Compound assignment is assignment of the operation", "statement": "x op= y is accepted when x = x op y is, and stores the same value in x. (Not if the common type of the operands is not the type of x: y is converted to the type of x first. And more is accepted.)", "quantifier": "all operators, all pairs of scalar types and all values of the operands", "why_tests_cant": "the values of the operands are unbounded in number for tests, and the types combine", "anchors": ["src/expr.cpp: AssignExpr::TypeCheck, AssignExpr::GetValue, lEmitOpAssign, BinaryExpr::TypeCheck, BinaryExpr::GetValue, lDoTypeConv", "src/type.cpp: Type::MoreGeneralType"]}
{"id": "C68", "title": "Pointers into an array compare and step as the numbers of their elements", "statement": "Two pointers into one array compare as the numbers of the elements they point to; p += i, p -= i, ++p and --p leave p at the element that p + i, p - i, p + 1 and p - 1 name. (Not for arrays across the middle of the address space, and not for unsigned offsets from 2 GB up with 32-bit addressing.)", "quantifier": "all arrays, element types, pairs of elements, uniform and varying pointers, and integers of all types", "why_tests_cant": "addresses depend on where memory is allocated, and the failing ones are rarely handed out in tests", "anchors": ["src/expr.cpp: lEmitBinaryCmp, lBinaryExprCmpOpPred, AssignExpr::TypeCheck, lEmitPrePostIncDec, lEmitBinaryPointerArith", "src/ctx.cpp: FunctionEmitContext::GetElementPtrInst", "src/type.h: Type::IsUnsignedType"]}
{"id": "C69", "title": "The letters behind a short vector name its elements", "statement": "v.x, v.zyx and v[i] give, in every active program instance, the elements of v that the letters or the index name; names of elements that v does not have are rejected; v.x = e changes that element, in the active instances, and nothing else; only single elements in memory can be assigned to. (Not for rows of letters on varying vectors behind varying pointers, nor with -> on varying pointers to uniform vectors.)", "quantifier": "all lengths of vectors, letters, indices, uniform and varying pointers and vectors, numbers of program instances, masks and memory contents", "why_tests_cant": "the ways to reach a vector combine with the letters, and wrong offsets show only when instances have different values", "anchors": ["src/expr.cpp: lIdentifierToVectorElement, VectorMemberExpr::GetValue, VectorMemberExpr::GetTypeImpl, VectorMemberExpr::GetLValueType, MemberExpr::GetValue, MemberExpr::GetLValue, IndexExpr::GetLValue, lAddVaryingOffsetsIfNeeded", "src/ctx.cpp: FunctionEmitContext::AddElementOffset, FunctionEmitContext::LoadInst, FunctionEmitContext::StoreInst"]}
{"id": "C70", "title": "An assignment writes for the program instances that execute it", "statement": "An assignment to a varying variable, element, member or data behind a pointer changes it for the program instances that execute the assignment, and what it holds for the other instances is never observable by them as changed. (Not for global variables that are not static, and not for data behind pointers kept in local arrays and structures.)", "quantifier": "all programs of the modelled statements, scopes, depths of varying control flow, kinds of variables, masks at the call and at the assignment, gang widths and values", "why_tests_cant": "the compiler drops the mask of a store when it believes that the instances that are off can never look, which is a claim about everything that may run afterwards", "anchors": ["src/expr.cpp: lStoreAssignResult", "src/expr.cpp: lMaskForSymbol", "src/stmt.cpp: DeclStmt::EmitCode", "src/ctx.cpp: FunctionEmitContext::StoreInst"]}
{"id": "C71", "title": "A declaration gives a name the type that its use shows", "statement": "The type a declaration gives to a name is the one for which the expression that looks like the declarator has the type the declaration begins with, as in C; qualifiers apply where they are written; an unwritten variability is uniform behind a pointer and varying elsewhere; array parameters are uniform pointers to their elements. The same holds for type names and unnamed parameters. (Not for unnamed declarators with stars in front of brackets or parentheses, and not after typedef void.)", "quantifier": "all specifiers, declarators of any nesting, parameter lists, types and qualifiers", "why_tests_cant": "declarators nest without bound and every combination of stars, brackets, parentheses and qualifiers has its own reading; tests show a few of them", "anchors": ["src/parse.yy: declarator", "src/parse.yy: abstract_declarator", "src/decl.cpp: Declarator::InitFromType", "src/decl.cpp: lApplyTypeQualifiers", "src/type.cpp: PointerType::ResolveUnboundVariability"]}
{"id": "C72", "title": "Arguments in ISPC_ARGS and argument files are split and inserted as documented", "statement": "Text in ISPC_ARGS and in argument files is split where white space is; an argument @file that can be opened is replaced, where it stands, by the arguments in the file, also inside files; all other arguments stay as they are, those of the command line come first and those of ISPC_ARGS last. (Quotation marks are an exception the documentation denies; files that include themselves are not detected.)", "quantifier": "all command lines, values of ISPC_ARGS and file contents, and all nestings of files", "why_tests_cant": "texts and nestings of files are unbounded; the rules interact at every boundary of space, quotation mark and end of text", "anchors": ["src/args.cpp: ArgFactory::GetNextArg", "src/args.cpp: lAddSingleArg", "src/args.cpp: GetAllArgs"]}
{"id": "C73", "title": "Reading, writing and taking the address mean the same place", "statement": "An expression made of variables, references, *, [], ., ->, & and pointer arithmetic denotes one object, the same as in C: reading it, assigning to it, changing it and taking its address all use that object; of a varying object each program instance uses its own part. What has a uniform type is the same for all program instances. (Not for assignments through * with a varying pointer to a varying object, addresses of varying elements behind varying pointers, and casts that are assigned to.)", "quantifier": "all expressions of any nesting, all memories, types, indices and program instances", "why_tests_cant": "expressions nest without bound and each level can be uniform or varying; the address of one level is the input of the next", "anchors": ["src/expr.cpp: DerefExpr::GetLValue", "src/expr.cpp: IndexExpr::GetLValue", "src/expr.cpp: MemberExpr::GetLValue", "src/expr.cpp: AddressOfExpr::GetValue", "src/expr.cpp: lAddVaryingOffsetsIfNeeded", "src/expr.cpp: TypeCastExpr::GetLValue", "src/ctx.cpp: FunctionEmitContext::StoreInst"]}
{"id": "C74", "title": "Constants in enumerations, array bounds and labels have their value", "statement": "The value given to an enumerator, the size of an array and the value after case are the value of the constant that is written, or the program is refused; an enumerator without a value has one more than the one before it, beginning with 0; the generated header gives C the same enumerators; and a switch begins at the label whose value is that of the expression, for each program instance by its own value, otherwise at default, otherwise after the statement. (Not for enumerators that use others of the same enumeration, values of 2^31 and more in the header, and 32-bit unsigned labels of 2^31 and more in a switch over a 64-bit expression.)", "quantifier": "all constants of all integer types, all lists of enumerators and labels, all values of the expression", "why_tests_cant": "2^64 constants in ten types go through sign and zero extensions, and lists of enumerators and labels are unbounded", "anchors": ["src/parse.yy: lGetConstantIntOrSymbol", "src/parse.yy: lFinalizeEnumeratorSymbols", "src/parse.yy: lCreateEnumType", "src/header.cpp: lEmitEnumDecls", "src/stmt.cpp: SwitchStmt::TypeCheck", "src/stmt.cpp: lSwitchASTPreVisit", "src/ctx.cpp: FunctionEmitContext::SwitchInst", "src/ctx.cpp: FunctionEmitContext::EmitCaseLabel"]}
{"id": "C75", "title": "Deduced template arguments fit the call", "statement": "When a function template is called without all its template arguments, the missing ones are taken from the arguments of the call as the table in the documentation says; the instance that is called then has parameters that receive these arguments: the same types below the same pointers and short vectors, where only uniform values become varying and const is added; the order of the parameters does not matter; and when some choice of types and sizes makes the parameters exactly the types of the arguments, one is found. Explicit template arguments are kept. (Not when a uniform type is deduced after a different varying one, nor for omitted default arguments, long names of value parameters, pointers to functions; uniform may become varying below pointers.)", "quantifier": "all templates over type and value parameters with pointers, references and short vectors, all explicit arguments, all types of arguments", "why_tests_cant": "templates, nestings of types and combinations of uniform, varying and const are unbounded, and deductions for one parameter interact in sequence", "anchors": ["src/expr.cpp: lDeduceParam", "src/expr.cpp: lCheckDeductionCompatibility", "src/expr.cpp: lDeduceVectorParams", "src/expr.cpp: FunctionSymbolExpr::getCandidateTemplateFunctions", "src/type.cpp: TemplateTypeParmType::ResolveDependence", "src/type.cpp: VectorType::GetCountString", "src/func.cpp: TemplateInstantiation"]}
{"id": "C76", "title": "A call of a template runs the specialization for its arguments, or else the template", "statement": "In a file that compiles, calls of a function template share one function exactly when their template arguments are equal; a call runs the body a specialization gives for its arguments, wherever in the file that body stands, and otherwise the body of the template. Two bodies for the same arguments, a specialization that follows a use with its arguments without having been declared, and one that is declared and never defined are errors. Templates whose bodies ask for instances in a well founded way are instantiated in finitely many steps. (Not so for specializations with another return type or without the unmasked of the template; explicit instantiation after use is rejected; recursive templates are instantiated without end.)", "quantifier": "all families of templates, all sequences of calls, explicit instantiations, declarations and definitions of specializations, all bodies with their nested requests", "why_tests_cant": "the outcome depends on the order of all uses and specializations in a file and on nested instantiations, of which there are unboundedly many", "anchors": ["src/func.cpp: FunctionTemplate::LookupInstantiation", "src/func.cpp: FunctionTemplate::AddInstantiation", "src/func.cpp: FunctionTemplate::AddSpecialization", "src/func.cpp: FunctionTemplate::GenerateIR", "src/module.cpp: Module::MatchFunctionTemplate", "src/module.cpp: Module::AddFunctionTemplateInstantiation", "src/module.cpp: Module::AddFunctionTemplateSpecializationDeclaration", "src/module.cpp: Module::AddFunctionTemplateSpecializationDefinition"]}
{"id": "C77", "title": "Repeated declarations of a global name denote one variable or function", "statement": "In a file that compiles, a global name is that of one variable or of functions. All declarations of a variable have the same type; its memory is defined in the file exactly if one of them is not extern and starts with the value that one gives, and reads whose value is put in at compile time agree with it. Declarations of functions that take the same parameters declare the same function and agree on everything else; an exported function is alone with its name, an extern C function repeats the first declaration, at most one body is given for each function, and calls that choose the same parameters run the same function with the declared default values for the arguments left out. Exactly the sequences of declarations that satisfy the stated conditions are accepted. (Not so: repeated definitions after extern, static after extern, pointers to const, default values that differ between declaration and definition.)", "quantifier": "all sequences of declarations and definitions of variables and functions of one name, interleaved with reads and calls", "why_tests_cant": "the outcome depends on the order of all declarations of a name in a file, with calls and reads in between, of which there are unboundedly many", "anchors": ["src/module.cpp: Module::AddGlobalVariable", "src/module.cpp: Module::AddFunctionDeclaration", "src/module.cpp: Module::AddFunctionDefinition", "src/sym.cpp: SymbolTable::LookupFunction", "src/expr.cpp: SymbolExpr::Optimize", "src/expr.cpp: FunctionCallExpr::GetValue", "src/func.cpp: Function::GenerateIR", "src/parse.yy: lAddDeclaration"]}
{"id": "C78", "title": "A scalar that stands for the elements of a vector is equal to them", "statement": "When the optimiser uses one scalar in place of a vector of addresses or offsets, as the value all elements have or as the first element, then in every execution that scalar is equal to every element of the vector that is defined, or to the first one; building the scalar computation beside the vector one leaves a well formed function that does what it did; and a base pointer and an offset found for a broadcast pointer add up to it.", "quantifier": "every function and control flow graph, every vector computation with operators, casts, insertions, broadcasts, constants and loop-carried values, every gang size and every execution", "why_tests_cant": "the equality has to hold at every point of every execution of loops, and the patterns are compared structurally, so that a wrong match shows only for particular values", "anchors": ["src/llvmutil.cpp: lValuesAreEqual, LLVMFlattenInsertChain, lIsFirstElementConstVector, lExtractFirstVectorElement, LLVMExtractFirstVectorElement", "src/opt/ImproveMemoryOps.cpp: lGetBasePointer, lGetBasePtrAndOffsets, lComputeCommonPointer", "src/opt/GatherCoalescePass.cpp: LLVMExtractFirstVectorElement"]}
{"id": "C79", "title": "A program compiled for several targets has one set of global variables, as for the selected target alone", "statement": "When a program is compiled for several targets, each global variable that is not static is defined exactly once in the objects that are produced; if the compiler does not warn, its size, alignment and layout are those that the code of each target assumes, and its initial value is that of each target; and whatever the application does, by calling exported functions and by reading and writing the variables, gives the same values as with the program compiled only for the target that the dispatcher selects.", "quantifier": "every program with global variables of all types and initialisers, every list of targets and gang sizes, every alignment chosen by the optimiser, every history of calls and accesses by the application", "why_tests_cant": "a difference between the targets shows only on a machine that selects another target than the first, for particular types and initialisers, and in the values that later calls give", "anchors": ["src/module.cpp: AddGlobalVariable, lExtractOrCheckGlobals, lCompatibleTypes, lUpgradeGlobalVariableAlignment, lCopyGlobalVariableAttributes, resetGlobalInitializers, restoreGlobalInitializers, GenerateDispatch", "src/expr.cpp: SizeOfExpr, AddressOfExpr, lGetBinaryExprStorageConstant, lGetExprListConstant", "stdlib/include/core.isph: programCount"]}
{"id": "C80", "title": "What an exported function takes and returns has the same form for every gang size", "statement": "If the compiler accepts the declaration of an exported function, then each argument and the result have a form that does not depend on the gang size: no varying value, varying pointer or short vector is passed. If it also gives no warning, everything that the function can reach through its arguments has the same form for every gang size, so that an application can build it without knowing the target. Conversely such types are accepted. Default values are only at the end of the parameters.", "quantifier": "every declaration of an exported function, with parameters and results of all types nested in any way", "why_tests_cant": "the types are nested without bound, and a type that is wrongly accepted shows only when the application and the code for another gang size read the same memory differently", "anchors": ["src/module.cpp: lRecursiveCheckValidParamType, lCheckExportedParameterTypes, lCheckForStructParameters, Module::AddFunctionDeclaration", "src/type.cpp: Type::ResolveUnboundVariability, PointerType::ResolveUnboundVariability, StructType::GetElementType, ReferenceType"]}
{"id": "C81", "title": "Questions about the mask have the same answers on every target, and assertions are triggered by executing instances only", "statement": "Whether any, all or none of the executing instances satisfy a condition, how many do and which do, as asked with any, all, none, popcnt, lanemask and packmask, is answered according to the executing instances and in the same way on every target with the same gang size. An assertion is triggered exactly if its condition is false for an executing instance, and disabled assertions do nothing.", "quantifier": "every target, all masks and all conditions", "why_tests_cant": "each target has its own code for the same question, in terms of the instructions of the processor, and the number of masks is exponential in the gang size", "anchors": ["builtins/target-sse2-i32x4.ll: __movmsk, __any, __all, __none", "builtins/target-sse4-i16x8.ll: __movmsk", "builtins/target-avx512skx-x16.ll: __movmsk", "builtins/target-neon-i8x16.ll: __movmsk, __any, __all", "builtins/target-wasm-i32x4.ll: __any, __all", "builtins/generic.ispc: __cast_mask_to_i64, __any, __all, __none, __do_assert_varying", "builtins/util.m4: __do_assert_uniform, __do_assert_varying", "stdlib/stdlib.ispc: any, all, none, popcnt, lanemask, packmask", "src/stmt.cpp: AssertStmt::EmitAssertCode, AssertStmt::EmitAssumeCode, AssertStmt::EmitCode"]}
{"id": "C82", "title": "Reductions and min, max and clamp give the documented value on every target", "statement": "The minimum, the maximum and the sum over the gang take into account the value of every executing program instance exactly once and nothing else. reduce_min and reduce_max give the value of an executing instance and no executing instance has a smaller or a larger one; min and max give one of their operands, no greater or no less than the other; clamp gives a number between its bounds, equal to the number given if that is between them; sums are exact as long as no rounding is needed. This is so on every target.", "quantifier": "every target and gang size, all types of numbers, all masks and all values", "why_tests_cant": "each target has its own sequence of shuffles, horizontal additions and selections for each type, and the number of combinations of values and masks is out of reach", "anchors": ["builtins/util.m4: reduce4, reduce8, reduce8by4, reduce16, reduce32, reduce64", "builtins/target-sse4-i32x8.ll: __reduce_add_float, __reduce_min_float", "builtins/target-avx1-i32x16.ll: __reduce_add_float, __reduce_add_double", "builtins/target-avx1-i64x4.ll: __reduce_add_double", "builtins/target-avx512skx-x8.ll: __reduce_add_double", "builtins/target-avx-utils.ll: __min_uniform_float, __max_uniform_float", "builtins/generic.ispc: __reduce_min_float, __reduce_add_float, __min_varying_float, __max_uniform_float", "stdlib/stdlib.ispc: reduce_add, reduce_min, reduce_max, min, max, clamp"]}
{"id": "C83", "title": "Messages name the place they are about, and pragmas silence the next line", "statement": "Every token has the file, line and column at which it stands in the source, whatever comments, blanks, pragmas and line markers come before it. #pragma ignore warning, with (all) or without, turns off all warnings about the following line, #pragma ignore warning(perf) its performance warnings, and nothing else turns off a warning but the options. A compilation fails exactly if an error was found or, with --werror, a warning that is not silenced; a message is written once if and only if the options and pragmas allow it. #pragma unroll asks for the number of copies that it names.", "quantifier": "all source texts, all sequences of messages and all combinations of the options", "why_tests_cant": "the place depends on everything that comes before in the text, and the lines that pragmas silence on all pragmas of all files", "anchors": ["src/lex.ll: lCComment, lCppComment, lNextValidChar, lPragmaIgnoreWarning, lPragmaUnroll, lConsumePragma, lHandleCppHash, YY_USER_ACTION", "src/util.cpp: Error, Warning, PerformanceWarning, lPrint", "src/ispc.cpp: Union", "src/parse.yy: YYLLOC_DEFAULT", "docs/ispc.rst: Pragma Directives"]}
{"id": "C84", "title": "Targets, architectures and systems mean what their names say, and get libraries that fit", "statement": "Every target can be asked for by name, the printed name of a target means this target, and it says the gang size and the mask. A list of targets means its entries in order, and an error is reported exactly if an entry is not the name of a target. Whatever libraries are registered, the libraries that are linked into a compilation are made for its gang size, mask, architecture and kind of system, and later registrations take precedence. The support matrix and the lists of supported targets, architectures and systems show exactly what the compiler accepts. Every x86 target finds its libraries.", "quantifier": "all texts on the command line, all targets, systems and architectures, and all sequences of registered libraries", "why_tests_cant": "there are thousands of combinations of target, system, architecture and options, and the libraries present depend on how the compiler was built", "anchors": ["src/target_enums.cpp: ParseISPCTarget, ParseISPCTargets, ISPCTargetToString, ParseArch, ParseOS, ISPCTargetIsX86, ISPCTargetIsNeon, ISPCTargetIsGeneric", "src/target_registry.cpp: Triple, TargetLibRegistry, lCanonicalizeTarget, lGetTargetLib, mapToStdlibTarget, isSupported, getSupportedArchs, getSupportedTargets, getSupportedOSes", "src/ispc.cpp: lIsTargetValidforArch", "cmake/StdlibFamilies.cmake", "cmake/GenericTargets.cmake"]}
{"id": "C85", "title": "Counting bits and zeros gives the same documented number on every target", "statement": "count_leading_zeros and count_trailing_zeros return the number of zero bits before the first set bit from the top and from the bottom, all bits for zero; popcnt returns the number of set bits; abs of an integer its absolute value. This holds for uniform and varying values of 32 and 64 bits, on CPUs, generic targets and GPUs, for every program instance that executes the call.", "quantifier": "all values, masks, gang sizes and targets", "why_tests_cant": "there are 2^64 values per program instance, and a different piece of code for each kind of target", "anchors": ["stdlib/stdlib.ispc: popcnt, count_leading_zeros, count_trailing_zeros, abs", "builtins/util.m4: ctlztz", "builtins/util-xe.m4: ctlztz", "builtins/generic.ispc: __popcnt_int32_varying, __count_leading_zeros_varying_i64", "builtins/target-xe.ll: __popcnt_int64_varying", "builtins/target-avx2-i8x32.ll: __popcnt_int32_varying", "docs/ispc.rst: Bit Operations"]}
{"id": "C86", "title": "The files of a compilation are where the user asked, one for each target, and dependency files are complete", "statement": "Compiling for several targets writes, for every target, the output and the header next to the file asked for, under its name with the instruction set before the suffix. No two targets and no two kinds of files share a name. The file and the header asked for hold the dispatch code. A list of targets is accepted exactly when no two would share a file. The dependency file names its target, the source and every other file that was read, once, in a form that make reads back.", "quantifier": "all file names, lists of targets, sets of dependencies and outcomes of the compilation of each target", "why_tests_cant": "file names and include structures are unbounded, and which target compiles or fails gives exponentially many histories of writes", "anchors": ["src/module.cpp: lGetMangledFileName, lCreateTargetOutputs, lCheckAndFillISAIndices, CompileMultipleTargets, GenerateDispatch, WriteOutputFiles, WriteDispatchOutputFiles, RegisterDependency", "src/header.cpp: lUnescapeStringInPlace, DepsTargetName, writeDeps", "src/ispc.cpp: TargetToISA, ISAToString", "src/args.cpp: -M, -MMM, -MF, -MT"]}
{"id": "C87", "title": "An operator applied to a struct is the call of the function declared for it", "statement": "An operator that is applied to a struct calls the function declared under its name, the one that a call with the same operands would choose; a postfix operator passes a number as well. Operators on built-in types mean the same whatever is declared. Prefix and postfix forms, and unary and binary minus, never take each other's functions. Without a declaration an operator on a struct is an error, except assignment, which copies it.", "quantifier": "all sets of declared functions, operators and operand types", "why_tests_cant": "the declared functions and operand types are unbounded, and every operator meets every combination of them", "anchors": ["src/expr.cpp: PossiblyResolveStructOperatorOverloads, lOpString, UnaryExpr::TypeCheck, BinaryExpr::TypeCheck, AssignExpr::TypeCheck", "src/lex.ll: lParseOperator", "src/expr.h: UnaryExpr::Op, BinaryExpr::Op, AssignExpr::Op"]}
{"id": "C88", "title": "reduce_equal changes no memory but the variable passed to it", "statement": "reduce_equal tells whether all active program instances have equal values. With a pointer it leaves this value in the variable pointed to if they are equal, and changes nothing if not. No other memory changes; without a pointer, none at all.", "quantifier": "all gang sizes, execution masks, values, element types, addresses and contents of memory", "why_tests_cant": "masks and values are unbounded, and a write behind a local variable shows only if something else happens to live there", "anchors": ["stdlib/stdlib.ispc: reduce_equal", "builtins/generic.ispc: __reduce_equal", "builtins/util.m4: reduce_equal_aux"]}
{"id": "C89", "title": "Replacing vector operations on one element by scalar ones keeps the meaning", "statement": "The optimisation that replaces an operation on vectors of which only the first element is used by the operation on scalars changes no result and no effect of a program, whatever the operation, the operands and the undefined elements; it never adds undefined behaviour, and deletes only instructions that nothing uses.", "quantifier": "all blocks of instructions, operations, operands and masks of shuffles", "why_tests_cant": "the programs that are optimised are unbounded, and undefined elements have no observable value in a test", "anchors": ["src/opt/ScalarizePass.cpp: lMatchAndScalarize, ScalarizePass::matchAndReplace"]}
{"id": "C90", "title": "AMX functions work on the tile passed to them", "statement": "If the compiler accepts a call of an AMX function then every tile number passed is, in every execution that gets there, the constant that the instruction has, and one of the eight tiles; the instruction is that of the function, with the tiles in order. A number that is not known at compile time, or is not a tile, is an error.", "quantifier": "all control flow graphs, stores, loads and executions", "why_tests_cant": "the pass looks for the store that reaches a load along chains of blocks; tests have a few of the graphs, of which there are arbitrarily many", "anchors": ["src/opt/LowerAMXBuiltinsPass.cpp: lGetConstantThroughLoad", "src/opt/LowerAMXBuiltinsPass.cpp: lValidateAMXTileArgument", "src/opt/LowerAMXBuiltinsPass.cpp: lLowerAMXLoadStoreBuiltin", "src/opt/LowerAMXBuiltinsPass.cpp: lLowerAMXDotProductBuiltin", "stdlib/include/amx.isph: amx_tile_load"]}
{"id": "C91", "title": "Macros can end a range", "statement": "In foreach (i = 0...MAXI) the name after the dots is seen by the preprocessor as a token of its own, so that a macro is expanded. Nothing else in the source changes: comments, strings and names stay as they are, and only spaces are added.", "quantifier": "all source texts, numbers and names", "why_tests_cant": "the source text is unbounded; offsets into it shift with every change before", "anchors": ["src/preprocessor.cpp: lFixDotDotDotSpacing"]}
{"id": "C92", "title": "goto goes to its label", "statement": "A function whose goto statements are accepted has, for each of them, exactly one statement with the label, compiled exactly once, and jumps there. A goto under varying control flow or inside of foreach, one without its label, and labels that occur twice are errors.", "quantifier": "all function bodies: statements nested without bound", "why_tests_cant": "statements nest without bound, and some are emitted several times or not at all, depending on what comes before", "anchors": ["src/stmt.cpp: GotoStmt", "src/stmt.cpp: LabeledStmt", "src/stmt.cpp: IfStmt", "src/stmt.cpp: ForeachStmt", "src/ctx.cpp: InitializeLabelMap", "src/ctx.cpp: GetLabeledBasicBlock"]}
{"id": "C93", "title": "unmasked ends with its block", "statement": "Inside of an unmasked block every program instance runs. Before and after it, and on every path that does not enter it, only the active ones do: inactive program instances store nothing there.", "quantifier": "all function bodies with unmasked blocks, uniform conditions and loops, returns, breaks and continues, all masks, gang sizes and numbers of iterations", "why_tests_cant": "statements nest without bound, and the mask that counts depends on all that was compiled before", "anchors": ["src/stmt.cpp: UnmaskedStmt", "src/ctx.cpp: SetFunctionMask", "src/ctx.cpp: GetFullMask", "src/ctx.cpp: CurrentLanesReturned"]}
