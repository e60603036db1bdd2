# Formal model of ispc: design

Subject: ispc/ispc (v1.31.0 tree in /repo), an SPMD-on-SIMD compiler plus its builtin library, standard
library, dispatcher, example task system and runtime. Everything below is a *model in Lean 4* of what that
code does, with theorems about the model. The code itself is neither built nor run.

## Trusted base

* Lean 4.33.0's kernel. No `native_decide`, `bv_decide`, `sorry`, `admit`, own axioms, `implemented_by`, `unsafe`.
* Axioms: at most `propext`, `Classical.choice`, `Quot.sound` (Lean's standard ones). See "Axioms per theorem".
* The correspondence between model definitions and the C++/ispc source. Every model definition cites file and
  lines in /repo and says what it simplifies. This reading is by hand and is not machine checked. The line
  numbers were once audited by printing the first and last cited line of every citation; some had been off by a
  few lines and one file's by thousands, and were corrected.
* LLVM, the host compiler, CPUs, libc and pthreads are not modelled, except through the stated semantics of
  the few primitives used (LLVM integer ops as BitVec, compare-and-swap as one atomic step, ...).

## Layout

The areas are the directories of `lean/Verif`: Builtins, Dispatch, Foreach, Front (the front end), Ispcrt, Opt (the
optimiser), Spmd (the execution machine), TaskSys, Util. `X.lean` holds the model of one part, `XProps.lean` the helper
lemmas and the theorems with non-vacuity examples; where it is large, the independent specification with the theorems
is in `XSpec.lean`. Small parts keep these as sections in one file. Names live under `Ispc.<Part>`.

## Which code is modelled

For each file of /repo: its number of lines, the lines cited by model definitions (a definition that models a function
cites all of its lines; what it simplifies stands in its comment), and the modules of `lean/Verif`. Lines that are not
listed are not modelled.

* `builtins/builtins-c-common.hpp` (154 lines): 22-24, 29-37, 41-91, 95, 102-124, 131-153. In Builtins/Print.
* `builtins/builtins-c-cpu.cpp` (183 lines): 60-61, 81-134, 148-153. In Builtins/Print.
* `builtins/dispatch.c` (86 lines): 52-76. In Dispatch/Dispatch.
* `builtins/generic.ispc` (3029 lines): 49-82, 98-108, 283-299, 442-453, 458-459, 474-477, 565-582, 589-600, 650,
  762-829, 864-973, 1006-1189, 1214, 1219, 1225-1246, 1250-1274, 1305, 1496-1516, 1540-1623, 2447-2697, 2790-3021. In
  Builtins/Aos, Builtins/Atomics, Builtins/AtomicsLane, Builtins/BitCount, Builtins/Div, Builtins/FloatBits,
  Builtins/FloatBitsFmod, Builtins/Gather, Builtins/MaskBits, Builtins/MemOps, Builtins/Perm, Builtins/Reduce,
  Builtins/ReduceEqual, Builtins/Rounding, Builtins/Saturating, Builtins/Scan, Builtins/Vec, Foreach/Active,
  Front/New.
* `builtins/target-avx-utils.ll` (249 lines): 181-206. In Builtins/Reduce.
* `builtins/target-avx1-i32x16.ll` (653 lines): 130-140, 148-206, 215-317, 465-497, 503-559, 589-596. In
  Builtins/BlendFns, Builtins/MaskBits, Builtins/Reduce.
* `builtins/target-avx1-i32x8.ll` (521 lines): 137-163, 170-198, 208-290, 387-450. In Builtins/BlendFns,
  Builtins/MaskBits, Builtins/Reduce.
* `builtins/target-avx1-i64x4.ll` (533 lines): 213-221, 228-256, 264-347, 417-430, 436-448. In Builtins/BlendFns,
  Builtins/MaskBits, Builtins/Reduce.
* `builtins/target-avx10_2-x8-common.ll` (53 lines): 7-51. In Builtins/Dot.
* `builtins/target-avx2-i16x16.ll` (730 lines): 22-27, 281-351, 377-426, 531-602, 623-658. In Builtins/BlendFns,
  Builtins/MaskBits, Builtins/Reduce.
* `builtins/target-avx2-i8x32.ll` (773 lines): 22-25, 30-53, 301-371, 397-446, 554-625, 646-681, 759-772. In
  Builtins/BitCount, Builtins/BlendFns, Builtins/MaskBits, Builtins/Reduce.
* `builtins/target-avx2vnni-i32x16.ll` (56 lines): 14-22. In Builtins/Dot.
* `builtins/target-avx512-utils.ll` (299 lines): 63-100. In Builtins/Reduce.
* `builtins/target-avx512icl-x16.ll` (80 lines): 69-80. In Builtins/BitCount.
* `builtins/target-avx512icl-x32.ll` (101 lines): 44-52. In Builtins/Dot.
* `builtins/target-avx512icl-x64.ll` (111 lines): 46-56. In Builtins/Dot.
* `builtins/target-avx512icl-x8.ll` (48 lines): 12-32. In Builtins/Dot.
* `builtins/target-avx512skx-x16-nozmm.ll` (1156 lines): 79-82, 188-205, 260-268, 308-330, 337-434. In
  Builtins/MaskBits, Builtins/Reduce.
* `builtins/target-avx512skx-x16.ll` (1176 lines): 273-360, 400-422, 429-526. In Builtins/MaskBits, Builtins/Reduce.
* `builtins/target-avx512skx-x32.ll` (541 lines): 23-26, 254-276, 302-351, 380-451, 529-540. In Builtins/BitCount,
  Builtins/MaskBits, Builtins/Reduce.
* `builtins/target-avx512skx-x4.ll` (932 lines): 193-197, 254-311, 350-372, 379-457. In Builtins/MaskBits,
  Builtins/Reduce.
* `builtins/target-avx512skx-x64.ll` (519 lines): 23-26, 31-52, 232-254, 280-329, 358-429. In Builtins/MaskBits,
  Builtins/Reduce.
* `builtins/target-avx512skx-x8.ll` (1118 lines): 173-176, 256-340, 386-408, 415-500. In Builtins/MaskBits,
  Builtins/Reduce.
* `builtins/target-neon-common.ll` (202 lines): 47-51, 186-201. In Builtins/MaskBits.
* `builtins/target-neon-i16x8.ll` (202 lines): 23-66. In Builtins/MaskBits.
* `builtins/target-neon-i32x4.ll` (167 lines): 23-49, 144-166. In Builtins/Dot, Builtins/MaskBits.
* `builtins/target-neon-i32x8.ll` (195 lines): 24-54, 152-164. In Builtins/Dot, Builtins/MaskBits.
* `builtins/target-neon-i8x16.ll` (232 lines): 23-73, 171-189. In Builtins/Dot, Builtins/MaskBits.
* `builtins/target-neon-i8x32.ll` (130 lines): 33-63. In Builtins/Dot.
* `builtins/target-sse2-common.ll` (262 lines): 103-153, 177-188, 203-211, 225-233, 248-256. In Builtins/Reduce,
  Builtins/Rounding.
* `builtins/target-sse2-i32x4.ll` (378 lines): 44-55, 70-78, 92-100, 127-224, 299-332. In Builtins/MaskBits,
  Builtins/Reduce, Builtins/Rounding.
* `builtins/target-sse2-i32x8.ll` (438 lines): 95-102, 110-180, 193-258, 318-329, 344-352, 366-374. In
  Builtins/MaskBits, Builtins/Reduce, Builtins/Rounding.
* `builtins/target-sse4-common.ll` (240 lines): 38, 47, 181-205. In Builtins/Reduce, Builtins/Rounding.
* `builtins/target-sse4-i16x8.ll` (429 lines): 140-189, 203-229, 241-305, 312-347, 393-413. In Builtins/BlendFns,
  Builtins/MaskBits, Builtins/Reduce, Opt/Average.
* `builtins/target-sse4-i32x4.ll` (451 lines): 141-166, 204-232, 242-318, 353-413. In Builtins/BlendFns,
  Builtins/MaskBits, Builtins/Reduce.
* `builtins/target-sse4-i32x8.ll` (522 lines): 95-102, 138-232, 245-247, 355-366, 382-477, 497-504. In
  Builtins/BlendFns, Builtins/MaskBits, Builtins/Reduce.
* `builtins/target-sse4-i8x16.ll` (430 lines): 143-197, 209-233, 245-309, 316-342, 346-353, 399-413. In
  Builtins/BlendFns, Builtins/MaskBits, Builtins/Reduce, Opt/Average.
* `builtins/target-wasm-i32x4.ll` (811 lines): 164-225, 257-288, 342-352, 450-460, 580-614, 664-808. In
  Builtins/BlendFns, Builtins/MaskBits, Builtins/Reduce, Builtins/Rounding.
* `builtins/target-xe.ll` (1710 lines): 57-94, 98-129, 372-385, 389-404, 760-780, 972-979. In Builtins/BitCount,
  Builtins/BlendFns, Builtins/MaskBits, Builtins/Rounding.
* `builtins/util-xe.m4` (6016 lines): 1218-1230, 1234-1256, 1510-1660, 1669-1741, 1879-3656, 4146-4162. In
  Builtins/AosNets, Builtins/AosNetsData, Builtins/Atomics, Builtins/BitCount, Builtins/MaskBits, Builtins/Rounding.
* `builtins/util.m4` (7724 lines): 25-33, 76-84, 587-604, 616-625, 630-635, 654-671, 676-685, 716-721, 726-738,
  744-748, 753-757, 801-813, 935-1104, 1115-1126, 2131-2155, 2186-2332, 2429-2510, 2514-2661, 2669-2704, 2817-5281,
  5366, 5444-5455, 5463-5502, 5508-5511, 5519-5548, 5580-5617, 5635-5691, 5724-5739, 5778-5813, 6110-6152, 6268-6282,
  6350-6399, 6493-6514, 6545-6580, 6686-6791, 6840-7118, 7153-7208, 7217-7246, 7252-7281, 7292-7302, 7315-7323,
  7333-7393, 7414-7439, 7454-7475, 7486-7496, 7507-7515, 7523-7541, 7554-7575, 7622-7642, 7666-7684. In
  Builtins/AosNets, Builtins/AosNetsData, Builtins/Atomics, Builtins/BitCount, Builtins/BlendFns, Builtins/Dot,
  Builtins/Gather, Builtins/MaskBits, Builtins/MemOps, Builtins/PerLane, Builtins/Perm, Builtins/Reduce,
  Builtins/ReduceEqual, Builtins/Rounding, Builtins/Scan, Foreach/Active, Front/New, Opt/Average.
* `examples/common/tasksys.cpp` (1244 lines): 144-160, 200, 215-217, 221-235, 244-248, 256-297, 548, 552-553, 561,
  569, 574-583, 589-613, 620, 669-671, 690-738, 743-753, 760-770, 777-804, 817-819, 825, 942-971, 975-996, 1001-1002,
  1008-1011. In TaskSys/Alloc, TaskSys/Args, TaskSys/FreeList, TaskSys/Index, TaskSys/Sched, TaskSys/ThreadIndex.
* `examples/cpu/aobench/ao.ispc` (250 lines): 186. In Builtins/RngPeriod.
* `ispcrt/detail/IntrusivePtr.h` (149 lines): 29, 34-39, 78-90, 99-126. In Ispcrt/RefCount.
* `ispcrt/detail/cpu/CPUDevice.cpp` (479 lines): 256-277, 312-319, 355-360, 380-400. In Ispcrt/RefCount.
* `ispcrt/detail/gpu/GPUDevice.cpp` (2043 lines): 135-151, 424-491, 495-956, 1426-1487, 1504-1653, 1665-1667,
  1691-1692, 1978-2018, 2029-2040. In Ispcrt/GpuQueue, Ispcrt/MemPool.
* `ispcrt/ispcrt.cpp` (1147 lines): 47-50, 527-530, 717-735, 768-772. In Ispcrt/MemPool, Ispcrt/RefCount.
* `ispcrt/ispcrt.h` (264 lines): 141-147. In Ispcrt/MemPool.
* `ispcrt/ispcrt.hpp` (764 lines): 43-72, 96-99, 120-123. In Ispcrt/RefCount.
* `src/args.cpp` (1408 lines): 289-443, 846-863, 992-996, 1012-1013, 1270-1281. In Front/OutFiles, Front/Registry,
  Front/SrcPos, Util/Args.
* `src/ast.cpp` (619 lines): 425-618. In Builtins/Div, Spmd/Props2, Spmd/Short.
* `src/bitcode_lib.cpp` (168 lines): 27-78. In Front/Registry.
* `src/bitcode_lib.h` (69 lines): 21. In Front/Registry.
* `src/builtins-info.h` (152 lines): 20-38, 43, 51-67, 73-75, 90-103, 112-139. In Builtins/Print, Builtins/PrintXe.
* `src/builtins.cpp` (757 lines): 139-181, 473-603, 623-647, 665-682. In Front/Link, Front/Targets.
* `src/ctx.cpp` (4359 lines): 40-193, 217-420, 433-453, 499-599, 642-655, 660-737, 748-786, 792-905, 910-924,
  1018-1022, 1032-1046, 1060-1226, 1241-1256, 1284-1362, 1391-1409, 1421-1441, 1658-1826, 2128-2137, 2145-2205,
  2241-2296, 2308-2358, 2393-2422, 2474-2523, 2560-2632, 2653-2665, 2671-2699, 2704-2860, 2920-2923, 3079-3191,
  3199-3381, 3530-3548, 3617-3902, 3919-3958, 3979, 3992-4025, 4042-4069, 4073-4112. In Builtins/Div,
  Builtins/FloatBits, Foreach/Active, Front/Aggregate, Front/FoldScalar, Front/Goto, Front/Init, Front/IntConst,
  Front/NewProps, Front/Places, Front/Soa, Front/Stride, Front/Swizzle, Front/Unmasked, Opt/Offsets, Spmd/FnPtr,
  Spmd/Machine, Spmd/Props, Spmd/Props2, Spmd/PropsReturn, Spmd/Short, Spmd/StoreMask, Spmd/Terminate, TaskSys/Args,
  TaskSys/ArgsProps, TaskSys/ImplicitSync, TaskSys/Sched.
* `src/decl.cpp` (1287 lines): 141-196, 356-372, 384-464, 834-1083, 1108-1146. In Front/Declare, Front/Promote,
  Front/Soa, TaskSys/Args.
* `src/decl.h` (309 lines): 201-256. In Front/Declare.
* `src/expr.cpp` (10471 lines): 80-83, 97-101, 107-113, 168-605, 644-725, 739-1016, 1161-1200, 1223-1225, 1240-1252,
  1275-1314, 1386-1572, 1602-1608, 1690-1843, 1897-1963, 1968-1987, 1998-2223, 2374-2391, 2454-2463, 2484-2528,
  2532-2583, 2705-2841, 2958-2971, 2979-3026, 3112-3151, 3247-3296, 3313-3341, 3373-3396, 3402-3424, 3438-3473,
  3526-3645, 3659-3660, 3855, 3899-3927, 3962-4034, 4231-4262, 4407-4417, 4655-4810, 4856-4877, 4908-4941, 5003-5116,
  5178-5255, 5368-5408, 5467-5486, 5494-5596, 5682-5697, 5743-5861, 5994-6100, 6439-6509, 6515-6559, 6694-6847,
  6857-6906, 6979-7620, 7730-7900, 8044-8079, 8200-8289, 8321, 8508-8549, 8563-8580, 8655-8668, 8729-8781, 8840-8895,
  8909-8925, 8987-9006, 9091-9131, 9135-9144, 9194-9206, 9300-9320, 9350-9391, 9403-9415, 9422-9514, 9540-9561,
  9578-9787, 9791-9803, 9810-9932, 9966-10009, 10055-10121, 10194-10350, 10412-10420. In Builtins/BitCount,
  Builtins/Div, Builtins/Dot, Builtins/FloatBits, Dispatch/Globals, Front/Aggregate, Front/Const, Front/FoldExpr,
  Front/FoldFloat, Front/FoldScalar, Front/Init, Front/Instances, Front/IntConst, Front/Intrinsics, Front/Mangle,
  Front/New, Front/Once, Front/OpAssign, Front/Operators, Front/Overload, Front/Places, Front/PtrOps, Front/Redeclare,
  Front/Soa, Front/Stride, Front/Swizzle, Front/Templates, Spmd/FnPtr, Spmd/Machine, Spmd/Short, Spmd/StoreMask,
  Spmd/Syntax.
* `src/expr.h` (1001 lines): 60-75, 100-108, 131-154, 182-194, 247-290. In Front/FoldScalar, Front/InitSpec,
  Front/Operators.
* `src/func.cpp` (1369 lines): 51-59, 160, 253-284, 333-391, 395-455, 491-584, 658-671, 879-891, 915-955, 1053-1066,
  1121-1189, 1194-1222, 1279-1296, 1311-1317. In Front/Goto, Front/Instances, Front/Mangle, Front/Redeclare,
  Front/Templates, Spmd/Machine, Spmd/StoreMask, Spmd/Syntax, TaskSys/Args, TaskSys/ImplicitSync.
* `src/header.cpp` (1487 lines): 36-260, 265-300, 437-485, 499-542, 863-869, 1036-1078. In Front/Header,
  Front/HeaderProps, Front/IntConst, Front/OutFiles.
* `src/intrinsics.cpp` (679 lines): 29-173, 196-229, 309-416. In Front/Intrinsics.
* `src/isa.h` (318 lines): 10-29, 85-273, 296-307. In Dispatch/Isa.
* `src/ispc.cpp` (3580 lines): 283-305, 461-494, 1177-1183, 1205-2235, 2439-2441, 2895-2954, 3019-3190, 3200-3207,
  3511-3516, 3559-3571. In Builtins/Dot, Builtins/FloatBits, Dispatch/Dispatch, Front/OutFiles, Front/Redeclare,
  Front/Registry, Front/SrcPos, Front/Stride, Front/Targets, TaskSys/Args, TaskSys/ArgsProps.
* `src/ispc.h` (1066 lines): 170-177, 243-282, 940, 979-1009. In Builtins/Div, Front/OutFiles, Front/SrcPos,
  Spmd/Short.
* `src/lex.ll` (1133 lines): 35-38, 292, 309-570, 584-715, 720-743, 747-814, 818-873, 878-917, 921-931, 937-970,
  979-1018, 1025-1040, 1048-1061, 1067-1121. In Front/Literal, Front/LiteralFloat, Front/Operators, Front/OutFiles,
  Front/SrcPos.
* `src/llvmutil.cpp` (2082 lines): 76, 86-110, 120, 210-212, 542-800, 811-868, 872-880, 889-1012, 1019-1166,
  1172-1214, 1223-1256, 1261-1488, 1495-1508, 1539-1673, 1847-1885, 1893-1925, 1930-1951. In Front/Header,
  Front/IntConst, Front/Stride, Opt/Coalesce, Opt/ConstMask, Opt/Element, Opt/GatherToLoad, Opt/Linear, Opt/Offsets,
  TaskSys/Args.
* `src/module.cpp` (2998 lines): 115-139, 586-837, 851-967, 973-1302, 1383-1526, 1878-1896, 1906-1934, 1986-1988,
  2001-2013, 2087-2184, 2241, 2247-2273, 2289-2301, 2360, 2366-2400, 2417-2424, 2436-2444, 2473-2496, 2523-2578,
  2583-2655, 2684-2755, 2768-2791, 2816-2874. In Dispatch/Dispatch, Dispatch/Globals, Front/Export, Front/Instances,
  Front/Mangle, Front/OutFiles, Front/Redeclare.
* `src/module.h` (538 lines): 201-272. In Front/OutFiles.
* `src/opt/GatherCoalescePass.cpp` (1053 lines): 15-36, 44-131, 140-187, 264-270, 276-329, 336-357, 362-380, 384-439,
  447-479, 487-527, 645-710, 718-735, 744-760, 772-841, 848-873, 879-884, 945-1019. In Opt/Coalesce.
* `src/opt/ImproveMemoryOps.cpp` (1765 lines): 63-99, 140-304, 318-474, 479-526, 543-614, 619-671, 679-691, 696-721,
  903, 942-956, 1085-1143, 1148-1158, 1164-1194, 1260-1564, 1575-1701. In Opt/ConstMask, Opt/Element, Opt/ElementSpec,
  Opt/GatherToLoad, Opt/Offsets.
* `src/opt/InstructionSimplify.cpp` (152 lines): 12-106. In Opt/ConstMask.
* `src/opt/IntrinsicsOptPass.cpp` (232 lines): 63-188. In Opt/ConstMask.
* `src/opt/LowerAMXBuiltinsPass.cpp` (254 lines): 19-191. In Opt/AmxTile.
* `src/opt/LowerISPCIntrinsics.cpp` (361 lines): 16-20, 33-85, 91-106, 111-120, 132-146, 186-225, 241-249, 256-266,
  273-277, 282-300, 306-332. In Builtins/Gather, Builtins/MaskBits, Front/Intrinsics.
* `src/opt/PeepholePass.cpp` (324 lines): 35-48, 65-121, 125-153, 157-181, 187-191, 201-208, 214-217, 227-234,
  240-244, 254-304. In Opt/Average.
* `src/opt/ReplaceMaskedMemOps.cpp` (309 lines): 17, 24-63, 67-76, 82-100, 104-118, 130-163, 176-196, 203-238. In
  Opt/ConstMask.
* `src/opt/ReplacePseudoMemoryOps.cpp` (408 lines): 19-28, 33-60, 69-120, 157-178. In Opt/Blend.
* `src/opt/ReplaceStdlibShiftPass.cpp` (99 lines): 26-80. In Opt/ShiftPass.
* `src/opt/ScalarizePass.cpp` (106 lines): 17-86. In Opt/Scalarize.
* `src/parse.yy` (3854 lines): 40-49, 481-533, 1456, 1471-1474, 1837-1908, 1921-1946, 1960-2083, 2094-2149, 2159-2321,
  2393-2412, 2559-2576, 2853-2877, 3247-3259, 3299-3309, 3427-3439, 3479, 3724-3777, 3813-3853. In Front/Declare,
  Front/Instances, Front/IntConst, Front/Literal, Front/Promote, Front/Redeclare, Front/SrcPos.
* `src/preprocessor.cpp` (665 lines): 313-327, 382-440. In Front/Ellipsis, Front/New.
* `src/stmt.cpp` (4406 lines): 56-65, 127-132, 271, 339-341, 492-563, 648-732, 737-852, 857-929, 934-1100, 1165-1345,
  1419-1426, 1446-1453, 1471-2022, 2370-2511, 2588-2767, 2877-2889, 2991-3173, 3195-3223, 3255-3263, 3327-3370,
  3399-3416, 3467-3476, 3527-3579, 3603-3632, 3642-3654, 3698-3706, 3718-3729, 3737-3749, 3755-3772, 3776-3781,
  3801-3827, 3863-3867, 3877-3894, 3913-3960, 3994-4008, 4031-4126, 4168-4249, 4274-4288, 4302-4358. In Builtins/Div,
  Builtins/FloatBits, Builtins/MaskBits, Builtins/Print, Builtins/PrintXe, Foreach/Active, Foreach/Model, Front/Goto,
  Front/Init, Front/IntConst, Front/New, Front/Unmasked, Spmd/Machine, Spmd/Props, Spmd/StoreMask, Spmd/Syntax,
  Spmd/Terminate, TaskSys/ImplicitSync.
* `src/sym.cpp` (427 lines): 29, 49, 69-179, 244-291, 305-314. In Front/Declare, Front/Redeclare, Front/SymTab,
  Spmd/StoreMask.
* `src/sym.h` (365 lines): 319-347. In Front/SymTab.
* `src/target_capabilities.h` (157 lines): 114-123. In Builtins/Dot.
* `src/target_enums.cpp` (1102 lines): 20-43, 343-598, 604-891, 916-1030, 1060-1086. In Front/Registry.
* `src/target_enums.h` (148 lines): 21, 29, 35-133. In Front/Registry, Front/Targets.
* `src/target_registry.cpp` (458 lines): 24-31, 35-37, 56-61, 66-130, 137-147, 153-170, 175-251, 258-292, 346-358,
  388-457. In Front/Registry.
* `src/target_registry.h` (97 lines): 41-65. In Front/Registry.
* `src/type.cpp` (3506 lines): 36-44, 82-101, 129-137, 154-277, 287-314, 363, 390-393, 400, 512-684, 769-770, 788-812,
  878-880, 909-955, 1008, 1048-1050, 1056-1058, 1105-1131, 1168-1179, 1183-1231, 1262-1278, 1325-1332, 1340-1349,
  1353-1397, 1415-1429, 1440-1443, 1454-1460, 1468-1480, 1484-1493, 1543-1547, 1553-1592, 1612-1616, 1620-1694,
  1699-1706, 1724, 1733-1741, 1751-1799, 1835-1849, 1885-1912, 1925-1976, 2010-2019, 2125-2146, 2195-2217, 2371-2380,
  2439-2478, 2493-2516, 2605-2611, 2640-2644, 2686, 2704-2743, 2813-2819, 2954-3041, 3052-3069, 3188-3505. In
  Dispatch/Globals, Front/Aggregate, Front/Const, Front/Declare, Front/Export, Front/FoldScalar, Front/Header,
  Front/Init, Front/InitSpec, Front/Instances, Front/IntConst, Front/Mangle, Front/OpAssign, Front/Overload,
  Front/Places, Front/Promote, Front/Redeclare, Front/Soa, Front/Stride, Front/Templates, Front/Types, TaskSys/Args.
* `src/type.h` (1254 lines): 28-45, 89, 124, 133, 155, 161-164, 168, 172, 374-393, 985-998. In Dispatch/Globals,
  Front/Const, Front/Declare, Front/Export, Front/FoldFloat, Front/Header, Front/Init, Front/InitSpec, Front/OpAssign,
  Front/Operators, Front/PtrOps, Front/Types.
* `src/util.cpp` (636 lines): 319-440, 478-543. In Front/SrcPos, Util/EditDistance.
* `src/util.h` (193 lines): 48-56, 114. In Front/Promote, TaskSys/Args.
* `stdlib/include/core.isph` (1042 lines): 43, 395-397, 484-500. In Builtins/Rng, Dispatch/Globals, Opt/Coalesce.
* `stdlib/stdlib.ispc` (8147 lines): 72-669, 738-740, 762-823, 828-1020, 1057-1093, 1136-1240, 1478-1977, 2170-2347,
  2420-2566, 2647-2686, 2812-2835, 2910-3271, 3330-3374, 5916-5960, 6222, 6633-6859, 7005-7059, 7066-7737, 7958-8146.
  In Builtins/Aos, Builtins/Atomics, Builtins/BitCount, Builtins/Dot, Builtins/FloatBits, Builtins/Half,
  Builtins/MaskBits, Builtins/MemOps, Builtins/Perm, Builtins/Reduce, Builtins/ReduceEqual, Builtins/Rng,
  Builtins/RngPeriod, Builtins/RotTables, Builtins/Rounding, Builtins/Saturating, Builtins/Saturating64,
  Builtins/Scan.

Not modelled at all (headers aside): `src/binary_composite.cpp`, `src/binary_slim.cpp`, `src/builtins-decl.cpp`,
`src/ispc_impl.cpp`, `src/main.cpp`, `src/opt.cpp`, `src/opt/CheckIRForXeTarget.cpp`, `src/opt/FastMath.cpp`,
`src/opt/IsCompileTimeConstant.cpp`, `src/opt/MangleOpenCLBuiltins.cpp`, `src/opt/RemovePersistentFuncs.cpp`,
`src/opt/XeGatherCoalescePass.cpp`, `src/opt/XeReplaceLLVMIntrinsics.cpp`, `builtins/array.hpp`, `builtins/builtins-
cm-32.ll`, `builtins/builtins-cm-64.ll`, `builtins/svml.m4`, `builtins/target-avx10_2-x16-common.ll`,
`builtins/target-avx10_2-x32-common.ll`, `builtins/target-avx10_2-x4-common.ll`, `builtins/target-
avx10_2-x64-common.ll`, `builtins/target-avx10_2dmr-x16.ll`, `builtins/target-avx10_2dmr-x32.ll`, `builtins/target-
avx10_2dmr-x4.ll`, `builtins/target-avx10_2dmr-x64.ll`, `builtins/target-avx10_2dmr-x8.ll`, `builtins/target-
avx10_2nvl-x16.ll`, `builtins/target-avx10_2nvl-x32.ll`, `builtins/target-avx10_2nvl-x4.ll`, `builtins/target-
avx10_2nvl-x64.ll`, `builtins/target-avx10_2nvl-x8.ll`, `builtins/target-avx2-i32x16.ll`, `builtins/target-
avx2-i32x4.ll`, `builtins/target-avx2-i32x8.ll`, `builtins/target-avx2-i64x4.ll`, `builtins/target-avx2vnni-i32x4.ll`,
`builtins/target-avx2vnni-i32x8.ll`, `builtins/target-avx512fp16-x16-common.ll`, `builtins/target-
avx512fp16-x32-common.ll`, `builtins/target-avx512fp16-x4-common.ll`, `builtins/target-avx512fp16-x64-common.ll`,
`builtins/target-avx512fp16-x8-common.ll`, `builtins/target-avx512gnr-x16.ll`, `builtins/target-avx512gnr-x32.ll`,
`builtins/target-avx512gnr-x4.ll`, `builtins/target-avx512gnr-x64.ll`, `builtins/target-avx512gnr-x8.ll`,
`builtins/target-avx512icl-x16-nozmm.ll`, `builtins/target-avx512icl-x4.ll`, `builtins/target-avx512spr-amx-utils.ll`,
`builtins/target-avx512spr-x16.ll`, `builtins/target-avx512spr-x32.ll`, `builtins/target-avx512spr-x4.ll`,
`builtins/target-avx512spr-x64.ll`, `builtins/target-avx512spr-x8.ll`, `builtins/target-gen9-x16.ll`,
`builtins/target-gen9-x8.ll`, `builtins/target-neon-i16x16.ll`, `builtins/target-rvv-x4.ll`, `builtins/target-
vsx-i16x16.ll`, `builtins/target-vsx-i16x8.ll`, `builtins/target-vsx-i32x4.ll`, `builtins/target-vsx-i32x8.ll`,
`builtins/target-vsx-i8x16.ll`, `builtins/target-vsx-i8x32.ll`, `builtins/target-xe2hpg-x16.ll`, `builtins/target-
xe2hpg-x32.ll`, `builtins/target-xe2lpg-x16.ll`, `builtins/target-xe2lpg-x32.ll`, `builtins/target-xehpc-x16.ll`,
`builtins/target-xehpc-x32.ll`, `builtins/target-xehpg-x16.ll`, `builtins/target-xehpg-x8.ll`, `builtins/target-
xelp-x16.ll`, `builtins/target-xelp-x8.ll`, `builtins/target-xelpg-x16.ll`, `builtins/target-xelpg-x8.ll`,
`stdlib/include/amx.isph`, `stdlib/include/builtins.isph`, `stdlib/include/short_vec.isph`,
`stdlib/include/stdlib.isph`, `stdlib/include/svml.isph`, `stdlib/include/target.isph`, `ispcrt/ispcrt.isph`,
`ispcrt/detail/cpu/ispc_tasking.cpp`. Most files of builtins/ named after a target only instantiate macros of
`builtins/util.m4`, which is modelled.

Not modelled within the files above: emission of debug information; error message texts (except edit distances and
which of several diagnostics is given where a claim says so); the AST dump; the clang based preprocessor; name lookup
in the LLVM backend; the numerical kernels of the mathematical library (sin, exp, pow, …) and floating point
arithmetic beyond what the claims on folding, rounding, remainders and half floats need; SVML; AMX tiles; the LLVM
pass pipeline itself, code generation and linking by LLVM; Level Zero and operating system calls, of which only the
contract is assumed.

## Plan per property

| id | model | proof |
|----|-------|-------|
| C01 | statement language, mask machine following ctx.cpp/stmt.cpp (`Spmd`), serial one-instance evaluator as spec | simulation by induction on fuel/statement; termination by induction on the height of the serial derivations of all active instances (`Spmd/Returns.lean`), with a syntactic check that code reached with all instances off ends |
| C02 | same machine | induction: off lanes unchanged |
| C03 | same machine | induction: mask equation after each statement |
| C04 | same machine, flags erased | corollary of C01 both sides + determinism |
| C05 | same machine with uniform effects; safety analysis of ast.cpp | induction |
| C06/C07 | foreach counters/masks as the generated loop computes them (`Foreach`) | loop invariant, induction on dimensions |
| C08/C09 | movmsk/cttz loops (`ForeachActive`) | well-founded induction on remaining mask |
| C10 | part of `Spmd` | simulation |
| C11 | lHasVaryingBreakOrContinue and the ctx.cpp break/continue decision | structural induction |
| C12, C43 | expressions with effects, `EstimateCost`, `SafeToRunWithMaskAllOff`, `lEmitLogicalOp`, `SelectExpr::GetValue`, assignments and increments | a per-instance C semantics and a gang semantics; the emitted code simulates the second, which simulates the first, by induction on the expression |
| C13 | the loop of `CallInst` over distinct function pointers, with `__movmsk` and `cttz` on 64-bit words, over arbitrary functions | equality with a fold over the distinct functions of the active instances, by induction on the remaining ones |
| C14 | byte-addressed memory in which an access may fault; the gathers, scatters, masked loads and stores of `util.m4`/`generic.ispc` as loops over instances; their replacement by vector loads and stores in `ImproveMemoryOps`; the coalescing of gathers (C46) | refinement to a lane-by-lane specification of values, bytes touched and faults; paged memory where a wide load reads between active instances |
| C15-C17 | generic.ispc functions over `Fin n -> a`; for C17 also the shuffle networks of util.m4 as tables; for C16 also the replacement of shifts by constants | induction over lanes; a network does not look at its elements, so one symbolic run of each decides it for all data |
| C18/C19 | LOCAL_ATOMIC and generic global atomics | induction over lanes, counterexamples |
| C20/C21 | BitVec transcriptions | integer arithmetic |
| C22/C23 | dispatch function, ISA detection | invariant over interleavings, case analysis |
| C24 | tasksys transition system; infinite runs of it, with weak fairness per thread | inductive invariant; a measure of the work left that every step lowers except asking for more and turning in `sync`, and a youngest busy activation |
| C25/C26/C27 | tasksys arithmetic, bump allocator, free list | arithmetic, invariant over histories, counterexample run |
| C28 | sym.cpp scope stack with recycled maps, types, functions | induction over histories, refinement to a stack of maps |
| C32 | `UnaryExpr/BinaryExpr/SelectExpr/TypeCastExpr::Optimize` with the templates they use, in C++ arithmetic with promotions and undefined cases, and the instructions emitted without folding; rounding of rationals to the formats | lane by lane agreement per operator and type, then induction on typed expression trees; exact description of the compiler's undefined cases |
| C33 | types with size, alignment and `soa<w>` version, `GetElementPtrInst`, `lComputeSliceIndex`, `AddElementOffset`, `ApplySliceOffset`, the lvalue expressions that call them and pointer arithmetic, on machine words | a recursive specification of where an element lies, disjointness by induction on the type, agreement of the address arithmetic by induction on the path |
| C34/C35 | stdlib loops | induction over lanes |
| C36 | IntrusivePtr machine | invariant over histories |
| C37 | DP table | induction, equality with recursive Levenshtein spec |
| C38 | RNG step | bitvector facts, induction over draws |
| C39 | half/float bit code, float multiply/subtract as parameters with IEEE assumptions (`Ieee`) | arithmetic on patterns |
| C40 | the target table and its parent map (generated from `src/builtins.cpp`), linking of one library by need, the loop up the parent chain | induction over the chain; the table by cases |
| C42 | emission pass threading `launchedTasks`, runs of the emitted code | induction over statements and runs, counterexample |
| C41 | RNG words as linear maps over GF(2) | matrix powers evaluated by the kernel, prime divisors of the period |
| C22 | `lCreateDispatchFunction` with its walk and compatibility test, `__get_system_isa`, the two caches with any number of threads under coherent and unordered memory | case analysis over levels with `decide` on the finite table of needs; invariant over executions |
| C23 | `get_x86_isa`, `get_x86_has_amx` on any CPUID/XCR0 report; features by their documented CPUID positions | the nested tests are the first condition in the order of levels; conditions are equivalent to feature reports |
| C29 | the type classes with their queries, `CheckTypeEquality`, `MoreGeneralType` with its recursive calls | mutual induction over types; table of value sets of the number types as dyadic rationals |
| C30 | `Mangle` of every type class, `TemplateArg::Mangle`, `GetFunctionMangledName` | a reader of mangled names is a left inverse up to erasure, by mutual induction over types |
| C31 | `lDoTypeConv` without an expression, `lIsMatchWithTypeWidening`, `computeOverloadCost`, `FindBestMatchCost`, `ResolveOverloads` | the fold computes a minimum; matches are a filter, so permutations carry over; bound on the cost for the sentinel; table of values for widening |
| C45 | `LLVMVectorValuesAllEqual` and `LLVMVectorIsLinear` on data-flow graphs with phis and casts, over a small-step semantics of the graph | soundness by induction on the depth of the query over all runs, under stated conditions; a run that contradicts the answer for each condition left out |
| C46 | `GatherCoalescePass`: choice of the loads, splitting, the three ways of putting a 4-wide vector together, concatenation by gang size, extraction of the constants, formation of the groups in a block | the set of offsets is covered by disjoint loads (induction on the set), the assertions hold (invariant over the loads), each lane has its element (refinement to the lane-by-lane gather in paged memory); counterexamples where a condition is missing |
| C44 | `ImproveMemoryOps`: vector expressions with poison, splitting into constant and variable part, extraction of the scale, base and offsets, choice of 32-bit offsets, the later move of constants; `applyVaryingGEP` | by induction on the expression the parts add up when no cast sees an overflow, and modulo 2^m otherwise; composition with the lane-by-lane semantics of gathers and scatters; counterexamples where the code does not check for overflow |
| C48 | `PeepholePass`: expression trees of any shape, the matchers, the order of the functions, the test for an intrinsic; `pavg` | inversion of the matchers, value of the sum in the doubled width; counterexamples for the constants that `isIntN` lets through |
| C47 | constant masks with undefined elements, their classification with the gang's width, the replaced operations, the merge by shuffles of `ReplaceMaskedMemOps` | the result is that of the operation with one of the masks the constant stands for; induction on the doubling loop of the merge; counterexamples for long masks, undefined elements, prefixes of three |
| C49 | the choice between masked store and load-blend-store over types with their layout and pointer expressions; the blends of the target files as shuffles | a vector in a variable is described by an inductive relation; induction on it shows what the search finds there; witnesses where it does not hold |
| C50 | lParseInteger, lParseBinary, lEscapeChar, lStringConst on lists of characters; lParseHexFloat and ipow2 over an exact model of IEEE doubles as rationals with rounding | induction on the digits and on the pieces of a string; the rounding is proved to be to nearest, the mantissa and the powers of two are proved exact |
| C51 | PrintStmt, __do_print and the GPU code for print; buffers are lists of fixed length with any contents, a write beyond them is an outcome of its own; snprintf writes what the C standard says | induction over the lanes and over the format with what has been written as invariant; the slices by induction on the format |
| C52 | round_up_pow2, Bulk, ChunkedPool and MemoryView of the GPU runtime, and how views are made; Level Zero is a function that answers requests, assumed to hand out fresh memory | an invariant over all histories of calls: chunks in use are those of the views, hunks are apart, lists hold all bulks of a size |
| C53 | Event, EventPool, CommandList, CommandQueue and TaskQueue of the GPU runtime as a transition system whose actions are the calls of the application and the commands that start and end on the device; Level Zero keeps events and barriers and nothing else | an invariant over all histories; for the negative half of `sync_safe_iff` a schedule of the device is constructed for any set of commands closed under what they wait for |
| C54 | `dot4add_*` and `dot2add_*`: the portable code on bit vectors; the builtins with their macros that cut a vector into registers; the instructions as their manuals define them | arithmetic on the packed elements; the lanes of a cut vector |
| C55 | types as trees, initialisers as trees of expressions over an abstract state; `InitSymbol` with its path for constants and its path for short vectors; `SizeUnsizedArrays` | the specification is a relation that reads the list left to right; mutual induction over initialisers |
| C56 | types as trees with unbound variability; the LLVM type with its layout and the C declaration with its layout, each giving the list of all scalars with path, instance and offset; the order in which structs are declared; guards; the header of several targets | equality of the two lists by mutual induction over the types; the order by the invariant that every prefix is closed under members |
| C57 | the sizes of the two LLVM types of a type, `getelementptr` and `applyVaryingGEP` on bit vectors, the conversions of indices, pointer arithmetic and differences | case analysis over types and widths; bit vectors through the integers they denote |
| C58 | a heap of blocks and an arbitrary allocator under a contract; the loops over program instances of `__new_varying*` and `__delete_varying*`, initialisers, the number of bytes and the alignment asked for | invariant of the loop over program instances; elements by C57 |
| C59 | `gather`, `scatter`, `maskedStore` and `StoreInst` as lists of accesses to scalars of types of C56, on a memory of bytes; the representation of `bool` in the result of a gather | mutual induction over types and members; the scalars of the layout are sorted, so no two overlap; last write wins |
| C60 | the functions of the standard library on bits of floating-point numbers, for the three formats, on bit vectors; values of bit patterns as in IEEE 754, arithmetic exact with rounding (C32's) | sign, exponent and fraction of every mask operation from its bits; case analysis on the new exponent before it is reduced; for `fmod` by a power of two all intermediate results are numbers of the format |
| C61 | `round`, `floor`, `ceil` and `trunc` on bit vectors for the five families of targets: additions of a large constant with IEEE rounding (C32's), the C library, rounding instructions with their immediate operand, and the shifts of `trunc` on Xe with poison as a result of its own | the first addition rounds to an integer as the spacing of the format there is one; the subtraction is exact; the documented integer is specified by inequalities and shown unique; the sign, exponent and fraction of each bit operation |
| C62 | LLVM values in little-endian memory addressed by bits, with data layout, padding and `store`/`load`; the block of arguments as `LaunchInst` fills it and the task reads it, in the types of registers and of memory; `ISPCAlloc` from C26's model; the masks of a function context | memory that has the bits of a value loads as the value (mutual induction over types); a value writes no bit beyond its size; blocks are disjoint (C26), so an invariant over histories of launches; two lanes that refute `bool` for every width of the mask but eight |
| C63 | the values of `threadIndex` and `threadCount` on top of the transition system of C24: workers are numbered in the order of their creation, a thread that waits in `Sync` passes 0 and 1 | ranks of workers are injective, and an activation waits for at most one callee (invariant of C24); a run of fourteen steps for any number of threads refutes uniqueness |
| C64 | the look-up of `@llvm.ispc.*` names, the mangled types in the declared names, the functions of the module, the pass that replaces the calls, and the vector instructions that it makes | mangled types are read back by induction; names are taken apart at the last dots for arbitrary texts; the module by induction over the sequence of calls; lanes by list extensionality |
| C65 | the types of expressions that name objects, the conversions of pointers and references, the checks on assignments and `++`, and a machine that runs accepted statements | an invariant of the machine (each address in memory leads to an object of which the base type of the pointer is a view), by induction over expressions and histories; the check on structs by induction over the nesting of structs |
| C66 | `GetValue` and `GetLValue` of each kind of expression: which of the two they call on their operands, in which order and how often | mutual induction over expressions and argument lists: bounds on the number of effects, a permutation for tame expressions, and the converse by counting |
| C67 | `AssignExpr::TypeCheck` and `lEmitOpAssign` next to `BinaryExpr::TypeCheck` and `GetValue`, on all scalar types with the instructions of C32 | cutting bits off is a homomorphism of the operations that only look at low bits; the other cases by the common type |
| C68 | `lEmitBinaryCmp` on pointers, the pointer case of `AssignExpr::TypeCheck` and of `lEmitPrePostIncDec`, on the address computations of C57 | signed order of addresses against the order of the numbers of the elements; the steps reduce to C57 |
| C69 | `VectorMemberExpr`, `MemberExpr::GetValue` and `GetLValue`, `IndexExpr` on short vectors, values or memory behind uniform and varying pointers, in cells of one element | the address that each element is loaded from, case by case; writing by induction over the instances |
| C70 | `lMaskForSymbol`, `lStoreAssignResult`, `GetBaseSymbol`, the mask part of `StoreInst`; the machine of C01 with the unmasked stores of one variable | lockstep of the masked and the unmasked machine, by induction on fuel over all statement forms, with a set of instances on which the variable still agrees that shrinks at the depth of the declaration; case analysis on the symbol |
| C71 | the declarator rules of the grammar, `InitFromType`, `lApplyTypeQualifiers`, `DeclSpecs`, `ResolveUnboundVariability`, `GetVariableDeclarations` | a relation “if the name has this type, the expression written like the declarator has that one” and a place-by-place description of qualifiers and defaults; equivalence with the code by mutual induction over declarators and parameter lists |
| C72 | `ArgFactory::GetNextArg`, `lAddArgsFromFactory`, `lAddSingleArg`, `GetAllArgs` | an inductive description of words separated by white space, one with quotation marks, and one of nested files; equivalence by induction over the text and over the nesting |
| C73 | `GetLValue`, `GetLValueType`, `GetValue` and `GetType` of the expressions that denote memory, `lAddVaryingOffsetsIfNeeded`, `LoadInst`, `StoreInst` | two mutually inductive relations, which object an expression denotes and where its value points, that do not mention variability of pointers; agreement with the emitted addresses by mutual induction over derivations |
| C74 | `lGetConstantIntOrSymbol` and its uses, `lFinalizeEnumeratorSymbols`, `lCreateEnumType`, `lEmitEnumDecls`, `SwitchStmt::TypeCheck`, `lSwitchASTPreVisit`, the comparisons of `EmitCaseLabel`, `EmitDefaultLabel` and `SwitchInst` | constants as integers, enumerators and labels of C as separate definitions over integers; induction over the lists |
| C75 | `lDeduceParam`, `lCheckDeductionCompatibility`, `lDeduceVectorParams`, `getCandidateTemplateFunctions`, `ResolveDependenceForTopType`, `VectorType::GetCountString` | parameter types as trees, a map of template arguments; which part of an argument faces which parameter, the documented table and when an argument fits are separate relations; the merging of deductions is characterised for whole lists (first of the varying types, all equal up to variability), then induction over parameters |
| C76 | `LookupInstantiation`, `AddInstantiation`, `AddSpecialization`, `MatchFunctionTemplate`, `AddFunctionTemplateInstantiation`, `AddFunctionTemplateSpecializationDeclaration`/`Definition`, `FunctionTemplate::GenerateIR` | a file as a sequence of calls, explicit instantiations and specializations, the list of instances as state, bodies as the instances they ask for; the depth of nested instantiations is bounded by a number that is quantified over. Which body the file gives for given arguments is a separate relation; invariant over the items of the file |
| C77 | `Module::AddGlobalVariable`, `Module::AddFunctionDeclaration`, `Module::AddFunctionDefinition`, `SymbolTable::LookupFunction`, `SymbolExpr::Optimize`, the default arguments of `FunctionCallExpr::GetValue` | one name of the global scope as a state machine: the variable with its memory and its compile time value, the list of functions with their bodies; reads fold or load, calls keep the function and the number of arguments, and get their default values from the state at the end of the file. What the file says is read off the sequence of events by separate functions; invariant over the events, and a characterisation of the accepted sequences |
| C78 | `lValuesAreEqual`, `lIsFirstElementConstVector`, `LLVMFlattenInsertChain`, `lExtractFirstVectorElement`, the broadcast case of `lGetBasePtrAndOffsets` | functions in SSA form over arbitrary control flow graphs, with dominance by paths and an execution semantics in which phis are assigned at the edges; the functions as recursive functions with a depth bound (the theorems hold for every bound) and a result for failed assertions; a successful comparison gives a relation closed under taking values apart, which induction over executions and over operands shows to be equality; extraction is a simulation between vectors and scalars, with the well formedness of the new function proved | partial |
| C79 | `Module::AddGlobalVariable` (several targets), `lExtractOrCheckGlobals`, `lCompatibleTypes`, `lUpgradeGlobalVariableAlignment`, `resetGlobalInitializers`, `restoreGlobalInitializers`, the flag `isNotValidForMultiTargetGlobal`, the loop of `Module::GenerateDispatch` | a source is a list of declarations with types (nested inductive) and initialisers as functions of the gang size; each module is a list of globals with lowered types; the dispatch module is computed as in the code, with a result for a failed assertion; a machine with storage by names, sizes, alignments and constness runs histories of calls and accesses; the linked program refines the program of the chosen target | partial |
| C80 | `lRecursiveCheckValidParamType`, `lCheckExportedParameterTypes`, `lCheckForStructParameters`, the checks of exported functions in `Module::AddFunctionDeclaration` | types are trees with the variability that is written; the specification is the relation between a type and its components, reached with or without pointers, and the form of the data as a function of the gang size; mutual induction over types | partial |
| C81 | `__movmsk`, `__any`, `__all`, `__none` of all targets, `any`, `all`, `none`, `popcnt`, `lanemask`, `packmask`, `AssertStmt::EmitCode`, `__do_assert_uniform`, `__do_assert_varying` | a mask is a vector of words; one definition for each target, with its instructions and constants; the specification is which lanes are not zero; proofs by comparing bits, for the sums of ARM by cases of the eight lanes of a half | partial |
| C82 | `reduce_min`, `reduce_max` and `reduce_add` of all types, `min`, `max`, `clamp`, with the `reduce4` to `reduce64` macros, the horizontal additions of SSE and AVX and the code of generic.ispc | one definition for each sequence of instructions; lanes of a shuffle that are not given are poison; the specification says of a result that it is made of the lanes' values, each used once (an inductive relation); the halving macros by an invariant over the lanes that are equal modulo the width left, then choices and exact sums by induction over that relation | partial |
| C83 | the line and column counting of the lexer: comments, pragmas, line markers, blanks, tokens of any length; `turnOffWarnings`; `Error`, `Warning`, `PerformanceWarning`; `Union` of positions; `#pragma unroll` | a step function over the text with the matcher for tokens as a parameter; the place of a character is specified by counting new line characters; induction over steps of the lexer and over the list of messages; the grammar of the pragma in both directions | partial |
| C84 | `ParseISPCTarget`, `ParseISPCTargets`, `ISPCTargetToString`, `ParseArch`, `ParseOS` and the classes of targets; `Triple::encode`; the constructor of `TargetLibRegistry` and its look-ups with aliases; the support matrix and the lists of what is supported; the map of standard libraries | texts are lists of characters; the registry is the fold of its loop over an arbitrary list of libraries; a library is specified to be the last registered one that serves the combination; names are compared for every target by evaluation in the kernel, texts and lists by induction | partial |
| C85 | `count_leading_zeros`, `count_trailing_zeros` and `popcnt` for 32 and 64 bits, uniform and varying, in the native, generic and GPU code, with the loop over the instances and the select on the mask; `abs` of integers; the overloads of `popcnt` | instructions as functions of the list of bits; the counts are specified by what the bits at, below and above a position are; the GPU code for 64 bits by cases on its halves; loops by induction; overloads with the model of C31 | partial |
| C86 | the names of the files for each target, the check of the list of targets, the writes of a compilation for several targets and of its dispatch, the registration of dependencies and both formats of dependency files | names as lists of characters; a compilation gives the list of its writes with symbolic contents; membership in this list by induction over the targets; make rules against a small reader of rules | partial |
| C87 | the names of operators, the names the lexer accepts, the lookup of operator functions and the type checks of unary, binary and assignment expressions that use it | on top of the overload resolution of C31; case analysis over operators, and the theorems of C31 for what is called | partial |
| C88 | both forms of `reduce_equal` in the standard library and the stores of the three versions of the builtin, on memory of bytes | on top of the reductions of C15; case analysis on the result | partial |
| C89 | the whole pass that replaces vector operations on one element by scalar ones, with the deletion of dead instructions, on blocks of LLVM instructions with poison, undefined values and undefined behaviour | invariant of the traversal: the results of a block without undefined behaviour are kept, deleted instructions are unused | partial |
| C90 | `LowerAMXBuiltinsPass.cpp`: the search for the store that reaches a load, the check of the tile, the choice of the instruction, on control flow graphs with an execution relation | invariant of executions along chains of single predecessors; induction on the search | partial |
| C91 | `lFixDotDotDotSpacing` on texts cut into pieces, with its offsets, and the preprocessing numbers of the C standard | induction on the pieces with the copied prefix as invariant; minimality of the place found by induction on the search | partial |
| C92 | the emission of `goto`, labels, `if`, loops and `foreach`: which blocks of labels are filled and jumped to | structural induction over statements for every start of emission | partial |
| C93 | the emission of `unmasked`, uniform `if` and loops, `return`, `break`, `continue` and stores with the mask of the function that the compiler keeps, and the effect of the emitted code | structural induction: emission restores the state and the code has the specified effect | partial |

Floating point *arithmetic* is not modelled beyond bit patterns and the needed comparison facts, so any claim
about the numerical accuracy of the math library (sin, exp, ...) is out of scope: no model of IEEE rounding of
those kernels is attempted.

## Findings in the code

Each is a theorem with a concrete witness, except those marked *read only*, which come from reading the source and are
not (yet) in the model.

1. `saturating_mul(uint64, uint64)` does not saturate to UINT64_MAX when a cross product overflows.
2. `__swap(uniform double a, uniform double b)` returns `a - b`, so `atomic_swap_local` on doubles stores a difference
   (`Atomics.swapDouble_not_swap`).
3. generic `__atomic_and_int{32,64}_global` performs a subtraction (`Atomics.andGeneric_subtracts`); generic
   `__atomic_sub_int32_global` returns the negated old value and the int64 one is wrong for two active lanes.
4. generic `__atomic_cmpxchg_v` is `unmasked`: inactive instances perform the exchange
   (`Atomics.cmpxchgGeneric_inactive_writes`).
5. tasksys `AllocTaskGroup` tests the CAS result for null only, so one group can be handed out twice
   (`FreeList.two_owners`).
6. tasksys launch of zero tasks leaves an empty group on the active list; the next worker that looks at it fails an
   assertion or takes the last element of an empty vector (`Sched.empty_launch_crash`).
7. `foreach_unique` on a NaN value never terminates.
8. multi-dimensional `foreach` with an inverted inner range runs its body once with an empty mask.
9. A `break` compiled to a direct jump in a varying loop drops the instances that did a varying `continue` in the
   same iteration (`Spmd.break_after_varying_continue_loses_lanes`).
10. A loop with a uniform condition, left by `return`, inside a varying `if`: the gang never finishes
    (`Spmd.gang_hangs_where_serial_returns`).
11. A cheap `if` whose body is a loop with a uniform condition may be predicated, and then loops for ever with no
    active instance (`Spmd.predicated_loop_hangs`).
12. The mask check at a `case` label looks at the internal mask only, so an instance that is off in the caller can
    make a `case` with uniform side effects run (`Spmd.switch_case_runs_for_inactive_instance`).
13. `reduce_equal` with no active instance reads lane 64 of the vector (poison) where the documentation promises `false`
    (`Scan.reduce_equal_empty_mask_poison`).
14. generic and util.m4 `__shift` read outside their three-gang array when the offset exceeds one gang
    (`Perm.shift_out_of_bounds`); `__shift_via_shuffle` is right for every offset.
15. `atomic_subtract_global` of a gang through util.m4 (sse, avx1, avx2-i8/i16, avx512, wasm) subtracts
    v0 - v1 - ... : the second and later active instances' operands are added (`Atomics.subM4_not_serial`,
    `Atomics.subM4_single_lane_adds`).
16. `atomic_min_global`/`atomic_max_global` with a varying operand return the same old value to every instance, which no
    order of the operations explains (`Atomics.minGlobal_not_serial`).

17. Dividing a varying integer by the compile-time constant -1 (a splat divisor) ignores the execution mask, so the result is
    undefined when an *inactive* instance happens to hold the smallest integer (`Div.constant_minus_one_inactive_undefined`).
    With a variable divisor the code divides only for active instances (`Div.variable_minus_one_defined`).
18. `if (c) x /= y;` is turned into predicated code, because `lCheckAllOffSafety` rejects `/` and `%` but not `/=` and `%=`.  When
    no instance takes the branch, the division runs `foreach_active` with an empty mask, which is undefined
    (`Div.predicated_div_assign_undefined`).

19. `seed_rng(state, 0)` leaves three of the four words of the generator dead, so the stream has period 2^29 - 1 instead of about
    2^113 (`RngPeriod.seed_zero_short_period`); `examples/cpu/aobench` gives instance 0 that seed in the rows starting at 0.
20. `ISPCAlloc` computes the size of a new buffer as an `int`: a request of 2^32 bytes gets a buffer of 4096 bytes, and the
    next request overlaps it (`Alloc.oversize_overlap`).  More than 16 buffers stop the process.
21. A `return` inside a loop that comes before the function's first `launch` in the text is compiled without the
    implicit `sync`, although it may run after the launch: the function returns with its tasks still running
    (`ImplicitSync.missing_sync`).
22. *read only*: `AllocMemory` leaks the buffers made before a `Reset`; the destructor of a task group does not free the chunks
    of task records.

23. Move assignment of ispcrt handles (`IntrusivePtr` and `GenericObject`) overwrites the old pointer without dropping
    its reference: the old object is never destroyed (`RefCount.move_assign_leaks`).
24. Copy assignment of `GenericObject` also leaks the old object, even on self-assignment (`RefCount.copy_assign_leaks`).
25. Copying an empty `GenericObject` calls `ispcrtRetain(nullptr)`, which dereferences null (`RefCount.copy_of_null`).
26. The CPU `TaskQueue` destructor `delete`s its futures although handles may still count on them; the handle's own
    destructor then uses freed memory (`RefCount.queue_deletes_live_future`).
27. A builtin that only a parent target's code refers to is linked from the parent even if the target has its own
    version (`Link.parent_bypasses_target`): the target's library is linked first, when nothing refers to it yet.
    *Read only*: a builtin defined by an intermediate target but not by the root is not in the set of symbols that keeps
    the loop going, so it may stay unresolved.
28. The dispatcher treats every AVX-512 machine as able to run the AVX2-VNNI variant, since the variants are ordered
    by number: on a Skylake or Ice Lake server (no AVX-VNNI) a program compiled for `sse4` and `avx2vnni` has the
    `avx2vnni` variant called (`Dispatch.vnni_variant_on_skylake`).
29. A machine of the Nova Lake level that has tiles but not all of Granite Rapids is given the Granite Rapids variant
    (`Dispatch.nova_lake_with_tiles`).
30. On a Knights Landing machine the program is terminated although a compiled variant could run
    (`Dispatch.knights_landing_terminates`).
31. The dispatch function loads its cached pointer twice with `unordered` atomic loads; LLVM allows the second one to
    yield null after the first did not (`Dispatch.unordered_null_call`). On real hardware, whose memory is coherent,
    this cannot happen (`Dispatch.never_null`).
32. `get_x86_isa` claims AVX2-VNNI without testing AVX2 (`Detect.vnni_without_avx2`) and reads leaf 7 without testing
    that it exists (`Detect.leaf_not_checked`). *Read only*: what it calls `max_level` is the processor signature
    (leaf 1), compared with decimal 24 where leaf 0x24 is meant.
33. The documented precedence puts `int32` and `uint32` above `float16` (docs/ispc.rst:3052-3053); the compiler puts
    `float16` above both, so `int32 + float16` is computed in `float16` (`Promote.float16_beats_int32`).
34. The `const` of the data pointed to by the common type of two pointers is that of the first operand, so `c ? p : q`
    can drop it (`Promote.const_depends_on_order`).
35. A short vector of an enum type, which the grammar accepts for a struct member, stops the compiler with a failed
    assertion when combined with a scalar of the same enum type (`Promote.enum_vector_crash`).
36. Symbol names leave out the `const` of a pointer parameter, the result type of a function pointer, and the identity
    of an anonymous enum, so overloads that the compiler accepts as different share one symbol;
    `AddFunctionDeclaration` (src/module.cpp:1267-1274) then silently gives the second overload the first one's
    function (`Mangle.const_pointer_collision`, `function_pointer_collision`, `anonymous_enum_collision`).
37. Names that contain the separators `_5D_` or `___` can produce the symbol of another function
    (`Mangle.struct_name_collision`, `Mangle.template_collision`).
38. A function that matches a call exactly is not called if two template instances, both worse, have equal costs: the
    call is an error (src/expr.cpp:10109, `Overload.exact_match_rejected`).
39. The documented order of conversions (docs/ispc.rst:4757-4761) is not the one of the code for steps 2 to 5, so
    `f(const int)` is preferred to `f(int &)` for an `int` (`Overload.const_beats_reference`,
    `documented_order_2_to_5`); the documented ambiguity is only a warning (`documented_ambiguity_compiles`).
40. The conversions overload resolution ranks as losing no information include sixteen that do, such as `int32` to
    `uint32` and `uint16` to `float16`, and leave out `int32` to `double` (`Overload.lossy_widens`,
    `int_to_double_not_widening`).
41. A call with 105 or more arguments that need a conversion and a broadcast is reported as having no match, because
    its cost reaches the value that stands for no match (`Overload.many_arguments_rejected`); with 148 the `int`
    overflows. The comment on `costScale` (src/expr.cpp:9820-9824) is false (`Overload.classes_overlap`).
42. Negating a varying `uint16` constant, as in `-(varying uint16)1`, fails an assertion in the compiler: the branch
    for `uint16` compares with `VaryingUInt32` (src/expr.cpp:1439-1440, `Fold.negate_varying_uint16_crashes`).
43. `&&` and `||` of a uniform and a varying constant, as in `true && (varying bool)false`, fail the assertion at
    src/expr.cpp:2779, because type checking keeps the variabilities apart (`Fold.mixed_logic_crashes`).
44. A cast of a 64-bit integer constant to `float` is folded through `double` and rounded twice:
    `(float)1152921573326323713` is folded to `2 ^ 60`, the same cast at run time gives `2 ^ 60 + 2 ^ 37`
    (src/expr.cpp:6542-6544, `Fold.folded_cast_differs`).
45. The compiler folds in C++ arithmetic that is undefined where the generated code is not: left shifts of negative
    constants, products of two `uint16` constants reaching `2 ^ 31`, and overflows under `--wrap-signed-int`
    (`Fold.fold_undefined_iff`).
46. A member that is an array of arrays (or of short vectors) of a `soa<w>` structure is addressed wrongly: after
    `[i]` the pointer is a slice that is not frozen, so the second index moves to another element, and `a[1].m[0][1]`
    is the storage of `a[2].m[0][0]` (`IndexExpr::GetLValueType`, src/expr.cpp:5304-5319,
    `Soa.member_matrix_aliases`).
47. In an array of arrays of `soa<w>` structures, `a[0][1]` and `a[1][0]` are the same storage
    (`Soa.array_of_arrays_aliases`).
48. `&a[0].y[1] + 1`, with `y` an array member of a `soa<w>` structure, is `&a[1].y[1]` and not `&a[0].y[2]`
    (`Soa.member_pointer_steps_over`).
49. The index of a slice pointer is added to the slot in the type of the index: `p[0x7fffffff]` with an `int32` index
    wraps if `p` is not at slot 0 (src/ctx.cpp:2241-2273, `Soa.index_sum_wraps`).
50. `a && (x = 5)` with varying `a` assigns also for the instances where `a` is false: an operand that is cheap and
    "safe to run with the mask all off" is evaluated under the mask of the whole expression (src/expr.cpp:2014-2043),
    although docs/ispc.rst:5334-5340 says that the optimisation makes no visible difference
    (`Short.assignment_runs_anyway`).
51. `d != 0 && (x /= d) > 0` divides by zero: `lCheckAllOffSafety` knows the operators `/` and `%` but not `/=` and
    `%=`, and their cost is within the threshold (`Short.guarded_division_by_zero`).
52. `x[i++]++` evaluates `i++` twice: `lEmitPrePostIncDec` asks for the lvalue and for the value of its operand
    (src/expr.cpp:1223-1225, `Short.increment_evaluates_index_twice`).
53. (`src/llvmutil.cpp`) `lAllDivBaseEqual` rounds `maxMod` up to a power of two instead of `maxMod + 1`: with a gang
    of 4, `a[(i + 1) & 7]` and `a[(i + 1) >> 3]` in a `foreach` are taken for one aligned run of elements or one
    element although the lanes cross a multiple of 8. `ring_index_wrong`, `ring8_index_wrong`, `blocked_index_wrong`.
54. (`src/llvmutil.cpp`) the constants of an addition are divided with C++'s truncating division, so that -1 and 0
    have the same quotient: `(i + programIndex - 1) >> 3` on 64-bit integers is taken for uniform.
    `blocked_negative_wrong`.
55. (`src/llvmutil.cpp`) one list of visited phis serves the queries for equal values, for equal quotients and for
    linearity, and it does not record the stride: `j = programIndex; a[j >> 3]; j++` is taken for uniform and `a[j]; j
    = n - j` and `a[j]; j = (j + 1) & 7` for linear. `shifted_phi_wrong`, `mirror_phi_wrong`, `ring_phi_wrong`.
56. (`src/llvmutil.cpp`) `lVectorIsLinear` looks through every cast: an index computed in 8 bits that wraps around
    within the gang is taken for linear. `narrow_index_wrong`.
57. (`src/llvmutil.cpp`) `lIsExactMultiple` asserts that the addend of a phi is a constant it can extract: `j +=
    programIndex; a[j >> 3]` stops the compiler with a failed assertion. `accumulate_assertion`.
58. (`builtins/util.m4`, factored gathers) instances that are off read the element at the base pointer: a gather with
    no instance on reads memory, and faults if the base is not readable. The comment in the source states it as a
    requirement on the base; a user-level null base pointer with the whole gang off meets the code path.
    `gather_factored_reads_base`.
59. (`src/opt/ImproveMemoryOps.cpp`, `lGSToLoadStore`) a gather with equal offsets becomes an unconditional scalar
    load: it reads the element of instance 0 even when every instance is off. `broadcast_reads`.
60. (`src/opt/ImproveMemoryOps.cpp`, `lGSToLoadStore`) with 32-bit offsets the scaled sum is formed in 32 bits, where
    the gather it replaces forms it in 64 bits: the two agree only while the sum fits. `address_32` and the wrap-
    around example beside it.
61. (`src/opt/GatherCoalescePass.cpp`) 32-bit constant offsets are extended with zeros (`LLVMExtractVectorInts`), then
    used as 64-bit byte offsets: on a target without native gathers `a[k + 2 * programIndex - 1]` with a uniform `k`
    reads 4 GiB behind `a[k - 1]` in instance 0. `negative_constant_wrong`.
62. (`src/opt/GatherCoalescePass.cpp`) constant byte offsets are divided by 4 without a check that they are multiples:
    gathers of `int32` through a pointer to bytes, `*((int32 *)(bytes + programIndex))`, give the element at byte 0 to
    instances 0 to 3. `unaligned_wrong`.
63. (`src/opt/GatherCoalescePass.cpp`) for gangs of 32 and 64 the results are taken from the 4-wide vectors `4*i...`
    instead of `8*i...` and `16*i...`: all but the first gather of a group get values of other lanes and other
    gathers. The targets of these widths set `m_hasGather` to work around it (comment on issue 3153 in
    `src/ispc.cpp`); `--opt=disable-gathers` takes the workaround away. `second_gather_wrong`.
64. (`src/opt/GatherCoalescePass.cpp`) a 64-bit insertion casts the vector under construction to two 64-bit integers
    and back while other elements are still poison; by the LLVM reference a finished element next to an unfinished one
    becomes poison. `half_finished_poison`.
65. (`src/opt/GatherCoalescePass.cpp`) `lInstructionMayWriteToMemory` does not know fences, and `__memory_barrier` is
    declared `readnone` in `builtins/util.m4`: a gather behind `memory_barrier()` is read together with one before it.
    `barrier_wrong`.
66. (`src/opt/ImproveMemoryOps.cpp`) `lExtractConstantOffset` casts the constant and the variable part on their own.
    For an `unsigned int` index with `--addressing=64` and no native gathers, `a[u - 1]` becomes `zext(u) + zext(-1)`:
    for every `u` but 0 the access is `2^32` elements away. `unsigned_minus_one_wrong`. The same happens to sums that
    are taken in another order (`reassociated_wrong`) and to element sizes that are no multiple of 2 at the end of the
    2 GiB range (`odd_size_wrong`).
67. (`src/opt/ImproveMemoryOps.cpp`) the variable part of a shift keeps the `nsw` flag of the shift of the sum, which
    it need not satisfy: a defined address becomes poison. `shift_poison`.
68. (`src/opt/ImproveMemoryOps.cpp`) `lIsIntegerSplat` converts the 64-bit factor to `int`: a factor of `2^32 + 4` is
    taken for a scale of 4. `factor_wrong`.
69. (`src/opt/ImproveMemoryOps.cpp`) the scale is taken out of products below a zero extension, although they may
    wrap. `scaled_unsigned_wrong`.
70. (`src/opt/ImproveMemoryOps.cpp`) `lOffsets32BitSafe` accepts a zero-extended 32-bit vector, which the 32-bit
    functions extend with its sign (`unsigned32_wrong`), and truncates a 64-bit sum because its terms are 32-bit
    numbers (`truncated_sum_wrong`).
71. (`src/ctx.cpp`, `applyVaryingGEP`) with 32-bit addressing the product of the element size and an unsigned index
    has the `nsw` flag: offsets from 2 GiB on are poison although they are extended with zeros.
    `unsigned_index_poison`.
72. (`src/opt/ImproveMemoryOps.cpp`) (read, not modelled) for vectors of 8-bit or 16-bit integers with a factor like
    12 `lExtract248Scale` divides by a vector of 64-bit integers, an ill-typed instruction.
73. (`builtins/util.m4:7633-7704`, `define_avgs`) the signed averages of the x86, WebAssembly and Xe targets divide
    with `sdiv`, which rounds towards zero: `avg_up(-2, -2)` is -1 and `avg_down(-1, -2)` is -1; `generic.ispc` rounds
    as documented, so results differ between targets. `upS_wrong`, `downS_wrong`.
74. (`src/opt/PeepholePass.cpp:65-121`) the patterns for a division by two test the divisor with `isIntN(2)`, which
    all of 0 to 3 satisfy, and the shift and the summand with `isIntN(1)`, which 0 and 1 satisfy: on sse4-i8x16 and
    sse4-i16x8 `(uint8)(((uint16)a + (uint16)b + 1) / 3)` becomes `avg_up(a, b)`. `div3_replaced`, `delta0_replaced`.
75. (`src/llvmutil.cpp:1930-1951`, `src/opt/InstructionSimplify.cpp:52-88`) `GetMaskStatusFromValue` looks at as many
    elements as the gang has, `lSimplifySelect` calls it for selects of any length: on a target with a gang of four, a
    select of eight elements with the mask `<1,1,1,1,0,0,0,0>` is replaced by its first operand. LLVM usually turns
    such selects into shuffles before. `select_wrong`.
76. (`src/opt/IntrinsicsOptPass.cpp:120-133`) `llvm.x86.avx.maskload` with a mask that is off returns zeros by its
    definition and is replaced by poison. `maskload_wrong`.
77. (`src/opt/ReplaceMaskedMemOps.cpp:31-53`) the loops skip undefined elements of the mask without counting them:
    with `<1, undef, 1, 0>` elements 0 and 1 are stored and element 2 is not. `store_prefix_wrong`.
78. (`src/opt/ReplaceMaskedMemOps.cpp:104-118`) for a prefix of three elements the fourth element of the result is
    element 0 of the pass-through value instead of element 3. `load_prefix_wrong`.
79. (`src/opt/InstructionSimplify.cpp:12-24`) `lSimplifyBoolVec` asks whether a truncation is a sign or zero
    extension; that part of the pass never does anything.
80. (`src/opt/ReplaceStdlibShiftPass.cpp:55-60`) `int s = i + shiftInt` overflows for constant shift amounts next to
    `INT_MAX`: undefined behaviour of the compiler itself. If `int` wraps around, the result is right.
    `overflow_undefined`. A constant amount that is not a number (`undef`) stops the compiler at an assertion (line
    16).
81. (`src/opt/ReplacePseudoMemoryOps.cpp:89-93`) for a pointer into a structure with an index that is not constant the
    search goes on to the variable itself and takes the type of its first field. With `struct S { varying int a;
    uniform int b[10]; } s`, `foreach (i = 0 ... 10) s.b[i] = i` (whose scatter becomes a masked store) is blended:
    the last round loads and stores eight elements from `s.b[8]` on, beyond the variable. `variable_index_wrong`.
82. (`src/opt/ReplacePseudoMemoryOps.cpp:19-28, 58-59`) the offset in a field or an array is not looked at. A masked
    store of a vector to the middle of an array of vectors (through a cast pointer) is blended and goes beyond the
    end. `interior_wrong`. The blends of several targets load and store with the natural alignment of the vector
    (`lLowerBlendStore` in src/opt/LowerISPCIntrinsics.cpp:132-146, builtins/target-avx2-i16x16.ll:623-658), which
    such a place need not have.
83. (`src/opt/ReplacePseudoMemoryOps.cpp:149-167`) a blend writes back the elements that are off. If the address of
    the variable has been given to a task, what the task writes to such an element between the load and the store is
    lost. `lost_update_wrong`.
84. (`src/opt/LowerISPCIntrinsics.cpp:230-254`, not modelled) the comment gives the name of the intrinsic as
    `llvm.ispc.cmpxchg.<successOrdering>.<failureOrdering>.<type>`, the code takes the part before the type as the
    success ordering and the one before that as the failure ordering. The builtins only use `seq_cst.seq_cst`.
85. (`src/lex.ll:617`) `strtoull` with base 0 takes a leading 0 for octal: `010` is 8, although the manual says that
    octal numbers are not supported and that decimal ones are sequences of digits. `leadingZero_octal`, `octal_wrong`.
    With an 8 or 9 in it, such a number stops the compiler at the assertion of line 634. `leadingZero_crash`.
86. (`src/lex.ll:615-617, 636-641, 660-694`, `src/parse.yy:502-533`) numbers that do not fit are not refused: more
    than 64 bits become 2^64 - 1, units wrap around (`17179869184G` is 0), the suffix `l` cuts off bits (`4294967296l`
    is 0), numbers from 2^31 with `l` and from 2^63 with `ll` become negative. `integer_partial` gives the exact
    condition, `overflow_wrong` the witnesses.
87. (`src/lex.ll:650-654`) the first bound of a `foreach` range is `int32` whenever it fits in 32 bits without a sign:
    `foreach (i = 4294967295 ... n)` begins at -1. `overflow_wrong`.
88. (`src/lex.ll:1007-1010`) the text given to `strtol` for `\x41` begins with the `x`, so that the string holds a
    zero byte, `x`, `4` and `1`. `hexa_wrong`, `hexa_string_wrong`.
89. (`src/lex.ll:1048-1061`) `ipow2` of a negative exponent is one over the positive power, which overflows to
    infinity beyond 1023: `0x1p-1030d` is 0 although 2^-1030 is a `double`. `hex_underflow_wrong`. With an exponent of
    1024 or more `0x0p1024` is 0 times infinity, not a number, and `0x0.1p1024d` is infinity. The exponent is cut to
    32 bits: `0x1p4294967296` is 1. Beyond 13 digits the mantissa is rounded at each digit. `hex_wrong`.
90. (`src/lex.ll:713`) decimal literals of type `float` are rounded to `double` first: `1.000000059604644775390626`
    becomes 1 instead of the nearer 1.00000012. `decimal_float_wrong`.
91. (`src/lex.ll:293`) suffixes that mix cases, as `lL`, are accepted although the manual forbids them;
    `src/lex.ll:433` accepts newlines in strings. Read, not modelled.
92. (`builtins/builtins-c-cpu.cpp:89-107, 119-134`) `varying2Str` gives `snprintf` the whole size of its buffer of
    1024 bytes at each lane, however much is already written, so that a long text is written beyond the end of the
    buffer, on the stack: `print("%", x)` with a varying `double` of 1e308 in a gang of four, or with 64-bit integers
    of 20 digits in a gang of 64. `print_overflow` (every such argument), `print_double_overflow`,
    `print_int64_overflow`; `fits` gives the numbers of lanes up to which each type is safe.
93. (`builtins/builtins-c-common.hpp:135-151`) the output of one `print` is cut at 8195 characters without a message;
    not documented. `print_partial`.
94. (`builtins/builtins-c-cpu.cpp:129-134`, `src/stmt.cpp:3755-3772`) a boolean of a lane that is off is printed as
    nine underscores on the CPU targets, in double parentheses on the GPU targets; the manual says in parentheses.
    `xe_bool_differs`.
95. (`src/stmt.cpp:4086-4089`) for a single argument that is not a list, `getDoPrintArgs` returns the error value if
    there is no error; the parser always makes a list. (`src/stmt.cpp:3914-3925`) `splitValidFormat` compares an
    iterator with the end of a copy of its vector; harmless because the number of arguments has been checked
    (`printXe_spec`).
96. (`ispcrt/detail/gpu/GPUDevice.cpp:850-854, 920, 1913-1917`) a shared memory view made from a device has no context
    and so no pool; with `ISPCRT_MEM_POOL` set and a hint other than the default, asking for its pointer follows a
    null pointer. `crash_reachable`; `crash_iff` shows that this is the only such call.
97. (`ispcrt/detail/gpu/GPUDevice.cpp:920-924, 884`) `ispcrtSize` of a view gives the size asked for until the pointer
    is first requested, and after that the size of the chunk: 100, then 128. `size_changes`, `numBytes_spec`.
98. (`ispcrt/detail/gpu/GPUDevice.cpp:762-780`) when Level Zero refuses memory for a new bulk, the bulk stays in the
    list without memory, and the next request moves it to the front. Requests for that size then go on asking Level
    Zero even when chunks of other bulks come back. `reuse_after_failure`; without refusals `reuse_partial`.
99. (`ispcrt/detail/gpu/GPUDevice.cpp:731-734`) `ISPCRT_MEM_POOL_MIN_CHUNK_POW2` may be as small as 1, which gives
    views at odd multiples of two bytes, where Level Zero is asked for 64. `misaligned`; from 6 on `view_aligned`.
100. (`ispcrt/detail/gpu/GPUDevice.cpp:841-842, 858, 878-881`) a view for memory managed by the application, made with
    a null pointer, is given memory when its pointer is asked for; it is never freed. `null_leaks`.
101. (`ispcrt/detail/gpu/GPUDevice.cpp:837-851, 2037-2038`) a hint no pool serves (`ISPCRT_SM_UNKNOWN`) throws in the
    constructor of the view after the count of the context has been increased, and the context is never destroyed
    (read, not modelled; that the call fails is `new_fails_iff`).
102. (`ispcrt/detail/gpu/GPUDevice.cpp:1605-1630`) with a copy engine `sync` waits for one of the two queues only. A
    kernel launched after the last copy to the host, or a copy to the device after the last launch, is not waited for:
    its command list is reset while it runs, and the query of its time stamp fails or reads an unfinished event. The
    documentation says that `sync` stops the host until the work is complete. `sync_safe_iff` says exactly which
    sequences of calls are safe.
103. (`ispcrt/detail/gpu/GPUDevice.cpp:1504`) a barrier goes into the compute list only, so with the default three
    lists it does not order copies, though the documentation (`docs/ispc_for_xe.rst:188-195`) says that all tasks
    inserted before have completed. Example beside `barrier_orders_partial`.
104. (`ispcrt/detail/gpu/GPUDevice.cpp:1530-1550`) a copy between views waits for no copy to the device made before
    it, and a kernel launched after it does not wait for it, unless a barrier is between them. Example.
105. (`ispcrt/detail/gpu/GPUDevice.cpp:1520-1528`) an event taken for a copy to the device that Level Zero then
    refuses stays in the pool, unsignalled, and is never used again. `refused_copies_use_up_pool`.
106. (`ispcrt/detail/gpu/GPUDevice.cpp:1565-1578`) the sizes of a launch are cut to 32 bits and divided by the
    suggested group size without a remainder: a launch over 2^32 starts nothing, and a group size that does not divide
    the size drops instances. `instances_iff`.
107. (`stdlib/stdlib.ispc:8001-8005`) `dot4add_u8u8packed` without `udot` or `vpdpbuud` computes its products as
    `int16`: every product above 32767 comes out 65536 too small, so `255*255` is −511. `u8u8_iff`.
108. (`stdlib/stdlib.ispc:8049-8052`) `dot4add_i8i8packed_sat` without `vpdpbssds` takes the signed bytes for unsigned
    ones: `-1*1` is 255. `i8i8_sat_is_portable`.
109. (`stdlib/stdlib.ispc:8082`, `stdlib/stdlib.ispc:8144`) the portable `dot2add_i16i16packed_sat` and
    `dot2add_u16i16packed_sat` saturate after each addition, the instructions once at the end. The first differs only
    if all four integers are −32768 and the accumulator is negative (`i16i16_sat_iff`), the second whenever the first
    sum is out of range and the second product goes the other way (`u16i16_sat_iff`).
110. (`src/expr.cpp:940-969`) a uniform short vector initialised with a list that is not constant and too short gets
    poison, not zero, in the missing elements. `vec_missing_poison`.
111. (`src/expr.cpp:969`) a uniform `bool<n>` initialised with a list that is not constant is stored as packed bits,
    where all other code reads bytes. `vec_bool_packed`.
112. (`src/expr.cpp:960-962`) a list with a single value of another basic type than that of the uniform short vector
    evaluates the value twice. `vec_evaluated_twice`.
113. (`src/expr.cpp:918-965`) the values in a list for a uniform short vector are evaluated in the order of their
    basic types, not from left to right. `vec_out_of_order`.
114. (`src/expr.cpp:942-944`) a varying value in a list for a uniform short vector is not reported: the vector stays
    uninitialised, or the IR is malformed. `vec_silently_uninitialised`, `vec_malformed`.
115. (`ArrayType::SizeUnsizedArrays`, `src/type.cpp`) below the second dimension only the first of the sub-lists
    decides the length, and shorter ones are accepted. `size_inconsistent_accepted`.
116. (`src/expr.cpp:4758-4764`, `src/expr.cpp:4786`) read only, not proved: missing `bool` elements of constant lists
    are filled with `i1` constants among `i8` ones, on which LLVM asserts.
117. (`src/type.cpp:1947-1975`, `src/header.cpp:107-122`) the `aligned` attribute of a struct is in the header but not
    in the LLVM type: C pads the struct to it and ispc does not. `aligned_struct`.
118. (`src/type.cpp:930-935`, `src/header.cpp:151-155`) a varying enumeration as a member is declared with its lanes
    twice. `varying_enum_wrong`.
119. (`src/header.cpp:151-154`, `src/type.cpp:1183-1231`) a varying pointer as a member is declared as one pointer.
    `varying_pointer_wrong`.
120. (`src/header.cpp:153-155`, `src/type.cpp:1751-1753`) a varying short vector as a member is declared instance by
    instance, while it is in memory component by component; its struct is not declared either
    (`src/header.cpp:265-300`). `varying_vector_wrong`.
121. (`src/type.cpp:1553-1592`) an array of pointers to a varying basic type is declared as one pointer to an array.
    `pointer_array_wrong`.
122. (`src/type.cpp:1553-1592`) an array of varying structs is declared as an array of uniform structs with the lanes
    outside. `struct_array_wrong`.
123. (`src/type.cpp:36-44`) the name of a member that begins with `__` is left out of the declaration.
    `hidden_name_wrong`.
124. (`src/header.cpp:100-101`) the guard around a struct has no `_SOAn` suffix, so of a struct and its `soa` version
    only one is seen by the C compiler. `soa_guard_wrong`.
125. (`src/header.cpp:265-300`) on 32-bit ARM, where vectors of 16 bytes are aligned to 8, the struct for `float<2>`
    has half the size of the vector. `arm_short_wrong`.
126. (`src/header.cpp:1036-1078`) the header of several targets declares types only for gang sizes 4, 8 and 16.
    `dispatch_types`.
127. (`src/header.cpp:76-78`) for the second gang size a varying struct is not declared if it is reached only through
    a struct with no varying member. `dispatch_nested_wrong`.
128. (`src/header.cpp:100-101`) a uniform struct with a varying member is declared under the same guard for all gang
    sizes. `dispatch_uniform_wrong`.
129. (`src/header.cpp:863-869`) with an old C compiler `bool` is an `int`. `old_bool_wrong`.
130. (`src/ctx.cpp:2145-2205`, `src/ispc.cpp:3200-3207`) the element of an array of varying `bool` is addressed by the
    size of the mask if the index is varying, and by one byte for each program instance if it is uniform: with masks
    of 16, 32 or 64 bits the varying index leaves the array, with masks of one bit elements overlap.
    `bool_index_wrong`, `bool_overlap_wrong`.
131. (`src/expr.cpp:1803-1835`, `src/expr.cpp:8909-8925`) the difference of pointers to varying `bool` and
    `sizeof(bool)` use the size of the mask too: `sizeof(bool[n])` is not `n * sizeof(bool)`. `bool_diff_wrong`,
    `sizeof_bool_iff`.
132. (`src/type.cpp:1755-1799`) `sizeof(uniform bool<n>)` is the size of a vector of bits, in memory it is a vector of
    bytes. `short_bool_wrong`.
133. (`src/expr.cpp:10257-10264`) `new` allocates by that size: `new bool<n>[c]` always, and `new varying bool[c]` on
    targets with one-bit masks, allocate less than is then used. `short_bool_small_wrong`, `bool_small_wrong`.
134. (`src/expr.cpp:10263-10264`) the number of bytes is computed with `nsw` in the width of offsets: from 2 GiB on it
    is poison with 32-bit addressing, although the count is unsigned. `overflow_wrong`.
135. (`builtins/generic.ispc:1214`, `builtins/generic.ispc:1219`) `posix_memalign` and `_aligned_malloc` are declared
    with sizes of 32 bits; for 64-bit targets the size is truncated and the block too small. `generic_wrong`.
136. (`builtins/util.m4:5580-5587`, `builtins/util.m4:5635-5642`) the result of `posix_memalign` is not looked at: if
    a uniform `new` fails its value is undefined; and the initialiser of a uniform `new` is stored without a test for
    null (`src/expr.cpp:10336-10345`). `uniform_fail_wrong`.
137. (`src/preprocessor.cpp:313-327`) `new` aligns to four bytes for each program instance, less than varying
    `double`, `int64` and pointers are aligned to; stores of whole gangs rely on the alignment of the type
    (`src/ctx.cpp:3313-3341`). `align_wrong`.
138. (`src/args.cpp:986-987`) `--force-alignment` is not checked: with 4 every `new` fails. `force_wrong`.
139. (`docs/ispc.rst:4210-4220`) the guide says that `uniform new float[10]` allocates ten varying values; it
    allocates ten uniform ones. `guide_wrong`.
140. (`src/ctx.cpp:3361-3368`) an assignment to a `uniform` struct that has a member declared `varying` is a plain
    store of the whole struct: it changes the member of all program instances, also of those that are not active.
    `uniform_struct_wrong`.
141. (`src/ctx.cpp:2843-2860`) reading a struct with an array of `bool` through a varying pointer does not convert the
    elements of the array to bytes: LLVM gets an `insertvalue` of the wrong type, or, if the elements of the mask are
    bytes, 255 is stored for true. `rep_iff`, `bool_array_wrong`.
142. (`src/ctx.cpp:2802-2820`) of a member declared `uniform`, reading a struct through a varying pointer gives all
    program instances the value of the first active one (with a warning; `docs/ispc.rst:3602-3623` says that it is an
    error). For a member that is an array, short vector or struct declared `uniform`, `extractelement` is applied to
    something that is not a vector (by reading; not in the model). `bound_uniform_wrong`.
143. (`stdlib/stdlib.ispc:3330-3354`, `5916-5940`, `6218-6242`) `ldexp` adds to the exponent field without a check:
    `ldexp(1.5f, 128)` is NaN, `ldexp(1.0f, 129)` is `-0`, `ldexp(1.0f, -127)` is 0, `ldexp(1.0f, -128)` is minus
    infinity, `ldexp` of infinity by -1 is `2^127`; denormal numbers are always wrong. Right exactly if number and
    result are normal (or by luck far outside). `docs/ispc.rst:6105-6106`: as in the standard math library.
    `ldexp_iff`, `ldexp_denormal_iff`, `ldexp_inf_iff`, `ldexp_wrong`.
144. (`stdlib/stdlib.ispc:3356-3374`, `5942-5960`, `6244-6262`) `frexp(0)` is a half with the exponent -126, `frexp`
    of infinity a half with 129; right exactly for normal numbers. `frexp_iff`.
145. (`stdlib/stdlib.ispc:2420-2640`) `fmod` tests for an infinite `y` before an infinite `x`: `fmod(inf, inf)` is
    infinity, in C NaN. `fmod_inf_inf_wrong`.
146. (`stdlib/stdlib.ispc:2454`, `2491`, `2528`, `2565`, `2602`, `2639`) `fmod` of finite numbers is `x - trunc(x *
    rcp(y)) * y`: with a correctly rounded reciprocal `fmod(41.0f, 41.0f)` is 41, `fmod(2^30, 3)` is 0 or, with fused
    multiplication, -32 (in C 1), `fmod(2^126, 2^-124)` is minus infinity, `fmod(-4, 2)` is `+0`.
    `docs/ispc.rst:5616-5617` says that the semantics is that of C. `fmod_wrong`, `fmod_zero_sign_wrong`.
147. (`stdlib/stdlib.ispc:2424-2427` and the like) the varying `fmod` keeps the bits of its NaN in a `uniform`
    variable that is changed under a varying `if`: the NaN of one program instance takes the sign of `x` of another,
    against the comment. `fmod_nan_sign_wrong`.
148. (`stdlib/stdlib.ispc:2216-2230`) `abs` of the least integer is poison (`nsw`); `--wrap-signed-int` does not
    change it, as the standard library is compiled with ispc. `iabs_defined`.
149. (`builtins/target-sse2-common.ll:177-188`, `builtins/target-sse2-i32x4.ll:44-55`, `builtins/target-
    sse2-i32x8.ll:318-329`, `builtins/target-wasm-i32x4.ll:257-301`) `round`, `floor` and `ceil` of `float` on SSE2
    and WebAssembly add and subtract `2^23` without a test for large numbers: `round(8388609.0f)` is 8388608,
    `ceil(8388611.0f)` is 8388612; every odd integer from `2^23` to `2^24` is wrong. The `float16` version has the
    test. `docs/ispc.rst:681` says that `round` is aligned across all targets. `magic_odd_wrong`,
    `magicFloor_odd_wrong`, `magicCeil_odd_wrong`, `call_float_wrong`.
150. (`builtins/target-xe.ll:98-132`, `699-745`) the same for `double` on Xe, where the constant is moreover not a
    power of two: wrong from 4503599254740993 on. `call_double_wrong`.
151. (`builtins/target-sse2-common.ll:239-246`, `builtins/target-wasm-i32x4.ll:323-325`, `616-619`) `round` of
    `double` on SSE2 and WebAssembly calls `round` of the C library, which rounds halves away from zero; the
    documentation and all other targets round to even. `cRound_iff`, `cRound_wrong`.
152. (`builtins/util-xe.m4:1234-1281`) `trunc` of `double` on Xe shifts by a negative count for numbers from `2^53`
    on, which is poison; the varying version clears the sign of a zero with `and` where the uniform one has `or`.
    `xeTrunc_large_wrong`, `xeTrunc_sign_iff`.
153. (`builtins/target-sse2-common.ll:203-233` and the like) `floor(-0.0f)` and `ceil(-0.5f)` are positive zero.
    `magicFloor_sign_iff`, `magicCeil_sign_iff`.
154. (`src/ctx.cpp:246-257`, `446-453`, `src/func.cpp:354-361`) a task starts with all program instances active,
    whatever the mask of its launch was: the launch stores the mask in the block and the task loads it, but
    `SetFunctionMask` does nothing for tasks as they have no variable for the full mask. The documentation says that
    the same program instances are active as when the `launch` statement executed (`docs/ispc.rst:4918-4923`).
    `mask_wrong`, `mask_iff_partial`.
155. (`src/ctx.cpp:4013-4018`, `src/func.cpp:253-284`) a varying `bool` parameter of a task is written in the form of
    registers (a mask) and read in the form of memory (bytes): on a target with 32-bit masks program instance `l` gets
    the value of instance `l / 4`, with 1-bit masks instance 0 gets whether any of the first eight was true. Short
    vectors of `bool` the same. Only targets with 8-bit masks are right. `fine_iff_partial`, `bool_lane`.
156. (`src/ctx.cpp:4001`) the block of arguments is aligned to four times the native vector width, but its members are
    stored and loaded with the alignment of their types, which is larger for example for a varying `double` on
    avx2-i32x8 or a varying `float` on sse4-i32x8. `align_wrong`.
157. (`examples/common/tasksys.cpp:816-819`) a thread that runs a task while it waits in `sync` passes `threadIndex` 0
    and `threadCount` 1 (the source says: bogus values), so two tasks that run at the same time on different threads
    can have the same `threadIndex`, and data indexed by it needs synchronisation, against `docs/ispc.rst:4965-4973`.
    The versions for Grand Central Dispatch and ConcRT always pass 0 and 1 (`examples/common/tasksys.cpp:477-481`,
    `513-515`). `threadIndex_wrong`.
158. (`src/opt/LowerISPCIntrinsics.cpp:243-251`) `@llvm.ispc.cmpxchg.<success>.<failure>` takes the last ordering of
    the name for success and the one before for failure, against its comment and `docs/design/ispc-intrinsics.md`;
    `acq_rel.monotonic` becomes an instruction that LLVM does not allow. The standard library only uses
    `seq_cst.seq_cst`. `cmpxchg_wrong`.
159. (`src/intrinsics.cpp:390-395`, `414`) the name that is declared for `select` (and `blend_store`, `extract`,
    `insert`) does not contain the type of the mask (index, element), and `getOrInsertFunction` returns the function
    of that name whatever its type: after a `select` with a uniform `bool` one with a varying `bool` for the same
    operand type does not compile. `own_function_wrong`.
160. (`src/intrinsics.cpp:282`, `196-210`) the result of an intrinsic always has a signed type: `uint64 x =
    @llvm.ispc.extract(v, i)` with a `uint32 v` sign-extends. `result_wrong`.
161. (`src/opt/LowerISPCIntrinsics.cpp:222`, `225`, `249`, `277`) an unknown operation or ordering in the name, for
    example `@llvm.ispc.atomicrmw.foo.seq_cst`, is not diagnosed but ends the compiler with an assertion. Read, not
    proved.
162. (`src/expr.cpp:3526-3551`) `lCheckForConstStructMember` does not look into arrays: with `struct A { const int x;
    }; struct B { A a[2]; };` the assignment `b1 = b2` is taken and changes `const` members. `array_member_wrong`.
163. (`src/expr.cpp:422-425`) a reference to `const` is bound by `EqualIgnoringConst`, which ignores `const` at all
    depths: a `const int *` is bound to a parameter `int * const &` without a word, and the function may then store
    through it. `reference_wrong`.
164. (`src/expr.cpp:364-370`) a `const int *` is converted to `int *` with only a warning (an error in C++), and `int
    **` to `const int **` too. `pointer_wrong`, `warned_iff`.
165. (`src/expr.cpp:260-262`) a `const` array is converted to `void *` without a warning, while a pointer to `const`
    is turned away (`docs/ispc.rst:945`): `memset(table, 0, n)` of a `const` array compiles. `void_array_wrong`.
166. (`src/expr.cpp:1211-1225`) `++` and `--` call both `GetLValue` and `GetValue` of their operand: `a[f()]++` calls
    `f` twice, `a[i++]++` steps `i` twice and stores `a[i+1] + 1` to `a[i]`. `step_wrong`, `step_twice`.
167. (`src/expr.cpp:5020-5049`) the element of an array or short vector that is not in memory evaluates its index in
    `GetLValue`, which fails, and again for the copy: `f()[g()]` calls `g` twice, `f().t[g()].a` three times.
    `index_wrong`, `index_often_wrong`.
168. (`src/expr.cpp:8036-8042`, `8072-8079`) a cast to a pointer type counts as an lvalue whose address is the value
    of the pointer: `(int *)p = q` compiles and stores `q` to what `p` points to, `((int *)p)++` likewise, and a
    reference parameter of pointer type bound to a cast is an alias of what the pointer points to. Read, not proved.
169. (`src/expr.cpp:3620-3621`) `x op= y` converts `y` to the type of `x` before the operation, not after it: `int x =
    3; x *= 0.5f` gives 0, `int x = -6; x /= 2u` gives -3 where `x = x / 2u` gives 2147483645, `int8 x = 127; x += 1`
    is undefined where `x = x + 1` gives -128, `int8 x; x /= 256` divides by zero. `float_wrong`, `div_wrong`,
    `overflow_wrong`, `div_iff`.
170. (`src/type.h:376-393`) `int64` comes after `float` in the order of types, so `float x = 0.5f; x = x * y` with
    `int64 y = 4` is done in integers and gives 0, while `x *= y` gives 2. `wide_wrong`.
171. (`src/expr.cpp:3620-3634`) compound assignment is not checked as the operator is: arithmetic on booleans,
    operators on bits with a floating-point right operand and `%` on floating-point numbers are accepted; `bool x =
    true; x += true` stores false. `accepted_iff`, `bool_wrong`.
172. (`src/expr.cpp:1968-1987`, `src/type.h:89`) pointers are compared as signed numbers: on a 32-bit target the
    elements of an array that reaches across address 0x80000000 are ordered wrongly (`p < p + 1` is false).
    `compare_wrong`, `compare_iff`.
173. (`src/expr.cpp:3596-3610`) `p += i` makes an unsigned `i` signed where `p = p + i` keeps it: with the default
    32-bit addressing, a varying `uint8 *p; p += 3000000000u` goes back by 1294967296 bytes. `plusAssign_wrong`.
174. (`docs/ispc.rst:1491-1502`) `--addressing=64` is said to be needed for more than 4 GB; the offset of a varying
    index into elements wider than a byte is a signed 32-bit multiplication that must not overflow, so offsets from 2
    GB up are already undefined. `offset_wrong`.
175. (`src/expr.cpp:5849-5858`) a swizzle with more than one letter does not add the offsets of the program instances
    to a varying pointer: for `float<3> p[]`, `p[i].zy` with a varying `i` gives all instances the elements of
    instance 0, while `p[i].z` is right. `swizzle_wrong`, `member_lane0`.
176. (`src/expr.cpp:5696`, `5849-5858`) `p->zy` on a varying pointer to a uniform short vector has a uniform type; the
    gathered vectors are stored in a temporary with room for one value for each element, so memory behind it is
    overwritten. `arrow_wrong`.
177. (`src/expr.cpp:5467-5486`) `u` and `v` are undocumented names of the first two elements. `letter_iff`.
178. (`src/expr.cpp:1182-1200`, `src/sym.cpp:29`) an assignment to a global varying variable that is not static,
    outside of varying control flow of the function, is stored without a mask (its recorded depth is 0, like that of
    the function body): `int g; void f() { g = 5; }` called under `if (programIndex < 2)`, or `if (programIndex < 2)
    return; g = 5;` in an exported function, overwrites `g` for the instances that do not execute the assignment.
    `global_wrong`; with `static` it is right, `static_ok`. The machine of C01 and C02 masks all stores to outside
    memory, so for such variables their claims rest on declaring them static.
179. (`src/expr.cpp:1161-1200`, `5116`, `6041`) the base symbol of `*p[0]` and `*s.p` is the array or structure, so
    data behind a uniform pointer kept there is stored without a mask, or with the mask of the function only, as if it
    were the local variable itself. `aggregate_wrong`.
180. (`src/parse.yy:2178-2187`) for a declarator without a name that has stars in front of brackets or parentheses a
    fresh pointer declarator takes the place of all the stars: `int **[3]` becomes an array of `int *`, `float *
    uniform []` an array of varying pointers. The prototype `void f(float * uniform []);` therefore declares another
    function than the definition `void f(float * uniform a[]) {…}`. `stars_ignored_wrong`, `qualifier_lost_wrong`,
    `star_lost_wrong`, `prototype_wrong`.
181. (`src/decl.cpp:1069-1072`) a function type without a name, such as the parameter of `void f(int (float));` or
    `sizeof(int ())`, fails the assertion that an error has been reported. `function_crash_wrong`.
182. (`src/decl.cpp:362-371`, `src/sym.cpp:305-314`) a type is taken for a typedef name if the same object is in the
    symbol table; `void` is always the same object and counts as uniform, so after `typedef void name;` every
    declaration that begins with `void` is rejected because of a `uniform` qualifier nobody wrote.
    `void_typedef_wrong`.
183. (`src/parse.yy:1632-1655`, read only) in type names and structure members `uniform varying int` is accepted, the
    first one wins, and `int double` is `int`; variable declarations reject both.
184. (`src/args.cpp:318-332`, `docs/ispc.rst:1837-1839`) the documentation says that there is no means of quoting in
    ISPC_ARGS and argument files; quotation marks of both kinds quote, and are removed, so `-DNAME="x"` in a file
    means something else than documented, and a lone apostrophe swallows everything up to the end. `quoting_wrong`.
185. (`src/args.cpp:407-425`) a file that names itself with `@` is read again and again until no more files can be
    opened, and then the `@file` argument is passed on as if the file did not exist; a file that names itself twice
    doubles the arguments every time. `cycle_wrong`, `double_wrong`.
186. (`src/args.cpp:410`, read only) a directory can be opened with `fopen`, so `@directory` vanishes without a
    message.
187. (`src/expr.cpp:8535-8540`) an assignment `*p = v` through a varying pointer to a varying object, such as `varying
    int * varying p`, does not add the offset of the program instance that reading `*p` adds (8526), so every program
    instance writes to the first part of the object, and `(*p)++` reads one cell and writes another; `p[0] = v` is
    right. `write_wrong`, `step_wrong`.
188. (`src/expr.cpp:5254`, `6071`, `8526`) the address of an element or member that is a varying object behind a
    varying pointer, such as `&a[i]` for a varying array and a varying index, already has the offset of the program
    instance in it, and reading through it adds the offset again: `*&a[i]` reads other memory than `a[i]`.
    `address_wrong`.
189. (`src/expr.cpp:8036-8042`, `8072-8079`) a cast to a pointer type counts as a place, and the place is what the
    pointer points to: `(int *)p = q` is accepted and overwrites `*p` with the pointer, `&(int *)p` is `p`.
    `cast_wrong`.
190. (`src/expr.cpp:3160-3168`, `3928-3935`, read only) pointer sums and selections claim to be places but have no
    address, so `&(p + 1)` passes the type check and has no value when code is generated.
191. (`src/parse.yy:3751-3757`) the test that a constant is representable with 32 bits sign extends unsigned constants
    too: 18446744073709551615 is accepted as the value of an enumerator or label and becomes -1, while 4294967295 of
    type uint64 is refused and of type uint32 accepted. `accept_wrong`.
192. (`src/parse.yy:3773-3775`) enumerators are declared when their list is complete: `enum { A = 1, B = A }` is an
    error, and where another `A` is visible `B` silently gets the value of that one. `enum_scope_wrong`.
193. (`src/parse.yy:3822`) the enumerator after 4294967295 is 0. `enum_wrap_wrong`.
194. (`src/header.cpp:254`) enumerators of 2^31 and more, unsigned in ispc, are written with `%d` and are negative in
    the header. `header_wrong`.
195. (`src/ctx.cpp:1142-1143`, `1187`) the value of a label is kept as a signed `int`: in a switch over a 64-bit
    expression, `case 4294967295u` means -1. (Labels that need more than 32 bits are refused.) `switch_wide_wrong`.
196. (`src/expr.cpp:9503-9506`) once a varying type has been deduced for a template parameter, every uniform type is
    accepted without comparing it: `template <typename T> f(T a, T b)` called with a `varying int` and a `uniform
    float` is instantiated for `varying int`, and in the other order there is no match. `late_uniform_wrong`.
197. (`src/expr.cpp:9680`) deduction reads the argument's type of every dependent parameter, also of those the call
    leaves to their default: `argTypes[i]` is read beyond the end of the vector. `default_wrong`.
198. (`src/type.cpp:1733-1741`) the name of a value parameter is cut to 15 characters when it is deduced from a short
    vector: with a longer name the value is never found. `long_name_wrong`.
199. (`src/expr.cpp:9631-9644`, `src/func.cpp:882-891`) kinds of template arguments are not compared: `f<4>` is
    accepted for a type parameter (which becomes `const uniform int`) and `f<uniform int>` for a value parameter.
    `kind_wrong`.
200. (`src/expr.cpp:9448-9471`) `template <typename T> f(uniform T a, T *b)` called with a uniform int and a pointer
    to a uniform int deduces `varying int`, so that the pointer does not fit, though `uniform int` does.
    `mixed_wrong`.
201. (`src/expr.cpp:9471`, `src/type.cpp:2686`) `template <typename T> f(uniform T *p)` called with a pointer to a
    function follows a null pointer. `function_wrong`.
202. (`src/expr.cpp:9540-9561`, `src/type.cpp:209-229`) a value parameter in `float<N>` is never deduced, and in
    `T<N>` only when `T` is not given explicitly. `count_wrong`.
203. (`src/func.cpp:1131-1164`) a new instance is entered in the list only after its body has been type checked, and
    the check asks for the instances the body calls: a recursive function template, `template <typename T> T r(T x) {
    … r<T>(…) … }`, is instantiated again and again until the compiler's stack is exhausted. `recursion_wrong`; for
    all recursive templates `recursion_never`.
204. (`src/module.cpp:1383-1432`, `1518-1524`) the return type of a specialization is not compared with the
    template's, and a difference hides that the instance has been used or defined already: after a call of `f<int>` a
    specialization `template <> float f<int>(int) {…}` is accepted and replaces the function whose calls expect an
    `int`. `return_wrong`.
205. (`src/module.cpp:1518-1524`) the type of a specialization of an `unmasked` template, written without that word,
    never equals the type of the symbol, which inherits it: a second body for the same arguments, or one after a use,
    is accepted and replaces the first. `unmasked_wrong`.
206. (`src/module.cpp:1434-1464`) explicit instantiation does not look for an instance: after a call with the same
    arguments it ends in `Ignoring redefinition of function`. `explicit_wrong`.
207. (`src/func.cpp:915-934`) constant template arguments are compared before they are converted to the type of their
    parameter: with `template <int N>` a specialization for `h<4>` is not used by `h<4u>`, and both have their own
    instance. `constant_wrong`.
208. (`src/expr.cpp:9775-9787`) every candidate template of a call is instantiated before overloads are resolved, so
    that errors in the body of a template that would not be chosen are reported (read, not modelled).
209. (`src/expr.cpp:4231-4243`, `src/module.cpp:1294-1299`) **a call is dropped without a message**: the default
    values of a function are replaced by those of its definition, and calls look them up when code is generated, after
    the whole file has been read. With `int f(int x = 3);`, a caller of `f()`, and the definition `int f(int x) { …
    }`, the call has been checked against the declaration, its value is gone, and `GetValue` returns null without an
    error: no code for the call. `default_dropped_wrong`. With a different value in the definition, earlier calls pass
    the later value: `default_changed_wrong`.
210. (`src/module.cpp:1000-1002`) a declaration that repeats a function returns before its default values are looked
    at: they are ignored in a declaration (`default_ignored_wrong`), and in a definition they may leave gaps, `int
    f(int a = 1, int b) {…}`, so that an accepted call `f()` has no code (`default_unchecked_wrong`).
211. (`src/module.cpp:766-806`) after an `extern` declaration a variable may be defined any number of times: the
    memory keeps the first value, but reads of a `const` variable are compiled with the last one. `extern const
    uniform int x; const uniform int x = 5; const uniform int x = 6;` is accepted. `redefinition_wrong`.
212. (`src/module.cpp:773`) an `extern` declaration that follows the definition is rejected, `uniform int x = 5;
    extern uniform int x;`. `extern_after_wrong`.
213. (`src/module.cpp:804-813`) linkage is chosen at the first declaration: `extern uniform int x; static uniform int
    x = 3;` is accepted and external (`static_wrong`); likewise for functions (`fn_static_wrong`).
214. (`src/parse.yy:3479`, `src/module.cpp:819`) **a global pointer to `const` is emitted as constant memory**:
    whether the memory is constant is taken from the specifiers, so that `const float * uniform p;`, whose type is not
    `const` and which may be assigned, becomes an LLVM `constant` that is null: loads may be replaced by null and
    stores to it are undefined. `const_pointer_wrong`.
215. (`src/llvmutil.cpp:570-576`) **casts are compared without the type they start from**: `lValuesAreEqual` decides
    that `(uint32)((uint8)x + (uint8)y)` and `(uint32)((uint16)x + (uint16)y)` are equal. A vector with these as
    elements is taken for one with equal elements, and a gather through it for a load of one element. `equal_wrong`,
    `common_wrong`.
216. (`src/llvmutil.cpp:1113, 1656`, `src/opt/ImproveMemoryOps.cpp:1139-1140`) **the compiler stops on an index vector
    of which the first element is undefined**: `int i; i = insert(i, 3, x); … a[i]` counts as a vector with equal
    elements (undefined elements are not compared), but then has no first element, and the assertion that there is one
    fails. `defined_wrong`.
217. (`src/llvmutil.cpp:676-678`) the compiler stops with a failed assertion on an element inserted into a vector of
    zeros (`int i = 0; i = insert(i, 3, x); … a[i]`): a ConstantAggregateZero has no operands, and the code asserts
    that it has as many as the vector has elements. `chain_stops_wrong`. The same happens when the first element is
    wanted of a vector in which only another element was replaced (line 689).
218. (`src/llvmutil.cpp:1631-1634`) if a block is twice a successor of another one (two cases of a switch), the scalar
    phi built for a vector phi gets two different values for it, which LLVM's verifier rejects. `phi_twice_wrong`.
219. (`src/llvmutil.cpp:1602-1609`) the first element of a bitcast between vectors of different lengths is taken to be
    the bitcast of the first element. `regroup_wrong`.
220. (`src/llvmutil.cpp:595`) two phis of blocks with different predecessors, or with the predecessors in another
    order, make the comparison of two values stop with a failed assertion instead of answering no (the code has a
    FIXME).
221. (read only, C45) two phis that are compared and lie in different blocks with the same predecessors are reported
    equal; this is harmless, since two such blocks never both dominate a block that is reached (`Dom.same_preds`).
222. (`src/module.cpp:2366-2389`) **the initial values that the targets give to a variable are never compared**: the
    dispatch module takes those of the first target. The flag that is to prevent this is not set for `programCount`
    and `TARGET_WIDTH`, which are constants (`stdlib/include/core.isph:43`): `uniform int w = programCount;` is
    accepted without a warning, and is 4 in the variant for 8 lanes. `program_count_wrong`.
223. (`src/expr.cpp:8993-8996`) the flag for `sizeof` is set only if the type itself is varying: the size of a uniform
    struct with varying members is accepted, with the value of the first
    target. `sizeof_wrong`.
224. (`src/module.cpp:2373-2378`) a variable that has different layouts for the targets is only warned about; the
    variants with wider gangs then read and write past its end. `mismatch_wrong`.
225. (`src/module.cpp:2262-2265`) structs that hold structs are warned about although nothing differs: the struct
    types of the modules are different LLVM types, and `isLayoutIdentical` compares the members by identity.
    `nested_wrong`.
226. (`src/module.cpp:2397`, 2241) an initialiser with the address of a static variable, of an `extern` variable or of
    a function is copied to the dispatch module with a reference into the module of the target (`MapValue` without an
    entry for it), which is no valid module: the verifier stops the compiler. The same program is accepted for one
    target. `reference_wrong`.
227. (`src/module.cpp:2369`) a variable that a later target defines but not the first one (`#if TARGET_WIDTH == 8`)
    makes an assertion fail. `later_wrong`.
228. (`src/module.cpp:2297-2299`) a smaller explicit alignment of a later target replaces the natural alignment of the
    first one. `lowered_wrong`.
229. (C79) static variables exist once per target; functions dispatched to different variants (exported functions
    compiled for different sets of targets) do not share them. `static_wrong`.
230. (`src/ctx.cpp:1284-1362`) after a `return` in a varying `if`, the code that follows is run with all instances off
    unless the whole gang has returned: a loop with a uniform condition there is entered although no instance reaches
    it, and the gang does not return if that loop does not end by itself. `Spmd.gang_runs_dead_loop`.
231. (`src/ctx.cpp:808-849`, read, not proved) inside a varying loop entered after some instances returned, the test
    whether all instances have left the iteration compares with the mask at function entry and is never true, so the
    early jump is missed and the rest of the body runs with all instances off.
232. (`src/module.cpp:851-899`) **the check of exported functions does not follow references**: `export void f(uniform
    S &s)` is accepted without a warning if `S` has varying members or varying pointers, or is an `soa` type, although
    the same parameter as a pointer gets the warning or the error. The documentation recommends references for
    structs. `reference_wrong`.
233. (`src/module.cpp:875-884`) pointers to functions are accepted without a warning, whatever the parameters of the
    function are; the functions take the mask of the gang. `function_wrong`.
234. (`src/module.cpp:879`) an `soa` struct whose members are all pointers is accepted behind a pointer, as the test
    for `soa` is not made for pointers. `soa_pointers_wrong`.
235. (`src/module.cpp:956-967`) structs by value are rejected as parameters of exported and external functions, as the
    calling conventions of C are not followed, but not as results, although the message says “to/from”.
    `return_struct_wrong`.
236. (`src/module.cpp:856`, 872) the recursive calls exchange `vectorOk` and `soaOk`; it has no effect, as both flags
    are always the same.
237. (`builtins/util.m4:5519`, `builtins/generic.ispc:589`) **an assertion with a uniform condition ignores the
    mask**: it ends the program although no instance is executing, for example in the rest of a loop after all
    instances have returned (`gang_runs_dead_loop` of C01). `assert_uniform_wrong`.
238. (`src/stmt.cpp:4213-4249`) with `--opt=disable-assertions` a uniform condition is still evaluated and is given to
    `llvm.assume`, so that a failing assertion makes the behaviour undefined, also if no instance is executing; a
    varying condition is not evaluated, so that its side effects are lost. The documentation says that the assertions
    are removed. `disabled_assert_wrong`.
239. (`builtins/target-sse4-i32x4.ll:206`, `builtins/generic.ispc:1613`) the x86 targets look at the highest bit of a
    lane and the generic ones at the lowest, so that a varying `bool` that is neither 0 nor -1, as `+=` can make it,
    is true on some targets and false on others. `other_lanes_wrong`.
240. (`builtins/target-sse4-i32x4.ll:141-166`, `builtins/target-sse4-common.ll:181-205`) **with a NaN among the
    numbers `reduce_min` and `reduce_max` can give a number that is not the extreme one of the others**: for SSE4
    `reduce_min` of NaN, 5, 1 and 6 is 5; where the code is that of generic.ispc it is 1. `reduce_min_nan_wrong`.
241. (`builtins/target-avx-utils.ll:181-206`) **`max` of `uniform` numbers has its operands exchanged on AVX and
    AVX-512**: `max(1, NaN)` is 1 for `uniform` and NaN for `varying` numbers, and `clamp(NaN, 1, 6)` is 6 for
    `uniform` numbers and 1 on SSE4. `max_uniform_varying_wrong`, `clamp_nan_wrong`.
242. (`builtins/target-avx1-i64x4.ll:305-318`) `reduce_add` of `double` adds 0.0 for `avx1-i64x4` and `avx2-i64x4`, so
    that the sum of −0.0 alone is +0.0 there and −0.0 elsewhere. `sum_minus_zero_wrong`.
243. (`builtins/target-avx512skx-x4.ll:379-384`, `builtins/target-sse2-i32x4.ll:155-163`) the order of the additions
    of `reduce_add` depends on the target: the same four `float` numbers have sums 1 and 2. `sum_order_wrong`.
244. (`src/lex.ll:914-916`, `873`) **behind an unknown `#pragma` all messages, assertions and debugging information
    name the line before the right one**, up to the next line marker: the new line character is consumed and not
    counted. `unknown_pragma_place_wrong`.
245. (`src/lex.ll:433`, `567-570`) a string literal with a new line character in it is one token whose lines are not
    counted, and behind an illegal character columns are one too large, as its length is added twice.
    `long_string_place_wrong`, `illegal_column_wrong`.
246. (`src/lex.ll:891-894`) a `#pragma` in a last line that does not end with a new line character makes the lexer
    read zeros for ever; this needs `--nocpp`. `pragma_at_end_hangs`.
247. (`src/util.cpp:396-398`, `426-428`) `#pragma ignore warning` is looked up with the last line of what the warning
    is about, whereas messages show its first line: **a warning about an expression that begins in the line after the
    pragma and ends in a later one is written**. `first_line_silenced_wrong`.
248. (`src/util.cpp:402-408`) with `--woff` and `--werror` a compilation fails on a warning without any message; with
    `--werror` performance warnings count as errors and are still written as warnings. `silent_failure`.
249. (`src/ispc.cpp:3559-3571`) the union of two positions takes the smaller column even when the lines differ, so
    that messages about operands in different lines may name a place where nothing begins. `union_place_wrong`.
250. (`src/lex.ll:784-813`) `#pragma unroll N` where `N` is no number (for example an identifier) is taken as a count
    of 0 without an error, although 0 is an error; negative numbers and text behind the number are accepted.
    `unroll_text_wrong`.
251. (`src/target_enums.cpp:684-697`) the targets `avx512skx-x16-nozmm` and `avx512icl-x16-nozmm` are accepted and
    **printed as `avx512skx-x16` and `avx512icl-x16`**: the list of the targets does not show them, and messages name
    a different target. `nozmm_name_wrong`.
252. (`src/target_enums.cpp:604-628`, `src/args.cpp:846-863`) empty entries of `--target` are dropped without a
    message: `--target=avx2,` means `avx2`, and `--target=` is as if the option were absent. `targets_empty_wrong`.
253. (`src/ispc.cpp:283-305`) the check that a target fits `--arch` lets RISC-V and WebAssembly targets pass on every
    architecture; only the look-up of libraries refuses the combination, and that is skipped when the validation of
    targets is disabled. `valid_riscv_wrong`, `accepted_made`.
254. (`src/target_registry.cpp:100-119`, `223-240`; read only) target and standard libraries are also entered for
    `custom_linux` and `ps5`, but look-ups map these systems to `linux` first, so these entries are never read.
255. (`stdlib/stdlib.ispc:798-806`, `src/expr.cpp:9361-9391`) `popcnt` has functions for `int32` and `int64` only, and
    the conversions to both cost the same: **`popcnt` of an `unsigned int`, or of any integer of 8 or 16 bits, is
    reported as ambiguous**. `popcnt_ambiguous_wrong`.
256. (`stdlib/stdlib.ispc:2216-2230`) `abs` of the smallest `int8`, `int16`, `int` or `int64` is this negative number.
    `abs_smallest_wrong`.
257. (`src/module.cpp:1878-1896`) the name of the instruction set is inserted before the last dot of the whole path:
    with `-o ../foo` or `-o build.d/foo` **the files of the targets go to another directory** (`._avx2./foo`,
    `build_avx2.d/foo`). `mangle_directory_wrong`.
258. (`src/module.cpp:2690`, `src/module.cpp:2609`) in a compilation for several targets the dependencies are those of
    the target with the lowest instruction set: **a file that is included for another target only is missing**.
    `deps_missing_wrong`.
259. (`src/module.cpp:2836-2873`, `src/module.cpp:2618-2655`) two variants of an instruction set are rejected only
    after both have been compiled and have written the same file. `variants_overwrite_wrong`.
260. (`src/module.cpp:2768-2791`) the name of the nanobind wrapper is the same for all targets, so that every target
    overwrites it. `wrapper_overwritten_wrong`.
261. (`src/args.cpp:1277-1281`) with both `-M` and `-MMM` the warning says that `-MMM` takes precedence, but a rule is
    written. `both_formats_wrong`.
262. (`src/header.cpp:499-542`) blanks in names are not escaped in make rules, and the plain list leaves backslashes
    doubled. `rule_blank_wrong`, `flat_escaped_wrong`.
263. (`src/header.cpp:469-485`) without `-o` and `-MT` a source without a suffix in a directory with a dot gives a
    wrong target (`../d/f` gives `..o`). `deps_target_wrong`.
264. (`src/module.cpp:131-139`) a file of the user called `stdlib.ispc` is never listed as a dependency.
    `stdlib_name_wrong`.
265. (`src/expr.cpp:666-722`) once any `operator=` is declared, such as `operator=(Matrix &, const FloatMatrix &)` of
    the documentation, the built-in assignment is gone: **assigning a `Matrix` to a `Matrix`, or any other struct to
    one of its own type, is an error**. `assignment_lost_wrong`.
266. (`src/expr.cpp:2838`, `src/expr.cpp:1728`) `a, b` is an error if one of the operands is a struct: `operator,` is
    looked up, is not declared, and cannot be, because the lexer (`src/lex.ll:396-430`) does not know it.
    `comma_struct_wrong`.
267. (`stdlib/stdlib.ispc:1705-1708`) `reduce_equal(v)` passes the address of a `uniform int8` to the builtin, which
    stores a whole value there (`builtins/generic.ispc:825`, `builtins/util.m4:7055`): **for every type of more than
    one byte it writes up to seven bytes behind the variable**. `reduce_equal_overrun_wrong`.
268. (`src/opt/LowerAMXBuiltinsPass.cpp:51-61`) The search for the tile number goes back to the last plain store to
    the variable and does not see calls or stores through pointers in between: **the instruction can get another tile
    than the program passes**. The inline functions of `amx.isph` do not take the address of their parameter, so this
    needs a call of the `__ispc_amx_` builtins in other code. `escaped_wrong`.
269. (`src/opt/LowerAMXBuiltinsPass.cpp:36-47`) Casts of the stored constant are skipped but not applied: a sign-
    extended `true` is 255 and should be refused, but tile 1 is taken. `cast_wrong`.
270. (`src/stmt.cpp:3399-3411` with `src/stmt.cpp:737-852`, `src/stmt.cpp:985-1021`, `src/stmt.cpp:1931-1990`) The
    bodies of `cif`, `cfor`, `cdo` and `foreach` are emitted two or three times, but a label has one block: **a label
    there, even without a `goto`, is emitted several times into the same block**, behind its terminator. For the two
    copies of a whole function `src/func.cpp:540-545` makes new labels. `copies_wrong`.
271. (`src/stmt.cpp:496-498`) Behind a `goto` or `return` an `if` or a loop is not emitted, although a label in it may
    be jumped to: **the block of the label stays empty**, which is not valid for LLVM. `skipped_wrong`.
272. (`src/stmt.cpp:3327-3348`) `goto` checks that it is itself under uniform control flow, not that its label is:
    **it can jump into the body of a varying `if` or loop without setting the mask**. `into_varying_wrong`.
273. (`src/stmt.cpp:3328-3330`) A `goto` that cannot be reached is not checked; its label need not exist.
    `unreachable_wrong`.
274. (`src/stmt.cpp:3217-3219`) An `unmasked` block that ends with `return`, `break`, `continue` or `goto` does not
    set the mask of the function back. This mask is a value that the compiler keeps while emitting
    (`src/ctx.cpp:446-453`), so that **everything emitted later, for example behind `if (c) { unmasked { return; } }`,
    runs for all program instances, even if the block is never entered**. `mask_lost_wrong`,
    `mask_lost_in_loop_wrong`.

## Observations from reading, not proved

These were seen in the code while it was modelled. They are outside of the model, and no theorem is about them.

* `src/parse.yy:2836-2837`: the declaration in `extern "C" { ... }` and `extern "SYCL" { ... }` with braces has no
  action, so that it is parsed and dropped.
* `src/func.cpp:1108-1115`: printing the instantiations of a template reads `symbol->parentFunction` without a test.
* `src/opt/FastMath.cpp:27-37`: with aggressive fast math the results for NaN and infinity are poison, so that `isnan`
  and the rounding by adding and subtracting a large number (C61) may be folded away.
* `src/preprocessor.cpp:382-438`, `src/preprocessor.cpp:498-499`: `0...MAXI` with a macro `MAXI` is split in the main
  file only, not in included files; the rewriting also applies to the names of headers in `#include <...>`.
* The blocks under `unmasked` can observe values that unmasked stores to local variables left in inactive instances.
* `&&`, `||` and `?:` on short vectors always evaluate both sides.
* A varying call of function pointers that returns a struct with a `uniform` member keeps this member of the last call.

## Axioms per theorem

From `#print axioms` on every theorem named in MANIFEST.json (prefix `Ispc.` dropped).

* Classical.choice, Quot.sound, propext: `Agg.assign_partial`, `Agg.bound_uniform_wrong`, `Agg.first_active`, `Agg.gather_partial`, `Agg.leaves_apart`, `Agg.rep_iff`, `Agg.scatter_frame_partial`, `Agg.scatter_gather_partial`, `Agg.scatter_partial`, `Agg.uniform_struct_wrong`, `Agg.walk_ok`, `Alloc.alloc_defined`, `Alloc.blocks_ok_partial`, `AmxTile.lower_distinct`, `Aos.aos_soa_roundtrip`, `Aos.aos_to_soa_spec`, `Aos.soa_aos_roundtrip`, `AosNets.aos_net_generic`, `AosNets.soa_net_generic`, `Args.all_args_partial`, `Args.cycle_wrong`, `Args.quoting_wrong`, `Args.reads_iff`, `Args.round_trip`, `Args.words_partial`, `Atomics.addGeneric_serial`, `Atomics.addM4_serial`, `Atomics.andM4_serial`, `Atomics.cmpxchgGeneric_all_lanes`, `Atomics.cmpxchgGeneric_inactive_writes`, `Atomics.global_cas_per_lane`, `Atomics.global_cas_varying`, `Atomics.global_fp_per_lane`, `Atomics.global_rmw_varying`, `Atomics.localUniformPtr_steps`, `Atomics.localVaryingPtr_serial`, `Atomics.local_cas_one_winner`, `Atomics.local_serial`, `Atomics.minGlobal_memory_partial`, `Atomics.no_lost_update`, `Atomics.orGeneric_serial`, `Atomics.orM4_serial`, `Atomics.subM4_serial_partial`, `Atomics.swap_serial`, `Atomics.tickets`, `Atomics.xorGeneric_serial`, `Atomics.xorM4_serial`, `Average.downS_exact_partial`, `Average.downS_value`, `Average.matchDown_value`, `Average.matchUp_value`, `Average.replace_sound_partial`, `Average.upS_exact_partial`, `Average.upS_value`, `BitCount.abs_smallest_wrong`, `BitCount.leading_uniform`, `BitCount.leading_varying`, `BitCount.popcnt_uniform`, `BitCount.popcnt_varying`, `BitCount.trailing_uniform`, `BitCount.trailing_varying`, `Blend.direct_partial`, `Blend.interior_wrong`, `Blend.room_partial`, `Blend.variable_index_wrong`, `Blend.vector_partial`, `BlendFns.target_blends`, `Braces.init_rejects_partial`, `Braces.init_spec_partial`, `Braces.unsized_array_accepted`, `Braces.vec_bool_packed`, `Braces.vec_evaluated_twice`, `Braces.vec_missing_poison`, `Coalesce.coalesced`, `Coalesce.coalesced32_partial`, `Coalesce.coalesced64`, `Coalesce.compile_spec`, `Coalesce.group_spec`, `Coalesce.loads_spec`, `Coalesce.negative_constant_wrong`, `Coalesce.run_spec`, `Coalesce.second_gather_wrong`, `Coalesce.unaligned_wrong`, `ConstMask.checkMask_spec`, `ConstMask.load_prefix_partial`, `ConstMask.load_prefix_wrong`, `ConstMask.load_sound`, `ConstMask.maskload_partial`, `ConstMask.maskload_wrong`, `ConstMask.merge_pow`, `ConstMask.merge_three`, `ConstMask.select_wrong`, `ConstMask.store_prefix_partial`, `ConstMask.store_prefix_wrong`, `ConstMask.store_sound`, `Constness.const_kept_partial`, `Constness.struct_assign_iff_partial`, `Declare.default_iff`, `Declare.meaning_unique_partial`, `Declare.param_iff`, `Declare.specs_iff`, `Declare.type_name_partial`, `Declare.variable_partial`, `Detect.detected_best`, `Detect.detected_has`, `Detect.detected_has_partial`, `Detect.detected_vnni_partial`, `Detect.more_features`, `Dispatch.always_same_variant`, `Dispatch.call_completes`, `Dispatch.called_can_run_partial`, `Dispatch.called_is_best`, `Dispatch.never_null`, `Dispatch.terminated_partial`, `Dispatch.trapped_only`, `Div.constant_division`, `Div.division_defined`, `Div.division_result`, `Div.predicated_div_assign_partial`, `Div.predicated_div_assign_undefined`, `Div.quotient_range`, `Div.scalar_spec`, `Div.variable_minus_one_defined`, `Dot.i16i16_sat_iff`, `Dot.i8i8_sat_is_portable`, `Dot.i8i8_sat_partial`, `Dot.native_exact`, `Dot.spec_exact`, `Dot.targets_agree`, `Dot.targets_disagree`, `Dot.u16i16_sat_iff`, `Dot.u8u8_iff`, `EditDistance.distance_spec`, `EditDistance.suggestions_spec`, `Ellipsis.fix_only_spaces`, `Ellipsis.fix_other`, `Ellipsis.fix_spaced`, `Ellipsis.range_tokens`, `Elt.common_partial`, `Elt.common_wrong`, `Elt.equal_wrong`, `Elt.first_insert`, `Elt.first_partial`, `Elt.phi_twice_wrong`, `Elt.regroup_wrong`, `Elt.search_wrong`, `FloatBits.abs_val`, `FloatBits.classes`, `FloatBits.fmod_gang_special_partial`, `FloatBits.fmod_inf_inf_wrong`, `FloatBits.fmod_nan_sign_wrong`, `FloatBits.fmod_pow2_partial`, `FloatBits.fmod_special_partial`, `FloatBits.fmod_wrong`, `FloatBits.fmod_zero_sign_wrong`, `FloatBits.frexp_iff`, `FloatBits.frexp_inf_wrong`, `FloatBits.frexp_partial`, `FloatBits.frexp_zero_wrong`, `FloatBits.iabs_defined`, `FloatBits.isfinite_iff`, `FloatBits.isinf_iff`, `FloatBits.isnan_iff`, `FloatBits.ldexp_denormal_iff`, `FloatBits.ldexp_fast_zero_wrong`, `FloatBits.ldexp_frexp`, `FloatBits.ldexp_iff`, `FloatBits.ldexp_inf_iff`, `FloatBits.ldexp_nan_iff`, `FloatBits.ldexp_partial`, `FloatBits.ldexp_wrong`, `FloatBits.ldexp_zero`, `FloatBits.signbits_val`, `FloatBits.val_inj`, `FloatBits.val_onto`, `FloatBits.val_rep`, `FnPtr.varying_call`, `FnPtr.varying_call_all_off`, `FnPtr.varying_call_converged`, `FnPtr.varying_call_per_instance`, `Fold.constant_folds`, `Fold.double_rounding`, `Fold.foldArith_run`, `Fold.foldCast_run_partial`, `Fold.foldCmp_run`, `Fold.fold_sound_partial`, `Fold.fold_undefined_iff`, `Fold.folded_cast_differs`, `Fold.mixed_logic_crashes`, `Fold.negate_varying_uint16_crashes`, `Fold.no_crash_partial`, `Fold.rne_nearest`, `Fold.truncate_toward_zero`, `Fold.uint16_product`, `Foreach.foreach_covers_domain_once`, `Foreach.foreach_one_dim_once`, `Foreach.foreach_one_dim_rows`, `ForeachActive.activeLanes_spec`, `ForeachActive.foreach_active_all_off`, `ForeachActive.foreach_active_serialises`, `ForeachActive.foreach_unique_groups`, `ForeachActive.foreach_unique_nan_diverges`, `FreeList.exclusive_partial`, `FreeList.exclusive_sequential`, `Gather.addr64_value`, `Gather.fast_masked_load`, `Gather.gather_base32`, `Gather.gather_base64`, `Gather.gather_factored32`, `Gather.gather_factored64`, `Gather.gather_factored_reads_base`, `Gather.gather_ptrs`, `Gather.masked_load`, `Gather.masked_store`, `Gather.masked_store_blend`, `Gather.scatter_factored`, `Gather.scatter_ptrs`, `GatherToLoad.address_32`, `GatherToLoad.address_64`, `GatherToLoad.backward_gather`, `GatherToLoad.backward_scatter`, `GatherToLoad.forward_gather`, `GatherToLoad.forward_scatter`, `GatherToLoad.gather_replacement`, `GatherToLoad.scatter_replacement`, `Goto.filled_once_partial`, `GpuQueue.after_sync_all_ran`, `GpuQueue.barrier_orders_partial`, `GpuQueue.batches_in_order`, `GpuQueue.commands_are_calls`, `GpuQueue.copy_back_after_kernels`, `GpuQueue.copy_ok_partial`, `GpuQueue.elapsed_spec`, `GpuQueue.future_spec`, `GpuQueue.launch_after_copies`, `GpuQueue.launch_throws_iff`, `GpuQueue.no_engine_no_ub`, `GpuQueue.pool_spec`, `GpuQueue.refused_copies_use_up_pool`, `GpuQueue.starts_in_sync`, `GpuQueue.starts_once`, `GpuQueue.sync_can_return`, `GpuQueue.sync_safe_iff`, `Half.float_to_half_fast_nearest`, `Half.float_to_half_nearest`, `Half.float_to_half_special`, `Half.float_to_half_varying_eq`, `Half.half_round_trip`, `Half.half_to_float_fast_normal`, `Half.half_to_float_finite`, `Half.half_to_float_special`, `Header.aligned_struct`, `Header.guards_iff`, `Header.header_layout_partial`, `Header.lp64_good`, `Header.natural_good`, `Header.old_bool_wrong`, `Header.struct_array_wrong`, `Header.varying_pointer_wrong`, `Insts.late_rejected_partial`, `Insts.one_body_partial`, `Insts.one_instance`, `Insts.specialization_partial`, `Insts.terminates`, `IntConst.accept_iff`, `IntConst.accept_value`, `IntConst.dim_iff`, `IntConst.enum_partial`, `IntConst.header_partial`, `IntConst.header_wrong`, `IntConst.labels_partial`, `IntConst.switch_partial`, `IntConst.switch_varying_partial`, `Intrin.blend_store_lanes`, `Intrin.cmpxchg_exchanged_partial`, `Intrin.cmpxchg_iff_partial`, `Intrin.cmpxchg_wrong`, `Intrin.own_function_partial`, `Intrin.packmask_bits`, `Intrin.result_iff_partial`, `Intrin.result_partial`, `Intrin.rmw_as_named`, `Intrin.select_lanes`, `Intrin.type_name_partial`, `LinearSound.all_equal_sound_partial`, `LinearSound.block_aligned`, `LinearSound.linear_sound_partial`, `LinearSound.roundUpPow2_spec`, `Link.all_resolved`, `Link.nearest_linked_partial`, `Link.no_bypass_partial`, `Link.origin_in_chain`, `Link.parent_bypasses_target`, `Literal.decimal_float_wrong`, `Literal.decimal_partial`, `Literal.hex_double_partial`, `Literal.hex_float_partial`, `Literal.hex_underflow_wrong`, `Literal.hex_wrong`, `Literal.integer_partial`, `Literal.kind_spec`, `Literal.leadingZero_crash`, `Literal.leadingZero_octal`, `Literal.octal_wrong`, `Literal.rnd_nearest`, `Literal.string_partial`, `Literal.value_unique`, `Mangle.mangle_eq_iff`, `Mangle.mangles_eq_iff`, `Mangle.overloads_differ_partial`, `Mangle.same_symbol_iff`, `MaskBits.assert_enabled`, `MaskBits.assert_varying`, `MaskBits.queries`, `MaskBits.same_answers`, `MaskBits.stdlib_queries`, `MemOps.memcpy_correct`, `MemOps.memcpy_varying`, `MemOps.memmove_correct`, `MemOps.memmove_varying`, `MemOps.memmove_varying_disjoint`, `MemOps.memset_correct`, `MemOps.memset_varying`, `MemPool.crash_iff`, `MemPool.init_iff`, `MemPool.no_leak_partial`, `MemPool.null_leaks`, `MemPool.numBytes_spec`, `MemPool.refused`, `MemPool.reuse_after_failure`, `MemPool.reuse_partial`, `MemPool.view_aligned`, `MemPool.view_backed`, `MemPool.views_apart`, `Multi.aligned`, `Multi.as_single_partial`, `Multi.defined_once`, `Multi.same_pick`, `Multi.silent_layout`, `Multi.warning_iff_partial`, `New.align_small`, `New.align_wrong`, `New.generic_wrong`, `New.new_aligned_partial`, `New.new_delete`, `New.new_elements_partial`, `New.new_init`, `New.new_uniform_partial`, `New.new_varying`, `New.overflow_wrong`, `New.short_bool_small_wrong`, `New.uniform_fail_wrong`, `Offsets.baseAndOffsets_spec`, `Offsets.element_address32`, `Offsets.element_address64`, `Offsets.extract_low`, `Offsets.extract_sum`, `Offsets.factored32_address_partial`, `Offsets.factored_address_partial`, `Offsets.gather_split_partial`, `Offsets.moreConst_address_partial`, `Offsets.safe32_sum`, `Offsets.scale_spec`, `Offsets.scatter_split_partial`, `Offsets.unfactored32_address_partial`, `Offsets.unfactored_address_partial`, `Offsets.unsigned_minus_one_wrong`, `OpAssign.bits_same`, `OpAssign.bool_wrong`, `OpAssign.div_iff`, `OpAssign.div_wrong`, `OpAssign.float_wrong`, `OpAssign.mod_iff`, `OpAssign.overflow_wrong`, `OpAssign.same_partial`, `OpAssign.shift_same`, `OpAssign.wide_wrong`, `OpAssign.wrap_same`, `Operators.assignment_lost_wrong`, `Operators.comma_struct_wrong`, `Operators.declarable_iff`, `Operators.exact_operator_called_partial`, `Operators.functions_apart`, `Operators.undeclared`, `OutFiles.both_formats_wrong`, `OutFiles.check_accepts`, `OutFiles.check_lowest`, `OutFiles.deps_exact`, `OutFiles.deps_missing_wrong`, `OutFiles.deps_target`, `OutFiles.deps_target_wrong`, `OutFiles.failed_leaves`, `OutFiles.flat_escaped_wrong`, `OutFiles.flat_lines`, `OutFiles.mangle_differs`, `OutFiles.mangle_directory_partial`, `OutFiles.mangle_directory_wrong`, `OutFiles.mangle_injective`, `OutFiles.multi_files_partial`, `OutFiles.multi_stdout`, `OutFiles.multi_succeeds`, `OutFiles.rule_blank_wrong`, `OutFiles.rule_reads_partial`, `OutFiles.stdlib_name_wrong`, `OutFiles.variants_overwrite_wrong`, `OutFiles.wrapper_overwritten_wrong`, `Overload.ambiguous_iff`, `Overload.defaults_free`, `Overload.exact_match_rejected`, `Overload.exact_match_wins_partial`, `Overload.lossy_widens`, `Overload.order_irrelevant`, `Overload.widening_partial`, `Perm.rotateConst_spec`, `Perm.rotateViaShuffle_spec`, `Perm.rotate_spec`, `Perm.shiftViaShuffle_spec`, `Perm.shift_out_of_bounds`, `Perm.shift_spec_partial`, `Perm.shuffle2_spec`, `Perm.shuffle_spec`, `Print.fits`, `Print.printXe_spec`, `Print.print_accepts`, `Print.print_double_overflow`, `Print.print_int64_overflow`, `Print.print_overflow`, `Print.print_partial`, `Print.txt_shows`, `Print.xe_bool_differs`, `Print.xe_same`, `Promote.fits_iff`, `Promote.keeps_values_iff`, `Promote.precedence_partial`, `Promote.same_kind_keeps_values`, `PtrOps.compare_iff`, `PtrOps.compare_partial`, `PtrOps.equal_ok`, `PtrOps.minusAssign_ok`, `PtrOps.plusAssign_ok`, `PtrOps.step_ok`, `PtrOps.steps_partial`, `Redecl.body`, `Redecl.call_accepted_partial`, `Redecl.call_target`, `Redecl.default_partial`, `Redecl.exported_alone`, `Redecl.fn_accepted_iff`, `Redecl.fn_static_partial`, `Redecl.foreign_first`, `Redecl.initial_value`, `Redecl.kinds`, `Redecl.one_body`, `Redecl.read_const`, `Redecl.read_value_partial`, `Redecl.reads_all`, `Redecl.same_params`, `Redecl.single_partial`, `Redecl.static_partial`, `Redecl.var_accepted_iff`, `Redecl.var_types`, `Redecl.writable_partial`, `Reduce.clamp_nan_wrong`, `Reduce.clamp_within_partial`, `Reduce.max_uniform_varying_wrong`, `Reduce.min_max_best_partial`, `Reduce.pickInt_best`, `Reduce.reduce_add_exact_partial`, `Reduce.reduce_float_best_partial`, `Reduce.reduce_float_none`, `Reduce.reduce_int_best`, `Reduce.reduce_min_nan_wrong`, `Reduce.reduction_each_once`, `Reduce.sum_each_once`, `Reduce.sum_minus_zero_wrong`, `Reduce.sum_order_wrong`, `ReduceEqual.reduce_equal_only_partial`, `ReduceEqual.reduce_equal_overrun_wrong`, `ReduceEqual.reduce_equal_to`, `RefCount.copy_of_null`, `RefCount.handles_exact_partial`, `RefCount.handles_safe_partial`, `RefCount.move_assign_leaks`, `RefCount.queue_deletes_live_future`, `Registry.accepted_made`, `Registry.arch_only`, `Registry.arch_parses`, `Registry.builtins_found`, `Registry.chosen_fits`, `Registry.class_of_name`, `Registry.disable_zmm`, `Registry.encode_injective`, `Registry.every_target`, `Registry.name_injective`, `Registry.name_parses`, `Registry.name_parses_old`, `Registry.name_says_width`, `Registry.nozmm_name_wrong`, `Registry.oses_iff`, `Registry.parseOS_iff`, `Registry.supported_iff`, `Registry.target_found`, `Registry.targets_all`, `Registry.targets_empty_wrong`, `Registry.targets_error_iff`, `Registry.targets_list`, `Registry.targets_message`, `Registry.x86_complete`, `Rng.frandom_value`, `RngPeriod.draw_period`, `RngPeriod.seed_zero_short_period`, `RngPeriod.state_period`, `RngPeriod.state_period_z1`, `Rounding.cRound_iff`, `Rounding.cRound_wrong`, `Rounding.call_double_wrong`, `Rounding.call_float_wrong`, `Rounding.call_right_partial`, `Rounding.call_small_partial`, `Rounding.exact_right`, `Rounding.halfRoundVarying_eq`, `Rounding.halfRound_right`, `Rounding.integral_right`, `Rounding.magicCeil_odd_wrong`, `Rounding.magicCeil_partial`, `Rounding.magicCeil_sign_iff`, `Rounding.magicFloor_odd_wrong`, `Rounding.magicFloor_partial`, `Rounding.magicFloor_sign_iff`, `Rounding.magic_odd_wrong`, `Rounding.magic_right_partial`, `Rounding.rep_integral`, `Rounding.right_unique`, `Rounding.rounded_unique`, `Rounding.val_enc`, `Rounding.viaFloat_eq`, `Rounding.xeTrunc_large_wrong`, `Rounding.xeTrunc_right_partial`, `Rounding.xeTrunc_sign_iff`, `Sat.addS_clamps`, `Sat.addU_clamps`, `Sat.avgDownS_exact`, `Sat.avgUpS_exact`, `Sat.divS_clamps`, `Sat.mulS64_clamps`, `Sat.mulS_clamps`, `Sat.mulU64_clamps_partial`, `Sat.mulU_clamps`, `Sat.subS_clamps`, `Sat.subU_clamps`, `Scalarize.pass_sound_partial`, `Scan.all_iff`, `Scan.exclusiveScanM4_spec`, `Scan.exclusiveScan_spec`, `Scan.exclusive_scan_add`, `Scan.exclusive_scan_and`, `Scan.exclusive_scan_or`, `Scan.packed_load_active`, `Scan.packed_load_store`, `Scan.packed_store_active`, `Scan.packed_store_active2`, `Scan.popcntBool_eq`, `Scan.reduceAdd_eq`, `Scan.reduceMaxS_spec`, `Scan.reduceMinS_spec`, `Scan.reduce_equal_generic`, `Scan.reduce_equal_m4`, `Scan.reduce_equal_m4_pairs`, `Sched.can_always_finish`, `Sched.done_below`, `Sched.empty_launch_crash`, `Sched.fair_finishes`, `Sched.no_crash`, `Sched.no_handle_all_finished`, `Sched.only_launched_run`, `Sched.started_at_most_once`, `Sched.sync_waits`, `Sched.threadIndex_wrong`, `Sched.workers_partial`, `ShiftPass.constant_shift_function`, `ShiftPass.constant_shift_partial`, `Short.run_spec`, `Short.short_circuit_partial`, `Short.spec_ser`, `Short.uniform_assigned_iff`, `Soa.accepted_width`, `Soa.access_address_partial`, `Soa.array_of_arrays_aliases`, `Soa.deref_address_partial`, `Soa.elements_disjoint_partial`, `Soa.index_sum_wraps`, `Soa.locate_disjoint`, `Soa.member_matrix_aliases`, `Soa.member_pointer_steps_over`, `Soa.ptrAdd_at`, `Soa.ptrSub_at`, `Soa.whole_load`, `Spmd.active_iff_serial_normal_partial`, `Spmd.coherent_variants_equivalent`, `Spmd.false_test_instance_untouched`, `Spmd.gang_hangs_where_serial_returns`, `Spmd.gang_matches_serial_partial`, `Spmd.gang_returns_serial_results_partial`, `Spmd.hints_do_not_change_results_partial`, `Spmd.inactive_instance_unmodified`, `Spmd.mask_after_loop_or_switch`, `Spmd.mask_after_statement`, `Spmd.mask_at_top_level`, `Spmd.masked_off_instance_untouched`, `Spmd.safe_code_with_mask_off_changes_nothing`, `Spmd.switch_matches_serial_partial`, `Spmd.uniform_loop_leaves_together`, `Spmd.uniform_loop_serial_agreement_partial`, `Spmd.untaken_side_has_no_uniform_effect`, `Spmd.untaken_side_not_executed`, `SrcPos.fails_iff`, `SrcPos.one_line_silenced`, `SrcPos.union_one_line`, `SrcPos.union_starts`, `StoreMask.local_partial`, `Stride.address_partial`, `Stride.bool_diff_wrong`, `Stride.bool_index_wrong`, `Stride.bool_overlap_wrong`, `Stride.component_partial`, `Stride.diff_ok`, `Stride.diff_plus_partial`, `Stride.gather_address_partial`, `Stride.index_ok`, `Stride.lane_ok`, `Stride.minus_ok`, `Stride.plus_ok`, `Stride.short_bool_wrong`, `Stride.size_iff`, `Stride.sizeof_bool_iff`, `Stride.sizeof_stride_partial`, `Swizzle.assignable_iff`, `SymTab.addType_spec`, `SymTab.addVar_spec`, `SymTab.block_restores`, `SymTab.lookupFunction_spec`, `SymTab.lookupType_spec`, `SymTab.lookupVariable_none`, `SymTab.lookupVariable_spec`, `TaskArgs.align_partial`, `TaskArgs.align_wrong`, `TaskArgs.args_partial`, `TaskArgs.block_mask`, `TaskArgs.bool_lane`, `TaskArgs.fine_iff_partial`, `TaskArgs.load_eq`, `TaskArgs.vars`, `TaskSys.task_index_bijection`, `TaskSys.task_index_in_range`, `Templ.complete_partial`, `Templ.explicit_kept`, `Templ.mixed_wrong`, `Templ.order_partial`, `Templ.sound_partial`
* Quot.sound, propext: `Agg.assign_frame_partial`, `Alloc.oversize_overlap`, `AmxTile.chain_accepted`, `AmxTile.constant_accepted`, `AmxTile.escaped_wrong`, `AmxTile.lower_instruction`, `AmxTile.lower_tiles_partial`, `AmxTile.stored_accepted`, `AmxTile.stored_before_accepted`, `AmxTile.tile_value_partial`, `AmxTile.unknown_rejected`, `Aos.soa_to_aos_spec`, `AosNets.aos_to_soa_nets`, `AosNets.soa_to_aos_nets`, `Args.double_wrong`, `Atomics.andGeneric_subtracts`, `Atomics.cas_one_winner`, `Atomics.minGlobal_not_serial`, `Atomics.subM4_not_serial`, `Atomics.subM4_single_lane_adds`, `Atomics.swapDouble_not_swap`, `Average.downU_exact`, `Average.pavg_exact`, `Average.replace_fn`, `Average.replace_none`, `Average.upU_exact`, `BitCount.abs_value`, `BitCount.leading_unique`, `BitCount.trailing_unique`, `Blend.lost_update_wrong`, `Braces.inits_det`, `Braces.size_of_shape`, `Braces.too_many_rejected`, `Braces.varying_count`, `Braces.vec_malformed`, `Braces.vec_out_of_order`, `Braces.vec_silently_uninitialised`, `Braces.vec_too_many_rejected`, `ConstMask.blend_partial`, `ConstMask.movmsk_sound`, `ConstMask.select_partial`, `Constness.array_member_wrong`, `Constness.assign_allowed`, `Constness.bind_const`, `Constness.bind_iff`, `Constness.named_rejected`, `Constness.part_const`, `Constness.pointer_same`, `Constness.pointer_wrong`, `Constness.reference_wrong`, `Declare.void_typedef_wrong`, `Detect.amx_iff`, `Detect.leaf_not_checked`, `Detect.vnni_without_avx2`, `Dispatch.knights_landing_terminates`, `Dispatch.nova_lake_with_tiles`, `Dispatch.unordered_null_call`, `Dispatch.vnni_variant_on_skylake`, `Div.constant_minus_one_inactive_undefined`, `Elt.broadcast`, `Elt.broadcast_base`, `Elt.chain_stops_wrong`, `Elt.defined_wrong`, `Elt.equal_partial`, `Elt.first_keeps`, `Elt.first_valid`, `Elt.holds_of_run`, `Elt.one_value_partial`, `Export.accepted_iff`, `Export.export_alike`, `Export.export_iff`, `Export.return_struct_wrong`, `Export.silent_alike_partial`, `Export.silent_iff`, `FloatBits.abs_or_signbits`, `FloatBits.iabs_val`, `FnPtr.functions_spec`, `Fold.shift_of_negative`, `ForeachActive.foreach_unique_group_unique`, `FreeList.two_owners`, `Gather.addr32_value`, `Gather.scattered_unique`, `GatherToLoad.broadcast_gather`, `GatherToLoad.broadcast_reads`, `GatherToLoad.maskStatus_sound`, `GpuQueue.instances_iff`, `GpuQueue.launch_future`, `Half.half_to_float_varying_eq`, `Header.dispatch_nested_wrong`, `Header.dispatch_once`, `Header.dispatch_types`, `Header.dispatch_uniform_wrong`, `Header.pointer_array_wrong`, `Header.soa_guard_wrong`, `Header.struct_order`, `Header.varying_enum_wrong`, `Header.varying_vector_wrong`, `ImplicitSync.implicit_sync_launch_first`, `ImplicitSync.implicit_sync_partial`, `Insts.recursion_never`, `Insts.recursion_wrong`, `IntConst.enum_accept_iff`, `IntConst.finalize_values`, `Intrin.concat_lanes`, `Intrin.extract2_lane`, `Intrin.fence_as_named`, `Intrin.replaced_partial`, `Intrin.value_type`, `LinearSound.block_sameDiv`, `LinearWrong.accumulate_assertion`, `LinearWrong.blocked_index_wrong`, `LinearWrong.blocked_negative_wrong`, `LinearWrong.mirror_phi_wrong`, `LinearWrong.narrow_index_wrong`, `LinearWrong.ring8_index_wrong`, `LinearWrong.ring_index_wrong`, `LinearWrong.ring_phi_wrong`, `LinearWrong.shifted_phi_wrong`, `Link.parent_same_shape`, `Literal.hexa_string_wrong`, `Literal.overflow_wrong`, `MaskBits.assert_uniform_partial`, `MaskBits.assert_uniform_wrong`, `MaskBits.disabled_assert_partial`, `MaskBits.disabled_assert_wrong`, `MaskBits.other_lanes_wrong`, `MemPool.crash_reachable`, `MemPool.misaligned`, `MemPool.new_fails_iff`, `MemPool.pointer_stays`, `MemPool.size_changes`, `MemPool.view_made`, `Multi.accepted_partial`, `Multi.later_wrong`, `Multi.nested_wrong`, `Multi.restored`, `New.align_valid`, `New.bool_small_wrong`, `New.force_wrong`, `New.init_varying`, `New.smear_delete_wrong`, `Offsets.factor_wrong`, `Offsets.odd_size_wrong`, `Offsets.reassociated_wrong`, `Offsets.scale_values`, `Offsets.scaled_unsigned_wrong`, `Offsets.shift_poison`, `Offsets.truncated_sum_wrong`, `Offsets.unsigned32_wrong`, `Offsets.unsigned_index_poison`, `Once.at_least_once`, `Once.index_often_wrong`, `Once.once_iff`, `Once.once_partial`, `Once.step_twice`, `Operators.arities_apart`, `Operators.builtin_unaffected`, `Operators.called_takes_operands`, `Operators.operator_is_call`, `Overload.atomic_converts`, `Overload.chosen_is_cheapest`, `Overload.chosen_is_unique`, `Overload.many_arguments_rejected`, `Overload.noMatch_iff`, `Overload.no_warning_dominates`, `Overload.number_cost`, `Overload.operands_convert_to_common`, `Overload.varying_argument_needs_varying`, `Perm.broadcast_spec`, `Places.address_partial`, `Places.address_wrong`, `Places.cast_wrong`, `Places.read_partial`, `Places.uniform_same`, `Places.write_partial`, `Places.write_wrong`, `Promote.common_type_no_crash`, `Promote.float16_beats_int32`, `Promote.vector_lengths`, `Promote.vector_scalar`, `Promote.vector_vector`, `Redecl.fn_static_wrong`, `RefCount.copy_assign_leaks`, `Registry.archs_iff`, `Registry.encode_fits`, `Registry.targets_iff`, `Rng.frandom_varying`, `Rng.inactive_state_kept`, `Rng.streams_independent`, `Sat.avgDownU_exact`, `Sat.avgUpU_exact`, `Sat.divU_exact`, `Sat.mulU64_does_not_saturate`, `Scalarize.scalarize_value`, `Scan.any_iff`, `Scan.none_iff`, `Scan.reduceMaxU_spec`, `Scan.reduceMinU_spec`, `Scan.reduce_equal_empty_mask_poison`, `Sched.threadIndex_range`, `ShiftPass.overflow_undefined`, `Short.assignment_runs_anyway`, `Short.guarded_division_by_zero`, `Short.increment_evaluates_index_twice`, `Soa.every_slot`, `Spmd.break_after_varying_continue_loses_lanes`, `Spmd.gangCall_mono`, `Spmd.gang_runs_dead_loop`, `Spmd.loop_not_entered`, `Spmd.predicated_loop_hangs`, `Spmd.switch_case_runs_for_inactive_instance`, `Spmd.uniform_loop_jumps_compile`, `SrcPos.after_marker`, `SrcPos.first_line_silenced_wrong`, `SrcPos.ignore_all_iff`, `SrcPos.ignore_perf_iff`, `SrcPos.limit_errors`, `SrcPos.off_iff`, `SrcPos.pragma_at_end_hangs`, `SrcPos.silent_failure`, `SrcPos.token_place`, `SrcPos.token_place_marker`, `SrcPos.unroll_count`, `SrcPos.written_iff`, `SrcPos.written_once`, `StoreMask.assign_outside`, `StoreMask.deeper_visible`, `StoreMask.global_wrong`, `Stride.at_at`, `Stride.element_leaves`, `Swizzle.arrow_wrong`, `Swizzle.elements_iff`, `Swizzle.index_ok`, `Swizzle.member_lane0`, `Swizzle.member_one`, `Swizzle.member_partial`, `Swizzle.member_rejected`, `Swizzle.write_frame`, `Swizzle.write_ok`, `Swizzle.write_other`, `TaskArgs.mask_iff_partial`, `TaskArgs.mask_wrong`, `TaskArgs.startMask_eq`, `Templ.default_wrong`, `Templ.explicit_all`, `Templ.function_wrong`, `Templ.late_uniform_wrong`, `Templ.table`, `Unmasked.masked_stores`, `Unmasked.unmasked_block_partial`
* none: `AmxTile.cast_wrong`, `AosNets.nets_cover`, `Braces.size_inconsistent_accepted`, `Goto.copies_wrong`, `Goto.unreachable_wrong`, `Mangle.struct_name_collision`, `Mangle.template_collision`, `Once.index_wrong`, `Once.step_wrong`, `SrcPos.union_place_wrong`, `Swizzle.letter_ok`
* propext: `Agg.bool_array_wrong`, `Atomics.subGeneric32_returns_negated`, `Atomics.subGeneric64_not_serial`, `Average.delta0_replaced`, `Average.div3_replaced`, `Average.downS_wrong`, `Average.upS_wrong`, `BitCount.popcnt_accepted`, `BitCount.popcnt_ambiguous_wrong`, `Blend.disabled_never`, `Blend.never_blended`, `BlendFns.noncanonical_differ`, `Coalesce.barrier_wrong`, `Coalesce.half_finished_poison`, `Constness.void_array_wrong`, `Constness.void_pointer`, `Constness.warned_iff`, `Declare.function_crash_wrong`, `Declare.prototype_wrong`, `Declare.qualifier_lost_wrong`, `Declare.star_lost_wrong`, `Declare.stars_ignored_wrong`, `EditDistance.distance_self`, `EditDistance.suggestions_sublist`, `Export.accepted_passed`, `Export.function_wrong`, `Export.reference_wrong`, `Export.soa_pointers_wrong`, `Foreach.foreach_near_int_max_overflows`, `Foreach.inverted_inner_range_runs_body_all_off`, `Goto.duplicate_rejected`, `Goto.goto_checked`, `Goto.into_varying_wrong`, `Goto.skipped_wrong`, `Header.arm_short_wrong`, `Header.hidden_name_wrong`, `Header.short_iff`, `ImplicitSync.missing_sync`, `Insts.constant_wrong`, `Insts.explicit_wrong`, `Insts.return_wrong`, `Insts.unmasked_wrong`, `IntConst.accept_wrong`, `IntConst.enum_scope_wrong`, `IntConst.enum_wrap_wrong`, `IntConst.switch_wide_wrong`, `IntConst.val_of_type`, `Intrin.bitcast_size`, `Intrin.extract_defined`, `Intrin.insert_lanes`, `Intrin.known_names`, `Intrin.own_function_wrong`, `Intrin.result_wrong`, `Intrin.type_name_wrong`, `Link.chain_ends`, `Literal.hexa_wrong`, `Mangle.anonymous_enum_collision`, `Mangle.const_pointer_collision`, `Mangle.function_pointer_collision`, `Mangle.plain_name`, `Mangle.redeclaration_same_symbol`, `Mangle.targets_differ`, `Multi.lowered_wrong`, `Multi.mismatch_wrong`, `Multi.program_count_wrong`, `Multi.reference_wrong`, `Multi.sizeof_wrong`, `Multi.static_wrong`, `New.guide_wrong`, `OpAssign.accepted`, `OpAssign.accepted_iff`, `OpAssign.common_type`, `OutFiles.mangle_plain`, `OutFiles.mangle_suffix`, `OutFiles.unescape_escape`, `Overload.const_beats_reference`, `Overload.documented_ambiguity_compiles`, `Overload.reference_binding`, `Overload.uncallable_irrelevant`, `Places.step_wrong`, `Places.update_same`, `Promote.common_type_self`, `Promote.common_type_symm`, `Promote.common_type_varying`, `Promote.const_depends_on_order`, `Promote.enum_vector_crash`, `PtrOps.compare_wrong`, `PtrOps.offset_wrong`, `PtrOps.plusAssign_same`, `PtrOps.plusAssign_wrong`, `Redecl.const_pointer_wrong`, `Redecl.default_changed_wrong`, `Redecl.default_dropped_wrong`, `Redecl.default_ignored_wrong`, `Redecl.default_unchecked_wrong`, `Redecl.extern_after_wrong`, `Redecl.redefinition_wrong`, `Redecl.static_wrong`, `Registry.cell_iff`, `Registry.one_class`, `Registry.valid_iff`, `Registry.valid_riscv_wrong`, `Scalarize.division_defined`, `Spmd.hang_not_live`, `SrcPos.illegal_column_wrong`, `SrcPos.long_string_place_wrong`, `SrcPos.pragma_step`, `SrcPos.unknown_pragma_place_wrong`, `SrcPos.unroll_text_wrong`, `StoreMask.aggregate_wrong`, `StoreMask.executing_written`, `StoreMask.lanes_iff`, `StoreMask.outside_partial`, `StoreMask.static_ok`, `Stride.sizeof_array`, `Swizzle.letter_iff`, `Swizzle.swizzle_wrong`, `Templ.count_wrong`, `Templ.kind_wrong`, `Templ.long_name_wrong`, `Unmasked.mask_lost_in_loop_wrong`, `Unmasked.mask_lost_wrong`
