{
 "claims": [
  {
   "property": "C01",
   "status": "proved",
   "theorems": [
    "Vir.forEach_visits_once"
   ],
   "note": "For every well-formed platform, policy, callable and range on which for_each is defined (C04)."
  },
  {
   "property": "C02",
   "status": "proved",
   "theorems": [
    "Vir.forEach_writes_back",
    "Vir.forEach_map"
   ],
   "note": "No memory outside the range exists in the model; an access to it is the outcome ub, excluded by the theorem."
  },
  {
   "property": "C03",
   "status": "proved",
   "theorems": [
    "Vir.forEach_no_write"
   ],
   "note": ""
  },
  {
   "property": "C04",
   "status": "proved",
   "theorems": [
    "Vir.forEach_defined_iff",
    "Vir.forEach_safe"
   ],
   "note": "Exact characterisation; flat pointer model (see C47 for the strict one)."
  },
  {
   "property": "C05",
   "status": "partial",
   "theorems": [
    "Vir.forEach_preferAligned_unsafe",
    "Vir.forEach_preferAligned_partial",
    "Vir.forEach_defined_iff",
    "Vir.transform_defined_iff",
    "Vir.transform_preferAligned_partial",
    "Vir.transformReduce_defined_iff",
    "Vir.transformReduce_preferAligned_partial",
    "Vir.preferAligned_short_ranges",
    "Vir.preferAligned_short_reduce"
   ],
   "note": "The property is false of the code. Proved: the exact condition for each of the three algorithms, that ranges of at least one vector are safe at every address, and that no shorter length is (one element less than a vector is the only exception, and not for transform_reduce)."
  },
  {
   "property": "C06",
   "status": "proved",
   "theorems": [
    "Vir.forEach_shapes"
   ],
   "note": ""
  },
  {
   "property": "C07",
   "status": "proved",
   "theorems": [
    "Vir.forEach_assume_traps",
    "Vir.forEach_assume_full_width",
    "Vir.forEach_assume_traps_first",
    "Vir.forEach_assume_widths",
    "Vir.transform_assume_traps",
    "Vir.transform_assume_traps_first",
    "Vir.transform_assume_widths",
    "Vir.transformReduce_assume_traps",
    "Vir.transformReduce_assume_traps_first",
    "Vir.transformReduce_assume_widths",
    "Vir.countIf_assume_traps",
    "Vir.countIf_assume_widths"
   ],
   "note": "for_each, transform, transform_reduce, count_if. The `_traps_first` theorems hold for every action in place of the invocation, also one that is undefined behaviour: so nothing is executed before the trap."
  },
  {
   "property": "C08",
   "status": "proved",
   "theorems": [
    "Vir.forEach_jumptable_irrelevant",
    "Vir.epilogue_jumptable_eq",
    "Vir.prologue_jumptable_eq",
    "Vir.prologueTable_row38"
   ],
   "note": ""
  },
  {
   "property": "C09",
   "status": "partial",
   "theorems": [
    "Vir.constForEach_visits_once_partial",
    "Vir.constForEach_width2_visits_last_twice",
    "Vir.constForEach_not_map"
   ],
   "note": "False of the code for width 2 and even lengths; that case is characterised exactly, all others are proved."
  },
  {
   "property": "C10",
   "status": "proved",
   "theorems": [
    "Vir.transform_maps",
    "Vir.transform_chunks",
    "Vir.transform_forward_overlap"
   ],
   "note": "Run-time branch; transform_forward_overlap shows that the aliasing condition is needed. Ranges with different element types: C71."
  },
  {
   "property": "C100",
   "status": "proved",
   "theorems": [
    "Vir.transform_masked",
    "Vir.transform_masked_sound",
    "Vir.transform_masked_ends",
    "Vir.transform_masked_const",
    "Vir.forEach_masked",
    "Vir.forEach_masked_sound",
    "Vir.countIf_masked",
    "Vir.countIf_masked_sound",
    "Vir.reduce_masked",
    "Vir.reduce_masked_fold",
    "Vir.reduce_masked_sound",
    "Vir.reduce_masked_const",
    "Vir.result_unique",
    "Vir.says_unique",
    "Vir.transform_mandelbrot",
    "Vir.countIf_const_masked",
    "Vir.countIf_const_masked_sound"
   ],
   "note": "For the direction that the call ends, the operands inside loops have to be defined for all element values (as with floating-point numbers). The preconditions of the algorithms are those of C01, C12 and C14. Generators that depend on the lane index are excluded, since their result depends on where an element lands in a simd. count_if in constant evaluation: as for C97."
  },
  {
   "property": "C101",
   "status": "proved",
   "theorems": [
    "Vir.redInts_value",
    "Vir.redInts_defined",
    "Vir.redInts_prod",
    "Vir.prod_condition",
    "Vir.redInts_sequential",
    "Vir.fallback_redOp",
    "Vir.redInts_u16_overflow"
   ],
   "note": "Outside the undefined cases of C16. Sums have their own exact conditions in C70."
  },
  {
   "property": "C102",
   "status": "proved",
   "theorems": [
    "Vir.countIfStruct_spec",
    "Vir.countIfStruct_pieces",
    "Vir.countIfStruct_const_partial",
    "Vir.countIfStruct_const_width2"
   ],
   "note": "Constant evaluation is not part of the claim: the additional theorems say that the same holds there (if the loads are constant expressions) except with width 2 and non-empty arrays of even length, where the last struct is counted twice (C09)."
  },
  {
   "property": "C103",
   "status": "proved",
   "theorems": [
    "Vir.ForEachStruct.forEachStruct_throwing",
    "Vir.ForEachStruct.forEachStruct_propagates",
    "Vir.ForEachStruct.forEachStruct_neverThrows"
   ],
   "note": "Run time only. Where the loads permute the lanes (C53), the structs written back by one invocation are permuted among the positions of that invocation; the theorem says exactly which structs are written."
  },
  {
   "property": "C104",
   "status": "proved",
   "theorems": [
    "Vir.transformArrays_effects",
    "Vir.transformArrays_const_effects",
    "Vir.covers_args"
   ],
   "note": "All members have one type in the model (C71). covers_args spells out that the recorded invocations got every element exactly once."
  },
  {
   "property": "C105",
   "status": "proved",
   "theorems": [
    "Vir.countIfStruct_effects",
    "Vir.countIfStruct_propagates",
    "Vir.countIfStruct_pure"
   ],
   "note": "All members have one type in the model (C71). Run time only; for constant evaluation see C102."
  },
  {
   "property": "C106",
   "status": "proved",
   "theorems": [
    "Vir.forEachStruct_call_count",
    "Vir.countIfStruct_call_count",
    "Vir.transformArrays_call_count",
    "Vir.transformReduceArrays_call_count"
   ],
   "note": "Run time, preconditions of C71, C72, C102, C103. All members have one type in the model (C71)."
  },
  {
   "property": "C107",
   "status": "proved",
   "theorems": [
    "Vir.Threads.forEachStruct_accesses",
    "Vir.Threads.concurrent_struct_calls",
    "Vir.Threads.concurrent_struct_calls_serial",
    "Vir.Threads.parallel_forEachStruct_map",
    "Vir.Threads.concurrent_countIfStruct",
    "Vir.Threads.parallel_countIfStruct",
    "Vir.Threads.disjoint_members_lose_updates"
   ],
   "note": "Extends C86 to arrays of structs: same machine, with loads and stores of single members. All members have one type in the model (C53). The map theorem needs ordered loads as C53 does. Not modelled: callables that access shared memory. count_if as for_each without write-back."
  },
  {
   "property": "C108",
   "status": "proved",
   "theorems": [
    "Vir.ForEachStruct.forEachStruct_policy_irrelevant",
    "Vir.ForEachStruct.forEachStruct_places"
   ],
   "note": "Run time. Makes forEachStruct_map_perm of C53 exact; for ordered loads see forEachStruct_map_partial there. All members have one type in the model (C53)."
  },
  {
   "property": "C109",
   "status": "proved",
   "theorems": [
    "Vir.transformArrays_places",
    "Vir.transformArrays_policy_matters",
    "Vir.transformArrays_short",
    "Vir.transformArrays_perm"
   ],
   "note": "Run time. Makes C71 exact where it is false as stated (unordered loads). During constant evaluation see transformArrays_const_partial (C71). All members have one type in the model (C71)."
  },
  {
   "property": "C11",
   "status": "proved",
   "theorems": [
    "Vir.transform_maps",
    "Vir.transform_chunks"
   ],
   "note": ""
  },
  {
   "property": "C110",
   "status": "proved",
   "theorems": [
    "Vir.transformReduceArrays_places",
    "Vir.transformReduceArrays_places_fold",
    "Vir.transformReduceArrays_address_matters",
    "Vir.transformReduceArrays_short"
   ],
   "note": "Run time. Makes C72 exact where it is false as stated (inputs with and without permuted loads mixed). During constant evaluation see transformReduceArrays_const_fold (C72). Ranges that end at their first aligned address are excluded as in C14. All members have one type in the model (C71)."
  },
  {
   "property": "C12",
   "status": "proved",
   "theorems": [
    "Vir.transform_defined_iff",
    "Vir.transform_safe",
    "Vir.transform_assume_traps"
   ],
   "note": "Exact condition for undefined behaviour (flat pointers)."
  },
  {
   "property": "C13",
   "status": "proved",
   "theorems": [
    "Vir.constTransform_maps",
    "Vir.transform_const_agrees"
   ],
   "note": "Lane-wise operations; flat pointers."
  },
  {
   "property": "C14",
   "status": "proved",
   "theorems": [
    "Vir.transformReduce_grouped",
    "Vir.transformReduce_is_gsum",
    "Vir.transformReduce_const_fold",
    "Vir.transformReduce_assume_traps"
   ],
   "note": "Outside the undefined cases of C16; the simd library's own horizontal reduce is assumed to be a generalized sum (proved for the fallback, C37)."
  },
  {
   "property": "C15",
   "status": "proved",
   "theorems": [
    "Vir.transformReduce_eq_fold",
    "Vir.transformReduce_eq_fold_mixed",
    "Vir.transformReduce_const_fold"
   ],
   "note": "Outside the undefined cases of C16."
  },
  {
   "property": "C16",
   "status": "partial",
   "theorems": [
    "Vir.transformReduce_defined_iff",
    "Vir.transformReduce_safe",
    "Vir.transformReduce_reaches_unreachable"
   ],
   "note": "The property is false of the code; the exact condition for definedness is proved, and a counterexample for each of prefer_aligned and auto_prologue."
  },
  {
   "property": "C17",
   "status": "proved",
   "theorems": [
    "Vir.tree_reduction"
   ],
   "note": ""
  },
  {
   "property": "C18",
   "status": "proved",
   "theorems": [
    "Vir.reduce_is_gsum",
    "Vir.reduce_eq_fold",
    "Vir.reduceDefault_is_gsum",
    "Vir.innerProduct_is_gsum",
    "Vir.innerProduct_eq_fold"
   ],
   "note": "Outside the undefined cases of C16."
  },
  {
   "property": "C19",
   "status": "proved",
   "theorems": [
    "Vir.countIf_spec",
    "Vir.countIf_pieces",
    "Vir.fallbackSum_sumsLanes",
    "Vir.countIf_const_partial",
    "Vir.countIf_const_width2",
    "Vir.countIf_const_wrong"
   ],
   "note": "Run time: complete, exact overflow condition. Constant evaluation inherits the width-2 defect of for_each (C09): exact result proved."
  },
  {
   "property": "C20",
   "status": "proved",
   "theorems": [
    "Vir.Policy.policy_chain_ok_iff",
    "Vir.Policy.policy_properties",
    "Vir.Policy.policy_order_independent"
   ],
   "note": ""
  },
  {
   "property": "C21",
   "status": "proved",
   "theorems": [
    "Vir.BitUtils.detailBitCeil_spec",
    "Vir.BitUtils.detailBitCeil_outside",
    "Vir.BitUtils.simdBitCeil_spec",
    "Vir.BitUtils.simdBitCeil_diverges",
    "Vir.BitUtils.bitFloor_spec",
    "Vir.BitUtils.bitFloor_zero"
   ],
   "note": "Contract proved on the stated domain for every word size; behaviour outside the domain characterised (zero for detail::bit_ceil, non-termination for stdx::detail::bit_ceil)."
  },
  {
   "property": "C22",
   "status": "partial",
   "theorems": [
    "Vir.Permute.simdPermute_spec_partial",
    "Vir.Permute.simdPermute_eq_generic",
    "Vir.Permute.simdPermute_rejects",
    "Vir.Permute.simdPermuteScalar_spec",
    "Vir.Permute.simdPermute_padding",
    "Vir.Permute.simdPermute_padding_partial",
    "Vir.Permute.special_indices"
   ],
   "note": "All implementations, for simd types without padding (the library's own types have none). False of types with padding, where the shufflevector code is wrong for simd_permute_zero (simdPermute_padding; simdPermute_padding_partial says what still holds), and of some rotations with AVX2 (C25)."
  },
  {
   "property": "C23",
   "status": "proved",
   "theorems": [
    "Vir.Permute.duplicateEven_spec",
    "Vir.Permute.duplicateOdd_spec",
    "Vir.Permute.duplicateOdd_odd",
    "Vir.Permute.broadcast_spec",
    "Vir.Permute.reverse_spec",
    "Vir.Permute.reverse_involution",
    "Vir.Permute.swapNeighbors_spec",
    "Vir.Permute.swapNeighbors_involution",
    "Vir.Permute.toU32_spec",
    "Vir.Permute.toI32_spec"
   ],
   "note": "All widths, all N and positions."
  },
  {
   "property": "C24",
   "status": "partial",
   "theorems": [
    "Vir.Permute.rotate_spec_partial",
    "Vir.Permute.rotate_index_iff",
    "Vir.Permute.rotate_negative_wrong",
    "Vir.Permute.rotate_rotate",
    "Vir.Permute.rotate_undo",
    "Vir.Permute.toU64_spec"
   ],
   "note": "True for O >= 0 and for power-of-two widths; false otherwise: exact condition in rotate_index_iff, witness rotate_negative_wrong."
  },
  {
   "property": "C25",
   "status": "partial",
   "theorems": [
    "Vir.Permute.avx_rotate_partial",
    "Vir.Permute.avx_rotate_exact",
    "Vir.Permute.avx_rotate_wrong",
    "Vir.Permute.avx_rotate_negative"
   ],
   "note": "True for 0 <= O < 8. Outside: rejected at compile time (O < 0, O >= 512) or right exactly for the listed offsets."
  },
  {
   "property": "C26",
   "status": "partial",
   "theorems": [
    "Vir.Permute.shift_spec",
    "Vir.Permute.simdShiftIn_lanes",
    "Vir.Permute.simdShiftIn_spec_partial",
    "Vir.Permute.simdShiftIn_negative"
   ],
   "note": "shift proved for all offsets; simd_shift_in for O >= 0, with the exact lanes for all O. For O < 0 the documented result is not what the code computes."
  },
  {
   "property": "C27",
   "status": "partial",
   "theorems": [
    "Vir.Simdize.load_spec_partial",
    "Vir.Simdize.load_unordered",
    "Vir.Simdize.load_wrong",
    "Vir.Simdize.load_permutation"
   ],
   "note": "Proved for every width, member count, contents and path except three floats with eight lanes. There the code loads lane i from struct 3*i mod 8 (load_unordered, load_wrong), so the property is false of the code; load_permutation holds on all paths."
  },
  {
   "property": "C28",
   "status": "proved",
   "theorems": [
    "Vir.Simdize.store_spec",
    "Vir.Simdize.store_oob"
   ],
   "note": "All paths, all widths and member counts."
  },
  {
   "property": "C29",
   "status": "partial",
   "theorems": [
    "Vir.Simdize.store_load_partial",
    "Vir.Simdize.load_store_partial",
    "Vir.Simdize.load_then_store",
    "Vir.Simdize.store_then_load",
    "Vir.Simdize.load_oob",
    "Vir.Simdize.store_oob",
    "Vir.Simdize.load_local",
    "Vir.Simdize.store_load_wrong"
   ],
   "note": "Both round trips are proved on all paths except three floats with eight lanes; there load_then_store and store_then_load say exactly what happens, and store_load_wrong shows that memory changes. The number of structs read and written is proved on all paths."
  },
  {
   "property": "C30",
   "status": "partial",
   "theorems": [
    "Vir.Flat.count_eq",
    "Vir.Flat.flatGet_partial",
    "Vir.Flat.flatGet_reached_partial",
    "Vir.Flat.flatElement_all_iff",
    "Vir.Flat.flatGet_of_elements",
    "Vir.Flat.flatGet_rejects",
    "Vir.Flat.flatElement_flatGet",
    "Vir.Flat.flatGet_wrong",
    "Vir.Flat.flatGet_single",
    "Vir.Flat.flatElement_iff",
    "Vir.Flat.flatElement_correct"
   ],
   "note": "False in general: flat_get passes the wrong offset when it recurses past a nested first member (flatGet_wrong). Proved exactly for which nestings all types flat_element<I> exist (flatElement_all_iff, the types the vectorisation of struct templates accepts), and that flat_get<I> is right for all of them (flatGet_of_elements). A member that wraps a single leaf is returned as a whole. For every single index it is proved when flat_element<I> exists and which member it is (flatElement_iff), always the right one (flatElement_correct)."
  },
  {
   "property": "C31",
   "status": "proved",
   "theorems": [
    "Vir.StructSize.structSizeV_largest",
    "Vir.StructSize.structSizeV_members",
    "Vir.StructSize.structSizeV_exact",
    "Vir.StructSize.structSizeV_gap",
    "Vir.StructSize.structSizeV_bound"
   ],
   "note": "The acceptance of n initialisers by the compiler is a parameter. The interval hypothesis is needed (structSizeV_gap) and so is the bound of 8 * sizeof (structSizeV_bound)."
  },
  {
   "property": "C32",
   "status": "proved",
   "theorems": [
    "Vir.Simd.concat_spec",
    "Vir.Simd.concatArray_spec",
    "Vir.Simd.splitSizes_spec",
    "Vir.Simd.splitParts_spec",
    "Vir.Simd.concat_splitSizes",
    "Vir.Simd.splitSizes_concat",
    "Vir.Simd.concatArray_splitParts",
    "Vir.Simd.splitParts_concatArray",
    "Vir.Simd.splitOne_spec"
   ],
   "note": "All of fallback simd.h's concat and split overloads, every size list."
  },
  {
   "property": "C33",
   "status": "proved",
   "theorems": [
    "Vir.Simd.simdResize_spec",
    "Vir.Simd.maskResize_spec",
    "Vir.Simd.simdSizeCast_spec",
    "Vir.Simd.maskSizeCast_spec",
    "Vir.Simd.sizeCast_eq_resize",
    "Vir.Simd.resize_round_trip",
    "Vir.Simd.resize_resize"
   ],
   "note": "All widths and lane values; fallback path of the mask size cast."
  },
  {
   "property": "C34",
   "status": "proved",
   "theorems": [
    "Vir.Simd.toBitset_spec",
    "Vir.Simd.toSimdMask_spec",
    "Vir.Simd.toSimdMask_toBitset",
    "Vir.Simd.toBitset_toSimdMask",
    "Vir.Simd.reductions_toBitset"
   ],
   "note": "Fallback path; bitsets as natural numbers."
  },
  {
   "property": "C35",
   "status": "proved",
   "theorems": [
    "Vir.Simd.all_of_iff",
    "Vir.Simd.any_of_iff",
    "Vir.Simd.none_of_iff",
    "Vir.Simd.some_of_iff",
    "Vir.Simd.popcount_spec",
    "Vir.Simd.mask_reductions_consistent",
    "Vir.Simd.mask_reductions_scalar"
   ],
   "note": "Fallback simd_mask of vir/simd.h, all widths."
  },
  {
   "property": "C36",
   "status": "proved",
   "theorems": [
    "Vir.Simd.find_first_set_spec",
    "Vir.Simd.find_last_set_spec",
    "Vir.Simd.find_set_bool"
   ],
   "note": "Fallback simd_mask, all widths; the bool overloads do not check their precondition (find_set_bool)."
  },
  {
   "property": "C37",
   "status": "proved",
   "theorems": [
    "Vir.Simd.reduceV_is_gsum",
    "Vir.Simd.reduceV_eq_fold",
    "Vir.Simd.reduceV_meets_HReduce",
    "Vir.Simd.hmin_spec",
    "Vir.Simd.hmax_spec",
    "Vir.Simd.reduceInt_value",
    "Vir.Simd.reduceInt_defined",
    "Vir.Simd.reduceInt_sum_fits",
    "Vir.Simd.reduceInt_prod_fits"
   ],
   "note": "Fallback reduce, hmin and hmax, every width. Integer element types with the function objects of the standard: the value (sum/product modulo 2^bits, and/or/xor per bit), when it is always defined, when it is exact."
  },
  {
   "property": "C38",
   "status": "proved",
   "theorems": [
    "Vir.Simd.reduceMasked_spec",
    "Vir.Simd.reduceMasked_all",
    "Vir.Simd.reduceMaskedDefault_value",
    "Vir.Simd.reduceMaskedDefault_defined_iff",
    "Vir.Simd.reduceMaskedDefault_defined",
    "Vir.Simd.reduceMaskedDefault_sum",
    "Vir.Simd.reduceMaskedDefault_prod",
    "Vir.Simd.identity_neutral",
    "Vir.Simd.reduceMaskedDefault_none",
    "Vir.Simd.reduceMaskedDefault_all",
    "Vir.Simd.reduce_order_matters",
    "Vir.Simd.reduce_u16_product_undefined"
   ],
   "note": "Masked reduce over const_where_expression. Overloads with a default identity element for every integer element type: value, exact condition for being defined, neutrality of the identity elements, agreement with reduce(v, op)."
  },
  {
   "property": "C39",
   "status": "partial",
   "theorems": [
    "Vir.Simd.hminMasked_spec",
    "Vir.Simd.hmaxMasked_spec",
    "Vir.Simd.hminMasked_least_partial",
    "Vir.Simd.hmaxMasked_greatest_partial",
    "Vir.Simd.hminMasked_not_least"
   ],
   "note": "True as stated when no selected value lies beyond numeric_limits max/lowest; the unrestricted claim is false for infinities (witness hminMasked_not_least)."
  },
  {
   "property": "C40",
   "status": "proved",
   "theorems": [
    "Vir.Simd.whereAssign_spec",
    "Vir.Simd.whereOpAssign_spec",
    "Vir.Simd.whereOpAssign_ub",
    "Vir.Simd.whereIncDec_spec",
    "Vir.Simd.whereCopyFrom_spec",
    "Vir.Simd.whereCopyFrom_oob",
    "Vir.Simd.whereNeg_spec",
    "Vir.Simd.constWhereCopyFrom_spec",
    "Vir.Simd.whereCopyTo_spec",
    "Vir.Simd.whereAssignSelf_eq",
    "Vir.Simd.whereBool_spec"
   ],
   "note": "All masked operations of the fallback where expressions."
  },
  {
   "property": "C41",
   "status": "proved",
   "theorems": [
    "Vir.Convert.valuePreserving_iff",
    "Vir.Convert.valuePreserving_bool",
    "Vir.Convert.acceptsBroadcast_preserves",
    "Vir.Convert.acceptsBroadcast_iff",
    "Vir.Convert.acceptsConversion_preserves",
    "Vir.Convert.acceptsBroadcast_int"
   ],
   "note": "Finite values; every rounding mode for the comparisons of limits. int is accepted whatever the element type (acceptsBroadcast_int)."
  },
  {
   "property": "C42",
   "status": "proved",
   "theorems": [
    "Vir.Literal.parse_literal",
    "Vir.Literal.parse_value",
    "Vir.Literal.parse_accepts",
    "Vir.Literal.parse_too_large",
    "Vir.Literal.parse_only",
    "Vir.Literal.typeOf_smallest",
    "Vir.Literal.parse_limits"
   ],
   "note": "Every integer literal of any length, with separators anywhere. Zero is accepted only in the spelling 0; the prefix 0B is rejected (parse_limits)."
  },
  {
   "property": "C43",
   "status": "proved",
   "theorems": [
    "Vir.Version.eq_iff",
    "Vir.Version.ne_iff",
    "Vir.Version.lt_iff",
    "Vir.Version.le_iff",
    "Vir.Version.gt_ge_iff",
    "Vir.Version.order_total",
    "Vir.Version.spaceship_agrees",
    "Vir.Version.versionOf_encode",
    "Vir.Version.encode_versionOf",
    "Vir.Version.encode_lt_iff",
    "Vir.Version.current_version"
   ],
   "note": "Both the written operators and the defaulted <=>."
  },
  {
   "property": "C44",
   "status": "proved",
   "theorems": [
    "Vir.Simd.min_max_lanewise",
    "Vir.Simd.minmax_sorted",
    "Vir.Simd.minmax_zeros",
    "Vir.Simd.clamp_spec",
    "Vir.Simd.clamp_undefined"
   ],
   "note": "Fallback min, max, minmax, clamp."
  },
  {
   "property": "C45",
   "status": "proved",
   "theorems": [
    "Vir.BitCast.floatAnd_spec",
    "Vir.BitCast.floatOr_spec",
    "Vir.BitCast.floatXor_spec",
    "Vir.BitCast.float_op_laws",
    "Vir.BitCast.float_abs",
    "Vir.BitCast.float_negate",
    "Vir.BitCast.float_copysign"
   ],
   "note": "Lanes are bit patterns of any byte width, both paths (whole-object cast and lane by lane)."
  },
  {
   "property": "C46",
   "status": "proved",
   "theorems": [
    "Vir.Simd.iotaSimd_spec",
    "Vir.Simd.iotaSimd_int",
    "Vir.Simd.iotaSimd_value",
    "Vir.Simd.iota_agree",
    "Vir.Simd.iota_wraps"
   ],
   "note": "Lane i is i whenever the element type can hold the lane numbers; iota_wraps shows that the hypothesis is needed."
  },
  {
   "property": "C47",
   "status": "partial",
   "theorems": [
    "Vir.forEach_strict_defined_iff",
    "Vir.constForEach_strict_defined_iff"
   ],
   "note": "The property is false of the code (last - size is formed unconditionally at run time, first + (size - 1) in constant evaluation); the theorems give the exact conditions."
  },
  {
   "property": "C48",
   "status": "partial",
   "theorems": [
    "Vir.transformReduce_types",
    "Vir.reduce_types",
    "Vir.innerProduct_types",
    "Vir.transformReduce_gsum_partial",
    "Vir.transformReduce_prologue_narrow",
    "Vir.transformReduce_mixed"
   ],
   "note": "Calls whose transformed elements have one type compile only if that is the type of init, so that C14 applies to them as it is. False of the code for a transform_op with result types that depend on the width, together with prefer_aligned or auto_prologue and an operation that does not commute with the conversion (counterexample proved)."
  },
  {
   "property": "C49",
   "status": "proved",
   "theorems": [
    "Vir.BitCast.bitCast_spec",
    "Vir.BitCast.bitCast_size",
    "Vir.BitCast.bitCast_round_trip",
    "Vir.BitCast.bitCast_same"
   ],
   "note": "Little-endian objects without padding (fallback simd)."
  },
  {
   "property": "C50",
   "status": "partial",
   "theorems": [
    "Vir.Simd.binary_spec",
    "Vir.Simd.binary_ub",
    "Vir.Simd.unsigned_add_sub_wrap",
    "Vir.Simd.unsigned_mul_wrap_partial",
    "Vir.Simd.mul_u16_undefined",
    "Vir.Simd.shiftBy_spec",
    "Vir.Simd.compound_eq_binary",
    "Vir.Simd.neg_spec",
    "Vir.Simd.compl_spec",
    "Vir.Simd.step_spec",
    "Vir.Simd.compound_ub",
    "Vir.Simd.shiftBy_ub",
    "Vir.Simd.neg_ub",
    "Vir.Simd.step_ub"
   ],
   "note": "Everything but the multiplication of unsigned short, which the code gets wrong (undefined overflow of the promoted operands): mul_u16_undefined."
  },
  {
   "property": "C51",
   "status": "proved",
   "theorems": [
    "Vir.Simd.compare_spec",
    "Vir.Simd.compareWith_spec",
    "Vir.Simd.notSimd_spec",
    "Vir.Simd.maskBinary_spec",
    "Vir.Simd.maskNot_spec",
    "Vir.Simd.mask_laws"
   ],
   "note": "Comparisons of integers against the relations of the integers, of other element types against the built-in comparison of the elements."
  },
  {
   "property": "C52",
   "status": "proved",
   "theorems": [
    "Vir.Simd.broadcast_spec",
    "Vir.Simd.staticSimdCast_spec",
    "Vir.Simd.staticSimdCast_int",
    "Vir.Simd.load_spec",
    "Vir.Simd.load_oob",
    "Vir.Simd.maskedLoad_spec",
    "Vir.Simd.copyTo_spec",
    "Vir.Simd.store_load"
   ],
   "note": "Element conversions abstract except for the integer casts."
  },
  {
   "property": "C53",
   "status": "partial",
   "theorems": [
    "Vir.ForEachStruct.forEachStruct_visits",
    "Vir.ForEachStruct.forEachStruct_map_partial",
    "Vir.ForEachStruct.forEachStruct_map_perm",
    "Vir.ForEachStruct.forEachStruct_no_write",
    "Vir.ForEachStruct.forEachStruct_defined",
    "Vir.ForEachStruct.forEachStruct_scrambles",
    "Vir.ForEachStruct.forEachStruct_const_visits_partial",
    "Vir.ForEachStruct.forEachStruct_const_width2",
    "Vir.ForEachStruct.forEachStruct_const_map_partial"
   ],
   "note": "The in-place claim is false of the code for templates of three floats with eight lanes (witness forEachStruct_scrambles); there the array is permuted (forEachStruct_map_perm). Constant evaluation: forEachStruct_const_*; with two lanes and arrays of even length the last struct is visited twice (C09)."
  },
  {
   "property": "C54",
   "status": "proved",
   "theorems": [
    "Vir.forEach_throwing",
    "Vir.forEach_propagates",
    "Vir.forEach_neverThrows"
   ],
   "note": "Run time, under the preconditions of C01."
  },
  {
   "property": "C55",
   "status": "proved",
   "theorems": [
    "Vir.transform_effects",
    "Vir.transform_order_observable"
   ],
   "note": "Run time, under the preconditions of C10. State that the operation keeps inside itself is copied with the operation in the code (by-value parameter) and lost; the state of the model is external (captured by reference)."
  },
  {
   "property": "C56",
   "status": "partial",
   "theorems": [
    "Vir.transform_strict_defined_iff",
    "Vir.transformReduce_strict_defined_iff",
    "Vir.transform_forms_bad_pointer",
    "Vir.transformReduce_forms_bad_pointer",
    "Vir.constTransform_strict_defined_iff"
   ],
   "note": "The property is false of the code; exact conditions at run time and witnesses are proved."
  },
  {
   "property": "C57",
   "status": "proved",
   "theorems": [
    "Vir.transformRanges_maps",
    "Vir.transformRanges_defined_iff",
    "Vir.zipSize_spec",
    "Vir.transformZip_maps",
    "Vir.transformZip_defined_iff",
    "Vir.transformZip_empty"
   ],
   "note": "Run time, preconditions on alignment and aliasing as in C10."
  },
  {
   "property": "C58",
   "status": "proved",
   "theorems": [
    "Vir.SimdizeTy.simdize_leaves"
   ],
   "note": "Class templates must be uniform (instantiating with simdized arguments simdizes the members)."
  },
  {
   "property": "C59",
   "status": "partial",
   "theorems": [
    "Vir.SimdizeTy.simdize_vectorizes_iff",
    "Vir.SimdizeTy.simdize_ill_formed_iff",
    "Vir.SimdizeTy.simdize_unchanged",
    "Vir.SimdizeTy.simdize_fallback",
    "Vir.SimdizeTy.simdize_stays_scalar",
    "Vir.SimdizeTy.simdize_hard_error"
   ],
   "note": "True with the fallback simd; false with libstdc++ and AVX-512, exact conditions for structs that are no templates."
  },
  {
   "property": "C60",
   "status": "partial",
   "theorems": [
    "Vir.SimdizeTy.simdize_template_flat_partial",
    "Vir.SimdizeTy.simdize_template_nested_wrong",
    "Vir.SimdizeTy.simdize_flat_template",
    "Vir.SimdizeTy.simdize_flat_template_fallback",
    "Vir.SimdizeTy.simdize_template_default_width_wrong",
    "Vir.SimdizeTy.same_iff",
    "Vir.SimdizeTy.simdize_inconsistent_template",
    "Vir.SimdizeTy.simdize_template_iff",
    "Vir.SimdizeTy.simdize_wrapped_template"
   ],
   "note": "False of the code for templates with nested structs (witness) and for flat templates whose default width is not available although the width asked for is (witness). simdize_template_iff is the exact condition for any nesting; simdize_wrapped_template shows that wrappers with one member satisfy it to any depth. For flat templates the exact result is proved; with the fallback simd the property holds for all of them."
  },
  {
   "property": "C61",
   "status": "proved",
   "theorems": [
    "Vir.Simd.math1_spec",
    "Vir.Simd.math2_spec",
    "Vir.Simd.math3_spec",
    "Vir.Simd.frexp_spec",
    "Vir.Simd.remquo_spec",
    "Vir.Simd.modf_spec",
    "Vir.Simd.compoundS_spec",
    "Vir.Simd.stepS_spec",
    "Vir.Simd.math_lanes"
   ],
   "note": "The scalar functions are arbitrary; IEEE arithmetic itself is not modelled."
  },
  {
   "property": "C62",
   "status": "partial",
   "theorems": [
    "Vir.Simd.absInt_spec_partial",
    "Vir.Simd.absInt_lowest",
    "Vir.Simd.absInt_exact"
   ],
   "note": "False for the lowest value of the type, see disagreement 24."
  },
  {
   "property": "C63",
   "status": "partial",
   "theorems": [
    "Vir.Simd.toFixedSize_spec_partial",
    "Vir.Simd.toDefaultAbi_spec",
    "Vir.Simd.toDefaultAbi_keeps_iff"
   ],
   "note": "False of to_native and to_compatible, see disagreement 25."
  },
  {
   "property": "C64",
   "status": "proved",
   "theorems": [
    "Vir.transformReduce_effects",
    "Vir.transformReduce_const_effects",
    "Vir.transformReduce_throws_iff",
    "Vir.transformReduceE_pure"
   ],
   "note": "Run time under the preconditions of C14, and constant evaluation. The horizontal reduce(v, reduce_op) of the simd implementation counts as one invocation; C80 opens it up. State is external to the operations (captured by reference)."
  },
  {
   "property": "C65",
   "status": "proved",
   "theorems": [
    "Vir.StructReflect.structGet_spec",
    "Vir.StructReflect.structGet_assign",
    "Vir.StructReflect.toTupleRef_spec",
    "Vir.StructReflect.toTuple_spec",
    "Vir.StructReflect.toTuple_move_only",
    "Vir.StructReflect.toPair_spec",
    "Vir.StructReflect.structGet_limit",
    "Vir.StructReflect.structGet_single_const"
   ],
   "note": "Up to the 50 members for which specializations exist; see disagreement 27 for constness and the limit. A member is one memory cell; volatile is not modelled."
  },
  {
   "property": "C66",
   "status": "partial",
   "theorems": [
    "Vir.SimdTuple.construct_spec",
    "Vir.SimdTuple.construct_iff",
    "Vir.SimdTuple.construct_toStruct",
    "Vir.SimdTuple.copyTo_spec",
    "Vir.SimdTuple.copyFrom_spec",
    "Vir.SimdTuple.copyFrom_nested",
    "Vir.SimdTuple.getMember_subscript",
    "Vir.SimdTuple.flatSubscript_eq",
    "Vir.SimdTuple.opMixed_spec"
   ],
   "note": "copy_from is proved for structs without nested structs and is ill-formed for all others (disagreement 28). Compound assignments are not part of vectorized_struct."
  },
  {
   "property": "C67",
   "status": "partial",
   "theorems": [
    "Vir.Cw.compile_spec",
    "Vir.Cw.candidates_unique_iff",
    "Vir.Cw.callOp_const",
    "Vir.Cw.callOp_plain",
    "Vir.Cw.callOp_value",
    "Vir.Cw.callOp_not_const",
    "Vir.Cw.unary_run_time",
    "Vir.Cw.indexOp_spec",
    "Vir.Cw.binary_ambiguous",
    "Vir.Cw.arrowOp_spec",
    "Vir.Cw.arrowOp_iff",
    "Vir.Cw.arrowOp_differs"
   ],
   "note": "Operators are proved in full. False of calls: with constant arguments and a result that is no constant, a wrapped function object cannot be called (callOp_not_const), see disagreement 29, which also lists ambiguous operators outside the property's quantifier. False of `->` for pointers and for an operator-> that returns an object (arrowOp_iff says exactly when it holds), see disagreement 56."
  },
  {
   "property": "C68",
   "status": "proved",
   "theorems": [
    "Vir.countIf_effects",
    "Vir.countIf_propagates",
    "Vir.countIf_pure"
   ],
   "note": "Run-time evaluation (an exception during constant evaluation is a compile-time error). The predicate is instrumented to log its invocations; if a counter overflowed before the exception the execution is undefined, as in C19. The log is shown to be a sequence of successive invocations with threaded state."
  },
  {
   "property": "C69",
   "status": "proved",
   "theorems": [
    "Vir.transformReduceRanges_effects",
    "Vir.transformReduceRanges_const_effects",
    "Vir.transformReduceRanges_value",
    "Vir.transformReduceRanges_short",
    "Vir.transformReduceRanges_defined_iff"
   ],
   "note": "At run time under the conditions of C14 (the prologue reaches an aligned address, and does not consume the whole range), which C16 shows to be necessary. The over-read is the behaviour of the code: nothing documents or checks that the second range must be long enough (nor do the range overloads of transform, C57)."
  },
  {
   "property": "C70",
   "status": "proved",
   "theorems": [
    "Vir.sumInts_wraps",
    "Vir.sumInts_defined",
    "Vir.sumInts_condition",
    "Vir.sumInts_value",
    "Vir.sumInts_condition_needed",
    "Vir.sumInts_widening",
    "Vir.sumInts_order_overflow",
    "Vir.sumInts_prologue_overflow"
   ],
   "note": "Integer arithmetic as in C50 (promotion, wrapping, undefined signed overflow), aggregation as in C14. sumInts_condition_needed shows that the condition is the weakest one that does not depend on the order of the additions."
  },
  {
   "property": "C71",
   "status": "partial",
   "theorems": [
    "Vir.transformArrays_partial",
    "Vir.transformArrays_const_partial",
    "Vir.written_unique",
    "Vir.transformArrays_wrong"
   ],
   "note": "The full statement is false of the code: transformArrays_wrong is a counterexample with three floats and eight lanes. It is proved for all element types whose loads keep the order. What happens in the other cases is C109."
  },
  {
   "property": "C72",
   "status": "partial",
   "theorems": [
    "Vir.transformReduceArrays_gsum_partial",
    "Vir.transformReduceArrays_fold_partial",
    "Vir.transformReduceArrays_const_fold",
    "Vir.transformReduceArrays_effects_partial",
    "Vir.transformReduceArrays_const_effects",
    "Vir.transformReduceArrays_each_once_partial",
    "Vir.transformReduceArrays_rows_partial",
    "Vir.transformReduceArrays_wrong"
   ],
   "note": "The full statement is false of the code: transformReduceArrays_wrong is a counterexample (points and weights on AVX). The value is proved if all loads permute alike (always so with one range), the order of the elements if no load permutes, that every element is seen once for all loads (together with those of the same index if all loads permute alike), constant evaluation without condition. The exact value in the other cases is C110."
  },
  {
   "property": "C73",
   "status": "partial",
   "theorems": [
    "Vir.SimdExpr.simdExpr_spec",
    "Vir.SimdExpr.simdExpr_ub",
    "Vir.SimdExpr.hasValue_unique",
    "Vir.SimdExpr.simdExpr_plain",
    "Vir.SimdExpr.plain_simdExpr",
    "Vir.SimdExpr.simdExpr_narrow",
    "Vir.SimdExpr.avg_differs",
    "Vir.SimdExpr.guarded_differs",
    "Vir.SimdExpr.diffMul_differs"
   ],
   "note": "The lane-by-lane value and the exact condition for undefined behaviour are proved for all expressions; equality with code on numbers is false for narrow types (avg_differs, diffMul_differs) and selections (guarded_differs). One element type per expression, no floating point."
  },
  {
   "property": "C74",
   "status": "proved",
   "theorems": [
    "Vir.transform_expr",
    "Vir.transform_expr_ub",
    "Vir.transform_expr_const",
    "Vir.transform_expr_const_ub",
    "Vir.forEach_expr",
    "Vir.forEach_expr_ub",
    "Vir.sum_expr_defined",
    "Vir.sum_expr_wraps",
    "Vir.exprTrans_simd"
   ],
   "note": "transform with input ranges as in C10; for_each at run time (constant evaluation with size 2 is wrong, C09). Inputs, result and expression have one integer type."
  },
  {
   "property": "C75",
   "status": "partial",
   "theorems": [
    "Vir.Traits.isSimd_partial",
    "Vir.Traits.isSimdMask_partial",
    "Vir.Traits.isSimd_not_exact",
    "Vir.Traits.isSimd_complete",
    "Vir.Traits.isSimdFlagType_false",
    "Vir.Traits.simdSize_spec",
    "Vir.Traits.simdSize_defined",
    "Vir.Traits.deduce_partial",
    "Vir.Traits.deduce_wraps",
    "Vir.Traits.native_spec",
    "Vir.Traits.native_large",
    "Vir.Traits.native_exceeds",
    "Vir.Traits.rebind_spec",
    "Vir.Traits.rebind_defined",
    "Vir.Traits.rebind_self",
    "Vir.Traits.rebind_rebind",
    "Vir.Traits.resize_spec",
    "Vir.Traits.resize_defined",
    "Vir.Traits.resize_resize",
    "Vir.Traits.resize_self_partial",
    "Vir.Traits.resize_self_false",
    "Vir.Traits.resize_deduce",
    "Vir.Traits.rebind_resize",
    "Vir.Traits.maskType_spec",
    "Vir.Traits.maskMembers_iff",
    "Vir.Traits.memoryAlignment_spec",
    "Vir.Traits.memoryAlignment_defined",
    "Vir.Traits.isLoadStore_spec",
    "Vir.Traits.concepts_partial",
    "Vir.Traits.sized_concepts_partial",
    "Vir.Traits.anySimd_not_exact"
   ],
   "note": "False of the code as stated: is_simd, is_simd_mask and the concepts accept cv-qualified element types (also const bool) and, for the traits, sizes below one; deduce_t wraps for N >= 2^31 and has a type for N = 0; resize_simd_t<1, fixed_size_simd<T, 1>> changes the type; is_simd_flag_type is false of everything. Each is proved with a witness; everything else is proved for all types and sizes."
  },
  {
   "property": "C76",
   "status": "partial",
   "theorems": [
    "Vir.Casts.asInt_spec",
    "Vir.Casts.asUnsigned_spec",
    "Vir.Casts.asInt_exists",
    "Vir.Casts.asInt_asUnsigned",
    "Vir.Casts.asInt_long",
    "Vir.Casts.convertible_iff_partial",
    "Vir.Casts.convertible_char",
    "Vir.Casts.sumType_spec",
    "Vir.Casts.rank_spec",
    "Vir.Casts.arith_names",
    "Vir.Casts.arith_injective"
   ],
   "note": "as_int and as_unsigned: complete. Implicit conversions: false of the code for char, signed char and unsigned char (same rank, same values, no conversion), proved with a witness; the exact condition is proved for all other pairs. __int128 is not an element type of the conversions in the model."
  },
  {
   "property": "C77",
   "status": "partial",
   "theorems": [
    "Vir.Casts.staticCastType_simd",
    "Vir.Casts.staticSimdCast_size",
    "Vir.Casts.staticCastType_mask",
    "Vir.Casts.maskCast_spec",
    "Vir.Casts.maskToSimd_exists",
    "Vir.Casts.simdCastType_spec",
    "Vir.Casts.cvt_simd",
    "Vir.Casts.cvt_mask",
    "Vir.Casts.cvt_sizes"
   ],
   "note": "False of the code: static_simd_cast (and so cvt) accepts simd types with another number of lanes; with fewer the other lanes are dropped, with more the subscript check fails. Both proved for all sizes. Masks can be cast to simds. The rest is proved."
  },
  {
   "property": "C78",
   "status": "proved",
   "theorems": [
    "Vir.AlgoTypes.transform_compiles_iff",
    "Vir.AlgoTypes.transformReduce_compiles_iff",
    "Vir.transform_types",
    "Vir.transform_single_type",
    "Vir.transformReduce_types",
    "Vir.transformReduce_single_type",
    "Vir.transformReduce_takes_values",
    "Vir.reduce_types",
    "Vir.reduce_types_op",
    "Vir.innerProduct_types",
    "Vir.reduce_wider_init",
    "Vir.reduce_simds_only",
    "Vir.transformReduce_mixed",
    "Vir.reduce_vectorizable",
    "Vir.innerProduct_vectorizable",
    "Vir.transformReduce_prologue_type",
    "Vir.binaryOp_converts"
   ],
   "note": "For the simd of vir/simd.h. In libstdc++ too, simd<U, scalar> has no conversion to simd<T, scalar>, so that the first conditions are necessary there as well; its horizontal reduce calls the operation with simd objects only."
  },
  {
   "property": "C79",
   "status": "partial",
   "theorems": [
    "Vir.Precondition.check_holds",
    "Vir.Precondition.check_stops",
    "Vir.Precondition.check_off",
    "Vir.Precondition.check_constexpr",
    "Vir.Precondition.check_run_time_partial",
    "Vir.Precondition.check_compile_time",
    "Vir.Precondition.check_warned_not_documented",
    "Vir.Precondition.check_other_compilers",
    "Vir.Precondition.check_clang_without_gnu",
    "Vir.Precondition.subscript_message",
    "Vir.Precondition.findFirstSet_message",
    "Vir.Precondition.assume_message_undefined",
    "Vir.Precondition.subscript_in_range",
    "Vir.Precondition.subscript_out_of_range",
    "Vir.Precondition.subscript_default",
    "Vir.Precondition.subscript_off",
    "Vir.Precondition.findFirstSet_checked",
    "Vir.Precondition.assumeMatching_holds",
    "Vir.Precondition.assumeMatching_traps",
    "Vir.Precondition.assumeMatching_print_undefined",
    "Vir.Precondition.subscript_prints",
    "Vir.Precondition.subscriptScalar_checked",
    "Vir.Precondition.subscriptScalar_eq",
    "Vir.Precondition.findFirstSet_prints",
    "Vir.Precondition.assume_message_otherwise"
   ],
   "note": "False of the code: at levels 4 and 5 the message of assume_matching_size is an invalid printf format (undefined behaviour, assumeMatching_print_undefined); a program compiled with a warning traps at every level (check_warned_not_documented); compilers without __GNUC__ print and abort instead of trapping. Everything else of the table is proved. What the optimizer can tell is a parameter."
  },
  {
   "property": "C80",
   "status": "proved",
   "theorems": [
    "Vir.reduce_calls",
    "Vir.reduceCalls_defined",
    "Vir.reduceCalls_pure",
    "Vir.reduceMasked_calls",
    "Vir.reduce_calls_short",
    "Vir.transformReduce_calls",
    "Vir.transformReduce_const_calls"
   ],
   "note": "State is external to the operations (captured by reference). The order of evaluation of the two recursive reductions is a parameter (per width). For transform_reduce the result type of transform_op is a simd of the aggregation type, the only case that compiles (C78)."
  },
  {
   "property": "C81",
   "status": "proved",
   "theorems": [
    "Vir.forEach_call_count",
    "Vir.forEach_call_count_matching",
    "Vir.transform_call_count",
    "Vir.transform_call_count_matching",
    "Vir.countIf_call_count",
    "Vir.countIf_call_count_matching",
    "Vir.transformReduce_call_count",
    "Vir.transformReduce_call_count_matching"
   ],
   "note": "Preconditions of C01, C10, C14; at run time (constant evaluation, where speed does not matter, is not covered). The bound on the invocations of reduce_op is for calls that return normally."
  },
  {
   "property": "C82",
   "status": "proved",
   "theorems": [
    "Vir.forEach_policy_irrelevant",
    "Vir.transform_policy_irrelevant",
    "Vir.countIf_policy_irrelevant",
    "Vir.transformReduce_policy_irrelevant",
    "Vir.forEach_eq_transform_in_place",
    "Vir.reduce_transform_eq_transformReduce",
    "Vir.countIf_eq_transformReduce",
    "Vir.transform_fusion",
    "Vir.reduce_policy_matters",
    "Vir.forEach_policy_matters"
   ],
   "note": "At run time, under the preconditions of C04, C12, C16. In countIf_eq_transformReduce the sum is over mathematical integers and the count is assumed to be representable in int (otherwise count_if overflows, C19)."
  },
  {
   "property": "C83",
   "status": "partial",
   "theorems": [
    "Vir.StructMembers.accepts_iff",
    "Vir.StructMembers.structSizeOf_members",
    "Vir.StructMembers.structSizeOf_rejecting",
    "Vir.StructMembers.structSizeOf_many_bases",
    "Vir.StructMembers.structSizeOf_derived",
    "Vir.StructMembers.structSizeOf_plain",
    "Vir.StructMembers.structSizeOf_plain_empty",
    "Vir.StructMembers.structGetOf_members",
    "Vir.StructMembers.structGetOf_derived"
   ],
   "note": "Proved for the supported classes, with the exact result for the others. Refuted for classes whose members all come from one base class (structSizeOf_derived, structGetOf_derived). What a single member accepts is a parameter, except for plain nested structs."
  },
  {
   "property": "C84",
   "status": "partial",
   "theorems": [
    "Vir.SimdizeTy.simdizeSize_spec",
    "Vir.SimdizeTy.simdizeSize_zero",
    "Vir.SimdizeTy.simdizeSize_ill_formed_iff",
    "Vir.SimdizeTy.simdizeSize_simdize",
    "Vir.SimdizeTy.simdizeSize_simdize_plain"
   ],
   "note": "Proved for all types without empty structs; ill-formed for exactly the others."
  },
  {
   "property": "C85",
   "status": "partial",
   "theorems": [
    "Vir.WhereRhs.assign_spec",
    "Vir.WhereRhs.opAssign_spec",
    "Vir.WhereRhs.opAssign_ub",
    "Vir.WhereRhs.assign_few_lanes",
    "Vir.WhereRhs.assign_many_lanes",
    "Vir.WhereRhs.assign_narrows",
    "Vir.WhereRhs.scalar_simd_agree",
    "Vir.WhereRhs.scalar_shift",
    "Vir.WhereRhs.common_type",
    "Vir.WhereRhs.scalar_unsigned",
    "Vir.WhereRhs.scalar_simd_differ"
   ],
   "note": "The effect on the lanes is proved for all integral types, masks and kinds of right-hand sides with enough lanes. False of the code: a simd with another number of lanes is accepted (fewer lanes fail a check at run time, more are dropped); a narrowing scalar is accepted. Scalar and simd where agree for +=, -= and *= and provably differ for /= and >>=. Floating-point elements are not modelled here."
  },
  {
   "property": "C86",
   "status": "proved",
   "theorems": [
    "Vir.Threads.forEach_accesses",
    "Vir.Threads.transform_accesses",
    "Vir.Threads.concurrent_calls",
    "Vir.Threads.concurrent_calls_serial",
    "Vir.Threads.parallel_forEach_map",
    "Vir.Threads.overlapping_calls_lose_updates",
    "Vir.Threads.concurrent_countIf",
    "Vir.Threads.parallel_countIf",
    "Vir.Threads.transformReduce_stable",
    "Vir.Threads.transformReduce_accesses",
    "Vir.Threads.concurrent_transformReduce",
    "Vir.Threads.concurrent_transformReduce_fold",
    "Vir.Threads.transformReduce_torn"
   ],
   "note": "The calls are the programs of element accesses that the algorithm models of for_each and transform yield; threads interleave single accesses (sequential consistency, which the C++ memory model grants to programs without data races; freedom of races is part of the theorem). concurrent_calls: safety, old-or-new, finished as if alone; concurrent_calls_serial: any serial order; parallel_forEach_map: map split over threads; overlapping_calls_lose_updates: the condition is needed. concurrent_countIf, parallel_countIf: count_if as for_each without write-back. transform_reduce is not a list of instructions but a reader whose k-th access is to the memory after any steps of the other threads: transformReduce_stable, concurrent_transformReduce(_fold); transformReduce_accesses: number of accesses, however memory changes; transformReduce_torn: the condition is needed. Not modelled: callables that access shared memory."
  },
  {
   "property": "C87",
   "status": "partial",
   "theorems": [
    "Vir.Resolve.iterator_forms",
    "Vir.Resolve.range_forms",
    "Vir.Resolve.range_forms_partial",
    "Vir.Resolve.zip_form",
    "Vir.Resolve.std_iterator_forms",
    "Vir.Resolve.std_noMatch",
    "Vir.Resolve.transform_c_arrays",
    "Vir.Resolve.transformReduce_c_arrays",
    "Vir.Resolve.vir_noMatch",
    "Vir.Resolve.never_ambiguous",
    "Vir.Resolve.resolve_best"
   ],
   "note": "Iterator and zip_view forms hold without exception. The range forms are false of the code: range_forms is the exact condition, range_forms_partial the sub-domain (class-type ranges with a common end and an lvalue output) on which the property holds, transform_c_arrays and transformReduce_c_arrays the failures."
  },
  {
   "property": "C88",
   "status": "partial",
   "theorems": [
    "Vir.Convert.generate_partial",
    "Vir.Convert.generate_iff",
    "Vir.Convert.broadcastVal_iff",
    "Vir.Convert.generate_wrong",
    "Vir.Convert.castTo_exact",
    "Vir.Convert.castTo_changes"
   ],
   "note": "False of the code for generators with index-dependent types (witness); generate_iff and broadcastVal_iff are exact conditions. NaN and infinities are not modelled."
  },
  {
   "property": "C89",
   "status": "proved",
   "theorems": [
    "Vir.fadd_error",
    "Vir.fmul_error",
    "Vir.gsum_float_error",
    "Vir.hreduce_float_error",
    "Vir.transformReduce_float_error",
    "Vir.reduce_float_error",
    "Vir.innerProduct_float_error",
    "Vir.transformReduce_float_loop",
    "Vir.exists_nearest",
    "Vir.reduce_float_differs"
   ],
   "note": "Preconditions of C16 (RunOk). Finite values only: NaN, infinities and the sign of zero are not modelled; overflow is excluded by the bound. No contraction of products and sums to fused operations."
  },
  {
   "property": "C90",
   "status": "proved",
   "theorems": [
    "Vir.Benchmarking.fakeRead_all",
    "Vir.Benchmarking.fakeRead_determines",
    "Vir.Benchmarking.fakeModify_all",
    "Vir.Benchmarking.fakeModify_unchanged",
    "Vir.Benchmarking.fakeModify_arbitrary",
    "Vir.Benchmarking.fakeRead_registers",
    "Vir.Benchmarking.fakeModify_registers"
   ],
   "note": "The compiler's view of an asm statement is modelled (operands, in/out, constraint alternatives); padding between the elements of a _SimdTuple is not."
  },
  {
   "property": "C91",
   "status": "proved",
   "theorems": [
    "Vir.Permute.simdPermute_comp",
    "Vir.Permute.simdPermute_perm",
    "Vir.Permute.simdPermute_undo",
    "Vir.Permute.simdPermute_map",
    "Vir.Permute.simdPermute_zipWith",
    "Vir.Permute.shiftIn_eq_shift",
    "Vir.Permute.shiftIn_shift_negative",
    "Vir.Permute.shiftIn_self_eq_rotate",
    "Vir.Permute.shift_shift"
   ],
   "note": "For objects without padding (C22 says what happens with padding) and rotations the AVX2 code handles rightly (C25)."
  },
  {
   "property": "C92",
   "status": "partial",
   "theorems": [
    "Vir.StructTypes.structElement_spec",
    "Vir.StructTypes.structElement_partial",
    "Vir.StructTypes.structElement_declared_iff",
    "Vir.StructTypes.structElement_ref",
    "Vir.StructTypes.structGetType_spec",
    "Vir.StructTypes.asTuple_spec",
    "Vir.StructTypes.asTuple_exists",
    "Vir.StructTypes.asPair_spec",
    "Vir.StructTypes.structElement_asTuple"
   ],
   "note": "False of the code for members that are references (structElement_declared_iff, structElement_ref), for volatile T that is no lvalue reference (asTuple_exists), and for rvalues with a single member (structGetType_spec); otherwise exact."
  },
  {
   "property": "C93",
   "status": "proved",
   "theorems": [
    "Vir.forEach_autoPrologue",
    "Vir.transform_autoPrologue",
    "Vir.forEach_nothingToAlign",
    "Vir.transform_nothingToAlign",
    "Vir.forEach_fullWidth_aligned",
    "Vir.transform_fullWidth_aligned",
    "Vir.transformReduce_fullWidth_aligned"
   ],
   "note": "Run-time branch; the example beside the theorems shows that beyond 4000 bytes the number of invocations can change."
  },
  {
   "property": "C94",
   "status": "proved",
   "theorems": [
    "Vir.transform_groupwise",
    "Vir.transform_sequential",
    "Vir.transform_const_sequential",
    "Vir.transform_not_sequential"
   ],
   "note": "Run-time branch under the preconditions CallOk (C82), constant evaluation for the forgiving pointer model."
  },
  {
   "property": "C95",
   "status": "proved",
   "theorems": [
    "Vir.prog_lanes",
    "Vir.prog_unique",
    "Vir.prog_undefined",
    "Vir.prog_sound",
    "Vir.prog_sound_masked",
    "Vir.masked_body",
    "Vir.simd_gcd"
   ],
   "note": "Programs are an inductive type run with the modelled operators; a lane's meaning is given by relations on numbers in Verif/Spec/SimdProg.lean. All simds of a program have one width. Integer element types only."
  },
  {
   "property": "C96",
   "status": "proved",
   "theorems": [
    "Vir.transform_prog",
    "Vir.transform_prog_const",
    "Vir.forEach_prog",
    "Vir.transform_prog_sound",
    "Vir.forEach_prog_sound",
    "Vir.progValue_unique",
    "Vir.transform_gcd"
   ],
   "note": "The callable is the program of C95 on the argument simds with zero-initialised local variables; the number of tests of loop conditions is bounded by a fuel, and the theorems are for all fuel from some number on. Integer element types, ranges of one type."
  },
  {
   "property": "C97",
   "status": "proved",
   "theorems": [
    "Vir.countIf_partialPred",
    "Vir.countIf_defined",
    "Vir.countIf_prog",
    "Vir.countIf_prog_sound",
    "Vir.countIf_coprime",
    "Vir.countIf_unlogged",
    "Vir.countIf_const_partialPred",
    "Vir.countIf_const_defined",
    "Vir.countIf_const_prog",
    "Vir.countIf_const_prog_sound",
    "Vir.countIfC_pure",
    "Vir.countIf_const_width2_pieces",
    "Vir.countIf_const_width2_defined"
   ],
   "note": "Run time and constant evaluation; in constant evaluation simds of width 2 with a non-empty range of even length are excluded, for which the result is wrong already with total predicates (C19); countIf_const_width2_pieces and countIf_const_width2_defined say what is counted then. At run time an undefined invocation ends the execution, modelled like an exception that carries the kind of undefined behaviour; loops have a fuel as in C96."
  },
  {
   "property": "C98",
   "status": "proved",
   "theorems": [
    "Vir.sum_prog_defined",
    "Vir.sum_prog_wraps",
    "Vir.sum_prog_sound",
    "Vir.sum_gcd",
    "Vir.sum_prog_const"
   ],
   "note": "Transformed elements and init of the same type (C78 says when they can differ), range lengths that the alignment prologue neither exceeds nor ends at (C70, C14) at run time. An undefined invocation makes all lanes of its result undefined, and every lane is added to the result; loops have a fuel as in C96."
  },
  {
   "property": "C99",
   "status": "proved",
   "theorems": [
    "Vir.lanes_noLoops",
    "Vir.lanes_sound",
    "Vir.lanes_masked",
    "Vir.lanes_unique",
    "Vir.lanes_complete",
    "Vir.lanes_ends",
    "Vir.simd_mandelbrot"
   ],
   "note": "The operations on elements are parameters, which may be undefined for some values. All simds of a program have one width. Extends C95 (integers) to any element type, nested masked loops, local variables and masked assignments to masks."
  }
 ]
}
