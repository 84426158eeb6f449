import Verif.Props.Policy
import Verif.Props.Platform
import Verif.Props.ForEach
import Verif.Props.Transform
import Verif.Props.TransformReduce
import Verif.Props.Reduce
import Verif.Props.BitUtils
import Verif.Props.Mask
import Verif.Props.Split
import Verif.Props.HReduce
import Verif.Props.Where
import Verif.Props.CountIf
import Verif.Props.Permute
import Verif.Props.Resize
import Verif.Props.Bitset
import Verif.Props.Version
import Verif.Props.BitCast
import Verif.Props.Iota
import Verif.Props.SimdOps
import Verif.Props.SimdOpsUndefined
import Verif.Props.Literal
import Verif.Props.StructSize
import Verif.Props.ValuePreserving
import Verif.Props.FlatGet
import Verif.Props.Simdize
import Verif.Props.ForEachStruct
import Verif.Props.Throwing
import Verif.Props.StrictPtr
import Verif.Props.Overloads
import Verif.Props.SimdizeType
import Verif.Props.SimdMath
import Verif.Props.ReduceEffects
import Verif.Props.StructReflect
import Verif.Props.SimdTuple
import Verif.Props.ConstexprWrapper
import Verif.Props.CountIfEffects
import Verif.Props.ReduceRanges
import Verif.Props.IntReduce
import Verif.Props.ArrayAlgorithms
import Verif.Props.ReduceArrays
import Verif.Props.SimdExpr
import Verif.Props.PartialOps
import Verif.Props.Traits
import Verif.Props.Casts
import Verif.Props.AlgoTypes
import Verif.Props.Precondition
import Verif.Props.ReduceCalls
import Verif.Props.CallCount
import Verif.Props.Relations
import Verif.Props.StructMembers
import Verif.Props.SimdizeSize
import Verif.Props.WhereRhs
import Verif.Props.SimdizeTemplate
import Verif.Props.Concurrent
import Verif.Props.ShortRanges
import Verif.Props.Resolve
import Verif.Props.SimdizeWrap
import Verif.Props.Language
import Verif.Props.Generator
import Verif.Props.ConcurrentCount
import Verif.Props.ConcurrentReduce
import Verif.Props.FloatSum
import Verif.Props.Benchmarking
import Verif.Props.PermuteAlgebra
import Verif.Props.StructTypes
import Verif.Props.AssumeMatching
import Verif.Props.AlignmentModifiers
import Verif.Props.Overlap
import Verif.Props.SimdProg
import Verif.Props.ProgOps
import Verif.Props.CountIfPartial
import Verif.Props.ProgReduce
import Verif.Props.ResolveUnique
import Verif.Props.LaneProg
import Verif.Props.MaskedOps
import Verif.Props.MaskedReduce
import Verif.Props.CountIfConst
import Verif.Props.IntHReduce
import Verif.Props.IntReduceOps
import Verif.Props.CountIfStruct
import Verif.Props.ForEachStructConst
import Verif.Props.ThrowingStruct
import Verif.Props.ThrowingArrays
import Verif.Props.CountIfStructEffects
import Verif.Props.CallCountStruct
import Verif.Props.ConcurrentStruct
import Verif.Props.ConcurrentStructCount
import Verif.Props.StructPieces
import Verif.Props.ArrayPlaces
import Verif.Props.ReducePlaces
import Verif.Props.PlacesDiffer
import Verif.Props.PlacesShort
import Verif.Props.PlacesPerm

/-! The axioms every claimed theorem depends on. Generated by tools/audit.py from MANIFEST.json. -/

-- C01 (proved): for_each visits every element exactly once, in order
#print axioms Vir.forEach_visits_once

-- C02 (proved): for_each writes back exactly what the callable left in its arguments
#print axioms Vir.forEach_writes_back
#print axioms Vir.forEach_map

-- C03 (proved): for_each leaves the range untouched when the callable takes values or const references
#print axioms Vir.forEach_no_write

-- C04 (proved): for_each accesses only the range, uses aligned accesses only at aligned addresses and never reaches unreachable code
#print axioms Vir.forEach_defined_iff
#print axioms Vir.forEach_safe

-- C05 (partial): prefer_aligned is safe on short ranges
#print axioms Vir.forEach_preferAligned_unsafe
#print axioms Vir.forEach_preferAligned_partial
#print axioms Vir.transform_defined_iff
#print axioms Vir.transform_preferAligned_partial
#print axioms Vir.transformReduce_defined_iff
#print axioms Vir.transformReduce_preferAligned_partial
#print axioms Vir.preferAligned_short_ranges
#print axioms Vir.preferAligned_short_reduce

-- C06 (proved): shape of the simd arguments
#print axioms Vir.forEach_shapes

-- C07 (proved): assume_matching_size
#print axioms Vir.forEach_assume_traps
#print axioms Vir.forEach_assume_full_width
#print axioms Vir.forEach_assume_traps_first
#print axioms Vir.forEach_assume_widths
#print axioms Vir.transform_assume_traps
#print axioms Vir.transform_assume_traps_first
#print axioms Vir.transform_assume_widths
#print axioms Vir.transformReduce_assume_traps
#print axioms Vir.transformReduce_assume_traps_first
#print axioms Vir.transformReduce_assume_widths
#print axioms Vir.countIf_assume_traps
#print axioms Vir.countIf_assume_widths

-- C08 (proved): jump tables implement the generic prologue and epilogue
#print axioms Vir.forEach_jumptable_irrelevant
#print axioms Vir.epilogue_jumptable_eq
#print axioms Vir.prologue_jumptable_eq
#print axioms Vir.prologueTable_row38

-- C09 (partial): constant-evaluated for_each agrees with run-time for_each
#print axioms Vir.constForEach_visits_once_partial
#print axioms Vir.constForEach_width2_visits_last_twice
#print axioms Vir.constForEach_not_map

-- C10 (proved): transform equals the element-wise map, for any number of input ranges
#print axioms Vir.transform_maps
#print axioms Vir.transform_chunks
#print axioms Vir.transform_forward_overlap

-- C11 (proved): transform returns the end of the output range

-- C12 (proved): transform is memory safe
#print axioms Vir.transform_safe

-- C13 (proved): constant-evaluated transform agrees with run-time transform
#print axioms Vir.constTransform_maps
#print axioms Vir.transform_const_agrees

-- C14 (proved): transform_reduce computes a generalized sum
#print axioms Vir.transformReduce_grouped
#print axioms Vir.transformReduce_is_gsum
#print axioms Vir.transformReduce_const_fold

-- C15 (proved): transform_reduce equals the sequential fold for associative and commutative operations
#print axioms Vir.transformReduce_eq_fold
#print axioms Vir.transformReduce_eq_fold_mixed

-- C16 (partial): transform_reduce never reaches unreachable code
#print axioms Vir.transformReduce_safe
#print axioms Vir.transformReduce_reaches_unreachable

-- C17 (proved): tree reduction of the unrolled accumulators
#print axioms Vir.tree_reduction

-- C18 (proved): reduce and the default inner product
#print axioms Vir.reduce_is_gsum
#print axioms Vir.reduce_eq_fold
#print axioms Vir.reduceDefault_is_gsum
#print axioms Vir.innerProduct_is_gsum
#print axioms Vir.innerProduct_eq_fold

-- C19 (proved): count_if counts
#print axioms Vir.countIf_spec
#print axioms Vir.countIf_pieces
#print axioms Vir.fallbackSum_sumsLanes
#print axioms Vir.countIf_const_partial
#print axioms Vir.countIf_const_width2
#print axioms Vir.countIf_const_wrong

-- C20 (proved): execution policy modifiers compose as documented
#print axioms Vir.Policy.policy_chain_ok_iff
#print axioms Vir.Policy.policy_properties
#print axioms Vir.Policy.policy_order_independent

-- C21 (proved): bit_ceil and bit_floor
#print axioms Vir.BitUtils.detailBitCeil_spec
#print axioms Vir.BitUtils.detailBitCeil_outside
#print axioms Vir.BitUtils.simdBitCeil_spec
#print axioms Vir.BitUtils.simdBitCeil_diverges
#print axioms Vir.BitUtils.bitFloor_spec
#print axioms Vir.BitUtils.bitFloor_zero

-- C22 (partial): simd_permute semantics, identical on all implementation paths
#print axioms Vir.Permute.simdPermute_spec_partial
#print axioms Vir.Permute.simdPermute_eq_generic
#print axioms Vir.Permute.simdPermute_rejects
#print axioms Vir.Permute.simdPermuteScalar_spec
#print axioms Vir.Permute.simdPermute_padding
#print axioms Vir.Permute.simdPermute_padding_partial
#print axioms Vir.Permute.special_indices

-- C23 (proved): predefined permutations duplicate_even / duplicate_odd / broadcast / reverse / swap_neighbors
#print axioms Vir.Permute.duplicateEven_spec
#print axioms Vir.Permute.duplicateOdd_spec
#print axioms Vir.Permute.duplicateOdd_odd
#print axioms Vir.Permute.broadcast_spec
#print axioms Vir.Permute.reverse_spec
#print axioms Vir.Permute.reverse_involution
#print axioms Vir.Permute.swapNeighbors_spec
#print axioms Vir.Permute.swapNeighbors_involution
#print axioms Vir.Permute.toU32_spec
#print axioms Vir.Permute.toI32_spec

-- C24 (partial): rotate
#print axioms Vir.Permute.rotate_spec_partial
#print axioms Vir.Permute.rotate_index_iff
#print axioms Vir.Permute.rotate_negative_wrong
#print axioms Vir.Permute.rotate_rotate
#print axioms Vir.Permute.rotate_undo
#print axioms Vir.Permute.toU64_spec

-- C25 (partial): AVX2 rotate fast path
#print axioms Vir.Permute.avx_rotate_partial
#print axioms Vir.Permute.avx_rotate_exact
#print axioms Vir.Permute.avx_rotate_wrong
#print axioms Vir.Permute.avx_rotate_negative

-- C26 (partial): shift and simd_shift_in
#print axioms Vir.Permute.shift_spec
#print axioms Vir.Permute.simdShiftIn_lanes
#print axioms Vir.Permute.simdShiftIn_spec_partial
#print axioms Vir.Permute.simdShiftIn_negative

-- C27 (partial): simdized structs: loading transposes an array of structs
#print axioms Vir.Simdize.load_spec_partial
#print axioms Vir.Simdize.load_unordered
#print axioms Vir.Simdize.load_wrong
#print axioms Vir.Simdize.load_permutation

-- C28 (proved): simdized structs: storing transposes back
#print axioms Vir.Simdize.store_spec
#print axioms Vir.Simdize.store_oob

-- C29 (partial): simdized struct load/store round trip
#print axioms Vir.Simdize.store_load_partial
#print axioms Vir.Simdize.load_store_partial
#print axioms Vir.Simdize.load_then_store
#print axioms Vir.Simdize.store_then_load
#print axioms Vir.Simdize.load_oob
#print axioms Vir.Simdize.load_local
#print axioms Vir.Simdize.store_load_wrong

-- C30 (partial): flattened member access
#print axioms Vir.Flat.count_eq
#print axioms Vir.Flat.flatGet_partial
#print axioms Vir.Flat.flatGet_reached_partial
#print axioms Vir.Flat.flatElement_all_iff
#print axioms Vir.Flat.flatGet_of_elements
#print axioms Vir.Flat.flatGet_rejects
#print axioms Vir.Flat.flatElement_flatGet
#print axioms Vir.Flat.flatGet_wrong
#print axioms Vir.Flat.flatGet_single
#print axioms Vir.Flat.flatElement_iff
#print axioms Vir.Flat.flatElement_correct

-- C31 (proved): struct_size finds the number of members
#print axioms Vir.StructSize.structSizeV_largest
#print axioms Vir.StructSize.structSizeV_members
#print axioms Vir.StructSize.structSizeV_exact
#print axioms Vir.StructSize.structSizeV_gap
#print axioms Vir.StructSize.structSizeV_bound

-- C32 (proved): split and concat are mutually inverse and order preserving
#print axioms Vir.Simd.concat_spec
#print axioms Vir.Simd.concatArray_spec
#print axioms Vir.Simd.splitSizes_spec
#print axioms Vir.Simd.splitParts_spec
#print axioms Vir.Simd.concat_splitSizes
#print axioms Vir.Simd.splitSizes_concat
#print axioms Vir.Simd.concatArray_splitParts
#print axioms Vir.Simd.splitParts_concatArray
#print axioms Vir.Simd.splitOne_spec

-- C33 (proved): simd_resize and simd_size_cast
#print axioms Vir.Simd.simdResize_spec
#print axioms Vir.Simd.maskResize_spec
#print axioms Vir.Simd.simdSizeCast_spec
#print axioms Vir.Simd.maskSizeCast_spec
#print axioms Vir.Simd.sizeCast_eq_resize
#print axioms Vir.Simd.resize_round_trip
#print axioms Vir.Simd.resize_resize

-- C34 (proved): bitset conversions
#print axioms Vir.Simd.toBitset_spec
#print axioms Vir.Simd.toSimdMask_spec
#print axioms Vir.Simd.toSimdMask_toBitset
#print axioms Vir.Simd.toBitset_toSimdMask
#print axioms Vir.Simd.reductions_toBitset

-- C35 (proved): mask reductions
#print axioms Vir.Simd.all_of_iff
#print axioms Vir.Simd.any_of_iff
#print axioms Vir.Simd.none_of_iff
#print axioms Vir.Simd.some_of_iff
#print axioms Vir.Simd.popcount_spec
#print axioms Vir.Simd.mask_reductions_consistent
#print axioms Vir.Simd.mask_reductions_scalar

-- C36 (proved): find_first_set and find_last_set
#print axioms Vir.Simd.find_first_set_spec
#print axioms Vir.Simd.find_last_set_spec
#print axioms Vir.Simd.find_set_bool

-- C37 (proved): horizontal reduce of a simd
#print axioms Vir.Simd.reduceV_is_gsum
#print axioms Vir.Simd.reduceV_eq_fold
#print axioms Vir.Simd.reduceV_meets_HReduce
#print axioms Vir.Simd.hmin_spec
#print axioms Vir.Simd.hmax_spec
#print axioms Vir.Simd.reduceInt_value
#print axioms Vir.Simd.reduceInt_defined
#print axioms Vir.Simd.reduceInt_sum_fits
#print axioms Vir.Simd.reduceInt_prod_fits

-- C38 (proved): masked reduce
#print axioms Vir.Simd.reduceMasked_spec
#print axioms Vir.Simd.reduceMasked_all
#print axioms Vir.Simd.reduceMaskedDefault_value
#print axioms Vir.Simd.reduceMaskedDefault_defined_iff
#print axioms Vir.Simd.reduceMaskedDefault_defined
#print axioms Vir.Simd.reduceMaskedDefault_sum
#print axioms Vir.Simd.reduceMaskedDefault_prod
#print axioms Vir.Simd.identity_neutral
#print axioms Vir.Simd.reduceMaskedDefault_none
#print axioms Vir.Simd.reduceMaskedDefault_all
#print axioms Vir.Simd.reduce_order_matters
#print axioms Vir.Simd.reduce_u16_product_undefined

-- C39 (partial): masked hmin/hmax
#print axioms Vir.Simd.hminMasked_spec
#print axioms Vir.Simd.hmaxMasked_spec
#print axioms Vir.Simd.hminMasked_least_partial
#print axioms Vir.Simd.hmaxMasked_greatest_partial
#print axioms Vir.Simd.hminMasked_not_least

-- C40 (proved): where expressions only change selected lanes
#print axioms Vir.Simd.whereAssign_spec
#print axioms Vir.Simd.whereOpAssign_spec
#print axioms Vir.Simd.whereOpAssign_ub
#print axioms Vir.Simd.whereIncDec_spec
#print axioms Vir.Simd.whereCopyFrom_spec
#print axioms Vir.Simd.whereCopyFrom_oob
#print axioms Vir.Simd.whereNeg_spec
#print axioms Vir.Simd.constWhereCopyFrom_spec
#print axioms Vir.Simd.whereCopyTo_spec
#print axioms Vir.Simd.whereAssignSelf_eq
#print axioms Vir.Simd.whereBool_spec

-- C41 (proved): value-preserving conversions
#print axioms Vir.Convert.valuePreserving_iff
#print axioms Vir.Convert.valuePreserving_bool
#print axioms Vir.Convert.acceptsBroadcast_preserves
#print axioms Vir.Convert.acceptsBroadcast_iff
#print axioms Vir.Convert.acceptsConversion_preserves
#print axioms Vir.Convert.acceptsBroadcast_int

-- C42 (proved): integer literals _cw
#print axioms Vir.Literal.parse_literal
#print axioms Vir.Literal.parse_value
#print axioms Vir.Literal.parse_accepts
#print axioms Vir.Literal.parse_too_large
#print axioms Vir.Literal.parse_only
#print axioms Vir.Literal.typeOf_smallest
#print axioms Vir.Literal.parse_limits

-- C43 (proved): version numbers
#print axioms Vir.Version.eq_iff
#print axioms Vir.Version.ne_iff
#print axioms Vir.Version.lt_iff
#print axioms Vir.Version.le_iff
#print axioms Vir.Version.gt_ge_iff
#print axioms Vir.Version.order_total
#print axioms Vir.Version.spaceship_agrees
#print axioms Vir.Version.versionOf_encode
#print axioms Vir.Version.encode_versionOf
#print axioms Vir.Version.encode_lt_iff
#print axioms Vir.Version.current_version

-- C44 (proved): min, max, minmax, clamp
#print axioms Vir.Simd.min_max_lanewise
#print axioms Vir.Simd.minmax_sorted
#print axioms Vir.Simd.minmax_zeros
#print axioms Vir.Simd.clamp_spec
#print axioms Vir.Simd.clamp_undefined

-- C45 (proved): bit operations on floating-point simd
#print axioms Vir.BitCast.floatAnd_spec
#print axioms Vir.BitCast.floatOr_spec
#print axioms Vir.BitCast.floatXor_spec
#print axioms Vir.BitCast.float_op_laws
#print axioms Vir.BitCast.float_abs
#print axioms Vir.BitCast.float_negate
#print axioms Vir.BitCast.float_copysign

-- C46 (proved): iota
#print axioms Vir.Simd.iotaSimd_spec
#print axioms Vir.Simd.iotaSimd_int
#print axioms Vir.Simd.iotaSimd_value
#print axioms Vir.Simd.iota_agree
#print axioms Vir.Simd.iota_wraps

-- C47 (partial): for_each forms no iterator outside the range
#print axioms Vir.forEach_strict_defined_iff
#print axioms Vir.constForEach_strict_defined_iff

-- C48 (partial): aggregation happens in the type of init
#print axioms Vir.transformReduce_types
#print axioms Vir.reduce_types
#print axioms Vir.innerProduct_types
#print axioms Vir.transformReduce_gsum_partial
#print axioms Vir.transformReduce_prologue_narrow
#print axioms Vir.transformReduce_mixed

-- C49 (proved): simd_bit_cast keeps all bits
#print axioms Vir.BitCast.bitCast_spec
#print axioms Vir.BitCast.bitCast_size
#print axioms Vir.BitCast.bitCast_round_trip
#print axioms Vir.BitCast.bitCast_same

-- C50 (partial): lanewise integer arithmetic
#print axioms Vir.Simd.binary_spec
#print axioms Vir.Simd.binary_ub
#print axioms Vir.Simd.unsigned_add_sub_wrap
#print axioms Vir.Simd.unsigned_mul_wrap_partial
#print axioms Vir.Simd.mul_u16_undefined
#print axioms Vir.Simd.shiftBy_spec
#print axioms Vir.Simd.compound_eq_binary
#print axioms Vir.Simd.neg_spec
#print axioms Vir.Simd.compl_spec
#print axioms Vir.Simd.step_spec
#print axioms Vir.Simd.compound_ub
#print axioms Vir.Simd.shiftBy_ub
#print axioms Vir.Simd.neg_ub
#print axioms Vir.Simd.step_ub

-- C51 (proved): comparisons and mask operators
#print axioms Vir.Simd.compare_spec
#print axioms Vir.Simd.compareWith_spec
#print axioms Vir.Simd.notSimd_spec
#print axioms Vir.Simd.maskBinary_spec
#print axioms Vir.Simd.maskNot_spec
#print axioms Vir.Simd.mask_laws

-- C52 (proved): broadcasts, casts, loads and stores
#print axioms Vir.Simd.broadcast_spec
#print axioms Vir.Simd.staticSimdCast_spec
#print axioms Vir.Simd.staticSimdCast_int
#print axioms Vir.Simd.load_spec
#print axioms Vir.Simd.load_oob
#print axioms Vir.Simd.maskedLoad_spec
#print axioms Vir.Simd.copyTo_spec
#print axioms Vir.Simd.store_load

-- C53 (partial): for_each on arrays of structs
#print axioms Vir.ForEachStruct.forEachStruct_visits
#print axioms Vir.ForEachStruct.forEachStruct_map_partial
#print axioms Vir.ForEachStruct.forEachStruct_map_perm
#print axioms Vir.ForEachStruct.forEachStruct_no_write
#print axioms Vir.ForEachStruct.forEachStruct_defined
#print axioms Vir.ForEachStruct.forEachStruct_scrambles
#print axioms Vir.ForEachStruct.forEachStruct_const_visits_partial
#print axioms Vir.ForEachStruct.forEachStruct_const_width2
#print axioms Vir.ForEachStruct.forEachStruct_const_map_partial

-- C54 (proved): exceptions thrown by the callable of for_each
#print axioms Vir.forEach_throwing
#print axioms Vir.forEach_propagates
#print axioms Vir.forEach_neverThrows

-- C55 (proved): side effects and exceptions of the operation of transform
#print axioms Vir.transform_effects
#print axioms Vir.transform_order_observable

-- C56 (partial): transform and transform_reduce form no iterator outside the range
#print axioms Vir.transform_strict_defined_iff
#print axioms Vir.transformReduce_strict_defined_iff
#print axioms Vir.transform_forms_bad_pointer
#print axioms Vir.transformReduce_forms_bad_pointer
#print axioms Vir.constTransform_strict_defined_iff

-- C57 (proved): range and zip overloads of transform
#print axioms Vir.transformRanges_maps
#print axioms Vir.transformRanges_defined_iff
#print axioms Vir.zipSize_spec
#print axioms Vir.transformZip_maps
#print axioms Vir.transformZip_defined_iff
#print axioms Vir.transformZip_empty

-- C58 (proved): simdize turns every leaf into a simd of one width
#print axioms Vir.SimdizeTy.simdize_leaves

-- C59 (partial): simdize vectorizes every struct of scalars
#print axioms Vir.SimdizeTy.simdize_vectorizes_iff
#print axioms Vir.SimdizeTy.simdize_ill_formed_iff
#print axioms Vir.SimdizeTy.simdize_unchanged
#print axioms Vir.SimdizeTy.simdize_fallback
#print axioms Vir.SimdizeTy.simdize_stays_scalar
#print axioms Vir.SimdizeTy.simdize_hard_error

-- C60 (partial): struct templates keep their member names
#print axioms Vir.SimdizeTy.simdize_template_flat_partial
#print axioms Vir.SimdizeTy.simdize_template_nested_wrong
#print axioms Vir.SimdizeTy.simdize_flat_template
#print axioms Vir.SimdizeTy.simdize_flat_template_fallback
#print axioms Vir.SimdizeTy.simdize_template_default_width_wrong
#print axioms Vir.SimdizeTy.same_iff
#print axioms Vir.SimdizeTy.simdize_inconsistent_template
#print axioms Vir.SimdizeTy.simdize_template_iff
#print axioms Vir.SimdizeTy.simdize_wrapped_template

-- C61 (proved): floating-point operators and math functions are lanewise
#print axioms Vir.Simd.math1_spec
#print axioms Vir.Simd.math2_spec
#print axioms Vir.Simd.math3_spec
#print axioms Vir.Simd.frexp_spec
#print axioms Vir.Simd.remquo_spec
#print axioms Vir.Simd.modf_spec
#print axioms Vir.Simd.compoundS_spec
#print axioms Vir.Simd.stepS_spec
#print axioms Vir.Simd.math_lanes

-- C62 (partial): abs of integer simds
#print axioms Vir.Simd.absInt_spec_partial
#print axioms Vir.Simd.absInt_lowest
#print axioms Vir.Simd.absInt_exact

-- C63 (partial): to_fixed_size, to_native and to_compatible keep the lanes
#print axioms Vir.Simd.toFixedSize_spec_partial
#print axioms Vir.Simd.toDefaultAbi_spec
#print axioms Vir.Simd.toDefaultAbi_keeps_iff

-- C64 (proved): side effects and exceptions of the operations of transform_reduce
#print axioms Vir.transformReduce_effects
#print axioms Vir.transformReduce_const_effects
#print axioms Vir.transformReduce_throws_iff
#print axioms Vir.transformReduceE_pure

-- C65 (proved): access to the members of an aggregate
#print axioms Vir.StructReflect.structGet_spec
#print axioms Vir.StructReflect.structGet_assign
#print axioms Vir.StructReflect.toTupleRef_spec
#print axioms Vir.StructReflect.toTuple_spec
#print axioms Vir.StructReflect.toTuple_move_only
#print axioms Vir.StructReflect.toPair_spec
#print axioms Vir.StructReflect.structGet_limit
#print axioms Vir.StructReflect.structGet_single_const

-- C66 (partial): values of simdized structs
#print axioms Vir.SimdTuple.construct_spec
#print axioms Vir.SimdTuple.construct_iff
#print axioms Vir.SimdTuple.construct_toStruct
#print axioms Vir.SimdTuple.copyTo_spec
#print axioms Vir.SimdTuple.copyFrom_spec
#print axioms Vir.SimdTuple.copyFrom_nested
#print axioms Vir.SimdTuple.getMember_subscript
#print axioms Vir.SimdTuple.flatSubscript_eq
#print axioms Vir.SimdTuple.opMixed_spec

-- C67 (partial): expressions of constexpr_wrapper constants
#print axioms Vir.Cw.compile_spec
#print axioms Vir.Cw.candidates_unique_iff
#print axioms Vir.Cw.callOp_const
#print axioms Vir.Cw.callOp_plain
#print axioms Vir.Cw.callOp_value
#print axioms Vir.Cw.callOp_not_const
#print axioms Vir.Cw.unary_run_time
#print axioms Vir.Cw.indexOp_spec
#print axioms Vir.Cw.binary_ambiguous
#print axioms Vir.Cw.arrowOp_spec
#print axioms Vir.Cw.arrowOp_iff
#print axioms Vir.Cw.arrowOp_differs

-- C68 (proved): side effects and exceptions of count_if predicates
#print axioms Vir.countIf_effects
#print axioms Vir.countIf_propagates
#print axioms Vir.countIf_pure

-- C69 (proved): range overloads of transform_reduce with ranges of different lengths
#print axioms Vir.transformReduceRanges_effects
#print axioms Vir.transformReduceRanges_const_effects
#print axioms Vir.transformReduceRanges_value
#print axioms Vir.transformReduceRanges_short
#print axioms Vir.transformReduceRanges_defined_iff

-- C70 (proved): sums of integers with reduce and transform_reduce
#print axioms Vir.sumInts_wraps
#print axioms Vir.sumInts_defined
#print axioms Vir.sumInts_condition
#print axioms Vir.sumInts_value
#print axioms Vir.sumInts_condition_needed
#print axioms Vir.sumInts_widening
#print axioms Vir.sumInts_order_overflow
#print axioms Vir.sumInts_prologue_overflow

-- C71 (partial): transform on arrays of structs and ranges with different element types
#print axioms Vir.transformArrays_partial
#print axioms Vir.transformArrays_const_partial
#print axioms Vir.written_unique
#print axioms Vir.transformArrays_wrong

-- C72 (partial): transform_reduce on arrays of structs and ranges with different element types
#print axioms Vir.transformReduceArrays_gsum_partial
#print axioms Vir.transformReduceArrays_fold_partial
#print axioms Vir.transformReduceArrays_const_fold
#print axioms Vir.transformReduceArrays_effects_partial
#print axioms Vir.transformReduceArrays_const_effects
#print axioms Vir.transformReduceArrays_each_once_partial
#print axioms Vir.transformReduceArrays_rows_partial
#print axioms Vir.transformReduceArrays_wrong

-- C73 (partial): expressions with operators on integer simds
#print axioms Vir.SimdExpr.simdExpr_spec
#print axioms Vir.SimdExpr.simdExpr_ub
#print axioms Vir.SimdExpr.hasValue_unique
#print axioms Vir.SimdExpr.simdExpr_plain
#print axioms Vir.SimdExpr.plain_simdExpr
#print axioms Vir.SimdExpr.simdExpr_narrow
#print axioms Vir.SimdExpr.avg_differs
#print axioms Vir.SimdExpr.guarded_differs
#print axioms Vir.SimdExpr.diffMul_differs

-- C74 (proved): algorithms with operator expressions on integers
#print axioms Vir.transform_expr
#print axioms Vir.transform_expr_ub
#print axioms Vir.transform_expr_const
#print axioms Vir.transform_expr_const_ub
#print axioms Vir.forEach_expr
#print axioms Vir.forEach_expr_ub
#print axioms Vir.sum_expr_defined
#print axioms Vir.sum_expr_wraps
#print axioms Vir.exprTrans_simd

-- C75 (partial): type traits, ABI deduction and concepts
#print axioms Vir.Traits.isSimd_partial
#print axioms Vir.Traits.isSimdMask_partial
#print axioms Vir.Traits.isSimd_not_exact
#print axioms Vir.Traits.isSimd_complete
#print axioms Vir.Traits.isSimdFlagType_false
#print axioms Vir.Traits.simdSize_spec
#print axioms Vir.Traits.simdSize_defined
#print axioms Vir.Traits.deduce_partial
#print axioms Vir.Traits.deduce_wraps
#print axioms Vir.Traits.native_spec
#print axioms Vir.Traits.native_large
#print axioms Vir.Traits.native_exceeds
#print axioms Vir.Traits.rebind_spec
#print axioms Vir.Traits.rebind_defined
#print axioms Vir.Traits.rebind_self
#print axioms Vir.Traits.rebind_rebind
#print axioms Vir.Traits.resize_spec
#print axioms Vir.Traits.resize_defined
#print axioms Vir.Traits.resize_resize
#print axioms Vir.Traits.resize_self_partial
#print axioms Vir.Traits.resize_self_false
#print axioms Vir.Traits.resize_deduce
#print axioms Vir.Traits.rebind_resize
#print axioms Vir.Traits.maskType_spec
#print axioms Vir.Traits.maskMembers_iff
#print axioms Vir.Traits.memoryAlignment_spec
#print axioms Vir.Traits.memoryAlignment_defined
#print axioms Vir.Traits.isLoadStore_spec
#print axioms Vir.Traits.concepts_partial
#print axioms Vir.Traits.sized_concepts_partial
#print axioms Vir.Traits.anySimd_not_exact

-- C76 (partial): integer types by size and implicit conversions between integer simds
#print axioms Vir.Casts.asInt_spec
#print axioms Vir.Casts.asUnsigned_spec
#print axioms Vir.Casts.asInt_exists
#print axioms Vir.Casts.asInt_asUnsigned
#print axioms Vir.Casts.asInt_long
#print axioms Vir.Casts.convertible_iff_partial
#print axioms Vir.Casts.convertible_char
#print axioms Vir.Casts.sumType_spec
#print axioms Vir.Casts.rank_spec
#print axioms Vir.Casts.arith_names
#print axioms Vir.Casts.arith_injective

-- C77 (partial): casts between simd types, masks and cvt
#print axioms Vir.Casts.staticCastType_simd
#print axioms Vir.Casts.staticSimdCast_size
#print axioms Vir.Casts.staticCastType_mask
#print axioms Vir.Casts.maskCast_spec
#print axioms Vir.Casts.maskToSimd_exists
#print axioms Vir.Casts.simdCastType_spec
#print axioms Vir.Casts.cvt_simd
#print axioms Vir.Casts.cvt_mask
#print axioms Vir.Casts.cvt_sizes

-- C78 (proved): element types that transform, reduce and transform_reduce accept
#print axioms Vir.AlgoTypes.transform_compiles_iff
#print axioms Vir.AlgoTypes.transformReduce_compiles_iff
#print axioms Vir.transform_types
#print axioms Vir.transform_single_type
#print axioms Vir.transformReduce_single_type
#print axioms Vir.transformReduce_takes_values
#print axioms Vir.reduce_types_op
#print axioms Vir.reduce_wider_init
#print axioms Vir.reduce_simds_only
#print axioms Vir.reduce_vectorizable
#print axioms Vir.innerProduct_vectorizable
#print axioms Vir.transformReduce_prologue_type
#print axioms Vir.binaryOp_converts

-- C79 (partial): failed preconditions are handled as documented
#print axioms Vir.Precondition.check_holds
#print axioms Vir.Precondition.check_stops
#print axioms Vir.Precondition.check_off
#print axioms Vir.Precondition.check_constexpr
#print axioms Vir.Precondition.check_run_time_partial
#print axioms Vir.Precondition.check_compile_time
#print axioms Vir.Precondition.check_warned_not_documented
#print axioms Vir.Precondition.check_other_compilers
#print axioms Vir.Precondition.check_clang_without_gnu
#print axioms Vir.Precondition.subscript_message
#print axioms Vir.Precondition.findFirstSet_message
#print axioms Vir.Precondition.assume_message_undefined
#print axioms Vir.Precondition.subscript_in_range
#print axioms Vir.Precondition.subscript_out_of_range
#print axioms Vir.Precondition.subscript_default
#print axioms Vir.Precondition.subscript_off
#print axioms Vir.Precondition.findFirstSet_checked
#print axioms Vir.Precondition.assumeMatching_holds
#print axioms Vir.Precondition.assumeMatching_traps
#print axioms Vir.Precondition.assumeMatching_print_undefined
#print axioms Vir.Precondition.subscript_prints
#print axioms Vir.Precondition.subscriptScalar_checked
#print axioms Vir.Precondition.subscriptScalar_eq
#print axioms Vir.Precondition.findFirstSet_prints
#print axioms Vir.Precondition.assume_message_otherwise

-- C80 (proved): calls of binary_op in the horizontal reduce, and of reduce_op in transform_reduce
#print axioms Vir.reduce_calls
#print axioms Vir.reduceCalls_defined
#print axioms Vir.reduceCalls_pure
#print axioms Vir.reduceMasked_calls
#print axioms Vir.reduce_calls_short
#print axioms Vir.transformReduce_calls
#print axioms Vir.transformReduce_const_calls

-- C81 (proved): Number of invocations of the callable
#print axioms Vir.forEach_call_count
#print axioms Vir.forEach_call_count_matching
#print axioms Vir.transform_call_count
#print axioms Vir.transform_call_count_matching
#print axioms Vir.countIf_call_count
#print axioms Vir.countIf_call_count_matching
#print axioms Vir.transformReduce_call_count
#print axioms Vir.transformReduce_call_count_matching

-- C82 (proved): results do not depend on the execution policy, and the algorithms agree with each other
#print axioms Vir.forEach_policy_irrelevant
#print axioms Vir.transform_policy_irrelevant
#print axioms Vir.countIf_policy_irrelevant
#print axioms Vir.transformReduce_policy_irrelevant
#print axioms Vir.forEach_eq_transform_in_place
#print axioms Vir.reduce_transform_eq_transformReduce
#print axioms Vir.countIf_eq_transformReduce
#print axioms Vir.transform_fusion
#print axioms Vir.reduce_policy_matters
#print axioms Vir.forEach_policy_matters

-- C83 (partial): struct_size_v counts the data members of a class
#print axioms Vir.StructMembers.accepts_iff
#print axioms Vir.StructMembers.structSizeOf_members
#print axioms Vir.StructMembers.structSizeOf_rejecting
#print axioms Vir.StructMembers.structSizeOf_many_bases
#print axioms Vir.StructMembers.structSizeOf_derived
#print axioms Vir.StructMembers.structSizeOf_plain
#print axioms Vir.StructMembers.structSizeOf_plain_empty
#print axioms Vir.StructMembers.structGetOf_members
#print axioms Vir.StructMembers.structGetOf_derived

-- C84 (partial): simdize_size
#print axioms Vir.SimdizeTy.simdizeSize_spec
#print axioms Vir.SimdizeTy.simdizeSize_zero
#print axioms Vir.SimdizeTy.simdizeSize_ill_formed_iff
#print axioms Vir.SimdizeTy.simdizeSize_simdize
#print axioms Vir.SimdizeTy.simdizeSize_simdize_plain

-- C85 (partial): Right-hand sides of where expressions
#print axioms Vir.WhereRhs.assign_spec
#print axioms Vir.WhereRhs.opAssign_spec
#print axioms Vir.WhereRhs.opAssign_ub
#print axioms Vir.WhereRhs.assign_few_lanes
#print axioms Vir.WhereRhs.assign_many_lanes
#print axioms Vir.WhereRhs.assign_narrows
#print axioms Vir.WhereRhs.scalar_simd_agree
#print axioms Vir.WhereRhs.scalar_shift
#print axioms Vir.WhereRhs.common_type
#print axioms Vir.WhereRhs.scalar_unsigned
#print axioms Vir.WhereRhs.scalar_simd_differ

-- C86 (proved): Concurrent calls on data that does not overlap
#print axioms Vir.Threads.forEach_accesses
#print axioms Vir.Threads.transform_accesses
#print axioms Vir.Threads.concurrent_calls
#print axioms Vir.Threads.concurrent_calls_serial
#print axioms Vir.Threads.parallel_forEach_map
#print axioms Vir.Threads.overlapping_calls_lose_updates
#print axioms Vir.Threads.concurrent_countIf
#print axioms Vir.Threads.parallel_countIf
#print axioms Vir.Threads.transformReduce_stable
#print axioms Vir.Threads.transformReduce_accesses
#print axioms Vir.Threads.concurrent_transformReduce
#print axioms Vir.Threads.concurrent_transformReduce_fold
#print axioms Vir.Threads.transformReduce_torn

-- C87 (partial): Every documented call form reaches the overload documented for it
#print axioms Vir.Resolve.iterator_forms
#print axioms Vir.Resolve.range_forms
#print axioms Vir.Resolve.range_forms_partial
#print axioms Vir.Resolve.zip_form
#print axioms Vir.Resolve.std_iterator_forms
#print axioms Vir.Resolve.std_noMatch
#print axioms Vir.Resolve.transform_c_arrays
#print axioms Vir.Resolve.transformReduce_c_arrays
#print axioms Vir.Resolve.vir_noMatch
#print axioms Vir.Resolve.never_ambiguous
#print axioms Vir.Resolve.resolve_best

-- C88 (partial): values given to the broadcast and generator constructors arrive unchanged
#print axioms Vir.Convert.generate_partial
#print axioms Vir.Convert.generate_iff
#print axioms Vir.Convert.broadcastVal_iff
#print axioms Vir.Convert.generate_wrong
#print axioms Vir.Convert.castTo_exact
#print axioms Vir.Convert.castTo_changes

-- C89 (proved): sums of floating-point numbers are accurate whatever the policy and the width
#print axioms Vir.fadd_error
#print axioms Vir.fmul_error
#print axioms Vir.gsum_float_error
#print axioms Vir.hreduce_float_error
#print axioms Vir.transformReduce_float_error
#print axioms Vir.reduce_float_error
#print axioms Vir.innerProduct_float_error
#print axioms Vir.transformReduce_float_loop
#print axioms Vir.exists_nearest
#print axioms Vir.reduce_float_differs

-- C90 (proved): fake_modify and fake_read hide and keep every part of their arguments
#print axioms Vir.Benchmarking.fakeRead_all
#print axioms Vir.Benchmarking.fakeRead_determines
#print axioms Vir.Benchmarking.fakeModify_all
#print axioms Vir.Benchmarking.fakeModify_unchanged
#print axioms Vir.Benchmarking.fakeModify_arbitrary
#print axioms Vir.Benchmarking.fakeRead_registers
#print axioms Vir.Benchmarking.fakeModify_registers

-- C91 (proved): algebraic laws of permutations
#print axioms Vir.Permute.simdPermute_comp
#print axioms Vir.Permute.simdPermute_perm
#print axioms Vir.Permute.simdPermute_undo
#print axioms Vir.Permute.simdPermute_map
#print axioms Vir.Permute.simdPermute_zipWith
#print axioms Vir.Permute.shiftIn_eq_shift
#print axioms Vir.Permute.shiftIn_shift_negative
#print axioms Vir.Permute.shiftIn_self_eq_rotate
#print axioms Vir.Permute.shift_shift

-- C92 (partial): member types of an aggregate
#print axioms Vir.StructTypes.structElement_spec
#print axioms Vir.StructTypes.structElement_partial
#print axioms Vir.StructTypes.structElement_declared_iff
#print axioms Vir.StructTypes.structElement_ref
#print axioms Vir.StructTypes.structGetType_spec
#print axioms Vir.StructTypes.asTuple_spec
#print axioms Vir.StructTypes.asTuple_exists
#print axioms Vir.StructTypes.asPair_spec
#print axioms Vir.StructTypes.structElement_asTuple

-- C93 (proved): what the alignment modifiers change
#print axioms Vir.forEach_autoPrologue
#print axioms Vir.transform_autoPrologue
#print axioms Vir.forEach_nothingToAlign
#print axioms Vir.transform_nothingToAlign
#print axioms Vir.forEach_fullWidth_aligned
#print axioms Vir.transform_fullWidth_aligned
#print axioms Vir.transformReduce_fullWidth_aligned

-- C94 (proved): transform on ranges that overlap in any way
#print axioms Vir.transform_groupwise
#print axioms Vir.transform_sequential
#print axioms Vir.transform_const_sequential
#print axioms Vir.transform_not_sequential

-- C95 (proved): simd programs compute in every lane what the program computes on numbers
#print axioms Vir.prog_lanes
#print axioms Vir.prog_unique
#print axioms Vir.prog_undefined
#print axioms Vir.prog_sound
#print axioms Vir.prog_sound_masked
#print axioms Vir.masked_body
#print axioms Vir.simd_gcd

-- C96 (proved): for_each and transform with simd programs as callables act on every element like the program on numbers
#print axioms Vir.transform_prog
#print axioms Vir.transform_prog_const
#print axioms Vir.forEach_prog
#print axioms Vir.transform_prog_sound
#print axioms Vir.forEach_prog_sound
#print axioms Vir.progValue_unique
#print axioms Vir.transform_gcd

-- C97 (proved): count_if with predicates that may be undefined, and with simd programs, counts the elements that satisfy the predicate
#print axioms Vir.countIf_partialPred
#print axioms Vir.countIf_defined
#print axioms Vir.countIf_prog
#print axioms Vir.countIf_prog_sound
#print axioms Vir.countIf_coprime
#print axioms Vir.countIf_unlogged
#print axioms Vir.countIf_const_partialPred
#print axioms Vir.countIf_const_defined
#print axioms Vir.countIf_const_prog
#print axioms Vir.countIf_const_prog_sound
#print axioms Vir.countIfC_pure
#print axioms Vir.countIf_const_width2_pieces
#print axioms Vir.countIf_const_width2_defined

-- C98 (proved): Sums of what a simd program computes from the elements are the sums of the program's results on numbers
#print axioms Vir.sum_prog_defined
#print axioms Vir.sum_prog_wraps
#print axioms Vir.sum_prog_sound
#print axioms Vir.sum_gcd
#print axioms Vir.sum_prog_const

-- C99 (proved): Masked simd programs of any element type, with nested loops and local variables, end exactly if every lane ends, with the results of the lanes
#print axioms Vir.lanes_noLoops
#print axioms Vir.lanes_sound
#print axioms Vir.lanes_masked
#print axioms Vir.lanes_unique
#print axioms Vir.lanes_complete
#print axioms Vir.lanes_ends
#print axioms Vir.simd_mandelbrot

-- C100 (proved): The algorithms with masked simd programs as callables give, for every element, what the same code on single elements gives
#print axioms Vir.transform_masked
#print axioms Vir.transform_masked_sound
#print axioms Vir.transform_masked_ends
#print axioms Vir.transform_masked_const
#print axioms Vir.forEach_masked
#print axioms Vir.forEach_masked_sound
#print axioms Vir.countIf_masked
#print axioms Vir.countIf_masked_sound
#print axioms Vir.reduce_masked
#print axioms Vir.reduce_masked_fold
#print axioms Vir.reduce_masked_sound
#print axioms Vir.reduce_masked_const
#print axioms Vir.result_unique
#print axioms Vir.says_unique
#print axioms Vir.transform_mandelbrot
#print axioms Vir.countIf_const_masked
#print axioms Vir.countIf_const_masked_sound

-- C101 (proved): Parallel integer reductions with the function objects of the standard
#print axioms Vir.redInts_value
#print axioms Vir.redInts_defined
#print axioms Vir.redInts_prod
#print axioms Vir.prod_condition
#print axioms Vir.redInts_sequential
#print axioms Vir.fallback_redOp
#print axioms Vir.redInts_u16_overflow

-- C102 (proved): count_if on arrays of structs counts every matching struct once
#print axioms Vir.countIfStruct_spec
#print axioms Vir.countIfStruct_pieces
#print axioms Vir.countIfStruct_const_partial
#print axioms Vir.countIfStruct_const_width2

-- C103 (proved): Exceptions of the callable of for_each on arrays of structs
#print axioms Vir.ForEachStruct.forEachStruct_throwing
#print axioms Vir.ForEachStruct.forEachStruct_propagates
#print axioms Vir.ForEachStruct.forEachStruct_neverThrows

-- C104 (proved): Side effects and exceptions of the operation of transform on arrays of structs and ranges with different element types
#print axioms Vir.transformArrays_effects
#print axioms Vir.transformArrays_const_effects
#print axioms Vir.covers_args

-- C105 (proved): Side effects and exceptions of the predicate of count_if on arrays of structs
#print axioms Vir.countIfStruct_effects
#print axioms Vir.countIfStruct_propagates
#print axioms Vir.countIfStruct_pure

-- C106 (proved): Number of invocations of the callable on arrays of structs
#print axioms Vir.forEachStruct_call_count
#print axioms Vir.countIfStruct_call_count
#print axioms Vir.transformArrays_call_count
#print axioms Vir.transformReduceArrays_call_count

-- C107 (proved): Concurrent calls of vir::for_each on arrays of structs
#print axioms Vir.Threads.forEachStruct_accesses
#print axioms Vir.Threads.concurrent_struct_calls
#print axioms Vir.Threads.concurrent_struct_calls_serial
#print axioms Vir.Threads.parallel_forEachStruct_map
#print axioms Vir.Threads.concurrent_countIfStruct
#print axioms Vir.Threads.parallel_countIfStruct
#print axioms Vir.Threads.disjoint_members_lose_updates

-- C108 (proved): What vir::for_each makes of an array of structs, exactly
#print axioms Vir.ForEachStruct.forEachStruct_policy_irrelevant
#print axioms Vir.ForEachStruct.forEachStruct_places

-- C109 (proved): What vir::transform makes of arrays of structs, exactly
#print axioms Vir.transformArrays_places
#print axioms Vir.transformArrays_policy_matters
#print axioms Vir.transformArrays_short
#print axioms Vir.transformArrays_perm

-- C110 (proved): What vir::transform_reduce computes for arrays of structs, exactly
#print axioms Vir.transformReduceArrays_places
#print axioms Vir.transformReduceArrays_places_fold
#print axioms Vir.transformReduceArrays_address_matters
#print axioms Vir.transformReduceArrays_short
