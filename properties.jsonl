{"id": "C01", "title": "for_each visits every element exactly once, in order", "statement": "vir::for_each(pol, first, last, fun) passes every element of [first, last) to fun exactly once, and concatenating the lanes of all simd arguments of all invocations in invocation order gives exactly the sequence of elements of the range.", "quantifier": "every range length, every start address, every SIMD width, every policy (prologue mode, unroll factor, preferred size, assume_matching_size), every stateful callable; prefer_aligned additionally requires the range to be at least as long as its prologue", "why_tests_cant": "prologue length depends on the address, epilogue on the length, and there are unboundedly many (length, address, width, unroll) combinations", "anchors": ["vir/simd_execution.h:for_each", "vir/simd_execution.h:simd_for_each_prologue", "vir/simd_execution.h:simd_for_each_epilogue", "vir/simd_execution.h:simd_load_and_invoke"]}
{"id": "C02", "title": "for_each writes back exactly what the callable left in its arguments", "statement": "If fun takes its argument by lvalue reference, after for_each returns the range holds, for each chunk, exactly the lanes fun left in the simd argument, in place; a lane-wise fun therefore maps every element exactly once; no memory outside the range is written.", "quantifier": "every callable, initial contents, length, address, width and policy", "why_tests_cant": "an element written twice or skipped only shows at particular remainders and alignments", "anchors": ["vir/simd_execution.h:for_each", "vir/simd_execution.h:simd_load_and_invoke"]}
{"id": "C03", "title": "for_each leaves the range untouched when the callable takes values or const references", "statement": "If fun is invocable with rvalue simd objects, for_each performs no store and the range is unchanged.", "quantifier": "every callable (including ones that modify their by-value copy), contents, length, policy", "why_tests_cant": "absence of stores has to hold on every path (prologue, unrolled loop, loop, both epilogues)", "anchors": ["vir/simd_execution.h:for_each"]}
{"id": "C04", "title": "for_each accesses only the range, uses aligned accesses only at aligned addresses and never reaches unreachable code", "statement": "No execution of for_each reads or writes outside [first, last), performs a vector_aligned access at an address that violates the access's alignment, or reaches a branch declared unreachable. With prefer_aligned this holds if and only if the range is empty or at least as long as the number of elements before the first aligned address.", "quantifier": "every length, element-aligned address, width, alignment table of the simd implementation and policy", "why_tests_cant": "out-of-bounds and alignment faults are address dependent; sanitizers only see executed addresses", "anchors": ["vir/simd_execution.h:prologue::operator()", "vir/simd_execution.h:for_each", "vir/simd_execution.h:simd_for_each_prologue"]}
{"id": "C05", "title": "prefer_aligned is safe on short ranges", "statement": "for_each, transform and transform_reduce with prefer_aligned() are safe on every valid range, including ranges that end before the first aligned address. (The property is false of the code: the prologue is executed unconditionally and runs past the end of the range; the theorems give the exact characterisation and a witness.)", "quantifier": "every length and address", "why_tests_cant": "the overrun only happens for particular (length, address) pairs and reads valid neighbouring memory in most test set-ups", "anchors": ["vir/simd_execution.h:prologue::operator()", "vir/simd_execution.h:simd_for_each_prologue"]}
{"id": "C06", "title": "shape of the simd arguments", "statement": "Outside prologue and epilogue fun is called with simd arguments of the policy's width (unroll_by many of them in the unrolled loop); every other call has a single argument whose width is a power of two smaller than the policy's width; without alignment modifier widths in the epilogue strictly decrease; each epilogue width is used at most once.", "quantifier": "every length, address, width, policy", "why_tests_cant": "tests observe only the shapes for the sampled lengths", "anchors": ["vir/simd_execution.h:for_each", "vir/simd_execution.h:simd_for_each_jumptable_epilogue"]}
{"id": "C07", "title": "assume_matching_size", "statement": "With assume_matching_size(), if the range size is a multiple of the SIMD width then at run time the callable (operation, predicate) is only invoked with simd arguments of exactly that width, also if it throws, and all elements are processed; otherwise the algorithm traps before invoking any callable or touching memory (for_each, transform, transform_reduce, count_if).", "quantifier": "every length, width, unroll factor, callable", "why_tests_cant": "needs the absence of any other call for all lengths", "anchors": ["vir/simd_execution.h:for_each", "vir/simd_execution.h:transform", "vir/simd_execution.h:transform_reduce", "vir/simd.h:vir_simd_precondition_vaargs"]}
{"id": "C08", "title": "jump tables implement the generic prologue and epilogue", "statement": "The switch/goto implementations of prologue and epilogue perform the same sequence of invocations as the recursive template implementation for every number of elements they may be called with; hence -Os and -O2 builds (and constant evaluation) process the same chunks. For the prologue table this holds for all sizes below the instantiated maximum of 32.", "quantifier": "every element count the tables are instantiated for, every callable", "why_tests_cant": "126 hand-written table rows; an error in one row is visible only for one length/alignment", "anchors": ["vir/simd_execution.h:simd_for_each_jumptable_prologue", "vir/simd_execution.h:simd_for_each_jumptable_epilogue"]}
{"id": "C09", "title": "constant-evaluated for_each agrees with run-time for_each", "statement": "During constant evaluation for_each visits the same elements exactly once in the same order as at run time. (False of the code for SIMD width 2 and non-zero even length: the last element is visited twice; proved for every other width and for odd lengths.)", "quantifier": "every length, width, callable", "why_tests_cant": "static_assert tests cover a handful of lengths and the default width only", "anchors": ["vir/simd_execution.h:for_each", "vir/simd_execution.h:simd_for_each_epilogue"]}
{"id": "C10", "title": "transform equals the element-wise map, for any number of input ranges", "statement": "After vir::transform(pol, in1.., d_first, op) with a lane-wise op, output element i equals op applied to the i-th elements of the inputs as they were before the call, for all i < n, and nothing else in memory changed. Output may coincide with, start before, or be disjoint from any input.", "quantifier": "every number of inputs, lengths, contents, addresses, widths, policies, overlap patterns with d_first <= first_j or disjoint", "why_tests_cant": "the quantification over overlap, address and length is infinite", "anchors": ["vir/simd_execution.h:transform", "vir/simd_execution.h:simd_transform_prologue", "vir/simd_execution.h:simd_transform_epilogue", "vir/simd_execution.h:unroll2"]}
{"id": "C11", "title": "transform returns the end of the output range", "statement": "transform returns d_first + (last1 - first1).", "quantifier": "every length, address, width, policy", "why_tests_cant": "depends on bookkeeping over prologue, loops and epilogue for every length", "anchors": ["vir/simd_execution.h:transform"]}
{"id": "C12", "title": "transform is memory safe", "statement": "transform reads only the n elements of each input range, writes only the n output elements, uses aligned stores only at aligned addresses, and reaches no unreachable code; with prefer_aligned provided the output range reaches the first aligned address.", "quantifier": "every length, address, width, policy", "why_tests_cant": "address and length dependent", "anchors": ["vir/simd_execution.h:transform", "vir/simd_execution.h:prologue"]}
{"id": "C13", "title": "constant-evaluated transform agrees with run-time transform", "statement": "The constant-evaluation branch of transform produces the same memory and the same return value as the run-time branch.", "quantifier": "every length, contents, width, policy", "why_tests_cant": "two independent implementations have to agree on all inputs", "anchors": ["vir/simd_execution.h:transform"]}
{"id": "C14", "title": "transform_reduce computes a generalized sum", "statement": "For every binary reduce_op (not necessarily associative or commutative, e.g. floating-point addition) the value returned by transform_reduce is obtained by combining init and the n transformed elements, each exactly once, in some tree of reduce_op applications. (A transform_op whose result type depends on the width can have results of another type than init; the alignment prologue combines those in their own type, see C48.)", "quantifier": "every reduce_op, transform_op, init, length, contents, address, width, unroll factor and policy (outside the cases of C16)", "why_tests_cant": "the accumulation tree changes with length, alignment, width and unroll factor", "anchors": ["vir/simd_execution.h:transform_reduce", "vir/simd_execution.h:simd_transform_reduce_prologue", "vir/simd_execution.h:simd_transform_reduce_epilogue"]}
{"id": "C15", "title": "transform_reduce equals the sequential fold for associative and commutative operations", "statement": "If reduce_op is associative and commutative the result equals reduce_op folded over init and the transformed elements from left to right.", "quantifier": "every associative-commutative operation, length, contents, address, width, unroll, policy (outside the cases of C16)", "why_tests_cant": "as above", "anchors": ["vir/simd_execution.h:transform_reduce"]}
{"id": "C16", "title": "transform_reduce never reaches unreachable code", "statement": "transform_reduce has no undefined behaviour on any valid range. (False of the code: if the alignment prologue consumes the whole range, possible with prefer_aligned and auto_prologue, the epilogue is entered with no work left and executes unreachable(). Proved: exact condition.)", "quantifier": "every length, address, width, policy", "why_tests_cant": "only ranges whose length equals the distance to the next aligned address trigger it", "anchors": ["vir/simd_execution.h:transform_reduce", "vir/simd_execution.h:simd_transform_reduce_epilogue"]}
{"id": "C17", "title": "tree reduction of the unrolled accumulators", "statement": "The in-place tree reduction leaves in accumulator 0 a combination containing each of the U accumulators exactly once, for every unroll factor U.", "quantifier": "every U > 1, every binary operation", "why_tests_cant": "U is a user-chosen template argument", "anchors": ["vir/simd_execution.h:transform_reduce", "vir/detail.h:unroll"]}
{"id": "C18", "title": "reduce and the default inner product", "statement": "vir::reduce(pol, rng[, init[, op]]) is the generalized sum of init (default value-initialised) and the elements; transform_reduce without callables is the inner product init + sum x_i*y_i.", "quantifier": "every length, contents, policy", "why_tests_cant": "as for transform_reduce", "anchors": ["vir/simd_execution.h:reduce", "vir/simd_execution.h:transform_reduce"]}
{"id": "C19", "title": "count_if counts", "statement": "At run time count_if returns the number of elements satisfying pred, provided that number is representable in int; otherwise signed overflow (undefined behaviour) occurs. During constant evaluation the same holds except with simds of two elements and a non-zero even number of elements, where the last element counts twice.", "quantifier": "every predicate, contents, length, address, width, unroll, policy", "why_tests_cant": "the counting is split between a vector counter and a scalar counter depending on chunk width", "anchors": ["vir/simd_execution.h:count_if"]}
{"id": "C20", "title": "execution policy modifiers compose as documented", "statement": "At most one of prefer_aligned, auto_prologue, assume_matching_size can be applied, each at most once; unroll_by and prefer_size can be applied at most once with arguments > 1 and > 0; the resulting policy's properties are exactly those requested, independent of the order of the calls.", "quantifier": "every sequence of modifier calls", "why_tests_cant": "sequences are unbounded; ill-formed combinations cannot be unit-tested by running", "anchors": ["vir/simd_execution.h:simd_policy"]}
{"id": "C21", "title": "bit_ceil and bit_floor", "statement": "detail::bit_ceil returns the smallest power of two not less than its argument (for 0 < x <= 2^(w-1)), stdx::detail::bit_ceil the same for size_t, stdx::detail::bit_floor the largest power of two not greater than its argument (x > 0); both bit_ceil variants leave that contract outside the stated domain.", "quantifier": "every argument of every unsigned width", "why_tests_cant": "64-bit domain", "anchors": ["vir/detail.h:bit_ceil", "vir/simd.h:bit_ceil", "vir/simd.h:bit_floor"]}
{"id": "C22", "title": "simd_permute semantics, identical on all implementation paths", "statement": "simd_permute<N>(v, f) returns a simd whose lane i is v[f(i)] (v[size+f(i)] for negative f(i), 0 for simd_permute_zero), for every well-formed index function and result width; the shufflevector path computes the same lanes as the generic path. (False of simd types with padding, such as three floats in a register of four: there simd_permute_zero yields what the padding contains; and of the rotations with AVX2 of C25.)", "quantifier": "every width, result width, index function and value", "why_tests_cant": "index functions are arbitrary user code", "anchors": ["vir/simd_permute.h:simd_permute"]}
{"id": "C23", "title": "predefined permutations duplicate_even / duplicate_odd / broadcast / reverse / swap_neighbors", "statement": "duplicate_even copies lane 2k into 2k+1, duplicate_odd copies lane 2k+1 into 2k, broadcast<P> copies lane P (from the end if negative) everywhere, reverse reverses (an involution), swap_neighbors<N> exchanges adjacent groups of N lanes (an involution), for all admissible widths.", "quantifier": "every width, every N, P", "why_tests_cant": "width and N are unbounded template arguments", "anchors": ["vir/simd_permute.h:DuplicateEven", "vir/simd_permute.h:DuplicateOdd", "vir/simd_permute.h:SwapNeighbors", "vir/simd_permute.h:Broadcast", "vir/simd_permute.h:Reverse"]}
{"id": "C24", "title": "rotate", "statement": "simd_permute(v, rotate<O>) moves lane (i+O) mod size to lane i for every offset O, rotations compose additively and rotate<-O> undoes rotate<O>. (False of the code for negative O and widths that are not a power of two; proved for O >= 0 and for power-of-two widths.)", "quantifier": "every width, every offset", "why_tests_cant": "offset and width are unbounded template arguments", "anchors": ["vir/simd_permute.h:Rotate"]}
{"id": "C25", "title": "AVX2 rotate fast path", "statement": "The AVX2 fast path for even rotations of 8 floats yields the same lanes as the generic path. (False outside 0 <= O < 8: the control word is malformed; proved for 0 <= O < 8.)", "quantifier": "every even offset", "why_tests_cant": "only compiled with AVX2; offset is unbounded", "anchors": ["vir/simd_permute.h:simd_permute"]}
{"id": "C26", "title": "shift and simd_shift_in", "statement": "simd_permute(v, shift<O>) yields lane i = v[i+O] or 0 when i+O is outside the vector. simd_shift_in<O>(a, more...) for O >= 0 yields lane i = element i+O of the concatenation, zero past its end; for negative O the documented shift of the concatenation would shift in zeros.", "quantifier": "every offset, width and number of inputs", "why_tests_cant": "template arguments are unbounded", "anchors": ["vir/simd_permute.h:Shift", "vir/simd_permute.h:simd_shift_in"]}
{"id": "C27", "title": "simdized structs: loading transposes an array of structs", "statement": "vir::simdize<S,N>::copy_from (and the load constructor) put member m of element i into lane i of member vector m, for the specialised two-member, three-member and float*3 shuffle paths as well as the generic path; so x[i] equals the i-th struct in memory.", "quantifier": "every width N, every memory contents, every member count and path", "why_tests_cant": "hand-written shuffle/blend sequences with width-dependent indices", "anchors": ["vir/simdize.h:_load_elements_via_permute", "vir/simdize.h:copy_from", "vir/simdize.h:operator[]"]}
{"id": "C28", "title": "simdized structs: storing transposes back", "statement": "copy_to writes to memory element i the struct made of lane i of every member vector, on all paths.", "quantifier": "every width N, contents, member count and path", "why_tests_cant": "hand-written shuffle index arithmetic modulo 3", "anchors": ["vir/simdize.h:_store_elements_via_permute", "vir/simdize.h:copy_to"]}
{"id": "C29", "title": "simdized struct load/store round trip", "statement": "copy_to after copy_from restores the same memory; copy_from after copy_to restores the same simdized value; exactly N structs are read or written.", "quantifier": "every width N and contents", "why_tests_cant": "composition of the two hand-written index mappings", "anchors": ["vir/simdize.h:copy_from", "vir/simdize.h:copy_to"]}
{"id": "C30", "title": "flattened member access", "statement": "flat_get<I> of a nested aggregate returns the I-th leaf in depth-first order, in agreement with flat_element<I> and flat_member_count.", "quantifier": "every nesting of aggregates, every I", "why_tests_cant": "nesting depth is unbounded", "anchors": ["vir/simdize.h:flat_get", "vir/simdize.h:flat_element", "vir/simdize.h:flat_member_count"]}
{"id": "C31", "title": "struct_size finds the number of members", "statement": "struct_size_v<T> equals the largest number of brace initialisers accepted by T whenever the accepted numbers form an interval, within [0, 8*sizeof(T)].", "quantifier": "every aggregate type (every acceptance interval) and every sizeof", "why_tests_cant": "binary search over an unbounded family of types", "anchors": ["vir/struct_reflect.h:struct_size"]}
{"id": "C32", "title": "split and concat are mutually inverse and order preserving", "statement": "concat(split<Sizes...>(v)) == v and split<Sizes...>(concat(xs...)) == xs...; lane order is preserved; the array forms agree with the pack forms.", "quantifier": "every list of widths and every value", "why_tests_cant": "arbitrary packs of widths", "anchors": ["vir/simd.h:split", "vir/simd.h:concat", "vir/simd.h:pack_simd_subscript"]}
{"id": "C33", "title": "simd_resize and simd_size_cast", "statement": "simd_resize<N>(v) keeps lane i for i < min(N, size) and value-initialises the others; resizing up and down again restores v; simd_size_cast agrees with simd_resize.", "quantifier": "every pair of widths and every value", "why_tests_cant": "arbitrary widths", "anchors": ["vir/simd_resize.h:simd_resize", "vir/simd_resize.h:simd_size_cast"]}
{"id": "C34", "title": "bitset conversions", "statement": "to_simd_mask(to_bitset(k)) == k, to_bitset(to_simd_mask(b)) == b and bit i of to_bitset(k) is k[i]; popcount/any/all agree with bitset count/any/all.", "quantifier": "every width and every mask", "why_tests_cant": "2^size masks for arbitrary size", "anchors": ["vir/simd_bitset.h:to_bitset", "vir/simd_bitset.h:to_simd_mask"]}
{"id": "C35", "title": "mask reductions", "statement": "all_of, any_of, none_of, some_of, popcount of a simd_mask have their mathematical meaning: all lanes true, some lane true, no lane true, at least one true and one false, number of true lanes; the scalar-ABI overloads agree with width 1.", "quantifier": "every width and mask", "why_tests_cant": "2^size masks for arbitrary size", "anchors": ["vir/simd.h:all_of", "vir/simd.h:any_of", "vir/simd.h:none_of", "vir/simd.h:some_of", "vir/simd.h:popcount"]}
{"id": "C36", "title": "find_first_set and find_last_set", "statement": "On a mask with at least one true lane they return the smallest/largest true index; on an empty mask they trap (precondition) and never reach unreachable().", "quantifier": "every width and mask", "why_tests_cant": "2^size masks for arbitrary size", "anchors": ["vir/simd.h:find_first_set", "vir/simd.h:find_last_set"]}
{"id": "C37", "title": "horizontal reduce of a simd", "statement": "reduce(v, op) is a generalized sum containing every lane exactly once for every op, and equals the left fold for associative-commutative op; hmin/hmax return the least/greatest lane. For an integer element type and std::plus, multiplies, bit_and, bit_or or bit_xor the result is, if no operation overflows, the sum or product of the lanes modulo 2^bits or their bitwise and/or/xor; it is always defined for the bitwise operations, for sums in unsigned and narrow types and for products except those of unsigned short and of signed types of at least 32 bits.", "quantifier": "every width, op and value", "why_tests_cant": "recursive split depends on the width", "anchors": ["vir/simd.h:reduce", "vir/simd.h:hmin", "vir/simd.h:hmax"]}
{"id": "C38", "title": "masked reduce", "statement": "reduce(where(k, v), identity, op) folds op over identity and exactly the selected lanes in order. Without an identity element, for plus, multiplies, bit_and, bit_or and bit_xor on integers, it is the sum, product, and, or, xor of the selected lanes (0, 1, all ones, 0, 0 if none is selected), defined exactly if no step overflows; the default identity elements are neutral, so with all lanes selected the result agrees with reduce(v, op) whenever both are defined.", "quantifier": "every width, mask, op, value", "why_tests_cant": "2^size masks", "anchors": ["vir/simd.h:reduce(const_where_expression)"]}
{"id": "C39", "title": "masked hmin/hmax", "statement": "hmin(where(k, v)) is the least selected lane. (For floating-point types on GNU compatible compilers false: the identity is max() instead of infinity, so +inf lanes are reported as max(); proved for all types whose max() bounds all values.)", "quantifier": "every width, mask, value", "why_tests_cant": "needs special values together with special masks", "anchors": ["vir/simd.h:hmin(const_where_expression)", "vir/simd.h:hmax(const_where_expression)"]}
{"id": "C40", "title": "where expressions only change selected lanes", "statement": "Masked assignment, compound assignment, increment, negation, masked copy_from and copy_to change exactly the lanes (or memory cells) whose mask bit is set, and touch no memory for unset lanes.", "quantifier": "every width, mask, operation, memory", "why_tests_cant": "2^size masks for arbitrary size", "anchors": ["vir/simd.h:where_expression", "vir/simd.h:const_where_expression"]}
{"id": "C41", "title": "value-preserving conversions", "statement": "The library accepts a broadcast from arithmetic type From to element type To (other than bool) exactly if From is int, or From is unsigned and To is unsigned, or every value of From is exactly representable in To; implicit conversions between vectors are accepted only if every value of From is exactly representable in To.", "quantifier": "every pair of arithmetic types and every value", "why_tests_cant": "2^64 values", "anchors": ["vir/simd.h:is_value_preserving"]}
{"id": "C42", "title": "integer literals _cw", "statement": "For a literal with digit separators in base 2, 8, 10 or 16, <literal>_cw is a constant whose value is the literal's value and whose type is the smallest of signed char/short/int/long/long long/unsigned long long that holds it; values >= 2^64 are rejected. (Zero spelled other than 0 and the 0B prefix are rejected by the code.)", "quantifier": "every digit sequence", "why_tests_cant": "literals are unbounded strings", "anchors": ["vir/constexpr_wrapper.h:cw_parse", "vir/constexpr_wrapper.h:cw_prepare_array"]}
{"id": "C43", "title": "version numbers", "statement": "The version comparison operators form the lexicographic total order on (major, minor, patchlevel), consistent with the numeric order of the encoded VIR_SIMD_VERSION for components below 256, and decoding the macro recovers the components.", "quantifier": "all triples of ints", "why_tests_cant": "infinite domain", "anchors": ["vir/simd_version.h:simd_version_t"]}
{"id": "C44", "title": "min, max, minmax, clamp", "statement": "Lane-wise min/max/minmax/clamp agree with std::min/max/clamp per lane; for totally ordered values minmax is the sorted pair and clamp lies between the bounds.", "quantifier": "every width and value", "why_tests_cant": "arbitrary values", "anchors": ["vir/simd.h:min", "vir/simd.h:max", "vir/simd.h:minmax", "vir/simd.h:clamp"]}
{"id": "C45", "title": "bit operations on floating-point simd", "statement": "operator&, |, ^ on floating-point simd act on the bit patterns lane by lane: x ^ y ^ y == x, x & x == x, x | x == x bitwise, and masking the sign bit computes copysign/abs bit-exactly.", "quantifier": "every width and bit pattern", "why_tests_cant": "2^64 bit patterns per lane", "anchors": ["vir/simd_float_ops.h"]}
{"id": "C46", "title": "iota", "statement": "vir::iota_v<simd<T>> has lane i equal to i.", "quantifier": "every width", "why_tests_cant": "every width", "anchors": ["vir/simd_iota.h"]}
{"id": "C47", "title": "for_each forms no iterator outside the range", "statement": "for_each forms no pointer before the first or past the one-past-the-end element of [first, last), as ISO C++ demands when the range is a whole array. (False of the code: last - size and last - size*unroll_by are computed unconditionally; the theorems give the exact conditions. In constant evaluation, where such a pointer is a compile error, the loop test forms first + (size - 1) once more after the last full vector: for_each on a non-empty whole array is possible exactly if size divides the length plus one.)", "quantifier": "all policies, widths, alignments, range lengths and callables", "why_tests_cant": "Forming an out-of-range pointer is not observable on common hardware; only a proof over all lengths shows exactly when it happens.", "anchors": ["vir/simd_execution.h: for_each (unrolled_last, simd_last)", "vir/simd_execution.h: for_each (constant evaluation)"]}
{"id": "C48", "title": "aggregation happens in the type of init", "statement": "transform_reduce and reduce aggregate in the type of init: no operand or intermediate result of reduce_op has another element type, and a call whose transformed elements have another type than init is rejected (C78). (False of the code for a transform_op that returns the type of init for single elements but another type for wider arguments: the call compiles, and with prefer_aligned or auto_prologue the prologue reduces in that other type. Proved for all other policies and for operations with which the conversion commutes, with a counterexample for the rest.)", "quantifier": "every element type, aggregation type, conversion, transform_op, reduce_op, length, address, width, policy", "why_tests_cant": "whether the prologue runs depends on the address and the length of the range, and wrap-around shows only for some contents", "anchors": ["vir/simd_execution.h:simd_transform_reduce_prologue", "vir/simd_execution.h:transform_reduce"]}
{"id": "C49", "title": "simd_bit_cast keeps all bits", "statement": "simd_bit_cast<To>(x) between simds of equal total size keeps every bit: bit j of lane i (lanes of w bytes) is bit 8*w*i+j of the object before and after; casting back restores x; there is no cast between different sizes.", "quantifier": "every pair of lane sizes, lane counts and bit patterns", "why_tests_cant": "unbounded widths and 2^(8 w n) values", "anchors": ["vir/simd_bit.h:simd_bit_cast", "vir/detail.h:bit_cast"]}
{"id": "C50", "title": "lanewise integer arithmetic", "statement": "Every binary, unary, compound-assignment, increment and shift operator of an integer simd computes in each lane the mathematical result modulo 2^bits as a value of the element type (bitwise operators bit by bit), x op= y agrees with x op y even if both are the same object, and the operation is undefined exactly if the scalar operation on some lane is: signed overflow of types of 32 bits and more, division by zero, lowest/-1, shift counts outside the promoted type. Unsigned types never overflow. (False for simd<unsigned short> *: promotion to int makes 65535*65535 undefined.)", "quantifier": "every integer element type, width, operator and lane value", "why_tests_cant": "2^128 operand pairs per lane and every width", "anchors": ["vir/simd.h:fixed_simd_int_base", "vir/simd.h:simd::operator*"]}
{"id": "C51", "title": "comparisons and mask operators", "statement": "Lane i of x cmp y is true iff the relation holds between x[i] and y[i]; mask operators act lane by lane, compound forms agree, and the Boolean laws (De Morgan, double negation, xor involution) hold for masks as objects.", "quantifier": "every width and all values", "why_tests_cant": "every width, all values", "anchors": ["vir/simd.h:simd::operator==", "vir/simd.h:simd_mask"]}
{"id": "C52", "title": "broadcasts, casts, loads and stores", "statement": "Broadcast puts the converted value in every lane; static_simd_cast converts lane by lane (exact when representable, modulo 2^bits otherwise, widening and back is the identity); loads read exactly size() elements at the pointer, stores write exactly those, load after store and store after load are identities; masked mask loads read only selected elements; an access outside the array is undefined.", "quantifier": "every width, offset, memory contents and value", "why_tests_cant": "all offsets, sizes and values", "anchors": ["vir/simd.h:simd::copy_from", "vir/simd.h:simd::copy_to", "vir/simd.h:static_simd_cast"]}
{"id": "C53", "title": "for_each on arrays of structs", "statement": "for_each on a range of vectorizable structs passes every struct exactly once, with all its members in one lane of a simdized struct, in order; with write-back a callable that changes every struct by g turns the range xs into the structs g(x) in place; without write-back the range is unchanged; no policy, in particular not prefer_aligned on short ranges, makes it undefined.", "quantifier": "every struct type (member count, implementation path of the simdized loads and stores for every width), array length and contents, policy and callable", "why_tests_cant": "member counts, widths, lengths, policies and callables are unbounded", "anchors": ["vir/simd_execution.h:for_each", "vir/simd_execution.h:simd_load_and_invoke", "vir/simdize.h:simd_tuple", "vir/simdize.h:vectorized_struct"]}
{"id": "C54", "title": "exceptions thrown by the callable of for_each", "statement": "If the callable of for_each throws, the exception leaves the algorithm at once: nothing is invoked afterwards, the elements visited are a prefix of the range, with write-back the pieces of all earlier invocations hold what the callable left in them, and the elements of the throwing invocation and all later ones are unchanged (without write-back the whole range is). for_each returns normally exactly if no invocation threw.", "quantifier": "every callable with arbitrary state, every throwing invocation, width, policy, alignment, range length and contents", "why_tests_cant": "the throw may happen at any invocation of any run", "anchors": ["vir/simd_execution.h:for_each", "vir/simd_execution.h:simd_load_and_invoke"]}
{"id": "C55", "title": "side effects and exceptions of the operation of transform", "statement": "transform invokes an operation with side effects once per chunk: sorted by position the invocations get every element of every input exactly once and in order, and the output holds their results; the order within an unrolled iteration is up to the compiler and observable. If an invocation throws, nothing is invoked afterwards, the output holds the results of the completed iterations, and no result of the iteration in progress is stored; everything else is unchanged.", "quantifier": "every operation with arbitrary external state, every evaluation order, throwing invocation, width, policy, alignment, inputs, overlap allowed by the precondition", "why_tests_cant": "the evaluation order depends on the compiler, the throw may happen anywhere", "anchors": ["vir/simd_execution.h:transform", "vir/simd_execution.h:simdized_load_and_invoke", "vir/detail.h:unroll2"]}
{"id": "C56", "title": "transform and transform_reduce form no iterator outside the range", "statement": "transform and transform_reduce form no iterator before the first or past the end of [first1, last1), as ISO C++ demands when the range is a whole array. (False of the code: last1 - size, last1 - size*unroll_by and, in transform_reduce, first1 + size*unroll_by are computed without looking at the length; the theorems give the exact conditions, for transform also in constant evaluation, where such an iterator is a compile error.)", "quantifier": "all policies, widths, alignments, range lengths and operations", "why_tests_cant": "forming an out-of-range pointer is not observable on common hardware", "anchors": ["vir/simd_execution.h:transform", "vir/simd_execution.h:transform_reduce"]}
{"id": "C57", "title": "range and zip overloads of transform", "statement": "transform(pol, r1, d_rng, op) and transform(pol, r1, r2, d_rng, op) map all elements of r1; they are defined exactly if r2 and d_rng are at least as long as r1. transform(pol, zip_view, d_rng, op) maps as many elements as the shortest zipped range has and is defined exactly if d_rng is that long. All return the end of the written part of the output and change nothing else. (An empty zip_view is dereferenced, which is undefined by the letter of the standard.)", "quantifier": "every number of ranges, all lengths, positions (with the allowed overlap), policies, contents and operations", "why_tests_cant": "out-of-range accesses of too short ranges need not be observable; all lengths", "anchors": ["vir/simd_execution.h:transform (range and zip_view overloads)"]}
{"id": "C58", "title": "simdize turns every leaf into a simd of one width", "statement": "simdize<T, N> is either T itself or a data-parallel type of width N (for N = 0: the largest native width among the scalar members of T, at any depth) whose non-struct members are, in order, those of T turned into simds of exactly that width.", "quantifier": "all scalar and struct types with any nesting, uniform class templates, all widths, all platforms", "why_tests_cant": "types are unbounded; tests instantiate a few structs", "anchors": ["vir/simdize.h:simdize", "vir/simdize.h:simdize_impl", "vir/simdize.h:default_simdize_size", "vir/simdize.h:make_simd_tuple"]}
{"id": "C59", "title": "simdize vectorizes every struct of scalars", "statement": "For a struct whose members are recursively scalars, simdize<T, N> is a data-parallel type. (True with the fallback simd; with libstdc++ false: a struct for which some scalar has no simd of the common width is silently left alone, and a struct containing such a struct is a hard error for every N; exact conditions.)", "quantifier": "all structs with any nesting, all widths, all platforms", "why_tests_cant": "types are unbounded; the failures need particular combinations of member sizes and target", "anchors": ["vir/simdize.h:simdize_impl", "vir/simdize.h:default_simdize_size", "vir/simd.h:simd_abi::deduce"]}
{"id": "C60", "title": "struct templates keep their member names", "statement": "simdize of a specialization of a class template whose members are all vectorized by simdizing the template arguments derives from that specialization. (False of the code for templates with several members one of which is itself a struct of several members.)", "quantifier": "all class template specializations, any nesting, all widths", "why_tests_cant": "types are unbounded", "anchors": ["vir/simdize.h:vectorizable_struct_template", "vir/simdize.h:flat_element"]}
{"id": "C61", "title": "floating-point operators and math functions are lanewise", "statement": "Unary, binary and ternary math functions and floating-point operators produce in each lane the scalar function of the corresponding lanes, calling it exactly once per lane in lane order; functions with out-parameters (frexp, remquo, modf) also store the second results lane by lane, even if argument and out-parameter are the same object; compound assignments and increments equal the binary operators, also for x op= x.", "quantifier": "every width, every lane value, every (stateful, failing) scalar function", "why_tests_cant": "all values and widths; aliasing and evaluation order are only visible for particular functions", "anchors": ["vir/simd.h:sin", "vir/simd.h:frexp", "vir/simd.h:modf", "vir/simd.h:remquo", "vir/simd.h:simd::operator+="]}
{"id": "C62", "title": "abs of integer simds", "statement": "abs of a signed integer simd has in every lane the absolute value. (False for the lowest value: undefined for 32 and 64 bits, unchanged negative for 8 and 16 bits; exact condition.)", "quantifier": "every width, integer type and value", "why_tests_cant": "all values", "anchors": ["vir/simd.h:abs"]}
{"id": "C63", "title": "to_fixed_size, to_native and to_compatible keep the lanes", "statement": "Converting between ABIs with to_fixed_size, to_native and to_compatible keeps number and values of lanes. (False of the fallback for to_native and to_compatible: they exist only for one-lane arguments and broadcast the lane; exact condition.)", "quantifier": "every width, element type and value", "why_tests_cant": "all element types and widths", "anchors": ["vir/simd.h:to_fixed_size", "vir/simd.h:to_native", "vir/simd.h:to_compatible"]}
{"id": "C64", "title": "side effects and exceptions of the operations of transform_reduce", "statement": "Whatever state the transform and the reduction operation read and change, and wherever one of them throws: transform_reduce lets the exception out without invoking any operation afterwards, it ends with an exception only if an invocation threw, the transform operation gets simds of one common width and sees every element of every input range exactly once and in order (a prefix of them up to the exception), and the reduction operation always gets two simds of equal, positive width. Without an exception it combines exactly as many pairs of values as the ranges have elements (a simd of w lanes counting w, a horizontal reduction of w lanes w-1): no value is combined twice and none is dropped.", "quantifier": "every policy, size, address, set of input ranges, pair of stateful and possibly throwing operations, and initial state, under the preconditions of C14 (or during constant evaluation)", "why_tests_cant": "the exception point, the state and the chunking vary with the input; a test fixes all three", "anchors": ["vir/simd_execution.h:transform_reduce", "vir/simd_execution.h:reduce", "vir/simd_execution.h:simdized_load_flag1_and_invoke"]}
{"id": "C65", "title": "access to the members of an aggregate", "statement": "For an object with at most 50 members struct_get<N>(obj) is a reference to the N-th member in declaration order (assigning through it changes that member and nothing else), to_tuple_ref refers to all members in order, to_tuple copies them all in order with their types (and cannot be instantiated if a member cannot be copied), and to_pair/to_pair_ref agree with them for two members; references are const exactly if member or object is const (with one member also for rvalue objects). With more than 50 members none of them can be instantiated.", "quantifier": "every number of members, member index, object value, constness and value category", "why_tests_cant": "fifty hand-written specializations times every member index, constness and value", "anchors": ["vir/struct_reflect.h:struct_get", "vir/struct_reflect.h:to_tuple", "vir/struct_reflect.h:to_tuple_ref", "vir/struct_reflect.h:to_pair", "vir/struct_reflect.h:VIR_STRUCT_GET_"]}
{"id": "C66", "title": "values of simdized structs", "statement": "Lane i of a simdized struct constructed from a struct of scalars and simds consists of those scalars and of lane i of those simds, at any depth of nesting, and initialisers of another shape or width are rejected; converting to a struct of simds and back restores the value; copy_to stores lane i as struct i and changes nothing else, copy_from makes struct i lane i; get<k>(x)[i] is member k of x[i]; and x op p, for a struct template whose operator works lane by lane, is in lane i what the operator yields for x[i] and (the broadcast) p.", "quantifier": "every struct type, depth of nesting, width, value, memory and offset", "why_tests_cant": "the structs, widths and values are unbounded; a test instantiates a few structs", "anchors": ["vir/simdize.h:simd_tuple", "vir/simdize.h:vectorized_struct", "vir/simdize.h:copy_from", "vir/simdize.h:copy_to", "vir/simdize.h:get", "vir/simdize.h:VIR_OPERATOR_FWD"]}
{"id": "C67", "title": "expressions of constexpr_wrapper constants", "statement": "An expression built with operators from constexpr_wrapper objects, other constants with a static value and run-time values has the value (or the undefined behaviour) of the same expression on the plain values; overload resolution is never ambiguous; and the result of every operator is a constexpr_wrapper of that value as soon as one operand is a wrapper and the other operands are constants. Calls and subscripts of wrapped functions, arrays and the like behave in the same way, cw<v>() is v where v cannot be called, and cw<v>->m is v->m wherever that is valid, and v.m if v is of a class type without operator->.", "quantifier": "every expression tree, every operator with or without undefined results, every value; operands are wrappers (or classes derived from one), constants unrelated to wrappers, and values", "why_tests_cant": "expressions and values are unbounded, and ambiguity depends on the set of classes associated with each operand", "anchors": ["vir/constexpr_wrapper.h:constexpr_wrapper", "vir/constexpr_wrapper.h:constexpr_value", "vir/constexpr_wrapper.h:_lhs_constexpr_wrapper"]}
{"id": "C68", "title": "side effects and exceptions of count_if predicates", "statement": "A predicate of count_if that has side effects and may throw sees every element exactly once and in order until an invocation throws; count_if returns the number of true values in all masks the predicate returned (if that fits into int); an exception ends the function at the throwing invocation, reaches the caller, and is neither swallowed nor invented.", "quantifier": "every predicate with state, every point at which it throws, every range, length, policy, width and alignment", "why_tests_cant": "the states of the predicate, the throw points and the lengths are unbounded", "anchors": ["vir/simd_execution.h:count_if"]}
{"id": "C69", "title": "range overloads of transform_reduce with ranges of different lengths", "statement": "transform_reduce over two ranges uses the length of the first one: if the second range is at least as long, transform_op sees every element of the first range together with the element at the same position of the second, exactly once and in order and reduce_op combines one pair per element (a longer second range is used partially), and the value is the one of the iterator form; if the second range is shorter, the call reads past its end unless an operation throws before that. With operations that do not throw the call is defined exactly if the second range is at least as long as the first.", "quantifier": "all ranges of any two lengths (any number of further ranges in the model), all element values, operations with state and exceptions, policies, widths and alignments, at run time and in constant evaluation", "why_tests_cant": "lengths, throw points and policies are unbounded, and an over-read is not observable in a test", "anchors": ["vir/simd_execution.h:transform_reduce", "vir/simd_execution.h:reduce"]}
{"id": "C70", "title": "sums of integers with reduce and transform_reduce", "statement": "Adding up integers with reduce or transform_reduce: for unsigned types and types narrower than int the result is the sum modulo 2^bits, always; for int, long and long long the call has no overflow and returns the mathematical sum if the sum of the positive and the sum of the negative transformed elements (with init) are values of the type; whenever a value is returned it is the right one. (The weaker condition that the sum from left to right does not overflow is not enough. If a transform_op returns the type of init for single elements only, see C48, only the type of init matters without alignment prologue, and with one the narrower elements are added in their own type first.)", "quantifier": "every length, contents, init, integer type, number of ranges, transform_op, address, width, unroll factor and policy (outside the cases of C16)", "why_tests_cant": "the order of the additions changes with length, address, width and policy; whether an intermediate sum overflows depends on all of them", "anchors": ["vir/simd_execution.h:reduce", "vir/simd_execution.h:transform_reduce", "vir/simd.h:simd"]}
{"id": "C71", "title": "transform on arrays of structs and ranges with different element types", "statement": "With ranges of structs or of different element types, transform makes element i of the output the result for the elements i of all inputs as they were before the call, changes nothing else and returns the end of the output range. An input may be the output array itself, element for element. (False when a load permutes the lanes: three floats with eight lanes; then results are written to wrong elements.)", "quantifier": "every number of ranges, length, contents, element types with any number of members, operation that acts lane by lane, address, width, unroll factor and policy (outside the cases of C16)", "why_tests_cant": "whether and where lanes are permuted depends on the members, the width and the remainder of the length; tests use a few lengths and scalars only", "anchors": ["vir/simd_execution.h:transform", "vir/simd_execution.h:simd_load_and_invoke", "vir/simdize.h:simdize_tuple"]}
{"id": "C72", "title": "transform_reduce on arrays of structs and ranges with different element types", "statement": "With ranges of structs or of different element types, transform_reduce returns a generalized sum of init and the results for the elements with the same index, the left fold for associative and commutative operations, and always the left fold in constant evaluation. transform_op sees every element of every range once, in order, with the elements of the same index, and reduce_op combines one pair of values per element. (False if one range is loaded with permuted lanes, three floats with eight lanes, and another is not.)", "quantifier": "every number of ranges, length, contents, element types with any number of members, operations (for the effects also stateful and throwing ones), init, address, width, unroll factor and policy (outside the cases of C16)", "why_tests_cant": "a sum over one permuted range is right, so tests of single ranges pass; which elements are combined depends on all element types, the width and the remainder of the length", "anchors": ["vir/simd_execution.h:transform_reduce", "vir/simd_execution.h:simd_load_and_invoke", "vir/simdize.h:simdize_tuple"]}
{"id": "C73", "title": "expressions with operators on integer simds", "statement": "A callable written with operators, literals and where-assignments on integer simds gives, lane by lane, the value of the expression on the lanes of the arguments, and is undefined exactly if some lane has no value. For int and wider types it is the value of the same expression on numbers; for narrower types with + - * ~ & | ^ the low bits of it. (False for other operators on narrow types, since every simd operator converts back to the element type; and a where-assignment evaluates its operand on all lanes, so that a guarded division is undefined.)", "quantifier": "every expression, integer type, width and argument values", "why_tests_cant": "the expressions are unboundedly many and differences between simd and scalar code only show for certain values", "anchors": ["vir/simd.h:simd", "vir/simd.h:where_expression", "vir/simd.h:simd_mask"]}
{"id": "C74", "title": "algorithms with operator expressions on integers", "statement": "for_each and transform with a callable written as an operator expression are defined exactly if the expression has a value for the elements of every index; then every result element is the value for the elements with its index and nothing else changes. transform_reduce with such a transform_op and plus returns the sum of the values (modulo 2^bits for unsigned and narrow types; for int and wider types if no partial sum leaves the type).", "quantifier": "every expression, integer type, length, contents, number of ranges, address, width, unroll factor, policy and order of evaluation inside an unrolled iteration (outside the cases of C16)", "why_tests_cant": "undefined behaviour of one lane anywhere in the range must not depend on how the range is cut into pieces; tests see a few lengths and expressions", "anchors": ["vir/simd_execution.h:for_each", "vir/simd_execution.h:transform", "vir/simd_execution.h:transform_reduce", "vir/simd.h:simd"]}
{"id": "C75", "title": "type traits, ABI deduction and concepts", "statement": "is_simd and is_simd_mask (and the concepts any_simd, any_simd_mask, typed_simd, sized_simd, sized_simd_mask) hold exactly of the simds and masks of cv-unqualified arithmetic types other than bool with at least one element; simd_size and size() are the number of elements; simd<T, deduce_t<T, N>> has N elements; native and compatible simds fill a register; rebind_simd changes only the element type and resize_simd only the number of elements (to the size it has: nothing), in any order and repeatedly; mask_type and simd_type are inverse; is_simd_flag_type holds of the flags.", "quantifier": "every type built from arithmetic types, cv-qualification, the ABI tags with any size, simd and simd_mask; every size; every instruction set", "why_tests_cant": "there are infinitely many types and sizes; tests instantiate a handful", "anchors": ["vir/simd.h:is_simd", "vir/simd.h:simd_size", "vir/simd.h:rebind_simd", "vir/simd.h:resize_simd", "vir/simd.h:simd_abi::deduce", "vir/simd.h:simd_abi::native", "vir/simd_concepts.h:any_simd"]}
{"id": "C76", "title": "integer types by size and implicit conversions between integer simds", "statement": "as_int_t<T> and as_unsigned_t<T> (used by the bit operations on floating-point simds) are the signed and the unsigned integer type with the size of T and exist for every size an integer type has; a fixed-size integer simd converts implicitly to another of the same size exactly if the target type has all values of the source type and at least its rank.", "quantifier": "every size, every pair of standard integer types, every data model (long of 4 or 8 bytes, signed or unsigned char, with or without __int128)", "why_tests_cant": "a test runs on one data model", "anchors": ["vir/detail.h:as_int", "vir/detail.h:as_unsigned", "vir/simd.h:is_higher_integer_rank", "vir/simd.h:simd"]}
{"id": "C77", "title": "casts between simd types, masks and cvt", "statement": "static_simd_cast of a simd to an element type keeps the number of lanes; to a simd type it gives that type; it exists for masks exactly with the same number of elements; lane i of the result is lane i of the argument, converted. simd_cast exists exactly for the value-preserving ones. cvt converts a simd or mask to every type with the same number of elements, with the same lanes, and to no other.", "quantifier": "all simd and mask types, sizes, lane values and conversion functions", "why_tests_cant": "overload sets over infinitely many types and sizes", "anchors": ["vir/simd.h:static_simd_cast", "vir/simd.h:simd_cast", "vir/simd_cvt.h:cvt"]}
{"id": "C78", "title": "element types that transform, reduce and transform_reduce accept", "statement": "With callables that return elements of one type, transform compiles exactly if that is the element type of the output range, and transform_reduce exactly if it is the type of init (and reduce_op also takes plain values); reduce exactly if init has the element type of the range, the inner product exactly if both ranges have elements of the type of init. So reduce over ints with a long long init, as std::reduce allows, does not compile, nor does a reduce_op for simd objects only, although it is documented to be called with simd objects. For an operation of any type, transform compiles exactly if its result converts to the simd of the output type at the full width, at width 1, at the powers of two below the full width (unless assume_matching_size) and at those below the bound of an alignment prologue. transform_reduce with a generic reduce_op compiles exactly if the result of transform_op converts at width 1, can be accumulated at the full width and at every power of two below it, is a simd of elements that convert to the type of init at every width of an alignment prologue, and, with unrolling, has exactly the type simd of init at the full width.", "quantifier": "every arithmetic element type, set of implicit conversions between them, policy, width, unroll factor, callable (by its result types)", "why_tests_cant": "whether a template compiles depends on every type, width and policy; tests cover the combinations that compile", "anchors": ["vir/simd_execution.h:transform", "vir/simd_execution.h:transform_reduce", "vir/simd_execution.h:reduce", "vir/simd.h:reduce"]}
{"id": "C79", "title": "failed preconditions are handled as documented", "statement": "A precondition that holds has no effect. If a subscript, find_first_set or assume_matching_size precondition fails, then with VIR_CHECK_PRECONDITIONS=N the compiler warns (N even) or rejects the program (N odd) if it can tell, and otherwise the program has undefined behaviour (N = 0, 1), traps (2, 3) or prints the error message and aborts (4, 5). No level lets the program continue, and a constant evaluation never accepts a failed precondition.", "quantifier": "every level, compiler, call (constant-evaluated, known to the optimizer or neither), simd, subscript, mask, range size, width and source location", "why_tests_cant": "a failed precondition ends the program; levels, compilers and optimizer knowledge multiply, and a wrong printf format only shows when a check fails at level 4 or 5", "anchors": ["vir/simd.h:vir_simd_precondition", "vir/simd.h:vir_simd_precondition_vaargs", "vir/simd.h:invoke_ub", "vir/simd.h:operator[]", "vir/simd.h:find_first_set", "vir/simd_execution.h:for_each", "vir/simd_execution.h:transform", "vir/simd_execution.h:transform_reduce"]}
{"id": "C80", "title": "calls of binary_op in the horizontal reduce, and of reduce_op in transform_reduce", "statement": "Whatever state binary_op reads and changes, and wherever it throws: reduce of a simd with n elements calls it only on two simds whose common width is a power of two and at least two, or on two values; without an exception the calls combine exactly n-1 pairs of values, and an exception leaves at once, without any further call. The masked reduce calls it once per selected element, in order, with the previous result as first argument. With the simds of vir/simd.h the calls of reduce_op in transform_reduce, including those in the horizontal reductions, combine exactly as many pairs as the ranges have elements, transform_op sees every element once and in order, and an exception of any call leaves at once.", "quantifier": "every width, contents, stateful and possibly throwing operation, initial state, and order of evaluation of function arguments; for transform_reduce every policy, size, address and set of input ranges under the preconditions of C14 (or during constant evaluation)", "why_tests_cant": "widths, exception points and the compiler's order of evaluation vary; a test fixes all of them", "anchors": ["vir/simd.h:reduce", "vir/simd_execution.h:transform_reduce"]}
{"id": "C81", "title": "Number of invocations of the callable", "statement": "vir::for_each, vir::transform, vir::count_if and vir::transform_reduce over n elements with simd objects of size <= 2^j lanes pass at most n/size + 2j simd objects to the callable (transform_op for transform_reduce), whatever the alignment of the range, the policy and the behaviour of the callable, also if it throws. With unroll_by<U> for_each invokes the callable at most n/(size*U) + (U-1) + 2j times. If the range starts aligned, or the policy does not ask for alignment, and n is a multiple of size, at most n/size simd objects are used. transform_reduce invokes reduce_op and reduce(v, reduce_op) at most 2j+1 times more often than transform_op.", "quantifier": "all ranges, addresses, policies that meet the preconditions of the algorithm, all element types, simd sizes and callables, with side effects and exceptions", "why_tests_cant": "The number of additional invocations depends on the address, the number of elements modulo size and the unrolling; a bound for all of them cannot be established by measuring some.", "anchors": ["vir/simd_execution.h:for_each", "vir/simd_execution.h:transform", "vir/simd_execution.h:count_if", "vir/simd_execution.h:transform_reduce", "vir/simd_execution.h:simd_for_each_prologue", "vir/simd_execution.h:simd_for_each_epilogue"]}
{"id": "C82", "title": "results do not depend on the execution policy, and the algorithms agree with each other", "statement": "For callables that act on every lane separately (and, for transform_reduce and reduce, an associative and commutative reduction) two calls on the same data whose preconditions hold give the same result whatever their execution policies, simd widths and alignments: for_each, transform, count_if, transform_reduce. for_each that changes its elements equals transform from the range onto itself; transform followed by reduce of its output equals transform_reduce; count_if equals the transform_reduce that adds one per matching element; two transforms in sequence equal one with the composed operation. Without these conditions the policy can change the result.", "quantifier": "all ranges, contents, pairs of policies, widths and addresses meeting the preconditions; all lane-wise callables; all associative and commutative reductions and all horizontal reductions that are generalized sums", "why_tests_cant": "a relation between two runs over all pairs of policies, lengths, addresses and callables; a test compares finitely many pairs", "anchors": ["vir/simd_execution.h:for_each", "vir/simd_execution.h:transform", "vir/simd_execution.h:count_if", "vir/simd_execution.h:transform_reduce", "vir/simd_execution.h:reduce"]}
{"id": "C83", "title": "struct_size_v counts the data members of a class", "statement": "For an aggregate with at most three empty base classes, all of whose members can be initialised from a braced initialiser, struct_size_v is the number of non-static data members, whichever of them have default initialisers, and struct_get<n> is member n. (More than three empty bases give 0. A member that cannot be initialised that way, such as an empty struct, cuts the count short. The documented case of a class whose members all come from one base class is false: the result is 1.)", "quantifier": "every list of base classes and members, every sizeof", "why_tests_cant": "unboundedly many class shapes", "anchors": ["vir/struct_reflect.h:anything_but_base_of", "vir/struct_reflect.h:any_empty_base_of", "vir/struct_reflect.h:brace_constructible_impl", "vir/struct_reflect.h:struct_size", "vir/struct_reflect.h:struct_size_v", "vir/struct_reflect.h:struct_get"]}
{"id": "C84", "title": "simdize_size", "statement": "simdize_size_v<T> is m > 0 exactly if every leaf of T is a simd of width m, and 0 if there is no such m; for a type obtained from simdize it is size(). (False for types that contain a struct or tuple without members: there the program is ill-formed.)", "quantifier": "every nesting of structs, tuples and simds", "why_tests_cant": "unbounded nesting", "anchors": ["vir/simdize.h:simdize_size", "vir/simdize.h:simdize_size_v", "vir/simdize.h:simdize"]}
{"id": "C85", "title": "Right-hand sides of where expressions", "statement": "where(k, v) = x and where(k, v) op= x accept an object of the same type, a scalar, another simd or a mask. The right-hand side is converted lane by lane to the element type of v first; then exactly the selected lanes change, to the converted lane or to the result of the operator on the old lane and the converted lane. A right-hand side with the wrong number of lanes is rejected at compile time. Generic code that uses where(bool, scalar) op= x computes what where(mask, simd) op= x computes in a lane.", "quantifier": "all element types, numbers of lanes, masks, values, operators and kinds of right-hand sides", "why_tests_cant": "The conversion of the right-hand side and the evaluation type of the operator differ per pair of types; tests use right-hand sides of the same type and small values.", "anchors": ["vir/simd.h: where_expression::operator=, where_expression::operator op=, where"]}
{"id": "C86", "title": "Concurrent calls on data that does not overlap", "statement": "If several threads call for_each (with or without write-back) and transform at the same time, with any policies, callables and lengths, and no call writes an element that another call reads or writes, then under every interleaving of their element accesses nothing undefined happens and there is no data race; at every time each element has either its old value or the value that the one call writing it would give it alone; a finished call has left its callable and its output exactly as if it had run alone; and once all have finished the memory is as if the calls had been made one after the other in any order. In particular a map over an array may be split over threads at arbitrary element boundaries, aligned or not: a call never touches elements outside its range, reads each element of its range once and writes each element of its output once. Without the condition updates can be lost.", "quantifier": "every number of threads, every schedule and every prefix of it, every policy, length, position and content of the ranges, every stateful callable", "why_tests_cant": "the interleavings of element accesses cannot be enumerated; a stray wide store beyond the end of a piece would only show under a particular schedule", "anchors": ["vir/simd_execution.h: simd_load_and_invoke, simd_for_each_prologue, simd_for_each_epilogue, for_each, detail::transform"]}
{"id": "C87", "title": "Every documented call form reaches the overload documented for it", "statement": "A call of for_each, transform, transform_reduce, reduce or count_if with arguments in the roles of a documented form (iterators, ranges, zip_view; with and without initial value and callables; in namespace vir and, for iterators, namespace std) selects exactly one overload, and that overload processes the documented ranges with the documented initial value and callables in the documented positions and defaults. (False for some range forms: C arrays are taken for iterator pairs, temporaries are rejected as output ranges of transform, and ranges whose end is a sentinel do not compile. The theorems give the exact condition.) No call is ambiguous, whatever its arguments are.", "quantifier": "every assignment of types to the arguments: any types that model the concepts of the roles, value categories included", "why_tests_cant": "tests instantiate a few containers; which overload wins depends on what the types of all arguments model and decay to together", "anchors": ["vir/simd_execution.h:for_each", "vir/simd_execution.h:transform", "vir/simd_execution.h:transform_reduce", "vir/simd_execution.h:reduce", "vir/simd_execution.h:count_if", "vir/simd_execution.h:simd_execution_range"]}
{"id": "C88", "title": "values given to the broadcast and generator constructors arrive unchanged", "statement": "A simd constructed from a value, or from a generator, is rejected at compile time or every lane has exactly the value that was given for it; int (and unsigned for unsigned elements) excepted, which are converted. (False of the code for generators whose result type depends on the index: only the type for index 0 is checked.)", "quantifier": "all arithmetic element types, all arithmetic source types per index, all values, all widths, all rounding modes", "why_tests_cant": "value ranges, formats and widths are unbounded", "anchors": ["vir/simd.h:simd(F&& gen, ValuePreservingOrInt*)", "vir/simd.h:simd(ValuePreservingOrInt&&)"]}
{"id": "C89", "title": "sums of floating-point numbers are accurate whatever the policy and the width", "statement": "reduce, transform_reduce, the inner product and the horizontal reduce of a simd, with addition in a floating-point type in any rounding mode, return a value of the type that differs from the exact sum of the initial value and the n (transformed) elements by at most ((1+u)^n - 1) times the sum of their absolute values, u being the unit roundoff, unless the same bound allows an overflow. The inner product has one more factor for the rounded products and an underflow term. The result of a plain loop over the elements therefore differs by at most twice the bound; it does differ in general.", "quantifier": "all standard floating-point formats, rounding modes, finite values, lengths, execution policies, widths and horizontal reductions that combine every lane once", "why_tests_cant": "the order of the additions depends on length, policy, alignment and target; rounding errors depend on all values together", "anchors": ["vir/simd_execution.h:transform_reduce", "vir/simd_execution.h:reduce", "vir/simd.h:reduce"]}
{"id": "C90", "title": "fake_modify and fake_read hide and keep every part of their arguments", "statement": "fake_read emits, for every part of every argument in order, one statement the compiler cannot remove, with the part as its input, so that arguments that differ in any bit cannot be confused and have to be computed. fake_modify emits such a statement with the part as input and output: the arguments keep their values, but the compiler has to expect any values of the same types. Every statement accepts operands in memory, so that no type is rejected. Floating-point values and values of 16 bytes and more may stay in a vector register during the call exactly if the target has such registers.", "quantifier": "any number of arguments, all types (arithmetic types, simd and simd_mask of both implementations, other types) and sizes, all values, all assumptions a compiler makes", "why_tests_cant": "a benchmark that was optimized away still runs; whether it was depends on compiler, types and values", "anchors": ["vir/simd_benchmarking.h:fake_modify", "vir/simd_benchmarking.h:fake_read", "vir/simd_benchmarking.h:fake_modify_one", "vir/simd_benchmarking.h:fake_read_one"]}
{"id": "C91", "title": "algebraic laws of permutations", "statement": "Permuting the result of a permutation is one permutation by the composed index function, whatever widths and implementations are involved. A permutation by a one-to-one index function returns the same values in another order, and the inverse index function restores the value. Permutations commute with lane-wise functions that keep zero and, without zero lanes, with lane-wise operations on two values. simd_shift_in<O>(v) is shift<O> for O >= 0, simd_shift_in<O>(v, v) is rotate<O> for 0 <= O <= size, two shifts in the same direction are the shift by the sum; for negative offsets simd_shift_in<O>(v) and shift<O> agree exactly if the lanes that simd_shift_in moves to the front are zero.", "quantifier": "every width, result width, index function, offset and value, every combination of implementations", "why_tests_cant": "index functions are arbitrary user code and widths are unbounded template arguments", "anchors": ["vir/simd_permute.h:simd_permute", "vir/simd_permute.h:simd_shift_in", "vir/simd_permute.h:Rotate", "vir/simd_permute.h:Shift"]}
{"id": "C92", "title": "member types of an aggregate", "statement": "struct_element_t<N, T> is the type of the N-th member in declaration order with the qualifiers of T, as_tuple_t<T> is a tuple of the member types in order with the qualifiers and the reference of T, as_pair_t<T> is the same for two members; struct_get<N> refers to a struct_element_t<N, T>, and reflecting the tuple again yields the same element types.", "quantifier": "every aggregate (number, types, qualifiers, references and mutability of its members), every member index, every qualification and reference of T", "why_tests_cant": "fifty hand-written specializations times every member index and every combination of qualifiers and references", "anchors": ["vir/struct_reflect.h:struct_element_t", "vir/struct_reflect.h:as_tuple_t", "vir/struct_reflect.h:as_pair_t", "vir/struct_reflect.h:copy_cvref"]}
{"id": "C93", "title": "what the alignment modifiers change", "statement": "With prefer_aligned(), and with auto_prologue() on more than 4000 bytes, every invocation of for_each that gets a simd object of the full width starts at an address aligned for it; transform stores every simd object of the full width to an aligned address of the output range, and transform_reduce loads every simd object of the full width from an aligned address of the first range. On at most 4000 bytes auto_prologue() does not change the number of invocations nor how many simd objects of which widths are passed, only their order; this holds for for_each and transform. If the range starts at an aligned address, or its elements are not smaller than the alignment, both modifiers change nothing at all.", "quantifier": "every width, element size, alignment, start address, length, unroll factor, callable and content of the range", "why_tests_cant": "the decision depends on the bits of the address, the length and the width together; tests see a few start addresses", "anchors": ["vir/simd_execution.h:prologue", "vir/simd_execution.h:auto_prologue", "vir/simd_execution.h:prefer_aligned", "README.md:auto_prologue"]}
{"id": "C94", "title": "transform on ranges that overlap in any way", "statement": "However inputs and output of transform overlap, the call is defined and processes the range in groups of at most size*unroll_by elements, each group being loaded as the previous groups have left memory. If every input starts at or after the output or at least size*unroll_by elements before it, the result for a lane-wise operation is the one of std::transform with the scalar operation applied element by element (during constant evaluation a distance of size suffices). Without alignment prologue the distance is needed: for every smaller one there are data for which copying gives another result.", "quantifier": "every number of inputs, every offset of the ranges, every length, content of memory, width, policy and operation", "why_tests_cant": "the result depends on the distance, the width and the unroll factor together", "anchors": ["vir/simd_execution.h:transform", "vir/detail.h:unroll2", "README.md:transform"]}
{"id": "C95", "title": "simd programs compute in every lane what the program computes on numbers", "statement": "A program of assignments, compound assignments, ++ and --, the same through where, casts between element types, mask assignments and loops while (any_of(k)) over simd variables of several integer types behaves lane by lane like the same program on numbers, where(m, x) = e being if (m) x = e and while (any_of(m)) being while (m): if it runs in every lane (a lane that has left a loop passing unchanged through the iterations of the others), the simd program is defined and ends with exactly these values, whatever the numbers of iterations of the lanes are. Conversely, whatever the simd program ends with, every lane reached by going through the statements on its own values, and for loops in which everything is masked with the loop's mask this is exactly the run of the program on numbers. A program without loops is undefined exactly if it is in some lane. Lanes never influence each other. For example Euclid's algorithm written with where computes the greatest common divisor in every lane.", "quantifier": "every program, every number and integer type of variables, every width, all values of the variables and any number of iterations", "why_tests_cant": "the programs, widths, values and combinations of iteration counts of the lanes are unbounded", "anchors": ["vir/simd.h:simd", "vir/simd.h:simd_mask", "vir/simd.h:where_expression", "vir/simd.h:any_of", "vir/simd.h:static_simd_cast"]}
{"id": "C96", "title": "for_each and transform with simd programs as callables act on every element like the program on numbers", "statement": "If the callable of transform or for_each is a simd program in the sense of C95 (masked assignments, casts, loops until no lane is active, local variables), then, if the program on numbers ends for the elements of every index, the call is defined, element i of the output becomes what the program on numbers makes of the elements with index i, nothing else changes, and neither the policy, the simd width, the address, the order of evaluation nor which elements happen to share a simd matters, although elements in one simd may need different numbers of iterations. Conversely, whatever such a call ends with, every element is what the statements make of the elements with the same index, and for loops masked by their own condition this is the program on numbers. For example transform with Euclid's algorithm on simds writes the greatest common divisors of two ranges.", "quantifier": "every program, element type, number of input ranges, range length and content, policy, simd width, address and evaluation order, with and without constant evaluation", "why_tests_cant": "programs, range lengths, contents, policies and the grouping of elements with different iteration counts into simds are unbounded", "anchors": ["vir/simd_execution.h:for_each", "vir/simd_execution.h:transform", "vir/simd.h:where_expression", "vir/simd.h:any_of"]}
{"id": "C97", "title": "count_if with predicates that may be undefined, and with simd programs, counts the elements that satisfy the predicate", "statement": "For any predicate on simds, which may be undefined for some arguments, count_if cuts the range into consecutive pieces; if the predicate is defined for all of them the result is the number of true values it returned (undefined if int cannot represent it), and otherwise it is undefined for a piece of the range and the call is undefined. In particular if the predicate is defined for every piece of the range and tests each element with q, the result is the number of elements that satisfy q. If the predicate is a simd program in the sense of C95 (masked assignments, casts, loops until no lane is active, local variables) and the program on numbers ends for every element, the result is the number of elements for which it ends with true, whichever elements share a simd; conversely whatever such a call returns is the number of elements for which the statements lead to true. For example count_if with Euclid's algorithm on simds counts the elements coprime to a given number. The same holds during constant evaluation, except for simds of width 2 with a non-empty range of even length (see C19).", "quantifier": "every predicate, program, element type, range length and content, policy, simd width and address", "why_tests_cant": "predicates, programs, range contents, policies and the grouping of elements with different iteration counts into simds are unbounded", "anchors": ["vir/simd_execution.h:count_if", "vir/simd.h:where_expression", "vir/simd.h:any_of"]}
{"id": "C98", "title": "Sums of what a simd program computes from the elements are the sums of the program's results on numbers", "statement": "transform_reduce with std::plus<> and a transform_op that is a simd program in the sense of C95 (masked assignments, casts, loops until no lane is active, local variables), on one or more ranges of integers: if the program on numbers ends for the elements with every index, then in a signed type of at least 32 bits the result is init plus the sum of what it ends with, provided no selection of these values and init has a sum outside the type; in an unsigned type or one narrower than int the result is that sum modulo a power of two, without condition. Which elements share a simd, and how many iterations the others in it need, has no influence. Conversely whenever the call returns a value, all elements have results the statements of the program lead to, and the value is the sum of init and these results modulo a power of two. For example with Euclid's algorithm on simds the result is the sum of the greatest common divisors of the elements of two ranges. In constant evaluation the additions are done from left to right: the result is the sum exactly if all partial sums are values of the (signed) type.", "quantifier": "every program, integer type, number and contents of ranges, init, policy, simd width and address", "why_tests_cant": "programs, range contents, policies, the grouping of elements with different iteration counts into simds and the order of the additions are unbounded", "anchors": ["vir/simd_execution.h:transform_reduce", "vir/simd.h:where_expression", "vir/simd.h:reduce"]}
{"id": "C99", "title": "Masked simd programs of any element type, with nested loops and local variables, end exactly if every lane ends, with the results of the lanes", "statement": "Code on simds of any element type (floating-point numbers in particular), with unmasked and masked assignments, masked compound assignments, generators (iota, gathers), comparisons, assignments and masked assignments to masks, local variables and nested loops of the form while (any_of(k)) body: without loops it is defined exactly if the same code on single elements is defined for every lane, and gives the same values. With loops in which all assignments to variables that are not local are masked with the mask of the loop or something that implies it, whenever the simd code ends the code on single elements ends for every lane, and the simds contain its results, apart from local variables. If the operands in the loops are defined for all element values, as with floating-point numbers, the simd code ends exactly if the code on single elements ends for every lane. Example: the Mandelbrot iteration over any arithmetic.", "quantifier": "every program, element type, operation on elements, simd width, contents of the variables and number of iterations of each lane, nesting depth of loops", "why_tests_cant": "programs, nesting depths, element types and the combinations of iteration counts of lanes that share a simd are unbounded", "anchors": ["vir/simd.h:where_expression", "vir/simd.h:simd", "vir/simd.h:simd_mask", "vir/simd.h:any_of"]}
{"id": "C100", "title": "The algorithms with masked simd programs as callables give, for every element, what the same code on single elements gives", "statement": "for_each, transform, count_if and transform_reduce called with code on simds of any element type (floating-point numbers in particular) with masked assignments, local variables and nested loops of the form while (any_of(k)) body: if the same code on single elements ends for every element, the call ends, and every element is overwritten with, mapped to, counted by or aggregated as the result of the code on the single element, wherever the element lands in a simd. Conversely, whenever the call ends the code on single elements ends for every element. transform_reduce combines init and these results with any reduce_op in some order and grouping, which is the sequential result if reduce_op is associative and commutative, and always is in constant evaluation.", "quantifier": "every masked program that does not depend on the lane index, element type, number and contents of the elements, execution policy, alignment and simd width, number of iterations of each element, and order of the invocations (transform)", "why_tests_cant": "programs, inputs, iteration counts of elements that share a simd, ranges, alignments and policies are unbounded", "anchors": ["vir/simd_execution.h:for_each", "vir/simd_execution.h:transform", "vir/simd_execution.h:transform_reduce", "vir/simd_execution.h:count_if", "vir/simd.h:where_expression"]}
{"id": "C101", "title": "Parallel integer reductions with the function objects of the standard", "statement": "vir::reduce and vir::transform_reduce with std::plus, multiplies, bit_and, bit_or or bit_xor on elements and init of one integer type return the sum or product modulo 2^bits, or the bitwise and, or, exclusive or, of init and all transformed elements, at run time and in constant evaluation, or overflow. They never overflow for the bitwise operations, for sums in unsigned and narrow types, and for products except those of unsigned short and of signed types of at least 32 bits; products of the latter are exact if the product of the absolute values of the nonzero factors fits. The result agrees with the sequential fold whenever both are defined.", "quantifier": "every integer type, operation, number and values of the elements, policy, alignment and simd width", "why_tests_cant": "values, sizes, alignments and policies are unbounded; the order of the operations depends on all of them", "anchors": ["vir/simd_execution.h:transform_reduce", "vir/simd_execution.h:reduce", "vir/simd.h:reduce"]}
{"id": "C102", "title": "count_if on arrays of structs counts every matching struct once", "statement": "vir::count_if on an array of structs returns, at run time, exactly the number of structs that satisfy the predicate, for every policy and alignment, also where the loads of the simdized struct permute the lanes; if that number is not representable in int, a counter overflows. For a predicate that looks at several lanes the result is the number of true lanes it returned on simdized structs whose lanes are the structs of the array, each once.", "quantifier": "every struct layout, number and contents of the structs, predicate, policy, alignment and simd width", "why_tests_cant": "array lengths, policies and contents are unbounded and decide how the array is split into simdized structs", "anchors": ["vir/simd_execution.h:count_if", "vir/simd_execution.h:for_each", "vir/simdize.h:vectorized_struct"]}
{"id": "C103", "title": "Exceptions of the callable of for_each on arrays of structs", "statement": "If the callable of vir::for_each on an array of structs throws, the exception leaves the algorithm at once: no further invocation happens, the structs of all earlier invocations are written back, and the structs of the throwing invocation and all after it are unchanged. If no invocation throws, every struct has been visited exactly once and written back. In both cases the visited structs are those at the beginning of the array (in order, if the loads of the simdized struct are ordered).", "quantifier": "every struct layout, number and contents of the structs, callable with state that may throw at any invocation, policy, alignment and simd width", "why_tests_cant": "which invocation throws, the array length and the policy are unbounded, and together decide which structs have been written", "anchors": ["vir/simd_execution.h:simd_load_and_invoke", "vir/simd_execution.h:for_each", "vir/simdize.h:vectorized_struct"]}
{"id": "C104", "title": "Side effects and exceptions of the operation of transform on arrays of structs and ranges with different element types", "statement": "vir::transform on ranges of structs and scalars (an input may be the output array) invokes the operation on every element of the inputs exactly once, in pieces of at most one native width; the output holds the results of every invocation at the position of its elements, whatever the order in which the compiler evaluates the invocations of an unrolled iteration. If an invocation throws, no further one happens, the output holds the results for a prefix of the positions, and everything else, in particular the positions of the throwing invocation, is as before the call. Every invocation gets the elements of its positions from each input, in order where the loads of the simdized struct keep the order and permuted among the lanes otherwise.", "quantifier": "every number and element types of the ranges, contents, operation with state that may throw at any invocation, order of evaluation, policy, alignment and simd width, at run time and during constant evaluation", "why_tests_cant": "which invocation throws, the order of evaluation, the lengths and the policy are unbounded, and together decide which elements have been written", "anchors": ["vir/simd_execution.h:transform", "vir/simd_execution.h:simdized_load_and_invoke", "vir/detail.h:unroll2", "vir/simdize.h:vectorized_struct"]}
{"id": "C105", "title": "Side effects and exceptions of the predicate of count_if on arrays of structs", "statement": "vir::count_if on an array of structs invokes the predicate on every struct exactly once and returns the number of true values in all masks it returned (undefined only if a counter exceeds int). If an invocation throws, it is the last one, the structs handed to the predicate so far are those at the beginning of the array, and the exception leaves the call. Each invocation gets the state the previous one left, and where the loads of the simdized struct keep the order the predicate sees the structs in order. With a pure predicate the result is the one of count_if without effects.", "quantifier": "every array of structs, number of members, predicate with state that may throw at any invocation, policy, alignment and simd width, at run time", "why_tests_cant": "which invocation throws, the lengths, the widths and the policy are unbounded, and together decide which structs the predicate has seen", "anchors": ["vir/simd_execution.h:count_if", "vir/simd_execution.h:simd_for_each", "vir/simdize.h:vectorized_struct"]}
{"id": "C106", "title": "Number of invocations of the callable on arrays of structs", "statement": "On an array of n structs with simdized structs of size <= 2^j lanes, vir::for_each and vir::count_if pass at most n/size + j simdized structs to the callable, only n/size if n is a multiple of size; with unroll_by<U> for_each invokes the callable at most n/(size*U) + (U-1) + j times. vir::transform and vir::transform_reduce with ranges of structs and scalars invoke the operation (transform_op) at most n/size + 2j times, and transform_reduce invokes reduce_op and reduce(v, reduce_op) at most 2j+1 times more often than transform_op. All of this whatever the policy and the behaviour of the callable, also if it throws (the last bound is for calls that return).", "quantifier": "every number of structs, number of members, policy, alignment, simd width, callable with state that may throw at any invocation, order of evaluation", "why_tests_cant": "lengths, widths and the behaviour of the callable are unbounded; a test sees the number of invocations for single lengths", "anchors": ["vir/simd_execution.h:for_each", "vir/simd_execution.h:count_if", "vir/simd_execution.h:transform", "vir/simd_execution.h:transform_reduce", "vir/simdize.h:vectorized_struct"]}
{"id": "C107", "title": "Concurrent calls of vir::for_each on arrays of structs", "statement": "A call of vir::for_each on n structs reads every member of every struct exactly once and, if the callable takes its argument by non-const reference, writes every member exactly once, in order. If any number of threads call vir::for_each on arrays of structs, and vir::for_each or vir::transform on arrays of elements, and no call writes a member or element that another one reads or writes, then under every schedule there is no data race and nothing undefined, every member has its old value or the value the call that writes it gives it when it runs alone, a finished call has had exactly the effect it has when it runs alone, and at the end memory is as if the calls had been made one after the other in any order. Calls of vir::count_if on arrays of structs that nobody writes return the number of structs that satisfy the predicate, and the results for the pieces of an array add up. Threads that map pieces of an array of structs together map the array, if the loads keep the order of the structs. It is not sufficient that the callables change different members of the same structs: all members are written back and updates can get lost.", "quantifier": "every number of threads, schedule, number of structs and members, policies, simd widths, callables with state, memory contents", "why_tests_cant": "the number of schedules is exponential in the lengths of the arrays and a test sees the few the machine produces; data races need not show", "anchors": ["vir/simd_execution.h:for_each", "vir/simd_execution.h:simd_load_and_invoke", "vir/simdize.h:vectorized_struct", "vir/simdize.h:copy_from", "vir/simdize.h:copy_to"]}
{"id": "C108", "title": "What vir::for_each makes of an array of structs, exactly", "statement": "If the callable of vir::for_each on an array of structs treats the simdized structs of an invocation separately, the array afterwards depends neither on the execution policy nor on the address of the array. If it changes every struct with g, and the loads of eight lanes permute the structs (templates of three floats), then of every eight structs that are loaded together number 3j mod 8, changed with g, ends up at place j, and every other struct is changed with g where it is. Eight structs are loaded together in the main loop if the native simdized struct has eight lanes, and else at most once, in the epilogue.", "quantifier": "every number of structs and members, pair of policies and addresses, width, callable with state, contents of the array", "why_tests_cant": "lengths, widths, policies and callables are unbounded; a test compares single lengths and policies", "anchors": ["vir/simd_execution.h:for_each", "vir/simd_execution.h:simd_for_each_epilogue", "vir/simdize.h:vectorized_struct"]}
{"id": "C109", "title": "What vir::transform makes of arrays of structs, exactly", "statement": "With a callable that acts lane by lane, vir::transform between arrays with any element types returns the end of the output and changes nothing but the output. There are disjoint blocks of eight consecutive elements inside of the range such that the element at offset j of such a block of the output is made from the elements at offset 3j mod 8 of the inputs whose loads of eight lanes permute the structs (templates of three floats) and from the elements at offset j of all other inputs; every other element of the output is made from the elements of the inputs at its own position. If the output starts at an aligned address or the policy does not ask for alignment, the blocks are the complete blocks of the main loop if the native simd has eight lanes, and else at most one block in the epilogue. Otherwise the same holds from the first aligned address on (which is where the main loop begins if the policy asks for aligned stores), and the elements before it are processed in ascending powers of two, so that they contain at most one block.", "quantifier": "every number of elements, members and inputs, every aliasing of inputs with the output array, width, policy, address, lane-wise callable, contents of the arrays", "why_tests_cant": "lengths, widths, policies, element types and callables are unbounded; a test compares single lengths and policies", "anchors": ["vir/simd_execution.h:transform", "vir/simd_execution.h:simdized_load_and_invoke", "vir/simd_execution.h:simd_transform_epilogue", "vir/simdize.h:vectorized_struct"]}
{"id": "C110", "title": "What vir::transform_reduce computes for arrays of structs, exactly", "statement": "With a transform_op that acts lane by lane and reductions that combine their arguments in some grouping and order, vir::transform_reduce on arrays with any element types returns a generalized sum of init and one value per position (the fold of these values, if the operation is associative and commutative). There are disjoint blocks of eight consecutive elements such that the value at offset j of a block is made from the elements at offset 3j mod 8 of the inputs whose loads of eight lanes permute the structs (templates of three floats) and from the elements at offset j of all other inputs; every other value is made from the elements at its own position. The blocks are the complete blocks of the main loop if the native simd has eight lanes, else at most one in the epilogue, counted from where the main loop begins, and at most one before it.", "quantifier": "every number of elements, members and inputs, width, policy, address, lane-wise transform_op, reduction, conversion to the aggregation type (under the condition of C14), contents of the arrays", "why_tests_cant": "lengths, widths, policies, element types and operations are unbounded; a test compares single sums", "anchors": ["vir/simd_execution.h:transform_reduce", "vir/simd_execution.h:simdized_load_flag1_and_invoke", "vir/simd_execution.h:simd_transform_reduce_epilogue", "vir/simdize.h:vectorized_struct"]}
