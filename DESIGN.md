# Formal model of vir-simd in Lean 4 — design

`/repo` is read as text only; every definition of the model cites the file and lines it models.

## Layout

| module | content |
|---|---|
| `Verif/Outcome.lean` | result of running C++: a value, undefined behaviour (with a reason), or the trap of a failed precondition |
| `Verif/Spec/*.lean` | small specifications, independent of the model (what a call sequence does to a range, generalized sums, platform well-formedness, ...) |
| `Verif/Model/*.lean` | the model, function by function, with citations |
| `Verif/Lemmas/*.lean` | helper lemmas |
| `Verif/Props/*.lean` | the property theorems, each with a non-vacuity `example` next to it |
| `Verif/Audit.lean` | `#print axioms` of every theorem named in `MANIFEST.json` (generated by `tools/audit.py`, which also generates the table below) |
| `seeded/LOG.jsonl` | wrong programs the theorems were tested against |

## Modelling decisions

* **Undefined behaviour is a distinct outcome.** Out-of-range loads/stores, `vector_aligned` accesses at
  misaligned addresses, `unreachable()`, signed overflow are `Outcome.ub reason`; a failed
  `vir_simd_precondition` (default level 3) is `Outcome.trap`; a failed `static_assert` or ill-formed
  instantiation is `ub staticAssert`.
* **A simd object is the list of its lanes.** The lanes' element type is abstract unless arithmetic matters.
* **Memory.** A contiguous range is a list; an access `[i, i+w)` not inside it is `ub`. Iterators are integers
  relative to the range start, so `last - size` may be negative; with the model flag `strictPtr` forming such
  an iterator is itself `ub` (that is what ISO C++ says), otherwise it is a flat address (what compilers do).
* **Addresses.** Only used for alignment: element `i` lives at `addr + i * sizeof(T)`.
* **size_t** arithmetic that can wrap (`remaining -= to_process`) is modelled modulo 2^64; ranges are shorter
  than 2^64 bytes (`Env.Fits`).
* **Callables** are arbitrary functions with arbitrary state. `fun` of `for_each` maps its state and the list
  of simd arguments to a new state and new contents of those arguments.
* **Template recursion** is recursion on the width.
* The external simd implementation (libstdc++) is a parameter: its `memory_alignment_v` table `al`, of which
  only divisibility facts (`Env.WF`) are used; lane-wise behaviour of its types is as in the fallback
  `vir/simd.h`.

## How the groups are proved

* C01–C09 `for_each`: run-time branch with prologue (recursive and jump table), unrolled loop, main loop,
  epilogue (recursive and jump table). One refinement theorem "for_each executes exactly the call list
  `calls` on the range" by composition of per-phase lemmas (induction on the template recursion/loop);
  C01–C03, C06 are corollaries; C04/C05 give an iff characterisation.
* C08 jump tables: table transcribed row by row; equality with the recursive form by induction.
* C10–C13 `transform`: single arena memory so that input and output may overlap; invariant "prefix written,
  rest of memory as at the start". Ranges of different element types: C71.
* C14–C18, C48 `transform_reduce`/`reduce`: relation `GSum op m x` ("x is a tree of op over multiset m");
  every phase extends the multiset. The horizontal `reduce` of the simd library is assumed to be some
  generalized sum (`HReduce`); the fallback's is proved to be one (`reduceV_meets_HReduce`).
* C19 `count_if`: client of the `for_each` model with checked 32-bit arithmetic.
* C20 policy: modifier calls as partial functions on policies; induction over call sequences.
* C21 bit_ceil/bit_floor: recursion on naturals modulo `2^w`.
* C22–C26 permutations: index functions over Int with explicit conversions, generic and shufflevector path,
  AVX2 control word.
* C27–C29 simdized structs: shuffle sequences on lane lists; equality with transposition for all N.
* C30 flat_get, C31 struct_size: recursion over an inductive type of aggregates / binary search.
* C32–C40, C44–C46, C49–C52 fallback `simd`: loops and index arithmetic on lane lists.
* C53 `for_each` on structs: `for_each` generic in the invocation (`forEachG`); a simulation between the runs on
  lists of structs and on flat memory transfers the theorems of C01–C04.
* C54, C55 exceptions and side effects: `for_each` and `transform` generic in what happens to a group of chunks
  (`forEachG`, `transformG`); one trace theorem each ("the groups `groupsOf e n` are processed in order"), then induction
  over the groups. The unspecified evaluation order of function arguments is a universally quantified permutation.
* C56 exact conditions under which `transform`/`transform_reduce` form only valid iterators (model flag `strictPtr`).
* C57 range and `zip_view` overloads: `transformG` with accesses checked against each range's own length.
* C58–C60 types of `simdize`: C++ types as an inductive type, metafunctions as functions on it, hard errors as
  outcomes; mutual induction over types and member lists.
* C41 is_value_preserving: arithmetic types as an enumeration with limits and usual arithmetic conversions.
* C42 cw_parse, C43 version.
* C61 floating-point operators and math functions: the scalar function is an arbitrary state-passing function, so
  number and order of calls are observable; `frexp`, `remquo`, `modf` write their out-parameter in the loop.
* C62–C63 `abs` with C++ integer semantics; `to_fixed_size`/`to_native`/`to_compatible` with the lane count of the
  default ABI.
* C64 effects in `transform_reduce`: a second model of the algorithm in a state-and-exception monad, with the log of all
  invocations as part of the state; an invariant "all elements before position p have been passed to transform_op" is carried
  through every function, and the model with pure operations is proved equal to the one of C14–C17.
* C65 access to the members of an aggregate: the rows of `VIR_STRUCT_GET_` are data generated from the source; names bound by the
  structured binding denote members in order, so each row is proved to name the right member by computation on the finite table and
  the specifications follow for all objects.
* C66 values of simdized structs: trees with lanes at the leaves; constructors, subscripts, conversions, `copy_from`, `copy_to`,
  `get` and the forwarded operators are defined by recursion over the tree and specified lane by lane.
* C67 expressions of `constexpr_wrapper`: operand types with their static value, wrapper bases and associated wrappers; overload
  resolution among the hidden friends is a filter over the associated wrappers; induction over expressions.
* C68 side effects and exceptions of the predicate of count_if: the lambda with state and exceptions on top of the generic for_each (Model/CountIfEffects); the theorem speaks about the log of an instrumented predicate (Spec/CountIfEffects); by the trace theorem of for_each and induction over groups with the counter invariant of C19; agreement with the model of C19 for pure predicates by simulation.
* C69 transform_reduce on ranges: the iterator form is generic in the function that loads one chunk per input (Model/ReduceEffects `Loader`); the range form uses a loader that checks each access against the range it belongs to (Model/ReduceRanges). Long ranges: the checked loader refines the unchecked one, and the whole function is monotone in the loader. Short ranges: the Hoare logic of C64 with an invariant 'the first p elements exist in every range' and `oob` as the only permitted undefined behaviour.
* C70 integer sums: C14 instantiated with accumulators that are possibly undefined integers (`Outcome Int`) and strict additions; induction over the generalized sum. Sublists of a list of operands are all partial sums that can occur.
* C71 `transform` on arrays: the driver of C10 (`transformG`) with chunks that load structs as in C33/C61 from several arrays and store the results as structs; induction over the groups that the driver visits, with the invariant that the first elements are written and everything else is as before the call.
* C72 `transform_reduce` on arrays: the driver of C64/C69 with the struct loads; a run is equal to a run of C64 on one memory of structs whose transform_op permutes its arguments. Permutations that are alike for all inputs permute the summands of the generalized sum only. That every element is passed once is proved for all loads by running the driver with the invariant that the elements passed so far are a permutation of those processed.
* C73 Syntax trees of operators, literals, arguments and selections (`Model/SimdExpr.lean`) run with the operators of `Model/SimdOps.lean`. The specification gives the value on one lane as an inductive relation, once with results in the element type and once as C++ computes on numbers (promotion, lazy `?:`). Induction over the expression: the evaluation on simds is the lane evaluation of all lanes, or undefined.
* C74 `for_each` and `transform` with callables that return an `Outcome` (`Model/PartialOps.lean`), on the generic algorithms of `Model/ForEachGen.lean` and `Model/TransformGen.lean`. Induction over the groups of chunks: all positions so far have values, or the run is undefined. `transform_reduce` with expressions is an instance of C70.
* C75: types as terms and traits as functions on them (`Model/Traits`); the meaning of a type as "a simd of n elements of type t" is in `Spec/Traits`. Theorems by cases on types; laws of rebind and resize as equations between types.
* C76: `as_int`, `as_unsigned` as a search through candidates, conversion rank and usual arithmetic conversions as functions on named integer types (`Model/Casts`); `is_value_preserving` from C41. The rank rule of the standard is the specification.
* C77: overload resolution as a function from types to types, the lanes as lists (`Model/Casts`).
* C78 types: every statement of the instantiated templates that depends on the result type of a callable is a requirement on types (`Model/AlgoTypes.lean`), with the conversions between simd types of C76. The `is_constant_evaluated()` branch is always instantiated and uses single elements, whose simds convert to nothing else. Converse by induction over the recursive templates. `transform_compiles_iff` characterises the widths at which an operation of any type is instantiated.
* C79 preconditions: the macros as a function of level, compiler and knowledge of the optimizer; `fprintf` as a parser of format strings with typed arguments (`Model/Precondition`); the README table is the specification. Theorems by cases on the configuration, for every message and argument.
* C80: `Model/ReduceCalls.lean` models the recursion of the fallback `reduce` and the masked `reduce` with operations that have effects (the monad of C64). The number of values not yet combined is carried as an index of a Hoare-style assertion; induction over the recursion. `COps.toROps` plugs it into the model of `transform_reduce`, whose assertions (C64) already carry that index.
* C81 The number of invocations is counted on the records of C54, C55, C64 and C68. `for_each`, `transform`, `count_if`: the traversal is the list of groups of C01, whose length is bounded by counting the one bits of the widths of prologue and epilogue. `transform_reduce`: a cost logic over the model with effects: every load narrower than `size` costs one, and the loads of full width are limited by the elements seen (C64); a second logic, for normal returns, compares the invocations of `reduce_op` with those of `transform_op`, with the potential `⌈U/2^o⌉` for the tree reduction of the unrolled accumulators.
* C82: relational statements about pairs of calls, derived from C02, C10, C15, C18 and C19 by showing that each result is determined by the data alone; two witnesses show that the conditions (lane-wise, associative) cannot be dropped.
* C83 members of a class: aggregate initialisation on lists of elements, composed with the search of C31 and the access of C65.
* C84 `simdize_size`: recursion over the type language of C58, specification by the list of leaves.
* C85 (right-hand sides of where). `asSimd`, assignment and compound assignment in `Model/WhereRhs.lean`; integral elements. `Spec.RhsLane` says what a right-hand side contributes to a lane. Proof: the conversion is `gen`, the loops are C20's; agreement with the scalar form by congruence modulo `2 ^ bits`.
* C86 Concurrency. The control flow of the algorithms does not depend on the data, so `forEachG`/`transformG` run with a recording invocation yield the program of element accesses of a call. Threads with such programs share a memory; a schedule picks who steps. Invariant over all schedules: what a thread has done so far equals a prefix of its run alone, on a memory that agrees with the shared one where the thread reads or writes. Old-or-new follows since no address is stored twice. `transform_reduce` only reads; its state is the number of its accesses so far and the k-th access is to the memory at that time. A relation "same outcome up to the state" between its runs with two loaders gives independence of the schedule.
* C87 Overload sets. Overload resolution (deduction, constraints, partial ordering) over an abstract universe of types that only fixes which concepts a type models and what it decays to; the overloads are data. `Spec/Resolve.lean` lists the documented forms as lists of roles and derives from the roles what has to run. Proof: evaluation of resolution on argument lists of each form, by cases over the finitely many conditions on the types.
* C88 broadcast and generator constructors: values as rationals with an arithmetic type, conversions as functions; exact conditions from C41 and a lemma that a conversion keeps a value exactly if the target has it.
* C89 rounding errors: floating-point formats as sets of rationals (C41), rounding modes as monotonic functions that fix these; one addition has relative error u because sums of values are on the grid of the smallest value; the bound for any generalized sum (C14) by induction on it.
* C90 benchmarking helpers: asm statements as events with operands, the compiler's assumption about outputs as an arbitrary function; traces determine the arguments, and every value is possible afterwards; induction over arguments and parts.
* C91 The specification `Selects` (Spec/PermuteAlgebra.lean) says which lane an index function selects. The laws follow from C22 (every implementation computes what the generic one computes) lane by lane; that a one-to-one selection gives a permutation of the values is the pigeonhole principle.
* C92 `Model/StructTypes.lean`: types with `const`, `volatile` and reference, the structured bindings of the fifty specializations, overload resolution of the one-member `get`, `copy_cvref`; proved by unfolding after the lookup of names is shown to be the identity for every number of members up to 50.
* C07 (more): `Verif/Props/AssumeMatching.lean`. The trap is proved for the algorithms with an arbitrary action in place of load, invoke and store (`forEachG`, `transformG`, `transformReduceL`); the widths for callables that may throw, via an invariant of `runGroups` and, for `transform_reduce`, the cost logic of C81 with cost 0.
* C93 `auto_prologue`: the prologue takes elements out of the epilogue (the set bits of the count are a subset of those of the length), so the multiset of calls is unchanged; main loop: the position after the prologue is aligned and each iteration keeps the alignment.
* C94 overlap: `transform` as an instance of the generic `transformG`, whose trace of groups is known; per group load-all-then-store equals the sequential semantics if the group is not longer than the distance; induction over the groups.
* C95 programs: a statement language run with the functions of the model against a relational semantics for one lane; states are identified with families of lanes (`pack`), each statement is defined exactly if it is in every lane, loops by induction on the largest number of iterations; converse by induction on the fuel.
* C96 programs in algorithms: the callable for all sufficient fuel is replaced by its limit, which acts on every lane in the sense of C86; the trace theorems of for_each and transform then give the result, which carries over to a finite fuel because finitely many calls are made. The converse replaces the callable by one that has some allowed value where it has none.
* C97 count_if with partial predicates: undefinedness of the predicate is run as an exception through the model of C68, whose trace theorem gives the pieces; logging is shown to change nothing by a simulation. Programs: one fuel suffices for the finitely many pieces of a range. Constant evaluation: the counters are the state of the callable, so a partial predicate fits into the model of C19; every invocation has one argument, and an undefined one makes the state undefined for good.
* C98 sums of simd programs: the result is a generalized sum of the lanes of all invocations (C14/C70, here without assuming that transform_op works lane by lane); C96's lemmas give the lanes, one fuel suffices for the finitely many pieces of the ranges, and additions are strict, so a returned value needs every lane.
* C99 simd programs of any element type: every lanewise loop returns a value exactly if all its lanes do, which gives an equivalence for programs without loops; for loops, lanes that are not active keep everything but local variables (induction on the masking discipline `Spec.OneLane.Masked`), so iterations of other lanes can be dropped from, or inserted into, the run of a lane.
* C100 the algorithms with masked simd programs: C99 gives, for each width, the results of the callable from those of the lanes; with enough fuel the callable equals a total lanewise function on the blocks that occur, so the theorems about the algorithms with partial callables (C94, C97, C98) apply. For soundness the program is replaced by its values where defined.
* C101 integer reductions with the standard function objects: accumulators are values that may be undefined; C14 gives a generalized sum of them, and the reduction of a list (`IsReduction`) is compatible with concatenation and permutation, so every defined generalized sum is the reduction of the list.
* C102 `count_if` on arrays of structs: the lambda applied to simdized structs is the lambda of C19 applied to lists of structs with the predicate composed with the lane permutation; `for_each` on the flat array simulates `for_each` on the list of structs (C53), and the number of true lanes does not depend on their order.
* C103 exceptions of the callable of `for_each` on arrays of structs: the throwing invocation on the flat array simulates the throwing invocation of C54 on the list of structs (with the callable composed with the lane permutation); the record of the invocations is part of the simulated state.
* C104 effects of `transform` on arrays: the invariant is that memory is the arrays before the call with the first elements of the output overwritten by the results so far (`overwrite`); loads at later positions see the original elements (also in place), and the record of the groups, put into the order of positions, covers the inputs (`Covers`).
* C105 effects of `count_if` on arrays of structs: simulation of `count_if` on a range of structs (C68) by the loop over the simdized structs, with the predicate composed with the order of the lanes (`onStructsTP`); the recorded invocations correspond (`simdLog`).
* C106 number of invocations on arrays of structs: `for_each` and `count_if` by the simulations of C103 and C105, with the bound for ranges without prologue; `transform` and `transform_reduce` by the same cost arguments as C81 for their loaders of arrays.
* C107 concurrency on arrays of structs: `forEachG` with a recording invocation for simdized structs yields the program of member accesses; a simulation against the call on structs (C53) shows that running the program alone has the effect of the call. The rest is the invariant of C86.
* C108 exact result of `for_each` on arrays of structs: the invocations without prologue have the widths size, ..., size and the bits of the rest in descending order, whatever the policy; the result is the concatenation of what the callable makes of the pieces of these lengths. Only pieces of length eight are permuted; the bits above and below eight are split off.
* C109 exact result of `transform` on arrays of structs: the induction over the groups of C71 with an arbitrary function from positions to results that agrees with what every single load gives; that function exists because the pieces in which the range is processed are disjoint. The widths are the bits of the prologue in ascending order, size, ..., size and the bits of the rest in descending order, which locates the pieces of eight as in C108; the prologue ends at the first aligned address.
* C110 exact value of `transform_reduce` on arrays of structs: the result is a generalized sum of what `transform_op` returns for the loaded lanes (the part of the proof of C72 that needs no assumption about the order); the lanes of every load are located as in C109.

## Properties, theorems, status

<!-- table start -->
| id | property | status | theorems (module under `Verif/Props`) | note |
|---|---|---|---|---|
| C01 | for_each visits every element exactly once, in order | proved | ForEach: `forEach_visits_once` | For every well-formed platform, policy, callable and range on which for_each is defined (C04). |
| C02 | for_each writes back exactly what the callable left in its arguments | proved | ForEach: `forEach_writes_back`, `forEach_map` | No memory outside the range exists in the model; an access to it is the outcome ub, excluded by the theorem. |
| C03 | for_each leaves the range untouched when the callable takes values or const references | proved | ForEach: `forEach_no_write` |  |
| C04 | for_each accesses only the range, uses aligned accesses only at aligned addresses and never reaches unreachable code | proved | ForEach: `forEach_defined_iff`, `forEach_safe` | Exact characterisation; flat pointer model (see C47 for the strict one). |
| C05 | prefer_aligned is safe on short ranges | partial | ForEach: `forEach_preferAligned_unsafe`, `forEach_preferAligned_partial`, `forEach_defined_iff`; Transform: `transform_defined_iff`; ShortRanges: `transform_preferAligned_partial`, `transformReduce_preferAligned_partial`, `preferAligned_short_ranges`, `preferAligned_short_reduce`; TransformReduce: `transformReduce_defined_iff` | The property is false of the code. Proved: the exact condition for each of the three algorithms, that ranges of at least one vector are safe at every address, and that no shorter length is (one element less than a vector is the only exception, and not for transform_reduce). |
| C06 | shape of the simd arguments | proved | ForEach: `forEach_shapes` |  |
| C07 | assume_matching_size | proved | ForEach: `forEach_assume_traps`, `forEach_assume_full_width`; AssumeMatching: `forEach_assume_traps_first`, `forEach_assume_widths`, `transform_assume_traps_first`, `transform_assume_widths`, `transformReduce_assume_traps_first`, `transformReduce_assume_widths`, `countIf_assume_traps`, `countIf_assume_widths`; Transform: `transform_assume_traps`; TransformReduce: `transformReduce_assume_traps` | for_each, transform, transform_reduce, count_if. The `_traps_first` theorems hold for every action in place of the invocation, also one that is undefined behaviour: so nothing is executed before the trap. |
| C08 | jump tables implement the generic prologue and epilogue | proved | ForEach: `forEach_jumptable_irrelevant`, `epilogue_jumptable_eq`, `prologue_jumptable_eq`, `prologueTable_row38` |  |
| C09 | constant-evaluated for_each agrees with run-time for_each | partial | ForEach: `constForEach_visits_once_partial`, `constForEach_width2_visits_last_twice`, `constForEach_not_map` | False of the code for width 2 and even lengths; that case is characterised exactly, all others are proved. |
| C10 | transform equals the element-wise map, for any number of input ranges | proved | Transform: `transform_maps`, `transform_chunks`, `transform_forward_overlap` | Run-time branch; transform_forward_overlap shows that the aliasing condition is needed. Ranges with different element types: C71. |
| C11 | transform returns the end of the output range | proved | Transform: `transform_maps`, `transform_chunks` |  |
| C12 | transform is memory safe | proved | Transform: `transform_defined_iff`, `transform_safe`, `transform_assume_traps` | Exact condition for undefined behaviour (flat pointers). |
| C13 | constant-evaluated transform agrees with run-time transform | proved | Transform: `constTransform_maps`, `transform_const_agrees` | Lane-wise operations; flat pointers. |
| C14 | transform_reduce computes a generalized sum | proved | TransformReduce: `transformReduce_grouped`, `transformReduce_is_gsum`, `transformReduce_const_fold`, `transformReduce_assume_traps` | Outside the undefined cases of C16; the simd library's own horizontal reduce is assumed to be a generalized sum (proved for the fallback, C37). |
| C15 | transform_reduce equals the sequential fold for associative and commutative operations | proved | TransformReduce: `transformReduce_eq_fold`, `transformReduce_eq_fold_mixed`, `transformReduce_const_fold` | Outside the undefined cases of C16. |
| C16 | transform_reduce never reaches unreachable code | partial | TransformReduce: `transformReduce_defined_iff`, `transformReduce_safe`, `transformReduce_reaches_unreachable` | The property is false of the code; the exact condition for definedness is proved, and a counterexample for each of prefer_aligned and auto_prologue. |
| C17 | tree reduction of the unrolled accumulators | proved | TransformReduce: `tree_reduction` |  |
| C18 | reduce and the default inner product | proved | Reduce: `reduce_is_gsum`, `reduce_eq_fold`, `reduceDefault_is_gsum`, `innerProduct_is_gsum`, `innerProduct_eq_fold` | Outside the undefined cases of C16. |
| C19 | count_if counts | proved | CountIf: `countIf_spec`, `countIf_pieces`, `fallbackSum_sumsLanes`, `countIf_const_partial`, `countIf_const_width2`, `countIf_const_wrong` | Run time: complete, exact overflow condition. Constant evaluation inherits the width-2 defect of for_each (C09): exact result proved. |
| C20 | execution policy modifiers compose as documented | proved | Policy: `policy_chain_ok_iff`, `policy_properties`, `policy_order_independent` |  |
| C21 | bit_ceil and bit_floor | proved | BitUtils: `detailBitCeil_spec`, `detailBitCeil_outside`, `simdBitCeil_spec`, `simdBitCeil_diverges`, `bitFloor_spec`, `bitFloor_zero` | Contract proved on the stated domain for every word size; behaviour outside the domain characterised (zero for detail::bit_ceil, non-termination for stdx::detail::bit_ceil). |
| C22 | simd_permute semantics, identical on all implementation paths | partial | Permute: `simdPermute_spec_partial`, `simdPermute_eq_generic`, `simdPermute_rejects`, `simdPermuteScalar_spec`, `simdPermute_padding`, `simdPermute_padding_partial`, `special_indices` | All implementations, for simd types without padding (the library's own types have none). False of types with padding, where the shufflevector code is wrong for simd_permute_zero (simdPermute_padding; simdPermute_padding_partial says what still holds), and of some rotations with AVX2 (C25). |
| C23 | predefined permutations duplicate_even / duplicate_odd / broadcast / reverse / swap_neighbors | proved | Permute: `duplicateEven_spec`, `duplicateOdd_spec`, `duplicateOdd_odd`, `reverse_spec`, `reverse_involution`, `swapNeighbors_spec`, `swapNeighbors_involution`; Permute/SimdOps: `broadcast_spec`; Language: `toU32_spec`, `toI32_spec` | All widths, all N and positions. |
| C24 | rotate | partial | Permute: `rotate_spec_partial`, `rotate_index_iff`, `rotate_negative_wrong`, `rotate_rotate`, `rotate_undo`; Language: `toU64_spec` | True for O >= 0 and for power-of-two widths; false otherwise: exact condition in rotate_index_iff, witness rotate_negative_wrong. |
| C25 | AVX2 rotate fast path | partial | Permute: `avx_rotate_partial`, `avx_rotate_exact`, `avx_rotate_wrong`, `avx_rotate_negative` | True for 0 <= O < 8. Outside: rejected at compile time (O < 0, O >= 512) or right exactly for the listed offsets. |
| C26 | shift and simd_shift_in | partial | Permute: `shift_spec`, `simdShiftIn_lanes`, `simdShiftIn_spec_partial`, `simdShiftIn_negative` | shift proved for all offsets; simd_shift_in for O >= 0, with the exact lanes for all O. For O < 0 the documented result is not what the code computes. |
| C27 | simdized structs: loading transposes an array of structs | partial | Simdize: `load_spec_partial`, `load_unordered`, `load_wrong`, `load_permutation` | Proved for every width, member count, contents and path except three floats with eight lanes. There the code loads lane i from struct 3*i mod 8 (load_unordered, load_wrong), so the property is false of the code; load_permutation holds on all paths. |
| C28 | simdized structs: storing transposes back | proved | Simdize: `store_spec`, `store_oob` | All paths, all widths and member counts. |
| C29 | simdized struct load/store round trip | partial | Simdize: `store_load_partial`, `load_store_partial`, `load_then_store`, `store_then_load`, `store_oob`, `load_local`, `store_load_wrong`; SimdOps/Simdize: `load_oob` | Both round trips are proved on all paths except three floats with eight lanes; there load_then_store and store_then_load say exactly what happens, and store_load_wrong shows that memory changes. The number of structs read and written is proved on all paths. |
| C30 | flattened member access | partial | FlatGet: `count_eq`, `flatGet_partial`, `flatGet_reached_partial`, `flatElement_all_iff`, `flatGet_of_elements`, `flatGet_rejects`, `flatElement_flatGet`, `flatGet_wrong`, `flatGet_single`, `flatElement_iff`, `flatElement_correct` | False in general: flat_get passes the wrong offset when it recurses past a nested first member (flatGet_wrong). Proved exactly for which nestings all types flat_element<I> exist (flatElement_all_iff, the types the vectorisation of struct templates accepts), and that flat_get<I> is right for all of them (flatGet_of_elements). A member that wraps a single leaf is returned as a whole. For every single index it is proved when flat_element<I> exists and which member it is (flatElement_iff), always the right one (flatElement_correct). |
| C31 | struct_size finds the number of members | proved | StructSize: `structSizeV_largest`, `structSizeV_members`, `structSizeV_exact`, `structSizeV_gap`, `structSizeV_bound` | The acceptance of n initialisers by the compiler is a parameter. The interval hypothesis is needed (structSizeV_gap) and so is the bound of 8 * sizeof (structSizeV_bound). |
| C32 | split and concat are mutually inverse and order preserving | proved | Split: `concat_spec`, `concatArray_spec`, `splitSizes_spec`, `splitParts_spec`, `concat_splitSizes`, `splitSizes_concat`, `concatArray_splitParts`, `splitParts_concatArray`, `splitOne_spec` | All of fallback simd.h's concat and split overloads, every size list. |
| C33 | simd_resize and simd_size_cast | proved | Resize: `simdResize_spec`, `maskResize_spec`, `simdSizeCast_spec`, `maskSizeCast_spec`, `sizeCast_eq_resize`, `resize_round_trip`; Resize/Traits: `resize_resize` | All widths and lane values; fallback path of the mask size cast. |
| C34 | bitset conversions | proved | Bitset: `toBitset_spec`, `toSimdMask_spec`, `toSimdMask_toBitset`, `toBitset_toSimdMask`, `reductions_toBitset` | Fallback path; bitsets as natural numbers. |
| C35 | mask reductions | proved | Mask: `all_of_iff`, `any_of_iff`, `none_of_iff`, `some_of_iff`, `popcount_spec`, `mask_reductions_consistent`, `mask_reductions_scalar` | Fallback simd_mask of vir/simd.h, all widths. |
| C36 | find_first_set and find_last_set | proved | Mask: `find_first_set_spec`, `find_last_set_spec`, `find_set_bool` | Fallback simd_mask, all widths; the bool overloads do not check their precondition (find_set_bool). |
| C37 | horizontal reduce of a simd | proved | HReduce: `reduceV_is_gsum`, `reduceV_eq_fold`, `reduceV_meets_HReduce`, `hmin_spec`, `hmax_spec`; IntHReduce: `reduceInt_value`, `reduceInt_defined`, `reduceInt_sum_fits`, `reduceInt_prod_fits` | Fallback reduce, hmin and hmax, every width. Integer element types with the function objects of the standard: the value (sum/product modulo 2^bits, and/or/xor per bit), when it is always defined, when it is exact. |
| C38 | masked reduce | proved | HReduce: `reduceMasked_spec`, `reduceMasked_all`; IntHReduce: `reduceMaskedDefault_value`, `reduceMaskedDefault_defined_iff`, `reduceMaskedDefault_defined`, `reduceMaskedDefault_sum`, `reduceMaskedDefault_prod`, `identity_neutral`, `reduceMaskedDefault_none`, `reduceMaskedDefault_all`, `reduce_order_matters`, `reduce_u16_product_undefined` | Masked reduce over const_where_expression. Overloads with a default identity element for every integer element type: value, exact condition for being defined, neutrality of the identity elements, agreement with reduce(v, op). |
| C39 | masked hmin/hmax | partial | HReduce: `hminMasked_spec`, `hmaxMasked_spec`, `hminMasked_least_partial`, `hmaxMasked_greatest_partial`, `hminMasked_not_least` | True as stated when no selected value lies beyond numeric_limits max/lowest; the unrestricted claim is false for infinities (witness hminMasked_not_least). |
| C40 | where expressions only change selected lanes | proved | Where: `whereAssign_spec`, `whereOpAssign_spec`, `whereOpAssign_ub`, `whereIncDec_spec`, `whereCopyFrom_spec`, `whereCopyFrom_oob`, `whereNeg_spec`, `constWhereCopyFrom_spec`, `whereCopyTo_spec`, `whereAssignSelf_eq`, `whereBool_spec` | All masked operations of the fallback where expressions. |
| C41 | value-preserving conversions | proved | ValuePreserving: `valuePreserving_iff`, `valuePreserving_bool`, `acceptsBroadcast_preserves`, `acceptsBroadcast_iff`, `acceptsConversion_preserves`, `acceptsBroadcast_int` | Finite values; every rounding mode for the comparisons of limits. int is accepted whatever the element type (acceptsBroadcast_int). |
| C42 | integer literals _cw | proved | Literal: `parse_literal`, `parse_value`, `parse_accepts`, `parse_too_large`, `parse_only`, `typeOf_smallest`, `parse_limits` | Every integer literal of any length, with separators anywhere. Zero is accepted only in the spelling 0; the prefix 0B is rejected (parse_limits). |
| C43 | version numbers | proved | Version: `eq_iff`, `ne_iff`, `lt_iff`, `le_iff`, `gt_ge_iff`, `order_total`, `spaceship_agrees`, `versionOf_encode`, `encode_versionOf`, `encode_lt_iff`, `current_version` | Both the written operators and the defaulted <=>. |
| C44 | min, max, minmax, clamp | proved | HReduce: `min_max_lanewise`, `minmax_sorted`, `minmax_zeros`, `clamp_spec`, `clamp_undefined` | Fallback min, max, minmax, clamp. |
| C45 | bit operations on floating-point simd | proved | BitCast: `floatAnd_spec`, `floatOr_spec`, `floatXor_spec`, `float_op_laws`, `float_abs`, `float_negate`, `float_copysign` | Lanes are bit patterns of any byte width, both paths (whole-object cast and lane by lane). |
| C46 | iota | proved | Iota: `iotaSimd_spec`, `iotaSimd_int`, `iotaSimd_value`, `iota_agree`, `iota_wraps` | Lane i is i whenever the element type can hold the lane numbers; iota_wraps shows that the hypothesis is needed. |
| C47 | for_each forms no iterator outside the range | partial | ForEach: `forEach_strict_defined_iff`; StrictPtr: `constForEach_strict_defined_iff` | The property is false of the code (last - size is formed unconditionally at run time, first + (size - 1) in constant evaluation); the theorems give the exact conditions. |
| C48 | aggregation happens in the type of init | partial | AlgoTypes: `transformReduce_types`, `reduce_types`, `innerProduct_types`, `transformReduce_mixed`; TransformReduce: `transformReduce_gsum_partial`, `transformReduce_prologue_narrow` | Calls whose transformed elements have one type compile only if that is the type of init, so that C14 applies to them as it is. False of the code for a transform_op with result types that depend on the width, together with prefer_aligned or auto_prologue and an operation that does not commute with the conversion (counterexample proved). |
| C49 | simd_bit_cast keeps all bits | proved | BitCast: `bitCast_spec`, `bitCast_size`, `bitCast_round_trip`, `bitCast_same` | Little-endian objects without padding (fallback simd). |
| C50 | lanewise integer arithmetic | partial | SimdOps: `binary_spec`, `binary_ub`, `unsigned_add_sub_wrap`, `unsigned_mul_wrap_partial`, `mul_u16_undefined`, `shiftBy_spec`, `compound_eq_binary`, `neg_spec`, `compl_spec`, `step_spec`; SimdOpsUndefined: `compound_ub`, `shiftBy_ub`, `neg_ub`, `step_ub` | Everything but the multiplication of unsigned short, which the code gets wrong (undefined overflow of the promoted operands): mul_u16_undefined. |
| C51 | comparisons and mask operators | proved | SimdOps: `compare_spec`, `compareWith_spec`, `notSimd_spec`, `maskBinary_spec`, `maskNot_spec`, `mask_laws` | Comparisons of integers against the relations of the integers, of other element types against the built-in comparison of the elements. |
| C52 | broadcasts, casts, loads and stores | proved | Permute/SimdOps: `broadcast_spec`; SimdOps: `staticSimdCast_spec`, `staticSimdCast_int`, `load_spec`, `maskedLoad_spec`, `store_load`; SimdOps/Simdize: `load_oob`; SimdOps/SimdTuple: `copyTo_spec` | Element conversions abstract except for the integer casts. |
| C53 | for_each on arrays of structs | partial | ForEachStruct: `forEachStruct_visits`, `forEachStruct_map_partial`, `forEachStruct_map_perm`, `forEachStruct_no_write`, `forEachStruct_defined`, `forEachStruct_scrambles`; ForEachStructConst: `forEachStruct_const_visits_partial`, `forEachStruct_const_width2`, `forEachStruct_const_map_partial` | The in-place claim is false of the code for templates of three floats with eight lanes (witness forEachStruct_scrambles); there the array is permuted (forEachStruct_map_perm). Constant evaluation: forEachStruct_const_*; with two lanes and arrays of even length the last struct is visited twice (C09). |
| C54 | exceptions thrown by the callable of for_each | proved | Throwing: `forEach_throwing`, `forEach_propagates`, `forEach_neverThrows` | Run time, under the preconditions of C01. |
| C55 | side effects and exceptions of the operation of transform | proved | Throwing: `transform_effects`, `transform_order_observable` | Run time, under the preconditions of C10. State that the operation keeps inside itself is copied with the operation in the code (by-value parameter) and lost; the state of the model is external (captured by reference). |
| C56 | transform and transform_reduce form no iterator outside the range | partial | StrictPtr: `transform_strict_defined_iff`, `transformReduce_strict_defined_iff`, `transform_forms_bad_pointer`, `transformReduce_forms_bad_pointer`, `constTransform_strict_defined_iff` | The property is false of the code; exact conditions at run time and witnesses are proved. |
| C57 | range and zip overloads of transform | proved | Overloads: `transformRanges_maps`, `transformRanges_defined_iff`, `zipSize_spec`, `transformZip_maps`, `transformZip_defined_iff`, `transformZip_empty` | Run time, preconditions on alignment and aliasing as in C10. |
| C58 | simdize turns every leaf into a simd of one width | proved | SimdizeType: `simdize_leaves` | Class templates must be uniform (instantiating with simdized arguments simdizes the members). |
| C59 | simdize vectorizes every struct of scalars | partial | SimdizeType: `simdize_vectorizes_iff`, `simdize_ill_formed_iff`, `simdize_unchanged`, `simdize_fallback`, `simdize_stays_scalar`, `simdize_hard_error` | True with the fallback simd; false with libstdc++ and AVX-512, exact conditions for structs that are no templates. |
| C60 | struct templates keep their member names | partial | SimdizeType: `simdize_template_flat_partial`, `simdize_template_nested_wrong`; SimdizeTemplate: `simdize_flat_template`, `simdize_flat_template_fallback`, `simdize_template_default_width_wrong`, `same_iff`, `simdize_inconsistent_template`; SimdizeWrap: `simdize_template_iff`, `simdize_wrapped_template` | False of the code for templates with nested structs (witness) and for flat templates whose default width is not available although the width asked for is (witness). simdize_template_iff is the exact condition for any nesting; simdize_wrapped_template shows that wrappers with one member satisfy it to any depth. For flat templates the exact result is proved; with the fallback simd the property holds for all of them. |
| C61 | floating-point operators and math functions are lanewise | proved | SimdMath: `math1_spec`, `math2_spec`, `math3_spec`, `frexp_spec`, `remquo_spec`, `modf_spec`, `compoundS_spec`, `stepS_spec`, `math_lanes` | The scalar functions are arbitrary; IEEE arithmetic itself is not modelled. |
| C62 | abs of integer simds | partial | SimdMath: `absInt_spec_partial`, `absInt_lowest`, `absInt_exact` | False for the lowest value of the type, see disagreement 24. |
| C63 | to_fixed_size, to_native and to_compatible keep the lanes | partial | SimdOps: `toFixedSize_spec_partial`, `toDefaultAbi_spec`, `toDefaultAbi_keeps_iff` | False of to_native and to_compatible, see disagreement 25. |
| C64 | side effects and exceptions of the operations of transform_reduce | proved | ReduceEffects: `transformReduce_effects`, `transformReduce_const_effects`, `transformReduce_throws_iff`, `transformReduceE_pure` | Run time under the preconditions of C14, and constant evaluation. The horizontal reduce(v, reduce_op) of the simd implementation counts as one invocation; C80 opens it up. State is external to the operations (captured by reference). |
| C65 | access to the members of an aggregate | proved | StructReflect: `structGet_spec`, `structGet_assign`, `toTupleRef_spec`, `toTuple_spec`, `toTuple_move_only`, `toPair_spec`, `structGet_limit`, `structGet_single_const` | Up to the 50 members for which specializations exist; see disagreement 27 for constness and the limit. A member is one memory cell; volatile is not modelled. |
| C66 | values of simdized structs | partial | SimdTuple: `construct_spec`, `construct_iff`, `construct_toStruct`, `copyFrom_spec`, `copyFrom_nested`, `getMember_subscript`, `flatSubscript_eq`, `opMixed_spec`; SimdOps/SimdTuple: `copyTo_spec` | copy_from is proved for structs without nested structs and is ill-formed for all others (disagreement 28). Compound assignments are not part of vectorized_struct. |
| C67 | expressions of constexpr_wrapper constants | partial | ConstexprWrapper: `compile_spec`, `candidates_unique_iff`, `callOp_const`, `callOp_plain`, `callOp_value`, `callOp_not_const`, `unary_run_time`, `indexOp_spec`, `binary_ambiguous`, `arrowOp_spec`, `arrowOp_iff`, `arrowOp_differs` | Operators are proved in full. False of calls: with constant arguments and a result that is no constant, a wrapped function object cannot be called (callOp_not_const), see disagreement 29, which also lists ambiguous operators outside the property's quantifier. False of `->` for pointers and for an operator-> that returns an object (arrowOp_iff says exactly when it holds), see disagreement 56. |
| C68 | side effects and exceptions of count_if predicates | proved | CountIfEffects: `countIf_effects`, `countIf_propagates`, `countIf_pure` | Run-time evaluation (an exception during constant evaluation is a compile-time error). The predicate is instrumented to log its invocations; if a counter overflowed before the exception the execution is undefined, as in C19. The log is shown to be a sequence of successive invocations with threaded state. |
| C69 | range overloads of transform_reduce with ranges of different lengths | proved | ReduceRanges: `transformReduceRanges_effects`, `transformReduceRanges_const_effects`, `transformReduceRanges_value`, `transformReduceRanges_short`, `transformReduceRanges_defined_iff` | At run time under the conditions of C14 (the prologue reaches an aligned address, and does not consume the whole range), which C16 shows to be necessary. The over-read is the behaviour of the code: nothing documents or checks that the second range must be long enough (nor do the range overloads of transform, C57). |
| C70 | sums of integers with reduce and transform_reduce | proved | IntReduce: `sumInts_wraps`, `sumInts_defined`, `sumInts_condition`, `sumInts_value`, `sumInts_condition_needed`, `sumInts_widening`, `sumInts_order_overflow`, `sumInts_prologue_overflow` | Integer arithmetic as in C50 (promotion, wrapping, undefined signed overflow), aggregation as in C14. sumInts_condition_needed shows that the condition is the weakest one that does not depend on the order of the additions. |
| C71 | transform on arrays of structs and ranges with different element types | partial | ArrayAlgorithms: `transformArrays_partial`, `transformArrays_const_partial`, `written_unique`, `transformArrays_wrong` | The full statement is false of the code: transformArrays_wrong is a counterexample with three floats and eight lanes. It is proved for all element types whose loads keep the order. What happens in the other cases is C109. |
| C72 | transform_reduce on arrays of structs and ranges with different element types | partial | ReduceArrays: `transformReduceArrays_gsum_partial`, `transformReduceArrays_fold_partial`, `transformReduceArrays_const_fold`, `transformReduceArrays_effects_partial`, `transformReduceArrays_const_effects`, `transformReduceArrays_each_once_partial`, `transformReduceArrays_rows_partial`, `transformReduceArrays_wrong` | The full statement is false of the code: transformReduceArrays_wrong is a counterexample (points and weights on AVX). The value is proved if all loads permute alike (always so with one range), the order of the elements if no load permutes, that every element is seen once for all loads (together with those of the same index if all loads permute alike), constant evaluation without condition. The exact value in the other cases is C110. |
| C73 | expressions with operators on integer simds | partial | SimdExpr: `simdExpr_spec`, `simdExpr_ub`, `hasValue_unique`, `simdExpr_plain`, `plain_simdExpr`, `simdExpr_narrow`, `avg_differs`, `guarded_differs`, `diffMul_differs` | The lane-by-lane value and the exact condition for undefined behaviour are proved for all expressions; equality with code on numbers is false for narrow types (avg_differs, diffMul_differs) and selections (guarded_differs). One element type per expression, no floating point. |
| C74 | algorithms with operator expressions on integers | proved | PartialOps: `transform_expr`, `transform_expr_ub`, `transform_expr_const`, `transform_expr_const_ub`, `forEach_expr`, `forEach_expr_ub`, `sum_expr_defined`, `sum_expr_wraps`, `exprTrans_simd` | transform with input ranges as in C10; for_each at run time (constant evaluation with size 2 is wrong, C09). Inputs, result and expression have one integer type. |
| C75 | type traits, ABI deduction and concepts | partial | Traits: `isSimd_partial`, `isSimdMask_partial`, `isSimd_not_exact`, `isSimd_complete`, `isSimdFlagType_false`, `simdSize_spec`, `simdSize_defined`, `deduce_partial`, `deduce_wraps`, `native_spec`, `native_large`, `native_exceeds`, `rebind_spec`, `rebind_defined`, `rebind_self`, `rebind_rebind`, `resize_spec`, `resize_defined`, `resize_self_partial`, `resize_self_false`, `resize_deduce`, `rebind_resize`, `maskType_spec`, `maskMembers_iff`, `memoryAlignment_spec`, `memoryAlignment_defined`, `isLoadStore_spec`, `concepts_partial`, `sized_concepts_partial`, `anySimd_not_exact`; Resize/Traits: `resize_resize` | False of the code as stated: is_simd, is_simd_mask and the concepts accept cv-qualified element types (also const bool) and, for the traits, sizes below one; deduce_t wraps for N >= 2^31 and has a type for N = 0; resize_simd_t<1, fixed_size_simd<T, 1>> changes the type; is_simd_flag_type is false of everything. Each is proved with a witness; everything else is proved for all types and sizes. |
| C76 | integer types by size and implicit conversions between integer simds | partial | Casts: `asInt_spec`, `asUnsigned_spec`, `asInt_exists`, `asInt_asUnsigned`, `asInt_long`, `convertible_iff_partial`, `convertible_char`, `sumType_spec`, `rank_spec`, `arith_names`; Language: `arith_injective` | as_int and as_unsigned: complete. Implicit conversions: false of the code for char, signed char and unsigned char (same rank, same values, no conversion), proved with a witness; the exact condition is proved for all other pairs. __int128 is not an element type of the conversions in the model. |
| C77 | casts between simd types, masks and cvt | partial | Casts: `staticCastType_simd`, `staticSimdCast_size`, `staticCastType_mask`, `maskCast_spec`, `maskToSimd_exists`, `simdCastType_spec`, `cvt_simd`, `cvt_mask`, `cvt_sizes` | False of the code: static_simd_cast (and so cvt) accepts simd types with another number of lanes; with fewer the other lanes are dropped, with more the subscript check fails. Both proved for all sizes. Masks can be cast to simds. The rest is proved. |
| C78 | element types that transform, reduce and transform_reduce accept | proved | AlgoTypes: `transform_compiles_iff`, `transformReduce_compiles_iff`, `transform_types`, `transform_single_type`, `transformReduce_types`, `transformReduce_single_type`, `transformReduce_takes_values`, `reduce_types`, `reduce_types_op`, `innerProduct_types`, `reduce_wider_init`, `reduce_simds_only`, `transformReduce_mixed`, `reduce_vectorizable`, `innerProduct_vectorizable`, `transformReduce_prologue_type`, `binaryOp_converts` | For the simd of vir/simd.h. In libstdc++ too, simd<U, scalar> has no conversion to simd<T, scalar>, so that the first conditions are necessary there as well; its horizontal reduce calls the operation with simd objects only. |
| C79 | failed preconditions are handled as documented | partial | Precondition: `check_holds`, `check_stops`, `check_off`, `check_constexpr`, `check_run_time_partial`, `check_compile_time`, `check_warned_not_documented`, `check_other_compilers`, `check_clang_without_gnu`, `subscript_message`, `findFirstSet_message`, `assume_message_undefined`, `subscript_in_range`, `subscript_out_of_range`, `subscript_default`, `subscript_off`, `findFirstSet_checked`, `assumeMatching_holds`, `assumeMatching_traps`, `assumeMatching_print_undefined`, `subscript_prints`, `subscriptScalar_checked`, `subscriptScalar_eq`, `findFirstSet_prints`, `assume_message_otherwise` | False of the code: at levels 4 and 5 the message of assume_matching_size is an invalid printf format (undefined behaviour, assumeMatching_print_undefined); a program compiled with a warning traps at every level (check_warned_not_documented); compilers without __GNUC__ print and abort instead of trapping. Everything else of the table is proved. What the optimizer can tell is a parameter. |
| C80 | calls of binary_op in the horizontal reduce, and of reduce_op in transform_reduce | proved | ReduceCalls: `reduce_calls`, `reduceCalls_defined`, `reduceCalls_pure`, `reduceMasked_calls`, `reduce_calls_short`, `transformReduce_calls`, `transformReduce_const_calls` | State is external to the operations (captured by reference). The order of evaluation of the two recursive reductions is a parameter (per width). For transform_reduce the result type of transform_op is a simd of the aggregation type, the only case that compiles (C78). |
| C81 | Number of invocations of the callable | proved | CallCount: `forEach_call_count`, `forEach_call_count_matching`, `transform_call_count`, `transform_call_count_matching`, `countIf_call_count`, `countIf_call_count_matching`, `transformReduce_call_count`; AssumeMatching: `transformReduce_call_count_matching` | Preconditions of C01, C10, C14; at run time (constant evaluation, where speed does not matter, is not covered). The bound on the invocations of reduce_op is for calls that return normally. |
| C82 | results do not depend on the execution policy, and the algorithms agree with each other | proved | Relations: `forEach_policy_irrelevant`, `transform_policy_irrelevant`, `countIf_policy_irrelevant`, `transformReduce_policy_irrelevant`, `forEach_eq_transform_in_place`, `reduce_transform_eq_transformReduce`, `countIf_eq_transformReduce`, `transform_fusion`, `reduce_policy_matters`, `forEach_policy_matters` | At run time, under the preconditions of C04, C12, C16. In countIf_eq_transformReduce the sum is over mathematical integers and the count is assumed to be representable in int (otherwise count_if overflows, C19). |
| C83 | struct_size_v counts the data members of a class | partial | StructMembers: `accepts_iff`, `structSizeOf_members`, `structSizeOf_rejecting`, `structSizeOf_many_bases`, `structSizeOf_derived`, `structSizeOf_plain`, `structSizeOf_plain_empty`, `structGetOf_members`, `structGetOf_derived` | Proved for the supported classes, with the exact result for the others. Refuted for classes whose members all come from one base class (structSizeOf_derived, structGetOf_derived). What a single member accepts is a parameter, except for plain nested structs. |
| C84 | simdize_size | partial | SimdizeSize: `simdizeSize_spec`, `simdizeSize_zero`, `simdizeSize_ill_formed_iff`, `simdizeSize_simdize`, `simdizeSize_simdize_plain` | Proved for all types without empty structs; ill-formed for exactly the others. |
| C85 | Right-hand sides of where expressions | partial | WhereRhs: `assign_spec`, `opAssign_spec`, `opAssign_ub`, `assign_few_lanes`, `assign_many_lanes`, `assign_narrows`, `scalar_simd_agree`, `scalar_shift`, `common_type`, `scalar_unsigned`, `scalar_simd_differ` | The effect on the lanes is proved for all integral types, masks and kinds of right-hand sides with enough lanes. False of the code: a simd with another number of lanes is accepted (fewer lanes fail a check at run time, more are dropped); a narrowing scalar is accepted. Scalar and simd where agree for +=, -= and *= and provably differ for /= and >>=. Floating-point elements are not modelled here. |
| C86 | Concurrent calls on data that does not overlap | proved | Concurrent: `forEach_accesses`, `transform_accesses`, `concurrent_calls`, `concurrent_calls_serial`, `parallel_forEach_map`, `overlapping_calls_lose_updates`; ConcurrentCount: `concurrent_countIf`, `parallel_countIf`; ConcurrentReduce: `transformReduce_stable`, `transformReduce_accesses`, `concurrent_transformReduce`, `concurrent_transformReduce_fold`, `transformReduce_torn` | The calls are the programs of element accesses that the algorithm models of for_each and transform yield; threads interleave single accesses (sequential consistency, which the C++ memory model grants to programs without data races; freedom of races is part of the theorem). concurrent_calls: safety, old-or-new, finished as if alone; concurrent_calls_serial: any serial order; parallel_forEach_map: map split over threads; overlapping_calls_lose_updates: the condition is needed. concurrent_countIf, parallel_countIf: count_if as for_each without write-back. transform_reduce is not a list of instructions but a reader whose k-th access is to the memory after any steps of the other threads: transformReduce_stable, concurrent_transformReduce(_fold); transformReduce_accesses: number of accesses, however memory changes; transformReduce_torn: the condition is needed. Not modelled: callables that access shared memory. |
| C87 | Every documented call form reaches the overload documented for it | partial | Resolve: `iterator_forms`, `range_forms`, `range_forms_partial`, `zip_form`, `std_iterator_forms`, `std_noMatch`, `transform_c_arrays`, `transformReduce_c_arrays`, `vir_noMatch`; ResolveUnique: `never_ambiguous`, `resolve_best` | Iterator and zip_view forms hold without exception. The range forms are false of the code: range_forms is the exact condition, range_forms_partial the sub-domain (class-type ranges with a common end and an lvalue output) on which the property holds, transform_c_arrays and transformReduce_c_arrays the failures. |
| C88 | values given to the broadcast and generator constructors arrive unchanged | partial | Generator: `generate_partial`, `generate_iff`, `broadcastVal_iff`, `generate_wrong`, `castTo_exact`, `castTo_changes` | False of the code for generators with index-dependent types (witness); generate_iff and broadcastVal_iff are exact conditions. NaN and infinities are not modelled. |
| C89 | sums of floating-point numbers are accurate whatever the policy and the width | proved | FloatSum: `fadd_error`, `fmul_error`, `gsum_float_error`, `hreduce_float_error`, `transformReduce_float_error`, `reduce_float_error`, `innerProduct_float_error`, `transformReduce_float_loop`, `exists_nearest`, `reduce_float_differs` | Preconditions of C16 (RunOk). Finite values only: NaN, infinities and the sign of zero are not modelled; overflow is excluded by the bound. No contraction of products and sums to fused operations. |
| C90 | fake_modify and fake_read hide and keep every part of their arguments | proved | Benchmarking: `fakeRead_all`, `fakeRead_determines`, `fakeModify_all`, `fakeModify_unchanged`, `fakeModify_arbitrary`, `fakeRead_registers`, `fakeModify_registers` | The compiler's view of an asm statement is modelled (operands, in/out, constraint alternatives); padding between the elements of a _SimdTuple is not. |
| C91 | algebraic laws of permutations | proved | PermuteAlgebra: `simdPermute_comp`, `simdPermute_perm`, `simdPermute_undo`, `simdPermute_map`, `simdPermute_zipWith`, `shiftIn_eq_shift`, `shiftIn_shift_negative`, `shiftIn_self_eq_rotate`, `shift_shift` | For objects without padding (C22 says what happens with padding) and rotations the AVX2 code handles rightly (C25). |
| C92 | member types of an aggregate | partial | StructTypes: `structElement_spec`, `structElement_partial`, `structElement_declared_iff`, `structElement_ref`, `structGetType_spec`, `asTuple_spec`, `asTuple_exists`, `asPair_spec`, `structElement_asTuple` | False of the code for members that are references (structElement_declared_iff, structElement_ref), for volatile T that is no lvalue reference (asTuple_exists), and for rvalues with a single member (structGetType_spec); otherwise exact. |
| C93 | what the alignment modifiers change | proved | AlignmentModifiers: `forEach_autoPrologue`, `transform_autoPrologue`, `forEach_nothingToAlign`, `transform_nothingToAlign`, `forEach_fullWidth_aligned`, `transform_fullWidth_aligned`, `transformReduce_fullWidth_aligned` | Run-time branch; the example beside the theorems shows that beyond 4000 bytes the number of invocations can change. |
| C94 | transform on ranges that overlap in any way | proved | Overlap: `transform_groupwise`, `transform_sequential`, `transform_const_sequential`, `transform_not_sequential` | Run-time branch under the preconditions CallOk (C82), constant evaluation for the forgiving pointer model. |
| C95 | simd programs compute in every lane what the program computes on numbers | proved | SimdProg: `prog_lanes`, `prog_unique`, `prog_undefined`, `prog_sound`, `prog_sound_masked`, `masked_body`, `simd_gcd` | Programs are an inductive type run with the modelled operators; a lane's meaning is given by relations on numbers in Verif/Spec/SimdProg.lean. All simds of a program have one width. Integer element types only. |
| C96 | for_each and transform with simd programs as callables act on every element like the program on numbers | proved | ProgOps: `transform_prog`, `transform_prog_const`, `forEach_prog`, `transform_prog_sound`, `forEach_prog_sound`, `progValue_unique`, `transform_gcd` | The callable is the program of C95 on the argument simds with zero-initialised local variables; the number of tests of loop conditions is bounded by a fuel, and the theorems are for all fuel from some number on. Integer element types, ranges of one type. |
| C97 | count_if with predicates that may be undefined, and with simd programs, counts the elements that satisfy the predicate | proved | CountIfPartial: `countIf_partialPred`, `countIf_defined`, `countIf_prog`, `countIf_prog_sound`, `countIf_coprime`, `countIf_unlogged`; CountIfConst: `countIf_const_partialPred`, `countIf_const_defined`, `countIf_const_prog`, `countIf_const_prog_sound`, `countIfC_pure`, `countIf_const_width2_pieces`, `countIf_const_width2_defined` | Run time and constant evaluation; in constant evaluation simds of width 2 with a non-empty range of even length are excluded, for which the result is wrong already with total predicates (C19); countIf_const_width2_pieces and countIf_const_width2_defined say what is counted then. At run time an undefined invocation ends the execution, modelled like an exception that carries the kind of undefined behaviour; loops have a fuel as in C96. |
| C98 | Sums of what a simd program computes from the elements are the sums of the program's results on numbers | proved | ProgReduce: `sum_prog_defined`, `sum_prog_wraps`, `sum_prog_sound`, `sum_gcd`, `sum_prog_const` | Transformed elements and init of the same type (C78 says when they can differ), range lengths that the alignment prologue neither exceeds nor ends at (C70, C14) at run time. An undefined invocation makes all lanes of its result undefined, and every lane is added to the result; loops have a fuel as in C96. |
| C99 | Masked simd programs of any element type, with nested loops and local variables, end exactly if every lane ends, with the results of the lanes | proved | LaneProg: `lanes_noLoops`, `lanes_sound`, `lanes_masked`, `lanes_unique`, `lanes_complete`, `lanes_ends`, `simd_mandelbrot` | The operations on elements are parameters, which may be undefined for some values. All simds of a program have one width. Extends C95 (integers) to any element type, nested masked loops, local variables and masked assignments to masks. |
| C100 | The algorithms with masked simd programs as callables give, for every element, what the same code on single elements gives | proved | MaskedOps: `transform_masked`, `transform_masked_sound`, `transform_masked_ends`, `transform_masked_const`, `forEach_masked`, `forEach_masked_sound`, `countIf_masked`, `countIf_masked_sound`, `result_unique`, `says_unique`, `transform_mandelbrot`; MaskedReduce: `reduce_masked`, `reduce_masked_fold`, `reduce_masked_sound`, `reduce_masked_const`; CountIfConst: `countIf_const_masked`, `countIf_const_masked_sound` | For the direction that the call ends, the operands inside loops have to be defined for all element values (as with floating-point numbers). The preconditions of the algorithms are those of C01, C12 and C14. Generators that depend on the lane index are excluded, since their result depends on where an element lands in a simd. count_if in constant evaluation: as for C97. |
| C101 | Parallel integer reductions with the function objects of the standard | proved | IntReduceOps: `redInts_value`, `redInts_defined`, `redInts_prod`, `prod_condition`, `redInts_sequential`, `fallback_redOp`, `redInts_u16_overflow` | Outside the undefined cases of C16. Sums have their own exact conditions in C70. |
| C102 | count_if on arrays of structs counts every matching struct once | proved | CountIfStruct: `countIfStruct_spec`, `countIfStruct_pieces`, `countIfStruct_const_partial`, `countIfStruct_const_width2` | Constant evaluation is not part of the claim: the additional theorems say that the same holds there (if the loads are constant expressions) except with width 2 and non-empty arrays of even length, where the last struct is counted twice (C09). |
| C103 | Exceptions of the callable of for_each on arrays of structs | proved | ThrowingStruct: `forEachStruct_throwing`, `forEachStruct_propagates`, `forEachStruct_neverThrows` | Run time only. Where the loads permute the lanes (C53), the structs written back by one invocation are permuted among the positions of that invocation; the theorem says exactly which structs are written. |
| C104 | Side effects and exceptions of the operation of transform on arrays of structs and ranges with different element types | proved | ThrowingArrays: `transformArrays_effects`, `transformArrays_const_effects`, `covers_args` | All members have one type in the model (C71). covers_args spells out that the recorded invocations got every element exactly once. |
| C105 | Side effects and exceptions of the predicate of count_if on arrays of structs | proved | CountIfStructEffects: `countIfStruct_effects`, `countIfStruct_propagates`, `countIfStruct_pure` | All members have one type in the model (C71). Run time only; for constant evaluation see C102. |
| C106 | Number of invocations of the callable on arrays of structs | proved | CallCountStruct: `forEachStruct_call_count`, `countIfStruct_call_count`, `transformArrays_call_count`, `transformReduceArrays_call_count` | Run time, preconditions of C71, C72, C102, C103. All members have one type in the model (C71). |
| C107 | Concurrent calls of vir::for_each on arrays of structs | proved | ConcurrentStruct: `forEachStruct_accesses`, `concurrent_struct_calls`, `concurrent_struct_calls_serial`, `parallel_forEachStruct_map`, `disjoint_members_lose_updates`; ConcurrentStructCount: `concurrent_countIfStruct`, `parallel_countIfStruct` | Extends C86 to arrays of structs: same machine, with loads and stores of single members. All members have one type in the model (C53). The map theorem needs ordered loads as C53 does. Not modelled: callables that access shared memory. count_if as for_each without write-back. |
| C108 | What vir::for_each makes of an array of structs, exactly | proved | StructPieces: `forEachStruct_policy_irrelevant`, `forEachStruct_places` | Run time. Makes forEachStruct_map_perm of C53 exact; for ordered loads see forEachStruct_map_partial there. All members have one type in the model (C53). |
| C109 | What vir::transform makes of arrays of structs, exactly | proved | ArrayPlaces: `transformArrays_places`; PlacesDiffer: `transformArrays_policy_matters`; PlacesShort: `transformArrays_short`; PlacesPerm: `transformArrays_perm` | Run time. Makes C71 exact where it is false as stated (unordered loads). During constant evaluation see transformArrays_const_partial (C71). All members have one type in the model (C71). |
| C110 | What vir::transform_reduce computes for arrays of structs, exactly | proved | ReducePlaces: `transformReduceArrays_places`, `transformReduceArrays_places_fold`; PlacesDiffer: `transformReduceArrays_address_matters`; PlacesShort: `transformReduceArrays_short` | Run time. Makes C72 exact where it is false as stated (inputs with and without permuted loads mixed). During constant evaluation see transformReduceArrays_const_fold (C72). Ranges that end at their first aligned address are excluded as in C14. All members have one type in the model (C71). |
<!-- table end -->

## Disagreements between the code and its documentation or obvious intent

Each is proved as a theorem with a concrete witness or an exact characterisation.

1. `prefer_aligned` on a range shorter than the prologue runs past the end (C05: `for_each` and `transform`
   subtract `to_process` from `remaining` without comparing them).
2. `transform_reduce` reaches `unreachable()` when the prologue consumes the whole range (C16).
3. In constant evaluation `for_each` with width 2 and an even number of elements visits the last chunk twice
   (C09); `count_if` inherits this (C19).
4. `last - size` is formed even when the range is shorter than `size` (C47).
5. `prefer_aligned` assumes that the address is a multiple of `sizeof(T)`; for types with
   `alignof(T) < sizeof(T)` no number of elements reaches alignment (C04, hypothesis of the alignment part).
6. Masked `hmin`/`hmax` use `numeric_limits::max()`/`lowest()` as identity, since
   `#ifdef __FINITE_MATH_ONLY__` is always true in GCC and Clang; infinities are not the result then (C39).
7. `stdx::detail::bit_ceil` does not terminate and `detail::bit_ceil` returns 0 beyond the largest power of two
   (C21).
8. `rotate` by negative offsets is wrong unless the width is a power of two (C24); the AVX2 control word is
   right only for offsets in `[0, 8)` and a few more (C25); `simd_shift_in` with negative offsets (C26); the
   shufflevector path fills `simd_permute_zero` wrongly when the object has padding (C22); `duplicate_odd` is
   rejected for odd widths (C23).
9. `count_if` counts in `int` (C19).
10. `_cw` rejects the prefix `0B` and every spelling of zero except `0`, and accepts `08` and `09` (C42).
11. The prologue of `transform_reduce` reduces in the type of the transformed elements, not in the type of `init` (C48). The two differ only for a
    `transform_op` whose result type depends on the width (C78).
12. `find_first_set(bool)`/`find_last_set(bool)` do not check their precondition (C36).
13. `simd<unsigned short>` multiplication overflows `int` (C50).
14. Loading a simdized struct template of three floats on AVX (eight lanes) reads lane `i` from struct
    `3*i mod 8` (C27, C29).
15. `flat_get` passes a wrong offset when it recurses (C30); not reachable through the public interface, since
    `flat_element` does not exist for such types.
16. `struct_size` needs acceptance to be an interval and the count to be at most `8 * sizeof(T)` (C31).
17. `int` is accepted in broadcasts whatever the element type (C41), as in the standard.
18. Row 38 of the prologue table jumps to a different row than the pattern suggests, harmless (C08).
19. `for_each` with a callable that takes a reference and does nothing permutes an array of three-float struct
    templates on AVX, because of 14 (C53).
20. `transform` and `transform_reduce` form iterators outside short ranges; `transform_reduce` also forms
    `first1 + size*unroll_by` past the end when less than one unrolled iteration is left (C56).
21. `transform` of a `zip_view` dereferences `begin` of an empty view (C57).
22. `simdize` silently leaves a struct alone when one member has no `simd` of the common width, and is a hard
    error for structs that contain such a struct, whatever the width asked for (C59).
23. Class templates with nested structs are not `vectorizable_struct_template`, since `flat_element` looks at the
    first member only (C60).
24. `abs` of the lowest value of a signed type is undefined (32 and 64 bits) or negative (8 and 16 bits) (C62).
25. `to_native` and `to_compatible` of the fallback exist only for `fixed_size<1>` and return the lane broadcast to
    all lanes of the default ABI, instead of a simd of equal size (C63).
26. The masked load constructor of the scalar-ABI `simd_mask` (`k ? mem[0] : false`) is ill-formed when instantiated,
    since `simd_mask` has no conversion to `bool`; not modelled.
27. `struct_get` has specializations for up to 50 members only, although `reflectable_struct` accepts larger aggregates
    (`structGet_limit`). For rvalue objects a struct with one member yields a const reference and one with more members does not
    (`structGet_single_const`).
28. `simd_tuple::copy_from` (and the constructor from an iterator) is ill-formed for structs with nested structs, since a simdized
    struct has no generator constructor; `simdize` nevertheless yields a data-parallel type for them, with a `copy_to` that works
    (`copyFrom_nested`, `copyTo_spec`).
29. `cw<f>(cw<x>...)` is ill-formed if `f(x...)` is no constant expression and `f` is no function pointer, although `f` could be
    called at run time (`callOp_not_const`). Operators on wrappers are ambiguous for classes that derive from a wrapper and redefine
    `value`, for type traits of two wrapper types, and for a constant with a wrapper of a wrapper (`binary_ambiguous`).
    `cw<1> / cw<0>` compiles to a division at run time.
30. The range overloads of `transform_reduce` read past the end of a second range that is shorter than the first, and those of `transform` past a short second input and write past a short output (C57, C69).
31. `transform_reduce` with `init` of type `long long` and a `transform_op` that returns `long long` for single elements and `int` otherwise overflows in `int` when an alignment prologue adds up elements before converting them (C70, C48, C78).
32. `transform` with an input of three-float structs and eight lanes writes results to the wrong elements, because the load permutes the structs and the store of another type does not permute back (C71).
33. `transform_reduce` on three-float structs with eight lanes and another range combines elements of different indices (C72).
34. Expressions on simds of narrow types differ from the same expression on numbers: `(x + y) / 2` on `unsigned char` wraps before the division; `(x - y) * z` on `unsigned short` may overflow (C73).
35. `where(y != 0, r) = x / y` divides on all lanes and is undefined if some `y` is 0 (C73).
36. `is_simd_v`, `is_simd_mask_v` and the concepts of `simd_concepts.h` are true for cv-qualified element types, also for `const bool`; the traits also for `fixed_size<0>` and `fixed_size<-3>` (C75).
37. `is_simd_flag_type_v` is false for `element_aligned_tag`, `vector_aligned_tag` and `overaligned_tag<N>` (C75).
38. `simd_abi::deduce_t<T, N>` converts `N` to `int`: `N = 2^32 + 4` gives four elements (C75).
39. `resize_simd_t<1, fixed_size_simd<T, 1>>` is `simd<T, scalar>`, a different type (C75).
40. With AVX512, `native_simd<char>` has 64 elements, more than `max_fixed_size` (C75).
41. `fixed_size_simd<signed char, N>` does not convert to `fixed_size_simd<char, N>` where `char` is signed, although all values and the rank are the same: `is_higher_integer_rank` compares the type of the sum, which is `int` (C76).
42. `static_simd_cast<V>(x)` and `cvt` accept a `V` with another number of elements: fewer drops lanes silently, more fails the subscript precondition (C77).
43. `static_simd_cast<V>(mask)` accepts a simd type `V` of the same size (C77).
44. `reduce` and `transform_reduce` do not compile if `init` has another type than the (transformed) elements, although it is documented that `init` determines the aggregation type (C78).
45. `reduce_op` must take plain values, not only simd objects, since the `reduce` of `vir/simd.h` calls it with elements (C78).
46. At `VIR_CHECK_PRECONDITIONS` 4 and 5 a failed `assume_matching_size` is undefined instead of printing a message: the text of the condition, `distance % size == 0`, becomes part of the format string, and `% s` is a conversion without an argument (C79).
47. If the compiler proves a precondition false and only warns, the program traps at every level, also where undefined behaviour (0) or a printed message (4) is documented (C79).
48. A class without members of its own and with one base class that has members is documented as supported by `struct_size_v`, as the number of identifiers of a structured binding. The result is 1, because `{{x}}` initialises the base; with a base of two members `struct_get` is ill-formed (C83).
49. `struct_size_v` counts only the members before the first one that rejects a braced initialiser, for example an empty struct, if the rest has defaults (C83).
50. `simdize_size_v<std::tuple<>>` is ill-formed, not 0, and so it is for every type with an empty struct inside (C84).
51. `where(k, v) = x` accepts a simd `x` of another width: with fewer lanes it fails a run-time check for every mask, with more lanes it drops the rest (C85).
52. `where(k, v) = x` converts scalars that the broadcast constructor rejects as not value-preserving, and `where(bool, scalar) op= x` differs from a lane of `where(mask, simd) op= x` for `/=`, `%=` and shifts: the former computes in the common type, the latter converts `x` first (C85).
53. `simdize<Tpl<T, U>, N>` derives from `Tpl` only if `Tpl` can be instantiated with simds of the default width, too; with libstdc++ and AVX-512 `simdize<Pair<signed char, double>, 8>` is a `simd_tuple` (C60).
54. `vir::transform(simd, a, b, c, op)` and `vir::transform_reduce(simd, a, b, init, red, op)` with C arrays `a`, `b` (and `c`) of one element type select the *unary iterator* overload with `first = a`, `last = b`, because arrays decay and `(It, It, …)` is more specialised than `(R1&&, R2&&, …)`. A binary callable then fails to compile, a variadic one runs on the memory between the arrays. Output ranges of `transform` must be lvalues (a temporary `std::span` is rejected, except with `zip_view` inputs), and contiguous ranges whose end has another type than their begin satisfy the constraints but do not compile (C87).
55. The generator constructor checks only the type for index 0: a generator that returns `short` for it and `long long` for the others is accepted for `simd<short>` and its values are truncated (C88).
56. `cw<p>->m` is ill-formed for a pointer `p` although `p->m` is valid: a pointer has no member `operator->`, so the wrapper returns the address of the pointer. It is also ill-formed if `v.operator->()` returns an object with another `operator->`, as the return type is `const auto*` (C67, `arrowOp_iff`).
57. `struct_element_t<N, T>` is not the type of a member that is a reference but the type it refers to (`structElement_declared_iff`); for a const `T` it is const only if there is no other member (`structElement_ref`). `as_tuple_t<volatile T>` does not exist, and `as_tuple_t<volatile T&>` puts `volatile` both on the tuple and on its elements (`asTuple_exists`, `asTuple_spec`).
58. Constant evaluation of `for_each` and `transform` on a whole array (C47, C56): the loop test `first + (size - 1) < last` forms an iterator past the end of the array after the last full vector unless the length is one less than a multiple of the width, which makes the expression not constant. The doubled visit at width 2 and even length (C09) can therefore only be seen on subranges, or with iterators that allow it.
59. With loads that permute the structs (C71, C72), `transform` and `transform_reduce` permute only some blocks of eight elements, and which ones depends on the policy and on the address of the array of numbers that is made aligned: the same call has different results with and without `prefer_aligned` (`transformArrays_policy_matters`), and for arrays with the same contents at different addresses (`transformReduceArrays_address_matters`).

## Trusted base

* Lean's kernel, and the axioms `propext`, `Classical.choice`, `Quot.sound` at most (see `Verif/Audit.lean`).
  No other axioms, no `sorry`, no `native_decide` or `bv_decide`.
* The reading of the C++ code that the citations document, and the statements of the theorems with the small
  specifications in `Verif/Spec`.

Modelled, per header:

| header | modelled | not modelled |
|---|---|---|
| `simd_execution.h` | policies; `for_each`, `transform`, `transform_reduce`, `reduce`, `count_if` (overload sets, prologues, epilogues and jump tables), run-time and constant-evaluated | the order in which the horizontal `reduce` of the simd implementation calls `reduce_op` (one event in C64) |
| `simd.h` | fallback `simd`/`simd_mask`: constructors, casts, operators, math functions (as loops over an arbitrary scalar function), comparisons, loads and stores, mask reductions, `split`, `concat`, `where`, `reduce`, `hmin`/`hmax`, `min`/`max`/`clamp`, value-preserving conversions, `bit_ceil`, checked preconditions and their messages | floating-point arithmetic except sums and products of finite values (C89); SFINAE of overloads other than C41 |
| `simd_permute.h` | index functions, generic, shufflevector and AVX2 paths | other intrinsics |
| `simdize.h` | flat members, loads and stores on all shuffle paths, the type mapping of `simdize`, constructors, subscripts, `copy_from`, `copy_to`, `get` and operators of simdized structs | AVX-512/`_mm256` intrinsics only by their shuffle meaning |
| `struct_reflect.h` | `struct_size`, `struct_get`, `to_tuple`, `to_tuple_ref`, `to_pair`, `to_pair_ref`, `struct_element_t`, `as_tuple_t`, `as_pair_t` | |
| `constexpr_wrapper.h` | literal parser; overload resolution and values of operators, calls and subscripts | the operators of the wrapped types themselves (any function) |
| `simd_bit.h`, `simd_bitset.h`, `simd_cast.h`, `simd_float_ops.h`, `simd_iota.h`, `simd_resize.h`, `simd_version.h`, `detail.h` | everything with run-time meaning | type-level helpers |
| `simd_benchmarking.h` | `fake_modify`, `fake_read`: the asm statements as events for the compiler | what a compiler does with them |
