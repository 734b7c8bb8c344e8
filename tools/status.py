import json
S={
'C01':('proved','All numel, thread counts >= 1, dtype pairs; byte alignment of packed slices included; at API level every execution of a call stays in its slices and touches every byte.'),
'C02':('proved','Stated on execution traces of every schedule: no output byte is accessed by two different workers.'),
'C03':('proved','Every interleaving at single-byte granularity; result equals sequential execution; bounded termination; faults coincide.'),
'C04':('proved',''),
'C05':('proved','Also for NaN/inf inputs (only scalar UB is excused).'),
'C06':('proved','Second theorem: on the portable kernels, whatever the data, if a call completes then no element overflowed and the formula holds.'),
'C07':('proved','The exceptional value really occurs (C07_exception_occurs).'),
'C08':('partial','False as stated: C08_false_depends_on_threads_and_cpu and C08_false_depends_on_alignment (scaled value 0x3effffff). Proved with that value excluded and |zp| <= 2^22; for every int32 zero point see C98_independent_partial (odd scaled values in [2^23, 2^24) excluded as well), and without exclusions two calls differ by at most one code (C98_two_calls_within_one).'),
'C09':('partial','f32: proved for all kernels. bf16: proved for all kernels but AVX512, where uint4/uint2 use an FMA (real difference, see C36) and the BF16 instruction flushes denormals; there a weaker formula and an error bound are proved. uint2->f32 needs one readable byte behind the input span (C11).'),
'C10':('partial','False for the uint2->f32 tail (C10_false_uint2_tail: overwritten for every input, C10_false_witness). Proved for every other element and dtype, bf16 with the two rounding orders that the kernels use. Whether the compiler contracts product and sum is a parameter of the model; in builds that treat all sums alike there is one formula (C10_add_f32_uniform_partial).'),
'C11':('partial','False: C11_false_uint2_reads_past_input (every numel divisible by 4, every schedule). Proved for all other dtypes/sizes.'),
'C12':('proved','Each packed code equals the code obtained by quantizing that single element alone (portable kernels, stochastic, f32->uint2; the theorem C12_packing_lossless_any_kernel covers every kernel, mode and dtype pair, its exceptional value excluded).'),
'C13':('proved','False beyond 2^119 (C13_false_huge_scale).'),
'C14':('partial','False on vector kernels (C14_false_on_vector_kernels: equal inputs get different codes in vector loop and tail). Proved for exact kernels, and for vector kernels with the exceptional value excluded.'),
'C15':('partial','False: scaled values >= 2^31 give code 0 on vector kernels (C15_false_large_values_give_zero) and undefined behaviour on portable ones. Proved below that.'),
'C16':('proved',''),
'C17':('proved','Hypotheses: scaled value finite and at most 2^62 in magnitude (beyond that the C++ cast is undefined).'),
'C18':('proved','Mean over N near-uniform thresholds within eps+1/N at API level for all completed executions; exact Lebesgue expectation of the rounding rule that C17 proves of the API.'),
'C19':('proved',''),
'C20':('proved','C20_infinities shows what happens with infinities.'),
'C21':('partial','Proved when a least and a greatest element are among those the search looks at: always, but on SSE4.2, where the claim is false (C21_false_sse42). On every kernel the scale is finite and not negative (C21_scale_finite). The range condition is needed: C21_tiny_range_scale_zero.'),
'C22':('partial','False on SSE4.2 (C22_false_sse42, C22_false_whenever_unseen). Proved for every other kernel and for SSE4.2 with small blocks (sees_small) or extremes among the elements it looks at (C22_true_range_partial); C22_exact_every_kernel gives the exact result on every kernel, SSE4.2 included, and says which elements count.'),
'C23':('proved',''),
'C24':('proved','Non-empty blocks; an empty block callback would contribute {0,0} (C24_false_empty_block).'),
'C25':('partial','Proved for all data whose least and greatest elements are among those the search looks at: always, but on SSE4.2, where the claim is false (C25_false_sse42).'),
'C26':('partial','False: C26_false_offset_data (data in [100,101] comes back as 1.0). The strongest conditional bounds are C25 and C44.'),
'C27':('partial','C++ API: exact acceptance conditions. C API with a float dtype in the quantized position: integer division by zero instead of an assertion (C27_false_*).'),
'C28':('proved',''),
'C29':('proved',''),
'C30':('partial','False for two NaN patterns (AVX512F) and for denormals (AVX512_BF16). Proved for all other floats.'),
'C31':('partial','False: AVX512BW is compiled in but not checked (C31_false_avx512bw_unchecked). Everything else proved.'),
'C32':('partial','False for bf16 (C32_false_bf16). Also false for ADD when the compiler contracts the sums of only one of the two codes (C32_false_contraction, what Clang does). Proved for f32 with the exceptional scaled value excluded and equal contraction.'),
'C33':('partial','False for 0 threads (C33_zero_threads_writes_nothing). Proved for >= 1.'),
'C34':('partial','False outside int32 (C34_false_zero_point_truncated). Proved inside.'),
'C35':('proved',''),
'C36':('partial','Dequantization: false on AVX512 uint4->bf16 (C36_false_avx512_uint4_bf16); proved elsewhere. Quantization of zero proved.'),
'C37':('proved','The restriction on SSE4.2 is needed (C37_sse42_split_matters).'),
'C38':('proved',''),
'C39':('partial','False: stride is 1 for f32/bf16 and 0 for uint2/uint4; piquant_to_torch_dtype always raises. What does hold is proved.'),
'C40':('partial','False for torch dtypes narrower than 4 bytes other than bfloat16: out-of-bounds read on every kernel and split. Proved for the rest.'),
'C41':('proved',''),
'C42':('proved',''),
'C43':('proved','C43_repeated_add for every contraction choice of the compiler, C43_repeated_add_plain when there is none.'),
'C44':('proved',''),
'C45':('proved',''),
'C46':('proved',''),
'C47':('proved',''),
'C48':('partial','False for reduce_op=add (adds into uninitialised memory); proved for set.'),
'C49':('partial','SSE4.2 searches that miss an extreme (C22) and quint2x4 tensors with numel divisible by 4 (C11) excluded: false there.'),
'C50':('proved','Output spans are assumed disjoint from each other and from the inputs of the other calls.'),
'C51':('proved',''),
'C52':('partial','False for bfloat16 (C52_false_bf16_limits: min 65280 > max 32640). Proved for the other types.'),
'C53':('partial','False for large constant data, uint8 data far from zero, and ranges whose scale underflows to 0 (C53_false_*). Proved for non-constant data with scale in [2^-126,2^126] and uint2/uint4 targets or data around zero.'),
'C54':('proved','Second call nearest, as stated. A stochastic second call can move grid values (C54_false_stochastic).'),
'C55':('proved','Computed parameters: SSE4.2 large-block searches excluded (C22).'),
'C56':('proved','Computed parameters: SSE4.2 large-block searches excluded (C22).'),
'C57':('partial','False for uint8 codes more than 127 steps from the zero point (C57_false_uint8); proved for all others (all uint2/uint4), and off by at most one in the remaining cases.'),
'C58':('proved',''),
'C59':('proved','Portable kernels and scalar tails: such an element is undefined behaviour (C15), so the statement is about executions that finish; C59_occurs shows vector calls with NaN, infinities and 1e10 that do finish.'),
'C60':('proved',"Holds on all kernels, including the vector kernels' deviation at the float just below one half."),
'C61':('proved','All three calls.'),
'C62':('partial','True for data whose least and greatest elements are among those the search looks at: always, but on SSE4.2 with blocks of 16 or more floats, where lanes are dropped and a permutation changes the result (C62_false_sse42).'),
'C63':('partial','The full claim (error at most about scale/2 wherever the data lies) is false: C63_offset_is_lost. The error actually incurred is bounded in C63_roundtrip_any_offset_partial.'),
'C64':('partial','False on every kernel and thread count for the tensor [0, 151/256, 197/256] (C64_false_readme_assertion: the bfloat16 rounding of the output alone may cost 1/512). The workflow does succeed and stays within scale/2 + scale/512 + 1/512 when the minimum is at most half a step.'),
'C65':('proved','Each operator equals the single-rounding IEEE operation on the two bfloat16 values (C65_bf16_arithmetic_is_ieee), and that result is a nearest bfloat16 with ties to even and the standard overflow threshold (C65_bf16_correctly_rounded). NaN results are the one canonical NaN of the model.'),
'C66':('partial','Proved for all pairs that are not NaN and not two zeros of different sign; false there (C66_false_zero_and_nan): operator== compares the bits, so 0 != -0 and NaN == NaN.'),
'C67':('partial','Proved for all defined data whose scaled value is not exactly plus or minus the float below one half, and for any data on scalar code paths; float32 dequantization in full. False on x86 vector kernels at that value (C67_false_vector_tail): the code depends on whether the element falls in the vector body or the scalar tail.'),
'C68':('proved','The seed returned by std::random_device is a parameter. The engine follows the C++ standard; generate_canonical and uniform_real_distribution follow libstdc++.'),
'C69':('proved',"A call's input must not be written while the call runs (no aliasing). Undefined behaviour of a scalar float-to-int conversion is the only fault that can occur, and it cannot if each thread alone has a defined run (C69_any_program_defined)."),
'C70':('partial','f32 SET proved. f32 ADD is false in builds where the compiler contracts only some of the sums (C70_false_partial_contraction), proved otherwise. bf16 is false between AVX-512 and other kernels (C70_false_avx512_bf16), proved without AVX-512.'),
'C71':('proved','Both directions; nearest and stochastic, pairs of arbitrary configurations.'),
'C72':('proved','A code of 0 shifted up (or 2^bits-1 shifted down) may have lost information by saturation and is excluded; all others are covered, both directions.'),
'C73':('proved','The reciprocal of the scale is exactly scaled too (no subnormal intermediate in the stated range).'),
'C74':('partial','False as stated: scale 1 and the middle code are returned for every constant, so every |v| below one half becomes 0 and every v in [2^bits, 2^30] becomes 2^bits-1-mid (C74_false_small, C74_false_large, for every configuration). Proved: the exact result for every |v| <= 2^30 (nearest integer, clamped), and exact survival of the integers in [-mid, 2^bits-1-mid].'),
'C75':('partial','Proved for every history: at most once, after creation, all destroyed at exit. No use after destruction: proved without copies and for an exit when all calls have returned; false for copy.copy(context) and for calls overlapping or following the exit handlers (C75_false_copy, C75_false_exit_in_progress, C75_false_exit_later).'),
'C76':('proved',"uint2 needs numel%4=0 and one readable byte past the input; scales in [2^-126,2^119]; peers' data in range of their parameters, or parameters computed on data around zero."),
'C77':('proved','SSE4.2 search excluded above its block size (C22); C77_sharp exhibits data whose extremes miss the extreme codes.'),
'C78':('proved','x86 nearest kernels: products equal to plus or minus the float below one half excluded, as in C71.'),
'C79':('partial',"Proved: with nearest rounding the same bytes, except that on x86 vector kernels an element whose scaled value is exactly plus or minus the float below one half may differ (C07/C08), and then by one code (C79_nearest_close); float32 stochastic codes differ by at most one for every threshold and generator state; bf16 stochastic codes by at most two (scaled values up to 100). C79_false_bf16_stochastic: the reference multiplies in bf16 (operator* of bfp16_t), the library in float32, and a difference of two, outside the tests' tolerance, occurs. C79_uint2_reference_overruns: for uint2 the reference writes past its buffer (its tests are commented out)."),
'C80':('proved','C80_roundtrip, C80_accumulate (uint2 tail excluded, false there: C10_false_uint2_tail), C80_fused. SSE4.2 searches with large blocks excluded (false there: C22).'),
'C81':('proved','C81_fused_bf16_formula, C81_roundtrip_bf16, C81_accumulate_bf16, C81_fused_bf16.'),
'C82':('proved','C82_requantize_test, C82_dequantize_test; C82_false_one_sided shows the sign condition is needed. SSE4.2 searches over large blocks excluded (C22).'),
'C83':('partial','Proved: the three lists of enumerators agree, codes are distinct and complete, and with legal codes the C call is the C++ call. The rejection of illegal codes is false: a type code >= 5 reads a descriptor outside dtype_infos, a mode/operation code >= 2 passes every check and makes the workers index the kernel table out of range (C83_false_*).'),
'C84':('partial','No sfence is executed anywhere. Proved: whatever holds after every schedule with stores visible at once is what the caller sees, for dequantize and fused calls and for quantize kernels without non-temporal stores with any kind of report, and for all kernels if the thread pool reports finished tasks by a fence or locked instruction (the pool is not in the repository). False for the streaming uint8 kernels when a task is reported by an ordinary store: the call can return while the caller still sees the whole old buffer (C84_false_*).'),
'C85':('partial','FALSE for bfloat16 tensors (C85_false_bf16) and at ties (C85_false_tie). Proved: the parameter assertions (C85_params_test), the float32 round trip with a tighter tolerance (C85_roundtrip_test_partial) and agreement with half-to-even rounding away from ties (C85_half_even_partial). Missing: quint2x4 with numel % 4 == 0 (C11), SSE4.2 searches that miss an extreme (C22), one-sided data (C26).'),
'C86':('proved','SpecIeee.lean defines the encodings, rounding and operations of IEEE 754-2008 independently; every operation of Model/Fp.lean is proved to satisfy it (C86_arithmetic, C86_comparisons, C86_conversions), the specification is proved to determine results (C86_rounding_unique, C86_results_unique), and the value theorems of quantize, dequantize (SET and ADD, float32 and bf16, every kernel set), of the fused call and of the parameter computation are restated on bit patterns.'),
'C87':('partial','True for the fused call in place (every thread count and schedule) and, with one thread, for outputs before or beside the input, and for dequantizing codes that lie at the end of the output buffer. False otherwise: C87_false_output_behind, C87_false_dequantize_front, C87_false_dequantize_two_threads, C87_false_fused_two_threads, C87_false_quantize_two_threads. Overlap is formally undefined behaviour (restrict-qualified pointers); the theorems are about loops that load up to w elements ahead, for every w. Not covered: overlapping dequantize calls and the other quantize kernels.'),
'C88':('partial','False of the vector kernels (C88_false_avx2, C88_false_abort, C88_false_others): MINPS/MAXPS return the second operand when one is NaN, so a NaN makes its lane forget what it has seen, or makes the call abort (NEON: the whole lane is lost or the call aborts). Proved: true on the portable kernels for all data, on all kernels if no NaN is among the elements examined by vector instructions (SSE4.2: blocks too small for the vector loop, because of C22); for all data and kernels, the parameters are those of the range between two of the numbers, or the call aborts.'),
'C89':('partial','False in every such case (C89_false_rejected is an instance), and what happens is determined completely: an element -inf makes the conversion of the NaN zero point to an integer undefined (C89_minus_infinity_undefined_partial); otherwise +inf yields scale inf and zero point 0 (C89_plus_infinity_scale_partial), with which every finite element is quantized to code 0 (C89_infinite_scale_codes) and dequantized to NaN (C89_infinite_scale_nan). On SSE4.2 for blocks too small for the vector loop (C22). For tensors without infinities see C20.'),
'C90':('proved','C90_loads_at_any_time is the general statement (simulation: a load from a span nobody writes commutes with everything); the three calls are instances. The vector kernels other than uint8 dequantization are modelled with the input loaded beforehand only, to which the general theorem applies.'),
'C91':('proved','Errors measured from the scaled value fl32(x * fl32(1/scale)); thresholds modelled as in C18/C68.'),
'C92':('partial','False: for every size a tensor of 0.5s with scale 1 is missed by half a step in the mean by every call (C92_false_averages_out). Proved instead: the exact mean error for equal elements, and the squared error of the sum as the sum of the pairwise second moments of C91, which for data of one sign is at least that of independent errors.'),
'C93':('partial','False: every code is 15 (C93_false_all_codes_saturate) and the round trip replaces every element by -22.375 (C93_round_trip_constant_partial); no fault occurs.'),
'C94':('partial','Proved for uint8 and uint4 (every tensor whose scaled values fit in 32 bits). False for uint2 (C94_false_uint2: 0, 0.125, 0.75). torch itself is not modelled: it is represented by the formula with rounding half to even.'),
'C95':('partial','True for float32 tensors in which both extreme codes occur (zero point exactly equal, scale within 2^-15), and for uint4/uint2 through bf16 with an interior zero point. False otherwise: C95_false_unused_extremes (codes 0,1,2 become 0,7,15 and the value 1 becomes 0.93).'),
'C96':('proved','SpecCrash.During is any prefix of any interleaving. C96_false_add shows why ADD is excluded.'),
'C97':('proved','C97_false_last_byte exhibits the transient byte 0x88 (before 0xAB, after 0x08).'),
'C98':('partial','False on x86 vector kernels: adding one half to an odd integer in [2^23, 2^24) rounds to the next even integer (C98_false_grid_value_moves: 8388609 with zero point -8388604 gets code 6, portable kernels 5). C98_code_any_zero_point determines every code of every kernel for every zero point, C98_within_one bounds the deviation by one code, C98_independent_partial (the claim of C08 for every int32 zero point) and C98_two_calls_within_one compare calls; C98_grid_values_partial is the claim with odd |k| in [2^23, 2^24) excluded on those kernels.'),
'C99':('proved','C99_bound_needed shows why the zero point must be bounded (it is not a claim of the property).'),
'C100':('proved',''),
'C101':('proved','C101_add_bf16_error bounds one addition on all kernels, C101_reduction_bf16 a whole reduction (any number of peers, chosen or computed parameters), C101_stagnates shows that errors do accumulate.'),
'C102':('proved','C102_ring_computed and C102_allreduce_computed; no hypothesis about scale or zero point is left. Mixed signs are needed because computed parameters do not cover one-sided data (C26, C53, C63); SSE4.2 searches with small blocks only (C22).'),
'C103':('proved','C103_quantize_traffic, C103_dequantize_traffic, C103_fused_traffic; C103_odd_uint4_exception exhibits the exception. Accesses are counted in bytes (a vector store is a sequence of byte stores). For ADD it is not claimed that every byte is written (it is accessed: C01).'),
'C104':('proved','C104_negated_params, C104_mirror_sharp (deviation one is attained), C104_rescaled_params, C104_rescaled_workflow.'),
'C105':('proved','C105_sign_kept, C105_order_kept, C105_order_kept_bf16 (bfloat16 results), C105_margin_needed (1.875 steps apart, same code, stochastic; 0.9375 steps, nearest).'),
'C106':('proved','Both modes, all kernels, two calls (float32 or bfloat16 output) and fused (float32); calibration needs the extremes of the calibration tensor to be seen (C22).'),
'C107':('proved',"Corollaries of C80 for sums over the tensor; the arithmetic of the sum itself is the user's and taken as exact."),
'C108':('partial','False (`C108_false_rejected`): there is no check in any of the three calls; only compute_quant_config asserts scale >= 0. Proved instead: what the calls do. Zero or NaN scale: undefined behaviour for every element in the scalar kernels, one constant code in the x86 vector kernels whatever the data. Negative scale: quantize gives the codes of the negated tensor, dequantize the negated values. Infinite scale: C89.'),
'C109':('proved',"Every stage must be able to take values of the data's size (2^29 steps)."),
'C110':('proved','The two elementwise float32 operations of the sender are IEEE operations outside the library.'),
'C111':('partial','False for bfloat16 replicas of which one uses AVX-512 (C111_false_bf16) and for float32 replicas in builds that contract only some of the sums (C111_false_partial_contraction). Proved otherwise: float32 replicas on all kernels (C111_history_f32_partial gives the final value as a fold over the updates), bfloat16 replicas without AVX-512.'),
'C112':('proved',"uint2 only with element counts divisible by four (C10, C11). The sender's float32 subtraction is part of the statement."),
'C113':('proved','Through float32. Through bfloat16 uint8 codes far from the zero point move (C57).'),
'C114':('proved','For the last n % 4 elements of uint2 tensors to float32 (overwritten, C10) the theorem requires n % 4 = 0. `C114_order_matters_off_grid` and `C114_bound_sharp` show that the hypotheses are needed. The value is compared, not the sign of a zero.'),
'C115':('proved',"Parameters are computed again at the read (they are a function of the block's data and the kernel set). SSE4.2 parameter kernels under the condition `Sees` (C22)."),
'C116':('proved','vector groups are described by Spec.groups/InGroups/Vectored in SpecVector.lean; C116_address_matters shows the same call defined at one address and faulting at the next'),
'C117':('proved','vector groups are described by Spec.dqGroup/InDqGroups/DqVectored in SpecVector.lean; the bf16 uint2 case is for |zero point| <= 2^24, where int to float conversion of the difference is exact'),
'C118':('proved','Spec.Ok64/FusedOk/code64 in SpecExact.lean; extends C17, C32_fused_f32_formula and C81 (which need moderate data and zero points) to all inputs, with the converse'),
'C119':('proved','Strengthens C22_exact_every_kernel (all data finite) and C89 (small blocks on SSE4.2). C119_false_noticed: the same sixteen floats are undefined behaviour on the portable kernels and get ordinary parameters on SSE4.2'),
'C120':('proved','Generalises C25_roundtrip_partial to SSE4.2 with large blocks and to data with NaN, infinities and outliers among the elements that do not count'),
}
json.dump(S,open('/verif/tools/status.json','w'),ensure_ascii=False)
