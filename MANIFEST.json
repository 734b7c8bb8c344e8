{
 "claims": [
  {
   "property": "C01",
   "status": "proved",
   "theorems": [
    "Verif.Props.C01_split_tiles",
    "Verif.Props.C01_split_byte_aligned",
    "Verif.Props.C01_quantize_tiles",
    "Verif.Props.C01_dequantize_tiles",
    "Verif.Props.C01_fused_tiles"
   ],
   "note": "All numel, thread counts >= 1, dtype pairs; byte alignment of packed slices included; at API level every execution of a call stays in its slices and touches every byte."
  },
  {
   "property": "C02",
   "status": "proved",
   "theorems": [
    "Verif.Props.C02_quantize_no_shared_byte",
    "Verif.Props.C02_dequantize_no_shared_byte",
    "Verif.Props.C02_fused_no_shared_byte"
   ],
   "note": "Stated on execution traces of every schedule: no output byte is accessed by two different workers."
  },
  {
   "property": "C03",
   "status": "proved",
   "theorems": [
    "Verif.Props.C03_quantize_schedule_independent",
    "Verif.Props.C03_dequantize_schedule_independent",
    "Verif.Props.C03_fused_schedule_independent"
   ],
   "note": "Every interleaving at single-byte granularity; result equals sequential execution; bounded termination; faults coincide."
  },
  {
   "property": "C04",
   "status": "proved",
   "theorems": [
    "Verif.Props.C04_quantize_writes_exactly_span"
   ],
   "note": ""
  },
  {
   "property": "C05",
   "status": "proved",
   "theorems": [
    "Verif.Props.C05_packing_layout"
   ],
   "note": "Also for NaN/inf inputs (only scalar UB is excused)."
  },
  {
   "property": "C06",
   "status": "proved",
   "theorems": [
    "Verif.Props.C06_nearest_formula",
    "Verif.Props.C06_portable_any_data"
   ],
   "note": "Second theorem: on the portable kernels, whatever the data, if a call completes then no element overflowed and the formula holds."
  },
  {
   "property": "C07",
   "status": "proved",
   "theorems": [
    "Verif.Props.C07_vector_nearest",
    "Verif.Props.C07_vector_nearest_any_zp",
    "Verif.Props.C07_exception_occurs"
   ],
   "note": "The exceptional value really occurs (C07_exception_occurs)."
  },
  {
   "property": "C08",
   "status": "partial",
   "theorems": [
    "Verif.Props.C08_nearest_independent_partial",
    "Verif.Props.C08_false_depends_on_threads_and_cpu",
    "Verif.Props.C08_false_depends_on_alignment"
   ],
   "note": "False as stated: C08_false_depends_on_threads_and_cpu and C08_false_depends_on_alignment (scaled value 0x3effffff). Proved with that value excluded and |zp| <= 2^22; for every int32 zero point see C98_independent_partial (odd scaled values in [2^23, 2^24) excluded as well), and without exclusions two calls differ by at most one code (C98_two_calls_within_one)."
  },
  {
   "property": "C09",
   "status": "partial",
   "theorems": [
    "Verif.Props.C09_dequantize_f32_formula",
    "Verif.Props.C09_dequantize_bf16_formula",
    "Verif.Props.C09_dequantize_bf16_any_kernel_partial",
    "Verif.Props.C09_dequantize_bf16_avx512_error"
   ],
   "note": "f32: proved for all kernels. bf16: proved for all kernels but AVX512, where uint4/uint2 use an FMA (real difference, see C36) and the BF16 instruction flushes denormals; there a weaker formula and an error bound are proved. uint2->f32 needs one readable byte behind the input span (C11)."
  },
  {
   "property": "C10",
   "status": "partial",
   "theorems": [
    "Verif.Props.C10_add_f32_partial",
    "Verif.Props.C10_add_f32_uniform_partial",
    "Verif.Props.C10_false_uint2_tail",
    "Verif.Props.C10_false_witness",
    "Verif.Props.C10_add_bf16"
   ],
   "note": "False for the uint2->f32 tail (C10_false_uint2_tail: overwritten for every input, C10_false_witness). Proved for every other element and dtype, bf16 with the two rounding orders that the kernels use. Whether the compiler contracts product and sum is a parameter of the model; in builds that treat all sums alike there is one formula (C10_add_f32_uniform_partial)."
  },
  {
   "property": "C11",
   "status": "partial",
   "theorems": [
    "Verif.Props.C11_false_uint2_reads_past_input",
    "Verif.Props.C11_dequantize_in_spans_partial",
    "Verif.Props.C11_fused_in_spans"
   ],
   "note": "False: C11_false_uint2_reads_past_input (every numel divisible by 4, every schedule). Proved for all other dtypes/sizes."
  },
  {
   "property": "C12",
   "status": "proved",
   "theorems": [
    "Verif.Props.C12_packing_lossless",
    "Verif.Props.C12_packing_lossless_any_kernel"
   ],
   "note": "Each packed code equals the code obtained by quantizing that single element alone (portable kernels, stochastic, f32->uint2; the theorem C12_packing_lossless_any_kernel covers every kernel, mode and dtype pair, its exceptional value excluded)."
  },
  {
   "property": "C13",
   "status": "proved",
   "theorems": [
    "Verif.Props.C13_requantize_identity",
    "Verif.Props.C13_false_huge_scale"
   ],
   "note": "False beyond 2^119 (C13_false_huge_scale)."
  },
  {
   "property": "C14",
   "status": "partial",
   "theorems": [
    "Verif.Props.C14_monotone_partial",
    "Verif.Props.C14_false_on_vector_kernels"
   ],
   "note": "False on vector kernels (C14_false_on_vector_kernels: equal inputs get different codes in vector loop and tail). Proved for exact kernels, and for vector kernels with the exceptional value excluded."
  },
  {
   "property": "C15",
   "status": "partial",
   "theorems": [
    "Verif.Props.C15_saturates_partial",
    "Verif.Props.C15_false_large_values_give_zero",
    "Verif.Props.C15_false_portable_undefined"
   ],
   "note": "False: scaled values >= 2^31 give code 0 on vector kernels (C15_false_large_values_give_zero) and undefined behaviour on portable ones. Proved below that."
  },
  {
   "property": "C16",
   "status": "proved",
   "theorems": [
    "Verif.Props.C16_nearest_error"
   ],
   "note": ""
  },
  {
   "property": "C17",
   "status": "proved",
   "theorems": [
    "Verif.Props.C17_stochastic_neighbours",
    "Verif.Props.C17_stochastic_neighbours_any_history"
   ],
   "note": "Hypotheses: scaled value finite and at most 2^62 in magnitude (beyond that the C++ cast is undefined)."
  },
  {
   "property": "C18",
   "status": "proved",
   "theorems": [
    "Verif.Props.C18_stochastic_mean",
    "Verif.Props.C18_uniform_expectation",
    "Verif.Props.C18_generator_mean"
   ],
   "note": "Mean over N near-uniform thresholds within eps+1/N at API level for all completed executions; exact Lebesgue expectation of the rounding rule that C17 proves of the API."
  },
  {
   "property": "C19",
   "status": "proved",
   "theorems": [
    "Verif.Props.C19_equal_inputs_equal_codes"
   ],
   "note": ""
  },
  {
   "property": "C20",
   "status": "proved",
   "theorems": [
    "Verif.Props.C20_zero_point_in_range",
    "Verif.Props.C20_aborts_or_returns",
    "Verif.Props.C20_infinities"
   ],
   "note": "C20_infinities shows what happens with infinities."
  },
  {
   "property": "C21",
   "status": "partial",
   "theorems": [
    "Verif.Props.C21_scale_positive_partial",
    "Verif.Props.C21_tiny_range_scale_zero",
    "Verif.Props.C21_scale_finite",
    "Verif.Props.C21_false_sse42"
   ],
   "note": "Proved when a least and a greatest element are among those the search looks at: always, but on SSE4.2, where the claim is false (C21_false_sse42). On every kernel the scale is finite and not negative (C21_scale_finite). The range condition is needed: C21_tiny_range_scale_zero."
  },
  {
   "property": "C22",
   "status": "partial",
   "theorems": [
    "Verif.Props.C22_true_range_partial",
    "Verif.Props.C22_false_sse42",
    "Verif.Props.C22_subrange",
    "Verif.Props.C22_exact_every_kernel",
    "Verif.Props.C22_false_whenever_unseen"
   ],
   "note": "False on SSE4.2 (C22_false_sse42, C22_false_whenever_unseen). Proved for every other kernel and for SSE4.2 with small blocks (sees_small) or extremes among the elements it looks at (C22_true_range_partial); C22_exact_every_kernel gives the exact result on every kernel, SSE4.2 included, and says which elements count."
  },
  {
   "property": "C23",
   "status": "proved",
   "theorems": [
    "Verif.Props.C23_constant_data"
   ],
   "note": ""
  },
  {
   "property": "C24",
   "status": "proved",
   "theorems": [
    "Verif.Props.C24_empty_aborts",
    "Verif.Props.C24_all_nan_aborts",
    "Verif.Props.C24_false_empty_block"
   ],
   "note": "Non-empty blocks; an empty block callback would contribute {0,0} (C24_false_empty_block)."
  },
  {
   "property": "C25",
   "status": "partial",
   "theorems": [
    "Verif.Props.C25_false_sse42",
    "Verif.Props.C25_roundtrip_partial"
   ],
   "note": "Proved for all data whose least and greatest elements are among those the search looks at: always, but on SSE4.2, where the claim is false (C25_false_sse42)."
  },
  {
   "property": "C26",
   "status": "partial",
   "theorems": [
    "Verif.Props.C26_false_offset_data"
   ],
   "note": "False: C26_false_offset_data (data in [100,101] comes back as 1.0). The strongest conditional bounds are C25 and C44."
  },
  {
   "property": "C27",
   "status": "partial",
   "theorems": [
    "Verif.Props.C27_quantize_accepts_iff",
    "Verif.Props.C27_dequantize_accepts_iff",
    "Verif.Props.C27_fused_accepts_iff",
    "Verif.Props.C27_quantize_no_late_abort",
    "Verif.Props.C27_dequantize_no_late_abort",
    "Verif.Props.C27_fused_no_late_abort",
    "Verif.Props.C27_false_capi_quantize_float_target",
    "Verif.Props.C27_false_capi_dequantize_float_source",
    "Verif.Props.C27_capi_quantize_rejects_partial",
    "Verif.Props.C27_capi_dequantize_rejects_partial"
   ],
   "note": "C++ API: exact acceptance conditions. C API with a float dtype in the quantized position: integer division by zero instead of an assertion (C27_false_*)."
  },
  {
   "property": "C28",
   "status": "proved",
   "theorems": [
    "Verif.Props.C28_capi_quantize",
    "Verif.Props.C28_capi_dequantize"
   ],
   "note": ""
  },
  {
   "property": "C29",
   "status": "proved",
   "theorems": [
    "Verif.Props.C29_bf16_nearest_even",
    "Verif.Props.C29_bf16_infinity",
    "Verif.Props.C29_bf16_nan",
    "Verif.Props.C29_bf16_roundtrip"
   ],
   "note": ""
  },
  {
   "property": "C30",
   "status": "partial",
   "theorems": [
    "Verif.Props.C30_false_nan_becomes_number",
    "Verif.Props.C30_false_denormal_flushed",
    "Verif.Props.C30_vector_conversion_partial"
   ],
   "note": "False for two NaN patterns (AVX512F) and for denormals (AVX512_BF16). Proved for all other floats."
  },
  {
   "property": "C31",
   "status": "partial",
   "theorems": [
    "Verif.Props.C31_false_avx512bw_unchecked",
    "Verif.Props.C31_selected_supported_partial",
    "Verif.Props.C31_supported_with_bw_partial",
    "Verif.Props.C31_avx2_selected_only_if_supported"
   ],
   "note": "False: AVX512BW is compiled in but not checked (C31_false_avx512bw_unchecked). Everything else proved."
  },
  {
   "property": "C32",
   "status": "partial",
   "theorems": [
    "Verif.Props.C32_fused_f32_formula",
    "Verif.Props.C32_fused_equals_two_calls_partial",
    "Verif.Props.C32_false_bf16",
    "Verif.Props.C32_false_contraction"
   ],
   "note": "False for bf16 (C32_false_bf16). Also false for ADD when the compiler contracts the sums of only one of the two codes (C32_false_contraction, what Clang does). Proved for f32 with the exceptional scaled value excluded and equal contraction."
  },
  {
   "property": "C33",
   "status": "partial",
   "theorems": [
    "Verif.Props.C33_zero_threads_writes_nothing",
    "Verif.Props.C33_positive_threads_write_partial"
   ],
   "note": "False for 0 threads (C33_zero_threads_writes_nothing). Proved for >= 1."
  },
  {
   "property": "C34",
   "status": "partial",
   "theorems": [
    "Verif.Props.C34_zero_point_partial",
    "Verif.Props.C34_false_zero_point_truncated"
   ],
   "note": "False outside int32 (C34_false_zero_point_truncated). Proved inside."
  },
  {
   "property": "C35",
   "status": "proved",
   "theorems": [
    "Verif.Props.C35_streaming_stores_aligned"
   ],
   "note": ""
  },
  {
   "property": "C36",
   "status": "partial",
   "theorems": [
    "Verif.Props.C36_dequantize_zero_f32",
    "Verif.Props.C36_dequantize_zero_bf16_partial",
    "Verif.Props.C36_false_avx512_uint4_bf16",
    "Verif.Props.C36_quantize_zero"
   ],
   "note": "Dequantization: false on AVX512 uint4->bf16 (C36_false_avx512_uint4_bf16); proved elsewhere. Quantization of zero proved."
  },
  {
   "property": "C37",
   "status": "proved",
   "theorems": [
    "Verif.Props.C37_split_independent",
    "Verif.Props.C37_sse42_split_matters"
   ],
   "note": "The restriction on SSE4.2 is needed (C37_sse42_split_matters)."
  },
  {
   "property": "C38",
   "status": "proved",
   "theorems": [
    "Verif.Props.C38_dequantize_set_overwrites",
    "Verif.Props.C38_fused_set_overwrites",
    "Verif.Props.C38_quantize_idempotent",
    "Verif.Props.C38_dequantize_idempotent",
    "Verif.Props.C38_fused_idempotent"
   ],
   "note": ""
  },
  {
   "property": "C39",
   "status": "partial",
   "theorems": [
    "Verif.Props.C39_false_stride",
    "Verif.Props.C39_false_piquant_to_torch",
    "Verif.Props.C39_dtype_helpers_partial"
   ],
   "note": "False: stride is 1 for f32/bf16 and 0 for uint2/uint4; piquant_to_torch_dtype always raises. What does hold is proved."
  },
  {
   "property": "C40",
   "status": "partial",
   "theorems": [
    "Verif.Props.C40_false_narrow_dtypes",
    "Verif.Props.C40_no_overread_partial",
    "Verif.Props.C40_false_float64_misread"
   ],
   "note": "False for torch dtypes narrower than 4 bytes other than bfloat16: out-of-bounds read on every kernel and split. Proved for the rest."
  },
  {
   "property": "C41",
   "status": "proved",
   "theorems": [
    "Verif.Props.C41_parameters_terminate",
    "Verif.Props.C41_quantize_terminates",
    "Verif.Props.C41_dequantize_terminates",
    "Verif.Props.C41_fused_terminates"
   ],
   "note": ""
  },
  {
   "property": "C42",
   "status": "proved",
   "theorems": [
    "Verif.Props.C42_dequantize_monotone"
   ],
   "note": ""
  },
  {
   "property": "C43",
   "status": "proved",
   "theorems": [
    "Verif.Props.C43_repeated_add",
    "Verif.Props.C43_repeated_add_plain"
   ],
   "note": "C43_repeated_add for every contraction choice of the compiler, C43_repeated_add_plain when there is none."
  },
  {
   "property": "C44",
   "status": "proved",
   "theorems": [
    "Verif.Props.C44_roundtrip_any_parameters"
   ],
   "note": ""
  },
  {
   "property": "C45",
   "status": "proved",
   "theorems": [
    "Verif.Props.C45_capi_quantize_overflow_aborts",
    "Verif.Props.C45_capi_dequantize_overflow_aborts"
   ],
   "note": ""
  },
  {
   "property": "C46",
   "status": "proved",
   "theorems": [
    "Verif.Props.C46_best_supported_selected"
   ],
   "note": ""
  },
  {
   "property": "C47",
   "status": "proved",
   "theorems": [
    "Verif.Props.C47_quantize_is_native_call",
    "Verif.Props.C47_dequantize_is_native_call",
    "Verif.Props.C47_quantize_rejects",
    "Verif.Props.C47_dequantize_rejects",
    "Verif.Props.C47_default_context_has_threads"
   ],
   "note": ""
  },
  {
   "property": "C48",
   "status": "partial",
   "theorems": [
    "Verif.Props.C48_set_independent_of_garbage_partial",
    "Verif.Props.C48_false_add_uses_garbage"
   ],
   "note": "False for reduce_op=add (adds into uninitialised memory); proved for set."
  },
  {
   "property": "C49",
   "status": "partial",
   "theorems": [
    "Verif.Props.C49_python_roundtrip_partial"
   ],
   "note": "SSE4.2 searches that miss an extreme (C22) and quint2x4 tensors with numel divisible by 4 (C11) excluded: false there."
  },
  {
   "property": "C50",
   "status": "proved",
   "theorems": [
    "Verif.Props.C50_concurrent_calls",
    "Verif.Props.C50_concurrent_requests",
    "Verif.Props.C50_concurrent_requests_defined"
   ],
   "note": "Output spans are assumed disjoint from each other and from the inputs of the other calls."
  },
  {
   "property": "C51",
   "status": "proved",
   "theorems": [
    "Verif.Props.C51_typed_quantize_accepts_iff",
    "Verif.Props.C51_typed_dequantize_accepts_iff",
    "Verif.Props.C51_typed_fused_accepts_iff",
    "Verif.Props.C51_typed_calls_are_byte_calls"
   ],
   "note": ""
  },
  {
   "property": "C52",
   "status": "partial",
   "theorems": [
    "Verif.Props.C52_limits_quantized",
    "Verif.Props.C52_limits_f32",
    "Verif.Props.C52_false_bf16_limits"
   ],
   "note": "False for bfloat16 (C52_false_bf16_limits: min 65280 > max 32640). Proved for the other types."
  },
  {
   "property": "C53",
   "status": "partial",
   "theorems": [
    "Verif.Props.C53_false_large_constant",
    "Verif.Props.C53_false_far_offset",
    "Verif.Props.C53_false_tiny_range",
    "Verif.Props.C53_computed_parameters_usable_partial"
   ],
   "note": "False for large constant data, uint8 data far from zero, and ranges whose scale underflows to 0 (C53_false_*). Proved for non-constant data with scale in [2^-126,2^126] and uint2/uint4 targets or data around zero."
  },
  {
   "property": "C54",
   "status": "proved",
   "theorems": [
    "Verif.Props.C54_fused_idempotent",
    "Verif.Props.C54_false_stochastic"
   ],
   "note": "Second call nearest, as stated. A stochastic second call can move grid values (C54_false_stochastic)."
  },
  {
   "property": "C55",
   "status": "proved",
   "theorems": [
    "Verif.Props.C55_fused_error",
    "Verif.Props.C55_fused_error_computed"
   ],
   "note": "Computed parameters: SSE4.2 large-block searches excluded (C22)."
  },
  {
   "property": "C56",
   "status": "proved",
   "theorems": [
    "Verif.Props.C56_stochastic_roundtrip",
    "Verif.Props.C56_stochastic_roundtrip_computed"
   ],
   "note": "Computed parameters: SSE4.2 large-block searches excluded (C22)."
  },
  {
   "property": "C57",
   "status": "partial",
   "theorems": [
    "Verif.Props.C57_bf16_requantize_partial",
    "Verif.Props.C57_false_uint8"
   ],
   "note": "False for uint8 codes more than 127 steps from the zero point (C57_false_uint8); proved for all others (all uint2/uint4), and off by at most one in the remaining cases."
  },
  {
   "property": "C58",
   "status": "proved",
   "theorems": [
    "Verif.Props.C58_roundtrip_bf16"
   ],
   "note": ""
  },
  {
   "property": "C59",
   "status": "proved",
   "theorems": [
    "Verif.Props.C59_bad_elements_isolated",
    "Verif.Props.C59_x86_code_of_bad_element",
    "Verif.Props.C59_neon_nan_is_zero_point",
    "Verif.Props.C59_occurs"
   ],
   "note": "Portable kernels and scalar tails: such an element is undefined behaviour (C15), so the statement is about executions that finish; C59_occurs shows vector calls with NaN, infinities and 1e10 that do finish."
  },
  {
   "property": "C60",
   "status": "proved",
   "theorems": [
    "Verif.Props.C60_nearest_is_closest"
   ],
   "note": "Holds on all kernels, including the vector kernels' deviation at the float just below one half."
  },
  {
   "property": "C61",
   "status": "proved",
   "theorems": [
    "Verif.Props.C61_quantize_balanced",
    "Verif.Props.C61_dequantize_balanced",
    "Verif.Props.C61_fused_balanced"
   ],
   "note": "All three calls."
  },
  {
   "property": "C62",
   "status": "partial",
   "theorems": [
    "Verif.Props.C62_set_of_values_partial",
    "Verif.Props.C62_permutation_partial",
    "Verif.Props.C62_interior_data_partial",
    "Verif.Props.C62_scale_monotone_partial",
    "Verif.Props.C62_scale_accurate_partial",
    "Verif.Props.C62_false_sse42"
   ],
   "note": "True for data whose least and greatest elements are among those the search looks at: always, but on SSE4.2 with blocks of 16 or more floats, where lanes are dropped and a permutation changes the result (C62_false_sse42)."
  },
  {
   "property": "C63",
   "status": "partial",
   "theorems": [
    "Verif.Props.C63_roundtrip_any_offset_partial",
    "Verif.Props.C63_offset_is_lost"
   ],
   "note": "The full claim (error at most about scale/2 wherever the data lies) is false: C63_offset_is_lost. The error actually incurred is bounded in C63_roundtrip_any_offset_partial."
  },
  {
   "property": "C64",
   "status": "partial",
   "theorems": [
    "Verif.Props.C64_readme_workflow_partial",
    "Verif.Props.C64_false_readme_assertion"
   ],
   "note": "False on every kernel and thread count for the tensor [0, 151/256, 197/256] (C64_false_readme_assertion: the bfloat16 rounding of the output alone may cost 1/512). The workflow does succeed and stays within scale/2 + scale/512 + 1/512 when the minimum is at most half a step."
  },
  {
   "property": "C65",
   "status": "proved",
   "theorems": [
    "Verif.Props.C65_bf16_arithmetic_is_ieee",
    "Verif.Props.C65_bf16_correctly_rounded"
   ],
   "note": "Each operator equals the single-rounding IEEE operation on the two bfloat16 values (C65_bf16_arithmetic_is_ieee), and that result is a nearest bfloat16 with ties to even and the standard overflow threshold (C65_bf16_correctly_rounded). NaN results are the one canonical NaN of the model."
  },
  {
   "property": "C66",
   "status": "partial",
   "theorems": [
    "Verif.Props.C66_bf16_equality_partial",
    "Verif.Props.C66_false_zero_and_nan"
   ],
   "note": "Proved for all pairs that are not NaN and not two zeros of different sign; false there (C66_false_zero_and_nan): operator== compares the bits, so 0 != -0 and NaN == NaN."
  },
  {
   "property": "C67",
   "status": "partial",
   "theorems": [
    "Verif.Props.C67_quantize_selection_partial",
    "Verif.Props.C67_quantize_selection_any_data_partial",
    "Verif.Props.C67_quantize_in_pieces_partial",
    "Verif.Props.C67_dequantize_selection",
    "Verif.Props.C67_false_vector_tail"
   ],
   "note": "Proved for all defined data whose scaled value is not exactly plus or minus the float below one half, and for any data on scalar code paths; float32 dequantization in full. False on x86 vector kernels at that value (C67_false_vector_tail): the code depends on whether the element falls in the vector body or the scalar tail."
  },
  {
   "property": "C68",
   "status": "proved",
   "theorems": [
    "Verif.Props.C68_generator_is_mt19937_64",
    "Verif.Props.C68_each_thread_has_its_own_stream",
    "Verif.Props.C68_threshold_in_unit_interval",
    "Verif.Props.C68_tempering_bijective"
   ],
   "note": "The seed returned by std::random_device is a parameter. The engine follows the C++ standard; generate_canonical and uniform_real_distribution follow libstdc++."
  },
  {
   "property": "C69",
   "status": "proved",
   "theorems": [
    "Verif.Props.C69_any_program",
    "Verif.Props.C69_any_program_defined",
    "Verif.Props.C69_reproducible"
   ],
   "note": "A call's input must not be written while the call runs (no aliasing). Undefined behaviour of a scalar float-to-int conversion is the only fault that can occur, and it cannot if each thread alone has a defined run (C69_any_program_defined)."
  },
  {
   "property": "C70",
   "status": "partial",
   "theorems": [
    "Verif.Props.C70_dequantize_f32_same",
    "Verif.Props.C70_dequantize_add_f32_same_partial",
    "Verif.Props.C70_dequantize_bf16_same_partial",
    "Verif.Props.C70_false_partial_contraction",
    "Verif.Props.C70_false_avx512_bf16"
   ],
   "note": "f32 SET proved. f32 ADD is false in builds where the compiler contracts only some of the sums (C70_false_partial_contraction), proved otherwise. bf16 is false between AVX-512 and other kernels (C70_false_avx512_bf16), proved without AVX-512."
  },
  {
   "property": "C71",
   "status": "proved",
   "theorems": [
    "Verif.Props.C71_quantize_mirror",
    "Verif.Props.C71_dequantize_mirror"
   ],
   "note": "Both directions; nearest and stochastic, pairs of arbitrary configurations."
  },
  {
   "property": "C72",
   "status": "proved",
   "theorems": [
    "Verif.Props.C72_quantize_shift",
    "Verif.Props.C72_dequantize_shift"
   ],
   "note": "A code of 0 shifted up (or 2^bits-1 shifted down) may have lost information by saturation and is excluded; all others are covered, both directions."
  },
  {
   "property": "C73",
   "status": "proved",
   "theorems": [
    "Verif.Props.C73_quantize_units",
    "Verif.Props.C73_dequantize_units"
   ],
   "note": "The reciprocal of the scale is exactly scaled too (no subnormal intermediate in the stated range)."
  },
  {
   "property": "C74",
   "status": "partial",
   "theorems": [
    "Verif.Props.C74_constant_roundtrip",
    "Verif.Props.C74_constant_integer_partial",
    "Verif.Props.C74_false_small",
    "Verif.Props.C74_false_large"
   ],
   "note": "False as stated: scale 1 and the middle code are returned for every constant, so every |v| below one half becomes 0 and every v in [2^bits, 2^30] becomes 2^bits-1-mid (C74_false_small, C74_false_large, for every configuration). Proved: the exact result for every |v| <= 2^30 (nearest integer, clamped), and exact survival of the integers in [-mid, 2^bits-1-mid]."
  },
  {
   "property": "C75",
   "status": "partial",
   "theorems": [
    "Verif.Props.C75_destroyed_at_most_once",
    "Verif.Props.C75_all_destroyed_at_exit",
    "Verif.Props.C75_no_use_after_destroy_partial",
    "Verif.Props.C75_quiet_exit_partial",
    "Verif.Props.C75_false_copy",
    "Verif.Props.C75_false_exit_in_progress",
    "Verif.Props.C75_false_exit_later"
   ],
   "note": "Proved for every history: at most once, after creation, all destroyed at exit. No use after destruction: proved without copies and for an exit when all calls have returned; false for copy.copy(context) and for calls overlapping or following the exit handlers (C75_false_copy, C75_false_exit_in_progress, C75_false_exit_later)."
  },
  {
   "property": "C76",
   "status": "proved",
   "theorems": [
    "Verif.Props.C76_reduction_error"
   ],
   "note": "uint2 needs numel%4=0 and one readable byte past the input; scales in [2^-126,2^119]; peers' data in range of their parameters, or parameters computed on data around zero."
  },
  {
   "property": "C77",
   "status": "proved",
   "theorems": [
    "Verif.Props.C77_extreme_codes",
    "Verif.Props.C77_sharp"
   ],
   "note": "SSE4.2 search excluded above its block size (C22); C77_sharp exhibits data whose extremes miss the extreme codes."
  },
  {
   "property": "C78",
   "status": "proved",
   "theorems": [
    "Verif.Props.C78_quantize_monotone_across_calls",
    "Verif.Props.C78_quantize_scale",
    "Verif.Props.C78_stochastic_threshold",
    "Verif.Props.C78_dequantize_scale"
   ],
   "note": "x86 nearest kernels: products equal to plus or minus the float below one half excluded, as in C71."
  },
  {
   "property": "C79",
   "status": "partial",
   "theorems": [
    "Verif.Props.C79_nearest_partial",
    "Verif.Props.C79_nearest_close",
    "Verif.Props.C79_stochastic_partial",
    "Verif.Props.C79_stochastic_bf16_partial",
    "Verif.Props.C79_false_bf16_stochastic",
    "Verif.Props.C79_uint2_reference_overruns"
   ],
   "note": "Proved: with nearest rounding the same bytes, except that on x86 vector kernels an element whose scaled value is exactly plus or minus the float below one half may differ (C07/C08), and then by one code (C79_nearest_close); float32 stochastic codes differ by at most one for every threshold and generator state; bf16 stochastic codes by at most two (scaled values up to 100). C79_false_bf16_stochastic: the reference multiplies in bf16 (operator* of bfp16_t), the library in float32, and a difference of two, outside the tests' tolerance, occurs. C79_uint2_reference_overruns: for uint2 the reference writes past its buffer (its tests are commented out)."
  },
  {
   "property": "C80",
   "status": "proved",
   "theorems": [
    "Verif.Props.C80_roundtrip",
    "Verif.Props.C80_accumulate",
    "Verif.Props.C80_fused"
   ],
   "note": "C80_roundtrip, C80_accumulate (uint2 tail excluded, false there: C10_false_uint2_tail), C80_fused. SSE4.2 searches with large blocks excluded (false there: C22)."
  },
  {
   "property": "C81",
   "status": "proved",
   "theorems": [
    "Verif.Props.C81_fused_bf16_formula",
    "Verif.Props.C81_roundtrip_bf16",
    "Verif.Props.C81_accumulate_bf16",
    "Verif.Props.C81_fused_bf16"
   ],
   "note": "C81_fused_bf16_formula, C81_roundtrip_bf16, C81_accumulate_bf16, C81_fused_bf16."
  },
  {
   "property": "C82",
   "status": "proved",
   "theorems": [
    "Verif.Props.C82_requantize_test",
    "Verif.Props.C82_dequantize_test",
    "Verif.Props.C82_false_one_sided"
   ],
   "note": "C82_requantize_test, C82_dequantize_test; C82_false_one_sided shows the sign condition is needed. SSE4.2 searches over large blocks excluded (C22)."
  },
  {
   "property": "C83",
   "status": "partial",
   "theorems": [
    "Verif.Props.C83_codes_agree",
    "Verif.Props.C83_codes_distinct",
    "Verif.Props.C83_raw_quantize_partial",
    "Verif.Props.C83_raw_dequantize_partial",
    "Verif.Props.C83_raw_params_partial",
    "Verif.Props.C83_false_illegal_dtype",
    "Verif.Props.C83_false_illegal_params",
    "Verif.Props.C83_false_illegal_mode",
    "Verif.Props.C83_false_illegal_op"
   ],
   "note": "Proved: the three lists of enumerators agree, codes are distinct and complete, and with legal codes the C call is the C++ call. The rejection of illegal codes is false: a type code >= 5 reads a descriptor outside dtype_infos, a mode/operation code >= 2 passes every check and makes the workers index the kernel table out of range (C83_false_*)."
  },
  {
   "property": "C84",
   "status": "partial",
   "theorems": [
    "Verif.Props.C84_quantize_fenced_partial",
    "Verif.Props.C84_quantize_unstreamed_partial",
    "Verif.Props.C84_quantize_bytes_partial",
    "Verif.Props.C84_quantize_edges_partial",
    "Verif.Props.C84_quantize_small_partial",
    "Verif.Props.C84_dequantize",
    "Verif.Props.C84_fused",
    "Verif.Props.C84_false_streamed",
    "Verif.Props.C84_false_nothing_visible",
    "Verif.Props.C84_false_example"
   ],
   "note": "No sfence is executed anywhere. Proved: whatever holds after every schedule with stores visible at once is what the caller sees, for dequantize and fused calls and for quantize kernels without non-temporal stores with any kind of report, and for all kernels if the thread pool reports finished tasks by a fence or locked instruction (the pool is not in the repository). False for the streaming uint8 kernels when a task is reported by an ordinary store: the call can return while the caller still sees the whole old buffer (C84_false_*)."
  },
  {
   "property": "C85",
   "status": "partial",
   "theorems": [
    "Verif.Props.C85_params_test",
    "Verif.Props.C85_roundtrip_test_partial",
    "Verif.Props.C85_false_bf16",
    "Verif.Props.C85_half_even_partial",
    "Verif.Props.C85_half_even_within_one",
    "Verif.Props.C85_false_tie"
   ],
   "note": "FALSE for bfloat16 tensors (C85_false_bf16) and at ties (C85_false_tie). Proved: the parameter assertions (C85_params_test), the float32 round trip with a tighter tolerance (C85_roundtrip_test_partial) and agreement with half-to-even rounding away from ties (C85_half_even_partial). Missing: quint2x4 with numel % 4 == 0 (C11), SSE4.2 searches that miss an extreme (C22), one-sided data (C26)."
  },
  {
   "property": "C86",
   "status": "proved",
   "theorems": [
    "Verif.Props.C86_dequantize_f32",
    "Verif.Props.C86_dequantize_f32_one_rounding",
    "Verif.Props.C86_dequantize_add_f32",
    "Verif.Props.C86_dequantize_bf16",
    "Verif.Props.C86_dequantize_bf16_plain",
    "Verif.Props.C86_dequantize_add_bf16",
    "Verif.Props.C86_quantize",
    "Verif.Props.C86_quantize_nearest",
    "Verif.Props.C86_arithmetic",
    "Verif.Props.C86_comparisons",
    "Verif.Props.C86_conversions",
    "Verif.Props.C86_rounding_unique",
    "Verif.Props.C86_results_unique",
    "Verif.Props.C86_bf16_operators",
    "Verif.Props.C86_parameters",
    "Verif.Props.C86_fused_f32",
    "Verif.Props.C86_fused_bf16"
   ],
   "note": "SpecIeee.lean defines the encodings, rounding and operations of IEEE 754-2008 independently; every operation of Model/Fp.lean is proved to satisfy it (C86_arithmetic, C86_comparisons, C86_conversions), the specification is proved to determine results (C86_rounding_unique, C86_results_unique), and the value theorems of quantize, dequantize (SET and ADD, float32 and bf16, every kernel set), of the fused call and of the parameter computation are restated on bit patterns."
  },
  {
   "property": "C87",
   "status": "partial",
   "theorems": [
    "Verif.Props.C87_fused_in_place",
    "Verif.Props.C87_fused_overlap_one_thread",
    "Verif.Props.C87_quantize_overlap_one_thread",
    "Verif.Props.C87_dequantize_expand_one_thread",
    "Verif.Props.C87_false_output_behind",
    "Verif.Props.C87_false_fused_two_threads",
    "Verif.Props.C87_false_quantize_two_threads",
    "Verif.Props.C87_false_dequantize_two_threads",
    "Verif.Props.C87_false_dequantize_front"
   ],
   "note": "True for the fused call in place (every thread count and schedule) and, with one thread, for outputs before or beside the input, and for dequantizing codes that lie at the end of the output buffer. False otherwise: C87_false_output_behind, C87_false_dequantize_front, C87_false_dequantize_two_threads, C87_false_fused_two_threads, C87_false_quantize_two_threads. Overlap is formally undefined behaviour (restrict-qualified pointers); the theorems are about loops that load up to w elements ahead, for every w. Not covered: overlapping dequantize calls and the other quantize kernels."
  },
  {
   "property": "C88",
   "status": "partial",
   "theorems": [
    "Verif.Props.C88_nan_ignored_partial",
    "Verif.Props.C88_portable_partial",
    "Verif.Props.C88_some_numbers_partial",
    "Verif.Props.C88_false_avx2",
    "Verif.Props.C88_false_abort",
    "Verif.Props.C88_false_others"
   ],
   "note": "False of the vector kernels (C88_false_avx2, C88_false_abort, C88_false_others): MINPS/MAXPS return the second operand when one is NaN, so a NaN makes its lane forget what it has seen, or makes the call abort (NEON: the whole lane is lost or the call aborts). Proved: true on the portable kernels for all data, on all kernels if no NaN is among the elements examined by vector instructions (SSE4.2: blocks too small for the vector loop, because of C22); for all data and kernels, the parameters are those of the range between two of the numbers, or the call aborts."
  },
  {
   "property": "C89",
   "status": "partial",
   "theorems": [
    "Verif.Props.C89_minus_infinity_undefined_partial",
    "Verif.Props.C89_plus_infinity_scale_partial",
    "Verif.Props.C89_infinite_scale_codes",
    "Verif.Props.C89_infinite_scale_nan",
    "Verif.Props.C89_false_rejected"
   ],
   "note": "False in every such case (C89_false_rejected is an instance), and what happens is determined completely: an element -inf makes the conversion of the NaN zero point to an integer undefined (C89_minus_infinity_undefined_partial); otherwise +inf yields scale inf and zero point 0 (C89_plus_infinity_scale_partial), with which every finite element is quantized to code 0 (C89_infinite_scale_codes) and dequantized to NaN (C89_infinite_scale_nan). On SSE4.2 for blocks too small for the vector loop (C22). For tensors without infinities see C20."
  },
  {
   "property": "C90",
   "status": "proved",
   "theorems": [
    "Verif.Props.C90_loads_at_any_time",
    "Verif.Props.C90_fused_shared_input",
    "Verif.Props.C90_quantize_shared_input",
    "Verif.Props.C90_dequantize_shared_input"
   ],
   "note": "C90_loads_at_any_time is the general statement (simulation: a load from a span nobody writes commutes with everything); the three calls are instances. The vector kernels other than uint8 dequantization are modelled with the input loaded beforehand only, to which the general theorem applies."
  },
  {
   "property": "C91",
   "status": "proved",
   "theorems": [
    "Verif.Props.C91_covariance",
    "Verif.Props.C91_mean_squared_error",
    "Verif.Props.C91_generator_covariance",
    "Verif.Props.C91_nearest_never_worse",
    "Verif.Props.C91_uniform_covariance"
   ],
   "note": "Errors measured from the scaled value fl32(x * fl32(1/scale)); thresholds modelled as in C18/C68."
  },
  {
   "property": "C92",
   "status": "partial",
   "theorems": [
    "Verif.Props.C92_equal_elements_do_not_average_partial",
    "Verif.Props.C92_false_averages_out",
    "Verif.Props.C92_squared_error_of_sum_partial"
   ],
   "note": "False: for every size a tensor of 0.5s with scale 1 is missed by half a step in the mean by every call (C92_false_averages_out). Proved instead: the exact mean error for equal elements, and the squared error of the sum as the sum of the pairwise second moments of C91, which for data of one sign is at least that of independent errors."
  },
  {
   "property": "C93",
   "status": "partial",
   "theorems": [
    "Verif.Props.C93_false_all_codes_saturate",
    "Verif.Props.C93_round_trip_constant_partial"
   ],
   "note": "False: every code is 15 (C93_false_all_codes_saturate) and the round trip replaces every element by -22.375 (C93_round_trip_constant_partial); no fault occurs."
  },
  {
   "property": "C94",
   "status": "partial",
   "theorems": [
    "Verif.Props.C94_comparison_passes_partial",
    "Verif.Props.C94_false_uint2"
   ],
   "note": "Proved for uint8 and uint4 (every tensor whose scaled values fit in 32 bits). False for uint2 (C94_false_uint2: 0, 0.125, 0.75). torch itself is not modelled: it is represented by the formula with rounding half to even."
  },
  {
   "property": "C95",
   "status": "partial",
   "theorems": [
    "Verif.Props.C95_codes_survive_new_parameters_partial",
    "Verif.Props.C95_codes_survive_bf16_partial",
    "Verif.Props.C95_false_unused_extremes"
   ],
   "note": "True for float32 tensors in which both extreme codes occur (zero point exactly equal, scale within 2^-15), and for uint4/uint2 through bf16 with an interior zero point. False otherwise: C95_false_unused_extremes (codes 0,1,2 become 0,7,15 and the value 1 becomes 0.93)."
  },
  {
   "property": "C96",
   "status": "proved",
   "theorems": [
    "Verif.Props.C96_quantize_retry",
    "Verif.Props.C96_dequantize_retry",
    "Verif.Props.C96_fused_retry",
    "Verif.Props.C96_false_add",
    "Verif.Props.C96_add_retry_counts_twice"
   ],
   "note": "SpecCrash.During is any prefix of any interleaving. C96_false_add shows why ADD is excluded."
  },
  {
   "property": "C97",
   "status": "proved",
   "theorems": [
    "Verif.Props.C97_quantize_bytes_settle",
    "Verif.Props.C97_quantize_codes_old_or_result",
    "Verif.Props.C97_dequantize_bytes_settle",
    "Verif.Props.C97_fused_bytes_settle",
    "Verif.Props.C97_false_last_byte"
   ],
   "note": "C97_false_last_byte exhibits the transient byte 0x88 (before 0xAB, after 0x08)."
  },
  {
   "property": "C98",
   "status": "partial",
   "theorems": [
    "Verif.Props.C98_code_any_zero_point",
    "Verif.Props.C98_within_one",
    "Verif.Props.C98_independent_partial",
    "Verif.Props.C98_two_calls_within_one",
    "Verif.Props.C98_grid_values_partial",
    "Verif.Props.C98_false_grid_value_moves"
   ],
   "note": "False on x86 vector kernels: adding one half to an odd integer in [2^23, 2^24) rounds to the next even integer (C98_false_grid_value_moves: 8388609 with zero point -8388604 gets code 6, portable kernels 5). C98_code_any_zero_point determines every code of every kernel for every zero point, C98_within_one bounds the deviation by one code, C98_independent_partial (the claim of C08 for every int32 zero point) and C98_two_calls_within_one compare calls; C98_grid_values_partial is the claim with odd |k| in [2^23, 2^24) excluded on those kernels."
  },
  {
   "property": "C99",
   "status": "proved",
   "theorems": [
    "Verif.Props.C99_roundtrip_far_zero_point",
    "Verif.Props.C99_fused_far_zero_point",
    "Verif.Props.C99_any_offset",
    "Verif.Props.C99_requantize_identity",
    "Verif.Props.C99_bound_needed"
   ],
   "note": "C99_bound_needed shows why the zero point must be bounded (it is not a claim of the property)."
  },
  {
   "property": "C100",
   "status": "proved",
   "theorems": [
    "Verif.Props.C100_ring_error",
    "Verif.Props.C100_allreduce"
   ],
   "note": ""
  },
  {
   "property": "C101",
   "status": "proved",
   "theorems": [
    "Verif.Props.C101_add_bf16_error",
    "Verif.Props.C101_reduction_bf16",
    "Verif.Props.C101_stagnates"
   ],
   "note": "C101_add_bf16_error bounds one addition on all kernels, C101_reduction_bf16 a whole reduction (any number of peers, chosen or computed parameters), C101_stagnates shows that errors do accumulate."
  },
  {
   "property": "C102",
   "status": "proved",
   "theorems": [
    "Verif.Props.C102_ring_computed",
    "Verif.Props.C102_allreduce_computed"
   ],
   "note": "C102_ring_computed and C102_allreduce_computed; no hypothesis about scale or zero point is left. Mixed signs are needed because computed parameters do not cover one-sided data (C26, C53, C63); SSE4.2 searches with small blocks only (C22)."
  },
  {
   "property": "C103",
   "status": "proved",
   "theorems": [
    "Verif.Props.C103_quantize_traffic",
    "Verif.Props.C103_dequantize_traffic",
    "Verif.Props.C103_fused_traffic",
    "Verif.Props.C103_odd_uint4_exception"
   ],
   "note": "C103_quantize_traffic, C103_dequantize_traffic, C103_fused_traffic; C103_odd_uint4_exception exhibits the exception. Accesses are counted in bytes (a vector store is a sequence of byte stores). For ADD it is not claimed that every byte is written (it is accessed: C01)."
  },
  {
   "property": "C104",
   "status": "proved",
   "theorems": [
    "Verif.Props.C104_negated_params",
    "Verif.Props.C104_mirror_sharp",
    "Verif.Props.C104_rescaled_params",
    "Verif.Props.C104_rescaled_workflow"
   ],
   "note": "C104_negated_params, C104_mirror_sharp (deviation one is attained), C104_rescaled_params, C104_rescaled_workflow."
  },
  {
   "property": "C105",
   "status": "proved",
   "theorems": [
    "Verif.Props.C105_sign_kept",
    "Verif.Props.C105_order_kept",
    "Verif.Props.C105_order_kept_bf16",
    "Verif.Props.C105_margin_needed"
   ],
   "note": "C105_sign_kept, C105_order_kept, C105_order_kept_bf16 (bfloat16 results), C105_margin_needed (1.875 steps apart, same code, stochastic; 0.9375 steps, nearest)."
  },
  {
   "property": "C106",
   "status": "proved",
   "theorems": [
    "Verif.Props.C106_clipped_roundtrip",
    "Verif.Props.C106_clipped_roundtrip_bf16",
    "Verif.Props.C106_clipped_fused",
    "Verif.Props.C106_calibrated"
   ],
   "note": "Both modes, all kernels, two calls (float32 or bfloat16 output) and fused (float32); calibration needs the extremes of the calibration tensor to be seen (C22)."
  },
  {
   "property": "C107",
   "status": "proved",
   "theorems": [
    "Verif.Props.C107_weighted_sum",
    "Verif.Props.C107_distance",
    "Verif.Props.C107_dot_product"
   ],
   "note": "Corollaries of C80 for sums over the tensor; the arithmetic of the sum itself is the user's and taken as exact."
  },
  {
   "property": "C108",
   "status": "partial",
   "theorems": [
    "Verif.Props.C108_unusable_scale_undefined_partial",
    "Verif.Props.C108_unusable_scale_x86_partial",
    "Verif.Props.C108_negative_scale_quantize_partial",
    "Verif.Props.C108_negative_scale_dequantize_partial",
    "Verif.Props.C108_false_rejected"
   ],
   "note": "False (`C108_false_rejected`): there is no check in any of the three calls; only compute_quant_config asserts scale >= 0. Proved instead: what the calls do. Zero or NaN scale: undefined behaviour for every element in the scalar kernels, one constant code in the x86 vector kernels whatever the data. Negative scale: quantize gives the codes of the negated tensor, dequantize the negated values. Infinite scale: C89."
  },
  {
   "property": "C109",
   "status": "proved",
   "theorems": [
    "Verif.Props.C109_chain",
    "Verif.Props.C109_chain_covered"
   ],
   "note": "Every stage must be able to take values of the data's size (2^29 steps)."
  },
  {
   "property": "C110",
   "status": "proved",
   "theorems": [
    "Verif.Props.C110_error_feedback"
   ],
   "note": "The two elementwise float32 operations of the sender are IEEE operations outside the library."
  },
  {
   "property": "C111",
   "status": "partial",
   "theorems": [
    "Verif.Props.C111_history_f32_partial",
    "Verif.Props.C111_replicas_f32_partial",
    "Verif.Props.C111_replicas_bf16_partial",
    "Verif.Props.C111_false_bf16",
    "Verif.Props.C111_false_partial_contraction"
   ],
   "note": "False for bfloat16 replicas of which one uses AVX-512 (C111_false_bf16) and for float32 replicas in builds that contract only some of the sums (C111_false_partial_contraction). Proved otherwise: float32 replicas on all kernels (C111_history_f32_partial gives the final value as a fold over the updates), bfloat16 replicas without AVX-512."
  },
  {
   "property": "C112",
   "status": "proved",
   "theorems": [
    "Verif.Props.C112_delta_tracking"
   ],
   "note": "uint2 only with element counts divisible by four (C10, C11). The sender's float32 subtraction is part of the statement."
  },
  {
   "property": "C113",
   "status": "proved",
   "theorems": [
    "Verif.Props.C113_recode",
    "Verif.Props.C113_recodings",
    "Verif.Props.C113_lossless"
   ],
   "note": "Through float32. Through bfloat16 uint8 codes far from the zero point move (C57)."
  },
  {
   "property": "C114",
   "status": "proved",
   "theorems": [
    "Verif.Props.C114_exact_sum_f32",
    "Verif.Props.C114_order_free_f32",
    "Verif.Props.C114_exact_sum_bf16",
    "Verif.Props.C114_order_free_bf16",
    "Verif.Props.C114_order_matters_off_grid",
    "Verif.Props.C114_bound_sharp"
   ],
   "note": "For the last n % 4 elements of uint2 tensors to float32 (overwritten, C10) the theorem requires n % 4 = 0. `C114_order_matters_off_grid` and `C114_bound_sharp` show that the hypotheses are needed. The value is compared, not the sign of a zero."
  },
  {
   "property": "C115",
   "status": "proved",
   "theorems": [
    "Verif.Props.C115_block_store",
    "Verif.Props.C115_block_no_worse"
   ],
   "note": "Parameters are computed again at the read (they are a function of the block's data and the kernel set). SSE4.2 parameter kernels under the condition `Sees` (C22)."
  },
  {
   "property": "C116",
   "status": "proved",
   "theorems": [
    "Verif.Props.C116_finished_calls",
    "Verif.Props.C116_fault_free",
    "Verif.Props.C116_faults",
    "Verif.Props.C116_same_part",
    "Verif.Props.C116_differ_iff",
    "Verif.Props.C116_address_matters"
   ],
   "note": "vector groups are described by Spec.groups/InGroups/Vectored in SpecVector.lean; C116_address_matters shows the same call defined at one address and faulting at the next"
  },
  {
   "property": "C117",
   "status": "proved",
   "theorems": [
    "Verif.Props.C117_float32",
    "Verif.Props.C117_bf16",
    "Verif.Props.C117_same_part_f32",
    "Verif.Props.C117_same_part_bf16"
   ],
   "note": "vector groups are described by Spec.dqGroup/InDqGroups/DqVectored in SpecVector.lean; the bf16 uint2 case is for |zero point| <= 2^24, where int to float conversion of the difference is exact"
  },
  {
   "property": "C118",
   "status": "proved",
   "theorems": [
    "Verif.Props.C118_stochastic_finished",
    "Verif.Props.C118_stochastic_fault_free",
    "Verif.Props.C118_stochastic_faults",
    "Verif.Props.C118_fused_f32_finished",
    "Verif.Props.C118_fused_f32_fault_free",
    "Verif.Props.C118_fused_bf16_finished",
    "Verif.Props.C118_fused_bf16_fault_free",
    "Verif.Props.C118_fused_faults",
    "Verif.Props.C118_stochastic_portable",
    "Verif.Props.C118_fused_iff_quantize"
   ],
   "note": "Spec.Ok64/FusedOk/code64 in SpecExact.lean; extends C17, C32_fused_f32_formula and C81 (which need moderate data and zero points) to all inputs, with the converse"
  },
  {
   "property": "C119",
   "status": "proved",
   "theorems": [
    "Verif.Props.C119_minus_infinity",
    "Verif.Props.C119_plus_infinity",
    "Verif.Props.C119_finite",
    "Verif.Props.C119_complete",
    "Verif.Props.C119_finite_scale_iff",
    "Verif.Props.C119_unseen_ignored",
    "Verif.Props.C119_kernel_independent",
    "Verif.Props.C119_false_noticed"
   ],
   "note": "Strengthens C22_exact_every_kernel (all data finite) and C89 (small blocks on SSE4.2). C119_false_noticed: the same sixteen floats are undefined behaviour on the portable kernels and get ordinary parameters on SSE4.2"
  },
  {
   "property": "C120",
   "status": "proved",
   "theorems": [
    "Verif.Props.C120_in_range_roundtrip",
    "Verif.Props.C120_counted_elements_roundtrip"
   ],
   "note": "Generalises C25_roundtrip_partial to SSE4.2 with large blocks and to data with NaN, infinities and outliers among the elements that do not count"
  }
 ]
}