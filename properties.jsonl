{"id": "C01", "title": "Work split tiles the tensor exactly", "statement": "For every element count, every thread count >= 1 and every supported dtype pair, the per-thread element ranges of quantize/dequantize/fused are consecutive, disjoint, and together are exactly [0, numel); no element is processed twice or skipped.", "quantifier": "all numel, all thread counts >= 1, all dtype pairs and command types (with numel*threads < 2^63)", "why_tests_cant": "The split depends on numel, thread count and packing factor; tests use 4 threads and a few sizes.", "anchors": ["src/piquant.cpp:context::pimpl::job_entry"]}
{"id": "C02", "title": "Workers never touch the same output byte", "statement": "During one quantize/dequantize/fused call, no output byte is written (or read in ADD mode) by two workers, including packed uint2/uint4 outputs where several elements share a byte.", "quantifier": "all numel, thread counts, dtype pairs, worker pairs", "why_tests_cant": "A data race shows up only for particular (numel, threads) pairs and only under unlucky timing.", "anchors": ["src/piquant.cpp:context::pimpl::job_entry", "src/kernels/kernels_specialized.inl", "src/kernels/quantize.inl", "src/kernels/dequantize.inl"]}
{"id": "C03", "title": "Every schedule of the workers yields the same result", "statement": "However the worker threads of one call are interleaved (byte by byte), the call terminates and the final output buffer is the same as running the workers one after another; a fault happens under some schedule only if it happens sequentially.", "quantifier": "all interleavings of all workers at single-byte-access granularity", "why_tests_cant": "The number of interleavings is astronomically large and the scheduler is not controllable from a unit test.", "anchors": ["src/piquant.cpp:context::pimpl::operator()", "src/piquant.cpp:context::pimpl::job_entry"]}
{"id": "C04", "title": "quantize writes exactly the output buffer", "statement": "A successful quantize call writes every byte of the output span (ceil(numel*bits/8) bytes) and never accesses memory outside the input and output spans.", "quantifier": "all numel, dtypes, threads, CPU variants, buffer addresses", "why_tests_cant": "Out-of-bounds behaviour depends on numel modulo vector widths and on pointer alignment.", "anchors": ["src/piquant.cpp:context::quantize", "src/kernels/quantize.inl", "src/kernels/kernels_specialized.inl"]}
{"id": "C05", "title": "Codes are in range and packed padding is zero", "statement": "Every stored code lies in [0, 2^bits-1], element i sits in byte i/(8/bits) at bit bits*(i mod (8/bits)), and the unused high bits of the last byte are zero.", "quantifier": "all inputs (including NaN/inf for vector lanes), all numel, all dtypes", "why_tests_cant": "Only a few tail sizes are tested.", "anchors": ["src/kernels/quantize.inl:quant_uint4", "src/kernels/quantize.inl:quant_uint2", "src/kernels/kernels_specialized.inl"]}
{"id": "C06", "title": "Nearest quantization formula (portable code path)", "statement": "With round_mode nearest, element i of the output is clamp(roundHalfAwayFromZero(fl32(x_i * fl32(1/scale))) + zero_point, 0, 2^bits-1), for every supported dtype pair on the portable kernels.", "quantifier": "all inputs whose scaled value fits the intermediate integer, all scales, zero points, numel, thread counts", "why_tests_cant": "Float rounding corner cases and tails cannot be enumerated.", "anchors": ["src/kernels/quantize.inl:quant_step_scalar_nearest", "src/kernels/kernels_specialized.inl"]}
{"id": "C07", "title": "Vectorised nearest quantization equals the formula up to one float per sign", "statement": "On every CPU kernel (SSE4.2, AVX2, AVX512F, AVX512F+BF16, NEON, portable) and for zero points of magnitude at most 2^22, each output code equals the portable formula for every element except where the scaled value is exactly +-0.49999997 (the float before one half), where it may be one step further from zero. For other 32-bit zero points the exceptions are that value and scaled values of magnitude in [2^23, 2^24).", "quantifier": "all inputs with in-range scaled value, all numel, alignments, thread counts, ISAs", "why_tests_cant": "Exceptional inputs are 2 of 2^32 floats; lane permutation mistakes show only at specific lanes.", "anchors": ["src/kernels/kernels_specialized.inl:quant_f32_to_uint8_nearest", "src/kernels/kernels_specialized.inl:quant_bf16_to_uint8_nearest", "src/kernels/kernels_specialized.inl:quant_f32_to_uint4_nearest", "src/kernels/kernels_specialized.inl:quant_bf16_to_uint4_nearest", "src/kernels/kernels_specialized.inl:quant_bf16_to_uint2_nearest"]}
{"id": "C08", "title": "Result of nearest quantization does not depend on thread count, buffer alignment or CPU", "statement": "For fixed inputs and parameters the output bytes of quantize(nearest) are identical for every thread count, every output address and every selected CPU kernel.", "quantifier": "all pairs of configurations, all inputs", "why_tests_cant": "Needs the cross product of configurations with all inputs.", "anchors": ["src/kernels/kernels_specialized.inl", "src/piquant.cpp:context::pimpl::operator()"]}
{"id": "C09", "title": "Dequantization SET formula", "statement": "dequantize with SET stores fl32((code_i - zero_point)*scale) (rounded to the output dtype) at index i, independent of previous output contents, for every quantized dtype and output dtype.", "quantifier": "all code buffers, scales, zero points, numel, thread counts, ISAs", "why_tests_cant": "Vector lane/unpack order errors depend on position modulo up to 256.", "anchors": ["src/kernels/dequantize.inl", "src/kernels/kernels_specialized.inl:dequant_uint8_to_f32", "src/kernels/kernels_specialized.inl:dequant_uint4_to_f32", "src/kernels/kernels_specialized.inl:dequant_uint4_to_bf16", "src/kernels/kernels_specialized.inl:dequant_uint2_to_bf16"]}
{"id": "C10", "title": "Dequantization ADD accumulates into every element", "statement": "dequantize with ADD stores old_i + dequant(code_i) for every i < numel (the product and the sum rounded separately, or in one rounding where the compiler contracts them).", "quantifier": "all dtypes, numel, ISAs, prior contents", "why_tests_cant": "A missed tail element depends on numel modulo the packing factor; the existing tests tolerate it.", "anchors": ["src/kernels/dequantize.inl:dequant_uint2", "src/kernels/dequantize.inl", "src/kernels/kernels_specialized.inl"]}
{"id": "C11", "title": "dequantize never reads or writes outside its spans", "statement": "For input and output spans accepted by dequantize, no access falls outside them.", "quantifier": "all numel, dtypes, threads, ISAs", "why_tests_cant": "A one-byte over-read is invisible without a guard page exactly after the buffer.", "anchors": ["src/kernels/dequantize.inl:dequant_uint2", "src/kernels/dequantize.inl", "src/kernels/kernels_specialized.inl"]}
{"id": "C12", "title": "Packing is lossless", "statement": "Reading element i back out of a packed buffer produced by quantize yields exactly the code computed for x_i (uint2, uint4, uint8), for every numel.", "quantifier": "all code sequences and lengths", "why_tests_cant": "Tail length and nibble order combinations.", "anchors": ["src/kernels/quantize.inl", "src/kernels/dequantize.inl"]}
{"id": "C13", "title": "Dequantize-then-quantize is the identity on codes", "statement": "For any positive normal scale up to 2^119 and any zero point in [0,2^bits-1], quantize(dequantize(q)) == q for every code q (f32, nearest).", "quantifier": "all codes, all normal scales (2^31 values), all zero points", "why_tests_cant": "2^31 scales x 256 codes x 256 zero points.", "anchors": ["src/kernels/quantize.inl:quant_step_scalar_nearest", "src/kernels/dequantize.inl:dequant_step"]}
{"id": "C14", "title": "Quantization is monotone", "statement": "For scale > 0, x <= y implies code(x) <= code(y), for nearest and for stochastic rounding with a common threshold.", "quantifier": "all pairs of finite inputs, all positive scales, zero points, thresholds", "why_tests_cant": "2^64 pairs of inputs.", "anchors": ["src/kernels/quantize.inl"]}
{"id": "C15", "title": "Out-of-range values saturate", "statement": "Inputs whose scaled value plus zero point exceeds 2^bits-1 get the maximal code; inputs below 0 get code 0; no wrap-around occurs.", "quantifier": "all inputs", "why_tests_cant": "Requires very large x/scale ratios; the failing region starts at 2^31.", "anchors": ["src/kernels/quantize.inl", "src/kernels/kernels_specialized.inl"]}
{"id": "C16", "title": "Nearest rounding error is at most half a step", "statement": "When round(x*inv)+zp is in [0,2^bits-1], |code - zp - x*inv| <= 1/2 (1/2+2^-25 on vector kernels).", "quantifier": "all inputs, scales, zero points", "why_tests_cant": "Exhaustive over floats is infeasible.", "anchors": ["src/kernels/quantize.inl", "src/kernels/kernels_specialized.inl"]}
{"id": "C17", "title": "Stochastic rounding picks one of the two neighbours", "statement": "With stochastic rounding the unclamped code minus zero point is trunc(v) or trunc(v) moved one step away from zero, where v = fl32(x*fl32(1/scale)); exactly representable integers are never changed; it moves away from zero iff threshold < |v - trunc(v)|.", "quantifier": "all inputs and thresholds", "why_tests_cant": "Random thresholds hide boundary mistakes.", "anchors": ["src/kernels/quantize.inl:quant_step_scalar_stochastic"]}
{"id": "C18", "title": "Stochastic rounding is unbiased", "statement": "For a threshold uniform on [0,1), the expected value of the (unclamped) code minus zero point equals v = fl32(x*fl32(1/scale)).", "quantifier": "all inputs; expectation over the threshold", "why_tests_cant": "Statistical tests only bound the bias for sampled inputs.", "anchors": ["src/kernels/quantize.inl:quant_step_scalar_stochastic", "src/piquant.cpp:context::pimpl::operator()"]}
{"id": "C19", "title": "One threshold per call", "statement": "Within one stochastic quantize call, equal inputs receive equal codes irrespective of position and worker.", "quantifier": "all positions, thread counts", "why_tests_cant": "Depends on all positions.", "anchors": ["src/piquant.cpp:context::pimpl::operator()"]}
{"id": "C20", "title": "Computed zero point is in range", "statement": "Whenever compute_quant_config_from_data returns, the zero point is in [0, 2^bits-1]; on data without infinities it aborts or returns (no undefined behaviour).", "quantifier": "all finite data, all block splits", "why_tests_cant": "Requires all data distributions.", "anchors": ["src/piquant.cpp:compute_quant_config"]}
{"id": "C21", "title": "Computed scale is positive and finite", "statement": "For non-empty finite data whose range max-min is at least (2^bits-1)*2^-149, the returned scale is finite and > 0.", "quantifier": "all finite data", "why_tests_cant": "Tiny/huge ranges are not sampled.", "anchors": ["src/piquant.cpp:compute_quant_config"]}
{"id": "C22", "title": "Parameter search finds the true minimum and maximum", "statement": "For finite data the min/max used by compute_quant_config_from_data are the true minimum and maximum, for every way the thread pool splits the data into non-empty blocks and every CPU kernel.", "quantifier": "all data, lengths, splits, ISAs", "why_tests_cant": "A dropped vector lane is only visible if the extremum sits in it.", "anchors": ["src/kernels/kernels_specialized.inl:find_min_max_f32", "src/kernels/kernels_specialized.inl:find_min_max_bf16", "src/piquant.cpp:compute_quant_config"]}
{"id": "C23", "title": "Constant tensors get scale 1 and mid zero point", "statement": "If all elements are equal (and finite) the result is scale 1 and zero point floor((2^bits-1)/2).", "quantifier": "all lengths >= 1 and constants", "why_tests_cant": "All constants and lengths.", "anchors": ["src/piquant.cpp:compute_quant_config"]}
{"id": "C24", "title": "Empty or all-NaN data aborts", "statement": "compute_quant_config_from_data on empty data, or data consisting only of NaN (any kernel), aborts rather than returning a bogus scale.", "quantifier": "all such inputs", "why_tests_cant": "Aborting inputs are not unit-tested.", "anchors": ["src/piquant.cpp:compute_quant_config", "src/piquant.cpp:context::compute_quant_config_from_data"]}
{"id": "C25", "title": "Round-trip error with computed parameters", "statement": "For finite data with min <= 0 <= max and a range whose scale is in [2^-126, 2^119], parameters computed from the data, then quantize(nearest) and dequantize(SET) to f32, give |y_i - x_i| <= scale*(1/2 + 2^-12) for every element.", "quantifier": "all such data sets, lengths, splits, thread counts, ISAs", "why_tests_cant": "Continuum of data sets; float error accumulates over five roundings.", "anchors": ["src/piquant.cpp:compute_quant_config", "src/kernels/quantize.inl", "src/kernels/dequantize.inl", "src/kernels/kernels_specialized.inl"]}
{"id": "C26", "title": "Round-trip bound is unconditional", "statement": "The bound of C25 holds for every finite data set (README usage example asserts allclose with atol=scale*0.5+1e-3).", "quantifier": "all finite data", "why_tests_cant": "Data not straddling zero is not tested.", "anchors": ["src/piquant.cpp:compute_quant_config", "README.md"]}
{"id": "C27", "title": "Illegal dtype combinations and sizes abort before any write", "statement": "quantize/dequantize/fused abort without writing unless input/output dtypes have the right kind and the span sizes match; otherwise they do not abort.", "quantifier": "all dtype pairs and sizes", "why_tests_cant": "All sizes.", "anchors": ["src/piquant.cpp:context::quantize", "src/piquant.cpp:context::dequantize", "src/piquant.cpp:context::quantize_dequantize_fused"]}
{"id": "C28", "title": "C API is equivalent to the C++ API", "statement": "piquant_quantize/piquant_dequantize with numel elements behave exactly as the C++ calls on spans of numel elements and never trip the size assertions (for legal dtypes).", "quantifier": "all numel without size overflow, all legal dtypes", "why_tests_cant": "All sizes.", "anchors": ["src/capi.cpp"]}
{"id": "C29", "title": "bfloat16 conversion is round-to-nearest-even", "statement": "Conversion float->bf16 yields the nearest bf16 with ties to even, overflow to infinity, preserves sign, infinities and NaN-ness; bf16->float->bf16 is the identity on non-signalling values.", "quantifier": "all 2^32 floats", "why_tests_cant": "Stated against the mathematical definition for every float.", "anchors": ["include/piquant.hpp:bfp16_t"]}
{"id": "C30", "title": "Vector bf16 conversion agrees with the scalar one", "statement": "The AVX512F float->bf16 conversion used in dequantize gives the same bits as the scalar conversion.", "quantifier": "all 2^32 floats", "why_tests_cant": "NaN payload corner cases.", "anchors": ["src/kernels/kernels_specialized.inl:cvt_ps_to_bf16"]}
{"id": "C31", "title": "CPU dispatch only selects supported kernels", "statement": "The kernel set selected at context creation uses only instruction set extensions the CPU reports (and the OS enables).", "quantifier": "all CPUID/XGETBV register values", "why_tests_cant": "CI runs on a handful of CPUs.", "anchors": ["src/piquant.cpp:check_avx512f_support", "src/piquant.cpp:check_avx2_support", "src/piquant.cpp:context::pimpl::pimpl", "CMakeLists.txt"]}
{"id": "C32", "title": "Fused call equals quantize followed by dequantize", "statement": "quantize_dequantize_fused stores (SET) / adds (ADD) exactly what quantize with the same mode followed by dequantize would produce.", "quantifier": "all inputs, dtypes, modes", "why_tests_cant": "All inputs.", "anchors": ["src/kernels/kernels.inl:requant_generic", "src/kernels/dequantize.inl:dequant_step"]}
{"id": "C33", "title": "A context with zero threads", "statement": "Every successful quantize call writes the output, whatever thread count the context was created with.", "quantifier": "all thread counts", "why_tests_cant": "Thread count 0 is not tested.", "anchors": ["src/piquant.cpp:context::pimpl::operator()"]}
{"id": "C34", "title": "Zero point is used at full width", "statement": "For every 64-bit zero point, all dtype/rounding combinations use the same zero point value.", "quantifier": "all int64 zero points", "why_tests_cant": "2^64 values.", "anchors": ["src/kernels/quantize.inl:quant_generic", "src/kernels/dequantize.inl:dequant_generic", "src/kernels/kernels_specialized.inl"]}
{"id": "C35", "title": "Streaming stores are aligned", "statement": "Every non-temporal vector store targets an address aligned to the vector size, for every output address and slice offset.", "quantifier": "all addresses, numel, slices", "why_tests_cant": "Allocators return aligned memory in tests.", "anchors": ["src/kernels/kernels_specialized.inl:quant_f32_to_uint8_nearest", "src/kernels/kernels_specialized.inl:quant_bf16_to_uint8_nearest"]}
{"id": "C36", "title": "Zero is exact", "statement": "Quantizing 0.0 gives code clamp(zero_point), and dequantizing code zero_point gives exactly 0.", "quantifier": "all scales and zero points, ISAs", "why_tests_cant": "FMA-based kernels reintroduce rounding residue for some scales only.", "anchors": ["src/kernels/kernels_specialized.inl:dequant_uint4_to_bf16", "src/kernels/kernels_specialized.inl:dequant_uint2_to_bf16", "src/kernels/quantize.inl", "src/kernels/dequantize.inl"]}
{"id": "C37", "title": "Parameter result does not depend on the block split", "statement": "For finite data compute_quant_config_from_data returns the same (scale, zero point) for every split of the data into non-empty blocks (every kernel except the SSE4.2 vector loop, see C22).", "quantifier": "all pairs of splits", "why_tests_cant": "Split depends on pool size and n.", "anchors": ["src/piquant.cpp:compute_quant_config"]}
{"id": "C38", "title": "Quantize calls are idempotent and input-preserving", "statement": "Repeating a quantize(nearest) or dequantize(SET) call leaves the output unchanged; the input buffer is never modified.", "quantifier": "all inputs", "why_tests_cant": "All inputs.", "anchors": ["src/piquant.cpp", "src/kernels/quantize.inl", "src/kernels/dequantize.inl"]}
{"id": "C39", "title": "Python dtype helpers are consistent with the library", "statement": "Python DataType.stride equals the C++ stride; piquant_to_torch_dtype inverts torch_to_piquant_dtype.", "quantifier": "all dtypes", "why_tests_cant": "Finite, but untested and wrong.", "anchors": ["python/src/piquant/__init__.py:DataType.stride", "python/src/piquant/torch.py:piquant_to_torch_dtype"]}
{"id": "C40", "title": "Python quantize validates tensor dtype", "statement": "compute_quant_params reads no bytes beyond the tensor for every torch dtype.", "quantifier": "all torch dtypes and sizes", "why_tests_cant": "Only float32/bfloat16 tested.", "anchors": ["python/src/piquant/torch.py:compute_quant_params"]}
{"id": "C41", "title": "Every call terminates", "statement": "All kernel loops terminate for every numel and every ISA, including the 63-stride min/max loop.", "quantifier": "all numel", "why_tests_cant": "Unbounded.", "anchors": ["src/kernels/kernels_specialized.inl", "src/kernels/quantize.inl", "src/kernels/dequantize.inl"]}
{"id": "C42", "title": "Dequantization is monotone and bounded", "statement": "For scale > 0 the dequantized f32 value is monotone in the code.", "quantifier": "all codes pairs, scales, zps", "why_tests_cant": "All scales.", "anchors": ["src/kernels/dequantize.inl"]}
{"id": "C43", "title": "Repeated ADD equals a left-to-right sum", "statement": "k successive dequantize(ADD) calls leave old + d1 + ... + dk summed left to right in f32, for each element (dtypes other than uint2); each step is rounded as the compiler chose for ADD (sum and product separately, or contracted).", "quantifier": "all k, all inputs", "why_tests_cant": "Unbounded k.", "anchors": ["src/kernels/dequantize.inl", "src/kernels/kernels_specialized.inl"]}
{"id": "C44", "title": "Round-trip error for arbitrary parameters", "statement": "For any normal scale up to 2^119 and any zero point in [0,2^bits-1], quantize(nearest) followed by dequantize(SET) to f32 gives |y_i - x_i| <= scale*(1/2+2^-12) for every element whose value lies within the representable range [-zp*scale, (2^bits-1-zp)*scale].", "quantifier": "all inputs in range, all scales, zero points, sizes, threads, ISAs", "why_tests_cant": "Continuum of inputs and parameters.", "anchors": ["src/kernels/quantize.inl", "src/kernels/dequantize.inl", "src/kernels/kernels_specialized.inl"]}
{"id": "C45", "title": "C API rejects counts whose byte size overflows", "statement": "piquant_quantize/piquant_dequantize called with an element count whose byte size does not fit in 64 bits abort (size assertion) before touching memory.", "quantifier": "all 64-bit element counts whose byte size wraps", "why_tests_cant": "Sizes near 2^62.", "anchors": ["src/capi.cpp", "src/piquant_internal.hpp:packed_numel"]}
{"id": "C46", "title": "The best supported kernel is selected", "statement": "On an x86 CPU the selected kernel set is the most capable one for which CPUID and the OS report all required extensions.", "quantifier": "all CPUID/XGETBV register values", "why_tests_cant": "CI runs on a handful of CPUs.", "anchors": ["src/piquant.cpp:context::pimpl::pimpl"]}
{"id": "C47", "title": "Python quantize/dequantize are the C++ calls on the tensor bytes", "statement": "piquant.torch.quantize/dequantize on a supported tensor dtype performs exactly the C++ call on the bytes of the tensor and a fresh output; unsupported dtypes, round modes and empty tensors raise an exception before any native call.", "quantifier": "all tensors, dtypes, parameters", "why_tests_cant": "All tensors and dtypes.", "anchors": ["python/src/piquant/torch.py:quantize", "python/src/piquant/torch.py:dequantize", "python/src/piquant/__init__.py:Context.quantize_ptr", "python/src/piquant/__init__.py:Context.dequantize_ptr"]}
{"id": "C48", "title": "The result of torch dequantize depends only on its arguments", "statement": "The tensor returned by piquant.torch.dequantize is determined by the input tensor and parameters, whatever bytes the freshly allocated output contains, for every reduce operation.", "quantifier": "all previous contents of the uninitialised output", "why_tests_cant": "Fresh allocations are usually zero in tests.", "anchors": ["python/src/piquant/torch.py:dequantize"]}
{"id": "C49", "title": "The Python workflow reconstructs the tensor", "statement": "piquant.torch.compute_quant_params, quantize (nearest) and dequantize to float32 with the returned Python float scale: no exception, no fault, and |y_i - x_i| <= scale*(1/2+2^-12) for every element of a finite float32/bfloat16 tensor whose values straddle zero and whose scale is in [2^-126, 2^119].", "quantifier": "all such tensors, block splits, thread counts, kernels, allocation addresses and contents", "why_tests_cant": "Composition over three calls, two languages and a double/float conversion.", "anchors": ["python/src/piquant/torch.py", "python/src/piquant/__init__.py", "src/capi.cpp", "src/piquant.cpp"]}
{"id": "C50", "title": "Calls made at the same time do not disturb each other", "statement": "Any number of quantize, dequantize and fused calls made concurrently (same context or different ones) on disjoint output spans: every interleaving of all their worker threads is race free, stays inside the spans, terminates, and leaves in each output span exactly what that call leaves there when made alone; no other byte changes.", "quantifier": "all numbers of concurrent calls, all legal arguments, all interleavings", "why_tests_cant": "Interleavings of several calls cannot be enumerated or forced.", "anchors": ["src/piquant.cpp:context::pimpl::operator()", "src/piquant.cpp:context::pimpl::job_entry"]}
{"id": "C51", "title": "Typed C++ wrappers are the byte calls", "statement": "quantize_generic/dequantize_generic/quantize_dequantize_fused_generic are accepted exactly when the element types have the right kind and the storage-element counts match the packed size, abort before any write otherwise, and then act as the byte-span call on all elements.", "quantifier": "all element type pairs and counts", "why_tests_cant": "Only a few type pairs are instantiated in tests.", "anchors": ["include/piquant.hpp:context::quantize_generic", "include/piquant.hpp:context::dequantize_generic", "include/piquant.hpp:context::quantize_dequantize_fused_generic"]}
{"id": "C52", "title": "dtype_limits bound the values of each type", "statement": "dtype_limits<T>::min/max are the least and greatest (finite) value of every element type.", "quantifier": "all element types and all their values", "why_tests_cant": "Never tested.", "anchors": ["include/piquant.hpp:dtype_limits"]}
{"id": "C53", "title": "Computed parameters can be used on their own data", "statement": "For every non-empty finite data set, quantizing (nearest) the data with the scale and zero point computed from it never has undefined behaviour and every code is the saturated formula.", "quantifier": "all finite data sets, lengths, block splits, thread counts, kernels", "why_tests_cant": "The failing data sets (large constants, values far from zero, tiny ranges) are not sampled.", "anchors": ["src/piquant.cpp:compute_quant_config", "src/kernels/quantize.inl", "src/kernels/kernels_specialized.inl"]}
{"id": "C54", "title": "Fake quantization is idempotent", "statement": "Running quantize_dequantize_fused (float32, SET, either rounding mode) and running it again on its own output with nearest rounding and the same parameters returns the same floats, for every scale in [2^-126, 2^119] and every zero point in [0, 2^bits-1].", "quantifier": "all inputs on which the first call is defined (saturating or not), scales, zero points, sizes, thread counts, kernels", "why_tests_cant": "2^32 inputs x 2^31 scales; float error of re-scaling could cross a rounding boundary.", "anchors": ["src/kernels/kernels.inl:requant_generic", "src/piquant.cpp:context::quantize_dequantize_fused"]}
{"id": "C55", "title": "Fake quantization error", "statement": "quantize_dequantize_fused (float32, SET) changes an element inside the representable range by at most scale*(1/2+2^-12) (nearest) or scale*(1+2^-12) (stochastic), for any parameters with scale in [2^-126, 2^119] and zero point in [0,2^bits-1], and for parameters computed from data around zero (every kernel except the SSE4.2 vector search, see C22).", "quantifier": "all inputs in range, scales, zero points, thresholds, sizes, thread counts, kernels", "why_tests_cant": "Continuum of inputs and parameters.", "anchors": ["src/kernels/kernels.inl:requant_generic", "src/piquant.cpp:compute_quant_config"]}
{"id": "C56", "title": "Stochastic round-trip error", "statement": "quantize(stochastic) followed by dequantize(SET) to f32 gives |y_i - x_i| <= scale*(1+2^-12) for every element inside the representable range (any parameters), and for every element of data around zero with computed parameters (every kernel except the SSE4.2 vector search, see C22).", "quantifier": "all inputs in range, scales, zero points, thresholds, sizes, thread counts, kernels", "why_tests_cant": "Continuum of inputs, parameters and thresholds.", "anchors": ["src/kernels/quantize.inl:quant_step_scalar_stochastic", "src/kernels/dequantize.inl"]}
{"id": "C57", "title": "bf16 tensors keep their codes", "statement": "Dequantizing to bf16 and quantizing the result with the same parameters (nearest) restores every code, for scales in [2^-125, 2^118] and zero points in [0,2^bits-1].", "quantifier": "all code buffers, scales, zero points, sizes, thread counts, pairs of kernels", "why_tests_cant": "2^31 scales; whether the 8-bit significand of bf16 separates neighbouring codes depends on scale and code.", "anchors": ["src/kernels/dequantize.inl", "src/kernels/quantize.inl", "src/kernels/kernels_specialized.inl"]}
{"id": "C58", "title": "Round-trip error with bf16 output", "statement": "quantize(nearest) of a float32 or bf16 tensor followed by dequantize(SET) to bf16 gives |y_i - x_i| <= scale*(1/2 + (2^bits-1)/256 + 2^-12) for every element inside the representable range, for any scale in [2^-125, 2^118] and zero point in [0,2^bits-1].", "quantifier": "all inputs in range, scales, zero points, sizes, thread counts, kernels", "why_tests_cant": "Continuum of inputs and parameters; AVX-512 kernels use a different formula.", "anchors": ["src/kernels/dequantize.inl", "src/kernels/kernels_specialized.inl:dequant_uint8_to_bf16", "src/kernels/kernels_specialized.inl:dequant_uint4_to_bf16"]}
{"id": "C59", "title": "Elements that cannot be quantized do not disturb the others", "statement": "A tensor may contain NaNs, infinities or values far out of range. In every execution of quantize that finishes, each element whose own arithmetic is defined still gets the code of the formula, whatever its neighbours in the same byte, vector or slice are. With nearest rounding on the x86 kernels an element that cannot be quantized gets the lowest code (the highest code when the zero point is negative); on NEON a NaN gets the zero point.", "quantifier": "all inputs, including NaN/infinity, all kernels, dtypes, modes, thread counts, |zero_point| <= 2^22", "why_tests_cant": "Where a NaN sits relative to vector blocks, packed bytes and thread slices decides what code path handles it; tests cannot place one everywhere.", "anchors": ["src/kernels/quantize.inl", "src/kernels/kernels_specialized.inl"]}
{"id": "C60", "title": "Nearest quantization picks a closest representable value", "statement": "Quantize with nearest rounding, then dequantize to float32: for every element, inside or outside the representable range, no code's value is closer to the element than the returned value, up to 2^-10 of a step.", "quantifier": "all finite inputs with |x| <= 2^29*scale, scale in [2^-126, 2^119], zero point a code, all kernels, dtypes, thread counts, all competing codes", "why_tests_cant": "Optimality against every code for every input and parameter set.", "anchors": ["src/kernels/quantize.inl", "src/kernels/dequantize.inl", "src/kernels/kernels_specialized.inl"]}
{"id": "C61", "title": "Work is balanced", "statement": "In every execution, each worker touches one block of consecutive output bytes, holding at most numel/threads elements plus one byte's worth of elements.", "quantifier": "all numel, thread counts, dtype pairs, schedules", "why_tests_cant": "The split depends on numel, thread count and packing factor.", "anchors": ["src/piquant.cpp:context::pimpl::job_entry"]}
{"id": "C62", "title": "Computed parameters are a function of the set of values", "statement": "For finite data, compute_quant_params_* depends only on the set of values in the tensor: reordering or repeating elements, storing the same values as float32 or bfloat16, changing the number of threads, how they split the work, or the CPU gives the same scale and zero point; adding elements inside the range changes nothing; adding any elements never shrinks the scale of non-constant data; and scale * (2^bits - 1) is the width of the data up to a relative error of about 2^-24.", "quantifier": "all finite float32/bfloat16 buffers, all reorderings and supersets, all partitions, kernel sets and quantized types", "why_tests_cant": "It compares calls over unbounded families of buffers and schedules; a test can only compare a few permutations.", "anchors": ["src/piquant.cpp:compute_quant_config", "src/piquant.cpp:compute_quant_config_from_data", "src/kernels/kernels_specialized.inl:find_min_max_float32", "src/kernels/kernels_specialized.inl:find_min_max_bfloat16"]}
{"id": "C63", "title": "Round trip error with computed parameters for data that does not straddle zero", "statement": "Quantizing with the parameters computed from the data and dequantizing returns every element to within max(scale/2, distance of the data from zero) + scale/512; conversely for data strictly above zero by more than the range the largest element really does come back off by the distance of the data from zero: the zero point is clamped and the offset of the data is lost.", "quantifier": "all finite buffers whose elements are within 2^29 steps of zero, all three quantized types, all kernel sets, thread counts and schedules", "why_tests_cant": "A bound over every possible data range and schedule.", "anchors": ["src/piquant.cpp:compute_quant_config", "src/piquant.cpp:quantize", "src/piquant.cpp:dequantize"]}
{"id": "C64", "title": "The README example's assertion", "statement": "Running the documented torch workflow (compute_quant_params, quantize to quint4x2, dequantize to bfloat16) on a bfloat16 tensor with values in [0, 1) returns a tensor for which torch.allclose(dequantized, tensor, atol=scale/2 + 1e-3) holds.", "quantifier": "all tensors with values in [0,1], all sizes, kernel sets, thread counts and schedules", "why_tests_cant": "The README asserts it for one random tensor; the assertion fails for some tensors that torch.rand can produce.", "anchors": ["README.md", "python/example/example_torch.py", "python/src/piquant/torch.py:quantize", "python/src/piquant/torch.py:dequantize", "python/src/piquant/torch.py:compute_quant_params"]}
{"id": "C65", "title": "bfp16_t arithmetic is IEEE bfloat16 arithmetic", "statement": "The bfp16_t operators +, -, * and / convert both operands to float, compute in float and round the float result back; although this rounds twice, for every pair of bfloat16 operands the result is the exact real result rounded once to the nearest bfloat16 with ties to even, with IEEE results for zeros, infinities and NaN.", "quantifier": "all pairs of 16-bit operands (2^32) for each of the four operators", "why_tests_cant": "Double rounding errors appear on isolated operand pairs only; the claim covers all 2^34 cases and explains them.", "anchors": ["include/piquant.hpp:bfp16_t"]}
{"id": "C66", "title": "bfp16_t equality is equality of values", "statement": "a == b for two bfp16_t values is true exactly when they denote the same number, and a != b is its negation.", "quantifier": "all pairs of 16-bit operands", "why_tests_cant": "It ranges over all pairs and fails on isolated ones (signed zeros, NaN).", "anchors": ["include/piquant.hpp:bfp16_t"]}
{"id": "C67", "title": "Quantization and dequantization are element-wise", "statement": "The code of an element depends on that element only: quantizing any selection of the elements of a tensor (a slice, a permutation, a repetition, a copy in the other float type) gives that selection of the codes; quantizing a tensor in pieces that fill whole bytes gives the bytes of quantizing it at once; dequantizing a selection of the codes gives that selection of the values.", "quantifier": "all tensors, all selections of elements, all cut points, both rounding modes with a fixed threshold, kernel sets, thread counts and schedules of both calls", "why_tests_cant": "It compares pairs of calls over unbounded families of tensors, selections and thread splits.", "anchors": ["src/piquant.cpp:quantize", "src/piquant.cpp:dequantize", "src/kernels/quantize.inl", "src/kernels/kernels_specialized.inl"]}
{"id": "C68", "title": "Random thresholds: one standard generator per calling thread", "statement": "Each calling thread owns a std::mt19937_64 seeded once. The k-th stochastic call (quantize or fused) a thread makes uses the k-th value of that thread's generator, whatever calls other threads make, and whatever nearest or dequantize calls are made in between; non-stochastic calls use no random value. The generator's values are those of the C++ standard for that seed, and the threshold derived from a value is a finite float in [0, 1), equal to value/2^64 up to 2^-24; so stochastic quantization at any point of any history rounds to one of the two neighbouring codes, and its mean over all generator values is the scaled value up to 2^-24 + 2^-64.", "quantifier": "all seeds, all histories of calls by any number of threads, all positions in the stream, all 2^64 generator values", "why_tests_cant": "the period is 2^19937-1 and a history can have any length and any interleaving; a test sees a few thousand draws of one seed; that no draw ever gives 1.0 needs all 2^64 values", "anchors": ["src/piquant.cpp: rng (thread_local), context::pimpl::operator()", "src/piquant_internal.hpp: quant_descriptor.stochastic threshold"]}
{"id": "C69", "title": "Any multi-threaded program of calls behaves like its threads one by one", "statement": "Take any number of caller threads, each making any finite number of legal quantize, dequantize and fused calls one after the other, where later calls and their inputs may depend on what earlier calls left in memory, and each thread writes and looks only at memory of its own. Then in every interleaving of the threads and of the workers of all calls in flight: no data race, no access outside the output span of the call, no rejected call, no thread ever blocked by another, termination within a common bound; a finished thread has left in its memory exactly what it leaves when it runs alone with one worker after the other; memory that belongs to no thread is unchanged; and two complete executions with the same seeds leave the same memory.", "quantifier": "all programs (numbers of threads, calls, arguments, data dependent control flow, seeds), all interleavings at single-byte granularity, all contexts and instruction sets", "why_tests_cant": "interleavings and programs are unbounded; a test runs one program under a few schedules", "anchors": ["src/piquant.cpp: context::pimpl::operator(), job_entry, rng (thread_local)", "src/piquant.cpp: context::quantize, dequantize, quantize_dequantize_fused"]}
{"id": "C70", "title": "Dequantization does not depend on CPU, thread count or schedule", "statement": "Two dequantize calls with the same codes, scale, zero point and op (and, for ADD, the same old values) store the same values, whatever the CPU, the thread count, the schedule and the addresses of the buffers.", "quantifier": "all pairs of configurations, buffers, numel, codes, schedules", "why_tests_cant": "Pairs of configurations times all inputs; the results can differ in the last bit only, which tolerance-based tests accept.", "anchors": ["src/kernels/dequantize.inl", "src/kernels/kernels_specialized.inl", "src/piquant.cpp:job_entry", "CMakeLists.txt"]}
{"id": "C71", "title": "Negation mirrors the codes", "statement": "Quantizing the negated data with the mirrored zero point 2^bits-1-zp gives the mirrored codes 2^bits-1-code, and dequantizing mirrored codes with the mirrored zero point gives the negated floats, for nearest rounding and for stochastic rounding with the same threshold; on the x86 vector kernels (nearest) elements whose scaled value is plus or minus the float just below one half are excluded (see C08).", "quantifier": "all data, scales, zero points, thresholds, sizes, dtypes, pairs of kernels, thread counts and schedules", "why_tests_cant": "Compares two calls for every input; odd symmetry of rounding and of the scaling product is needed at every float.", "anchors": ["src/kernels/quantize.inl", "src/kernels/dequantize.inl", "src/kernels/kernels_specialized.inl"]}
{"id": "C72", "title": "Shifting the zero point shifts the codes", "statement": "Changing the zero point by k changes every code that was not saturated in the direction that loses information to the saturated code+k, and dequantizing codes shifted by k with the zero point shifted by k gives bit-identical floats (nearest and stochastic; x86 nearest exclusion as in C71).", "quantifier": "all data, scales, zero points, shifts k, thresholds, sizes, dtypes, pairs of kernels, thread counts and schedules", "why_tests_cant": "Compares two calls for every input, shift and pair of configurations.", "anchors": ["src/kernels/quantize.inl", "src/kernels/dequantize.inl", "src/kernels/kernels_specialized.inl"]}
{"id": "C73", "title": "Units do not matter (powers of two)", "statement": "Multiplying the data and the scale by the same power of two leaves every code unchanged (nearest and stochastic; scales in [2^-126, 2^126]; x86 nearest exclusion as in C71), and multiplying the scale by a power of two multiplies every dequantized float by it exactly (scales in [2^-126, 2^94]).", "quantifier": "all data, exponents, scales, zero points, thresholds, sizes, dtypes, pairs of kernels, thread counts and schedules", "why_tests_cant": "Holds for every input only because no intermediate result leaves the normal range; a test samples a few scales.", "anchors": ["src/kernels/quantize.inl", "src/kernels/dequantize.inl", "src/kernels/kernels_specialized.inl"]}
{"id": "C74", "title": "Constant tensors survive the workflow", "statement": "For a tensor whose elements all equal v, computing parameters, quantizing and dequantizing to float32 returns v up to half a step of the resolution its magnitude would suggest.", "quantifier": "all constants v, sizes, dtypes, kernels, thread counts and schedules", "why_tests_cant": "Constant tensors take a special branch of the parameter computation; the effect depends on v over its whole range.", "anchors": ["src/piquant.cpp:compute_quant_config", "src/kernels/quantize.inl", "src/kernels/dequantize.inl"]}
{"id": "C75", "title": "Python contexts: no leak, no double destruction, no use after destruction", "statement": "In every history of a Python program (creating, copying and dropping Context objects in any order, overlapping calls from several threads, interpreter exit), each native context is destroyed at most once and only after its creation, all are destroyed at exit, and a native context is destroyed only when no call uses it and none uses it later.", "quantifier": "all finite histories of object creation, copying, calls (overlapping), garbage collection and exit", "why_tests_cant": "Histories and garbage collection orders are unbounded, and a use after free need not crash.", "anchors": ["python/src/piquant/__init__.py:Context.__init__", "src/capi.cpp:piquant_context_create", "src/capi.cpp:piquant_context_destroy"]}
{"id": "C76", "title": "Error of a quantized reduction", "statement": "When any number of peers quantize their float data and one receiver dequantizes every contribution with the ADD operator into the same float32 buffer, each element of the result differs from the exact sum of the original values by at most the sum of the peers' quantization tolerances plus one float32 rounding (of a sum of magnitude at most B) per peer, the total inflated by at most (1+2^-24) per peer.", "quantifier": "all numbers of peers, data, scales, zero points, dtypes, kernels per peer, thread counts, schedules", "why_tests_cant": "An accumulated error bound over any number of peers, with rounding of every partial sum, cannot be settled by sampling.", "anchors": ["src/piquant.cpp:context::quantize", "src/piquant.cpp:context::dequantize", "src/kernels/dequantize.inl", "src/kernels/kernels_specialized.inl"]}
{"id": "C77", "title": "Computed parameters use the whole code range", "statement": "Quantizing data (either rounding mode) with the parameters computed from it, the data being finite, not constant and around zero, gives the smallest element code 0 or 1 and the largest element one of the two largest codes; one off is attained on both sides, so the bound is sharp.", "quantifier": "all data around zero, dtypes, kernels, thread counts and schedules", "why_tests_cant": "Depends on the rounding of scale, zero point and product for every pair of extremes.", "anchors": ["src/piquant.cpp:compute_quant_config", "src/piquant.cpp:context::quantize"]}
{"id": "C78", "title": "How results move with data, scale, zero point and threshold", "statement": "Across two calls: larger data or a larger zero point never gives a smaller code; a larger scale or a larger stochastic threshold moves codes toward the zero point; a larger scale moves dequantized floats away from zero.", "quantifier": "all data, scales, zero points, thresholds, sizes, dtypes, pairs of kernels, thread counts and schedules", "why_tests_cant": "A relation between two calls on every pair of inputs.", "anchors": ["src/kernels/quantize.inl", "src/kernels/dequantize.inl", "src/kernels/kernels_specialized.inl"]}
{"id": "C79", "title": "Agreement with the project's reference implementation", "statement": "Quantizing to uint4 or uint8 gives what the project's sequential reference code (test/naive.hpp, the oracle of the unit tests) gives on the same tensor and parameters, whatever the kernels, thread count, schedule and the order in which the reference evaluates function arguments: with nearest rounding the same bytes, and with stochastic rounding codes that differ by at most one, whatever the library's threshold and the state of the reference's generator.", "quantifier": "every tensor, length, scale, zero point, threshold, generator state of the reference, kernel family, thread count, schedule and previous buffer contents, within the ranges where the integer conversions are defined", "why_tests_cant": "The unit tests compare the two on random draws from one narrow range of scales and zero points on one machine; agreement everywhere, and the exact tolerance, need a proof about both programs.", "anchors": ["test/naive.hpp: quantize_naive, xs128p_state, pack_nibbles", "test/quant.cpp", "src/piquant.cpp: context::quantize", "src/kernels/kernels.inl: quant_generic"]}
{"id": "C80", "title": "Whole workflow, float32: error in terms of the data's own range", "statement": "For finite data whose least value lo and greatest value hi satisfy lo <= 0 <= hi and 2^-100 <= hi - lo <= 2^100: computing parameters from the data succeeds, and with the parameters it returns (nothing is assumed about them) quantize then dequantize to float32 returns every element within half an ideal step (nearest) or one ideal step (stochastic), plus 2^-11 of a step, where the ideal step is (hi-lo)/(2^bits-1); dequantizing with ADD leaves old + element with the same error plus one float32 rounding; the fused call gives the same for both reduce operations. Excluded: an SSE4.2 parameter search over blocks large enough for its defective vector loop (C22), and the incomplete last uint2 group of an ADD to float32 (C10).", "quantifier": "all data, element types, sizes, partitions of the search, kernels, thread counts and schedules of each call, both rounding modes, every threshold, all prior buffer contents up to 2^120", "why_tests_cant": "composes three calls over all data sets; tests sample a few random tensors with a hand-chosen epsilon", "anchors": ["src/piquant.cpp:222 compute_quant_config", "src/piquant.cpp:277 quantize", "src/piquant.cpp:310 dequantize", "src/piquant.cpp:342 quantize_dequantize_fused", "test/requant.cpp", "test/dequant.cpp"]}
{"id": "C81", "title": "bf16 workflow: exact formula of the fused call and error in terms of the data's range", "statement": "The fused call on a bf16 tensor stores, for every element, the IEEE bf16 product of bf16(code - zero_point) and bf16(scale) - the code being the one scalar rounding gives - or with ADD the IEEE bf16 sum of the old word and that product. For finite data (float32 or bf16) with lo <= 0 <= hi and width in [2^-100, 2^100], parameters computed from the data followed by quantize and dequantize to bf16 (SET or ADD), or by the fused call, give every element (or old + element) within half/one ideal step plus 1/64 (SET) or 1/32 (ADD) of a step, plus |element|/127 (SET) or |element|/126 + |sum|/255 (ADD). SSE4.2 searches over large blocks excluded (C22).", "quantifier": "all data, sizes, kernels (including those that fuse, contract or flush subnormals), thread counts, schedules, both rounding modes, every threshold, all prior contents up to 2^120", "why_tests_cant": "bf16 rounding is done in different places on different kernels; a test runs one kernel on a few tensors", "anchors": ["src/kernels/kernels.inl:30 requant_generic", "include/piquant.hpp:81 bfp16_t", "src/piquant.cpp:342 quantize_dequantize_fused", "src/kernels/dequantize.inl"]}
{"id": "C82", "title": "The project's accuracy tests cannot fail on data around zero", "statement": "For every tensor of finite values in [-1, 1] with at least one value <= 0, one >= 0 and a spread of at least 2^-100, of any size, and any fill value in [-1, 1]: computing parameters returns a positive finite scale, and every element passes the exact comparison of test/dequant.cpp (quantize, dequantize, SET or ADD) and of test/requant.cpp (fused call), with the arithmetic and tolerances written there. The condition on signs is needed: test/dequant.cpp fails on the tensor 0.5, 1. The uint2 tolerance 2.0 also accepts the overwritten tail of C10, so that test cannot detect that defect.", "quantifier": "all tensors, sizes, kernels, thread counts, schedules, rounding modes, thresholds, fill values; the element/quantized type pairs the tests instantiate", "why_tests_cant": "the tests draw ten random tensors; whether they can ever fail is a statement about all tensors", "anchors": ["test/dequant.cpp", "test/requant.cpp", "test/quant_config.cpp", "src/piquant.cpp:222 compute_quant_config"]}
{"id": "C83", "title": "The integers that stand for types, modes and operations mean the same everywhere, and others are rejected", "statement": "A value of piquant_dtype_t, piquant_round_mode_t or piquant_reduce_op_t passed from C or from Python selects in the library the type, rounding mode or operation its enumerator names: the C call behaves exactly as the C++ call with that value. An integer that is no enumerator is rejected before anything is written.", "quantifier": "every integer code for both types, the round mode and the reduce operation, every element count, every other argument, every kernel set and thread count", "why_tests_cant": "The enumerations are written three times (C++ header, C header, CFFI text) and the C wrappers cast and index arrays with whatever integer arrives; a test passes the enumerators only.", "anchors": ["include/piquant.h:23-40 (enums)", "include/piquant.hpp:21-45,149-163 (round_mode, reduce_op, dtype, dtype_infos, dtype_info_of)", "python/src/piquant/_bootstrap.py:19-36", "src/capi.cpp:28-104", "src/kernels/kernels.inl:107-173"]}
{"id": "C84", "title": "The results are visible when a call returns", "statement": "When quantize, dequantize or the fused call has returned, the calling thread sees every output byte the workers have stored, although processors make stores visible to other cores late and (for non-temporal stores) out of order.", "quantifier": "every call on legal arguments, every kernel set, every schedule of the workers and every delay of their stores allowed by x86 (ordinary stores in program order, non-temporal stores in any order, a core sees its own stores)", "why_tests_cant": "Stores are delayed for nanoseconds and only under load; a test that reads the result on the same core or after any locked instruction always sees it.", "anchors": ["src/kernels/kernels_specialized.inl:78-81,123,158,268 (_mm_stream_si128, _mm256_stream_si256)", "src/piquant.cpp:197-211 (jobs_future.join)"]}
{"id": "C85", "title": "The project's Python tests cannot fail on any tensor with values in [-1, 1] around zero", "statement": "For every float32 or bfloat16 tensor with finite values in [-1, 1], some not positive and some not negative, and every quantized dtype, the scale from compute_quant_params is positive, not NaN and not infinite; quantize followed by dequantize with these parameters raises nothing and returns every element within scale/2 + 1e-3 (plus allclose's relative term); and the codes agree with the formula using rounding half to even, as torch.quantize_per_tensor does. FALSE as stated: for bfloat16 tensors the distance can exceed the tolerance on every kernel, and at ties the codes differ by one from half-to-even rounding. What holds: the parameter assertions for both dtypes, the distance for float32 (within scale/2 + 4e-4), and equality with half-to-even rounding away from ties.", "quantifier": "every tensor with such values, of every size, quantized dtype, kernel set, thread count, split of the search and schedule", "why_tests_cant": "The test draws one random tensor per combination of dtypes from a fixed seed; the assertion is meant for all of them.", "anchors": ["python/tests/test_torch.py: test_compute_quant_config, test_quantize_roundtrip", "python/src/piquant/torch.py: compute_quant_params, quantize, dequantize", "src/piquant.cpp: compute_quant_config"]}
{"id": "C86", "title": "Values in memory are the IEEE 754 results, stated on bit patterns", "statement": "What the calls write is determined by IEEE 754 arithmetic on the bit patterns they read: a dequantized float32 is float(code - zero_point) * scale with both steps correctly rounded (one correctly rounded step of the exact product when |code - zero_point| fits 24 bits), for every bit pattern of the scale including zeros, subnormals, infinities and NaNs; accumulation is the IEEE sum or, if contracted, the fused multiply-add; bf16 results are IEEE conversions of such values (the AVX-512 exceptions are spelled out); a code is the rounding of the IEEE product of the element with the IEEE reciprocal of the scale, plus the zero point, saturated; computed parameters are four IEEE operations on doubles. The specification of IEEE 754 is written from the standard and shares nothing with the floats the model computes with.", "quantifier": "every scale bit pattern, every input buffer, every code, zero point, thread count and schedule, every kernel set; for the arithmetic itself every pair or triple of encodings of float, double and bfloat16", "why_tests_cant": "Correct rounding is a statement about all real results between two encodings; tests compare with the same hardware arithmetic on samples.", "anchors": ["src/kernels/kernels.inl", "src/kernels/kernels_specialized.inl", "src/piquant.cpp: compute_quant_config_from_data", "include/piquant.hpp: bfp16_t"]}
{"id": "C87", "title": "Input and output may share memory", "statement": "A call whose input and output spans share memory leaves the memory that the same call on a private copy of the input leaves. (The spans are not checked for overlap, the documentation does not forbid it.) For the fused quantize-dequantize call in place (out = in) this holds with any number of threads; with one thread the output may also start anywhere before the input, for the fused call and for quantizing to uint8 with stochastic rounding; with one thread uint8 codes in the last bytes of the output buffer may be dequantized in place. It is false when the output starts inside the input, and with several threads when the spans overlap in any other way than exactly.", "quantifier": "all tensor sizes, float and quantized types, values, old contents, parameters, rounding modes, reduce operations, thread counts, schedules, addresses, and numbers of elements the compiled loop loads before storing", "why_tests_cant": "Whether an element is still intact when it is loaded depends on the schedule of the workers and on how far the compiled loop loads ahead; a test sees one schedule of one build, and small tensors fit in one worker's slice.", "anchors": ["src/kernels/kernels.inl:30-52 requant_generic", "src/kernels/quantize.inl:147-148", "src/piquant.cpp:132-176 job_entry", "src/piquant.cpp:277-308 quantize", "src/piquant.cpp:342-369 quantize_dequantize_fused", "src/piquant_internal.hpp:23,27 PIQUANT_RESTRICT"]}
{"id": "C88", "title": "NaN elements do not influence the computed parameters", "statement": "Scale and zero point computed from a tensor containing some NaNs are those of its numbers: of the smallest and the largest element that is not NaN. (All-NaN data aborts, C24.)", "quantifier": "all tensors without infinities, all positions and payloads of NaNs, element types, target types, splits into blocks, kernel sets", "why_tests_cant": "Whether a NaN matters depends on its position relative to the other values in its vector lane, the block split and the instruction set; a test with a NaN in one place on one machine says nothing about the others.", "anchors": ["src/kernels/kernels_specialized.inl:1418-1607 find_min_max_f32, find_min_max_bf16", "src/piquant.cpp:222-259 compute_quant_config"]}
{"id": "C89", "title": "Infinite elements in the parameter computation", "statement": "Computing parameters from a tensor that contains infinities is rejected, or yields parameters that can be used: no undefined behaviour, finite scale, and the finite elements survive a round trip.", "quantifier": "all NaN-free tensors with at least one infinity, positions, element and target types, splits into blocks, kernel sets", "why_tests_cant": "Whether the infinity reaches the arithmetic depends on the search over all elements and blocks, and undefined behaviour need not be visible in a test on one machine.", "anchors": ["src/piquant.cpp:222-259 compute_quant_config", "src/piquant.cpp:371-381 compute_quant_config_from_data", "src/kernels/kernels_specialized.inl:1418-1607"]}
{"id": "C90", "title": "The input may be read at any moment of the call", "statement": "When input and output spans are separate, it does not matter when each worker loads which byte of the input, or how these loads interleave with the loads and stores of the others (several workers may load the same byte): no store goes to the input, there is no data race, every interleaving ends, and the memory afterwards is the memory after the call with the whole input loaded beforehand. Shown for arbitrary workers (if it holds with the input loaded beforehand, it holds with loads at any time), and for the fused call, quantizing to uint8 with stochastic rounding and dequantizing uint8 codes with SET as complete calls.", "quantifier": "all tensor sizes, values, old contents, parameters, thread counts, schedules of single-byte loads and stores, placements of the two spans, and numbers of elements the compiled loop loads before storing", "why_tests_cant": "A test sees a few interleavings of loads and stores; the claim is about all of them, and about the absence of any store to the input at any point of any of them.", "anchors": ["src/piquant.cpp:197-211 operator()", "src/kernels/kernels.inl:30-52 requant_generic", "src/kernels/quantize.inl:147-148", "src/kernels/kernels_specialized.inl:729-982 dequant_uint8_to_f32, dequant_uint8_to_bf16"]}
{"id": "C91", "title": "Expected squared error of stochastic quantization", "statement": "Over stochastic calls on the same data whose thresholds are (nearly) uniform on [0,1) - in particular over all 2^64 values the generator can return - the mean squared error of a code that does not saturate, in steps, is f*(1-f) up to the resolution of the thresholds, where f is the fraction of the scaled value; so it never exceeds a quarter of a squared step. For two elements the mean product of the errors is min(f,g)-f*g, negated when the scaled values have opposite signs. Nearest rounding of the same element has a squared error not above f*(1-f), except at the float just below one half.", "quantifier": "all tensors, sizes, dtypes, contexts, schedules, pairs of elements that do not saturate, families of thresholds near the uniform grid, and the ideal uniform threshold (Lebesgue measure)", "why_tests_cant": "An expectation over the random threshold, for every scaled value and pair of elements; a test samples a few thresholds and a few values.", "anchors": ["src/kernels/quantize.inl: quant_step_scalar_stochastic (8-19)", "src/piquant.cpp: quantize_args, operator() (190-211)", "include/piquant.hpp: round_mode"]}
{"id": "C92", "title": "Rounding errors of one stochastic call average out over the tensor", "statement": "The mean of the codes of a stochastically quantized tensor, less the zero point, approaches the mean of the scaled values as the tensor grows. (False: a call uses one threshold for all its elements, so the errors of equal elements are equal.)", "quantifier": "all tensor sizes, dtypes, contexts, schedules and thresholds", "why_tests_cant": "A statement about every tensor size and threshold.", "anchors": ["src/piquant.cpp: quantize_args, operator() (190-211)", "src/kernels/quantize.inl: quant_step_scalar_stochastic (8-19)"]}
{"id": "C93", "title": "The C++ benchmark quantizes its data", "statement": "The codes that benchmark/bench.cpp obtains from its quantize call depend on the tensor it draws, and dequantizing them gives back the tensor up to a step. (False: it passes zero point 127 for uint4, whose codes end at 15.)", "quantifier": "all tensors of bfloat16 values between -1 and 1, all sizes, thread counts, kernel sets and schedules", "why_tests_cant": "Nothing checks what the benchmark computes; the claim is about every tensor it can draw.", "anchors": ["benchmark/bench.cpp: main (14-34)", "include/piquant.hpp: quantize_generic, dequantize_generic"]}
{"id": "C94", "title": "The Python benchmark's comparison finds no difference", "statement": "The comparison at the end of python/benchmark/benchmark.py - library against a quantizer with the same scale and zero point that rounds half to even, after dequantization, with tolerance 0.1 - never reports a difference for float32 data in [0,1).", "quantifier": "all float32 tensors, sizes, kernel sets, thread counts, schedules, zero points in range and scales up to 0.07 (uint8, uint4)", "why_tests_cant": "The benchmark draws random tensors; ties and the float below one half are hit by chance only.", "anchors": ["python/benchmark/benchmark.py (36-74)", "python/src/piquant/torch.py: quantize, dequantize", "src/kernels/quantize.inl"]}
{"id": "C95", "title": "Re-quantizing a dequantized tensor with freshly computed parameters", "statement": "If a quantized tensor is dequantized and the resulting float tensor is quantized again (nearest rounding) with parameters computed from that float tensor, the zero point and every code are the same as before and the scale is the same up to rounding, so a relay that does not forward the parameters loses nothing.", "quantifier": "all packed codes, scales in [2^-90, 2^90], zero points that are codes, uint8/uint4/uint2, float32 and bf16 intermediate tensors, all kernel sets, thread counts, schedules and block splits", "why_tests_cant": "The code set, scale and kernel combinations cannot be enumerated; a test with random data would not notice the tensors that leave an extreme code unused.", "anchors": ["src/piquant.cpp: context::dequantize, compute_quant_config_from_data, quantize", "src/kernels/dequantize.inl", "src/kernels/quantize.inl", "src/kernels/kernels_specialized.inl: find_min_max"]}
{"id": "C96", "title": "A call that was interrupted can be repeated", "statement": "If a quantize, dequantize or fused call is killed at any moment of any schedule, memory outside its output span is unchanged, and repeating a quantize call or a SET call over the same output span (with any parameters, thread count or rounding threshold) ends, under every schedule, with exactly the memory it would have produced had the interrupted call never run. An interrupted ADD cannot be repeated safely: float32 elements it had not touched come out right, elements it had finished are added a second time.", "quantifier": "all legal calls, all schedules and all interruption points of the first call, all schedules of the repeated call, all previous memory contents", "why_tests_cant": "Crash points are not under a unit test's control: the claim ranges over every prefix of every interleaving of the first call.", "anchors": ["src/piquant.cpp: context::pimpl::operator(), job_entry", "src/kernels/quantize.inl: quant_generic, quant_uint4, quant_uint2", "src/kernels/dequantize.inl: dequant_generic, dequant_uint2", "src/kernels/kernels.inl: requant_generic"]}
{"id": "C97", "title": "A reader sees every output code either old or final", "statement": "At any moment of any schedule every output code of a quantize call is either what it was before the call or what the finished call leaves there, and so is every output byte of dequantize and fused calls (SET and ADD); between two moments of one execution a byte that has changed does not change again. The only exception at byte level is the last byte of an odd number of uint4 codes, whose unused high nibble holds junk for one step.", "quantifier": "all legal calls, all schedules, all pairs of moments of an execution, all previous memory contents", "why_tests_cant": "A test sees memory before and after a call, not at every intermediate step of every interleaving.", "anchors": ["src/kernels/quantize.inl: quant_generic, quant_uint4 (lines 51-71), quant_uint2", "src/kernels/kernels_specialized.inl: quant_*, dequant_* vector kernels", "src/kernels/dequantize.inl: dequant_generic", "src/piquant.cpp: job_entry"]}
{"id": "C98", "title": "Grid values keep their code for every zero point", "statement": "Quantizing (nearest) an element that lies exactly on the quantization grid, i.e. whose scaled value is an integer k, gives the code k + zero_point (saturated), for every 32-bit zero point, kernel and position; other elements get the nearest code.", "quantifier": "all tensors, sizes, types, scales, int32 zero points, contexts, schedules; scaled values k with k + zero_point strictly inside int32", "why_tests_cant": "The deviation occurs only for scaled values of magnitude 2^23 to 2^24 with a zero point that brings them back into the code range, and only in the vector body; tests use zero points between 0 and 255.", "anchors": ["src/kernels/kernels_specialized.inl:62-77 (prod + blend(±0.5), cvttps)", "src/kernels/kernels_specialized.inl:344-360", "src/kernels/kernels_specialized.inl:384-397", "src/kernels/kernels_specialized.inl:434-457", "src/kernels/quantize.inl:21-26"]}
{"id": "C99", "title": "Round trips with zero points outside the code range", "statement": "The zero point of a quantize/dequantize pair need not be a code. For every scale between 2^-126 and 2^105 and every zero point z of magnitude up to 2^20, finite float32 or bfloat16 data inside the interval [(0-z)*scale, (2^bits-1-z)*scale] that is quantized and dequantized to float32 comes back within scale*(t + (|z|+2^bits)/2^21) of itself, where t is 1/2 for nearest and 1 for stochastic rounding, on every instruction set, thread count and schedule; the fused call on float32 data has the same bound; codes dequantized to float32 and quantized again (nearest) are unchanged. So data in any interval [lo, hi] not wider than (2^bits-2)*scale and starting within 2^20-1 steps of zero survives with the zero point -floor(lo/scale), although the parameters the library computes for it do not work (C26). Beyond that, requantization can move codes (shown for zero point -4194364).", "quantifier": "all element counts, float inputs and codes, scales in the stated range, zero points of magnitude up to 2^20, instruction sets, thread counts and schedules of both calls", "why_tests_cant": "the tests only use zero points the library computed, which are clamped to the code range; the statement is over all data, scales and zero points", "anchors": ["src/piquant.cpp: quantize, dequantize", "src/kernels/quantize.inl: quant_step_scalar_nearest", "src/kernels/dequantize.inl: dequant_step", "src/kernels/kernels_specialized.inl"]}
{"id": "C100", "title": "Quantized all-reduce along a ring of peers", "statement": "A partial sum travels through any number of peers: at every hop the sender quantizes its partial sum (with that hop's type, parameters and rounding mode, representable range covering the sums plus the accumulated error) and the receiver adds the dequantized codes to its own float32 tensor with reduce operation ADD. Whatever the CPUs, thread counts and schedules, the last partial sum is finite and differs from the exact sum of all tensors by at most (1+2^-24)^hops times the sum over hops of half a step (nearest) or one step (stochastic), up to 2^-12 of a step, plus hops*(B/2^24 + 2^-150), where B bounds the sums of magnitudes. If the last peer then quantizes the sum and all peers dequantize these codes to float32, all of them hold bit-identical values, within that error plus the error of the last quantization.", "quantifier": "all numbers of hops and readers, tensors, element counts, per-hop types, scales, zero points, rounding modes and thresholds, instruction sets, thread counts and schedules of all calls", "why_tests_cant": "the error of one call feeds the next; a test has a fixed number of peers, one machine and one schedule", "anchors": ["src/piquant.cpp: quantize, dequantize", "src/kernels/quantize.inl", "src/kernels/dequantize.inl: dequant_step"]}
{"id": "C101", "title": "Accumulating contributions in a bfloat16 buffer has a bounded error", "statement": "Dequantizing with REDUCE ADD into a bfloat16 buffer leaves every element finite and within 17/16*2^-8 of (|old + v| + max(|v|, scale)) of old + v, where v = (code - zero_point)*scale, on every kernel although the kernels round at different places. Summing the quantized tensors of N peers into a bfloat16 accumulator in this way leaves an error of at most the sum of the peers' quantization errors plus N*17/2048 of the sum of magnitudes B, times (1 + 17/1024)^N. The growth with N cannot be avoided: adding 1/2 to an accumulator of 256 any number of times leaves it at 256.", "quantifier": "all tensors, element counts, integer types, scales in [2^-110, 2^116], zero points in the code range, kernels, thread counts, schedules, contraction choices, numbers of peers and orders", "why_tests_cant": "the error of a sum of any length is an induction over calls; tests add two or three values on one kernel and compare with a tolerance", "anchors": ["src/kernels/dequantize.inl:dequant_step", "src/kernels/kernels_specialized.inl:dequant_uint8_to_bf16", "include/piquant.hpp:reduce_op"]}
{"id": "C102", "title": "An all-reduce that computes its parameters at every hop has a relative error that grows by a fixed factor per hop", "statement": "A partial sum travels from peer to peer; each sender computes scale and zero point from the partial sum it holds, quantizes it, and the receiver dequantizes with REDUCE ADD into its own float32 tensor. If the true partial sums have both signs, no call fails, and the last partial sum is finite and within (((1+k)(1+2^-23))^hops - 1)*B of the true sum, where k = 2*(t + 2^-11)/(2^bits - 1) with t = 1/2 (nearest) or 1 (stochastic), and B bounds the sum of the magnitudes. When the last peer sends the sum, again with computed parameters, to any number of peers, all of them obtain bit-identical floats, with one more factor of error.", "quantifier": "all tensors with finite elements and mixed-sign partial sums, element counts, integer types per hop, rounding modes and thresholds, splits of the parameter search, kernels, thread counts, schedules and numbers of hops and readers", "why_tests_cant": "parameters depend on the rounded partial sums of all earlier hops; the bound is an induction over a history of any length with parameters no test fixes", "anchors": ["src/piquant.cpp:context::compute_quant_config_from_data", "src/piquant.cpp:context::quantize", "src/piquant.cpp:context::dequantize"]}
{"id": "C103", "title": "Every output byte is written once and, in SET mode, never read", "statement": "In every schedule and at every moment of a call no output byte has been written more than once; quantize and the SET calls never read the output buffer (so it may be uninitialised or write-only), ADD reads no byte more than once; a finished quantize or SET call has written every byte; hence the number of byte accesses is at most the output size (twice that for ADD), whatever the thread count. The one exception is the last byte of an odd number of uint4 codes, which quantize writes, reads back and writes again.", "quantifier": "all inputs, lengths, dtypes, thread counts, kernels, schedules, and all moments of an execution", "why_tests_cant": "Extra or missing accesses do not show in results; a test sees one schedule and cannot see reads at all.", "anchors": ["src/kernels/quantize.inl:51-99", "src/kernels/dequantize.inl:13-140", "src/kernels/kernels_specialized.inl", "src/kernels/kernels.inl:30-52"]}
{"id": "C104", "title": "Computed parameters follow the sign and the unit of the data", "statement": "For finite data the parameters computed from the negated tensor have the bit-identical scale and the mirrored zero point 2^bits-1-zp up to one (one off is attained on both sides). Multiplying the data by a power of two multiplies the computed scale by exactly that power of two and leaves the zero point unchanged (scale in the normal range); for data around zero the whole workflow - compute parameters, quantize, dequantize to float32 - then produces the same codes and exactly the scaled floats (nearest and stochastic; x86 nearest exclusion as in C71).", "quantifier": "all finite tensors of any length and either float type, all three target types, both rounding modes and every threshold, every two kernel sets (on SSE4.2: data whose extremes are seen, see C22), thread counts, block splits and schedules, every power of two", "why_tests_cant": "A relation between two runs on different data over all tensors and splits; a test compares a few pairs.", "anchors": ["src/piquant.cpp:222-259 compute_quant_config", "src/piquant.cpp:371-381 compute_quant_config_from_data", "src/piquant.cpp:277-340 quantize, dequantize"]}
{"id": "C105", "title": "Sign and order survive the round trip", "statement": "Quantizing (nearest or stochastic) and dequantizing to float32 with any zero point in the code range never flips the sign of an element, and zero comes back as zero. With the parameters computed from the data, two elements more than one step of the ideal grid apart (nearest) or two steps apart (stochastic), up to 2^-10 of a step, stay strictly ordered - so an element that exceeds all others by this margin is still the only largest one; with bfloat16 results 1/32 of a step and the bfloat16 resolution of the two elements are added; the margins cannot be reduced much.", "quantifier": "all tensors (sign: all data for which quantization is defined; order: finite data around zero), all lengths, both float input types, three target types, both rounding modes and every threshold, every pair of kernel sets, thread counts and schedules", "why_tests_cant": "Ranges over all pairs of elements of all tensors and over all kernels and schedules; a test sees a few.", "anchors": ["src/piquant.cpp:277-340 quantize, dequantize", "src/piquant.cpp:222-259 compute_quant_config", "src/kernels/quantize.inl:8-26"]}
{"id": "C106", "title": "Parameters taken from elsewhere clip and quantize", "statement": "For any scale in [2^-126, 2^119] and any zero point that is a code, wherever they come from, quantizing finite data (elements up to 2^29 steps) and dequantizing it to float32, or the fused float32 SET call, returns every element, clipped to the representable interval [(0-z)*scale, (2^bits-1-z)*scale], within half a step (nearest) or one step (stochastic), up to 2^-12 of a step; with bfloat16 output the same up to the rounding to bfloat16, at most (2^bits-1)/2^8 of a step more (scales in [2^-125, 2^118]). With parameters computed from a calibration tensor around zero with range [lo, hi] and used on another tensor, every element comes back within the same number of ideal steps (up to 2^-11 of a step) of the element clipped to [lo, hi].", "quantifier": "all tensors, parameters, calibration tensors, lengths, CPUs, thread counts, schedules, rounding modes and thresholds", "why_tests_cant": "calibration applies parameters to data never seen before; tests use the parameters on the data they were computed from", "anchors": ["src/kernels/quantize.inl: quant_step_scalar_*", "src/kernels/kernels_specialized.inl: quant_*", "src/piquant.cpp: context::quantize, context::dequantize, quantize_dequantize_fused, compute_quant_config_from_data"]}
{"id": "C107", "title": "Weighted sums, distances and dot products of reconstructed tensors", "statement": "With parameters computed from data around zero, after quantizing (either mode) and dequantizing to float32: any weighted sum (in exact arithmetic) of the reconstructed elements is within e*sum|w| of the weighted sum of the original elements, where e is half a step (nearest) or one step (stochastic) of the ideal grid up to 2^-11 of a step (so the mean moves by at most e); the squared Euclidean distance between tensor and reconstruction is at most n*e^2; the dot product of two reconstructed tensors, each with its own parameters, type and mode, is within e*sum|y| + e'*sum|x| + n*e*e' of the dot product of the originals.", "quantifier": "all tensors around zero, weights, lengths, types, CPUs, thread counts, schedules, rounding modes and thresholds", "why_tests_cant": "errors of all elements and all weight vectors at once", "anchors": ["src/piquant.cpp: context::quantize, context::dequantize, compute_quant_config_from_data"]}
{"id": "C108", "title": "Scales that are not positive and finite", "statement": "quantize, dequantize and the fused call reject a scale that is not a positive finite number.", "quantifier": "all tensors, scales that are zero, NaN or negative, zero points, types, lengths, CPUs, thread counts, schedules and rounding modes", "why_tests_cant": "a bad scale silently corrupts data of every value and length; the effect differs between kernels", "anchors": ["src/piquant.cpp: context::quantize, context::dequantize, quantize_dequantize_fused, compute_quant_config_from_data", "src/kernels/quantize.inl: inv_scale"]}
{"id": "C109", "title": "Chains of conversions", "statement": "A float32 or bfloat16 tensor that goes through any number of quantize/dequantize pairs, each with its own type, parameters (scale in [2^-125, 2^118], zero point a code), rounding mode, threshold, float type of the result (float32 or bfloat16), CPU and thread count, comes out as the original clipped to the representable interval of every stage in turn, with an error of at most the sum of the stages' errors (half a step for nearest, one step for stochastic, up to 2^-12 of a step; plus (2^bits-1)/2^8 of a step where a stage delivers bfloat16). If every stage can represent the data's range, nothing is clipped.", "quantifier": "all tensors, lengths, chains of any length, types, parameters, CPUs, thread counts, schedules, rounding modes and thresholds at every stage", "why_tests_cant": "chains of unbounded length over independent configurations", "anchors": ["src/piquant.cpp: context::quantize, context::dequantize", "src/kernels/quantize.inl: quant_step_scalar_*", "src/kernels/dequantize.inl: dequant_step"]}
{"id": "C110", "title": "Error feedback", "statement": "When in every round the sender adds the residual of the last round to the new tensor (float32), quantizes, transmits, and keeps the float32 difference between that sum and the dequantized codes as the new residual, then after any number of rounds, each with its own type, parameters, mode and machines, the residual is at most one quantization error, and the sum of everything transmitted equals the sum of all tensors plus the first residual minus the last one, up to the float32 rounding of the sender's own two operations per round: the loss does not accumulate.", "quantifier": "all sequences of tensors of any length, parameters (representable range large enough), CPUs, thread counts, schedules, rounding modes and thresholds", "why_tests_cant": "histories of unbounded length", "anchors": ["src/piquant.cpp: context::quantize, context::dequantize"]}
{"id": "C111", "title": "Replicas that apply the same updates stay identical", "statement": "Replicas that start with the same tensor and apply the same sequence of quantized updates (dequantize ADD, or SET for a refresh; any types, parameters and codes) hold the same tensor, bit for bit, after every update, on whatever CPU, with whatever thread counts and schedules each of them works.", "quantifier": "all sequences of updates, all types, parameters and codes, all element counts, all pairs of replicas (kernels, thread counts, addresses, receive buffers), all schedules of all calls", "why_tests_cant": "Ranges over unbounded histories on pairs of different machines.", "anchors": ["src/kernels/dequantize.inl:8-140", "src/kernels/kernels_specialized.inl dequant_*", "src/piquant.cpp:310-340 dequantize"]}
{"id": "C112", "title": "Closed-loop delta coding does not accumulate errors", "statement": "If in every round the sender quantizes the difference between its new tensor and the shared copy, and the copy is updated with dequantize(ADD), then after any number of rounds the copy is within one round's quantization error of the sender's last tensor (up to 2^-20 of it and float32 rounding), provided each round's range covers the change of the tensor plus that error: errors do not add up.", "quantifier": "all numbers of rounds, tensors changing by at most delta per round, types, parameters, rounding modes, thresholds, contexts, schedules of all calls, element counts", "why_tests_cant": "Ranges over unbounded histories; the invariant (the error of one round) must be preserved by every round on every kernel.", "anchors": ["src/piquant.cpp:277-340 quantize, dequantize", "src/kernels/quantize.inl", "src/kernels/dequantize.inl"]}
{"id": "C113", "title": "Changing the type or the zero point of codes on one scale is exact", "statement": "Dequantizing codes to float32 and quantizing the result (nearest) with the same scale but another type and zero point is exact integer arithmetic: code q becomes q - z + z', clamped to the new range. A sequence of such steps loses nothing but what a type on the way cannot represent, so widening (uint2 to uint4 to uint8) and narrowing back is lossless.", "quantifier": "all code tensors, element counts, types, scales in [2^-126, 2^119], zero points in the code range, sequences of recodings of any length, kernel sets, thread counts, schedules of all calls", "why_tests_cant": "The float32 product and quotient are inexact for nearly every scale; that rounding always returns to the integer, on every kernel and for every scale, cannot be tested exhaustively.", "anchors": ["src/kernels/dequantize.inl:8-11 dequant_step", "src/kernels/quantize.inl:21-26", "src/piquant.cpp:277-340 quantize, dequantize"]}
{"id": "C114", "title": "Sums on a power-of-two grid are exact and do not depend on the order", "statement": "If the starting values, the scaled codes (q - z) * scale and the partial sums of a sequence of dequantize(ADD) calls are integer multiples of one power of two, at most 2^24 of it for float32 and 2^8 for bfloat16 (scale included), the accumulator is exactly the sum. So within that budget the order of the updates, kernels, thread counts, schedules and contraction of sums cannot change the result. Off the grid the order matters, and one step above the budget is lost.", "quantifier": "all numbers and orders of updates, element counts, types, grid steps 2^-149..2^103 (float32) or 2^-126..2^103 (bfloat16), zero points (up to 2^23, in the code range for bfloat16), code tensors, contexts and contraction per call, schedules", "why_tests_cant": "Order independence ranges over all permutations of unbounded lists of calls; each kernel evaluates the sum in another way and exactness must hold for every rounding step.", "anchors": ["src/kernels/dequantize.inl:8-11 dequant_step", "src/kernels/dequantize.inl:89-140 dequant_generic", "src/kernels/kernels_specialized.inl:729-982 dequant_uint8", "src/piquant.cpp:310-340 dequantize"]}
{"id": "C115", "title": "A store of separately quantized blocks", "statement": "Blocks (rows of a tensor, pages of a cache) can be quantized into one buffer, each with parameters computed from its own data, and read back in any order and any number of times, while other blocks are stored, overwritten and read: every read of a block whose codes have not been overwritten since it was stored returns each element within half a step (nearest) or one step (stochastic) of the grid over the block's own range, up to 2^-11 of a step, and no operation fails. The bound is never weaker than that for the range of the whole tensor.", "quantifier": "all histories of stores and reads, blocks (finite data around zero, float32 or bfloat16), types, sizes, addresses, rounding modes, thresholds, kernel sets, thread counts, schedules", "why_tests_cant": "Ranges over unbounded histories of calls on shared memory; it combines the frame of every call with the error bound of every kernel.", "anchors": ["src/piquant.cpp:222-340 compute_quant_config, quantize, dequantize", "src/piquant.cpp:371-381 compute_quant_config_from_data", "src/kernels/quantize.inl", "src/kernels/dequantize.inl"]}
{"id": "C116", "title": "Complete specification of nearest quantization, for any data", "statement": "For every legal quantize call with nearest rounding - any data (NaN, infinities, any magnitude), any scale, any zero point, any output address and thread count - it is determined which elements are processed by vector instructions (after the alignment prologue of each worker's run, in whole groups of the kernel's width). In every finished execution those elements have the code given by the vector formula (32-bit wrapping sum of the rounded scaled value and the zero point, saturated), all other elements have the scalar code and the scalar arithmetic on them was defined; the padding bits are zero and nothing else is written. The call is free of faults if the scalar arithmetic is defined on all elements outside the vector groups, whatever the others are, and if it is undefined on one such element no execution finishes. Two calls agree on every element that is in the vector part of both or of neither; elsewhere they agree exactly if the two formulas give the same code.", "quantifier": "all CPUs, thread counts, addresses, lengths, float dtypes, quantized dtypes, scales, zero points, input bit patterns and schedules", "why_tests_cant": "which of two different formulas an element gets depends on its position relative to thread boundaries and to the output address; tests use aligned vectors, few threads and well-behaved data", "anchors": ["src/kernels/kernels_specialized.inl: quant_f32_to_uint8_nearest, quant_bf16_to_uint8_nearest, quant_f32_to_uint4_nearest, quant_bf16_to_uint4_nearest, quant_bf16_to_uint2_nearest", "src/kernels/quantize.inl: quant_step_scalar_nearest, quant_uint4, quant_uint2", "src/piquant.cpp: job_entry, partition_row"]}
{"id": "C117", "title": "Complete specification of dequantization", "statement": "For every legal dequantize call (zero point in the range of C11) it is determined which codes are processed by vector instructions (whole groups from the start of each worker's run), no execution faults, and every finished execution stores exactly: for float32, the value of the code, or its sum with the old element, contracted to a fused multiply-add or not according to the compiler's choice for the part of the library that processes that position (and stored instead of added on the last n mod 4 elements of a uint2 tensor); for bf16, the scalar result (value rounded to bf16, sum rounded again) outside the vector groups and the AVX-512 result (unrounded or biased fused value, rounded once, denormal results flushed to a signed zero on AVX512-BF16) inside them. Nothing else is written. Two calls on the same codes agree on every element that is in the vector part of both or of neither.", "quantifier": "all CPUs, thread counts, addresses, lengths, quantized dtypes, float dtypes, scales, zero points, codes, old contents, contraction choices, reduce operations and schedules", "why_tests_cant": "which of the formulas an element gets depends on its position relative to thread boundaries; tests use one build, one CPU and tolerances that hide the differences", "anchors": ["src/kernels/kernels_specialized.inl: dequant_uint8_to_f32, dequant_uint4_to_f32, dequant_uint8_to_bf16, dequant_uint4_to_bf16, dequant_uint2_to_bf16", "src/kernels/dequantize.inl: dequant_generic, dequant_uint2", "src/piquant.cpp: job_entry, partition_row"]}
{"id": "C118", "title": "Complete specification of stochastic quantization and of the fused call", "statement": "For every legal stochastic quantize call with a threshold in [0, oo) and for every legal fused call, on any data (NaN, infinities, any magnitude), any scale and any int64 zero point: a finished execution means that the 64-bit arithmetic was defined on every element, and then each code is exactly sat(rounded + zero_point) - the same on every CPU, thread count, address and schedule - the padding bits are zero and nothing else is written; the fused call stores, or adds to the old element, exactly the float32 (or IEEE bf16) value of that code. No execution faults if the scaled value of every element is finite, is rounded to an int64 and gives an int64 sum with the zero point (fused: also difference of code and zero point); if one element violates this, no execution finishes.", "quantifier": "all CPUs, thread counts, addresses, lengths, dtypes, data, scales, 64-bit zero points, thresholds, rounding modes and reduce operations of the fused call, old contents, contraction choices and schedules", "why_tests_cant": "tests sample tame data with small zero points and check with tolerances; neither the exact codes nor the exact boundary of undefined behaviour is visible to them", "anchors": ["src/kernels/quantize.inl: quant_step_scalar_stochastic, quant_step_scalar_nearest, quant_generic, quant_uint4, quant_uint2", "src/kernels/kernels.inl: requant_generic", "src/kernels/dequantize.inl: dequant_step", "src/piquant.cpp: job_entry"]}
{"id": "C119", "title": "compute_quant_config_from_data is completely determined by the elements it looks at", "statement": "For every non-empty data set in which no element that the kernel looks at is NaN (every element on the portable, AVX2 and AVX-512 kernels; on SSE4.2 all but every fourth lane of the vector part), whatever the other elements are: if one of them is minus infinity the call is undefined behaviour, otherwise if one is plus infinity it returns scale infinity and zero point 0, otherwise exactly the parameters of their least and greatest value. It returns a finite scale if and only if all of them are finite. Two arrays that agree on these elements get the same answer; on the other kernel sets the answer depends neither on the kernel set nor on the split into blocks.", "quantifier": "all kernel sets, float types, data (also NaN and infinities in the elements not looked at), lengths, splits into blocks and integer types", "why_tests_cant": "tests use finite data and check the result of one CPU; neither the overlooked elements nor infinities occur in them", "anchors": ["src/kernels/kernels_specialized.inl: find_min_max", "src/piquant.cpp: compute_quant_config, compute_quant_config_from_data"]}
{"id": "C120", "title": "Elements in the computed range survive the round trip whatever the other elements are", "statement": "Parameters computed on any CPU from data whose elements that count (all of them, except every fourth lane of the vector part on SSE4.2) are finite with least value lo <= 0 and greatest value hi >= 0, scale in [2^-126, 2^119]: after quantize with nearest rounding and dequantize to float32, on any CPUs, thread counts and schedules, every finite element in [lo, hi] - in particular every element that counts - comes back within scale * (1/2 + 2^-12), even if other elements of the same array are NaN, infinite or out of range. If the quantize call faults, then only by an undefined conversion of one of those.", "quantifier": "all kernel sets, data (also NaN and infinities in the elements not looked at), lengths, splits, integer types, addresses, thread counts, old contents and schedules", "why_tests_cant": "tests check the round trip on finite data on one machine; isolation of good elements from bad ones in the same vector needs all positions and values", "anchors": ["src/piquant.cpp: compute_quant_config_from_data, quantize, dequantize", "src/kernels/kernels_specialized.inl: find_min_max", "src/kernels/quantize.inl: quant_step_scalar_nearest"]}
