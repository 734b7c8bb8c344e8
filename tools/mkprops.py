import json
P=[]
def p(id,title,statement,quant,why,anchors): P.append(dict(id=id,title=title,statement=statement,quantifier=quant,why_tests_cant=why,anchors=anchors))
PI='src/piquant.cpp'; Q='src/kernels/quantize.inl'; D='src/kernels/dequantize.inl'; S='src/kernels/kernels_specialized.inl'; K='src/kernels/kernels.inl'; H='include/piquant.hpp'; C='src/capi.cpp'; PY='python/src/piquant/__init__.py'; PT='python/src/piquant/torch.py'; IH='src/piquant_internal.hpp'
p('C01','Work split tiles the tensor exactly','For every element count, every thread count >= 1 and every supported dtype pair, the per-thread element ranges of quantize/dequantize/fused are consecutive, disjoint, and together are exactly [0, numel); no element is processed twice or skipped.','all numel, all thread counts >= 1, all dtype pairs and command types (with numel*threads < 2^63)','The split depends on numel, thread count and packing factor; tests use 4 threads and a few sizes.',[PI+':context::pimpl::job_entry'])
p('C02','Workers never touch the same output byte','During one quantize/dequantize/fused call, no output byte is written (or read in ADD mode) by two workers, including packed uint2/uint4 outputs where several elements share a byte.','all numel, thread counts, dtype pairs, worker pairs','A data race shows up only for particular (numel, threads) pairs and only under unlucky timing.',[PI+':context::pimpl::job_entry',S,Q,D])
p('C03','Every schedule of the workers yields the same result','However the worker threads of one call are interleaved (byte by byte), the call terminates and the final output buffer is the same as running the workers one after another; a fault happens under some schedule only if it happens sequentially.','all interleavings of all workers at single-byte-access granularity','The number of interleavings is astronomically large and the scheduler is not controllable from a unit test.',[PI+':context::pimpl::operator()',PI+':context::pimpl::job_entry'])
p('C04','quantize writes exactly the output buffer','A successful quantize call writes every byte of the output span (ceil(numel*bits/8) bytes) and never accesses memory outside the input and output spans.','all numel, dtypes, threads, CPU variants, buffer addresses','Out-of-bounds behaviour depends on numel modulo vector widths and on pointer alignment.',[PI+':context::quantize',Q,S])
p('C05','Codes are in range and packed padding is zero','Every stored code lies in [0, 2^bits-1], element i sits in byte i/(8/bits) at bit bits*(i mod (8/bits)), and the unused high bits of the last byte are zero.','all inputs (including NaN/inf for vector lanes), all numel, all dtypes','Only a few tail sizes are tested.',[Q+':quant_uint4',Q+':quant_uint2',S])
p('C06','Nearest quantization formula (portable code path)','With round_mode nearest, element i of the output is clamp(roundHalfAwayFromZero(fl32(x_i * fl32(1/scale))) + zero_point, 0, 2^bits-1), for every supported dtype pair on the portable kernels.','all inputs whose scaled value fits the intermediate integer, all scales, zero points, numel, thread counts','Float rounding corner cases and tails cannot be enumerated.',[Q+':quant_step_scalar_nearest',S])
p('C07','Vectorised nearest quantization equals the formula up to one float per sign','On every CPU kernel (SSE4.2, AVX2, AVX512F, AVX512F+BF16, NEON, portable) and for zero points of magnitude at most 2^22, each output code equals the portable formula for every element except where the scaled value is exactly +-0.49999997 (the float before one half), where it may be one step further from zero. For other 32-bit zero points the exceptions are that value and scaled values of magnitude in [2^23, 2^24).','all inputs with in-range scaled value, all numel, alignments, thread counts, ISAs','Exceptional inputs are 2 of 2^32 floats; lane permutation mistakes show only at specific lanes.',[S+':quant_f32_to_uint8_nearest',S+':quant_bf16_to_uint8_nearest',S+':quant_f32_to_uint4_nearest',S+':quant_bf16_to_uint4_nearest',S+':quant_bf16_to_uint2_nearest'])
p('C08','Result of nearest quantization does not depend on thread count, buffer alignment or CPU','For fixed inputs and parameters the output bytes of quantize(nearest) are identical for every thread count, every output address and every selected CPU kernel.','all pairs of configurations, all inputs','Needs the cross product of configurations with all inputs.',[S,PI+':context::pimpl::operator()'])
p('C09','Dequantization SET formula','dequantize with SET stores fl32((code_i - zero_point)*scale) (rounded to the output dtype) at index i, independent of previous output contents, for every quantized dtype and output dtype.','all code buffers, scales, zero points, numel, thread counts, ISAs','Vector lane/unpack order errors depend on position modulo up to 256.',[D,S+':dequant_uint8_to_f32',S+':dequant_uint4_to_f32',S+':dequant_uint4_to_bf16',S+':dequant_uint2_to_bf16'])
p('C10','Dequantization ADD accumulates into every element','dequantize with ADD stores old_i + dequant(code_i) for every i < numel (the product and the sum rounded separately, or in one rounding where the compiler contracts them).','all dtypes, numel, ISAs, prior contents','A missed tail element depends on numel modulo the packing factor; the existing tests tolerate it.',[D+':dequant_uint2',D,S])
p('C11','dequantize never reads or writes outside its spans','For input and output spans accepted by dequantize, no access falls outside them.','all numel, dtypes, threads, ISAs','A one-byte over-read is invisible without a guard page exactly after the buffer.',[D+':dequant_uint2',D,S])
p('C12','Packing is lossless','Reading element i back out of a packed buffer produced by quantize yields exactly the code computed for x_i (uint2, uint4, uint8), for every numel.','all code sequences and lengths','Tail length and nibble order combinations.',[Q,D])
p('C13','Dequantize-then-quantize is the identity on codes','For any positive normal scale up to 2^119 and any zero point in [0,2^bits-1], quantize(dequantize(q)) == q for every code q (f32, nearest).','all codes, all normal scales (2^31 values), all zero points','2^31 scales x 256 codes x 256 zero points.',[Q+':quant_step_scalar_nearest',D+':dequant_step'])
p('C14','Quantization is monotone','For scale > 0, x <= y implies code(x) <= code(y), for nearest and for stochastic rounding with a common threshold.','all pairs of finite inputs, all positive scales, zero points, thresholds','2^64 pairs of inputs.',[Q])
p('C15','Out-of-range values saturate','Inputs whose scaled value plus zero point exceeds 2^bits-1 get the maximal code; inputs below 0 get code 0; no wrap-around occurs.','all inputs','Requires very large x/scale ratios; the failing region starts at 2^31.',[Q,S])
p('C16','Nearest rounding error is at most half a step','When round(x*inv)+zp is in [0,2^bits-1], |code - zp - x*inv| <= 1/2 (1/2+2^-25 on vector kernels).','all inputs, scales, zero points','Exhaustive over floats is infeasible.',[Q,S])
p('C17','Stochastic rounding picks one of the two neighbours','With stochastic rounding the unclamped code minus zero point is trunc(v) or trunc(v) moved one step away from zero, where v = fl32(x*fl32(1/scale)); exactly representable integers are never changed; it moves away from zero iff threshold < |v - trunc(v)|.','all inputs and thresholds','Random thresholds hide boundary mistakes.',[Q+':quant_step_scalar_stochastic'])
p('C18','Stochastic rounding is unbiased','For a threshold uniform on [0,1), the expected value of the (unclamped) code minus zero point equals v = fl32(x*fl32(1/scale)).','all inputs; expectation over the threshold','Statistical tests only bound the bias for sampled inputs.',[Q+':quant_step_scalar_stochastic',PI+':context::pimpl::operator()'])
p('C19','One threshold per call','Within one stochastic quantize call, equal inputs receive equal codes irrespective of position and worker.','all positions, thread counts','Depends on all positions.',[PI+':context::pimpl::operator()'])
p('C20','Computed zero point is in range','Whenever compute_quant_config_from_data returns, the zero point is in [0, 2^bits-1]; on data without infinities it aborts or returns (no undefined behaviour).','all finite data, all block splits','Requires all data distributions.',[PI+':compute_quant_config'])
p('C21','Computed scale is positive and finite','For non-empty finite data whose range max-min is at least (2^bits-1)*2^-149, the returned scale is finite and > 0.','all finite data','Tiny/huge ranges are not sampled.',[PI+':compute_quant_config'])
p('C22','Parameter search finds the true minimum and maximum','For finite data the min/max used by compute_quant_config_from_data are the true minimum and maximum, for every way the thread pool splits the data into non-empty blocks and every CPU kernel.','all data, lengths, splits, ISAs','A dropped vector lane is only visible if the extremum sits in it.',[S+':find_min_max_f32',S+':find_min_max_bf16',PI+':compute_quant_config'])
p('C23','Constant tensors get scale 1 and mid zero point','If all elements are equal (and finite) the result is scale 1 and zero point floor((2^bits-1)/2).','all lengths >= 1 and constants','All constants and lengths.',[PI+':compute_quant_config'])
p('C24','Empty or all-NaN data aborts','compute_quant_config_from_data on empty data, or data consisting only of NaN (any kernel), aborts rather than returning a bogus scale.','all such inputs','Aborting inputs are not unit-tested.',[PI+':compute_quant_config',PI+':context::compute_quant_config_from_data'])
p('C25','Round-trip error with computed parameters','For finite data with min <= 0 <= max and a range whose scale is in [2^-126, 2^119], parameters computed from the data, then quantize(nearest) and dequantize(SET) to f32, give |y_i - x_i| <= scale*(1/2 + 2^-12) for every element.','all such data sets, lengths, splits, thread counts, ISAs','Continuum of data sets; float error accumulates over five roundings.',[PI+':compute_quant_config',Q,D,S])
p('C26','Round-trip bound is unconditional','The bound of C25 holds for every finite data set (README usage example asserts allclose with atol=scale*0.5+1e-3).','all finite data','Data not straddling zero is not tested.',[PI+':compute_quant_config','README.md'])
p('C27','Illegal dtype combinations and sizes abort before any write','quantize/dequantize/fused abort without writing unless input/output dtypes have the right kind and the span sizes match; otherwise they do not abort.','all dtype pairs and sizes','All sizes.',[PI+':context::quantize',PI+':context::dequantize',PI+':context::quantize_dequantize_fused'])
p('C28','C API is equivalent to the C++ API','piquant_quantize/piquant_dequantize with numel elements behave exactly as the C++ calls on spans of numel elements and never trip the size assertions (for legal dtypes).','all numel without size overflow, all legal dtypes','All sizes.',[C])
p('C29','bfloat16 conversion is round-to-nearest-even','Conversion float->bf16 yields the nearest bf16 with ties to even, overflow to infinity, preserves sign, infinities and NaN-ness; bf16->float->bf16 is the identity on non-signalling values.','all 2^32 floats','Stated against the mathematical definition for every float.',[H+':bfp16_t'])
p('C30','Vector bf16 conversion agrees with the scalar one','The AVX512F float->bf16 conversion used in dequantize gives the same bits as the scalar conversion.','all 2^32 floats','NaN payload corner cases.',[S+':cvt_ps_to_bf16'])
p('C31','CPU dispatch only selects supported kernels','The kernel set selected at context creation uses only instruction set extensions the CPU reports (and the OS enables).','all CPUID/XGETBV register values','CI runs on a handful of CPUs.',[PI+':check_avx512f_support',PI+':check_avx2_support',PI+':context::pimpl::pimpl','CMakeLists.txt'])
p('C32','Fused call equals quantize followed by dequantize','quantize_dequantize_fused stores (SET) / adds (ADD) exactly what quantize with the same mode followed by dequantize would produce.','all inputs, dtypes, modes','All inputs.',[K+':requant_generic',D+':dequant_step'])
p('C33','A context with zero threads','Every successful quantize call writes the output, whatever thread count the context was created with.','all thread counts','Thread count 0 is not tested.',[PI+':context::pimpl::operator()'])
p('C34','Zero point is used at full width','For every 64-bit zero point, all dtype/rounding combinations use the same zero point value.','all int64 zero points','2^64 values.',[Q+':quant_generic',D+':dequant_generic',S])
p('C35','Streaming stores are aligned','Every non-temporal vector store targets an address aligned to the vector size, for every output address and slice offset.','all addresses, numel, slices','Allocators return aligned memory in tests.',[S+':quant_f32_to_uint8_nearest',S+':quant_bf16_to_uint8_nearest'])
p('C36','Zero is exact','Quantizing 0.0 gives code clamp(zero_point), and dequantizing code zero_point gives exactly 0.','all scales and zero points, ISAs','FMA-based kernels reintroduce rounding residue for some scales only.',[S+':dequant_uint4_to_bf16',S+':dequant_uint2_to_bf16',Q,D])
p('C37','Parameter result does not depend on the block split','For finite data compute_quant_config_from_data returns the same (scale, zero point) for every split of the data into non-empty blocks (every kernel except the SSE4.2 vector loop, see C22).','all pairs of splits','Split depends on pool size and n.',[PI+':compute_quant_config'])
p('C38','Quantize calls are idempotent and input-preserving','Repeating a quantize(nearest) or dequantize(SET) call leaves the output unchanged; the input buffer is never modified.','all inputs','All inputs.',[PI,Q,D])
p('C39','Python dtype helpers are consistent with the library','Python DataType.stride equals the C++ stride; piquant_to_torch_dtype inverts torch_to_piquant_dtype.','all dtypes','Finite, but untested and wrong.',[PY+':DataType.stride',PT+':piquant_to_torch_dtype'])
p('C40','Python quantize validates tensor dtype','compute_quant_params reads no bytes beyond the tensor for every torch dtype.','all torch dtypes and sizes','Only float32/bfloat16 tested.',[PT+':compute_quant_params'])
p('C41','Every call terminates','All kernel loops terminate for every numel and every ISA, including the 63-stride min/max loop.','all numel','Unbounded.',[S,Q,D])
p('C42','Dequantization is monotone and bounded','For scale > 0 the dequantized f32 value is monotone in the code.','all codes pairs, scales, zps','All scales.',[D])
p('C43','Repeated ADD equals a left-to-right sum','k successive dequantize(ADD) calls leave old + d1 + ... + dk summed left to right in f32, for each element (dtypes other than uint2); each step is rounded as the compiler chose for ADD (sum and product separately, or contracted).','all k, all inputs','Unbounded k.',[D,S])
p('C44','Round-trip error for arbitrary parameters','For any normal scale up to 2^119 and any zero point in [0,2^bits-1], quantize(nearest) followed by dequantize(SET) to f32 gives |y_i - x_i| <= scale*(1/2+2^-12) for every element whose value lies within the representable range [-zp*scale, (2^bits-1-zp)*scale].','all inputs in range, all scales, zero points, sizes, threads, ISAs','Continuum of inputs and parameters.',[Q,D,S])
p('C45','C API rejects counts whose byte size overflows','piquant_quantize/piquant_dequantize called with an element count whose byte size does not fit in 64 bits abort (size assertion) before touching memory.','all 64-bit element counts whose byte size wraps','Sizes near 2^62.',[C,IH+':packed_numel'])
p('C46','The best supported kernel is selected','On an x86 CPU the selected kernel set is the most capable one for which CPUID and the OS report all required extensions.','all CPUID/XGETBV register values','CI runs on a handful of CPUs.',[PI+':context::pimpl::pimpl'])
p('C47','Python quantize/dequantize are the C++ calls on the tensor bytes','piquant.torch.quantize/dequantize on a supported tensor dtype performs exactly the C++ call on the bytes of the tensor and a fresh output; unsupported dtypes, round modes and empty tensors raise an exception before any native call.','all tensors, dtypes, parameters','All tensors and dtypes.',[PT+':quantize',PT+':dequantize',PY+':Context.quantize_ptr',PY+':Context.dequantize_ptr'])
p('C48','The result of torch dequantize depends only on its arguments','The tensor returned by piquant.torch.dequantize is determined by the input tensor and parameters, whatever bytes the freshly allocated output contains, for every reduce operation.','all previous contents of the uninitialised output','Fresh allocations are usually zero in tests.',[PT+':dequantize'])
p('C49','The Python workflow reconstructs the tensor','piquant.torch.compute_quant_params, quantize (nearest) and dequantize to float32 with the returned Python float scale: no exception, no fault, and |y_i - x_i| <= scale*(1/2+2^-12) for every element of a finite float32/bfloat16 tensor whose values straddle zero and whose scale is in [2^-126, 2^119].','all such tensors, block splits, thread counts, kernels, allocation addresses and contents','Composition over three calls, two languages and a double/float conversion.',[PT,PY,C,PI])
p('C50','Calls made at the same time do not disturb each other','Any number of quantize, dequantize and fused calls made concurrently (same context or different ones) on disjoint output spans: every interleaving of all their worker threads is race free, stays inside the spans, terminates, and leaves in each output span exactly what that call leaves there when made alone; no other byte changes.','all numbers of concurrent calls, all legal arguments, all interleavings','Interleavings of several calls cannot be enumerated or forced.',[PI+':context::pimpl::operator()',PI+':context::pimpl::job_entry'])
p('C51','Typed C++ wrappers are the byte calls','quantize_generic/dequantize_generic/quantize_dequantize_fused_generic are accepted exactly when the element types have the right kind and the storage-element counts match the packed size, abort before any write otherwise, and then act as the byte-span call on all elements.','all element type pairs and counts','Only a few type pairs are instantiated in tests.',[H+':context::quantize_generic',H+':context::dequantize_generic',H+':context::quantize_dequantize_fused_generic'])
p('C52','dtype_limits bound the values of each type','dtype_limits<T>::min/max are the least and greatest (finite) value of every element type.','all element types and all their values','Never tested.',[H+':dtype_limits'])
p('C53','Computed parameters can be used on their own data','For every non-empty finite data set, quantizing (nearest) the data with the scale and zero point computed from it never has undefined behaviour and every code is the saturated formula.','all finite data sets, lengths, block splits, thread counts, kernels','The failing data sets (large constants, values far from zero, tiny ranges) are not sampled.',[PI+':compute_quant_config',Q,S])
p('C54','Fake quantization is idempotent','Running quantize_dequantize_fused (float32, SET, either rounding mode) and running it again on its own output with nearest rounding and the same parameters returns the same floats, for every scale in [2^-126, 2^119] and every zero point in [0, 2^bits-1].','all inputs on which the first call is defined (saturating or not), scales, zero points, sizes, thread counts, kernels','2^32 inputs x 2^31 scales; float error of re-scaling could cross a rounding boundary.',['src/kernels/kernels.inl:requant_generic', 'src/piquant.cpp:context::quantize_dequantize_fused'])
p('C55','Fake quantization error','quantize_dequantize_fused (float32, SET) changes an element inside the representable range by at most scale*(1/2+2^-12) (nearest) or scale*(1+2^-12) (stochastic), for any parameters with scale in [2^-126, 2^119] and zero point in [0,2^bits-1], and for parameters computed from data around zero (every kernel except the SSE4.2 vector search, see C22).','all inputs in range, scales, zero points, thresholds, sizes, thread counts, kernels','Continuum of inputs and parameters.',['src/kernels/kernels.inl:requant_generic', 'src/piquant.cpp:compute_quant_config'])
p('C56','Stochastic round-trip error','quantize(stochastic) followed by dequantize(SET) to f32 gives |y_i - x_i| <= scale*(1+2^-12) for every element inside the representable range (any parameters), and for every element of data around zero with computed parameters (every kernel except the SSE4.2 vector search, see C22).','all inputs in range, scales, zero points, thresholds, sizes, thread counts, kernels','Continuum of inputs, parameters and thresholds.',['src/kernels/quantize.inl:quant_step_scalar_stochastic', 'src/kernels/dequantize.inl'])
p('C57','bf16 tensors keep their codes','Dequantizing to bf16 and quantizing the result with the same parameters (nearest) restores every code, for scales in [2^-125, 2^118] and zero points in [0,2^bits-1].','all code buffers, scales, zero points, sizes, thread counts, pairs of kernels','2^31 scales; whether the 8-bit significand of bf16 separates neighbouring codes depends on scale and code.',['src/kernels/dequantize.inl', 'src/kernels/quantize.inl', 'src/kernels/kernels_specialized.inl'])
p('C58','Round-trip error with bf16 output','quantize(nearest) of a float32 or bf16 tensor followed by dequantize(SET) to bf16 gives |y_i - x_i| <= scale*(1/2 + (2^bits-1)/256 + 2^-12) for every element inside the representable range, for any scale in [2^-125, 2^118] and zero point in [0,2^bits-1].','all inputs in range, scales, zero points, sizes, thread counts, kernels','Continuum of inputs and parameters; AVX-512 kernels use a different formula.',['src/kernels/dequantize.inl', 'src/kernels/kernels_specialized.inl:dequant_uint8_to_bf16', 'src/kernels/kernels_specialized.inl:dequant_uint4_to_bf16'])
p('C59','Elements that cannot be quantized do not disturb the others','A tensor may contain NaNs, infinities or values far out of range. In every execution of quantize that finishes, each element whose own arithmetic is defined still gets the code of the formula, whatever its neighbours in the same byte, vector or slice are. With nearest rounding on the x86 kernels an element that cannot be quantized gets the lowest code (the highest code when the zero point is negative); on NEON a NaN gets the zero point.','all inputs, including NaN/infinity, all kernels, dtypes, modes, thread counts, |zero_point| <= 2^22','Where a NaN sits relative to vector blocks, packed bytes and thread slices decides what code path handles it; tests cannot place one everywhere.',['src/kernels/quantize.inl', 'src/kernels/kernels_specialized.inl'])
p('C60','Nearest quantization picks a closest representable value',"Quantize with nearest rounding, then dequantize to float32: for every element, inside or outside the representable range, no code's value is closer to the element than the returned value, up to 2^-10 of a step.",'all finite inputs with |x| <= 2^29*scale, scale in [2^-126, 2^119], zero point a code, all kernels, dtypes, thread counts, all competing codes','Optimality against every code for every input and parameter set.',['src/kernels/quantize.inl', 'src/kernels/dequantize.inl', 'src/kernels/kernels_specialized.inl'])
p('C61','Work is balanced',"In every execution, each worker touches one block of consecutive output bytes, holding at most numel/threads elements plus one byte's worth of elements.",'all numel, thread counts, dtype pairs, schedules','The split depends on numel, thread count and packing factor.',['src/piquant.cpp:context::pimpl::job_entry'])
p('C62','Computed parameters are a function of the set of values','For finite data, compute_quant_params_* depends only on the set of values in the tensor: reordering or repeating elements, storing the same values as float32 or bfloat16, changing the number of threads, how they split the work, or the CPU gives the same scale and zero point; adding elements inside the range changes nothing; adding any elements never shrinks the scale of non-constant data; and scale * (2^bits - 1) is the width of the data up to a relative error of about 2^-24.','all finite float32/bfloat16 buffers, all reorderings and supersets, all partitions, kernel sets and quantized types','It compares calls over unbounded families of buffers and schedules; a test can only compare a few permutations.',['src/piquant.cpp:compute_quant_config', 'src/piquant.cpp:compute_quant_config_from_data', 'src/kernels/kernels_specialized.inl:find_min_max_float32', 'src/kernels/kernels_specialized.inl:find_min_max_bfloat16'])
p('C63','Round trip error with computed parameters for data that does not straddle zero','Quantizing with the parameters computed from the data and dequantizing returns every element to within max(scale/2, distance of the data from zero) + scale/512; conversely for data strictly above zero by more than the range the largest element really does come back off by the distance of the data from zero: the zero point is clamped and the offset of the data is lost.','all finite buffers whose elements are within 2^29 steps of zero, all three quantized types, all kernel sets, thread counts and schedules','A bound over every possible data range and schedule.',['src/piquant.cpp:compute_quant_config', 'src/piquant.cpp:quantize', 'src/piquant.cpp:dequantize'])
p('C64',"The README example's assertion",'Running the documented torch workflow (compute_quant_params, quantize to quint4x2, dequantize to bfloat16) on a bfloat16 tensor with values in [0, 1) returns a tensor for which torch.allclose(dequantized, tensor, atol=scale/2 + 1e-3) holds.','all tensors with values in [0,1], all sizes, kernel sets, thread counts and schedules','The README asserts it for one random tensor; the assertion fails for some tensors that torch.rand can produce.',['README.md', 'python/example/example_torch.py', 'python/src/piquant/torch.py:quantize', 'python/src/piquant/torch.py:dequantize', 'python/src/piquant/torch.py:compute_quant_params'])
p('C65','bfp16_t arithmetic is IEEE bfloat16 arithmetic','The bfp16_t operators +, -, * and / convert both operands to float, compute in float and round the float result back; although this rounds twice, for every pair of bfloat16 operands the result is the exact real result rounded once to the nearest bfloat16 with ties to even, with IEEE results for zeros, infinities and NaN.','all pairs of 16-bit operands (2^32) for each of the four operators','Double rounding errors appear on isolated operand pairs only; the claim covers all 2^34 cases and explains them.',['include/piquant.hpp:bfp16_t'])
p('C66','bfp16_t equality is equality of values','a == b for two bfp16_t values is true exactly when they denote the same number, and a != b is its negation.','all pairs of 16-bit operands','It ranges over all pairs and fails on isolated ones (signed zeros, NaN).',['include/piquant.hpp:bfp16_t'])
p('C67','Quantization and dequantization are element-wise','The code of an element depends on that element only: quantizing any selection of the elements of a tensor (a slice, a permutation, a repetition, a copy in the other float type) gives that selection of the codes; quantizing a tensor in pieces that fill whole bytes gives the bytes of quantizing it at once; dequantizing a selection of the codes gives that selection of the values.','all tensors, all selections of elements, all cut points, both rounding modes with a fixed threshold, kernel sets, thread counts and schedules of both calls','It compares pairs of calls over unbounded families of tensors, selections and thread splits.',['src/piquant.cpp:quantize', 'src/piquant.cpp:dequantize', 'src/kernels/quantize.inl', 'src/kernels/kernels_specialized.inl'])
p('C68','Random thresholds: one standard generator per calling thread',"Each calling thread owns a std::mt19937_64 seeded once. The k-th stochastic call (quantize or fused) a thread makes uses the k-th value of that thread's generator, whatever calls other threads make, and whatever nearest or dequantize calls are made in between; non-stochastic calls use no random value. The generator's values are those of the C++ standard for that seed, and the threshold derived from a value is a finite float in [0, 1), equal to value/2^64 up to 2^-24; so stochastic quantization at any point of any history rounds to one of the two neighbouring codes, and its mean over all generator values is the scaled value up to 2^-24 + 2^-64.",'all seeds, all histories of calls by any number of threads, all positions in the stream, all 2^64 generator values','the period is 2^19937-1 and a history can have any length and any interleaving; a test sees a few thousand draws of one seed; that no draw ever gives 1.0 needs all 2^64 values',['src/piquant.cpp: rng (thread_local), context::pimpl::operator()', 'src/piquant_internal.hpp: quant_descriptor.stochastic threshold'])
p('C69','Any multi-threaded program of calls behaves like its threads one by one','Take any number of caller threads, each making any finite number of legal quantize, dequantize and fused calls one after the other, where later calls and their inputs may depend on what earlier calls left in memory, and each thread writes and looks only at memory of its own. Then in every interleaving of the threads and of the workers of all calls in flight: no data race, no access outside the output span of the call, no rejected call, no thread ever blocked by another, termination within a common bound; a finished thread has left in its memory exactly what it leaves when it runs alone with one worker after the other; memory that belongs to no thread is unchanged; and two complete executions with the same seeds leave the same memory.','all programs (numbers of threads, calls, arguments, data dependent control flow, seeds), all interleavings at single-byte granularity, all contexts and instruction sets','interleavings and programs are unbounded; a test runs one program under a few schedules',['src/piquant.cpp: context::pimpl::operator(), job_entry, rng (thread_local)', 'src/piquant.cpp: context::quantize, dequantize, quantize_dequantize_fused'])
p('C70','Dequantization does not depend on CPU, thread count or schedule','Two dequantize calls with the same codes, scale, zero point and op (and, for ADD, the same old values) store the same values, whatever the CPU, the thread count, the schedule and the addresses of the buffers.','all pairs of configurations, buffers, numel, codes, schedules','Pairs of configurations times all inputs; the results can differ in the last bit only, which tolerance-based tests accept.',['src/kernels/dequantize.inl', 'src/kernels/kernels_specialized.inl', 'src/piquant.cpp:job_entry', 'CMakeLists.txt'])
p('C71','Negation mirrors the codes','Quantizing the negated data with the mirrored zero point 2^bits-1-zp gives the mirrored codes 2^bits-1-code, and dequantizing mirrored codes with the mirrored zero point gives the negated floats, for nearest rounding and for stochastic rounding with the same threshold; on the x86 vector kernels (nearest) elements whose scaled value is plus or minus the float just below one half are excluded (see C08).','all data, scales, zero points, thresholds, sizes, dtypes, pairs of kernels, thread counts and schedules','Compares two calls for every input; odd symmetry of rounding and of the scaling product is needed at every float.',['src/kernels/quantize.inl', 'src/kernels/dequantize.inl', 'src/kernels/kernels_specialized.inl'])
p('C72','Shifting the zero point shifts the codes','Changing the zero point by k changes every code that was not saturated in the direction that loses information to the saturated code+k, and dequantizing codes shifted by k with the zero point shifted by k gives bit-identical floats (nearest and stochastic; x86 nearest exclusion as in C71).','all data, scales, zero points, shifts k, thresholds, sizes, dtypes, pairs of kernels, thread counts and schedules','Compares two calls for every input, shift and pair of configurations.',['src/kernels/quantize.inl', 'src/kernels/dequantize.inl', 'src/kernels/kernels_specialized.inl'])
p('C73','Units do not matter (powers of two)','Multiplying the data and the scale by the same power of two leaves every code unchanged (nearest and stochastic; scales in [2^-126, 2^126]; x86 nearest exclusion as in C71), and multiplying the scale by a power of two multiplies every dequantized float by it exactly (scales in [2^-126, 2^94]).','all data, exponents, scales, zero points, thresholds, sizes, dtypes, pairs of kernels, thread counts and schedules','Holds for every input only because no intermediate result leaves the normal range; a test samples a few scales.',['src/kernels/quantize.inl', 'src/kernels/dequantize.inl', 'src/kernels/kernels_specialized.inl'])
p('C74','Constant tensors survive the workflow','For a tensor whose elements all equal v, computing parameters, quantizing and dequantizing to float32 returns v up to half a step of the resolution its magnitude would suggest.','all constants v, sizes, dtypes, kernels, thread counts and schedules','Constant tensors take a special branch of the parameter computation; the effect depends on v over its whole range.',['src/piquant.cpp:compute_quant_config', 'src/kernels/quantize.inl', 'src/kernels/dequantize.inl'])
p('C75','Python contexts: no leak, no double destruction, no use after destruction','In every history of a Python program (creating, copying and dropping Context objects in any order, overlapping calls from several threads, interpreter exit), each native context is destroyed at most once and only after its creation, all are destroyed at exit, and a native context is destroyed only when no call uses it and none uses it later.','all finite histories of object creation, copying, calls (overlapping), garbage collection and exit','Histories and garbage collection orders are unbounded, and a use after free need not crash.',['python/src/piquant/__init__.py:Context.__init__', 'src/capi.cpp:piquant_context_create', 'src/capi.cpp:piquant_context_destroy'])
p('C76','Error of a quantized reduction',"When any number of peers quantize their float data and one receiver dequantizes every contribution with the ADD operator into the same float32 buffer, each element of the result differs from the exact sum of the original values by at most the sum of the peers' quantization tolerances plus one float32 rounding (of a sum of magnitude at most B) per peer, the total inflated by at most (1+2^-24) per peer.",'all numbers of peers, data, scales, zero points, dtypes, kernels per peer, thread counts, schedules','An accumulated error bound over any number of peers, with rounding of every partial sum, cannot be settled by sampling.',['src/piquant.cpp:context::quantize', 'src/piquant.cpp:context::dequantize', 'src/kernels/dequantize.inl', 'src/kernels/kernels_specialized.inl'])
p('C77','Computed parameters use the whole code range','Quantizing data (either rounding mode) with the parameters computed from it, the data being finite, not constant and around zero, gives the smallest element code 0 or 1 and the largest element one of the two largest codes; one off is attained on both sides, so the bound is sharp.','all data around zero, dtypes, kernels, thread counts and schedules','Depends on the rounding of scale, zero point and product for every pair of extremes.',['src/piquant.cpp:compute_quant_config', 'src/piquant.cpp:context::quantize'])
p('C78','How results move with data, scale, zero point and threshold','Across two calls: larger data or a larger zero point never gives a smaller code; a larger scale or a larger stochastic threshold moves codes toward the zero point; a larger scale moves dequantized floats away from zero.','all data, scales, zero points, thresholds, sizes, dtypes, pairs of kernels, thread counts and schedules','A relation between two calls on every pair of inputs.',['src/kernels/quantize.inl', 'src/kernels/dequantize.inl', 'src/kernels/kernels_specialized.inl'])
p('C79',"Agreement with the project's reference implementation","Quantizing to uint4 or uint8 gives what the project's sequential reference code (test/naive.hpp, the oracle of the unit tests) gives on the same tensor and parameters, whatever the kernels, thread count, schedule and the order in which the reference evaluates function arguments: with nearest rounding the same bytes, and with stochastic rounding codes that differ by at most one, whatever the library's threshold and the state of the reference's generator.",'every tensor, length, scale, zero point, threshold, generator state of the reference, kernel family, thread count, schedule and previous buffer contents, within the ranges where the integer conversions are defined','The unit tests compare the two on random draws from one narrow range of scales and zero points on one machine; agreement everywhere, and the exact tolerance, need a proof about both programs.',['test/naive.hpp: quantize_naive, xs128p_state, pack_nibbles', 'test/quant.cpp', 'src/piquant.cpp: context::quantize', 'src/kernels/kernels.inl: quant_generic'])
p('C80',"Whole workflow, float32: error in terms of the data's own range",'For finite data whose least value lo and greatest value hi satisfy lo <= 0 <= hi and 2^-100 <= hi - lo <= 2^100: computing parameters from the data succeeds, and with the parameters it returns (nothing is assumed about them) quantize then dequantize to float32 returns every element within half an ideal step (nearest) or one ideal step (stochastic), plus 2^-11 of a step, where the ideal step is (hi-lo)/(2^bits-1); dequantizing with ADD leaves old + element with the same error plus one float32 rounding; the fused call gives the same for both reduce operations. Excluded: an SSE4.2 parameter search over blocks large enough for its defective vector loop (C22), and the incomplete last uint2 group of an ADD to float32 (C10).','all data, element types, sizes, partitions of the search, kernels, thread counts and schedules of each call, both rounding modes, every threshold, all prior buffer contents up to 2^120','composes three calls over all data sets; tests sample a few random tensors with a hand-chosen epsilon',['src/piquant.cpp:222 compute_quant_config', 'src/piquant.cpp:277 quantize', 'src/piquant.cpp:310 dequantize', 'src/piquant.cpp:342 quantize_dequantize_fused', 'test/requant.cpp', 'test/dequant.cpp'])
p('C81',"bf16 workflow: exact formula of the fused call and error in terms of the data's range",'The fused call on a bf16 tensor stores, for every element, the IEEE bf16 product of bf16(code - zero_point) and bf16(scale) - the code being the one scalar rounding gives - or with ADD the IEEE bf16 sum of the old word and that product. For finite data (float32 or bf16) with lo <= 0 <= hi and width in [2^-100, 2^100], parameters computed from the data followed by quantize and dequantize to bf16 (SET or ADD), or by the fused call, give every element (or old + element) within half/one ideal step plus 1/64 (SET) or 1/32 (ADD) of a step, plus |element|/127 (SET) or |element|/126 + |sum|/255 (ADD). SSE4.2 searches over large blocks excluded (C22).','all data, sizes, kernels (including those that fuse, contract or flush subnormals), thread counts, schedules, both rounding modes, every threshold, all prior contents up to 2^120','bf16 rounding is done in different places on different kernels; a test runs one kernel on a few tensors',['src/kernels/kernels.inl:30 requant_generic', 'include/piquant.hpp:81 bfp16_t', 'src/piquant.cpp:342 quantize_dequantize_fused', 'src/kernels/dequantize.inl'])
p('C82',"The project's accuracy tests cannot fail on data around zero",'For every tensor of finite values in [-1, 1] with at least one value <= 0, one >= 0 and a spread of at least 2^-100, of any size, and any fill value in [-1, 1]: computing parameters returns a positive finite scale, and every element passes the exact comparison of test/dequant.cpp (quantize, dequantize, SET or ADD) and of test/requant.cpp (fused call), with the arithmetic and tolerances written there. The condition on signs is needed: test/dequant.cpp fails on the tensor 0.5, 1. The uint2 tolerance 2.0 also accepts the overwritten tail of C10, so that test cannot detect that defect.','all tensors, sizes, kernels, thread counts, schedules, rounding modes, thresholds, fill values; the element/quantized type pairs the tests instantiate','the tests draw ten random tensors; whether they can ever fail is a statement about all tensors',['test/dequant.cpp', 'test/requant.cpp', 'test/quant_config.cpp', 'src/piquant.cpp:222 compute_quant_config'])
p('C83','The integers that stand for types, modes and operations mean the same everywhere, and others are rejected','A value of piquant_dtype_t, piquant_round_mode_t or piquant_reduce_op_t passed from C or from Python selects in the library the type, rounding mode or operation its enumerator names: the C call behaves exactly as the C++ call with that value. An integer that is no enumerator is rejected before anything is written.','every integer code for both types, the round mode and the reduce operation, every element count, every other argument, every kernel set and thread count','The enumerations are written three times (C++ header, C header, CFFI text) and the C wrappers cast and index arrays with whatever integer arrives; a test passes the enumerators only.',['include/piquant.h:23-40 (enums)', 'include/piquant.hpp:21-45,149-163 (round_mode, reduce_op, dtype, dtype_infos, dtype_info_of)', 'python/src/piquant/_bootstrap.py:19-36', 'src/capi.cpp:28-104', 'src/kernels/kernels.inl:107-173'])
p('C84','The results are visible when a call returns','When quantize, dequantize or the fused call has returned, the calling thread sees every output byte the workers have stored, although processors make stores visible to other cores late and (for non-temporal stores) out of order.','every call on legal arguments, every kernel set, every schedule of the workers and every delay of their stores allowed by x86 (ordinary stores in program order, non-temporal stores in any order, a core sees its own stores)','Stores are delayed for nanoseconds and only under load; a test that reads the result on the same core or after any locked instruction always sees it.',['src/kernels/kernels_specialized.inl:78-81,123,158,268 (_mm_stream_si128, _mm256_stream_si256)', 'src/piquant.cpp:197-211 (jobs_future.join)'])
p('C85',"The project's Python tests cannot fail on any tensor with values in [-1, 1] around zero","For every float32 or bfloat16 tensor with finite values in [-1, 1], some not positive and some not negative, and every quantized dtype, the scale from compute_quant_params is positive, not NaN and not infinite; quantize followed by dequantize with these parameters raises nothing and returns every element within scale/2 + 1e-3 (plus allclose's relative term); and the codes agree with the formula using rounding half to even, as torch.quantize_per_tensor does. FALSE as stated: for bfloat16 tensors the distance can exceed the tolerance on every kernel, and at ties the codes differ by one from half-to-even rounding. What holds: the parameter assertions for both dtypes, the distance for float32 (within scale/2 + 4e-4), and equality with half-to-even rounding away from ties.",'every tensor with such values, of every size, quantized dtype, kernel set, thread count, split of the search and schedule','The test draws one random tensor per combination of dtypes from a fixed seed; the assertion is meant for all of them.',['python/tests/test_torch.py: test_compute_quant_config, test_quantize_roundtrip', 'python/src/piquant/torch.py: compute_quant_params, quantize, dequantize', 'src/piquant.cpp: compute_quant_config'])
p('C86','Values in memory are the IEEE 754 results, stated on bit patterns','What the calls write is determined by IEEE 754 arithmetic on the bit patterns they read: a dequantized float32 is float(code - zero_point) * scale with both steps correctly rounded (one correctly rounded step of the exact product when |code - zero_point| fits 24 bits), for every bit pattern of the scale including zeros, subnormals, infinities and NaNs; accumulation is the IEEE sum or, if contracted, the fused multiply-add; bf16 results are IEEE conversions of such values (the AVX-512 exceptions are spelled out); a code is the rounding of the IEEE product of the element with the IEEE reciprocal of the scale, plus the zero point, saturated; computed parameters are four IEEE operations on doubles. The specification of IEEE 754 is written from the standard and shares nothing with the floats the model computes with.','every scale bit pattern, every input buffer, every code, zero point, thread count and schedule, every kernel set; for the arithmetic itself every pair or triple of encodings of float, double and bfloat16','Correct rounding is a statement about all real results between two encodings; tests compare with the same hardware arithmetic on samples.',['src/kernels/kernels.inl', 'src/kernels/kernels_specialized.inl', 'src/piquant.cpp: compute_quant_config_from_data', 'include/piquant.hpp: bfp16_t'])
p('C87','Input and output may share memory','A call whose input and output spans share memory leaves the memory that the same call on a private copy of the input leaves. (The spans are not checked for overlap, the documentation does not forbid it.) For the fused quantize-dequantize call in place (out = in) this holds with any number of threads; with one thread the output may also start anywhere before the input, for the fused call and for quantizing to uint8 with stochastic rounding; with one thread uint8 codes in the last bytes of the output buffer may be dequantized in place. It is false when the output starts inside the input, and with several threads when the spans overlap in any other way than exactly.','all tensor sizes, float and quantized types, values, old contents, parameters, rounding modes, reduce operations, thread counts, schedules, addresses, and numbers of elements the compiled loop loads before storing',"Whether an element is still intact when it is loaded depends on the schedule of the workers and on how far the compiled loop loads ahead; a test sees one schedule of one build, and small tensors fit in one worker's slice.",['src/kernels/kernels.inl:30-52 requant_generic', 'src/kernels/quantize.inl:147-148', 'src/piquant.cpp:132-176 job_entry', 'src/piquant.cpp:277-308 quantize', 'src/piquant.cpp:342-369 quantize_dequantize_fused', 'src/piquant_internal.hpp:23,27 PIQUANT_RESTRICT'])
p('C88','NaN elements do not influence the computed parameters','Scale and zero point computed from a tensor containing some NaNs are those of its numbers: of the smallest and the largest element that is not NaN. (All-NaN data aborts, C24.)','all tensors without infinities, all positions and payloads of NaNs, element types, target types, splits into blocks, kernel sets','Whether a NaN matters depends on its position relative to the other values in its vector lane, the block split and the instruction set; a test with a NaN in one place on one machine says nothing about the others.',['src/kernels/kernels_specialized.inl:1418-1607 find_min_max_f32, find_min_max_bf16', 'src/piquant.cpp:222-259 compute_quant_config'])
p('C89','Infinite elements in the parameter computation','Computing parameters from a tensor that contains infinities is rejected, or yields parameters that can be used: no undefined behaviour, finite scale, and the finite elements survive a round trip.','all NaN-free tensors with at least one infinity, positions, element and target types, splits into blocks, kernel sets','Whether the infinity reaches the arithmetic depends on the search over all elements and blocks, and undefined behaviour need not be visible in a test on one machine.',['src/piquant.cpp:222-259 compute_quant_config', 'src/piquant.cpp:371-381 compute_quant_config_from_data', 'src/kernels/kernels_specialized.inl:1418-1607'])
p('C90','The input may be read at any moment of the call','When input and output spans are separate, it does not matter when each worker loads which byte of the input, or how these loads interleave with the loads and stores of the others (several workers may load the same byte): no store goes to the input, there is no data race, every interleaving ends, and the memory afterwards is the memory after the call with the whole input loaded beforehand. Shown for arbitrary workers (if it holds with the input loaded beforehand, it holds with loads at any time), and for the fused call, quantizing to uint8 with stochastic rounding and dequantizing uint8 codes with SET as complete calls.','all tensor sizes, values, old contents, parameters, thread counts, schedules of single-byte loads and stores, placements of the two spans, and numbers of elements the compiled loop loads before storing','A test sees a few interleavings of loads and stores; the claim is about all of them, and about the absence of any store to the input at any point of any of them.',['src/piquant.cpp:197-211 operator()', 'src/kernels/kernels.inl:30-52 requant_generic', 'src/kernels/quantize.inl:147-148', 'src/kernels/kernels_specialized.inl:729-982 dequant_uint8_to_f32, dequant_uint8_to_bf16'])
p('C91','Expected squared error of stochastic quantization','Over stochastic calls on the same data whose thresholds are (nearly) uniform on [0,1) - in particular over all 2^64 values the generator can return - the mean squared error of a code that does not saturate, in steps, is f*(1-f) up to the resolution of the thresholds, where f is the fraction of the scaled value; so it never exceeds a quarter of a squared step. For two elements the mean product of the errors is min(f,g)-f*g, negated when the scaled values have opposite signs. Nearest rounding of the same element has a squared error not above f*(1-f), except at the float just below one half.','all tensors, sizes, dtypes, contexts, schedules, pairs of elements that do not saturate, families of thresholds near the uniform grid, and the ideal uniform threshold (Lebesgue measure)','An expectation over the random threshold, for every scaled value and pair of elements; a test samples a few thresholds and a few values.',['src/kernels/quantize.inl: quant_step_scalar_stochastic (8-19)', 'src/piquant.cpp: quantize_args, operator() (190-211)', 'include/piquant.hpp: round_mode'])
p('C92','Rounding errors of one stochastic call average out over the tensor','The mean of the codes of a stochastically quantized tensor, less the zero point, approaches the mean of the scaled values as the tensor grows. (False: a call uses one threshold for all its elements, so the errors of equal elements are equal.)','all tensor sizes, dtypes, contexts, schedules and thresholds','A statement about every tensor size and threshold.',['src/piquant.cpp: quantize_args, operator() (190-211)', 'src/kernels/quantize.inl: quant_step_scalar_stochastic (8-19)'])
p('C93','The C++ benchmark quantizes its data','The codes that benchmark/bench.cpp obtains from its quantize call depend on the tensor it draws, and dequantizing them gives back the tensor up to a step. (False: it passes zero point 127 for uint4, whose codes end at 15.)','all tensors of bfloat16 values between -1 and 1, all sizes, thread counts, kernel sets and schedules','Nothing checks what the benchmark computes; the claim is about every tensor it can draw.',['benchmark/bench.cpp: main (14-34)', 'include/piquant.hpp: quantize_generic, dequantize_generic'])
p('C94',"The Python benchmark's comparison finds no difference",'The comparison at the end of python/benchmark/benchmark.py - library against a quantizer with the same scale and zero point that rounds half to even, after dequantization, with tolerance 0.1 - never reports a difference for float32 data in [0,1).','all float32 tensors, sizes, kernel sets, thread counts, schedules, zero points in range and scales up to 0.07 (uint8, uint4)','The benchmark draws random tensors; ties and the float below one half are hit by chance only.',['python/benchmark/benchmark.py (36-74)', 'python/src/piquant/torch.py: quantize, dequantize', 'src/kernels/quantize.inl'])
p('C95','Re-quantizing a dequantized tensor with freshly computed parameters','If a quantized tensor is dequantized and the resulting float tensor is quantized again (nearest rounding) with parameters computed from that float tensor, the zero point and every code are the same as before and the scale is the same up to rounding, so a relay that does not forward the parameters loses nothing.','all packed codes, scales in [2^-90, 2^90], zero points that are codes, uint8/uint4/uint2, float32 and bf16 intermediate tensors, all kernel sets, thread counts, schedules and block splits','The code set, scale and kernel combinations cannot be enumerated; a test with random data would not notice the tensors that leave an extreme code unused.',['src/piquant.cpp: context::dequantize, compute_quant_config_from_data, quantize', 'src/kernels/dequantize.inl', 'src/kernels/quantize.inl', 'src/kernels/kernels_specialized.inl: find_min_max'])
p('C96','A call that was interrupted can be repeated','If a quantize, dequantize or fused call is killed at any moment of any schedule, memory outside its output span is unchanged, and repeating a quantize call or a SET call over the same output span (with any parameters, thread count or rounding threshold) ends, under every schedule, with exactly the memory it would have produced had the interrupted call never run. An interrupted ADD cannot be repeated safely: float32 elements it had not touched come out right, elements it had finished are added a second time.','all legal calls, all schedules and all interruption points of the first call, all schedules of the repeated call, all previous memory contents',"Crash points are not under a unit test's control: the claim ranges over every prefix of every interleaving of the first call.",['src/piquant.cpp: context::pimpl::operator(), job_entry', 'src/kernels/quantize.inl: quant_generic, quant_uint4, quant_uint2', 'src/kernels/dequantize.inl: dequant_generic, dequant_uint2', 'src/kernels/kernels.inl: requant_generic'])
p('C97','A reader sees every output code either old or final','At any moment of any schedule every output code of a quantize call is either what it was before the call or what the finished call leaves there, and so is every output byte of dequantize and fused calls (SET and ADD); between two moments of one execution a byte that has changed does not change again. The only exception at byte level is the last byte of an odd number of uint4 codes, whose unused high nibble holds junk for one step.','all legal calls, all schedules, all pairs of moments of an execution, all previous memory contents','A test sees memory before and after a call, not at every intermediate step of every interleaving.',['src/kernels/quantize.inl: quant_generic, quant_uint4 (lines 51-71), quant_uint2', 'src/kernels/kernels_specialized.inl: quant_*, dequant_* vector kernels', 'src/kernels/dequantize.inl: dequant_generic', 'src/piquant.cpp: job_entry'])
p('C98','Grid values keep their code for every zero point','Quantizing (nearest) an element that lies exactly on the quantization grid, i.e. whose scaled value is an integer k, gives the code k + zero_point (saturated), for every 32-bit zero point, kernel and position; other elements get the nearest code.','all tensors, sizes, types, scales, int32 zero points, contexts, schedules; scaled values k with k + zero_point strictly inside int32','The deviation occurs only for scaled values of magnitude 2^23 to 2^24 with a zero point that brings them back into the code range, and only in the vector body; tests use zero points between 0 and 255.',['src/kernels/kernels_specialized.inl:62-77 (prod + blend(±0.5), cvttps)', 'src/kernels/kernels_specialized.inl:344-360', 'src/kernels/kernels_specialized.inl:384-397', 'src/kernels/kernels_specialized.inl:434-457', 'src/kernels/quantize.inl:21-26'])
p('C99','Round trips with zero points outside the code range','The zero point of a quantize/dequantize pair need not be a code. For every scale between 2^-126 and 2^105 and every zero point z of magnitude up to 2^20, finite float32 or bfloat16 data inside the interval [(0-z)*scale, (2^bits-1-z)*scale] that is quantized and dequantized to float32 comes back within scale*(t + (|z|+2^bits)/2^21) of itself, where t is 1/2 for nearest and 1 for stochastic rounding, on every instruction set, thread count and schedule; the fused call on float32 data has the same bound; codes dequantized to float32 and quantized again (nearest) are unchanged. So data in any interval [lo, hi] not wider than (2^bits-2)*scale and starting within 2^20-1 steps of zero survives with the zero point -floor(lo/scale), although the parameters the library computes for it do not work (C26). Beyond that, requantization can move codes (shown for zero point -4194364).','all element counts, float inputs and codes, scales in the stated range, zero points of magnitude up to 2^20, instruction sets, thread counts and schedules of both calls','the tests only use zero points the library computed, which are clamped to the code range; the statement is over all data, scales and zero points',['src/piquant.cpp: quantize, dequantize', 'src/kernels/quantize.inl: quant_step_scalar_nearest', 'src/kernels/dequantize.inl: dequant_step', 'src/kernels/kernels_specialized.inl'])
p('C100','Quantized all-reduce along a ring of peers',"A partial sum travels through any number of peers: at every hop the sender quantizes its partial sum (with that hop's type, parameters and rounding mode, representable range covering the sums plus the accumulated error) and the receiver adds the dequantized codes to its own float32 tensor with reduce operation ADD. Whatever the CPUs, thread counts and schedules, the last partial sum is finite and differs from the exact sum of all tensors by at most (1+2^-24)^hops times the sum over hops of half a step (nearest) or one step (stochastic), up to 2^-12 of a step, plus hops*(B/2^24 + 2^-150), where B bounds the sums of magnitudes. If the last peer then quantizes the sum and all peers dequantize these codes to float32, all of them hold bit-identical values, within that error plus the error of the last quantization.",'all numbers of hops and readers, tensors, element counts, per-hop types, scales, zero points, rounding modes and thresholds, instruction sets, thread counts and schedules of all calls','the error of one call feeds the next; a test has a fixed number of peers, one machine and one schedule',['src/piquant.cpp: quantize, dequantize', 'src/kernels/quantize.inl', 'src/kernels/dequantize.inl: dequant_step'])
p('C101','Accumulating contributions in a bfloat16 buffer has a bounded error',"Dequantizing with REDUCE ADD into a bfloat16 buffer leaves every element finite and within 17/16*2^-8 of (|old + v| + max(|v|, scale)) of old + v, where v = (code - zero_point)*scale, on every kernel although the kernels round at different places. Summing the quantized tensors of N peers into a bfloat16 accumulator in this way leaves an error of at most the sum of the peers' quantization errors plus N*17/2048 of the sum of magnitudes B, times (1 + 17/1024)^N. The growth with N cannot be avoided: adding 1/2 to an accumulator of 256 any number of times leaves it at 256.",'all tensors, element counts, integer types, scales in [2^-110, 2^116], zero points in the code range, kernels, thread counts, schedules, contraction choices, numbers of peers and orders','the error of a sum of any length is an induction over calls; tests add two or three values on one kernel and compare with a tolerance',['src/kernels/dequantize.inl:dequant_step', 'src/kernels/kernels_specialized.inl:dequant_uint8_to_bf16', 'include/piquant.hpp:reduce_op'])
p('C102','An all-reduce that computes its parameters at every hop has a relative error that grows by a fixed factor per hop','A partial sum travels from peer to peer; each sender computes scale and zero point from the partial sum it holds, quantizes it, and the receiver dequantizes with REDUCE ADD into its own float32 tensor. If the true partial sums have both signs, no call fails, and the last partial sum is finite and within (((1+k)(1+2^-23))^hops - 1)*B of the true sum, where k = 2*(t + 2^-11)/(2^bits - 1) with t = 1/2 (nearest) or 1 (stochastic), and B bounds the sum of the magnitudes. When the last peer sends the sum, again with computed parameters, to any number of peers, all of them obtain bit-identical floats, with one more factor of error.','all tensors with finite elements and mixed-sign partial sums, element counts, integer types per hop, rounding modes and thresholds, splits of the parameter search, kernels, thread counts, schedules and numbers of hops and readers','parameters depend on the rounded partial sums of all earlier hops; the bound is an induction over a history of any length with parameters no test fixes',['src/piquant.cpp:context::compute_quant_config_from_data', 'src/piquant.cpp:context::quantize', 'src/piquant.cpp:context::dequantize'])
p('C103','Every output byte is written once and, in SET mode, never read','In every schedule and at every moment of a call no output byte has been written more than once; quantize and the SET calls never read the output buffer (so it may be uninitialised or write-only), ADD reads no byte more than once; a finished quantize or SET call has written every byte; hence the number of byte accesses is at most the output size (twice that for ADD), whatever the thread count. The one exception is the last byte of an odd number of uint4 codes, which quantize writes, reads back and writes again.','all inputs, lengths, dtypes, thread counts, kernels, schedules, and all moments of an execution','Extra or missing accesses do not show in results; a test sees one schedule and cannot see reads at all.',['src/kernels/quantize.inl:51-99', 'src/kernels/dequantize.inl:13-140', 'src/kernels/kernels_specialized.inl', 'src/kernels/kernels.inl:30-52'])
p('C104','Computed parameters follow the sign and the unit of the data','For finite data the parameters computed from the negated tensor have the bit-identical scale and the mirrored zero point 2^bits-1-zp up to one (one off is attained on both sides). Multiplying the data by a power of two multiplies the computed scale by exactly that power of two and leaves the zero point unchanged (scale in the normal range); for data around zero the whole workflow - compute parameters, quantize, dequantize to float32 - then produces the same codes and exactly the scaled floats (nearest and stochastic; x86 nearest exclusion as in C71).','all finite tensors of any length and either float type, all three target types, both rounding modes and every threshold, every two kernel sets (on SSE4.2: data whose extremes are seen, see C22), thread counts, block splits and schedules, every power of two','A relation between two runs on different data over all tensors and splits; a test compares a few pairs.',['src/piquant.cpp:222-259 compute_quant_config', 'src/piquant.cpp:371-381 compute_quant_config_from_data', 'src/piquant.cpp:277-340 quantize, dequantize'])
p('C105','Sign and order survive the round trip','Quantizing (nearest or stochastic) and dequantizing to float32 with any zero point in the code range never flips the sign of an element, and zero comes back as zero. With the parameters computed from the data, two elements more than one step of the ideal grid apart (nearest) or two steps apart (stochastic), up to 2^-10 of a step, stay strictly ordered - so an element that exceeds all others by this margin is still the only largest one; with bfloat16 results 1/32 of a step and the bfloat16 resolution of the two elements are added; the margins cannot be reduced much.','all tensors (sign: all data for which quantization is defined; order: finite data around zero), all lengths, both float input types, three target types, both rounding modes and every threshold, every pair of kernel sets, thread counts and schedules','Ranges over all pairs of elements of all tensors and over all kernels and schedules; a test sees a few.',['src/piquant.cpp:277-340 quantize, dequantize', 'src/piquant.cpp:222-259 compute_quant_config', 'src/kernels/quantize.inl:8-26'])
p('C106','Parameters taken from elsewhere clip and quantize','For any scale in [2^-126, 2^119] and any zero point that is a code, wherever they come from, quantizing finite data (elements up to 2^29 steps) and dequantizing it to float32, or the fused float32 SET call, returns every element, clipped to the representable interval [(0-z)*scale, (2^bits-1-z)*scale], within half a step (nearest) or one step (stochastic), up to 2^-12 of a step; with bfloat16 output the same up to the rounding to bfloat16, at most (2^bits-1)/2^8 of a step more (scales in [2^-125, 2^118]). With parameters computed from a calibration tensor around zero with range [lo, hi] and used on another tensor, every element comes back within the same number of ideal steps (up to 2^-11 of a step) of the element clipped to [lo, hi].','all tensors, parameters, calibration tensors, lengths, CPUs, thread counts, schedules, rounding modes and thresholds','calibration applies parameters to data never seen before; tests use the parameters on the data they were computed from',['src/kernels/quantize.inl: quant_step_scalar_*', 'src/kernels/kernels_specialized.inl: quant_*', 'src/piquant.cpp: context::quantize, context::dequantize, quantize_dequantize_fused, compute_quant_config_from_data'])
p('C107','Weighted sums, distances and dot products of reconstructed tensors',"With parameters computed from data around zero, after quantizing (either mode) and dequantizing to float32: any weighted sum (in exact arithmetic) of the reconstructed elements is within e*sum|w| of the weighted sum of the original elements, where e is half a step (nearest) or one step (stochastic) of the ideal grid up to 2^-11 of a step (so the mean moves by at most e); the squared Euclidean distance between tensor and reconstruction is at most n*e^2; the dot product of two reconstructed tensors, each with its own parameters, type and mode, is within e*sum|y| + e'*sum|x| + n*e*e' of the dot product of the originals.",'all tensors around zero, weights, lengths, types, CPUs, thread counts, schedules, rounding modes and thresholds','errors of all elements and all weight vectors at once',['src/piquant.cpp: context::quantize, context::dequantize, compute_quant_config_from_data'])
p('C108','Scales that are not positive and finite','quantize, dequantize and the fused call reject a scale that is not a positive finite number.','all tensors, scales that are zero, NaN or negative, zero points, types, lengths, CPUs, thread counts, schedules and rounding modes','a bad scale silently corrupts data of every value and length; the effect differs between kernels',['src/piquant.cpp: context::quantize, context::dequantize, quantize_dequantize_fused, compute_quant_config_from_data', 'src/kernels/quantize.inl: inv_scale'])
p('C109','Chains of conversions',"A float32 or bfloat16 tensor that goes through any number of quantize/dequantize pairs, each with its own type, parameters (scale in [2^-125, 2^118], zero point a code), rounding mode, threshold, float type of the result (float32 or bfloat16), CPU and thread count, comes out as the original clipped to the representable interval of every stage in turn, with an error of at most the sum of the stages' errors (half a step for nearest, one step for stochastic, up to 2^-12 of a step; plus (2^bits-1)/2^8 of a step where a stage delivers bfloat16). If every stage can represent the data's range, nothing is clipped.",'all tensors, lengths, chains of any length, types, parameters, CPUs, thread counts, schedules, rounding modes and thresholds at every stage','chains of unbounded length over independent configurations',['src/piquant.cpp: context::quantize, context::dequantize', 'src/kernels/quantize.inl: quant_step_scalar_*', 'src/kernels/dequantize.inl: dequant_step'])
p('C110','Error feedback',"When in every round the sender adds the residual of the last round to the new tensor (float32), quantizes, transmits, and keeps the float32 difference between that sum and the dequantized codes as the new residual, then after any number of rounds, each with its own type, parameters, mode and machines, the residual is at most one quantization error, and the sum of everything transmitted equals the sum of all tensors plus the first residual minus the last one, up to the float32 rounding of the sender's own two operations per round: the loss does not accumulate.",'all sequences of tensors of any length, parameters (representable range large enough), CPUs, thread counts, schedules, rounding modes and thresholds','histories of unbounded length',['src/piquant.cpp: context::quantize, context::dequantize'])
p('C111','Replicas that apply the same updates stay identical','Replicas that start with the same tensor and apply the same sequence of quantized updates (dequantize ADD, or SET for a refresh; any types, parameters and codes) hold the same tensor, bit for bit, after every update, on whatever CPU, with whatever thread counts and schedules each of them works.','all sequences of updates, all types, parameters and codes, all element counts, all pairs of replicas (kernels, thread counts, addresses, receive buffers), all schedules of all calls','Ranges over unbounded histories on pairs of different machines.',['src/kernels/dequantize.inl:8-140', 'src/kernels/kernels_specialized.inl dequant_*', 'src/piquant.cpp:310-340 dequantize'])
p('C112','Closed-loop delta coding does not accumulate errors',"If in every round the sender quantizes the difference between its new tensor and the shared copy, and the copy is updated with dequantize(ADD), then after any number of rounds the copy is within one round's quantization error of the sender's last tensor (up to 2^-20 of it and float32 rounding), provided each round's range covers the change of the tensor plus that error: errors do not add up.",'all numbers of rounds, tensors changing by at most delta per round, types, parameters, rounding modes, thresholds, contexts, schedules of all calls, element counts','Ranges over unbounded histories; the invariant (the error of one round) must be preserved by every round on every kernel.',['src/piquant.cpp:277-340 quantize, dequantize', 'src/kernels/quantize.inl', 'src/kernels/dequantize.inl'])
p('C113','Changing the type or the zero point of codes on one scale is exact',"Dequantizing codes to float32 and quantizing the result (nearest) with the same scale but another type and zero point is exact integer arithmetic: code q becomes q - z + z', clamped to the new range. A sequence of such steps loses nothing but what a type on the way cannot represent, so widening (uint2 to uint4 to uint8) and narrowing back is lossless.",'all code tensors, element counts, types, scales in [2^-126, 2^119], zero points in the code range, sequences of recodings of any length, kernel sets, thread counts, schedules of all calls','The float32 product and quotient are inexact for nearly every scale; that rounding always returns to the integer, on every kernel and for every scale, cannot be tested exhaustively.',['src/kernels/dequantize.inl:8-11 dequant_step', 'src/kernels/quantize.inl:21-26', 'src/piquant.cpp:277-340 quantize, dequantize'])
p('C114','Sums on a power-of-two grid are exact and do not depend on the order','If the starting values, the scaled codes (q - z) * scale and the partial sums of a sequence of dequantize(ADD) calls are integer multiples of one power of two, at most 2^24 of it for float32 and 2^8 for bfloat16 (scale included), the accumulator is exactly the sum. So within that budget the order of the updates, kernels, thread counts, schedules and contraction of sums cannot change the result. Off the grid the order matters, and one step above the budget is lost.','all numbers and orders of updates, element counts, types, grid steps 2^-149..2^103 (float32) or 2^-126..2^103 (bfloat16), zero points (up to 2^23, in the code range for bfloat16), code tensors, contexts and contraction per call, schedules','Order independence ranges over all permutations of unbounded lists of calls; each kernel evaluates the sum in another way and exactness must hold for every rounding step.',['src/kernels/dequantize.inl:8-11 dequant_step', 'src/kernels/dequantize.inl:89-140 dequant_generic', 'src/kernels/kernels_specialized.inl:729-982 dequant_uint8', 'src/piquant.cpp:310-340 dequantize'])
p('C115','A store of separately quantized blocks',"Blocks (rows of a tensor, pages of a cache) can be quantized into one buffer, each with parameters computed from its own data, and read back in any order and any number of times, while other blocks are stored, overwritten and read: every read of a block whose codes have not been overwritten since it was stored returns each element within half a step (nearest) or one step (stochastic) of the grid over the block's own range, up to 2^-11 of a step, and no operation fails. The bound is never weaker than that for the range of the whole tensor.",'all histories of stores and reads, blocks (finite data around zero, float32 or bfloat16), types, sizes, addresses, rounding modes, thresholds, kernel sets, thread counts, schedules','Ranges over unbounded histories of calls on shared memory; it combines the frame of every call with the error bound of every kernel.',['src/piquant.cpp:222-340 compute_quant_config, quantize, dequantize', 'src/piquant.cpp:371-381 compute_quant_config_from_data', 'src/kernels/quantize.inl', 'src/kernels/dequantize.inl'])
p('C116','Complete specification of nearest quantization, for any data',"For every legal quantize call with nearest rounding - any data (NaN, infinities, any magnitude), any scale, any zero point, any output address and thread count - it is determined which elements are processed by vector instructions (after the alignment prologue of each worker's run, in whole groups of the kernel's width). In every finished execution those elements have the code given by the vector formula (32-bit wrapping sum of the rounded scaled value and the zero point, saturated), all other elements have the scalar code and the scalar arithmetic on them was defined; the padding bits are zero and nothing else is written. The call is free of faults if the scalar arithmetic is defined on all elements outside the vector groups, whatever the others are, and if it is undefined on one such element no execution finishes. Two calls agree on every element that is in the vector part of both or of neither; elsewhere they agree exactly if the two formulas give the same code.",'all CPUs, thread counts, addresses, lengths, float dtypes, quantized dtypes, scales, zero points, input bit patterns and schedules','which of two different formulas an element gets depends on its position relative to thread boundaries and to the output address; tests use aligned vectors, few threads and well-behaved data',['src/kernels/kernels_specialized.inl: quant_f32_to_uint8_nearest, quant_bf16_to_uint8_nearest, quant_f32_to_uint4_nearest, quant_bf16_to_uint4_nearest, quant_bf16_to_uint2_nearest', 'src/kernels/quantize.inl: quant_step_scalar_nearest, quant_uint4, quant_uint2', 'src/piquant.cpp: job_entry, partition_row'])
p('C117','Complete specification of dequantization',"For every legal dequantize call (zero point in the range of C11) it is determined which codes are processed by vector instructions (whole groups from the start of each worker's run), no execution faults, and every finished execution stores exactly: for float32, the value of the code, or its sum with the old element, contracted to a fused multiply-add or not according to the compiler's choice for the part of the library that processes that position (and stored instead of added on the last n mod 4 elements of a uint2 tensor); for bf16, the scalar result (value rounded to bf16, sum rounded again) outside the vector groups and the AVX-512 result (unrounded or biased fused value, rounded once, denormal results flushed to a signed zero on AVX512-BF16) inside them. Nothing else is written. Two calls on the same codes agree on every element that is in the vector part of both or of neither.",'all CPUs, thread counts, addresses, lengths, quantized dtypes, float dtypes, scales, zero points, codes, old contents, contraction choices, reduce operations and schedules','which of the formulas an element gets depends on its position relative to thread boundaries; tests use one build, one CPU and tolerances that hide the differences',['src/kernels/kernels_specialized.inl: dequant_uint8_to_f32, dequant_uint4_to_f32, dequant_uint8_to_bf16, dequant_uint4_to_bf16, dequant_uint2_to_bf16', 'src/kernels/dequantize.inl: dequant_generic, dequant_uint2', 'src/piquant.cpp: job_entry, partition_row'])
p('C118','Complete specification of stochastic quantization and of the fused call','For every legal stochastic quantize call with a threshold in [0, oo) and for every legal fused call, on any data (NaN, infinities, any magnitude), any scale and any int64 zero point: a finished execution means that the 64-bit arithmetic was defined on every element, and then each code is exactly sat(rounded + zero_point) - the same on every CPU, thread count, address and schedule - the padding bits are zero and nothing else is written; the fused call stores, or adds to the old element, exactly the float32 (or IEEE bf16) value of that code. No execution faults if the scaled value of every element is finite, is rounded to an int64 and gives an int64 sum with the zero point (fused: also difference of code and zero point); if one element violates this, no execution finishes.','all CPUs, thread counts, addresses, lengths, dtypes, data, scales, 64-bit zero points, thresholds, rounding modes and reduce operations of the fused call, old contents, contraction choices and schedules','tests sample tame data with small zero points and check with tolerances; neither the exact codes nor the exact boundary of undefined behaviour is visible to them',['src/kernels/quantize.inl: quant_step_scalar_stochastic, quant_step_scalar_nearest, quant_generic, quant_uint4, quant_uint2', 'src/kernels/kernels.inl: requant_generic', 'src/kernels/dequantize.inl: dequant_step', 'src/piquant.cpp: job_entry'])
p('C119','compute_quant_config_from_data is completely determined by the elements it looks at','For every non-empty data set in which no element that the kernel looks at is NaN (every element on the portable, AVX2 and AVX-512 kernels; on SSE4.2 all but every fourth lane of the vector part), whatever the other elements are: if one of them is minus infinity the call is undefined behaviour, otherwise if one is plus infinity it returns scale infinity and zero point 0, otherwise exactly the parameters of their least and greatest value. It returns a finite scale if and only if all of them are finite. Two arrays that agree on these elements get the same answer; on the other kernel sets the answer depends neither on the kernel set nor on the split into blocks.','all kernel sets, float types, data (also NaN and infinities in the elements not looked at), lengths, splits into blocks and integer types','tests use finite data and check the result of one CPU; neither the overlooked elements nor infinities occur in them',['src/kernels/kernels_specialized.inl: find_min_max', 'src/piquant.cpp: compute_quant_config, compute_quant_config_from_data'])
p('C120','Elements in the computed range survive the round trip whatever the other elements are','Parameters computed on any CPU from data whose elements that count (all of them, except every fourth lane of the vector part on SSE4.2) are finite with least value lo <= 0 and greatest value hi >= 0, scale in [2^-126, 2^119]: after quantize with nearest rounding and dequantize to float32, on any CPUs, thread counts and schedules, every finite element in [lo, hi] - in particular every element that counts - comes back within scale * (1/2 + 2^-12), even if other elements of the same array are NaN, infinite or out of range. If the quantize call faults, then only by an undefined conversion of one of those.','all kernel sets, data (also NaN and infinities in the elements not looked at), lengths, splits, integer types, addresses, thread counts, old contents and schedules','tests check the round trip on finite data on one machine; isolation of good elements from bad ones in the same vector needs all positions and values',['src/piquant.cpp: compute_quant_config_from_data, quantize, dequantize', 'src/kernels/kernels_specialized.inl: find_min_max', 'src/kernels/quantize.inl: quant_step_scalar_nearest'])
open('/verif/properties.jsonl','w').write('\n'.join(json.dumps(x,ensure_ascii=False) for x in P)+'\n')
print(len(P))
