# pi-quant: formal model and proofs in Lean 4

Everything below is about `/repo` at the pinned commit, read as text. Nothing of it is compiled or run.

* `properties.jsonl` — the English properties (C01, C02, ...).
* `lean/Verif/Model/` — the model, one definition per function, each citing file and lines.
* `lean/Verif/Spec.lean`, `SpecParams.lean`, `SpecSession.lean`, `SpecIeee.lean`, `SpecNan.lean`, `SpecCrash.lean`, `SpecTraffic.lean`, `SpecVector.lean`, `SpecExact.lean` — the vocabulary the theorems are stated with. It does not
  use the model's kernels, loops, partitioning or packing helpers.
* `lean/Verif/Proofs/` — lemmas. `lean/Verif/Props/` — the property theorems `Verif.Props.Cnn_*`, each
  followed by an `example` that applies it to a concrete non-trivial case (those that need an execution or another
  theorem first are in `Props/Witness.lean`).
* `MANIFEST.json` — property → theorems. `seeded/LOG.jsonl` — wrong programs the theorems were tested on.

Conventions: `Cnn_false_*` is the proved *negation* of (part of) a property that the code does not have,
with a concrete witness evaluated by the kernel; `Cnn_*_partial` is the strongest restriction proved.

## 1. Trusted base

* Lean 4.33.0's kernel. Axioms used: `propext`, `Classical.choice`, `Quot.sound` (checked by `vcheck`);
  no own axioms, no compiled evaluation (`decide +kernel` is evaluated by the kernel itself).
* The reading of the C++ and Python sources: the model is written by hand from the cited lines.
* The semantics given to the hardware: IEEE-754 (`SpecIeee.lean`, transcribed from the standard; the software floats of
  `Model/Fp.lean` the model computes with are *proved* to satisfy it, C86), the SSE/AVX/AVX-512/NEON intrinsics
  (`Model/Simd.lean`, from the vendors' documentation), CPUID bit positions (`Props/Cpu.lean`).
* The specification files, which say what the theorems mean.

## 2. What is modelled

| Lean module | Code |
|---|---|
| `Model/Fp.lean` | binary32, binary64, bfloat16 formats on their encodings; `+ - * /`, fma, comparisons, `std::round`, `std::trunc`, conversions. Every operation is "exact rational result, rounded to nearest even", with infinities, NaN, signed zeros and subnormals |
| `Model/Prog.lean` | execution model: a worker is a tree of single-byte reads/writes of output memory; small-step interleaving semantics of any number of workers; faults |
| `Model/Dtype.lean` | `include/piquant.hpp:21-45, 131-197`, `src/piquant_internal.hpp:41-44` |
| `Model/Scalar.lean` | `include/piquant.hpp:81-125` (bf16), `src/kernels/quantize.inl:8-34`, `dequantize.inl:8-11`, scalar steps of the specialised kernels |
| `Model/Simd.lean` | every intrinsic used in `kernels_specialized.inl`, lane by lane; `cvt_ps_to_bf16` (15-32) |
| `Model/KernelsQ.lean` | `quantize.inl`, `kernels_specialized.inl:35-727`: all `quant_*` kernels in all `#ifdef` branches (SSE4.2, AVX2, AVX-512F, AVX-512F+BF16, NEON, none), including alignment prologues, streaming stores and tails |
| `Model/KernelsDq.lean` | `dequantize.inl`, `kernels_specialized.inl:729-1416`, `kernels.inl:30-52` |
| `Model/MinMax.lean` | `kernels_specialized.inl:1418-1607`, `src/piquant.cpp:213-259, 371-381` |
| `Model/Context.lean` | `kernels.inl:107-197` (dispatch), `src/piquant.cpp:132-176, 197-211, 277-369` (work split, jobs, public calls with their assertions), `src/capi.cpp:28-80` |
| `Model/Cpu.lean` | `src/piquant.cpp:24-82, 178-188`, `CMakeLists.txt:41-44` |
| `Model/Py.lean` | `python/src/piquant/__init__.py`, `torch.py`, `_bootstrap.py` (enum values), `src/capi.cpp:84-104` |
| `Model/Rng.lean` | `src/piquant.cpp:194-202`: the per-thread `std::mt19937_64` (C++ standard [rand.eng.mers]), `uniform_real_distribution<float>` (libstdc++), the draw of the threshold, histories of calls |
| `Model/Session.lean` | programs using the API: threads of the caller making blocking calls (`src/piquant.cpp:203-210`), all workers of all calls interleaved |
| `Model/Life.lean` | `python/src/piquant/__init__.py:64-80`, `src/capi.cpp:19-26`: life of the Python `Context` objects and of the native contexts (finalizers, copies, garbage collection, interpreter exit) |
| `Model/Typed.lean` | `include/piquant.hpp:98-125` (unused bf16 operators), `167-186` (limits), `219-311` (typed wrappers) |
| `Model/Naive.lean` | `test/naive.hpp:12-96`: the project's reference quantizer with its xorshift generator |
| `Model/Suite.lean` | tolerances and comparisons of `test/requant.cpp`, `test/dequant.cpp` |
| `Model/RawApi.lean` | the enumerations of `include/piquant.h` and `_bootstrap.py` as integers; `src/capi.cpp` and the dispatch tables indexed with whatever integer arrives |
| `Model/Weak.lean` | stores that become visible late: per-core buffers, x86-TSO order for ordinary stores, none for the non-temporal stores of `kernels_specialized.inl:78-81, 123, 158, 268`; two ways the pool can report a finished task |
| `Model/Alias.lean` | the fused loop, the generic uint8 quantize loop and the uint8 dequantize loops with the input in the memory they write (overlapping spans), loading blocks of any width ahead |
| `Model/Shared.lean` | concurrent execution in which every load of an input byte is a scheduling point and several workers may load the same byte (read-only input span) |
| `Model/Bench.lean` | the two library calls of `benchmark/bench.cpp` |

Faults are explicit and distinct: undefined behaviour of a scalar operation (float→int out of range,
signed overflow), out-of-bounds read or write, misaligned streaming store, integer division by zero,
`panic`/abort, and non-termination. All accesses of the output are checked against the output window,
all accesses of the input against its size.

"Parallel call" theorems quantify over every interleaving of the workers' single-byte accesses
(`AllSchedules`): no reachable state faults or races, unfinished calls can continue, the number of steps
is bounded (termination), and every completed execution satisfies the postcondition.

## 3. What is not modelled, and simplifications

* The thread pool (`third_party/threadpool` is an empty submodule). Assumed of it: `scheduleSequence(0, n)`
  runs the callback once for each index, in any interleaving, and `join` waits for all;
  `scheduleBlocks(0, n)` runs the callback on consecutive blocks covering `[0, n)` and returns the results
  in order. The split itself is a parameter of every theorem. Memory ordering: except in C84, stores are visible at once;
  C84 (`Model/Weak.lean`) justifies this for a pool whose `join` orders non-temporal stores and shows what can
  happen otherwise.
* `std::random_device`: the 32-bit seed of a thread's generator is a parameter. In all properties but C68 and C69
  the threshold `τ` of a stochastic call is a parameter too (C68 says which values it takes).
* No aliasing of input and output (`PIQUANT_RESTRICT`), so input reads are not scheduling points. Exception: C87
  (`Model/Alias.lean`) has the input in memory for the fused call, the generic uint8 quantize loop and the uint8
  dequantize loops; C90 (`Model/Shared.lean`) proves that loads from a separate input span may happen at any moment.
* Contraction of `a*b + c` to an FMA by the compiler. The only sums the compiler may contract are the ADD
  sums `old + (q - zp)*scale`: in `quantize` the product has other uses (`round`, `trunc`, sign test), so
  neither GCC nor Clang fuses it. Which ADD sums are contracted is a parameter of the model (`Ctx.fuse`:
  vector code, scalar code of the specialised kernels, generic/fused code); every theorem holds for every
  choice unless it says otherwise. Not modelled: inline functions compiled with different flags in several
  translation units, of which the linker keeps one (the choice would then depend on the link order).
* Computed NaNs have one payload; NaNs loaded from memory keep their bits. Consequence: the one case where
  the payload matters (a non-canonical NaN as old value of an AVX-512F bf16 ADD) is outside the theorems,
  which exclude NaN old values there or speak of the stored word.
* Default floating-point environment (nearest even, no flushing), x86-64/AArch64 two's complement
  little endian, `size_t` 64 bits. 64-bit `size_t` arithmetic is modular where the code relies on it
  (`packedNumel`, `byteOff`, `capiBytes`); `int64_t` overflow of the work split is a fault.
* Loop indices (`int64_t`) are naturals: they stay below `numel + 256`; theorems assume `numel < 2^59`.
* `_mm512_reduce_min/max_ps`: order unspecified by Intel, modelled as a halving tree (for finite data any
  order gives the same value up to the sign of zero).
* `panic`'s message formatting, iostream, logging, the timing in the benchmarks, plotting scripts, the GoogleTest drivers (their reference code, data and
  tolerances are modelled).
* PyTorch itself: `contiguous()`, `empty()`, views; a tensor is a contiguous buffer. cffi conversions are
  modelled by their documented effect (range check of integers, C cast of floats).
* Destruction of a context from C++ while calls on it are in progress (the Python lifetime is modelled, `Model/Life.lean`;
  `os.fork` and a finalizer called by hand are not), memory allocation failure, exceptions of the pool.

## 4. How each property is modelled and proved

| Property | Method |
|---|---|
| C01 | `jobEntry`'s slice in closed form; integer arithmetic for all sizes and thread counts; at API level, the access traces of every execution: each worker touches only its own slice, a finished call has touched every byte |
| C02, C03 | workers are confined to pairwise disjoint windows (an invariant of `Step`), which gives race freedom on traces, commutation with sequential execution, and a step bound by induction on program trees |
| C04, C05, C35, C41 | loop rules (induction on the remaining count) for prologue, vector loop and tail of each kernel and ISA; window-restricted runs give bounds and alignment; absence of the fault `diverge` gives termination |
| C06, C07, C12 | lane-level lemmas for each instruction sequence (permutes, packs, nibble/crumb packing) show that output element `i` is the scalar step of input element `i`; the two roundings `trunc(fl(p±½))` and `round(p)` are compared on the binary32 model |
| C08 | false (negation: thread count, CPU, alignment). Partial: equality of configurations away from the exceptional value |
| C09, C10, C11 | as C04–C07 for the dequantize kernels; negations for the uint2 tail and the extra byte read |
| C13, C16, C25, C44 | error analysis over ℚ of `fl(x·fl(1/s))` and `fl((q-zp)·s)`, composition of two API calls by nesting `Always` |
| C14, C15, C42 | monotonicity of correctly rounded operations; negations for vector kernels / huge values |
| C17, C18, C19 | exact rational description of the stochastic step; finite means over near-uniform thresholds, and the Lebesgue integral of the rounding rule |
| C20–C24, C37 | min/max kernels by loop induction with order lemmas on floats; binary64 model of the parameter formula; for the SSE4.2 kernel, whose horizontal reduction skips lanes, SpecParams.SeenIn says which elements are looked at, and Proofs/MinMaxSse proves the result is the exact extreme over those |
| C26 | false (negation by a concrete data set) |
| C27, C28, C45 | case analysis of the API prologue; `omega` for the size arithmetic |
| C29, C30 | bit-level conversion against `Flt.cvt` (correctly rounded); negations for AVX-512 |
| C31, C46 | all CPUID/XCR0 register values by bitwise reasoning; C31 false for AVX512BW |
| C32 | formula for the fused loop, compared with the composition of two calls; false for bf16 |
| C33, C34 | negations (0 threads; zero point truncated to 32 bits) and the positive parts |
| C36 | exactness lemmas; negation for the AVX-512 FMA kernels |
| C38 | "fresh" programs: the workers never read output bytes they did not write |
| C39, C40, C47, C48, C49 | Python layer as functions to native calls; composition with the C++ theorems |
| C43 | induction on the number of calls |
| C50 | projection of a joint execution to the executions of the single calls (simulation); induction on the number of calls |
| C51 | typed wrappers as calls with byte sizes; C27 |
| C52 | the constants against the float model; false for bf16 |
| C53 | range of the scaled value from the spacing of binary32 numbers (`toRat_gap`) and the error bound of the computed scale; counterexamples evaluated |
| C54 | `C32_fused_f32_formula` twice; re-scaling a grid value stays within 2^-13 of its integer (`rescaled_near`) |
| C55 | error analysis of C44 with a rounding error of 1/2 or 1 (`rt_core_mode`) |
| C56 | as C55, through the two calls |
| C57 | error of the bf16 word (`word_near`, including the AVX-512 FMA and flush-to-zero variants), re-scaling, rounding |
| C58 | C44's error analysis plus `word_near` |
| C59 | element condition `ElemCode` of every finished execution (any data), then the definedness of the single element; `cvttps` out-of-range semantics for the bad ones |
| C60 | relative error of the scaled value, exact integer argument for rounding and saturation, dequantization error; composition of two calls as in C44 |
| C61 | bound on the slice lengths, carried to the access traces of every execution (see C01) |
| C62 | Both calls reduce to `params bits lo hi` of the spec through C22_true_range_partial; order and set statements follow from uniqueness of the range; monotonicity and accuracy from rounding monotonicity and one-rounding error bounds of fl32. |
| C63 | Zero point saturates at 0 or 2^bits-1 (params_above/params_below); the code is then a saturated rounding of x/s; the gap function measures how far the data is from zero. |
| C64 | Chains py_params, C47_*_is_native_call, the quantize codes of C07 and dequant_bf16_word; counterexample by kernel evaluation of one element plus monotonicity of rounding so that it holds for every kernel set. |
| C65 | `bfp16_t` operators (Scalar/Typed models) compared with one rounding of the exact rational: a float significand has more than twice the bits plus two of a bfloat16 one, so the first rounding never lands on or crosses a midpoint (`NoTrap`), proved by integer arguments on products, quotients and sums |
| C66 | bit comparison against equality of the real values; injectivity of the encoding away from zero; counterexamples |
| C67 | two nested `Always` calls related by the pointwise specification of each; packing extensionality for the bytes; counterexample on AVX-512 uint4 |
| C68 | the engine as a window of 312 words against the standard's recurrence (`IsMt64`); induction on histories; rounding analysis of `float(w)/2^64` for every 64-bit w; injectivity of the tempering bit operations |
| C69 | induction on plans gives each thread alone; a projection invariant on reachable states (each thread's view is a solo execution with memory agreeing on its region, step counts add up) carries it to all interleavings |
| C70 | corollary of the element formulas of C09, C10; negations by kernel evaluation of concrete calls |
| C71 | `quantize_exact` (formula with the excluded value), oddness of `fl`, of round-half-away and of stochastic rounding, and `sat` under reflection |
| C72 | formula + integer reasoning on `sat` |
| C73 | `fl_scale`: rounding commutes with powers of two in the normal range; applied to 1/scale and to the products |
| C74 | C23 (constant data), C07, C09 composed; arithmetic with scale 1 |
| C75 | `Model/Life.lean`: objects, registered finalizers, native contexts, trace of library calls; invariants by induction over the history |
| C76 | `Props/Reduce.lean`: list of peers, nested calls; induction over the list with an accumulated error bound |
| C77 | `Props/FullRange.lean`: parameter bounds of C23/C24 and the exact code equation |
| C78 | `Props/Compare.lean`: two nested calls, monotonicity of rounding, of the reciprocal and of saturation |
| C79 | model test/naive.hpp as a sequential program with its xorshift generator (Model/Naive.lean); triple for its loops by the same packing invariant as the library's; bf16 product error bound; compare codes by `sat` monotone 1-Lipschitz |
| C80 | Scale of `params` is within 2^-23 of the ideal step (double division, one float rounding); composes C22, Covered, codes_near, C09/C10/C32 formulas; no hypothesis on scale or zero point remains. |
| C81 | IEEE bf16 arithmetic via C65; error chain b16_round / prod16_near / summed over the three ways kernels form the sum. |
| C82 | Model/Suite.lean: tolerances and comparisons of the tests; corollary of C80/C81 and one subtraction error. |
| C83 | Model/RawApi.lean keeps the integers: unchecked indexing of dtype_infos and of the dispatch tables, an index out of range being undefined behaviour. Negative ints become huge indices, which are covered because the codes are unbounded naturals. |
| C84 | Model/Weak.lean: machine with store buffers. Simulation of every late-store execution by an ordinary one (Sim), using that no byte is accessed by two workers (C02); for the negation, every ordinary execution is replayed with all non-temporal stores left in the buffers. |
| C85 | Model/Py.lean and TestData (C82); the Python round trip of C49 with the computed parameters bounded as in C82; rte, the half-to-even rounding, is compared with the library's rounding of C07. |
| C86 | An independent IEEE specification (SpecIeee.lean); lemmas relating bit fields, magnitudes and the rounding of Model/Fp.lean to it (Proofs/Ieee.lean, Proofs/IeeeOps.lean); then C06, C07, C09, C10, C22 restated on memory words. |
| C87 | Model/Alias.lean: the same loops with the input in the memory they write; invariant: elements not yet loaded are unchanged. |
| C88 | Model/MinMax.lean; a block is cut after its vector part (`findMinMax_cut`); the scalar loop skips NaNs; witnesses by evaluation (Props/NanParams.lean). |
| C89 | Model/MinMax.lean; the order of floats extended to infinities through the combining loop; the formula evaluated on an infinite range (Proofs/ParamsInf.lean, Props/InfParams.lean). |
| C90 | Model/Shared.lean: steps that load input bytes from memory; simulation between the system that loads during the call and the one that loaded before it, with the number of pending input loads as the decreasing measure. |
| C91 | Errors are sign*(indicator - f) with a common threshold, so products reduce to three threshold counts, each bounded by countP_near (C18); the exact expectation is an interval integral of indicators; the nearest comparison goes through C07. |
| C92 | From the value of every code (C17) and C91 summed over all pairs. |
| C93 | Typed calls (C51) with the literal arguments; saturation from C15, dequantized word evaluated for the one possible code. |
| C94 | C85_half_even_within_one (codes differ by at most one), dequantization error bound, evaluation of a tie for uint2. |
| C95 | Values are within eps steps of the grid (dequant_near / dequant_bf16_near); the width of the range is then (2^bits-1) steps up to 2 eps, so computed_step and computed_near give scale and zero point (an integer less than 1 away), and codes_near gives the codes (integers less than 1 away). |
| C96 | During = reachable configuration of the worker pool. Outside: every step stays in the window (AllSchedules.safe not needed). Retry: C04/C38 say the final bytes of the span do not depend on the old ones. |
| C97 | Once: every kernel writes ascending addresses, each once, except the masked uint4 tail (Proofs/Once). Midway: a byte differs from its old value only if its one writer has passed it; a NoFault call can be completed from any configuration, so the moment lies on an execution that ends. |
| C98 | exact evaluation of `fl(n + 1/2)` for integers `2^23 <= n < 2^24` (ties to even) gives the vector step there; combined with C07's analysis below and above; negation evaluated for all x86 kernels |
| C99 | relative error bounds of the scaled value (C60) and of one product, saturation is non-expansive towards the quantized interval; nested Always over both calls. |
| C100 | nested Always over the list of hops; induction with the exact partial sum and the error so far; one hop is a contribution in the sense of C76 whose tensor is the partial sum; the gather step is the float32 formula of C09. |
| C101 | From the word-level specification C10_add_bf16: in every case the word is the bf16 rounding of a float32 rounding of old plus a value within M*2^-8 + 2^-14 steps of v; error analysis in rationals, then induction over the peers. |
| C102 | Recursive nested Always over the hops with the computed parameters as the result of the modelled search; from the error D so far, the straddling of zero by the true sums gives data around zero, hence C80's computed_step; the recursion D -> growth*(D+B) - B telescopes. |
| C103 | Executions with a log of reads and writes (SpecTraffic); kernels read and write ascending addresses (Proofs/Once, Proofs/Reads), which bounds the accesses of one worker; exclusivity of workers (C02) bounds those of the call. |
| C104 | Closed form of the parameters (C22); the double scale is the same for mirrored ranges, the two rounded quotients add up to the top code within 2^-30; fl commutes with powers of two in the normal range (f64 and f32); workflow by C73. |
| C105 | Sign: the rounded integer has the sign of the scaled value, saturation around a zero point in the code range keeps the side, float products keep the sign. Order: error bound C80 on both elements. Margins: two concrete tensors evaluated in the kernel. |
| C106 | `Clipped`/`clip` in Props/Clip.lean; `clip` is 1-Lipschitz in all three arguments, saturation is `clip` of the rounded quotient (`sat_clip`, `clip_core`); composed with C09, C32, C22 |
| C107 | Props/Linear.lean: finite sums over `C80_roundtrip`; four nested calls for the dot product |
| C108 | Props/OddScale.lean: `scaled` is not finite, then C59 and the failing conversions of the scalar steps; sign symmetry of `flr` for negative scales |
| C109 | `Chain` in Props/Transcode.lean, nested Always over the list of stages; C106 for one stage, clip is 1-Lipschitz, induction with the clipped reference value and the accumulated error |
| C110 | `Feedback` in Props/Feedback.lean; invariant: sent + residual is the true total up to the noise of the caller's operations; C106 for one round |
| C111 | Nested Always over a list of updates (Replay); each update's effect is a function of the old value and the update (from the formulas of C09/C10, uint2 tail included), so the final value is a fold that does not mention the site. |
| C112 | Induction over rounds with the invariant |copy - last tensor| <= apartBy; each round by peer_step of C76. |
| C113 | The rescaled grid value is within 2^-13 of the integer (C13), hence never at the exceptional value of the x86 kernels; induction over the recodings (Props/Recode.lean). |
| C114 | Grid values are representable (`OnGrid.rep`), so every product, sum, fused multiply-add and bf16 rounding is the identity; induction over the updates with `Replay`; permutation by the exact sum (Props/ExactSum.lean). |
| C115 | Frame of any call by induction over schedules (`always_frame`); invariant over the history: every live block's codes are near its data (codes_near of C80); Props/Store.lean. |
| C116 | the loop lemmas of all nearest kernels carry the position (prologue bound, divisibility of the vector loop), so that every element is either in a group or scalar; a position-aware worker obligation (WorkerOkAt) lifts this to all schedules |
| C117 | the loop lemmas of all dequantize kernels carry the position; a position-aware worker obligation (WorkerOkAt) lifts this to all schedules; cvtB_exact gives the exact word of the AVX-512 bf16 conversions |
| C118 | qStoch64_ret/qStep_ret characterise the scalar step exactly (also on non-finite values); the fused worker is generalised to a per-element condition on the subtraction (fused_workerAt) |
| C119 | findMinMax_seen applied to the relation 'the running values are the range if no NaN was seen' (RngIf), then mmBlocks_each and combine_num; paramsOf_eq/_ninf/_pinf give the three cases |
| C120 | C119_finite gives the parameters, C59_bad_elements_isolated the codes element by element, C09 the dequantized value; the bound is rt_core as in C25 |
