import Verif.Props.Examples
import Verif.Props.Quant

/-!
# Where the code breaks a claim about `quantize`: C07, C08, C14, C15, C34

Each theorem exhibits legal calls, with the outcome of *every* schedule.
Also: concrete calls that meet the hypotheses of the theorems of `Props/Quant.lean`.
-/

namespace Verif.Props
open Spec

/-- `n` copies of the float just below one half (0x3effffff). -/
def ph (n : Nat) : InBuf := Ex.buf (Ex.words32 (List.replicate n 0x3effffff))

theorem ph_args {threads n : Nat} {dt : DType} (hdt : dt.isQuant = true) (hs : Sizes n threads) : QArgs threads (ph n) .f32 dt n := by
  refine ⟨rfl, hdt, ?_, hs⟩
  show (Ex.words32 (List.replicate n 0x3effffff)).length = 4 * n
  have : ∀ n, (Ex.words32 (List.replicate n 0x3effffff)).length = 4 * n := by
    intro n
    induction n with
    | zero => rfl
    | succ n ih =>
      rw [List.replicate_succ]
      unfold Ex.words32 at *
      rw [List.flatMap_cons, List.length_append, ih]
      simp; omega
  exact this n

theorem sz (n t : Nat) (h : 0 < t := by decide) (h1 : n < 2 ^ 20 := by norm_num) (h2 : t < 2 ^ 20 := by norm_num) : Sizes n t :=
  ⟨h, lt_of_le_of_lt (Nat.mul_le_mul h1.le h2.le) (by norm_num), h1.trans (by norm_num)⟩

/-- The inputs of the counterexamples are harmless: the scalar arithmetic is defined. -/
theorem ph_fits : Fits 32 (scaled (elem .f32 (ph 17).data 0 0) f1) 0 ∧ (scaled (elem .f32 (ph 17).data 0 0) f1).toRat = predHalf ∧
    rha predHalf = 0 := by decide +kernel

/-- C07 is tight: on AVX512F the code of 0.49999997 (scale 1, zero point 0) is 1, where the formula
says 0; the seventeenth element, computed by the scalar tail, is 0. -/
theorem C07_exception_occurs :
    Always NoFault (quantize ⟨.avx512f, 1, .none⟩ (ph 17) .f32 64 9 .uint4 f1 0 .nearest f0) (span 64 9) Ex.old
      (fun m => (∀ i, i < 16 → code 4 m 64 i = 1) ∧ code 4 m 64 16 = 0) := by
  refine (quantize_result (dtOut := .uint4) (n := 17) (l := [17, 17, 17, 17, 17, 17, 17, 17, 0]) (ph_args rfl (sz 17 1)) (by decide +kernel)).mono (fun _ h => h) (fun m hm => ?_)
  have hm : [m 64, m 65, m 66, m 67, m 68, m 69, m 70, m 71, m 72] = [17, 17, 17, 17, 17, 17, 17, 17, 0] := hm
  simp only [List.cons.injEq, and_true] at hm
  obtain ⟨h0, h1, h2, h3, h4, h5, h6, h7, h8⟩ := hm
  refine ⟨fun i hi => ?_, ?_⟩
  · unfold code
    interval_cases i <;> simp [h0, h1, h2, h3, h4, h5, h6, h7]
  · simp [code, h8]

/-- C08 is false: the same call with one and with two threads on the same CPU (AVX512F) gives
different bytes; so does the portable kernel with one thread. -/
theorem C08_false_depends_on_threads_and_cpu :
    Always NoFault (quantize ⟨.avx512f, 1, .none⟩ (ph 17) .f32 64 9 .uint4 f1 0 .nearest f0) (span 64 9) Ex.old (fun m => m 64 = 17) ∧
    Always NoFault (quantize ⟨.avx512f, 2, .none⟩ (ph 17) .f32 64 9 .uint4 f1 0 .nearest f0) (span 64 9) Ex.old (fun m => m 64 = 0) ∧
    Always NoFault (quantize ⟨.portable, 1, .none⟩ (ph 17) .f32 64 9 .uint4 f1 0 .nearest f0) (span 64 9) Ex.old (fun m => m 64 = 0) := by
  refine ⟨?_, ?_, ?_⟩
  · refine (quantize_result (dtOut := .uint4) (n := 17) (l := [17, 17, 17, 17, 17, 17, 17, 17, 0]) (ph_args rfl (sz 17 1)) (by decide +kernel)).mono (fun _ h => h) (fun m hm => ?_)
    exact (List.cons.inj hm).1
  · refine (quantize_result (dtOut := .uint4) (n := 17) (l := [0, 0, 0, 0, 0, 0, 0, 0, 0]) (ph_args rfl (sz 17 2)) (by decide +kernel)).mono (fun _ h => h) (fun m hm => ?_)
    exact (List.cons.inj hm).1
  · refine (quantize_result (dtOut := .uint4) (n := 17) (l := [0, 0, 0, 0, 0, 0, 0, 0, 0]) (ph_args rfl (sz 17 1)) (by decide +kernel)).mono (fun _ h => h) (fun m hm => ?_)
    exact (List.cons.inj hm).1

/-- C08 is false: the same call into a 16-byte aligned and into an unaligned output buffer (SSE4.2)
gives different bytes. -/
theorem C08_false_depends_on_alignment :
    Always NoFault (quantize ⟨.sse42, 1, .none⟩ (ph 16) .f32 64 16 .uint8 f1 0 .nearest f0) (span 64 16) Ex.old (fun m => m 64 = 1) ∧
    Always NoFault (quantize ⟨.sse42, 1, .none⟩ (ph 16) .f32 65 16 .uint8 f1 0 .nearest f0) (span 65 16) Ex.old (fun m => m 65 = 0) := by
  refine ⟨?_, ?_⟩
  · refine (quantize_result (dtOut := .uint8) (n := 16) (l := List.replicate 16 1) (ph_args rfl (sz 16 1)) (by decide +kernel)).mono (fun _ h => h) (fun m hm => ?_)
    exact (List.cons.inj hm).1
  · refine (quantize_result (dtOut := .uint8) (n := 16) (l := List.replicate 16 0) (ph_args rfl (sz 16 1)) (by decide +kernel)).mono (fun _ h => h) (fun m hm => ?_)
    exact (List.cons.inj hm).1

/-- C14 is false on vector kernels: in one call (AVX512F), element 0 and element 16 have the same
value but element 0 gets the larger code. -/
theorem C14_false_on_vector_kernels :
    elem .f32 (ph 17).data 0 0 = elem .f32 (ph 17).data 0 16 ∧
    Always NoFault (quantize ⟨.avx512f, 1, .none⟩ (ph 17) .f32 64 9 .uint4 f1 0 .nearest f0) (span 64 9) Ex.old
      (fun m => code 4 m 64 16 < code 4 m 64 0) :=
  ⟨by decide +kernel, C07_exception_occurs.mono (fun _ h => h) (fun m hm => by rw [hm.1 0 (by norm_num), hm.2]; norm_num)⟩

/-- 16 copies of 1e10 (scale 1: far above the top code). -/
def bigs : InBuf := Ex.buf (Ex.words32 (List.replicate 16 0x501502f9))

/-- C15 is false: on the vector kernels, inputs whose scaled value is at least 2^31 get code 0, not
the top code. -/
theorem C15_false_large_values_give_zero :
    (2:ℚ) ^ 31 ≤ (scaled (elem .f32 bigs.data 0 3) f1).toRat ∧
    Always NoFault (quantize ⟨.avx512f, 1, .none⟩ bigs .f32 64 8 .uint4 f1 0 .nearest f0) (span 64 8) Ex.old (fun m => code 4 m 64 3 = 0) ∧
    Always NoFault (quantize ⟨.avx2, 1, .none⟩ bigs .f32 64 8 .uint4 f1 0 .nearest f0) (span 64 8) Ex.old (fun m => code 4 m 64 3 = 0) ∧
    Always NoFault (quantize ⟨.sse42, 1, .none⟩ bigs .f32 64 8 .uint4 f1 0 .nearest f0) (span 64 8) Ex.old (fun m => code 4 m 64 3 = 0) := by
  have hargs : ∀ t, Sizes 16 t → QArgs t bigs .f32 .uint4 16 := fun t hs => ⟨rfl, rfl, rfl, hs⟩
  have fin : ∀ m : Mem, (List.range (bytes DType.uint4.bits 16)).map (fun j => m (64 + j)) = List.replicate 8 0 → code 4 m 64 3 = 0 := by
    intro m hm
    have hm : [m 64, m 65, m 66, m 67, m 68, m 69, m 70, m 71] = [0, 0, 0, 0, 0, 0, 0, 0] := hm
    simp only [List.cons.injEq, and_true] at hm
    simp [code, hm.2.1]
  refine ⟨by decide +kernel, ?_, ?_, ?_⟩ <;>
  exact (quantize_result (dtOut := .uint4) (n := 16) (l := List.replicate 8 0) (hargs 1 (sz 16 1)) (by decide +kernel)).mono (fun _ h => h) (fun m hm => fin m hm)

/-- C15: on the portable kernels the same input is undefined behaviour. -/
theorem C15_false_portable_undefined :
    quantize ⟨.portable, 1, .none⟩ bigs .f32 64 8 .uint4 f1 0 .nearest f0 =
      .ok (jobs .portable 1 bigs 64 ⟨.quant, 16, f1, 0, .f32, .uint4, .nearest, .set, f0, .none⟩) ∧
    Ex.result (quantize ⟨.portable, 1, .none⟩ bigs .f32 64 8 .uint4 f1 0 .nearest f0) 64 8 Ex.old = .error .ub := by
  exact ⟨rfl, by decide +kernel⟩

/-- C34 is false: with zero point 2^32, nearest rounding of 1.0 to uint8 uses zero point 0 while
stochastic rounding uses 2^32 (and saturates); nearest to uint2 from f32 uses 2^32 too. -/
theorem C34_false_zero_point_truncated :
    Always NoFault (quantize ⟨.portable, 1, .none⟩ (Ex.buf (Ex.words32 [0x3f800000])) .f32 64 1 .uint8 f1 (2 ^ 32) .nearest f0) (span 64 1) Ex.old (fun m => m 64 = 1) ∧
    Always NoFault (quantize ⟨.portable, 1, .none⟩ (Ex.buf (Ex.words32 [0x3f800000])) .f32 64 1 .uint8 f1 (2 ^ 32) .stochastic Ex.quarter) (span 64 1) Ex.old (fun m => m 64 = 255) ∧
    Always NoFault (quantize ⟨.portable, 1, .none⟩ (Ex.buf (Ex.words32 [0x3f800000])) .f32 64 1 .uint4 f1 (2 ^ 32) .nearest f0) (span 64 1) Ex.old (fun m => m 64 = 1) ∧
    Always NoFault (quantize ⟨.portable, 1, .none⟩ (Ex.buf (Ex.words32 [0x3f800000])) .f32 64 1 .uint2 f1 (2 ^ 32) .nearest f0) (span 64 1) Ex.old (fun m => m 64 = 3) := by
  have hargs : ∀ dt : DType, dt.isQuant = true → QArgs 1 (Ex.buf (Ex.words32 [0x3f800000])) .f32 dt 1 := fun dt h => ⟨rfl, h, rfl, sz 1 1⟩
  refine ⟨?_, ?_, ?_, ?_⟩
  · exact (quantize_result (dtOut := .uint8) (n := 1) (l := [1]) (hargs .uint8 rfl) (by decide +kernel)).mono (fun _ h => h) (fun m hm => (List.cons.inj hm).1)
  · exact (quantize_result (dtOut := .uint8) (n := 1) (l := [255]) (hargs .uint8 rfl) (by decide +kernel)).mono (fun _ h => h) (fun m hm => (List.cons.inj hm).1)
  · exact (quantize_result (dtOut := .uint4) (n := 1) (l := [1]) (hargs .uint4 rfl) (by decide +kernel)).mono (fun _ h => h) (fun m hm => (List.cons.inj hm).1)
  · exact (quantize_result (dtOut := .uint2) (n := 1) (l := [3]) (hargs .uint2 rfl) (by decide +kernel)).mono (fun _ h => h) (fun m hm => (List.cons.inj hm).1)

/-! ## The hypotheses of `Props/Quant.lean` are met -/

/-- 1.0, -2.5, 0.3, 7.75, 100.0 with scale 0.1, zero point 8: defined in both modes, on every kernel. -/
theorem xs_defined : ∀ i, i < 5 → Defined .nearest f0 (scaled (elem .f32 Ex.xs.data 0 i) Ex.tenth) 8 ∧
    Defined .stochastic Ex.quarter (scaled (elem .f32 Ex.xs.data 0 i) Ex.tenth) 8 ∧
    |(scaled (elem .f32 Ex.xs.data 0 i) Ex.tenth).toRat| ≠ predHalf := by decide +kernel
example : 0 < Ex.tenth.toRat ∧ Ex.tenth.isFin = true ∧ Zp32 8 ∧ |(8:ℤ)| ≤ 2 ^ 22 ∧ 0 ≤ Ex.quarter.toRat ∧
    (Flt.div (⟨false, 0x3f800000⟩ : F32) Ex.tenth).isFin = true := by decide +kernel
/-- C06 and C17 applied to that call: codes 18, 0, 11, 86, 255 and 18, 0, 11, 85, 255 (clamped). -/
example : Ex.result (quantize ⟨.portable, 2, .none⟩ Ex.xs .f32 64 5 .uint8 Ex.tenth 8 .nearest f0) 64 5 Ex.old = .ok [18, 0, 11, 86, 255] := by decide +kernel
example : Ex.result (quantize ⟨.avx2, 2, .none⟩ Ex.xs .f32 64 5 .uint8 Ex.tenth 8 .stochastic Ex.half) 64 5 Ex.old = .ok [18, 0, 11, 85, 255] := by decide +kernel
example : ExactKernel .portable .bf16 .uint4 .nearest ∧ ExactKernel .avx2 .f32 .uint8 .stochastic ∧ ¬ ExactKernel .avx2 .f32 .uint8 .nearest := by
  simp [ExactKernel]
/-- The mean over the four thresholds 0, 1/4, 1/2, 3/4 of the rounded value of 2.75 is 2.75. -/
example : ((grid 4).map (fun t => ((sround t (11/4) : ℤ) : ℚ))).sum / 4 = 11 / 4 := by decide +kernel

end Verif.Props
