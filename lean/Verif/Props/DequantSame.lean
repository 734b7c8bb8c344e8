import Verif.Props.Examples
import Verif.Props.Dequant2

/-!
# Dequantization does not depend on the machine: C70; contraction and the fused call: C32
-/

namespace Verif.Props
open Spec

section
variable {c c' : Ctx} {x x' : InBuf} {dt : DType} {n o o' : Nat} {scale : F32} {zp : ℤ} {op : ReduceOp} {m0 m0' : Mem}

/-- C70, float32, SET: two calls on the same codes give the same floats — whatever the kernels, thread
counts, schedules, addresses, the bytes behind the codes and the previous contents of the outputs. -/
theorem C70_dequantize_f32_same (h : DArgs c.threads x dt .f32 n) (hr : Readable dt .f32 n x.size)
    (h' : DArgs c'.threads x' dt .f32 n) (hr' : Readable dt .f32 n x'.size) (hz : ZpSub zp) :
    Always NoFault (dequantize c x (bytes dt.bits n) dt o (4 * n) .f32 scale zp .set) (span o (4 * n)) m0 (fun m =>
      Always NoFault (dequantize c' x' (bytes dt.bits n) dt o' (4 * n) .f32 scale zp .set) (span o' (4 * n)) m0' (fun m' =>
        ∀ i, i < n → code dt.bits x.data 0 i = code dt.bits x'.data 0 i → f32At m (o + 4 * i) = f32At m' (o' + 4 * i))) := by
  refine (C09_dequantize_f32_formula h hr hz).mono (fun _ h => h) (fun m hm => ?_)
  refine (C09_dequantize_f32_formula h' hr' hz).mono (fun _ h => h) (fun m' hm' i hi hc => ?_)
  rw [hm i hi, hm' i hi, hc]

/-- `C70_dequantize_f32_same` applied to a concrete case. -/
example := C70_dequantize_f32_same (c := Ex.c1) (c' := Ex.c2) (x := Ex.codes) (x' := Ex.codes) (dt := .uint4) (n := 139) (o := 1000) (o' := 3000)
    (scale := Ex.tenth) (zp := 7) (m0 := Ex.old) (m0' := Ex.old) (h := by wit) (hr := by wit) (h' := by wit) (hr' := by wit) (hz := by wit)

/-- C70, float32, ADD, in builds that contract all sums or none.  Missing: builds that contract some
sums only (`C70_false_partial_contraction`). -/
theorem C70_dequantize_add_f32_same_partial {b : Bool} (hu : Uniform c b) (hu' : Uniform c' b)
    (h : DArgs c.threads x dt .f32 n) (hr : Readable dt .f32 n x.size)
    (h' : DArgs c'.threads x' dt .f32 n) (hr' : Readable dt .f32 n x'.size) (hz : ZpSub zp) :
    Always NoFault (dequantize c x (bytes dt.bits n) dt o (4 * n) .f32 scale zp .add) (span o (4 * n)) m0 (fun m =>
      Always NoFault (dequantize c' x' (bytes dt.bits n) dt o' (4 * n) .f32 scale zp .add) (span o' (4 * n)) m0' (fun m' =>
        ∀ i, i < n → code dt.bits x.data 0 i = code dt.bits x'.data 0 i → f32At m0 (o + 4 * i) = f32At m0' (o' + 4 * i) →
          f32At m (o + 4 * i) = f32At m' (o' + 4 * i))) := by
  refine (dequantize_vals (ft := .f32) h hr hz).mono (fun _ h => h) (fun m hm => ?_)
  refine (dequantize_vals (ft := .f32) h' hr' hz).mono (fun _ h => h) (fun m' hm' i hi hc ho => ?_)
  obtain ⟨b1, e1, g1⟩ := hm.1 i hi
  obtain ⟨b2, e2, g2⟩ := hm'.1 i hi
  rw [g1, g2, hu.has e1, hu'.has e2, hc, ho]

/-- `C70_dequantize_add_f32_same_partial` applied to a concrete case. -/
example := C70_dequantize_add_f32_same_partial (c := Ex.c1) (c' := Ex.c2) (x := Ex.codes) (x' := Ex.codes) (dt := .uint4) (n := 139) (o := 1000)
    (o' := 3000) (scale := Ex.tenth) (zp := 7) (m0 := Ex.old) (m0' := Ex.old) (b := false) (hu := rfl) (hu' := rfl) (h := by wit) (hr := by wit)
    (h' := by wit) (hr' := by wit) (hz := by wit)

/-- C70, bf16, SET and ADD, on kernels without AVX-512.  Missing: AVX-512 (`C70_false_avx512_bf16`). -/
theorem C70_dequantize_bf16_same_partial (h : DArgs c.threads x dt .bf16 n) (h' : DArgs c'.threads x' dt .bf16 n) (hz : ZpSub zp)
    (hi : c.isa ≠ .avx512f ∧ c.isa ≠ .avx512bf16) (hi' : c'.isa ≠ .avx512f ∧ c'.isa ≠ .avx512bf16) :
    Always NoFault (dequantize c x (bytes dt.bits n) dt o (2 * n) .bf16 scale zp op) (span o (2 * n)) m0 (fun m =>
      Always NoFault (dequantize c' x' (bytes dt.bits n) dt o' (2 * n) .bf16 scale zp op) (span o' (2 * n)) m0' (fun m' =>
        ∀ i, i < n → code dt.bits x.data 0 i = code dt.bits x'.data 0 i → u16At m0 (o + 2 * i) = u16At m0' (o' + 2 * i) →
          u16At m (o + 2 * i) = u16At m' (o' + 2 * i))) := by
  refine (dequantize_vals (ft := .bf16) h (fun _ h => by cases h) hz).mono (fun _ h => h) (fun m hm => ?_)
  refine (dequantize_vals (ft := .bf16) h' (fun _ h => by cases h) hz).mono (fun _ h => h) (fun m' hm' i hi2 hc ho => ?_)
  have key : ∀ {a : Isa} {P Q : Prop}, (a ≠ .avx512f ∧ a ≠ .avx512bf16) → (P ∨ (a = .avx512f ∨ a = .avx512bf16) ∧ Q) → P := by
    rintro a P Q hne (hp | ⟨hp | hp, _⟩)
    · exact hp
    · exact absurd hp hne.1
    · exact absurd hp hne.2
  rw [key hi (hm.1 i hi2), key hi' (hm'.1 i hi2), hc, ho]

/-- `C70_dequantize_bf16_same_partial` applied to a concrete case. -/
example := C70_dequantize_bf16_same_partial (c := Ex.c3) (c' := Ex.c2) (x := Ex.codes) (x' := Ex.codes) (dt := .uint4) (n := 139) (o := 1000)
    (o' := 3000) (scale := Ex.tenth) (zp := 7) (op := .add) (m0 := Ex.old) (m0' := Ex.old) (h := by wit) (h' := by wit) (hz := by wit) (hi := by wit)
    (hi' := by wit)

end

/-! ## Witnesses -/

/-- Sixteen uint8 codes 3. -/
def threes : InBuf := Ex.buf (List.replicate 16 3)
/-- An output buffer of floats `-fl(3 * 0.1f)`. -/
def minusThird : Mem := fun a => if a % 4 = 3 then 0xbe else if a % 4 = 2 then 0x99 else if a % 4 = 1 then 0x99 else 0x9a

/-- The hypotheses of C70 are met: an AVX2 call with four workers and a portable one with one. -/
example := C70_dequantize_f32_same (c := ⟨.avx2, 4, .all⟩) (c' := ⟨.portable, 1, .none⟩) (x := threes) (x' := threes) (dt := .uint8) (n := 16)
  (o := 64) (o' := 4096) (scale := Ex.tenth) (zp := 3) (m0 := Ex.old) (m0' := minusThird)
  ⟨rfl, rfl, by decide, by decide, by norm_num, by norm_num⟩ (by unfold Readable; decide)
  ⟨rfl, rfl, by decide, by decide, by norm_num, by norm_num⟩ (by unfold Readable; decide) (by decide)
example := C70_dequantize_add_f32_same_partial (b := true) (c := ⟨.avx2, 4, .all⟩) (c' := ⟨.avx512f, 1, .all⟩) (x := threes) (x' := threes) (dt := .uint8) (n := 16)
  (o := 64) (o' := 4096) (scale := Ex.tenth) (zp := 3) (m0 := Ex.old) (m0' := Ex.old) (by decide) (by decide)
  ⟨rfl, rfl, by decide, by decide, by norm_num, by norm_num⟩ (by unfold Readable; decide)
  ⟨rfl, rfl, by decide, by decide, by norm_num, by norm_num⟩ (by unfold Readable; decide) (by decide)
example := C70_dequantize_bf16_same_partial (c := ⟨.avx2, 4, .all⟩) (c' := ⟨.sse42, 1, .none⟩) (x := threes) (x' := threes) (dt := .uint8) (n := 16)
  (o := 64) (o' := 4096) (scale := Ex.tenth) (zp := 3) (op := .add) (m0 := Ex.old) (m0' := Ex.old)
  ⟨rfl, rfl, by decide, by decide, by norm_num, by norm_num⟩
  ⟨rfl, rfl, by decide, by decide, by norm_num, by norm_num⟩ (by decide) (by decide) (by decide)

/-- The compiler settings under which Clang builds the library (contraction within one expression
only): the scalar sums of the specialised kernels are contracted, nothing else is. -/
def clang : Fuse := ⟨false, true, false⟩

/-- C70 is false for ADD when the compiler contracts the scalar sums but not the vector ones: sixteen
uint8 codes 3 with scale 0.1f are added to `-fl(0.3)`; the NEON kernel with one worker gives 0.0 for
the first element, with two workers (scalar code) it gives a nonzero float. -/
theorem C70_false_partial_contraction :
    Always NoFault (dequantize ⟨.neon, 1, clang⟩ threes 16 .uint8 64 64 .f32 Ex.tenth 0 .add) (span 64 64) minusThird (fun m => f32At m 64 = f0) ∧
    Always NoFault (dequantize ⟨.neon, 2, clang⟩ threes 16 .uint8 64 64 .f32 Ex.tenth 0 .add) (span 64 64) minusThird
      (fun m => f32At m 64 = ⟨true, 0x32000000⟩) := by
  have key : ∀ (t : Nat) (v : F32) (l : List Nat), 0 < t → t ≤ 2 →
      Ex.result (dequantize ⟨.neon, t, clang⟩ threes (bytes DType.uint8.bits 16) .uint8 64 (DType.f32.stride * 16) .f32 Ex.tenth 0 .add) 64 (DType.f32.stride * 16) minusThird = .ok l →
      f32At (fun a => l.getD a 0) 0 = v →
      Always NoFault (dequantize ⟨.neon, t, clang⟩ threes 16 .uint8 64 64 .f32 Ex.tenth 0 .add) (span 64 64) minusThird (fun m => f32At m 64 = v) := by
    intro t v l h0 h1 he hv
    have h : DArgs t threes .uint8 .f32 16 := ⟨rfl, rfl, by decide, ⟨h0, by norm_num; omega, by norm_num⟩⟩
    refine (dequantize_result (c := ⟨.neon, t, clang⟩) (n := 16) (o := 64) (scale := Ex.tenth) (zp := 0) (op := .add) (m0 := minusThird)
      (l := l) h (by unfold Readable; decide) he).mono (fun _ h => h) (fun m hm => ?_)
    rw [← hv]
    unfold f32At
    have g : ∀ k, k < 64 → l.getD k 0 = m (64 + k) := by
      intro k hk
      rw [← hm, show DType.f32.stride * 16 = 64 from rfl]
      simp [List.getD_eq_getElem?_getD, hk]
    simp only [g 0 (by norm_num), g 1 (by norm_num), g 2 (by norm_num), g 3 (by norm_num), Nat.zero_add]
  refine ⟨key 1 _ (List.replicate 64 0) (by norm_num) (by norm_num) (by decide +kernel) (by decide +kernel),
    key 2 _ ((List.replicate 16 [0, 0, 0, 0xb2]).flatten) (by norm_num) (by norm_num) (by decide +kernel) (by decide +kernel)⟩

/-- C70 is false for bf16 on AVX-512: 128 uint4 codes 3 with zero point 3 and scale 0.1f; the AVX-512
kernel stores the word 0xB200, the portable one 0. -/
theorem C70_false_avx512_bf16 :
    Always NoFault (dequantize ⟨.avx512f, 1, .none⟩ (Ex.buf (List.replicate 64 0x33)) 64 .uint4 64 256 .bf16 Ex.tenth 3 .set) (span 64 256) Ex.old
      (fun m => u16At m 64 = 0xB200) ∧
    Always NoFault (dequantize ⟨.portable, 1, .none⟩ (Ex.buf (List.replicate 64 0x33)) 64 .uint4 64 256 .bf16 Ex.tenth 3 .set) (span 64 256) Ex.old
      (fun m => u16At m 64 = 0) := by
  refine ⟨C36_false_avx512_uint4_bf16.1, ?_⟩
  have h : DArgs 1 (Ex.buf (List.replicate 64 0x33)) .uint4 .bf16 128 := ⟨rfl, rfl, by decide, by decide, by norm_num, by norm_num⟩
  refine (dequantize_result (c := ⟨.portable, 1, .none⟩) (n := 128) (o := 64) (scale := Ex.tenth) (zp := 3) (op := .set) (m0 := Ex.old)
    (l := (List.replicate 128 [0, 0]).flatten) h (by unfold Readable; decide) (by decide +kernel)).mono (fun _ h => h) (fun m hm => ?_)
  have h0 := congrArg (fun l => l.getD 0 0) hm
  have h1 := congrArg (fun l => l.getD 1 0) hm
  have h0 : m 64 = 0 := h0
  have h1 : m 65 = 0 := h1
  unfold u16At; rw [h0, h1]

/-- C32 is false for ADD when the compiler contracts the scalar sums of the specialised kernels but not
the one of the fused kernel: 0.3 is quantized to code 3; dequantize(ADD) turns `-fl(0.3)` into a
nonzero float, the fused call into 0. -/
theorem C32_false_contraction :
    Always NoFault (quantize ⟨.portable, 1, clang⟩ (Ex.buf [0x9a, 0x99, 0x99, 0x3e]) .f32 64 1 .uint8 Ex.tenth 0 .nearest f0) (span 64 1) Ex.old (fun m => m 64 = 3) ∧
    Always NoFault (dequantize ⟨.portable, 1, clang⟩ (Ex.buf [3]) 1 .uint8 64 4 .f32 Ex.tenth 0 .add) (span 64 4) minusThird (fun m => f32At m 64 = ⟨true, 0x32000000⟩) ∧
    Always NoFault (fused ⟨.portable, 1, clang⟩ (Ex.buf [0x9a, 0x99, 0x99, 0x3e]) .f32 64 4 .uint8 Ex.tenth 0 .nearest .add f0) (span 64 4) minusThird (fun m => f32At m 64 = f0) := by
  refine ⟨?_, ?_, ?_⟩
  · exact (quantize_result (dtOut := .uint8) (n := 1) (l := [3]) ⟨rfl, rfl, rfl, sz 1 1⟩ (by decide +kernel)).mono (fun _ h => h) (fun m hm => (List.cons.inj hm).1)
  · refine (dequantize_result (c := ⟨.portable, 1, clang⟩) (n := 1) (o := 64) (scale := Ex.tenth) (zp := 0) (op := .add) (m0 := minusThird)
      (l := [0, 0, 0, 0xb2]) ⟨rfl, rfl, by decide, sz 1 1⟩ (by unfold Readable; decide) (by decide +kernel)).mono (fun _ h => h) (fun m hm => ?_)
    have hm : [m 64, m 65, m 66, m 67] = [0, 0, 0, 0xb2] := hm
    simp only [List.cons.injEq, and_true] at hm
    unfold f32At; rw [hm.1, hm.2.1, hm.2.2.1, hm.2.2.2]; decide +kernel
  · refine (fused_result (c := ⟨.portable, 1, clang⟩) (dtOut := .uint8) (n := 1) (o := 64) (m0 := minusThird) (l := [0, 0, 0, 0]) ⟨rfl, rfl, rfl, sz 1 1⟩ (by decide +kernel)).mono (fun _ h => h) (fun m hm => ?_)
    have hm : [m 64, m 65, m 66, m 67] = [0, 0, 0, 0] := hm
    simp only [List.cons.injEq, and_true] at hm
    unfold f32At; rw [hm.1, hm.2.1, hm.2.2.1, hm.2.2.2]; decide +kernel

end Verif.Props
