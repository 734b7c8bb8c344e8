import Verif.Props.Examples
import Verif.Model.Typed
import Verif.Props.Api
import Verif.Proofs.Order

/-!
# Typed wrappers, type limits: C51, C52
-/

namespace Verif.Props
open Spec

section
variable {c : Ctx} {x : InBuf} {data : Nat → Nat} {tIn tOut : DType} {n nIn nOut o : Nat} {scale τ : F32} {zp : ℤ} {mode : RoundMode}
  {op : ReduceOp}

/-! ## C51 -/

/-- C51 (quantize). The typed wrapper is accepted exactly for a float input element type, a quantized
output element type and an output span of `ceil(bits * nIn / 8)` storage elements (one byte each);
otherwise it aborts before anything is written. -/
theorem C51_typed_quantize_accepts_iff (hx : nIn * 4 < 2 ^ 64) :
    ((tIn.isQuant = false ∧ tOut.isQuant = true ∧ nOut = bytes tOut.bits nIn) →
      ∃ js, quantizeTyped c data tIn nIn o tOut nOut scale zp mode τ = .ok js) ∧
    (¬ (tIn.isQuant = false ∧ tOut.isQuant = true ∧ nOut = bytes tOut.bits nIn) →
      quantizeTyped c data tIn nIn o tOut nOut scale zp mode τ = .error .panic) := by
  have h4 : sizeOf tIn ≤ 4 := by cases tIn <;> decide
  have hlt : nIn * sizeOf tIn < 2 ^ 64 := lt_of_le_of_lt (Nat.mul_le_mul_left nIn h4) hx
  have hdiv : nIn * sizeOf tIn / tIn.stride = nIn := by cases tIn <;> simp [sizeOf, DType.stride]
  have := C27_quantize_accepts_iff (c := c) (x := ⟨nIn * sizeOf tIn, data⟩) (dtIn := tIn) (dtOut := tOut) (o := o) (outSize := nOut * sizeOf tOut)
    (scale := scale) (zp := zp) (mode := mode) (τ := τ) hlt
  simp only [hdiv] at this
  unfold quantizeTyped
  have he : (tIn.isQuant = false ∧ tOut.isQuant = true ∧ nOut * sizeOf tOut = bytes tOut.bits nIn) ↔
      (tIn.isQuant = false ∧ tOut.isQuant = true ∧ nOut = bytes tOut.bits nIn) := by
    cases tOut <;> simp [sizeOf, DType.isQuant]
  rwa [he] at this

/-- `C51_typed_quantize_accepts_iff` applied to a concrete case. -/
example := C51_typed_quantize_accepts_iff (c := Ex.c1) (data := Ex.many.data) (tIn := .f32) (tOut := .uint4) (nIn := 70) (nOut := 70) (o := 1000)
    (scale := Ex.tenth) (τ := Ex.quarter) (zp := 64) (mode := .nearest) (hx := by wit)

/-- C51 (dequantize). -/
theorem C51_typed_dequantize_accepts_iff (hx : nOut * 4 < 2 ^ 64) :
    ((tIn.isQuant = true ∧ tOut.isQuant = false ∧ nIn = bytes tIn.bits nOut) →
      ∃ js, dequantizeTyped c x tIn nIn o tOut nOut scale zp op = .ok js) ∧
    (¬ (tIn.isQuant = true ∧ tOut.isQuant = false ∧ nIn = bytes tIn.bits nOut) →
      dequantizeTyped c x tIn nIn o tOut nOut scale zp op = .error .panic) := by
  have h4 : sizeOf tOut ≤ 4 := by cases tOut <;> decide
  have hlt : nOut * sizeOf tOut < 2 ^ 64 := lt_of_le_of_lt (Nat.mul_le_mul_left nOut h4) hx
  have hdiv : nOut * sizeOf tOut / tOut.stride = nOut := by cases tOut <;> simp [sizeOf, DType.stride]
  have := C27_dequantize_accepts_iff (c := c) (x := x) (inSize := nIn * sizeOf tIn) (dtIn := tIn) (dtOut := tOut) (o := o)
    (scale := scale) (zp := zp) (op := op) hlt
  simp only [hdiv] at this
  unfold dequantizeTyped
  have he : (tIn.isQuant = true ∧ tOut.isQuant = false ∧ nIn * sizeOf tIn = bytes tIn.bits nOut) ↔
      (tIn.isQuant = true ∧ tOut.isQuant = false ∧ nIn = bytes tIn.bits nOut) := by
    cases tIn <;> simp [sizeOf, DType.isQuant]
  rwa [he] at this

/-- `C51_typed_dequantize_accepts_iff` applied to a concrete case. -/
example := C51_typed_dequantize_accepts_iff (c := Ex.c1) (x := Ex.codes) (tIn := .uint4) (tOut := .f32) (nIn := 139) (nOut := 139) (o := 1000)
    (scale := Ex.tenth) (zp := 64) (op := .add) (hx := by wit)

/-- C51 (fused). Input and output span must have the same number of elements. -/
theorem C51_typed_fused_accepts_iff :
    ((tIn.isQuant = false ∧ tOut.isQuant = true ∧ nIn = nOut) →
      ∃ js, fusedTyped c data tIn nIn o nOut tOut scale zp mode op τ = .ok js) ∧
    (¬ (tIn.isQuant = false ∧ tOut.isQuant = true ∧ nIn = nOut) →
      fusedTyped c data tIn nIn o nOut tOut scale zp mode op τ = .error .panic) := by
  have := C27_fused_accepts_iff (c := c) (x := ⟨nIn * sizeOf tIn, data⟩) (dtIn := tIn) (dtOut := tOut) (o := o) (outSize := nOut * sizeOf tIn)
    (scale := scale) (zp := zp) (mode := mode) (op := op) (τ := τ)
  unfold fusedTyped
  have he : (tIn.isQuant = false ∧ tOut.isQuant = true ∧ nIn * sizeOf tIn = nOut * sizeOf tIn) ↔
      (tIn.isQuant = false ∧ tOut.isQuant = true ∧ nIn = nOut) := by
    cases tIn <;> simp [sizeOf, DType.isQuant]
  rwa [he] at this

/-- C51 (effect). An accepted typed call is the byte call on the spans of `n` elements, with legal
arguments, so all other theorems apply to it. -/
theorem C51_typed_calls_are_byte_calls (hs : Sizes n c.threads) :
    (tIn.isQuant = false → tOut.isQuant = true →
      QArgs c.threads ⟨tIn.stride * n, data⟩ tIn tOut n ∧
      quantizeTyped c data tIn n o tOut (bytes tOut.bits n) scale zp mode τ =
        quantize c ⟨tIn.stride * n, data⟩ tIn o (bytes tOut.bits n) tOut scale zp mode τ ∧
      fusedTyped c data tIn n o n tOut scale zp mode op τ =
        fused c ⟨tIn.stride * n, data⟩ tIn o (tIn.stride * n) tOut scale zp mode op τ) ∧
    (tIn.isQuant = true → tOut.isQuant = false → bytes tIn.bits n ≤ x.size →
      DArgs c.threads x tIn tOut n ∧
      dequantizeTyped c x tIn (bytes tIn.bits n) o tOut n scale zp op =
        dequantize c x (bytes tIn.bits n) tIn o (tOut.stride * n) tOut scale zp op) := by
  have e : ∀ t : DType, sizeOf t = t.stride := by intro t; cases t <;> rfl
  refine ⟨fun h1 h2 => ⟨⟨h1, h2, rfl, hs⟩, ?_, ?_⟩, fun h1 h2 h3 => ⟨⟨h1, h2, h3, hs⟩, ?_⟩⟩
  · unfold quantizeTyped; rw [e, e, quant_stride h2, mul_one, Nat.mul_comm]
  · unfold fusedTyped; rw [e, Nat.mul_comm]
  · unfold dequantizeTyped; rw [e, e, quant_stride h1, mul_one, Nat.mul_comm n]

/-- `C51_typed_calls_are_byte_calls` applied to a concrete case. -/
example := C51_typed_calls_are_byte_calls (c := Ex.c1) (x := Ex.many) (data := Ex.many.data) (tIn := .f32) (tOut := .uint8) (n := 70) (o := 1000)
    (scale := Ex.tenth) (τ := Ex.quarter) (zp := 64) (mode := .nearest) (op := .add) (hs := by wit)

/-- Five floats to three bytes of packed uint4. -/
example : DType.f32.isQuant = false ∧ DType.uint4.isQuant = true ∧ 3 = bytes DType.uint4.bits 5 := by decide
example : Sizes 5 3 := ⟨by decide, by norm_num, by norm_num⟩

end

/-! ## C52 -/

/-- C52 (quantized types). The limits are 0 and the largest value of the bit width. -/
theorem C52_limits_quantized {dt : DType} (h : dt.isQuant = true) : dt.qmax = 2 ^ dt.bits - 1 := by
  cases dt <;> simp [DType.isQuant] at h <;> rfl

/-- `C52_limits_quantized` applied to a concrete case. -/
example := C52_limits_quantized (dt := .uint8) (h := by wit)

/-- C52 (float32). The limits are finite and bound every finite float. -/
theorem C52_limits_f32 : limitMinF32.isFin = true ∧ limitMaxF32.isFin = true ∧
    ∀ v : F32, v.isFin = true → limitMinF32.toRat ≤ v.toRat ∧ v.toRat ≤ limitMaxF32.toRat := by
  refine ⟨by decide +kernel, by decide +kernel, fun v hv => ?_⟩
  have hm : v.mag ≤ 0x7f7fffff := by
    have h := of_decide_eq_true hv
    have e : f32.infMag = 0x7f800000 := by decide
    omega
  have h1 : v.absRat ≤ limitMaxF32.absRat := by
    unfold Flt.absRat
    have := magVal_mono f32.mb hm
    have : (magVal f32.mb v.mag : ℚ) ≤ (magVal f32.mb limitMaxF32.mag : ℚ) := by exact_mod_cast this
    exact div_le_div_of_nonneg_right this (by positivity)
  have h0 : 0 ≤ v.absRat := by unfold Flt.absRat; positivity
  have e1 : limitMaxF32.toRat = limitMaxF32.absRat := rfl
  have e2 : limitMinF32.toRat = -limitMaxF32.absRat := rfl
  rw [e1, e2]
  unfold Flt.toRat
  split <;> constructor <;> linarith

/-- C52 is false for bfloat16: the constants 0xFF7F and 0x7F7F are taken as numbers, not as bit
patterns.  `min` is 65280, `max` is 32640, so `min` is above `max`, and the finite bf16 values
65536 and -1 lie outside the limits. -/
theorem C52_false_bf16_limits :
    (bf16ToF32 limitMinBf16).toRat = 65280 ∧ (bf16ToF32 limitMaxBf16).toRat = 32640 ∧
    (∃ w, w < 65536 ∧ (bf16ToF32 w).isFin = true ∧ (bf16ToF32 limitMaxBf16).toRat < (bf16ToF32 w).toRat) ∧
    (∃ w, w < 65536 ∧ (bf16ToF32 w).isFin = true ∧ (bf16ToF32 w).toRat < (bf16ToF32 limitMinBf16).toRat) := by
  refine ⟨by decide +kernel, by decide +kernel, ⟨0x4780, by decide, by decide +kernel, by decide +kernel⟩, ⟨0xbf80, by decide, by decide +kernel, by decide +kernel⟩⟩

end Verif.Props
