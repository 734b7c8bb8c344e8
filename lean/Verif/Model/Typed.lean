import Verif.Model.Context

/-! # Typed wrappers and type limits of the C++ header (include/piquant.hpp) -/

namespace Verif

/-- `sizeof` of the element type with type code `dt`: `float`, `bfp16_t`, `uint2_t`, `uint4_t`,
`uint8_t` (include/piquant.hpp:52-127, with the static asserts of lines 127-129).  The element types
and the type codes correspond one to one (`dtype_traits`, lines 188-198), so a typed span is
described here by its type code and its element count. -/
def sizeOf : DType → Nat
  | .f32 => 4 | .bf16 => 2 | .uint2 => 1 | .uint4 => 1 | .uint8 => 1

/-- `context::quantize_generic<IN, OUT>` (include/piquant.hpp:219-241): spans of `nIn` and `nOut`
elements; `size_bytes()` is the count times `sizeof`.  The `requires` clause only checks that its
flag expressions are well formed, not their values, so it accepts every pair of element types. -/
def quantizeTyped (c : Ctx) (data : Nat → Nat) (tIn : DType) (nIn o : Nat) (tOut : DType) (nOut : Nat) (scale : F32) (zp : ℤ)
    (mode : RoundMode) (τ : F32) : Call :=
  quantize c ⟨nIn * sizeOf tIn, data⟩ tIn o (nOut * sizeOf tOut) tOut scale zp mode τ

/-- `context::dequantize_generic<IN, OUT>` (include/piquant.hpp:253-275). -/
def dequantizeTyped (c : Ctx) (x : InBuf) (tIn : DType) (nIn o : Nat) (tOut : DType) (nOut : Nat) (scale : F32) (zp : ℤ)
    (op : ReduceOp) : Call :=
  dequantize c x (nIn * sizeOf tIn) tIn o (nOut * sizeOf tOut) tOut scale zp op

/-- `context::quantize_dequantize_fused_generic<INOUT, QUANT>` (include/piquant.hpp:288-311). -/
def fusedTyped (c : Ctx) (data : Nat → Nat) (tInOut : DType) (nIn o nOut : Nat) (tQuant : DType) (scale : F32) (zp : ℤ)
    (mode : RoundMode) (op : ReduceOp) (τ : F32) : Call :=
  fused c ⟨nIn * sizeOf tInOut, data⟩ tInOut o (nOut * sizeOf tInOut) tQuant scale zp mode op τ

/-- `dtype_limits<fp32_t>::max`, `::min` (include/piquant.hpp:167-170):
`std::numeric_limits<float>::max()` and its negation. -/
def limitMaxF32 : F32 := ⟨false, 0x7f7fffff⟩
/-- `dtype_limits<fp32_t>::min` (include/piquant.hpp:167-170). -/
def limitMinF32 : F32 := Flt.negate limitMaxF32

/-- `dtype_limits<bfp16_t>::min {0xFF7F}`, `::max {0x7F7F}` (include/piquant.hpp:171-174): the braces
call the constructor from `float`, with the integers 65407 and 32639 converted to `float`. -/
def limitMinBf16 : Nat := f32ToBf16 (Flt.ofInt f32 0xFF7F)
/-- `dtype_limits<bfp16_t>::max` (include/piquant.hpp:171-174). -/
def limitMaxBf16 : Nat := f32ToBf16 (Flt.ofInt f32 0x7F7F)

/-- `bfp16_t::operator-`, `operator/` (include/piquant.hpp:104-124).  Not used by the kernels. -/
def bf16Sub (a b : Nat) : Nat := f32ToBf16 (Flt.sub (bf16ToF32 a) (bf16ToF32 b))
/-- `bfp16_t::operator/` (include/piquant.hpp:118-120). -/
def bf16Div (a b : Nat) : Nat := f32ToBf16 (Flt.div (bf16ToF32 a) (bf16ToF32 b))

/-- `bfp16_t::operator==` (include/piquant.hpp:92): compares the bits. -/
def bf16Eq (a b : Nat) : Bool := a == b

end Verif
