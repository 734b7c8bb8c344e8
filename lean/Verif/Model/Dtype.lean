import Verif.Model.Prog

/-! # Data types (include/piquant.hpp:21-45, 131-163; src/piquant_internal.hpp:41-44) -/

namespace Verif

/-- `enum class round_mode` (include/piquant.hpp:21-26). -/
inductive RoundMode | nearest | stochastic
deriving DecidableEq, Repr

/-- `static_cast<std::size_t>(round_mode)` (include/piquant.hpp:21-26). -/
def RoundMode.code : RoundMode → Nat | nearest => 0 | stochastic => 1

/-- `enum class reduce_op` (include/piquant.hpp:28-33). -/
inductive ReduceOp | set | add
deriving DecidableEq, Repr

/-- `static_cast<std::size_t>(reduce_op)` (include/piquant.hpp:28-33). -/
def ReduceOp.code : ReduceOp → Nat | set => 0 | add => 1

/-- `enum class dtype` (include/piquant.hpp:36-45), in order. -/
inductive DType | f32 | bf16 | uint2 | uint4 | uint8
deriving DecidableEq, Repr

/-- `enum class command_type` (include/piquant.hpp:317-321). -/
inductive Cmd | quant | dequant | quantDequant
deriving DecidableEq, Repr

namespace DType

/-- `dtype_info::stride` (include/piquant.hpp:149-155). -/
def stride : DType → Nat
  | f32 => 4 | bf16 => 2 | uint2 => 1 | uint4 => 1 | uint8 => 1

/-- `dtype_info::bit_size` (include/piquant.hpp:149-155). -/
def bits : DType → Nat
  | f32 => 32 | bf16 => 16 | uint2 => 2 | uint4 => 4 | uint8 => 8

/-- `dtype_flags::is_quant` of `dtype_info::flags` (include/piquant.hpp:149-155). -/
def isQuant : DType → Bool
  | f32 => false | bf16 => false | uint2 => true | uint4 => true | uint8 => true

/-- `dtype_flags::is_int` (include/piquant.hpp:149-155). -/
def isInt : DType → Bool
  | f32 => false | bf16 => false | uint2 => true | uint4 => true | uint8 => true

/-- `dtype_flags::is_signed` (include/piquant.hpp:149-155). -/
def isSigned : DType → Bool
  | f32 => true | bf16 => true | uint2 => false | uint4 => false | uint8 => false

/-- `dtype_limits<T>::max` for the quantized types (include/piquant.hpp:175-186);
`min` is 0 for all of them. -/
def qmax : DType → Nat
  | uint2 => 3 | uint4 => 15 | _ => 255

/-- The enum value used as table index and in the C API (include/piquant.h, src/capi.cpp:9-13). -/
def code : DType → Nat
  | f32 => 0 | bf16 => 1 | uint2 => 2 | uint4 => 3 | uint8 => 4

/-- The enumerators (include/piquant.hpp:36-45). -/
def all : List DType := [f32, bf16, uint2, uint4, uint8]

end DType

/-- `packed_numel` (src/piquant_internal.hpp:41-44).  `8u / bit_size` is 0 for the float types,
so the second division divides by zero.  `ne + per_byte - 1` is `size_t` arithmetic and wraps
around. -/
def packedNumel (ne : Nat) (dt : DType) : Except Fault Nat :=
  let perByte := 8 / dt.bits
  if perByte = 0 then .error .divZero else .ok ((ne + perByte - 1) % 2 ^ 64 / perByte)

/-- The CPU kernel variants the library is compiled for (CMakeLists.txt:41-47) and the
preprocessor branches of kernels_specialized.inl.  `portable` is kernel_generic.cpp on x86-64
(no vector branch); `neon` is kernel_generic.cpp on AArch64. -/
inductive Isa | portable | sse42 | avx2 | avx512f | avx512bf16 | neon
deriving DecidableEq, Repr

/-- Compile-time choices the C++ standard leaves to the compiler (no line of the source fixes them):
whether `old + product` is contracted into one fused multiply-add in the ADD variants of the vector
loops (`vec`), of the scalar loops of kernels_specialized.inl (`scal`) and of the generic code of
dequantize.inl and kernels.inl (`gen`).  GCC contracts all of them in the kernels built with `-mfma`;
Clang only contracts within one expression, i.e. only `scal` (CMakeLists.txt:43-46 for the flags). -/
structure Fuse where
  vec : Bool
  scal : Bool
  gen : Bool
deriving DecidableEq, Repr

namespace Fuse

/-- No sum is contracted (`-ffp-contract=off`, or no such instruction) (CMakeLists.txt:43-46). -/
def none : Fuse := ⟨false, false, false⟩
/-- Every sum is contracted (CMakeLists.txt:43-46). -/
def all : Fuse := ⟨true, true, true⟩
/-- `b` is the choice made for some sum (CMakeLists.txt:43-46). -/
def Has (z : Fuse) (b : Bool) : Prop := b = z.vec ∨ b = z.scal ∨ b = z.gen

instance (z : Fuse) (b : Bool) : Decidable (z.Has b) := by unfold Has; infer_instance

end Fuse
end Verif
