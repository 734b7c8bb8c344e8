import Verif.Model.Typed

/-!
# The C++ benchmark

benchmark/bench.cpp: one tensor of random bfloat16 values quantized to uint4 and back.  Modelled: the two library calls with the
arguments the program gives them.  Not modelled: the timing library, the vectors, the random numbers (the theorems take every
tensor with values between -1 and 1, as `std::uniform_real_distribution {-1.0f, 1.0f}` and the conversion to bfloat16 produce).
-/

namespace Verif

/-- `0.2f` (benchmark/bench.cpp:28, 31). -/
def benchScale : F32 := ⟨false, 0x3e4ccccd⟩

/-- `ctx.quantize_generic<bfp16_t, uint4_t>(data_in, data_out, 0.2f, 127, round_mode::nearest)` (benchmark/bench.cpp:28) with
`data_out.resize((numel+1)/2)` (line 20). -/
def benchQuantize (c : Ctx) (data : Nat → Nat) (numel o : Nat) (τ : F32) : Call :=
  quantizeTyped c data .bf16 numel o .uint4 ((numel + 1) / 2) benchScale 127 .nearest τ

/-- `ctx.dequantize_generic<uint4_t, bfp16_t>(data_out, data_in, 0.2f, 127, reduce_op::set)` (benchmark/bench.cpp:31). -/
def benchDequantize (c : Ctx) (x : InBuf) (numel o : Nat) : Call :=
  dequantizeTyped c x .uint4 ((numel + 1) / 2) o .bf16 numel benchScale 127 .set

end Verif
