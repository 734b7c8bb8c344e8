import Verif.Model.Context

/-!
# Calls whose input lies in the memory they write

The other modules read the input from an `InBuf`, a block of memory nobody writes during the call: the kernels declare their
pointers `PIQUANT_RESTRICT` (src/piquant_internal.hpp:23, 27; src/kernels/kernels.inl:39-40, src/kernels/quantize.inl:132-133).
The public calls take two spans and do not check that they are disjoint (src/piquant.cpp:277-308, 342-369), so a caller can pass
the same buffer twice.  Here the input is part of the memory: element `i` is whatever is stored at its address when it is loaded.

By the letter of the language an overlapping call is undefined (the pointers are restrict-qualified), and a compiler may move
loads across stores.  The model keeps the order of the source, except that a block of `w` elements (any `w`, a parameter) may be
loaded before the first of them is stored, which is what a vectorised loop does; the remaining elements are processed one at a
time.  `w = 0` and `w = 1` are the source order.
-/

namespace Verif

/-- `x[i]` as a `float`, loaded from memory (src/kernels/kernels.inl:44, src/kernels/quantize.inl:147-148). -/
def ldMem (ft : FT) (a : Nat) : Prog F32 :=
  match ft with
  | .f32 => ldF32 a
  | .bf16 => do let b ← ldU16 a; pure (bf16ToF32 b)

/-- `ld` of `k` consecutive elements from element `i` on (`x[i]`, src/kernels/kernels.inl:43-50, when the compiler vectorises the
loop; src/kernels/kernels_specialized.inl:738-764). -/
def ldBlock {α : Type} (ld : Nat → Prog α) (i : Nat) : Nat → Prog (List α)
  | 0 => pure []
  | k + 1 => do
    let v ← ld i
    let vs ← ldBlock ld (i + 1) k
    pure (v :: vs)

/-- `each i v` for the elements of a block, in order (`o[i] = …`, src/kernels/kernels.inl:43-50). -/
def stBlock {α : Type} (each : Nat → α → Prog Unit) (i : Nat) : List α → Prog Unit
  | [] => pure ()
  | v :: vs => do each i v; stBlock each (i + 1) vs

/-- `for (i = 0; i < numel; ++i) each(i, ld(i))`, blocks of `w` loaded at once, then the rest (src/kernels/kernels.inl:43-50,
src/kernels/quantize.inl:147-148, src/kernels/kernels_specialized.inl:729-926). -/
def mapLd {α : Type} (w : Nat) (ld : Nat → Prog α) (each : Nat → α → Prog Unit) (numel : Nat) : Prog Unit := do
  let i ← forI (fun i => 0 < w && i + w ≤ numel) w (fun i => do
    let vs ← ldBlock ld i w
    stBlock each i vs) numel 0
  let _ ← forI (fun i => i < numel) 1 (fun i => do
    let v ← ld i
    each i v) numel i

/-- The loop over float elements at address `xa` (src/kernels/kernels.inl:43-50, src/kernels/quantize.inl:147-148). -/
def mapMem (w : Nat) (ft : FT) (each : Nat → F32 → Prog Unit) (xa numel : Nat) : Prog Unit :=
  mapLd w (fun i => ldMem ft (xa + ft.size * i)) each numel

/-- Loop body of `requant_generic` (src/kernels/kernels.inl:43-50). -/
def requantEach (fz : Fuse) (ft : FT) (dt : DType) (mode : RoundMode) (op : ReduceOp) (o : Nat) (scale τ : F32) (zp : ℤ)
    (i : Nat) (v : F32) : Prog Unit := do
  let q ← qStep mode dt.qmax v τ (invScale scale) zp
  match ft with
  | .f32 => do let d ← dqStepF32 fz.gen q scale zp; putF32 op (o + 4 * i) d
  | .bf16 => do let d ← dqStepBf16 q scale zp; putBf16 op (o + 2 * i) d

/-- `requant_generic` (src/kernels/kernels.inl:30-52) with the input at address `xa` of the memory. -/
def requantMem (w : Nat) (fz : Fuse) (ft : FT) (dt : DType) (mode : RoundMode) (op : ReduceOp) (xa o numel : Nat)
    (scale τ : F32) (zp : ℤ) : Prog Unit :=
  mapMem w ft (requantEach fz ft dt mode op o scale τ zp) xa numel

/-- Generic byte loop of `quantize` (src/kernels/quantize.inl:147-148; stochastic rounding to uint8 on every kernel, see
`quantGeneric`) with the input at address `xa` of the memory. -/
def quantU8Mem (w : Nat) (ft : FT) (mode : RoundMode) (xa o numel : Nat) (scale τ : F32) (zp : ℤ) : Prog Unit :=
  mapMem w ft (fun i v => do
    let q ← qStep mode 255 v τ (invScale scale) zp
    wrB (o + i) q) xa numel

/-- `x[i]` for a uint8 code in memory (src/kernels/kernels_specialized.inl:922, 978). -/
def ldCode (a : Nat) : Prog Nat := do let b ← rdB a; pure (b % 256)

/-- `dequant_uint8_to_f32` (src/kernels/kernels_specialized.inl:729-926) and `dequant_uint8_to_bf16` (928-982) with
`reduce_op::set` and the codes at address `xa` of the memory.  The vector loops load 64 (or 16) codes and then store the same
values the scalar loop stores (for bf16 output: not on AVX-512, whose vector loop converts differently, see C30). -/
def dequantU8Mem (w : Nat) (fz : Fuse) (ft : FT) (xa o numel : Nat) (scale : F32) (zp : ℤ) : Prog Unit :=
  mapLd w (fun i => ldCode (xa + i)) (fun i q => match ft with
    | .f32 => putDq32 fz.scal .set o scale (wrap32 zp) i q
    | .bf16 => putDq32b .set o scale (wrap32 zp) i q) numel

/-- `job_entry` (src/piquant.cpp:132-176) for a worker program given by the slice. -/
def splitJobs (threads : Nat) (d : Desc) (body : Nat → Nat → Prog Unit) : List (Prog Unit) :=
  (List.range threads).map (fun ti => match partitionRow d ti threads with
    | .error f => .fail f
    | .ok none => pure ()
    | .ok (some (b, n)) => body b n)

/-- `context::quantize_dequantize_fused` (src/piquant.cpp:342-369) with the input span `[xa, xa + inSize)` in memory. -/
def fusedMem (w : Nat) (c : Ctx) (xa inSize : Nat) (ft : FT) (o outSize : Nat) (qt : DType) (scale : F32) (zp : ℤ)
    (mode : RoundMode) (op : ReduceOp) (τ : F32) : Call :=
  if !qt.isQuant then .error .panic
  else if inSize = outSize then
    .ok (splitJobs c.threads ⟨.quantDequant, inSize / ft.dtype.stride, scale, zp, ft.dtype, qt, mode, op, τ, c.fuse⟩ (fun b n =>
      requantMem w c.fuse ft qt mode op (xa + byteOff ft.dtype.bits b) (o + byteOff ft.dtype.bits b) n scale τ zp))
  else .error .panic

/-- `context::quantize` (src/piquant.cpp:277-308) to uint8 with stochastic rounding, with the input span
`[xa, xa + inSize)` in memory. -/
def quantizeMem (w : Nat) (c : Ctx) (xa inSize : Nat) (ft : FT) (o outSize : Nat) (scale : F32) (zp : ℤ) (τ : F32) : Call :=
  if outSize = inSize / ft.dtype.stride then
    .ok (splitJobs c.threads ⟨.quant, inSize / ft.dtype.stride, scale, zp, ft.dtype, .uint8, .stochastic, .set, τ, c.fuse⟩ (fun b n =>
      quantU8Mem w ft .stochastic (xa + byteOff ft.dtype.bits b) (o + byteOff 8 b) n scale τ zp))
  else .error .panic

/-- `context::dequantize` (src/piquant.cpp:310-340) of uint8 codes with `reduce_op::set`, with the input span
`[xa, xa + inSize)` in memory. -/
def dequantizeMem (w : Nat) (c : Ctx) (xa inSize : Nat) (ft : FT) (o outSize : Nat) (scale : F32) (zp : ℤ) : Call :=
  if inSize = outSize / ft.dtype.stride then
    .ok (splitJobs c.threads ⟨.dequant, outSize / ft.dtype.stride, scale, zp, .uint8, ft.dtype, .nearest, .set, f0, c.fuse⟩ (fun b n =>
      dequantU8Mem w c.fuse ft (xa + byteOff 8 b) (o + byteOff ft.dtype.bits b) n scale zp))
  else .error .panic

end Verif
