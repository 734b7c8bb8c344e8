import Verif.Model.Fp
import Verif.Model.Dtype

/-! # Scalar steps: conversions, quantization and dequantization of one element -/

namespace Verif

/-- Clamp to `[0, hi]`: `std::clamp(x, 0, hi)` (src/kernels/quantize.inl:18, 25; src/kernels/kernels_specialized.inl:55, 98). -/
def clampI (hi : Nat) (x : ℤ) : Nat := (max 0 (min (hi : ℤ) x)).toNat

/-- Two's complement wrap to 32 bits: implicit `int64_t → int32_t` conversion (modular in C++20)
and wrapping vector addition (src/kernels/quantize.inl:113-136; src/kernels/kernels_specialized.inl:70). -/
def wrap32 (x : ℤ) : ℤ := Int.bmod x (2 ^ 32)

/-- Range of `std::int32_t` (src/kernels/kernels_specialized.inl:54). -/
def inI32 (x : ℤ) : Prop := -(2 ^ 31 : ℤ) ≤ x ∧ x < 2 ^ 31
/-- Range of `std::int64_t` (src/kernels/quantize.inl:15). -/
def inI64 (x : ℤ) : Prop := -(2 ^ 63 : ℤ) ≤ x ∧ x < 2 ^ 63
instance (x : ℤ) : Decidable (inI32 x) := by unfold inI32; infer_instance
instance (x : ℤ) : Decidable (inI64 x) := by unfold inI64; infer_instance

/-- float constants (src/kernels/quantize.inl:12) -/
def f0 : F32 := ⟨false, 0⟩
/-- `1.0f` (src/kernels/quantize.inl:12). -/
def f1 : F32 := ⟨false, 0x3f800000⟩
/-- `-1.0f` (src/kernels/quantize.inl:13). -/
def fm1 : F32 := ⟨true, 0x3f800000⟩
/-- `0.5f` (src/kernels/kernels_specialized.inl:47). -/
def fhalf : F32 := ⟨false, 0x3f000000⟩
/-- `-0.5f` (src/kernels/kernels_specialized.inl:48). -/
def fmhalf : F32 := ⟨true, 0x3f000000⟩

/-! ## Little-endian byte representation -/

/-- A 16-bit load from two bytes, little-endian (x86-64, AArch64; `bfp16_t::bits`, include/piquant.hpp:83). -/
def le16 (f : Nat → Nat) : Nat := f 0 % 256 + 256 * (f 1 % 256)
/-- A 32-bit load from four bytes, little-endian (`fp32_t`, include/piquant.hpp:78). -/
def le32 (f : Nat → Nat) : Nat := f 0 % 256 + 256 * (f 1 % 256) + 65536 * (f 2 % 256) + 16777216 * (f 3 % 256)
/-- Byte `k` of an integer (stores of `o[i]`: src/kernels/dequantize.inl:134-138). -/
def byteOf (u k : Nat) : Nat := u / 256 ^ k % 256

namespace InBuf
/-- A byte of the input (src/kernels/dequantize.inl:23, 53). -/
def u8 (x : InBuf) (a : Nat) : Nat := x.data a % 256
/-- A 16-bit word of the input (`bfp16_t::bits`, include/piquant.hpp:83). -/
def u16 (x : InBuf) (a : Nat) : Nat := le16 (fun k => x.data (a + k))
/-- A `float` of the input (`fp32_t`, include/piquant.hpp:78). -/
def f32 (x : InBuf) (a : Nat) : F32 := Flt.ofBits Verif.f32 (le32 (fun k => x.data (a + k)))
end InBuf

/-! ## bfloat16 (include/piquant.hpp:81-125) -/

/-- `explicit operator fp32_t` (include/piquant.hpp:95): `bit_cast<float>(uint32_t(bits) << 16)`. -/
def bf16ToF32 (w : Nat) : F32 := Flt.ofBits f32 (w % 65536 * 65536)

/-- `bfp16_t(fp32_t)` (include/piquant.hpp:86-90), on the 32-bit encoding. -/
def f32ToBf16Bits (u : Nat) : Nat :=
  if u &&& 0x7fffffff > 0x7f800000 then ((u >>> 16) ||| 64) % 65536
  else (((u + (0x7fff + ((u >>> 16) &&& 1))) % 2 ^ 32) >>> 16) % 65536

/-- `bfp16_t(fp32_t)` (include/piquant.hpp:86-90). -/
def f32ToBf16 (x : F32) : Nat := f32ToBf16Bits x.toBits

/-- `operator +` / `+=` (include/piquant.hpp:97-103): add in `float`, round to bf16. -/
def bf16Add (a b : Nat) : Nat := f32ToBf16 (Flt.add (bf16ToF32 a) (bf16ToF32 b))
/-- `operator *` (include/piquant.hpp:111-113). -/
def bf16Mul (a b : Nat) : Nat := f32ToBf16 (Flt.mul (bf16ToF32 a) (bf16ToF32 b))

/-! ## Loading and storing elements -/

/-- Floating point element types (template parameter `In`/`Out` constrained by `is_float_type`) (include/piquant.hpp:188). -/
inductive FT | f32 | bf16
deriving DecidableEq, Repr

/-- `sizeof(T)` (include/piquant.hpp:78, 129). -/
def FT.size : FT → Nat | .f32 => 4 | .bf16 => 2
/-- `dtype_traits<T>::type_code` (include/piquant.hpp:193-197). -/
def FT.dtype : FT → DType | .f32 => .f32 | .bf16 => .bf16

/-- The input element at element index `i` of a buffer starting at byte `off`, as a float
(`static_cast<fp32_t>(x[i])`) (src/kernels/quantize.inl:10, 23). -/
def InBuf.elem (x : InBuf) (ft : FT) (off i : Nat) : F32 :=
  match ft with
  | .f32 => x.f32 (off + 4 * i)
  | .bf16 => bf16ToF32 (x.u16 (off + 2 * i))

/-- `static_cast<fp32_t>(x[i])` with bounds check (src/kernels/quantize.inl:10, 23, 147-148). -/
def ldX (ft : FT) (x : InBuf) (off i : Nat) : Prog F32 := do
  chkIn x (off + ft.size * i) ft.size
  pure (x.elem ft off i)

/-- `x[j].bits` / `x[j]` of a byte-typed input (src/kernels/dequantize.inl:23, 53, 73). -/
def ldQ (x : InBuf) (off j : Nat) : Prog Nat := do
  chkIn x (off + j) 1
  pure (x.u8 (off + j))

/-- `o[i] = v` for `float` (src/kernels/dequantize.inl:134-135). -/
def stF32 (a : Nat) (v : F32) : Prog Unit := stBytes a 4 (byteOf v.toBits)
/-- `o[i]` read by `+=` for `float` (src/kernels/dequantize.inl:137-138). -/
def ldF32 (a : Nat) : Prog F32 := do
  let f ← ldBytes a 4
  pure (Flt.ofBits f32 (le32 f))
/-- `o[i] = v` for `bfp16_t` (include/piquant.hpp:83; src/kernels/kernels_specialized.inl:977-981). -/
def stU16 (a : Nat) (v : Nat) : Prog Unit := stBytes a 2 (byteOf v)
/-- `o[i]` read by `+=` for `bfp16_t` (include/piquant.hpp:100-103). -/
def ldU16 (a : Nat) : Prog Nat := do
  let f ← ldBytes a 2
  pure (le16 f)

/-! ## Quantization steps -/

/-- `static_cast<intW_t>(r) + zp` with the undefined cases explicit: the conversion is undefined
when the value does not fit, and the signed addition is undefined on overflow (src/kernels/quantize.inl:15, 24;
src/kernels/kernels_specialized.inl:54). -/
def toIntAdd (w : Nat) (r : F32) (zp : ℤ) : Prog ℤ :=
  match r.toInt? w with
  | none => .fail .ub
  | some t => if -(2 ^ (w - 1) : ℤ) ≤ t + zp ∧ t + zp < 2 ^ (w - 1) then pure (t + zp) else .fail .ub

/-- `quant_step_scalar_nearest` (src/kernels/quantize.inl:21-26): 64-bit intermediate. -/
def qNearest64 (qmax : Nat) (x inv : F32) (zp : ℤ) : Prog Nat := do
  let rnd := Flt.round (Flt.mul x inv)
  let integral ← toIntAdd 64 rnd zp
  pure (clampI qmax integral)

/-- The scalar step of the specialised kernels, 32-bit intermediate
(kernels_specialized.inl:53-55, 179-181, 316-318, 469, 639, 705 and alike). -/
def qNearest32 (qmax : Nat) (x inv : F32) (zp : ℤ) : Prog Nat := do
  let rnd := Flt.round (Flt.mul x inv)
  let i32 ← toIntAdd 32 rnd zp
  pure (clampI qmax i32)

/-- The value converted to integer by `quant_step_scalar_stochastic`
(src/kernels/quantize.inl:9-13). -/
def stochAdj (x τ inv : F32) : F32 :=
  let rnd := Flt.mul x inv
  let dec := Flt.abs (Flt.sub rnd (Flt.trunc rnd))
  let adj := if Flt.lt τ dec then f1 else f0
  let adj := if Flt.lt rnd f0 then Flt.mul fm1 adj else adj
  Flt.add (Flt.trunc rnd) adj

/-- `quant_step_scalar_stochastic` (src/kernels/quantize.inl:8-19). -/
def qStoch64 (qmax : Nat) (x τ inv : F32) (zp : ℤ) : Prog Nat := do
  let integral ← toIntAdd 64 (stochAdj x τ inv) zp
  pure (clampI qmax integral)

/-- `quant_step_scalar` (src/kernels/quantize.inl:28-34). -/
def qStep (mode : RoundMode) (qmax : Nat) (x τ inv : F32) (zp : ℤ) : Prog Nat :=
  match mode with
  | .stochastic => qStoch64 qmax x τ inv zp
  | .nearest => qNearest64 qmax x inv zp

/-! ## Dequantization steps -/

/-- `a - b` in a signed `w`-bit type; overflow is undefined (src/kernels/dequantize.inl:10;
src/kernels/kernels_specialized.inl:922). -/
def subI (w : Nat) (a b : ℤ) : Prog ℤ :=
  if -(2 ^ (w - 1) : ℤ) ≤ a - b ∧ a - b < 2 ^ (w - 1) then pure (a - b) else .fail .ub

/-- A `float` expression that is stored (`o = e`, the field `val`) or added to the old output
(`o += e`; the field `plus` maps the old output to the new one) (src/kernels/dequantize.inl:134-138). -/
structure Term where
  val : F32
  plus : F32 → F32

/-- The expression `d * scale`.  C++ allows an implementation to evaluate `old + d*scale` with one
rounding (contraction into a fused multiply-add; the default of GCC when the target has the
instruction, and both vector kernels are built with `-mfma`, CMakeLists.txt:44-46).  `fuse` says
whether the compiler did. -/
def Term.prod (fuse : Bool) (d scale : F32) : Term :=
  ⟨Flt.mul d scale, fun old => if fuse then Flt.fma d scale old else Flt.add old (Flt.mul d scale)⟩

/-- An expression that is not a product: nothing to contract (src/kernels/kernels_specialized.inl:1246-1262, 1368-1371). -/
def Term.plain (v : F32) : Term := ⟨v, fun old => Flt.add v old⟩

/-- `dequant_step<In, fp32_t>` (src/kernels/dequantize.inl:8-11). -/
def dqStepF32 (fuse : Bool) (q : Nat) (scale : F32) (zp : ℤ) : Prog Term := do
  let d ← subI 64 q zp
  pure (Term.prod fuse (Flt.ofInt f32 d) scale)

/-- `dequant_step<In, bfp16_t>` (src/kernels/dequantize.inl:8-11): `static_cast<bfp16_t>(int64)`
converts the integer to `float` and rounds to bf16; `* scale` converts `scale` to bf16. -/
def dqStepBf16 (q : Nat) (scale : F32) (zp : ℤ) : Prog Nat := do
  let d ← subI 64 q zp
  pure (bf16Mul (f32ToBf16 (Flt.ofInt f32 d)) (f32ToBf16 scale))

/-- The scalar step of the specialised kernels (kernels_specialized.inl:922, 978, 1168-1170,
1290-1292): `static_cast<fp32_t>(int32(q) - zp)*scale`. -/
def dqStep32 (fuse : Bool) (q : Nat) (scale : F32) (zp : ℤ) : Prog Term := do
  let d ← subI 32 q zp
  pure (Term.prod fuse (Flt.ofInt f32 d) scale)

/-- The scalar step of `dequant_uint2_to_bf16` (kernels_specialized.inl:1387-1389):
`(static_cast<fp32_t>(q) - zp) * scale`. -/
def dqStepU2Bf16 (q : Nat) (scale : F32) (zp : ℤ) : F32 :=
  Flt.mul (Flt.sub (Flt.ofInt f32 q) (Flt.ofInt f32 zp)) scale

/-- `o[i] = v` or `o[i] += v` for `float` output (src/kernels/dequantize.inl:134-138; src/kernels/kernels.inl:43-50). -/
def putF32 (op : ReduceOp) (a : Nat) (v : Term) : Prog Unit :=
  match op with
  | .set => stF32 a v.val
  | .add => do let old ← ldF32 a; stF32 a (v.plus old)

/-- `o[i] = v` or `o[i] += v` for bf16 output, `v` a bf16 (include/piquant.hpp:100-103). -/
def putBf16 (op : ReduceOp) (a : Nat) (v : Nat) : Prog Unit :=
  match op with
  | .set => stU16 a v
  | .add => do let old ← ldU16 a; stU16 a (bf16Add old v)

end Verif
