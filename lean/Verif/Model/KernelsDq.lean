import Verif.Model.KernelsQ

/-!
# Dequantization kernels

src/kernels/dequantize.inl, the `dequant_*` functions of src/kernels/kernels_specialized.inl and
`requant_generic` (src/kernels/kernels.inl:30-52).

Arguments as in `Verif.Model.KernelsQ`; `x` is the quantized input (bytes), `o` the absolute
address of the first output element.
-/

namespace Verif
open Simd

/-! ## Register groups

The vector loops compute a list of registers in output order, in ADD mode add the old output to
each (all loads first), then store all of them. -/

/-- `f_k = add_ps(f_k, loadu_ps(o+i+n*k))` for every register, in order, in ADD mode
(kernels_specialized.inl:753-758, 786-795, 847-864, 909-914, 1045-1054, 1107-1116, 1148-1153). -/
def accF32 {n : Nat} (op : ReduceOp) : Nat → List (V n Term) → Prog (List (V n F32))
  | _, [] => pure []
  | a, v :: vs => do
    let v' ← (match op with
      | .set => pure (fun j => (v j).val)
      | .add => do let old ← loado_ps n a; pure (fun j => (v j).plus (old j)))
    let vs' ← accF32 op (a + 4 * n) vs
    pure (v' :: vs')

/-- The group of `storeu_ps`, in order (src/kernels/kernels_specialized.inl:760-763, 808-815, 873-888, 915-918, 1054-1061,
1116-1123, 1150-1153). -/
def storeF32s {n : Nat} : Nat → List (V n F32) → Prog Unit
  | _, [] => pure ()
  | a, v :: vs => do storeu_ps a v; storeF32s (a + 4 * n) vs

/-- The sums of ADD mode, then the stores (src/kernels/kernels_specialized.inl:754-763, 798-815, 855-888, 909-918, 1044-1061,
1106-1123, 1144-1153). -/
def emitF32 {n : Nat} (op : ReduceOp) (a : Nat) (rs : List (V n Term)) : Prog Unit := do
  let rs ← accF32 op a rs
  storeF32s a rs

/-- ADD mode for bf16 output: the old bf16 values are widened and added in `float`
(kernels_specialized.inl:953-966, 1244-1263, 1368-1373). -/
def accBf16 {n : Nat} (op : ReduceOp) : Nat → List (V n Term) → Prog (List (V n F32))
  | _, [] => pure []
  | a, v :: vs => do
    let v' ← (match op with
      | .set => pure (fun j => (v j).val)
      | .add => do let old ← loado_u16 n a; pure (fun j => (v j).plus (bf16_to_ps old j)))
    let vs' ← accBf16 op (a + 2 * n) vs
    pure (v' :: vs')

/-- The group of `storeu_si256(cvt_ps_to_bf16(f))`, in order (src/kernels/kernels_specialized.inl:967-970, 1265-1283, 1374-1377) -/
def storeBf16s {n : Nat} (isa : Isa) : Nat → List (V n F32) → Prog Unit
  | _, [] => pure ()
  | a, v :: vs => do storeu_u16 a (cvt_ps_to_bf16 isa v); storeBf16s isa (a + 2 * n) vs

/-- The sums of ADD mode, then the stores (src/kernels/kernels_specialized.inl:954-970, 1244-1283, 1364-1377). -/
def emitBf16 {n : Nat} (isa : Isa) (op : ReduceOp) (a : Nat) (rs : List (V n Term)) : Prog Unit := do
  let rs ← accBf16 op a rs
  storeBf16s isa a rs

/-- `mul_ps(cvtepi32_ps(sub_epi32(v, vzp)), vscale)`: one register of terms (GCC's intrinsics are
plain vector expressions, so the `add_ps` of ADD mode can be contracted with this product)
(src/kernels/kernels_specialized.inl:746-753, 782-797, 839-854, 905-908, 946-953, 1028-1043, 1090-1105, 1133-1143). -/
def dqReg {n : Nat} (fuse : Bool) (scale : F32) (zp : ℤ) (v : V n ℤ) : V n Term :=
  fun j => Term.prod fuse (cvtepi32_ps (sub_epi32 v (set1 zp)) j) scale

/-- `-static_cast<fp32_t>(zp)*scale` (src/kernels/kernels_specialized.inl:1204, 1324) -/
def dqBias (scale : F32) (zp : ℤ) : F32 := Flt.mul (Flt.negate (Flt.ofInt f32 zp)) scale

/-- `fmadd_ps(cvtepi32_ps(v), vscale, vbias)`: one register (src/kernels/kernels_specialized.inl:1236-1243, 1361)
-/
def dqFma {n : Nat} (scale : F32) (zp : ℤ) (v : V n ℤ) : V n Term :=
  fun j => Term.plain (fmadd_ps (cvtepi32_ps v) (set1 scale) (set1 (dqBias scale zp)) j)

/-! ## Unpacking -/

/-- `expand_u8_to_s32_avx2` (src/kernels/kernels_specialized.inl:768-776, 1067-1075) -/
def expandAvx2 (v : V 32 Nat) : List (V 8 ℤ) :=
  let lo : V 16 Nat := lo128 (n := 16) v
  let hi : V 16 Nat := hi128 (n := 16) v
  [cvtepu8_epi32 lo (by omega), cvtepu8_epi32 (mm_srli_si128_8 lo) (by omega),
   cvtepu8_epi32 hi (by omega), cvtepu8_epi32 (mm_srli_si128_8 hi) (by omega)]

/-- `expand16` of the SSE4.2 branch (src/kernels/kernels_specialized.inl:825-834) -/
def expandSse (v : V 16 Nat) : List (V 4 ℤ) :=
  let zero : V 16 Nat := set1 0
  let w_lo := unpacklo_epi8 (n := 1) v zero
  let w_hi := unpackhi_epi8 (n := 1) v zero
  [epi32_of_bytes (mm_unpacklo_epi16 w_lo zero), epi32_of_bytes (mm_unpackhi_epi16 w_lo zero),
   epi32_of_bytes (mm_unpacklo_epi16 w_hi zero), epi32_of_bytes (mm_unpackhi_epi16 w_hi zero)]

/-- `process16`'s widening (1129-1141) and NEON's `expand_u8_to_s32` (src/kernels/kernels_specialized.inl:1129-1141,
891-899) -/
def expandWords (b : V 16 Nat) : List (V 4 ℤ) :=
  let w0 := mm_cvtepu8_epi16 b
  let w1 := mm_cvtepu8_epi16 (mm_srli_si128_8 b)
  [mm_cvtepi16_epi32 w0, mm_cvtepi16_epi32 (mm_srli_si128_8w w0),
   mm_cvtepi16_epi32 w1, mm_cvtepi16_epi32 (mm_srli_si128_8w w1)]

/-- `expand_u8_to_s32` of the AVX-512 branch (src/kernels/kernels_specialized.inl:997-1007, 1205-1215) -/
def expand512 (v : V 64 Nat) : List (V 16 ℤ) :=
  [cvtepu8_epi32 (mm512_extracti32x4 v 0) (by omega), cvtepu8_epi32 (mm512_extracti32x4 v 1) (by omega),
   cvtepu8_epi32 (mm512_extracti32x4 v 2) (by omega), cvtepu8_epi32 (mm512_extracti32x4 v 3) (by omega)]

/-- `unpack_nibbles` of the AVX-512 branch (src/kernels/kernels_specialized.inl:1008-1022, 1216-1230) -/
def unpackNibbles512 (v : V 64 Nat) : V 64 Nat × V 64 Nat :=
  let mask : V 64 Nat := set1 0x0f
  let lo := and_si v mask
  let hi := and_si (srli_epi16 (n := 32) v 4) mask
  let t0 := unpacklo_epi8 (n := 4) lo hi
  let t1 := unpackhi_epi8 (n := 4) lo hi
  let v0 := mm512_castsi128_si512 (mm512_extracti32x4 t0 0)
  let v0 := mm512_inserti32x4 v0 (mm512_extracti32x4 t1 0) 1
  let v0 := mm512_inserti32x4 v0 (mm512_extracti32x4 t0 1) 2
  let v0 := mm512_inserti32x4 v0 (mm512_extracti32x4 t1 1) 3
  let v1 := mm512_castsi128_si512 (mm512_extracti32x4 t0 2)
  let v1 := mm512_inserti32x4 v1 (mm512_extracti32x4 t1 2) 1
  let v1 := mm512_inserti32x4 v1 (mm512_extracti32x4 t0 3) 2
  let v1 := mm512_inserti32x4 v1 (mm512_extracti32x4 t1 3) 3
  (v0, v1)

/-- `unpack_nibbles` of the AVX2 branch (src/kernels/kernels_specialized.inl:1076-1084) -/
def unpackNibblesAvx2 (v : V 32 Nat) : V 32 Nat × V 32 Nat :=
  let mask : V 32 Nat := set1 0x0f
  let lo := and_si v mask
  let hi := and_si (srli_epi16 (n := 16) v 4) mask
  let t0 := unpacklo_epi8 (n := 2) lo hi
  let t1 := unpackhi_epi8 (n := 2) lo hi
  (mm256_permute2x128_si256 t0 t1 0x20, mm256_permute2x128_si256 t0 t1 0x31)

/-- Nibble unpacking of the SSE4.2 branch (src/kernels/kernels_specialized.inl:1155-1160) -/
def unpackNibblesSse (v : V 16 Nat) : V 16 Nat × V 16 Nat :=
  let mask : V 16 Nat := set1 0x0f
  let lo := and_si v mask
  let hi := and_si (srli_epi16 (n := 8) v 4) mask
  (unpacklo_epi8 (n := 1) lo hi, unpackhi_epi8 (n := 1) lo hi)

/-- `LUT0` (src/kernels/kernels_specialized.inl:1325) -/
def lut0 : V 16 Nat := ![0,1,2,3, 0,1,2,3, 0,1,2,3, 0,1,2,3]
/-- `LUT1` (src/kernels/kernels_specialized.inl:1326). -/
def lut1 : V 16 Nat := ![0,0,0,0, 1,1,1,1, 2,2,2,2, 3,3,3,3]

/-- `do_16bytes`: 16 packed bytes to four registers of 16 codes (src/kernels/kernels_specialized.inl:1344-1360) -/
def unpackCrumbs (b : V 16 Nat) : List (V 16 Nat) :=
  let nib : V 16 Nat := set1 15
  let lo := and_si b nib
  let hi := and_si (srli_epi16 (n := 8) b 4) nib
  let q0 := mm_shuffle_epi8 lut0 lo
  let q1 := mm_shuffle_epi8 lut1 lo
  let q2 := mm_shuffle_epi8 lut0 hi
  let q3 := mm_shuffle_epi8 lut1 hi
  let ab_lo := unpacklo_epi8 (n := 1) q0 q1
  let ab_hi := unpackhi_epi8 (n := 1) q0 q1
  let cd_lo := unpacklo_epi8 (n := 1) q2 q3
  let cd_hi := unpackhi_epi8 (n := 1) q2 q3
  [mm_unpacklo_epi16 ab_lo cd_lo, mm_unpackhi_epi16 ab_lo cd_lo,
   mm_unpacklo_epi16 ab_hi cd_hi, mm_unpackhi_epi16 ab_hi cd_hi]

/-! ## Scalar loops -/

/-- Scalar loop of the uint8 kernels (921-925, 977-981); `put i q` stores element `i` (src/kernels/kernels_specialized.inl:921-925,
977-981). -/
def dqU8Loop (put : Nat → Nat → Prog Unit) (x : InBuf) (off numel i : Nat) : Prog Unit := do
  let _ ← forI (fun i => i < numel) 1 (fun i => do
    let q ← ldQ x off i
    put i q) numel i

/-- Scalar part of the uint4 kernels (1172-1188, 1294-1310); also `dequant_uint4`
(dequantize.inl:13-40; unused, its dtype pairs all have specialised kernels). -/
def dqU4From (put : Nat → Nat → Prog Unit) (x : InBuf) (off numel i0 : Nat) : Prog Unit := do
  let i ← forI (fun i => i + 1 < numel) 2 (fun i => do
    let p ← ldQ x off (i / 2)
    put i (p &&& 15)
    put (i + 1) (p >>> 4)) numel i0
  if numel % 2 = 1 then do
    let p ← ldQ x off (i / 2)
    put (numel - 1) (p &&& 15)
  else pure ()

/-- Scalar part of `dequant_uint2_to_bf16` (src/kernels/kernels_specialized.inl:1390-1415) -/
def dqU2From (put : Nat → Nat → Prog Unit) (x : InBuf) (off numel i0 : Nat) : Prog Unit := do
  let i ← forI (fun i => i + 3 < numel) 4 (fun i => do
    let p ← ldQ x off (i / 4)
    put i (p &&& 3)
    put (i + 1) ((p >>> 2) &&& 3)
    put (i + 2) ((p >>> 4) &&& 3)
    put (i + 3) ((p >>> 6) &&& 3)) numel i0
  if i < numel then do
    let p ← ldQ x off (i / 4)
    if 1 ≤ numel - i then put i (p &&& 3) else pure ()
    if 2 ≤ numel - i then put (i + 1) ((p >>> 2) &&& 3) else pure ()
    if 3 ≤ numel - i then put (i + 2) ((p >>> 4) &&& 3) else pure ()
  else pure ()

/-- `dequant_uint2` (dequantize.inl:42-87): `put` is used in the main loop, `putSet` (plain
assignment whatever the reduce op) in the tail; the packed byte `x[i>>2]` is read unconditionally
after the loop (line 73). -/
def dequantUint2 (put putSet : Nat → Nat → Prog Unit) (x : InBuf) (off numel : Nat) : Prog Unit := do
  let i ← forI (fun i => i + 3 < numel) 4 (fun i => do
    let p ← ldQ x off (i / 4)
    put i (p &&& 3)
    put (i + 1) ((p >>> 2) &&& 3)
    put (i + 2) ((p >>> 4) &&& 3)
    put (i + 3) ((p >>> 6) &&& 3)) numel 0
  let p ← ldQ x off (i / 4)
  match numel % 4 with
  | 1 => putSet i (p &&& 3)
  | 2 => do
    putSet i (p &&& 3)
    putSet (i + 1) ((p >>> 2) &&& 3)
  | 3 => do
    putSet i (p &&& 3)
    putSet (i + 1) ((p >>> 2) &&& 3)
    putSet (i + 2) ((p >>> 4) &&& 3)
  | _ => pure ()

/-! ## Kernels -/

/-- Element store of the specialised f32 kernels: step then `=`/`+=` (src/kernels/kernels_specialized.inl:921-925, 1166-1188). -/
def putDq32 (fuse : Bool) (op : ReduceOp) (o : Nat) (scale : F32) (zp : ℤ) (i q : Nat) : Prog Unit := do
  let v ← dqStep32 fuse q scale zp
  putF32 op (o + 4 * i) v

/-- Element store of the specialised bf16 kernels: the `float` result is converted to bf16 first
(implicit constructor), also for `+=` (src/kernels/kernels_specialized.inl:977-981, 1288-1310) -/
def putDq32b (op : ReduceOp) (o : Nat) (scale : F32) (zp : ℤ) (i q : Nat) : Prog Unit := do
  let v ← dqStep32 false q scale zp
  putBf16 op (o + 2 * i) (f32ToBf16 v.val)

/-- `dequant_uint8_to_f32` (kernels_specialized.inl:729-926). -/
def dequantU8F32 (isa : Isa) (fz : Fuse) (op : ReduceOp) (x : InBuf) (off o numel : Nat) (scale : F32) (zp : ℤ) : Prog Unit := do
  let i ← (match isa with
    | .avx512f | .avx512bf16 =>                                           -- 738-764
      forI (fun i => i + 63 < numel) 64 (fun i => do
        let in0 ← loadu_u8 16 x off (i + 0)
        let in1 ← loadu_u8 16 x off (i + 16)
        let in2 ← loadu_u8 16 x off (i + 32)
        let in3 ← loadu_u8 16 x off (i + 48)
        emitF32 (n := 16) op (o + 4 * i) ([in0, in1, in2, in3].map
          (fun r => dqReg fz.vec scale zp (cvtepu8_epi32 r (by omega))))) numel 0
    | .avx2 =>                                                            -- 765-816
      forI (fun i => i + 63 < numel) 64 (fun i => do
        let in0 ← loadu_u8 32 x off (i + 0)
        let in1 ← loadu_u8 32 x off (i + 32)
        emitF32 op (o + 4 * i) ((expandAvx2 in0 ++ expandAvx2 in1).map (dqReg fz.vec scale zp))) numel 0
    | .sse42 =>                                                           -- 817-889
      forI (fun i => i + 63 < numel) 64 (fun i => do
        let in0 ← loadu_u8 16 x off (i + 0)
        let in1 ← loadu_u8 16 x off (i + 16)
        let in2 ← loadu_u8 16 x off (i + 32)
        let in3 ← loadu_u8 16 x off (i + 48)
        emitF32 op (o + 4 * i)
          ((expandSse in0 ++ expandSse in1 ++ expandSse in2 ++ expandSse in3).map (dqReg fz.vec scale zp))) numel 0
    | .neon =>                                                            -- 890-919
      forI (fun i => i + 15 < numel) 16 (fun i => do
        let u80 ← loadu_u8 16 x off (i + 0)
        emitF32 op (o + 4 * i) ((expandWords u80).map (dqReg fz.vec scale zp))) numel 0
    | .portable => pure 0 : Prog Nat)
  dqU8Loop (putDq32 fz.scal op o scale zp) x off numel i

/-- `dequant_uint8_to_bf16` (kernels_specialized.inl:928-982). -/
def dequantU8Bf16 (isa : Isa) (fz : Fuse) (op : ReduceOp) (x : InBuf) (off o numel : Nat) (scale : F32) (zp : ℤ) : Prog Unit := do
  let i ← (match isa with
    | .avx512f | .avx512bf16 =>                                           -- 938-971
      forI (fun i => i + 63 < numel) 64 (fun i => do
        let in0 ← loadu_u8 16 x off (i + 0)
        let in1 ← loadu_u8 16 x off (i + 16)
        let in2 ← loadu_u8 16 x off (i + 32)
        let in3 ← loadu_u8 16 x off (i + 48)
        emitBf16 (n := 16) isa op (o + 2 * i) ([in0, in1, in2, in3].map
          (fun r => dqReg fz.vec scale zp (cvtepu8_epi32 r (by omega))))) numel 0
    | _ => pure 0 : Prog Nat)
  dqU8Loop (putDq32b op o scale zp) x off numel i

/-- `dequant_uint4_to_f32` (kernels_specialized.inl:984-1189). -/
def dequantU4F32 (isa : Isa) (fz : Fuse) (op : ReduceOp) (x : InBuf) (off o numel : Nat) (scale : F32) (zp : ℤ) : Prog Unit := do
  let i ← (match isa with
    | .avx512f | .avx512bf16 =>                                           -- 993-1062
      forI (fun i => i + 127 < numel) 128 (fun i => do
        let packed ← loadu_u8 64 x off (i / 2)
        let nib := unpackNibbles512 packed
        emitF32 op (o + 4 * i) ((expand512 nib.1 ++ expand512 nib.2).map (dqReg fz.vec scale zp))) numel 0
    | .avx2 =>                                                            -- 1063-1124
      forI (fun i => i + 63 < numel) 64 (fun i => do
        let packed ← loadu_u8 32 x off (i / 2)
        let nib := unpackNibblesAvx2 packed
        emitF32 op (o + 4 * i) ((expandAvx2 nib.1 ++ expandAvx2 nib.2).map (dqReg fz.vec scale zp))) numel 0
    | .sse42 =>                                                           -- 1125-1163
      forI (fun i => i + 31 < numel) 32 (fun i => do
        let packed ← loadu_u8 16 x off (i / 2)
        let t := unpackNibblesSse packed
        emitF32 op (o + 4 * (i + 0)) ((expandWords t.1).map (dqReg fz.vec scale zp))
        emitF32 op (o + 4 * (i + 16)) ((expandWords t.2).map (dqReg fz.vec scale zp))) numel 0
    | .neon | .portable => pure 0 : Prog Nat)
  dqU4From (putDq32 fz.scal op o scale zp) x off numel i

/-- `dequant_uint4_to_bf16` (kernels_specialized.inl:1191-1311). -/
def dequantU4Bf16 (isa : Isa) (op : ReduceOp) (x : InBuf) (off o numel : Nat) (scale : F32) (zp : ℤ) : Prog Unit := do
  let i ← (match isa with
    | .avx512f | .avx512bf16 =>                                           -- 1201-1284
      forI (fun i => i + 127 < numel) 128 (fun i => do
        let packed ← loadu_u8 64 x off (i / 2)
        let nib := unpackNibbles512 packed
        emitBf16 isa op (o + 2 * i) ((expand512 nib.1 ++ expand512 nib.2).map (dqFma scale zp))) numel 0
    | _ => pure 0 : Prog Nat)
  dqU4From (putDq32b op o scale zp) x off numel i

/-- `dequant_uint2_to_bf16` (kernels_specialized.inl:1313-1416). -/
def dequantU2Bf16 (isa : Isa) (op : ReduceOp) (x : InBuf) (off o numel : Nat) (scale : F32) (zp : ℤ) : Prog Unit := do
  let do16 (src base : Nat) : Prog Unit := do                             -- 1344-1378
    let b ← loadu_u8 16 x off src
    emitBf16 (n := 16) isa op (o + 2 * base) ((unpackCrumbs b).map
      (fun z => dqFma scale zp (cvtepu8_epi32 z (by omega))))
  let i ← (match isa with
    | .avx512f | .avx512bf16 =>                                           -- 1379-1385
      forI (fun i => i + 255 < numel) 256 (fun i => do
        do16 (i / 4) i
        do16 (i / 4 + 16) (i + 64)
        do16 (i / 4 + 32) (i + 128)
        do16 (i / 4 + 48) (i + 192)) numel 0
    | _ => pure 0 : Prog Nat)
  dqU2From (fun i q => putBf16 op (o + 2 * i) (f32ToBf16 (dqStepU2Bf16 q scale zp))) x off numel i

/-- Element store of the generic f32 kernels: 64-bit step (src/kernels/dequantize.inl:8-11, 52-87). -/
def putDq64 (fuse : Bool) (op : ReduceOp) (o : Nat) (scale : F32) (zp : ℤ) (i q : Nat) : Prog Unit := do
  let v ← dqStepF32 fuse q scale zp
  putF32 op (o + 4 * i) v

/-- `dequant_generic<In, Out, ReduceOp>` (dequantize.inl:89-140).  Only uint2 → f32 reaches the
generic code. -/
def dequantGeneric (isa : Isa) (fz : Fuse) (dt : DType) (ft : FT) (op : ReduceOp) (x : InBuf) (off o numel : Nat)
    (scale : F32) (zp : ℤ) : Prog Unit :=
  match ft, dt with
  | .f32, .uint8 => dequantU8F32 isa fz op x off o numel scale (wrap32 zp)
  | .f32, .uint4 => dequantU4F32 isa fz op x off o numel scale (wrap32 zp)
  | .bf16, .uint8 => dequantU8Bf16 isa fz op x off o numel scale (wrap32 zp)
  | .bf16, .uint4 => dequantU4Bf16 isa op x off o numel scale (wrap32 zp)
  | .bf16, .uint2 => dequantU2Bf16 isa op x off o numel scale (wrap32 zp)
  | .f32, .uint2 => dequantUint2 (putDq64 fz.gen op o scale zp) (putDq64 fz.gen .set o scale zp) x off numel
  | _, _ => .fail .panic  -- no such instantiation

/-! ## Fused quantize-dequantize -/

/-- `requant_generic<In, Out, RoundMode, ReduceOp>` (kernels.inl:30-52).  For a bf16 tensor the
result of `dequant_step<Out, bfp16_t>` is a bf16. -/
def requantGeneric (fz : Fuse) (ft : FT) (dt : DType) (mode : RoundMode) (op : ReduceOp) (x : InBuf) (off o numel : Nat)
    (scale τ : F32) (zp : ℤ) : Prog Unit := do
  let inv := invScale scale
  let _ ← forI (fun i => i < numel) 1 (fun i => do
    let v ← ldX ft x off i
    let q ← qStep mode dt.qmax v τ inv zp
    match ft with
    | .f32 => do let d ← dqStepF32 fz.gen q scale zp; putF32 op (o + 4 * i) d
    | .bf16 => do let d ← dqStepBf16 q scale zp; putBf16 op (o + 2 * i) d) numel 0

end Verif
