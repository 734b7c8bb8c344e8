import Verif.Model.Simd
import Mathlib.Data.Fin.VecNotation

/-!
# Quantization kernels

src/kernels/quantize.inl and the `quant_*` functions of src/kernels/kernels_specialized.inl.

Arguments: input buffer `x` and byte offset `off` of its first element, absolute output
address `o`, element count `numel`, `scale`, zero point.  `std::int64_t` loop indices are
natural numbers (they are never negative and stay below `numel + 256`).
-/

namespace Verif
open Simd

/-- `fp32_t inv_scale {1.0f / scale}` (src/kernels/quantize.inl:134; src/kernels/kernels_specialized.inl:42, 192, 329, 492, 661;
src/kernels/kernels.inl:41) -/
def invScale (scale : F32) : F32 := Flt.div f1 scale

/-! ## quantize.inl -/

/-- Generic byte loop (quantize.inl:147-148). -/
def quantGenericU8 (ft : FT) (mode : RoundMode) (x : InBuf) (off o numel : Nat) (τ inv : F32) (zp : ℤ) : Prog Unit := do
  let _ ← forI (fun i => i < numel) 1 (fun i => do
    let q ← (do let v ← ldX ft x off i; qStep mode 255 v τ inv zp)
    wrB (o + i) q) numel 0

/-- `quant_step_packed` for uint4 (quantize.inl:36-41): `qa & 15 | (qb & 15) << 4` (result is
converted to `uint8_t`). -/
def packU4 (qa qb : Nat) : Nat := ((qa &&& 15) ||| ((qb &&& 15) <<< 4)) % 256
/-- `quant_step_packed` for uint2 (quantize.inl:43-50). -/
def packU2 (qa qb qc qd : Nat) : Nat :=
  ((qa &&& 3) ||| ((qb &&& 3) <<< 2) ||| ((qc &&& 3) <<< 4) ||| ((qd &&& 3) <<< 6)) % 256

/-- `quant_uint4` (quantize.inl:52-71) and, with a different element step, the scalar loops of
`quant_f32_to_uint4_nearest` / `quant_bf16_to_uint4_nearest`
(kernels_specialized.inl:468-482, 638-651): start at index `i0`. -/
def quantU4From (ft : FT) (step : F32 → Prog Nat) (x : InBuf) (off o numel i0 : Nat) : Prog Unit := do
  let i ← forI (fun i => i + 1 < numel) 2 (fun i => do
    let a ← ldX ft x off i
    let b ← ldX ft x off (i + 1)
    let qa ← step a
    let qb ← step b
    wrB (o + i / 2) (packU4 qa qb)) numel i0
  if numel % 2 = 1 then do
    let a ← ldX ft x off (numel - 1)
    let qa ← step a
    let qb ← step f0
    wrB (o + i / 2) (packU4 qa qb)
    let p ← rdB (o + i / 2)
    wrB (o + i / 2) (p &&& 15)
  else pure ()

/-- `quant_uint2` (quantize.inl:73-99). -/
def quantU2 (ft : FT) (step : F32 → Prog Nat) (x : InBuf) (off o numel : Nat) : Prog Unit := do
  let i ← forI (fun i => i + 3 < numel) 4 (fun i => do
    let a ← ldX ft x off i
    let b ← ldX ft x off (i + 1)
    let c ← ldX ft x off (i + 2)
    let d ← ldX ft x off (i + 3)
    let qa ← step a
    let qb ← step b
    let qc ← step c
    let qd ← step d
    wrB (o + i / 4) (packU2 qa qb qc qd)) numel 0
  if numel % 4 ≠ 0 then do
    let p := 0
    let p ← (if numel % 4 ≥ 3 then do
      let a ← ldX ft x off (i + 2); let q ← step a; pure ((p ||| ((q &&& 3) <<< 4)) % 256) else pure p)
    let p ← (if numel % 4 ≥ 2 then do
      let a ← ldX ft x off (i + 1); let q ← step a; pure ((p ||| ((q &&& 3) <<< 2)) % 256) else pure p)
    let p ← (do
      let a ← ldX ft x off i; let q ← step a; pure ((p ||| (q &&& 3)) % 256))
    wrB (o + i / 4) p
  else pure ()

/-! ## Vector steps shared by the specialised kernels -/

/-- `add(prod, blend(prod >= 0 ? 0.5 : -0.5))`, `cvttps`, `add zp`: one register
(kernels_specialized.inl:62-73 and alike). -/
def vRound {n : Nat} (inv : F32) (zp : ℤ) (xf : V n F32) : V n ℤ :=
  let prod := mul_ps xf (set1 inv)
  let adj := add_ps prod (blend_ps (set1 fmhalf) (set1 fhalf) (cmpge_ps prod (set1 f0)))
  add_epi32 (cvttps_epi32 adj) (set1 zp)

/-- `max(vmin, min(vmax, ·))` (src/kernels/kernels_specialized.inl:74-77, 117-120,
151-154, 219-222, 262-265, 299) -/
def vClampMaxMin {n : Nat} (hi : ℤ) (q : V n ℤ) : V n ℤ := max_epi32 (set1 0) (min_epi32 (set1 hi) q)
/-- `min(max(·, vmin), vmax)` (src/kernels/kernels_specialized.inl:350-351, 394-397,
517-518, 561-564, 688-689) -/
def vClampMinMax {n : Nat} (hi : ℤ) (q : V n ℤ) : V n ℤ := min_epi32 (max_epi32 q (set1 0)) (set1 hi)
/-- `max(min(·, vmax), vmin)` (src/kernels/kernels_specialized.inl:454-457, 616) -/
def vClampMaxMin' {n : Nat} (hi : ℤ) (q : V n ℤ) : V n ℤ := max_epi32 (min_epi32 q (set1 hi)) (set1 0)

/-- `shuffle_matrix` (src/kernels/kernels_specialized.inl:91-94, 236-239) -/
def shuffleMatrix : V 32 Nat :=
  ![0,1,2,3, 8,9,10,11, 4,5,6,7, 12,13,14,15, 0,1,2,3, 8,9,10,11, 4,5,6,7, 12,13,14,15]
/-- `shuf_even` (src/kernels/kernels_specialized.inl:340, 371-375, 418-422) -/
def shufEven : V 16 Nat := ![0,2,4,6,8,10,12,14, 0x80,0x80,0x80,0x80, 0x80,0x80,0x80,0x80]
/-- `shuf_odd` (src/kernels/kernels_specialized.inl:341, 376-380, 423-427) -/
def shufOdd : V 16 Nat := ![1,3,5,7,9,11,13,15, 0x80,0x80,0x80,0x80, 0x80,0x80,0x80,0x80]

/-- `or(shuffle(u8, even), slli_epi16(shuffle(u8, odd), 4))` (src/kernels/kernels_specialized.inl:361, 405-407, 461-463, 528, 572-574, 626-631) -/
def nibblePack (u8 : V 16 Nat) : V 16 Nat :=
  or_si (mm_shuffle_epi8 u8 shufEven) (slli_epi16 (n := 8) (mm_shuffle_epi8 u8 shufOdd) 4)

/-- AVX2 pack of four clamped registers to 32 bytes (src/kernels/kernels_specialized.inl:121-122, 266-267) -/
def avx2Pack32 (xi0 xi1 xi2 xi3 : V 8 ℤ) : V 32 Nat :=
  mm256_shuffle_epi8
    (mm256_permute4x64_epi64 (mm256_packus_epi16 (mm256_packus_epi32 xi0 xi1) (mm256_packus_epi32 xi2 xi3)) 0xd8)
    shuffleMatrix

/-- Scalar element loop of the uint8 kernels with 32-bit step, used for the alignment prologue and
for the tail: `for (; cond; ++i) { ... o[i] = clamp(int32(round(x[i]*scale)) + zp) }` (src/kernels/kernels_specialized.inl:52-56,
95-99, 133-137, 178-182, 240-244, 278-282, 315-319). -/
def u8Loop (ft : FT) (x : InBuf) (off o numel : Nat) (inv : F32) (zp : ℤ) (cond : Nat → Bool) (i : Nat) : Prog Nat :=
  forI cond 1 (fun i => do
    let q ← (do let v ← ldX ft x off i; qNearest32 255 v inv zp)
    wrB (o + i) q) numel i

/-- Load of a bf16 block widened to `float` (src/kernels/kernels_specialized.inl:203-206, 246-249, 507-509, 549-550, 678-684) -/
def loadBf16 (n : Nat) (x : InBuf) (off i : Nat) : Prog (V n F32) := do
  let r ← loadu_u16 n x off i
  pure (bf16_to_ps r)

/-! ## `quant_f32_to_uint8_nearest` (kernels_specialized.inl:35-183) -/

/-- `quant_f32_to_uint8_nearest` (src/kernels/kernels_specialized.inl:35-183). -/
def quantF32U8 (isa : Isa) (x : InBuf) (off o numel : Nat) (scale : F32) (zp : ℤ) : Prog Unit := do
  let inv := invScale scale
  let i ← (match isa with
    | .avx512f | .avx512bf16 => do                                       -- 44-82
      let i ← u8Loop .f32 x off o numel inv zp (fun i => i < numel && (o + i) % 16 != 0) 0
      forI (fun i => i + 63 < numel) 64 (fun i => do
        let xf0 ← loadu_ps 16 x off (i + 0)
        let xf1 ← loadu_ps 16 x off (i + 16)
        let xf2 ← loadu_ps 16 x off (i + 32)
        let xf3 ← loadu_ps 16 x off (i + 48)
        let xi0 := vClampMaxMin 0xff (vRound inv zp xf0)
        let xi1 := vClampMaxMin 0xff (vRound inv zp xf1)
        let xi2 := vClampMaxMin 0xff (vRound inv zp xf2)
        let xi3 := vClampMaxMin 0xff (vRound inv zp xf3)
        stream (o + i + 0) (mm512_cvtusepi32_epi8 xi0)
        stream (o + i + 16) (mm512_cvtusepi32_epi8 xi1)
        stream (o + i + 32) (mm512_cvtusepi32_epi8 xi2)
        stream (o + i + 48) (mm512_cvtusepi32_epi8 xi3)) numel i
    | .avx2 => do                                                         -- 83-124
      let i ← u8Loop .f32 x off o numel inv zp (fun i => i < numel && (o + i) % 32 != 0) 0
      forI (fun i => i + 31 < numel) 32 (fun i => do
        let xf0 ← loadu_ps 8 x off (i + 0)
        let xf1 ← loadu_ps 8 x off (i + 8)
        let xf2 ← loadu_ps 8 x off (i + 16)
        let xf3 ← loadu_ps 8 x off (i + 24)
        let xi0 := vClampMaxMin 0xff (vRound inv zp xf0)
        let xi1 := vClampMaxMin 0xff (vRound inv zp xf1)
        let xi2 := vClampMaxMin 0xff (vRound inv zp xf2)
        let xi3 := vClampMaxMin 0xff (vRound inv zp xf3)
        stream (o + i) (avx2Pack32 xi0 xi1 xi2 xi3)) numel i
    | .sse42 => do                                                        -- 125-159
      let i ← u8Loop .f32 x off o numel inv zp (fun i => i < numel && (o + i) % 16 != 0) 0
      forI (fun i => i + 15 < numel) 16 (fun i => do
        let xf0 ← loadu_ps 4 x off (i + 0)
        let xf1 ← loadu_ps 4 x off (i + 4)
        let xf2 ← loadu_ps 4 x off (i + 8)
        let xf3 ← loadu_ps 4 x off (i + 12)
        let xi0 := vClampMaxMin 0xff (vRound inv zp xf0)
        let xi1 := vClampMaxMin 0xff (vRound inv zp xf1)
        let xi2 := vClampMaxMin 0xff (vRound inv zp xf2)
        let xi3 := vClampMaxMin 0xff (vRound inv zp xf3)
        stream (o + i) (mm_packus_epi16 (mm_packus_epi32 xi0 xi1) (mm_packus_epi32 xi2 xi3))) numel i
    | .neon =>                                                            -- 160-176
      forI (fun i => i + 15 < numel) 16 (fun i => do
        let q (v : V 4 F32) : V 4 ℤ := add_epi32 (vcvtaq_s32_f32 (mul_ps v (set1 inv))) (set1 zp)
        let v0 ← loadu_ps 4 x off (i + 0)
        let v1 ← loadu_ps 4 x off (i + 4)
        let v2 ← loadu_ps 4 x off (i + 8)
        let v3 ← loadu_ps 4 x off (i + 12)
        let p0 : V 8 ℤ := vcombine (n := 4) (vqmovn_s32 (q v0)) (vqmovn_s32 (q v1))
        let p1 : V 8 ℤ := vcombine (n := 4) (vqmovn_s32 (q v2)) (vqmovn_s32 (q v3))
        let r0 : V 16 Nat := vcombine (n := 8) (vqmovun_s16 p0) (vqmovun_s16 p1)
        storeu (o + i) 16 r0) numel 0
    | .portable => pure 0 : Prog Nat)
  let _ ← u8Loop .f32 x off o numel inv zp (fun i => i < numel) i         -- 178-182

/-! ## `quant_bf16_to_uint8_nearest` (kernels_specialized.inl:185-320) -/

/-- `bf16lo_to_f32` / `bf16_to_f32` (288, 600-602): the low four 16-bit lanes (src/kernels/kernels_specialized.inl:288, 600-602). -/
def bf16lo (v : V 8 Nat) : V 4 F32 := bf16_to_ps (fun j => v ⟨j, by omega⟩)
/-- `bf16hi_to_f32` (src/kernels/kernels_specialized.inl:289) -/
def bf16hi (v : V 8 Nat) : V 4 F32 := bf16lo (mm_srli_si128_8w v)

/-- `quant_bf16_to_uint8_nearest` (src/kernels/kernels_specialized.inl:185-320). -/
def quantBf16U8 (isa : Isa) (x : InBuf) (off o numel : Nat) (scale : F32) (zp : ℤ) : Prog Unit := do
  let inv := invScale scale
  let i ← (match isa with
    | .avx512f | .avx512bf16 =>                                           -- 194-227
      forI (fun i => i + 63 < numel) 64 (fun i => do
        let xf0 ← loadBf16 16 x off i
        let xf1 ← loadBf16 16 x off (i + 16)
        let xf2 ← loadBf16 16 x off (i + 32)
        let xf3 ← loadBf16 16 x off (i + 48)
        let xi0 := vClampMaxMin 0xff (vRound inv zp xf0)
        let xi1 := vClampMaxMin 0xff (vRound inv zp xf1)
        let xi2 := vClampMaxMin 0xff (vRound inv zp xf2)
        let xi3 := vClampMaxMin 0xff (vRound inv zp xf3)
        storeu (o + i + 0) 16 (mm512_cvtusepi32_epi8 xi0)
        storeu (o + i + 16) 16 (mm512_cvtusepi32_epi8 xi1)
        storeu (o + i + 32) 16 (mm512_cvtusepi32_epi8 xi2)
        storeu (o + i + 48) 16 (mm512_cvtusepi32_epi8 xi3)) numel 0
    | .avx2 => do                                                         -- 228-269
      let i ← u8Loop .bf16 x off o numel inv zp (fun i => i < numel && (o + i) % 32 != 0) 0
      forI (fun i => i + 31 < numel) 32 (fun i => do
        let xf0 ← loadBf16 8 x off i
        let xf1 ← loadBf16 8 x off (i + 8)
        let xf2 ← loadBf16 8 x off (i + 16)
        let xf3 ← loadBf16 8 x off (i + 24)
        let xi0 := vClampMaxMin 0xff (vRound inv zp xf0)
        let xi1 := vClampMaxMin 0xff (vRound inv zp xf1)
        let xi2 := vClampMaxMin 0xff (vRound inv zp xf2)
        let xi3 := vClampMaxMin 0xff (vRound inv zp xf3)
        stream (o + i) (avx2Pack32 xi0 xi1 xi2 xi3)) numel i
    | .sse42 => do                                                        -- 270-311
      let i ← u8Loop .bf16 x off o numel inv zp (fun i => i < numel && (o + i) % 16 != 0) 0
      forI (fun i => i + 31 < numel) 32 (fun i => do
        let v0 ← loadu_u16 8 x off i
        let v1 ← loadu_u16 8 x off (i + 8)
        let v2 ← loadu_u16 8 x off (i + 16)
        let v3 ← loadu_u16 8 x off (i + 24)
        let quant (v : V 4 F32) : V 4 ℤ := vClampMaxMin 0xff (vRound inv zp v)
        let q0 := quant (bf16lo v0)
        let q1 := quant (bf16hi v0)
        let q2 := quant (bf16lo v1)
        let q3 := quant (bf16hi v1)
        let q4 := quant (bf16lo v2)
        let q5 := quant (bf16hi v2)
        let q6 := quant (bf16lo v3)
        let q7 := quant (bf16hi v3)
        storeu (o + i) 16 (mm_packus_epi16 (mm_packus_epi32 q0 q1) (mm_packus_epi32 q2 q3))
        storeu (o + i + 16) 16 (mm_packus_epi16 (mm_packus_epi32 q4 q5) (mm_packus_epi32 q6 q7))) numel i
    | .neon | .portable => pure 0 : Prog Nat)                             -- 312-314
  let _ ← u8Loop .bf16 x off o numel inv zp (fun i => i < numel) i        -- 315-319

/-! ## `quant_f32_to_uint4_nearest` (kernels_specialized.inl:322-483) -/

/-- `quant_f32_to_uint4_nearest` (src/kernels/kernels_specialized.inl:322-483). -/
def quantF32U4 (isa : Isa) (x : InBuf) (off o numel : Nat) (scale : F32) (zp : ℤ) : Prog Unit := do
  let inv := invScale scale
  let i ← (match isa with
    | .avx512f | .avx512bf16 =>                                           -- 332-362
      forI (fun i => i + 15 < numel) 16 (fun i => do
        let xf ← loadu_ps 16 x off i
        let qi := vClampMinMax 15 (vRound inv zp xf)
        storeu (o + i / 2) 8 (nibblePack (mm512_cvtusepi32_epi8 qi))) numel 0
    | .avx2 =>                                                            -- 363-409
      forI (fun i => i + 15 < numel) 16 (fun i => do
        let xf0 ← loadu_ps 8 x off i
        let xf1 ← loadu_ps 8 x off (i + 8)
        let qi0 := vClampMinMax 15 (vRound inv zp xf0)
        let qi1 := vClampMinMax 15 (vRound inv zp xf1)
        let q16_0 := mm_packs_epi32 (lo128 qi0) (hi128 qi0)
        let q16_1 := mm_packs_epi32 (lo128 qi1) (hi128 qi1)
        storeu (o + i / 2) 8 (nibblePack (mm_packus_epi16 q16_0 q16_1))) numel 0
    | .sse42 =>                                                           -- 410-465
      forI (fun i => i + 15 < numel) 16 (fun i => do
        let xf0 ← loadu_ps 4 x off i
        let xf1 ← loadu_ps 4 x off (i + 4)
        let xf2 ← loadu_ps 4 x off (i + 8)
        let xf3 ← loadu_ps 4 x off (i + 12)
        let qi0 := vClampMaxMin' 15 (vRound inv zp xf0)
        let qi1 := vClampMaxMin' 15 (vRound inv zp xf1)
        let qi2 := vClampMaxMin' 15 (vRound inv zp xf2)
        let qi3 := vClampMaxMin' 15 (vRound inv zp xf3)
        let q16_a := mm_packs_epi32 qi0 qi1
        let q16_b := mm_packs_epi32 qi2 qi3
        storeu (o + i / 2) 8 (nibblePack (mm_packus_epi16 q16_a q16_b))) numel 0
    | .neon | .portable => pure 0 : Prog Nat)
  quantU4From .f32 (fun v => qNearest32 15 v inv zp) x off o numel i      -- 468-482

/-! ## `quant_bf16_to_uint4_nearest` (kernels_specialized.inl:485-652) -/

/-- `quant_bf16_to_uint4_nearest` (src/kernels/kernels_specialized.inl:485-652). -/
def quantBf16U4 (isa : Isa) (x : InBuf) (off o numel : Nat) (scale : F32) (zp : ℤ) : Prog Unit := do
  let inv := invScale scale
  let i ← (match isa with
    | .avx512f | .avx512bf16 =>                                           -- 495-529
      forI (fun i => i + 15 < numel) 16 (fun i => do
        let xf ← loadBf16 16 x off i
        let qi := vClampMinMax 15 (vRound inv zp xf)
        storeu (o + i / 2) 8 (nibblePack (mm512_cvtusepi32_epi8 qi))) numel 0
    | .avx2 =>                                                            -- 530-576
      forI (fun i => i + 15 < numel) 16 (fun i => do
        let xf0 ← loadBf16 8 x off i
        let xf1 ← loadBf16 8 x off (i + 8)
        let qi0 := vClampMinMax 15 (vRound inv zp xf0)
        let qi1 := vClampMinMax 15 (vRound inv zp xf1)
        let q16_0 := mm_packs_epi32 (lo128 qi0) (hi128 qi0)
        let q16_1 := mm_packs_epi32 (lo128 qi1) (hi128 qi1)
        storeu (o + i / 2) 8 (nibblePack (mm_packus_epi16 q16_0 q16_1))) numel 0
    | .sse42 =>                                                           -- 577-634
      forI (fun i => i + 31 < numel) 32 (fun i => do
        let vx0 ← loadu_u16 8 x off i
        let vx1 ← loadu_u16 8 x off (i + 8)
        let vx2 ← loadu_u16 8 x off (i + 16)
        let vx3 ← loadu_u16 8 x off (i + 24)
        let q4 (v : V 4 F32) : V 4 ℤ := vClampMaxMin' 15 (vRound inv zp v)
        let qi0 := q4 (bf16lo vx0)
        let qi1 := q4 (bf16hi vx0)
        let qi2 := q4 (bf16lo vx1)
        let qi3 := q4 (bf16hi vx1)
        let qi4 := q4 (bf16lo vx2)
        let qi5 := q4 (bf16hi vx2)
        let qi6 := q4 (bf16lo vx3)
        let qi7 := q4 (bf16hi vx3)
        let q8_0 := mm_packus_epi16 (mm_packs_epi32 qi0 qi1) (mm_packs_epi32 qi2 qi3)
        let q8_1 := mm_packus_epi16 (mm_packs_epi32 qi4 qi5) (mm_packs_epi32 qi6 qi7)
        storeu (o + i / 2) 8 (nibblePack q8_0)
        storeu (o + i / 2 + 8) 8 (nibblePack q8_1)) numel 0
    | .neon | .portable => pure 0 : Prog Nat)
  quantU4From .bf16 (fun v => qNearest32 15 v inv zp) x off o numel i     -- 638-651

/-! ## `quant_bf16_to_uint2_nearest` (kernels_specialized.inl:654-727) -/

/-- `w0146` (src/kernels/kernels_specialized.inl:672-675) -/
def w0146 : V 16 ℤ := ![1,4, 16,64, 1,4, 16,64, 1,4, 16,64, 1,4, 16,64]

/-- `quant_step_packed` of the uint2 kernel (704-710): all four steps are evaluated. (src/kernels/kernels_specialized.inl:704-710)
-/
def u2StepPacked (step : F32 → Prog Nat) (a b c d : F32) : Prog Nat := do
  let qa ← step a
  let qb ← step b
  let qc ← step c
  let qd ← step d
  pure (packU2 qa qb qc qd)

/-- Scalar part (711-726), from index `i0` (src/kernels/kernels_specialized.inl:711-726). -/
def quantBf16U2Scalar (step : F32 → Prog Nat) (x : InBuf) (off o numel i0 : Nat) : Prog Unit := do
  let i ← forI (fun i => i + 3 < numel) 4 (fun i => do
    let a ← ldX .bf16 x off i
    let b ← ldX .bf16 x off (i + 1)
    let c ← ldX .bf16 x off (i + 2)
    let d ← ldX .bf16 x off (i + 3)
    let q ← u2StepPacked step a b c d
    wrB (o + i / 4) q) numel i0
  if numel % 4 ≠ 0 then do
    let p := 0
    let p ← (if numel % 4 ≥ 3 then do
      let a ← ldX .bf16 x off (i + 2); let q ← u2StepPacked step a f0 f0 f0; pure ((p ||| ((q &&& 3) <<< 4)) % 256) else pure p)
    let p ← (if numel % 4 ≥ 2 then do
      let a ← ldX .bf16 x off (i + 1); let q ← u2StepPacked step a f0 f0 f0; pure ((p ||| ((q &&& 3) <<< 2)) % 256) else pure p)
    let p ← (do
      let a ← ldX .bf16 x off i; let q ← u2StepPacked step a f0 f0 f0; pure ((p ||| (q &&& 3)) % 256))
    wrB (o + i / 4) p
  else pure ()

/-- `u8 & 3`, `maddubs`, `hadd`, `packus` (src/kernels/kernels_specialized.inl:696-699) -/
def u2Pack (u8 : V 16 Nat) : V 16 Nat :=
  let u8 := and_si u8 (set1 3)
  let pair := mm_maddubs_epi16 u8 w0146
  let bytes16 := mm_hadd_epi16 pair (set1 0)
  mm_packus_epi16 bytes16 (set1 0)

/-- `quant_bf16_to_uint2_nearest` (src/kernels/kernels_specialized.inl:654-727). -/
def quantBf16U2 (isa : Isa) (x : InBuf) (off o numel : Nat) (scale : F32) (zp : ℤ) : Prog Unit := do
  let inv := invScale scale
  let i ← (match isa with
    | .avx512f | .avx512bf16 =>                                           -- 663-701
      forI (fun i => i + 15 < numel) 16 (fun i => do
        let xf ← loadBf16 16 x off i
        let qi := vClampMinMax 3 (vRound inv zp xf)
        storeu (o + i / 4) 4 (u2Pack (mm512_cvtusepi32_epi8 qi))) numel 0
    | _ => pure 0 : Prog Nat)
  quantBf16U2Scalar (fun v => qNearest32 3 v inv zp) x off o numel i

/-! ## `quant_generic` (quantize.inl:101-149) -/

/-- `quant_generic<In, Out, RoundMode>`.  The specialised kernels take `std::int32_t zp`: the
`std::int64_t` zero point is converted modulo 2^32 (src/kernels/quantize.inl:101-149). -/
def quantGeneric (isa : Isa) (ft : FT) (dt : DType) (mode : RoundMode) (x : InBuf) (off o numel : Nat)
    (scale τ : F32) (zp : ℤ) : Prog Unit :=
  match mode, ft, dt with
  | .nearest, .f32, .uint8 => quantF32U8 isa x off o numel scale (wrap32 zp)
  | .nearest, .f32, .uint4 => quantF32U4 isa x off o numel scale (wrap32 zp)
  | .nearest, .bf16, .uint8 => quantBf16U8 isa x off o numel scale (wrap32 zp)
  | .nearest, .bf16, .uint4 => quantBf16U4 isa x off o numel scale (wrap32 zp)
  | .nearest, .bf16, .uint2 => quantBf16U2 isa x off o numel scale (wrap32 zp)
  | _, _, .uint4 => quantU4From ft (fun v => qStep mode 15 v τ (invScale scale) zp) x off o numel 0
  | _, _, .uint2 => quantU2 ft (fun v => qStep mode 3 v τ (invScale scale) zp) x off o numel
  | _, _, _ => quantGenericU8 ft mode x off o numel τ (invScale scale) zp

end Verif
