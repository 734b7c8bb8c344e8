import Verif.Model.Scalar

/-!
# Vector registers and intrinsics

A register is a vector of lanes.  Names follow the intrinsics used in
src/kernels/kernels_specialized.inl; semantics follow the Intel Intrinsics Guide / Arm ARM.
`epi32` lanes are signed integers (`ℤ` in the int32 range), `epi16` lanes are integers, byte
lanes are naturals below 256.  Operations that work inside 128-bit lanes on 256/512-bit
registers are modelled that way.
-/

namespace Verif

/-- A vector register with `n` lanes (src/kernels/kernels_specialized.inl:46-51, 84-90, 126-132, 161-162). -/
abbrev V (n : Nat) (α : Type) := Fin n → α

namespace Simd

/-- src/kernels/kernels_specialized.inl:157, 121, 174. -/
def satU8 (x : ℤ) : ℤ := max 0 (min 255 x)
/-- src/kernels/kernels_specialized.inl:121, 155-156. -/
def satU16 (x : ℤ) : ℤ := max 0 (min 65535 x)
/-- src/kernels/kernels_specialized.inl:400-403, 697, 172-173. -/
def satS16 (x : ℤ) : ℤ := max (-32768) (min 32767 x)
/-- Signed reading of a 16-bit lane (src/kernels/kernels_specialized.inl:157, 698, 894-897). -/
def sext16 (x : ℤ) : ℤ := Int.bmod x 65536

/-! ### Floating point, elementwise -/
section
variable {n : Nat}

/-- src/kernels/kernels_specialized.inl:46-51, 84-90, 126-132, 161-162 and alike. -/
def set1 {α : Type} (a : α) : V n α := fun _ => a
/-- src/kernels/kernels_specialized.inl:62-65, 105-108, 143-146, 164-167, 750-753, 790-797, 905-908 and alike. -/
def mul_ps (a b : V n F32) : V n F32 := fun j => Flt.mul (a j) (b j)
/-- src/kernels/kernels_specialized.inl:66-69, 109-112, 147-150, 755-758, 799-806 and alike. -/
def add_ps (a b : V n F32) : V n F32 := fun j => Flt.add (a j) (b j)
/-- `a*b + c` with one rounding (src/kernels/kernels_specialized.inl:1236-1243, 1361). -/
def fmadd_ps (a b c : V n F32) : V n F32 := fun j => Flt.fma (a j) (b j) (c j)
/-- `cmpge` / `_CMP_GE_OQ`: false on NaN (src/kernels/kernels_specialized.inl:66-69, 109-112, 147-150, 346, 386-387, 438-441 and
alike). -/
def cmpge_ps (a b : V n F32) : V n Bool := fun j => Flt.ge (a j) (b j)
/-- `blendv_ps(a, b, mask)` and `mask_blend_ps(mask, a, b)`: `b` where the mask is set (src/kernels/kernels_specialized.inl:66-69,
109-112, 147-150, 345, 388-389, 442-445 and alike). -/
def blend_ps (a b : V n F32) (k : V n Bool) : V n F32 := fun j => if k j then b j else a j
/-- `MINPS`: second operand if either is NaN (or both are zero) (src/kernels/kernels_specialized.inl:1432-1441, 1451-1464,
1480-1489, 1539-1548, 1558-1571, 1587-1596). -/
def min_ps (a b : V n F32) : V n F32 := fun j => if Flt.lt (a j) (b j) then a j else b j
/-- `MAXPS` (src/kernels/kernels_specialized.inl:1433-1442, 1452-1470, 1481-1490, 1540-1549, 1559-1577, 1588-1597). -/
def max_ps (a b : V n F32) : V n F32 := fun j => if Flt.gt (a j) (b j) then a j else b j
/-- `CVTTPS2DQ`: truncation; out of range and NaN give `0x80000000`. (src/kernels/kernels_specialized.inl:70-73, 113-116, 147-150)
-/
def cvttps1 (x : F32) : ℤ := match x.toInt? 32 with
  | some t => t
  | none => -2 ^ 31
/-- src/kernels/kernels_specialized.inl:70-73, 113-116, 147-150, 215-218, 353, 390-391 and alike. -/
def cvttps_epi32 (a : V n F32) : V n ℤ := fun j => cvttps1 (a j)
/-- `CVTDQ2PS`: nearest-even (src/kernels/kernels_specialized.inl:750-753, 790-797, 839-854, 905-908, 1236-1243, 1361 and alike). -/
def cvtepi32_ps (a : V n ℤ) : V n F32 := fun j => Flt.ofInt f32 (a j)

/-! ### 32-bit integers, elementwise -/
/-- src/kernels/kernels_specialized.inl:70-73, 113-116, 151-154, 168-171, 352, 392-393 and alike. -/
def add_epi32 (a b : V n ℤ) : V n ℤ := fun j => wrap32 (a j + b j)
/-- src/kernels/kernels_specialized.inl:746-749, 782-789, 839-854, 905-908, 1028-1035 and alike. -/
def sub_epi32 (a b : V n ℤ) : V n ℤ := fun j => wrap32 (a j - b j)
/-- src/kernels/kernels_specialized.inl:74-77, 117-120, 151-154, 350, 396-397, 454-457 and alike. -/
def min_epi32 (a b : V n ℤ) : V n ℤ := fun j => min (a j) (b j)
/-- src/kernels/kernels_specialized.inl:74-77, 117-120, 151-154, 351, 394-395, 454-457 and alike. -/
def max_epi32 (a b : V n ℤ) : V n ℤ := fun j => max (a j) (b j)

/-! ### bf16 widening -/
/-- `cvtepu16_epi32` followed by `slli_epi32(·, 16)` and a cast to `ps`
(also the semantics of `_mm512_cvtpbh_ps`) (src/kernels/kernels_specialized.inl:203-206, 246-249, 288, 507-509, 679-682, 956-964,
1330-1333 and alike). -/
def bf16_to_ps (a : V n Nat) : V n F32 := fun j => Flt.ofBits f32 (a j * 2 ^ 16 % 2 ^ 32)

/-! ### Bytes, elementwise -/
/-- src/kernels/kernels_specialized.inl:696, 1009-1010, 1077-1078, 1157-1158, 1217-1218, 1346-1347. -/
def and_si (a b : V n Nat) : V n Nat := fun j => a j &&& b j
/-- src/kernels/kernels_specialized.inl:361, 407, 463, 528, 574, 628-631. -/
def or_si (a b : V n Nat) : V n Nat := fun j => a j ||| b j

end

/-- The 16-bit word containing byte `j` of a byte vector (src/kernels/kernels_specialized.inl:361, 1010). -/
def wordAt {n : Nat} (a : V (2 * n) Nat) (k : Fin n) : Nat :=
  a ⟨2 * k, by omega⟩ + 256 * a ⟨2 * k + 1, by omega⟩

/-- Bytes of a vector of 16-bit words (src/kernels/kernels_specialized.inl:361, 1010). -/
def wordBytes {n : Nat} (a : V n Nat) : V (2 * n) Nat := fun j =>
  if j.val % 2 = 0 then a ⟨j / 2, by omega⟩ % 256 else a ⟨j / 2, by omega⟩ / 256 % 256

/-- `slli_epi16(a, s)` on the byte view (src/kernels/kernels_specialized.inl:361, 407, 463, 528, 574, 628-631). -/
def slli_epi16 {n : Nat} (a : V (2 * n) Nat) (s : Nat) : V (2 * n) Nat :=
  wordBytes (fun k => wordAt a k * 2 ^ s % 65536)
/-- `srli_epi16(a, s)` on the byte view (src/kernels/kernels_specialized.inl:1010, 1078, 1158, 1218, 1347). -/
def srli_epi16 {n : Nat} (a : V (2 * n) Nat) (s : Nat) : V (2 * n) Nat :=
  wordBytes (fun k => wordAt a k / 2 ^ s)

/-! ### Packing -/

/-- `_mm_packus_epi32` (src/kernels/kernels_specialized.inl:155-156, 303-306) -/
def mm_packus_epi32 (a b : V 4 ℤ) : V 8 ℤ := fun j =>
  if h : j.val < 4 then satU16 (a ⟨j, h⟩) else satU16 (b ⟨j - 4, by omega⟩)
/-- `_mm_packs_epi32` (src/kernels/kernels_specialized.inl:400-403, 458-459, 567-570, 620-623) -/
def mm_packs_epi32 (a b : V 4 ℤ) : V 8 ℤ := fun j =>
  if h : j.val < 4 then satS16 (a ⟨j, h⟩) else satS16 (b ⟨j - 4, by omega⟩)
/-- `_mm_packus_epi16`: 16-bit lanes read as signed. (src/kernels/kernels_specialized.inl:157, 307-308, 404, 460, 571, 624-625, 699)
-/
def mm_packus_epi16 (a b : V 8 ℤ) : V 16 Nat := fun j =>
  if h : j.val < 8 then (satU8 (sext16 (a ⟨j, h⟩))).toNat else (satU8 (sext16 (b ⟨j - 8, by omega⟩))).toNat
/-- `_mm256_packus_epi32`: per 128-bit lane (src/kernels/kernels_specialized.inl:121, 266). -/
def mm256_packus_epi32 (a b : V 8 ℤ) : V 16 ℤ := fun j =>
  if j.val % 8 < 4 then satU16 (a ⟨4 * (j / 8) + j % 4, by omega⟩)
  else satU16 (b ⟨4 * (j / 8) + j % 4, by omega⟩)
/-- `_mm256_packus_epi16`: per 128-bit lane (src/kernels/kernels_specialized.inl:121, 266). -/
def mm256_packus_epi16 (a b : V 16 ℤ) : V 32 Nat := fun j =>
  if j.val % 16 < 8 then (satU8 (sext16 (a ⟨8 * (j / 16) + j % 8, by omega⟩))).toNat
  else (satU8 (sext16 (b ⟨8 * (j / 16) + j % 8, by omega⟩))).toNat
/-- `_mm512_cvtusepi32_epi8`: unsigned saturation of the unsigned lane (src/kernels/kernels_specialized.inl:78-81, 223-226, 360,
527, 695). -/
def mm512_cvtusepi32_epi8 (a : V 16 ℤ) : V 16 Nat := fun j => min 255 (a j % 2 ^ 32).toNat

/-! ### Permutations -/

/-- `_mm256_permute4x64_epi64(a, imm)` on bytes (src/kernels/kernels_specialized.inl:121, 266). -/
def mm256_permute4x64_epi64 (a : V 32 Nat) (imm : Nat) : V 32 Nat := fun j =>
  a ⟨8 * (imm / 4 ^ (j.val / 8) % 4) + j % 8, by omega⟩
/-- `_mm_shuffle_epi8` (src/kernels/kernels_specialized.inl:361, 405-406, 461-462, 528, 572-573, 626-630, 1348-1351) -/
def mm_shuffle_epi8 (a m : V 16 Nat) : V 16 Nat := fun j =>
  if 128 ≤ m j then 0 else a ⟨m j % 16, by omega⟩
/-- `_mm256_shuffle_epi8`: per 128-bit lane (src/kernels/kernels_specialized.inl:122, 267). -/
def mm256_shuffle_epi8 (a m : V 32 Nat) : V 32 Nat := fun j =>
  if 128 ≤ m j then 0 else a ⟨16 * (j / 16) + m j % 16, by omega⟩
/-- `_mm_srli_si128(a, 8)` on bytes (src/kernels/kernels_specialized.inl:772-774, 1071-1073, 1137). -/
def mm_srli_si128_8 (a : V 16 Nat) : V 16 Nat := fun j => if h : j.val < 8 then a ⟨j + 8, by omega⟩ else 0
/-- `_mm_srli_si128(a, 8)` on 16-bit lanes (src/kernels/kernels_specialized.inl:289, 604-610, 1132, 1139). -/
def mm_srli_si128_8w {α : Type} [Zero α] (a : V 8 α) : V 8 α := fun j => if h : j.val < 4 then a ⟨j + 4, by omega⟩ else 0
/-- `_mm256_castsi256_si128` (low half), any lane type (src/kernels/kernels_specialized.inl:398-401, 565-568, 769, 1068, 1460,
1466, 1567, 1573). -/
def lo128 {α : Type} {n : Nat} (a : V (2 * n) α) : V n α := fun j => a ⟨j, by omega⟩
/-- `_mm256_extracti128_si256(a, 1)` / `_mm256_extractf128_ps(a, 1)` (high half) (src/kernels/kernels_specialized.inl:399-402,
566-569, 770, 1069, 1461, 1467, 1568, 1574). -/
def hi128 {α : Type} {n : Nat} (a : V (2 * n) α) : V n α := fun j => a ⟨n + j, by omega⟩
/-- `_mm512_extracti32x4_epi32(a, k)` on bytes (src/kernels/kernels_specialized.inl:998-1001, 1013-1020, 1206-1209, 1221-1228). -/
def mm512_extracti32x4 (a : V 64 Nat) (k : Fin 4) : V 16 Nat := fun j => a ⟨16 * k + j, by omega⟩
/-- `_mm512_inserti32x4(a, b, k)` on bytes (src/kernels/kernels_specialized.inl:1014-1020, 1222-1228). -/
def mm512_inserti32x4 (a : V 64 Nat) (b : V 16 Nat) (k : Fin 4) : V 64 Nat := fun j =>
  if j.val / 16 = k then b ⟨j % 16, by omega⟩ else a j
/-- `_mm512_castsi128_si512`: upper lanes undefined (modelled as 0; the code overwrites them)
(src/kernels/kernels_specialized.inl:1013, 1017, 1221, 1225). -/
def mm512_castsi128_si512 (a : V 16 Nat) : V 64 Nat := fun j => if h : j.val < 16 then a ⟨j, h⟩ else 0
/-- `unpacklo_epi8` on `n` 128-bit lanes (src/kernels/kernels_specialized.inl:827, 1011, 1079, 1159, 1219, 1352-1354). -/
def unpacklo_epi8 {n : Nat} (a b : V (16 * n) Nat) : V (16 * n) Nat := fun j =>
  if j.val % 2 = 0 then a ⟨16 * (j / 16) + j % 16 / 2, by omega⟩ else b ⟨16 * (j / 16) + j % 16 / 2, by omega⟩
/-- `unpackhi_epi8` on `n` 128-bit lanes (src/kernels/kernels_specialized.inl:828, 1012, 1080, 1160, 1220, 1353-1355). -/
def unpackhi_epi8 {n : Nat} (a b : V (16 * n) Nat) : V (16 * n) Nat := fun j =>
  if j.val % 2 = 0 then a ⟨16 * (j / 16) + 8 + j % 16 / 2, by omega⟩ else b ⟨16 * (j / 16) + 8 + j % 16 / 2, by omega⟩
/-- `_mm_unpacklo_epi16` on bytes (src/kernels/kernels_specialized.inl:829-831, 1356-1358). -/
def mm_unpacklo_epi16 (a b : V 16 Nat) : V 16 Nat := fun j =>
  if j.val / 2 % 2 = 0 then a ⟨2 * (j / 4) + j % 2, by omega⟩ else b ⟨2 * (j / 4) + j % 2, by omega⟩
/-- `_mm_unpackhi_epi16` on bytes (src/kernels/kernels_specialized.inl:830-832, 1357-1359). -/
def mm_unpackhi_epi16 (a b : V 16 Nat) : V 16 Nat := fun j =>
  if j.val / 2 % 2 = 0 then a ⟨8 + 2 * (j / 4) + j % 2, by omega⟩ else b ⟨8 + 2 * (j / 4) + j % 2, by omega⟩
/-- `_mm256_permute2x128_si256(a, b, imm)` for `imm` without zeroing bits (src/kernels/kernels_specialized.inl:1081-1082). -/
def mm256_permute2x128_si256 (a b : V 32 Nat) (imm : Nat) : V 32 Nat := fun j =>
  let sel := if j.val < 16 then imm % 4 else imm / 16 % 4
  if sel / 2 = 0 then a ⟨16 * (sel % 2) + j % 16, by omega⟩ else b ⟨16 * (sel % 2) + j % 16, by omega⟩

/-! ### Widening -/

/-- `cvtepu8_epi32`: the low `n` bytes zero-extended (`n = 16, 8`) (src/kernels/kernels_specialized.inl:746-749, 771-774, 946-949,
1002-1005, 1070-1073, 1210-1213, 1361). -/
def cvtepu8_epi32 {n : Nat} (a : V 16 Nat) (h : n ≤ 16) : V n ℤ := fun j => (a ⟨j, by omega⟩ : ℤ)
/-- `_mm_cvtepu8_epi16`: the low 8 bytes (src/kernels/kernels_specialized.inl:892-893, 1130, 1137). -/
def mm_cvtepu8_epi16 (a : V 16 Nat) : V 8 ℤ := fun j => (a ⟨j, by omega⟩ : ℤ)
/-- `_mm_cvtepi16_epi32`: the low 4 words, sign-extended (src/kernels/kernels_specialized.inl:894-897, 1131-1132, 1138-1139). -/
def mm_cvtepi16_epi32 (a : V 8 ℤ) : V 4 ℤ := fun j => sext16 (a ⟨j, by omega⟩)
/-- Reading a byte register as four little-endian 32-bit lanes (result of the SSE
`unpack*(·, zero)` sequence) (src/kernels/kernels_specialized.inl:829-832). -/
def epi32_of_bytes (a : V 16 Nat) : V 4 ℤ := fun j =>
  (a ⟨4 * j, by omega⟩ + 256 * a ⟨4 * j + 1, by omega⟩ + 65536 * a ⟨4 * j + 2, by omega⟩
    + 16777216 * a ⟨4 * j + 3, by omega⟩ : ℤ)

/-! ### Multiply-add (bf16 → uint2) -/

/-- `_mm_maddubs_epi16(a, b)`: unsigned × signed bytes, adjacent pairs added with signed
saturation.  `b` holds the signed byte values (src/kernels/kernels_specialized.inl:697). -/
def mm_maddubs_epi16 (a : V 16 Nat) (b : V 16 ℤ) : V 8 ℤ := fun j =>
  satS16 (a ⟨2 * j, by omega⟩ * b ⟨2 * j, by omega⟩ + a ⟨2 * j + 1, by omega⟩ * b ⟨2 * j + 1, by omega⟩)
/-- `_mm_hadd_epi16(a, b)` (src/kernels/kernels_specialized.inl:698) -/
def mm_hadd_epi16 (a b : V 8 ℤ) : V 8 ℤ := fun j =>
  if h : j.val < 4 then sext16 (a ⟨2 * j, by omega⟩ + a ⟨2 * j + 1, by omega⟩)
  else sext16 (b ⟨2 * (j - 4), by omega⟩ + b ⟨2 * (j - 4) + 1, by omega⟩)

/-! ### Horizontal minimum/maximum helpers -/

/-- `_mm_movehl_ps(a, b)`: `{b2, b3, a2, a3}` (src/kernels/kernels_specialized.inl:1463, 1469, 1489-1490, 1570, 1576, 1596-1597). -/
def mm_movehl_ps (a b : V 4 F32) : V 4 F32 := fun j =>
  if h : j.val < 2 then b ⟨j + 2, by omega⟩ else a j
/-- `_mm_shuffle_ps(a, b, imm)` (src/kernels/kernels_specialized.inl:1464, 1470, 1489-1490, 1571, 1577, 1596-1597). -/
def mm_shuffle_ps (a b : V 4 F32) (imm : Nat) : V 4 F32 := fun j =>
  if j.val < 2 then a ⟨imm / 4 ^ j.val % 4, by omega⟩ else b ⟨imm / 4 ^ j.val % 4, by omega⟩
/-- `_mm512_reduce_min_ps`.  The order of the reduction is not specified by Intel; modelled as
the halving tree compilers emit (src/kernels/kernels_specialized.inl:1441, 1548). -/
def mm512_reduce_min_ps (a : V 16 F32) : F32 :=
  let b : V 8 F32 := min_ps (n := 8) (lo128 a) (hi128 a)
  let c : V 4 F32 := min_ps (n := 4) (lo128 b) (hi128 b)
  let d : V 2 F32 := min_ps (n := 2) (lo128 c) (hi128 c)
  (min_ps (n := 1) (lo128 d) (hi128 d)) 0
/-- `_mm512_reduce_max_ps`, likewise (src/kernels/kernels_specialized.inl:1442, 1549). -/
def mm512_reduce_max_ps (a : V 16 F32) : F32 :=
  let b : V 8 F32 := max_ps (n := 8) (lo128 a) (hi128 a)
  let c : V 4 F32 := max_ps (n := 4) (lo128 b) (hi128 b)
  let d : V 2 F32 := max_ps (n := 2) (lo128 c) (hi128 c)
  (max_ps (n := 1) (lo128 d) (hi128 d)) 0

/-! ### NEON -/

/-- `vcvtaq_s32_f32`: to nearest, ties away from zero, saturating, NaN to 0 (src/kernels/kernels_specialized.inl:164-167). -/
def vcvta1 (x : F32) : ℤ :=
  if x.isNaN then 0
  else if x.isInf then (if x.neg then -2 ^ 31 else 2 ^ 31 - 1)
  else max (-2 ^ 31) (min (2 ^ 31 - 1) (Flt.truncInt (Flt.round x)))
/-- src/kernels/kernels_specialized.inl:164-167. -/
def vcvtaq_s32_f32 (a : V 4 F32) : V 4 ℤ := fun j => vcvta1 (a j)
/-- `vqmovn_s32` (src/kernels/kernels_specialized.inl:172-173) -/
def vqmovn_s32 (a : V 4 ℤ) : V 4 ℤ := fun j => satS16 (a j)
/-- `vqmovun_s16` (src/kernels/kernels_specialized.inl:174) -/
def vqmovun_s16 (a : V 8 ℤ) : V 8 Nat := fun j => (satU8 (a j)).toNat
/-- `vcombine_*` (src/kernels/kernels_specialized.inl:172-174) -/
def vcombine {α : Type} {n : Nat} (a b : V n α) : V (2 * n) α := fun j =>
  if h : j.val < n then a ⟨j, h⟩ else b ⟨j - n, by omega⟩
/-- `vminq_f32` / `vmaxq_f32`: NaN if either operand is NaN (src/kernels/kernels_specialized.inl:1499-1505). -/
def vminq_f32 (a b : V 4 F32) : V 4 F32 := fun j =>
  if (a j).isNaN || (b j).isNaN then Flt.nan else if Flt.lt (a j) (b j) then a j else b j
/-- src/kernels/kernels_specialized.inl:1500-1506. -/
def vmaxq_f32 (a b : V 4 F32) : V 4 F32 := fun j =>
  if (a j).isNaN || (b j).isNaN then Flt.nan else if Flt.gt (a j) (b j) then a j else b j

/-! ### Loads and stores -/

/-- A register as a function on natural indices (for stores) (src/kernels/kernels_specialized.inl:175, 223-226). -/
def toFn {n : Nat} (v : V n Nat) : Nat → Nat := fun k => if h : k < n then v ⟨k, h⟩ else 0

/-- `loadu_ps` / `vld1q_f32` from the input: `n` floats at element index `i` (src/kernels/kernels_specialized.inl:58-61, 101-104,
139-142, 164-167, 343, 382-383, 430-433, 1428-1431 and alike). -/
def loadu_ps (n : Nat) (x : InBuf) (off i : Nat) : Prog (V n F32) := do
  chkIn x (off + 4 * i) (4 * n)
  pure (fun j => x.elem .f32 off (i + j))
/-- `loadu_si*` of `n` 16-bit input elements at element index `i` (src/kernels/kernels_specialized.inl:203-206, 246-249, 284-287,
507-509, 549-550, 596-599, 678-681, 1529-1537 and alike). -/
def loadu_u16 (n : Nat) (x : InBuf) (off i : Nat) : Prog (V n Nat) := do
  chkIn x (off + 2 * i) (2 * n)
  pure (fun j => x.u16 (off + 2 * (i + j)))
/-- `loadu_si*` of `n` input bytes at byte index `b` (src/kernels/kernels_specialized.inl:742-745, 778-779, 821-824, 942-945, 1024,
1086, 1156, 1232, 1345). -/
def loadu_u8 (n : Nat) (x : InBuf) (off b : Nat) : Prog (V n Nat) := do
  chkIn x (off + b) n
  pure (fun j => x.u8 (off + b + j))
/-- `storeu_si*`, `storel_epi64`, `storeu_si32`, `vst1q_u8`: the low `k` bytes (src/kernels/kernels_specialized.inl:175, 223-226,
309-310, 361, 408, 464, 528, 575, 632-633, 700). -/
def storeu {n : Nat} (a : Nat) (k : Nat) (v : V n Nat) : Prog Unit := stBytes a k (toFn v)
/-- `stream_si128` / `stream_si256`: faults unless aligned to the vector size (src/kernels/kernels_specialized.inl:78-81, 123, 158,
268). -/
def stream {n : Nat} (a : Nat) (v : V n Nat) : Prog Unit :=
  if a % n = 0 then stBytes a n (toFn v) else .fail .misaligned
/-- `storeu_ps` / `vst1q_f32` (src/kernels/kernels_specialized.inl:760-763, 808-815, 873-888, 915-918, 1054-1061, 1116-1123,
1150-1153) -/
def storeu_ps {n : Nat} (a : Nat) (v : V n F32) : Prog Unit :=
  stBytes a (4 * n) (fun k => if h : k / 4 < n then byteOf (v ⟨k / 4, h⟩).toBits (k % 4) else 0)
/-- `loadu_ps` from output memory (ADD mode) (src/kernels/kernels_specialized.inl:755-758, 799-806, 856-871, 910-913, 1045-1052,
1107-1114, 1145-1148). -/
def loado_ps (n : Nat) (a : Nat) : Prog (V n F32) := do
  let f ← ldBytes a (4 * n)
  pure (fun j => Flt.ofBits f32 (le32 (fun k => f (4 * j + k))))
/-- `storeu_si256` of `n` 16-bit lanes (src/kernels/kernels_specialized.inl:967-970, 1266-1282, 1339-1341). -/
def storeu_u16 {n : Nat} (a : Nat) (v : V n Nat) : Prog Unit :=
  stBytes a (2 * n) (fun k => if h : k / 2 < n then byteOf (v ⟨k / 2, h⟩) (k % 2) else 0)
/-- `loadu_si256` of `n` 16-bit lanes from output memory (ADD mode) (src/kernels/kernels_specialized.inl:956-964, 1246-1262,
1368-1371). -/
def loado_u16 (n : Nat) (a : Nat) : Prog (V n Nat) := do
  let f ← ldBytes a (2 * n)
  pure (fun j => le16 (fun k => f (2 * j + k)))

/-! ### float → bf16 on AVX-512 (kernels_specialized.inl:15-32) -/

/-- `cvt_ps_to_bf16` without `__AVX512BF16__` (kernels_specialized.inl:19-30), one lane on the
32-bit encoding. -/
def cvtPsBf16Bits (x : Nat) : Nat :=
  let lsb := (x >>> 16) &&& 1
  let bias := (0x7FFF + lsb) % 2 ^ 32
  let r := (x + bias) % 2 ^ 32
  let bf32 := r >>> 16
  let isNan := (x &&& 0x7F800000) = 0x7F800000 ∧ (x &&& 0x007FFFFF) ≠ 0
  let bf32 := if isNan then (bf32 + 1) % 2 ^ 32 else bf32
  min bf32 65535

/-- `_mm512_cvtneps_pbh` (`VCVTNEPS2BF16`), one lane: nearest-even; denormal inputs are zero and
denormal results are flushed to zero (regardless of MXCSR); NaN is quietened (src/kernels/kernels_specialized.inl:17, 1266-1273,
1339). -/
def cvtnepsBits (x : Nat) : Nat :=
  let sign := (x >>> 31) &&& 1
  let expo := (x >>> 23) &&& 0xff
  let frac := x &&& 0x7fffff
  if expo = 0xff ∧ frac ≠ 0 then ((x >>> 16) ||| 64) % 65536
  else if expo = 0 then sign * 32768
  else (((x + (0x7fff + ((x >>> 16) &&& 1))) % 2 ^ 32) >>> 16) % 65536

/-- `cvt_ps_to_bf16` (kernels_specialized.inl:15-32) resp. the direct `_mm512_cvtneps_pbh`
(1266-1273, 1339). -/
def cvt_ps_to_bf16 {n : Nat} (isa : Isa) (a : V n F32) : V n Nat := fun j =>
  if isa = .avx512bf16 then cvtnepsBits (a j).toBits else cvtPsBf16Bits (a j).toBits

end Simd
end Verif
