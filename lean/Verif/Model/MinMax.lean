import Verif.Model.KernelsQ

/-!
# Parameter search: `find_min_max_*` and `compute_quant_config`

src/kernels/kernels_specialized.inl:1418-1607 and src/piquant.cpp:213-259, 371-381.
-/

namespace Verif
open Simd

/-- `for (; cond(i); i += step) s = body(i, s)` (src/kernels/kernels_specialized.inl:1427-1440, 1446-1459, 1475-1488, 1494-1507,
1511-1514). -/
def forS {σ : Type} (cond : Nat → Bool) (step : Nat) (body : Nat → σ → Prog σ) : Nat → Nat → σ → Prog (Nat × σ)
  | 0, i, s => if cond i then .fail .diverge else pure (i, s)
  | fuel + 1, i, s => if cond i then do let s' ← body i s; forS cond step body fuel (i + step) s' else pure (i, s)

/-- `std::numeric_limits<fp32_t>::max()` / `dtype_limits<fp32_t>::max` (src/kernels/kernels_specialized.inl:1422) -/
def fltMax : F32 := ⟨false, 0x7f7fffff⟩
/-- `std::numeric_limits<fp32_t>::lowest()` / `dtype_limits<fp32_t>::min` (src/kernels/kernels_specialized.inl:1423) -/
def fltLowest : F32 := ⟨true, 0x7f7fffff⟩

/-- `vmin = min_ps(vmin, v); vmax = max_ps(vmax, v)` for each loaded register, in order
(src/kernels/kernels_specialized.inl:1432-1439, 1451-1458, 1480-1487). -/
def mmRegs {n : Nat} (s : V n F32 × V n F32) : List (V n F32) → V n F32 × V n F32
  | [] => s
  | v :: vs => mmRegs (min_ps s.1 v, max_ps s.2 v) vs

/-- The same with the NEON instructions (src/kernels/kernels_specialized.inl:1499-1506). -/
def mmRegsNeon (s : V 4 F32 × V 4 F32) : List (V 4 F32) → V 4 F32 × V 4 F32
  | [] => s
  | v :: vs => mmRegsNeon (vminq_f32 s.1 v, vmaxq_f32 s.2 v) vs

/-- Horizontal minimum on AVX2 (src/kernels/kernels_specialized.inl:1460-1465, 1567-1572) -/
def hminAvx2 (v : V 8 F32) : F32 :=
  let m := min_ps (lo128 (n := 4) v) (hi128 (n := 4) v)
  let m := min_ps m (mm_movehl_ps m m)
  let m := min_ps m (mm_shuffle_ps m m 1)
  m 0
/-- Horizontal maximum on AVX2 (src/kernels/kernels_specialized.inl:1466-1471, 1573-1578) -/
def hmaxAvx2 (v : V 8 F32) : F32 :=
  let m := max_ps (lo128 (n := 4) v) (hi128 (n := 4) v)
  let m := max_ps m (mm_movehl_ps m m)
  let m := max_ps m (mm_shuffle_ps m m 1)
  m 0
/-- Horizontal minimum on SSE4.2 (1489, 1596): the shuffle is applied to `vmin`, not to the
intermediate minimum (src/kernels/kernels_specialized.inl:1489, 1596). -/
def hminSse (v : V 4 F32) : F32 := (min_ps (min_ps v (mm_movehl_ps v v)) (mm_shuffle_ps v v 1)) 0
/-- Horizontal maximum on SSE4.2 (src/kernels/kernels_specialized.inl:1490, 1597) -/
def hmaxSse (v : V 4 F32) : F32 := (max_ps (max_ps v (mm_movehl_ps v v)) (mm_shuffle_ps v v 1)) 0

/-- `std::min`/`std::max` over an initializer list (1508-1509): first smallest/largest. (src/kernels/kernels_specialized.inl:1508)
-/
def minList4 (v : V 4 F32) : F32 :=
  let s (a b : F32) := if Flt.lt b a then b else a
  s (s (s (v 0) (v 1)) (v 2)) (v 3)
/-- `std::max` over an initializer list (src/kernels/kernels_specialized.inl:1509). -/
def maxList4 (v : V 4 F32) : F32 :=
  let s (a b : F32) := if Flt.lt a b then b else a
  s (s (s (v 0) (v 1)) (v 2)) (v 3)

/-- Scalar loop (src/kernels/kernels_specialized.inl:1511-1514, 1601-1605) -/
def mmTail (ft : FT) (x : InBuf) (off numel i : Nat) (s : F32 × F32) : Prog (F32 × F32) := do
  let r ← forS (fun i => i < numel) 1 (fun i s => do
    let v ← ldX ft x off i
    let mn := if Flt.lt v s.1 then v else s.1
    let mx := if Flt.gt v s.2 then v else s.2
    pure (mn, mx)) numel i s
  pure r.2

/-- `find_min_max_f32` (kernels_specialized.inl:1418-1516). -/
def findMinMaxF32 (isa : Isa) (x : InBuf) (off numel : Nat) : Prog (F32 × F32) := do
  let r ← (match isa with
    | .avx512f | .avx512bf16 => do                                        -- 1424-1442
      let r ← forS (fun i => i + 63 < numel) 63 (fun i (s : V 16 F32 × V 16 F32) => do
        let v0 ← loadu_ps 16 x off i
        let v1 ← loadu_ps 16 x off (i + 16)
        let v2 ← loadu_ps 16 x off (i + 32)
        let v3 ← loadu_ps 16 x off (i + 48)
        pure (mmRegs s [v0, v1, v2, v3])) numel 0 (set1 fltMax, set1 fltLowest)
      pure (r.1, mm512_reduce_min_ps r.2.1, mm512_reduce_max_ps r.2.2)
    | .avx2 => do                                                         -- 1443-1471
      let r ← forS (fun i => i + 31 < numel) 32 (fun i (s : V 8 F32 × V 8 F32) => do
        let v0 ← loadu_ps 8 x off i
        let v1 ← loadu_ps 8 x off (i + 8)
        let v2 ← loadu_ps 8 x off (i + 16)
        let v3 ← loadu_ps 8 x off (i + 24)
        pure (mmRegs s [v0, v1, v2, v3])) numel 0 (set1 fltMax, set1 fltLowest)
      pure (r.1, hminAvx2 r.2.1, hmaxAvx2 r.2.2)
    | .sse42 => do                                                        -- 1472-1490
      let r ← forS (fun i => i + 15 < numel) 16 (fun i (s : V 4 F32 × V 4 F32) => do
        let v0 ← loadu_ps 4 x off (i + 0)
        let v1 ← loadu_ps 4 x off (i + 4)
        let v2 ← loadu_ps 4 x off (i + 8)
        let v3 ← loadu_ps 4 x off (i + 12)
        pure (mmRegs s [v0, v1, v2, v3])) numel 0 (set1 fltMax, set1 fltLowest)
      pure (r.1, hminSse r.2.1, hmaxSse r.2.2)
    | .neon => do                                                         -- 1491-1509
      let r ← forS (fun i => i + 15 < numel) 16 (fun i (s : V 4 F32 × V 4 F32) => do
        let v0 ← loadu_ps 4 x off (i + 0)
        let v1 ← loadu_ps 4 x off (i + 4)
        let v2 ← loadu_ps 4 x off (i + 8)
        let v3 ← loadu_ps 4 x off (i + 12)
        pure (mmRegsNeon s [v0, v1, v2, v3])) numel 0 (set1 fltMax, set1 fltLowest)
      pure (r.1, minList4 r.2.1, maxList4 r.2.2)
    | .portable => pure (0, fltMax, fltLowest) : Prog (Nat × F32 × F32))
  mmTail .f32 x off numel r.1 r.2

/-- SSE4.2 bf16 load of the min/max kernel (1582-1585): 8 elements are loaded, only the low four
are widened (src/kernels/kernels_specialized.inl:1583-1586). -/
def loadBf16Lo4 (x : InBuf) (off i : Nat) : Prog (V 4 F32) := do
  let v ← loadu_u16 8 x off i
  pure (bf16lo v)

/-- `find_min_max_bf16` (kernels_specialized.inl:1518-1607). -/
def findMinMaxBf16 (isa : Isa) (x : InBuf) (off numel : Nat) : Prog (F32 × F32) := do
  let r ← (match isa with
    | .avx512f | .avx512bf16 => do                                        -- 1524-1550
      let r ← forS (fun i => i + 63 < numel) 63 (fun i (s : V 16 F32 × V 16 F32) => do
        let v0 ← loadBf16 16 x off i
        let v1 ← loadBf16 16 x off (i + 16)
        let v2 ← loadBf16 16 x off (i + 32)
        let v3 ← loadBf16 16 x off (i + 48)
        pure (mmRegs s [v0, v1, v2, v3])) numel 0 (set1 fltMax, set1 fltLowest)
      pure (r.1, mm512_reduce_min_ps r.2.1, mm512_reduce_max_ps r.2.2)
    | .avx2 => do                                                         -- 1551-1578
      let r ← forS (fun i => i + 31 < numel) 32 (fun i (s : V 8 F32 × V 8 F32) => do
        let v0 ← loadBf16 8 x off i
        let v1 ← loadBf16 8 x off (i + 8)
        let v2 ← loadBf16 8 x off (i + 16)
        let v3 ← loadBf16 8 x off (i + 24)
        pure (mmRegs s [v0, v1, v2, v3])) numel 0 (set1 fltMax, set1 fltLowest)
      pure (r.1, hminAvx2 r.2.1, hmaxAvx2 r.2.2)
    | .sse42 => do                                                        -- 1579-1597
      let r ← forS (fun i => i + 31 < numel) 32 (fun i (s : V 4 F32 × V 4 F32) => do
        let v0 ← loadBf16Lo4 x off i
        let v1 ← loadBf16Lo4 x off (i + 8)
        let v2 ← loadBf16Lo4 x off (i + 16)
        let v3 ← loadBf16Lo4 x off (i + 24)
        pure (mmRegs s [v0, v1, v2, v3])) numel 0 (set1 fltMax, set1 fltLowest)
      pure (r.1, hminSse r.2.1, hmaxSse r.2.2)
    | .neon | .portable => pure (0, fltMax, fltLowest) : Prog (Nat × F32 × F32))
  mmTail .bf16 x off numel r.1 r.2

/-- The kernel by element type (src/piquant.cpp:371-381). -/
def findMinMax (isa : Isa) (ft : FT) (x : InBuf) (off numel : Nat) : Prog (F32 × F32) :=
  match ft with
  | .f32 => findMinMaxF32 isa x off numel
  | .bf16 => findMinMaxBf16 isa x off numel

/-! ## `compute_quant_config` (src/piquant.cpp:213-259) -/

/-- `compute_type_max` (piquant.cpp:213-220). -/
def computeTypeMax (dt : DType) : Prog Nat :=
  if dt.isQuant && dt.isInt then
    pure (2 ^ (if dt.isSigned then dt.bits - 1 else dt.bits) - 1)
  else .fail .panic

/-- The block callback (piquant.cpp:230-235); `base + start` is element offset `start`. -/
def mmBlock (isa : Isa) (ft : FT) (x : InBuf) (start fin : Nat) : Prog (F32 × F32) :=
  if fin - start = 0 then pure (f0, f0)
  else findMinMax isa ft x (ft.size * start) (fin - start)

/-- Results of all blocks, in order (piquant.cpp:236-237).  The blocks only read. -/
def mmBlocks (isa : Isa) (ft : FT) (x : InBuf) : List (Nat × Nat) → Prog (List (F32 × F32))
  | [] => pure []
  | b :: bs => do
    let r ← mmBlock isa ft x b.1 b.2
    let rs ← mmBlocks isa ft x bs
    pure (r :: rs)

/-- `std::numeric_limits<double>::max()` / `lowest()` (src/piquant.cpp:238) -/
def dblMax : F64 := ⟨false, 0x7fefffffffffffff⟩
/-- `std::numeric_limits<double>::lowest()` (src/piquant.cpp:239). -/
def dblLowest : F64 := ⟨true, 0x7fefffffffffffff⟩

/-- `std::min` / `std::max` on doubles (src/piquant.cpp:242). -/
def stdMin (a b : F64) : F64 := if Flt.lt b a then b else a
/-- `std::max` (src/piquant.cpp:243). -/
def stdMax (a b : F64) : F64 := if Flt.lt a b then b else a

/-- The combining loop (piquant.cpp:238-244). -/
def mmCombine (rs : List (F32 × F32)) : F64 × F64 :=
  rs.foldl (fun s r => (stdMin s.1 (Flt.cvt f64 r.1), stdMax s.2 (Flt.cvt f64 r.2))) (dblMax, dblLowest)

/-- `static_cast<std::int64_t>(d)` (src/piquant.cpp:257) -/
def toI64 (d : F64) : Prog ℤ := match d.toInt? 64 with
  | none => .fail .ub
  | some t => pure t

/-- Scale and zero point from the range (piquant.cpp:245-258).  All quantized types are unsigned
(`type_min = 0`); the signed branch is kept. -/
def paramsOf (dt : DType) (rmin rmax : F64) : Prog (F32 × ℤ) := do
  let typeMax ← computeTypeMax dt
  let typeMin : ℤ := if dt.isSigned then -(typeMax : ℤ) - 1 else 0
  if Flt.feq rmax rmin then
    pure (f1, ((typeMax : ℤ) + typeMin) / 2)
  else do
    let qmin := Flt.ofInt f64 typeMin
    let qmax := Flt.ofInt f64 typeMax
    let scale := Flt.div (Flt.sub rmax rmin) (Flt.sub qmax qmin)
    let zp := Flt.sub qmin (Flt.div rmin scale)
    let zi ← toI64 (Flt.round zp)
    let zp := stdMax (stdMin (Flt.ofInt f64 zi) qmax) qmin
    let z ← toI64 zp
    pure (Flt.cvt f32 scale, z)

/-- `compute_quant_config` (piquant.cpp:222-259).  `blocks` is the split chosen by the thread
pool's `scheduleBlocks(0, n)` (third-party code, not in the repository): a parameter. -/
def computeQuantConfig (isa : Isa) (ft : FT) (x : InBuf) (blocks : List (Nat × Nat)) (dt : DType) : Prog (F32 × ℤ) := do
  let rs ← mmBlocks isa ft x blocks
  let r := mmCombine rs
  paramsOf dt r.1 r.2

/-- `context::compute_quant_config_from_data` (piquant.cpp:371-381). -/
def computeQuantConfigFromData (isa : Isa) (ft : FT) (x : InBuf) (blocks : List (Nat × Nat)) (dt : DType) : Prog (F32 × ℤ) := do
  let r ← computeQuantConfig isa ft x blocks dt
  if !r.1.isNaN && Flt.ge r.1 f0 then pure r else .fail .panic

/-- The contract assumed of `scheduleBlocks(0, n)`: consecutive blocks covering `[0, n)` (src/piquant.cpp:236). -/
def Tiles (n : Nat) : Nat → List (Nat × Nat) → Prop
  | s, [] => s = n
  | s, b :: bs => b.1 = s ∧ s ≤ b.2 ∧ Tiles n b.2 bs

end Verif
