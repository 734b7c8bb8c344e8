import Verif.Spec

/-!
# Specification: which elements of a nearest quantization are rounded by vector instructions, and how

Each worker thread processes a run of consecutive elements.  On most kernels the run is processed in
three parts: single elements until the output address is a multiple of an alignment, then groups of a
fixed number of elements with vector instructions, then the remaining single elements.  The tables and
formulas here are a description of their own; they do not mention loops or kernels of the model.
-/

namespace Verif.Spec

/-- Alignment of the output (bytes) at which the vector part starts, and the number of elements per
group; `none` if the conversion has no vector part on that CPU (nearest rounding). -/
def groups (isa : Isa) (dtIn dtOut : DType) : Option (Nat × Nat) :=
  match isa, dtIn, dtOut with
  | .sse42, .f32, .uint8 => some (16, 16)
  | .avx2, .f32, .uint8 => some (32, 32)
  | .avx512f, .f32, .uint8 => some (16, 64)
  | .avx512bf16, .f32, .uint8 => some (16, 64)
  | .neon, .f32, .uint8 => some (1, 16)
  | .sse42, .bf16, .uint8 => some (16, 32)
  | .avx2, .bf16, .uint8 => some (32, 32)
  | .avx512f, .bf16, .uint8 => some (1, 64)
  | .avx512bf16, .bf16, .uint8 => some (1, 64)
  | .sse42, .f32, .uint4 => some (1, 16)
  | .avx2, .f32, .uint4 => some (1, 16)
  | .avx512f, .f32, .uint4 => some (1, 16)
  | .avx512bf16, .f32, .uint4 => some (1, 16)
  | .sse42, .bf16, .uint4 => some (1, 32)
  | .avx2, .bf16, .uint4 => some (1, 16)
  | .avx512f, .bf16, .uint4 => some (1, 16)
  | .avx512bf16, .bf16, .uint4 => some (1, 16)
  | .avx512f, .bf16, .uint2 => some (1, 16)
  | .avx512bf16, .bf16, .uint2 => some (1, 16)
  | _, _, _ => none

/-- Element `i` of a run of `n` elements whose output starts at byte address `o` belongs to the vector
part: at least `s` elements from the start, `s` the distance to the next aligned address, and inside
the whole groups that fit behind them. -/
def InGroups (isa : Isa) (dtIn dtOut : DType) (o n i : Nat) : Prop :=
  ∃ A k, groups isa dtIn dtOut = some (A, k) ∧
    (A - o % A) % A ≤ i ∧ i < (A - o % A) % A + (n - (A - o % A) % A) / k * k

instance (isa : Isa) (a b : DType) (o n i : Nat) : Decidable (InGroups isa a b o n i) :=
  decidable_of_iff ((groups isa a b).any
      (fun g => decide ((g.1 - o % g.1) % g.1 ≤ i) && decide (i < (g.1 - o % g.1) % g.1 + (n - (g.1 - o % g.1) % g.1) / g.2 * g.2)) = true) (by
    unfold InGroups
    rcases groups isa a b with _ | ⟨A, k⟩
    · simp
    · simp only [Option.any_some, Bool.and_eq_true, decide_eq_true_eq, Option.some.injEq, Prod.mk.injEq]
      constructor
      · exact fun h => ⟨A, k, ⟨rfl, rfl⟩, h⟩
      · rintro ⟨_, _, ⟨rfl, rfl⟩, h⟩; exact h)

/-- First element of the run of worker `t` of `T`: the `t`-th of `T` equal parts, rounded down to a
whole output byte; the last run ends at `n`. -/
def runStart (dtOut : DType) (n T t : Nat) : Nat :=
  if t = T then n else n * t / T - n * t / T % (8 / dtOut.bits)

/-- Element `i` of a quantize call with `T` threads and output at `o` is processed by vector
instructions. -/
def Vectored (isa : Isa) (T : Nat) (dtIn dtOut : DType) (o n i : Nat) : Prop :=
  ∃ t, t < T ∧ runStart dtOut n T t ≤ i ∧ i < runStart dtOut n T (t + 1) ∧
    InGroups isa dtIn dtOut (o + dtOut.bits * runStart dtOut n T t / 8)
      (runStart dtOut n T (t + 1) - runStart dtOut n T t) (i - runStart dtOut n T t)

instance (isa : Isa) (T : Nat) (a b : DType) (o n i : Nat) : Decidable (Vectored isa T a b o n i) := by
  unfold Vectored; infer_instance

/-- Two's complement 32-bit value of an integer. -/
def low32 (z : ℤ) : ℤ := (z + 2 ^ 31) % 2 ^ 32 - 2 ^ 31

/-- The sum of a scaled value and one half of the same sign, rounded to a float. -/
def halfAway (p : F32) : F32 := Flt.add p (if 0 ≤ p.toRat then ⟨false, 0x3f000000⟩ else ⟨true, 0x3f000000⟩)

/-- x86 rounding of a scaled value: add `±1/2` as floats and truncate; NaN, infinities and results
outside `int32_t` give the "integer indefinite" value `-2^31`. -/
def x86Round (p : F32) : ℤ :=
  if (halfAway p).isFin = true ∧ -(2 ^ 31 : ℤ) ≤ rtz (halfAway p).toRat ∧ rtz (halfAway p).toRat < 2 ^ 31 then rtz (halfAway p).toRat
  else -2 ^ 31

/-- NEON rounding of a scaled value (`vcvtaq`): nearest, halves away from zero, saturating; NaN gives 0. -/
def neonRound (p : F32) : ℤ :=
  if p.isNaN then 0
  else if p.isInf then (if p.neg then -2 ^ 31 else 2 ^ 31 - 1)
  else max (-2 ^ 31) (min (2 ^ 31 - 1) (rha p.toRat))

/-- The code that the vector instructions of CPU `isa` give to the scaled value `p`: the sum with the
(truncated) zero point wraps around in 32 bits and is then saturated to the code range. -/
def vectorCode (isa : Isa) (bits : Nat) (p : F32) (zp : ℤ) : ℤ :=
  sat bits (low32 ((if isa = .neon then neonRound p else x86Round p) + low32 zp))

/-- The zero point used by the scalar code for nearest rounding: all kernels but `float32 → uint2`
take an `int32_t`. -/
def scalarZp (dtIn dtOut : DType) (zp : ℤ) : ℤ := if dtIn = .f32 ∧ dtOut = .uint2 then zp else low32 zp

/-- The width of the scalar integer arithmetic (64 bits for `float32 → uint2`). -/
def scalarWidth (dtIn dtOut : DType) : Nat := if dtIn = .f32 ∧ dtOut = .uint2 then 64 else 32

/-- The scalar code is defined on the scaled value `p`. -/
def ScalarOk (dtIn dtOut : DType) (p : F32) (zp : ℤ) : Prop :=
  Fits (scalarWidth dtIn dtOut) p (scalarZp dtIn dtOut zp)

instance (a b : DType) (p : F32) (zp : ℤ) : Decidable (ScalarOk a b p zp) := by unfold ScalarOk; infer_instance

/-- The code that the scalar code gives to `p`. -/
def scalarCode (dtIn dtOut : DType) (p : F32) (zp : ℤ) : ℤ := sat dtOut.bits (rha p.toRat + scalarZp dtIn dtOut zp)

/-! ## Dequantization -/

/-- Number of codes per vector group of a dequantization; `none` if it has no vector part on that CPU. -/
def dqGroup (isa : Isa) (dtIn dtOut : DType) : Option Nat :=
  match isa, dtIn, dtOut with
  | .sse42, .uint8, .f32 => some 64
  | .avx2, .uint8, .f32 => some 64
  | .avx512f, .uint8, .f32 => some 64
  | .avx512bf16, .uint8, .f32 => some 64
  | .neon, .uint8, .f32 => some 16
  | .sse42, .uint4, .f32 => some 32
  | .avx2, .uint4, .f32 => some 64
  | .avx512f, .uint4, .f32 => some 128
  | .avx512bf16, .uint4, .f32 => some 128
  | .avx512f, .uint8, .bf16 => some 64
  | .avx512bf16, .uint8, .bf16 => some 64
  | .avx512f, .uint4, .bf16 => some 128
  | .avx512bf16, .uint4, .bf16 => some 128
  | .avx512f, .uint2, .bf16 => some 256
  | .avx512bf16, .uint2, .bf16 => some 256
  | _, _, _ => none

/-- Code `i` of a run of `n` codes lies in a vector group: the groups start at the beginning of the run. -/
def InDqGroups (isa : Isa) (dtIn dtOut : DType) (n i : Nat) : Prop :=
  ∃ k, dqGroup isa dtIn dtOut = some k ∧ i < n / k * k

instance (isa : Isa) (a b : DType) (n i : Nat) : Decidable (InDqGroups isa a b n i) :=
  decidable_of_iff ((dqGroup isa a b).any (fun k => decide (i < n / k * k)) = true) (by
    unfold InDqGroups
    cases dqGroup isa a b <;> simp)

/-- Code `i` of a dequantize call with `T` threads is processed by vector instructions. -/
def DqVectored (isa : Isa) (T : Nat) (dtIn dtOut : DType) (n i : Nat) : Prop :=
  ∃ t, t < T ∧ runStart dtIn n T t ≤ i ∧ i < runStart dtIn n T (t + 1) ∧
    InDqGroups isa dtIn dtOut (runStart dtIn n T (t + 1) - runStart dtIn n T t) (i - runStart dtIn n T t)

instance (isa : Isa) (T : Nat) (a b : DType) (n i : Nat) : Decidable (DqVectored isa T a b n i) := by
  unfold DqVectored; infer_instance

/-- Word `w` is what the AVX-512 kernels store for the float `v`: the nearest bf16; with the AVX512-BF16
instructions values below the smallest normal number become a zero of the same sign. -/
def VecBf16 (isa : Isa) (v : F32) (w : Nat) : Prop :=
  if isa = .avx512bf16 ∧ v.isFin = true ∧ |v.toRat| < 1 / 2 ^ 126 then w = (if v.neg then 32768 else 0) else IsBf16Of v w

/-- The value that the AVX-512 kernels compute for code `q` of a 4-bit or 2-bit tensor: one fused
multiply-add with a rounded bias, `fl(q * scale + fl(-zero_point * scale))`. -/
def biased (scale : F32) (zp : ℤ) (q : Nat) : F32 :=
  Flt.fma (Flt.ofInt f32 q) scale (Flt.mul (Flt.negate (Flt.ofInt f32 zp)) scale)

/-- The float that the AVX-512 kernels convert to bf16 for code `q`. -/
def vecSum (op : ReduceOp) (contracted : Bool) (dtIn : DType) (old scale : F32) (zp : ℤ) (q : Nat) : F32 :=
  if dtIn = .uint8 then store op contracted old scale zp q
  else match op with
    | .set => biased scale zp q
    | .add => Flt.add (biased scale zp q) old

/-- Word `w` is what the scalar code stores in a bf16 output: the value rounded to bf16; when adding, the
sum of the old element and that rounded value, rounded to bf16 again. -/
def ScalBf16 (op : ReduceOp) (old scale : F32) (zp : ℤ) (q w : Nat) : Prop :=
  match op with
  | .set => IsBf16Of (dequant scale zp q) w
  | .add => ∃ d, IsBf16Of (dequant scale zp q) d ∧ IsBf16Of (Flt.add old (Flt.ofBits f32 (65536 * d))) w

/-- Whether the sum of an element with the old one is contracted to a fused multiply-add: a choice of the
compiler for each of three parts of the library. -/
def contractedAt (fz : Fuse) (dtIn : DType) (vectored : Prop) [Decidable vectored] : Bool :=
  if dtIn = .uint2 then fz.gen else if vectored then fz.vec else fz.scal

end Verif.Spec
