import Verif.Spec
import Verif.Model.Scalar
import Mathlib.Order.Bounds.Basic

/-!
# Specification of the computed quantization parameters

In rational arithmetic with explicit roundings to double and float.
-/

namespace Verif.Spec

/-- The `double` nearest to `q`. -/
def r64 (q : ℚ) : ℚ := (Flt.ofRat f64 q).toRat

/-- The scale for the range `[lo, hi]`, as a double: `(hi - lo) / (2^bits - 1)` with each operation
correctly rounded. -/
def scale64 (bits : Nat) (lo hi : ℚ) : ℚ := r64 (r64 (hi - lo) / (2 ^ bits - 1))

/-- The parameters for data with minimum `lo` and maximum `hi`: scale 1 and the middle code if the
range is empty, otherwise the scale above (as a float) and the code nearest to `-lo/scale`,
saturated to the code range. -/
def params (bits : Nat) (lo hi : ℚ) : F32 × ℤ :=
  if hi = lo then (⟨false, 0x3f800000⟩, (2 ^ bits - 1) / 2)
  else (Flt.ofRat f32 (scale64 bits lo hi), sat bits (rha (-(r64 (lo / scale64 bits lo hi)))))

/-- The values of the first `n` elements of a float buffer. -/
def values (dt : DType) (m : Mem) (n : Nat) : Set ℚ := {v | ∃ t, t < n ∧ v = (elem dt m 0 t).toRat}

/-- `lo` and `hi` are the smallest and the largest of the first `n` elements. -/
def Range (dt : DType) (m : Mem) (n : Nat) (lo hi : ℚ) : Prop := IsLeast (values dt m n) lo ∧ IsGreatest (values dt m n) hi

/-- Consecutive non-empty blocks covering `[s, n)`. -/
def Split (n : Nat) : Nat → List (Nat × Nat) → Prop
  | s, [] => s = n
  | s, b :: bs => b.1 = s ∧ s < b.2 ∧ Split n b.2 bs

/-- Legal arguments of a parameter computation over `n` elements: a quantized target type, a buffer
of `n` floats, and the (arbitrary) split of the data into non-empty blocks the thread pool chose. -/
structure PArgs (ft : FT) (x : InBuf) (n : Nat) (blocks : List (Nat × Nat)) (dt : DType) : Prop where
  quant : dt.isQuant = true
  size : ft.size * n ≤ x.size
  split : Split n 0 blocks

/-- All of the first `n` elements are finite. -/
def AllFin (ft : FT) (x : InBuf) (n : Nat) : Prop := ∀ t, t < n → (elem ft.dtype x.data 0 t).isFin = true

/-- The block sizes for which the SSE4.2 kernels do not use their (defective) vector loop; no
restriction on the other kernels. -/
def SseSmall (isa : Isa) (ft : FT) (blocks : List (Nat × Nat)) : Prop :=
  isa = .sse42 → ∀ b ∈ blocks, b.2 - b.1 < (match ft with | .f32 => 16 | .bf16 => 32)

/-- The positions of a block of `len` elements that count on kernel set `isa`: all, but on SSE4.2, in the part handled by the vector
loop (the largest multiple of 16 floats / 32 bf16s), only the first three of every four floats / every eight bf16s. -/
def Seen (isa : Isa) (ft : FT) (len t : Nat) : Prop := isa = .sse42 → match ft with
  | .f32 => len / 16 * 16 ≤ t ∨ t % 4 < 3
  | .bf16 => len / 32 * 32 ≤ t ∨ t % 8 < 3

/-- The elements of the data that count when it is split into `blocks`. -/
def SeenIn (isa : Isa) (ft : FT) (blocks : List (Nat × Nat)) (t : Nat) : Prop :=
  ∃ b ∈ blocks, b.1 ≤ t ∧ t < b.2 ∧ Seen isa ft (b.2 - b.1) (t - b.1)

/-- A least and a greatest of the first `n` elements are among those that count.  On every kernel set but SSE4.2 this is so for all
data, and on SSE4.2 for small blocks (`Props.sees_small`). -/
def Sees (isa : Isa) (ft : FT) (x : InBuf) (n : Nat) (blocks : List (Nat × Nat)) : Prop :=
  (∃ t, SeenIn isa ft blocks t ∧ ∀ u, u < n → (elem ft.dtype x.data 0 t).toRat ≤ (elem ft.dtype x.data 0 u).toRat) ∧
  (∃ t, SeenIn isa ft blocks t ∧ ∀ u, u < n → (elem ft.dtype x.data 0 u).toRat ≤ (elem ft.dtype x.data 0 t).toRat)

end Verif.Spec
