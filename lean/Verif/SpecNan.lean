import Verif.SpecParams

/-!
# Specification of the parameter search on data containing NaNs
-/

namespace Verif.Spec

/-- The values of those of the first `n` elements that are numbers. -/
def numbers (dt : DType) (m : Mem) (n : Nat) : Set ℚ := {v | ∃ t, t < n ∧ (elem dt m 0 t).isNaN = false ∧ v = (elem dt m 0 t).toRat}

/-- `lo` and `hi` are the smallest and the largest number among the first `n` elements. -/
def NumRange (dt : DType) (m : Mem) (n : Nat) (lo hi : ℚ) : Prop := IsLeast (numbers dt m n) lo ∧ IsGreatest (numbers dt m n) hi

/-- No infinities among the first `n` elements: each is NaN or finite. -/
def NanOrFin (ft : FT) (x : InBuf) (n : Nat) : Prop := ∀ t, t < n → (elem ft.dtype x.data 0 t).isNaN = true ∨ (elem ft.dtype x.data 0 t).isFin = true

/-- How many elements at the start of a block of `len` elements are examined by vector instructions; the rest, one by one.
(src/kernels/kernels_specialized.inl:1427, 1446, 1475, 1494, 1529, 1554, 1582.) -/
def vectorPart (isa : Isa) (ft : FT) (len : Nat) : Nat := match isa, ft with
  | .avx512f, _ | .avx512bf16, _ => if len ≤ 63 then 0 else (len - 1) / 63 * 63 + 1
  | .avx2, _ => len / 32 * 32
  | .sse42, .f32 => len / 16 * 16
  | .sse42, .bf16 => len / 32 * 32
  | .neon, .f32 => len / 16 * 16
  | .neon, .bf16 => 0
  | .portable, _ => 0

/-- No NaN among the elements examined by vector instructions. -/
def NanOutside (isa : Isa) (ft : FT) (x : InBuf) (blocks : List (Nat × Nat)) : Prop :=
  ∀ b ∈ blocks, ∀ t, b.1 ≤ t → t < b.1 + vectorPart isa ft (b.2 - b.1) → (elem ft.dtype x.data 0 t).isNaN = false

end Verif.Spec
