import Verif.SpecParams

/-!
# Specification: the generic 64-bit quantization arithmetic

Stochastic quantization and the fused call use the same scalar code on every CPU: round to an integer,
add the zero point in `int64_t`, saturate.  Here is when this is defined and what it gives.
-/

namespace Verif.Spec

/-- A value of type `int64_t`. -/
def IsI64 (z : ℤ) : Prop := -(2 ^ 63 : ℤ) ≤ z ∧ z < 2 ^ 63

instance (z : ℤ) : Decidable (IsI64 z) := by unfold IsI64; infer_instance

/-- The 64-bit arithmetic is defined on the scaled value `p`: it is finite, the integer it is rounded to is an
`int64_t`, and so is the sum with the zero point. -/
def Ok64 (mode : RoundMode) (τ p : F32) (zp : ℤ) : Prop :=
  p.isFin = true ∧ IsI64 (rounded mode τ.toRat p.toRat) ∧ IsI64 (rounded mode τ.toRat p.toRat + zp)

instance (mode : RoundMode) (τ p : F32) (zp : ℤ) : Decidable (Ok64 mode τ p zp) := by unfold Ok64; infer_instance

/-- The code it gives. -/
def code64 (mode : RoundMode) (bits : Nat) (τ p : F32) (zp : ℤ) : ℤ := sat bits (rounded mode τ.toRat p.toRat + zp)

/-- The arithmetic of the fused call is defined on `p`: also the difference of the code and the zero point is an
`int64_t`. -/
def FusedOk (mode : RoundMode) (bits : Nat) (τ p : F32) (zp : ℤ) : Prop :=
  Ok64 mode τ p zp ∧ IsI64 (code64 mode bits τ p zp - zp)

instance (mode : RoundMode) (bits : Nat) (τ p : F32) (zp : ℤ) : Decidable (FusedOk mode bits τ p zp) := by
  unfold FusedOk; infer_instance

end Verif.Spec
