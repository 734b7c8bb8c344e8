import Mathlib.Data.Rat.Floor
import Mathlib.Algebra.Order.Field.Rat

/-!
# IEEE 754 as a specification

The parts of IEEE Std 754-2008 the properties refer to, written from the standard and independent of
the software floats of Model/Fp.lean (nothing of the model is imported): which number a bit pattern
encodes (§3.4), what correct rounding is (§4.3.1, roundTiesToEven), and what the operations return
(§5.4, §6.1–6.3).  Operations are relations between bit patterns, so a result is a NaN if any NaN
pattern is returned.
-/

namespace Verif.Ieee

/-- An interchange format: width `w` of the exponent field, width `t` of the trailing significand. -/
structure Format where
  w : Nat
  t : Nat

/-- `float` -/
def binary32 : Format := ⟨8, 23⟩
/-- `double` -/
def binary64 : Format := ⟨11, 52⟩
/-- bfloat16: the upper half of a binary32 -/
def bfloat16 : Format := ⟨8, 7⟩

/-- The exponent bias, which is also the largest exponent `emax` (§3.3, Table 3.5). -/
def Format.bias (F : Format) : ℤ := 2 ^ (F.w - 1) - 1

/-- Floating-point data: NaN, `±∞`, `(-1)^s * a`. -/
inductive Datum where
  | nan
  | inf (s : Bool)
  | fin (s : Bool) (a : ℚ)

/-- §3.4: the datum with sign bit `s`, biased exponent `E` and trailing significand `T`. -/
def ofFields (F : Format) (s : Bool) (E T : Nat) : Datum :=
  if E = 2 ^ F.w - 1 then if T = 0 then .inf s else .nan
  else if E = 0 then .fin s (2 ^ (1 - F.bias) * ((T : ℚ) / 2 ^ F.t))
  else .fin s (2 ^ ((E : ℤ) - F.bias) * (1 + (T : ℚ) / 2 ^ F.t))

/-- §3.4: the datum a bit pattern encodes: sign, exponent and significand from the most significant
bit down. -/
def decode (F : Format) (b : Nat) : Datum :=
  ofFields F (decide (b / 2 ^ (F.w + F.t) % 2 = 1)) (b / 2 ^ F.t % 2 ^ F.w) (b % 2 ^ F.t)

/-- `(-1)^s * a` -/
def signed (s : Bool) (a : ℚ) : ℚ := if s then -a else a

/-- §4.3.1: the pattern `b` is the exact result `r` rounded to nearest, ties to even, with sign `s`.
A magnitude of at least `2^emax * (2 - 2^-p)` (`p = t + 1` digits of precision) gives an infinity;
otherwise no finite datum of the format is nearer to `r` than that of `b`, and if another one is just
as near, the last digit of `b` is even. -/
def Rounded (F : Format) (r : ℚ) (s : Bool) (b : Nat) : Prop :=
  if 2 ^ F.bias * (2 - 1 / 2 ^ (F.t + 1)) ≤ |r| then decode F b = .inf s
  else ∃ a, decode F b = .fin s a ∧ ∀ c s' a', decode F c = .fin s' a' →
    |signed s a - r| ≤ |signed s' a' - r| ∧
    (|signed s a - r| = |signed s' a' - r| → signed s' a' ≠ signed s a → b % 2 = 0)

/-- multiplication -/
def IsProduct (F : Format) (x y z : Nat) : Prop :=
  match decode F x, decode F y with
  | .fin s a, .fin s' a' => Rounded F (signed s a * signed s' a') (s ^^ s') z
  | .inf s, .inf s' => decode F z = .inf (s ^^ s')
  | .inf s, .fin s' a => if a = 0 then decode F z = .nan else decode F z = .inf (s ^^ s')
  | .fin s a, .inf s' => if a = 0 then decode F z = .nan else decode F z = .inf (s ^^ s')
  | _, _ => decode F z = .nan

/-- The sign of a sum: that of the exact sum, and of an exact zero the common sign of the operands,
`+` if they differ (§6.3). -/
def sumSign (s s' : Bool) (r : ℚ) : Bool := if r = 0 then s && s' else decide (r < 0)

/-- The sum of two data. -/
def Sum (F : Format) (x y : Datum) (z : Nat) : Prop :=
  match x, y with
  | .fin s a, .fin s' a' => Rounded F (signed s a + signed s' a') (sumSign s s' (signed s a + signed s' a')) z
  | .inf s, .inf s' => if s = s' then decode F z = .inf s else decode F z = .nan
  | .inf s, .fin _ _ => decode F z = .inf s
  | .fin _ _, .inf s => decode F z = .inf s
  | _, _ => decode F z = .nan

/-- The datum with the opposite sign. -/
def Datum.opposite : Datum → Datum
  | .nan => .nan
  | .inf s => .inf (!s)
  | .fin s a => .fin (!s) a

/-- addition -/
def IsSum (F : Format) (x y z : Nat) : Prop := Sum F (decode F x) (decode F y) z
/-- subtraction -/
def IsDifference (F : Format) (x y z : Nat) : Prop := Sum F (decode F x) (decode F y).opposite z

/-- division -/
def IsQuotient (F : Format) (x y z : Nat) : Prop :=
  match decode F x, decode F y with
  | .fin s a, .fin s' a' =>
    if a' = 0 then (if a = 0 then decode F z = .nan else decode F z = .inf (s ^^ s'))
    else Rounded F (signed s a / signed s' a') (s ^^ s') z
  | .inf s, .fin s' _ => decode F z = .inf (s ^^ s')
  | .fin s _, .inf s' => decode F z = .fin (s ^^ s') 0
  | _, _ => decode F z = .nan

/-- `x * y` as an exact datum: the product before the addition of a fused multiply-add. -/
def exactProduct (x y : Datum) : Datum :=
  match x, y with
  | .fin s a, .fin s' a' => .fin (s ^^ s') (a * a')
  | .inf s, .inf s' => .inf (s ^^ s')
  | .inf s, .fin s' a => if a = 0 then .nan else .inf (s ^^ s')
  | .fin s a, .inf s' => if a = 0 then .nan else .inf (s ^^ s')
  | _, _ => .nan

/-- fusedMultiplyAdd: `x * y + c` with one rounding -/
def IsFma (F : Format) (x y c z : Nat) : Prop := Sum F (exactProduct (decode F x) (decode F y)) (decode F c) z

/-- conversion between formats -/
def IsConversion (F G : Format) (x z : Nat) : Prop :=
  match decode F x with
  | .nan => decode G z = .nan
  | .inf s => decode G z = .inf s
  | .fin s a => Rounded G (signed s a) s z

/-- convertFromInt -/
def IsFromInt (F : Format) (i : ℤ) (z : Nat) : Prop := Rounded F i (decide (i < 0)) z

/-- compareQuietLess; comparisons with a NaN are unordered, hence false. -/
def Datum.less : Datum → Datum → Prop
  | .fin s a, .fin s' a' => signed s a < signed s' a'
  | .inf s, .inf s' => s = true ∧ s' = false
  | .inf s, .fin _ _ => s = true
  | .fin _ _, .inf s => s = false
  | _, _ => False

/-- compareQuietEqual: zeros of either sign are equal. -/
def Datum.equal : Datum → Datum → Prop
  | .fin s a, .fin s' a' => signed s a = signed s' a'
  | .inf s, .inf s' => s = s'
  | _, _ => False

/-- roundToIntegralTiesToAway: the finite datum of the nearest integer, halves away from zero. -/
def IsRoundAway (F : Format) (x z : Nat) : Prop :=
  match decode F x with
  | .nan => decode F z = .nan
  | .inf s => decode F z = .inf s
  | .fin s a => ∃ k : Nat, decode F z = .fin s k ∧ (k : ℚ) - 1 / 2 ≤ a ∧ a < k + 1 / 2

/-- roundToIntegralTowardZero -/
def IsTrunc (F : Format) (x z : Nat) : Prop :=
  match decode F x with
  | .nan => decode F z = .nan
  | .inf s => decode F z = .inf s
  | .fin s a => ∃ k : Nat, decode F z = .fin s k ∧ (k : ℚ) ≤ a ∧ a < k + 1

end Verif.Ieee
