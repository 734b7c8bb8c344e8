import Mathlib.Data.Rat.Floor
import Mathlib.Algebra.Order.Field.Rat

/-!
# IEEE-754 binary formats

Software model of the binary interchange formats the code computes with.
`float` (`fp32_t`, include/piquant.hpp:78) is `Flt f32`, `double`
(src/piquant.cpp:238-258) is `Flt f64`; `bfp16_t` (include/piquant.hpp:81-125) is `Flt bf16`.

A float is a sign and a *magnitude word*: the low `eb + mb` bits of the encoding
(biased exponent, then fraction), kept as a natural number.

Simplification: there is a single NaN produced by arithmetic (payloads of computed NaNs are
not tracked); NaNs loaded from memory keep their bits.
Arithmetic is round-to-nearest-even; denormals are not flushed (default MXCSR).
Contraction of the ADD sums by the compiler is a parameter (`Fuse`, Model/Dtype.lean).
-/

namespace Verif

/-- A binary format: `mb` stored fraction bits and `eb` exponent bits (include/piquant.hpp:78-125). -/
structure Fmt where
  mb : Nat
  eb : Nat
deriving DecidableEq, Repr

namespace Fmt
/-- Exponent of the least subnormal: values are integer multiples of `2^-unit` (format of include/piquant.hpp:78-125). -/
def unit (f : Fmt) : Nat := 2 ^ (f.eb - 1) - 2 + f.mb
/-- Magnitude word of infinity (all-ones exponent, zero fraction) (format of include/piquant.hpp:78-125). -/
def infMag (f : Fmt) : Nat := (2 ^ f.eb - 1) * 2 ^ f.mb
/-- Number of magnitude words (format of include/piquant.hpp:78-125). -/
def magLim (f : Fmt) : Nat := 2 ^ (f.eb + f.mb)
end Fmt

/-- binary32 (`fp32_t`, include/piquant.hpp:78) -/
def f32 : Fmt := ⟨23, 8⟩
/-- binary64 (`double`, src/piquant.cpp:238-258) -/
def f64 : Fmt := ⟨52, 11⟩
/-- bfloat16 (`bfp16_t`, include/piquant.hpp:81-125) -/
def bf16 : Fmt := ⟨7, 8⟩

/-- Value of a magnitude word, as an integer multiple of the least subnormal (decoding of `fp32_t`, include/piquant.hpp:78). -/
def magVal (mb b : Nat) : Nat :=
  if b < 2 ^ mb then b else (2 ^ mb + b % 2 ^ mb) * 2 ^ (b / 2 ^ mb - 1)

/-- Nearest natural number, ties to even, of a non-negative rational (rounding of every `float` operation, e.g.
src/kernels/quantize.inl:10). -/
def rne (q : ℚ) : Nat :=
  let fl := q.floor.toNat
  let r := q - fl
  if r < 1 / 2 then fl else if 1 / 2 < r then fl + 1 else if fl % 2 = 0 then fl else fl + 1

/-- Magnitude word of the float nearest to `q` least-subnormals (unbounded exponent) (rounding of every `float` operation, e.g.
src/kernels/quantize.inl:10). -/
def roundMag (mb : Nat) (q : ℚ) : Nat :=
  let k := Nat.log2 q.floor.toNat - mb
  k * 2 ^ mb + rne (q / 2 ^ k)

/-- A floating point datum: sign and magnitude word (include/piquant.hpp:78-125). -/
structure Flt (f : Fmt) where
  neg : Bool
  mag : Nat
deriving DecidableEq, Repr

namespace Flt
variable {f : Fmt}

/-- NaN (cf. include/piquant.hpp:88). -/
def isNaN (x : Flt f) : Bool := f.infMag < x.mag
/-- Infinity (include/piquant.hpp:88). -/
def isInf (x : Flt f) : Bool := x.mag = f.infMag
/-- Neither NaN nor infinite (include/piquant.hpp:88). -/
def isFin (x : Flt f) : Bool := x.mag < f.infMag
/-- Plus or minus zero (as in the comparison src/kernels/quantize.inl:13). -/
def isZero (x : Flt f) : Bool := x.mag = 0

/-- The encoding fits the format (include/piquant.hpp:78). -/
def Valid (x : Flt f) : Prop := x.mag < f.magLim

/-- `0.0f` (src/kernels/quantize.inl:12). -/
def zero : Flt f := ⟨false, 0⟩
/-- Infinity with a sign (include/piquant.hpp:88). -/
def inf (neg : Bool) : Flt f := ⟨neg, f.infMag⟩
/-- The NaN produced by invalid operations (as from 0/0 in src/piquant.cpp:255). -/
def nan : Flt f := ⟨false, f.infMag + 2 ^ (f.mb - 1)⟩

/-- Absolute value of a finite float (include/piquant.hpp:78). -/
def absRat (x : Flt f) : ℚ := (magVal f.mb x.mag : ℚ) / 2 ^ f.unit
/-- Value of a finite float (include/piquant.hpp:78). -/
def toRat (x : Flt f) : ℚ := if x.neg then - x.absRat else x.absRat

/-- Correctly rounded magnitude (nearest-even, overflow to infinity) of `q ≥ 0` (rounding of every `float` operation, e.g.
src/kernels/quantize.inl:10). -/
def roundAbs (f : Fmt) (q : ℚ) : Nat := min f.infMag (roundMag f.mb (q * 2 ^ f.unit))

/-- Correctly rounded float; `z` is the sign given to an exact zero (rounding of every `float` operation, e.g.
src/kernels/quantize.inl:11). -/
def ofRat (f : Fmt) (q : ℚ) (z : Bool := false) : Flt f :=
  if q = 0 then ⟨z, 0⟩ else ⟨decide (q < 0), roundAbs f |q|⟩

/-- Unary minus (src/kernels/kernels_specialized.inl:1204). -/
def negate (x : Flt f) : Flt f := ⟨!x.neg, x.mag⟩
/-- `std::abs` (src/kernels/quantize.inl:11). -/
def abs (x : Flt f) : Flt f := ⟨false, x.mag⟩

/-- IEEE multiplication (src/kernels/quantize.inl:10, 23; src/kernels/dequantize.inl:10). -/
def mul (a b : Flt f) : Flt f :=
  if a.isNaN || b.isNaN then nan
  else if a.isInf || b.isInf then
    if a.isZero || b.isZero then nan else inf (a.neg ^^ b.neg)
  else ⟨a.neg ^^ b.neg, roundAbs f (a.absRat * b.absRat)⟩

/-- IEEE addition (src/kernels/quantize.inl:14; include/piquant.hpp:98). -/
def add (a b : Flt f) : Flt f :=
  if a.isNaN || b.isNaN then nan
  else if a.isInf then (if b.isInf && (a.neg ^^ b.neg) then nan else a)
  else if b.isInf then b
  else ofRat f (a.toRat + b.toRat) (a.neg && b.neg)

/-- IEEE subtraction (src/kernels/quantize.inl:11; include/piquant.hpp:105). -/
def sub (a b : Flt f) : Flt f := add a b.negate

/-- IEEE division (src/kernels/quantize.inl:134; src/piquant.cpp:255-256). -/
def div (a b : Flt f) : Flt f :=
  if a.isNaN || b.isNaN then nan
  else if a.isInf then (if b.isInf then nan else inf (a.neg ^^ b.neg))
  else if b.isInf then ⟨a.neg ^^ b.neg, 0⟩
  else if b.isZero then (if a.isZero then nan else inf (a.neg ^^ b.neg))
  else ⟨a.neg ^^ b.neg, roundAbs f (a.absRat / b.absRat)⟩

/-- IEEE fused multiply-add `a*b + c` (one rounding) (src/kernels/kernels_specialized.inl:1236-1243, 1361). -/
def fma (a b c : Flt f) : Flt f :=
  if a.isNaN || b.isNaN || c.isNaN then nan
  else if a.isInf || b.isInf then
    if a.isZero || b.isZero then nan
    else if c.isInf && (c.neg ^^ (a.neg ^^ b.neg)) then nan
    else inf (a.neg ^^ b.neg)
  else if c.isInf then c
  else ofRat f (a.toRat * b.toRat + c.toRat) ((a.neg ^^ b.neg) && c.neg)

/-- `a < b` (false if unordered) (src/kernels/quantize.inl:12-13; src/kernels/kernels_specialized.inl:1512-1513). -/
def lt (a b : Flt f) : Bool :=
  if a.isNaN || b.isNaN then false
  else if a.isInf then a.neg && !(b.isInf && b.neg)
  else if b.isInf then !b.neg
  else decide (a.toRat < b.toRat)
/-- `a > b` (src/kernels/kernels_specialized.inl:1513) -/
def gt (a b : Flt f) : Bool := lt b a
/-- `a >= b` (false if unordered) (`_CMP_GE_OQ`, src/kernels/kernels_specialized.inl:66). -/
def ge (a b : Flt f) : Bool := if a.isNaN || b.isNaN then false else !lt a b
/-- `a == b` (false if unordered) (src/piquant.cpp:249). -/
def feq (a b : Flt f) : Bool := if a.isNaN || b.isNaN then false else !lt a b && !lt b a

/-- `std::round`: nearest integer, halves away from zero; NaN and infinities unchanged (src/kernels/quantize.inl:23;
src/piquant.cpp:257). -/
def round (x : Flt f) : Flt f :=
  if x.isFin then ⟨x.neg, roundAbs f ((x.absRat + 1 / 2).floor : ℤ)⟩ else x
/-- `std::trunc` (src/kernels/quantize.inl:11, 14) -/
def trunc (x : Flt f) : Flt f :=
  if x.isFin then ⟨x.neg, roundAbs f (x.absRat.floor : ℤ)⟩ else x

/-- Value of a finite float truncated towards zero (src/kernels/quantize.inl:15, 24). -/
def truncInt (x : Flt f) : ℤ := if x.neg then -(x.absRat.floor) else x.absRat.floor

/-- C++ conversion to a signed `w`-bit integer; `none` is undefined behaviour
([conv.fpint]: the truncated value cannot be represented). (src/kernels/quantize.inl:15, 24; src/kernels/kernels_specialized.inl:54)
-/
def toInt? (w : Nat) (x : Flt f) : Option ℤ :=
  if x.isFin then
    let t := x.truncInt
    if -(2 ^ (w - 1) : ℤ) ≤ t ∧ t < 2 ^ (w - 1) then some t else none
  else none

/-- Integer to float (nearest-even) (src/kernels/dequantize.inl:10). -/
def ofInt (f : Fmt) (i : ℤ) : Flt f := ofRat f (i : ℚ)

/-- Format conversion (exact when widening, nearest-even when narrowing) (src/piquant.cpp:242-243, 258). -/
def cvt (g : Fmt) (x : Flt f) : Flt g :=
  if x.isNaN then ⟨x.neg, (nan : Flt g).mag⟩
  else if x.isInf then inf x.neg
  else ⟨x.neg, roundAbs g x.absRat⟩

/-- Encoding as an unsigned integer (`std::bit_cast<std::uint32_t>`, include/piquant.hpp:87). -/
def toBits (x : Flt f) : Nat := (if x.neg then f.magLim else 0) + x.mag
/-- Decoding (`std::bit_cast<fp32_t>`, include/piquant.hpp:95). -/
def ofBits (f : Fmt) (n : Nat) : Flt f := ⟨decide (n / f.magLim % 2 = 1), n % f.magLim⟩

end Flt

/-- `fp32_t` (include/piquant.hpp:78). -/
abbrev F32 := Flt f32
/-- `double` (src/piquant.cpp:238-258). -/
abbrev F64 := Flt f64

end Verif
