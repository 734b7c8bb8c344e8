import Verif.Model.Naive

/-!
# The checks of the project's accuracy tests

test/dequant.cpp, test/requant.cpp and test/quant_config.cpp run the library on random tensors and compare each element with
its input.  Modelled: the comparison, with the arithmetic it is written in.  Not modelled: the random numbers and the vectors
that hold the data (the theorems take every tensor) and googletest (an assertion is its condition).
-/

namespace Verif

/-- `a <= b` (false if unordered) (test/dequant.cpp:44). -/
def Flt.le {f : Fmt} (a b : Flt f) : Bool := Flt.ge b a

/-- `adjusted_epsilon` of test/dequant.cpp:22: `2.0f`, `0.2f` or the double `0.05`, as doubles (the common type). -/
def dequantEps : DType → F64
  | .uint2 => Flt.cvt f64 (Flt.ofRat f32 2)
  | .uint4 => Flt.cvt f64 (Flt.ofRat f32 (2 / 10))
  | _ => Flt.ofRat f64 (5 / 100)

/-- `adjusted_epsilon` of test/requant.cpp:24: `0.7f`, `0.2f` or `1e-1f`, widened by `ASSERT_NEAR`. -/
def requantEps : DType → F64
  | .uint2 => Flt.cvt f64 (Flt.ofRat f32 (7 / 10))
  | .uint4 => Flt.cvt f64 (Flt.ofRat f32 (2 / 10))
  | _ => Flt.cvt f64 (Flt.ofRat f32 (1 / 10))

/-- `static_cast<fp32_t>(out[i]-prev)` (test/dequant.cpp:42, test/requant.cpp:39): `operator-` of `float`, or of `bfp16_t`
(include/piquant.hpp:104-106), widened. -/
def testDiff (ft : FT) (y prev : F32) : F32 :=
  match ft with
  | .f32 => Flt.sub y prev
  | .bf16 => bf16ToF32 (f32ToBf16 (Flt.sub y prev))

/-- `std::abs(a - b) <= adjusted_epsilon` (test/dequant.cpp:41-44): a float32 difference compared in double. -/
def dequantCheck (ft : FT) (dt : DType) (a y prev : F32) : Bool :=
  Flt.le (Flt.cvt f64 (Flt.abs (Flt.sub a (testDiff ft y prev)))) (dequantEps dt)

/-- `ASSERT_NEAR(a, b, adjusted_epsilon)` (test/requant.cpp:39): `fabs(a - b) <= abs_error`, in double. -/
def requantCheck (ft : FT) (dt : DType) (a y prev : F32) : Bool :=
  Flt.le (Flt.abs (Flt.sub (Flt.cvt f64 a) (Flt.cvt f64 (testDiff ft y prev)))) (requantEps dt)

end Verif
