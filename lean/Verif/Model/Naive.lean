import Verif.Model.MinMax

/-!
# The project's reference implementation (test/naive.hpp)

The unit tests of the project (test/quant.cpp) compare the library with this code.  It is sequential: a program run alone.
Not modelled: `compute_quant_config_from_data_naive` (test/naive.hpp:98-115), which no test calls.
-/

namespace Verif

/-- `xs128p_state` (test/naive.hpp:18-23): two 64-bit words. -/
structure Xs where
  p1 : Nat
  p2 : Nat
deriving DecidableEq

/-- The state after `operator()` (test/naive.hpp:24-31).  Shifts to the left drop bits above the 64th. -/
def Xs.next (g : Xs) : Xs :=
  let s1 := g.p1
  let s0 := g.p2
  let s1 := s1 ^^^ (s1 <<< 23 % 2 ^ 64)
  ⟨s0, s1 ^^^ s0 ^^^ (s1 >>> 18) ^^^ (s0 >>> 5)⟩

/-- The value of `operator()` (test/naive.hpp:30): `p2 + s0`, 64-bit. -/
def Xs.out (g : Xs) : Nat := (g.next.p2 + g.p2) % 2 ^ 64

/-- `1.0f/static_cast<float>(0x800000)` (test/naive.hpp:34). -/
def biasScale : F32 := Flt.div f1 (Flt.ofInt f32 0x800000)

/-- `canonical` (test/naive.hpp:33-37): the lower 32 bits of the output (`~0u` is a 32-bit mask), shifted right by 9. -/
def Xs.canonical (g : Xs) : F32 :=
  let y := 0xffffffff &&& g.out
  Flt.mul biasScale (Flt.add (Flt.ofInt f32 ((y >>> 9 : Nat) : ℤ)) fhalf)

/-- `s_sprng` (test/naive.hpp:40) at program start. -/
def Xs.start : Xs := ⟨0x123456789abcdef0, 0x0fedcba987654321⟩

/-- `x * inv_scale` for the stochastic branch (test/naive.hpp:69), as a float.  `x` is an `IN`: for bf16 the expression is
`bfp16_t::operator*` (include/piquant.hpp:111-113), which takes a bf16 right operand, so `inv_scale` is first rounded to bf16
and the product is a bf16. -/
def naiveProd (ft : FT) (x : InBuf) (i : Nat) (inv : F32) : F32 :=
  match ft with
  | .f32 => Flt.mul (x.f32 (4 * i)) inv
  | .bf16 => bf16ToF32 (bf16Mul (x.u16 (2 * i)) (f32ToBf16 inv))

/-- The value converted to an integer in the stochastic branch (test/naive.hpp:70-74). -/
def naiveAdj (rnd xi : F32) : F32 :=
  let dec := Flt.abs (Flt.sub rnd (Flt.trunc rnd))
  let adj := if Flt.lt xi dec then f1 else f0
  let adj := if Flt.lt rnd f0 then Flt.mul fm1 adj else adj
  Flt.add (Flt.trunc rnd) adj

/-- The lambda `Q` (test/naive.hpp:63-78) applied to `x[i]`; returns the code and the generator state afterwards (the
stochastic branch draws one value). -/
def naiveQ (ft : FT) (dt : DType) (mode : RoundMode) (x : InBuf) (inv : F32) (zp : ℤ) (i : Nat) (g : Xs) : Prog (Nat × Xs) := do
  chkIn x (ft.size * i) ft.size
  match mode with
  | .nearest => do                                                       -- 65-67
    let rnd := Flt.round (Flt.mul (x.elem ft 0 i) inv)
    let integral ← toIntAdd 64 rnd zp
    pure (clampI dt.qmax integral, g)
  | .stochastic => do                                                    -- 69-76
    let integral ← toIntAdd 64 (naiveAdj (naiveProd ft x i inv) g.canonical) zp
    pure (clampI dt.qmax integral, g.next)

/-- `pack_nibbles` (test/naive.hpp:46-50). -/
def packNibbles (x y : Nat) : Nat := ((x &&& 15) ||| ((y &&& 15) <<< 4)) % 256

/-- `quantize_naive<IN, OUT, RND>` (test/naive.hpp:52-96) on `numel` elements into a span at `o`; returns the generator state.
`leftFirst`: C++ does not fix the order in which the two arguments `Q(a), Q(b)` are evaluated (line 85). -/
def quantizeNaive (leftFirst : Bool) (ft : FT) (dt : DType) (mode : RoundMode) (x : InBuf) (o numel : Nat) (scale : F32) (zp : ℤ) (g : Xs) :
    Prog Xs := do
  let inv := invScale scale
  match dt with
  | .uint4 => do                                                         -- 79-90
    let (i, g) ← forS (fun i => i + 1 < numel) 2 (fun i g => do
      if leftFirst then do
        let (qa, g) ← naiveQ ft dt mode x inv zp i g
        let (qb, g) ← naiveQ ft dt mode x inv zp (i + 1) g
        wrB (o + i / 2) (packNibbles qa qb)
        pure g
      else do
        let (qb, g) ← naiveQ ft dt mode x inv zp (i + 1) g
        let (qa, g) ← naiveQ ft dt mode x inv zp i g
        wrB (o + i / 2) (packNibbles qa qb)
        pure g) numel 0 g
    if numel % 2 = 1 then do
      let (q, g) ← naiveQ ft dt mode x inv zp (numel - 1) g
      wrB (o + i / 2) (packNibbles q 0)
      let p ← rdB (o + i / 2)
      wrB (o + i / 2) (p &&& 15)
      pure g
    else pure g
  | _ => do                                                              -- 91-95
    let (_, g) ← forS (fun i => i < numel) 1 (fun i g => do
      let (q, g) ← naiveQ ft dt mode x inv zp i g
      wrB (o + i) q
      pure g) numel 0 g
    pure g

end Verif
