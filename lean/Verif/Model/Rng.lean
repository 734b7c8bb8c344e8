import Verif.Model.Context

/-!
# The random threshold

src/piquant.cpp:194-201: every calling thread owns a `std::mt19937_64` seeded from `std::random_device`, and every
stochastic call draws one `std::uniform_real_distribution<float>{0, 1}` value from the generator of the thread that calls.

The engine is the one the C++ standard prescribes ([rand.eng.mers] with the parameters of `mt19937_64` in
[rand.predef]); the distribution is the one of libstdc++ (`generate_canonical<float, 24>`, bits/random.tcc:3349-3381, and
`uniform_real_distribution::operator()`, bits/random.h:1902-1910).  Not modelled: how `random_device` picks the seed (any
32-bit value).
-/

namespace Verif

/-! ## mt19937_64 -/

/-- One step of the seeding recurrence ([rand.eng.mers]/7, libstdc++ random.tcc:333-341; reached from src/piquant.cpp:194-195): word `i` from word `i - 1`. -/
def mtSeedStep (prev i : Nat) : Nat := (6364136223846793005 * (prev ^^^ (prev >>> 62)) + i) % 2 ^ 64

/-- The words `i, i + 1, …` of the seeded state, `k` of them, after the word `prev` (src/piquant.cpp:195). -/
def mtSeedFrom (prev i : Nat) : Nat → List Nat
  | 0 => []
  | k + 1 => mtSeedStep prev i :: mtSeedFrom (mtSeedStep prev i) (i + 1) k

/-- `std::mt19937_64 rng{seed}` (piquant.cpp:195): the 312 words of the seeded state. -/
def mtSeed (seed : Nat) : List Nat := seed % 2 ^ 64 :: mtSeedFrom (seed % 2 ^ 64) 1 311

/-- The word that follows a window of 312 words ([rand.eng.mers]/3): the upper 33 bits of the oldest word and the lower
31 bits of the next one, multiplied by the twist matrix, added to the word in the middle (`rng()`, src/piquant.cpp:200). -/
def mtTwist (x0 x1 xm : Nat) : Nat :=
  let y := (x0 &&& 0xFFFFFFFF80000000) ||| (x1 &&& 0x7FFFFFFF)
  xm ^^^ (y >>> 1) ^^^ (if y &&& 1 = 1 then 0xb5026f5aa96619e9 else 0)

/-- The tempering function ([rand.eng.mers]/4) (`rng()`, src/piquant.cpp:200). -/
def mtTemper (z : Nat) : Nat :=
  let z := z ^^^ ((z >>> 29) &&& 0x5555555555555555)
  let z := z ^^^ ((z <<< 17 % 2 ^ 64) &&& 0x71d67fffeda60000)
  let z := z ^^^ ((z <<< 37 % 2 ^ 64) &&& 0xfff7eee000000000)
  z ^^^ (z >>> 43)

/-- The state of the generator: the last 312 words, oldest first.  libstdc++ computes them 312 at a time
(`_M_gen_rand`), which gives the same sequence (src/piquant.cpp:194-195). -/
structure Mt where
  words : List Nat
deriving DecidableEq

/-- The generator of a thread whose `random_device` returned `seed` (src/piquant.cpp:195). -/
def Mt.init (seed : Nat) : Mt := ⟨mtSeed seed⟩

/-- The next word of the sequence (before tempering) (src/piquant.cpp:200). -/
def Mt.fresh (g : Mt) : Nat := mtTwist (g.words.getD 0 0) (g.words.getD 1 0) (g.words.getD 156 0)
/-- The state after `rng()` (src/piquant.cpp:200). -/
def Mt.next (g : Mt) : Mt := ⟨g.words.tail ++ [g.fresh]⟩
/-- The value of `rng()` (src/piquant.cpp:200). -/
def Mt.out (g : Mt) : Nat := mtTemper g.fresh

/-! ## uniform_real_distribution -/

/-- 2^64 as a `float` (src/piquant.cpp:200). -/
def f2p64 : F32 := ⟨false, 0x5f800000⟩
/-- `std::nextafter(1.0f, 0.0f)` (src/piquant.cpp:200). -/
def fPred1 : F32 := ⟨false, 0x3f7fffff⟩

/-- `std::generate_canonical<float, 24>` on one 64-bit value (random.tcc:3349-3381; reached from src/piquant.cpp:200): here `m = 1`, so
`sum = 0 + float(w) * 1`, `tmp = float(2^64L * 1)`, and the quotient is kept below 1. -/
def canonical (w : Nat) : F32 :=
  let sum := Flt.add f0 (Flt.mul (Flt.ofInt f32 w) f1)
  let r := Flt.div sum f2p64
  if Flt.ge r f1 then fPred1 else r

/-- `std::uniform_real_distribution<fp32_t>{0.f, 1.f}(rng)` (piquant.cpp:200, random.h:1909). -/
def thresholdOf (w : Nat) : F32 := Flt.add (Flt.mul (canonical w) (Flt.sub f1 f0)) f0

/-! ## Calls of a thread -/

/-- A call of the public API with its arguments, as issued by a thread (src/piquant.cpp:277-369). -/
inductive Req
  | quantize (c : Ctx) (x : InBuf) (dtIn : DType) (o outSize : Nat) (dtOut : DType) (scale : F32) (zp : ℤ) (mode : RoundMode)
  | dequantize (c : Ctx) (x : InBuf) (inSize : Nat) (dtIn : DType) (o outSize : Nat) (dtOut : DType) (scale : F32) (zp : ℤ) (op : ReduceOp)
  | fused (c : Ctx) (x : InBuf) (dt : DType) (o outSize : Nat) (qt : DType) (scale : F32) (zp : ℤ) (mode : RoundMode) (op : ReduceOp)

/-- The rounding mode in the descriptor of the call (`dequantize` leaves it at its default, `nearest`:
piquant.cpp:328-338, include/piquant.hpp:332). -/
def Req.rounding : Req → RoundMode
  | .quantize _ _ _ _ _ _ _ _ mode => mode
  | .dequantize .. => .nearest
  | .fused _ _ _ _ _ _ _ _ mode _ => mode

/-- The call with a given threshold (src/piquant.cpp:277-369). -/
def Req.call (τ : F32) : Req → Call
  | .quantize c x dtIn o outSize dtOut scale zp mode => Verif.quantize c x dtIn o outSize dtOut scale zp mode τ
  | .dequantize c x inSize dtIn o outSize dtOut scale zp op => Verif.dequantize c x inSize dtIn o outSize dtOut scale zp op
  | .fused c x dt o outSize qt scale zp mode op => Verif.fused c x dt o outSize qt scale zp mode op τ

/-- The output span of the call (src/piquant.cpp:277-369). -/
def Req.out : Req → Nat × Nat
  | .quantize _ _ _ o outSize .. => (o, outSize)
  | .dequantize _ _ _ _ o outSize .. => (o, outSize)
  | .fused _ _ _ o outSize .. => (o, outSize)

/-- `context::pimpl::operator()` (piquant.cpp:197-202): in stochastic mode draw the threshold and advance the generator of
the calling thread, otherwise leave the threshold at 0.  (A rejected call aborts the process, so it does not matter that it
draws here.) -/
def Req.issue (g : Mt) (r : Req) : Mt × Call :=
  if r.rounding = .stochastic then (g.next, r.call (thresholdOf g.out)) else (g, r.call f0)

/-- A history: which thread makes which call, in the order in which the calls read their generators.  The generators are
`thread_local` (piquant.cpp:194-195): one state per thread. -/
def issueAll (gens : Nat → Mt) : List (Nat × Req) → List Call
  | [] => []
  | (t, r) :: rest => (r.issue (gens t)).2 :: issueAll (Function.update gens t (r.issue (gens t)).1) rest

end Verif
