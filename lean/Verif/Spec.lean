import Verif.Model.Prog
import Verif.Model.Fp
import Verif.Model.Dtype
import Mathlib.Data.Rat.Floor

/-!
# Specification vocabulary

Small definitions used to *state* the properties.  They do not use the model's kernels, loops,
partitioning or packing helpers; only the float encoding (`Flt`), byte memories and dtypes.
-/

namespace Verif.Spec

/-- Round to the nearest integer, halves away from zero. -/
def rha (q : ℚ) : ℤ := if q < 0 then -⌊-q + 1 / 2⌋ else ⌊q + 1 / 2⌋

/-- Round towards zero. -/
def rtz (q : ℚ) : ℤ := if q < 0 then -⌊-q⌋ else ⌊q⌋

/-- Stochastic rounding of `p` with threshold `τ`: towards zero, or one step further away from zero
when the threshold is below the fractional part. -/
def sround (τ p : ℚ) : ℤ :=
  if τ < |p - rtz p| then (if p < 0 then rtz p - 1 else rtz p + 1) else rtz p

/-- Saturate to the code range of a `bits`-bit unsigned type. -/
def sat (bits : Nat) (z : ℤ) : ℤ := max 0 (min (2 ^ bits - 1) z)

/-- The number of bytes of `n` packed elements of `bits` bits. -/
def bytes (bits n : Nat) : Nat := (bits * n + 7) / 8

/-- Element `i` of a little-endian bit-packed buffer at address `o`. -/
def code (bits : Nat) (m : Mem) (o i : Nat) : Nat := m (o + bits * i / 8) / 2 ^ (bits * i % 8) % 2 ^ bits

/-- Bit `t` of a buffer at `o`. -/
def bit (m : Mem) (o t : Nat) : Nat := m (o + t / 8) / 2 ^ (t % 8) % 2

/-- The float stored at byte address `a` (little endian). -/
def f32At (m : Mem) (a : Nat) : F32 :=
  Flt.ofBits f32 (m a % 256 + 256 * (m (a + 1) % 256) + 65536 * (m (a + 2) % 256) + 16777216 * (m (a + 3) % 256))

/-- The 16-bit word stored at byte address `a` (little endian). -/
def u16At (m : Mem) (a : Nat) : Nat := m a % 256 + 256 * (m (a + 1) % 256)

/-- The `float` with the value of the bf16 stored at `a`: the word is the upper half of a float. -/
def bf16At (m : Mem) (a : Nat) : F32 := Flt.ofBits f32 (65536 * u16At m a)

/-- Element `i` of a float32 (`.f32`) or bf16 buffer at `o`, as a float32. -/
def elem (dt : DType) (m : Mem) (o i : Nat) : F32 :=
  match dt with
  | .f32 => f32At m (o + 4 * i)
  | _ => bf16At m (o + 2 * i)

/-- The value `fl32(x * fl32(1/scale))` that is rounded to an integer. -/
def scaled (x scale : F32) : F32 := Flt.mul x (Flt.div ⟨false, 0x3f800000⟩ scale)

/-- The float32 value of a code: `fl32(fl32(q - zero_point) * scale)`. -/
def dequant (scale : F32) (zp : ℤ) (q : Nat) : F32 := Flt.mul (Flt.ofInt f32 (q - zp)) scale

/-- The 16-bit word `w` is the bf16 nearest to the float `v` (`Flt.cvt`: ties to even, overflow to
infinity); a NaN must stay a NaN. -/
def IsBf16Of (v : F32) (w : Nat) : Prop :=
  if v.isNaN then (Flt.ofBits bf16 w).isNaN = true ∧ (Flt.ofBits bf16 w).neg = v.neg else w = (Flt.cvt bf16 v).toBits

/-- `old` plus the value of code `q`.  Written `old + (float)(q - zero_point)*scale` in the source,
which C++ lets the compiler evaluate in two ways: product and sum each rounded, or (`contracted`) as
one fused multiply-add with a single rounding. -/
def plus (contracted : Bool) (old scale : F32) (zp : ℤ) (q : Nat) : F32 :=
  if contracted then Flt.fma (Flt.ofInt f32 (q - zp)) scale old else Flt.add old (dequant scale zp q)

/-- The value of code `q` combined with `old` according to the reduce operation, in float32. -/
def store (op : ReduceOp) (contracted : Bool) (old scale : F32) (zp : ℤ) (q : Nat) : F32 :=
  match op with
  | .set => dequant scale zp q
  | .add => plus contracted old scale zp q

/-- The float just below one half (bit pattern 0x3effffff). -/
def predHalf : ℚ := 1 / 2 - 1 / 2 ^ 25

/-- The integer `rha p`, and its sum with the zero point, fit in a signed `w`-bit integer: the
scalar code does not overflow on the scaled value `p`. -/
def Fits (w : Nat) (p : F32) (zp : ℤ) : Prop :=
  p.isFin = true ∧ (-(2 ^ (w - 1) : ℤ) ≤ rha p.toRat ∧ rha p.toRat < 2 ^ (w - 1)) ∧
    -(2 ^ (w - 1) : ℤ) ≤ rha p.toRat + zp ∧ rha p.toRat + zp < 2 ^ (w - 1)

instance (w : Nat) (p : F32) (zp : ℤ) : Decidable (Fits w p zp) := by unfold Fits; infer_instance

/-- An element count and a thread count the library can address: no 64-bit overflow in the work
split (`numel * threads`) or in byte offsets. -/
structure Sizes (n threads : Nat) : Prop where
  pos : 0 < threads
  split : n * threads < 2 ^ 63
  addr : n < 2 ^ 59

/-- The integer a scaled value is rounded to, by rounding mode. -/
def rounded (mode : RoundMode) (τ p : ℚ) : ℤ :=
  match mode with
  | .nearest => rha p
  | .stochastic => sround τ p

/-- The scalar C++ arithmetic on the scaled value `p` is defined (no out-of-range conversion, no
signed overflow).  `τ` is the threshold drawn for a stochastic call, in `[0, ∞)`. -/
def Defined (mode : RoundMode) (τ p : F32) (zp : ℤ) : Prop :=
  match mode with
  | .nearest => Fits 32 p zp
  | .stochastic => p.isFin = true ∧ |p.toRat| ≤ 2 ^ 62 ∧ τ.isFin = true ∧ 0 ≤ τ.toRat

instance (mode : RoundMode) (τ p : F32) (zp : ℤ) : Decidable (Defined mode τ p zp) := by
  unfold Defined; cases mode <;> infer_instance

/-- A zero point representable as `int32_t`. -/
def Zp32 (zp : ℤ) : Prop := -(2 ^ 31 : ℤ) ≤ zp ∧ zp < 2 ^ 31

instance (zp : ℤ) : Decidable (Zp32 zp) := by unfold Zp32; infer_instance

/-- A zero point with room for the subtraction `code - zp` in `int32_t`. -/
def ZpSub (zp : ℤ) : Prop := -(2 ^ 31 - 256 : ℤ) ≤ zp ∧ zp < 2 ^ 31

instance (zp : ℤ) : Decidable (ZpSub zp) := by unfold ZpSub; infer_instance

/-- Legal arguments of a quantize or fused call on `n` elements: a float input buffer of `n`
elements, a quantized type, sizes that can be addressed. -/
structure QArgs (threads : Nat) (x : InBuf) (dtIn dtOut : DType) (n : Nat) : Prop where
  inFloat : dtIn.isQuant = false
  outQuant : dtOut.isQuant = true
  size : x.size = dtIn.stride * n
  sizes : Sizes n threads

/-- Legal arguments of a dequantize call on `n` elements; the readable input memory is at least the
input span. -/
structure DArgs (threads : Nat) (x : InBuf) (dtIn dtOut : DType) (n : Nat) : Prop where
  inQuant : dtIn.isQuant = true
  outFloat : dtOut.isQuant = false
  size : bytes dtIn.bits n ≤ x.size
  sizes : Sizes n threads

/-- Memory readable behind the input span of a dequantize call: the uint2 → f32 kernel looks at one
byte after the span when the element count is a multiple of four (see C11). -/
def Readable (dtIn dtOut : DType) (n size : Nat) : Prop :=
  dtIn = .uint2 → dtOut = .f32 → 0 < n → n % 4 = 0 → bytes 2 n + 1 ≤ size

/-- Kernels on which nearest rounding is the scalar (or NEON) one: everything but the x86 vector
loops.  Stochastic rounding and f32 → uint2 have no vector loop. -/
def ExactKernel (isa : Isa) (dtIn dtOut : DType) (mode : RoundMode) : Prop :=
  isa = .portable ∨ isa = .neon ∨ mode = .stochastic ∨ (dtIn = .f32 ∧ dtOut = .uint2)

/-- The address range of a span of `len` bytes at `o`. -/
def span (o len : Nat) : Win := ⟨o, o + len⟩

/-- The call is accepted and *every* schedule of its workers is safe inside the window, race free,
terminates and, when all workers have finished, leaves a memory satisfying `Q`
(see `AllSchedules`). -/
def Always (E : Fault → Prop) (call : Except Fault (List (Prog Unit))) (w : Win) (m0 : Mem) (Q : Mem → Prop) : Prop :=
  ∃ js, call = .ok js ∧ AllSchedules E w js m0 Q

/-- Several calls made at the same time (by several threads of the caller, on the same context or on
different ones): all are accepted and the workers of all of them run interleaved. -/
def together (calls : List (Except Fault (List (Prog Unit)))) : Except Fault (List (Prog Unit)) :=
  (calls.mapM id).map List.flatten

/-- `m` is the memory after some complete execution (some schedule) of the call. -/
def Outcome (call : Except Fault (List (Prog Unit))) (w : Win) (m0 m : Mem) : Prop :=
  ∃ js k d, call = .ok js ∧ Reach w ⟨js, m0⟩ k d ∧ d.Done ∧ d.mem = m

/-- An execution with its accesses: which worker touched which output byte, in order. -/
inductive Trace (w : Win) (c : Cfg) : List (Nat × Nat) → Cfg → Prop
  | refl : Trace w c [] c
  | rd {l : List (Nat × Nat)} {d : Cfg} {t a : Nat} {k : Nat → Prog Unit} (h : Trace w c l d)
      (hj : d.jobs[t]? = some (.rd a k)) (ha : w.has a = true) :
      Trace w c ((t, a) :: l) ⟨d.jobs.set t (k (d.mem a)), d.mem⟩
  | wr {l : List (Nat × Nat)} {d : Cfg} {t a b : Nat} {k : Prog Unit} (h : Trace w c l d)
      (hj : d.jobs[t]? = some (.wr a b k)) (ha : w.has a = true) :
      Trace w c ((t, a) :: l) ⟨d.jobs.set t k, d.mem.set a b⟩

end Verif.Spec
