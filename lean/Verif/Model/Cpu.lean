import Verif.Model.Dtype
import Mathlib.Data.Nat.Notation

/-!
# CPU detection and kernel selection (src/piquant.cpp:24-82, 178-188)
-/

namespace Verif

/-- What the detection code can observe of an x86-64 machine: the registers returned by the CPUID
leaves it executes and XCR0.  Registers are 32-bit words kept as naturals (src/piquant.cpp:24-74). -/
structure Cpu where
  maxLeaf : Nat        -- leaf 0, EAX
  ecx1 : Nat           -- leaf 1, ECX
  ebx7 : Nat           -- leaf 7 subleaf 0, EBX
  eax71 : Nat          -- leaf 7 subleaf 1, EAX
  xcr0Lo : Nat         -- XGETBV(0), EAX
  xcr0Hi : Nat         -- XGETBV(0), EDX

/-- `int` view of a 32-bit register (`int info[4]`, piquant.cpp:28). -/
def asInt32 (r : Nat) : Int := if r % 2 ^ 32 < 2 ^ 31 then (r % 2 ^ 32 : ℕ) else ((r % 2 ^ 32 : ℕ) : Int) - 2 ^ 32

/-- XCR0 as assembled by the code (piquant.cpp:45, 58, 72). -/
def Cpu.xcr0 (c : Cpu) : Nat := c.xcr0Lo ||| (c.xcr0Hi <<< 32)

/-- `check_sse42_support` (piquant.cpp:27-33). -/
def checkSse42 (c : Cpu) : Bool :=
  if asInt32 c.maxLeaf < 1 then false
  else (c.ecx1 &&& (1 <<< 20)) != 0

/-- `check_avx2_support` (piquant.cpp:35-46). -/
def checkAvx2 (c : Cpu) : Bool :=
  if asInt32 c.maxLeaf < 7 then false
  else if (c.ecx1 &&& 0x38081001) != 0x38081001 then false
  else if (c.ebx7 &&& 0x20) != 0x20 then false
  else (c.xcr0 &&& 6) == 6

/-- `check_avx512f_support` (piquant.cpp:48-59). -/
def checkAvx512f (c : Cpu) : Bool :=
  if asInt32 c.maxLeaf < 7 then false
  else if (c.ecx1 &&& 0x8000000) == 0 || (c.ecx1 &&& 0x10000000) == 0 then false
  else if (c.ebx7 &&& 0x10000) == 0 then false
  else (c.xcr0 &&& 0xe0) == 0xe0

/-- `check_avx512f_bf16_support` (piquant.cpp:61-74). -/
def checkAvx512Bf16 (c : Cpu) : Bool :=
  if asInt32 c.maxLeaf < 7 then false
  else if (c.ecx1 &&& (1 <<< 27 ||| 1 <<< 28)) != (1 <<< 27 ||| 1 <<< 28) then false
  else if (c.ebx7 &&& 1 <<< 16) == 0 then false
  else if (c.eax71 &&& 1 <<< 5) == 0 then false
  else (c.xcr0 &&& 0xe0) == 0xe0

/-- `context::pimpl::pimpl` on x86-64 (piquant.cpp:178-188): the kernels installed. -/
def selectIsa (c : Cpu) : Isa :=
  if checkAvx512Bf16 c then .avx512bf16
  else if checkAvx512f c then .avx512f
  else if checkAvx2 c then .avx2
  else if checkSse42 c then .sse42
  else .portable

/-- The instruction set extensions the compiler may use in a kernel file (CMakeLists.txt:43-46). -/
inductive Ext | sse42 | avx | avx2 | fma | f16c | avx512f | avx512bw | avx512bf16
deriving DecidableEq, Repr

/-- Compile flags of the kernel files (CMakeLists.txt:41-44; kernel_generic.cpp has none), with the
`#error` guards of src/amd64/*.cpp:1-3: the bf16 file demands `__AVX512BW__` as well (the compiler
turns it on with `-mavx512bf16`).  Each of these flags turns on its predecessors, SSE4.2 included. -/
def Isa.needs : Isa → List Ext
  | .portable | .neon => []
  | .sse42 => [.sse42]
  | .avx2 => [.sse42, .avx, .avx2, .fma, .f16c]
  | .avx512f => [.sse42, .avx, .avx2, .fma, .f16c, .avx512f, .avx512bw]
  | .avx512bf16 => [.sse42, .avx, .avx2, .fma, .f16c, .avx512f, .avx512bw, .avx512bf16]

end Verif
