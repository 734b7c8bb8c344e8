import Verif.SpecParams
import Mathlib.Tactic.NormNum
import Verif.Model.Context

/-! # Concrete buffers used to show that hypotheses are met -/

namespace Verif.Ex

/-- A readable buffer with the given bytes. -/
def buf (l : List Nat) : InBuf := ⟨l.length, fun a => l.getD a 0⟩

/-- Little-endian bytes of 32-bit and 16-bit words. -/
def words32 (l : List Nat) : List Nat := l.flatMap (fun u => [u % 256, u / 256 % 256, u / 65536 % 256, u / 16777216 % 256])
def words16 (l : List Nat) : List Nat := l.flatMap (fun u => [u % 256, u / 256 % 256])

/-- 1.0, -2.5, 0.3, 7.75, 100.0 as float32. -/
def xs : InBuf := buf (words32 [0x3f800000, 0xc0200000, 0x3e99999a, 0x40f80000, 0x42c80000])
/-- 1.0, -2.5, 3.0 as bf16. -/
def xb : InBuf := buf (words16 [0x3f80, 0xc020, 0x4040])
/-- 0.5f -/
def half : F32 := ⟨false, 0x3f000000⟩
/-- 0.1f -/
def tenth : F32 := ⟨false, 0x3dcccccd⟩
/-- 0.25f as a threshold -/
def quarter : F32 := ⟨false, 0x3e800000⟩
/-- Some previous contents of the output memory. -/
def old : Mem := fun _ => 0xAB

/-- Bytes `[o, o+len)` of the memory after running the workers one after another. -/
def result (call : Except Fault (List (Prog Unit))) (o len : Nat) (m0 : Mem) : Except Fault (List Nat) :=
  match call with
  | .error f => .error f
  | .ok js => match runSeq (Spec.span o len) js m0 with
    | .error f => .error f
    | .ok m => .ok ((List.range len).map (fun j => m (o + j)))


/-! ## The standard example

Seventy floats between -25/4 and 25/4, enough for the vector loop of every kernel set and a scalar remainder. -/

/-- The upper halves of the seventy floats `((37·k mod 101) - 50) / 8`. -/
def manyWords : List Nat := [
  0xc0c8, 0xbfd0, 0x4040, 0xc0a0, 0xbec0, 0x4088, 0xc070, 0x3f60, 0x40b0, 0xc020, 0x4008, 0xc0bc, 0xbfa0, 0x4058,
  0xc094, 0x0, 0x4094, 0xc058, 0x3fa0, 0x40bc, 0xc008, 0x4020, 0xc0b0, 0xbf60, 0x4070, 0xc088, 0x3ec0, 0x40a0,
  0xc040, 0x3fd0, 0x40c8, 0xbfe0, 0x4038, 0xc0a4, 0xbf00, 0x4084, 0xc078, 0x3f40, 0x40ac, 0xc028, 0x4000, 0xc0c0,
  0xbfb0, 0x4050, 0xc098, 0xbe00, 0x4090, 0xc060, 0x3f90, 0x40b8, 0xc010, 0x4018, 0xc0b4, 0xbf80, 0x4068, 0xc08c,
  0x3e80, 0x409c, 0xc048, 0x3fc0, 0x40c4, 0xbff0, 0x4030, 0xc0a8, 0xbf20, 0x4080, 0xc080, 0x3f20, 0x40a8, 0xc030]

/-- The seventy values as float32 and as bf16. -/
def many : InBuf := buf (words32 (manyWords.map (65536 * ·)))
def manyB : InBuf := buf (words16 manyWords)
/-- Seventy bytes of codes: seventy uint8, 139 uint4 or 279 uint2 elements. -/
def codes : InBuf := buf ((List.range 70).map (fun k => 89 * k % 256))
/-- A machine with AVX-512 and three workers; a portable build with two workers; AVX2 with five. -/
def c1 : Ctx := ⟨.avx512f, 3, .none⟩
def c2 : Ctx := ⟨.portable, 2, .none⟩
def c3 : Ctx := ⟨.avx2, 5, .none⟩
/-- How the thread pool might cut seventy elements into two blocks. -/
def blocks : List (Nat × Nat) := [(0, 30), (30, 70)]

/-- The scale computed for these values and uint8 (the zero point is 128): the float nearest to 12.5/255. -/
def manyS : F32 := ⟨false, 0x3d48c8c9⟩

/-- The seventy values negated, times eight, and in reverse order. -/
def manyNeg : InBuf := buf (words32 (manyWords.map (fun w => 65536 * (w ^^^ 0x8000))))
def many8 : InBuf := buf (words32 (manyWords.map (fun w => if w = 0 then 0 else 65536 * (w + 0x180))))
def manyRev : InBuf := buf (words32 (manyWords.reverse.map (65536 * ·)))
/-- The bytes `codes` complemented and in reverse order. -/
def codesNeg : InBuf := buf ((List.range 70).map (fun k => 255 - 89 * k % 256))
def codesRev : InBuf := buf ((List.range 70).map (fun k => 89 * (69 - k) % 256))
/-- Bytes below 250, and the same plus five. -/
def codesLow : InBuf := buf ((List.range 70).map (fun k => 89 * k % 250))
def codesUp : InBuf := buf ((List.range 70).map (fun k => 89 * k % 250 + 5))
/-- Eight times 0.1 (as a float32). -/
def eightTenth : F32 := ⟨false, 0x3f4ccccd⟩
/-- A memory that holds the seventy floats from address 4 on. -/
def manyMem : Mem := (buf (List.replicate 4 0xAB ++ words32 (manyWords.map (65536 * ·)))).data

open Spec in
theorem many_fin : AllFin .f32 many 70 := by unfold AllFin; decide +kernel
open Spec in
theorem manyB_fin : AllFin .bf16 manyB 70 := by unfold AllFin; decide +kernel
open Spec in
theorem many_args {dt : DType} (h : dt.isQuant = true) : PArgs .f32 many 70 blocks dt := ⟨h, by decide +kernel, rfl, by decide, rfl, by decide, rfl⟩
open Spec in
theorem manyB_args {dt : DType} (h : dt.isQuant = true) : PArgs .bf16 manyB 70 blocks dt := ⟨h, by decide +kernel, rfl, by decide, rfl, by decide, rfl⟩
open Spec in
theorem many_range : Range .f32 many.data 70 (-25 / 4) (25 / 4) := by
  have hv : ∀ t, t < 70 → -25 / 4 ≤ (elem .f32 many.data 0 t).toRat ∧ (elem .f32 many.data 0 t).toRat ≤ 25 / 4 := by decide +kernel
  refine ⟨⟨⟨0, by decide, by decide +kernel⟩, ?_⟩, ⟨30, by decide, by decide +kernel⟩, ?_⟩
  · rintro _ ⟨t, ht, rfl⟩; exact (hv t ht).1
  · rintro _ ⟨t, ht, rfl⟩; exact (hv t ht).2
open Spec in
theorem manyB_range : Range .bf16 manyB.data 70 (-25 / 4) (25 / 4) := by
  have hv : ∀ t, t < 70 → -25 / 4 ≤ (elem .bf16 manyB.data 0 t).toRat ∧ (elem .bf16 manyB.data 0 t).toRat ≤ 25 / 4 := by decide +kernel
  refine ⟨⟨⟨0, by decide, by decide +kernel⟩, ?_⟩, ⟨30, by decide, by decide +kernel⟩, ?_⟩
  · rintro _ ⟨t, ht, rfl⟩; exact (hv t ht).1
  · rintro _ ⟨t, ht, rfl⟩; exact (hv t ht).2
open Spec in
/-- Even on SSE4.2 the extremes (elements 0 and 30) are seen. -/
theorem many_sees (isa : Isa) : Sees isa .f32 many 70 blocks := by
  refine ⟨⟨0, ⟨(0, 30), by decide, by decide, by decide, fun _ => Or.inr (by decide)⟩, ?_⟩, ⟨30, ⟨(30, 70), by decide, by decide, by decide, fun _ => Or.inr (by decide)⟩, ?_⟩⟩
  · decide +kernel
  · decide +kernel
open Spec in
theorem manyB_sees (isa : Isa) : Sees isa .bf16 manyB 70 blocks := by
  refine ⟨⟨0, ⟨(0, 30), by decide, by decide, by decide, fun _ => Or.inr (by decide)⟩, ?_⟩, ⟨30, ⟨(30, 70), by decide, by decide, by decide, fun _ => Or.inr (by decide)⟩, ?_⟩⟩
  · decide +kernel
  · decide +kernel

/-- Closes the hypotheses of the examples: by evaluation in the kernel, or with one of the facts above. -/
macro "wit" : tactic => `(tactic| first
  | decide +kernel
  | exact many_args rfl | exact manyB_args rfl | exact many_fin | exact manyB_fin | exact many_range | exact manyB_range
  | exact many_sees _ | exact manyB_sees _
  | exact ⟨by decide +kernel, by decide +kernel, by decide +kernel, ⟨by decide +kernel, by decide +kernel, by decide +kernel⟩⟩
  | exact ⟨by decide +kernel, by decide +kernel, by decide +kernel⟩
  | (unfold Spec.ExactKernel; decide +kernel)
  | exact Or.inr (by decide +kernel) | exact Or.inr ⟨by decide +kernel, by decide +kernel⟩
  | exact Or.inl ⟨by decide +kernel, by decide +kernel⟩
  | (intro i; revert i; decide +kernel)
  | (intro h; cases h; done)
  | norm_num)

end Verif.Ex
