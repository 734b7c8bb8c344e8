import Verif.Proofs.Vectored
import Verif.Props.Isolate
import Verif.Props.LargeZp

/-!
# C116: the complete specification of nearest quantization

For any data (NaN, infinities, any magnitude), any scale and any 64-bit zero point: which elements are
processed by vector instructions (`Spec.Vectored`), the exact code of every element, and exactly when the
call runs without undefined arithmetic.
-/

namespace Verif.Props
open Verif Spec Simd

variable {c c' : Ctx} {x : InBuf} {dtIn dtOut : DType} {n o o' : Nat} {scale τ τ' : F32} {zp : ℤ} {m0 : Mem}

/-- The result of a finished nearest call, element by element. -/
def Nearest (c : Ctx) (x : InBuf) (dtIn dtOut : DType) (n o : Nat) (scale : F32) (zp : ℤ) (m0 m : Mem) : Prop :=
  (∀ i, i < n → Vectored c.isa c.threads dtIn dtOut o n i →
    (code dtOut.bits m o i : ℤ) = vectorCode c.isa dtOut.bits (scaled (elem dtIn x.data 0 i) scale) zp) ∧
  (∀ i, i < n → ¬ Vectored c.isa c.threads dtIn dtOut o n i →
    ScalarOk dtIn dtOut (scaled (elem dtIn x.data 0 i) scale) zp ∧
    (code dtOut.bits m o i : ℤ) = scalarCode dtIn dtOut (scaled (elem dtIn x.data 0 i) scale) zp) ∧
  (∀ t, dtOut.bits * n ≤ t → t < 8 * bytes dtOut.bits n → bit m o t = 0) ∧
  (∀ a, (a < o ∨ o + bytes dtOut.bits n ≤ a) → m a = m0 a)

/-- C116, every finished call, on any data, scale and zero point: the elements processed by vector
instructions have `vectorCode`; on the others the scalar arithmetic is defined and they have `scalarCode`;
the padding bits are zero and no other byte changes. The only possible fault is undefined arithmetic. -/
theorem C116_finished_calls (h : QArgs c.threads x dtIn dtOut n) :
    Always OnlyUb (quantize c x dtIn o (bytes dtOut.bits n) dtOut scale zp .nearest τ) (span o (bytes dtOut.bits n)) m0
      (Nearest c x dtIn dtOut n o scale zp m0) := by
  obtain ⟨ft, rfl, hst⟩ := ft_of h.inFloat
  have hx : x.size = ft.size * n := by rw [← hst]; exact h.size
  refine ⟨_, quantize_jobs h.outQuant h.sizes.addr hx, ?_⟩
  have := quantizeAt_sched (E := OnlyUb) (c := c) (o := o) (m0 := m0) (scale := scale) (τ := τ) (zp := zp) onlyUb_oob h.outQuant hx h.sizes
    (fun i _ _ => scalarStep_ok (E := OnlyUb) rfl _) (fun _ _ => scalarStep_ok (E := OnlyUb) rfl _)
  refine ⟨this.safe, this.raceFree, this.progress, this.bounded, fun k d hr hd => ?_⟩
  obtain ⟨h1, h2, h3⟩ := this.post k d hr hd
  refine ⟨fun i hi hg => ?_, fun i hi hg => ?_, h2, h3⟩
  · exact ((codeAt_spec h.outQuant (h1 i hi)).resolve_right (fun h => h.1 hg)).2
  · exact ((codeAt_spec h.outQuant (h1 i hi)).resolve_left (fun h => hg h.1)).2

/-- C116, when a call is free of faults: if the scalar arithmetic is defined on the elements that are not
processed by vector instructions - the others may be anything, NaN and infinities included. -/
theorem C116_fault_free (h : QArgs c.threads x dtIn dtOut n)
    (hd : ∀ i, i < n → ¬ Vectored c.isa c.threads dtIn dtOut o n i → ScalarOk dtIn dtOut (scaled (elem dtIn x.data 0 i) scale) zp) :
    Always NoFault (quantize c x dtIn o (bytes dtOut.bits n) dtOut scale zp .nearest τ) (span o (bytes dtOut.bits n)) m0
      (Nearest c x dtIn dtOut n o scale zp m0) := by
  obtain ⟨ft, rfl, hst⟩ := ft_of h.inFloat
  have hx : x.size = ft.size * n := by rw [← hst]; exact h.size
  refine ⟨_, quantize_jobs h.outQuant h.sizes.addr hx, ?_⟩
  have hq := h.outQuant
  have hstep : ∀ i, i < n → ¬ Vectored c.isa c.threads ft.dtype dtOut o n i → ∃ q, scalarStep ft dtOut .nearest scale τ zp (x.elem ft 0 i) = .ret q := by
    intro i hi hg
    have := hd i hi hg
    rw [← elem_spec] at this
    exact ⟨_, (scalar_spec hq).mpr ⟨this, clampI_sat hq _⟩⟩
  have := quantizeAt_sched (E := NoFault) (c := c) (o := o) (m0 := m0) (scale := scale) (τ := τ) (zp := zp) noFault_oob hq hx h.sizes
    (fun i hi hg => Or.inl (hstep i hi hg)) (fun hn h2 => by
      have h0 : 0 < n := by
        rcases Nat.eq_zero_or_pos n with h0 | h0
        · subst h0; simp at hn
        · exact h0
      exact Or.inl (pad_ok hq (hd (n - 1) (by omega) (last_scalar hq hn)) h2))
  refine ⟨this.safe, this.raceFree, this.progress, this.bounded, fun k d hr hdn => ?_⟩
  obtain ⟨h1, h2, h3⟩ := this.post k d hr hdn
  refine ⟨fun i hi hg => ?_, fun i hi hg => ?_, h2, h3⟩
  · exact ((codeAt_spec hq (h1 i hi)).resolve_right (fun h => h.1 hg)).2
  · exact ((codeAt_spec hq (h1 i hi)).resolve_left (fun h => hg h.1)).2

/-- C116, the condition is necessary: if the scalar arithmetic is undefined on one element that is not
processed by vector instructions, no execution of the call finishes: all of them end in that fault. -/
theorem C116_faults (h : QArgs c.threads x dtIn dtOut n) {i : Nat} (hi : i < n) (hg : ¬ Vectored c.isa c.threads dtIn dtOut o n i)
    (hu : ¬ ScalarOk dtIn dtOut (scaled (elem dtIn x.data 0 i) scale) zp) :
    Always OnlyUb (quantize c x dtIn o (bytes dtOut.bits n) dtOut scale zp .nearest τ) (span o (bytes dtOut.bits n)) m0
      (fun _ => False) :=
  (C116_finished_calls h).mono (fun _ h => h) (fun _ hm => hu (hm.2.1 i hi hg).1)

/-- C116, two calls (other threads, other address, other random draw, any x86 CPUs or the same CPU) on any
data: an element processed by vector instructions in both or in neither has the same code in both. -/
theorem C116_same_part (h : QArgs c.threads x dtIn dtOut n) (h' : QArgs c'.threads x dtIn dtOut n)
    (hneon : c.isa = .neon ↔ c'.isa = .neon) :
    Always OnlyUb (quantize c x dtIn o (bytes dtOut.bits n) dtOut scale zp .nearest τ) (span o (bytes dtOut.bits n)) m0
      (fun m => Always OnlyUb (quantize c' x dtIn o' (bytes dtOut.bits n) dtOut scale zp .nearest τ') (span o' (bytes dtOut.bits n)) m
        (fun m' => ∀ i, i < n →
          (Vectored c.isa c.threads dtIn dtOut o n i ↔ Vectored c'.isa c'.threads dtIn dtOut o' n i) →
          code dtOut.bits m o i = code dtOut.bits m' o' i)) := by
  refine (C116_finished_calls h).mono (fun _ h => h) (fun m hm => (C116_finished_calls h').mono (fun _ h => h) (fun m' hm' i hi hv => ?_))
  by_cases hg : Vectored c.isa c.threads dtIn dtOut o n i
  · have e1 := hm.1 i hi hg
    have e2 := hm'.1 i hi (hv.mp hg)
    have : vectorCode c.isa dtOut.bits (scaled (elem dtIn x.data 0 i) scale) zp = vectorCode c'.isa dtOut.bits (scaled (elem dtIn x.data 0 i) scale) zp := by
      unfold vectorCode
      by_cases hn : c.isa = .neon
      · rw [if_pos hn, if_pos (hneon.mp hn)]
      · rw [if_neg hn, if_neg (fun h => hn (hneon.mpr h))]
    exact_mod_cast e1.trans (this.trans e2.symm)
  · have e1 := (hm.2.1 i hi hg).2
    have e2 := (hm'.2.1 i hi (fun h => hg (hv.mpr h))).2
    exact_mod_cast e1.trans e2.symm

/-- C116, exactly where two calls differ: an element that only the first call processes by vector
instructions has the same code in both calls if and only if `vectorCode = scalarCode` for it. -/
theorem C116_differ_iff (h : QArgs c.threads x dtIn dtOut n) (h' : QArgs c'.threads x dtIn dtOut n) :
    Always OnlyUb (quantize c x dtIn o (bytes dtOut.bits n) dtOut scale zp .nearest τ) (span o (bytes dtOut.bits n)) m0
      (fun m => Always OnlyUb (quantize c' x dtIn o' (bytes dtOut.bits n) dtOut scale zp .nearest τ') (span o' (bytes dtOut.bits n)) m
        (fun m' => ∀ i, i < n → Vectored c.isa c.threads dtIn dtOut o n i → ¬ Vectored c'.isa c'.threads dtIn dtOut o' n i →
          (code dtOut.bits m o i = code dtOut.bits m' o' i ↔
            vectorCode c.isa dtOut.bits (scaled (elem dtIn x.data 0 i) scale) zp =
              scalarCode dtIn dtOut (scaled (elem dtIn x.data 0 i) scale) zp))) := by
  refine (C116_finished_calls h).mono (fun _ h => h) (fun m hm => (C116_finished_calls h').mono (fun _ h => h) (fun m' hm' i hi hg hg' => ?_))
  rw [← hm.1 i hi hg, ← (hm'.2.1 i hi hg').2]
  exact ⟨fun h => by rw [h], fun h => by exact_mod_cast h⟩

/-! ## Concrete calls -/

/-- The sixteen elements of `bad16` (NaN, both infinities and 1e10 among them) on AVX-512 to `uint4`: all are
processed by vector instructions, so the call never faults. On SSE4.2 to `uint8` it depends on the address:
at 64 one vector group covers all of them, at 65 there is none and every execution faults. -/
theorem C116_address_matters :
    Always NoFault (quantize ⟨.avx512f, 1, .none⟩ bad16 .f32 64 8 .uint4 f1 5 .nearest f0) (span 64 8) Ex.old
      (Nearest ⟨.avx512f, 1, .none⟩ bad16 .f32 .uint4 16 64 f1 5 Ex.old) ∧
    Always NoFault (quantize ⟨.sse42, 1, .none⟩ bad16 .f32 64 16 .uint8 f1 5 .nearest f0) (span 64 16) Ex.old
      (Nearest ⟨.sse42, 1, .none⟩ bad16 .f32 .uint8 16 64 f1 5 Ex.old) ∧
    Always OnlyUb (quantize ⟨.sse42, 1, .none⟩ bad16 .f32 65 16 .uint8 f1 5 .nearest f0) (span 65 16) Ex.old (fun _ => False) := by
  have h8 : QArgs 1 bad16 .f32 .uint8 16 := ⟨rfl, rfl, rfl, sz 16 1⟩
  have h4 : QArgs 1 bad16 .f32 .uint4 16 := ⟨rfl, rfl, rfl, sz 16 1⟩
  refine ⟨?_, ?_, ?_⟩
  · refine C116_fault_free (c := ⟨.avx512f, 1, .none⟩) (dtOut := .uint4) (n := 16) h4 ?_
    have : ∀ i, i < 16 → Vectored .avx512f 1 .f32 .uint4 64 16 i := by decide +kernel
    exact fun i hi hg => absurd (this i hi) hg
  · refine C116_fault_free (c := ⟨.sse42, 1, .none⟩) (dtOut := .uint8) (n := 16) h8 ?_
    have : ∀ i, i < 16 → Vectored .sse42 1 .f32 .uint8 64 16 i := by decide +kernel
    exact fun i hi hg => absurd (this i hi) hg
  · exact C116_faults (c := ⟨.sse42, 1, .none⟩) (dtOut := .uint8) (n := 16) (i := 1) h8 (by decide)
      (by decide +kernel) (by decide +kernel)

/-- Seventy elements with three threads on AVX2: the runs are `[0,23)`, `[23,46)` and `[46,70)`; no run holds a
whole group of 32 elements, so none is processed by vector instructions; with one thread and the output at a
multiple of 32 the first 64 are. -/
example : (∀ i, i < 70 → ¬ Vectored .avx2 3 .f32 .uint8 1000 70 i) ∧
    (∀ i, i < 70 → (Vectored .avx2 1 .f32 .uint8 1024 70 i ↔ i < 64)) ∧
    (∀ i, i < 70 → (Vectored .sse42 3 .f32 .uint4 1000 70 i ↔ i < 16 ∨ (22 ≤ i ∧ i < 38) ∨ (46 ≤ i ∧ i < 62))) := by
  decide +kernel

/-- The codes of the specification on concrete values: one code apart at the float below one half. -/
example : vectorCode .sse42 8 ⟨false, 0x3effffff⟩ 5 = 6 ∧ scalarCode .f32 .uint8 ⟨false, 0x3effffff⟩ 5 = 5 ∧
    vectorCode .neon 8 ⟨false, 0x3effffff⟩ 5 = 5 ∧ vectorCode .avx2 8 Flt.nan 5 = 0 ∧ vectorCode .avx2 8 Flt.nan (-1) = 255 ∧
    vectorCode .neon 8 Flt.nan 5 = 5 := by decide +kernel

example := C116_finished_calls (c := Ex.c1) (x := Ex.many) (dtIn := .f32) (dtOut := .uint8) (n := 70) (o := 1000) (scale := Ex.tenth)
  (τ := Ex.quarter) (zp := 64) (m0 := Ex.old) (h := by wit)
example := C116_same_part (c := ⟨.sse42, 1, .none⟩) (c' := ⟨.avx512f, 1, .none⟩) (x := bad16) (dtIn := .f32) (dtOut := .uint4) (n := 16) (o := 64)
  (o' := 200) (scale := f1) (τ := f0) (τ' := f1) (zp := 5) (m0 := Ex.old) (h := ⟨rfl, rfl, rfl, sz 16 1⟩) (h' := ⟨rfl, rfl, rfl, sz 16 1⟩)
  (hneon := by simp)
example := C116_differ_iff (c := ⟨.sse42, 1, .none⟩) (c' := ⟨.portable, 1, .none⟩) (x := ph 16) (dtIn := .f32) (dtOut := .uint4) (n := 16) (o := 64)
  (o' := 200) (scale := f1) (τ := f0) (τ' := f1) (zp := 5) (m0 := Ex.old) (h := ph_args rfl (sz 16 1)) (h' := ph_args rfl (sz 16 1))
/-- ... where every element is processed by vector instructions in the first call and by none in the second, and all codes differ. -/
example : ∀ i, i < 16 → Vectored .sse42 1 .f32 .uint4 64 16 i ∧ ¬ Vectored .portable 1 .f32 .uint4 200 16 i ∧
    vectorCode .sse42 4 (scaled (elem .f32 (ph 16).data 0 i) f1) 5 ≠ scalarCode .f32 .uint4 (scaled (elem .f32 (ph 16).data 0 i) f1) 5 := by
  decide +kernel

end Verif.Props
