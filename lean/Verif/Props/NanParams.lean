import Verif.Props.Examples
import Verif.Props.Witness
import Verif.Props.Params
import Verif.Proofs.ParamsMixed

/-!
# Parameters computed from data with some NaNs: C88

`find_min_max_f32`/`find_min_max_bf16` (src/kernels/kernels_specialized.inl:1418-1607) compare one by one at the end of a block, which skips NaNs,
but use `MINPS`/`MAXPS` (or NEON `FMIN`/`FMAX`) before that.  `vmin = min(vmin, v)` returns `v` when one of the two is NaN: a NaN replaces what
its lane has seen so far, and the next number replaces the NaN.  So elements are forgotten, or the call aborts, depending on where the NaN is.
-/

namespace Verif.Props
open Spec

section
variable {isa : Isa} {ft : FT} {x : InBuf} {n : Nat} {blocks : List (Nat × Nat)} {dt : DType}

/-- C88, proved part: NaNs that are not among the elements examined by vector instructions are ignored: the parameters are those of the least and the
greatest number.  On the portable kernels this is so for all data; on SSE4.2 blocks must be small because of C22. -/
theorem C88_nan_ignored_partial (h : PArgs ft x n blocks dt) (hf : NanOrFin ft x n) (hs : SseSmall isa ft blocks) (hv : NanOutside isa ft x blocks)
    {lo hi : ℚ} (hr : NumRange ft.dtype x.data n lo hi) : computeQuantConfigFromData isa ft x blocks dt = .ret (params dt.bits lo hi) := by
  obtain ⟨⟨⟨a, ha, na, ea⟩, hlo⟩, ⟨b, hb, nb, eb⟩, hhi⟩ := hr
  obtain ⟨lo', hi', ⟨h1, ⟨u, ⟨hu, nu⟩, eu⟩, ⟨w, ⟨hw, nw⟩, ew⟩⟩, e⟩ := config_mix (isa := isa) h.quant h.size (fun t ht => by rw [elem_spec]; exact hf t ht) h.split
    (fun hi b hb => by
      have := hs hi b hb
      cases ft <;> exact this)
    (fun b hb t h1 h2 => by rw [elem_spec]; exact hv b hb t h1 h2) ⟨a, ha, by rw [elem_spec]; exact na⟩
  simp only [elem_spec] at h1 nu eu nw ew
  have e1 : lo' = lo := le_antisymm (by rw [ea]; exact (h1 a ⟨ha, na⟩).1) (hlo ⟨u, hu, nu, eu⟩)
  have e2 : hi' = hi := le_antisymm (hhi ⟨w, hw, nw, ew⟩) (by rw [eb]; exact (h1 b ⟨hb, nb⟩).2)
  rw [e, e1, e2]

/-- C88 for the portable kernels: all NaNs are ignored. -/
theorem C88_portable_partial (h : PArgs ft x n blocks dt) (hf : NanOrFin ft x n)
    {lo hi : ℚ} (hr : NumRange ft.dtype x.data n lo hi) : computeQuantConfigFromData .portable ft x blocks dt = .ret (params dt.bits lo hi) :=
  C88_nan_ignored_partial h hf (fun h => by cases h) (fun b _ t h1 h2 => by
    have : vectorPart .portable ft (b.2 - b.1) = 0 := by cases ft <;> rfl
    omega) hr

/-- C88, what holds for all data without infinities and all kernels: the call aborts, or returns the parameters of the range between two of the
numbers in the data; NaNs never get into the parameters. -/
theorem C88_some_numbers_partial (hdt : dt.isQuant = true) (hx : ft.size * n ≤ x.size) (hf : NanOrFin ft x n) (hb : ∀ b ∈ blocks, b.1 < b.2 ∧ b.2 ≤ n) :
    computeQuantConfigFromData isa ft x blocks dt = .fail .panic ∨ ∃ lo hi, lo ∈ numbers ft.dtype x.data n ∧ hi ∈ numbers ft.dtype x.data n ∧ lo ≤ hi ∧
      computeQuantConfigFromData isa ft x blocks dt = .ret (params dt.bits lo hi) := by
  rcases config_in (isa := isa) hdt hx (fun t ht => by rw [elem_spec]; exact hf t ht) hb with h | ⟨t, u, ⟨ht, ft'⟩, ⟨hu, fu⟩, hle, e⟩
  · exact Or.inl h
  · simp only [elem_spec] at ft' fu hle e
    exact Or.inr ⟨_, _, ⟨t, ht, fin_notnan ft', rfl⟩, ⟨u, hu, fin_notnan fu, rfl⟩, hle, e⟩

end

/-- -100, then seven times 0, then a NaN, then 23 times 1: the NaN is below the -100 in lane 0 of an 8-lane register. -/
def nanLane : InBuf := Ex.buf (Ex.words32 ([0xc2c80000] ++ List.replicate 7 0 ++ [0x7fc00000] ++ List.replicate 23 0x3f800000))

theorem nanLane_range : NumRange .f32 nanLane.data 32 (-100) 1 := by
  have hv : ∀ t, t < 32 → (elem .f32 nanLane.data 0 t).isNaN = false → -100 ≤ (elem .f32 nanLane.data 0 t).toRat ∧ (elem .f32 nanLane.data 0 t).toRat ≤ 1 := by decide +kernel
  refine ⟨⟨⟨0, by omega, by decide +kernel, by decide +kernel⟩, ?_⟩, ⟨31, by omega, by decide +kernel, by decide +kernel⟩, ?_⟩
  · rintro v ⟨t, ht, hn, rfl⟩; exact (hv t ht hn).1
  · rintro v ⟨t, ht, hn, rfl⟩; exact (hv t ht hn).2

/-- C88 is false of the AVX2 kernels: one NaN, and the -100 is forgotten; the parameters are those of the range [0, 1].  On the portable kernels the
same data gives the parameters of [-100, 1]. -/
theorem C88_false_avx2 : PArgs .f32 nanLane 32 [(0, 32)] .uint8 ∧ NanOrFin .f32 nanLane 32 ∧ NumRange .f32 nanLane.data 32 (-100) 1 ∧
    computeQuantConfigFromData .avx2 .f32 nanLane [(0, 32)] .uint8 = .ret (params 8 0 1) ∧
    computeQuantConfigFromData .portable .f32 nanLane [(0, 32)] .uint8 = .ret (params 8 (-100) 1) ∧ params 8 0 1 ≠ params 8 (-100) 1 := by
  have hp : PArgs .f32 nanLane 32 [(0, 32)] .uint8 := ⟨rfl, by decide +kernel, rfl, by omega, rfl⟩
  have hf : NanOrFin .f32 nanLane 32 := by unfold NanOrFin; decide +kernel
  exact ⟨hp, hf, nanLane_range, retIs_iff (by decide +kernel), C88_portable_partial hp hf nanLane_range, by decide +kernel⟩

/-- 31 ones and a NaN at the end. -/
def nanLast : InBuf := Ex.buf (Ex.words32 (List.replicate 31 0x3f800000 ++ [0x7fc00000]))
/-- C88 is false of the AVX2 kernels also in this way: thirty-one ones and one NaN make the call abort. -/
theorem C88_false_abort : computeQuantConfigFromData .avx2 .f32 nanLast [(0, 32)] .uint8 = .fail .panic ∧
    computeQuantConfigFromData .portable .f32 nanLast [(0, 32)] .uint8 = .ret (f1, 127) := by
  constructor
  · exact failIs_iff (by decide +kernel)
  · exact retIs_iff (by decide +kernel)

/-- -100, three times 0, a NaN, eleven ones; and -100, fifteen times 0, a NaN, forty-seven ones. -/
def nanLane4 : InBuf := Ex.buf (Ex.words32 ([0xc2c80000] ++ List.replicate 3 0 ++ [0x7fc00000] ++ List.replicate 11 0x3f800000))
def nanLane16 : InBuf := Ex.buf (Ex.words32 ([0xc2c80000] ++ List.replicate 15 0 ++ [0x7fc00000] ++ List.replicate 47 0x3f800000))
/-- C88 is false of the SSE4.2 and AVX-512 kernels (the -100 is forgotten) and of the NEON kernels (abort). -/
theorem C88_false_others : computeQuantConfigFromData .sse42 .f32 nanLane4 [(0, 16)] .uint8 = .ret (params 8 0 1) ∧
    computeQuantConfigFromData .neon .f32 nanLane4 [(0, 16)] .uint8 = .fail .panic ∧
    computeQuantConfigFromData .portable .f32 nanLane4 [(0, 16)] .uint8 = .ret (params 8 (-100) 1) ∧
    computeQuantConfigFromData .avx512f .f32 nanLane16 [(0, 64)] .uint8 = .ret (params 8 0 1) ∧
    computeQuantConfigFromData .portable .f32 nanLane16 [(0, 64)] .uint8 = .ret (params 8 (-100) 1) := by
  refine ⟨retIs_iff (by decide +kernel), failIs_iff (by decide +kernel), retIs_iff (by decide +kernel), retIs_iff (by decide +kernel), retIs_iff (by decide +kernel)⟩

/-- 32 zeros, then -100, a NaN, 1: on AVX2 the last three are examined one by one. -/
def nanTail : InBuf := Ex.buf (Ex.words32 (List.replicate 32 0 ++ [0xc2c80000, 0x7fc00000, 0x3f800000]))
theorem nanTail_range : NumRange .f32 nanTail.data 35 (-100) 1 := by
  have hv : ∀ t, t < 35 → (elem .f32 nanTail.data 0 t).isNaN = false → -100 ≤ (elem .f32 nanTail.data 0 t).toRat ∧ (elem .f32 nanTail.data 0 t).toRat ≤ 1 := by decide +kernel
  refine ⟨⟨⟨32, by omega, by decide +kernel, by decide +kernel⟩, ?_⟩, ⟨34, by omega, by decide +kernel, by decide +kernel⟩, ?_⟩
  · rintro v ⟨t, ht, hn, rfl⟩; exact (hv t ht hn).1
  · rintro v ⟨t, ht, hn, rfl⟩; exact (hv t ht hn).2
theorem nanTail_fin : NanOrFin .f32 nanTail 35 := by unfold NanOrFin; decide +kernel

/-- `C88_nan_ignored_partial` applied to a concrete case: 32 elements examined by vector instructions, then a NaN between -100 and 1. -/
example : computeQuantConfigFromData .avx2 .f32 nanTail [(0, 35)] .uint8 = .ret (params 8 (-100) 1) :=
  C88_nan_ignored_partial (n := 35) (blocks := [(0, 35)]) ⟨rfl, by decide +kernel, rfl, by omega, rfl⟩ nanTail_fin (fun h => by cases h) (by
    have h : ∀ t, t < 32 → (elem .f32 nanTail.data 0 t).isNaN = false := by decide +kernel
    intro b hb t _ h2
    obtain rfl := List.mem_singleton.mp hb
    exact h t (by simpa [vectorPart] using h2)) nanTail_range
/-- `C88_portable_partial` applied to a concrete case, in two blocks. -/
example : computeQuantConfigFromData .portable .f32 nanTail [(0, 30), (30, 35)] .uint4 = .ret (params 4 (-100) 1) :=
  C88_portable_partial (n := 35) (blocks := [(0, 30), (30, 35)]) ⟨rfl, by decide +kernel, rfl, by omega, rfl, by omega, rfl⟩ nanTail_fin nanTail_range
/-- `C88_some_numbers_partial` applied to a concrete case (the second alternative holds, with 0 and 1). -/
example := C88_some_numbers_partial (isa := .avx2) (ft := .f32) (x := nanLane) (n := 32) (blocks := [(0, 32)]) (dt := .uint8) rfl (by decide +kernel)
  (by unfold NanOrFin; decide +kernel) (by decide)

end Verif.Props
