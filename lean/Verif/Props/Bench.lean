import Verif.Model.Bench
import Verif.Props.Typed
import Verif.Props.PyTest
import Verif.Props.QuantNeg
import Verif.Props.Dequant
import Verif.Proofs.Workflow

/-!
# The benchmarks: C93, C94
-/

namespace Verif.Props
open Spec

section
variable {c c' : Ctx} {data : Nat → Nat} {n o o' : Nat} {τ : F32} {m0 m0' : Mem}

theorem bytes4 (n : Nat) : bytes DType.uint4.bits n = (n + 1) / 2 := by unfold bytes; simp only [DType.bits]; omega

/-- C93 is false: whatever tensor with values between -1 and 1 the benchmark draws, on every machine and with every number of
threads, all codes of its quantize call are 15: the zero point 127 lies outside the uint4 range. -/
theorem C93_false_all_codes_saturate (hs : Sizes n c.threads) (hd : ∀ i, i < n → (elem .bf16 data 0 i).isFin = true ∧ |(elem .bf16 data 0 i).toRat| ≤ 1) :
    Always NoFault (benchQuantize c data n o τ) (span o ((n + 1) / 2)) m0 (fun m => ∀ i, i < n → code 4 m o i = 15) := by
  have hq : QArgs c.threads ⟨DType.bf16.stride * n, data⟩ .bf16 .uint4 n := ⟨rfl, rfl, rfl, hs⟩
  have hs1 : benchScale.isFin = true := by decide +kernel
  have hs2 : benchScale.toRat = 13421773 / 2 ^ 26 := by decide +kernel
  have hb : ∀ i, i < n → (scaled (elem .bf16 data 0 i) benchScale).isFin = true ∧ |(scaled (elem .bf16 data 0 i) benchScale).toRat| ≤ 13 := by
    intro i hi
    obtain ⟨h1, h2⟩ := hd i hi
    have := scaled_bound (s := benchScale) (B := 6) h1 hs1 (by rw [hs2]; norm_num) (by rw [hs2]; norm_num) (by norm_num) (by
      rw [abs_div, hs2, abs_of_pos (by norm_num : (0:ℚ) < 13421773 / 2 ^ 26), div_le_iff₀ (by norm_num)]
      refine h2.trans (by norm_num))
    exact ⟨this.1, this.2.trans (by norm_num)⟩
  have hr : ∀ i, i < n → -14 ≤ rha (scaled (elem .bf16 data 0 i) benchScale).toRat ∧ rha (scaled (elem .bf16 data 0 i) benchScale).toRat ≤ 14 := by
    intro i hi
    obtain ⟨_, h2⟩ := hb i hi
    generalize (scaled (elem .bf16 data 0 i) benchScale).toRat = p at *
    rw [abs_le] at h2
    unfold rha
    split
    · constructor
      · have : ⌊-p + 1 / 2⌋ < 14 := by rw [Int.floor_lt]; push_cast; linarith
        omega
      · have : -14 ≤ ⌊-p + 1 / 2⌋ := by rw [Int.le_floor]; push_cast; linarith
        omega
    · constructor
      · rw [Int.le_floor]; push_cast; linarith
      · have : ⌊p + 1 / 2⌋ < 14 := by rw [Int.floor_lt]; push_cast; linarith
        omega
  have he : benchQuantize c data n o τ = quantize c ⟨DType.bf16.stride * n, data⟩ .bf16 o (bytes DType.uint4.bits n) .uint4 benchScale 127 .nearest τ := by
    unfold benchQuantize
    rw [← bytes4]
    exact ((C51_typed_calls_are_byte_calls (x := ⟨0, data⟩) (op := .set) hs).1 rfl rfl).2.1
  rw [he, ← bytes4]
  refine (C15_saturates_partial (mode := .nearest) (τ := τ) hq (by decide) (fun i hi => ?_) (Or.inr (by norm_num))).mono (fun _ h => h) (fun m hm i hi => ?_)
  · have := hr i hi
    exact ⟨(hb i hi).1, ⟨by norm_num; omega, by norm_num; omega⟩, by norm_num; omega, by norm_num; omega⟩
  · refine (hm i hi).1 ?_
    have := abs_le.mp (hb i hi).2
    simp only [DType.bits]
    norm_num
    linarith [this.1]

/-- C93, the rest of the benchmark: dequantizing these codes stores -22.375 (the bfloat16 nearest to (15 - 127) * 0.2) in every
element, in place of the original data. -/
theorem C93_round_trip_constant_partial (hs : Sizes n c.threads) (hs' : Sizes n c'.threads)
    (hd : ∀ i, i < n → (elem .bf16 data 0 i).isFin = true ∧ |(elem .bf16 data 0 i).toRat| ≤ 1) :
    Always NoFault (benchQuantize c data n o τ) (span o ((n + 1) / 2)) m0 (fun m =>
      Always NoFault (benchDequantize c' ⟨(n + 1) / 2, fun a => m (o + a)⟩ n o') (span o' (2 * n)) m0' (fun m' =>
        ∀ i, i < n → u16At m' (o' + 2 * i) = 0xc1b3 ∧ (bf16At m' (o' + 2 * i)).toRat = -179 / 8)) := by
  refine (C93_false_all_codes_saturate hs hd).mono (fun _ h => h) (fun m hm => ?_)
  have hx : DArgs c'.threads ⟨(n + 1) / 2, fun a => m (o + a)⟩ .uint4 .bf16 n := ⟨rfl, rfl, by rw [bytes4], hs'⟩
  have he : benchDequantize c' ⟨(n + 1) / 2, fun a => m (o + a)⟩ n o' =
      dequantize c' ⟨(n + 1) / 2, fun a => m (o + a)⟩ (bytes DType.uint4.bits n) .uint4 o' (2 * n) .bf16 benchScale 127 .set := by
    unfold benchDequantize
    rw [← bytes4]
    exact ((C51_typed_calls_are_byte_calls (x := ⟨bytes DType.uint4.bits n, fun a => m (o + a)⟩) (tIn := .uint4) (tOut := .bf16) (data := data) (mode := .nearest) (τ := τ) hs').2 rfl rfl (by rfl)).2
  rw [he]
  refine (C09_dequantize_bf16_any_kernel_partial hx (by unfold ZpSub; norm_num) (fun h => by cases h)).mono (fun _ h => h) (fun m' hm' i hi => ?_)
  obtain ⟨v, hv, hw⟩ := hm' i hi
  have hc : code DType.uint4.bits (fun a => m (o + a)) 0 i = 15 := by
    rw [← hm i hi]
    unfold code
    simp only [DType.bits, Nat.zero_add]
  simp only [hc] at hv
  have e1 : dequant benchScale 127 15 = ⟨false ^^ true, 0x41b33333⟩ := by decide +kernel
  have e2 : fmaDequant benchScale 127 15 = ⟨false ^^ true, 0x41b33333⟩ := by decide +kernel
  have hv' : v = ⟨true, 0x41b33333⟩ := by
    rcases hv with h | ⟨_, _, h⟩
    · rw [h, e1]; rfl
    · rw [h, e2]; rfl
  subst hv'
  have hword : u16At m' (o' + 2 * i) = 0xc1b3 := by
    rcases hw with h | ⟨_, _, h, _⟩
    · unfold IsBf16Of at h
      rw [if_neg (by decide +kernel)] at h
      rw [h]; decide +kernel
    · exact absurd h (by decide +kernel)
  refine ⟨hword, ?_⟩
  unfold bf16At
  rw [hword]
  decide +kernel

end

/-! ## C94 -/

section
variable {c c' : Ctx} {x : InBuf} {dt : DType} {n o o' : Nat} {s τ : F32} {z : ℤ} {m0 m0' : Mem}

/-- The value a quantizer with rounding half to even and the same parameters (`torch.quantize_per_tensor`) gives to an element after
dequantization. -/
def evenValue (dt : DType) (s : F32) (z : ℤ) (v : F32) : F32 := dequant s z (sat dt.bits (rte (scaled v s).toRat + z)).toNat

theorem sat_nat (b : Nat) (u : ℤ) : ((sat b u).toNat : ℤ) = sat b u := Int.toNat_of_nonneg (le_max_left _ _)

/-- C94, uint8 and uint4: for every float32 tensor and parameters with scale at most 0.07 (data in `[0, 1)` has scale at most about
1/15) the benchmark's comparison finds no difference: each dequantized element is within 0.08 of that of a quantizer which rounds
half to even, and the benchmark allows 0.1. -/
theorem C94_comparison_passes_partial (h : QArgs c.threads x .f32 dt n) (hs' : Sizes n c'.threads) (h4 : dt ≠ .uint2) (hf : s.isFin = true)
    (h1 : 1 / 2 ^ 126 ≤ s.toRat) (h2 : s.toRat ≤ 7 / 100) (hz0 : 0 ≤ z) (hz1 : z ≤ 2 ^ dt.bits - 1)
    (hd : ∀ i, i < n → Fits 32 (scaled (elem .f32 x.data 0 i) s) z) :
    Always NoFault (quantize c x .f32 o (bytes dt.bits n) dt s z .nearest τ) (span o (bytes dt.bits n)) m0 (fun m =>
      Always NoFault (dequantize c' ⟨bytes dt.bits n, fun a => m (o + a)⟩ (bytes dt.bits n) dt o' (4 * n) .f32 s z .set) (span o' (4 * n)) m0' (fun m' =>
        ∀ i, i < n → |(f32At m' (o' + 4 * i)).toRat - (evenValue dt s z (elem .f32 x.data 0 i)).toRat| ≤ 8 / 100)) := by
  have hb : (2:ℤ) ^ dt.bits ≤ 256 := by
    have := h.outQuant
    cases dt <;> simp only [DType.isQuant, Bool.false_eq_true] at this <;> simp only [DType.bits] <;> norm_num
  have hs : 0 < s.toRat := lt_of_lt_of_le (by positivity) h1
  refine (C85_half_even_within_one (c := c) (z := z) h (by rw [abs_of_nonneg hz0]; norm_num; omega) hd).mono (fun _ h => h) (fun m hm => ?_)
  have hx : DArgs c'.threads ⟨bytes dt.bits n, fun a => m (o + a)⟩ dt .f32 n := ⟨h.outQuant, rfl, le_rfl, hs'⟩
  refine (C09_dequantize_f32_formula hx (fun h => absurd h h4) (by unfold ZpSub; norm_num; omega)).mono (fun _ h => h) (fun m' hm' i hi => ?_)
  rw [hm' i hi]
  have hc : code dt.bits (fun a => m (o + a)) 0 i = code dt.bits m o i := by unfold code; simp only [Nat.zero_add]
  show |(dequant s z (code dt.bits (fun a => m (o + a)) 0 i)).toRat - _| ≤ _
  rw [hc]
  have hclose := (hm i hi).1
  unfold evenValue
  have hrange : ∀ u, sat dt.bits u ≤ 2 ^ dt.bits - 1 ∧ 0 ≤ sat dt.bits u := fun u =>
    ⟨max_le (by have := one_le_pow₀ (M₀ := ℤ) (a := 2) (n := dt.bits) (by norm_num); omega) (min_le_left _ _), le_max_left _ _⟩
  have hcode : (code dt.bits m o i : ℤ) ≤ 2 ^ dt.bits - 1 := by
    have : code dt.bits m o i < 2 ^ dt.bits := Nat.mod_lt _ (by positivity)
    have : (code dt.bits m o i : ℤ) < 2 ^ dt.bits := by exact_mod_cast this
    omega
  have hsn := sat_nat dt.bits (rte (scaled (elem .f32 x.data 0 i) s).toRat + z)
  have hsr := hrange (rte (scaled (elem .f32 x.data 0 i) s).toRat + z)
  have d1 := (dequant_near (s := s) (k := (code dt.bits m o i : ℤ) - z) (by rw [abs_le]; omega) hf h1 (h2.trans (by norm_num))).2
  have d2 := (dequant_near (s := s) (k := ((sat dt.bits (rte (scaled (elem .f32 x.data 0 i) s).toRat + z)).toNat : ℤ) - z) (by rw [abs_le]; omega) hf h1 (h2.trans (by norm_num))).2
  change |(dequant s z (code dt.bits m o i)).toRat - _| ≤ _ at d1
  change |(dequant s z (sat dt.bits (rte (scaled (elem .f32 x.data 0 i) s).toRat + z)).toNat).toRat - _| ≤ _ at d2
  have hq : |(((code dt.bits m o i : ℤ) - z : ℤ) : ℚ) * s.toRat - ((((sat dt.bits (rte (scaled (elem .f32 x.data 0 i) s).toRat + z)).toNat : ℤ) - z : ℤ) : ℚ) * s.toRat| ≤ s.toRat := by
    rw [← sub_mul, abs_mul, abs_of_pos hs]
    have : |(((code dt.bits m o i : ℤ) - z : ℤ) : ℚ) - ((((sat dt.bits (rte (scaled (elem .f32 x.data 0 i) s).toRat + z)).toNat : ℤ) - z : ℤ) : ℚ)| ≤ 1 := by
      rw [← Int.cast_sub, sub_sub_sub_cancel_right, hsn]
      exact_mod_cast hclose
    nlinarith
  generalize (dequant s z (code dt.bits m o i)).toRat = a at *
  generalize (dequant s z (sat dt.bits (rte (scaled (elem .f32 x.data 0 i) s).toRat + z)).toNat).toRat = b at *
  generalize (((code dt.bits m o i : ℤ) - z : ℤ) : ℚ) * s.toRat = p at *
  generalize ((((sat dt.bits (rte (scaled (elem .f32 x.data 0 i) s).toRat + z)).toNat : ℤ) - z : ℤ) : ℚ) * s.toRat = q at *
  have he : 255 * s.toRat / 2 ^ 24 ≤ 1 / 1000 := by
    rw [div_le_iff₀ (by positivity)]
    norm_num
    linarith
  rw [abs_le] at d1 d2 hq ⊢
  constructor <;> linarith [d1.1, d1.2, d2.1, d2.2, hq.1, hq.2]

/-- The tensor 0, 0.125, 0.75. -/
def tie3 : InBuf := Ex.buf (Ex.words32 [0, 0x3e000000, 0x3f400000])

/-- C94 is false for uint2: the tensor `0, 0.125, 0.75` of values in `[0, 1)` gets scale 0.25 and zero point 0 from the library, on
every kernel set, and its second element is exactly halfway between two codes: the library returns 0.25 for it, rounding half to
even 0, and the benchmark reports a difference (it allows `0.1 + 1e-5 * 0.25`). -/
theorem C94_false_uint2 (hs : Sizes 3 c.threads) (hs' : Sizes 3 c'.threads) :
    computeQuantConfigFromData c.isa .f32 tie3 [(0, 3)] .uint2 = .ret (Ex.quarter, 0) ∧
    Always NoFault (quantize c tie3 .f32 o 1 .uint2 Ex.quarter 0 .nearest τ) (span o 1) m0 (fun m =>
      Always NoFault (dequantize c' ⟨1, fun a => m (o + a)⟩ 1 .uint2 o' 12 .f32 Ex.quarter 0 .set) (span o' 12) m0' (fun m' =>
        1 / 10 + 1 / 100000 * |(f32At m' (o' + 4)).toRat| < |(f32At m' (o' + 4)).toRat - (evenValue .uint2 Ex.quarter 0 (elem .f32 tie3.data 0 1)).toRat|)) := by
  have hv : ∀ t, t < 3 → 0 ≤ (elem .f32 tie3.data 0 t).toRat ∧ (elem .f32 tie3.data 0 t).toRat ≤ 3 / 4 := by decide +kernel
  constructor
  · have hP : PArgs .f32 tie3 3 [(0, 3)] .uint2 := ⟨rfl, by decide, rfl, by omega, rfl⟩
    have hR : Range FT.f32.dtype tie3.data 3 0 (3 / 4) := by
      refine ⟨⟨⟨0, by omega, by decide +kernel⟩, ?_⟩, ⟨2, by omega, by decide +kernel⟩, ?_⟩
      · rintro v ⟨t, ht, rfl⟩; exact (hv t ht).1
      · rintro v ⟨t, ht, rfl⟩; exact (hv t ht).2
    have hF : AllFin .f32 tie3 3 := by unfold AllFin; decide +kernel
    have hsse : Sees c.isa .f32 tie3 3 [(0, 3)] := sees_small hP (by omega) (by intro _ b hb; simp only [List.mem_singleton] at hb; subst hb; decide)
    have := C22_true_range_partial (isa := c.isa) hP (by decide) hF hsse hR
    rwa [show params DType.uint2.bits 0 (3 / 4) = (Ex.quarter, 0) by decide +kernel] at this
  · have hq : QArgs c.threads tie3 .f32 .uint2 3 := ⟨rfl, rfl, rfl, hs⟩
    have hd : ∀ i, i < 3 → Fits 32 (scaled (elem .f32 tie3.data 0 i) Ex.quarter) 0 := by decide +kernel
    refine (C07_vector_nearest (c := c) (o := o) (m0 := m0) (τ := τ) hq (by norm_num) hd).mono (fun _ h => h) (fun m hm => ?_)
    have hp : (scaled (elem .f32 tie3.data 0 1) Ex.quarter).toRat = 1 / 2 := by decide +kernel
    have hc : code 2 m o 1 = 1 := by
      rcases hm 1 (by omega) with g | ⟨g, _⟩
      · rw [hp, show sat DType.uint2.bits (rha (1 / 2) + 0) = 1 by decide +kernel] at g
        exact_mod_cast g
      · rw [hp] at g
        exact absurd g (by unfold predHalf; norm_num [abs_of_pos])
    have hx : DArgs c'.threads ⟨1, fun a => m (o + a)⟩ .uint2 .f32 3 := ⟨rfl, rfl, (by decide : bytes DType.uint2.bits 3 ≤ 1), hs'⟩
    refine (C09_dequantize_f32_formula (o := o') (m0 := m0') (scale := Ex.quarter) (zp := 0) hx (fun _ _ _ h => absurd h (by decide)) (by unfold ZpSub; norm_num)).mono (fun _ h => h) (fun m' hm' => ?_)
    have h1 := hm' 1 (by omega)
    have hc' : code DType.uint2.bits (fun a => m (o + a)) 0 1 = 1 := by
      refine Eq.trans ?_ hc
      unfold code; simp only [DType.bits, Nat.zero_add]
    have h1' : f32At m' (o' + 4) = dequant Ex.quarter 0 1 := by
      rw [← hc']; exact h1
    rw [h1']
    unfold evenValue
    rw [hp]
    have hr : rte (1 / 2) = 0 := by
      have : ⌊(1:ℚ) / 2⌋ = 0 := by norm_num
      unfold rte
      rw [this]
      norm_num
    rw [hr]
    have e1 : (dequant Ex.quarter 0 1).toRat = 1 / 4 := by decide +kernel
    have e2 : (dequant Ex.quarter 0 (sat DType.uint2.bits (0 + 0)).toNat).toRat = 0 := by decide +kernel
    rw [e1, e2]
    norm_num [abs_of_pos]

/-- `C94_comparison_passes_partial` applied to a concrete case. -/
example := C94_comparison_passes_partial (c := Ex.c1) (c' := Ex.c2) (x := Ex.many) (dt := .uint8) (n := 70) (o := 1000) (o' := 2000) (s := Ex.manyS) (τ := Ex.quarter)
    (z := 128) (m0 := Ex.old) (m0' := Ex.old) (h := by wit) (hs' := by wit) (h4 := by decide) (hf := by decide +kernel) (h1 := by decide +kernel) (h2 := by decide +kernel)
    (hz0 := by decide) (hz1 := by decide) (hd := by wit)

/-- `C94_false_uint2` applied to a concrete case. -/
example := C94_false_uint2 (c := Ex.c1) (c' := Ex.c2) (o := 1000) (o' := 2000) (τ := Ex.quarter) (m0 := Ex.old) (m0' := Ex.old) (sz 3 3) (sz 3 2)

end

/-- Three bfloat16 values 1.0, -0.5, 0.125 meet the hypotheses; so does the size of the benchmark, 2^30 elements on 64 threads. -/
def benchData : InBuf := Ex.buf (Ex.words16 [0x3f80, 0xbf00, 0x3e00])

/-- `C93_false_all_codes_saturate` applied to a concrete case. -/
example := C93_false_all_codes_saturate (c := Ex.c1) (data := benchData.data) (n := 3) (o := 1000) (τ := Ex.quarter) (m0 := Ex.old) (sz 3 3) (by decide +kernel)

/-- `C93_round_trip_constant_partial` applied to a concrete case. -/
example := C93_round_trip_constant_partial (c := Ex.c1) (c' := Ex.c2) (data := benchData.data) (n := 3) (o := 1000) (o' := 2000) (τ := Ex.quarter) (m0 := Ex.old) (m0' := Ex.old)
    (sz 3 3) (sz 3 2) (by decide +kernel)

example : Sizes (2 ^ 30) 64 := ⟨by decide, by norm_num, by norm_num⟩

end Verif.Props
