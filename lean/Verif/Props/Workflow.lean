import Verif.Props.Examples
import Verif.Props.RoundTrip
import Verif.Props.QuantNeg
import Verif.Proofs.Workflow

/-!
# Using computed parameters on the data they were computed from: C53
-/

namespace Verif.Props
open Spec

variable {isa : Isa} {ft : FT} {x : InBuf} {n : Nat} {blocks : List (Nat × Nat)} {dt : DType} {c : Ctx} {o : Nat} {m0 : Mem} {s τ : F32} {z : ℤ}

/-- C53 is false for constant data: sixteen times 1e10 gets scale 1 and zero point 7 (uint4).  Quantizing
it with these parameters is undefined behaviour on the portable kernels (float to int overflow) and
gives the *smallest* code on the vector kernels. -/
theorem C53_false_large_constant : PArgs .f32 bigs 16 [(0, 16)] .uint4 ∧ AllFin .f32 bigs 16 ∧
    computeQuantConfigFromData .portable .f32 bigs [(0, 16)] .uint4 = .ret (f1, 7) ∧
    computeQuantConfigFromData .avx2 .f32 bigs [(0, 16)] .uint4 = .ret (f1, 7) ∧
    Ex.result (quantize ⟨.portable, 1, .none⟩ bigs .f32 64 8 .uint4 f1 7 .nearest f0) 64 8 Ex.old = .error .ub ∧
    Always NoFault (quantize ⟨.avx2, 1, .none⟩ bigs .f32 64 8 .uint4 f1 7 .nearest f0) (span 64 8) Ex.old (fun m => ∀ i, i < 16 → code 4 m 64 i = 0) := by
  refine ⟨⟨rfl, by decide, rfl, by omega, rfl⟩, ?_, retIs_iff (by decide +kernel), retIs_iff (by decide +kernel), by decide +kernel, ?_⟩
  · unfold AllFin; decide +kernel
  · refine (quantize_result (dtOut := .uint4) (n := 16) (l := List.replicate 8 0) ⟨rfl, rfl, rfl, sz 16 1⟩ (by decide +kernel)).mono (fun _ h => h) (fun m hm i hi => ?_)
    have hm : [m 64, m 65, m 66, m 67, m 68, m 69, m 70, m 71] = [0, 0, 0, 0, 0, 0, 0, 0] := hm
    simp only [List.cons.injEq, and_true] at hm
    obtain ⟨h0, h1, h2, h3, h4, h5, h6, h7⟩ := hm
    unfold code
    interval_cases i <;> simp [h0, h1, h2, h3, h4, h5, h6, h7]

/-- 2^31 - 256 and 2^31 - 128. -/
def farOffset : InBuf := Ex.buf (Ex.words32 [0x4efffffe, 0x4effffff])

/-- C53 is false for uint8 and non-constant data far from zero: 2^31 - 256 and 2^31 - 128 get a scale of about
1/2 and zero point 0; the scaled values exceed 2^31 and quantizing is undefined behaviour. -/
theorem C53_false_far_offset : PArgs .f32 farOffset 2 [(0, 2)] .uint8 ∧ AllFin .f32 farOffset 2 ∧
    computeQuantConfigFromData .portable .f32 farOffset [(0, 2)] .uint8 = .ret (⟨false, 1056997505⟩, 0) ∧
    Ex.result (quantize ⟨.portable, 1, .none⟩ farOffset .f32 64 2 .uint8 ⟨false, 1056997505⟩ 0 .nearest f0) 64 2 Ex.old = .error .ub := by
  refine ⟨⟨rfl, by decide, rfl, by omega, rfl⟩, ?_, retIs_iff (by decide +kernel), by decide +kernel⟩
  unfold AllFin; decide +kernel

/-- C53 is false for data with a tiny range: 0 and the smallest positive float get scale 0 and zero
point 0 (`C21_tiny_range_scale_zero`); quantizing with scale 0 is undefined behaviour. -/
theorem C53_false_tiny_range : PArgs .f32 tiny 2 [(0, 2)] .uint8 ∧ AllFin .f32 tiny 2 ∧
    computeQuantConfigFromData .portable .f32 tiny [(0, 2)] .uint8 = .ret (f0, 0) ∧
    Ex.result (quantize ⟨.portable, 1, .none⟩ tiny .f32 64 2 .uint8 f0 0 .nearest f0) 64 2 Ex.old = .error .ub :=
  ⟨C21_tiny_range_scale_zero.1, C21_tiny_range_scale_zero.2.1, C21_tiny_range_scale_zero.2.2.2, by decide +kernel⟩

/-- Moderate scaled values do not overflow. -/
theorem fits_of_abs {p : F32} (h1 : p.isFin = true) (h2 : |p.toRat| ≤ 2 ^ 30) (hz : 0 ≤ z ∧ z ≤ 255) : Fits 32 p z := by
  have h3 := rha_err p.toRat
  rw [abs_le] at h2 h3
  have h4 : (rha p.toRat : ℚ) ≤ ((2 ^ 30 + 1 : ℤ) : ℚ) := by push_cast; linarith
  have h5 : ((-2 ^ 30 - 1 : ℤ) : ℚ) ≤ (rha p.toRat : ℚ) := by push_cast; linarith
  have h4 : rha p.toRat ≤ 2 ^ 30 + 1 := by exact_mod_cast h4
  have h5 : -2 ^ 30 - 1 ≤ rha p.toRat := by exact_mod_cast h5
  refine ⟨h1, ?_, ?_⟩ <;> norm_num at h4 h5 ⊢ <;> omega

/-- C53, what holds: for non-constant finite data whose computed scale is in `[2^-126, 2^126]`, and
either a uint2/uint4 target or data with minimum ≤ 0 ≤ maximum, quantizing the data with its own
parameters never faults and every code is the saturated formula (or, at the one exceptional scaled
value, one step off).  Missing: the cases of the three counterexamples, and SSE4.2 parameter searches
over large blocks (C22). -/
theorem C53_computed_parameters_usable_partial (h : PArgs ft x n blocks dt) (hn : 0 < n) (hf : AllFin ft x n) (hs : Sees isa ft x n blocks) {lo hi : ℚ}
    (hr : Range ft.dtype x.data n lo hi) (hlt : lo < hi) (hcase : dt ≠ .uint8 ∨ (lo ≤ 0 ∧ 0 ≤ hi))
    (he : computeQuantConfigFromData isa ft x blocks dt = .ret (s, z)) (h1 : 1 / 2 ^ 126 ≤ s.toRat) (h2 : s.toRat ≤ 2 ^ 126)
    (hq : QArgs c.threads x ft.dtype dt n) :
    Always NoFault (quantize c x ft.dtype o (bytes dt.bits n) dt s z .nearest τ) (span o (bytes dt.bits n)) m0 (fun m =>
      ∀ i, i < n → (code dt.bits m o i : ℤ) = sat dt.bits (rha (scaled (elem ft.dtype x.data 0 i) s).toRat + z) ∨
        (|(scaled (elem ft.dtype x.data 0 i) s).toRat| = predHalf ∧
          (code dt.bits m o i : ℤ) = sat dt.bits ((if (scaled (elem ft.dtype x.data 0 i) s).toRat < 0 then -1 else 1) + z))) := by
  have hspos : 0 < s.toRat := lt_of_lt_of_le (by positivity) h1
  have hsf : s.isFin = true := isFin_of_abs (by
    rw [abs_of_pos hspos, emax_f32]; exact lt_of_le_of_lt h2 (by norm_num))
  have hQ := qmax_bounds h.quant
  have hQ2 : (2:ℚ) ^ dt.bits - 1 ≤ 255 := by exact_mod_cast hQ.2
  have hzr := C20_zero_point_in_range h.quant he
  rw [C22_true_range_partial h hn hf hs hr] at he
  injection he with he
  obtain ⟨⟨⟨a, ha, ea⟩, hlo⟩, ⟨b, hb, eb⟩, hhi⟩ := hr
  have hx : ∀ i, i < n → lo ≤ (elem ft.dtype x.data 0 i).toRat ∧ (elem ft.dtype x.data 0 i).toRat ≤ hi := fun i hi =>
    ⟨hlo ⟨i, hi, rfl⟩, hhi ⟨i, hi, rfl⟩⟩
  have hA := abs_lt.mp (abs_lt_of_isFin (hf a ha))
  have hB := abs_lt.mp (abs_lt_of_isFin (hf b hb))
  rw [emax_f32] at hA hB
  have hd2 : hi - lo ≤ 2 ^ 129 := by
    have : (2:ℚ) ^ 129 = 2 ^ 128 + 2 ^ 128 := by norm_num
    rw [this, ea, eb]; linarith [hA.1, hB.2]
  have hd1 : 1 / 2 ^ 149 ≤ hi - lo := by
    have hlt := hlt
    rw [ea, eb] at hlt ⊢
    have := toRat_sub_unit hlt
    rwa [unit_f32] at this
  have hstep := (abs_le.mp (params_step hQ hd1 hd2 he h1 h2)).2
  have e14 : (1:ℚ) / 2 ^ 14 ≤ 1 := by norm_num
  have hd0 : 0 ≤ hi - lo := by linarith
  have hu : ∀ i, i < n → |(elem ft.dtype x.data 0 i).toRat / s.toRat| ≤ 2 ^ 28 := fun i hi' => by
    obtain ⟨g1, g2⟩ := hx i hi'
    rw [abs_div, abs_of_pos hspos]
    rcases hcase with hc | hc
    · have k1 : |lo| ≤ 2 ^ 24 * (hi - lo) := by
        have := toRat_gap (a := elem ft.dtype x.data 0 a) (b := elem ft.dtype x.data 0 b) (by rw [← ea, ← eb]; exact hlt.ne)
        rw [← ea, ← eb, abs_sub_comm, abs_of_nonneg hd0] at this
        exact this
      have k2 : |hi| ≤ 2 ^ 24 * (hi - lo) := by
        have := toRat_gap (a := elem ft.dtype x.data 0 b) (b := elem ft.dtype x.data 0 a) (by rw [← ea, ← eb]; exact hlt.ne')
        rw [← ea, ← eb, abs_of_nonneg hd0] at this
        exact this
      have k3 : |(elem ft.dtype x.data 0 i).toRat| ≤ 2 ^ 24 * (hi - lo) := by
        rw [abs_le] at k1 k2 ⊢
        constructor <;> linarith [k1.1, k2.2]
      have hQ4 : (2:ℚ) ^ dt.bits - 1 ≤ 15 := by
        have := h.quant
        cases dt <;> simp [DType.isQuant, DType.bits] at * <;> norm_num
      calc _ ≤ 2 ^ 24 * (hi - lo) / s.toRat := div_le_div_of_nonneg_right k3 hspos.le
        _ = 2 ^ 24 * ((hi - lo) / s.toRat) := by ring
        _ ≤ 2 ^ 24 * 16 := by apply mul_le_mul_of_nonneg_left _ (by positivity); linarith
        _ ≤ _ := by norm_num
    · have k3 : |(elem ft.dtype x.data 0 i).toRat| ≤ hi - lo := by
        rw [abs_le]; constructor <;> linarith [hc.1, hc.2]
      calc _ ≤ (hi - lo) / s.toRat := div_le_div_of_nonneg_right k3 hspos.le
        _ ≤ 256 := by linarith
        _ ≤ _ := by norm_num
  have hzq : z ≤ 255 := hzr.2.1.trans hQ.2
  refine C07_vector_nearest hq (by rw [abs_of_nonneg hzr.1]; norm_num; omega) (fun i hi' => ?_)
  obtain ⟨k1, k2⟩ := scaled_bound (hf i hi') hsf h1 h2 (by norm_num) (hu i hi')
  exact fits_of_abs k1 (k2.trans (by norm_num)) ⟨hzr.1, hzq⟩

/-- `C53_computed_parameters_usable_partial` applied to a concrete case. -/
example := C53_computed_parameters_usable_partial (isa := .avx512f) (ft := .f32) (x := Ex.many) (n := 70) (blocks := Ex.blocks) (dt := .uint8)
    (c := Ex.c1) (o := 1000) (m0 := Ex.old) (s := Ex.manyS) (τ := Ex.quarter) (z := 128) (h := by wit) (hn := by wit) (hf := by wit) (hs := by wit)
    (lo := (-25 / 4)) (hi := (25 / 4)) (hr := by wit) (hlt := by wit) (hcase := by wit) (he := retIs_iff (by decide +kernel)) (h1 := by wit)
    (h2 := by wit) (hq := by wit)

/-- 100 and 101 to uint4: not around zero, yet usable. -/
example : PArgs .f32 offs 2 [(0, 2)] .uint4 ∧ AllFin .f32 offs 2 ∧ Range .f32 offs.data 2 100 101 ∧
    computeQuantConfigFromData .portable .f32 offs [(0, 2)] .uint4 = .ret (⟨false, 1032358025⟩, 0) ∧
    1 / 2 ^ 126 ≤ (⟨false, 1032358025⟩ : F32).toRat ∧ (⟨false, 1032358025⟩ : F32).toRat ≤ 2 ^ 126 := by
  have hv : ∀ t, t < 2 → 100 ≤ (elem .f32 offs.data 0 t).toRat ∧ (elem .f32 offs.data 0 t).toRat ≤ 101 := by decide +kernel
  refine ⟨⟨rfl, by decide, rfl, by omega, rfl⟩, ?_, ⟨⟨⟨0, by omega, by decide +kernel⟩, ?_⟩, ⟨1, by omega, by decide +kernel⟩, ?_⟩, retIs_iff (by decide +kernel), by decide +kernel, by decide +kernel⟩
  · unfold AllFin; decide +kernel
  · rintro v ⟨t, ht, rfl⟩; exact (hv t ht).1
  · rintro v ⟨t, ht, rfl⟩; exact (hv t ht).2

end Verif.Props
