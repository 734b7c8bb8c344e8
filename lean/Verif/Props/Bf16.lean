import Verif.Props.Examples
import Verif.Proofs.Bf16
import Verif.Proofs.Order
import Mathlib.Tactic.Linarith
import Mathlib.Tactic.NormNum
import Mathlib.Tactic.FieldSimp

/-!
# bfloat16 conversions: C29, C30
-/

namespace Verif.Props
open Spec Simd

/-! ## C29 -/

theorem magVal_bf16_top : (magVal 7 32640 : ℚ) = 512 * 2 ^ 252 ∧ (magVal 7 32639 : ℚ) = 510 * 2 ^ 252 := by
  have h1 : magVal 7 32640 = 512 * 2 ^ 252 := by decide +kernel
  have h2 : magVal 7 32639 = 510 * 2 ^ 252 := by decide +kernel
  rw [h1, h2, Nat.cast_mul, Nat.cast_mul, Nat.cast_pow]
  exact ⟨rfl, rfl⟩

/-- `roundMag` reaches the infinity code exactly from the middle between the largest bf16 and 2^128. -/
theorem bf16_overflow_iff {q : ℚ} (hq : 0 ≤ q) : 32640 ≤ roundMag 7 q ↔ 511 * 2 ^ 252 ≤ q := by
  obtain ⟨t1, t2⟩ := magVal_bf16_top
  have p3 : (0:ℚ) < 2 ^ 252 := by positivity
  generalize (2:ℚ) ^ 252 = P at *
  constructor
  · intro h
    by_contra hlt
    push Not at hlt
    have hv : (512 * P : ℚ) ≤ magVal 7 (roundMag 7 q) := by
      rw [← t1]; exact_mod_cast magVal_mono 7 h
    have hn := roundMag_nearest 7 hq 32639
    rw [abs_of_nonneg (by linarith)] at hn
    rcases le_or_gt q (510 * P) with hc | hc
    · have := roundMag_le_of_le (mb := 7) (b := 32639) hq (by rw [t2]; exact hc)
      omega
    · rw [t2, abs_of_nonpos (by linarith)] at hn
      linarith
  · intro h
    by_contra hlt
    have hlt : roundMag 7 q ≤ 32639 := by omega
    have hv : (magVal 7 (roundMag 7 q) : ℚ) ≤ 510 * P := by
      rw [← t2]; exact_mod_cast magVal_mono 7 hlt
    rcases le_or_gt (512 * P) q with hc | hc
    · have := le_roundMag_of_le (mb := 7) (b := 32640) (q := q) (by rw [t1]; exact hc)
      omega
    have hn := roundMag_nearest 7 hq 32640
    have h1 : |(magVal 7 (roundMag 7 q) : ℚ) - q| = q - magVal 7 (roundMag 7 q) := by
      rw [abs_of_nonpos (by linarith)]; ring
    rw [h1, t1, abs_of_nonneg (by linarith)] at hn
    have he : (magVal 7 (roundMag 7 q) : ℚ) = 510 * P := by linarith
    have hq' : q = 511 * P := by linarith
    have hr : roundMag 7 q = 32639 := by
      have : (magVal 7 (roundMag 7 q) : ℚ) = magVal 7 32639 := by rw [he, t2]
      exact magVal_inj (mb := 7) (by exact_mod_cast this)
    have := roundMag_tie_even (mb := 7) (by norm_num) hq (b := 32640) (by omega)
      (by rw [h1, t1, abs_of_nonneg (by linarith), he, hq']; ring)
    omega

theorem ofBits_toBits_bf16 {y : Flt bf16} (h : y.mag < 32768) : Flt.ofBits bf16 y.toBits = y := by
  obtain ⟨s, m⟩ := y
  unfold Flt.ofBits Flt.toBits
  rw [magLim_bf16]
  simp only at h ⊢
  cases s
  · simp only [Bool.false_eq_true, if_false, Flt.mk.injEq, decide_eq_false_iff_not]; omega
  · simp only [if_true, Flt.mk.injEq, decide_eq_true_eq]; omega

/-- C29. Conversion of a finite float: the result keeps the sign, is not a NaN; it is finite exactly
when the value is below the rounding overflow threshold `2^128 - 2^119`; a finite result is a
nearest bf16 value, and when another bf16 value is equally near, the result is the one with an even
last bit. -/
theorem C29_bf16_nearest_even {v : F32} (hf : v.isFin = true) :
    f32ToBf16 v < 65536 ∧
    (Flt.ofBits bf16 (f32ToBf16 v)).neg = v.neg ∧
    (Flt.ofBits bf16 (f32ToBf16 v)).isNaN = false ∧
    ((Flt.ofBits bf16 (f32ToBf16 v)).isFin = true ↔ |v.toRat| < 2 ^ 128 - 2 ^ 119) ∧
    ((Flt.ofBits bf16 (f32ToBf16 v)).isFin = true → ∀ z : Flt bf16, z.isFin = true →
      |(Flt.ofBits bf16 (f32ToBf16 v)).toRat - v.toRat| ≤ |z.toRat - v.toRat| ∧
      (z.toRat ≠ (Flt.ofBits bf16 (f32ToBf16 v)).toRat → |z.toRat - v.toRat| = |(Flt.ofBits bf16 (f32ToBf16 v)).toRat - v.toRat| →
        f32ToBf16 v % 2 = 0)) := by
  have hm : v.mag < 2139095040 := by
    have : v.mag < f32.infMag := by simpa [Flt.isFin] using hf
    rwa [infMag_f32] at this
  have hv : v.Valid := by unfold Flt.Valid; rw [magLim_f32]; omega
  have hn : v.isNaN = false := by
    unfold Flt.isNaN; rw [infMag_f32]; simp; omega
  have hi : ¬ v.isInf = true := by
    unfold Flt.isInf; rw [infMag_f32]; simp; omega
  have hcv : Flt.cvt bf16 v = ⟨v.neg, Flt.roundAbs bf16 v.absRat⟩ := by
    unfold Flt.cvt
    rw [if_neg (by simp [hn]), if_neg hi]
  have e : f32ToBf16 v = (Flt.cvt bf16 v).toBits := f32ToBf16_cvt hv hn
  have hmag : Flt.roundAbs bf16 v.absRat ≤ 32640 := by
    unfold Flt.roundAbs; rw [infMag_bf16]; exact min_le_left _ _
  have hy : Flt.ofBits bf16 (f32ToBf16 v) = ⟨v.neg, Flt.roundAbs bf16 v.absRat⟩ := by
    rw [e, hcv, ofBits_toBits_bf16 (by simp only; omega)]
  have hbits : f32ToBf16 v = (if v.neg then 32768 else 0) + Flt.roundAbs bf16 v.absRat := by
    rw [e, hcv]; unfold Flt.toBits; rw [magLim_bf16]
  have hq0 : 0 ≤ v.absRat * 2 ^ 133 := mul_nonneg (absRat_nonneg v) (by positivity)
  have habs : |v.toRat| = v.absRat := by
    unfold Flt.toRat; split <;> simp [abs_of_nonneg (absRat_nonneg v)]
  have hfin : (Flt.ofBits bf16 (f32ToBf16 v)).isFin = true ↔ roundMag 7 (v.absRat * 2 ^ 133) < 32640 := by
    rw [hy]; unfold Flt.isFin Flt.roundAbs
    rw [infMag_bf16, unit_bf16, decide_eq_true_eq]
    simp only
    rw [show bf16.mb = 7 from rfl]
    omega
  refine ⟨by rw [hbits]; split <;> omega, by rw [hy], ?_, ?_, ?_⟩
  · rw [hy]; unfold Flt.isNaN; rw [infMag_bf16]; simp; omega
  · rw [hfin, habs, ← not_le, bf16_overflow_iff hq0, not_le]
    have p1 : (511:ℚ) * 2 ^ 252 = (2 ^ 128 - 2 ^ 119) * 2 ^ 133 := by norm_num
    rw [p1]
    exact mul_lt_mul_iff_left₀ (by positivity)
  · intro hyf z hz
    have hr := hfin.1 hyf
    have hra : Flt.roundAbs bf16 v.absRat = roundMag 7 (v.absRat * 2 ^ 133) := by
      unfold Flt.roundAbs; rw [infMag_bf16, unit_bf16, show bf16.mb = 7 from rfl]; omega
    have hya : (⟨v.neg, Flt.roundAbs bf16 v.absRat⟩ : Flt bf16).absRat = (magVal 7 (roundMag 7 (v.absRat * 2 ^ 133)) : ℚ) / 2 ^ 133 := by
      rw [hra]; rfl
    have hza : z.absRat = (magVal 7 z.mag : ℚ) / 2 ^ 133 := by
      unfold Flt.absRat; rw [unit_bf16, show bf16.mb = 7 from rfl]
    have hdist : |(⟨v.neg, Flt.roundAbs bf16 v.absRat⟩ : Flt bf16).toRat - v.toRat| = |(⟨v.neg, Flt.roundAbs bf16 v.absRat⟩ : Flt bf16).absRat - v.absRat| := by
      unfold Flt.toRat
      simp only
      cases v.neg
      · simp
      · simp only [if_true]; rw [← abs_neg]; congr 1; ring
    have scale : ∀ a : ℚ, |a / 2 ^ 133 - v.absRat| = |a - v.absRat * 2 ^ 133| / 2 ^ 133 := by
      intro a
      rw [← abs_of_pos (show (0:ℚ) < 2 ^ 133 by positivity), ← abs_div, abs_of_pos (show (0:ℚ) < 2 ^ 133 by positivity)]
      congr 1; field_simp
    have hnear : |(⟨v.neg, Flt.roundAbs bf16 v.absRat⟩ : Flt bf16).absRat - v.absRat| ≤ |z.absRat - v.absRat| := by
      rw [hya, hza, scale, scale]
      exact div_le_div_of_nonneg_right (roundMag_nearest 7 hq0 z.mag) (by positivity)
    have hzabs : |z.toRat| = z.absRat := by
      unfold Flt.toRat; split <;> simp [abs_of_nonneg (absRat_nonneg z)]
    have hrev : |z.absRat - v.absRat| ≤ |z.toRat - v.toRat| := by
      rw [← hzabs, ← habs]; exact abs_abs_sub_abs_le_abs_sub _ _
    rw [hy, hdist]
    refine ⟨hnear.trans hrev, fun hne heq => ?_⟩
    have heq2 : |z.absRat - v.absRat| = |(⟨v.neg, Flt.roundAbs bf16 v.absRat⟩ : Flt bf16).absRat - v.absRat| := by
      apply le_antisymm _ hnear
      rw [← heq]; exact hrev
    have hodd : f32ToBf16 v % 2 = roundMag 7 (v.absRat * 2 ^ 133) % 2 := by
      rw [hbits, hra]; split <;> omega
    rw [hodd]
    by_cases hmz : z.mag = roundMag 7 (v.absRat * 2 ^ 133)
    · -- same magnitude, opposite sign
      have ha : z.absRat = (⟨v.neg, Flt.roundAbs bf16 v.absRat⟩ : Flt bf16).absRat := by rw [hza, hya, hmz]
      by_cases hv0 : v.absRat = 0
      · rw [hv0, zero_mul]
        have : roundMag 7 (0:ℚ) = 0 := by
          have := roundMag_magVal 7 0
          rwa [magVal_zero, Nat.cast_zero] at this
        rw [this]
      · exfalso
        have hpos : 0 < v.absRat := lt_of_le_of_ne (absRat_nonneg v) (Ne.symm hv0)
        have hsg : z.neg ≠ v.neg := by
          intro h; apply hne
          unfold Flt.toRat; simp only; rw [h, ha]
        have hzp : 0 < z.absRat := by
          rcases lt_or_eq_of_le (absRat_nonneg z) with h | h
          · exact h
          · exfalso; apply hne
            unfold Flt.toRat
            simp only
            rw [← ha, ← h]; simp
        have hsum : |z.toRat - v.toRat| = z.absRat + v.absRat := by
          unfold Flt.toRat
          cases hz1 : z.neg <;> cases hv1 : v.neg
          · exact absurd (hz1.trans hv1.symm) hsg
          · simp only [Bool.false_eq_true, if_false, if_true]; rw [abs_of_nonneg (by linarith)]; ring
          · simp only [Bool.false_eq_true, if_false, if_true]; rw [abs_of_nonpos (by linarith)]; ring
          · exact absurd (hz1.trans hv1.symm) hsg
        rw [hsum, ← ha] at heq
        rcases abs_cases (z.absRat - v.absRat) with ⟨h, _⟩ | ⟨h, _⟩ <;> rw [h] at heq <;> linarith
    · refine roundMag_tie_even (by norm_num) hq0 hmz ?_
      rw [hya, hza, scale, scale] at heq2
      have hp : (0:ℚ) < 2 ^ 133 := by positivity
      rwa [div_left_inj' hp.ne'] at heq2

/-- `C29_bf16_nearest_even` applied to a concrete case. -/
example := C29_bf16_nearest_even (v := Ex.tenth) (hf := by wit)

/-- C29. Infinities convert to the infinity of the same sign. -/
theorem C29_bf16_infinity {v : F32} (hi : v.isInf = true) :
    (Flt.ofBits bf16 (f32ToBf16 v)).isInf = true ∧ (Flt.ofBits bf16 (f32ToBf16 v)).neg = v.neg := by
  have hm : v.mag = 2139095040 := by
    have : v.mag = f32.infMag := by simpa [Flt.isInf] using hi
    rwa [infMag_f32] at this
  obtain ⟨s, m⟩ := v
  simp only at hm; subst hm
  cases s <;> decide +kernel

/-- `C29_bf16_infinity` applied to a concrete case. -/
example := C29_bf16_infinity (v := ⟨true, 0x7f800000⟩) (hi := by wit)

/-- C29. A NaN stays a NaN of the same sign (and becomes quiet: bit 6 is set). -/
theorem C29_bf16_nan {v : F32} (hv : v.Valid) (hn : v.isNaN = true) :
    (Flt.ofBits bf16 (f32ToBf16 v)).isNaN = true ∧ (Flt.ofBits bf16 (f32ToBf16 v)).neg = v.neg ∧ f32ToBf16 v / 64 % 2 = 1 ∧ f32ToBf16 v < 65536 := by
  obtain ⟨e, h1, h2, h3⟩ := f32ToBf16_nan hv hn
  refine ⟨h1, h2, ?_, h3⟩
  rw [e]
  have := congrArg (fun b => b.toNat) (Nat.testBit_or (v.toBits / 65536) 64 6)
  have h64 : Nat.testBit 64 6 = true := by decide
  rw [h64, Bool.or_true, Nat.testBit_eq_decide_div_mod_eq] at this
  simp at this
  omega

/-- `C29_bf16_nan` applied to a concrete case. -/
example := C29_bf16_nan (v := ⟨true, 0x7f800001⟩) (hv := by unfold Flt.Valid; decide) (hn := by wit)

/-- C29. Widening a bf16 is exact, and converting it back gives the same bf16, except that a
signalling NaN (bit 6 clear) comes back quiet. -/
theorem C29_bf16_roundtrip {w : Nat} (hw : w < 65536) :
    ((Flt.ofBits bf16 w).isNaN = false → f32ToBf16 (bf16ToF32 w) = w) ∧
    ((Flt.ofBits bf16 w).isNaN = true → w / 64 % 2 = 1 → f32ToBf16 (bf16ToF32 w) = w) ∧
    ((Flt.ofBits bf16 w).isFin = true → (bf16ToF32 w).isFin = true ∧ (bf16ToF32 w).toRat = (Flt.ofBits bf16 w).toRat) := by
  have hnan : (Flt.ofBits bf16 w).isNaN = decide (32640 < w % 32768) := by
    unfold Flt.isNaN Flt.ofBits; rw [infMag_bf16, magLim_bf16]
  refine ⟨fun h => ?_, fun h hb => ?_, fun h => ?_⟩
  · rw [bf16_roundtrip hw, if_neg]; rw [hnan] at h; simpa using h
  · rw [bf16_roundtrip hw, if_pos (by rw [hnan] at h; simpa using h)]
    apply Nat.eq_of_testBit_eq
    intro i
    rw [Nat.testBit_or]
    have h64 : Nat.testBit 64 i = decide (6 = i) := by
      rw [show (64:Nat) = 2 ^ 6 by norm_num, Nat.testBit_two_pow]
    rw [h64]
    by_cases hi : 6 = i
    · subst hi
      have : w.testBit 6 = true := by rw [Nat.testBit_eq_decide_div_mod_eq]; simpa using hb
      rw [this]; rfl
    · simp [hi]
  · have hlt : w % 32768 < 32640 := by
      unfold Flt.isFin Flt.ofBits at h; rw [infMag_bf16, magLim_bf16] at h; simpa using h
    have hmm : (bf16ToF32 w).mag = w % 32768 * 65536 := by
      unfold bf16ToF32 Flt.ofBits; rw [magLim_f32]; simp only; omega
    have hng : (bf16ToF32 w).neg = (Flt.ofBits bf16 w).neg := by
      unfold bf16ToF32 Flt.ofBits; rw [magLim_f32, magLim_bf16]; simp only
      congr 1; rw [eq_iff_iff]; omega
    refine ⟨?_, ?_⟩
    · unfold Flt.isFin; rw [infMag_f32, hmm, decide_eq_true_eq]; omega
    · have habs : (bf16ToF32 w).absRat = (Flt.ofBits bf16 w).absRat := by
        unfold Flt.absRat
        rw [hmm, unit_f32, unit_bf16, show f32.mb = 23 from rfl, show bf16.mb = 7 from rfl]
        have hb : (Flt.ofBits bf16 w).mag = w % 32768 := by unfold Flt.ofBits; rw [magLim_bf16]
        rw [hb]
        have : magVal 23 (w % 32768 * 65536) = magVal 7 (w % 32768) * 65536 := by
          generalize w % 32768 = a
          unfold magVal
          by_cases h7 : a < 2 ^ 7
          · rw [if_pos (by omega), if_pos h7]
          · rw [if_neg (by omega), if_neg h7]
            have e1 : a * 65536 % 2 ^ 23 = a % 2 ^ 7 * 65536 := by omega
            have e2 : a * 65536 / 2 ^ 23 = a / 2 ^ 7 := by omega
            rw [e1, e2]; ring
        rw [this]
        push_cast
        rw [div_eq_div_iff (by positivity) (by positivity)]
        have : (2:ℚ) ^ 149 = 65536 * 2 ^ 133 := by norm_num
        rw [this]; ring
      unfold Flt.toRat
      rw [hng, habs]

/-- `C29_bf16_roundtrip` applied to a concrete case. -/
example := C29_bf16_roundtrip (w := 0x7f81) (hw := by wit)

/-- A tie (0x3f808000 is halfway between 0x3f80 and 0x3f81) and the overflow threshold. -/
example : f32ToBf16 (Flt.ofBits f32 0x3f808000) = 0x3f80 ∧ f32ToBf16 (Flt.ofBits f32 0x3f818000) = 0x3f82 ∧
    f32ToBf16 (Flt.ofBits f32 0x7f7f7fff) = 0x7f7f ∧ f32ToBf16 (Flt.ofBits f32 0x7f7f8000) = 0x7f80 := by decide +kernel
example : (Flt.ofBits f32 0x3f808000).isFin = true ∧ (Flt.ofBits f32 0x7fffffff).isNaN = true := by decide

/-! ## C30 -/

/-- C30 is false of the code, AVX-512 without BF16: a NaN with a large payload becomes `-0.0`,
`-1.4e-45…` (0x8001), or `+1.4e-45…` — not a NaN. -/
theorem C30_false_nan_becomes_number :
    (Flt.ofBits f32 0x7fff0000).isNaN = true ∧ (Flt.ofBits f32 0x7fffffff).isNaN = true ∧
    (cvt_ps_to_bf16 (n := 16) .avx512f (fun _ => Flt.ofBits f32 0x7fff0000)) 0 = 0x8000 ∧
    (cvt_ps_to_bf16 (n := 16) .avx512f (fun _ => Flt.ofBits f32 0x7fffffff)) 0 = 0x8001 ∧
    (Flt.ofBits bf16 0x8000).isNaN = false ∧ (Flt.ofBits bf16 0x8001).isNaN = false ∧
    f32ToBf16 (Flt.ofBits f32 0x7fff0000) = 0x7fff := by decide +kernel

/-- C30 is false of the code, AVX-512 with BF16: denormals are flushed to zero, the scalar code
keeps them. -/
theorem C30_false_denormal_flushed :
    (cvt_ps_to_bf16 (n := 16) .avx512bf16 (fun _ => Flt.ofBits f32 0x00400000)) 0 = 0 ∧
    f32ToBf16 (Flt.ofBits f32 0x00400000) = 0x0040 ∧ (Flt.ofBits bf16 0x0040).toRat ≠ 0 := by decide +kernel

/-- C30, what holds: for every lane that is not a NaN (and, with BF16 instructions, is zero, infinite
or normal) the vector conversion gives the bits of the scalar conversion. -/
theorem C30_vector_conversion_partial {n : Nat} {isa : Isa} (a : V n F32) (j : Fin n) (hn : (a j).isNaN = false)
    (hd : isa = .avx512bf16 → (a j).mag = 0 ∨ 2 ^ 23 ≤ (a j).mag) :
    cvt_ps_to_bf16 isa a j = f32ToBf16 (a j) := by
  have hm : (a j).mag ≤ 2139095040 := by
    have : ¬ f32.infMag < (a j).mag := by simpa [Flt.isNaN] using hn
    rw [infMag_f32] at this; omega
  have hu : (a j).toBits % 2147483648 = (a j).mag ∧ (a j).toBits < 4294967296 := by rw [toBits_eq]; split <;> omega
  unfold cvt_ps_to_bf16 f32ToBf16
  split
  · rename_i h
    exact cvtnepsBits_eq (by rw [hu.1]; rcases hd h with h | h <;> omega) hu.2
  · exact cvtPsBf16Bits_eq (by rw [hu.1]; exact hm) hu.2

/-- `C30_vector_conversion_partial` applied to a concrete case. -/
example := C30_vector_conversion_partial (n := 16) (isa := .avx512f) (a := fun _ => Ex.tenth) (j := 3) (hn := by wit) (hd := by wit)

example : (Flt.ofBits f32 0x3f808000).Valid ∧ (Flt.ofBits f32 0x3f808000).isNaN = false ∧ 2 ^ 23 ≤ (Flt.ofBits f32 0x3f808000).mag := by
  unfold Flt.Valid; decide +kernel

end Verif.Props
