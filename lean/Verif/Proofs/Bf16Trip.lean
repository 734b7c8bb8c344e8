import Verif.Props.Dequant
import Verif.Props.Bf16
import Verif.Proofs.RoundTrip2

/-! # Round trips through bf16 output: numerical part -/

namespace Verif
open Spec Props

theorem emax_bf16 : bf16.emax = 128 := by decide

/-- The value of the nearest bf16. -/
theorem cvt_toRat {v : F32} (hf : v.isFin = true) : (Flt.cvt bf16 v).toRat = flr bf16 v.toRat := by
  have hm : v.mag < f32.infMag := by simpa [Flt.isFin] using hf
  have hn : ¬ v.isNaN = true := by unfold Flt.isNaN; simp; omega
  have hi : ¬ v.isInf = true := by unfold Flt.isInf; simp; omega
  unfold Flt.cvt
  rw [if_neg hn, if_neg hi]
  have hz : fl bf16 0 = 0 := by have := flr_zero (f := bf16); unfold flr at this; simpa using this
  unfold Flt.toRat flr
  rw [absRat_mk]
  cases v.neg
  · simp only [Bool.false_eq_true, if_false]
    rw [if_neg (not_lt.mpr (absRat_nonneg v)), abs_of_nonneg (absRat_nonneg v)]
  · simp only [if_true]
    rcases eq_or_lt_of_le (absRat_nonneg v) with h | h
    · rw [← h, neg_zero, if_neg (lt_irrefl _), abs_zero, hz, neg_zero]
    · rw [if_pos (by linarith), abs_neg, abs_of_pos h]

/-- The stored word, read back as a float. -/
theorem isBf16_value {v : F32} {w : Nat} (hf : v.isFin = true) (hb : |v.toRat| ≤ 2 ^ 127) (h : IsBf16Of v w) :
    (Flt.ofBits f32 (65536 * w)).isFin = true ∧ (Flt.ofBits f32 (65536 * w)).toRat = flr bf16 v.toRat := by
  have hm : v.mag < f32.infMag := by simpa [Flt.isFin] using hf
  have hn : ¬ v.isNaN = true := by unfold Flt.isNaN; simp; omega
  unfold IsBf16Of at h
  rw [if_neg hn] at h
  have hv : v.Valid := by unfold Flt.Valid; rw [magLim_f32]; rw [infMag_f32] at hm; omega
  have hfl : fl bf16 |v.toRat| < 2 ^ bf16.emax := fl_fin (abs_nonneg _) (by rw [emax_bf16]; exact hb)
  have hcf : (Flt.cvt bf16 v).isFin = true := isFin_of_abs (by rw [cvt_toRat hf, abs_flr]; exact hfl)
  have hcm : (Flt.cvt bf16 v).mag < 32640 := by
    have : (Flt.cvt bf16 v).mag < bf16.infMag := by simpa [Flt.isFin] using hcf
    rwa [infMag_bf16] at this
  have hw : w < 65536 := by
    rw [h]; unfold Flt.toBits; rw [magLim_bf16]; split <;> omega
  have e : Flt.ofBits bf16 w = Flt.cvt bf16 v := by rw [h]; exact ofBits_toBits_bf16 (by omega)
  obtain ⟨g1, g2⟩ := (C29_bf16_roundtrip hw).2.2 (by rw [e]; exact hcf)
  rw [bf16ToF32_word hw] at g1 g2
  exact ⟨g1, by rw [g2, e, cvt_toRat hf]⟩

/-- A word whose magnitude bits are zero is zero. -/
theorem word_zero {w : Nat} (hw : w < 65536) (h : w % 32768 = 0) : (Flt.ofBits f32 (65536 * w)).isFin = true ∧ (Flt.ofBits f32 (65536 * w)).toRat = 0 := by
  have : w = 0 ∨ w = 32768 := by omega
  rcases this with rfl | rfl <;> decide +kernel

/-- The fused multiply-add variant of dequantization stays near `(q - zp) s`. -/
theorem fmaDequant_near16 {s : F32} {z : ℤ} {q : Nat} (hq : q ≤ 15) (hz : 0 ≤ z ∧ z ≤ 15) (hf : s.isFin = true) (h1 : 1 / 2 ^ 126 ≤ s.toRat) (h2 : s.toRat ≤ 2 ^ 119) :
    (fmaDequant s z q).isFin = true ∧ |(fmaDequant s z q).toRat - ((q:ℤ) - z : ℤ) * s.toRat| ≤ s.toRat / 2 ^ 15 := by
  have hs : 0 < s.toRat := lt_of_lt_of_le (by positivity) h1
  obtain ⟨e1, g1⟩ := ofInt_exact (f := f32) (z := z) (by rw [abs_of_nonneg hz.1]; exact hz.2.trans (by norm_num [f32]))
  obtain ⟨e2, g2⟩ := ofInt_exact (f := f32) (z := (q:ℤ)) (by rw [abs_of_nonneg (by omega)]; exact (show (q:ℤ) ≤ 15 by omega).trans (by norm_num [f32]))
  have hn : ((Flt.ofInt f32 z).negate).isFin = true := g1
  set b := Flt.mul ((Flt.ofInt f32 z).negate) s with hb
  have eb : b.toRat = flr f32 (-(z:ℚ) * s.toRat) := by rw [hb, mul_toRat hn hf, negate_toRat, e1]
  have hzq : |(-(z:ℚ))| ≤ 15 := by
    rw [abs_neg, abs_of_nonneg (by exact_mod_cast hz.1)]; exact_mod_cast hz.2
  have habs : |(-(z:ℚ)) * s.toRat| ≤ 15 * s.toRat := by
    rw [abs_mul, abs_of_pos hs]; exact mul_le_mul_of_nonneg_right hzq hs.le
  have hs15 : 64 * s.toRat ≤ 2 ^ 127 := by
    calc 64 * s.toRat ≤ 64 * 2 ^ 119 := by apply mul_le_mul_of_nonneg_left h2; norm_num
      _ ≤ _ := by norm_num
  have hmin : (1:ℚ) / 2 ^ (149 + 1) ≤ s.toRat / 2 ^ 24 := by
    rw [le_div_iff₀ (by positivity)]
    calc (1:ℚ) / 2 ^ (149 + 1) * 2 ^ 24 = 1 / 2 ^ 126 := by norm_num
      _ ≤ _ := h1
  have hfl : fl f32 |(-(z:ℚ)) * s.toRat| < 2 ^ f32.emax := by
    apply fl_fin (abs_nonneg _); rw [emax_f32]; show _ ≤ (2:ℚ) ^ 127; linarith
  have herr : |b.toRat - -(z:ℚ) * s.toRat| ≤ 15 * s.toRat / 2 ^ 24 := by
    rw [eb]
    refine (flr_err hfl).trans (max_le ?_ ?_)
    · rw [unit_f32]; refine hmin.trans ?_; apply div_le_div_of_nonneg_right _ (by positivity); linarith
    · exact div_le_div_of_nonneg_right habs (by positivity)
  have hbf : b.isFin = true := isFin_of_abs (by rw [eb, abs_flr]; exact hfl)
  have hq0 : (0:ℚ) ≤ q := by positivity
  have hq15 : (q:ℚ) ≤ 15 := by exact_mod_cast hq
  have hqs : (q:ℚ) * s.toRat ≤ 15 * s.toRat := mul_le_mul_of_nonneg_right hq15 hs.le
  have hqs0 : 0 ≤ (q:ℚ) * s.toRat := mul_nonneg hq0 hs.le
  have ef : (fmaDequant s z q).toRat = flr f32 ((q:ℚ) * s.toRat + b.toRat) := by
    have nan : ∀ {y : F32}, y.isFin = true → y.isNaN = false ∧ y.isInf = false := fun {y} h => by
      have : y.mag < f32.infMag := by simpa [Flt.isFin] using h
      unfold Flt.isNaN Flt.isInf; constructor <;> simp <;> omega
    unfold fmaDequant
    rw [← hb]
    unfold Flt.fma
    rw [(nan g2).1, (nan hf).1, (nan hbf).1, (nan g2).2, (nan hf).2, (nan hbf).2]
    simp only [Bool.or_self, Bool.false_eq_true, if_false]
    rw [ofRat_flr, e2]; push_cast; rfl
  rw [abs_le] at herr habs
  have e24 : 15 * s.toRat / 2 ^ 24 ≤ s.toRat := by
    rw [div_le_iff₀ (by positivity)]; norm_num; linarith
  have hsum : |(q:ℚ) * s.toRat + b.toRat| ≤ 32 * s.toRat := by
    rw [abs_le]; constructor <;> linarith [herr.1, herr.2, habs.1, habs.2]
  have hfl2 : fl f32 |(q:ℚ) * s.toRat + b.toRat| < 2 ^ f32.emax := by
    apply fl_fin (abs_nonneg _); rw [emax_f32]; show _ ≤ (2:ℚ) ^ 127; linarith
  refine ⟨isFin_of_abs (by rw [ef, abs_flr]; exact hfl2), ?_⟩
  have herr2 : |flr f32 ((q:ℚ) * s.toRat + b.toRat) - ((q:ℚ) * s.toRat + b.toRat)| ≤ 32 * s.toRat / 2 ^ 24 := by
    refine (flr_err hfl2).trans (max_le ?_ ?_)
    · rw [unit_f32]; refine hmin.trans ?_; apply div_le_div_of_nonneg_right _ (by positivity); linarith
    · exact div_le_div_of_nonneg_right hsum (by positivity)
  rw [ef]
  rw [abs_le] at herr2 ⊢
  push_cast
  constructor <;> norm_num at herr herr2 ⊢ <;> linarith [herr.1, herr.2, herr2.1, herr2.2]

/-- The bf16 stored for a value near `k s`, read back: within `max(|k|, 1)/256 + 2^-14` steps. -/
theorem word_near {s v : F32} {k : ℤ} {w : Nat} (hk : |k| ≤ 255) (h1 : 1 / 2 ^ 125 ≤ s.toRat) (h2 : s.toRat ≤ 2 ^ 118)
    (hf : v.isFin = true) (hv : |v.toRat - k * s.toRat| ≤ s.toRat / 2 ^ 15) (hw16 : w < 65536)
    (hw : IsBf16Of v w ∨ (|v.toRat| < 1 / 2 ^ 126 ∧ w % 32768 = 0)) :
    (Flt.ofBits f32 (65536 * w)).isFin = true ∧ |(Flt.ofBits f32 (65536 * w)).toRat - k * s.toRat| ≤ s.toRat * (max |(k:ℚ)| 1 / 2 ^ 8 + 1 / 2 ^ 14) := by
  have hs : 0 < s.toRat := lt_of_lt_of_le (by positivity) h1
  have hk' : |(k:ℚ)| ≤ 255 := by exact_mod_cast hk
  have hks : |(k:ℚ) * s.toRat| = |(k:ℚ)| * s.toRat := by rw [abs_mul, abs_of_pos hs]
  have hm1 : (1:ℚ) ≤ max |(k:ℚ)| 1 := le_max_right _ _
  have hmk : |(k:ℚ)| ≤ max |(k:ℚ)| 1 := le_max_left _ _
  have hvk : |v.toRat| ≤ |(k:ℚ)| * s.toRat + s.toRat / 2 ^ 15 := by
    have := abs_add_le (v.toRat - k * s.toRat) (k * s.toRat)
    rw [sub_add_cancel, hks] at this
    linarith
  have es : s.toRat * (max |(k:ℚ)| 1 / 2 ^ 8 + 1 / 2 ^ 14) = max |(k:ℚ)| 1 * s.toRat / 2 ^ 8 + s.toRat / 2 ^ 14 := by ring
  have hms : |(k:ℚ)| * s.toRat ≤ max |(k:ℚ)| 1 * s.toRat := mul_le_mul_of_nonneg_right hmk hs.le
  have hms1 : s.toRat ≤ max |(k:ℚ)| 1 * s.toRat := le_mul_of_one_le_left hs.le hm1
  rcases hw with hw | ⟨hw1, hw2⟩
  · have hv127 : |v.toRat| ≤ 2 ^ 127 := by
      have a1 : |(k:ℚ)| * s.toRat ≤ 255 * s.toRat := mul_le_mul_of_nonneg_right hk' hs.le
      have a2 : 256 * s.toRat ≤ 2 ^ 127 := by
        calc 256 * s.toRat ≤ 256 * 2 ^ 118 := by apply mul_le_mul_of_nonneg_left h2; norm_num
          _ ≤ _ := by norm_num
      have a3 : s.toRat / 2 ^ 15 ≤ s.toRat := div_le_self hs.le (by norm_num)
      linarith
    obtain ⟨g1, g2⟩ := isBf16_value hf hv127 hw
    refine ⟨g1, ?_⟩
    rw [g2]
    have hfl : fl bf16 |v.toRat| < 2 ^ bf16.emax := fl_fin (abs_nonneg _) (by rw [emax_bf16]; exact hv127)
    have herr : |flr bf16 v.toRat - v.toRat| ≤ max |(k:ℚ)| 1 * s.toRat / 2 ^ 8 + s.toRat / 2 ^ 23 := by
      refine (flr_err hfl).trans (max_le ?_ ?_)
      · rw [unit_bf16]
        have a0 : (1:ℚ) / 2 ^ (133 + 1) ≤ s.toRat / 2 ^ 8 := by
          rw [le_div_iff₀ (by positivity)]
          calc (1:ℚ) / 2 ^ (133 + 1) * 2 ^ 8 ≤ 1 / 2 ^ 125 := by norm_num
            _ ≤ _ := h1
        have a1 : s.toRat / 2 ^ 8 ≤ max |(k:ℚ)| 1 * s.toRat / 2 ^ 8 := div_le_div_of_nonneg_right hms1 (by positivity)
        have a2 : 0 ≤ s.toRat / 2 ^ 23 := by positivity
        linarith
      · show |v.toRat| / 2 ^ 8 ≤ _
        rw [div_le_iff₀ (by positivity)]
        have a1 : (max |(k:ℚ)| 1 * s.toRat / 2 ^ 8 + s.toRat / 2 ^ 23) * 2 ^ 8 = max |(k:ℚ)| 1 * s.toRat + s.toRat / 2 ^ 15 := by ring
        rw [a1]; linarith
    rw [es]
    rw [abs_le] at herr hv ⊢
    have a4 : s.toRat / 2 ^ 15 + s.toRat / 2 ^ 23 ≤ s.toRat / 2 ^ 14 := by norm_num; linarith
    constructor <;> linarith [herr.1, herr.2, hv.1, hv.2]
  · obtain ⟨g1, g2⟩ := word_zero hw16 hw2
    refine ⟨g1, ?_⟩
    rw [g2, zero_sub, abs_neg, hks, es]
    have hk0 : k = 0 := by
      by_contra hne
      have a1 : (1:ℚ) ≤ |(k:ℚ)| := by exact_mod_cast Int.one_le_abs hne
      have a2 : s.toRat ≤ |(k:ℚ)| * s.toRat := le_mul_of_one_le_left hs.le a1
      have a3 : |(k:ℚ)| * s.toRat ≤ |v.toRat| + s.toRat / 2 ^ 15 := by
        have := abs_sub v.toRat (v.toRat - k * s.toRat)
        rw [sub_sub_cancel, hks] at this
        linarith
      have a4 : s.toRat / 2 ^ 15 ≤ s.toRat / 2 := by norm_num; linarith
      have a5 : (1:ℚ) / 2 ^ 126 ≤ s.toRat / 2 := by
        rw [le_div_iff₀ (by positivity)]
        calc (1:ℚ) / 2 ^ 126 * 2 = 1 / 2 ^ 125 := by norm_num
          _ ≤ _ := h1
      linarith
    subst hk0
    rw [Int.cast_zero, abs_zero, zero_mul]
    positivity

/-- The scaled value of such a float is within the same distance of the integer. -/
theorem rescale_word {s y : F32} {k : ℤ} (hk : |k| ≤ 255) (hsf : s.isFin = true) (h1 : 1 / 2 ^ 126 ≤ s.toRat) (h2 : s.toRat ≤ 2 ^ 126) (hf : y.isFin = true)
    (hy : |y.toRat - k * s.toRat| ≤ s.toRat * (max |(k:ℚ)| 1 / 2 ^ 8 + 1 / 2 ^ 14)) :
    (scaled y s).isFin = true ∧ |(scaled y s).toRat - k| ≤ max |(k:ℚ)| 1 / 2 ^ 8 + 1 / 2 ^ 13 := by
  have hs : 0 < s.toRat := lt_of_lt_of_le (by positivity) h1
  have hk' : |(k:ℚ)| ≤ 255 := by exact_mod_cast hk
  have hmax : max |(k:ℚ)| 1 ≤ 255 := max_le hk' (by norm_num)
  have hq : |y.toRat / s.toRat - k| ≤ max |(k:ℚ)| 1 / 2 ^ 8 + 1 / 2 ^ 14 := by
    have : y.toRat / s.toRat - k = (y.toRat - k * s.toRat) / s.toRat := by field_simp
    rw [this, abs_div, abs_of_pos hs, div_le_iff₀ hs]; linarith
  have hq2 : max |(k:ℚ)| 1 / 2 ^ 8 + 1 / 2 ^ 14 ≤ 1 := by
    have : max |(k:ℚ)| 1 / 2 ^ 8 ≤ 255 / 2 ^ 8 := div_le_div_of_nonneg_right hmax (by positivity)
    have e : (255:ℚ) / 2 ^ 8 + 1 / 2 ^ 14 ≤ 1 := by norm_num
    linarith
  have hu : |y.toRat / s.toRat| ≤ 256 := by
    have := abs_add_le (y.toRat / s.toRat - k) k
    rw [sub_add_cancel] at this
    linarith
  obtain ⟨p1, p2⟩ := scaled_near hf hsf h1 h2 hu
  refine ⟨p1, ?_⟩
  have := abs_add_le ((scaled y s).toRat - y.toRat / s.toRat) (y.toRat / s.toRat - k)
  rw [sub_add_sub_cancel] at this
  have e13 : (1:ℚ) / 2 ^ 13 = 1 / 2 ^ 14 + 1 / 2 ^ 14 := by norm_num
  rw [e13]; linarith

/-- Such a scaled value is less than one step away. -/
theorem word_lt_one {p : ℚ} {k : ℤ} (hk : |k| ≤ 255) (h : |p - k| ≤ max |(k:ℚ)| 1 / 2 ^ 8 + 1 / 2 ^ 13) : |p - k| < 1 := by
  have hk' : |(k:ℚ)| ≤ 255 := by exact_mod_cast hk
  have hmax : max |(k:ℚ)| 1 ≤ 255 := max_le hk' (by norm_num)
  have : max |(k:ℚ)| 1 / 2 ^ 8 ≤ 255 / 2 ^ 8 := div_le_div_of_nonneg_right hmax (by positivity)
  have e : (255:ℚ) / 2 ^ 8 + 1 / 2 ^ 13 < 1 := by norm_num
  linarith

theorem word_fits {p : F32} {k z : ℤ} (hf : p.isFin = true) (hk : |k| ≤ 255) (hz : 0 ≤ z ∧ z ≤ 255) (h : |p.toRat - k| < 1) : Fits 32 p z := by
  have g2 := rha_err p.toRat
  rw [abs_lt] at h; rw [abs_le] at g2 hk
  have g3 : (rha p.toRat : ℚ) ≤ ((k + 2 : ℤ) : ℚ) := by push_cast; linarith
  have g4 : ((k - 2 : ℤ) : ℚ) ≤ (rha p.toRat : ℚ) := by push_cast; linarith
  have g3 : rha p.toRat ≤ k + 2 := by exact_mod_cast g3
  have g4 : k - 2 ≤ rha p.toRat := by exact_mod_cast g4
  refine ⟨hf, ?_, ?_⟩ <;> norm_num <;> omega

theorem word_off_by_one {p : ℚ} {k r : ℤ} (h : |p - k| < 1) (hr : NearInt p r) : k - 2 < r ∧ r < k + 2 := by
  have g2 := nearInt_err hr
  rw [abs_lt] at h; rw [abs_le] at g2
  have e25 : (1:ℚ) / 2 ^ 25 < 1 / 2 := by norm_num
  have g3 : (r:ℚ) < ((k + 2 : ℤ) : ℚ) := by push_cast; linarith
  have g4 : ((k - 2 : ℤ) : ℚ) < (r : ℚ) := by push_cast; linarith
  exact ⟨by exact_mod_cast g4, by exact_mod_cast g3⟩

theorem word_exact {p : ℚ} {k r : ℤ} (hk : |k| ≤ 127) (h : |p - k| ≤ max |(k:ℚ)| 1 / 2 ^ 8 + 1 / 2 ^ 13) (hr : NearInt p r) : r = k := by
  have hk127 : |(k:ℚ)| ≤ 127 := by exact_mod_cast hk
  have hmax : max |(k:ℚ)| 1 ≤ 127 := max_le hk127 (by norm_num)
  have hlt : |p - k| < 1 / 2 := by
    refine lt_of_le_of_lt h ?_
    have : max |(k:ℚ)| 1 / 2 ^ 8 ≤ 127 / 2 ^ 8 := div_le_div_of_nonneg_right hmax (by positivity)
    have e : (127:ℚ) / 2 ^ 8 + 1 / 2 ^ 13 < 1 / 2 := by norm_num
    linarith
  rcases hr with hr | ⟨hr, _⟩
  · rw [hr]; exact rha_near hlt
  · exfalso
    unfold predHalf at hr
    have e25 : (1:ℚ) / 2 ^ 25 ≤ 1 / 100 := by norm_num
    have e25' : (0:ℚ) ≤ 1 / 2 ^ 25 := by norm_num
    have hk1 : |(k:ℚ)| ≤ |p| + |p - k| := by
      have := abs_sub p (p - k); simpa using this
    have hlt1 : |(k:ℚ)| < 1 := by linarith
    have hk0 : k = 0 := by
      have : |k| < 1 := by exact_mod_cast hlt1
      rwa [Int.abs_lt_one_iff] at this
    subst hk0
    rw [Int.cast_zero, sub_zero, abs_zero, show max (0:ℚ) 1 = 1 by norm_num] at h
    have e : (1:ℚ) / 2 ^ 8 + 1 / 2 ^ 13 ≤ 1 / 100 := by norm_num
    linarith

end Verif
