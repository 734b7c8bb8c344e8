import Verif.Proofs.Accum
import Verif.Proofs.NaiveBf16
import Verif.Props.Bf16Trip

/-! # Error of bf16 results: numerical part -/

namespace Verif
open Spec Props

/-- One rounding to bf16. -/
theorem b16_round {q : ℚ} (h : |q| ≤ 2 ^ 127) : |flr bf16 q - q| ≤ |q| / 2 ^ 8 + 1 / 2 ^ 134 ∧ |flr bf16 q| < 2 ^ bf16.emax := by
  have hfl : fl bf16 |q| < 2 ^ bf16.emax := by
    apply fl_fin (abs_nonneg _); rw [emax_bf16]; exact h
  refine ⟨?_, by rw [abs_flr]; exact hfl⟩
  refine flr_close (le_refl _) hfl ?_ ?_
  · rw [unit_bf16]
    have : 0 ≤ |q| / 2 ^ 8 := by positivity
    have : (1:ℚ) / 2 ^ (133 + 1) = 1 / 2 ^ 134 := by norm_num
    linarith
  · show |q| / 2 ^ 8 ≤ _
    have : (0:ℚ) ≤ 1 / 2 ^ 134 := by positivity
    linarith

/-- Rounding a float to bf16, by whichever code. -/
theorem f32ToBf16_near {v : F32} (hf : v.isFin = true) (hb : |v.toRat| ≤ 2 ^ 127) :
    (bf16ToF32 (f32ToBf16 v)).isFin = true ∧ |(bf16ToF32 (f32ToBf16 v)).toRat - v.toRat| ≤ |v.toRat| / 2 ^ 8 + 1 / 2 ^ 134 := by
  obtain ⟨g1, g2⟩ := bf16_value hf hb
  exact ⟨g1, by rw [g2]; exact (b16_round hb).1⟩

/-- Integers up to 255 are bf16 values. -/
theorem bf16_int {k : ℤ} (hk : |k| ≤ 255) : (bf16ToF32 (f32ToBf16 (Flt.ofInt f32 k))).isFin = true ∧ (bf16ToF32 (f32ToBf16 (Flt.ofInt f32 k))).toRat = k := by
  obtain ⟨e1, g1⟩ := ofInt_exact (f := f32) (z := k) (hk.trans (by norm_num [f32]))
  have hk' : |(k:ℚ)| ≤ 255 := by exact_mod_cast hk
  obtain ⟨g2, g3⟩ := bf16_value g1 (by rw [e1]; exact hk'.trans (by norm_num))
  refine ⟨g2, ?_⟩
  rw [g3, e1]
  obtain ⟨e2, g4⟩ := ofInt_exact (f := bf16) (z := k) (hk.trans (by norm_num [bf16]))
  have : flr bf16 (k:ℚ) = (Flt.ofInt bf16 k).toRat := by
    unfold Flt.ofInt; rw [ofRat_flr]
  rw [this, e2]

/-- `bf16(k) * bf16(s)` in bf16. -/
theorem prod16_near {s : F32} {k : ℤ} (hk : |k| ≤ 255) (hf : s.isFin = true) (h1 : 1 / 2 ^ 112 ≤ s.toRat) (h2 : s.toRat ≤ 2 ^ 110) :
    (bf16ToF32 (bf16Mul (f32ToBf16 (Flt.ofInt f32 k)) (f32ToBf16 s))).isFin = true ∧
    |(bf16ToF32 (bf16Mul (f32ToBf16 (Flt.ofInt f32 k)) (f32ToBf16 s))).toRat - k * s.toRat| ≤ |(k:ℚ) * s.toRat| / 127 + s.toRat / 2 ^ 12 := by
  have hs : 0 < s.toRat := lt_of_lt_of_le (by positivity) h1
  have hk' : |(k:ℚ)| ≤ 255 := by exact_mod_cast hk
  obtain ⟨a1, a2⟩ := bf16_int hk
  obtain ⟨b1, b2⟩ := f32ToBf16_near hf (by rw [abs_of_pos hs]; exact h2.trans (by norm_num))
  rw [abs_of_pos hs] at b2
  set s1 := (bf16ToF32 (f32ToBf16 s)).toRat with hs1
  have hp : bf16Mul (f32ToBf16 (Flt.ofInt f32 k)) (f32ToBf16 s) = f32ToBf16 (Flt.mul (bf16ToF32 (f32ToBf16 (Flt.ofInt f32 k))) (bf16ToF32 (f32ToBf16 s))) := rfl
  set p := Flt.mul (bf16ToF32 (f32ToBf16 (Flt.ofInt f32 k))) (bf16ToF32 (f32ToBf16 s)) with hpd
  have ep : p.toRat = flr f32 (k * s1) := by rw [hpd, mul_toRat a1 b1, a2]
  set a := |(k:ℚ) * s.toRat| with ha
  have ha' : a = |(k:ℚ)| * s.toRat := by rw [ha, abs_mul, abs_of_pos hs]
  have hale : a ≤ 255 * s.toRat := by rw [ha']; exact mul_le_mul_of_nonneg_right hk' hs.le
  have ha0 : 0 ≤ a := abs_nonneg _
  have c1 : |(k:ℚ) * s1 - k * s.toRat| ≤ a / 2 ^ 8 + 255 / 2 ^ 134 := by
    rw [← mul_sub, abs_mul]
    calc |(k:ℚ)| * |s1 - s.toRat| ≤ |(k:ℚ)| * (s.toRat / 2 ^ 8 + 1 / 2 ^ 134) := mul_le_mul_of_nonneg_left b2 (abs_nonneg _)
      _ = |(k:ℚ)| * s.toRat / 2 ^ 8 + |(k:ℚ)| * (1 / 2 ^ 134) := by ring
      _ ≤ a / 2 ^ 8 + 255 * (1 / 2 ^ 134) := by
        rw [ha']; have := mul_le_mul_of_nonneg_right hk' (show (0:ℚ) ≤ 1 / 2 ^ 134 by positivity); linarith
      _ = _ := by ring
  have c2 : |(k:ℚ) * s1| ≤ a + a / 2 ^ 8 + 255 / 2 ^ 134 := by
    have := abs_add_le ((k:ℚ) * s1 - k * s.toRat) (k * s.toRat)
    rw [sub_add_cancel] at this
    linarith
  have t1 : (1:ℚ) / 2 ^ 112 ≤ s.toRat := h1
  have t2 : s.toRat ≤ 2 ^ 110 := h2
  have tiny : (255:ℚ) / 2 ^ 134 ≤ s.toRat / 2 ^ 14 := by
    rw [le_div_iff₀ (by positivity)]
    exact le_trans (by norm_num) h1
  have tiny2 : (1:ℚ) / 2 ^ 150 ≤ s.toRat / 2 ^ 20 := by
    rw [le_div_iff₀ (by positivity)]
    exact le_trans (by norm_num) h1
  have tiny3 : (1:ℚ) / 2 ^ 134 ≤ s.toRat / 2 ^ 20 := by
    rw [le_div_iff₀ (by positivity)]
    exact le_trans (by norm_num) h1
  have big : 1000 * s.toRat ≤ 2 ^ 127 := by
    calc 1000 * s.toRat ≤ 1000 * 2 ^ 110 := by linarith
      _ ≤ _ := by norm_num
  set σ := s.toRat with hσ
  obtain ⟨d1, d2⟩ := flr_sum (q := (k:ℚ) * s1) (by linarith)
  have pf : p.isFin = true := isFin_of_abs (by rw [ep]; exact d2)
  have c3 : |p.toRat - k * s1| ≤ (a + a / 2 ^ 8 + 255 / 2 ^ 134) / 2 ^ 24 + 1 / 2 ^ 150 := by
    rw [ep]
    have : |(k:ℚ) * s1| / 2 ^ 24 ≤ (a + a / 2 ^ 8 + 255 / 2 ^ 134) / 2 ^ 24 := div_le_div_of_nonneg_right c2 (by positivity)
    linarith
  have c4 : |p.toRat| ≤ a + a / 2 ^ 7 + σ / 2 ^ 13 := by
    have h := abs_add_le (p.toRat - k * s1) (k * s1)
    rw [sub_add_cancel] at h
    linarith
  obtain ⟨e1, e2⟩ := f32ToBf16_near pf (by linarith)
  rw [hp]
  refine ⟨e1, ?_⟩
  set y := (bf16ToF32 (f32ToBf16 p)).toRat
  have f1 : |y - k * σ| ≤ |y - p.toRat| + |p.toRat - k * s1| + |(k:ℚ) * s1 - k * σ| := by
    have h1 := abs_add_le (y - p.toRat) (p.toRat - k * s1)
    have h2 := abs_add_le (y - p.toRat + (p.toRat - k * s1)) ((k:ℚ) * s1 - k * σ)
    have : y - p.toRat + (p.toRat - k * s1) + ((k:ℚ) * s1 - k * σ) = y - k * σ := by ring
    rw [this] at h2
    linarith
  have f2 : |p.toRat| / 2 ^ 8 ≤ (a + a / 2 ^ 7 + σ / 2 ^ 13) / 2 ^ 8 := div_le_div_of_nonneg_right c4 (by positivity)
  linarith

/-- A bf16 sum, through float32. -/
theorem sum16_near {u v : F32} (hu : u.isFin = true) (hv : v.isFin = true) (hb : |u.toRat + v.toRat| ≤ 2 ^ 126) :
    (bf16ToF32 (f32ToBf16 (Flt.add u v))).isFin = true ∧
    |(bf16ToF32 (f32ToBf16 (Flt.add u v))).toRat - (u.toRat + v.toRat)| ≤ |u.toRat + v.toRat| / 255 + 1 / 2 ^ 133 := by
  have e : (Flt.add u v).toRat = flr f32 (u.toRat + v.toRat) := add_toRat hu hv
  have h127 : (2:ℚ) ^ 126 * 2 = 2 ^ 127 := by norm_num
  have h0 : (0:ℚ) ≤ 2 ^ 126 := by positivity
  have h150 : (1:ℚ) / 2 ^ 150 ≤ 1 := by norm_num
  have h1 : (1:ℚ) ≤ 2 ^ 126 := by norm_num
  obtain ⟨d1, d2⟩ := flr_sum (q := u.toRat + v.toRat) (by linarith)
  have hf : (Flt.add u v).isFin = true := isFin_of_abs (by rw [e]; exact d2)
  set q := u.toRat + v.toRat
  have c1 : |(Flt.add u v).toRat| ≤ |q| + |q| / 2 ^ 24 + 1 / 2 ^ 150 := by
    rw [e]
    have := abs_add_le (flr f32 q - q) q
    rw [sub_add_cancel] at this
    linarith
  have q0 := abs_nonneg q
  obtain ⟨e1, e2⟩ := f32ToBf16_near hf (by
    have : |q| / 2 ^ 24 ≤ 2 ^ 126 / 2 ^ 24 := div_le_div_of_nonneg_right hb (by positivity)
    have : (2:ℚ) ^ 126 / 2 ^ 24 + 1 ≤ 2 ^ 126 := by norm_num
    linarith)
  refine ⟨e1, ?_⟩
  have f2 : |(Flt.add u v).toRat| / 2 ^ 8 ≤ (|q| + |q| / 2 ^ 24 + 1 / 2 ^ 150) / 2 ^ 8 := div_le_div_of_nonneg_right c1 (by positivity)
  rw [← e] at d1
  have h := abs_add_le ((bf16ToF32 (f32ToBf16 (Flt.add u v))).toRat - (Flt.add u v).toRat) ((Flt.add u v).toRat - q)
  rw [sub_add_sub_cancel] at h
  have t : (1:ℚ) / 2 ^ 150 + 1 / 2 ^ 150 / 2 ^ 8 + 1 / 2 ^ 134 ≤ 1 / 2 ^ 133 := by norm_num
  linarith

end Verif
