import Verif.Proofs.DqVal

/-! # Comparison of floats; error of dequantize-then-quantize -/

namespace Verif
open Spec

variable {f : Fmt}

theorem toRat_lt_of_inf [f.Good] {a : Flt f} (h : a.isInf = true) : a.toRat = if a.neg then -2 ^ f.emax else 2 ^ f.emax := by
  have hm : a.mag = f.infMag := by simpa [Flt.isInf] using h
  have : a.absRat = 2 ^ f.emax := by
    have := absRat_inf (f := f) a.neg
    unfold Flt.inf at this
    rw [← hm] at this
    exact this
  unfold Flt.toRat; rw [this]

theorem fin_or_inf {a : Flt f} (h : a.isNaN = false) : a.isFin = true ∨ a.isInf = true := by
  unfold Flt.isNaN at h; unfold Flt.isFin Flt.isInf
  simp at *; omega

theorem lt_iff [f.Good] {a b : Flt f} (ha : a.isNaN = false) (hb : b.isNaN = false) : Flt.lt a b = decide (a.toRat < b.toRat) := by
  unfold Flt.lt
  rw [ha, hb]
  have hpos : (0:ℚ) < 2 ^ f.emax := by positivity
  have fin : ∀ {x : Flt f}, x.isFin = true → x.isInf = false ∧ -2 ^ f.emax < x.toRat ∧ x.toRat < 2 ^ f.emax := by
    intro x hx
    have h1 := (isFin_not_nan hx).2
    have h2 := abs_lt.mp (abs_lt_of_isFin hx)
    exact ⟨h1, h2.1, h2.2⟩
  rcases fin_or_inf ha with h1 | h1 <;> rcases fin_or_inf hb with h2 | h2
  · rw [(fin h1).1, (fin h2).1]; simp
  · rw [(fin h1).1, h2, toRat_lt_of_inf h2]
    obtain ⟨_, g1, g2⟩ := fin h1
    cases b.neg
    · simp [g2]
    · simp; linarith
  · rw [h1, (fin h2).1, toRat_lt_of_inf h1]
    obtain ⟨_, g1, g2⟩ := fin h2
    cases a.neg
    · simp; linarith
    · simp [g1]
  · rw [h1, h2, toRat_lt_of_inf h1, toRat_lt_of_inf h2]
    cases a.neg <;> cases b.neg <;> simp <;> linarith

/-! ## Monotonicity of dequantization -/

theorem ofInt_toRat [f.Good] (z : ℤ) : (Flt.ofInt f z).toRat = flr f z := by unfold Flt.ofInt; exact ofRat_flr _ _

theorem ofInt_fin32 {z : ℤ} (h : |z| ≤ 2 ^ 64) : (Flt.ofInt f32 z).isFin = true := by
  apply isFin_of_abs
  rw [ofInt_toRat, abs_flr]
  apply fl_fin (abs_nonneg _)
  rw [emax_f32]
  have : |(z:ℚ)| ≤ 2 ^ 64 := by exact_mod_cast h
  refine this.trans ?_
  norm_num

theorem mul_fin_nan {a b : Flt f} (ha : a.isFin = true) (hb : b.isFin = true) : (Flt.mul a b).isNaN = false := by
  rw [mul_fin_eq ha hb]
  simp [Flt.isNaN, Flt.roundAbs]

theorem dequant_toRat {scale : F32} {zp : ℤ} {q : Nat} (hs : scale.isFin = true) (hz : ZpSub zp) (hq : q < 256) :
    (dequant scale zp q).toRat = flr f32 (flr f32 ((q:ℤ) - zp : ℤ) * scale.toRat) ∧ (dequant scale zp q).isNaN = false := by
  have h : (Flt.ofInt f32 ((q:ℤ) - zp)).isFin = true := ofInt_fin32 (by unfold ZpSub at hz; rw [abs_le]; omega)
  unfold dequant
  refine ⟨?_, mul_fin_nan h hs⟩
  rw [mul_toRat h hs, ofInt_toRat]

theorem dequant_mono {scale : F32} {zp : ℤ} {q r : Nat} (hs : scale.isFin = true) (h0 : 0 ≤ scale.toRat) (hz : ZpSub zp) (hq : q < 256) (hr : r < 256) (hqr : q ≤ r) :
    (dequant scale zp q).toRat ≤ (dequant scale zp r).toRat := by
  rw [(dequant_toRat hs hz hq).1, (dequant_toRat hs hz hr).1]
  apply flr_mono
  apply mul_le_mul_of_nonneg_right _ h0
  apply flr_mono
  have : (q:ℚ) ≤ r := by exact_mod_cast hqr
  push_cast; linarith

/-! ## Dequantize then scale -/

/-- `1 / s` for a scale in the normal range. -/
theorem invScale_bounds {s : F32} (hf : s.isFin = true) (h1 : 1 / 2 ^ 126 ≤ s.toRat) (h2 : s.toRat ≤ 2 ^ 126) :
    (invScale s).isFin = true ∧ |(invScale s).toRat - 1 / s.toRat| ≤ 1 / s.toRat / 2 ^ 24 := by
  have hs : 0 < s.toRat := lt_of_lt_of_le (by positivity) h1
  have e : (invScale s).toRat = flr f32 (1 / s.toRat) := by
    have := div_toRat (a := f1) (b := s) (by decide) hf hs.ne'
    rw [show f1.toRat = 1 by decide +kernel] at this
    exact this
  have hr : 1 / s.toRat ≤ 2 ^ 126 := by
    rw [div_le_iff₀ hs]
    calc (1:ℚ) = 2 ^ 126 * (1 / 2 ^ 126) := by norm_num
      _ ≤ _ := by apply mul_le_mul_of_nonneg_left h1; positivity
  have hr2 : 1 / 2 ^ 126 ≤ 1 / s.toRat := by
    apply one_div_le_one_div_of_le hs h2
  have h0 : 0 ≤ 1 / s.toRat := by positivity
  have hfl : fl f32 |1 / s.toRat| < 2 ^ f32.emax := by
    apply fl_fin (abs_nonneg _)
    rw [abs_of_nonneg h0, emax_f32]
    exact hr.trans (by norm_num)
  refine ⟨isFin_of_abs (by rw [e, abs_flr]; exact hfl), ?_⟩
  rw [e]
  refine (flr_err hfl).trans ?_
  rw [abs_of_nonneg h0]
  apply max_le
  · rw [unit_f32, le_div_iff₀ (by positivity)]
    calc (1:ℚ) / 2 ^ (149 + 1) * 2 ^ 24 = 1 / 2 ^ 126 := by norm_num
      _ ≤ _ := hr2
  · exact le_of_eq rfl

/-- The value of a code, `fl((q - zp) s)`, is within `255 s / 2^24` of `(q - zp) s`. -/
theorem dequant_near {s : F32} {k : ℤ} (hk : |k| ≤ 255) (hf : s.isFin = true) (h1 : 1 / 2 ^ 126 ≤ s.toRat) (h2 : s.toRat ≤ 2 ^ 119) :
    (Flt.mul (Flt.ofInt f32 k) s).isFin = true ∧ |(Flt.mul (Flt.ofInt f32 k) s).toRat - k * s.toRat| ≤ 255 * s.toRat / 2 ^ 24 := by
  have hs : 0 < s.toRat := lt_of_lt_of_le (by positivity) h1
  obtain ⟨e1, g1⟩ := ofInt_exact (f := f32) (z := k) (hk.trans (by norm_num [f32]))
  have e : (Flt.mul (Flt.ofInt f32 k) s).toRat = flr f32 (k * s.toRat) := by rw [mul_toRat g1 hf, e1]
  have hk' : |(k:ℚ)| ≤ 255 := by exact_mod_cast hk
  have habs : |(k:ℚ) * s.toRat| ≤ 255 * s.toRat := by
    rw [abs_mul, abs_of_pos hs]; exact mul_le_mul_of_nonneg_right hk' hs.le
  have hfl : fl f32 |(k:ℚ) * s.toRat| < 2 ^ f32.emax := by
    apply fl_fin (abs_nonneg _)
    rw [emax_f32]
    calc _ ≤ 255 * s.toRat := habs
      _ ≤ 255 * 2 ^ 119 := by apply mul_le_mul_of_nonneg_left h2; norm_num
      _ ≤ _ := by norm_num
  refine ⟨isFin_of_abs (by rw [e, abs_flr]; exact hfl), ?_⟩
  rw [e]
  refine (flr_err hfl).trans (max_le ?_ ?_)
  · rw [unit_f32, le_div_iff₀ (by positivity)]
    calc (1:ℚ) / 2 ^ (149 + 1) * 2 ^ 24 = 1 / 2 ^ 126 := by norm_num
      _ ≤ _ := by linarith
  · show |(k:ℚ) * s.toRat| / 2 ^ 24 ≤ _
    exact div_le_div_of_nonneg_right habs (by positivity)

/-- Scaling it back gives a float within `2^-13` of the integer. -/
theorem rescaled_near {s : F32} {k : ℤ} (hk : |k| ≤ 255) (hf : s.isFin = true) (h1 : 1 / 2 ^ 126 ≤ s.toRat) (h2 : s.toRat ≤ 2 ^ 119) :
    (scaled (Flt.mul (Flt.ofInt f32 k) s) s).isFin = true ∧ |(scaled (Flt.mul (Flt.ofInt f32 k) s) s).toRat - k| ≤ 1 / 2 ^ 13 := by
  have hs : 0 < s.toRat := lt_of_lt_of_le (by positivity) h1
  obtain ⟨g1, g2⟩ := dequant_near hk hf h1 h2
  obtain ⟨g3, g4⟩ := invScale_bounds hf h1 (h2.trans (by norm_num))
  have hk' : |(k:ℚ)| ≤ 255 := by exact_mod_cast hk
  set d := (Flt.mul (Flt.ofInt f32 k) s).toRat with hd
  set r := (invScale s).toRat with hr
  have e : (scaled (Flt.mul (Flt.ofInt f32 k) s) s).toRat = flr f32 (d * r) := by
    show (Flt.mul _ (invScale s)).toRat = _
    rw [mul_toRat g1 g3]
  -- u = d / s, v = r * s
  have hu : |d / s.toRat - k| ≤ 255 / 2 ^ 24 := by
    have : d / s.toRat - k = (d - k * s.toRat) / s.toRat := by field_simp
    rw [this, abs_div, abs_of_pos hs, div_le_iff₀ hs]
    calc _ ≤ _ := g2
      _ = _ := by ring
  have hv : |r * s.toRat - 1| ≤ 1 / 2 ^ 24 := by
    have : r * s.toRat - 1 = (r - 1 / s.toRat) * s.toRat := by field_simp
    rw [this, abs_mul, abs_of_pos hs]
    calc _ ≤ (1 / s.toRat / 2 ^ 24) * s.toRat := mul_le_mul_of_nonneg_right g4 hs.le
      _ = _ := by field_simp
  have hdr : d * r = (d / s.toRat) * (r * s.toRat) := by field_simp
  set u := d / s.toRat
  set v := r * s.toRat
  have hdist : |d * r - k| ≤ 600 / 2 ^ 24 := by
    have : d * r - k = (u - k) * v + k * (v - 1) := by rw [hdr]; ring
    rw [this]
    calc |(u - k) * v + k * (v - 1)| ≤ |(u - k) * v| + |k * (v - 1)| := abs_add_le _ _
      _ = |u - k| * |v| + |(k:ℚ)| * |v - 1| := by rw [abs_mul (u - k) v, abs_mul (k:ℚ) (v - 1)]
      _ ≤ 255 / 2 ^ 24 * (1 + 1 / 2 ^ 24) + 255 * (1 / 2 ^ 24) := by
          have hv2 : |v| ≤ 1 + 1 / 2 ^ 24 := by
            have : |v| ≤ |v - 1| + |(1:ℚ)| := by have := abs_add_le (v - 1) 1; simpa using this
            rw [abs_one] at this
            linarith
          gcongr
      _ ≤ 600 / 2 ^ 24 := by norm_num
  have habs : |d * r| ≤ 256 := by
    have : |d * r| ≤ |d * r - k| + |(k:ℚ)| := by have := abs_add_le (d * r - k) k; simpa using this
    have h600 : (600:ℚ) / 2 ^ 24 ≤ 1 := by norm_num
    linarith
  have hfl : fl f32 |d * r| < 2 ^ f32.emax := by
    apply fl_fin (abs_nonneg _)
    rw [emax_f32]
    exact habs.trans (by norm_num)
  refine ⟨isFin_of_abs (by rw [e, abs_flr]; exact hfl), ?_⟩
  rw [e]
  have h3 : |flr f32 (d * r) - d * r| ≤ 256 / 2 ^ 24 := by
    refine (flr_err hfl).trans (max_le ?_ ?_)
    · rw [unit_f32]; norm_num
    · show |d * r| / 2 ^ 24 ≤ _
      exact div_le_div_of_nonneg_right habs (by positivity)
  have : |flr f32 (d * r) - k| ≤ |flr f32 (d * r) - d * r| + |d * r - k| := by
    have := abs_add_le (flr f32 (d * r) - d * r) (d * r - k); simpa using this
  calc _ ≤ _ := this
    _ ≤ 256 / 2 ^ 24 + 600 / 2 ^ 24 := add_le_add h3 hdist
    _ ≤ _ := by norm_num

end Verif
