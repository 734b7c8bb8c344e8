import Verif.Proofs.Naive

/-! # The bf16 product of the reference implementation -/

namespace Verif
open Spec Props

theorem flr_close {f : Fmt} [f.Good] {q B u : ℚ} (hB : |q| ≤ B) (hf : fl f |q| < 2 ^ f.emax) (hu : 1 / 2 ^ (f.unit + 1) ≤ u) (hu' : B / 2 ^ (f.mb + 1) ≤ u) :
    |flr f q - q| ≤ u :=
  (flr_err hf).trans (max_le hu ((div_le_div_of_nonneg_right hB (by positivity)).trans hu'))

/-- Rounding a finite float to bf16 and widening it again. -/
theorem bf16_value {v : F32} (hf : v.isFin = true) (hb : |v.toRat| ≤ 2 ^ 127) :
    (bf16ToF32 (f32ToBf16 v)).isFin = true ∧ (bf16ToF32 (f32ToBf16 v)).toRat = flr bf16 v.toRat := by
  have hm : v.mag < f32.infMag := by simpa [Flt.isFin] using hf
  have hn : v.isNaN = false := by unfold Flt.isNaN; simp; omega
  have hv : v.Valid := by unfold Flt.Valid; rw [magLim_f32]; rw [infMag_f32] at hm; omega
  have e := f32ToBf16_cvt hv hn
  have hi : IsBf16Of v (f32ToBf16 v) := by unfold IsBf16Of; rw [hn, if_neg (by simp)]; exact e
  have h := isBf16_value hf hb hi
  have hw : f32ToBf16 v < 65536 := by
    unfold f32ToBf16 f32ToBf16Bits; split <;> exact Nat.mod_lt _ (by norm_num)
  unfold bf16ToF32
  rw [Nat.mod_eq_of_lt hw, Nat.mul_comm]
  exact h

theorem naiveProd_bf16_near {w : Nat} {inv : F32} (hv : (bf16ToF32 w).isFin = true) (hi : inv.isFin = true)
    (h1 : 1 / 2 ^ 126 ≤ inv.toRat) (h2 : inv.toRat ≤ 2 ^ 126)
    (hp : (Flt.mul (bf16ToF32 w) inv).isFin = true) (hb : |(Flt.mul (bf16ToF32 w) inv).toRat| ≤ 100) :
    (bf16ToF32 (bf16Mul w (f32ToBf16 inv))).isFin = true ∧
      |(bf16ToF32 (bf16Mul w (f32ToBf16 inv))).toRat - (Flt.mul (bf16ToF32 w) inv).toRat| < 1 := by
  have hI0 : 0 < inv.toRat := lt_of_lt_of_le (by positivity) h1
  obtain ⟨f1', e1⟩ := bf16_value hi (by rw [abs_of_pos hI0]; exact h2.trans (by norm_num))
  unfold bf16Mul
  generalize bf16ToF32 w = v at *
  generalize hJ : bf16ToF32 (f32ToBf16 inv) = j at *
  have ep := mul_toRat hv hi
  have em := mul_toRat hv f1'
  generalize hP : v.toRat * inv.toRat = P at *
  have hfp : fl f32 |P| < 2 ^ f32.emax := by rw [← abs_flr, ← ep]; exact abs_lt_of_isFin hp
  have hPe := flr_err hfp
  rw [← ep] at hPe
  have n1 : (1:ℚ) / 2 ^ (f32.unit + 1) ≤ 1 := by decide +kernel
  have hP2 : |P| ≤ 102 := by
    have t : |P| ≤ |(Flt.mul v inv).toRat| + |(Flt.mul v inv).toRat - P| := by
      have := abs_sub_abs_le_abs_sub P (Flt.mul v inv).toRat
      rw [abs_sub_comm] at this; linarith
    have m : max (1 / 2 ^ (f32.unit + 1)) (|P| / 2 ^ (f32.mb + 1)) ≤ 1 + |P| / 2 ^ 24 := by
      apply max_le
      · have : 0 ≤ |P| / 2 ^ 24 := by positivity
        linarith
      · show |P| / 2 ^ 24 ≤ _; linarith
    have d : |P| / 2 ^ 24 ≤ |P| / 2 ^ 10 := div_le_div_of_nonneg_left (abs_nonneg _) (by norm_num) (by norm_num)
    norm_num at d
    linarith [abs_nonneg P]
  have c1 : |(Flt.mul v inv).toRat - P| ≤ 1 / 2 ^ 10 := by
    rw [ep]; exact flr_close hP2 hfp (by decide +kernel) (by show (102:ℚ) / 2 ^ 24 ≤ _; norm_num)
  -- the rounded reciprocal
  have hfi : fl bf16 |inv.toRat| < 2 ^ bf16.emax := by
    apply fl_fin (abs_nonneg _)
    rw [abs_of_pos hI0, emax_bf16]; exact h2.trans (by norm_num)
  have c2 : |j.toRat - inv.toRat| ≤ inv.toRat / 2 ^ 8 := by
    rw [e1]
    refine (flr_err hfi).trans (max_le ?_ ?_)
    · rw [le_div_iff₀ (by positivity)]
      refine le_trans ?_ h1
      show (1:ℚ) / 2 ^ 134 * 2 ^ 8 ≤ _
      norm_num
    · rw [abs_of_pos hI0]; exact le_refl _
  have c3 : |v.toRat * j.toRat - P| ≤ 102 / 2 ^ 8 := by
    rw [← hP, ← mul_sub, abs_mul]
    have e : |v.toRat| * inv.toRat = |P| := by rw [← hP, abs_mul, abs_of_pos hI0]
    calc |v.toRat| * |j.toRat - inv.toRat| ≤ |v.toRat| * (inv.toRat / 2 ^ 8) := mul_le_mul_of_nonneg_left c2 (abs_nonneg _)
      _ = |P| / 2 ^ 8 := by rw [← e]; ring
      _ ≤ _ := div_le_div_of_nonneg_right hP2 (by positivity)
  generalize v.toRat * j.toRat = R at *
  have hR : |R| ≤ 103 := by
    have := abs_sub_abs_le_abs_sub R P
    norm_num at c3
    linarith
  have hfR : fl f32 |R| < 2 ^ f32.emax := fl_fin (abs_nonneg _) (hR.trans (by decide +kernel))
  have c4 : |(Flt.mul v j).toRat - R| ≤ 1 / 2 ^ 10 := by
    rw [em]; exact flr_close hR hfR (by decide +kernel) (by show (103:ℚ) / 2 ^ 24 ≤ _; norm_num)
  have hf4 : (Flt.mul v j).isFin = true := isFin_of_abs (by rw [em, abs_flr]; exact hfR)
  generalize Flt.mul v j = r at *
  have hr : |r.toRat| ≤ 104 := by
    have := abs_sub_abs_le_abs_sub r.toRat R
    norm_num at c4
    linarith
  obtain ⟨f5, e5⟩ := bf16_value hf4 (hr.trans (by norm_num))
  have hfr : fl bf16 |r.toRat| < 2 ^ bf16.emax := fl_fin (abs_nonneg _) (hr.trans (by decide +kernel))
  have c5 : |(bf16ToF32 (f32ToBf16 r)).toRat - r.toRat| ≤ 104 / 2 ^ 8 := by
    rw [e5]; exact flr_close hr hfr (by decide +kernel) (le_refl _)
  refine ⟨f5, ?_⟩
  generalize (bf16ToF32 (f32ToBf16 r)).toRat = a at *
  generalize (Flt.mul v inv).toRat = b at *
  rw [abs_le] at c1 c3 c4 c5
  norm_num at c1 c3 c4 c5
  rw [abs_lt]
  constructor <;> linarith [c1.1, c1.2, c3.1, c3.2, c4.1, c4.2, c5.1, c5.2]

/-- Stochastic roundings of two values less than one apart, with any thresholds. -/
theorem sround_near2 {τ τ' p p' : ℚ} (hτ : 0 ≤ τ) (hτ' : 0 ≤ τ') (h : |p' - p| < 1) : |sround τ p - sround τ' p'| ≤ 2 := by
  have a := sround_bounds (p := p) hτ
  have b := sround_bounds (p := p') hτ'
  have c := Int.ceil_le_floor_add_one p
  have d := Int.ceil_le_floor_add_one p'
  rw [abs_lt] at h
  have e : ⌈p'⌉ ≤ ⌈p⌉ + 1 := by
    rw [← Int.ceil_add_one]; exact Int.ceil_mono (by linarith)
  have f : ⌈p⌉ ≤ ⌈p'⌉ + 1 := by
    rw [← Int.ceil_add_one]; exact Int.ceil_mono (by linarith)
  rw [abs_le]; constructor <;> omega

theorem sround_near1 {τ τ' p : ℚ} (hτ : 0 ≤ τ) (hτ' : 0 ≤ τ') : |sround τ p - sround τ' p| ≤ 1 := by
  have a := sround_bounds (p := p) hτ
  have b := sround_bounds (p := p) hτ'
  have c := Int.ceil_le_floor_add_one p
  rw [abs_le]; constructor <;> omega

theorem sat_near {b : Nat} {y z d : ℤ} (h : |y - z| ≤ d) : |sat b y - sat b z| ≤ d := by
  unfold sat
  rw [abs_le] at h ⊢
  generalize (2:ℤ) ^ b - 1 = t
  constructor <;> omega

end Verif
