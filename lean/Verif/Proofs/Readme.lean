import Verif.Proofs.Bf16Trip
import Verif.Proofs.Offset

/-! # Resolution of bf16 on the unit interval -/

namespace Verif
open Spec Props

/-- Rounding is to a nearest value. -/
theorem fl_nearest {f : Fmt} [f.Good] {q r : ℚ} (h : 0 ≤ q) (hf : fl f q < 2 ^ f.emax) (hr : Rep f r) : |fl f q - q| ≤ |r - q| := by
  have hlt : Flt.roundAbs f q < f.infMag := by
    have := (isFin_mk (f := f) (s := false) (q := q)).mpr hf
    simpa [Flt.isFin] using this
  have hr' : Flt.roundAbs f q = roundMag f.mb (q * 2 ^ f.unit) := by
    unfold Flt.roundAbs at hlt ⊢; omega
  have hu := two_unit_pos (f := f)
  obtain ⟨b, hb⟩ := hr
  have := roundMag_nearest f.mb (q := q * 2 ^ f.unit) (by positivity) b
  have e : fl f q - q = ((magVal f.mb (roundMag f.mb (q * 2 ^ f.unit)) : ℚ) - q * 2 ^ f.unit) / 2 ^ f.unit := by
    unfold fl; rw [hr']; field_simp
  have e2 : r - q = ((magVal f.mb b : ℚ) - q * 2 ^ f.unit) / 2 ^ f.unit := by
    rw [← hb]; field_simp
  rw [e, e2, abs_div, abs_div, abs_of_pos hu]
  exact div_le_div_of_nonneg_right this hu.le

/-- A bf16 has a resolution of `2^-8` up to 1. -/
theorem bf16_unit_err {v : ℚ} (h : |v| ≤ 1 + 1 / 2 ^ 9) : |flr bf16 v - v| ≤ 1 / 2 ^ 9 := by
  have key : ∀ q : ℚ, 0 ≤ q → q ≤ 1 + 1 / 2 ^ 9 → |fl bf16 q - q| ≤ 1 / 2 ^ 9 := by
    intro q h0 h1
    have hfin : fl bf16 q < 2 ^ bf16.emax := fl_fin h0 (by
      rw [emax_bf16]
      calc q ≤ 1 + 1 / 2 ^ 9 := h1
        _ ≤ _ := by norm_num)
    rcases le_or_gt q 1 with h | h
    · have hm : rne (q * 256) ≤ 256 := rne_le_of_le (by positivity) (by push_cast; linarith)
      have hr := rep_div (f := bf16) (m := rne (q * 256)) (k := 8) (hm.trans (by norm_num [bf16])) (by rw [unit_bf16]; norm_num)
      refine (fl_nearest h0 hfin hr).trans ?_
      have e := rne_err (q := q * 256) (by positivity)
      have e2 : ((rne (q * 256) : ℕ) : ℚ) / 2 ^ 8 - q = ((rne (q * 256) : ℚ) - q * 256) / 256 := by norm_num; ring
      rw [e2, abs_div, abs_of_pos (by norm_num : (0:ℚ) < 256), div_le_iff₀ (by norm_num)]
      exact e.trans (by norm_num)
    · have hr := rep_nat' (f := bf16) (m := 1) (by norm_num [bf16])
      refine (fl_nearest h0 hfin hr).trans ?_
      rw [abs_of_nonpos (by push_cast; linarith)]
      push_cast; linarith
  unfold flr
  split
  · next hn =>
    rw [abs_of_neg hn]
    rw [abs_of_neg hn] at h
    have := key (-v) (by linarith) h
    rw [← abs_neg, show -(-fl bf16 (-v) - v) = fl bf16 (-v) - -v by ring]
    exact this
  · next hn =>
    have hn := not_lt.mp hn
    rw [abs_of_nonneg hn]
    rw [abs_of_nonneg hn] at h
    exact key v hn h

/-- The word stored for a value near `k s` of size at most one, read back. -/
theorem word_unit {s v : F32} {k : ℤ} {w : Nat} (h1 : 1 / 2 ^ 125 ≤ s.toRat) (hs1 : s.toRat ≤ 1) (hks : |(k:ℚ) * s.toRat| ≤ 1 + 1 / 2 ^ 10)
    (hf : v.isFin = true) (hv : |v.toRat - k * s.toRat| ≤ s.toRat / 2 ^ 15) (hw16 : w < 65536)
    (hw : IsBf16Of v w ∨ (|v.toRat| < 1 / 2 ^ 126 ∧ w % 32768 = 0)) :
    (Flt.ofBits f32 (65536 * w)).isFin = true ∧ |(Flt.ofBits f32 (65536 * w)).toRat - k * s.toRat| ≤ 1 / 2 ^ 9 + s.toRat / 2 ^ 15 := by
  have hs : 0 < s.toRat := lt_of_lt_of_le (by positivity) h1
  have e15 : s.toRat / 2 ^ 15 ≤ 1 / 2 ^ 15 := div_le_div_of_nonneg_right hs1 (by positivity)
  have hv2 : |v.toRat| ≤ 1 + 1 / 2 ^ 9 := by
    have := abs_add_le (v.toRat - k * s.toRat) (k * s.toRat)
    rw [sub_add_cancel] at this
    have e : (1:ℚ) / 2 ^ 15 + 1 / 2 ^ 10 ≤ 1 / 2 ^ 9 := by norm_num
    linarith
  rcases hw with hw | ⟨hw1, hw2⟩
  · obtain ⟨g1, g2⟩ := isBf16_value hf (hv2.trans (by norm_num)) hw
    refine ⟨g1, ?_⟩
    rw [g2]
    have := abs_add_le (flr bf16 v.toRat - v.toRat) (v.toRat - k * s.toRat)
    rw [sub_add_sub_cancel] at this
    have := bf16_unit_err hv2
    linarith
  · obtain ⟨g1, g2⟩ := word_zero hw16 hw2
    refine ⟨g1, ?_⟩
    rw [g2, zero_sub, abs_neg]
    have := abs_add_le (v.toRat - k * s.toRat) (k * s.toRat)
    have h3 := abs_sub_le (k * s.toRat) v.toRat 0
    rw [sub_zero, sub_zero, abs_sub_comm] at h3
    have e : (1:ℚ) / 2 ^ 126 ≤ 1 / 2 ^ 9 := by norm_num
    linarith

end Verif
