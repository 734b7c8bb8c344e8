import Verif.Proofs.RoundTrip

/-! # Computed parameters applied to the same data: numerical part -/

namespace Verif
open Spec

/-- The scaled value of `x` is at most about twice `x / s`. -/
theorem scaled_bound {s x : F32} {B : ℚ} (hx : x.isFin = true) (hf : s.isFin = true) (h1 : 1 / 2 ^ 126 ≤ s.toRat) (h2 : s.toRat ≤ 2 ^ 126)
    (hB : B ≤ 2 ^ 64) (hu : |x.toRat / s.toRat| ≤ B) : (scaled x s).isFin = true ∧ |(scaled x s).toRat| ≤ 2 * B + 1 := by
  have hs : 0 < s.toRat := lt_of_lt_of_le (by positivity) h1
  have hB0 : 0 ≤ B := (abs_nonneg _).trans hu
  obtain ⟨g3, g4⟩ := invScale_bounds hf h1 h2
  set r := (invScale s).toRat with hr
  have e : (scaled x s).toRat = flr f32 (x.toRat * r) := by
    show (Flt.mul _ (invScale s)).toRat = _
    rw [mul_toRat hx g3]
  have hv : |r * s.toRat - 1| ≤ 1 / 2 ^ 24 := by
    have : r * s.toRat - 1 = (r - 1 / s.toRat) * s.toRat := by field_simp
    rw [this, abs_mul, abs_of_pos hs]
    calc _ ≤ (1 / s.toRat / 2 ^ 24) * s.toRat := mul_le_mul_of_nonneg_right g4 hs.le
      _ = _ := by field_simp
  have hdr : x.toRat * r = (x.toRat / s.toRat) * (r * s.toRat) := by field_simp
  have hv2 : |r * s.toRat| ≤ 1 + 1 / 2 ^ 24 := by
    rw [abs_le] at hv ⊢; constructor <;> linarith [hv.1, hv.2]
  have habs : |x.toRat * r| ≤ B * (1 + 1 / 2 ^ 24) := by
    rw [hdr, abs_mul]
    exact mul_le_mul hu hv2 (abs_nonneg _) hB0
  have habs' : |x.toRat * r| ≤ 3 / 2 * B := habs.trans (by norm_num; linarith)
  have hfl : fl f32 |x.toRat * r| < 2 ^ f32.emax := by
    apply fl_fin (abs_nonneg _)
    rw [emax_f32]
    refine habs'.trans ?_
    calc 3 / 2 * B ≤ 3 / 2 * 2 ^ 64 := by linarith
      _ ≤ _ := by norm_num
  refine ⟨isFin_of_abs (by rw [e, abs_flr]; exact hfl), ?_⟩
  rw [e]
  have h3 : |flr f32 (x.toRat * r) - x.toRat * r| ≤ 1 + 1 / 2 * B := by
    refine (flr_err hfl).trans (max_le ?_ ?_)
    · rw [unit_f32]
      have : (1:ℚ) / 2 ^ (149 + 1) ≤ 1 := by norm_num
      linarith
    · show |x.toRat * r| / 2 ^ 24 ≤ _
      rw [div_le_iff₀ (by positivity)]
      exact habs'.trans (by norm_num; linarith)
  have := abs_add_le (flr f32 (x.toRat * r) - x.toRat * r) (x.toRat * r)
  rw [sub_add_cancel] at this
  linarith

/-- A computed scale is close to the step `(hi - lo)/(2^bits - 1)`. -/
theorem params_step {bits : Nat} {lo hi : ℚ} {s : F32} {z : ℤ} (hQ : (3:ℤ) ≤ 2 ^ bits - 1 ∧ (2:ℤ) ^ bits - 1 ≤ 255)
    (hd1 : 1 / 2 ^ 149 ≤ hi - lo) (hd2 : hi - lo ≤ 2 ^ 129) (he : params bits lo hi = (s, z)) (h1 : 1 / 2 ^ 126 ≤ s.toRat) (h2 : s.toRat ≤ 2 ^ 126) :
    |(hi - lo) / s.toRat - (2 ^ bits - 1)| ≤ 1 / 2 ^ 14 := by
  have hd : 0 < hi - lo := lt_of_lt_of_le (by positivity) hd1
  have hne : ¬ hi = lo := by intro h; rw [h, sub_self] at hd; exact lt_irrefl _ hd
  have e : params bits 0 (hi - lo) = (s, (params bits 0 (hi - lo)).2) := by
    unfold params at he ⊢
    rw [if_neg hne] at he
    rw [if_neg hd.ne']
    have : scale64 bits 0 (hi - lo) = scale64 bits lo hi := by unfold scale64; rw [sub_zero]
    rw [this]
    exact Prod.ext (Prod.mk.inj he).1 rfl
  have := (params_near (lo := 0) (hi := hi - lo) hQ (by rwa [sub_zero]) (by rwa [sub_zero]) ⟨le_refl _, hd.le⟩ e h1 h2).2.2
  rwa [sub_zero] at this

end Verif
