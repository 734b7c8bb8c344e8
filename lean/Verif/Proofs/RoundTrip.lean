import Verif.Proofs.Params
import Verif.Proofs.Order

/-! # Round trip through computed parameters: numerical part -/

namespace Verif
open Spec

/-- The scaled value of `x` is close to `x / s` when that quotient is a small number. -/
theorem scaled_near {s x : F32} (hx : x.isFin = true) (hf : s.isFin = true) (h1 : 1 / 2 ^ 126 ≤ s.toRat) (h2 : s.toRat ≤ 2 ^ 126)
    (hu : |x.toRat / s.toRat| ≤ 256) :
    (scaled x s).isFin = true ∧ |(scaled x s).toRat - x.toRat / s.toRat| ≤ 1 / 2 ^ 14 := by
  have hs : 0 < s.toRat := lt_of_lt_of_le (by positivity) h1
  obtain ⟨g3, g4⟩ := invScale_bounds hf h1 h2
  set r := (invScale s).toRat with hr
  have e : (scaled x s).toRat = flr f32 (x.toRat * r) := by
    show (Flt.mul _ (invScale s)).toRat = _
    rw [mul_toRat hx g3]
  have hv : |r * s.toRat - 1| ≤ 1 / 2 ^ 24 := by
    have : r * s.toRat - 1 = (r - 1 / s.toRat) * s.toRat := by field_simp
    rw [this, abs_mul, abs_of_pos hs]
    calc _ ≤ (1 / s.toRat / 2 ^ 24) * s.toRat := mul_le_mul_of_nonneg_right g4 hs.le
      _ = _ := by field_simp
  have hdr : x.toRat * r = (x.toRat / s.toRat) * (r * s.toRat) := by field_simp
  set u := x.toRat / s.toRat
  set v := r * s.toRat
  have hdist : |x.toRat * r - u| ≤ 256 / 2 ^ 24 := by
    have : x.toRat * r - u = u * (v - 1) := by rw [hdr]; ring
    rw [this, abs_mul]
    calc _ ≤ 256 * (1 / 2 ^ 24) := mul_le_mul hu hv (abs_nonneg _) (by norm_num)
      _ = _ := by norm_num
  have habs : |x.toRat * r| ≤ 257 := by
    have : |x.toRat * r| ≤ |x.toRat * r - u| + |u| := by have := abs_add_le (x.toRat * r - u) u; simpa using this
    have h600 : (256:ℚ) / 2 ^ 24 ≤ 1 := by norm_num
    linarith
  have hfl : fl f32 |x.toRat * r| < 2 ^ f32.emax := by
    apply fl_fin (abs_nonneg _)
    rw [emax_f32]
    exact habs.trans (by norm_num)
  refine ⟨isFin_of_abs (by rw [e, abs_flr]; exact hfl), ?_⟩
  rw [e]
  have h3 : |flr f32 (x.toRat * r) - x.toRat * r| ≤ 257 / 2 ^ 24 := by
    refine (flr_err hfl).trans (max_le ?_ ?_)
    · rw [unit_f32]; norm_num
    · show |x.toRat * r| / 2 ^ 24 ≤ _
      exact div_le_div_of_nonneg_right habs (by positivity)
  have : |flr f32 (x.toRat * r) - u| ≤ |flr f32 (x.toRat * r) - x.toRat * r| + |x.toRat * r - u| := by
    have := abs_add_le (flr f32 (x.toRat * r) - x.toRat * r) (x.toRat * r - u); simpa using this
  calc _ ≤ _ := this
    _ ≤ 257 / 2 ^ 24 + 256 / 2 ^ 24 := add_le_add h3 hdist
    _ ≤ _ := by norm_num

/-- The integer a nearest-rounding kernel produces: the scalar one, or the vector deviation. -/
def NearInt (p : ℚ) (r : ℤ) : Prop := r = rha p ∨ (|p| = predHalf ∧ r = if p < 0 then -1 else 1)

theorem nearInt_err {p : ℚ} {r : ℤ} (h : NearInt p r) : |(r:ℚ) - p| ≤ 1 / 2 + 1 / 2 ^ 25 := by
  rcases h with rfl | ⟨h, rfl⟩
  · exact (rha_err p).trans (by norm_num)
  · unfold predHalf at h
    split
    · next hn => rw [abs_of_neg hn] at h; rw [abs_le]; push_cast; constructor <;> linarith
    · next hn => rw [abs_of_nonneg (not_lt.mp hn)] at h; rw [abs_le]; push_cast; constructor <;> linarith

/-- Code minus zero point against the exact quotient, for a range `[-A, B]` of quotients. -/
theorem rt_core {b : Nat} {A B u p : ℚ} {zp r : ℤ} (hz : 0 ≤ zp ∧ zp ≤ 2 ^ b - 1) (hzA : |(zp:ℚ) - A| ≤ 1 / 2 + 1 / 2 ^ 40 + 1 / 2 ^ 14) (hAB : A + B ≤ (2:ℚ) ^ b - 1 + 1 / 2 ^ 14)
    (hu : -A ≤ u ∧ u ≤ B) (hp : |p - u| ≤ 1 / 2 ^ 14) (hr : |(r:ℚ) - p| ≤ 1 / 2 + 1 / 2 ^ 25) :
    |((sat b (r + zp) - zp : ℤ) : ℚ) - u| ≤ 1 / 2 + 1 / 2 ^ 13 + 1 / 2 ^ 25 := by
  rw [abs_le] at hzA hp hr
  have e40 : (1:ℚ) / 2 ^ 40 ≤ 1 / 2 ^ 25 := by norm_num
  have e13 : (1:ℚ) / 2 ^ 13 = 1 / 2 ^ 14 + 1 / 2 ^ 14 := by norm_num
  have e0 : (0:ℚ) ≤ 1 / 2 ^ 14 := by norm_num
  have e1 : (1:ℚ) / 2 ^ 14 ≤ 1 / 8 := by norm_num
  have e2 : (1:ℚ) / 2 ^ 25 ≤ 1 / 8 := by norm_num
  have e3 : (0:ℚ) ≤ 1 / 2 ^ 25 := by norm_num
  generalize (1:ℚ) / 2 ^ 14 = η at *
  generalize (1:ℚ) / 2 ^ 25 = ε at *
  generalize (1:ℚ) / 2 ^ 40 = δ at *
  obtain ⟨z0, z1⟩ := hz
  rw [e13, abs_le]
  unfold sat
  rcases lt_or_ge (r + zp) 0 with h | h
  · rw [show max 0 (min (2 ^ b - 1) (r + zp)) = (0:ℤ) by omega]
    have : (r:ℚ) + zp ≤ -1 := by exact_mod_cast (by omega : r + zp ≤ -1)
    push_cast
    constructor <;> linarith
  rcases le_or_gt (r + zp) (2 ^ b - 1) with h' | h'
  · rw [show max 0 (min (2 ^ b - 1) (r + zp)) = r + zp by omega]
    push_cast
    constructor <;> linarith
  · rw [show max 0 (min (2 ^ b - 1) (r + zp)) = 2 ^ b - 1 by omega]
    have : (2:ℚ) ^ b - 1 + 1 ≤ (r:ℚ) + zp := by exact_mod_cast (by omega : (2:ℤ) ^ b - 1 + 1 ≤ r + zp)
    push_cast
    constructor <;> linarith

/-- The computed parameters of a range around zero, relative to the float scale. -/
theorem params_near {bits : Nat} {lo hi : ℚ} {s : F32} {z : ℤ} (hQ : (3:ℤ) ≤ 2 ^ bits - 1 ∧ (2:ℤ) ^ bits - 1 ≤ 255)
    (hd1 : 1 / 2 ^ 149 ≤ hi - lo) (hd2 : hi - lo ≤ 2 ^ 129) (h0 : lo ≤ 0 ∧ 0 ≤ hi) (he : params bits lo hi = (s, z))
    (h1 : 1 / 2 ^ 126 ≤ s.toRat) (h2 : s.toRat ≤ 2 ^ 126) :
    (0 ≤ z ∧ z ≤ 2 ^ bits - 1) ∧ |(z:ℚ) - -lo / s.toRat| ≤ 1 / 2 + 1 / 2 ^ 40 + 1 / 2 ^ 14 ∧ |(hi - lo) / s.toRat - (2 ^ bits - 1)| ≤ 1 / 2 ^ 14 := by
  obtain ⟨_, b2, b3⟩ := scale64_bounds (bits := bits) hQ hd1 hd2
  have hs : 0 < s.toRat := lt_of_lt_of_le (by positivity) h1
  have hne : ¬ hi = lo := by
    intro e; rw [e, sub_self] at hd1
    have : (0:ℚ) < 1 / 2 ^ 149 := by positivity
    linarith
  unfold params at he
  rw [if_neg hne] at he
  have q1 : (3:ℚ) ≤ 2 ^ bits - 1 := by exact_mod_cast hQ.1
  have q2 : (2:ℚ) ^ bits - 1 ≤ 255 := by exact_mod_cast hQ.2
  obtain ⟨es, ez⟩ := Prod.mk.inj he
  set S := scale64 bits lo hi with hS
  set d := hi - lo with hd
  have hd0 : 0 < d := lt_of_lt_of_le (by positivity) hd1
  have hz2 : ((2:ℤ) ^ bits - 1 : ℤ) = (2:ℤ) ^ bits - 1 := rfl
  set Q := (2:ℚ) ^ bits - 1 with hQd
  have hQ0 : 0 < Q := by linarith
  have hdQ : 0 < d / Q := div_pos hd0 hQ0
  have hS0 : 0 < S := lt_of_lt_of_le (mul_pos hdQ (by norm_num)) b2
  -- float scale against double scale
  have hfl : fl f32 |S| < 2 ^ f32.emax := by
    rw [← abs_flr, ← ofRat_flr (f := f32) S false, es, abs_of_pos hs, emax_f32]
    exact lt_of_le_of_lt h2 (by norm_num)
  have herr := flr_err hfl
  rw [← ofRat_flr (f := f32) S false, es, abs_of_pos hS0, unit_f32] at herr
  have herr : |s.toRat - S| ≤ max (s.toRat / 2 ^ 24) (S / 2 ^ 24) := by
    refine herr.trans (max_le_max ?_ (le_of_eq rfl))
    rw [le_div_iff₀ (by positivity)]
    calc (1:ℚ) / 2 ^ (149 + 1) * 2 ^ 24 = 1 / 2 ^ 126 := by norm_num
      _ ≤ _ := h1
  obtain ⟨herr1, herr2⟩ := abs_le.mp herr
  have hS1 : S ≤ s.toRat * (1 + 1 / 2 ^ 23) := by
    rcases max_choice (s.toRat / 2 ^ 24) (S / 2 ^ 24) with e | e <;> rw [e] at herr1 <;> norm_num at herr1 ⊢ <;> linarith
  have hS2 : s.toRat * (1 - 1 / 2 ^ 23) ≤ S := by
    rcases max_choice (s.toRat / 2 ^ 24) (S / 2 ^ 24) with e | e <;> rw [e] at herr2 <;> norm_num at herr2 ⊢ <;> linarith
  -- ratios
  have hdS1 : d ≤ Q * S * (1 + 1 / 2 ^ 50) := by
    have hb : d / Q ≤ S * (1 + 1 / 2 ^ 50) := by
      have : d / Q * (1 - 1 / 2 ^ 51) * (1 + 1 / 2 ^ 50) ≤ S * (1 + 1 / 2 ^ 50) := mul_le_mul_of_nonneg_right b2 (by norm_num)
      have h3 : d / Q ≤ d / Q * (1 - 1 / 2 ^ 51) * (1 + 1 / 2 ^ 50) := by
        rw [mul_assoc]; exact le_mul_of_one_le_right hdQ.le (by norm_num)
      linarith
    rw [div_le_iff₀ hQ0] at hb
    linarith
  have hdS2 : Q * S * (1 - 1 / 2 ^ 50) ≤ d := by
    have hb : S * (1 - 1 / 2 ^ 50) ≤ d / Q := by
      have : S * (1 - 1 / 2 ^ 50) ≤ d / Q * (1 + 1 / 2 ^ 51) * (1 - 1 / 2 ^ 50) := mul_le_mul_of_nonneg_right b3 (by norm_num)
      have h3 : d / Q * (1 + 1 / 2 ^ 51) * (1 - 1 / 2 ^ 50) ≤ d / Q := by
        rw [mul_assoc]; exact mul_le_of_le_one_right hdQ.le (by norm_num)
      linarith
    rw [le_div_iff₀ hQ0] at hb
    linarith
  have hds : |d / s.toRat - Q| ≤ 1 / 2 ^ 14 := by
    have hQs : 0 < Q * s.toRat := mul_pos hQ0 hs
    have hup : d ≤ Q * s.toRat * (1 + 1 / 2 ^ 22) := by
      calc d ≤ Q * S * (1 + 1 / 2 ^ 50) := hdS1
        _ ≤ Q * (s.toRat * (1 + 1 / 2 ^ 23)) * (1 + 1 / 2 ^ 50) := by gcongr
        _ = Q * s.toRat * ((1 + 1 / 2 ^ 23) * (1 + 1 / 2 ^ 50)) := by ring
        _ ≤ _ := mul_le_mul_of_nonneg_left (by norm_num) hQs.le
    have hlow : Q * s.toRat * (1 - 1 / 2 ^ 22) ≤ d := by
      calc Q * s.toRat * (1 - 1 / 2 ^ 22) ≤ Q * s.toRat * ((1 - 1 / 2 ^ 23) * (1 - 1 / 2 ^ 50)) := mul_le_mul_of_nonneg_left (by norm_num) hQs.le
        _ = Q * (s.toRat * (1 - 1 / 2 ^ 23)) * (1 - 1 / 2 ^ 50) := by ring
        _ ≤ Q * S * (1 - 1 / 2 ^ 50) := by
            apply mul_le_mul_of_nonneg_right (mul_le_mul_of_nonneg_left hS2 hQ0.le) (by norm_num)
        _ ≤ d := hdS2
    have e1 : d / s.toRat ≤ Q * (1 + 1 / 2 ^ 22) := by rw [div_le_iff₀ hs]; linarith
    have e2 : Q * (1 - 1 / 2 ^ 22) ≤ d / s.toRat := by rw [le_div_iff₀ hs]; linarith
    rw [abs_le]; constructor <;> norm_num at e1 e2 ⊢ <;> linarith
  -- zero point
  set L := -lo / S with hL
  have hL0 : 0 ≤ L := div_nonneg (by linarith) hS0.le
  have hL1 : L ≤ Q * (1 + 1 / 2 ^ 50) := by
    rw [hL, div_le_iff₀ hS0]
    have : -lo ≤ d := by rw [hd]; linarith
    linarith
  have hL2 : L ≤ 256 := hL1.trans (by
    calc Q * (1 + 1 / 2 ^ 50) ≤ 255 * (1 + 1 / 2 ^ 50) := mul_le_mul_of_nonneg_right q2 (by norm_num)
      _ ≤ _ := by norm_num)
  have ew : -(r64 (lo / S)) = flr f64 L := by
    rw [r64_flr, hL, neg_div, flr_neg]
  rw [ew] at ez
  set w := flr f64 L with hw
  have hw0 : 0 ≤ w := flr_nonneg hL0
  have hwerr : |w - L| ≤ 1 / 2 ^ 41 := by
    have hfl : fl f64 |L| < 2 ^ f64.emax := by
      apply fl_fin (abs_nonneg _)
      rw [abs_of_nonneg hL0, emax_f64]
      calc L ≤ 2 ^ 8 := by norm_num; exact hL2
        _ ≤ _ := pow_le_pow_right₀ (by norm_num) (by norm_num)
    refine (flr_err hfl).trans (max_le ?_ ?_)
    · rw [unit_f64]
      exact one_div_le_one_div_of_le (by positivity) (pow_le_pow_right₀ (by norm_num) (by norm_num))
    · show |L| / 2 ^ 53 ≤ _
      rw [abs_of_nonneg hL0, div_le_iff₀ (by positivity)]
      refine hL2.trans (by norm_num)
  have hr := rha_err w
  rw [abs_le] at hr hwerr
  have hz0 : 0 ≤ rha w := by
    have := rha_mono hw0
    have e : rha (0:ℚ) = 0 := by have := rha_int 0; simpa using this
    rwa [e] at this
  have hzQ : rha w ≤ 2 ^ bits - 1 := by
    have : (rha w : ℚ) < Q + 1 := by
      have : Q * (1 + 1 / 2 ^ 50) ≤ Q + 1 / 4 := by
        have : Q * (1 / 2 ^ 50) ≤ 255 * (1 / 2 ^ 50) := mul_le_mul_of_nonneg_right q2 (by norm_num)
        have : Q * (1 + 1 / 2 ^ 50) = Q + Q * (1 / 2 ^ 50) := by ring
        norm_num at *; linarith
      have h41 : (1:ℚ) / 2 ^ 41 < 1 / 8 := by norm_num
      linarith
    have : (rha w : ℚ) < ((2 ^ bits : ℤ) : ℚ) := by push_cast; linarith
    have : rha w < 2 ^ bits := by exact_mod_cast this
    omega
  rw [sat_id hz0 hzQ] at ez
  rw [← ez]
  refine ⟨⟨hz0, hzQ⟩, ?_, hds⟩
  have hA : |L - -lo / s.toRat| ≤ 1 / 2 ^ 14 := by
    have e : -lo / s.toRat = L * (S / s.toRat) := by rw [hL]; field_simp
    have k1 : S / s.toRat ≤ 1 + 1 / 2 ^ 23 := by rw [div_le_iff₀ hs]; linarith
    have k2 : 1 - 1 / 2 ^ 23 ≤ S / s.toRat := by rw [le_div_iff₀ hs]; linarith
    have e2 : L - -lo / s.toRat = L * (1 - S / s.toRat) := by rw [e]; ring
    rw [e2, abs_mul, abs_of_nonneg hL0]
    calc L * |1 - S / s.toRat| ≤ 256 * (1 / 2 ^ 23) := mul_le_mul hL2 (by rw [abs_le]; constructor <;> linarith) (abs_nonneg _) (by norm_num)
      _ ≤ _ := by norm_num
  rw [abs_le] at hA ⊢
  have h41 : (1:ℚ) / 2 ^ 41 ≤ 1 / 2 ^ 40 := by norm_num
  constructor <;> linarith

end Verif
