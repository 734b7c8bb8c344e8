import Verif.Proofs.RoundTrip

/-! # Round trip with any rounding mode: numerical part -/

namespace Verif
open Spec

/-- `rt_core` with a rounding error `e` of at least one half. -/
theorem rt_core_mode {b : Nat} {A B u p e : ℚ} {zp r : ℤ} (hz : 0 ≤ zp ∧ zp ≤ 2 ^ b - 1) (he : 1 / 2 ≤ e)
    (hzA : |(zp:ℚ) - A| ≤ 1 / 2 + 1 / 2 ^ 40 + 1 / 2 ^ 14) (hAB : A + B ≤ (2:ℚ) ^ b - 1 + 1 / 2 ^ 14)
    (hu : -A ≤ u ∧ u ≤ B) (hp : |p - u| ≤ 1 / 2 ^ 14) (hr : |(r:ℚ) - p| ≤ e + 1 / 2 ^ 25) :
    |((sat b (r + zp) - zp : ℤ) : ℚ) - u| ≤ e + 1 / 2 ^ 13 + 1 / 2 ^ 25 := by
  rw [abs_le] at hzA hp hr
  have e40 : (1:ℚ) / 2 ^ 40 ≤ 1 / 2 ^ 25 := by norm_num
  have e13 : (1:ℚ) / 2 ^ 13 = 1 / 2 ^ 14 + 1 / 2 ^ 14 := by norm_num
  have e0 : (0:ℚ) ≤ 1 / 2 ^ 14 := by norm_num
  have e1 : (1:ℚ) / 2 ^ 14 ≤ 1 / 8 := by norm_num
  have e2 : (1:ℚ) / 2 ^ 25 ≤ 1 / 8 := by norm_num
  have e3 : (0:ℚ) ≤ 1 / 2 ^ 25 := by norm_num
  generalize (1:ℚ) / 2 ^ 14 = η at *
  generalize (1:ℚ) / 2 ^ 25 = ε at *
  generalize (1:ℚ) / 2 ^ 40 = δ at *
  obtain ⟨z0, z1⟩ := hz
  rw [e13, abs_le]
  unfold sat
  rcases lt_or_ge (r + zp) 0 with h | h
  · rw [show max 0 (min (2 ^ b - 1) (r + zp)) = (0:ℤ) by omega]
    have : (r:ℚ) + zp ≤ -1 := by exact_mod_cast (by omega : r + zp ≤ -1)
    push_cast
    constructor <;> linarith
  rcases le_or_gt (r + zp) (2 ^ b - 1) with h' | h'
  · rw [show max 0 (min (2 ^ b - 1) (r + zp)) = r + zp by omega]
    push_cast
    constructor <;> linarith
  · rw [show max 0 (min (2 ^ b - 1) (r + zp)) = 2 ^ b - 1 by omega]
    have : (2:ℚ) ^ b - 1 + 1 ≤ (r:ℚ) + zp := by exact_mod_cast (by omega : (2:ℤ) ^ b - 1 + 1 ≤ r + zp)
    push_cast
    constructor <;> linarith

/-- An integer between floor and ceiling is less than one away. -/
theorem err_of_bounds {p : ℚ} {r : ℤ} (h : ⌊p⌋ ≤ r ∧ r ≤ ⌈p⌉) : |(r:ℚ) - p| ≤ 1 := by
  have h1 := Int.lt_floor_add_one p
  have h2 := Int.ceil_lt_add_one p
  have h3 : ((⌊p⌋:ℤ):ℚ) ≤ r := by exact_mod_cast h.1
  have h4 : (r:ℚ) ≤ ((⌈p⌉:ℤ):ℚ) := by exact_mod_cast h.2
  rw [abs_le]; constructor <;> linarith

/-- Dequantized code against the input, for a code error `e` between one half and one. -/
theorem near_of {s y : F32} {k : ℤ} {e : ℚ} (hk : |k| ≤ 255) (hf : s.isFin = true) (h1 : 1 / 2 ^ 126 ≤ s.toRat) (h2 : s.toRat ≤ 2 ^ 119)
    (hu : |(k:ℚ) - y.toRat / s.toRat| ≤ e + 1 / 2 ^ 13 + 1 / 2 ^ 25) :
    (Flt.mul (Flt.ofInt f32 k) s).isFin = true ∧ |(Flt.mul (Flt.ofInt f32 k) s).toRat - y.toRat| ≤ s.toRat * (e + 1 / 2 ^ 12) := by
  have hs : 0 < s.toRat := lt_of_lt_of_le (by positivity) h1
  obtain ⟨g1, g2⟩ := dequant_near hk hf h1 h2
  refine ⟨g1, ?_⟩
  have h3 : |(k:ℚ) * s.toRat - y.toRat| ≤ (e + 1 / 2 ^ 13 + 1 / 2 ^ 25) * s.toRat := by
    have : (k:ℚ) * s.toRat - y.toRat = ((k:ℚ) - y.toRat / s.toRat) * s.toRat := by field_simp
    rw [this, abs_mul, abs_of_pos hs]
    exact mul_le_mul_of_nonneg_right hu hs.le
  rw [abs_le] at g2 h3 ⊢
  have e1 : 255 * s.toRat / 2 ^ 24 ≤ s.toRat / 2 ^ 16 := by
    rw [div_le_div_iff₀ (by positivity) (by positivity)]; norm_num; linarith
  have e2 : s.toRat * (e + 1 / 2 ^ 12) = e * s.toRat + s.toRat / 2 ^ 12 := by ring
  have e3 : (e + 1 / 2 ^ 13 + 1 / 2 ^ 25) * s.toRat = e * s.toRat + s.toRat / 2 ^ 13 + s.toRat / 2 ^ 25 := by ring
  rw [e2]; rw [e3] at h3
  generalize e * s.toRat = w at *
  constructor <;> norm_num at g2 h3 e1 ⊢ <;> linarith

end Verif
