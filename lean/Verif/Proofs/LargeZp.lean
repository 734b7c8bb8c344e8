import Verif.Proofs.QuantMain

/-!
# The vector rounding sequence for scaled values in `[2^23, 2^24)`

There `p` is an integer and `p + 1/2` is not representable: it is rounded to even, so odd values move
one step away from zero.
-/

namespace Verif
open Spec Simd

theorem rne_half (n : Nat) : rne ((n : ℚ) + 1 / 2) = if n % 2 = 0 then n else n + 1 := by
  have h0 : (0 : ℚ) ≤ (n : ℚ) + 1 / 2 := by positivity
  have hab := rne_err h0
  have hr : |((rne ((n : ℚ) + 1 / 2) : ℕ) : ℚ) - ((n : ℚ) + 1 / 2)| = 1 / 2 ∧
      (rne ((n : ℚ) + 1 / 2) = n ∨ rne ((n : ℚ) + 1 / 2) = n + 1) := by
    generalize rne ((n : ℚ) + 1 / 2) = r at *
    have h1 := abs_le.mp hab
    have h2 : (r : ℚ) ≤ n + 1 := by linarith [h1.2]
    have h3 : (n : ℚ) ≤ r := by linarith [h1.1]
    have h4 : r ≤ n + 1 := by exact_mod_cast h2
    have h5 : n ≤ r := by exact_mod_cast h3
    rcases (by omega : r = n ∨ r = n + 1) with h | h
    · subst h; exact ⟨by rw [show (r : ℚ) - (r + 1 / 2) = -(1 / 2) by ring, abs_neg, abs_of_pos (by norm_num)], Or.inl rfl⟩
    · subst h; refine ⟨?_, Or.inr rfl⟩
      push_cast
      rw [show (n : ℚ) + 1 - (n + 1 / 2) = 1 / 2 by ring, abs_of_pos (by norm_num)]
  have he := rne_even h0 hr.1
  split
  · rename_i h; rcases hr.2 with g | g <;> omega
  · rename_i h; rcases hr.2 with g | g <;> omega

theorem expo_half {n : Nat} (h1 : 2 ^ 23 ≤ n) (h2 : n < 2 ^ 24) : expo 23 (((n : ℚ) + 1 / 2) * 2 ^ 149) = 149 := by
  have e : ((n : ℚ) + 1 / 2) * 2 ^ 149 = (((2 * n + 1) * 2 ^ 148 : ℕ) : ℚ) := by push_cast; ring
  unfold expo
  rw [e]
  have hf : ((((2 * n + 1) * 2 ^ 148 : ℕ) : ℚ)).floor.toNat = (2 * n + 1) * 2 ^ 148 := by
    rw [floor_eq', Int.floor_natCast]; exact Int.toNat_natCast _
  rw [hf]
  have hl : Nat.log2 ((2 * n + 1) * 2 ^ 148) = 172 := by
    rw [Nat.log2_eq_iff (by positivity)]
    constructor
    · calc 2 ^ 172 = 2 ^ 24 * 2 ^ 148 := by norm_num
        _ ≤ (2 * n + 1) * 2 ^ 148 := Nat.mul_le_mul_right _ (by omega)
    · calc (2 * n + 1) * 2 ^ 148 < 2 ^ 25 * 2 ^ 148 := Nat.mul_lt_mul_of_pos_right (by omega) (by positivity)
        _ = 2 ^ (172 + 1) := by norm_num
  rw [hl]

/-- Adding one half to an integer in `[2^23, 2^24)`: the tie goes to the even neighbour. -/
theorem fl_half_mid {n : Nat} (h1 : 2 ^ 23 ≤ n) (h2 : n < 2 ^ 24) :
    fl f32 ((n : ℚ) + 1 / 2) = if n % 2 = 0 then (n : ℚ) else (n : ℚ) + 1 := by
  have h0 : (0 : ℚ) ≤ ((n : ℚ) + 1 / 2) * 2 ^ 149 := by positivity
  have hv := magVal_roundMag 23 h0
  rw [expo_half h1 h2, mul_div_assoc, div_self (by positivity), mul_one, rne_half] at hv
  have hm : Flt.roundAbs f32 ((n : ℚ) + 1 / 2) = roundMag 23 (((n : ℚ) + 1 / 2) * 2 ^ 149) := by
    refine Nat.min_eq_right ?_
    show roundMag 23 _ ≤ f32.infMag
    refine (roundMag_le_of_le (b := f32.infMag) h0 ?_)
    have hI : (magVal 23 f32.infMag : ℚ) = 2 ^ 128 * 2 ^ 149 := by
      have : magVal 23 f32.infMag = 2 ^ 128 * 2 ^ 149 := by decide +kernel
      rw [this, Nat.cast_mul, Nat.cast_pow, Nat.cast_pow, Nat.cast_ofNat]
    rw [hI]
    have : (n : ℚ) < 2 ^ 24 := by exact_mod_cast h2
    refine mul_le_mul_of_nonneg_right ?_ (by positivity)
    have k : (2 : ℚ) ^ 24 + 1 / 2 ≤ 2 ^ 128 := by norm_num
    linarith
  have hfl : fl f32 ((n : ℚ) + 1 / 2) = (magVal 23 (Flt.roundAbs f32 ((n : ℚ) + 1 / 2)) : ℚ) / 2 ^ 149 := rfl
  rw [hfl, hm, hv]
  split
  · rw [Nat.cast_mul, Nat.cast_pow, Nat.cast_ofNat, mul_div_assoc, div_self (by positivity), mul_one]
  · rw [Nat.cast_mul, Nat.cast_pow, Nat.cast_ofNat, mul_div_assoc, div_self (by positivity), mul_one]; push_cast; rfl

/-- The x86 vector code of a scaled value in `[2^23, 2^24)`. -/
theorem vcode_mid {qmax : Nat} {v inv : F32} {zp : ℤ} (hs : Fits 32 (Flt.mul v inv) zp)
    (h1 : 2 ^ 23 ≤ |(Flt.mul v inv).toRat|) (h2 : |(Flt.mul v inv).toRat| < 2 ^ 24)
    (hr : -(2 ^ 31 : ℤ) < rha (Flt.mul v inv).toRat + zp ∧ rha (Flt.mul v inv).toRat + zp < 2 ^ 31 - 1) :
    vcode qmax inv zp v = clampI qmax ((if rha (Flt.mul v inv).toRat % 2 = 0 then rha (Flt.mul v inv).toRat
      else rha (Flt.mul v inv).toRat + (if (Flt.mul v inv).toRat < 0 then -1 else 1)) + zp) := by
  unfold vcode
  simp only
  change clampI qmax (wrap32 (cvttps1 (vsum (Flt.mul v inv)) + zp)) = _
  generalize Flt.mul v inv = p at *
  have hrha := rha_sgn p
  rw [toRat_abs] at h1 h2
  obtain ⟨n, hn⟩ := (rep_absRat p).int_of_ge (j := 0) (by rw [f32_mb]; simpa using h1)
  rw [pow_zero, mul_one] at hn
  rw [hn] at h1 h2 hrha
  have n1 : 2 ^ 23 ≤ n := by exact_mod_cast h1
  have n2 : n < 2 ^ 24 := by exact_mod_cast h2
  have hfl : ⌊(n : ℚ) + 1 / 2⌋ = n := by
    rw [Int.floor_eq_iff]; push_cast; constructor <;> linarith
  rw [hfl] at hrha
  have hm := fl_half_mid n1 n2
  have h31 : fl f32 ((n : ℚ) + 1 / 2) < 2 ^ 31 := by
    rw [hm]
    have k : (2 : ℚ) ^ 24 + 1 < 2 ^ 31 := by norm_num
    split <;> linarith
  have hfl2 : ⌊fl f32 ((n : ℚ) + 1 / 2)⌋ = if n % 2 = 0 then (n : ℤ) else n + 1 := by
    rw [hm]
    split
    · exact Int.floor_natCast n
    · rw [show (n : ℚ) + 1 = ((n + 1 : ℕ) : ℚ) by push_cast; rfl, Int.floor_natCast]; push_cast; rfl
  have hc : cvttps1 (vsum p) = sgn (decide (p.toRat < 0)) (if n % 2 = 0 then (n : ℤ) else n + 1) := by
    rw [cvttps1_vsum hs.1 (by rw [hn]; exact h31), hn, hfl2]
  rw [hc]
  rw [hrha] at hr ⊢
  unfold sgn at hr ⊢
  norm_num at hr n1 n2
  by_cases hneg : p.toRat < 0
  · simp only [hneg, decide_true, if_true] at hr ⊢
    have e : (-(n : ℤ)) % 2 = 0 ↔ n % 2 = 0 := by omega
    by_cases hp : n % 2 = 0
    · rw [if_pos hp, if_pos (e.mpr hp), wrap32_of (by norm_num; omega)]
    · rw [if_neg hp, if_neg (fun h => hp (e.mp h)), wrap32_of (by norm_num; omega)]
      congr 1; ring
  · simp only [hneg, decide_false, Bool.false_eq_true, if_false] at hr ⊢
    have e : (n : ℤ) % 2 = 0 ↔ n % 2 = 0 := by omega
    by_cases hp : n % 2 = 0
    · rw [if_pos hp, if_pos (e.mpr hp), wrap32_of (by norm_num; omega)]
    · rw [if_neg hp, if_neg (fun h => hp (e.mp h)), wrap32_of (by norm_num; omega)]

end Verif
