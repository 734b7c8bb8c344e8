import Verif.Proofs.Stoch

/-! # bfloat16 conversion -/

namespace Verif
open Simd

/-- Rounding to the nearest multiple of `2^16`, ties to even, as bit arithmetic. -/
theorem rne_shift (b : Nat) : rne ((b : ℚ) / 2 ^ 16) = (b + (0x7fff + b / 65536 % 2)) / 65536 := by
  set h := b / 65536 with hh
  set r := b % 65536 with hr
  have hb : b = 65536 * h + r := (Nat.div_add_mod b 65536).symm
  have hr1 : r < 65536 := Nat.mod_lt _ (by norm_num)
  have hfl : ((b : ℚ) / 2 ^ 16).floor.toNat = h := by
    have : ((b : ℚ) / 2 ^ 16).floor = (h : ℤ) := by
      rw [floor_eq', Int.floor_eq_iff]
      rw [hb]
      push_cast
      have h1 : (r : ℚ) < 65536 := by exact_mod_cast hr1
      have h0 : (0:ℚ) ≤ r := by positivity
      constructor
      · rw [le_div_iff₀ (by norm_num)]; linarith
      · rw [div_lt_iff₀ (by norm_num)]; linarith
    rw [this]; rfl
  unfold rne
  simp only
  rw [hfl]
  have e : (b : ℚ) / 2 ^ 16 - h = r / 65536 := by
    rw [hb]; push_cast; field_simp; ring
  rw [e]
  have c1 : (r : ℚ) / 65536 < 1 / 2 ↔ r < 32768 := by
    rw [div_lt_div_iff₀ (by norm_num) (by norm_num)]
    constructor
    · intro h; have : (r:ℚ) < 32768 := by linarith
      exact_mod_cast this
    · intro h; have : (r:ℚ) < 32768 := by exact_mod_cast h
      linarith
  have c2 : 1 / 2 < (r : ℚ) / 65536 ↔ 32768 < r := by
    rw [div_lt_div_iff₀ (by norm_num) (by norm_num)]
    constructor
    · intro h; have : (32768:ℚ) < r := by linarith
      exact_mod_cast this
    · intro h; have : (32768:ℚ) < r := by exact_mod_cast h
      linarith
  rw [if_congr c1 rfl (if_congr c2 rfl rfl)]
  split
  · omega
  · split
    · omega
    · split <;> omega

theorem rne_add_even {q : ℚ} (hq : 0 ≤ q) {k : Nat} (hk : k % 2 = 0) : rne ((k : ℚ) + q) = k + rne q := by
  unfold rne
  simp only
  have hf : ((k:ℚ) + q).floor.toNat = k + q.floor.toNat := by
    rw [floor_eq', floor_eq']
    have : ⌊(k:ℚ) + q⌋ = k + ⌊q⌋ := by
      have := Int.floor_natCast_add k q
      exact this
    rw [this]
    have : 0 ≤ ⌊q⌋ := Int.floor_nonneg.mpr hq
    omega
  rw [hf]
  have e : (k:ℚ) + q - ((k + q.floor.toNat : ℕ) : ℚ) = q - q.floor.toNat := by push_cast; ring
  rw [e]
  split
  · rfl
  · split
    · omega
    · have : (k + q.floor.toNat) % 2 = q.floor.toNat % 2 := by omega
      rw [this]; split <;> omega

/-- Rounding a binary32 magnitude to bfloat16 is rounding its encoding. -/
theorem roundMag_bf16 (b : Nat) : roundMag 7 ((magVal 23 b : ℚ) / 2 ^ 16) = rne ((b : ℚ) / 2 ^ 16) := by
  obtain ⟨k, m, hb, hk, hm, hv⟩ := mag_decomp 23 b
  have hm' : (m : ℚ) < 2 ^ 24 := by exact_mod_cast hm
  have he : expo 7 ((magVal 23 b : ℚ) / 2 ^ 16) = k := by
    apply expo_of_bounds (by positivity)
    · rw [hv, div_lt_iff₀ (by positivity)]
      push_cast
      have : (2:ℚ) ^ (7 + 1 + k) * 2 ^ 16 = 2 ^ 24 * 2 ^ k := by rw [← pow_add, ← pow_add]; congr 1; omega
      rw [this]
      exact mul_lt_mul_of_pos_right hm' (by positivity)
    · rcases hk with h | h
      · exact Or.inl h
      · right
        have h' : (2:ℚ) ^ 23 ≤ m := by exact_mod_cast h
        rw [hv, le_div_iff₀ (by positivity)]
        push_cast
        have : (2:ℚ) ^ (7 + k) * 2 ^ 16 = 2 ^ 23 * 2 ^ k := by rw [← pow_add, ← pow_add]; congr 1; omega
        rw [this]
        exact mul_le_mul_of_nonneg_right h' (by positivity)
  rw [roundMag_eq, he, hv]
  have e1 : ((m * 2 ^ k : ℕ) : ℚ) / 2 ^ 16 / 2 ^ k = (m : ℚ) / 2 ^ 16 := by push_cast; field_simp
  have e2 : (b : ℚ) / 2 ^ 16 = ((k * 2 ^ 7 : ℕ) : ℚ) + (m : ℚ) / 2 ^ 16 := by rw [hb]; push_cast; field_simp; ring
  rw [e1, e2, rne_add_even (by positivity) (by omega)]

theorem infMag_f32 : f32.infMag = 2139095040 := by decide
theorem infMag_bf16 : bf16.infMag = 32640 := by decide
theorem magLim_f32 : f32.magLim = 2147483648 := by decide
theorem magLim_bf16 : bf16.magLim = 32768 := by decide
theorem unit_bf16 : bf16.unit = 133 := by decide

theorem roundAbs_bf16 {b : Nat} (h : b ≤ 2139095040) (s : Bool) :
    Flt.roundAbs bf16 (⟨s, b⟩ : F32).absRat = (b + (0x7fff + b / 65536 % 2)) / 65536 := by
  unfold Flt.roundAbs Flt.absRat
  rw [unit_f32, unit_bf16, show bf16.mb = 7 from rfl, show f32.mb = 23 from rfl, infMag_bf16]
  have e : (magVal 23 b : ℚ) / 2 ^ 149 * 2 ^ 133 = (magVal 23 b : ℚ) / 2 ^ 16 := by
    rw [div_mul_eq_mul_div, div_eq_div_iff (by positivity) (by positivity), mul_assoc, ← pow_add]
  simp only
  rw [e, roundMag_bf16, rne_shift]
  omega

theorem toBits_eq (x : F32) : x.toBits = (if x.neg then 2147483648 else 0) + x.mag := by
  unfold Flt.toBits; rw [magLim_f32]

theorem f32ToBf16Bits_nonNaN {u : Nat} (h : u % 2147483648 ≤ 2139095040) (hu : u < 4294967296) :
    f32ToBf16Bits u = u / 2147483648 * 32768 + (u % 2147483648 + (0x7fff + u % 2147483648 / 65536 % 2)) / 65536 := by
  unfold f32ToBf16Bits
  rw [show (0x7fffffff : Nat) = 2 ^ 31 - 1 by norm_num, Nat.and_two_pow_sub_one_eq_mod, if_neg (by norm_num; omega),
    Nat.and_one_is_mod, Nat.shiftRight_eq_div_pow, Nat.shiftRight_eq_div_pow]
  norm_num
  have hd : u / 2147483648 = 0 ∨ u / 2147483648 = 1 := by omega
  have hu2 := Nat.div_add_mod u 2147483648
  generalize u % 2147483648 = b at *
  rcases hd with h0 | h0 <;> rw [h0] at hu2 ⊢ <;> subst hu2
  · norm_num; omega
  · have e : (2147483648 * 1 + b) / 65536 % 2 = b / 65536 % 2 := by omega
    rw [e]; omega

theorem f32ToBf16Bits_NaN {u : Nat} (h : 2139095040 < u % 2147483648) (hu : u < 4294967296) :
    f32ToBf16Bits u = u / 65536 ||| 64 := by
  unfold f32ToBf16Bits
  rw [show (0x7fffffff : Nat) = 2 ^ 31 - 1 by norm_num, Nat.and_two_pow_sub_one_eq_mod, if_pos (by norm_num; omega),
    Nat.shiftRight_eq_div_pow]
  exact Nat.mod_eq_of_lt (Nat.or_lt_two_pow (n := 16) (by norm_num; omega) (by norm_num))

/-- The scalar conversion is correctly rounded. -/
theorem f32ToBf16_cvt {x : F32} (_hv : x.Valid) (hn : x.isNaN = false) : f32ToBf16 x = (Flt.cvt bf16 x).toBits := by
  have hb : x.mag ≤ 2139095040 := by
    have : ¬ f32.infMag < x.mag := by simpa [Flt.isNaN] using hn
    rw [infMag_f32] at this; omega
  have hl : ∀ y : Flt bf16, y.toBits = (if y.neg then 32768 else 0) + y.mag := by
    intro y; unfold Flt.toBits; rw [magLim_bf16]
  unfold f32ToBf16
  have hu : x.toBits % 2147483648 = x.mag ∧ x.toBits / 2147483648 = (if x.neg then 1 else 0) ∧ x.toBits < 4294967296 := by
    rw [toBits_eq]; split <;> omega
  rw [f32ToBf16Bits_nonNaN (by omega) hu.2.2, hu.1, hu.2.1, hl]
  unfold Flt.cvt
  rw [if_neg (show ¬ (x.isNaN = true) by simp [hn])]
  by_cases hi : x.isInf = true
  · rw [if_pos hi]
    have : x.mag = 2139095040 := by rw [← infMag_f32]; simpa [Flt.isInf] using hi
    rw [this]
    unfold Flt.inf
    rw [infMag_bf16]
    cases x.neg <;> rfl
  · rw [if_neg hi]
    have := roundAbs_bf16 hb x.neg
    rw [show (⟨x.neg, x.mag⟩ : F32) = x from rfl] at this
    rw [this]
    cases x.neg <;> simp

theorem or64 {a : Nat} (h1 : 32640 ≤ a % 32768) (h2 : a < 65536) : 32640 < (a ||| 64) % 32768 ∧ (a ||| 64) / 32768 = a / 32768 ∧ a ||| 64 < 65536 := by
  have h3 : a ||| 64 < 65536 := Nat.or_lt_two_pow (n := 16) (by norm_num; omega) (by norm_num)
  have e1 : (a ||| 64) % 2 ^ 15 = a % 2 ^ 15 ||| 64 := by
    rw [Nat.or_mod_two_pow]
  have e2 : (a ||| 64) / 2 ^ 15 = a / 2 ^ 15 := by
    rw [Nat.or_div_two_pow]; simp
  norm_num at e1 e2
  refine ⟨?_, e2, h3⟩
  rw [e1]
  have := Nat.left_le_or (n := a % 32768) (m := 64)
  rcases Nat.lt_or_ge 32640 (a % 32768) with h | h
  · omega
  · have : a % 32768 = 32640 := by omega
    rw [this]; decide

/-- NaN stays NaN, with the same sign and upper payload, quietened. -/
theorem f32ToBf16_nan {x : F32} (hv : x.Valid) (hn : x.isNaN = true) :
    f32ToBf16 x = x.toBits / 65536 ||| 64 ∧ (Flt.ofBits bf16 (f32ToBf16 x)).isNaN = true ∧ (Flt.ofBits bf16 (f32ToBf16 x)).neg = x.neg ∧ f32ToBf16 x < 65536 := by
  have hb : 2139095040 < x.mag := by
    have : f32.infMag < x.mag := by simpa [Flt.isNaN] using hn
    rwa [infMag_f32] at this
  have hm : x.mag < 2147483648 := by rw [← magLim_f32]; exact hv
  have hu : x.toBits % 2147483648 = x.mag ∧ x.toBits / 2147483648 = (if x.neg then 1 else 0) ∧ x.toBits < 4294967296 := by
    rw [toBits_eq]; split <;> omega
  have e : f32ToBf16 x = x.toBits / 65536 ||| 64 := f32ToBf16Bits_NaN (by omega) hu.2.2
  obtain ⟨g1, g2, g3⟩ := or64 (a := x.toBits / 65536) (by omega) (by omega)
  refine ⟨e, ?_, ?_, by rw [e]; exact g3⟩
  · unfold Flt.isNaN Flt.ofBits
    rw [infMag_bf16, magLim_bf16, e]
    exact decide_eq_true g1
  · unfold Flt.ofBits
    rw [magLim_bf16, e]
    simp only
    rw [g2]
    have : x.toBits / 65536 / 32768 = x.toBits / 2147483648 := by rw [Nat.div_div_eq_div_mul]
    rw [this, hu.2.1]
    cases x.neg <;> simp

theorem bf16ToF32_valid (w : Nat) : (bf16ToF32 w).Valid := by
  unfold bf16ToF32 Flt.ofBits Flt.Valid; exact Nat.mod_lt _ (by rw [magLim_f32]; norm_num)

theorem bf16ToF32_toBits {w : Nat} (hw : w < 65536) : (bf16ToF32 w).toBits = w * 65536 := by
  unfold bf16ToF32
  rw [toBits_eq]
  unfold Flt.ofBits
  rw [magLim_f32]
  simp only [decide_eq_true_eq]
  split <;> omega

/-- Round trip. -/
theorem bf16_roundtrip {w : Nat} (hw : w < 65536) :
    f32ToBf16 (bf16ToF32 w) = if 32640 < w % 32768 then w ||| 64 else w := by
  unfold f32ToBf16
  rw [bf16ToF32_toBits hw]
  split
  · rename_i h
    rw [f32ToBf16Bits_NaN (by omega) (by omega)]
    congr 1; omega
  · rename_i h
    rw [f32ToBf16Bits_nonNaN (by omega) (by omega)]
    omega

/-! ## The vector conversions -/

theorem cvtPsBf16Bits_eq {u : Nat} (h : u % 2147483648 ≤ 2139095040) (hu : u < 4294967296) : cvtPsBf16Bits u = f32ToBf16Bits u := by
  have e1 : u &&& 0x7F800000 = u / 8388608 % 256 * 8388608 := by
    have : (0x7F800000 : Nat) = 255 <<< 23 := by decide
    rw [this]
    apply Nat.eq_of_testBit_eq
    intro i
    have e255 : (255 : Nat) = 2 ^ 8 - 1 := by norm_num
    rw [Nat.testBit_and, Nat.testBit_shiftLeft, e255, Nat.testBit_two_pow_sub_one,
      show (8388608 : Nat) = 2 ^ 23 by norm_num, ← Nat.shiftLeft_eq, Nat.testBit_shiftLeft,
      show (256 : Nat) = 2 ^ 8 by norm_num, Nat.testBit_mod_two_pow, Nat.testBit_div_two_pow]
    by_cases hi : i ≥ 23
    · simp [hi]
      rw [Bool.and_comm]
    · simp [hi]
  have e2 : u &&& 0x007FFFFF = u % 8388608 := by
    rw [show (0x007FFFFF : Nat) = 2 ^ 23 - 1 by norm_num, Nat.and_two_pow_sub_one_eq_mod]
  unfold cvtPsBf16Bits f32ToBf16Bits
  simp only
  rw [e1, e2, show (0x7fffffff : Nat) = 2 ^ 31 - 1 by norm_num, Nat.and_two_pow_sub_one_eq_mod, if_neg (by norm_num; omega), if_neg (by norm_num; omega),
    Nat.and_one_is_mod, Nat.shiftRight_eq_div_pow, Nat.shiftRight_eq_div_pow, Nat.shiftRight_eq_div_pow]
  norm_num
  omega

theorem cvtnepsBits_eq {u : Nat} (h : u % 2147483648 = 0 ∨ 8388608 ≤ u % 2147483648) (hu : u < 4294967296) :
    cvtnepsBits u = f32ToBf16Bits u := by
  unfold cvtnepsBits f32ToBf16Bits
  simp only
  rw [show (0x7fffffff : Nat) = 2 ^ 31 - 1 by norm_num, Nat.and_two_pow_sub_one_eq_mod,
    show (0xff : Nat) = 2 ^ 8 - 1 by norm_num, Nat.and_two_pow_sub_one_eq_mod,
    show (0x7fffff : Nat) = 2 ^ 23 - 1 by norm_num, Nat.and_two_pow_sub_one_eq_mod,
    Nat.and_one_is_mod, Nat.and_one_is_mod, Nat.shiftRight_eq_div_pow, Nat.shiftRight_eq_div_pow, Nat.shiftRight_eq_div_pow, Nat.shiftRight_eq_div_pow]
  norm_num
  by_cases hn : u % 2147483648 > 2139095040
  · rw [if_pos hn, if_pos (by omega)]
  · rw [if_neg hn, if_neg (by omega)]
    split
    · have h0 : u % 2147483648 = 0 := by omega
      have : u / 65536 % 2 = 0 := by omega
      rw [this]; omega
    · rfl

end Verif
