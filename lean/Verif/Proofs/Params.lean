import Verif.Proofs.MinMax
import Verif.SpecParams

/-! # The quantization parameters computed from data -/

namespace Verif
open Spec

variable {f : Fmt}

/-! ## Floats of the same format are well separated -/

theorem magVal_gap {mb a b : Nat} (h : a < b) : magVal mb b ≤ 2 ^ (mb + 1) * (magVal mb b - magVal mb a) := by
  obtain ⟨c, rfl⟩ : ∃ c, b = c + 1 := ⟨b - 1, by omega⟩
  obtain ⟨k, m, hb, hk, hm, hv⟩ := mag_decomp mb c
  have e : magVal mb (c+1) = (m+1) * 2 ^ k := by
    rw [hb, add_assoc]
    apply magVal_enc
    · omega
    · omega
  have h1 : magVal mb a ≤ m * 2 ^ k := by rw [← hv]; exact magVal_mono mb (by omega)
  rw [e]
  have h2 : 2 ^ k ≤ (m + 1) * 2 ^ k - magVal mb a := by rw [Nat.add_mul, one_mul]; omega
  calc (m + 1) * 2 ^ k ≤ 2 ^ (mb + 1) * 2 ^ k := Nat.mul_le_mul_right _ (by omega)
    _ ≤ _ := Nat.mul_le_mul_left _ h2

theorem absRat_gap {a b : Flt f} (h : a.absRat ≠ b.absRat) : a.absRat ≤ 2 ^ (f.mb + 1) * |a.absRat - b.absRat| := by
  have key : ∀ {a b : Flt f}, a.mag < b.mag → b.absRat ≤ 2 ^ (f.mb + 1) * (b.absRat - a.absRat) := by
    intro a b h
    have h1 := magVal_gap (mb := f.mb) h
    have h2 := magVal_mono f.mb h.le
    have h3 : (magVal f.mb b.mag : ℚ) ≤ 2 ^ (f.mb + 1) * ((magVal f.mb b.mag : ℚ) - magVal f.mb a.mag) := by
      have : ((magVal f.mb b.mag : ℕ) : ℚ) ≤ ((2 ^ (f.mb + 1) * (magVal f.mb b.mag - magVal f.mb a.mag) : ℕ) : ℚ) := by exact_mod_cast h1
      rw [Nat.cast_mul, Nat.cast_sub h2] at this
      push_cast at this; exact this
    unfold Flt.absRat
    rw [← sub_div, ← mul_div_assoc]
    exact div_le_div_of_nonneg_right h3 (by positivity)
  rcases lt_trichotomy a.mag b.mag with h1 | h1 | h1
  · have h2 := key h1
    have h3 := absRat_lt_iff.mpr h1
    rw [abs_of_neg (by linarith)]
    linarith
  · exact absurd (by unfold Flt.absRat; rw [h1]) h
  · have h2 := key h1
    have h3 := absRat_lt_iff.mpr h1
    rw [abs_of_pos (by linarith)]
    linarith

theorem toRat_gap {a b : Flt f} (h : a.toRat ≠ b.toRat) : |a.toRat| ≤ 2 ^ (f.mb + 1) * |a.toRat - b.toRat| := by
  have ha := absRat_nonneg a
  have hb := absRat_nonneg b
  have h1 : (1:ℚ) ≤ 2 ^ (f.mb + 1) := one_le_pow₀ (by norm_num)
  rw [toRat_abs]
  have opp : a.absRat ≤ 2 ^ (f.mb + 1) * (a.absRat + b.absRat) := by
    calc a.absRat ≤ a.absRat + b.absRat := by linarith
      _ ≤ _ := le_mul_of_one_le_left (by linarith) h1
  unfold Flt.toRat at h ⊢
  revert h
  cases a.neg <;> cases b.neg <;> intro h <;> simp only [Bool.false_eq_true, if_true, if_false] at h ⊢
  · exact absRat_gap h
  · rw [sub_neg_eq_add, abs_of_nonneg (by linarith)]; exact opp
  · rw [show -a.absRat - b.absRat = -(a.absRat + b.absRat) by ring, abs_neg, abs_of_nonneg (by linarith)]; exact opp
  · rw [show -a.absRat - -b.absRat = -(a.absRat - b.absRat) by ring, abs_neg]
    exact absRat_gap (fun e => h (by rw [e]))

/-- Every finite value is a multiple of the least subnormal. -/
theorem toRat_unit (a : Flt f) : ∃ z : ℤ, a.toRat * 2 ^ f.unit = z := by
  have hu := (two_unit_pos (f := f)).ne'
  unfold Flt.toRat Flt.absRat
  split
  · exact ⟨-(magVal f.mb a.mag : ℤ), by push_cast; field_simp⟩
  · exact ⟨(magVal f.mb a.mag : ℤ), by push_cast; field_simp⟩

theorem toRat_sub_unit {a b : Flt f} (h : a.toRat < b.toRat) : 1 / 2 ^ f.unit ≤ b.toRat - a.toRat := by
  obtain ⟨z, hz⟩ := toRat_unit a
  obtain ⟨w, hw⟩ := toRat_unit b
  have hu := two_unit_pos (f := f)
  rw [div_le_iff₀ hu, sub_mul, hz, hw]
  have h1 : (z:ℚ) < w := by rw [← hz, ← hw]; exact mul_lt_mul_of_pos_right h hu
  have h2 : z < w := by exact_mod_cast h1
  have h3 : z + 1 ≤ w := h2
  have h4 : (z:ℚ) + 1 ≤ w := by exact_mod_cast h3
  linarith

/-! ## float → double -/

theorem emax_f64 : f64.emax = 1024 := by decide
theorem unit_f64 : f64.unit = 1074 := by decide

theorem rep64_of_f32 (a : F32) : Rep f64 |a.toRat| := by
  obtain ⟨k, m, hm, _, e⟩ := (rep_toRat a).decomp
  obtain ⟨b, hb⟩ := rep_scaled (f := f64) (m := m) (k := k + 925) (by
    have : (2:ℕ) ^ (f32.mb + 1) ≤ 2 ^ (f64.mb + 1) := by decide
    omega)
  refine ⟨b, ?_⟩
  rw [hb, unit_f64, pow_add, ← mul_assoc, ← e, unit_f32, mul_assoc, ← pow_add]

theorem cvt64_fin {a : F32} (h : a.isFin = true) : (Flt.cvt f64 a).toRat = a.toRat ∧ (Flt.cvt f64 a).isFin = true := by
  obtain ⟨h1, h2⟩ := isFin_not_nan h
  have hlt := abs_lt_of_isFin h
  have he : (2:ℚ) ^ f32.emax < 2 ^ f64.emax := pow_lt_pow_right₀ (by norm_num) (by decide)
  have e : (Flt.cvt f64 a).toRat = a.toRat := by
    unfold Flt.cvt
    rw [h1, h2]
    simp only [Bool.false_eq_true, if_false]
    have h3 : (⟨a.neg, Flt.roundAbs f64 a.absRat⟩ : F64).toRat = flr f64 a.toRat := by
      rw [← toRat_abs]
      exact toRat_mk_flr _ _ ⟨toRat_neg_lt, toRat_pos_lt⟩
    rw [h3, flr_rep (rep64_of_f32 a) (by linarith)]
  exact ⟨e, isFin_of_abs (by rw [e]; linarith)⟩

/-! ## `std::min`, `std::max` -/

theorem stdMin_fin {a b : F64} (ha : a.isFin = true) (hb : b.isFin = true) :
    (stdMin a b).isFin = true ∧ (stdMin a b).toRat = min a.toRat b.toRat := by
  unfold stdMin
  rw [lt_iff (isFin_not_nan hb).1 (isFin_not_nan ha).1]
  by_cases h : b.toRat < a.toRat
  · simp [h, hb, min_eq_right h.le]
  · simp [h, ha, min_eq_left (not_lt.mp h)]

theorem stdMax_fin {a b : F64} (ha : a.isFin = true) (hb : b.isFin = true) :
    (stdMax a b).isFin = true ∧ (stdMax a b).toRat = max a.toRat b.toRat := by
  unfold stdMax
  rw [lt_iff (isFin_not_nan ha).1 (isFin_not_nan hb).1]
  by_cases h : a.toRat < b.toRat
  · simp [h, hb, max_eq_right h.le]
  · simp [h, ha, max_eq_left (not_lt.mp h)]

/-! ## Scale and zero point from the range -/

theorem r64_flr (q : ℚ) : r64 q = flr f64 q := ofRat_flr q false

theorem quant_bits {dt : DType} (h : dt.isQuant = true) : (dt.bits = 2 ∨ dt.bits = 4 ∨ dt.bits = 8) ∧ dt.isInt = true ∧ dt.isSigned = false := by
  cases dt <;> simp [DType.isQuant, DType.bits, DType.isInt, DType.isSigned] at *

theorem typeMax_eq {dt : DType} (h : dt.isQuant = true) : computeTypeMax dt = .ret (2 ^ dt.bits - 1) := by
  obtain ⟨_, h1, h2⟩ := quant_bits h
  unfold computeTypeMax
  rw [h, h1, h2]; rfl

theorem qmax_bounds {dt : DType} (h : dt.isQuant = true) : (3:ℤ) ≤ 2 ^ dt.bits - 1 ∧ (2:ℤ) ^ dt.bits - 1 ≤ 255 := by
  obtain ⟨h1 | h1 | h1, _⟩ := quant_bits h <;> rw [h1] <;> norm_num

/-- The scale in double arithmetic: bounds. -/
theorem scale64_bounds {bits : Nat} {lo hi : ℚ} (hQ : (3:ℤ) ≤ 2 ^ bits - 1 ∧ (2:ℤ) ^ bits - 1 ≤ 255) (h1 : 1 / 2 ^ 149 ≤ hi - lo) (h2 : hi - lo ≤ 2 ^ 129) :
    |r64 (hi - lo)| ≤ 2 ^ 129 ∧ (hi - lo) / (2 ^ bits - 1) * (1 - 1 / 2 ^ 51) ≤ scale64 bits lo hi ∧ scale64 bits lo hi ≤ (hi - lo) / (2 ^ bits - 1) * (1 + 1 / 2 ^ 51) := by
  obtain ⟨q1, q2⟩ := hQ
  have q1 : (3:ℚ) ≤ 2 ^ bits - 1 := by exact_mod_cast q1
  have q2 : (2:ℚ) ^ bits - 1 ≤ 255 := by exact_mod_cast q2
  unfold scale64
  rw [r64_flr, r64_flr]
  set d := hi - lo
  set Q := (2:ℚ) ^ bits - 1
  have hQ : 0 < Q := by linarith
  have hd : 0 < d := lt_of_lt_of_le (by positivity) h1
  have relerr : ∀ {x : ℚ}, 0 ≤ x → 1 / 2 ^ 200 ≤ x → x ≤ 2 ^ 200 → |flr f64 x - x| ≤ x / 2 ^ 53 := by
    intro x hx0 hx hx2
    have hfin : fl f64 |x| < 2 ^ f64.emax := by
      apply fl_fin (abs_nonneg _)
      rw [abs_of_nonneg hx0, emax_f64]
      exact hx2.trans (pow_le_pow_right₀ (by norm_num) (by norm_num))
    refine (flr_err hfin).trans (max_le ?_ ?_)
    · rw [unit_f64, le_div_iff₀ (by positivity)]
      calc (1:ℚ) / 2 ^ (1074 + 1) * 2 ^ 53 ≤ 1 / 2 ^ 200 := by rw [div_mul_eq_mul_div, div_le_div_iff₀ (by positivity) (by positivity)]; rw [one_mul, one_mul, ← pow_add]; exact pow_le_pow_right₀ (by norm_num) (by norm_num)
        _ ≤ _ := hx
    · rw [abs_of_nonneg hx0]; exact le_refl _
  have e1 := relerr hd.le (le_trans (by rw [div_le_div_iff₀ (by positivity) (by positivity), one_mul, one_mul]; exact pow_le_pow_right₀ (by norm_num) (by norm_num)) h1)
    (h2.trans (pow_le_pow_right₀ (by norm_num) (by norm_num)))
  rw [abs_le] at e1
  have d1 : d * (1 - 1 / 2 ^ 53) ≤ flr f64 d := by linarith
  have d2 : flr f64 d ≤ d * (1 + 1 / 2 ^ 53) := by linarith
  have d3 : 0 < flr f64 d := lt_of_lt_of_le (mul_pos hd (by norm_num)) d1
  have d4 : flr f64 d ≤ 2 ^ 129 := by
    apply flr_le h2
    · have := rep_nat (f := f64) (m := 1) (k := 129) (by decide)
      rw [abs_of_nonneg (by positivity)]; simpa using this
    · rw [abs_of_nonneg (by positivity), emax_f64]; exact pow_le_pow_right₀ (by norm_num) (by norm_num)
  have hx1 : 1 / 2 ^ 200 ≤ flr f64 d / Q := by
    rw [le_div_iff₀ hQ]
    have : (1:ℚ) / 2 ^ 149 * (1 - 1 / 2 ^ 53) ≤ flr f64 d := le_trans (mul_le_mul_of_nonneg_right h1 (by norm_num)) d1
    calc (1:ℚ) / 2 ^ 200 * Q ≤ 1 / 2 ^ 200 * 255 := mul_le_mul_of_nonneg_left q2 (by positivity)
      _ ≤ 1 / 2 ^ 149 * (1 - 1 / 2 ^ 53) := by norm_num
      _ ≤ _ := this
  have hx2 : flr f64 d / Q ≤ 2 ^ 200 := by
    rw [div_le_iff₀ hQ]
    calc flr f64 d ≤ 2 ^ 129 := d4
      _ ≤ 2 ^ 200 * 1 := by norm_num
      _ ≤ _ := mul_le_mul_of_nonneg_left (by linarith) (by positivity)
  have e2 := relerr (by positivity) hx1 hx2
  rw [abs_le] at e2
  have g1 : d / Q * (1 - 1 / 2 ^ 53) ≤ flr f64 d / Q := by
    rw [div_mul_eq_mul_div]; exact div_le_div_of_nonneg_right d1 hQ.le
  have g2 : flr f64 d / Q ≤ d / Q * (1 + 1 / 2 ^ 53) := by
    rw [div_mul_eq_mul_div]; exact div_le_div_of_nonneg_right d2 hQ.le
  have hdQ : 0 < d / Q := by positivity
  refine ⟨by rw [abs_of_pos d3]; exact d4, ?_, ?_⟩
  · calc d / Q * (1 - 1 / 2 ^ 51) ≤ (d / Q * (1 - 1 / 2 ^ 53)) * (1 - 1 / 2 ^ 53) := by rw [mul_assoc]; exact mul_le_mul_of_nonneg_left (by norm_num) hdQ.le
      _ ≤ (flr f64 d / Q) * (1 - 1 / 2 ^ 53) := mul_le_mul_of_nonneg_right g1 (by norm_num)
      _ ≤ _ := by linarith
  · calc flr f64 (flr f64 d / Q) ≤ (flr f64 d / Q) * (1 + 1 / 2 ^ 53) := by linarith
      _ ≤ (d / Q * (1 + 1 / 2 ^ 53)) * (1 + 1 / 2 ^ 53) := mul_le_mul_of_nonneg_right g2 (by norm_num)
      _ ≤ _ := by rw [mul_assoc]; exact mul_le_mul_of_nonneg_left (by norm_num) hdQ.le

theorem feq_fin {a b : F64} (ha : a.isFin = true) (hb : b.isFin = true) : Flt.feq a b = decide (a.toRat = b.toRat) := by
  unfold Flt.feq
  rw [(isFin_not_nan ha).1, (isFin_not_nan hb).1, lt_iff (isFin_not_nan ha).1 (isFin_not_nan hb).1, lt_iff (isFin_not_nan hb).1 (isFin_not_nan ha).1]
  rcases lt_trichotomy a.toRat b.toRat with h | h | h
  · simp [h, h.ne]
  · simp [h]
  · simp [h, h.ne']

theorem toI64_round {d : F64} (h : d.isFin = true) (hb : |d.toRat| ≤ 2 ^ 60) : toI64 (Flt.round d) = .ret (rha d.toRat) := by
  have h1 := rha_err d.toRat
  rw [abs_le] at h1 hb
  have h2 : (rha d.toRat : ℚ) ≤ (2 ^ 61 : ℤ) := by push_cast; linarith
  have h3 : ((-2 ^ 61 : ℤ) : ℚ) ≤ (rha d.toRat : ℚ) := by push_cast; linarith
  have h2 : rha d.toRat ≤ 2 ^ 61 := by exact_mod_cast h2
  have h3 : -2 ^ 61 ≤ rha d.toRat := by exact_mod_cast h3
  have := (toInt?_round_some (f := f64) (w := 64) (x := d) (t := rha d.toRat)).mpr ⟨h, rfl, by norm_num at *; omega, by norm_num at *; omega⟩
  unfold toI64
  rw [this]; rfl

theorem toI64_int {d : F64} {z : ℤ} (h : d.isFin = true) (e : d.toRat = z) (hz : 0 ≤ z ∧ z ≤ 255) : toI64 d = .ret z := by
  have ht : d.truncInt = z := by
    unfold Flt.truncInt
    unfold Flt.toRat at e
    revert e
    cases d.neg <;> intro e <;> simp only [Bool.false_eq_true, if_true, if_false] at e ⊢
    · rw [e, floor_eq', Int.floor_intCast]
    · rw [neg_eq_iff_eq_neg] at e
      rw [e, floor_eq', ← Int.cast_neg, Int.floor_intCast, neg_neg]
  unfold toI64
  rw [toInt?_fin h, ht, if_pos (by norm_num; omega)]
  rfl

theorem cvt32_pos {s : F64} (h : s.isFin = true) (h0 : 0 < s.toRat) : Flt.cvt f32 s = Flt.ofRat f32 s.toRat := by
  obtain ⟨h1, h2⟩ := isFin_not_nan h
  unfold Flt.cvt Flt.ofRat
  rw [h1, h2, if_neg h0.ne', toRat_abs, toRat_pos_lt h0]
  have : ¬ s.toRat < 0 := by linarith
  simp [this]

/-- `compute_quant_config` on a range of finite floats, in closed form. -/
theorem paramsOf_eq {dt : DType} (hdt : dt.isQuant = true) {lo hi : F64} {a b : F32} (hlo : lo.isFin = true) (hhi : hi.isFin = true)
    (ha : a.isFin = true) (hb : b.isFin = true) (elo : lo.toRat = a.toRat) (ehi : hi.toRat = b.toRat) (hle : a.toRat ≤ b.toRat) :
    paramsOf dt lo hi = .ret (params dt.bits a.toRat b.toRat) := by
  obtain ⟨_, _, hsg⟩ := quant_bits hdt
  have hQ := qmax_bounds hdt
  have hcast : ((2 ^ dt.bits - 1 : ℕ) : ℤ) = 2 ^ dt.bits - 1 := by
    have := Nat.one_le_two_pow (n := dt.bits)
    push_cast [Nat.cast_sub this]; rfl
  unfold paramsOf
  rw [typeMax_eq hdt, hsg]
  show (if Flt.feq hi lo then (pure (f1, (((2 ^ dt.bits - 1 : ℕ) : ℤ) + 0) / 2) : Prog (F32 × ℤ)) else _) = _
  rw [feq_fin hhi hlo, elo, ehi, hcast]
  unfold params
  by_cases he : b.toRat = a.toRat
  · rw [if_pos he, if_pos (by simpa using he), add_zero]; rfl
  rw [if_neg he, if_neg (by simpa using he)]
  have hlt : a.toRat < b.toRat := lt_of_le_of_ne hle (Ne.symm he)
  have hA := abs_lt.mp (abs_lt_of_isFin ha)
  have hB := abs_lt.mp (abs_lt_of_isFin hb)
  rw [emax_f32] at hA hB
  have hd1 : 1 / 2 ^ 149 ≤ b.toRat - a.toRat := by have := toRat_sub_unit hlt; rwa [unit_f32] at this
  have hd2 : b.toRat - a.toRat ≤ 2 ^ 129 := by
    have : (2:ℚ) ^ 129 = 2 ^ 128 + 2 ^ 128 := by norm_num
    rw [this]; linarith [hA.1, hB.2]
  obtain ⟨b1, b2, b3⟩ := scale64_bounds (bits := dt.bits) hQ hd1 hd2
  set Q := (2:ℤ) ^ dt.bits - 1 with hQdef
  have hQ1 : (3:ℚ) ≤ Q := by exact_mod_cast hQ.1
  have hQ2 : (Q:ℚ) ≤ 255 := by exact_mod_cast hQ.2
  have hQq : ((2:ℚ) ^ dt.bits - 1) = (Q:ℚ) := by rw [hQdef]; push_cast; rfl
  rw [hQq] at b2 b3
  have hQpos : (0:ℚ) < Q := by linarith
  -- qmin, qmax
  obtain ⟨ez, fz⟩ := ofInt_exact (f := f64) (z := 0) (by norm_num [f64])
  obtain ⟨eq, fq⟩ := ofInt_exact (f := f64) (z := Q) (by
    rw [abs_of_nonneg (by omega)]; exact hQ.2.trans (by norm_num [f64]))
  have ez : (Flt.ofInt f64 0).toRat = 0 := by rw [ez]; norm_num
  -- range
  have er : (Flt.sub hi lo).toRat = r64 (b.toRat - a.toRat) := by rw [sub_toRat hhi hlo, elo, ehi, r64_flr]
  have fr : (Flt.sub hi lo).isFin = true := isFin_of_abs (by rw [er, emax_f64]; exact lt_of_le_of_lt b1 (pow_lt_pow_right₀ (by norm_num) (by norm_num)))
  have eqq : (Flt.sub (Flt.ofInt f64 Q) (Flt.ofInt f64 0)).toRat = Q := by
    rw [sub_toRat fq fz, ez, eq, sub_zero, flr_rep (rep_int (by rw [abs_of_nonneg (by omega)]; exact hQ.2.trans (by norm_num [f64]))) ?_]
    rw [abs_of_pos hQpos, emax_f64]; exact hQ2.trans (by
      calc (255:ℚ) ≤ 2 ^ 8 := by norm_num
        _ ≤ _ := pow_le_pow_right₀ (by norm_num) (by norm_num))
  have fqq : (Flt.sub (Flt.ofInt f64 Q) (Flt.ofInt f64 0)).isFin = true := isFin_of_abs (by
    rw [eqq, abs_of_pos hQpos, emax_f64]
    calc (Q:ℚ) ≤ 255 := hQ2
      _ < 2 ^ 8 := by norm_num
      _ ≤ _ := pow_le_pow_right₀ (by norm_num) (by norm_num))
  -- scale
  set sc := Flt.div (Flt.sub hi lo) (Flt.sub (Flt.ofInt f64 Q) (Flt.ofInt f64 0)) with hsc
  have es : sc.toRat = scale64 dt.bits a.toRat b.toRat := by
    rw [hsc, div_toRat fr fqq (by rw [eqq]; exact hQpos.ne'), er, eqq]
    unfold scale64; rw [hQq]; exact (r64_flr _).symm
  set s := scale64 dt.bits a.toRat b.toRat with hs
  set d := b.toRat - a.toRat with hd
  have hd0 : 0 < d := lt_of_lt_of_le (by positivity) hd1
  have hs0 : 0 < s := lt_of_lt_of_le (mul_pos (div_pos hd0 hQpos) (by norm_num)) b2
  have hsup : s ≤ 2 ^ 130 := by
    calc s ≤ d / Q * (1 + 1 / 2 ^ 51) := b3
      _ ≤ d * 2 := by
        have : d / Q ≤ d := div_le_self hd0.le (by linarith)
        calc d / Q * (1 + 1 / 2 ^ 51) ≤ d * (1 + 1 / 2 ^ 51) := mul_le_mul_of_nonneg_right this (by norm_num)
          _ ≤ d * 2 := mul_le_mul_of_nonneg_left (by norm_num) hd0.le
      _ ≤ 2 ^ 129 * 2 := mul_le_mul_of_nonneg_right hd2 (by norm_num)
      _ = _ := by norm_num
  have fs : sc.isFin = true := isFin_of_abs (by
    rw [es, abs_of_pos hs0, emax_f64]; exact lt_of_le_of_lt hsup (pow_lt_pow_right₀ (by norm_num) (by norm_num)))
  -- quotient
  have ed : (Flt.div lo sc).toRat = r64 (a.toRat / s) := by rw [div_toRat hlo fs (by rw [es]; exact hs0.ne'), elo, es, r64_flr]
  have hratio : |a.toRat / s| ≤ 2 ^ 40 := by
    have hgap := toRat_gap (a := a) (b := b) hlt.ne
    rw [abs_sub_comm, abs_of_pos (by linarith : 0 < b.toRat - a.toRat), ← hd] at hgap
    have hgap : |a.toRat| ≤ 2 ^ 24 * d := hgap
    rw [abs_div, abs_of_pos hs0, div_le_iff₀ hs0]
    calc |a.toRat| ≤ 2 ^ 24 * d := hgap
      _ ≤ 2 ^ 40 * (d / Q * (1 - 1 / 2 ^ 51)) := by
        have : d / 255 ≤ d / Q := div_le_div_of_nonneg_left hd0.le hQpos hQ2
        have : d / 255 * (1 / 2) ≤ d / Q * (1 - 1 / 2 ^ 51) := mul_le_mul this (by norm_num) (by norm_num) (by positivity)
        have h3 : 2 ^ 24 * d ≤ 2 ^ 40 * (d / 255 * (1 / 2)) := by
          have : (2:ℚ) ^ 40 * (d / 255 * (1 / 2)) = (2 ^ 39 / 255) * d := by ring
          rw [this]; exact mul_le_mul_of_nonneg_right (by norm_num) hd0.le
        exact h3.trans (mul_le_mul_of_nonneg_left this (by positivity))
      _ ≤ 2 ^ 40 * s := mul_le_mul_of_nonneg_left b2 (by positivity)
  have hrd : |r64 (a.toRat / s)| ≤ 2 ^ 40 := by
    rw [r64_flr, abs_flr]
    apply fl_le (abs_nonneg _) hratio
    have := rep_nat (f := f64) (m := 1) (k := 40) (by decide)
    simpa using this
  have hbig : (2:ℚ) ^ 40 < 2 ^ f64.emax := by rw [emax_f64]; exact pow_lt_pow_right₀ (by norm_num) (by norm_num)
  have fd : (Flt.div lo sc).isFin = true := isFin_of_abs (by rw [ed]; exact lt_of_le_of_lt hrd hbig)
  have ezp : (Flt.sub (Flt.ofInt f64 0) (Flt.div lo sc)).toRat = -(r64 (a.toRat / s)) := by
    rw [sub_toRat fz fd, ez, zero_sub, ← ed, flr_neg, flr_rep (rep_toRat _) (abs_lt_of_isFin fd).le]
  have fzp : (Flt.sub (Flt.ofInt f64 0) (Flt.div lo sc)).isFin = true := isFin_of_abs (by
    rw [ezp, abs_neg]; exact lt_of_le_of_lt hrd hbig)
  set w := -(r64 (a.toRat / s)) with hw
  have hwb : |w| ≤ 2 ^ 40 := by rw [hw, abs_neg]; exact hrd
  have hr2 : |rha w| ≤ 2 ^ (f64.mb + 1) := by
    have h1 := abs_le.mp (rha_err w)
    have h2 := abs_le.mp hwb
    have h3 : (rha w : ℚ) ≤ (2 ^ 41 : ℤ) := by push_cast; linarith
    have h4 : ((-2 ^ 41 : ℤ) : ℚ) ≤ (rha w : ℚ) := by push_cast; linarith
    have h3 : rha w ≤ 2 ^ 41 := by exact_mod_cast h3
    have h4 : -2 ^ 41 ≤ rha w := by exact_mod_cast h4
    rw [abs_le]; norm_num [f64] at *; omega
  obtain ⟨ei, fi⟩ := ofInt_exact (f := f64) hr2
  obtain ⟨fm, em⟩ := stdMin_fin fi fq
  obtain ⟨fM, eM⟩ := stdMax_fin fm fz
  have efin : (stdMax (stdMin (Flt.ofInt f64 (rha w)) (Flt.ofInt f64 Q)) (Flt.ofInt f64 0)).toRat = ((sat dt.bits (rha w) : ℤ) : ℚ) := by
    rw [eM, em, ei, eq, ez]
    unfold sat
    rw [← hQdef, max_comm, min_comm]; push_cast; rfl
  have hsat : 0 ≤ sat dt.bits (rha w) ∧ sat dt.bits (rha w) ≤ 255 := by
    unfold sat; rw [← hQdef]; omega
  show (do
      let zi ← toI64 (Flt.round (Flt.sub (Flt.ofInt f64 0) (Flt.div lo sc)))
      let z ← toI64 (stdMax (stdMin (Flt.ofInt f64 zi) (Flt.ofInt f64 Q)) (Flt.ofInt f64 0))
      pure (Flt.cvt f32 sc, z) : Prog (F32 × ℤ)) = _
  rw [toI64_round fzp (by rw [ezp]; exact hwb.trans (by norm_num)), ezp]
  show (do
      let z ← toI64 (stdMax (stdMin (Flt.ofInt f64 (rha w)) (Flt.ofInt f64 Q)) (Flt.ofInt f64 0))
      pure (Flt.cvt f32 sc, z) : Prog (F32 × ℤ)) = _
  rw [toI64_int fM efin hsat, cvt32_pos fs (by rw [es]; exact hs0), es]
  rfl

end Verif
