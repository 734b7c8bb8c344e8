import Verif.Props.Dequant
import Verif.Proofs.Scale
import Verif.Proofs.Order
import Verif.Props.Examples

/-!
# Changing the sign, the zero point or the unit: C71, C72, C73
-/

namespace Verif.Props
open Spec

section
variable {c c' : Ctx} {x x' : InBuf} {dtIn dtIn' dtOut dt : DType} {n o o' : Nat} {scale scale' τ : F32} {zp k : ℤ} {mode : RoundMode} {m0 m0' : Mem}

/-- The kernel rounds this tensor exactly as the formula says: scalar or NEON code, or no scaled value is plus or minus
the float just below one half. -/
def Plain (c : Ctx) (x : InBuf) (dtIn dtOut : DType) (n : Nat) (scale : F32) (zp : ℤ) (mode : RoundMode) : Prop :=
  ExactKernel c.isa dtIn dtOut mode ∨ (|zp| ≤ 2 ^ 22 ∧ ∀ i, i < n → |(scaled (elem dtIn x.data 0 i) scale).toRat| ≠ predHalf)

theorem quantize_exact (h : QArgs c.threads x dtIn dtOut n) (hz : Zp32 zp)
    (hd : ∀ i, i < n → Defined mode τ (scaled (elem dtIn x.data 0 i) scale) zp) (hx : Plain c x dtIn dtOut n scale zp mode) :
    Always NoFault (quantize c x dtIn o (bytes dtOut.bits n) dtOut scale zp mode τ) (span o (bytes dtOut.bits n)) m0
      (fun m => ∀ i, i < n → (code dtOut.bits m o i : ℤ) = sat dtOut.bits (rounded mode τ.toRat (scaled (elem dtIn x.data 0 i) scale).toRat + zp)) := by
  refine (quantize_vals h hz hd (hx.imp (fun h => h) (fun h => h.1))).mono (fun _ h => h) (fun m hm i hi => ?_)
  rcases hm.1 i hi with g | ⟨g1, g2, _⟩
  · exact g
  · rcases hx with hx | ⟨_, hx⟩
    · exact absurd hx g1
    · exact absurd g2 (hx i hi)

theorem invScale_fin (hf : scale.isFin = true) (h1 : 1 / 2 ^ 126 ≤ scale.toRat) :
    (invScale scale).isFin = true ∧ (invScale scale).toRat = fl f32 (1 / scale.toRat) ∧ fl f32 (1 / scale.toRat) < 2 ^ f32.emax := by
  have hs : 0 < scale.toRat := lt_of_lt_of_le (by positivity) h1
  have e : (invScale scale).toRat = flr f32 (f1.toRat / scale.toRat) := div_toRat (by decide) hf hs.ne'
  have e1 : f1.toRat = 1 := by decide +kernel
  rw [e1, flr_nonneg_eq (by positivity)] at e
  have hlt : fl f32 (1 / scale.toRat) < 2 ^ f32.emax := by
    apply fl_fin (by positivity)
    rw [emax_f32, div_le_iff₀ hs]
    calc (1:ℚ) ≤ 2 ^ (128 - 1) * (1 / 2 ^ 126) := by norm_num
      _ ≤ _ := mul_le_mul_of_nonneg_left h1 (by positivity)
  refine ⟨isFin_of_abs ?_, e, hlt⟩
  rw [e, abs_of_nonneg (fl_nonneg _)]; exact hlt

/-! ## C71: sign -/

/-- C71, quantization: negating the tensor and mirroring the zero point mirrors the codes.  Every pair of configurations,
both rounding modes (with the same threshold). -/
theorem C71_quantize_mirror (h : QArgs c.threads x dtIn dtOut n) (h' : QArgs c'.threads x' dtIn' dtOut n)
    (hn : ∀ i, i < n → (elem dtIn' x'.data 0 i).toRat = -(elem dtIn x.data 0 i).toRat)
    (hz : Zp32 zp) (hz' : Zp32 (2 ^ dtOut.bits - 1 - zp))
    (hd : ∀ i, i < n → Defined mode τ (scaled (elem dtIn x.data 0 i) scale) zp)
    (hd' : ∀ i, i < n → Defined mode τ (scaled (elem dtIn' x'.data 0 i) scale) (2 ^ dtOut.bits - 1 - zp))
    (hx : Plain c x dtIn dtOut n scale zp mode) (hx' : Plain c' x' dtIn' dtOut n scale (2 ^ dtOut.bits - 1 - zp) mode) :
    Always NoFault (quantize c x dtIn o (bytes dtOut.bits n) dtOut scale zp mode τ) (span o (bytes dtOut.bits n)) m0 (fun m =>
      Always NoFault (quantize c' x' dtIn' o' (bytes dtOut.bits n) dtOut scale (2 ^ dtOut.bits - 1 - zp) mode τ) (span o' (bytes dtOut.bits n)) m0' (fun m' =>
        ∀ i, i < n → (code dtOut.bits m' o' i : ℤ) = 2 ^ dtOut.bits - 1 - code dtOut.bits m o i)) := by
  refine (quantize_exact h hz hd hx).mono (fun _ h => h) (fun m hm => ?_)
  refine (quantize_exact h' hz' hd' hx').mono (fun _ h => h) (fun m' hm' i hi => ?_)
  have e : (scaled (elem dtIn' x'.data 0 i) scale).toRat = -(scaled (elem dtIn x.data 0 i) scale).toRat := by
    rw [scaled_toRat (defined_fin (hd i hi)), scaled_toRat (defined_fin (hd' i hi)), hn i hi, neg_mul, flr_neg]
  rw [hm i hi, hm' i hi, e, rounded_neg (defined_tau (hd i hi)), ← sat_flip]
  congr 1; ring

/-- `C71_quantize_mirror` applied to a concrete case. -/
example := C71_quantize_mirror (c := Ex.c1) (c' := Ex.c2) (x := Ex.many) (x' := Ex.manyNeg) (dtIn := .f32) (dtIn' := .f32) (dtOut := .uint8) (n := 70)
    (o := 1000) (o' := 3000) (scale := Ex.tenth) (τ := Ex.quarter) (zp := 64) (mode := .nearest) (m0 := Ex.old) (m0' := Ex.old) (h := by wit)
    (h' := by wit) (hn := by wit) (hz := by wit) (hz' := by wit) (hd := by wit) (hd' := by wit) (hx := Or.inr ⟨by decide, by decide +kernel⟩)
    (hx' := Or.inr ⟨by decide, by decide +kernel⟩)

/-- C71, dequantization: mirrored codes with the mirrored zero point are the negated values. -/
theorem C71_dequantize_mirror (h : DArgs c.threads x dt .f32 n) (hr : Readable dt .f32 n x.size) (h' : DArgs c'.threads x' dt .f32 n) (hr' : Readable dt .f32 n x'.size)
    (hn : ∀ i, i < n → (code dt.bits x'.data 0 i : ℤ) = 2 ^ dt.bits - 1 - code dt.bits x.data 0 i)
    (hz : ZpSub zp) (hz' : ZpSub (2 ^ dt.bits - 1 - zp)) (hf : scale.isFin = true) :
    Always NoFault (dequantize c x (bytes dt.bits n) dt o (4 * n) .f32 scale zp .set) (span o (4 * n)) m0 (fun m =>
      Always NoFault (dequantize c' x' (bytes dt.bits n) dt o' (4 * n) .f32 scale (2 ^ dt.bits - 1 - zp) .set) (span o' (4 * n)) m0' (fun m' =>
        ∀ i, i < n → (f32At m' (o' + 4 * i)).toRat = -(f32At m (o + 4 * i)).toRat)) := by
  refine (C09_dequantize_f32_formula h hr hz).mono (fun _ h => h) (fun m hm => ?_)
  refine (C09_dequantize_f32_formula h' hr' hz').mono (fun _ h => h) (fun m' hm' i hi => ?_)
  rw [hm i hi, hm' i hi]
  unfold dequant
  have hq := code_lt256 h.inQuant x.data 0 i
  set q := code dt.bits x.data 0 i
  have e : (code dt.bits x'.data 0 i : ℤ) - (2 ^ dt.bits - 1 - zp) = -((q : ℤ) - zp) := by rw [hn i hi]; ring
  have hb : |(q : ℤ) - zp| ≤ 2 ^ 64 := by
    unfold ZpSub at hz; rw [abs_le]; constructor <;> norm_num at * <;> omega
  have hb' : |-((q : ℤ) - zp)| ≤ 2 ^ 64 := by rw [abs_neg]; exact hb
  rw [e, mul_toRat (ofInt_fin32 hb') hf, mul_toRat (ofInt_fin32 hb) hf, ofInt_toRat, ofInt_toRat]
  push_cast
  rw [flr_neg, neg_mul, flr_neg]

/-- `C71_dequantize_mirror` applied to a concrete case. -/
example := C71_dequantize_mirror (c := Ex.c1) (c' := Ex.c2) (x := Ex.codes) (x' := Ex.codesNeg) (dt := .uint4) (n := 139) (o := 1000) (o' := 3000)
    (scale := Ex.tenth) (zp := 7) (m0 := Ex.old) (m0' := Ex.old) (h := by wit) (hr := by wit) (h' := by wit) (hr' := by wit) (hn := by wit)
    (hz := by wit) (hz' := by wit) (hf := by wit)

/-! ## C72: zero point -/

/-- C72, quantization: moving the zero point by `k` moves every code by `k`, saturating; codes that were already saturated
on the side that `k` leads away from are excepted (nothing is known about how far beyond the range they were). -/
theorem C72_quantize_shift (h : QArgs c.threads x dtIn dtOut n) (h' : QArgs c'.threads x dtIn dtOut n)
    (hz : Zp32 zp) (hz' : Zp32 (zp + k))
    (hd : ∀ i, i < n → Defined mode τ (scaled (elem dtIn x.data 0 i) scale) zp)
    (hd' : ∀ i, i < n → Defined mode τ (scaled (elem dtIn x.data 0 i) scale) (zp + k))
    (hx : Plain c x dtIn dtOut n scale zp mode) (hx' : Plain c' x dtIn dtOut n scale (zp + k) mode) :
    Always NoFault (quantize c x dtIn o (bytes dtOut.bits n) dtOut scale zp mode τ) (span o (bytes dtOut.bits n)) m0 (fun m =>
      Always NoFault (quantize c' x dtIn o' (bytes dtOut.bits n) dtOut scale (zp + k) mode τ) (span o' (bytes dtOut.bits n)) m0' (fun m' =>
        ∀ i, i < n → (0 < code dtOut.bits m o i ∨ k ≤ 0) → ((code dtOut.bits m o i : ℤ) < 2 ^ dtOut.bits - 1 ∨ 0 ≤ k) →
          (code dtOut.bits m' o' i : ℤ) = sat dtOut.bits (code dtOut.bits m o i + k))) := by
  refine (quantize_exact h hz hd hx).mono (fun _ h => h) (fun m hm => ?_)
  refine (quantize_exact h' hz' hd' hx').mono (fun _ h => h) (fun m' hm' i hi h1 h2 => ?_)
  have e := hm i hi
  rw [hm' i hi, e]
  rw [e] at h2
  have h1 : 0 < sat dtOut.bits (rounded mode τ.toRat (scaled (elem dtIn x.data 0 i) scale).toRat + zp) ∨ k ≤ 0 := by
    rw [← e]; exact_mod_cast h1
  have hB : (1:ℤ) ≤ 2 ^ dtOut.bits := one_le_pow₀ (by norm_num)
  unfold sat at *
  generalize (2:ℤ) ^ dtOut.bits = B at *
  omega

/-- `C72_quantize_shift` applied to a concrete case. -/
example := C72_quantize_shift (c := Ex.c1) (c' := Ex.c2) (x := Ex.many) (dtIn := .f32) (dtOut := .uint8) (n := 70) (o := 1000) (o' := 3000)
    (scale := Ex.tenth) (τ := Ex.quarter) (zp := 64) (k := 5) (mode := .nearest) (m0 := Ex.old) (m0' := Ex.old) (h := by wit) (h' := by wit)
    (hz := by wit) (hz' := by wit) (hd := by wit) (hd' := by wit) (hx := Or.inr ⟨by decide, by decide +kernel⟩)
    (hx' := Or.inr ⟨by decide, by decide +kernel⟩)

/-- C72, dequantization: codes and zero point moved together stand for the same values, bit for bit (SET). -/
theorem C72_dequantize_shift (h : DArgs c.threads x dt .f32 n) (hr : Readable dt .f32 n x.size) (h' : DArgs c'.threads x' dt .f32 n) (hr' : Readable dt .f32 n x'.size)
    (hn : ∀ i, i < n → (code dt.bits x'.data 0 i : ℤ) = code dt.bits x.data 0 i + k) (hz : ZpSub zp) (hz' : ZpSub (zp + k)) :
    Always NoFault (dequantize c x (bytes dt.bits n) dt o (4 * n) .f32 scale zp .set) (span o (4 * n)) m0 (fun m =>
      Always NoFault (dequantize c' x' (bytes dt.bits n) dt o' (4 * n) .f32 scale (zp + k) .set) (span o' (4 * n)) m0' (fun m' =>
        ∀ i, i < n → f32At m' (o' + 4 * i) = f32At m (o + 4 * i))) := by
  refine (C09_dequantize_f32_formula h hr hz).mono (fun _ h => h) (fun m hm => ?_)
  refine (C09_dequantize_f32_formula h' hr' hz').mono (fun _ h => h) (fun m' hm' i hi => ?_)
  rw [hm i hi, hm' i hi]
  unfold dequant
  rw [hn i hi]
  congr 2; ring

/-- `C72_dequantize_shift` applied to a concrete case. -/
example := C72_dequantize_shift (c := Ex.c1) (c' := Ex.c2) (x := Ex.codesLow) (x' := Ex.codesUp) (dt := .uint8) (n := 70) (o := 1000) (o' := 3000)
    (scale := Ex.tenth) (zp := 7) (k := 5) (m0 := Ex.old) (m0' := Ex.old) (h := by wit) (hr := by wit) (h' := by wit) (hr' := by wit) (hn := by wit)
    (hz := by wit) (hz' := by wit)

/-! ## C73: units -/

/-- C73, quantization: tensor and scale multiplied by the same power of two give the same codes.  Scales in the normal
range (their reciprocals too), any kernels, thread counts and rounding modes. -/
theorem C73_quantize_units {e : Nat} (h : QArgs c.threads x dtIn dtOut n) (h' : QArgs c'.threads x' dtIn' dtOut n)
    (hf : scale.isFin = true) (hf' : scale'.isFin = true) (hs1 : 1 / 2 ^ 126 ≤ scale.toRat) (hs2 : scale'.toRat ≤ 2 ^ 126)
    (hs : scale'.toRat = scale.toRat * 2 ^ e)
    (hv : ∀ i, i < n → (elem dtIn' x'.data 0 i).isFin = true ∧ (elem dtIn' x'.data 0 i).toRat = (elem dtIn x.data 0 i).toRat * 2 ^ e)
    (hz : Zp32 zp) (hd : ∀ i, i < n → Defined mode τ (scaled (elem dtIn x.data 0 i) scale) zp)
    (hx : Plain c x dtIn dtOut n scale zp mode) (hx' : Plain c' x' dtIn' dtOut n scale' zp mode) :
    Always NoFault (quantize c x dtIn o (bytes dtOut.bits n) dtOut scale zp mode τ) (span o (bytes dtOut.bits n)) m0 (fun m =>
      Always NoFault (quantize c' x' dtIn' o' (bytes dtOut.bits n) dtOut scale' zp mode τ) (span o' (bytes dtOut.bits n)) m0' (fun m' =>
        ∀ i, i < n → code dtOut.bits m' o' i = code dtOut.bits m o i)) := by
  have p : (0:ℚ) < 2 ^ e := by positivity
  have hs0 : 0 < scale.toRat := lt_of_lt_of_le (by positivity) hs1
  have hs1' : 1 / 2 ^ 126 ≤ scale'.toRat := by
    rw [hs]; exact hs1.trans (le_mul_of_one_le_right hs0.le (one_le_pow₀ (by norm_num)))
  have hs0' : 0 < scale'.toRat := lt_of_lt_of_le (by positivity) hs1'
  obtain ⟨i1, i2, i3⟩ := invScale_fin hf hs1
  obtain ⟨j1, j2, _⟩ := invScale_fin hf' hs1'
  have hq : 1 / scale.toRat = 1 / scale'.toRat * 2 ^ e := by rw [hs]; field_simp
  have hinv : (invScale scale).toRat = (invScale scale').toRat * 2 ^ e := by
    rw [i2, j2, hq]
    apply fl_scale
    · rw [unit_f32, show f32.mb = 23 from rfl, div_mul_eq_mul_div, one_mul, le_div_iff₀ hs0']
      calc (2:ℚ) ^ 23 * scale'.toRat ≤ 2 ^ 23 * 2 ^ 126 := mul_le_mul_of_nonneg_left hs2 (by positivity)
        _ = 2 ^ 149 := by rw [← pow_add]
    · rw [← hq]; exact i3
  have val : ∀ i, i < n → (scaled (elem dtIn' x'.data 0 i) scale').toRat = (scaled (elem dtIn x.data 0 i) scale).toRat := by
    intro i hi
    rw [scaled_toRat (defined_fin (hd i hi)), show (scaled (elem dtIn' x'.data 0 i) scale').toRat = flr f32 ((elem dtIn' x'.data 0 i).toRat * (invScale scale').toRat) from mul_toRat (hv i hi).1 j1, (hv i hi).2, hinv]
    congr 1; ring
  have hd' : ∀ i, i < n → Defined mode τ (scaled (elem dtIn' x'.data 0 i) scale') zp := by
    intro i hi
    have a := hd i hi
    have b := isFin_of_toRat (val i hi) (defined_fin a)
    cases mode
    · unfold Defined Fits at *
      simp only at *
      rw [val i hi]; exact ⟨b, a.2⟩
    · unfold Defined at *
      simp only at *
      rw [val i hi]; exact ⟨b, a.2⟩
  refine (quantize_exact h hz hd hx).mono (fun _ h => h) (fun m hm => ?_)
  refine (quantize_exact h' hz hd' hx').mono (fun _ h => h) (fun m' hm' i hi => ?_)
  have := hm' i hi
  rw [val i hi, ← hm i hi] at this
  exact_mod_cast this

/-- `C73_quantize_units` applied to a concrete case. -/
example := C73_quantize_units (c := Ex.c1) (c' := Ex.c2) (x := Ex.many) (x' := Ex.many8) (dtIn := .f32) (dtIn' := .f32) (dtOut := .uint8) (n := 70)
    (o := 1000) (o' := 3000) (scale := Ex.tenth) (scale' := Ex.eightTenth) (τ := Ex.quarter) (zp := 64) (mode := .nearest) (m0 := Ex.old)
    (m0' := Ex.old) (e := 3) (h := by wit) (h' := by wit) (hf := by wit) (hf' := by wit) (hs1 := by wit) (hs2 := by wit) (hs := by wit) (hv := by wit)
    (hz := by wit) (hd := by wit) (hx := Or.inr ⟨by decide, by decide +kernel⟩) (hx' := Or.inr ⟨by decide, by decide +kernel⟩)

/-- C73, dequantization: multiplying the scale by a power of two multiplies the values by it. -/
theorem C73_dequantize_units {e : Nat} (h : DArgs c.threads x dt .f32 n) (hr : Readable dt .f32 n x.size) (h' : DArgs c'.threads x' dt .f32 n) (hr' : Readable dt .f32 n x'.size)
    (hn : ∀ i, i < n → code dt.bits x'.data 0 i = code dt.bits x.data 0 i) (hz : ZpSub zp)
    (hf : scale.isFin = true) (hf' : scale'.isFin = true) (hs1 : 1 / 2 ^ 126 ≤ scale.toRat) (hs2 : scale'.toRat ≤ 2 ^ 94)
    (hs : scale'.toRat = scale.toRat * 2 ^ e) :
    Always NoFault (dequantize c x (bytes dt.bits n) dt o (4 * n) .f32 scale zp .set) (span o (4 * n)) m0 (fun m =>
      Always NoFault (dequantize c' x' (bytes dt.bits n) dt o' (4 * n) .f32 scale' zp .set) (span o' (4 * n)) m0' (fun m' =>
        ∀ i, i < n → (f32At m' (o' + 4 * i)).toRat = (f32At m (o + 4 * i)).toRat * 2 ^ e)) := by
  refine (C09_dequantize_f32_formula h hr hz).mono (fun _ h => h) (fun m hm => ?_)
  refine (C09_dequantize_f32_formula h' hr' hz).mono (fun _ h => h) (fun m' hm' i hi => ?_)
  rw [hm i hi, hm' i hi, hn i hi]
  unfold dequant
  have hq := code_lt256 h.inQuant x.data 0 i
  set q := code dt.bits x.data 0 i
  generalize hw : (q : ℤ) - zp = w
  have hb : |w| ≤ 2 ^ 32 := by
    unfold ZpSub at hz; rw [← hw, abs_le]; constructor <;> norm_num at * <;> omega
  have hb64 : |w| ≤ 2 ^ 64 := hb.trans (by norm_num)
  rw [mul_toRat (ofInt_fin32 hb64) hf', mul_toRat (ofInt_fin32 hb64) hf, hs]
  have hs0 : 0 < scale.toRat := lt_of_lt_of_le (by positivity) hs1
  have hI := ofInt_toRat (f := f32) w
  set I := (Flt.ofInt f32 w).toRat
  rw [← mul_assoc]
  rcases eq_or_ne w 0 with h0 | h0
  · rw [hI, h0]; norm_num [flr_zero]
  have hI1 : 1 ≤ |I| := by
    rw [hI, abs_flr]
    have r1 : Rep f32 1 := by have := rep_nat' (f := f32) (m := 1) (by decide); simpa using this
    refine le_fl ?_ r1 (one_le_pow₀ (by norm_num))
    have : (1:ℤ) ≤ |w| := Int.one_le_abs h0
    exact_mod_cast this
  have hI2 : |I| ≤ 2 ^ 32 := by
    rw [hI, abs_flr]
    have r1 : Rep f32 (2 ^ 32) := by have := rep_nat (f := f32) (m := 1) (k := 32) (by decide); simpa using this
    refine fl_le (abs_nonneg _) ?_ r1
    exact_mod_cast hb
  have key : fl f32 (|I * scale.toRat| * 2 ^ e) = fl f32 |I * scale.toRat| * 2 ^ e := by
    rw [abs_mul, abs_of_pos hs0]
    apply fl_scale
    · rw [unit_f32, show f32.mb = 23 from rfl]
      calc (2:ℚ) ^ 23 = 1 * (1 / 2 ^ 126) * 2 ^ 149 := by norm_num
        _ ≤ |I| * scale.toRat * 2 ^ 149 := by gcongr
    · apply fl_fin (by positivity)
      rw [emax_f32, mul_assoc, ← hs]
      calc |I| * scale'.toRat ≤ 2 ^ 32 * 2 ^ 94 := mul_le_mul hI2 hs2 (by rw [hs]; positivity) (by positivity)
        _ ≤ 2 ^ (128 - 1) := by norm_num
  have p : (0:ℚ) < 2 ^ e := by positivity
  have habs : |I * scale.toRat * 2 ^ e| = |I * scale.toRat| * 2 ^ e := by rw [abs_mul, abs_of_pos p]
  unfold flr
  rw [habs, key]
  by_cases hneg : I * scale.toRat < 0
  · rw [if_pos hneg, if_pos (mul_neg_of_neg_of_pos hneg p)]; ring
  · rw [if_neg hneg, if_neg (not_lt.mpr (mul_nonneg (not_lt.mp hneg) p.le))]

/-- `C73_dequantize_units` applied to a concrete case. -/
example := C73_dequantize_units (c := Ex.c1) (c' := Ex.c2) (x := Ex.codes) (x' := Ex.codes) (dt := .uint4) (n := 139) (o := 1000) (o' := 3000)
    (scale := Ex.tenth) (scale' := Ex.eightTenth) (zp := 7) (m0 := Ex.old) (m0' := Ex.old) (e := 3) (h := by wit) (hr := by wit) (h' := by wit)
    (hr' := by wit) (hn := by wit) (hz := by wit) (hf := by wit) (hf' := by wit) (hs1 := by wit) (hs2 := by wit) (hs := by wit)

end

/-! ## The hypotheses are met -/

/-- -1.0, 2.5, -0.3, -7.75, -100.0: the tensor `Ex.xs` negated; and eight times that tensor. -/
def negXs : InBuf := Ex.buf (Ex.words32 [0xbf800000, 0x40200000, 0xbe99999a, 0xc0f80000, 0xc2c80000])
def eightXs : InBuf := Ex.buf (Ex.words32 [0x41000000, 0xc1a00000, 0x4019999a, 0x42780000, 0x44480000])
/-- 0.8f -/
def eightTenth : F32 := ⟨false, 0x3f4ccccd⟩

example : (∀ i, i < 5 → (elem .f32 negXs.data 0 i).toRat = -(elem .f32 Ex.xs.data 0 i).toRat) ∧
    (∀ i, i < 5 → Defined .nearest f0 (scaled (elem .f32 Ex.xs.data 0 i) Ex.tenth) 3) ∧
    (∀ i, i < 5 → Defined .nearest f0 (scaled (elem .f32 negXs.data 0 i) Ex.tenth) (2 ^ 4 - 1 - 3)) ∧
    Plain ⟨.avx2, 4, .none⟩ Ex.xs .f32 .uint4 5 Ex.tenth 3 .nearest ∧ Plain ⟨.avx512f, 1, .none⟩ negXs .f32 .uint4 5 Ex.tenth (2 ^ 4 - 1 - 3) .nearest :=
  ⟨by decide +kernel, by decide +kernel, by decide +kernel, Or.inr ⟨by decide, by decide +kernel⟩, Or.inr ⟨by decide, by decide +kernel⟩⟩

/-- Zero point 3 moved by 2. -/
example : (∀ i, i < 5 → Defined .stochastic Ex.quarter (scaled (elem .f32 Ex.xs.data 0 i) Ex.tenth) 3) ∧
    (∀ i, i < 5 → Defined .stochastic Ex.quarter (scaled (elem .f32 Ex.xs.data 0 i) Ex.tenth) (3 + 2)) ∧
    Plain ⟨.avx2, 4, .none⟩ Ex.xs .f32 .uint4 5 Ex.tenth 3 .stochastic := ⟨by decide +kernel, by decide +kernel, Or.inl (Or.inr (Or.inr (Or.inl rfl)))⟩

/-- Tensor and scale times eight. -/
example : eightTenth.toRat = Ex.tenth.toRat * 2 ^ 3 ∧ 1 / 2 ^ 126 ≤ Ex.tenth.toRat ∧ eightTenth.toRat ≤ 2 ^ 126 ∧
    (∀ i, i < 5 → (elem .f32 eightXs.data 0 i).isFin = true ∧ (elem .f32 eightXs.data 0 i).toRat = (elem .f32 Ex.xs.data 0 i).toRat * 2 ^ 3) :=
  ⟨by decide +kernel, by decide +kernel, by decide +kernel, by decide +kernel⟩

/-- Codes 0x10, 0x80 of two uint4 pairs: mirrored 0xEF, 0x7F; moved by one 0x21, 0x91. -/
example : (∀ i, i < 4 → (code DType.uint4.bits (Ex.buf [0xEF, 0x7F]).data 0 i : ℤ) = 2 ^ DType.uint4.bits - 1 - code DType.uint4.bits (Ex.buf [0x10, 0x80]).data 0 i) ∧
    (∀ i, i < 4 → (code DType.uint4.bits (Ex.buf [0x21, 0x91]).data 0 i : ℤ) = code DType.uint4.bits (Ex.buf [0x10, 0x80]).data 0 i + 1) := by decide +kernel

end Verif.Props
