import Verif.Props.Examples
import Verif.Props.Symmetry

/-!
# How results move when data, scale, zero point or threshold change: C78
-/

namespace Verif.Props
open Spec

section
variable {c c' : Ctx} {x x' : InBuf} {dtIn dtIn' dtOut dt : DType} {n o o' : Nat} {scale scale' τ τ' : F32} {zp zp' : ℤ} {mode : RoundMode} {m0 m0' : Mem}

/-- C78: larger data and a larger zero point give larger codes.  Two calls, any pair of configurations and float types. -/
theorem C78_quantize_monotone_across_calls (h : QArgs c.threads x dtIn dtOut n) (h' : QArgs c'.threads x' dtIn' dtOut n)
    (h0 : 0 < scale.toRat) (hf : scale.isFin = true) (hz : Zp32 zp) (hz' : Zp32 zp')
    (hd : ∀ i, i < n → Defined mode τ (scaled (elem dtIn x.data 0 i) scale) zp)
    (hd' : ∀ i, i < n → Defined mode τ (scaled (elem dtIn' x'.data 0 i) scale) zp')
    (hx : Plain c x dtIn dtOut n scale zp mode) (hx' : Plain c' x' dtIn' dtOut n scale zp' mode) :
    Always NoFault (quantize c x dtIn o (bytes dtOut.bits n) dtOut scale zp mode τ) (span o (bytes dtOut.bits n)) m0 (fun m =>
      Always NoFault (quantize c' x' dtIn' o' (bytes dtOut.bits n) dtOut scale zp' mode τ) (span o' (bytes dtOut.bits n)) m0' (fun m' =>
        ∀ i j, i < n → j < n → (elem dtIn x.data 0 i).toRat ≤ (elem dtIn' x'.data 0 j).toRat → zp ≤ zp' → code dtOut.bits m o i ≤ code dtOut.bits m' o' j)) := by
  refine (quantize_exact h hz hd hx).mono (fun _ h => h) (fun m hm => ?_)
  refine (quantize_exact h' hz' hd' hx').mono (fun _ h => h) (fun m' hm' i j hi hj hv hzz => ?_)
  have e := scaled_mono h0 hf (defined_fin (hd i hi)) (defined_fin (hd' j hj)) hv
  have : (code dtOut.bits m o i : ℤ) ≤ code dtOut.bits m' o' j := by
    rw [hm i hi, hm' j hj]
    have := rounded_mono (defined_tau (hd i hi)) e
    exact sat_mono (by omega)
  exact_mod_cast this

/-- `C78_quantize_monotone_across_calls` applied to a concrete case. -/
example := C78_quantize_monotone_across_calls (c := Ex.c1) (c' := Ex.c2) (x := Ex.many) (x' := Ex.manyB) (dtIn := .f32) (dtIn' := .bf16)
    (dtOut := .uint8) (n := 70) (o := 1000) (o' := 3000) (scale := Ex.tenth) (τ := Ex.quarter) (zp := 64) (zp' := 60) (mode := .nearest) (m0 := Ex.old)
    (m0' := Ex.old) (h := by wit) (h' := by wit) (h0 := by wit) (hf := by wit) (hz := by wit) (hz' := by wit) (hd := by wit) (hd' := by wit)
    (hx := Or.inr ⟨by decide, by decide +kernel⟩) (hx' := Or.inr ⟨by decide, by decide +kernel⟩)

/-- The reciprocal of the scale, as the library computes it. -/
theorem invScale_anti (h0 : 0 < scale.toRat) (hf : scale.isFin = true) (hf' : scale'.isFin = true) (hs : scale.toRat ≤ scale'.toRat) :
    (invScale scale').toRat ≤ (invScale scale).toRat := by
  have e : (invScale scale).toRat = flr f32 (f1.toRat / scale.toRat) := div_toRat (by decide) hf h0.ne'
  have e' : (invScale scale').toRat = flr f32 (f1.toRat / scale'.toRat) := div_toRat (by decide) hf' (h0.trans_le hs).ne'
  have e1 : f1.toRat = 1 := by decide +kernel
  rw [e, e', e1]
  exact flr_mono (one_div_le_one_div_of_le h0 hs)

/-- C78: a larger scale moves every code towards the zero point: codes of non-negative elements do not grow, codes of
non-positive elements do not shrink. -/
theorem C78_quantize_scale (h : QArgs c.threads x dtIn dtOut n) (h' : QArgs c'.threads x dtIn dtOut n)
    (h0 : 0 < scale.toRat) (hf : scale.isFin = true) (hf' : scale'.isFin = true) (hs : scale.toRat ≤ scale'.toRat) (hz : Zp32 zp)
    (hd : ∀ i, i < n → Defined mode τ (scaled (elem dtIn x.data 0 i) scale) zp)
    (hd' : ∀ i, i < n → Defined mode τ (scaled (elem dtIn x.data 0 i) scale') zp)
    (hx : Plain c x dtIn dtOut n scale zp mode) (hx' : Plain c' x dtIn dtOut n scale' zp mode) :
    Always NoFault (quantize c x dtIn o (bytes dtOut.bits n) dtOut scale zp mode τ) (span o (bytes dtOut.bits n)) m0 (fun m =>
      Always NoFault (quantize c' x dtIn o' (bytes dtOut.bits n) dtOut scale' zp mode τ) (span o' (bytes dtOut.bits n)) m0' (fun m' =>
        ∀ i, i < n → (0 ≤ (elem dtIn x.data 0 i).toRat → code dtOut.bits m' o' i ≤ code dtOut.bits m o i) ∧
          ((elem dtIn x.data 0 i).toRat ≤ 0 → code dtOut.bits m o i ≤ code dtOut.bits m' o' i))) := by
  refine (quantize_exact h hz hd hx).mono (fun _ h => h) (fun m hm => ?_)
  refine (quantize_exact h' hz hd' hx').mono (fun _ h => h) (fun m' hm' i hi => ?_)
  have hi' := invScale_anti h0 hf hf' hs
  have e := scaled_toRat (defined_fin (hd i hi))
  have e' := scaled_toRat (defined_fin (hd' i hi))
  constructor
  · intro hv
    have g : (scaled (elem dtIn x.data 0 i) scale').toRat ≤ (scaled (elem dtIn x.data 0 i) scale).toRat := by
      rw [e, e']; exact flr_mono (mul_le_mul_of_nonneg_left hi' hv)
    have : (code dtOut.bits m' o' i : ℤ) ≤ code dtOut.bits m o i := by
      rw [hm i hi, hm' i hi]
      have := rounded_mono (defined_tau (hd i hi)) g
      exact sat_mono (by omega)
    exact_mod_cast this
  · intro hv
    have g : (scaled (elem dtIn x.data 0 i) scale).toRat ≤ (scaled (elem dtIn x.data 0 i) scale').toRat := by
      rw [e, e']; exact flr_mono (mul_le_mul_of_nonpos_left hi' hv)
    have : (code dtOut.bits m o i : ℤ) ≤ code dtOut.bits m' o' i := by
      rw [hm i hi, hm' i hi]
      have := rounded_mono (defined_tau (hd i hi)) g
      exact sat_mono (by omega)
    exact_mod_cast this

/-- `C78_quantize_scale` applied to a concrete case. -/
example := C78_quantize_scale (c := Ex.c1) (c' := Ex.c2) (x := Ex.many) (dtIn := .f32) (dtOut := .uint8) (n := 70) (o := 1000) (o' := 3000)
    (scale := Ex.tenth) (scale' := Ex.half) (τ := Ex.quarter) (zp := 64) (mode := .nearest) (m0 := Ex.old) (m0' := Ex.old) (h := by wit) (h' := by wit)
    (h0 := by wit) (hf := by wit) (hf' := by wit) (hs := by wit) (hz := by wit) (hd := by wit) (hd' := by wit)
    (hx := Or.inr ⟨by decide, by decide +kernel⟩) (hx' := Or.inr ⟨by decide, by decide +kernel⟩)

theorem sround_anti {a b p : ℚ} (h : a ≤ b) (hp : 0 ≤ p) : sround b p ≤ sround a p := by
  rw [sround_nonneg hp, sround_nonneg hp]
  split <;> split
  · exact le_refl _
  · rename_i h1 h2; exact absurd (lt_of_le_of_lt h h1) h2
  · omega
  · exact le_refl _

/-- C78: a larger threshold moves the codes of a stochastic call towards the zero point. -/
theorem C78_stochastic_threshold (h : QArgs c.threads x dtIn dtOut n) (h' : QArgs c'.threads x dtIn dtOut n)
    (h0 : 0 < scale.toRat) (hf : scale.isFin = true) (hz : Zp32 zp) (hτ : τ.toRat ≤ τ'.toRat)
    (hd : ∀ i, i < n → Defined .stochastic τ (scaled (elem dtIn x.data 0 i) scale) zp)
    (hd' : ∀ i, i < n → Defined .stochastic τ' (scaled (elem dtIn x.data 0 i) scale) zp) :
    Always NoFault (quantize c x dtIn o (bytes dtOut.bits n) dtOut scale zp .stochastic τ) (span o (bytes dtOut.bits n)) m0 (fun m =>
      Always NoFault (quantize c' x dtIn o' (bytes dtOut.bits n) dtOut scale zp .stochastic τ') (span o' (bytes dtOut.bits n)) m0' (fun m' =>
        ∀ i, i < n → (0 ≤ (elem dtIn x.data 0 i).toRat → code dtOut.bits m' o' i ≤ code dtOut.bits m o i) ∧
          ((elem dtIn x.data 0 i).toRat ≤ 0 → code dtOut.bits m o i ≤ code dtOut.bits m' o' i))) := by
  refine (quantize_exact h hz hd (Or.inl (Or.inr (Or.inr (Or.inl rfl))))).mono (fun _ h => h) (fun m hm => ?_)
  refine (quantize_exact h' hz hd' (Or.inl (Or.inr (Or.inr (Or.inl rfl))))).mono (fun _ h => h) (fun m' hm' i hi => ?_)
  have e := scaled_toRat (defined_fin (hd i hi))
  have hn := invScale_nonneg h0 hf
  have e1 : (code dtOut.bits m o i : ℤ) = sat dtOut.bits (sround τ.toRat (scaled (elem dtIn x.data 0 i) scale).toRat + zp) := hm i hi
  have e2 : (code dtOut.bits m' o' i : ℤ) = sat dtOut.bits (sround τ'.toRat (scaled (elem dtIn x.data 0 i) scale).toRat + zp) := hm' i hi
  constructor
  · intro hv
    have hp : 0 ≤ (scaled (elem dtIn x.data 0 i) scale).toRat := by
      rw [e]; exact flr_nonneg (mul_nonneg hv hn)
    have := sround_anti hτ hp
    have : (code dtOut.bits m' o' i : ℤ) ≤ code dtOut.bits m o i := by
      rw [e1, e2]; exact sat_mono (by omega)
    exact_mod_cast this
  · intro hv
    have hp : (scaled (elem dtIn x.data 0 i) scale).toRat ≤ 0 := by
      rw [e]; exact flr_nonpos (mul_nonpos_of_nonpos_of_nonneg hv hn)
    have : sround τ.toRat (scaled (elem dtIn x.data 0 i) scale).toRat ≤ sround τ'.toRat (scaled (elem dtIn x.data 0 i) scale).toRat := by
      rcases hp.lt_or_eq with hp | hp
      · rw [sround_neg hp, sround_neg (τ := τ'.toRat) hp]
        have := sround_anti hτ (show 0 ≤ -(scaled (elem dtIn x.data 0 i) scale).toRat by linarith)
        omega
      · have t0 := (hd i hi).2.2.2
        have t1 := (hd' i hi).2.2.2
        rw [hp, sround_nonneg (le_refl _), sround_nonneg (le_refl _)]
        simp only [Int.floor_zero, Int.cast_zero, sub_zero]
        rw [if_neg (not_lt.mpr t0), if_neg (not_lt.mpr t1)]
    have : (code dtOut.bits m o i : ℤ) ≤ code dtOut.bits m' o' i := by
      rw [e1, e2]; exact sat_mono (by omega)
    exact_mod_cast this

/-- `C78_stochastic_threshold` applied to a concrete case. -/
example := C78_stochastic_threshold (c := Ex.c1) (c' := Ex.c2) (x := Ex.many) (dtIn := .f32) (dtOut := .uint8) (n := 70) (o := 1000) (o' := 3000)
    (scale := Ex.tenth) (τ := Ex.quarter) (τ' := Ex.half) (zp := 64) (m0 := Ex.old) (m0' := Ex.old) (h := by wit) (h' := by wit) (h0 := by wit)
    (hf := by wit) (hz := by wit) (hτ := by wit) (hd := by wit) (hd' := by wit)

/-- C78: a larger scale moves the dequantized values away from zero. -/
theorem C78_dequantize_scale (h : DArgs c.threads x dt .f32 n) (hr : Readable dt .f32 n x.size) (h' : DArgs c'.threads x dt .f32 n)
    (hf : scale.isFin = true) (hf' : scale'.isFin = true) (hs : scale.toRat ≤ scale'.toRat) (hz : ZpSub zp) :
    Always NoFault (dequantize c x (bytes dt.bits n) dt o (4 * n) .f32 scale zp .set) (span o (4 * n)) m0 (fun m =>
      Always NoFault (dequantize c' x (bytes dt.bits n) dt o' (4 * n) .f32 scale' zp .set) (span o' (4 * n)) m0' (fun m' =>
        ∀ i, i < n → (zp ≤ code dt.bits x.data 0 i → (f32At m (o + 4 * i)).toRat ≤ (f32At m' (o' + 4 * i)).toRat) ∧
          ((code dt.bits x.data 0 i : ℤ) ≤ zp → (f32At m' (o' + 4 * i)).toRat ≤ (f32At m (o + 4 * i)).toRat))) := by
  refine (C09_dequantize_f32_formula h hr hz).mono (fun _ h => h) (fun m hm => ?_)
  refine (C09_dequantize_f32_formula h' hr hz).mono (fun _ h => h) (fun m' hm' i hi => ?_)
  rw [hm i hi, hm' i hi]
  unfold dequant
  have hq := code_lt256 h.inQuant x.data 0 i
  set q := code dt.bits x.data 0 i
  have hb : |(q : ℤ) - zp| ≤ 2 ^ 64 := by
    unfold ZpSub at hz; rw [abs_le]; constructor <;> norm_num at * <;> omega
  rw [mul_toRat (ofInt_fin32 hb) hf, mul_toRat (ofInt_fin32 hb) hf', ofInt_toRat]
  constructor
  · intro hv
    have : (0:ℚ) ≤ (((q:ℤ) - zp : ℤ) : ℚ) := by exact_mod_cast (by omega : (0:ℤ) ≤ (q:ℤ) - zp)
    exact flr_mono (mul_le_mul_of_nonneg_left hs (flr_nonneg this))
  · intro hv
    have : (((q:ℤ) - zp : ℤ) : ℚ) ≤ 0 := by exact_mod_cast (by omega : (q:ℤ) - zp ≤ 0)
    exact flr_mono (mul_le_mul_of_nonpos_left hs (flr_nonpos this))

/-- `C78_dequantize_scale` applied to a concrete case. -/
example := C78_dequantize_scale (c := Ex.c1) (c' := Ex.c2) (x := Ex.codes) (dt := .uint4) (n := 139) (o := 1000) (o' := 3000) (scale := Ex.tenth)
    (scale' := Ex.half) (zp := 7) (m0 := Ex.old) (m0' := Ex.old) (h := by wit) (hr := by wit) (h' := by wit) (hf := by wit) (hf' := by wit)
    (hs := by wit) (hz := by wit)

end

/-- The tensor of `Ex.xs` with scales 1/10 and 1/2 on two different kernels. -/
example : Ex.tenth.toRat ≤ Ex.half.toRat ∧ (∀ i, i < 5 → Defined .nearest f0 (scaled (elem .f32 Ex.xs.data 0 i) Ex.tenth) 3) ∧
    (∀ i, i < 5 → Defined .nearest f0 (scaled (elem .f32 Ex.xs.data 0 i) Ex.half) 3) ∧
    Plain ⟨.avx2, 4, .none⟩ Ex.xs .f32 .uint4 5 Ex.tenth 3 .nearest ∧ Plain ⟨.avx512f, 1, .none⟩ Ex.xs .f32 .uint4 5 Ex.half 3 .nearest :=
  ⟨by decide +kernel, by decide +kernel, by decide +kernel, Or.inr ⟨by decide, by decide +kernel⟩, Or.inr ⟨by decide, by decide +kernel⟩⟩

/-- Thresholds 1/4 and 1/2. -/
example : Ex.quarter.toRat ≤ Ex.half.toRat ∧ (∀ i, i < 5 → Defined .stochastic Ex.quarter (scaled (elem .f32 Ex.xs.data 0 i) Ex.tenth) 3) ∧
    (∀ i, i < 5 → Defined .stochastic Ex.half (scaled (elem .f32 Ex.xs.data 0 i) Ex.tenth) 3) := by decide +kernel

end Verif.Props
