import Verif.Props.Optimal
import Verif.Props.RoundTrip
import Verif.Props.Dequant2
import Verif.Props.LargeZp

/-!
# C99: round trips with zero points outside the code range

The parameters the library computes have a zero point in the code range, so data that stays away from
zero saturates (C26, C63).  Nothing stops a user from choosing the zero point outside the code range;
then the quantized interval `[(0 - z) s, (2^bits - 1 - z) s]` can lie anywhere.
-/

namespace Verif.Props
open Verif Spec

variable {c c' : Ctx} {x : InBuf} {ft : FT} {dt : DType} {n o o' : Nat} {s τ : F32} {z : ℤ} {m0 m0' : Mem}

/-- The value of code minus zero point `k`, relatively. -/
theorem dequant_rel {k : ℤ} (hk : |k| ≤ 2 ^ 21) (hf : s.isFin = true) (h1 : 1 / 2 ^ 126 ≤ s.toRat) (h2 : s.toRat ≤ 2 ^ 105) :
    (Flt.mul (Flt.ofInt f32 k) s).isFin = true ∧
    |(Flt.mul (Flt.ofInt f32 k) s).toRat / s.toRat - k| ≤ |(k:ℚ)| / 2 ^ 24 := by
  have hs : 0 < s.toRat := lt_of_lt_of_le (by positivity) h1
  obtain ⟨e, f⟩ := ofInt_exact (f := f32) (z := k) (hk.trans (by show (2:ℤ) ^ 21 ≤ 2 ^ 24; norm_num))
  have hk' : |(k:ℚ)| ≤ 2 ^ 21 := by exact_mod_cast hk
  have habs : |(k:ℚ) * s.toRat| = |(k:ℚ)| * s.toRat := by rw [abs_mul, abs_of_pos hs]
  have hle : |(k:ℚ) * s.toRat| ≤ 2 ^ 126 := by
    rw [habs]
    calc _ ≤ (2:ℚ) ^ 21 * 2 ^ 105 := mul_le_mul hk' h2 hs.le (by positivity)
      _ = _ := by norm_num
  have hfl : fl f32 |(k:ℚ) * s.toRat| < 2 ^ f32.emax := fl_fin (abs_nonneg _) (by rw [emax_f32]; exact hle.trans (by norm_num))
  have ev : (Flt.mul (Flt.ofInt f32 k) s).toRat = flr f32 ((k:ℚ) * s.toRat) := by rw [mul_toRat f hf, e]
  refine ⟨isFin_of_abs (by rw [ev, abs_flr]; exact hfl), ?_⟩
  have key : |flr f32 ((k:ℚ) * s.toRat) - k * s.toRat| ≤ |(k:ℚ)| * s.toRat / 2 ^ 24 := by
    rcases eq_or_ne k 0 with rfl | h0
    · rw [Int.cast_zero, zero_mul, flr_zero]; simp
    · refine (flr_err hfl).trans (max_le ?_ ?_)
      · rw [unit_f32]
        have hk1 : (1:ℚ) ≤ |(k:ℚ)| := by
          have : (1:ℤ) ≤ |k| := Int.one_le_abs h0
          exact_mod_cast this
        have : (1:ℚ) / 2 ^ 126 ≤ |(k:ℚ)| * s.toRat := by
          calc (1:ℚ) / 2 ^ 126 ≤ s.toRat := h1
            _ = 1 * s.toRat := (one_mul _).symm
            _ ≤ _ := mul_le_mul_of_nonneg_right hk1 hs.le
        have := div_le_div_of_nonneg_right this (show (0:ℚ) ≤ 2 ^ 24 by positivity)
        refine le_trans ?_ this
        norm_num
      · rw [habs]; exact le_refl _
  rw [ev]
  have e2 : flr f32 ((k:ℚ) * s.toRat) / s.toRat - k = (flr f32 ((k:ℚ) * s.toRat) - k * s.toRat) / s.toRat := by field_simp
  rw [e2, abs_div, abs_of_pos hs, div_le_iff₀ hs]
  calc _ ≤ _ := key
    _ = _ := by ring

/-- Dequantizing and scaling again stays close to the integer. -/
theorem rescaled_far {k : ℤ} (hk : |k| ≤ 2 ^ 20 + 255) (hf : s.isFin = true) (h1 : 1 / 2 ^ 126 ≤ s.toRat) (h2 : s.toRat ≤ 2 ^ 105) :
    (scaled (Flt.mul (Flt.ofInt f32 k) s) s).isFin = true ∧
    |(scaled (Flt.mul (Flt.ofInt f32 k) s) s).toRat - k| ≤ |(k:ℚ)| * (3 / 8) / 2 ^ 20 + 1 / 2 ^ 150 := by
  obtain ⟨g1, g2⟩ := dequant_rel (hk.trans (by norm_num)) hf h1 h2
  have hk' : |(k:ℚ)| ≤ 2 ^ 20 + 255 := by exact_mod_cast hk
  generalize Flt.mul (Flt.ofInt f32 k) s = d at *
  have hd : |d.toRat / s.toRat| ≤ |(k:ℚ)| * (1 + 1 / 2 ^ 24) := by
    have := abs_add_le (d.toRat / s.toRat - k) k
    rw [sub_add_cancel] at this
    have e : |(k:ℚ)| * (1 + 1 / 2 ^ 24) = |(k:ℚ)| / 2 ^ 24 + |(k:ℚ)| := by ring
    linarith
  have hd2 : |d.toRat / s.toRat| ≤ 2 ^ 29 := by
    refine hd.trans ?_
    calc _ ≤ ((2:ℚ) ^ 20 + 255) * (1 + 1 / 2 ^ 24) := mul_le_mul_of_nonneg_right hk' (by norm_num)
      _ ≤ _ := by norm_num
  obtain ⟨g3, g4⟩ := scaled_rel g1 hf h1 (h2.trans (by norm_num)) hd2
  refine ⟨g3, ?_⟩
  have := abs_add_le ((scaled d s).toRat - d.toRat / s.toRat) (d.toRat / s.toRat - k)
  rw [sub_add_sub_cancel] at this
  have h5 : |d.toRat / s.toRat| / 2 ^ 22 ≤ |(k:ℚ)| * (1 + 1 / 2 ^ 24) / 2 ^ 22 := div_le_div_of_nonneg_right hd (by positivity)
  have h6 : |(k:ℚ)| * (1 + 1 / 2 ^ 24) / 2 ^ 22 + |(k:ℚ)| / 2 ^ 24 ≤ |(k:ℚ)| * (3 / 8) / 2 ^ 20 := by
    have e : |(k:ℚ)| * (1 + 1 / 2 ^ 24) / 2 ^ 22 + |(k:ℚ)| / 2 ^ 24 = |(k:ℚ)| * ((1 + 1 / 2 ^ 24) / 2 ^ 22 + 1 / 2 ^ 24) := by ring
    rw [e, mul_div_assoc]
    exact mul_le_mul_of_nonneg_left (by norm_num) (abs_nonneg _)
  linarith

/-- The rounded, saturated scaled value against the exact quotient. -/
theorem far_core {b : Nat} {u p e : ℚ} {r : ℤ} (hu : -(z:ℚ) ≤ u ∧ u ≤ 2 ^ b - 1 - z)
    (hp : |p - u| ≤ |u| / 2 ^ 22 + 1 / 2 ^ 150) (hr : |(r:ℚ) - p| ≤ e + 1 / 2 ^ 25) :
    |((sat b (r + z) - z : ℤ) : ℚ) - u| ≤ e + 1 / 2 ^ 25 + 1 / 2 ^ 150 + |u| / 2 ^ 22 := by
  have hs : sat b (r + z) = 0 ∧ r + z ≤ 0 ∨ sat b (r + z) = r + z ∨ sat b (r + z) = 2 ^ b - 1 ∧ 2 ^ b - 1 ≤ r + z := by
    have : (1:ℤ) ≤ 2 ^ b := one_le_pow₀ (by norm_num)
    unfold sat; omega
  have hru : |(r:ℚ) - u| ≤ e + 1 / 2 ^ 25 + 1 / 2 ^ 150 + |u| / 2 ^ 22 := by
    have := abs_add_le ((r:ℚ) - p) (p - u)
    rw [sub_add_sub_cancel] at this
    linarith
  generalize e + 1 / 2 ^ 25 + 1 / 2 ^ 150 + |u| / 2 ^ 22 = e at *
  rw [abs_le] at hru ⊢
  rcases hs with ⟨h1, h2⟩ | h1 | ⟨h1, h2⟩
  · have h2' : (r:ℚ) + z ≤ 0 := by exact_mod_cast h2
    rw [h1]; push_cast; constructor <;> linarith [hu.1]
  · rw [h1]; push_cast; constructor <;> linarith
  · have h2' : (2:ℚ) ^ b - 1 ≤ r + z := by exact_mod_cast h2
    rw [h1]; push_cast; constructor <;> linarith [hu.2]

/-- `y` is finite and within `tol mode` steps (one half for nearest rounding, one for stochastic) of `x`,
up to `(|z| + 2^bits) / 2^21` of a step. -/
def FarClose (mode : RoundMode) (dt : DType) (s : F32) (z : ℤ) (x y : F32) : Prop :=
  y.isFin = true ∧ |y.toRat - x.toRat| ≤ s.toRat * (tol mode + (|(z:ℚ)| + 2 ^ dt.bits) / 2 ^ 21)

/-- What the round trips with a far zero point need. -/
structure Far (ft : FT) (x : InBuf) (n : Nat) (dt : DType) (s : F32) (z : ℤ) : Prop where
  quant : dt.isQuant = true
  fin : AllFin ft x n
  zp : |z| ≤ 2 ^ 20
  min : 1 / 2 ^ 126 ≤ s.toRat
  max : s.toRat ≤ 2 ^ 105
  range : InRange ft x n dt s z

theorem Far.pos (h : Far ft x n dt s z) : 0 < s.toRat := lt_of_lt_of_le (by positivity) h.min

theorem Far.sfin (h : Far ft x n dt s z) : s.isFin = true := isFin_of_abs (by
  rw [abs_of_pos h.pos, emax_f32]; exact lt_of_le_of_lt h.max (by norm_num))

theorem Far.sub (h : Far ft x n dt s z) : ZpSub z := by
  have hzab := abs_le.mp h.zp
  unfold ZpSub; norm_num at hzab ⊢; omega

theorem Far.quo (h : Far ft x n dt s z) {i : Nat} (hi : i < n) :
    -(z:ℚ) ≤ (elem ft.dtype x.data 0 i).toRat / s.toRat ∧ (elem ft.dtype x.data 0 i).toRat / s.toRat ≤ 2 ^ dt.bits - 1 - z := by
  obtain ⟨g1, g2⟩ := h.range i hi
  push_cast at g1 g2
  constructor
  · rw [le_div_iff₀ h.pos]; linarith
  · rw [div_le_iff₀ h.pos]; linarith

theorem Far.abs (h : Far ft x n dt s z) {i : Nat} (hi : i < n) :
    |(elem ft.dtype x.data 0 i).toRat / s.toRat| ≤ |(z:ℚ)| + (2 ^ dt.bits - 1) := by
  obtain ⟨g1, g2⟩ := h.quo hi
  have hQ1 : (3:ℚ) ≤ 2 ^ dt.bits - 1 := by exact_mod_cast (qmax_bounds h.quant).1
  have a1 := neg_abs_le (z:ℚ)
  have a2 := le_abs_self (z:ℚ)
  rw [abs_le]; constructor <;> linarith

theorem Far.abs21 (h : Far ft x n dt s z) {i : Nat} (hi : i < n) : |(elem ft.dtype x.data 0 i).toRat / s.toRat| ≤ 2 ^ 21 := by
  have := h.abs hi
  have hzq : |(z:ℚ)| ≤ 2 ^ 20 := by exact_mod_cast h.zp
  have hQ2 : (2:ℚ) ^ dt.bits - 1 ≤ 255 := by exact_mod_cast (qmax_bounds h.quant).2
  norm_num at hzq ⊢; linarith

theorem Far.scaled (h : Far ft x n dt s z) {i : Nat} (hi : i < n) :
    (Spec.scaled (elem ft.dtype x.data 0 i) s).isFin = true ∧
    |(Spec.scaled (elem ft.dtype x.data 0 i) s).toRat - (elem ft.dtype x.data 0 i).toRat / s.toRat| ≤
      |(elem ft.dtype x.data 0 i).toRat / s.toRat| / 2 ^ 22 + 1 / 2 ^ 150 :=
  scaled_rel (h.fin i hi) h.sfin h.min (h.max.trans (by norm_num)) ((h.abs21 hi).trans (by norm_num))

theorem Far.defined {mode : RoundMode} (h : Far ft x n dt s z) (hτ : Threshold mode τ) {i : Nat} (hi : i < n) :
    Defined mode τ (Spec.scaled (elem ft.dtype x.data 0 i) s) z := by
  obtain ⟨k1, k2⟩ := h.scaled hi
  have k4 := h.abs21 hi
  have k5 : |(elem ft.dtype x.data 0 i).toRat / s.toRat| / 2 ^ 22 + 1 / 2 ^ 150 ≤ 1 := by
    have := div_le_div_of_nonneg_right k4 (show (0:ℚ) ≤ 2 ^ 22 by positivity)
    norm_num at this ⊢; linarith
  replace k2 := k2.trans k5
  have k3 := rha_err (Spec.scaled (elem ft.dtype x.data 0 i) s).toRat
  have hzab := abs_le.mp h.zp
  rw [abs_le] at k2 k3 k4
  generalize Spec.scaled (elem ft.dtype x.data 0 i) s = p at *
  cases mode
  · have h4 : (rha p.toRat : ℚ) ≤ ((2 ^ 22 : ℤ) : ℚ) := by push_cast; norm_num at k4 ⊢; linarith
    have h5 : ((-2 ^ 22 : ℤ) : ℚ) ≤ (rha p.toRat : ℚ) := by push_cast; norm_num at k4 ⊢; linarith
    have h4 : rha p.toRat ≤ 2 ^ 22 := by exact_mod_cast h4
    have h5 : -2 ^ 22 ≤ rha p.toRat := by exact_mod_cast h5
    refine ⟨k1, ?_, ?_⟩ <;> norm_num at h4 h5 hzab ⊢ <;> omega
  · refine ⟨k1, ?_, hτ rfl⟩
    rw [abs_le]; norm_num at k4 ⊢; constructor <;> linarith

/-- Numerical core of C99. -/
theorem Far.close {mode : RoundMode} (h : Far ft x n dt s z) {i : Nat} (hi : i < n) {r : ℤ}
    (hr : |(r:ℚ) - (Spec.scaled (elem ft.dtype x.data 0 i) s).toRat| ≤ tol mode + 1 / 2 ^ 25) :
    FarClose mode dt s z (elem ft.dtype x.data 0 i) (Flt.mul (Flt.ofInt f32 (sat dt.bits (r + z) - z)) s) := by
  have a := far_core (h.quo hi) (h.scaled hi).2 hr
  have hspos := h.pos
  have hQ := qmax_bounds h.quant
  have hQ1 : (3:ℚ) ≤ 2 ^ dt.bits - 1 := by exact_mod_cast hQ.1
  have hz := h.zp
  have hkz : |sat dt.bits (r + z) - z| ≤ |z| + (2 ^ dt.bits - 1) := by
    have a1 := neg_abs_le z
    have a2 := le_abs_self z
    have : 0 ≤ sat dt.bits (r + z) ∧ sat dt.bits (r + z) ≤ 2 ^ dt.bits - 1 := by unfold sat; omega
    rw [abs_le]; constructor <;> omega
  have hkq : |((sat dt.bits (r + z) - z : ℤ) : ℚ)| ≤ |(z:ℚ)| + (2 ^ dt.bits - 1) := by exact_mod_cast hkz
  have hui := h.abs hi
  unfold FarClose
  generalize sat dt.bits (r + z) - z = k at *
  obtain ⟨b1, b2⟩ := dequant_rel (hkz.trans (by norm_num at hz ⊢; omega)) h.sfin h.min h.max
  refine ⟨b1, ?_⟩
  generalize Flt.mul (Flt.ofInt f32 k) s = d at *
  generalize (elem ft.dtype x.data 0 i).toRat = v at *
  have e : d.toRat - v = s.toRat * (d.toRat / s.toRat - v / s.toRat) := by field_simp
  rw [e, abs_mul, abs_of_pos hspos]
  refine mul_le_mul_of_nonneg_left ?_ hspos.le
  have := abs_add_le (d.toRat / s.toRat - k) (k - v / s.toRat)
  rw [sub_add_sub_cancel] at this
  have c1 := div_le_div_of_nonneg_right hkq (show (0:ℚ) ≤ 2 ^ 24 by positivity)
  have c2 := div_le_div_of_nonneg_right hui (show (0:ℚ) ≤ 2 ^ 22 by positivity)
  have hz0 := abs_nonneg (z:ℚ)
  have c3 : 1 / 2 ^ 25 + 1 / 2 ^ 150 + (|(z:ℚ)| + (2 ^ dt.bits - 1)) / 2 ^ 22 + (|(z:ℚ)| + (2 ^ dt.bits - 1)) / 2 ^ 24 ≤ (|(z:ℚ)| + 2 ^ dt.bits) / 2 ^ 21 := by
    norm_num; linarith
  linarith

/-- C99: with any scale and any zero point of magnitude up to `2^20`, data inside the quantized interval
that is quantized (either rounding mode) and dequantized comes back within half a step (nearest) or a step
(stochastic) plus `(|z| + 2^bits) / 2^21` steps. -/
theorem C99_roundtrip_far_zero_point {mode : RoundMode} (hdt : dt.isQuant = true) (hq : QArgs c.threads x ft.dtype dt n) (h' : Sizes n c'.threads) (hf : AllFin ft x n)
    (hz : |z| ≤ 2 ^ 20) (h1 : 1 / 2 ^ 126 ≤ s.toRat) (h2 : s.toRat ≤ 2 ^ 105) (hx : InRange ft x n dt s z) (hτ : Threshold mode τ) :
    Always NoFault (quantize c x ft.dtype o (bytes dt.bits n) dt s z mode τ) (span o (bytes dt.bits n)) m0 (fun m =>
      ∀ sz, bytes dt.bits n ≤ sz → Readable dt .f32 n sz →
        Always NoFault (dequantize c' ⟨sz, fun a => m (o + a)⟩ (bytes dt.bits n) dt o' (4 * n) .f32 s z .set) (span o' (4 * n)) m0' (fun m' =>
          ∀ i, i < n → FarClose mode dt s z (elem ft.dtype x.data 0 i) (f32At m' (o' + 4 * i)))) := by
  have hF : Far ft x n dt s z := ⟨hdt, hf, hz, h1, h2, hx⟩
  have hz32 : Zp32 z := by have := hF.sub; unfold ZpSub at this; unfold Zp32; omega
  have key : Always NoFault (quantize c x ft.dtype o (bytes dt.bits n) dt s z mode τ) (span o (bytes dt.bits n)) m0 (fun m =>
      ∀ i, i < n → ∃ r : ℤ, |(r:ℚ) - (scaled (elem ft.dtype x.data 0 i) s).toRat| ≤ tol mode + 1 / 2 ^ 25 ∧ (code dt.bits m o i : ℤ) = sat dt.bits (r + z)) := by
    cases mode with
    | nearest =>
      refine (C07_vector_nearest (c := c) hq (hz.trans (by norm_num)) (fun i hi => hF.defined hτ hi)).mono (fun _ h => h) (fun m hm i hi => ?_)
      rcases hm i hi with g | ⟨g1, g2⟩
      · exact ⟨_, nearInt_err (Or.inl rfl), g⟩
      · exact ⟨_, nearInt_err (Or.inr ⟨g1, rfl⟩), g2⟩
    | stochastic =>
      have hk : ExactKernel c.isa ft.dtype dt .stochastic := Or.inr (Or.inr (Or.inl rfl))
      refine (quantize_vals (mode := .stochastic) hq hz32 (fun i hi => hF.defined hτ hi) (Or.inl hk)).mono (fun _ h => h) (fun m hm i hi => ?_)
      exact ⟨_, rounded_tol hτ _, (hm.1 i hi).resolve_right (fun h => h.1 hk)⟩
  refine key.mono (fun _ h => h) (fun m hm sz hsz hrd => ?_)
  refine (C09_dequantize_f32_formula (c := c') ⟨hdt, rfl, hsz, h'⟩ hrd hF.sub).mono (fun _ h => h) (fun m' hm' i hi => ?_)
  rw [hm' i hi]
  have e : code dt.bits (fun a => m (o + a)) 0 i = code dt.bits m o i := code_shift _ _ _ _
  unfold dequant
  rw [show (InBuf.data ⟨sz, fun a => m (o + a)⟩) = fun a => m (o + a) from rfl, e]
  obtain ⟨r, hr, g⟩ := hm i hi
  rw [g]; exact hF.close hi hr

/-- C99 for the fused call (fake quantization): the same bounds. -/
theorem C99_fused_far_zero_point {mode : RoundMode} (hq : QArgs c.threads x .f32 dt n) (hf : AllFin .f32 x n)
    (hz : |z| ≤ 2 ^ 20) (h1 : 1 / 2 ^ 126 ≤ s.toRat) (h2 : s.toRat ≤ 2 ^ 105) (hx : InRange .f32 x n dt s z) (hτ : Threshold mode τ) :
    Always NoFault (fused c x .f32 o (4 * n) dt s z mode .set τ) (span o (4 * n)) m0 (fun m =>
      ∀ i, i < n → FarClose mode dt s z (elem .f32 x.data 0 i) (f32At m (o + 4 * i))) := by
  have hF : Far .f32 x n dt s z := ⟨hq.outQuant, hf, hz, h1, h2, hx⟩
  refine (C32_fused_f32_formula (op := .set) hq hF.sub (fun i hi => hF.defined hτ hi)).mono (fun _ h => h) (fun m hm i hi => ?_)
  have e := hm i hi
  rw [e]
  have h0 : 0 ≤ sat dt.bits (rounded mode τ.toRat (scaled (elem .f32 x.data 0 i) s).toRat + z) := by
    have := (qmax_bounds hq.outQuant).1
    unfold sat; omega
  show FarClose mode dt s z _ (dequant s z (sat dt.bits (rounded mode τ.toRat (scaled (elem .f32 x.data 0 i) s).toRat + z)).toNat)
  unfold dequant
  rw [Int.toNat_of_nonneg h0]
  exact hF.close hi (rounded_tol hτ _)

/-- C99, the remedy for data away from zero: for *any* data in `[lo, hi]`, a step `s` with
`hi - lo ≤ (2^bits - 2) s`, and `lo` at most `2^20 - 1` steps from zero, the zero point `-⌊lo / s⌋` makes the
round trip work. -/
theorem C99_any_offset {mode : RoundMode} {lo hi : ℚ} (hdt : dt.isQuant = true) (hq : QArgs c.threads x ft.dtype dt n) (h' : Sizes n c'.threads) (hf : AllFin ft x n)
    (h1 : 1 / 2 ^ 126 ≤ s.toRat) (h2 : s.toRat ≤ 2 ^ 105) (hlo : |lo| ≤ (2 ^ 20 - 1) * s.toRat) (hw : hi - lo ≤ (2 ^ dt.bits - 2) * s.toRat)
    (hx : ∀ i, i < n → lo ≤ (elem ft.dtype x.data 0 i).toRat ∧ (elem ft.dtype x.data 0 i).toRat ≤ hi) (hτ : Threshold mode τ) :
    Always NoFault (quantize c x ft.dtype o (bytes dt.bits n) dt s (-⌊lo / s.toRat⌋) mode τ) (span o (bytes dt.bits n)) m0 (fun m =>
      ∀ sz, bytes dt.bits n ≤ sz → Readable dt .f32 n sz →
        Always NoFault (dequantize c' ⟨sz, fun a => m (o + a)⟩ (bytes dt.bits n) dt o' (4 * n) .f32 s (-⌊lo / s.toRat⌋) .set) (span o' (4 * n)) m0' (fun m' =>
          ∀ i, i < n → FarClose mode dt s (-⌊lo / s.toRat⌋) (elem ft.dtype x.data 0 i) (f32At m' (o' + 4 * i)))) := by
  have hspos : 0 < s.toRat := lt_of_lt_of_le (by positivity) h1
  have f1 := Int.floor_le (lo / s.toRat)
  have f2 := Int.lt_floor_add_one (lo / s.toRat)
  have hl : |lo / s.toRat| ≤ 2 ^ 20 - 1 := by rw [abs_div, abs_of_pos hspos, div_le_iff₀ hspos]; exact hlo
  have hz : |-⌊lo / s.toRat⌋| ≤ 2 ^ 20 := by
    rw [abs_neg]
    have : |(⌊lo / s.toRat⌋ : ℚ)| ≤ 2 ^ 20 := by
      rw [abs_le] at hl ⊢; constructor <;> linarith
    exact_mod_cast this
  have e1 : (⌊lo / s.toRat⌋ : ℚ) * s.toRat ≤ lo := by rwa [← le_div_iff₀ hspos]
  have e2 : lo ≤ ((⌊lo / s.toRat⌋ : ℚ) + 1) * s.toRat := by rw [← div_le_iff₀ hspos]; exact f2.le
  refine C99_roundtrip_far_zero_point hdt hq h' hf hz h1 h2 (fun i hi' => ?_) hτ
  obtain ⟨g1, g2⟩ := hx i hi'
  push_cast
  constructor <;> linarith

/-- C99, requantization: with any zero point of magnitude up to `2^20` the dequantized codes are mapped
back to themselves. -/
theorem C99_requantize_identity (h : DArgs c.threads x dt .f32 n) (hr : Readable dt .f32 n x.size)
    (h' : Sizes n c'.threads) (hf : s.isFin = true) (h1 : 1 / 2 ^ 126 ≤ s.toRat) (h2 : s.toRat ≤ 2 ^ 105) (hz : |z| ≤ 2 ^ 20) :
    Always NoFault (dequantize c x (bytes dt.bits n) dt o (4 * n) .f32 s z .set) (span o (4 * n)) m0 (fun m =>
      Always NoFault (quantize c' ⟨4 * n, fun a => m (o + a)⟩ .f32 o' (bytes dt.bits n) dt s z .nearest τ) (span o' (bytes dt.bits n)) m0' (fun m' =>
        ∀ i, i < n → code dt.bits m' o' i = code dt.bits x.data 0 i)) := by
  have hzab := abs_le.mp hz
  have hzs : ZpSub z := by unfold ZpSub; norm_num at hzab ⊢; omega
  refine (C09_dequantize_f32_formula h hr hzs).mono (fun _ h => h) (fun m hm => ?_)
  have hk : ∀ i, |((code dt.bits x.data 0 i : ℕ) : ℤ) - z| ≤ 2 ^ 20 + 255 := fun i => by
    have := code_lt256 h.inQuant x.data 0 i; rw [abs_le]; constructor <;> omega
  have key : ∀ i, i < n → (scaled (elem .f32 (fun a => m (o + a)) 0 i) s).isFin = true ∧
      |(scaled (elem .f32 (fun a => m (o + a)) 0 i) s).toRat - (((code dt.bits x.data 0 i : ℕ) : ℤ) - z : ℤ)| ≤
        |(((code dt.bits x.data 0 i : ℕ) : ℤ) - z : ℤ)| * (3 / 8) / 2 ^ 20 + 1 / 2 ^ 150 := by
    intro i hi
    have e : elem .f32 (fun a => m (o + a)) 0 i = dequant s z (code dt.bits x.data 0 i) := by
      show f32At (fun a => m (o + a)) (0 + 4 * i) = _
      rw [f32At_shift, Nat.zero_add, hm i hi]
    rw [e]
    have := rescaled_far (hk i) hf h1 h2
    push_cast at this ⊢
    exact this
  have key2 : ∀ i, i < n → |(scaled (elem .f32 (fun a => m (o + a)) 0 i) s).toRat - (((code dt.bits x.data 0 i : ℕ) : ℤ) - z : ℤ)| < 2 / 5 := by
    intro i hi
    refine lt_of_le_of_lt (key i hi).2 ?_
    have : ((|(((code dt.bits x.data 0 i : ℕ) : ℤ) - z : ℤ)| : ℤ) : ℚ) ≤ 2 ^ 20 + 255 := by exact_mod_cast hk i
    generalize ((|(((code dt.bits x.data 0 i : ℕ) : ℤ) - z : ℤ)| : ℤ) : ℚ) = w at *
    norm_num at this ⊢; linarith
  have hrha : ∀ i, i < n → rha (scaled (elem .f32 (fun a => m (o + a)) 0 i) s).toRat = ((code dt.bits x.data 0 i : ℕ) : ℤ) - z := fun i hi =>
    rha_near (lt_trans (key2 i hi) (by norm_num))
  have hfits : ∀ i, i < n → Fits 32 (scaled (elem .f32 (fun a => m (o + a)) 0 i) s) z := fun i hi => by
    have := abs_le.mp (hk i)
    refine ⟨(key i hi).1, ?_, ?_⟩ <;> rw [hrha i hi]
    · norm_num at this ⊢; omega
    · have := code_lt256 h.inQuant x.data 0 i
      norm_num; omega
  refine (C07_vector_nearest (c := c') ⟨rfl, h.inQuant, rfl, h'⟩ (hz.trans (by norm_num)) hfits).mono (fun _ h => h) (fun m' hm' i hi => ?_)
  rcases hm' i hi with g | ⟨g, _⟩
  · rw [hrha i hi, sub_add_cancel, sat_id (by positivity) ?_] at g
    · exact_mod_cast g
    · have := code_le (dt := dt) x.data 0 i
      have h1 : 1 ≤ 2 ^ dt.bits := Nat.one_le_two_pow
      have : ((code dt.bits x.data 0 i : ℕ) : ℤ) ≤ ((2 ^ dt.bits - 1 : ℕ) : ℤ) := by exact_mod_cast this
      rw [Nat.cast_sub h1] at this
      exact_mod_cast this
  · exfalso
    have k2 := key2 i hi
    have k := (key i hi).2
    obtain ⟨w, hw⟩ : ∃ w : ℤ, w = ((code dt.bits x.data 0 i : ℕ) : ℤ) - z := ⟨_, rfl⟩
    rw [← hw] at k k2
    set p := (scaled (elem .f32 (fun a => m (o + a)) 0 i) s).toRat
    have hp2 : |p| + 2 / 5 < 1 := by rw [g]; unfold predHalf; norm_num
    have hp4 : 1/2^13 < |p| := by rw [g]; unfold predHalf; norm_num
    have hz1 : |(w:ℚ)| < 1 := by
      have : |(w:ℚ)| ≤ |p| + |p - w| := by
        have := abs_sub p (p - w); simpa using this
      linarith
    have hz0 : w = 0 := by
      have : |w| < 1 := by exact_mod_cast hz1
      exact Int.abs_lt_one_iff.mp this
    rw [hz0] at k
    simp only [Int.cast_zero, sub_zero, abs_zero, zero_mul, zero_div, zero_add] at k
    have : (1:ℚ) / 2 ^ 150 < 1 / 2 ^ 13 := by norm_num
    linarith

/-- 1.2467902… (bit pattern 0x3f9f96d3). -/
def oddStep : F32 := ⟨false, 0x3f9f96d3⟩

/-- C99 needs a bound on the zero point: with the normal scale 1.2467902 and zero point -4194364 the code 2
is dequantized to the float with the bytes 110, 151, 159, 74, and this is quantized to the code 3 on every x86 kernel. -/
theorem C99_bound_needed :
    (∀ isa, isa = .portable ∨ isa = .sse42 ∨ isa = .avx2 ∨ isa = .avx512f →
      Always NoFault (dequantize ⟨isa, 1, .none⟩ (Ex.buf (List.replicate 8 0x22)) 8 .uint4 64 64 .f32 oddStep (-4194364) .set) (span 64 64) Ex.old
        (fun m => (List.range 64).map (fun j => m (64 + j)) = (List.replicate 16 [110, 151, 159, 74]).flatten)) ∧
    (∀ isa, isa = .portable ∨ isa = .sse42 ∨ isa = .avx2 ∨ isa = .avx512f →
      Always NoFault (quantize ⟨isa, 1, .none⟩ (Ex.buf (List.replicate 16 [110, 151, 159, 74]).flatten) .f32 64 8 .uint4 oddStep (-4194364) .nearest f0) (span 64 8) Ex.old
        (fun m => (List.range 8).map (fun j => m (64 + j)) = List.replicate 8 0x33)) := by
  have h : DArgs 1 (Ex.buf (List.replicate 8 0x22)) .uint4 .f32 16 := ⟨rfl, rfl, by decide, by decide, by norm_num, by norm_num⟩
  have hq : QArgs 1 (Ex.buf (List.replicate 16 [110, 151, 159, 74]).flatten) .f32 .uint4 16 := ⟨rfl, rfl, by decide, sz 16 1⟩
  constructor
  · rintro isa (rfl | rfl | rfl | rfl)
    · exact dequantize_result (c := ⟨.portable, 1, .none⟩) (n := 16) (o := 64) (scale := oddStep) (zp := -4194364) (op := .set) (m0 := Ex.old) h (by unfold Readable; decide) (by decide +kernel)
    · exact dequantize_result (c := ⟨.sse42, 1, .none⟩) (n := 16) (o := 64) (scale := oddStep) (zp := -4194364) (op := .set) (m0 := Ex.old) h (by unfold Readable; decide) (by decide +kernel)
    · exact dequantize_result (c := ⟨.avx2, 1, .none⟩) (n := 16) (o := 64) (scale := oddStep) (zp := -4194364) (op := .set) (m0 := Ex.old) h (by unfold Readable; decide) (by decide +kernel)
    · exact dequantize_result (c := ⟨.avx512f, 1, .none⟩) (n := 16) (o := 64) (scale := oddStep) (zp := -4194364) (op := .set) (m0 := Ex.old) h (by unfold Readable; decide) (by decide +kernel)
  · rintro isa (rfl | rfl | rfl | rfl)
    · exact quantize_result (c := ⟨.portable, 1, .none⟩) (dtOut := .uint4) (n := 16) (l := List.replicate 8 0x33) hq (by decide +kernel)
    · exact quantize_result (c := ⟨.sse42, 1, .none⟩) (dtOut := .uint4) (n := 16) (l := List.replicate 8 0x33) hq (by decide +kernel)
    · exact quantize_result (c := ⟨.avx2, 1, .none⟩) (dtOut := .uint4) (n := 16) (l := List.replicate 8 0x33) hq (by decide +kernel)
    · exact quantize_result (c := ⟨.avx512f, 1, .none⟩) (dtOut := .uint4) (n := 16) (l := List.replicate 8 0x33) hq (by decide +kernel)

/-- 1000, 1001.25, 1003.5, 1020. -/
def away : InBuf := Ex.buf (Ex.words32 [0x447a0000, 0x447a5000, 0x447ae000, 0x447f0000])

/-- `C99_roundtrip_far_zero_point` applied to 1000, 1001.25, 1003.5, 1020 with step 0.1 and zero point -9999: the interval is `[999.9, 1025.4]`. -/
example := C99_roundtrip_far_zero_point (ft := .f32) (x := away) (n := 4) (dt := .uint8) (c := Ex.c1) (c' := Ex.c2) (o := 1000) (o' := 3000)
    (m0 := Ex.old) (m0' := Ex.old) (s := Ex.tenth) (τ := Ex.quarter) (z := -9999) (mode := .nearest) (hdt := by wit) (hq := ⟨rfl, rfl, rfl, by wit⟩) (h' := by wit)
    (hf := by unfold AllFin; decide +kernel) (hz := by norm_num) (h1 := by wit) (h2 := by wit) (hx := by unfold InRange; decide +kernel) (hτ := fun h => by cases h)

/-- `C99_fused_far_zero_point` applied to the same data. -/
example := C99_fused_far_zero_point (x := away) (n := 4) (dt := .uint8) (c := Ex.c1) (o := 1000)
    (m0 := Ex.old) (s := Ex.tenth) (τ := Ex.quarter) (z := -9999) (mode := .stochastic) (hq := ⟨rfl, rfl, rfl, by wit⟩)
    (hf := by unfold AllFin; decide +kernel) (hz := by norm_num) (h1 := by wit) (h2 := by wit) (hx := by unfold InRange; decide +kernel) (hτ := by wit)

/-- `C99_any_offset` applied to the same data. -/
example := C99_any_offset (lo := 1000) (hi := 1020) (ft := .f32) (x := away) (n := 4) (dt := .uint8) (c := Ex.c1) (c' := Ex.c2) (o := 1000) (o' := 3000)
    (m0 := Ex.old) (m0' := Ex.old) (s := Ex.tenth) (τ := Ex.quarter) (mode := .stochastic) (hdt := by wit) (hq := ⟨rfl, rfl, rfl, by wit⟩) (h' := by wit)
    (hf := by unfold AllFin; decide +kernel) (h1 := by wit) (h2 := by wit) (hlo := by decide +kernel) (hw := by decide +kernel) (hx := by decide +kernel) (hτ := by wit)

/-- `C99_requantize_identity` applied to a concrete case: zero point minus one million. -/
example := C99_requantize_identity (c := Ex.c1) (x := Ex.codes) (dt := .uint4) (n := 139) (o := 1000) (s := Ex.tenth) (τ := Ex.quarter) (z := -1000000)
    (m0 := Ex.old) (c' := Ex.c2) (o' := 3000) (m0' := Ex.old) (h := by wit) (hr := by wit) (h' := by wit) (hf := by wit) (h1 := by wit) (h2 := by wit)
    (hz := by norm_num)

end Verif.Props
