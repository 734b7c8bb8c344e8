import Verif.Props.Optimal
import Verif.Props.Pipeline
import Verif.Props.Bf16Trip

/-!
# Parameters taken from elsewhere: elements outside the representable range are clipped: C106
-/

namespace Verif.Props
open Spec

/-- `v` moved to the nearest point of the interval `[a, b]`. -/
def clip (a b v : ℚ) : ℚ := max a (min b v)

/-- `y` is a finite float within `e` steps of size `s` (up to 2^-12 of a step) of `v` clipped to `[a, b]`. -/
def Clipped (e s a b v : ℚ) (y : F32) : Prop := y.isFin = true ∧ |y.toRat - clip a b v| ≤ s * (e + 1 / 2 ^ 12)

theorem clip_mono3 {a b v a' b' v' d : ℚ} (ha : a ≤ a' + d) (hb : b ≤ b' + d) (hv : v ≤ v' + d) : clip a b v ≤ clip a' b' v' + d := by
  unfold clip
  have h1 : a' ≤ max a' (min b' v') := le_max_left _ _
  have h2 : min b' v' ≤ max a' (min b' v') := le_max_right _ _
  refine max_le (by linarith) ?_
  rcases min_choice b' v' with e | e
  · have := min_le_left b v; linarith
  · have := min_le_right b v; linarith

theorem clip_near {a b v a' b' v' d : ℚ} (ha : |a - a'| ≤ d) (hb : |b - b'| ≤ d) (hv : |v - v'| ≤ d) : |clip a b v - clip a' b' v'| ≤ d := by
  rw [abs_le] at ha hb hv ⊢
  have h1 := clip_mono3 (a := a) (b := b) (v := v) (a' := a') (b' := b') (v' := v') (d := d) (by linarith) (by linarith) (by linarith)
  have h2 := clip_mono3 (a := a') (b := b') (v := v') (a' := a) (b' := b) (v' := v) (d := d) (by linarith) (by linarith) (by linarith)
  constructor <;> linarith

theorem clip_mul {a b v s : ℚ} (hs : 0 ≤ s) : clip a b v * s = clip (a * s) (b * s) (v * s) := by
  unfold clip
  rw [max_mul_of_nonneg _ _ hs, min_mul_of_nonneg _ _ hs]

theorem sat_clip (b : Nat) (r z : ℤ) (hz : z ≤ 2 ^ b - 1) (hz0 : 0 ≤ z) : ((sat b (r + z) - z : ℤ) : ℚ) = clip (-z) (2 ^ b - 1 - z) r := by
  have e : sat b (r + z) - z = max (-z) (min (2 ^ b - 1 - z) r) := by unfold sat; omega
  rw [e]
  unfold clip
  push_cast
  rfl

/-- Numerical core: the code minus the zero point against the clipped quotient. -/
theorem clip_core {b : Nat} {A B u p e : ℚ} {z r : ℤ} (hz : 0 ≤ z ∧ z ≤ 2 ^ b - 1) (hb : (2:ℤ) ^ b - 1 ≤ 255) (he : 1 / 2 ≤ e) (he1 : e ≤ 1)
    (hzA : |(z:ℚ) - A| ≤ 1 / 2 + 1 / 2 ^ 40 + 1 / 2 ^ 14) (hAB : |A + B - (2 ^ b - 1)| ≤ 1 / 2 ^ 14)
    (hp : |p - u| ≤ |u| / 2 ^ 22 + 1 / 2 ^ 150) (hr : |(r:ℚ) - p| ≤ e + 1 / 2 ^ 25) :
    |((sat b (r + z) - z : ℤ) : ℚ) - clip (-A) B u| ≤ e + 1 / 2 ^ 13 + 1 / 2 ^ 25 := by
  rw [sat_clip b r z hz.2 hz.1]
  have hQ : (2:ℚ) ^ b - 1 ≤ 255 := by exact_mod_cast hb
  have z0 : (0:ℚ) ≤ z := by exact_mod_cast hz.1
  have z1 : (z:ℚ) ≤ 2 ^ b - 1 := by exact_mod_cast hz.2
  have e40 : (1:ℚ) / 2 ^ 40 ≤ 1 / 2 ^ 25 := by norm_num
  have e13 : (1:ℚ) / 2 ^ 13 = 1 / 2 ^ 14 + 1 / 2 ^ 14 := by norm_num
  have e150 : (1:ℚ) / 2 ^ 150 ≤ 1 / 2 ^ 14 := by norm_num
  have e14 : (0:ℚ) ≤ 1 / 2 ^ 14 ∧ (1:ℚ) / 2 ^ 14 ≤ 1 / 100 := by norm_num
  have e25 : (0:ℚ) ≤ 1 / 2 ^ 25 ∧ (1:ℚ) / 2 ^ 25 ≤ 1 / 100 := by norm_num
  rw [e13]
  have ha : |-(z:ℚ) - -A| ≤ e + (1 / 2 ^ 14 + 1 / 2 ^ 14) + 1 / 2 ^ 25 := by
    rw [show -(z:ℚ) - -A = -((z:ℚ) - A) by ring, abs_neg]; linarith
  have hB : |(2:ℚ) ^ b - 1 - z - B| ≤ e + (1 / 2 ^ 14 + 1 / 2 ^ 14) + 1 / 2 ^ 25 := by
    rw [abs_le] at hzA hAB ⊢
    constructor <;> linarith
  by_cases hu : |u| ≤ 256
  · have h256 : |u| / 2 ^ 22 ≤ 1 / 2 ^ 14 := by
      rw [div_le_div_iff₀ (by positivity) (by positivity)]; norm_num; linarith
    refine clip_near ha hB ?_
    have := abs_sub_le (r:ℚ) p u
    linarith
  · have hu := not_le.mp hu
    have hsm : |u| / 2 ^ 22 ≤ |u| / 1000 := div_le_div_of_nonneg_left (abs_nonneg u) (by norm_num) (by norm_num)
    rw [abs_le] at hp hr hzA hAB ha hB
    rcases le_or_gt 0 u with h | h
    · rw [abs_of_nonneg h] at hu hp hsm
      have hr1 : (254:ℚ) < r := by linarith
      have hr2 : (255:ℤ) ≤ r := by have : (254:ℤ) < r := by exact_mod_cast hr1
                                   omega
      have hr3 : (255:ℚ) ≤ r := by exact_mod_cast hr2
      have c1 : clip (-(z:ℚ)) (2 ^ b - 1 - z) r = 2 ^ b - 1 - z := by
        unfold clip; rw [min_eq_left (by linarith), max_eq_right (by linarith)]
      have c2 : clip (-A) B u = max (-A) B := by unfold clip; rw [min_eq_left (by linarith)]
      rw [c1, c2, abs_le]
      have m1 := le_max_right (-A) B
      constructor
      · have : max (-A) B ≤ (2:ℚ) ^ b - 1 - z + (e + (1 / 2 ^ 14 + 1 / 2 ^ 14) + 1 / 2 ^ 25) := max_le (by linarith) (by linarith)
        linarith
      · linarith
    · rw [abs_of_neg h] at hu hp hsm
      have hr1 : (r:ℚ) < -254 := by linarith
      have hr2 : r ≤ -255 := by have : r < (-254:ℤ) := by exact_mod_cast hr1
                                omega
      have hr3 : (r:ℚ) ≤ -255 := by exact_mod_cast hr2
      have c1 : clip (-(z:ℚ)) (2 ^ b - 1 - z) r = -z := by
        unfold clip; exact max_eq_left ((min_le_right _ _).trans (by linarith))
      have c2 : clip (-A) B u = -A := by
        unfold clip; exact max_eq_left ((min_le_right _ _).trans (by linarith))
      rw [c1, c2, abs_le]
      constructor <;> linarith

theorem near_of_rat {s : F32} {y : ℚ} {k : ℤ} {e : ℚ} (hk : |k| ≤ 255) (hf : s.isFin = true) (h1 : 1 / 2 ^ 126 ≤ s.toRat) (h2 : s.toRat ≤ 2 ^ 119)
    (hu : |(k:ℚ) - y| ≤ e + 1 / 2 ^ 13 + 1 / 2 ^ 25) :
    (Flt.mul (Flt.ofInt f32 k) s).isFin = true ∧ |(Flt.mul (Flt.ofInt f32 k) s).toRat - y * s.toRat| ≤ s.toRat * (e + 1 / 2 ^ 12) := by
  have hs : 0 < s.toRat := lt_of_lt_of_le (by positivity) h1
  obtain ⟨g1, g2⟩ := dequant_near hk hf h1 h2
  refine ⟨g1, ?_⟩
  have h3 : |(k:ℚ) * s.toRat - y * s.toRat| ≤ (e + 1 / 2 ^ 13 + 1 / 2 ^ 25) * s.toRat := by
    rw [← sub_mul, abs_mul, abs_of_pos hs]
    exact mul_le_mul_of_nonneg_right hu hs.le
  rw [abs_le] at g2 h3 ⊢
  have e1 : 255 * s.toRat / 2 ^ 24 ≤ s.toRat / 2 ^ 16 := by
    rw [div_le_div_iff₀ (by positivity) (by positivity)]; norm_num; linarith
  have e2 : s.toRat * (e + 1 / 2 ^ 12) = e * s.toRat + s.toRat / 2 ^ 12 := by ring
  have e3 : (e + 1 / 2 ^ 13 + 1 / 2 ^ 25) * s.toRat = e * s.toRat + s.toRat / 2 ^ 13 + s.toRat / 2 ^ 25 := by ring
  have e4 : s.toRat / 2 ^ 13 + s.toRat / 2 ^ 25 + s.toRat / 2 ^ 16 ≤ s.toRat / 2 ^ 12 := by
    have : s.toRat / 2 ^ 13 + s.toRat / 2 ^ 25 + s.toRat / 2 ^ 16 = s.toRat * (1 / 2 ^ 13 + 1 / 2 ^ 25 + 1 / 2 ^ 16) := by ring
    rw [this, div_eq_mul_one_div s.toRat (2 ^ 12)]
    exact mul_le_mul_of_nonneg_left (by norm_num) hs.le
  rw [e2]; rw [e3] at h3
  constructor <;> linarith [g2.1, g2.2, h3.1, h3.2]

section
variable {isa : Isa} {ft ft' : FT} {x y : InBuf} {n k o o' : Nat} {blocks : List (Nat × Nat)} {dt : DType} {c c' : Ctx}
  {m0 m0' : Mem} {s τ : F32} {z : ℤ} {mode : RoundMode} {lo hi A B : ℚ}

theorem clip_quo (h1 : 1 / 2 ^ 126 ≤ s.toRat) (hx : ∀ i, i < n → |(elem ft.dtype x.data 0 i).toRat| ≤ 2 ^ 29 * s.toRat) {i : Nat} (hi : i < n) :
    |(elem ft.dtype x.data 0 i).toRat / s.toRat| ≤ 2 ^ 29 := by
  have hspos : 0 < s.toRat := lt_of_lt_of_le (by positivity) h1
  rw [abs_div, abs_of_pos hspos, div_le_iff₀ hspos]; exact hx i hi

theorem clip_fin (h1 : 1 / 2 ^ 126 ≤ s.toRat) (h2 : s.toRat ≤ 2 ^ 119) : s.isFin = true := isFin_of_abs (by
  rw [abs_of_pos (lt_of_lt_of_le (by positivity) h1), emax_f32]; exact lt_of_le_of_lt h2 (by norm_num))

theorem clip_defined (hf : AllFin ft x n) (hz : 0 ≤ z ∧ z ≤ 255) (h1 : 1 / 2 ^ 126 ≤ s.toRat) (h2 : s.toRat ≤ 2 ^ 119)
    (hx : ∀ i, i < n → |(elem ft.dtype x.data 0 i).toRat| ≤ 2 ^ 29 * s.toRat) (hτ : Threshold mode τ) {i : Nat} (hi : i < n) :
    Defined mode τ (scaled (elem ft.dtype x.data 0 i) s) z := by
  have g := clip_quo h1 hx hi
  obtain ⟨k1, k2⟩ := scaled_rel (hf i hi) (clip_fin h1 h2) h1 (h2.trans (by norm_num)) g
  refine defined_of k1 ?_ hz hτ
  have k3 : |(elem ft.dtype x.data 0 i).toRat / s.toRat| / 2 ^ 22 ≤ 2 ^ 29 / 2 ^ 22 := div_le_div_of_nonneg_right g (by positivity)
  have e : (1:ℚ) / 2 ^ 150 ≤ 1 := by norm_num
  rw [abs_le] at k2 g ⊢
  constructor <;> norm_num at k2 k3 e g ⊢ <;> linarith

theorem clipped_of {v : F32} {r : ℤ} (hdt : dt.isQuant = true) (hv : v.isFin = true) (hz : 0 ≤ z ∧ z ≤ 2 ^ dt.bits - 1) (h1 : 1 / 2 ^ 126 ≤ s.toRat)
    (h2 : s.toRat ≤ 2 ^ 119) (hzA : |(z:ℚ) - A| ≤ 1 / 2 + 1 / 2 ^ 40 + 1 / 2 ^ 14) (hAB : |A + B - (2 ^ dt.bits - 1)| ≤ 1 / 2 ^ 14)
    (hu : |v.toRat / s.toRat| ≤ 2 ^ 29) (hr : |(r:ℚ) - (scaled v s).toRat| ≤ tol mode + 1 / 2 ^ 25) :
    Clipped (tol mode) s.toRat (-A * s.toRat) (B * s.toRat) v.toRat (Flt.mul (Flt.ofInt f32 (sat dt.bits (r + z) - z)) s) := by
  have hs : 0 < s.toRat := lt_of_lt_of_le (by positivity) h1
  have hQ := qmax_bounds hdt
  have hk : |sat dt.bits (r + z) - z| ≤ 255 := by rw [abs_le]; unfold sat; omega
  have hsr := (scaled_rel hv (clip_fin h1 h2) h1 (h2.trans (by norm_num)) hu).2
  have := near_of_rat hk (clip_fin h1 h2) h1 h2 (clip_core (A := A) (B := B) (e := tol mode) hz hQ.2 half_le_tol tol_le hzA hAB hsr hr)
  rw [clip_mul hs.le, div_mul_cancel₀ _ hs.ne'] at this
  exact this

/-- The round trip with parameters whose representable range is `[-A, B]` steps, up to rounding. -/
theorem clipped_roundtrip (hq : QArgs c.threads x ft.dtype dt n) (h' : Sizes n c'.threads) (hf : AllFin ft x n)
    (hz : 0 ≤ z ∧ z ≤ 2 ^ dt.bits - 1) (h1 : 1 / 2 ^ 126 ≤ s.toRat) (h2 : s.toRat ≤ 2 ^ 119)
    (hzA : |(z:ℚ) - A| ≤ 1 / 2 + 1 / 2 ^ 40 + 1 / 2 ^ 14) (hAB : |A + B - (2 ^ dt.bits - 1)| ≤ 1 / 2 ^ 14)
    (hx : ∀ i, i < n → |(elem ft.dtype x.data 0 i).toRat| ≤ 2 ^ 29 * s.toRat) (hτ : Threshold mode τ) :
    Always NoFault (quantize c x ft.dtype o (bytes dt.bits n) dt s z mode τ) (span o (bytes dt.bits n)) m0 (fun m =>
      ∀ sz, bytes dt.bits n ≤ sz → Readable dt .f32 n sz →
        Always NoFault (dequantize c' ⟨sz, fun a => m (o + a)⟩ (bytes dt.bits n) dt o' (4 * n) .f32 s z .set) (span o' (4 * n)) m0' (fun m' =>
          ∀ i, i < n → Clipped (tol mode) s.toRat (-A * s.toRat) (B * s.toRat) (elem ft.dtype x.data 0 i).toRat (f32At m' (o' + 4 * i)))) := by
  have hdt := hq.outQuant
  have hQ := qmax_bounds hdt
  have hz32 : Zp32 z := by unfold Zp32; norm_num; omega
  have hzs : ZpSub z := by unfold ZpSub; norm_num; omega
  refine (quantize_vals hq hz32 (fun i hi => clip_defined hf ⟨hz.1, by omega⟩ h1 h2 hx hτ hi) (Or.inr (by rw [abs_of_nonneg hz.1]; norm_num; omega))).mono
    (fun _ h => h) (fun m hm sz hsz hrd => ?_)
  refine (C09_dequantize_f32_formula ⟨hdt, rfl, hsz, h'⟩ hrd hzs).mono (fun _ h => h) (fun m' hm' i hi => ?_)
  have ec : code dt.bits (fun a => m (o + a)) 0 i = code dt.bits m o i := code_shift _ _ _ _
  rw [hm' i hi, ec]
  have key : ∃ r : ℤ, |(r:ℚ) - (scaled (elem ft.dtype x.data 0 i) s).toRat| ≤ tol mode + 1 / 2 ^ 25 ∧ (code dt.bits m o i : ℤ) = sat dt.bits (r + z) := by
    rcases hm.1 i hi with g | ⟨g1, g2, g3⟩
    · exact ⟨_, rounded_tol hτ _, g⟩
    · refine ⟨_, ?_, g3⟩
      refine (nearInt_err (Or.inr ⟨g2, rfl⟩)).trans ?_
      have := half_le_tol (mode := mode)
      linarith
  obtain ⟨r, hr, e⟩ := key
  unfold dequant
  rw [e]
  exact clipped_of hdt (hf i hi) hz h1 h2 hzA hAB (clip_quo h1 hx hi) hr

/-- C106. Any scale in `[2^-126, 2^119]` and any zero point that is a code, wherever they come from, and any finite data up to 2^29 steps:
quantizing (either mode) and dequantizing to float32 returns every element, clipped to the representable interval
`[(0 - z) * scale, (2^bits - 1 - z) * scale]`, within half a step (nearest) or one step (stochastic), up to 2^-12 of a step. -/
theorem C106_clipped_roundtrip (hq : QArgs c.threads x ft.dtype dt n) (h' : Sizes n c'.threads) (hf : AllFin ft x n)
    (hz : 0 ≤ z ∧ z ≤ 2 ^ dt.bits - 1) (h1 : 1 / 2 ^ 126 ≤ s.toRat) (h2 : s.toRat ≤ 2 ^ 119)
    (hx : ∀ i, i < n → |(elem ft.dtype x.data 0 i).toRat| ≤ 2 ^ 29 * s.toRat) (hτ : Threshold mode τ) :
    Always NoFault (quantize c x ft.dtype o (bytes dt.bits n) dt s z mode τ) (span o (bytes dt.bits n)) m0 (fun m =>
      ∀ sz, bytes dt.bits n ≤ sz → Readable dt .f32 n sz →
        Always NoFault (dequantize c' ⟨sz, fun a => m (o + a)⟩ (bytes dt.bits n) dt o' (4 * n) .f32 s z .set) (span o' (4 * n)) m0' (fun m' =>
          ∀ i, i < n → Clipped (tol mode) s.toRat ((0 - z) * s.toRat) ((2 ^ dt.bits - 1 - z) * s.toRat) (elem ft.dtype x.data 0 i).toRat (f32At m' (o' + 4 * i)))) := by
  have := clipped_roundtrip (c := c) (c' := c') (o := o) (o' := o') (m0 := m0) (m0' := m0') (τ := τ) (A := z) (B := 2 ^ dt.bits - 1 - z) hq h' hf hz h1 h2
    (by rw [sub_self, abs_zero]; positivity) (by rw [show (z:ℚ) + (2 ^ dt.bits - 1 - z) - (2 ^ dt.bits - 1) = 0 by ring, abs_zero]; positivity) hx hτ
  rw [zero_sub]
  exact this

/-- `C106_clipped_roundtrip` applied to 1, -2.5, 0.3, 7.75, 100 with uint4, scale 0.5 and zero point 4 (representable interval `[-2, 5.5]`): three elements lie
outside the interval. -/
example := C106_clipped_roundtrip (ft := .f32) (x := Ex.xs) (n := 5) (dt := .uint4) (c := ⟨.avx512f, 3, .none⟩) (c' := ⟨.sse42, 2, .none⟩) (o := 1000) (o' := 3000)
    (m0 := Ex.old) (m0' := Ex.old) (s := Ex.half) (τ := Ex.quarter) (z := 4) (mode := .stochastic) (hq := ⟨rfl, rfl, rfl, sz 5 _⟩) (h' := sz 5 _)
    (hf := by unfold AllFin; decide +kernel) (hz := by decide) (h1 := by decide +kernel) (h2 := by decide +kernel) (hx := by decide +kernel) (hτ := by wit)

/-- C106 with bfloat16 output: as `C106_clipped_roundtrip`, with the rounding to bfloat16 (at most `(2^bits - 1)/2^8` of a step) added. -/
theorem C106_clipped_roundtrip_bf16 (hq : QArgs c.threads x ft.dtype dt n) (h' : Sizes n c'.threads) (hf : AllFin ft x n)
    (hz : 0 ≤ z ∧ z ≤ 2 ^ dt.bits - 1) (h1 : 1 / 2 ^ 125 ≤ s.toRat) (h2 : s.toRat ≤ 2 ^ 118)
    (hx : ∀ i, i < n → |(elem ft.dtype x.data 0 i).toRat| ≤ 2 ^ 29 * s.toRat) (hτ : Threshold mode τ) :
    Always NoFault (quantize c x ft.dtype o (bytes dt.bits n) dt s z mode τ) (span o (bytes dt.bits n)) m0 (fun m =>
      ∀ sz, bytes dt.bits n ≤ sz →
        Always NoFault (dequantize c' ⟨sz, fun a => m (o + a)⟩ (bytes dt.bits n) dt o' (2 * n) .bf16 s z .set) (span o' (2 * n)) m0' (fun m' =>
          ∀ i, i < n → Clipped (tol mode + (2 ^ dt.bits - 1) / 2 ^ 8) s.toRat ((0 - z) * s.toRat) ((2 ^ dt.bits - 1 - z) * s.toRat) (elem ft.dtype x.data 0 i).toRat
            (bf16At m' (o' + 2 * i)))) := by
  have hdt := hq.outQuant
  have hQ := qmax_bounds hdt
  have hs : 0 < s.toRat := lt_of_lt_of_le (by positivity) h1
  have h1' : 1 / 2 ^ 126 ≤ s.toRat := le_trans (by norm_num) h1
  have h2' : s.toRat ≤ 2 ^ 119 := h2.trans (by norm_num)
  have hz32 : Zp32 z := by unfold Zp32; norm_num; omega
  refine (quantize_vals hq hz32 (fun i hi => clip_defined hf ⟨hz.1, by omega⟩ h1' h2' hx hτ hi) (Or.inr (by rw [abs_of_nonneg hz.1]; norm_num; omega))).mono
    (fun _ h => h) (fun m hm sz hsz => ?_)
  have hd : DArgs c'.threads ⟨sz, fun a => m (o + a)⟩ dt .bf16 n := ⟨hdt, rfl, hsz, h'⟩
  refine (dequant_bf16_near (c := c') hd hz h1 h2).mono (fun _ h => h) (fun m' hm' i hi => ?_)
  obtain ⟨y1, y2⟩ := hm' i hi
  refine ⟨y1, ?_⟩
  rw [show (InBuf.data ⟨sz, fun a => m (o + a)⟩) = fun a => m (o + a) from rfl, code_shift] at y2
  have key : ∃ r : ℤ, |(r:ℚ) - (scaled (elem ft.dtype x.data 0 i) s).toRat| ≤ tol mode + 1 / 2 ^ 25 ∧ (code dt.bits m o i : ℤ) = sat dt.bits (r + z) := by
    rcases hm.1 i hi with g | ⟨g1, g2, g3⟩
    · exact ⟨_, rounded_tol hτ _, g⟩
    · refine ⟨_, ?_, g3⟩
      refine (nearInt_err (Or.inr ⟨g2, rfl⟩)).trans ?_
      have := half_le_tol (mode := mode)
      linarith
  obtain ⟨r, hr, er⟩ := key
  have hsr := (scaled_rel (hf i hi) (clip_fin h1' h2') h1' (h2'.trans (by norm_num)) (clip_quo h1' hx hi)).2
  have hcore := clip_core (A := z) (B := 2 ^ dt.bits - 1 - z) (e := tol mode) hz hQ.2 half_le_tol tol_le (by rw [sub_self, abs_zero]; positivity)
    (by rw [show (z:ℚ) + (2 ^ dt.bits - 1 - z) - (2 ^ dt.bits - 1) = 0 by ring, abs_zero]; positivity) hsr hr
  rw [← er] at hcore
  have hkQ : |(code dt.bits m o i : ℤ) - z| ≤ 2 ^ dt.bits - 1 := by
    rw [er, abs_le]; unfold sat; omega
  obtain ⟨k, ek⟩ : ∃ k : ℤ, k = (code dt.bits m o i : ℤ) - z := ⟨_, rfl⟩
  rw [← ek] at hcore y2 hkQ
  have hkq : |(k:ℚ)| ≤ 2 ^ dt.bits - 1 := by exact_mod_cast hkQ
  have hQ1 : (1:ℚ) ≤ 2 ^ dt.bits - 1 := by
    have : (3:ℚ) ≤ 2 ^ dt.bits - 1 := by exact_mod_cast hQ.1
    linarith
  have hmax : max |(k:ℚ)| 1 ≤ 2 ^ dt.bits - 1 := max_le hkq hQ1
  have hxk := mul_le_mul_of_nonneg_right hcore hs.le
  rw [← abs_of_pos hs, ← abs_mul, abs_of_pos hs, sub_mul, clip_mul hs.le, div_mul_cancel₀ _ hs.ne'] at hxk
  have hy : s.toRat * (max |(k:ℚ)| 1 / 2 ^ 8 + 1 / 2 ^ 14) ≤ s.toRat * ((2 ^ dt.bits - 1) / 2 ^ 8 + 1 / 2 ^ 14) := by
    apply mul_le_mul_of_nonneg_left _ hs.le
    have := div_le_div_of_nonneg_right hmax (show (0:ℚ) ≤ 2 ^ 8 by positivity)
    linarith
  rw [zero_sub]
  have tri := abs_sub_le (bf16At m' (o' + 2 * i)).toRat (k * s.toRat) (clip (-(z:ℚ) * s.toRat) ((2 ^ dt.bits - 1 - z) * s.toRat) (elem ft.dtype x.data 0 i).toRat)
  have e : s.toRat * (tol mode + (2 ^ dt.bits - 1) / 2 ^ 8 + 1 / 2 ^ 12) =
      s.toRat * ((2 ^ dt.bits - 1) / 2 ^ 8 + 1 / 2 ^ 14) + (tol mode + 1 / 2 ^ 13 + 1 / 2 ^ 25) * s.toRat + s.toRat * (1 / 2 ^ 12 - 1 / 2 ^ 14 - 1 / 2 ^ 13 - 1 / 2 ^ 25) := by ring
  have e2 : 0 ≤ s.toRat * (1 / 2 ^ 12 - 1 / 2 ^ 14 - 1 / 2 ^ 13 - 1 / 2 ^ 25 : ℚ) := mul_nonneg hs.le (by norm_num)
  rw [e]
  linarith

/-- `C106_clipped_roundtrip_bf16` applied to a concrete case. -/
example := C106_clipped_roundtrip_bf16 (ft := .f32) (x := Ex.xs) (n := 5) (dt := .uint4) (c := ⟨.avx512f, 3, .none⟩) (c' := ⟨.avx512bf16, 2, .none⟩) (o := 1000) (o' := 3000)
    (m0 := Ex.old) (m0' := Ex.old) (s := Ex.half) (τ := Ex.quarter) (z := 4) (mode := .stochastic) (hq := ⟨rfl, rfl, rfl, sz 5 _⟩) (h' := sz 5 _)
    (hf := by unfold AllFin; decide +kernel) (hz := by decide) (h1 := by decide +kernel) (h2 := by decide +kernel) (hx := by decide +kernel) (hτ := by wit)

/-- C106, fused call (float32, SET). -/
theorem C106_clipped_fused (hq : QArgs c.threads x .f32 dt n) (hf : AllFin .f32 x n)
    (hz : 0 ≤ z ∧ z ≤ 2 ^ dt.bits - 1) (h1 : 1 / 2 ^ 126 ≤ s.toRat) (h2 : s.toRat ≤ 2 ^ 119)
    (hx : ∀ i, i < n → |(elem .f32 x.data 0 i).toRat| ≤ 2 ^ 29 * s.toRat) (hτ : Threshold mode τ) :
    Always NoFault (fused c x .f32 o (4 * n) dt s z mode .set τ) (span o (4 * n)) m0 (fun m =>
      ∀ i, i < n → Clipped (tol mode) s.toRat ((0 - z) * s.toRat) ((2 ^ dt.bits - 1 - z) * s.toRat) (elem .f32 x.data 0 i).toRat (f32At m (o + 4 * i))) := by
  have hdt := hq.outQuant
  have hQ := qmax_bounds hdt
  have hzs : ZpSub z := by unfold ZpSub; norm_num; omega
  refine (C32_fused_f32_formula (op := .set) hq hzs (fun i hi => clip_defined (ft := .f32) hf ⟨hz.1, by omega⟩ h1 h2 hx hτ hi)).mono (fun _ h => h) (fun m hm i hi => ?_)
  rw [hm i hi]
  show Clipped _ _ _ _ _ (dequant s z (sat dt.bits (rounded mode τ.toRat (scaled (elem .f32 x.data 0 i) s).toRat + z)).toNat)
  unfold dequant
  rw [Int.toNat_of_nonneg (by unfold sat; omega), zero_sub]
  exact clipped_of (A := z) (B := 2 ^ dt.bits - 1 - z) hdt (hf i hi) hz h1 h2 (by rw [sub_self, abs_zero]; positivity)
    (by rw [show (z:ℚ) + (2 ^ dt.bits - 1 - z) - (2 ^ dt.bits - 1) = 0 by ring, abs_zero]; positivity) (clip_quo (ft := .f32) h1 hx hi) (rounded_tol hτ _)

/-- `C106_clipped_fused` applied to a concrete case. -/
example := C106_clipped_fused (x := Ex.xs) (n := 5) (dt := .uint4) (c := ⟨.avx2, 2, .none⟩) (o := 1000)
    (m0 := Ex.old) (s := Ex.half) (τ := Ex.quarter) (z := 4) (mode := .nearest) (hq := ⟨rfl, rfl, rfl, sz 5 _⟩)
    (hf := by unfold AllFin; decide +kernel) (hz := by decide) (h1 := by decide +kernel) (h2 := by decide +kernel) (hx := by decide +kernel) (hτ := by wit)

/-- C106, calibration: parameters computed from one tensor `x` (finite, around zero, range `[lo, hi]`) are used for another tensor `y` (of either float
type and any length; elements up to 2^28 steps).  Quantizing and dequantizing `y` to float32 returns every element, clipped to the range of `x`, within half a step (nearest) or one
step (stochastic) of the ideal grid over that range, up to 2^-11 of a step. -/
theorem C106_calibrated (h : PArgs ft x n blocks dt) (hs : Sees isa ft x n blocks) (ha : Around ft x n lo hi)
    (hq : QArgs c.threads y ft'.dtype dt k) (h' : Sizes k c'.threads) (hf : AllFin ft' y k)
    (hx : ∀ i, i < k → |(elem ft'.dtype y.data 0 i).toRat| ≤ 2 ^ 28 * step dt lo hi) (hτ : Threshold mode τ) :
    ∃ s z, computeQuantConfigFromData isa ft x blocks dt = .ret (s, z) ∧
      Always NoFault (quantize c y ft'.dtype o (bytes dt.bits k) dt s z mode τ) (span o (bytes dt.bits k)) m0 (fun m =>
        ∀ sz, bytes dt.bits k ≤ sz → Readable dt .f32 k sz →
          Always NoFault (dequantize c' ⟨sz, fun a => m (o + a)⟩ (bytes dt.bits k) dt o' (4 * k) .f32 s z .set) (span o' (4 * k)) m0' (fun m' =>
            ∀ i, i < k → Within (tol mode) dt lo hi (clip lo hi (elem ft'.dtype y.data 0 i).toRat) (f32At m' (o' + 4 * i)))) := by
  obtain ⟨s, z, he, hsf, h1, h2, hn, _⟩ := computed_step h hs ha
  have hS := (step_bounds h.quant ha).2.2
  have hspos : 0 < s.toRat := lt_of_lt_of_le (by positivity) h1
  have hz := C20_zero_point_in_range h.quant he
  have hlt : lo < hi := by have := ha.pos; linarith
  obtain ⟨c1, c2⟩ := computed_near h ha.hn ha.fin hs ha.range ha.zero hlt he h1 (h2.trans (by norm_num))
  refine ⟨s, z, he, (clipped_roundtrip (A := -lo / s.toRat) (B := hi / s.toRat) hq h' hf ⟨hz.1, hz.2.1⟩ h1 h2 c1 ?_ ?_ hτ).mono (fun _ h => h)
    (fun m hm sz hsz hrd => (hm sz hsz hrd).mono (fun _ h => h) (fun m' hm' i hi' => ?_))⟩
  · rw [show -lo / s.toRat + hi / s.toRat = (hi - lo) / s.toRat by ring]; exact c2
  · intro i hi'
    refine (hx i hi').trans ?_
    have : step dt lo hi ≤ 2 * s.toRat := by
      have := (abs_le.mp hn).1
      have e : step dt lo hi / 2 ^ 23 ≤ step dt lo hi / 2 := div_le_div_of_nonneg_left hS.le (by norm_num) (by norm_num)
      linarith
    have e : (2:ℚ) ^ 29 * s.toRat = 2 ^ 28 * (2 * s.toRat) := by ring
    rw [e]; exact mul_le_mul_of_nonneg_left this (by positivity)
  · obtain ⟨k1, k2⟩ := hm' i hi'
    rw [show -(-lo / s.toRat) * s.toRat = lo by field_simp, div_mul_cancel₀ _ hspos.ne'] at k2
    refine ⟨k1, k2.trans ((err_step hS hn).trans ?_)⟩
    apply mul_le_mul_of_nonneg_left _ hS.le
    have : (1:ℚ) / 2 ^ 12 + 1 / 2 ^ 22 ≤ 1 / 2 ^ 11 := by norm_num
    linarith

/-- `C106_calibrated` applied to a concrete case: parameters of 70 elements between -6.25 and 6.25 used for 1, -2.5, 0.3, 7.75, 100. -/
example := C106_calibrated (isa := .avx512f) (ft := .f32) (ft' := .f32) (x := Ex.many) (y := Ex.xs) (n := 70) (k := 5) (blocks := Ex.blocks) (dt := .uint8) (lo := -25 / 4) (hi := 25 / 4)
    (c := ⟨.avx512f, 3, .none⟩) (c' := ⟨.sse42, 2, .none⟩) (o := 1000) (o' := 3000) (m0 := Ex.old) (m0' := Ex.old) (mode := .stochastic) (τ := Ex.quarter) (h := by wit) (hs := by wit)
    (ha := ⟨by wit, by wit, by norm_num, by norm_num, by norm_num⟩) (hq := ⟨rfl, rfl, rfl, sz 5 _⟩) (h' := sz 5 _) (hf := by unfold AllFin; decide +kernel)
    (hx := by unfold step; decide +kernel) (hτ := by wit)

end
end Verif.Props
