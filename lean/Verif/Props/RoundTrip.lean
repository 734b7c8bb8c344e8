import Verif.Props.Examples
import Verif.Props.Params
import Verif.Props.Dequant2
import Verif.Proofs.RoundTrip

/-!
# Round trip: C25, C26, C44

Quantize and dequantize calls may run on different kernel sets, thread counts and schedules.
-/

namespace Verif.Props
open Spec

variable {isa : Isa} {ft : FT} {x : InBuf} {n : Nat} {blocks : List (Nat × Nat)} {dt : DType} {c c' : Ctx} {o o' : Nat} {m0 m0' : Mem} {s τ : F32} {z : ℤ}

theorem codeBound (h : dt.isQuant = true) : (2:ℤ) ^ dt.bits - 1 ≤ 255 := (qmax_bounds h).2

/-- Quantize (nearest) then dequantize, for an input whose scaled values are moderate: the output is
`fl32((k - zp) * scale)` for a code `k = sat (r + zp)` with `r` an integer nearest to the scaled value. -/
theorem roundtrip_codes (hdt : dt.isQuant = true) (hq : QArgs c.threads x ft.dtype dt n) (h' : Sizes n c'.threads) (hz : 0 ≤ z ∧ z ≤ 2 ^ dt.bits - 1)
    (hp : ∀ i, i < n → (scaled (elem ft.dtype x.data 0 i) s).isFin = true ∧ |(scaled (elem ft.dtype x.data 0 i) s).toRat| ≤ 2 ^ 30)
    {P : Nat → F32 → Prop}
    (hP : ∀ i, i < n → ∀ r, NearInt (scaled (elem ft.dtype x.data 0 i) s).toRat r → P i (Flt.mul (Flt.ofInt f32 (sat dt.bits (r + z) - z)) s)) :
    Always NoFault (quantize c x ft.dtype o (bytes dt.bits n) dt s z .nearest τ) (span o (bytes dt.bits n)) m0 (fun m =>
      ∀ sz, bytes dt.bits n ≤ sz → Readable dt .f32 n sz →
        Always NoFault (dequantize c' ⟨sz, fun a => m (o + a)⟩ (bytes dt.bits n) dt o' (4 * n) .f32 s z .set) (span o' (4 * n)) m0' (fun m' =>
          ∀ i, i < n → P i (f32At m' (o' + 4 * i)))) := by
  have hb := codeBound hdt
  have hzs : ZpSub z := by unfold ZpSub; norm_num; omega
  have hfits : ∀ i, i < n → Fits 32 (scaled (elem ft.dtype x.data 0 i) s) z := fun i hi => by
    obtain ⟨h1, h2⟩ := hp i hi
    have h3 := rha_err (scaled (elem ft.dtype x.data 0 i) s).toRat
    rw [abs_le] at h2 h3
    have h4 : (rha (scaled (elem ft.dtype x.data 0 i) s).toRat : ℚ) ≤ ((2 ^ 30 + 1 : ℤ) : ℚ) := by push_cast; linarith
    have h5 : ((-2 ^ 30 - 1 : ℤ) : ℚ) ≤ (rha (scaled (elem ft.dtype x.data 0 i) s).toRat : ℚ) := by push_cast; linarith
    have h4 : rha (scaled (elem ft.dtype x.data 0 i) s).toRat ≤ 2 ^ 30 + 1 := by exact_mod_cast h4
    have h5 : -2 ^ 30 - 1 ≤ rha (scaled (elem ft.dtype x.data 0 i) s).toRat := by exact_mod_cast h5
    refine ⟨h1, ?_, ?_⟩ <;> norm_num at h4 h5 ⊢ <;> omega
  refine (C07_vector_nearest (c := c) hq (by rw [abs_of_nonneg hz.1]; norm_num; omega) hfits).mono (fun _ h => h) (fun m hm sz hsz hrd => ?_)
  refine (C09_dequantize_f32_formula (c := c') ⟨hdt, rfl, hsz, h'⟩ hrd hzs).mono (fun _ h => h) (fun m' hm' i hi => ?_)
  rw [hm' i hi]
  have e : code dt.bits (fun a => m (o + a)) 0 i = code dt.bits m o i := code_shift _ _ _ _
  unfold dequant
  rw [show (InBuf.data ⟨sz, fun a => m (o + a)⟩) = fun a => m (o + a) from rfl, e]
  rcases hm i hi with g | ⟨g1, g2⟩
  · rw [g]; exact hP i hi _ (Or.inl rfl)
  · rw [g2]; exact hP i hi _ (Or.inr ⟨g1, rfl⟩)

/-- The output is within the tolerance of the input. -/
def Close (s : F32) (x y : F32) : Prop := y.isFin = true ∧ |y.toRat - x.toRat| ≤ s.toRat * (1 / 2 + 1 / 2 ^ 12)

theorem close_of {y : F32} {k : ℤ} (hk : |k| ≤ 255) (hf : s.isFin = true) (h1 : 1 / 2 ^ 126 ≤ s.toRat) (h2 : s.toRat ≤ 2 ^ 119)
    (hu : |(k:ℚ) - y.toRat / s.toRat| ≤ 1 / 2 + 1 / 2 ^ 13 + 1 / 2 ^ 25) : Close s y (Flt.mul (Flt.ofInt f32 k) s) := by
  have hs : 0 < s.toRat := lt_of_lt_of_le (by positivity) h1
  obtain ⟨g1, g2⟩ := dequant_near hk hf h1 h2
  refine ⟨g1, ?_⟩
  have h3 : |(k:ℚ) * s.toRat - y.toRat| ≤ (1 / 2 + 1 / 2 ^ 13 + 1 / 2 ^ 25) * s.toRat := by
    have : (k:ℚ) * s.toRat - y.toRat = ((k:ℚ) - y.toRat / s.toRat) * s.toRat := by field_simp
    rw [this, abs_mul, abs_of_pos hs]
    exact mul_le_mul_of_nonneg_right hu hs.le
  rw [abs_le] at g2 h3 ⊢
  have e1 : 255 * s.toRat / 2 ^ 24 ≤ s.toRat / 2 ^ 16 := by
    rw [div_le_div_iff₀ (by positivity) (by positivity)]; norm_num; linarith
  constructor <;> norm_num at g2 h3 e1 ⊢ <;> linarith

/-- C25. Data with minimum `lo ≤ 0` and maximum `hi ≥ 0`: parameters computed from it (scale in
`[2^-126, 2^119]`), quantize with nearest rounding, dequantize to float32: every element comes back
within `scale * (1/2 + 2^-12)`.  Missing: SSE4.2 parameter searches that miss an extreme, where the claim
is false (`C25_false_sse42`). -/
theorem C25_roundtrip_partial (h : PArgs ft x n blocks dt) (hn : 0 < n) (hf : AllFin ft x n) (hs : Sees isa ft x n blocks) {lo hi : ℚ}
    (hr : Range ft.dtype x.data n lo hi) (h0 : lo ≤ 0 ∧ 0 ≤ hi) (he : computeQuantConfigFromData isa ft x blocks dt = .ret (s, z))
    (h1 : 1 / 2 ^ 126 ≤ s.toRat) (h2 : s.toRat ≤ 2 ^ 119) (hq : QArgs c.threads x ft.dtype dt n) (h' : Sizes n c'.threads) :
    Always NoFault (quantize c x ft.dtype o (bytes dt.bits n) dt s z .nearest τ) (span o (bytes dt.bits n)) m0 (fun m =>
      ∀ sz, bytes dt.bits n ≤ sz → Readable dt .f32 n sz →
        Always NoFault (dequantize c' ⟨sz, fun a => m (o + a)⟩ (bytes dt.bits n) dt o' (4 * n) .f32 s z .set) (span o' (4 * n)) m0' (fun m' =>
          ∀ i, i < n → Close s (elem ft.dtype x.data 0 i) (f32At m' (o' + 4 * i)))) := by
  have hspos : 0 < s.toRat := lt_of_lt_of_le (by positivity) h1
  have hsf : s.isFin = true := isFin_of_abs (by
    rw [abs_of_pos hspos, emax_f32]; exact lt_of_le_of_lt h2 (by norm_num))
  have h2' : s.toRat ≤ 2 ^ 126 := h2.trans (by norm_num)
  have hQ := qmax_bounds h.quant
  have hQ2 : (2:ℚ) ^ dt.bits - 1 ≤ 255 := by exact_mod_cast hQ.2
  rw [C22_true_range_partial h hn hf hs hr] at he
  injection he with he
  have hzr : 0 ≤ z ∧ z ≤ 2 ^ dt.bits - 1 := by
    have := C20_zero_point_in_range h.quant (s := s) (z := z) (isa := isa) (ft := ft) (x := x) (blocks := blocks) (by rw [C22_true_range_partial h hn hf hs hr, he])
    exact ⟨this.1, this.2.1⟩
  obtain ⟨⟨⟨a, ha, ea⟩, hlo⟩, ⟨b, hb, eb⟩, hhi⟩ := hr
  have hx : ∀ i, i < n → lo ≤ (elem ft.dtype x.data 0 i).toRat ∧ (elem ft.dtype x.data 0 i).toRat ≤ hi := fun i hi =>
    ⟨hlo ⟨i, hi, rfl⟩, hhi ⟨i, hi, rfl⟩⟩
  have hsatz : ∀ r : ℤ, |sat dt.bits (r + z) - z| ≤ 255 := by
    intro r
    rw [abs_le]
    unfold sat; omega
  by_cases hc : hi = lo
  · -- constant zero
    have hxz : ∀ i, i < n → (elem ft.dtype x.data 0 i).toRat = 0 := fun i hi' => by
      have := hx i hi'; linarith
    have hsc : ∀ i, i < n → (scaled (elem ft.dtype x.data 0 i) s).isFin = true ∧ (scaled (elem ft.dtype x.data 0 i) s).toRat = 0 := fun i hi' => by
      obtain ⟨g3, _⟩ := invScale_bounds hsf h1 h2'
      have e : (scaled (elem ft.dtype x.data 0 i) s).toRat = 0 := by
        show (Flt.mul _ (invScale s)).toRat = _
        rw [mul_toRat (hf i hi') g3, hxz i hi', zero_mul, flr_zero]
      exact ⟨isFin_of_abs (by rw [e, abs_zero]; positivity), e⟩
    refine roundtrip_codes (P := fun i y => Close s (elem ft.dtype x.data 0 i) y) h.quant hq h' hzr (fun i hi' => ⟨(hsc i hi').1, ?_⟩) (fun i hi' r hr => ?_)
    · rw [(hsc i hi').2, abs_zero]; positivity
    · have hr0 : r = 0 := by
        have := hr
        rw [(hsc i hi').2] at this
        rcases this with rfl | ⟨g, _⟩
        · have := rha_int 0; simpa using this
        · rw [abs_zero] at g; unfold predHalf at g; norm_num at g
      apply close_of (hsatz r) hsf h1 h2
      rw [hr0, zero_add, sat_id hzr.1 hzr.2, sub_self, hxz i hi']
      norm_num
  · have hlt : lo < hi := lt_of_le_of_ne (h0.1.trans h0.2) (Ne.symm hc)
    have hA := abs_lt.mp (abs_lt_of_isFin (hf a ha))
    have hB := abs_lt.mp (abs_lt_of_isFin (hf b hb))
    rw [emax_f32] at hA hB
    have hd2 : hi - lo ≤ 2 ^ 129 := by
      have : (2:ℚ) ^ 129 = 2 ^ 128 + 2 ^ 128 := by norm_num
      rw [this, ea, eb]; linarith [hA.1, hB.2]
    have hd1 : 1 / 2 ^ 149 ≤ hi - lo := by
      have hlt := hlt
      rw [ea, eb] at hlt ⊢
      have := toRat_sub_unit hlt
      rwa [unit_f32] at this
    obtain ⟨_, p1, p2⟩ := params_near hQ hd1 hd2 h0 he h1 h2'
    have hu : ∀ i, i < n → - (-lo / s.toRat) ≤ (elem ft.dtype x.data 0 i).toRat / s.toRat ∧ (elem ft.dtype x.data 0 i).toRat / s.toRat ≤ hi / s.toRat := fun i hi' => by
      obtain ⟨g1, g2⟩ := hx i hi'
      constructor
      · rw [neg_div, neg_neg]; exact div_le_div_of_nonneg_right g1 hspos.le
      · exact div_le_div_of_nonneg_right g2 hspos.le
    have hAB : -lo / s.toRat + hi / s.toRat ≤ (2:ℚ) ^ dt.bits - 1 + 1 / 2 ^ 14 := by
      have e : -lo / s.toRat + hi / s.toRat = (hi - lo) / s.toRat := by ring
      rw [e]; linarith [(abs_le.mp p2).2]
    have hA0 : 0 ≤ -lo / s.toRat := div_nonneg (by linarith) hspos.le
    have hB0 : 0 ≤ hi / s.toRat := div_nonneg h0.2 hspos.le
    have e14 : (1:ℚ) / 2 ^ 14 ≤ 1 := by norm_num
    have hub : ∀ i, i < n → |(elem ft.dtype x.data 0 i).toRat / s.toRat| ≤ 256 := fun i hi' => by
      obtain ⟨g1, g2⟩ := hu i hi'
      rw [abs_le]; constructor <;> linarith
    refine roundtrip_codes (P := fun i y => Close s (elem ft.dtype x.data 0 i) y) h.quant hq h' hzr (fun i hi' => ?_) (fun i hi' r hr => ?_)
    · obtain ⟨k1, k2⟩ := scaled_near (hf i hi') hsf h1 h2' (hub i hi')
      refine ⟨k1, ?_⟩
      have g := hub i hi'
      rw [abs_le] at k2 g ⊢
      constructor <;> norm_num at k2 ⊢ <;> linarith
    · obtain ⟨_, k2⟩ := scaled_near (hf i hi') hsf h1 h2' (hub i hi')
      apply close_of (hsatz r) hsf h1 h2
      exact rt_core hzr p1 hAB (hu i hi') k2 (nearInt_err hr)

/-- `C25_roundtrip_partial` applied to a concrete case. -/
example := C25_roundtrip_partial (isa := .avx512f) (ft := .f32) (x := Ex.many) (n := 70) (blocks := Ex.blocks) (dt := .uint8) (c := Ex.c1)
    (c' := Ex.c2) (o := 1000) (o' := 3000) (m0 := Ex.old) (m0' := Ex.old) (s := Ex.manyS) (τ := Ex.quarter) (z := 128) (h := by wit) (hn := by wit)
    (hf := by wit) (hs := by wit) (lo := (-25 / 4)) (hi := (25 / 4)) (hr := by wit) (h0 := by wit) (he := retIs_iff (by decide +kernel)) (h1 := by wit)
    (h2 := by wit) (hq := by wit) (h' := by wit)

/-- 1, -2.5, 0.3, 7.75, 100: the hypotheses of C25 hold (uint8, scale about 0.402, zero point 6). -/
example : PArgs .f32 Ex.xs 5 [(0, 2), (2, 5)] .uint8 ∧ AllFin .f32 Ex.xs 5 ∧ Range .f32 Ex.xs.data 5 (-5 / 2) 100 ∧
    computeQuantConfigFromData .avx2 .f32 Ex.xs [(0, 2), (2, 5)] .uint8 = .ret (⟨false, 1053674958⟩, 6) ∧
    1 / 2 ^ 126 ≤ (⟨false, 1053674958⟩ : F32).toRat ∧ (⟨false, 1053674958⟩ : F32).toRat ≤ 2 ^ 119 ∧
    QArgs 3 Ex.xs .f32 .uint8 5 ∧ Sizes 5 7 := by
  have hv : ∀ t, t < 5 → -5 / 2 ≤ (elem .f32 Ex.xs.data 0 t).toRat ∧ (elem .f32 Ex.xs.data 0 t).toRat ≤ 100 := by decide +kernel
  refine ⟨⟨rfl, by decide, rfl, by omega, rfl, by omega, rfl⟩, ?_, ⟨⟨⟨1, by omega, by decide +kernel⟩, ?_⟩, ⟨4, by omega, by decide +kernel⟩, ?_⟩, ?_, by decide +kernel, by decide +kernel,
    ⟨rfl, rfl, rfl, by omega, by norm_num, by norm_num⟩, by omega, by norm_num, by norm_num⟩
  · unfold AllFin; decide +kernel
  · rintro v ⟨t, ht, rfl⟩; exact (hv t ht).1
  · rintro v ⟨t, ht, rfl⟩; exact (hv t ht).2
  · exact retIs_iff (by decide +kernel)

/-! ## C26 -/

/-- 100 and 101. -/
def offs : InBuf := Ex.buf (Ex.words32 [0x42c80000, 0x42ca0000])
/-- About 1/255. -/
def offsScale : F32 := ⟨false, 998277249⟩

/-- C26 is false: the data 100, 101 (range not containing zero) gets the scale `1/255` and, because
the zero point is saturated, zero point 0.  Both elements then come back as 1.0 — an error of 99 — on
every kernel set, thread count and schedule. -/
theorem C26_false_offset_data (hc : 0 < c.threads ∧ c.threads < 2 ^ 60) (hc' : 0 < c'.threads ∧ c'.threads < 2 ^ 60) :
    PArgs .f32 offs 2 [(0, 2)] .uint8 ∧ AllFin .f32 offs 2 ∧ Range .f32 offs.data 2 100 101 ∧
    computeQuantConfigFromData .portable .f32 offs [(0, 2)] .uint8 = .ret (offsScale, 0) ∧ QArgs c.threads offs .f32 .uint8 2 ∧
    Always NoFault (quantize c offs .f32 o 2 .uint8 offsScale 0 .nearest τ) (span o 2) m0 (fun m =>
      Always NoFault (dequantize c' ⟨2, fun a => m (o + a)⟩ 2 .uint8 o' 8 .f32 offsScale 0 .set) (span o' 8) m0' (fun m' =>
        ∀ i, i < 2 → f32At m' (o' + 4 * i) = ⟨false, 0x3f800000⟩ ∧ ¬ Close offsScale (elem .f32 offs.data 0 i) (f32At m' (o' + 4 * i)))) := by
  have hv : ∀ t, t < 2 → 100 ≤ (elem .f32 offs.data 0 t).toRat ∧ (elem .f32 offs.data 0 t).toRat ≤ 101 := by decide +kernel
  have hsz : ∀ k, 0 < k ∧ k < 2 ^ 60 → Sizes 2 k := fun k hk => ⟨hk.1, by norm_num at *; omega, by norm_num⟩
  have hq : QArgs c.threads offs FT.f32.dtype .uint8 2 := ⟨rfl, rfl, rfl, hsz _ hc⟩
  refine ⟨⟨rfl, by decide, rfl, by omega, rfl⟩, ?_, ⟨⟨⟨0, by omega, by decide +kernel⟩, ?_⟩, ⟨1, by omega, by decide +kernel⟩, ?_⟩, ?_, hq, ?_⟩
  · unfold AllFin; decide +kernel
  · rintro v ⟨t, ht, rfl⟩; exact (hv t ht).1
  · rintro v ⟨t, ht, rfl⟩; exact (hv t ht).2
  · exact retIs_iff (by decide +kernel)
  · refine (roundtrip_codes (P := fun i y => y = ⟨false, 0x3f800000⟩ ∧ ¬ Close offsScale (elem .f32 offs.data 0 i) y) (ft := .f32) (dt := .uint8) (n := 2) (s := offsScale) (z := 0) rfl hq (hsz _ hc') (by decide)
      (by show ∀ i, i < 2 → (scaled (elem .f32 offs.data 0 i) offsScale).isFin = true ∧ |(scaled (elem .f32 offs.data 0 i) offsScale).toRat| ≤ 2 ^ 30
          decide +kernel) ?_).mono (fun _ h => h) (fun m hm => hm 2 (by decide) (by intro h; cases h))
    intro i hi r hr
    have h1 : ∀ i, i < 2 → 1000 ≤ rha (scaled (elem .f32 offs.data 0 i) offsScale).toRat ∧ |(scaled (elem .f32 offs.data 0 i) offsScale).toRat| ≠ predHalf := by decide +kernel
    have hr : r = rha (scaled (elem .f32 offs.data 0 i) offsScale).toRat := by
      rcases hr with hr | ⟨hr, _⟩
      · exact hr
      · exact absurd hr (h1 i hi).2
    have e : sat 8 (r + 0) - 0 = 255 := by
      have := (h1 i hi).1
      rw [← hr] at this
      unfold sat; omega
    have e : sat DType.uint8.bits (r + 0) - 0 = 255 := e
    rw [e]
    have e1 : Flt.mul (Flt.ofInt f32 255) offsScale = ⟨false, 0x3f800000⟩ := by decide +kernel
    refine ⟨e1, ?_⟩
    rw [e1]
    rintro ⟨_, h2⟩
    have h3 : (⟨false, 0x3f800000⟩ : F32).toRat = 1 := by decide +kernel
    have h4 : offsScale.toRat * (1 / 2 + 1 / 2 ^ 12) ≤ 1 := by decide +kernel
    have h5 := (hv i hi).1
    rw [h3, abs_le] at h2
    linarith [h2.1]

/-- `C26_false_offset_data` applied to a concrete case. -/
example := C26_false_offset_data (c := Ex.c1) (c' := Ex.c2) (o := 1000) (o' := 3000) (m0 := Ex.old) (m0' := Ex.old) (τ := Ex.quarter) (hc := by wit)
    (hc' := by wit)

/-! ## C44 -/

/-- C44. Any scale in `[2^-126, 2^119]` and any zero point that is a code, whether computed or chosen
by the caller; data between the values of the smallest and of the largest code: quantize with nearest
rounding, then dequantize to float32, returns every element within `scale * (1/2 + 2^-12)`. -/
theorem C44_roundtrip_any_parameters (hdt : dt.isQuant = true) (hq : QArgs c.threads x ft.dtype dt n) (h' : Sizes n c'.threads) (hf : AllFin ft x n)
    (hz : 0 ≤ z ∧ z ≤ 2 ^ dt.bits - 1) (h1 : 1 / 2 ^ 126 ≤ s.toRat) (h2 : s.toRat ≤ 2 ^ 119)
    (hx : ∀ i, i < n → ((0 - z : ℤ) : ℚ) * s.toRat ≤ (elem ft.dtype x.data 0 i).toRat ∧ (elem ft.dtype x.data 0 i).toRat ≤ ((2 ^ dt.bits - 1 - z : ℤ) : ℚ) * s.toRat) :
    Always NoFault (quantize c x ft.dtype o (bytes dt.bits n) dt s z .nearest τ) (span o (bytes dt.bits n)) m0 (fun m =>
      ∀ sz, bytes dt.bits n ≤ sz → Readable dt .f32 n sz →
        Always NoFault (dequantize c' ⟨sz, fun a => m (o + a)⟩ (bytes dt.bits n) dt o' (4 * n) .f32 s z .set) (span o' (4 * n)) m0' (fun m' =>
          ∀ i, i < n → Close s (elem ft.dtype x.data 0 i) (f32At m' (o' + 4 * i)))) := by
  have hspos : 0 < s.toRat := lt_of_lt_of_le (by positivity) h1
  have hsf : s.isFin = true := isFin_of_abs (by
    rw [abs_of_pos hspos, emax_f32]; exact lt_of_le_of_lt h2 (by norm_num))
  have h2' : s.toRat ≤ 2 ^ 126 := h2.trans (by norm_num)
  have hQ := qmax_bounds hdt
  have hQ2 : (2:ℚ) ^ dt.bits - 1 ≤ 255 := by exact_mod_cast hQ.2
  have hsatz : ∀ r : ℤ, |sat dt.bits (r + z) - z| ≤ 255 := by
    intro r
    rw [abs_le]
    unfold sat; omega
  have hz0 : (0:ℚ) ≤ z := by exact_mod_cast hz.1
  have hz1 : (z:ℚ) ≤ 2 ^ dt.bits - 1 := by exact_mod_cast hz.2
  have hu : ∀ i, i < n → -(z:ℚ) ≤ (elem ft.dtype x.data 0 i).toRat / s.toRat ∧ (elem ft.dtype x.data 0 i).toRat / s.toRat ≤ 2 ^ dt.bits - 1 - z := fun i hi' => by
    obtain ⟨g1, g2⟩ := hx i hi'
    push_cast at g1 g2
    constructor
    · rw [le_div_iff₀ hspos]; linarith
    · rw [div_le_iff₀ hspos]; linarith
  have hub : ∀ i, i < n → |(elem ft.dtype x.data 0 i).toRat / s.toRat| ≤ 256 := fun i hi' => by
    obtain ⟨g1, g2⟩ := hu i hi'
    rw [abs_le]; constructor <;> linarith
  refine roundtrip_codes (P := fun i y => Close s (elem ft.dtype x.data 0 i) y) hdt hq h' hz (fun i hi' => ?_) (fun i hi' r hr => ?_)
  · obtain ⟨k1, k2⟩ := scaled_near (hf i hi') hsf h1 h2' (hub i hi')
    refine ⟨k1, ?_⟩
    have g := hub i hi'
    rw [abs_le] at k2 g ⊢
    constructor <;> norm_num at k2 ⊢ <;> linarith
  · obtain ⟨_, k2⟩ := scaled_near (hf i hi') hsf h1 h2' (hub i hi')
    apply close_of (hsatz r) hsf h1 h2
    refine rt_core (A := z) (B := 2 ^ dt.bits - 1 - z) hz ?_ ?_ (hu i hi') k2 (nearInt_err hr)
    · rw [sub_self, abs_zero]; norm_num
    · have : (0:ℚ) ≤ 1 / 2 ^ 14 := by norm_num
      linarith

/-- `C44_roundtrip_any_parameters` applied to a concrete case. -/
example := C44_roundtrip_any_parameters (ft := .f32) (x := Ex.many) (n := 70) (dt := .uint8) (c := Ex.c1) (c' := Ex.c2) (o := 1000) (o' := 3000)
    (m0 := Ex.old) (m0' := Ex.old) (s := Ex.tenth) (τ := Ex.quarter) (z := 64) (hdt := by wit) (hq := by wit) (h' := by wit) (hf := by wit)
    (hz := by wit) (h1 := by wit) (h2 := by wit) (hx := by wit)

/-- 1, -2.5, 0.3, 7.75, 100 with scale 0.5 and zero point 10: inside `[-5, 122.5]`. -/
example : QArgs 3 Ex.xs .f32 .uint8 5 ∧ AllFin .f32 Ex.xs 5 ∧ 1 / 2 ^ 126 ≤ Ex.half.toRat ∧ Ex.half.toRat ≤ 2 ^ 119 ∧
    ∀ i, i < 5 → ((0 - 10 : ℤ) : ℚ) * Ex.half.toRat ≤ (elem .f32 Ex.xs.data 0 i).toRat ∧ (elem .f32 Ex.xs.data 0 i).toRat ≤ ((2 ^ 8 - 1 - 10 : ℤ) : ℚ) * Ex.half.toRat := by
  refine ⟨⟨rfl, rfl, rfl, by omega, by norm_num, by norm_num⟩, ?_, by decide +kernel, by decide +kernel, by decide +kernel⟩
  unfold AllFin; decide +kernel

end Verif.Props
