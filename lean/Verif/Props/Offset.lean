import Verif.Props.Examples
import Verif.Proofs.Offset
import Verif.Props.Workflow
import Verif.Props.Bf16Trip

/-!
# Round trips with computed parameters for data anywhere: C63
-/

namespace Verif.Props
open Spec

variable {isa : Isa} {ft : FT} {x : InBuf} {n : Nat} {blocks : List (Nat × Nat)} {dt : DType} {c c' : Ctx} {o o' : Nat} {m0 m0' : Mem} {s τ : F32} {z : ℤ}

/-- The distance from zero of the interval `[lo, hi]`. -/
def gap (lo hi : ℚ) : ℚ := max 0 (max lo (-hi))

/-- Computed parameters: for every element some code has a value within half a step, or within the distance of the
data from zero, of the element. -/
theorem computed_code_near (h : PArgs ft x n blocks dt) (hn : 0 < n) (hf : AllFin ft x n) (hs : Sees isa ft x n blocks) {lo hi : ℚ}
    (hr : Range ft.dtype x.data n lo hi) (he : computeQuantConfigFromData isa ft x blocks dt = .ret (s, z))
    (h1 : 1 / 2 ^ 126 ≤ s.toRat) (h2 : s.toRat ≤ 2 ^ 119) {i : Nat} (hi' : i < n) :
    ∃ k : ℕ, (k:ℤ) ≤ 2 ^ dt.bits - 1 ∧
      |(((k:ℤ) - z : ℤ) : ℚ) - (elem ft.dtype x.data 0 i).toRat / s.toRat| ≤ max (1 / 2) (gap lo hi / s.toRat) + 1 / 2 ^ 12 := by
  have hspos : 0 < s.toRat := lt_of_lt_of_le (by positivity) h1
  have h2' : s.toRat ≤ 2 ^ 126 := h2.trans (by norm_num)
  have hQ := qmax_bounds h.quant
  have hzr : 0 ≤ z ∧ z ≤ 2 ^ dt.bits - 1 := by
    have := C20_zero_point_in_range h.quant he
    exact ⟨this.1, this.2.1⟩
  have hg0 : 0 ≤ gap lo hi / s.toRat := div_nonneg (le_max_left _ _) hspos.le
  have he' := he
  rw [C22_true_range_partial h hn hf hs hr] at he'
  injection he' with he'
  obtain ⟨⟨⟨a, ha, ea⟩, hlo⟩, ⟨b, hb, eb⟩, hhi⟩ := hr
  have hx1 := hlo ⟨i, hi', rfl⟩
  have hx2 := hhi ⟨i, hi', rfl⟩
  have hA := abs_lt.mp (abs_lt_of_isFin (hf a ha))
  have hB := abs_lt.mp (abs_lt_of_isFin (hf b hb))
  rw [emax_f32] at hA hB
  set v := (elem ft.dtype x.data 0 i).toRat with hv
  have hle : lo ≤ hi := hx1.trans hx2
  have e14 : (1:ℚ) / 2 ^ 14 ≤ 1 / 2 ^ 12 := by norm_num
  have e12 : (0:ℚ) ≤ 1 / 2 ^ 12 := by norm_num
  by_cases h0 : lo ≤ 0 ∧ 0 ≤ hi
  · obtain ⟨A, B, hc⟩ := covered_computed h hn hf hs ⟨⟨⟨a, ha, ea⟩, hlo⟩, ⟨b, hb, eb⟩, hhi⟩ h0 he h1 h2
    have hrt := rt_core (p := v / s.toRat) (r := rha (v / s.toRat)) hc.zp hc.off hc.len (hc.quo i hi') (by rw [sub_self, abs_zero]; norm_num) ((rha_err _).trans (by norm_num))
    have hk : 0 ≤ sat dt.bits (rha (v / s.toRat) + z) ∧ sat dt.bits (rha (v / s.toRat) + z) ≤ 2 ^ dt.bits - 1 := by unfold sat; omega
    refine ⟨(sat dt.bits (rha (v / s.toRat) + z)).toNat, by omega, ?_⟩
    rw [show (((sat dt.bits (rha (v / s.toRat) + z)).toNat : ℕ) : ℤ) = sat dt.bits (rha (v / s.toRat) + z) by omega]
    refine hrt.trans ?_
    have := le_max_left (1 / 2) (gap lo hi / s.toRat)
    have e : (1:ℚ) / 2 ^ 13 + 1 / 2 ^ 25 ≤ 1 / 2 ^ 12 := by norm_num
    linarith
  by_cases hc : hi = lo
  · refine ⟨z.toNat, by omega, ?_⟩
    have hs1 : s = ⟨false, 0x3f800000⟩ := by
      unfold params at he'
      rw [if_pos hc] at he'
      exact (Prod.mk.inj he').1.symm
    have e1 : s.toRat = 1 := by rw [hs1]; decide +kernel
    rw [show ((z.toNat : ℕ) : ℤ) = z by omega, sub_self, e1]
    have hvl : v = lo := by linarith
    rw [hvl, Int.cast_zero, div_one, div_one, zero_sub, abs_neg, hc]
    have : |lo| ≤ gap lo lo := by
      unfold gap
      rw [abs_le']
      exact ⟨(le_max_left _ _).trans (le_max_right _ _), (le_max_right _ _).trans (le_max_right _ _)⟩
    have := le_max_right (1 / 2) (gap lo lo)
    linarith
  · have hlt : lo < hi := lt_of_le_of_ne hle (Ne.symm hc)
    have hd2 : hi - lo ≤ 2 ^ 129 := by
      have : (2:ℚ) ^ 129 = 2 ^ 128 + 2 ^ 128 := by norm_num
      rw [this, ea, eb]; linarith [hA.1, hB.2]
    have hd1 : 1 / 2 ^ 149 ≤ hi - lo := by
      have hlt := hlt
      rw [ea, eb] at hlt ⊢
      have := toRat_sub_unit hlt
      rwa [unit_f32] at this
    have hstep := (abs_le.mp (params_step hQ hd1 hd2 he' h1 h2')).2
    have hw : (hi - lo) / s.toRat = hi / s.toRat - lo / s.toRat := sub_div _ _ _
    have u1 : lo / s.toRat ≤ v / s.toRat := div_le_div_of_nonneg_right hx1 hspos.le
    have u2 : v / s.toRat ≤ hi / s.toRat := div_le_div_of_nonneg_right hx2 hspos.le
    rcases lt_or_ge 0 lo with hp | hp
    · have hz := params_above hp.le hlt he'
      have eg : gap lo hi = lo := by
        unfold gap
        rw [max_eq_left (by linarith : -hi ≤ lo), max_eq_right hp.le]
      obtain ⟨k, k1, k2⟩ := code_above (Q := 2 ^ dt.bits - 1) (L := lo / s.toRat) (u := v / s.toRat) (div_nonneg hp.le hspos.le) (by omega) u1 (by push_cast; linarith)
      refine ⟨k, k1, ?_⟩
      rw [hz, eg]; linarith
    · have hn' : hi < 0 := by
        by_contra hcon
        exact h0 ⟨hp, not_lt.mp hcon⟩
      have hz := params_below hQ hd1 hd2 hn'.le he'
      have eg : gap lo hi = -hi := by
        unfold gap
        rw [max_eq_right (by linarith : lo ≤ -hi), max_eq_right (by linarith)]
      obtain ⟨k, k1, k2⟩ := code_below (Q := 2 ^ dt.bits - 1) (L := -hi / s.toRat) (u := v / s.toRat) (div_nonneg (by linarith) hspos.le) (by omega)
        (by rw [neg_div]; linarith) (by rw [neg_div]; push_cast; linarith)
      refine ⟨k, k1, ?_⟩
      rw [hz, eg]; linarith

/-- C63. Finite data anywhere on the number line (constant data included), parameters computed from it (scale in
`[2^-126, 2^119]`, elements at most `2^29` steps from zero): quantize with nearest rounding and dequantize
to float32.  Every element comes back within half a step or the distance of the data from zero, whichever is larger
(plus `2^-9` steps).  In particular the error stays near half a step when that distance is at most half a step.
Missing: SSE4.2 parameter searches that miss an extreme (C22) and elements more than `2^29` steps from zero (C53). -/
theorem C63_roundtrip_any_offset_partial (h : PArgs ft x n blocks dt) (hn : 0 < n) (hf : AllFin ft x n) (hs : Sees isa ft x n blocks) {lo hi : ℚ}
    (hr : Range ft.dtype x.data n lo hi) (he : computeQuantConfigFromData isa ft x blocks dt = .ret (s, z))
    (h1 : 1 / 2 ^ 126 ≤ s.toRat) (h2 : s.toRat ≤ 2 ^ 119) (hbig : ∀ i, i < n → |(elem ft.dtype x.data 0 i).toRat| ≤ 2 ^ 29 * s.toRat)
    (hq : QArgs c.threads x ft.dtype dt n) (h' : Sizes n c'.threads) :
    Always NoFault (quantize c x ft.dtype o (bytes dt.bits n) dt s z .nearest τ) (span o (bytes dt.bits n)) m0 (fun m =>
      ∀ sz, bytes dt.bits n ≤ sz → Readable dt .f32 n sz →
        Always NoFault (dequantize c' ⟨sz, fun a => m (o + a)⟩ (bytes dt.bits n) dt o' (4 * n) .f32 s z .set) (span o' (4 * n)) m0' (fun m' =>
          ∀ i, i < n → (f32At m' (o' + 4 * i)).isFin = true ∧
            |(f32At m' (o' + 4 * i)).toRat - (elem ft.dtype x.data 0 i).toRat| ≤ max (s.toRat / 2) (gap lo hi) + s.toRat / 2 ^ 9)) := by
  have hspos : 0 < s.toRat := lt_of_lt_of_le (by positivity) h1
  have hsf : s.isFin = true := isFin_of_abs (by
    rw [abs_of_pos hspos, emax_f32]; exact lt_of_le_of_lt h2 (by norm_num))
  have hQ := qmax_bounds h.quant
  have hzr : 0 ≤ z ∧ z ≤ 2 ^ dt.bits - 1 := by
    have := C20_zero_point_in_range h.quant he
    exact ⟨this.1, this.2.1⟩
  refine (C60_nearest_is_closest (c := c) (c' := c') (o' := o') (m0' := m0') h.quant hq h' hf hzr h1 h2 hbig).mono (fun _ h => h) (fun m hm sz hsz hrd => ?_)
  refine (hm sz hsz hrd).mono (fun _ h => h) (fun m' hm' i hi' => ?_)
  obtain ⟨g1, g2⟩ := hm' i hi'
  refine ⟨g1, ?_⟩
  obtain ⟨k, k1, k2⟩ := computed_code_near h hn hf hs hr he h1 h2 hi'
  have hk256 : k < 2 ^ dt.bits := by
    have : (k:ℤ) < ((2 ^ dt.bits : ℕ) : ℤ) := by push_cast; omega
    exact_mod_cast this
  have hkz : |(k:ℤ) - z| ≤ 255 := by rw [abs_le]; omega
  obtain ⟨_, d2⟩ := dequant_near hkz hsf h1 h2
  have g3 := g2 k hk256
  unfold dequant at g3
  have tri := abs_sub_le (Flt.mul (Flt.ofInt f32 ((k:ℤ) - z)) s).toRat ((((k:ℤ) - z : ℤ) : ℚ) * s.toRat) (elem ft.dtype x.data 0 i).toRat
  have conv : |(((k:ℤ) - z : ℤ) : ℚ) * s.toRat - (elem ft.dtype x.data 0 i).toRat| ≤ (max (1 / 2) (gap lo hi / s.toRat) + 1 / 2 ^ 12) * s.toRat := by
    have : (((k:ℤ) - z : ℤ) : ℚ) * s.toRat - (elem ft.dtype x.data 0 i).toRat = ((((k:ℤ) - z : ℤ) : ℚ) - (elem ft.dtype x.data 0 i).toRat / s.toRat) * s.toRat := by field_simp
    rw [this, abs_mul, abs_of_pos hspos]
    exact mul_le_mul_of_nonneg_right k2 hspos.le
  have em : (max (1 / 2) (gap lo hi / s.toRat) + 1 / 2 ^ 12) * s.toRat = max (s.toRat / 2) (gap lo hi) + s.toRat / 2 ^ 12 := by
    rw [add_mul, max_mul_of_nonneg _ _ hspos.le, div_mul_cancel₀ _ hspos.ne']
    rw [show 1 / 2 * s.toRat = s.toRat / 2 by ring, show 1 / 2 ^ 12 * s.toRat = s.toRat / 2 ^ 12 by ring]
  rw [em] at conv
  have e1 : 255 * s.toRat / 2 ^ 24 ≤ s.toRat / 2 ^ 16 := by
    rw [div_le_div_iff₀ (by positivity) (by positivity)]; norm_num; linarith
  generalize max (s.toRat / 2) (gap lo hi) = M at *
  have e2 : s.toRat / 2 ^ 16 + s.toRat / 2 ^ 12 + s.toRat / 2 ^ 10 ≤ s.toRat / 2 ^ 9 := by
    have : s.toRat / 2 ^ 16 + s.toRat / 2 ^ 12 + s.toRat / 2 ^ 10 = s.toRat * (1 / 2 ^ 16 + 1 / 2 ^ 12 + 1 / 2 ^ 10) := by ring
    rw [this, div_eq_mul_one_div s.toRat (2 ^ 9)]
    exact mul_le_mul_of_nonneg_left (by norm_num) hspos.le
  linarith

/-- `C63_roundtrip_any_offset_partial` applied to a concrete case. -/
example := C63_roundtrip_any_offset_partial (isa := .avx512f) (ft := .f32) (x := Ex.many) (n := 70) (blocks := Ex.blocks) (dt := .uint8) (c := Ex.c1)
    (c' := Ex.c2) (o := 1000) (o' := 3000) (m0 := Ex.old) (m0' := Ex.old) (s := Ex.manyS) (τ := Ex.quarter) (z := 128) (h := by wit) (hn := by wit)
    (hf := by wit) (hs := by wit) (lo := (-25 / 4)) (hi := (25 / 4)) (hr := by wit) (he := retIs_iff (by decide +kernel)) (h1 := by wit) (h2 := by wit)
    (hbig := by wit) (hq := by wit) (h' := by wit)

/-- C63, the bound is attained, for all data above zero: with computed parameters the largest element comes back too
small by the distance of the data from zero, in every execution on every kernel (the defect behind C26: the zero point
is clamped, so the offset of the data is lost). -/
theorem C63_offset_is_lost (h : PArgs ft x n blocks dt) (hn : 0 < n) (hf : AllFin ft x n) (hs : Sees isa ft x n blocks) {lo hi : ℚ}
    (hr : Range ft.dtype x.data n lo hi) (hlo : 0 ≤ lo) (hlt : lo < hi) (he : computeQuantConfigFromData isa ft x blocks dt = .ret (s, z))
    (h1 : 1 / 2 ^ 126 ≤ s.toRat) (h2 : s.toRat ≤ 2 ^ 119) (hbig : ∀ i, i < n → |(elem ft.dtype x.data 0 i).toRat| ≤ 2 ^ 29 * s.toRat)
    (hq : QArgs c.threads x ft.dtype dt n) (h' : Sizes n c'.threads) :
    z = 0 ∧ Always NoFault (quantize c x ft.dtype o (bytes dt.bits n) dt s z .nearest τ) (span o (bytes dt.bits n)) m0 (fun m =>
      ∀ sz, bytes dt.bits n ≤ sz → Readable dt .f32 n sz →
        Always NoFault (dequantize c' ⟨sz, fun a => m (o + a)⟩ (bytes dt.bits n) dt o' (4 * n) .f32 s z .set) (span o' (4 * n)) m0' (fun m' =>
          ∀ i, i < n → (elem ft.dtype x.data 0 i).toRat = hi →
            lo - s.toRat / 2 ^ 12 ≤ (elem ft.dtype x.data 0 i).toRat - (f32At m' (o' + 4 * i)).toRat)) := by
  have hspos : 0 < s.toRat := lt_of_lt_of_le (by positivity) h1
  have hsf : s.isFin = true := isFin_of_abs (by
    rw [abs_of_pos hspos, emax_f32]; exact lt_of_le_of_lt h2 (by norm_num))
  have h2' : s.toRat ≤ 2 ^ 126 := h2.trans (by norm_num)
  have hQ := qmax_bounds h.quant
  have he' := he
  rw [C22_true_range_partial h hn hf hs hr] at he'
  injection he' with he'
  have hz := params_above hlo hlt he'
  obtain ⟨⟨⟨a, ha, ea⟩, hlo'⟩, ⟨b, hb, eb⟩, hhi⟩ := hr
  have hA := abs_lt.mp (abs_lt_of_isFin (hf a ha))
  have hB := abs_lt.mp (abs_lt_of_isFin (hf b hb))
  rw [emax_f32] at hA hB
  have hd2 : hi - lo ≤ 2 ^ 129 := by
    have : (2:ℚ) ^ 129 = 2 ^ 128 + 2 ^ 128 := by norm_num
    rw [this, ea, eb]; linarith [hA.1, hB.2]
  have hd1 : 1 / 2 ^ 149 ≤ hi - lo := by
    have hlt := hlt
    rw [ea, eb] at hlt ⊢
    have := toRat_sub_unit hlt
    rwa [unit_f32] at this
  have hstep := (abs_le.mp (params_step hQ hd1 hd2 he' h1 h2')).1
  have hwid : ((2:ℚ) ^ dt.bits - 1) * s.toRat ≤ (hi - lo) + s.toRat / 2 ^ 14 := by
    have h3 : (2:ℚ) ^ dt.bits - 1 ≤ (hi - lo) / s.toRat + 1 / 2 ^ 14 := by linarith
    have := mul_le_mul_of_nonneg_right h3 hspos.le
    rw [add_mul, div_mul_cancel₀ _ hspos.ne'] at this
    linarith
  refine ⟨hz, ?_⟩
  have hzr : 0 ≤ z ∧ z ≤ 2 ^ dt.bits - 1 := by omega
  have hu : ∀ i, i < n → |(elem ft.dtype x.data 0 i).toRat / s.toRat| ≤ 2 ^ 29 := fun i hi => by
    rw [abs_div, abs_of_pos hspos, div_le_iff₀ hspos]; exact hbig i hi
  refine roundtrip_codes (P := fun i y => (elem ft.dtype x.data 0 i).toRat = hi → lo - s.toRat / 2 ^ 12 ≤ (elem ft.dtype x.data 0 i).toRat - y.toRat)
    h.quant hq h' hzr (fun i hi' => ?_) (fun i hi' r hr hmax => ?_)
  · obtain ⟨k1, k2⟩ := scaled_rel (hf i hi') hsf h1 h2' (hu i hi')
    refine ⟨k1, ?_⟩
    have g := hu i hi'
    have k3 : |(elem ft.dtype x.data 0 i).toRat / s.toRat| / 2 ^ 22 ≤ 2 ^ 29 / 2 ^ 22 := div_le_div_of_nonneg_right g (by positivity)
    have e : (1:ℚ) / 2 ^ 150 ≤ 1 := by norm_num
    rw [abs_le] at k2 g ⊢
    constructor <;> norm_num at k2 k3 e g ⊢ <;> linarith
  · have hk : 0 ≤ sat dt.bits (r + z) - z ∧ sat dt.bits (r + z) - z ≤ 2 ^ dt.bits - 1 := by rw [hz]; unfold sat; omega
    generalize sat dt.bits (r + z) - z = k at *
    obtain ⟨_, d2⟩ := dequant_near (k := k) (by rw [abs_le]; omega) hsf h1 h2
    have hkq : (k:ℚ) ≤ 2 ^ dt.bits - 1 := by exact_mod_cast hk.2
    have hks : (k:ℚ) * s.toRat ≤ ((2:ℚ) ^ dt.bits - 1) * s.toRat := mul_le_mul_of_nonneg_right hkq hspos.le
    have e1 : 255 * s.toRat / 2 ^ 24 ≤ s.toRat / 2 ^ 16 := by
      rw [div_le_div_iff₀ (by positivity) (by positivity)]; norm_num; linarith
    have e2 : s.toRat / 2 ^ 16 + s.toRat / 2 ^ 14 ≤ s.toRat / 2 ^ 12 := by
      have : s.toRat / 2 ^ 16 + s.toRat / 2 ^ 14 = s.toRat * (1 / 2 ^ 16 + 1 / 2 ^ 14) := by ring
      rw [this, div_eq_mul_one_div s.toRat (2 ^ 12)]
      exact mul_le_mul_of_nonneg_left (by norm_num) hspos.le
    have d3 := (abs_le.mp d2).2
    rw [hmax]
    linarith

/-- 100 and 101 to uint4: far from zero, the hypotheses of both theorems hold (1/15 is less than 100). -/
theorem offs_ok : PArgs .f32 offs 2 [(0, 2)] .uint4 ∧ AllFin .f32 offs 2 ∧ Range .f32 offs.data 2 100 101 ∧
    computeQuantConfigFromData .portable .f32 offs [(0, 2)] .uint4 = .ret (⟨false, 1032358025⟩, 0) ∧ gap 100 101 = 100 ∧ (⟨false, 1032358025⟩ : F32).toRat ≤ 100 ∧
    (∀ i, i < 2 → |(elem .f32 offs.data 0 i).toRat| ≤ 2 ^ 29 * (⟨false, 1032358025⟩ : F32).toRat) := by
  have hv : ∀ t, t < 2 → 100 ≤ (elem .f32 offs.data 0 t).toRat ∧ (elem .f32 offs.data 0 t).toRat ≤ 101 := by decide +kernel
  refine ⟨⟨rfl, by decide, rfl, by omega, rfl⟩, ?_, ⟨⟨⟨0, by omega, by decide +kernel⟩, ?_⟩, ⟨1, by omega, by decide +kernel⟩, ?_⟩, retIs_iff (by decide +kernel), ?_, ?_, by decide +kernel⟩
  · unfold AllFin; decide +kernel
  · rintro v ⟨t, ht, rfl⟩; exact (hv t ht).1
  · rintro v ⟨t, ht, rfl⟩; exact (hv t ht).2
  · unfold gap; norm_num
  · decide +kernel

end Verif.Props
