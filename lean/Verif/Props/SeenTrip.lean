import Verif.Props.ParamsSeen
import Verif.Props.RoundTrip
import Verif.Props.Isolate

/-!
# Round trip of the elements that count: C120

`compute_quant_config_from_data` (src/piquant.cpp:371-381), `quantize` (277-308) and `dequantize` (310-340) of data in which some elements are NaN, infinite or
out of the range found: the others come back within the tolerance all the same.
-/

namespace Verif.Props
open Spec

section
variable {isa : Isa} {ft : FT} {x : InBuf} {n : Nat} {blocks : List (Nat × Nat)} {dt : DType} {c c' : Ctx} {o o' : Nat} {m0 m0' : Mem} {s τ : F32} {z : ℤ}

/-- `roundtrip_codes` for some of the elements, whatever the others are. -/
theorem roundtrip_on (hdt : dt.isQuant = true) (hq : QArgs c.threads x ft.dtype dt n) (h' : Sizes n c'.threads) (hz : 0 ≤ z ∧ z ≤ 2 ^ dt.bits - 1)
    {G : Nat → Prop}
    (hp : ∀ i, G i → (scaled (elem ft.dtype x.data 0 i) s).isFin = true ∧ |(scaled (elem ft.dtype x.data 0 i) s).toRat| ≤ 2 ^ 30)
    {P : Nat → F32 → Prop}
    (hP : ∀ i, G i → ∀ r, NearInt (scaled (elem ft.dtype x.data 0 i) s).toRat r → P i (Flt.mul (Flt.ofInt f32 (sat dt.bits (r + z) - z)) s)) :
    Always OnlyUb (quantize c x ft.dtype o (bytes dt.bits n) dt s z .nearest τ) (span o (bytes dt.bits n)) m0 (fun m =>
      ∀ sz, bytes dt.bits n ≤ sz → Readable dt .f32 n sz →
        Always NoFault (dequantize c' ⟨sz, fun a => m (o + a)⟩ (bytes dt.bits n) dt o' (4 * n) .f32 s z .set) (span o' (4 * n)) m0' (fun m' =>
          ∀ i, i < n → G i → P i (f32At m' (o' + 4 * i)))) := by
  have hb := codeBound hdt
  have hzs : ZpSub z := by unfold ZpSub; norm_num; omega
  have hfits : ∀ i, G i → Fits 32 (scaled (elem ft.dtype x.data 0 i) s) z := fun i hi => by
    obtain ⟨h1, h2⟩ := hp i hi
    have h3 := rha_err (scaled (elem ft.dtype x.data 0 i) s).toRat
    rw [abs_le] at h2 h3
    have h4 : (rha (scaled (elem ft.dtype x.data 0 i) s).toRat : ℚ) ≤ ((2 ^ 30 + 1 : ℤ) : ℚ) := by push_cast; linarith
    have h5 : ((-2 ^ 30 - 1 : ℤ) : ℚ) ≤ (rha (scaled (elem ft.dtype x.data 0 i) s).toRat : ℚ) := by push_cast; linarith
    have h4 : rha (scaled (elem ft.dtype x.data 0 i) s).toRat ≤ 2 ^ 30 + 1 := by exact_mod_cast h4
    have h5 : -2 ^ 30 - 1 ≤ rha (scaled (elem ft.dtype x.data 0 i) s).toRat := by exact_mod_cast h5
    refine ⟨h1, ?_, ?_⟩ <;> norm_num at h4 h5 ⊢ <;> omega
  refine (C59_bad_elements_isolated (c := c) hq (by rw [abs_of_nonneg hz.1]; norm_num; omega)).mono (fun _ h => h) (fun m hm sz hsz hrd => ?_)
  refine (C09_dequantize_f32_formula (c := c') ⟨hdt, rfl, hsz, h'⟩ hrd hzs).mono (fun _ h => h) (fun m' hm' i hi hGi => ?_)
  rw [hm' i hi]
  have e : code dt.bits (fun a => m (o + a)) 0 i = code dt.bits m o i := code_shift _ _ _ _
  unfold dequant
  rw [show (InBuf.data ⟨sz, fun a => m (o + a)⟩) = fun a => m (o + a) from rfl, e]
  rcases hm i hi (hfits i hGi) with g | ⟨_, g1, g2⟩
  · rw [g]; exact hP i hGi _ (Or.inl rfl)
  · rw [g2]; exact hP i hGi _ (Or.inr ⟨g1, rfl⟩)

/-- C120. Parameters computed from data whose elements that count are finite, least `lo ≤ 0` and greatest `hi ≥ 0` of them (scale in `[2^-126, 2^119]`);
quantized with nearest rounding, dequantized to float32: every finite element in `[lo, hi]` comes back within `scale * (1/2 + 2^-12)`, whatever the others are.
The first call can only fault in a conversion of one of the others. -/
theorem C120_in_range_roundtrip (h : PArgs ft x n blocks dt) (hn : 0 < n) (hf : ∀ t, SeenIn isa ft blocks t → (elem ft.dtype x.data 0 t).isFin = true)
    {lo hi : ℚ} (hl : IsLeast (seenValues isa ft x blocks) lo) (hg : IsGreatest (seenValues isa ft x blocks) hi) (h0 : lo ≤ 0 ∧ 0 ≤ hi)
    (he : computeQuantConfigFromData isa ft x blocks dt = .ret (s, z))
    (h1 : 1 / 2 ^ 126 ≤ s.toRat) (h2 : s.toRat ≤ 2 ^ 119) (hq : QArgs c.threads x ft.dtype dt n) (h' : Sizes n c'.threads) :
    Always OnlyUb (quantize c x ft.dtype o (bytes dt.bits n) dt s z .nearest τ) (span o (bytes dt.bits n)) m0 (fun m =>
      ∀ sz, bytes dt.bits n ≤ sz → Readable dt .f32 n sz →
        Always NoFault (dequantize c' ⟨sz, fun a => m (o + a)⟩ (bytes dt.bits n) dt o' (4 * n) .f32 s z .set) (span o' (4 * n)) m0' (fun m' =>
          ∀ i, i < n → ((elem ft.dtype x.data 0 i).isFin = true ∧ lo ≤ (elem ft.dtype x.data 0 i).toRat ∧ (elem ft.dtype x.data 0 i).toRat ≤ hi) →
            Close s (elem ft.dtype x.data 0 i) (f32At m' (o' + 4 * i)))) := by
  have hdt := h.quant
  have hspos : 0 < s.toRat := lt_of_lt_of_le (by positivity) h1
  have hsf : s.isFin = true := isFin_of_abs (by
    rw [abs_of_pos hspos, emax_f32]; exact lt_of_le_of_lt h2 (by norm_num))
  have h2' : s.toRat ≤ 2 ^ 126 := h2.trans (by norm_num)
  have hQ := qmax_bounds h.quant
  have hQ2 : (2:ℚ) ^ dt.bits - 1 ≤ 255 := by exact_mod_cast hQ.2
  have hzr : 0 ≤ z ∧ z ≤ 2 ^ dt.bits - 1 := by
    have := C20_zero_point_in_range h.quant (s := s) (z := z) (isa := isa) (ft := ft) (x := x) (blocks := blocks) he
    exact ⟨this.1, this.2.1⟩
  obtain ⟨lo', hi', hl', hg', e'⟩ := C119_finite (isa := isa) h hn hf
  obtain rfl := hl.unique hl'
  obtain rfl := hg.unique hg'
  rw [e'] at he
  injection he with he
  obtain ⟨a, ha, ea⟩ := hl.1
  obtain ⟨b, hb, eb⟩ := hg.1
  have fa := hf a ha
  have fb := hf b hb
  let G : Nat → Prop := fun i => (elem ft.dtype x.data 0 i).isFin = true ∧ lo ≤ (elem ft.dtype x.data 0 i).toRat ∧ (elem ft.dtype x.data 0 i).toRat ≤ hi
  have hG : ∀ i, G i → (elem ft.dtype x.data 0 i).isFin = true := fun i hi => hi.1
  have hx : ∀ i, G i → lo ≤ (elem ft.dtype x.data 0 i).toRat ∧ (elem ft.dtype x.data 0 i).toRat ≤ hi := fun i hi => hi.2
  have hsatz : ∀ r : ℤ, |sat dt.bits (r + z) - z| ≤ 255 := by
    intro r
    rw [abs_le]
    unfold sat; omega
  by_cases hc : hi = lo
  · -- constant zero
    have hxz : ∀ i, G i → (elem ft.dtype x.data 0 i).toRat = 0 := fun i hi' => by
      have := hx i hi'; linarith
    have hsc : ∀ i, G i → (scaled (elem ft.dtype x.data 0 i) s).isFin = true ∧ (scaled (elem ft.dtype x.data 0 i) s).toRat = 0 := fun i hi' => by
      obtain ⟨g3, _⟩ := invScale_bounds hsf h1 h2'
      have e : (scaled (elem ft.dtype x.data 0 i) s).toRat = 0 := by
        show (Flt.mul _ (invScale s)).toRat = _
        rw [mul_toRat (hG i hi') g3, hxz i hi', zero_mul, flr_zero]
      exact ⟨isFin_of_abs (by rw [e, abs_zero]; positivity), e⟩
    refine roundtrip_on (G := G) (P := fun i y => Close s (elem ft.dtype x.data 0 i) y) hdt hq h' hzr (fun i hi' => ⟨(hsc i hi').1, ?_⟩) (fun i hi' r hr => ?_)
    · rw [(hsc i hi').2, abs_zero]; positivity
    · have hr0 : r = 0 := by
        have := hr
        rw [(hsc i hi').2] at this
        rcases this with rfl | ⟨g, _⟩
        · have := rha_int 0; simpa using this
        · rw [abs_zero] at g; unfold predHalf at g; norm_num at g
      apply close_of (hsatz r) hsf h1 h2
      rw [hr0, zero_add, sat_id hzr.1 hzr.2, sub_self, hxz i hi']
      norm_num
  · have hlt : lo < hi := lt_of_le_of_ne (h0.1.trans h0.2) (Ne.symm hc)
    have hA := abs_lt.mp (abs_lt_of_isFin (fa))
    have hB := abs_lt.mp (abs_lt_of_isFin (fb))
    rw [emax_f32] at hA hB
    have hd2 : hi - lo ≤ 2 ^ 129 := by
      have : (2:ℚ) ^ 129 = 2 ^ 128 + 2 ^ 128 := by norm_num
      rw [this, ea, eb]; linarith [hA.1, hB.2]
    have hd1 : 1 / 2 ^ 149 ≤ hi - lo := by
      have hlt := hlt
      rw [ea, eb] at hlt ⊢
      have := toRat_sub_unit hlt
      rwa [unit_f32] at this
    obtain ⟨_, p1, p2⟩ := params_near hQ hd1 hd2 h0 he h1 h2'
    have hu : ∀ i, G i → - (-lo / s.toRat) ≤ (elem ft.dtype x.data 0 i).toRat / s.toRat ∧ (elem ft.dtype x.data 0 i).toRat / s.toRat ≤ hi / s.toRat := fun i hi' => by
      obtain ⟨g1, g2⟩ := hx i hi'
      constructor
      · rw [neg_div, neg_neg]; exact div_le_div_of_nonneg_right g1 hspos.le
      · exact div_le_div_of_nonneg_right g2 hspos.le
    have hAB : -lo / s.toRat + hi / s.toRat ≤ (2:ℚ) ^ dt.bits - 1 + 1 / 2 ^ 14 := by
      have e : -lo / s.toRat + hi / s.toRat = (hi - lo) / s.toRat := by ring
      rw [e]; linarith [(abs_le.mp p2).2]
    have hA0 : 0 ≤ -lo / s.toRat := div_nonneg (by linarith) hspos.le
    have hB0 : 0 ≤ hi / s.toRat := div_nonneg h0.2 hspos.le
    have e14 : (1:ℚ) / 2 ^ 14 ≤ 1 := by norm_num
    have hub : ∀ i, G i → |(elem ft.dtype x.data 0 i).toRat / s.toRat| ≤ 256 := fun i hi' => by
      obtain ⟨g1, g2⟩ := hu i hi'
      rw [abs_le]; constructor <;> linarith
    refine roundtrip_on (G := G) (P := fun i y => Close s (elem ft.dtype x.data 0 i) y) hdt hq h' hzr (fun i hi' => ?_) (fun i hi' r hr => ?_)
    · obtain ⟨k1, k2⟩ := scaled_near (hG i hi') hsf h1 h2' (hub i hi')
      refine ⟨k1, ?_⟩
      have g := hub i hi'
      rw [abs_le] at k2 g ⊢
      constructor <;> norm_num at k2 ⊢ <;> linarith
    · obtain ⟨_, k2⟩ := scaled_near (hG i hi') hsf h1 h2' (hub i hi')
      apply close_of (hsatz r) hsf h1 h2
      exact rt_core hzr p1 hAB (hu i hi') k2 (nearInt_err hr)


/-- C120. In particular every element that counts: on every kernel set but SSE4.2 all of them. -/
theorem C120_counted_elements_roundtrip (h : PArgs ft x n blocks dt) (hn : 0 < n) (hf : ∀ t, SeenIn isa ft blocks t → (elem ft.dtype x.data 0 t).isFin = true)
    {lo hi : ℚ} (hl : IsLeast (seenValues isa ft x blocks) lo) (hg : IsGreatest (seenValues isa ft x blocks) hi) (h0 : lo ≤ 0 ∧ 0 ≤ hi)
    (he : computeQuantConfigFromData isa ft x blocks dt = .ret (s, z))
    (h1 : 1 / 2 ^ 126 ≤ s.toRat) (h2 : s.toRat ≤ 2 ^ 119) (hq : QArgs c.threads x ft.dtype dt n) (h' : Sizes n c'.threads) :
    Always OnlyUb (quantize c x ft.dtype o (bytes dt.bits n) dt s z .nearest τ) (span o (bytes dt.bits n)) m0 (fun m =>
      ∀ sz, bytes dt.bits n ≤ sz → Readable dt .f32 n sz →
        Always NoFault (dequantize c' ⟨sz, fun a => m (o + a)⟩ (bytes dt.bits n) dt o' (4 * n) .f32 s z .set) (span o' (4 * n)) m0' (fun m' =>
          ∀ i, SeenIn isa ft blocks i → Close s (elem ft.dtype x.data 0 i) (f32At m' (o' + 4 * i)))) :=
  (C120_in_range_roundtrip h hn hf hl hg h0 he h1 h2 hq h').mono (fun _ h => h) (fun _ hm sz hsz hrd =>
    (hm sz hsz hrd).mono (fun _ h => h) (fun _ hm' i hs => hm' i (seenIn_lt h.split hs) ⟨hf i hs, hl.2 ⟨i, hs, rfl⟩, hg.2 ⟨i, hs, rfl⟩⟩))

end

theorem wild_range : IsLeast (seenValues .sse42 .f32 wild [(0, 16)]) 0 ∧ IsGreatest (seenValues .sse42 .f32 wild [(0, 16)]) 2 := by
  have hv : ∀ t, t < 16 → t % 4 < 3 → 0 ≤ (elem .f32 wild.data 0 t).toRat ∧ (elem .f32 wild.data 0 t).toRat ≤ 2 := by decide +kernel
  refine ⟨⟨⟨0, ⟨(0, 16), by simp, by omega, by omega, fun _ => Or.inr (by decide)⟩, by decide +kernel⟩, ?_⟩,
    ⟨⟨2, ⟨(0, 16), by simp, by omega, by omega, fun _ => Or.inr (by decide)⟩, by decide +kernel⟩, ?_⟩⟩
  · rintro v ⟨t, ht, rfl⟩; exact (hv t (wild_seen ht).1 (wild_seen ht).2).1
  · rintro v ⟨t, ht, rfl⟩; exact (hv t (wild_seen ht).1 (wild_seen ht).2).2

/-- `C120_in_range_roundtrip` and `C120_counted_elements_roundtrip` applied to a concrete case: NaN, both infinities and 1000 in the fourth lane. -/
example := C120_in_range_roundtrip (isa := .sse42) (c := ⟨.sse42, 1, .none⟩) (c' := Ex.c2) (o := 1000) (o' := 3000) (m0 := Ex.old) (m0' := Ex.old) (τ := Ex.quarter)
  wild_args.1 (by omega) (fun t ht => wild_fin t (wild_seen ht).1 (wild_seen ht).2) wild_range.1 wild_range.2 (by norm_num) C119_false_noticed.1
  (by decide +kernel) (by decide +kernel) ⟨rfl, rfl, by decide +kernel, sz 16 1⟩ (sz 16 2)
example := C120_counted_elements_roundtrip (isa := .sse42) (c := ⟨.sse42, 1, .none⟩) (c' := Ex.c2) (o := 1000) (o' := 3000) (m0 := Ex.old) (m0' := Ex.old) (τ := Ex.quarter)
  wild_args.1 (by omega) (fun t ht => wild_fin t (wild_seen ht).1 (wild_seen ht).2) wild_range.1 wild_range.2 (by norm_num) C119_false_noticed.1
  (by decide +kernel) (by decide +kernel) ⟨rfl, rfl, by decide +kernel, sz 16 1⟩ (sz 16 2)

end Verif.Props
