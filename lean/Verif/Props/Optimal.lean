import Verif.Props.Examples
import Verif.Props.Fused

/-! # C60: nearest quantization picks a closest representable value -/

namespace Verif.Props
open Spec

/-- The scaled value is close to the exact quotient, relatively. -/
theorem scaled_rel {s x : F32} (hx : x.isFin = true) (hf : s.isFin = true) (h1 : 1 / 2 ^ 126 ≤ s.toRat) (h2 : s.toRat ≤ 2 ^ 126)
    (hu : |x.toRat / s.toRat| ≤ 2 ^ 29) :
    (scaled x s).isFin = true ∧ |(scaled x s).toRat - x.toRat / s.toRat| ≤ |x.toRat / s.toRat| / 2 ^ 22 + 1 / 2 ^ 150 := by
  have hs : 0 < s.toRat := lt_of_lt_of_le (by positivity) h1
  obtain ⟨g3, g4⟩ := invScale_bounds hf h1 h2
  set r := (invScale s).toRat with hr
  have e : (scaled x s).toRat = flr f32 (x.toRat * r) := by
    show (Flt.mul _ (invScale s)).toRat = _
    rw [mul_toRat hx g3]
  have hv : |r * s.toRat - 1| ≤ 1 / 2 ^ 24 := by
    have : r * s.toRat - 1 = (r - 1 / s.toRat) * s.toRat := by field_simp
    rw [this, abs_mul, abs_of_pos hs]
    calc _ ≤ (1 / s.toRat / 2 ^ 24) * s.toRat := mul_le_mul_of_nonneg_right g4 hs.le
      _ = _ := by field_simp
  have hdr : x.toRat * r = (x.toRat / s.toRat) * (r * s.toRat) := by field_simp
  set u := x.toRat / s.toRat
  set v := r * s.toRat
  have hu0 := abs_nonneg u
  have hdist : |x.toRat * r - u| ≤ |u| / 2 ^ 24 := by
    have : x.toRat * r - u = u * (v - 1) := by rw [hdr]; ring
    rw [this, abs_mul]
    calc _ ≤ |u| * (1 / 2 ^ 24) := mul_le_mul_of_nonneg_left hv hu0
      _ = _ := by ring
  have habs : |x.toRat * r| ≤ |u| * (1 + 1 / 2 ^ 24) := by
    have : |x.toRat * r| ≤ |x.toRat * r - u| + |u| := by have := abs_add_le (x.toRat * r - u) u; simpa using this
    have e : |u| * (1 + 1 / 2 ^ 24) = |u| / 2 ^ 24 + |u| := by ring
    linarith
  have hfl : fl f32 |x.toRat * r| < 2 ^ f32.emax := by
    apply fl_fin (abs_nonneg _)
    rw [emax_f32]
    refine habs.trans ?_
    calc _ ≤ (2:ℚ) ^ 29 * (1 + 1 / 2 ^ 24) := mul_le_mul_of_nonneg_right hu (by norm_num)
      _ ≤ _ := by norm_num
  refine ⟨isFin_of_abs (by rw [e, abs_flr]; exact hfl), ?_⟩
  rw [e]
  have h3 : |flr f32 (x.toRat * r) - x.toRat * r| ≤ 1 / 2 ^ 150 + |u| * (1 + 1 / 2 ^ 24) / 2 ^ 24 := by
    refine (flr_err hfl).trans (max_le ?_ ?_)
    · rw [unit_f32]
      have : 0 ≤ |u| * (1 + 1 / 2 ^ 24) / 2 ^ 24 := by positivity
      linarith
    · show |x.toRat * r| / 2 ^ 24 ≤ _
      have := div_le_div_of_nonneg_right habs (show (0:ℚ) ≤ 2 ^ 24 by positivity)
      have h0 : (0:ℚ) ≤ 1 / 2 ^ 150 := by positivity
      linarith
  have : |flr f32 (x.toRat * r) - u| ≤ |flr f32 (x.toRat * r) - x.toRat * r| + |x.toRat * r - u| := by
    have := abs_add_le (flr f32 (x.toRat * r) - x.toRat * r) (x.toRat * r - u); simpa using this
  have e2 : |u| * (1 + 1 / 2 ^ 24) / 2 ^ 24 + |u| / 2 ^ 24 ≤ |u| / 2 ^ 22 := by
    have : |u| * (1 + 1 / 2 ^ 24) / 2 ^ 24 + |u| / 2 ^ 24 = |u| * ((1 + 1 / 2 ^ 24) / 2 ^ 24 + 1 / 2 ^ 24) := by ring
    rw [this, div_eq_mul_one_div |u| (2 ^ 22)]
    exact mul_le_mul_of_nonneg_left (by norm_num) hu0
  linarith

/-- The saturated rounded value is at least as close to the target as any other code. -/
theorem sat_closest {b : Nat} {zp r k : ℤ} {u p ε : ℚ} (hz : 0 ≤ zp ∧ zp ≤ 2 ^ b - 1) (hb : (2:ℤ) ^ b - 1 ≤ 255) (hk : 0 ≤ k ∧ k ≤ 2 ^ b - 1)
    (hr : |(r:ℚ) - p| ≤ 1 / 2 + 1 / 2 ^ 25) (hp : |p - u| ≤ |u| / 2 ^ 22 + 1 / 2 ^ 150) (hε : 1 / 2 ^ 11 ≤ ε) :
    |((sat b (r + zp) - zp : ℤ) : ℚ) - u| ≤ |((k - zp : ℤ) : ℚ) - u| + ε := by
  have hQ : (2:ℚ) ^ b - 1 ≤ 255 := by exact_mod_cast hb
  have z0 : (0:ℚ) ≤ zp := by exact_mod_cast hz.1
  have z1 : (zp:ℚ) ≤ 2 ^ b - 1 := by exact_mod_cast hz.2
  have k0 : (0:ℚ) ≤ k := by exact_mod_cast hk.1
  have k1 : (k:ℚ) ≤ 2 ^ b - 1 := by exact_mod_cast hk.2
  have e150 : (1:ℚ) / 2 ^ 150 ≤ 1 / 2 ^ 25 := by norm_num
  have hs : sat b (r + zp) = 0 ∧ r + zp ≤ -1 ∨ sat b (r + zp) = r + zp ∨ sat b (r + zp) = 2 ^ b - 1 ∧ 2 ^ b ≤ r + zp := by
    unfold sat; omega
  rcases le_or_gt |u| 600 with hu | hu
  · have hp' : |p - u| ≤ 1 / 2 ^ 12 - 1 / 2 ^ 14 := by
      have : |u| / 2 ^ 22 ≤ 600 / 2 ^ 22 := div_le_div_of_nonneg_right hu (by positivity)
      norm_num at this e150 hp ⊢
      linarith
    rw [abs_le] at hr hp'
    rcases hs with ⟨e, h⟩ | e | ⟨e, h⟩
    · have h' : (r:ℚ) + zp ≤ -1 := by exact_mod_cast h
      rw [e]; push_cast
      have hneg : (0:ℚ) ≤ 0 - zp - u := by norm_num at hr hp'; linarith
      rw [abs_of_nonneg hneg, abs_of_nonneg (by linarith)]
      have : (0:ℚ) ≤ ε := le_trans (by norm_num) hε
      linarith
    · rw [e]
      rcases lt_trichotomy k (r + zp) with hlt | heq | hgt
      · have h' : (k:ℚ) + 1 ≤ r + zp := by exact_mod_cast hlt
        push_cast
        have h2 : (r:ℚ) + zp - zp - u ≤ 1 / 2 + 1 / 2 ^ 12 := by norm_num at hr hp' ⊢; linarith
        have h3 : -(1 / 2 + 1 / 2 ^ 12) ≤ (r:ℚ) + zp - zp - u := by norm_num at hr hp' ⊢; linarith
        have h4 : (1:ℚ) / 2 - 1 / 2 ^ 12 ≤ |(k:ℚ) - zp - u| := by
          refine le_trans ?_ (neg_le_abs _); linarith
        have h5 : |(r:ℚ) + zp - zp - u| ≤ 1 / 2 + 1 / 2 ^ 12 := abs_le.mpr ⟨h3, h2⟩
        norm_num at h4 h5 hε ⊢
        linarith
      · rw [heq]
        have : (0:ℚ) ≤ ε := le_trans (by norm_num) hε
        linarith
      · have h' : (r:ℚ) + zp + 1 ≤ k := by exact_mod_cast hgt
        push_cast
        have h2 : (r:ℚ) + zp - zp - u ≤ 1 / 2 + 1 / 2 ^ 12 := by norm_num at hr hp' ⊢; linarith
        have h3 : -(1 / 2 + 1 / 2 ^ 12) ≤ (r:ℚ) + zp - zp - u := by norm_num at hr hp' ⊢; linarith
        have h4 : (1:ℚ) / 2 - 1 / 2 ^ 12 ≤ |(k:ℚ) - zp - u| := by
          refine le_trans ?_ (le_abs_self _); linarith
        have h5 : |(r:ℚ) + zp - zp - u| ≤ 1 / 2 + 1 / 2 ^ 12 := abs_le.mpr ⟨h3, h2⟩
        norm_num at h4 h5 hε ⊢
        linarith
    · have h' : (2:ℚ) ^ b ≤ (r:ℚ) + zp := by exact_mod_cast h
      rw [e]; push_cast
      have hneg : (2:ℚ) ^ b - 1 - zp - u ≤ 0 := by norm_num at hr hp'; linarith
      rw [abs_of_nonpos hneg, abs_of_nonpos (by linarith)]
      have : (0:ℚ) ≤ ε := le_trans (by norm_num) hε
      linarith
  · have hε0 : (0:ℚ) ≤ ε := le_trans (by norm_num) hε
    have hp' : |p - u| ≤ |u| / 4 + 1 := by
      have : |u| / 2 ^ 22 ≤ |u| / 4 := div_le_div_of_nonneg_left (abs_nonneg _) (by norm_num) (by norm_num)
      have : (1:ℚ) / 2 ^ 150 ≤ 1 := by norm_num
      linarith
    have e25 : (1:ℚ) / 2 ^ 25 ≤ 1 / 2 := by norm_num
    rw [abs_le] at hr hp'
    rcases lt_or_ge u 0 with hn | hn
    · rw [abs_of_neg hn] at hp' hu
      have h1 : (r:ℚ) + zp < 0 := by linarith
      have h1 : r + zp < 0 := by exact_mod_cast h1
      have e : sat b (r + zp) = 0 := by unfold sat; omega
      rw [e]; push_cast
      rw [abs_of_nonneg (by linarith), abs_of_nonneg (by linarith)]
      linarith
    · rw [abs_of_nonneg hn] at hp' hu
      have h1 : ((2 ^ b - 1 : ℤ) : ℚ) < (r:ℚ) + zp := by push_cast; linarith
      have h1 : 2 ^ b - 1 < r + zp := by exact_mod_cast h1
      have e : sat b (r + zp) = 2 ^ b - 1 := by unfold sat; omega
      rw [e]; push_cast
      rw [abs_of_nonpos (by linarith), abs_of_nonpos (by linarith)]
      linarith

variable {ft : FT} {x : InBuf} {n : Nat} {dt : DType} {c c' : Ctx} {o o' : Nat} {m0 m0' : Mem} {s τ : F32} {z : ℤ}

/-- `y` is finite and, up to `2^-10` of a step, no code has a value closer to `x`. -/
def Closest (bits : Nat) (s : F32) (z : ℤ) (x y : F32) : Prop :=
  y.isFin = true ∧ ∀ k, k < 2 ^ bits → |y.toRat - x.toRat| ≤ |(dequant s z k).toRat - x.toRat| + s.toRat / 2 ^ 10

theorem closest_of {r : ℤ} {v : F32} (hdt : dt.isQuant = true) (hv : v.isFin = true) (hz : 0 ≤ z ∧ z ≤ 2 ^ dt.bits - 1) (h1 : 1 / 2 ^ 126 ≤ s.toRat)
    (h2 : s.toRat ≤ 2 ^ 119) (hsf : s.isFin = true) (hu : |v.toRat / s.toRat| ≤ 2 ^ 29) (hr : |(r:ℚ) - (scaled v s).toRat| ≤ 1 / 2 + 1 / 2 ^ 25) :
    Closest dt.bits s z v (Flt.mul (Flt.ofInt f32 (sat dt.bits (r + z) - z)) s) := by
  have hs : 0 < s.toRat := lt_of_lt_of_le (by positivity) h1
  have hQ := qmax_bounds hdt
  have hk : |sat dt.bits (r + z) - z| ≤ 255 := by
    rw [abs_le]; unfold sat; omega
  obtain ⟨g1, g2⟩ := dequant_near hk hsf h1 h2
  refine ⟨g1, fun k hk' => ?_⟩
  have hkz : (k:ℤ) ≤ 2 ^ dt.bits - 1 := by
    have : ((k:ℕ):ℤ) < ((2 ^ dt.bits : ℕ) : ℤ) := by exact_mod_cast hk'
    push_cast at this; omega
  have hk2 : |(k:ℤ) - z| ≤ 255 := by rw [abs_le]; omega
  obtain ⟨_, g3⟩ := dequant_near hk2 hsf h1 h2
  have hsr := (scaled_rel hv hsf h1 (h2.trans (by norm_num)) hu).2
  have hmain := sat_closest (k := k) (ε := 1 / 2 ^ 11) hz hQ.2 ⟨by omega, hkz⟩ hr hsr le_rfl
  generalize sat dt.bits (r + z) - z = a at *
  have conv : ∀ w : ℚ, |w * s.toRat - v.toRat| = |w - v.toRat / s.toRat| * s.toRat := by
    intro w
    have : w * s.toRat - v.toRat = (w - v.toRat / s.toRat) * s.toRat := by field_simp
    rw [this, abs_mul, abs_of_pos hs]
  have m2 : |(a:ℚ) * s.toRat - v.toRat| ≤ |((k - z : ℤ) : ℚ) * s.toRat - v.toRat| + 1 / 2 ^ 11 * s.toRat := by
    rw [conv, conv, ← add_mul]
    exact mul_le_mul_of_nonneg_right hmain hs.le
  unfold dequant
  have t1 := abs_sub_le (Flt.mul (Flt.ofInt f32 a) s).toRat ((a:ℚ) * s.toRat) v.toRat
  have t2 := abs_sub_le (((k - z : ℤ) : ℚ) * s.toRat) (Flt.mul (Flt.ofInt f32 (k - z)) s).toRat v.toRat
  rw [abs_sub_comm (((k - z : ℤ) : ℚ) * s.toRat) (Flt.mul (Flt.ofInt f32 (k - z)) s).toRat] at t2
  have e1 : 255 * s.toRat / 2 ^ 24 ≤ s.toRat / 2 ^ 16 := by
    rw [div_le_div_iff₀ (by positivity) (by positivity)]; norm_num; linarith
  generalize |(Flt.mul (Flt.ofInt f32 a) s).toRat - v.toRat| = X1 at *
  generalize |(Flt.mul (Flt.ofInt f32 (k - z)) s).toRat - v.toRat| = X2 at *
  norm_num at *
  linarith

/-- C60. Nearest rounding followed by dequantization returns, for every element (in or out of the
representable range), a value as close to it as the value of any code, up to `2^-10` of a step. -/
theorem C60_nearest_is_closest (hdt : dt.isQuant = true) (hq : QArgs c.threads x ft.dtype dt n) (h' : Sizes n c'.threads) (hf : AllFin ft x n)
    (hz : 0 ≤ z ∧ z ≤ 2 ^ dt.bits - 1) (h1 : 1 / 2 ^ 126 ≤ s.toRat) (h2 : s.toRat ≤ 2 ^ 119)
    (hx : ∀ i, i < n → |(elem ft.dtype x.data 0 i).toRat| ≤ 2 ^ 29 * s.toRat) :
    Always NoFault (quantize c x ft.dtype o (bytes dt.bits n) dt s z .nearest τ) (span o (bytes dt.bits n)) m0 (fun m =>
      ∀ sz, bytes dt.bits n ≤ sz → Readable dt .f32 n sz →
        Always NoFault (dequantize c' ⟨sz, fun a => m (o + a)⟩ (bytes dt.bits n) dt o' (4 * n) .f32 s z .set) (span o' (4 * n)) m0' (fun m' =>
          ∀ i, i < n → Closest dt.bits s z (elem ft.dtype x.data 0 i) (f32At m' (o' + 4 * i)))) := by
  have hspos : 0 < s.toRat := lt_of_lt_of_le (by positivity) h1
  have hsf : s.isFin = true := isFin_of_abs (by
    rw [abs_of_pos hspos, emax_f32]; exact lt_of_le_of_lt h2 (by norm_num))
  have hu : ∀ i, i < n → |(elem ft.dtype x.data 0 i).toRat / s.toRat| ≤ 2 ^ 29 := fun i hi => by
    rw [abs_div, abs_of_pos hspos, div_le_iff₀ hspos]; exact hx i hi
  refine roundtrip_codes (P := fun i y => Closest dt.bits s z (elem ft.dtype x.data 0 i) y) hdt hq h' hz (fun i hi' => ?_) (fun i hi' r hr => ?_)
  · obtain ⟨k1, k2⟩ := scaled_rel (hf i hi') hsf h1 (h2.trans (by norm_num)) (hu i hi')
    refine ⟨k1, ?_⟩
    have g := hu i hi'
    have k3 : |(elem ft.dtype x.data 0 i).toRat / s.toRat| / 2 ^ 22 ≤ 2 ^ 29 / 2 ^ 22 := div_le_div_of_nonneg_right g (by positivity)
    have e : (1:ℚ) / 2 ^ 150 ≤ 1 := by norm_num
    rw [abs_le] at k2 g ⊢
    constructor <;> norm_num at k2 k3 e g ⊢ <;> linarith
  · exact closest_of hdt (hf i hi') hz h1 h2 hsf (hu i hi') (nearInt_err hr)

/-- `C60_nearest_is_closest` applied to a concrete case. -/
example := C60_nearest_is_closest (ft := .f32) (x := Ex.many) (n := 70) (dt := .uint8) (c := Ex.c1) (c' := Ex.c2) (o := 1000) (o' := 3000)
    (m0 := Ex.old) (m0' := Ex.old) (s := Ex.tenth) (τ := Ex.quarter) (z := 64) (hdt := by wit) (hq := by wit) (h' := by wit) (hf := by wit)
    (hz := by wit) (h1 := by wit) (h2 := by wit) (hx := by wit)

/-- 1, -2.5, 0.3, 7.75, 100 with uint4, scale 0.5 and zero point 4 (representable range `[-2, 5.5]`):
two elements below or above the range. -/
example : QArgs 3 Ex.xs .f32 .uint4 5 ∧ AllFin .f32 Ex.xs 5 ∧ 1 / 2 ^ 126 ≤ Ex.half.toRat ∧ Ex.half.toRat ≤ 2 ^ 119 ∧
    ∀ i, i < 5 → |(elem .f32 Ex.xs.data 0 i).toRat| ≤ 2 ^ 29 * Ex.half.toRat := by
  refine ⟨⟨rfl, rfl, rfl, by omega, by norm_num, by norm_num⟩, ?_, by decide +kernel, by decide +kernel, by decide +kernel⟩
  unfold AllFin; decide +kernel

end Verif.Props
