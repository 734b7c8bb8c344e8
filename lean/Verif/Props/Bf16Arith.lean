import Verif.Proofs.DoubleRound
import Verif.Proofs.DequantMain
import Verif.Props.Bf16
import Verif.Model.Typed

/-!
# The arithmetic of `bfp16_t`: C65, C66
-/

namespace Verif.Props
open Spec Simd

/-- The bfloat16 word `w` is the exact value `v` correctly rounded: infinite exactly from the overflow threshold
`2^128 - 2^119` on, otherwise a nearest bfloat16 value, ties going to the even last bit; the sign is that of `v`. -/
structure Rounded (v : ℚ) (w : Nat) : Prop where
  word : w < 65536
  num : (Flt.ofBits bf16 w).isNaN = false
  sign : (v < 0 → (Flt.ofBits bf16 w).neg = true) ∧ (0 < v → (Flt.ofBits bf16 w).neg = false)
  fin : (Flt.ofBits bf16 w).isFin = true ↔ |v| < 2 ^ 128 - 2 ^ 119
  nearest : (Flt.ofBits bf16 w).isFin = true → ∀ z : Flt bf16, z.isFin = true → |(Flt.ofBits bf16 w).toRat - v| ≤ |z.toRat - v|
  even : (Flt.ofBits bf16 w).isFin = true → ∀ z : Flt bf16, z.isFin = true → z.toRat ≠ (Flt.ofBits bf16 w).toRat →
    |z.toRat - v| = |(Flt.ofBits bf16 w).toRat - v| → w % 2 = 0

theorem rounded_roundAbs {a v : ℚ} {s : Bool} (h0 : 0 ≤ a) (hv : v = if s then -a else a) :
    Rounded v (⟨s, Flt.roundAbs bf16 a⟩ : Flt bf16).toBits := by
  have hmag : Flt.roundAbs bf16 a ≤ 32640 := by
    unfold Flt.roundAbs; rw [infMag_bf16]; exact min_le_left _ _
  have hy : Flt.ofBits bf16 (⟨s, Flt.roundAbs bf16 a⟩ : Flt bf16).toBits = ⟨s, Flt.roundAbs bf16 a⟩ :=
    ofBits_toBits_bf16 (by simp only; omega)
  have hbits : (⟨s, Flt.roundAbs bf16 a⟩ : Flt bf16).toBits = (if s then 32768 else 0) + Flt.roundAbs bf16 a := by
    unfold Flt.toBits; rw [magLim_bf16]
  have hq0 : 0 ≤ a * 2 ^ 133 := mul_nonneg h0 (by positivity)
  have habs : |v| = a := by rw [hv]; split <;> simp [abs_of_nonneg h0]
  have hfin : (Flt.ofBits bf16 (⟨s, Flt.roundAbs bf16 a⟩ : Flt bf16).toBits).isFin = true ↔ roundMag 7 (a * 2 ^ 133) < 32640 := by
    rw [hy]; unfold Flt.isFin Flt.roundAbs
    rw [infMag_bf16, unit_bf16, decide_eq_true_eq]
    simp only
    rw [show bf16.mb = 7 from rfl]
    omega
  have key : (Flt.ofBits bf16 (⟨s, Flt.roundAbs bf16 a⟩ : Flt bf16).toBits).isFin = true → ∀ z : Flt bf16, z.isFin = true →
      |(Flt.ofBits bf16 (⟨s, Flt.roundAbs bf16 a⟩ : Flt bf16).toBits).toRat - v| ≤ |z.toRat - v| ∧
      (z.toRat ≠ (Flt.ofBits bf16 (⟨s, Flt.roundAbs bf16 a⟩ : Flt bf16).toBits).toRat →
        |z.toRat - v| = |(Flt.ofBits bf16 (⟨s, Flt.roundAbs bf16 a⟩ : Flt bf16).toBits).toRat - v| → (⟨s, Flt.roundAbs bf16 a⟩ : Flt bf16).toBits % 2 = 0) := by
    intro hyf z hz
    have hr := hfin.1 hyf
    have hra : Flt.roundAbs bf16 a = roundMag 7 (a * 2 ^ 133) := by
      unfold Flt.roundAbs; rw [infMag_bf16, unit_bf16, show bf16.mb = 7 from rfl]; omega
    have hya : (⟨s, Flt.roundAbs bf16 a⟩ : Flt bf16).absRat = (magVal 7 (roundMag 7 (a * 2 ^ 133)) : ℚ) / 2 ^ 133 := by
      rw [hra]; rfl
    have hza : z.absRat = (magVal 7 z.mag : ℚ) / 2 ^ 133 := by
      unfold Flt.absRat; rw [unit_bf16, show bf16.mb = 7 from rfl]
    have hdist : |(⟨s, Flt.roundAbs bf16 a⟩ : Flt bf16).toRat - v| = |(⟨s, Flt.roundAbs bf16 a⟩ : Flt bf16).absRat - a| := by
      unfold Flt.toRat
      simp only
      rw [hv]
      cases s
      · simp
      · simp only [if_true]; rw [← abs_neg]; congr 1; ring
    have scale : ∀ b : ℚ, |b / 2 ^ 133 - a| = |b - a * 2 ^ 133| / 2 ^ 133 := by
      intro b
      rw [← abs_of_pos (show (0:ℚ) < 2 ^ 133 by positivity), ← abs_div, abs_of_pos (show (0:ℚ) < 2 ^ 133 by positivity)]
      congr 1; field_simp
    have hnear : |(⟨s, Flt.roundAbs bf16 a⟩ : Flt bf16).absRat - a| ≤ |z.absRat - a| := by
      rw [hya, hza, scale, scale]
      exact div_le_div_of_nonneg_right (roundMag_nearest 7 hq0 z.mag) (by positivity)
    have hzabs : |z.toRat| = z.absRat := by
      unfold Flt.toRat; split <;> simp [abs_of_nonneg (absRat_nonneg z)]
    have hrev : |z.absRat - a| ≤ |z.toRat - v| := by
      rw [← hzabs, ← habs]; exact abs_abs_sub_abs_le_abs_sub _ _
    rw [hy, hdist]
    refine ⟨hnear.trans hrev, fun hne heq => ?_⟩
    have heq2 : |z.absRat - a| = |(⟨s, Flt.roundAbs bf16 a⟩ : Flt bf16).absRat - a| := by
      apply le_antisymm _ hnear
      rw [← heq]; exact hrev
    have hodd : (⟨s, Flt.roundAbs bf16 a⟩ : Flt bf16).toBits % 2 = roundMag 7 (a * 2 ^ 133) % 2 := by
      rw [hbits, hra]; split <;> omega
    rw [hodd]
    by_cases hmz : z.mag = roundMag 7 (a * 2 ^ 133)
    · have ha : z.absRat = (⟨s, Flt.roundAbs bf16 a⟩ : Flt bf16).absRat := by rw [hza, hya, hmz]
      by_cases hv0 : a = 0
      · rw [hv0, zero_mul]
        have : roundMag 7 (0:ℚ) = 0 := by
          have := roundMag_magVal 7 0
          rwa [magVal_zero, Nat.cast_zero] at this
        rw [this]
      · exfalso
        have hpos : 0 < a := lt_of_le_of_ne h0 (Ne.symm hv0)
        have hsg : z.neg ≠ s := by
          intro h; apply hne
          unfold Flt.toRat; simp only; rw [h, ha]
        have hzp : 0 < z.absRat := by
          rcases lt_or_eq_of_le (absRat_nonneg z) with h | h
          · exact h
          · exfalso; apply hne
            unfold Flt.toRat
            simp only
            rw [← ha, ← h]; simp
        have hsum : |z.toRat - v| = z.absRat + a := by
          unfold Flt.toRat
          rw [hv]
          cases hz1 : z.neg <;> cases hv1 : s
          · exact absurd (hz1.trans hv1.symm) hsg
          · simp only [Bool.false_eq_true, if_false, if_true]; rw [abs_of_nonneg (by linarith)]; ring
          · simp only [Bool.false_eq_true, if_false, if_true]; rw [abs_of_nonpos (by linarith)]; ring
          · exact absurd (hz1.trans hv1.symm) hsg
        rw [hsum, ← ha] at heq
        rcases abs_cases (z.absRat - a) with ⟨h, _⟩ | ⟨h, _⟩ <;> rw [h] at heq <;> linarith
    · refine roundMag_tie_even (by norm_num) hq0 hmz ?_
      rw [hya, hza, scale, scale] at heq2
      have hp : (0:ℚ) < 2 ^ 133 := by positivity
      rwa [div_left_inj' hp.ne'] at heq2
  refine ⟨by rw [hbits]; split <;> omega, ?_, ?_, ?_, fun h z hz => (key h z hz).1, fun h z hz => (key h z hz).2⟩
  · rw [hy]; unfold Flt.isNaN; rw [infMag_bf16]; simp; omega
  · rw [hy, hv]; cases s
    · exact ⟨fun h => by simp at h; linarith, fun _ => rfl⟩
    · exact ⟨fun _ => rfl, fun h => by simp at h; linarith⟩
  · rw [hfin, habs, ← not_le, bf16_overflow_iff hq0, not_le]
    have p1 : (511:ℚ) * 2 ^ 252 = (2 ^ 128 - 2 ^ 119) * 2 ^ 133 := by norm_num
    rw [p1]
    exact mul_lt_mul_iff_left₀ (by positivity)

/-! ## Widening -/

theorem magVal_widen (c : Nat) : magVal 23 (65536 * c) = 65536 * magVal 7 c := by
  obtain ⟨k, m, hb, hk, hm, hv⟩ := mag_decomp 7 c
  have e : 65536 * c = k * 2 ^ 23 + 65536 * m := by rw [hb]; ring
  rw [e, magVal_enc (hk.imp id fun h => by norm_num at h ⊢; omega) (by norm_num at hm ⊢; omega), hv]; ring

/-- The `float` a bfloat16 converts to has its sign, class and value. -/
theorem widen {w : Nat} (hw : w < 65536) : (bf16ToF32 w).neg = (Flt.ofBits bf16 w).neg ∧ (bf16ToF32 w).mag = 65536 * (Flt.ofBits bf16 w).mag ∧
    (bf16ToF32 w).isNaN = (Flt.ofBits bf16 w).isNaN ∧ (bf16ToF32 w).isInf = (Flt.ofBits bf16 w).isInf ∧ (bf16ToF32 w).isZero = (Flt.ofBits bf16 w).isZero ∧
    (bf16ToF32 w).absRat = (Flt.ofBits bf16 w).absRat ∧ (bf16ToF32 w).toRat = (Flt.ofBits bf16 w).toRat := by
  have hn : (bf16ToF32 w).neg = (Flt.ofBits bf16 w).neg := by
    unfold bf16ToF32 Flt.ofBits; rw [magLim_f32, magLim_bf16]; simp only [decide_eq_decide]; omega
  have hm : (bf16ToF32 w).mag = 65536 * (Flt.ofBits bf16 w).mag := by
    unfold bf16ToF32 Flt.ofBits; rw [magLim_f32, magLim_bf16]; simp only; omega
  have ha : (bf16ToF32 w).absRat = (Flt.ofBits bf16 w).absRat := by
    unfold Flt.absRat
    rw [hm, show f32.mb = 23 from rfl, show bf16.mb = 7 from rfl, magVal_widen, unit_f32, unit_bf16]
    push_cast
    rw [show (149:ℕ) = 16 + 133 from rfl, pow_add]
    field_simp
    norm_num
    ring
  refine ⟨hn, hm, ?_, ?_, ?_, ha, ?_⟩
  · unfold Flt.isNaN; rw [hm, infMag_f32, infMag_bf16]; simp only [decide_eq_decide]; omega
  · unfold Flt.isInf; rw [hm, infMag_f32, infMag_bf16]; simp only [decide_eq_decide]; omega
  · unfold Flt.isZero; rw [hm]; simp only [decide_eq_decide]; omega
  · unfold Flt.toRat; rw [hn, ha]

theorem decomp_bf16 (x : Flt bf16) : ∃ k m : Nat, m < 256 ∧ (x.isZero = false → 0 < m) ∧ x.absRat = m * 2 ^ k / 2 ^ 133 := by
  obtain ⟨k, m, hb, hk, hm, hv⟩ := mag_decomp 7 x.mag
  refine ⟨k, m, by norm_num at hm; exact hm, ?_, ?_⟩
  · intro hz
    have : x.mag ≠ 0 := by simpa [Flt.isZero] using hz
    by_contra hm0
    have hm0 : m = 0 := by omega
    rcases hk with h | h
    · subst h; subst hm0; simp at hb; exact this hb
    · norm_num at h; omega
  · unfold Flt.absRat; rw [show bf16.mb = 7 from rfl, unit_bf16, hv]; push_cast; rfl

theorem f32ToBf16_nanVal : f32ToBf16 Flt.nan = (Flt.nan : Flt bf16).toBits := by decide
theorem f32ToBf16_infVal (s : Bool) : f32ToBf16 (Flt.inf s) = (Flt.inf s : Flt bf16).toBits := by cases s <;> decide
theorem f32ToBf16_zeroVal (s : Bool) : f32ToBf16 ⟨s, 0⟩ = (⟨s, 0⟩ : Flt bf16).toBits := by cases s <;> decide

theorem f32ToBf16_round {s : Bool} {q : ℚ} (h0 : 0 ≤ q) (h : NoTrap (q * 2 ^ 149)) :
    f32ToBf16 ⟨s, Flt.roundAbs f32 q⟩ = (⟨s, Flt.roundAbs bf16 q⟩ : Flt bf16).toBits := by
  have hle : Flt.roundAbs f32 q ≤ f32.infMag := by unfold Flt.roundAbs; exact Nat.min_le_left _ _
  have hn : (⟨s, Flt.roundAbs f32 q⟩ : F32).isNaN = false := by unfold Flt.isNaN; simp only [decide_eq_false_iff_not]; omega
  rw [f32ToBf16_cvt (valid_of_le hle) hn]
  congr 1
  have hd := roundAbs_double h0 h s
  unfold Flt.cvt
  rw [if_neg (by rw [hn]; exact Bool.false_ne_true)]
  split
  · rename_i hi
    have hm : Flt.roundAbs f32 q = f32.infMag := by simpa [Flt.isInf] using hi
    rw [← hd, hm]
    unfold Flt.inf
    cases s <;> decide +kernel
  · rw [hd]

/-! ## C65 -/

theorem mul_ieee {a b : Nat} (ha : a < 65536) (hb : b < 65536) : bf16Mul a b = (Flt.mul (Flt.ofBits bf16 a) (Flt.ofBits bf16 b)).toBits := by
  obtain ⟨a1, -, a2, a3, a4, a5, -⟩ := widen ha
  obtain ⟨b1, -, b2, b3, b4, b5, -⟩ := widen hb
  unfold bf16Mul Flt.mul
  rw [a1, a2, a3, a4, a5, b1, b2, b3, b4, b5]
  split
  · exact f32ToBf16_nanVal
  · rename_i hn
    split
    · split
      · exact f32ToBf16_nanVal
      · exact f32ToBf16_infVal _
    · rename_i hi
      simp only [Bool.or_eq_true, not_or, Bool.not_eq_true] at hn hi
      obtain ⟨i, m, hm, -, ea⟩ := decomp_bf16 _
      obtain ⟨j, n, hn', -, eb⟩ := decomp_bf16 _
      refine f32ToBf16_round (mul_nonneg (absRat_nonneg _) (absRat_nonneg _)) ?_
      have e : (Flt.ofBits bf16 a).absRat * (Flt.ofBits bf16 b).absRat * 2 ^ 149 = ((m * n : ℕ) : ℚ) * 2 ^ (i + j) / 2 ^ 117 := by
        rw [ea, eb, pow_add, show (2:ℚ) ^ 149 = 2 ^ 133 * 2 ^ 133 / 2 ^ 117 by norm_num]
        push_cast
        have : (2:ℚ) ^ 133 ≠ 0 := by positivity
        generalize (2:ℚ) ^ 133 = P at *
        field_simp
      rw [e]
      exact noTrap_mul (by nlinarith)

theorem div_ieee {a b : Nat} (ha : a < 65536) (hb : b < 65536) : bf16Div a b = (Flt.div (Flt.ofBits bf16 a) (Flt.ofBits bf16 b)).toBits := by
  obtain ⟨a1, -, a2, a3, a4, a5, -⟩ := widen ha
  obtain ⟨b1, -, b2, b3, b4, b5, -⟩ := widen hb
  unfold bf16Div Flt.div
  rw [a1, a2, a3, a4, a5, b1, b2, b3, b4, b5]
  split
  · exact f32ToBf16_nanVal
  · rename_i hn
    split
    · split
      · exact f32ToBf16_nanVal
      · exact f32ToBf16_infVal _
    · rename_i hi
      split
      · exact f32ToBf16_zeroVal _
      · rename_i hi'
        split
        · split
          · exact f32ToBf16_nanVal
          · exact f32ToBf16_infVal _
        · rename_i hz
          simp only [Bool.or_eq_true, not_or, Bool.not_eq_true] at hn hi hi' hz
          obtain ⟨i, m, hm, -, ea⟩ := decomp_bf16 _
          obtain ⟨j, n, hn', hpos, eb⟩ := decomp_bf16 _
          have hpos := hpos hz
          refine f32ToBf16_round (div_nonneg (absRat_nonneg _) (absRat_nonneg _)) (noTrap_div (ma := m) (mb := n) (D := j) (E := i + 149) hpos hm hn' ?_)
          rw [ea, eb, pow_add 2 i 149]
          have : (2:ℚ) ^ 133 ≠ 0 := by positivity
          have : (n:ℚ) ≠ 0 := by exact_mod_cast hpos.ne'
          generalize (2:ℚ) ^ 133 = P at *
          generalize (2:ℚ) ^ 149 = R at *
          field_simp

theorem signed_decomp (x : Flt bf16) : ∃ (k : Nat) (s : ℤ), |s| < 256 ∧ x.toRat = s * 2 ^ k / 2 ^ 133 := by
  obtain ⟨k, m, hm, -, e⟩ := decomp_bf16 x
  refine ⟨k, if x.neg then -(m:ℤ) else m, ?_, ?_⟩
  · split <;> simp <;> omega
  · unfold Flt.toRat; rw [e]; split
    · push_cast; ring
    · push_cast; ring

theorem add_ieee' {A B : F32} {x y : Flt bf16} (ha : A.neg = x.neg ∧ A.isNaN = x.isNaN ∧ A.isInf = x.isInf ∧ A.toRat = x.toRat)
    (hb : B.neg = y.neg ∧ B.isNaN = y.isNaN ∧ B.isInf = y.isInf ∧ B.toRat = y.toRat) : f32ToBf16 (Flt.add A B) = (Flt.add x y).toBits := by
  have inf_eq : ∀ {f : Fmt} {z : Flt f}, z.isInf = true → z = Flt.inf z.neg := by
    intro f z hz
    have : z.mag = f.infMag := by simpa [Flt.isInf] using hz
    obtain ⟨s, m⟩ := z
    simp only at this; subst this; rfl
  unfold Flt.add
  rw [ha.2.1, hb.2.1, ha.2.2.1, hb.2.2.1, ha.1, hb.1, ha.2.2.2, hb.2.2.2]
  split
  · exact f32ToBf16_nanVal
  · rename_i hn
    split
    · rename_i hi
      split
      · exact f32ToBf16_nanVal
      · rw [inf_eq (ha.2.2.1.trans hi), inf_eq hi, ha.1]; exact f32ToBf16_infVal _
    · rename_i hi
      split
      · rename_i hi'
        rw [inf_eq (hb.2.2.1.trans hi'), inf_eq hi', hb.1]; exact f32ToBf16_infVal _
      · rename_i hi'
        simp only [Bool.or_eq_true, not_or, Bool.not_eq_true] at hn hi hi'
        obtain ⟨i, m, hm, ea⟩ := signed_decomp x
        obtain ⟨j, n, hn', eb⟩ := signed_decomp y
        unfold Flt.ofRat
        split
        · exact f32ToBf16_zeroVal _
        · refine f32ToBf16_round (abs_nonneg _) ?_
          have e : |x.toRat + y.toRat| * 2 ^ 149 = |(m:ℚ) * 2 ^ (16 + i) + n * 2 ^ (16 + j)| := by
            rw [← abs_of_pos (show (0:ℚ) < 2 ^ 149 by positivity), ← abs_mul]
            congr 1
            rw [ea, eb, pow_add 2 16 i, pow_add 2 16 j, show (2:ℚ) ^ 149 = 2 ^ 16 * 2 ^ 133 by norm_num]
            have : (2:ℚ) ^ 133 ≠ 0 := by positivity
            generalize (2:ℚ) ^ 133 = P at *
            field_simp
          rw [e]
          exact noTrap_add hm hn'

theorem add_ieee {a b : Nat} (ha : a < 65536) (hb : b < 65536) : bf16Add a b = (Flt.add (Flt.ofBits bf16 a) (Flt.ofBits bf16 b)).toBits := by
  obtain ⟨a1, -, a2, a3, a4, a5, a6⟩ := widen ha
  obtain ⟨b1, -, b2, b3, b4, b5, b6⟩ := widen hb
  exact add_ieee' ⟨a1, a2, a3, a6⟩ ⟨b1, b2, b3, b6⟩

theorem sub_ieee {a b : Nat} (ha : a < 65536) (hb : b < 65536) : bf16Sub a b = (Flt.sub (Flt.ofBits bf16 a) (Flt.ofBits bf16 b)).toBits := by
  obtain ⟨a1, -, a2, a3, a4, a5, a6⟩ := widen ha
  obtain ⟨b1, -, b2, b3, b4, b5, b6⟩ := widen hb
  refine add_ieee' ⟨a1, a2, a3, a6⟩ ⟨?_, ?_, ?_, ?_⟩
  · show (!_) = (!_); rw [b1]
  · exact b2
  · exact b3
  · unfold Flt.toRat Flt.negate Flt.absRat at *; simp only at *; rw [b1, b5]

/-- C65. Each of the four operators of `bfp16_t`, which compute in `float` and round twice, gives for every pair of
bfloat16 words - infinities, NaNs, zeros of either sign and denormals included - the word of the IEEE bfloat16 operation,
which rounds once. -/
theorem C65_bf16_arithmetic_is_ieee {a b : Nat} (ha : a < 65536) (hb : b < 65536) :
    Flt.ofBits bf16 (bf16Add a b) = Flt.add (Flt.ofBits bf16 a) (Flt.ofBits bf16 b) ∧
    Flt.ofBits bf16 (bf16Sub a b) = Flt.sub (Flt.ofBits bf16 a) (Flt.ofBits bf16 b) ∧
    Flt.ofBits bf16 (bf16Mul a b) = Flt.mul (Flt.ofBits bf16 a) (Flt.ofBits bf16 b) ∧
    Flt.ofBits bf16 (bf16Div a b) = Flt.div (Flt.ofBits bf16 a) (Flt.ofBits bf16 b) := by
  have hra : ∀ q, Flt.roundAbs bf16 q < 32768 := fun q => by
    have : Flt.roundAbs bf16 q ≤ 32640 := by unfold Flt.roundAbs; rw [infMag_bf16]; exact min_le_left _ _
    omega
  have hnan : (Flt.nan : Flt bf16).mag < 32768 := by decide
  have hinf : ∀ s, (Flt.inf s : Flt bf16).mag < 32768 := fun s => by show bf16.infMag < 32768; rw [infMag_bf16]; norm_num
  have hadd : ∀ x y : Flt bf16, x.mag < 32768 → y.mag < 32768 → (Flt.add x y).mag < 32768 := by
    intro x y hx hy
    unfold Flt.add
    split
    · exact hnan
    · split
      · split
        · exact hnan
        · exact hx
      · split
        · exact hy
        · unfold Flt.ofRat; split
          · show 0 < 32768; norm_num
          · exact hra _
  have hbits : ∀ w, (Flt.ofBits bf16 w).mag < 32768 := fun w => by show w % bf16.magLim < 32768; rw [magLim_bf16]; omega
  rw [add_ieee ha hb, sub_ieee ha hb, mul_ieee ha hb, div_ieee ha hb]
  refine ⟨ofBits_toBits_bf16 (hadd _ _ (hbits _) (hbits _)), ofBits_toBits_bf16 (hadd _ _ (hbits _) (hbits b)), ofBits_toBits_bf16 ?_, ofBits_toBits_bf16 ?_⟩
  · unfold Flt.mul
    split
    · exact hnan
    · split
      · split
        · exact hnan
        · exact hinf _
      · exact hra _
  · unfold Flt.div
    split
    · exact hnan
    · split
      · split
        · exact hnan
        · exact hinf _
      · split
        · show 0 < 32768; norm_num
        · split
          · split
            · exact hnan
            · exact hinf _
          · exact hra _

/-- `C65_bf16_arithmetic_is_ieee` applied to a concrete case. -/
example := C65_bf16_arithmetic_is_ieee (a := 0x3dcd) (b := 0xc0c8) (ha := by wit) (hb := by wit)

theorem fin_not {x : Flt bf16} (h : x.isFin = true) : x.isNaN = false ∧ x.isInf = false := by
  have : x.mag < bf16.infMag := by simpa [Flt.isFin] using h
  unfold Flt.isNaN Flt.isInf
  simp only [decide_eq_false_iff_not]
  omega

/-- C65. In plain terms: for finite operands the result word is the exact real sum, difference, product or quotient
(by a non-zero divisor), rounded once to the nearest bfloat16, ties to even. -/
theorem C65_bf16_correctly_rounded {a b : Nat} (ha : a < 65536) (hb : b < 65536)
    (hfa : (Flt.ofBits bf16 a).isFin = true) (hfb : (Flt.ofBits bf16 b).isFin = true) :
    Rounded ((Flt.ofBits bf16 a).toRat + (Flt.ofBits bf16 b).toRat) (bf16Add a b) ∧
    Rounded ((Flt.ofBits bf16 a).toRat - (Flt.ofBits bf16 b).toRat) (bf16Sub a b) ∧
    Rounded ((Flt.ofBits bf16 a).toRat * (Flt.ofBits bf16 b).toRat) (bf16Mul a b) ∧
    ((Flt.ofBits bf16 b).toRat ≠ 0 → Rounded ((Flt.ofBits bf16 a).toRat / (Flt.ofBits bf16 b).toRat) (bf16Div a b)) := by
  obtain ⟨na, ia⟩ := fin_not hfa
  obtain ⟨nb, ib⟩ := fin_not hfb
  have hadd : ∀ x y : Flt bf16, x.isNaN = false → x.isInf = false → y.isNaN = false → y.isInf = false → Rounded (x.toRat + y.toRat) (Flt.add x y).toBits := by
    intro x y h1 h2 h3 h4
    unfold Flt.add
    simp only [h1, h2, h3, h4, Bool.or_self, Bool.false_eq_true, if_false]
    unfold Flt.ofRat
    split
    · rename_i h0
      rw [h0]
      have := rounded_roundAbs (a := 0) (v := 0) (s := x.neg && y.neg) le_rfl (by split <;> simp)
      rwa [show Flt.roundAbs bf16 0 = 0 by decide +kernel] at this
    · refine rounded_roundAbs (abs_nonneg _) ?_
      rcases lt_or_ge (x.toRat + y.toRat) 0 with h | h
      · rw [decide_eq_true h, if_pos rfl, abs_of_neg h]; ring
      · rw [decide_eq_false (not_lt.2 h), if_neg Bool.false_ne_true, abs_of_nonneg h]
  have hneg : ∀ x : Flt bf16, x.negate.toRat = -x.toRat := by
    intro x; unfold Flt.toRat Flt.negate Flt.absRat; simp only; cases x.neg <;> simp
  rw [add_ieee ha hb, sub_ieee ha hb, mul_ieee ha hb, div_ieee ha hb]
  refine ⟨hadd _ _ na ia nb ib, ?_, ?_, fun h0 => ?_⟩
  · have := hadd _ _ na ia (show (Flt.ofBits bf16 b).negate.isNaN = false from nb) ib
    rw [hneg, ← sub_eq_add_neg] at this
    exact this
  · unfold Flt.mul
    simp only [na, ia, nb, ib, Bool.or_self, Bool.false_eq_true, if_false]
    refine rounded_roundAbs (mul_nonneg (absRat_nonneg _) (absRat_nonneg _)) ?_
    unfold Flt.toRat
    cases (Flt.ofBits bf16 a).neg <;> cases (Flt.ofBits bf16 b).neg <;> simp
  · have hz : (Flt.ofBits bf16 b).isZero = false := by
      by_contra hc
      rw [Bool.not_eq_false] at hc
      apply h0
      have : (Flt.ofBits bf16 b).mag = 0 := by simpa [Flt.isZero] using hc
      have h : (Flt.ofBits bf16 b).absRat = 0 := by unfold Flt.absRat; rw [this, magVal_zero]; simp
      unfold Flt.toRat; rw [h]; simp
    unfold Flt.div
    simp only [na, ia, nb, ib, hz, Bool.or_self, Bool.false_eq_true, if_false]
    refine rounded_roundAbs (div_nonneg (absRat_nonneg _) (absRat_nonneg _)) ?_
    unfold Flt.toRat
    cases (Flt.ofBits bf16 a).neg <;> cases (Flt.ofBits bf16 b).neg <;> simp [neg_div, div_neg]

/-- `C65_bf16_correctly_rounded` applied to a concrete case. -/
example := C65_bf16_correctly_rounded (a := 0x3dcd) (b := 0xc0c8) (ha := by wit) (hb := by wit) (hfa := by wit) (hfb := by wit)

/-- 1.0078125 * 1.0078125 = 1.01568603515625 rounds to 1.015625; the smallest denormal times one half is a tie, to even. -/
example : bf16Mul 0x3f81 0x3f81 = 0x3f82 ∧ bf16Mul 0x0001 0x3f00 = 0 ∧ bf16Mul 0x0003 0x3f00 = 2 ∧ bf16Div 0x3f80 0x4040 = 0x3eab ∧
    (Flt.ofBits bf16 0x3f81).isFin = true := by decide +kernel

/-! ## C66 -/

/-- C66, what holds: `==` on two bfloat16 numbers is equality of their values, except that the two zeros differ. -/
theorem C66_bf16_equality_partial {a b : Nat} (ha : a < 65536) (hb : b < 65536) (hna : (Flt.ofBits bf16 a).isNaN = false) (hnb : (Flt.ofBits bf16 b).isNaN = false)
    (hz : (Flt.ofBits bf16 a).toRat ≠ 0 ∨ (Flt.ofBits bf16 a).neg = (Flt.ofBits bf16 b).neg) :
    bf16Eq a b = Flt.feq (Flt.ofBits bf16 a) (Flt.ofBits bf16 b) ∧ (bf16Eq a b = true ↔ (Flt.ofBits bf16 a).toRat = (Flt.ofBits bf16 b).toRat) := by
  have hback : ∀ w, w < 65536 → (Flt.ofBits bf16 w).toBits = w := by
    intro w hw
    unfold Flt.ofBits Flt.toBits; rw [magLim_bf16]; simp only [decide_eq_true_eq]; split <;> omega
  have hval : (Flt.ofBits bf16 a).toRat = (Flt.ofBits bf16 b).toRat → a = b := by
    intro h
    have habs : (Flt.ofBits bf16 a).absRat = (Flt.ofBits bf16 b).absRat := by
      have e : ∀ x : Flt bf16, |x.toRat| = x.absRat := by
        intro x; unfold Flt.toRat; split <;> simp [abs_of_nonneg (absRat_nonneg x)]
      rw [← e, ← e, h]
    have hm := absRat_inj habs
    have hs : (Flt.ofBits bf16 a).neg = (Flt.ofBits bf16 b).neg := by
      rcases hz with hz | hz
      · by_contra hne
        apply hz
        unfold Flt.toRat at h ⊢
        rw [← habs] at h
        cases h1 : (Flt.ofBits bf16 a).neg <;> cases h2 : (Flt.ofBits bf16 b).neg <;> rw [h1, h2] at h
        · rw [h1, h2] at hne; exact absurd rfl hne
        · simp at h ⊢; linarith
        · simp at h ⊢; linarith
        · rw [h1, h2] at hne; exact absurd rfl hne
      · exact hz
    have : Flt.ofBits bf16 a = Flt.ofBits bf16 b := by
      cases hx : Flt.ofBits bf16 a; cases hy : Flt.ofBits bf16 b
      rw [hx, hy] at hm hs; simp only at hm hs; rw [hm, hs]
    rw [← hback a ha, ← hback b hb, this]
  have h2 : bf16Eq a b = true ↔ (Flt.ofBits bf16 a).toRat = (Flt.ofBits bf16 b).toRat := by
    unfold bf16Eq
    rw [beq_iff_eq]
    exact ⟨fun h => by rw [h], hval⟩
  refine ⟨?_, h2⟩
  unfold Flt.feq
  rw [if_neg (by simp [hna, hnb]), lt_iff hna hnb, lt_iff hnb hna]
  rw [Bool.eq_iff_iff, h2]
  simp only [Bool.and_eq_true, Bool.not_eq_true', decide_eq_false_iff_not, not_lt]
  exact ⟨fun h => ⟨h.ge, h.le⟩, fun h => le_antisymm h.2 h.1⟩

/-- `C66_bf16_equality_partial` applied to a concrete case. -/
example := C66_bf16_equality_partial (a := 0x3dcd) (b := 0xc0c8) (ha := by wit) (hb := by wit) (hna := by wit) (hnb := by wit) (hz := by wit)

/-- C66 is false of the code: `==` compares the encodings, so `0.0 == -0.0` is false and a NaN equals itself, and `!=`
is wrong the same way. -/
theorem C66_false_zero_and_nan :
    (Flt.ofBits bf16 0x0000).toRat = (Flt.ofBits bf16 0x8000).toRat ∧ bf16Eq 0x0000 0x8000 = false ∧ Flt.feq (Flt.ofBits bf16 0x0000) (Flt.ofBits bf16 0x8000) = true ∧
    (Flt.ofBits bf16 0x7fc0).isNaN = true ∧ bf16Eq 0x7fc0 0x7fc0 = true ∧ Flt.feq (Flt.ofBits bf16 0x7fc0) (Flt.ofBits bf16 0x7fc0) = false := by decide +kernel

example : (Flt.ofBits bf16 0x3f80).isNaN = false ∧ (Flt.ofBits bf16 0x3f80).toRat ≠ 0 ∧ bf16Eq 0x3f80 0x3f81 = false := by decide +kernel

end Verif.Props
