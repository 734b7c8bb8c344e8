import Verif.SpecIeee
import Verif.Proofs.Flt
import Mathlib.Algebra.Order.Field.Power

/-! # The software floats satisfy the IEEE 754 specification -/

namespace Verif
open Verif.Ieee (Format decode signed Rounded Datum)

variable {f : Fmt}

/-- The interchange format of a model format. -/
def Fmt.ieee (f : Fmt) : Format := ⟨f.eb, f.mb⟩

theorem ieee_f32 : f32.ieee = Ieee.binary32 := rfl
theorem ieee_f64 : f64.ieee = Ieee.binary64 := rfl
theorem ieee_bf16 : bf16.ieee = Ieee.bfloat16 := rfl

theorem eb_split [h : f.Good] : 2 ^ f.eb = 2 * 2 ^ (f.eb - 1) := by
  have := h.eb2; rw [← pow_succ']; congr 1; omega

theorem two_le_eb [h : f.Good] : 2 ≤ 2 ^ (f.eb - 1) := by
  have := h.eb2
  calc 2 = 2 ^ 1 := rfl
    _ ≤ _ := Nat.pow_le_pow_right (by omega) (by omega)

/-- The bit fields of an encoding. -/
theorem fields (x : Flt f) (hv : x.Valid) :
    decide (x.toBits / 2 ^ (f.eb + f.mb) % 2 = 1) = x.neg ∧ x.toBits / 2 ^ f.mb % 2 ^ f.eb = x.mag / 2 ^ f.mb ∧
      x.toBits % 2 ^ f.mb = x.mag % 2 ^ f.mb := by
  unfold Flt.Valid Fmt.magLim at hv
  have hp : 0 < 2 ^ (f.eb + f.mb) := by positivity
  have hm : 0 < 2 ^ f.mb := by positivity
  have he : 2 ^ (f.eb + f.mb) = 2 ^ f.mb * 2 ^ f.eb := by rw [pow_add, mul_comm]
  have hE : x.mag / 2 ^ f.mb < 2 ^ f.eb := by
    rw [Nat.div_lt_iff_lt_mul hm, mul_comm, ← he]; exact hv
  unfold Flt.toBits Fmt.magLim
  cases hs : x.neg
  · simp only [Bool.false_eq_true, if_false, Nat.zero_add]
    refine ⟨?_, Nat.mod_eq_of_lt hE, trivial⟩
    rw [Nat.div_eq_of_lt hv]; rfl
  · simp only [if_true]
    refine ⟨?_, ?_, ?_⟩
    · rw [Nat.add_div_left _ hp, Nat.div_eq_of_lt hv]; rfl
    · rw [he, Nat.mul_add_div hm, Nat.add_mod_left, Nat.mod_eq_of_lt hE]
    · rw [he, Nat.mul_add_mod]

theorem decode_eq (b : Nat) : decode f.ieee b =
    Ieee.ofFields f.ieee (decide (b / 2 ^ (f.eb + f.mb) % 2 = 1)) (b / 2 ^ f.mb % 2 ^ f.eb) (b % 2 ^ f.mb) := rfl

theorem decode_toBits {x : Flt f} (hv : x.Valid) :
    decode f.ieee x.toBits = Ieee.ofFields f.ieee x.neg (x.mag / 2 ^ f.mb) (x.mag % 2 ^ f.mb) := by
  obtain ⟨a, b, c⟩ := fields x hv
  rw [decode_eq, a, b, c]

theorem ofFields_eq (s : Bool) (E T : Nat) : Ieee.ofFields f.ieee s E T =
    if E = 2 ^ f.eb - 1 then if T = 0 then .inf s else .nan
    else if E = 0 then .fin s (2 ^ (1 - ((2:ℤ) ^ (f.eb - 1) - 1)) * ((T : ℚ) / 2 ^ f.mb))
    else .fin s (2 ^ ((E : ℤ) - ((2:ℤ) ^ (f.eb - 1) - 1)) * (1 + (T : ℚ) / 2 ^ f.mb)) := rfl

/-- Encodings of data below infinity are finite, with the model's value. -/
theorem decode_fin [h : f.Good] {x : Flt f} (hf : x.mag < f.infMag) : decode f.ieee x.toBits = .fin x.neg x.absRat := by
  have hm : 0 < 2 ^ f.mb := by positivity
  have h2 := two_le_eb (f := f)
  have hs := eb_split (f := f)
  have hinf : f.infMag < f.magLim := by
    unfold Fmt.infMag Fmt.magLim
    rw [pow_add]
    exact Nat.mul_lt_mul_of_pos_right (by omega) hm
  have hE : x.mag / 2 ^ f.mb < 2 ^ f.eb - 1 := by
    rw [Nat.div_lt_iff_lt_mul hm]; exact hf
  rw [decode_toBits (show x.mag < f.magLim by omega), ofFields_eq, if_neg (by omega)]
  have hu : (f.unit : ℤ) = 2 ^ (f.eb - 1) - 2 + f.mb := by
    unfold Fmt.unit; push_cast [h2]; ring
  have hup : (2:ℚ) ^ f.unit = 2 ^ ((2:ℤ) ^ (f.eb - 1) - 2 + f.mb) := by
    rw [← hu, zpow_natCast]
  by_cases h0 : x.mag / 2 ^ f.mb = 0
  · rw [if_pos h0]
    have hlt : x.mag < 2 ^ f.mb := by
      rcases Nat.div_eq_zero_iff.mp h0 with h | h
      · omega
      · exact h
    congr 1
    unfold Flt.absRat magVal
    rw [if_pos hlt, Nat.mod_eq_of_lt hlt, hup]
    have : (1 - ((2:ℤ) ^ (f.eb - 1) - 1)) = - ((2:ℤ) ^ (f.eb - 1) - 2 + f.mb) + f.mb := by ring
    rw [this, zpow_add₀ (by norm_num), zpow_neg, zpow_natCast]
    field_simp
  · rw [if_neg h0]
    have hge : ¬ x.mag < 2 ^ f.mb := fun h => h0 (Nat.div_eq_of_lt h)
    congr 1
    unfold Flt.absRat magVal
    rw [if_neg hge, hup]
    have hcast : ((x.mag / 2 ^ f.mb : ℕ) : ℤ) = ((x.mag / 2 ^ f.mb - 1 : ℕ) : ℤ) + 1 := by
      generalize x.mag / 2 ^ f.mb = g at h0; omega
    have : ((x.mag / 2 ^ f.mb : ℕ) : ℤ) - ((2:ℤ) ^ (f.eb - 1) - 1) =
        ((x.mag / 2 ^ f.mb - 1 : ℕ) : ℤ) + (- ((2:ℤ) ^ (f.eb - 1) - 2 + f.mb) + f.mb) := by rw [hcast]; ring
    rw [this, zpow_add₀ (by norm_num), zpow_add₀ (by norm_num), zpow_neg, zpow_natCast, zpow_natCast]
    push_cast
    field_simp

theorem infMag_lt_magLim [f.Good] : f.infMag + 2 ^ (f.mb - 1) < f.magLim := by
  unfold Fmt.infMag Fmt.magLim
  have h1 := two_le_eb (f := f)
  have h2 := eb_split (f := f)
  have h3 := (inferInstance : f.Good).mb1
  have : 2 ^ f.mb = 2 * 2 ^ (f.mb - 1) := by rw [← pow_succ']; congr 1; omega
  have h4 : 0 < 2 ^ (f.mb - 1) := by positivity
  rw [pow_add, Nat.sub_mul, one_mul]
  have : 2 ^ f.mb ≤ 2 ^ f.eb * 2 ^ f.mb := Nat.le_mul_of_pos_left _ (by positivity)
  omega

/-- Encodings at infinity. -/
theorem decode_inf [f.Good] {x : Flt f} (hf : x.mag = f.infMag) : decode f.ieee x.toBits = .inf x.neg := by
  have hm : 0 < 2 ^ f.mb := by positivity
  have hl := infMag_lt_magLim (f := f)
  have hp : 0 < 2 ^ (f.mb - 1) := by positivity
  rw [decode_toBits (show x.mag < f.magLim by omega), ofFields_eq, hf]
  unfold Fmt.infMag
  rw [Nat.mul_div_cancel _ hm, if_pos rfl, Nat.mul_mod_left, if_pos rfl]

/-- Encodings above infinity. -/
theorem decode_nan [f.Good] {x : Flt f} (hv : x.Valid) (hf : f.infMag < x.mag) : decode f.ieee x.toBits = .nan := by
  have hm : 0 < 2 ^ f.mb := by positivity
  have hE : x.mag / 2 ^ f.mb = 2 ^ f.eb - 1 := by
    refine Nat.le_antisymm ?_ ?_
    · have : x.mag / 2 ^ f.mb < 2 ^ f.eb := by
        rw [Nat.div_lt_iff_lt_mul hm, ← pow_add]; exact hv
      omega
    · rw [Nat.le_div_iff_mul_le hm]; exact hf.le
  have hT : x.mag % 2 ^ f.mb ≠ 0 := by
    intro h0
    have := Nat.div_add_mod x.mag (2 ^ f.mb)
    rw [h0, hE, Nat.add_zero, mul_comm] at this
    unfold Fmt.infMag at hf
    omega
  rw [decode_toBits hv, ofFields_eq, hE, if_pos rfl, if_neg hT]

/-- Every bit pattern is the encoding of a float, up to bits above the format. -/
theorem decode_ofBits [f.Good] (c : Nat) : decode f.ieee c = decode f.ieee (Flt.ofBits f c).toBits := by
  have hv : (Flt.ofBits f c).Valid := Nat.mod_lt _ (by unfold Fmt.magLim; positivity)
  have hm : 0 < 2 ^ f.mb := by positivity
  have e1 : c / 2 ^ f.mb % 2 ^ f.eb = (Flt.ofBits f c).mag / 2 ^ f.mb := by
    unfold Flt.ofBits Fmt.magLim
    simp only
    rw [add_comm, pow_add, Nat.mod_mul_right_div_self]
  have e2 : c % 2 ^ f.mb = (Flt.ofBits f c).mag % 2 ^ f.mb := by
    unfold Flt.ofBits Fmt.magLim
    simp only
    rw [add_comm, pow_add, Nat.mod_mul_right_mod]
  rw [decode_toBits hv, decode_eq, e1, e2]
  rfl

theorem signed_absRat (x : Flt f) : signed x.neg x.absRat = x.toRat := by
  unfold signed Flt.toRat; rfl

/-- A finite datum is the value of a float of the model. -/
theorem of_decode_fin [f.Good] {c : Nat} {s : Bool} {a : ℚ} (h : decode f.ieee c = .fin s a) :
    (Flt.ofBits f c).mag < f.infMag ∧ s = (Flt.ofBits f c).neg ∧ a = (Flt.ofBits f c).absRat := by
  rw [decode_ofBits] at h
  rcases Nat.lt_trichotomy (Flt.ofBits f c).mag f.infMag with g | g | g
  · rw [decode_fin g] at h
    cases h
    exact ⟨g, rfl, rfl⟩
  · rw [decode_inf g] at h; cases h
  · rw [decode_nan (Nat.mod_lt _ (by unfold Fmt.magLim; positivity)) g] at h; cases h

/-! ## rounding -/

theorem infMag_even [h : f.Good] : f.infMag % 2 = 0 := by
  unfold Fmt.infMag
  have : 2 ^ f.mb = 2 * 2 ^ (f.mb - 1) := by have := h.mb1; rw [← pow_succ']; congr 1; omega
  rw [this, Nat.mul_mod, Nat.mul_mod_right]; simp

theorem infMag_pos [h : f.Good] : 0 < f.infMag := by
  unfold Fmt.infMag
  have h1 := two_le_eb (f := f)
  have h2 := eb_split (f := f)
  exact Nat.mul_pos (by omega) (by positivity)

/-- The largest finite magnitude. -/
theorem magVal_max [h : f.Good] : (magVal f.mb (f.infMag - 1) : ℚ) = 2 ^ (f.emax + f.unit) - 2 ^ (f.emax + f.unit - f.mb - 1) := by
  have h1 := h.mb1
  have h2 := two_le_eb (f := f)
  have h3 := eb_split (f := f)
  have h4 := h.rng
  have hp : 0 < 2 ^ f.mb := by positivity
  have e : f.infMag - 1 = (2 ^ f.eb - 3) * 2 ^ f.mb + (2 ^ (f.mb + 1) - 1) := by
    unfold Fmt.infMag
    obtain ⟨k, hk⟩ : ∃ k, 2 ^ f.eb = k + 3 := ⟨2 ^ f.eb - 3, by omega⟩
    rw [hk, pow_succ]
    have : k + 3 - 1 = k + 2 := by omega
    rw [this, Nat.add_sub_cancel, Nat.add_mul]
    omega
  rw [e, magVal_enc (Or.inr (by rw [pow_succ]; omega)) (by omega)]
  have hx : f.emax + f.unit - f.mb - 1 = 2 ^ f.eb - 3 := by
    unfold Fmt.emax Fmt.unit; omega
  have hy : f.emax + f.unit = (f.mb + 1) + (2 ^ f.eb - 3) := by
    unfold Fmt.emax Fmt.unit; omega
  rw [hx, hy, pow_add (2:ℚ)]
  obtain ⟨g, hg⟩ : ∃ g, 2 ^ (f.mb + 1) = g + 1 := ⟨2 ^ (f.mb + 1) - 1, by have := Nat.one_le_two_pow (n := f.mb + 1); omega⟩
  have hgq : (2:ℚ) ^ (f.mb + 1) = g + 1 := by exact_mod_cast hg
  rw [hg, hgq, Nat.add_sub_cancel]
  push_cast
  ring

/-- The rounding overflows exactly from the IEEE threshold on. -/
theorem roundAbs_inf_iff [h : f.Good] {q : ℚ} (hq : 0 ≤ q) :
    Flt.roundAbs f q = f.infMag ↔ 2 ^ f.ieee.bias * (2 - 1 / 2 ^ (f.ieee.t + 1)) ≤ q := by
  have hb : (2:ℚ) ^ f.ieee.bias * (2 - 1 / 2 ^ (f.ieee.t + 1)) = 2 ^ f.emax - 2 ^ f.emax / 2 ^ (f.mb + 2) := by
    have : f.ieee.bias = (f.emax : ℤ) - 1 := by
      unfold Format.bias Fmt.ieee Fmt.emax; push_cast; rfl
    rw [this, zpow_sub₀ (by norm_num), zpow_natCast, zpow_one]
    unfold Fmt.ieee
    simp only [pow_add]
    field_simp
  rw [hb]
  have hu : (0:ℚ) < 2 ^ f.unit := by positivity
  have hQ : 0 ≤ q * 2 ^ f.unit := by positivity
  have hinf : (magVal f.mb f.infMag : ℚ) = 2 ^ (f.emax + f.unit) := by rw [magVal_infMag]; push_cast; rfl
  have hmax := magVal_max (f := f)
  set M : ℚ := 2 ^ (f.emax + f.unit) with hM
  have hMp : 0 < M := by positivity
  have hsplit : (2:ℚ) ^ (f.emax + f.unit - f.mb - 1) = M / 2 ^ (f.mb + 1) := by
    rw [hM, eq_div_iff (by positivity), ← pow_add]
    congr 1
    have := h.rng
    unfold Fmt.emax
    omega
  rw [hsplit] at hmax
  -- the midpoint, in least subnormals
  have hmid : ((2:ℚ) ^ f.emax - 2 ^ f.emax / 2 ^ (f.mb + 2) ≤ q) ↔ M - M / 2 ^ (f.mb + 1) / 2 ≤ q * 2 ^ f.unit := by
    rw [hM, pow_add 2 f.emax]
    have : (2:ℚ) ^ f.emax * 2 ^ f.unit - 2 ^ f.emax * 2 ^ f.unit / 2 ^ (f.mb + 1) / 2 = (2 ^ f.emax - 2 ^ f.emax / 2 ^ (f.mb + 2)) * 2 ^ f.unit := by
      rw [pow_succ 2 (f.mb + 1)]; field_simp
    rw [this, mul_le_mul_iff_left₀ hu]
  rw [hmid]
  set D : ℚ := M / 2 ^ (f.mb + 1) with hD
  have hDp : 0 < D := by positivity
  unfold Flt.roundAbs
  constructor
  · intro he
    by_contra hc
    push Not at hc
    have hge : f.infMag ≤ roundMag f.mb (q * 2 ^ f.unit) := by omega
    have hv : M ≤ (magVal f.mb (roundMag f.mb (q * 2 ^ f.unit)) : ℚ) := by
      rw [← hinf]; exact_mod_cast magVal_mono f.mb hge
    have hn := roundMag_nearest f.mb hQ (f.infMag - 1)
    rw [hmax] at hn
    rw [abs_of_nonneg (by linarith)] at hn
    rcases abs_cases (M - D - q * 2 ^ f.unit) with ⟨e, _⟩ | ⟨e, _⟩ <;> rw [e] at hn <;> linarith
  · intro he
    by_contra hc
    have hlt : roundMag f.mb (q * 2 ^ f.unit) ≤ f.infMag - 1 := by omega
    have hv : (magVal f.mb (roundMag f.mb (q * 2 ^ f.unit)) : ℚ) ≤ M - D := by
      rw [← hmax]; exact_mod_cast magVal_mono f.mb hlt
    have hn := roundMag_nearest f.mb hQ f.infMag
    rw [hinf] at hn
    rw [abs_sub_comm, abs_of_nonneg (by linarith)] at hn
    have hqM : q * 2 ^ f.unit ≤ M := by
      by_contra hh
      push Not at hh
      rw [abs_sub_comm, abs_of_nonneg (by linarith)] at hn
      linarith
    rw [abs_of_nonneg (by linarith)] at hn
    have hqe : q * 2 ^ f.unit = M - D / 2 := by linarith
    have hve : (magVal f.mb (roundMag f.mb (q * 2 ^ f.unit)) : ℚ) = M - D := by linarith
    have hr : roundMag f.mb (q * 2 ^ f.unit) = f.infMag - 1 := by
      rw [← hmax] at hve
      exact magVal_inj (mb := f.mb) (by exact_mod_cast hve)
    have hev := roundMag_tie_even h.mb1 hQ (b := f.infMag) (by have := infMag_pos (f := f); omega)
      (by rw [hinf, hve, hqe, abs_of_nonneg (by linarith), abs_sub_comm, abs_of_nonneg (by linarith)]; ring)
    rw [hr] at hev
    have := infMag_even (f := f)
    have := infMag_pos (f := f)
    omega

theorem toBits_mod_two [h : f.Good] (x : Flt f) : x.toBits % 2 = x.mag % 2 := by
  unfold Flt.toBits Fmt.magLim
  have : 2 ^ (f.eb + f.mb) % 2 = 0 := by
    have h1 := h.mb1
    obtain ⟨k, hk⟩ : ∃ k, f.eb + f.mb = k + 1 := ⟨f.eb + f.mb - 1, by omega⟩
    rw [hk, pow_succ]; simp
  split <;> omega

/-- The software rounding is the IEEE rounding. -/
theorem rounded_roundAbs [h : f.Good] {r : ℚ} {s : Bool} (hs : r ≠ 0 → s = decide (r < 0)) :
    Rounded f.ieee r s (⟨s, Flt.roundAbs f |r|⟩ : Flt f).toBits := by
  have hiff := roundAbs_inf_iff (f := f) (abs_nonneg r)
  unfold Rounded
  by_cases hov : Flt.roundAbs f |r| = f.infMag
  · rw [if_pos (hiff.mp hov)]
    exact decode_inf hov
  · rw [if_neg (fun hc => hov (hiff.mpr hc))]
    have hlt : Flt.roundAbs f |r| < f.infMag := by
      have : Flt.roundAbs f |r| ≤ f.infMag := min_le_left _ _
      omega
    have hre : Flt.roundAbs f |r| = roundMag f.mb (|r| * 2 ^ f.unit) := by
      unfold Flt.roundAbs at hlt ⊢; omega
    refine ⟨_, decode_fin hlt, fun c s' a' hc => ?_⟩
    obtain ⟨_, h2, h3⟩ := of_decode_fin hc
    have hu : (0:ℚ) < 2 ^ f.unit := by positivity
    have hsr : r = signed s |r| := by
      unfold signed
      by_cases h0 : r = 0
      · rw [h0]; simp
      · rw [hs h0]
        by_cases hn : r < 0
        · simp only [hn, decide_true, if_true, abs_of_neg hn, neg_neg]
        · simp only [hn, decide_false, Bool.false_eq_true, if_false, abs_of_nonneg (not_lt.mp hn)]
    set A : ℚ := (⟨s, Flt.roundAbs f |r|⟩ : Flt f).absRat with hA
    have hself : |signed s A - r| = |A - (|r|)| := by
      conv_lhs => rw [hsr]
      unfold signed
      split
      · rw [show -A - -|r| = -(A - |r|) by ring, abs_neg]
      · rfl
    have ha' : 0 ≤ a' := by rw [h3]; exact absRat_nonneg _
    have hoth : |a' - (|r|)| ≤ |signed s' a' - r| ∧ (|a' - (|r|)| = |signed s' a' - r| → signed s' a' ≠ signed s A → a' ≠ A ∨ (A = 0 ∧ a' = 0) ∨ r = 0) := by
      constructor
      · have : |(|signed s' a'|) - (|r|)| ≤ |signed s' a' - r| := abs_abs_sub_abs_le _ _
        have e : |signed s' a'| = a' := by
          unfold signed; split
          · rw [abs_neg, abs_of_nonneg ha']
          · exact abs_of_nonneg ha'
        rwa [e] at this
      · intro he hne
        by_cases hss : s' = s
        · left; rintro rfl; exact hne (by rw [hss])
        · by_cases hAA : a' = A
          · right
            by_cases h0 : r = 0
            · exact Or.inr h0
            · left
              -- same magnitude, opposite sign: the distances differ unless zero
              have hrp : 0 < |r| := abs_pos.mpr h0
              have e2 : |signed s' a' - r| = a' + |r| := by
                have hR : ∀ R : ℚ, 0 ≤ R → r = signed s R → |signed s' a' - r| = a' + R := by
                  intro R hR hr
                  rw [hr]
                  unfold signed
                  cases s <;> cases s' <;> simp only [Bool.false_eq_true, if_false, if_true, not_true_eq_false] at hss ⊢
                  · rw [← abs_neg, show -(-a' - R) = a' + R by ring, abs_of_nonneg (by positivity)]
                  · rw [show a' - -R = a' + R by ring, abs_of_nonneg (by positivity)]
                exact hR _ hrp.le hsr
              rw [e2] at he
              have : a' = 0 := by
                rcases abs_cases (a' - |r|) with ⟨e, _⟩ | ⟨e, _⟩ <;> rw [e] at he <;> linarith
              exact ⟨by rw [← hAA, this], this⟩
          · exact Or.inl hAA
    -- distances of magnitudes
    have hsc : ∀ b : Nat, |((magVal f.mb b : ℚ) / 2 ^ f.unit) - (|r|)| = |(magVal f.mb b : ℚ) - |r| * 2 ^ f.unit| / 2 ^ f.unit := by
      intro b
      rw [← abs_of_pos hu, ← abs_div, abs_of_pos hu]
      congr 1; field_simp
    have hAv : A = (magVal f.mb (roundMag f.mb (|r| * 2 ^ f.unit)) : ℚ) / 2 ^ f.unit := by
      rw [hA]; unfold Flt.absRat; simp only [hre]
    have hav : a' = (magVal f.mb (Flt.ofBits f c).mag : ℚ) / 2 ^ f.unit := by rw [h3]; rfl
    have hnear : |A - (|r|)| ≤ |a' - (|r|)| := by
      rw [hAv, hav, hsc, hsc]
      exact div_le_div_of_nonneg_right (roundMag_nearest f.mb (by positivity) _) hu.le
    refine ⟨by rw [hself]; exact hnear.trans hoth.1, fun he hne => ?_⟩
    rw [toBits_mod_two]
    simp only
    rw [hre]
    rw [hself] at he
    have hea : |A - (|r|)| = |a' - (|r|)| := le_antisymm hnear (by rw [he]; exact hoth.1)
    have hoe : |a' - (|r|)| = |signed s' a' - r| := by rw [← hea, he]
    have hzero : |r| = 0 → roundMag f.mb (|r| * 2 ^ f.unit) % 2 = 0 := fun h0 => by
      rw [h0, zero_mul]
      have := roundMag_magVal f.mb 0
      rw [magVal_zero] at this
      rw [show (0:ℚ) = ((0:ℕ):ℚ) by norm_num, this]
    rcases hoth.2 hoe hne with g | ⟨g, _⟩ | g
    · refine roundMag_tie_even h.mb1 (by positivity) (b := (Flt.ofBits f c).mag) ?_ ?_
      · intro hcc
        exact g (by rw [hav, hAv, hcc])
      · rw [hAv, hav, hsc, hsc] at hea
        have := (div_left_inj' hu.ne').mp hea
        exact this.symm
    · -- the rounded magnitude is zero
      have : magVal f.mb (roundMag f.mb (|r| * 2 ^ f.unit)) = 0 := by
        rw [hAv] at g
        have := (div_eq_zero_iff.mp g).resolve_right hu.ne'
        exact_mod_cast this
      have h0 := magVal_inj (mb := f.mb) (this.trans (magVal_zero f.mb).symm)
      rw [h0]
    · exact hzero (by rw [g]; simp)

end Verif
