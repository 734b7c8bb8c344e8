import Verif.Proofs.Arith

/-! # Rounding and changes of sign, zero point and units -/

namespace Verif
open Spec

variable {f : Fmt}

theorem expo_scale {mb k : Nat} {q : ℚ} (h : (2:ℚ) ^ mb ≤ q) : expo mb (q * 2 ^ k) = expo mb q + k := by
  have h0 : 0 ≤ q := le_trans (by positivity) h
  obtain ⟨g1, g2⟩ := expo_spec mb h0
  have hp : (0:ℚ) < 2 ^ k := by positivity
  apply expo_of_bounds (by positivity)
  · rw [← Nat.add_assoc, pow_add]; exact mul_lt_mul_of_pos_right g1 hp
  · right
    rw [← Nat.add_assoc, pow_add]
    apply mul_le_mul_of_nonneg_right _ hp.le
    rcases g2 with g2 | g2
    · rw [g2]; exact h
    · exact g2

theorem magVal_roundMag_scale {mb k : Nat} {q : ℚ} (h : (2:ℚ) ^ mb ≤ q) :
    magVal mb (roundMag mb (q * 2 ^ k)) = magVal mb (roundMag mb q) * 2 ^ k := by
  have h0 : 0 ≤ q := le_trans (by positivity) h
  rw [magVal_roundMag mb h0, magVal_roundMag mb (by positivity), expo_scale h]
  have : q * 2 ^ k / 2 ^ (expo mb q + k) = q / 2 ^ expo mb q := by
    rw [pow_add]; field_simp
  rw [this, pow_add]; ring

/-- Rounding commutes with multiplication by a power of two, between the normal range and overflow. -/
theorem fl_scale [f.Good] {q : ℚ} {k : Nat} (h : (2:ℚ) ^ f.mb ≤ q * 2 ^ f.unit) (hf : fl f (q * 2 ^ k) < 2 ^ f.emax) :
    fl f (q * 2 ^ k) = fl f q * 2 ^ k := by
  have key := magVal_roundMag_scale (k := k) h
  have e : q * 2 ^ f.unit * 2 ^ k = q * 2 ^ k * 2 ^ f.unit := by ring
  rw [e] at key
  have hb : roundMag f.mb (q * 2 ^ k * 2 ^ f.unit) < f.infMag := by
    by_contra hc
    have : Flt.roundAbs f (q * 2 ^ k) = f.infMag := Nat.min_eq_left (by omega)
    unfold fl at hf
    rw [this, magVal_infMag, pow_add] at hf
    push_cast at hf
    rw [mul_div_assoc, div_self (by positivity), mul_one] at hf
    exact lt_irrefl _ hf
  have hb2 : roundMag f.mb (q * 2 ^ f.unit) < f.infMag := by
    refine lt_of_le_of_lt (roundMag_mono f.mb (le_trans (by positivity) h) ?_) hb
    rw [← e]
    have hq : 0 ≤ q * 2 ^ f.unit := le_trans (by positivity) h
    exact le_mul_of_one_le_right hq (one_le_pow₀ (by norm_num))
  unfold fl Flt.roundAbs
  rw [Nat.min_eq_right hb.le, Nat.min_eq_right hb2.le, key]
  push_cast; ring

theorem rha_neg (q : ℚ) : rha (-q) = -rha q := by
  unfold rha
  rcases lt_trichotomy q 0 with h | h | h
  · rw [if_neg (by linarith), if_pos h]; simp
  · subst h; norm_num
  · rw [if_pos (by linarith), if_neg (by linarith)]; simp

theorem rtz_neg (q : ℚ) : rtz (-q) = -rtz q := by
  unfold rtz
  rcases lt_trichotomy q 0 with h | h | h
  · rw [if_neg (by linarith), if_pos h]; simp
  · subst h; norm_num
  · rw [if_pos (by linarith), if_neg (by linarith)]; simp

theorem sround_odd {τ : ℚ} (hτ : 0 ≤ τ) (q : ℚ) : sround τ (-q) = -sround τ q := by
  unfold sround
  have e : |(-q) - ((rtz (-q) : ℤ) : ℚ)| = |q - (rtz q : ℚ)| := by
    rw [rtz_neg]; push_cast
    rw [show -q - -(rtz q : ℚ) = -(q - rtz q) by ring, abs_neg]
  rw [e, rtz_neg]
  by_cases h : τ < |q - (rtz q : ℚ)|
  · rw [if_pos h, if_pos h]
    rcases lt_trichotomy q 0 with hq | hq | hq
    · rw [if_neg (by linarith), if_pos hq]; ring
    · subst hq
      have : rtz (0:ℚ) = 0 := by unfold rtz; norm_num
      rw [this] at h; norm_num at h; linarith
    · rw [if_pos (by linarith), if_neg (by linarith)]; ring
  · rw [if_neg h, if_neg h]

theorem rounded_neg {mode : RoundMode} {τ : ℚ} (hτ : mode = .stochastic → 0 ≤ τ) (q : ℚ) : rounded mode τ (-q) = -rounded mode τ q := by
  cases mode
  · exact rha_neg q
  · exact sround_odd (hτ rfl) q

theorem sat_flip (b : Nat) (z : ℤ) : sat b (2 ^ b - 1 - z) = 2 ^ b - 1 - sat b z := by
  have : (1:ℤ) ≤ 2 ^ b := one_le_pow₀ (by norm_num)
  unfold sat
  generalize (2:ℤ) ^ b = B at *
  omega

theorem isFin_of_toRat [f.Good] {a b : Flt f} (h : a.toRat = b.toRat) (hb : b.isFin = true) : a.isFin = true := by
  rw [isFin_iff] at *
  have e : ∀ x : Flt f, x.absRat = |x.toRat| := by
    intro x
    have := absRat_nonneg x
    unfold Flt.toRat
    split <;> simp [abs_of_nonneg this]
  rwa [e, h, ← e]

end Verif
