import Verif.Proofs.Stoch

/-! # Signed rounding, monotonicity and error bounds of float operations -/

namespace Verif
open Spec
variable {f : Fmt}

/-- Correctly rounded signed value (infinities have value `± 2^emax`). -/
def flr (f : Fmt) (q : ℚ) : ℚ := if q < 0 then -fl f |q| else fl f |q|

theorem flr_zero [f.Good] : flr f 0 = 0 := by simp [flr, fl_zero]
theorem flr_neg [f.Good] (q : ℚ) : flr f (-q) = -flr f q := by
  unfold flr
  rcases lt_trichotomy q 0 with h | h | h
  · rw [if_neg (by linarith), if_pos h, abs_neg, neg_neg]
  · subst h; simp [fl_zero]
  · rw [if_pos (by linarith), if_neg (by linarith), abs_neg]
theorem flr_nonneg_eq {q : ℚ} (h : 0 ≤ q) : flr f q = fl f q := by
  unfold flr; rw [if_neg (by linarith), abs_of_nonneg h]
theorem abs_flr (q : ℚ) : |flr f q| = fl f |q| := by
  unfold flr; split <;> simp [abs_of_nonneg, fl_nonneg]
theorem flr_nonneg {q : ℚ} (h : 0 ≤ q) : 0 ≤ flr f q := by rw [flr_nonneg_eq h]; exact fl_nonneg _
theorem flr_nonpos {q : ℚ} (h : q ≤ 0) : flr f q ≤ 0 := by
  unfold flr
  split
  · linarith [fl_nonneg (f := f) |q|]
  · have : q = 0 := by linarith
    rw [this, abs_zero]
    have e : fl f 0 = 0 := by
      unfold fl Flt.roundAbs
      rw [zero_mul]
      have : roundMag f.mb 0 = 0 := by
        have := roundMag_magVal f.mb 0
        rwa [magVal_zero, Nat.cast_zero] at this
      rw [this, Nat.min_zero, magVal_zero]; simp
    rw [e]

theorem flr_mono {p q : ℚ} (h : p ≤ q) : flr f p ≤ flr f q := by
  rcases lt_or_ge q 0 with hq | hq
  · unfold flr
    rw [if_pos (by linarith), if_pos hq, neg_le_neg_iff]
    apply fl_mono (abs_nonneg _)
    rw [abs_of_neg hq, abs_of_neg (by linarith)]; linarith
  · rcases le_or_gt p 0 with hp | hp
    · exact (flr_nonpos hp).trans (flr_nonneg hq)
    · rw [flr_nonneg_eq hp.le, flr_nonneg_eq hq]; exact fl_mono hp.le h

theorem toRat_mk_flr [f.Good] (q : ℚ) (s : Bool) (hs : (q < 0 → s = true) ∧ (0 < q → s = false)) :
    (⟨s, Flt.roundAbs f |q|⟩ : Flt f).toRat = flr f q := by
  unfold Flt.toRat flr
  rw [absRat_mk]
  rcases lt_trichotomy q 0 with h | h | h
  · simp [hs.1 h, h]
  · subst h; simp [fl_zero]
  · simp [hs.2 h, not_lt.mpr h.le]

theorem toRat_neg_lt {x : Flt f} (h : x.toRat < 0) : x.neg = true := by
  unfold Flt.toRat at h
  by_contra hc
  simp only [Bool.not_eq_true] at hc
  rw [hc] at h
  simp only [Bool.false_eq_true, if_false] at h
  linarith [absRat_nonneg x]
theorem toRat_pos_lt {x : Flt f} (h : 0 < x.toRat) : x.neg = false := by
  unfold Flt.toRat at h
  by_contra hc
  simp only [Bool.not_eq_false] at hc
  rw [hc] at h
  simp only [if_true] at h
  linarith [absRat_nonneg x]
theorem toRat_of_pos {x : Flt f} (h : x.neg = false) : x.toRat = x.absRat := by unfold Flt.toRat; simp [h]
theorem toRat_of_neg {x : Flt f} (h : x.neg = true) : x.toRat = -x.absRat := by unfold Flt.toRat; simp [h]

theorem mul_fin_eq {a b : Flt f} (ha : a.isFin = true) (hb : b.isFin = true) :
    Flt.mul a b = ⟨a.neg ^^ b.neg, Flt.roundAbs f (a.absRat * b.absRat)⟩ := by
  obtain ⟨h1, h2⟩ := isFin_not_nan ha
  obtain ⟨h3, h4⟩ := isFin_not_nan hb
  unfold Flt.mul
  simp [h1, h2, h3, h4]

/-- Multiplication of finite floats. -/
theorem mul_toRat [f.Good] {a b : Flt f} (ha : a.isFin = true) (hb : b.isFin = true) :
    (Flt.mul a b).toRat = flr f (a.toRat * b.toRat) := by
  rw [mul_fin_eq ha hb]
  have he : a.absRat * b.absRat = |a.toRat * b.toRat| := by rw [abs_mul, toRat_abs, toRat_abs]
  rw [he]
  apply toRat_mk_flr
  constructor
  · intro h
    rcases mul_neg_iff.mp h with ⟨h1, h2⟩ | ⟨h1, h2⟩
    · rw [toRat_pos_lt h1, toRat_neg_lt h2]; rfl
    · rw [toRat_neg_lt h1, toRat_pos_lt h2]; rfl
  · intro h
    rcases mul_pos_iff.mp h with ⟨h1, h2⟩ | ⟨h1, h2⟩
    · rw [toRat_pos_lt h1, toRat_pos_lt h2]; rfl
    · rw [toRat_neg_lt h1, toRat_neg_lt h2]; rfl

theorem isZero_iff {b : Flt f} : b.isZero = true ↔ b.toRat = 0 := by
  have : b.toRat = 0 ↔ b.absRat = 0 := by rw [← toRat_abs, abs_eq_zero]
  rw [this]
  unfold Flt.isZero Flt.absRat
  rw [div_eq_zero_iff]
  constructor
  · intro h; left; simp at h; rw [h, magVal_zero]; rfl
  · rintro (h | h)
    · have : magVal f.mb b.mag = magVal f.mb 0 := by rw [magVal_zero]; exact_mod_cast h
      simp [magVal_inj this]
    · exact absurd h (by positivity)

/-- Division of finite floats, nonzero divisor. -/
theorem div_toRat [f.Good] {a b : Flt f} (ha : a.isFin = true) (hb : b.isFin = true) (h0 : b.toRat ≠ 0) :
    (Flt.div a b).toRat = flr f (a.toRat / b.toRat) := by
  obtain ⟨h1, h2⟩ := isFin_not_nan ha
  obtain ⟨h3, h4⟩ := isFin_not_nan hb
  have h5 : b.isZero = false := by rw [Bool.eq_false_iff]; intro h; exact h0 (isZero_iff.mp h)
  unfold Flt.div
  simp only [h1, h2, h3, h4, h5, Bool.or_false, Bool.false_eq_true, if_false]
  have he : a.absRat / b.absRat = |a.toRat / b.toRat| := by rw [abs_div, toRat_abs, toRat_abs]
  rw [he]
  apply toRat_mk_flr
  constructor
  · intro h
    rcases div_neg_iff.mp h with ⟨h1, h2⟩ | ⟨h1, h2⟩
    · rw [toRat_pos_lt h1, toRat_neg_lt h2]; rfl
    · rw [toRat_neg_lt h1, toRat_pos_lt h2]; rfl
  · intro h
    rcases div_pos_iff.mp h with ⟨h1, h2⟩ | ⟨h1, h2⟩
    · rw [toRat_pos_lt h1, toRat_pos_lt h2]; rfl
    · rw [toRat_neg_lt h1, toRat_neg_lt h2]; rfl

theorem ofRat_flr [f.Good] (q : ℚ) (z : Bool) : (Flt.ofRat f q z).toRat = flr f q := by
  unfold Flt.ofRat
  split
  · rename_i h; subst h
    rw [flr_zero]
    unfold Flt.toRat Flt.absRat
    simp [magVal_zero]
  · rename_i h
    apply toRat_mk_flr
    exact ⟨fun h => by simp [h], fun h => by simp [h.le]⟩

theorem add_toRat [f.Good] {a b : Flt f} (ha : a.isFin = true) (hb : b.isFin = true) :
    (Flt.add a b).toRat = flr f (a.toRat + b.toRat) := by
  rw [add_fin ha hb, ofRat_flr]

theorem negate_toRat (x : Flt f) : x.negate.toRat = -x.toRat := by
  unfold Flt.negate Flt.toRat Flt.absRat
  cases x.neg <;> simp
theorem negate_isFin (x : Flt f) : x.negate.isFin = x.isFin := rfl

theorem sub_toRat [f.Good] {a b : Flt f} (ha : a.isFin = true) (hb : b.isFin = true) :
    (Flt.sub a b).toRat = flr f (a.toRat - b.toRat) := by
  unfold Flt.sub
  rw [add_toRat ha (by rw [negate_isFin]; exact hb), negate_toRat, sub_eq_add_neg]

/-- Finiteness from the value. -/
theorem isFin_of_abs [f.Good] {x : Flt f} (h : |x.toRat| < 2 ^ f.emax) : x.isFin = true := by
  rw [toRat_abs] at h; exact isFin_iff.mpr h
theorem abs_lt_of_isFin [f.Good] {x : Flt f} (h : x.isFin = true) : |x.toRat| < 2 ^ f.emax := by
  rw [toRat_abs]; exact isFin_iff.mp h

theorem rep_toRat (x : Flt f) : Rep f |x.toRat| := by rw [toRat_abs]; exact rep_absRat x

/-- Representable values are not changed by rounding. -/
theorem flr_rep [f.Good] {q : ℚ} (h : Rep f |q|) (hq : |q| ≤ 2 ^ f.emax) : flr f q = q := by
  unfold flr
  rw [fl_rep h hq]
  split
  · rename_i h; rw [abs_of_neg h, neg_neg]
  · rename_i h; rw [abs_of_nonneg (not_lt.mp h)]

theorem flr_le [f.Good] {q r : ℚ} (h : q ≤ r) (hr : Rep f |r|) (hr2 : |r| ≤ 2 ^ f.emax) : flr f q ≤ r := by
  have := flr_mono (f := f) h; rwa [flr_rep hr hr2] at this
theorem le_flr [f.Good] {q r : ℚ} (h : r ≤ q) (hr : Rep f |r|) (hr2 : |r| ≤ 2 ^ f.emax) : r ≤ flr f q := by
  have := flr_mono (f := f) h; rwa [flr_rep hr hr2] at this

theorem rep_int {z : ℤ} (h : |z| ≤ 2 ^ (f.mb + 1)) : Rep f |(z:ℚ)| := by
  have : |(z:ℚ)| = ((z.natAbs : ℕ) : ℚ) := by rw [Nat.cast_natAbs]; push_cast; rfl
  rw [this]
  apply rep_nat'
  have h2 : (z.natAbs : ℤ) = |z| := Int.natCast_natAbs z
  have : (z.natAbs : ℤ) ≤ ((2 ^ (f.mb + 1) : ℕ) : ℤ) := by rw [h2]; push_cast; exact h
  exact_mod_cast this

theorem pow_mb_lt_emax [f.Good] : (2:ℚ) ^ (f.mb + 1) < 2 ^ f.emax :=
  pow_lt_pow_right₀ (by norm_num) (by have := mb_lt_emax (f := f); omega)

/-- Small integers convert exactly. -/
theorem ofInt_exact [f.Good] {z : ℤ} (h : |z| ≤ 2 ^ (f.mb + 1)) : (Flt.ofInt f z).toRat = z ∧ (Flt.ofInt f z).isFin = true := by
  have h1 : |(z:ℚ)| ≤ 2 ^ (f.mb + 1) := by exact_mod_cast h
  have e : (Flt.ofInt f z).toRat = z := by
    unfold Flt.ofInt; rw [ofRat_flr, flr_rep (rep_int h) (h1.trans pow_mb_lt_emax.le)]
  exact ⟨e, isFin_of_abs (by rw [e]; exact lt_of_le_of_lt h1 pow_mb_lt_emax)⟩

/-- Relative error of a result in the normal range. -/
theorem flr_err [f.Good] {q : ℚ} (hf : fl f |q| < 2 ^ f.emax) :
    |flr f q - q| ≤ max (1 / 2 ^ (f.unit + 1)) (|q| / 2 ^ (f.mb + 1)) := by
  have := fl_err (f := f) (abs_nonneg q) hf
  unfold flr
  split
  · rename_i h
    rw [abs_of_neg h] at *
    rwa [show -fl f (-q) - q = -(fl f (-q) - -q) by ring, abs_neg]
  · rename_i h
    rw [abs_of_nonneg (not_lt.mp h)] at *; exact this

/-! ## Rounding to integers -/

theorem rha_mono {p q : ℚ} (h : p ≤ q) : rha p ≤ rha q := by
  unfold rha
  split
  · rename_i hp
    split
    · rename_i hq
      have := Int.floor_le_floor (a := -q + 1/2) (b := -p + 1/2) (by linarith)
      omega
    · rename_i hq
      have h1 : 0 ≤ ⌊-p + 1/2⌋ := Int.floor_nonneg.mpr (by linarith)
      have h2 : 0 ≤ ⌊q + 1/2⌋ := Int.floor_nonneg.mpr (by linarith)
      omega
  · rename_i hp
    rw [if_neg (by linarith)]
    exact Int.floor_le_floor (by linarith)

theorem rha_err (q : ℚ) : |(rha q : ℚ) - q| ≤ 1/2 := by
  unfold rha
  split
  · have h1 := Int.floor_le (-q + 1/2)
    have h2 := Int.lt_floor_add_one (-q + 1/2)
    push_cast; rw [abs_le]; constructor <;> linarith
  · have h1 := Int.floor_le (q + 1/2)
    have h2 := Int.lt_floor_add_one (q + 1/2)
    rw [abs_le]; constructor <;> linarith

theorem rha_int (z : ℤ) : rha (z : ℚ) = z := by
  have := rha_err (z : ℚ)
  have h2 : |rha (z:ℚ) - z| < 1 := by
    have : |((rha (z:ℚ) - z : ℤ) : ℚ)| < 1 := by push_cast; linarith
    exact_mod_cast this
  rw [Int.abs_lt_one_iff] at h2; omega

/-- Rounding of a value within less than one half of an integer. -/
theorem rha_near {q : ℚ} {z : ℤ} (h : |q - z| < 1/2) : rha q = z := by
  have h1 := rha_err q
  rw [abs_le] at h1; rw [abs_lt] at h
  have h2 : |((rha q - z : ℤ) : ℚ)| < 1 := by push_cast; rw [abs_lt]; constructor <;> linarith
  have h3 : |rha q - z| < 1 := by exact_mod_cast h2
  rw [Int.abs_lt_one_iff] at h3; omega

theorem rtz_int (z : ℤ) : rtz (z : ℚ) = z := by
  unfold rtz
  split
  · rw [← Int.cast_neg, Int.floor_intCast]; ring
  · exact Int.floor_intCast z

theorem rtz_nonneg {q : ℚ} (h : 0 ≤ q) : rtz q = ⌊q⌋ := by unfold rtz; rw [if_neg (by linarith)]
theorem rtz_neg' {q : ℚ} (h : q < 0) : rtz q = -⌊-q⌋ := by unfold rtz; rw [if_pos h]

theorem sround_nonneg {τ p : ℚ} (h : 0 ≤ p) : sround τ p = if τ < p - ⌊p⌋ then ⌊p⌋ + 1 else ⌊p⌋ := by
  unfold sround
  rw [rtz_nonneg h, if_neg (c := p < 0) (by linarith), abs_of_nonneg (by linarith [Int.floor_le p])]

theorem sround_neg {τ p : ℚ} (h : p < 0) : sround τ p = -sround τ (-p) := by
  rw [sround_nonneg (by linarith : (0:ℚ) ≤ -p)]
  unfold sround
  rw [rtz_neg' h, if_pos h]
  have h1 := Int.floor_le (-p)
  have : |p - ((-⌊-p⌋ : ℤ) : ℚ)| = -p - ⌊-p⌋ := by
    push_cast; rw [abs_of_nonpos (by linarith)]; ring
  rw [this]
  split <;> omega

/-- Stochastic rounding lies between floor and ceiling. -/
theorem sround_bounds {τ p : ℚ} (hτ : 0 ≤ τ) : ⌊p⌋ ≤ sround τ p ∧ sround τ p ≤ ⌈p⌉ := by
  have key : ∀ q : ℚ, 0 ≤ q → ⌊q⌋ ≤ sround τ q ∧ sround τ q ≤ ⌈q⌉ := by
    intro q hq
    rw [sround_nonneg hq]
    split
    · rename_i h
      refine ⟨by omega, ?_⟩
      have : ⌊q⌋ < ⌈q⌉ := by rw [Int.lt_ceil]; linarith
      omega
    · exact ⟨le_rfl, Int.floor_le_ceil q⟩
  rcases lt_or_ge p 0 with h | h
  · obtain ⟨h1, h2⟩ := key (-p) (by linarith)
    rw [sround_neg h]
    rw [Int.floor_neg] at h1; rw [Int.ceil_neg] at h2
    omega
  · exact key p h

theorem rha_bounds (p : ℚ) : ⌊p⌋ ≤ rha p ∧ rha p ≤ ⌈p⌉ := by
  have h := abs_le.mp (rha_err p)
  constructor
  · have : (⌊p⌋ : ℚ) < (rha p : ℚ) + 1 := by linarith [Int.floor_le p]
    have : ⌊p⌋ < rha p + 1 := by exact_mod_cast this
    omega
  · have : (rha p : ℚ) < (⌈p⌉ : ℚ) + 1 := by linarith [Int.le_ceil p]
    have : rha p < ⌈p⌉ + 1 := by exact_mod_cast this
    omega

theorem sround_mono {τ p q : ℚ} (hτ : 0 ≤ τ) (h : p ≤ q) : sround τ p ≤ sround τ q := by
  have key : ∀ p q : ℚ, 0 ≤ p → p ≤ q → sround τ p ≤ sround τ q := by
    intro p q hp h
    rw [sround_nonneg hp, sround_nonneg (hp.trans h)]
    have hf := Int.floor_le_floor h
    rcases Int.lt_or_eq_of_le hf with h1 | h1
    · split <;> split <;> omega
    · rw [h1]
      split
      · rename_i h2; rw [if_pos (by linarith)]
      · split <;> omega
  rcases lt_or_ge q 0 with hq | hq
  · rw [sround_neg hq, sround_neg (lt_of_le_of_lt h hq)]
    have := key (-q) (-p) (by linarith) (by linarith)
    omega
  · rcases lt_or_ge p 0 with hp | hp
    · have h1 := (sround_bounds (p := p) hτ).2
      have h2 := (sround_bounds (p := q) hτ).1
      have h3 : ⌈p⌉ ≤ 0 := Int.ceil_le.mpr (by push_cast; linarith)
      have h4 : 0 ≤ ⌊q⌋ := Int.floor_nonneg.mpr hq
      omega
    · exact key p q hp h

theorem rounded_mono {mode : RoundMode} {τ p q : ℚ} (hτ : mode = .stochastic → 0 ≤ τ) (h : p ≤ q) : rounded mode τ p ≤ rounded mode τ q := by
  cases mode
  · exact rha_mono h
  · exact sround_mono (hτ rfl) h

theorem rounded_bounds {mode : RoundMode} {τ p : ℚ} (hτ : mode = .stochastic → 0 ≤ τ) : ⌊p⌋ ≤ rounded mode τ p ∧ rounded mode τ p ≤ ⌈p⌉ := by
  cases mode
  · exact rha_bounds p
  · exact sround_bounds (hτ rfl)

theorem sat_mono {b : Nat} {y z : ℤ} (h : y ≤ z) : sat b y ≤ sat b z := by
  unfold sat; omega
theorem sat_id {b : Nat} {z : ℤ} (h0 : 0 ≤ z) (h1 : z ≤ 2 ^ b - 1) : sat b z = z := by
  unfold sat; omega

end Verif
