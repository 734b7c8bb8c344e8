import Verif.Proofs.Fp
import Verif.Model.Scalar
import Mathlib.Algebra.Order.Floor.Ring
import Mathlib.Tactic.Linarith
import Mathlib.Tactic.Positivity
import Mathlib.Tactic.NormNum
import Mathlib.Tactic.FieldSimp
import Mathlib.Tactic.Ring

/-! # Values of floats -/

namespace Verif

/-- Formats with enough exponent range (all used here). -/
class Fmt.Good (f : Fmt) : Prop where
  mb1 : 1 ≤ f.mb
  eb2 : 2 ≤ f.eb
  rng : f.mb + 2 < 2 ^ (f.eb - 1)

instance : Fmt.Good f32 := ⟨by decide, by decide, by decide⟩
instance : Fmt.Good f64 := ⟨by decide, by decide, by decide⟩
instance : Fmt.Good bf16 := ⟨by decide, by decide, by decide⟩

/-- Finite values are below `2^emax`. -/
def Fmt.emax (f : Fmt) : Nat := 2 ^ (f.eb - 1)

theorem emax_f32 : f32.emax = 128 := by decide
theorem unit_f32 : f32.unit = 149 := by decide

variable {f : Fmt}

theorem magVal_infMag [h : f.Good] : magVal f.mb f.infMag = 2 ^ (f.emax + f.unit) := by
  have h1 := h.mb1
  have h2 := h.eb2
  have e : f.infMag = (2 ^ f.eb - 2) * 2 ^ f.mb + 2 ^ f.mb := by
    unfold Fmt.infMag
    have : 2 ^ f.eb ≥ 2 ^ 2 := Nat.pow_le_pow_right (by omega) h2
    have : 2 ^ f.eb - 1 = (2 ^ f.eb - 2) + 1 := by omega
    rw [this, Nat.add_mul, Nat.one_mul]
  rw [e, magVal_enc (Or.inr (Nat.le_refl _)) (Nat.pow_le_pow_right (by omega) (by omega)), ← pow_add]
  congr 1
  unfold Fmt.unit Fmt.emax
  have : 2 ^ f.eb = 2 * 2 ^ (f.eb - 1) := by rw [← pow_succ']; congr 1; omega
  have h3 : 2 ^ (f.eb - 1) ≥ 2 ^ 1 := Nat.pow_le_pow_right (by omega) (by omega)
  omega

/-- `q` is a value of the format, with unbounded exponent. -/
def Rep (f : Fmt) (q : ℚ) : Prop := ∃ b, q * 2 ^ f.unit = (magVal f.mb b : ℚ)

/-- The value of the correctly rounded magnitude. -/
def fl (f : Fmt) (q : ℚ) : ℚ := (magVal f.mb (Flt.roundAbs f q) : ℚ) / 2 ^ f.unit

theorem absRat_mk (s : Bool) (q : ℚ) : (⟨s, Flt.roundAbs f q⟩ : Flt f).absRat = fl f q := rfl

theorem absRat_nonneg (x : Flt f) : 0 ≤ x.absRat := by unfold Flt.absRat; positivity
theorem fl_nonneg (q : ℚ) : 0 ≤ fl f q := by unfold fl; positivity

theorem two_unit_pos : (0:ℚ) < 2 ^ f.unit := by positivity

theorem rep_absRat (x : Flt f) : Rep f x.absRat := ⟨x.mag, by unfold Flt.absRat; field_simp⟩

theorem Rep.nonneg {q : ℚ} (h : Rep f q) : 0 ≤ q := by
  obtain ⟨b, h⟩ := h
  have : (0:ℚ) ≤ q * 2 ^ f.unit := by rw [h]; positivity
  exact nonneg_of_mul_nonneg_left this two_unit_pos

theorem absRat_lt_iff {a b : Flt f} : a.absRat < b.absRat ↔ a.mag < b.mag := by
  unfold Flt.absRat
  rw [div_lt_div_iff_of_pos_right two_unit_pos, Nat.cast_lt]
  exact (magVal_strictMono f.mb).lt_iff_lt

theorem absRat_inj {a b : Flt f} (h : a.absRat = b.absRat) : a.mag = b.mag := by
  unfold Flt.absRat at h
  rw [div_left_inj' two_unit_pos.ne', Nat.cast_inj] at h
  exact magVal_inj h

theorem absRat_inf [f.Good] (s : Bool) : (Flt.inf s : Flt f).absRat = 2 ^ f.emax := by
  unfold Flt.absRat Flt.inf
  simp only [magVal_infMag]
  push_cast
  rw [pow_add]; field_simp

theorem isFin_iff [f.Good] {x : Flt f} : x.isFin = true ↔ x.absRat < 2 ^ f.emax := by
  rw [← absRat_inf (f := f) false, absRat_lt_iff]
  simp [Flt.isFin, Flt.inf]

theorem isFin_mk [f.Good] {s : Bool} {q : ℚ} : (⟨s, Flt.roundAbs f q⟩ : Flt f).isFin = true ↔ fl f q < 2 ^ f.emax := by
  rw [isFin_iff, absRat_mk]

theorem fl_le_emax [f.Good] (q : ℚ) : fl f q ≤ 2 ^ f.emax := by
  have h : Flt.roundAbs f q ≤ f.infMag := Nat.min_le_left _ _
  have := magVal_mono f.mb h
  rw [magVal_infMag] at this
  unfold fl
  rw [div_le_iff₀ two_unit_pos, ← pow_add]
  exact_mod_cast this

theorem rep_emax [f.Good] : Rep f (2 ^ f.emax) := ⟨f.infMag, by rw [magVal_infMag, ← pow_add]; push_cast; rfl⟩

theorem roundAbs_mono {p q : ℚ} (hp : 0 ≤ p) (h : p ≤ q) : Flt.roundAbs f p ≤ Flt.roundAbs f q := by
  unfold Flt.roundAbs
  have : roundMag f.mb (p * 2 ^ f.unit) ≤ roundMag f.mb (q * 2 ^ f.unit) :=
    roundMag_mono f.mb (by positivity) (mul_le_mul_of_nonneg_right h (by positivity))
  omega

theorem fl_mono {p q : ℚ} (hp : 0 ≤ p) (h : p ≤ q) : fl f p ≤ fl f q := by
  unfold fl
  have := magVal_mono f.mb (roundAbs_mono (f := f) hp h)
  gcongr

theorem fl_rep [f.Good] {q : ℚ} (h : Rep f q) (hq : q ≤ 2 ^ f.emax) : fl f q = q := by
  obtain ⟨b, hb⟩ := h
  have hble : b ≤ f.infMag := by
    have h1 : (magVal f.mb b : ℚ) ≤ magVal f.mb f.infMag := by
      rw [← hb, magVal_infMag, pow_add]; push_cast
      exact mul_le_mul_of_nonneg_right hq (by positivity)
    exact (magVal_strictMono f.mb).le_iff_le.mp (by exact_mod_cast h1)
  unfold fl Flt.roundAbs
  rw [hb, roundMag_magVal, Nat.min_eq_right hble, ← hb]
  field_simp

theorem roundAbs_absRat {x : Flt f} (h : x.mag ≤ f.infMag) : Flt.roundAbs f x.absRat = x.mag := by
  unfold Flt.roundAbs
  have : x.absRat * 2 ^ f.unit = (magVal f.mb x.mag : ℚ) := by unfold Flt.absRat; field_simp
  rw [this, roundMag_magVal]; omega

theorem fl_le [f.Good] {q r : ℚ} (hq : 0 ≤ q) (h : q ≤ r) (hr : Rep f r) : fl f q ≤ r := by
  rcases le_total r (2 ^ f.emax) with h1 | h1
  · have := fl_mono (f := f) hq h
    rwa [fl_rep hr h1] at this
  · exact (fl_le_emax q).trans h1

theorem le_fl [f.Good] {q r : ℚ} (h : r ≤ q) (hr : Rep f r) (hr2 : r ≤ 2 ^ f.emax) : r ≤ fl f q := by
  have := fl_mono (f := f) hr.nonneg h
  rwa [fl_rep hr hr2] at this

theorem lt_of_fl_lt [f.Good] {q : ℚ} (h : fl f q < 2 ^ f.emax) : q < 2 ^ f.emax := by
  by_contra hc
  have := le_fl (f := f) (not_lt.mp hc) rep_emax le_rfl
  linarith

/-- `m * 2^e` with a short significand is representable. -/
theorem rep_scaled {m k : Nat} (hm : m ≤ 2 ^ (f.mb + 1)) : ∃ b, (magVal f.mb b : ℚ) = m * 2 ^ k := by
  rcases Nat.eq_or_lt_of_le hm with h | h
  · refine ⟨(k + 1) * 2 ^ f.mb + 2 ^ f.mb, ?_⟩
    rw [magVal_enc (Or.inr (Nat.le_refl _)) (Nat.pow_le_pow_right (by omega) (by omega)), h]
    push_cast; ring
  · refine ⟨roundMag f.mb ((m:ℚ) * 2 ^ k), ?_⟩
    have hnn : (0:ℚ) ≤ (m:ℚ) * 2 ^ k := by positivity
    have hex : expo f.mb ((m:ℚ) * 2 ^ k) ≤ k := by
      rcases (expo_spec f.mb hnn).2 with h0 | h0
      · omega
      · by_contra hc
        have h1 : (m:ℚ) * 2 ^ k < 2 ^ (f.mb + 1) * 2 ^ k := by
          apply mul_lt_mul_of_pos_right _ (by positivity)
          exact_mod_cast h
        have h2 : (2:ℚ) ^ (f.mb + 1) * 2 ^ k ≤ 2 ^ (f.mb + expo f.mb ((m:ℚ) * 2 ^ k)) := by
          rw [← pow_add]; exact pow_le_pow_right₀ (by norm_num) (by omega)
        linarith
    obtain ⟨t, ht⟩ := Nat.exists_eq_add_of_le hex
    rw [magVal_roundMag f.mb hnn]
    generalize expo f.mb ((m:ℚ) * 2 ^ k) = e at *
    subst ht
    have e1 : (m:ℚ) * 2 ^ (e + t) / 2 ^ e = ((m * 2 ^ t : ℕ) : ℚ) := by
      push_cast; rw [pow_add]; field_simp
    rw [e1, rne_nat]; push_cast; rw [pow_add]; ring

/-- Integers with a short significand. -/
theorem rep_nat {m k : Nat} (hm : m ≤ 2 ^ (f.mb + 1)) : Rep f ((m:ℚ) * 2 ^ k) := by
  obtain ⟨b, hb⟩ := rep_scaled (f := f) (k := k + f.unit) hm
  exact ⟨b, by rw [hb, pow_add]; ring⟩

theorem rep_nat' {m : Nat} (hm : m ≤ 2 ^ (f.mb + 1)) : Rep f (m:ℚ) := by
  have := rep_nat (f := f) (k := 0) hm; simpa using this

/-- Dyadic rationals. -/
theorem rep_div {m k : Nat} (hm : m ≤ 2 ^ (f.mb + 1)) (hk : k ≤ f.unit) : Rep f ((m:ℚ) / 2 ^ k) := by
  obtain ⟨b, hb⟩ := rep_scaled (f := f) (k := f.unit - k) hm
  refine ⟨b, ?_⟩
  rw [hb]
  have : (2:ℚ) ^ f.unit = 2 ^ (f.unit - k) * 2 ^ k := by rw [← pow_add]; congr 1; omega
  rw [this]; field_simp

/-- Decomposition of a representable value. -/
theorem Rep.decomp {q : ℚ} (h : Rep f q) : ∃ k m : Nat, m < 2 ^ (f.mb + 1) ∧ (k = 0 ∨ 2 ^ f.mb ≤ m) ∧ q * 2 ^ f.unit = (m:ℚ) * 2 ^ k := by
  obtain ⟨b, hb⟩ := h
  obtain ⟨k, m, _, hk, hm, hv⟩ := mag_decomp f.mb b
  exact ⟨k, m, hm, hk, by rw [hb, hv]; push_cast; rfl⟩

/-- Large representable values are integers (multiples of `2^j`). -/
theorem Rep.int_of_ge {q : ℚ} (h : Rep f q) {j : Nat} (hq : (2:ℚ) ^ (f.mb + j) ≤ q) : ∃ n : Nat, q = n * 2 ^ j := by
  obtain ⟨k, m, hm, _, he⟩ := h.decomp
  have hk : f.unit + j ≤ k := by
    by_contra hc
    have h1 : (m:ℚ) * 2 ^ k < 2 ^ (f.mb + 1) * 2 ^ k := by
      apply mul_lt_mul_of_pos_right _ (by positivity)
      exact_mod_cast hm
    have h2 : (2:ℚ) ^ (f.mb + 1) * 2 ^ k ≤ 2 ^ (f.mb + j) * 2 ^ f.unit := by
      rw [← pow_add, ← pow_add]; exact pow_le_pow_right₀ (by norm_num) (by omega)
    have h3 := mul_le_mul_of_nonneg_right hq (two_unit_pos (f := f)).le
    linarith
  obtain ⟨t, rfl⟩ := Nat.exists_eq_add_of_le hk
  refine ⟨m * 2 ^ t, ?_⟩
  have : q * 2 ^ f.unit = ((m * 2 ^ t : ℕ) : ℚ) * 2 ^ j * 2 ^ f.unit := by
    rw [he]; push_cast; rw [pow_add, pow_add]; ring
  exact mul_right_cancel₀ two_unit_pos.ne' this

theorem mb_lt_emax [h : f.Good] : f.mb + 2 < f.emax := h.rng

/-- `floor(a + 1/2)` and `floor a` of a representable value are representable. -/
theorem rep_floor [f.Good] {a c : ℚ} (h : Rep f a) (ha : a < 2 ^ f.emax) (hc0 : 0 ≤ c) (hc : c < 1) :
    Rep f ((⌊a + c⌋ : ℤ) : ℚ) ∧ ((⌊a + c⌋ : ℤ) : ℚ) < 2 ^ f.emax := by
  have ha0 := h.nonneg
  rcases le_total ((2:ℚ) ^ f.mb) a with h1 | h1
  · obtain ⟨n, rfl⟩ := h.int_of_ge (j := 0) (by simpa using h1)
    have : ⌊((n:ℚ) * 2 ^ 0) + c⌋ = (n:ℤ) := by
      rw [Int.floor_eq_iff]; push_cast; constructor <;> simp <;> linarith
    rw [this]
    simp at h ha ⊢
    exact ⟨h, ha⟩
  · have hfl : 0 ≤ ⌊a + c⌋ := Int.floor_nonneg.mpr (by linarith)
    have hlt : ⌊a + c⌋ < 2 ^ f.mb + 1 := by
      rw [Int.floor_lt]; push_cast; linarith
    obtain ⟨n, hn⟩ := Int.eq_ofNat_of_zero_le hfl
    rw [hn] at hlt ⊢
    have hle : n ≤ 2 ^ f.mb := by
      have : (n:ℤ) < ((2 ^ f.mb + 1 : ℕ) : ℤ) := by push_cast; exact hlt
      omega
    have hle2 : n ≤ 2 ^ (f.mb + 1) := hle.trans (Nat.pow_le_pow_right (by omega) (by omega))
    refine ⟨rep_nat' hle2, ?_⟩
    have : (n:ℚ) ≤ 2 ^ f.mb := by exact_mod_cast hle
    have h2 : (2:ℚ) ^ f.mb < 2 ^ f.emax := pow_lt_pow_right₀ (by norm_num) (by have := mb_lt_emax (f := f); omega)
    simp; linarith

/-- Nearest integer, halves away from zero, of a non-negative rational. -/
theorem round_fin [f.Good] {x : Flt f} (h : x.isFin = true) :
    (Flt.round x).isFin = true ∧ (Flt.round x).absRat = ⌊x.absRat + 1/2⌋ ∧ (Flt.round x).neg = x.neg := by
  have := rep_floor (rep_absRat x) (isFin_iff.mp h) (c := 1/2) (by norm_num) (by norm_num)
  have e : fl f ((⌊x.absRat + 1/2⌋ : ℤ) : ℚ) = ⌊x.absRat + 1/2⌋ := fl_rep this.1 this.2.le
  unfold Flt.round
  rw [if_pos h]
  refine ⟨?_, ?_, rfl⟩
  · rw [isFin_mk, floor_eq', e]; exact this.2
  · rw [absRat_mk, floor_eq', e]

theorem trunc_fin [f.Good] {x : Flt f} (h : x.isFin = true) :
    (Flt.trunc x).isFin = true ∧ (Flt.trunc x).absRat = ⌊x.absRat⌋ ∧ (Flt.trunc x).neg = x.neg := by
  have := rep_floor (rep_absRat x) (isFin_iff.mp h) (c := 0) (by norm_num) (by norm_num)
  rw [add_zero] at this
  have e : fl f ((⌊x.absRat⌋ : ℤ) : ℚ) = ⌊x.absRat⌋ := fl_rep this.1 this.2.le
  unfold Flt.trunc
  rw [if_pos h]
  refine ⟨?_, ?_, rfl⟩
  · rw [isFin_mk, floor_eq', e]; exact this.2
  · rw [absRat_mk, floor_eq', e]

theorem truncInt_round [f.Good] {x : Flt f} (h : x.isFin = true) :
    Flt.truncInt (Flt.round x) = if x.neg then -⌊x.absRat + 1/2⌋ else ⌊x.absRat + 1/2⌋ := by
  obtain ⟨_, h2, h3⟩ := round_fin h
  unfold Flt.truncInt
  rw [h3, h2, floor_eq', Int.floor_intCast]

theorem truncInt_trunc [f.Good] {x : Flt f} (h : x.isFin = true) :
    Flt.truncInt (Flt.trunc x) = Flt.truncInt x := by
  obtain ⟨_, h2, h3⟩ := trunc_fin h
  unfold Flt.truncInt
  rw [h3, h2, floor_eq', floor_eq', Int.floor_intCast]

/-! ## Rounding error -/

/-- Error of rounding to a finite float. -/
theorem fl_err [f.Good] {q : ℚ} (h : 0 ≤ q) (hf : fl f q < 2 ^ f.emax) :
    |fl f q - q| ≤ max (1 / 2 ^ (f.unit + 1)) (q / 2 ^ (f.mb + 1)) := by
  have hlt : Flt.roundAbs f q < f.infMag := by
    have := (isFin_mk (f := f) (s := false) (q := q)).mpr hf
    simpa [Flt.isFin] using this
  have hr : Flt.roundAbs f q = roundMag f.mb (q * 2 ^ f.unit) := by
    unfold Flt.roundAbs at hlt ⊢; omega
  have hu := two_unit_pos (f := f)
  have := roundMag_err' f.mb (q := q * 2 ^ f.unit) (by positivity)
  have e : fl f q - q = ((magVal f.mb (roundMag f.mb (q * 2 ^ f.unit)) : ℚ) - q * 2 ^ f.unit) / 2 ^ f.unit := by
    unfold fl; rw [hr]; field_simp
  rw [e, abs_div, abs_of_pos hu, div_le_iff₀ hu, max_mul_of_nonneg _ _ hu.le]
  refine this.trans (le_of_eq ?_)
  congr 1
  · rw [pow_succ]; field_simp
  · field_simp

/-- The result is finite when the exact value is at most the largest finite value. -/
theorem fl_fin [f.Good] {q : ℚ} (h : 0 ≤ q) (hq : q ≤ 2 ^ (f.emax - 1)) : fl f q < 2 ^ f.emax := by
  have h1 : Rep f ((2:ℚ) ^ (f.emax - 1)) := by
    have := rep_nat (f := f) (m := 1) (k := f.emax - 1) Nat.one_le_two_pow
    simpa using this
  have h2 := fl_le h hq h1
  have h3 : (2:ℚ) ^ (f.emax - 1) < 2 ^ f.emax := pow_lt_pow_right₀ (by norm_num) (by have := mb_lt_emax (f := f); omega)
  linarith

end Verif
