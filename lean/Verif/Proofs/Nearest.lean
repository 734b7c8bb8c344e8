import Verif.Spec
import Verif.Proofs.Flt
import Verif.Proofs.QuantAll
import Mathlib.Tactic.LinearCombination

/-! # The two ways the kernels round to nearest -/

namespace Verif
open Simd

variable {f : Fmt}

theorem Rep.mul_pow {q : ℚ} (h : Rep f q) (j : Nat) : Rep f (q * 2 ^ j) := by
  obtain ⟨k, m, hm, _, he⟩ := h.decomp
  obtain ⟨b, hb⟩ := rep_scaled (f := f) (k := k + j) hm.le
  refine ⟨b, ?_⟩
  rw [hb, pow_add]
  linear_combination he * 2 ^ j

theorem Rep.int_of_scaled {q : ℚ} (h : Rep f q) {j : Nat} (hq : (2:ℚ) ^ f.mb ≤ q * 2 ^ j) : ∃ n : Nat, q * 2 ^ j = n := by
  obtain ⟨n, hn⟩ := (h.mul_pow j).int_of_ge (j := 0) (by simpa using hq)
  exact ⟨n, by simpa using hn⟩

theorem emax_gt [f.Good] {q : ℚ} (h : q ≤ 2 ^ (f.mb + 2)) : q ≤ 2 ^ f.emax :=
  h.trans (pow_le_pow_right₀ (by norm_num) (mb_lt_emax (f := f)).le)

/-- Adding one half and truncating is rounding half up, for `1/2 ≤ a < 2^mb`. -/
theorem floor_fl_half [f.Good] {a : ℚ} (h : Rep f a) (h1 : 1 / 2 ≤ a) (h2 : a < 2 ^ f.mb) :
    ⌊fl f (a + 1 / 2)⌋ = ⌊a + 1 / 2⌋ := by
  have hn1 : 1 ≤ ⌊a + 1 / 2⌋ := Int.le_floor.mpr (by push_cast; linarith)
  have hlo := Int.floor_le (a + 1 / 2)
  have hhi := Int.lt_floor_add_one (a + 1 / 2)
  obtain ⟨n, hn⟩ := Int.eq_ofNat_of_zero_le (show 0 ≤ ⌊a + 1/2⌋ by omega)
  rw [hn] at hn1 hlo hhi ⊢
  simp only [Int.cast_natCast] at hn1 hlo hhi
  have hn1' : 1 ≤ n := by exact_mod_cast hn1
  have hnle : n ≤ 2 ^ f.mb := by
    have : (n:ℚ) < ((2 ^ f.mb + 1 : ℕ) : ℚ) := by push_cast; linarith
    have : n < 2 ^ f.mb + 1 := by exact_mod_cast this
    omega
  have hpow : 2 ^ (f.mb + 1) = 2 * 2 ^ f.mb := pow_succ' 2 f.mb
  have hrepn : Rep f (n:ℚ) := rep_nat' (by omega)
  have hnleq : (n:ℚ) ≤ 2 ^ f.mb := by exact_mod_cast hnle
  have hlow : (n:ℚ) ≤ fl f (a + 1/2) := by
    refine le_fl hlo hrepn (emax_gt ?_)
    have : (2:ℚ) ^ f.mb ≤ 2 ^ (f.mb + 2) := pow_le_pow_right₀ (by norm_num) (by omega)
    linarith
  have key : ∀ r : ℚ, Rep f r → a + 1/2 ≤ r → r < n + 1 → ⌊fl f (a + 1/2)⌋ = (n:ℤ) := by
    intro r hr h3 h4
    rw [Int.floor_eq_iff]
    have := fl_le (by linarith) h3 hr
    push_cast
    exact ⟨hlow, by linarith⟩
  change ⌊fl f (a + 1 / 2)⌋ = (n : ℤ)
  rcases Nat.eq_or_lt_of_le hnle with hne | hnlt
  · -- n = 2^mb
    have hnq : (n:ℚ) = 2 ^ f.mb := by exact_mod_cast hne
    have hge : (1:ℚ) ≤ n := by exact_mod_cast hn1'
    obtain ⟨N, hN⟩ := h.int_of_scaled (j := 1) (by rw [pow_one]; linarith)
    rw [pow_one] at hN
    have hNlt : (N:ℚ) < ((2 * n : ℕ) : ℚ) := by push_cast; linarith
    have hNle : N + 1 ≤ 2 * n := by have : N < 2 * n := by exact_mod_cast hNlt
                                    omega
    have : (N:ℚ) + 1 ≤ 2 * n := by exact_mod_cast hNle
    exact key n hrepn (by linarith) (by linarith)
  · rcases le_or_gt a n with han | han
    · -- r = n + 1/2
      refine key ((2 * n + 1 : ℕ) / 2 ^ 1) (rep_div (by omega) ?_) ?_ ?_
      · unfold Fmt.unit; have := Fmt.Good.mb1 (f := f); omega
      · push_cast; linarith
      · push_cast; linarith
    · -- 2^k ≤ n < 2^(k+1)
      obtain ⟨k, hk1, hk2⟩ : ∃ k, 2 ^ k ≤ n ∧ n < 2 ^ (k + 1) :=
        ⟨Nat.log2 n, Nat.log2_self_le (by omega), Nat.lt_log2_self⟩
      have hkmb : k < f.mb := by
        by_contra hc
        have : 2 ^ f.mb ≤ 2 ^ k := Nat.pow_le_pow_right (by omega) (by omega)
        omega
      obtain ⟨j, hj⟩ := Nat.exists_eq_add_of_lt hkmb
      have hk1q : (2:ℚ) ^ k ≤ n := by exact_mod_cast hk1
      have hP : (0:ℚ) < 2 ^ j := by positivity
      obtain ⟨N, hN⟩ := h.int_of_scaled (j := j + 1) (by
        rw [hj, show k + j + 1 = k + (j + 1) by omega, pow_add]
        apply mul_le_mul_of_nonneg_right (by linarith) (by positivity))
      have hNlt : (N:ℚ) < (((2 * n + 1) * 2 ^ j : ℕ) : ℚ) := by
        rw [← hN]; push_cast; rw [pow_succ]; nlinarith
      have hNle : N + 1 ≤ (2 * n + 1) * 2 ^ j := by
        have : N < (2 * n + 1) * 2 ^ j := by exact_mod_cast hNlt
        omega
      have hNq : (N:ℚ) + 1 ≤ (2 * n + 1) * 2 ^ j := by exact_mod_cast hNle
      have hnum : (n + 1) * 2 ^ (j + 1) ≤ 2 ^ (f.mb + 1) := by
        calc (n + 1) * 2 ^ (j + 1) ≤ 2 ^ (k + 1) * 2 ^ (j + 1) := Nat.mul_le_mul_right _ hk2
          _ = 2 ^ (f.mb + 1) := by rw [← pow_add]; congr 1; omega
      have hpos1 : 1 ≤ (n + 1) * 2 ^ (j + 1) := Nat.one_le_iff_ne_zero.mpr (by positivity)
      have hcast : (((n + 1) * 2 ^ (j + 1) - 1 : ℕ) : ℚ) = (n + 1) * 2 ^ (j + 1) - 1 := by
        rw [Nat.cast_sub hpos1]; push_cast; ring
      have hp2 : (0:ℚ) < 2 ^ (j + 1) := by positivity
      refine key (((n + 1) * 2 ^ (j + 1) - 1 : ℕ) / 2 ^ (j + 1)) (rep_div (by omega) ?_) ?_ ?_
      · unfold Fmt.unit; omega
      · rw [hcast, le_div_iff₀ hp2, add_mul, hN, pow_succ]
        nlinarith
      · rw [hcast, div_lt_iff₀ hp2]; linarith

/-- Below one half (but for the float just below it) adding one half and truncating gives 0. -/
theorem floor_fl_half_small [f.Good] {a : ℚ} (h : Rep f a) (h1 : a < 1 / 2) (h2 : a ≠ 1 / 2 - 1 / 2 ^ (f.mb + 2)) :
    ⌊fl f (a + 1 / 2)⌋ = 0 := by
  have ha0 := h.nonneg
  have hpos : (0:ℚ) < 2 ^ f.mb := by positivity
  have hmb := Fmt.Good.mb1 (f := f)
  have h4 : (2:ℚ) ≤ 2 ^ f.mb := by calc (2:ℚ) = 2 ^ 1 := by norm_num
                                    _ ≤ 2 ^ f.mb := pow_le_pow_right₀ (by norm_num) hmb
  have hle : a ≤ 1 / 2 - 1 / 2 ^ (f.mb + 1) := by
    rcases lt_or_ge a (1/4) with h3 | h3
    · have : (1:ℚ) / 2 ^ (f.mb + 1) ≤ 1 / 4 := by
        rw [pow_succ]; apply one_div_le_one_div_of_le (by norm_num); linarith
      linarith
    · obtain ⟨N, hN⟩ := h.int_of_scaled (j := f.mb + 2) (by rw [pow_add]; nlinarith)
      have hNlt : (N:ℚ) < ((2 ^ (f.mb + 1) : ℕ) : ℚ) := by
        rw [← hN]; push_cast; rw [pow_add, pow_add]; nlinarith
      have hNlt' : N < 2 ^ (f.mb + 1) := by exact_mod_cast hNlt
      have hNne : N + 1 ≠ 2 ^ (f.mb + 1) := by
        intro hc
        apply h2
        have hc' : (N:ℚ) + 1 = 2 ^ (f.mb + 1) := by exact_mod_cast hc
        have : a = N / 2 ^ (f.mb + 2) := by rw [← hN]; field_simp
        rw [this, eq_sub_iff_add_eq, ← add_div, hc', pow_succ 2 (f.mb + 1)]
        field_simp
      have hN2 : (N:ℚ) + 2 ≤ 2 ^ (f.mb + 1) := by
        have : N + 2 ≤ 2 ^ (f.mb + 1) := by omega
        exact_mod_cast this
      have : a = N / 2 ^ (f.mb + 2) := by rw [← hN]; field_simp
      rw [this, div_le_iff₀ (by positivity), sub_mul]
      have e1 : (1:ℚ) / 2 * 2 ^ (f.mb + 2) = 2 ^ (f.mb + 1) := by rw [pow_succ 2 (f.mb + 1)]; ring
      have e2 : (1:ℚ) / 2 ^ (f.mb + 1) * 2 ^ (f.mb + 2) = 2 := by rw [pow_succ 2 (f.mb + 1)]; field_simp
      rw [e1, e2]; linarith
  have hr : Rep f (((2 ^ (f.mb + 1) - 1 : ℕ) : ℚ) / 2 ^ (f.mb + 1)) := by
    refine rep_div (Nat.sub_le _ _) ?_
    unfold Fmt.unit
    have h1 : 2 ^ (f.eb - 1) > f.mb + 2 := Fmt.Good.rng
    omega
  have hcast : ((2 ^ (f.mb + 1) - 1 : ℕ) : ℚ) / 2 ^ (f.mb + 1) = 1 - 1 / 2 ^ (f.mb + 1) := by
    rw [Nat.cast_sub Nat.one_le_two_pow]; push_cast; field_simp
  rw [hcast] at hr
  have hlt : (0:ℚ) < 1 / 2 ^ (f.mb + 1) := by positivity
  have := fl_le (by linarith) (show a + 1/2 ≤ 1 - 1 / 2 ^ (f.mb + 1) by linarith) hr
  rw [Int.floor_eq_iff]
  push_cast
  exact ⟨fl_nonneg _, by linarith⟩

/-- From `2^mb` on, values are integers and the sum is off by at most one. -/
theorem floor_fl_half_large [f.Good] {a : ℚ} (h : Rep f a) (ha : a < 2 ^ f.emax) :
    ⌊a⌋ ≤ ⌊fl f (a + 1 / 2)⌋ ∧ fl f (a + 1 / 2) ≤ a + 1 := by
  constructor
  · exact Int.floor_le_floor (le_fl (by linarith) h ha.le)
  · have ha0 := h.nonneg
    obtain ⟨b, hb⟩ := h
    have hu := two_unit_pos (f := f)
    have h1 := roundMag_nearest f.mb (q := (a + 1/2) * 2 ^ f.unit) (by positivity) b
    rw [← hb] at h1
    have e : a * 2 ^ f.unit - (a + 1/2) * 2 ^ f.unit = -(2 ^ f.unit / 2) := by ring
    have hp : (0:ℚ) < 2 ^ f.unit / 2 := by positivity
    rw [e, abs_neg, abs_of_pos hp] at h1
    have h2 := (abs_le.mp h1).2
    have h3 : Flt.roundAbs f (a + 1/2) ≤ roundMag f.mb ((a + 1/2) * 2 ^ f.unit) := Nat.min_le_right _ _
    have h4 : (magVal f.mb (Flt.roundAbs f (a + 1/2)) : ℚ) ≤ magVal f.mb (roundMag f.mb ((a + 1/2) * 2 ^ f.unit)) := by
      exact_mod_cast magVal_mono f.mb h3
    unfold fl
    rw [div_le_iff₀ hu]
    linarith

end Verif
