import Verif.Proofs.Bf16Trip

/-! # Rounding to binary32 and then to bfloat16

The four bfloat16 operators compute in `float` and round the result to bfloat16.  Here: for the results these
operations can have, the two roundings give the same as one. -/

namespace Verif
open Simd

/-- The point halfway between two neighbouring bfloat16 values is a binary32 value. -/
theorem mid_eq (c : Nat) : 2 * magVal 23 (65536 * c + 32768) = 65536 * (magVal 7 c + magVal 7 (c + 1)) := by
  obtain ⟨k, m, hb, hk, hm, hv⟩ := mag_decomp 7 c
  have h1 : magVal 7 (c + 1) = (m + 1) * 2 ^ k := by rw [hb, add_assoc]; exact magVal_enc (by omega) (by omega)
  have h2 : magVal 23 (65536 * c + 32768) = (65536 * m + 32768) * 2 ^ k := by
    have e : 65536 * c + 32768 = k * 2 ^ 23 + (65536 * m + 32768) := by rw [hb]; ring
    rw [e]
    exact magVal_enc (hk.imp id fun h => by norm_num at h ⊢; omega) (by norm_num at hm ⊢; omega)
  rw [h1, h2, hv]; ring

theorem below_mid {Q : ℚ} (h0 : 0 ≤ Q) {c : Nat} (h : Q < magVal 23 (65536 * c + 32768)) : roundMag 7 (Q / 2 ^ 16) ≤ c := by
  by_contra hc
  push Not at hc
  have hm : (2:ℚ) * magVal 23 (65536 * c + 32768) = 65536 * (magVal 7 c + magVal 7 (c + 1)) := by exact_mod_cast mid_eq c
  have hx : 0 ≤ Q / 2 ^ 16 := by positivity
  have e : Q = 65536 * (Q / 2 ^ 16) := by field_simp; norm_num
  set x := Q / 2 ^ 16
  have hle : (magVal 7 (c + 1) : ℚ) ≤ magVal 7 (roundMag 7 x) := by exact_mod_cast magVal_mono 7 hc
  have hs : (magVal 7 c : ℚ) < magVal 7 (c + 1) := by exact_mod_cast magVal_lt_succ 7 c
  have hn := roundMag_nearest 7 hx c
  rcases le_or_gt x (magVal 7 c) with g | g
  · have := roundMag_le_of_le hx g; omega
  · rw [abs_of_neg (show (magVal 7 c : ℚ) - x < 0 by linarith)] at hn
    have := le_abs_self ((magVal 7 (roundMag 7 x) : ℚ) - x)
    linarith

theorem above_mid {Q : ℚ} {c : Nat} (h : (magVal 23 (65536 * c + 32768) : ℚ) < Q) : c + 1 ≤ roundMag 7 (Q / 2 ^ 16) := by
  by_contra hc
  push Not at hc
  have hm : (2:ℚ) * magVal 23 (65536 * c + 32768) = 65536 * (magVal 7 c + magVal 7 (c + 1)) := by exact_mod_cast mid_eq c
  have h0 : 0 ≤ Q := le_of_lt (lt_of_le_of_lt (Nat.cast_nonneg _) h)
  have hx : 0 ≤ Q / 2 ^ 16 := by positivity
  have e : Q = 65536 * (Q / 2 ^ 16) := by field_simp; norm_num
  set x := Q / 2 ^ 16
  have hle : (magVal 7 (roundMag 7 x) : ℚ) ≤ magVal 7 c := by exact_mod_cast magVal_mono 7 (by omega)
  have hs : (magVal 7 c : ℚ) < magVal 7 (c + 1) := by exact_mod_cast magVal_lt_succ 7 c
  have hn := roundMag_nearest 7 hx (c + 1)
  rcases le_or_gt (magVal 7 (c + 1) : ℚ) x with g | g
  · have := le_roundMag_of_le g; omega
  · rw [abs_of_pos (show 0 < (magVal 7 (c + 1) : ℚ) - x by linarith)] at hn
    have := neg_abs_le ((magVal 7 (roundMag 7 x) : ℚ) - x)
    linarith

/-- Two roundings are one, unless the first one lands on a halfway point from the wrong side. -/
theorem double_round {Q : ℚ} (h0 : 0 ≤ Q) (H : roundMag 23 Q % 65536 = 32768 → Q = magVal 23 (roundMag 23 Q) ∨ (roundMag 23 Q = 32768 ∧ Q < 32768)) :
    rne ((roundMag 23 Q : ℚ) / 2 ^ 16) = roundMag 7 (Q / 2 ^ 16) := by
  rw [rne_shift]
  generalize hb : roundMag 23 Q = b at *
  have lo : ∀ c, b < 65536 * c + 32768 → roundMag 7 (Q / 2 ^ 16) ≤ c := by
    intro c hc
    apply below_mid h0
    by_contra hn
    push Not at hn
    have := le_roundMag_of_le hn
    omega
  have up : ∀ c, 65536 * c + 32768 < b → c + 1 ≤ roundMag 7 (Q / 2 ^ 16) := by
    intro c hc
    apply above_mid
    by_contra hn
    push Not at hn
    have := roundMag_le_of_le h0 hn
    omega
  rcases Nat.lt_trichotomy (b % 65536) 32768 with hr | hr | hr
  · have h1 := lo (b / 65536) (by omega)
    have h2 : b / 65536 ≤ roundMag 7 (Q / 2 ^ 16) := by
      by_cases hc : b / 65536 = 0
      · omega
      · have := up (b / 65536 - 1) (by omega); omega
    omega
  · rcases H hr with e | ⟨e, hq⟩
    · conv_rhs => rw [e, roundMag_bf16, rne_shift]
    · have : magVal 23 (65536 * 0 + 32768) = 32768 := magVal_small (by norm_num)
      have := below_mid h0 (c := 0) (by rw [this]; exact_mod_cast hq)
      omega
  · have h1 := lo (b / 65536 + 1) (by omega)
    have h2 := up (b / 65536) (by omega)
    omega

/-- A value rounded to a halfway point is within half a binary32 step of it. -/
theorem round_to_mid {Q : ℚ} (h0 : 0 ≤ Q) (hr : roundMag 23 Q % 65536 = 32768) :
    ∃ k j : Nat, j < 256 ∧ (k = 0 ∨ 128 ≤ j) ∧ magVal 23 (roundMag 23 Q) = (2 * j + 1) * 2 ^ (15 + k) ∧
      roundMag 23 Q = k * 2 ^ 23 + (65536 * j + 32768) ∧ |Q - (2 * j + 1) * 2 ^ (15 + k)| ≤ 2 ^ k / 2 := by
  obtain ⟨k, m, hb, hk, hm, hv⟩ := mag_decomp 23 (roundMag 23 Q)
  have hmr : m % 65536 = 32768 := by norm_num at hb; omega
  obtain ⟨j, hj⟩ : ∃ j, m = 65536 * j + 32768 := ⟨m / 65536, by omega⟩
  have up : magVal 23 (roundMag 23 Q + 1) = (m + 1) * 2 ^ k := by
    rw [hb, add_assoc]; exact magVal_enc (by omega) (by omega)
  have dn : magVal 23 (roundMag 23 Q - 1) = (m - 1) * 2 ^ k := by
    rw [hb, Nat.add_sub_assoc (by omega)]
    exact magVal_enc (hk.imp id fun h => by norm_num at h ⊢; omega) (by omega)
  have n1 := roundMag_nearest 23 h0 (roundMag 23 Q + 1)
  have n2 := roundMag_nearest 23 h0 (roundMag 23 Q - 1)
  rw [up] at n1
  rw [dn] at n2
  rw [hv] at n1 n2
  have hm1 : ((m - 1 : ℕ) : ℚ) = m - 1 := by rw [Nat.cast_sub (by omega)]; norm_num
  push_cast [hm1] at n1 n2
  have e : (m : ℚ) * 2 ^ k = (2 * j + 1) * 2 ^ (15 + k) := by rw [hj, pow_add]; push_cast; ring
  refine ⟨k, j, by norm_num at hm; omega, hk.imp id fun h => by norm_num at h; omega, ?_, by rw [← hj]; exact hb, ?_⟩
  · rw [hv, hj, pow_add]; ring
  · rw [← e]
    have hp : (0:ℚ) < 2 ^ k := by positivity
    have a1 := le_abs_self ((m:ℚ) * 2 ^ k - Q)
    have a2 := neg_abs_le ((m:ℚ) * 2 ^ k - Q)
    have a3 : ((m:ℚ) + 1) * 2 ^ k = m * 2 ^ k + 2 ^ k := by ring
    have a4 : ((m:ℚ) - 1) * 2 ^ k = m * 2 ^ k - 2 ^ k := by ring
    rw [a3] at n1
    rw [a4] at n2
    generalize (m:ℚ) * 2 ^ k = M at *
    rw [abs_le]
    constructor
    · by_contra hc
      push Not at hc
      rcases abs_cases (M - 2 ^ k - Q) with ⟨g, _⟩ | ⟨g, _⟩ <;> rw [g] at n2 <;> linarith
    · by_contra hc
      push Not at hc
      rcases abs_cases (M + 2 ^ k - Q) with ⟨g, _⟩ | ⟨g, _⟩ <;> rw [g] at n1 <;> linarith

/-- What has to be shown of an exact result for its two roundings to be one. -/
def NoTrap (Q : ℚ) : Prop := ∀ k j : Nat, j < 256 → (k = 0 ∨ 128 ≤ j) → |Q - (2 * j + 1) * 2 ^ (15 + k)| ≤ 2 ^ k / 2 →
  Q = (2 * j + 1) * 2 ^ (15 + k) ∨ (k = 0 ∧ j = 0 ∧ Q < 32768)

theorem NoTrap.round {Q : ℚ} (h0 : 0 ≤ Q) (h : NoTrap Q) : rne ((roundMag 23 Q : ℚ) / 2 ^ 16) = roundMag 7 (Q / 2 ^ 16) := by
  refine double_round h0 fun hr => ?_
  obtain ⟨k, j, hj, hk, hv, hb, hd⟩ := round_to_mid h0 hr
  rcases h k j hj hk hd with g | ⟨rfl, rfl, g⟩
  · left; rw [hv, g]; push_cast; ring
  · right; rw [hb]; exact ⟨by norm_num, g⟩

theorem roundAbs_double {q : ℚ} (h0 : 0 ≤ q) (h : NoTrap (q * 2 ^ 149)) (s : Bool) :
    Flt.roundAbs bf16 (⟨s, Flt.roundAbs f32 q⟩ : F32).absRat = Flt.roundAbs bf16 q := by
  rw [roundAbs_bf16 (by unfold Flt.roundAbs; rw [infMag_f32]; exact Nat.min_le_left _ _)]
  unfold Flt.roundAbs
  rw [unit_f32, unit_bf16, show bf16.mb = 7 from rfl, show f32.mb = 23 from rfl, infMag_bf16, infMag_f32]
  have e : q * 2 ^ 133 = q * 2 ^ 149 / 2 ^ 16 := by
    rw [eq_div_iff (by positivity), mul_assoc, ← pow_add]
  rw [e, ← h.round (by positivity), rne_shift]
  omega

theorem noTrap_mul {N e : Nat} (hN : N < 65536) : NoTrap ((N:ℚ) * 2 ^ e / 2 ^ 117) := by
  intro k j hj hk hd
  have hp : (0:ℚ) < 2 ^ k := by positivity
  rcases lt_or_ge ((N:ℚ) * 2 ^ e / 2 ^ 117) (2 ^ (15 + k)) with hlt | hge
  · right
    rw [abs_le] at hd
    have hj0 : j = 0 := by
      by_contra hj0
      have : (1:ℚ) ≤ j := by exact_mod_cast Nat.one_le_iff_ne_zero.2 hj0
      have e1 : (2:ℚ) ^ (15 + k) = 32768 * 2 ^ k := by rw [pow_add]; norm_num
      rw [e1] at hlt hd
      nlinarith [hd.1, hd.2]
    have hk0 : k = 0 := by omega
    subst hk0; subst hj0
    norm_num at hlt
    exact ⟨rfl, rfl, hlt⟩
  · left
    have he : 117 + k ≤ e := by
      by_contra hc
      push Not at hc
      rw [le_div_iff₀ (by positivity), ← pow_add] at hge
      have h1 : (N:ℚ) < 2 ^ 16 := by exact_mod_cast hN
      have h2 : (2:ℚ) ^ e * 2 ^ 16 ≤ 2 ^ (15 + k + 117) := by rw [← pow_add]; exact pow_le_pow_right₀ (by norm_num) (by omega)
      have h3 : (0:ℚ) < 2 ^ e := by positivity
      nlinarith
    obtain ⟨t, rfl⟩ := Nat.exists_eq_add_of_le he
    have e1 : (N:ℚ) * 2 ^ (117 + k + t) / 2 ^ 117 = (N * 2 ^ t : ℕ) * 2 ^ k := by
      rw [pow_add, pow_add]; push_cast; field_simp
    rw [e1] at hd ⊢
    have e2 : ((2:ℚ) * j + 1) * 2 ^ (15 + k) = ((2 * j + 1) * 32768 : ℕ) * 2 ^ k := by rw [pow_add]; push_cast; ring
    rw [e2] at hd ⊢
    generalize N * 2 ^ t = A at *
    generalize (2 * j + 1) * 32768 = B at *
    rw [← sub_mul, abs_mul, abs_of_pos hp] at hd
    have hd' : |((A:ℤ) - B : ℤ)| < 1 := by
      have : |((A:ℚ) - B)| ≤ 1 / 2 := by
        by_contra hc; push Not at hc; nlinarith
      have : |((A:ℚ) - B)| < 1 := by linarith
      exact_mod_cast this
    have : (A:ℤ) - B = 0 := by rwa [Int.abs_lt_one_iff] at hd'
    have : A = B := by omega
    rw [this]

theorem noTrap_div {Q : ℚ} {ma mb D E : Nat} (h0 : 0 < mb) (ha : ma < 256) (hb : mb < 256) (hQ : Q * (mb * 2 ^ D) = ma * 2 ^ E) : NoTrap Q := by
  intro k j hj hk hd
  left
  have hp : (0:ℚ) < 2 ^ k := by positivity
  have hmb : (0:ℚ) < mb := by exact_mod_cast h0
  have hmb' : (mb:ℚ) ≤ 255 := by exact_mod_cast (by omega : mb ≤ 255)
  have hma' : (ma:ℚ) ≤ 255 := by exact_mod_cast (by omega : ma ≤ 255)
  have e1 : (2:ℚ) ^ (15 + k) = 32768 * 2 ^ k := by rw [pow_add]; norm_num
  rw [e1] at hd ⊢
  have hint : ∀ z : ℤ, |(z:ℚ)| < 1 → z = 0 := by
    intro z hz
    have : |z| < 1 := by exact_mod_cast hz
    rwa [Int.abs_lt_one_iff] at this
  rcases le_or_gt (15 + k + D) E with hE | hE
  · obtain ⟨t, rfl⟩ := Nat.exists_eq_add_of_le hE
    have h1 : Q * mb = ma * 2 ^ t * (32768 * 2 ^ k) := by
      have h2 : (0:ℚ) < 2 ^ D := by positivity
      have : Q * mb * 2 ^ D = ma * 2 ^ t * (32768 * 2 ^ k) * 2 ^ D := by
        rw [mul_assoc, hQ, show 15 + k + D + t = 15 + k + D + t from rfl, pow_add, pow_add, e1]; ring
      exact mul_right_cancel₀ h2.ne' this
    have h2 : (Q - (2 * j + 1) * (32768 * 2 ^ k)) * mb = ((ma * 2 ^ t - (2 * j + 1) * mb : ℤ) : ℚ) * (32768 * 2 ^ k) := by
      rw [sub_mul, h1]; push_cast; ring
    have h3 := hint (ma * 2 ^ t - (2 * j + 1) * mb) (by
      by_contra hc
      push Not at hc
      have h4 := congrArg abs h2
      rw [abs_mul, abs_mul, abs_of_pos hmb, abs_of_pos (by positivity : (0:ℚ) < 32768 * 2 ^ k)] at h4
      have h5 : |Q - (2 * j + 1) * (32768 * 2 ^ k)| * mb ≤ 2 ^ k / 2 * 255 := mul_le_mul hd hmb' hmb.le (by positivity)
      have h6 : (32768:ℚ) * 2 ^ k ≤ |((ma * 2 ^ t - (2 * j + 1) * mb : ℤ) : ℚ)| * (32768 * 2 ^ k) := by
        have := mul_le_mul_of_nonneg_right hc (by positivity : (0:ℚ) ≤ 32768 * 2 ^ k)
        linarith
      linarith)
    rw [h3] at h2
    have := mul_eq_zero.1 (h2.trans (by simp))
    rcases this with g | g
    · linarith
    · exact absurd g hmb.ne'
  · obtain ⟨t, ht⟩ := Nat.exists_eq_add_of_le hE.le
    have h1 : Q * (mb * 2 ^ t) = ma * (32768 * 2 ^ k) := by
      have h2 : (0:ℚ) < 2 ^ D := by positivity
      have : Q * (mb * 2 ^ t) * 2 ^ D = ma * (32768 * 2 ^ k) * 2 ^ D := by
        have e2 : (32768 * 2 ^ k : ℚ) * 2 ^ D = 2 ^ E * 2 ^ t := by rw [← e1, ← pow_add, ← pow_add, ht]
        rw [mul_assoc (ma:ℚ), e2, ← mul_assoc (ma:ℚ), ← hQ]; ring
      exact mul_right_cancel₀ h2.ne' this
    have hT : (0:ℚ) < mb * 2 ^ t := by positivity
    have h2 : (Q - (2 * j + 1) * (32768 * 2 ^ k)) * (mb * 2 ^ t) = ((ma - (2 * j + 1) * (mb * 2 ^ t) : ℤ) : ℚ) * (32768 * 2 ^ k) := by
      rw [sub_mul, h1]; push_cast; ring
    have h3 := hint (ma - (2 * j + 1) * (mb * 2 ^ t)) (by
      by_contra hc
      push Not at hc
      have h4 := congrArg abs h2
      rw [abs_mul, abs_of_pos hT, abs_mul, abs_of_pos (by positivity : (0:ℚ) < 32768 * 2 ^ k)] at h4
      have h6 : (32768:ℚ) * 2 ^ k ≤ |((ma - (2 * j + 1) * (mb * 2 ^ t) : ℤ) : ℚ)| * (32768 * 2 ^ k) := by
        have := mul_le_mul_of_nonneg_right hc (by positivity : (0:ℚ) ≤ 32768 * 2 ^ k)
        linarith
      have h5 : |Q - (2 * j + 1) * (32768 * 2 ^ k)| * (mb * 2 ^ t) ≤ 2 ^ k / 2 * (mb * 2 ^ t) := mul_le_mul_of_nonneg_right hd hT.le
      generalize (mb:ℚ) * 2 ^ t = T at *
      have h7 : (65536:ℚ) ≤ T := by
        by_contra hc2; push Not at hc2
        nlinarith
      rw [abs_le] at hd
      have hj' : (0:ℚ) ≤ j := by positivity
      have h8 : 32767 * 2 ^ k ≤ Q := by nlinarith [hd.1]
      have h9 : 32767 * 2 ^ k * 65536 ≤ Q * T := mul_le_mul h8 h7 (by norm_num) (by linarith)
      nlinarith)
    rw [h3] at h2
    have := mul_eq_zero.1 (h2.trans (by simp))
    rcases this with g | g
    · linarith
    · exact absurd g hT.ne'

theorem add_aux {sa sb : ℤ} {α β k j : Nat} (ha : |sa| < 256) (hb : |sb| < 256) (hβ : β ≤ α) (hk : k = 0 ∨ 128 ≤ j)
    (hd : 2 * |(|sa * 2 ^ (16 + α) + sb * 2 ^ (16 + β)| - (2 * j + 1) * 2 ^ (15 + k))| ≤ 2 ^ k) :
    |sa * 2 ^ (16 + α) + sb * 2 ^ (16 + β)| = (2 * j + 1) * 2 ^ (15 + k) := by
  have hp : (0:ℤ) < 2 ^ k := by positivity
  rcases le_or_gt k (16 + β) with h | h
  · obtain ⟨t, ht⟩ := Nat.exists_eq_add_of_le h
    obtain ⟨u, hu⟩ := Nat.exists_eq_add_of_le hβ
    have e1 : sa * 2 ^ (16 + α) + sb * 2 ^ (16 + β) = (sa * 2 ^ (u + t) + sb * 2 ^ t) * 2 ^ k := by
      rw [ht, show 16 + α = k + (u + t) by omega, pow_add, pow_add]; ring
    have e2 : (2 * (j:ℤ) + 1) * 2 ^ (15 + k) = ((2 * j + 1) * 32768) * 2 ^ k := by rw [pow_add]; norm_num; ring
    rw [e1, abs_mul, abs_of_pos hp, e2] at hd ⊢
    generalize |sa * 2 ^ (u + t) + sb * 2 ^ t| = A at *
    generalize (2 * (j:ℤ) + 1) * 32768 = B at *
    rw [← sub_mul, abs_mul, abs_of_pos hp] at hd
    have : |A - B| < 1 := by
      by_contra hc; push Not at hc; nlinarith
    have : A - B = 0 := by rwa [Int.abs_lt_one_iff] at this
    rw [show A = B by omega]
  · exfalso
    have hj : 128 ≤ j := by omega
    have h7 : |sb * 2 ^ (16 + β)| ≤ 128 * 2 ^ k := by
      rw [abs_mul, abs_of_pos (by positivity : (0:ℤ) < 2 ^ (16 + β))]
      obtain ⟨t, ht⟩ := Nat.exists_eq_add_of_le (show 17 + β ≤ k by omega)
      have e : (2:ℤ) ^ k = 2 * 2 ^ (16 + β) * 2 ^ t := by rw [ht, pow_add, show 17 + β = 16 + β + 1 by ring, pow_succ]; ring
      have h1 : (1:ℤ) ≤ 2 ^ t := one_le_pow₀ (by norm_num)
      have h2 : (0:ℤ) < 2 ^ (16 + β) := by positivity
      rw [e]
      have : |sb| * 2 ^ (16 + β) ≤ 256 * 2 ^ (16 + β) := mul_le_mul_of_nonneg_right hb.le h2.le
      nlinarith
    have h8 : |(|sa * 2 ^ (16 + α)| - (2 * j + 1) * 2 ^ (15 + k))| ≤ 129 * 2 ^ k := by
      have t1 := abs_abs_sub_abs_le (sa * 2 ^ (16 + α) + sb * 2 ^ (16 + β)) (sa * 2 ^ (16 + α))
      rw [show sa * 2 ^ (16 + α) + sb * 2 ^ (16 + β) - sa * 2 ^ (16 + α) = sb * 2 ^ (16 + β) by ring] at t1
      rw [abs_le] at t1 ⊢
      have := abs_le.1 (show |(|sa * 2 ^ (16 + α) + sb * 2 ^ (16 + β)| - (2 * j + 1) * 2 ^ (15 + k))| ≤ 2 ^ k by linarith [abs_nonneg (|sa * 2 ^ (16 + α) + sb * 2 ^ (16 + β)| - (2 * j + 1) * 2 ^ (15 + k))])
      constructor <;> linarith
    rw [abs_mul, abs_of_pos (by positivity : (0:ℤ) < 2 ^ (16 + α))] at h8
    have e1 : (2:ℤ) ^ (15 + k) = 32768 * 2 ^ k := by rw [pow_add]; norm_num
    have hj' : (128:ℤ) ≤ j := by exact_mod_cast hj
    rcases le_or_gt (15 + k) (16 + α) with g | g
    · obtain ⟨t, ht⟩ := Nat.exists_eq_add_of_le g
      rw [ht, pow_add, e1, show |sa| * (32768 * 2 ^ k * 2 ^ t) - (2 * j + 1) * (32768 * 2 ^ k) = (|sa| * 2 ^ t - (2 * j + 1)) * (32768 * 2 ^ k) by ring,
        abs_mul, abs_of_pos (by positivity : (0:ℤ) < 32768 * 2 ^ k)] at h8
      have : |(|sa| * 2 ^ t - (2 * j + 1))| < 1 := by
        by_contra hc; push Not at hc; nlinarith
      have : |sa| * 2 ^ t - (2 * j + 1) = 0 := by rwa [Int.abs_lt_one_iff] at this
      cases t with
      | zero => rw [pow_zero] at this; omega
      | succ t => rw [pow_succ, show |sa| * (2 ^ t * 2) = 2 * (|sa| * 2 ^ t) by ring] at this; omega
    · have : |sa| * 2 ^ (16 + α) ≤ 256 * (16384 * 2 ^ k) := by
        have h2 : (2:ℤ) ^ (16 + α) ≤ 16384 * 2 ^ k := by
          have : (2:ℤ) ^ (16 + α) ≤ 2 ^ (14 + k) := pow_le_pow_right₀ (by norm_num) (by omega)
          rw [pow_add 2 14 k] at this; norm_num at this ⊢; exact this
        exact mul_le_mul ha.le h2 (by positivity) (by norm_num)
      rw [e1, abs_le] at h8
      nlinarith [h8.1]

theorem noTrap_add {sa sb : ℤ} {α β : Nat} (ha : |sa| < 256) (hb : |sb| < 256) : NoTrap |((sa:ℚ) * 2 ^ (16 + α) + sb * 2 ^ (16 + β))| := by
  intro k j _ hk hd
  left
  have h2 : 2 * |(|sa * 2 ^ (16 + α) + sb * 2 ^ (16 + β)| - (2 * j + 1) * 2 ^ (15 + k))| ≤ (2:ℤ) ^ k := by
    have : 2 * |(|((sa:ℚ) * 2 ^ (16 + α) + sb * 2 ^ (16 + β))| - (2 * j + 1) * 2 ^ (15 + k))| ≤ (2:ℚ) ^ k := by linarith
    exact_mod_cast this
  have : |sa * 2 ^ (16 + α) + sb * 2 ^ (16 + β)| = (2 * j + 1) * 2 ^ (15 + k) := by
    rcases le_total β α with h | h
    · exact add_aux ha hb h hk h2
    · rw [add_comm] at h2 ⊢
      exact add_aux hb ha h hk h2
  exact_mod_cast this

end Verif
