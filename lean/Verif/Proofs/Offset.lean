import Verif.Props.Optimal
import Verif.Proofs.Workflow

/-! # Round trip of data with any offset: numerical part -/

namespace Verif
open Spec Props

theorem sat_nonpos {b : Nat} {z : ℤ} (h : z ≤ 0) : sat b z = 0 := by
  have : (0:ℤ) < 2 ^ b := by positivity
  unfold sat; omega

theorem sat_top {b : Nat} {z : ℤ} (h : 2 ^ b - 1 ≤ z) : sat b z = 2 ^ b - 1 := by
  have : (0:ℤ) < 2 ^ b := by positivity
  unfold sat; omega

theorem rha_nonpos {q : ℚ} (h : q ≤ 0) : rha q ≤ 0 := by
  have := rha_mono h
  have e : rha (0:ℚ) = 0 := by have := rha_int 0; simpa using this
  rwa [e] at this

/-- The zero point of data above zero is 0. -/
theorem params_above {bits : Nat} {lo hi : ℚ} {s : F32} {z : ℤ} (hlo : 0 ≤ lo) (hlt : lo < hi) (he : params bits lo hi = (s, z)) : z = 0 := by
  unfold params at he
  rw [if_neg hlt.ne'] at he
  rw [← (Prod.mk.inj he).2]
  apply sat_nonpos
  apply rha_nonpos
  have h1 : (1:ℚ) ≤ 2 ^ bits := by exact_mod_cast Nat.one_le_two_pow
  have h0 : 0 ≤ scale64 bits lo hi := by
    unfold scale64
    rw [r64_flr, r64_flr]
    exact flr_nonneg (div_nonneg (flr_nonneg (by linarith)) (by linarith))
  rw [r64_flr]
  have := flr_nonneg (f := f64) (div_nonneg hlo h0)
  linarith

/-- The zero point of data below zero is the largest code. -/
theorem params_below {bits : Nat} {lo hi : ℚ} {s : F32} {z : ℤ} (hQ : (3:ℤ) ≤ 2 ^ bits - 1 ∧ (2:ℤ) ^ bits - 1 ≤ 255)
    (hd1 : 1 / 2 ^ 149 ≤ hi - lo) (hd2 : hi - lo ≤ 2 ^ 129) (hhi : hi ≤ 0) (he : params bits lo hi = (s, z)) : z = 2 ^ bits - 1 := by
  obtain ⟨_, b2, b3⟩ := scale64_bounds (bits := bits) hQ hd1 hd2
  have hd : 0 < hi - lo := lt_of_lt_of_le (by positivity) hd1
  unfold params at he
  rw [if_neg (by intro e; rw [e, sub_self] at hd; exact lt_irrefl _ hd)] at he
  rw [← (Prod.mk.inj he).2]
  apply sat_top
  have q1 : (3:ℚ) ≤ 2 ^ bits - 1 := by exact_mod_cast hQ.1
  have q2 : (2:ℚ) ^ bits - 1 ≤ 255 := by exact_mod_cast hQ.2
  obtain ⟨Q, hQe⟩ : ∃ Q : ℕ, (Q:ℤ) = 2 ^ bits - 1 := ⟨2 ^ bits - 1, by
    have := Nat.one_le_two_pow (n := bits); push_cast [Nat.cast_sub this]; rfl⟩
  have hQq : (Q:ℚ) = 2 ^ bits - 1 := by exact_mod_cast hQe
  rw [← hQe]
  rw [← hQq] at q1 q2 b2 b3
  have hQ0 : (0:ℚ) < Q := by linarith
  set S := scale64 bits lo hi with hS
  have hS0 : 0 < S := lt_of_lt_of_le (mul_pos (div_pos hd hQ0) (by norm_num)) b2
  have hq : (Q:ℚ) - 1 / 4 ≤ -lo / S := by
    rw [le_div_iff₀ hS0]
    have h1 : ((Q:ℚ) - 1 / 4) * S ≤ ((Q:ℚ) - 1 / 4) * ((hi - lo) / Q * (1 + 1 / 2 ^ 51)) := mul_le_mul_of_nonneg_left b3 (by linarith)
    have h2 : ((Q:ℚ) - 1 / 4) * ((hi - lo) / Q * (1 + 1 / 2 ^ 51)) = (hi - lo) * (((Q:ℚ) - 1 / 4) * (1 + 1 / 2 ^ 51) / Q) := by field_simp
    have h3 : ((Q:ℚ) - 1 / 4) * (1 + 1 / 2 ^ 51) / Q ≤ 1 := by
      rw [div_le_one hQ0]; norm_num; linarith
    have h4 : (hi - lo) * (((Q:ℚ) - 1 / 4) * (1 + 1 / 2 ^ 51) / Q) ≤ hi - lo := mul_le_of_le_one_right hd.le h3
    linarith
  have e : -(r64 (lo / S)) = flr f64 (-lo / S) := by rw [r64_flr, neg_div, flr_neg]
  rw [e]
  have hrep : (Q:ℚ) - 1 / 4 ≤ flr f64 (-lo / S) := by
    apply le_flr hq
    · have : |(Q:ℚ) - 1 / 4| = ((4 * Q - 1 : ℕ) : ℚ) / 2 ^ 2 := by
        rw [abs_of_nonneg (by linarith)]
        have : 1 ≤ 4 * Q := by
          have : (3:ℤ) ≤ Q := by rw [hQe]; exact hQ.1
          omega
        push_cast [Nat.cast_sub this]; ring
      rw [this]
      refine rep_div ?_ (by rw [unit_f64]; norm_num)
      have : (Q:ℤ) ≤ 255 := by rw [hQe]; exact hQ.2
      have : 4 * Q - 1 ≤ 1020 := by omega
      exact this.trans (by norm_num [f64])
    · rw [abs_of_nonneg (by linarith), emax_f64]
      calc (Q:ℚ) - 1 / 4 ≤ 2 ^ 8 := by norm_num; linarith
        _ ≤ _ := pow_le_pow_right₀ (by norm_num) (by norm_num)
  have := rha_mono hrep
  have h5 : rha ((Q:ℚ) - 1 / 4) = Q := rha_near (by push_cast; rw [abs_lt]; constructor <;> linarith)
  rwa [h5] at this

/-- Some integer code is within half a step of a quotient in the code range. -/
theorem code_exists {Q : ℤ} {u : ℚ} (h0 : 0 ≤ u) (h1 : u ≤ Q) : ∃ k : ℕ, (k:ℤ) ≤ Q ∧ |(k:ℚ) - u| ≤ 1 / 2 := by
  have e0 : 0 ≤ rha u := by
    have := rha_mono h0
    have e : rha (0:ℚ) = 0 := by have := rha_int 0; simpa using this
    rwa [e] at this
  have e1 : rha u ≤ Q := by
    have := rha_mono h1
    rwa [rha_int] at this
  refine ⟨(rha u).toNat, by omega, ?_⟩
  have : (((rha u).toNat : ℕ) : ℚ) = ((rha u : ℤ) : ℚ) := by
    have : (((rha u).toNat : ℕ) : ℤ) = rha u := by omega
    exact_mod_cast this
  rw [this]; exact rha_err u

/-- Data above zero (`z = 0`): codes reach up to `L` steps below the largest element. -/
theorem code_above {Q : ℤ} {L u : ℚ} (hL : 0 ≤ L) (hQ : 0 ≤ Q) (h0 : L ≤ u) (h1 : u ≤ L + Q + 1 / 2 ^ 14) :
    ∃ k : ℕ, (k:ℤ) ≤ Q ∧ |(((k:ℤ) - 0 : ℤ) : ℚ) - u| ≤ max (1 / 2) L + 1 / 2 ^ 14 := by
  have e14 : (0:ℚ) ≤ 1 / 2 ^ 14 := by norm_num
  rcases le_or_gt u Q with h | h
  · obtain ⟨k, k1, k2⟩ := code_exists (hL.trans h0) h
    refine ⟨k, k1, ?_⟩
    rw [sub_zero]
    have := le_max_left (1 / 2) L
    push_cast; linarith
  · refine ⟨Q.toNat, by omega, ?_⟩
    rw [sub_zero, show ((Q.toNat : ℕ) : ℤ) = Q by omega, abs_of_nonpos (by linarith)]
    have := le_max_right (1 / 2) L
    linarith

/-- Data below zero (`z = Q`). -/
theorem code_below {Q : ℤ} {L u : ℚ} (hL : 0 ≤ L) (hQ : 0 ≤ Q) (h0 : u ≤ -L) (h1 : -L - Q - 1 / 2 ^ 14 ≤ u) :
    ∃ k : ℕ, (k:ℤ) ≤ Q ∧ |(((k:ℤ) - Q : ℤ) : ℚ) - u| ≤ max (1 / 2) L + 1 / 2 ^ 14 := by
  obtain ⟨k, k1, k2⟩ := code_above (u := -u) hL hQ (by linarith) (by linarith)
  refine ⟨(Q - k).toNat, by omega, ?_⟩
  have e : (((Q - k).toNat : ℕ) : ℤ) = Q - k := by omega
  rw [e, show Q - (k:ℤ) - Q = -((k:ℤ) - 0) by ring, Int.cast_neg, ← abs_neg]
  rw [show -(-(((k:ℤ) - 0 : ℤ) : ℚ) - u) = (((k:ℤ) - 0 : ℤ) : ℚ) - -u by ring]
  exact k2

end Verif
