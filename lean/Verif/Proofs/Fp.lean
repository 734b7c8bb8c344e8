import Verif.Model.Fp
import Mathlib.Tactic.Linarith
import Mathlib.Tactic.Positivity
import Mathlib.Tactic.NormNum
import Mathlib.Tactic.Ring
import Mathlib.Tactic.FieldSimp
import Mathlib.Tactic.IntervalCases
import Mathlib.Algebra.Order.Field.Basic

/-! # Theory of the float model: exactness, monotonicity, error bounds, nearest-even -/

namespace Verif

/-! ## floor helpers -/

theorem floor_le' (q : ℚ) : (q.floor : ℚ) ≤ q := Int.floor_le q
theorem lt_floor_add_one' (q : ℚ) : q < (q.floor : ℚ) + 1 := Int.lt_floor_add_one q
theorem floor_eq' (q : ℚ) : q.floor = ⌊q⌋ := rfl

theorem floorNat_cast {q : ℚ} (h : 0 ≤ q) : ((q.floor.toNat : ℕ) : ℚ) = (q.floor : ℚ) := by
  have : (0:ℤ) ≤ q.floor := Int.floor_nonneg.mpr h
  have h2 : ((q.floor.toNat : ℕ) : ℤ) = q.floor := Int.toNat_of_nonneg this
  exact_mod_cast congrArg (fun z : ℤ => (z : ℚ)) h2

theorem floorNat_le {q : ℚ} (h : 0 ≤ q) : ((q.floor.toNat : ℕ) : ℚ) ≤ q := by
  rw [floorNat_cast h]; exact floor_le' q

theorem lt_floorNat {q : ℚ} (h : 0 ≤ q) : q < ((q.floor.toNat : ℕ) : ℚ) + 1 := by
  rw [floorNat_cast h]; exact lt_floor_add_one' q

/-! ## `rne` -/

theorem rne_cases {q : ℚ} (h : 0 ≤ q) :
    ∃ n : ℕ, (n : ℚ) ≤ q ∧ q < n + 1 ∧
      ((q - n < 1/2 ∧ rne q = n) ∨ (1/2 < q - n ∧ rne q = n + 1) ∨
       (q - n = 1/2 ∧ n % 2 = 0 ∧ rne q = n) ∨ (q - n = 1/2 ∧ n % 2 = 1 ∧ rne q = n + 1)) := by
  refine ⟨q.floor.toNat, floorNat_le h, lt_floorNat h, ?_⟩
  unfold rne
  simp only
  set n := q.floor.toNat
  rcases lt_trichotomy (q - (n:ℚ)) (1/2) with h1 | h1 | h1
  · left; simp only [h1, if_true]; exact ⟨trivial, trivial⟩
  · right; right
    simp only [h1, lt_irrefl, if_false]
    rcases Nat.mod_two_eq_zero_or_one n with h2 | h2
    · left; simp [h2]
    · right; simp [h2]
  · right; left
    simp only [not_lt.mpr h1.le, h1, if_true, if_false]; exact ⟨trivial, trivial⟩

theorem rne_err {q : ℚ} (h : 0 ≤ q) : |(rne q : ℚ) - q| ≤ 1/2 := by
  obtain ⟨n, h1, h2, h3⟩ := rne_cases h
  rw [abs_le]
  rcases h3 with ⟨h3, h4⟩ | ⟨h3, h4⟩ | ⟨h3, _, h4⟩ | ⟨h3, _, h4⟩ <;> rw [h4] <;> push_cast <;>
    constructor <;> linarith

theorem rne_nat (n : ℕ) : rne (n : ℚ) = n := by
  obtain ⟨m, h1, h2, h3⟩ := rne_cases (q := (n:ℚ)) (by positivity)
  have e1 : m ≤ n := by exact_mod_cast h1
  have e2 : n < m + 1 := by exact_mod_cast h2
  have : m = n := by omega
  subst this
  rcases h3 with ⟨h3, h4⟩ | ⟨h3, h4⟩ | ⟨h3, _, h4⟩ | ⟨h3, _, h4⟩
  · exact h4
  all_goals (exfalso; norm_num at h3)

theorem rne_mono {p q : ℚ} (hp : 0 ≤ p) (h : p ≤ q) : rne p ≤ rne q := by
  obtain ⟨n, h1, h2, h3⟩ := rne_cases hp
  obtain ⟨m, g1, g2, g3⟩ := rne_cases (le_trans hp h)
  have hnm : n ≤ m := by
    by_contra hc
    have : (m:ℚ) + 1 ≤ n := by exact_mod_cast (by omega : m + 1 ≤ n)
    linarith
  rcases Nat.lt_or_ge n m with hlt | hge
  · rcases h3 with ⟨_, h4⟩ | ⟨_, h4⟩ | ⟨_, _, h4⟩ | ⟨_, _, h4⟩ <;>
    rcases g3 with ⟨_, g4⟩ | ⟨_, g4⟩ | ⟨_, _, g4⟩ | ⟨_, _, g4⟩ <;> omega
  · have : n = m := by omega
    subst this
    rcases h3 with ⟨h3, h4⟩ | ⟨h3, h4⟩ | ⟨h3, h5, h4⟩ | ⟨h3, h5, h4⟩ <;>
    rcases g3 with ⟨g3, g4⟩ | ⟨g3, g4⟩ | ⟨g3, g5, g4⟩ | ⟨g3, g5, g4⟩ <;>
    first
      | omega
      | (exfalso; linarith)

theorem rne_le_of_le {q : ℚ} (h : 0 ≤ q) {n : ℕ} (hn : q ≤ n) : rne q ≤ n := by
  have := rne_mono h hn; rwa [rne_nat] at this

theorem le_rne_of_le {q : ℚ} {n : ℕ} (hn : (n:ℚ) ≤ q) : n ≤ rne q := by
  have := rne_mono (by positivity) hn; rwa [rne_nat] at this

/-- nearest among integers -/
theorem rne_nearest {q : ℚ} (h : 0 ≤ q) (n : ℕ) : |(rne q : ℚ) - q| ≤ |(n : ℚ) - q| := by
  rcases eq_or_ne n (rne q) with he | he
  · rw [he]
  · have h1 := rne_err h
    have h2 : (1:ℚ) ≤ |(n:ℚ) - (rne q : ℚ)| := by
      have : (1:ℤ) ≤ |(n:ℤ) - (rne q : ℤ)| := by
        apply Int.one_le_abs; omega
      exact_mod_cast this
    have h3 : |(n:ℚ) - (rne q:ℚ)| ≤ |(n:ℚ) - q| + |(rne q:ℚ) - q| := by
      have := abs_sub_le (n:ℚ) q (rne q:ℚ)
      rwa [abs_sub_comm q] at this
    linarith

/-- a tie is resolved to the even neighbour -/
theorem rne_even {q : ℚ} (h : 0 ≤ q) (ht : |(rne q : ℚ) - q| = 1/2) : rne q % 2 = 0 := by
  obtain ⟨n, h1, h2, h3⟩ := rne_cases h
  rcases h3 with ⟨h3, h4⟩ | ⟨h3, h4⟩ | ⟨h3, h5, h4⟩ | ⟨h3, h5, h4⟩
  · rw [h4] at ht; exfalso
    rw [abs_sub_comm, abs_of_nonneg (by linarith)] at ht; linarith
  · rw [h4] at ht; exfalso
    push_cast at ht
    rw [abs_of_nonneg (by linarith)] at ht; linarith
  · omega
  · omega

/-! ## magnitude words -/

theorem magVal_small {mb b : Nat} (h : b < 2 ^ (mb+1)) : magVal mb b = b := by
  unfold magVal
  split
  · rfl
  · rename_i hb
    have h1 : b / 2 ^ mb = 1 := by
      rw [Nat.div_eq_iff (by positivity)]; rw [pow_succ] at h; omega
    have h2 := Nat.div_add_mod b (2 ^ mb)
    rw [h1] at h2
    rw [h1]; simp; omega

theorem magVal_enc {mb k m : Nat} (hk : k = 0 ∨ 2 ^ mb ≤ m) (hm : m ≤ 2 ^ (mb+1)) :
    magVal mb (k * 2 ^ mb + m) = m * 2 ^ k := by
  have hpos : 0 < 2 ^ mb := by positivity
  rcases Nat.lt_or_ge m (2 ^ mb) with hlt | hge
  · have : k = 0 := by rcases hk with h | h <;> omega
    subst this
    simp only [zero_mul, zero_add, pow_zero, mul_one]
    exact magVal_small (by rw [pow_succ]; omega)
  · rcases Nat.lt_or_ge m (2 ^ (mb+1)) with h2 | h2
    · obtain ⟨r, rfl⟩ := Nat.exists_eq_add_of_le hge
      have hr : r < 2 ^ mb := by rw [pow_succ] at h2; omega
      have e : k * 2 ^ mb + (2 ^ mb + r) = r + 2 ^ mb * (k + 1) := by ring
      unfold magVal
      rw [if_neg (by nlinarith), e, Nat.add_mul_mod_self_left, Nat.mod_eq_of_lt hr,
        Nat.add_mul_div_left _ _ hpos, Nat.div_eq_of_lt hr]
      simp
    · have hm' : m = 2 ^ (mb+1) := le_antisymm hm h2
      subst hm'
      have e : k * 2 ^ mb + 2 ^ (mb+1) = 0 + 2 ^ mb * (k + 2) := by ring
      unfold magVal
      rw [if_neg (by rw [pow_succ]; nlinarith), e, Nat.add_mul_mod_self_left, Nat.zero_mod,
        Nat.add_mul_div_left _ _ hpos, Nat.zero_div]
      simp
      rw [pow_succ, pow_succ]; ring

/-- Every magnitude word is `k*2^mb + m` with a normalised `m`. -/
theorem mag_decomp (mb b : Nat) :
    ∃ k m, b = k * 2 ^ mb + m ∧ (k = 0 ∨ 2 ^ mb ≤ m) ∧ m < 2 ^ (mb+1) ∧ magVal mb b = m * 2 ^ k := by
  have hpos : 0 < 2 ^ mb := by positivity
  rcases Nat.lt_or_ge b (2 ^ (mb+1)) with h | h
  · exact ⟨0, b, by simp, Or.inl rfl, h, by rw [magVal_small h]; simp⟩
  · have hd := Nat.div_add_mod b (2 ^ mb)
    have hml := Nat.mod_lt b hpos
    have h1 : 1 ≤ b / 2 ^ mb := by
      rw [Nat.one_le_div_iff hpos]; rw [pow_succ] at h; omega
    refine ⟨b / 2 ^ mb - 1, 2 ^ mb + b % 2 ^ mb, ?_, Or.inr (by omega), by rw [pow_succ]; omega, ?_⟩
    · obtain ⟨c, hc⟩ := Nat.exists_eq_add_of_le h1
      rw [hc] at hd ⊢
      have : 2 ^ mb * (1 + c) = 2 ^ mb + c * 2 ^ mb := by ring
      simp only [Nat.add_sub_cancel_left]
      omega
    · unfold magVal
      rw [if_neg (by rw [pow_succ] at h; omega)]

theorem magVal_lt_succ (mb b : Nat) : magVal mb b < magVal mb (b+1) := by
  obtain ⟨k, m, hb, hk, hm, hv⟩ := mag_decomp mb b
  have : magVal mb (b+1) = (m+1) * 2 ^ k := by
    rw [hb, add_assoc]
    apply magVal_enc
    · omega
    · omega
  rw [hv, this]
  have : 0 < 2 ^ k := by positivity
  nlinarith

theorem magVal_strictMono (mb : Nat) : StrictMono (magVal mb) := strictMono_nat_of_lt_succ (magVal_lt_succ mb)

theorem magVal_mono (mb : Nat) {a b : Nat} (h : a ≤ b) : magVal mb a ≤ magVal mb b :=
  (magVal_strictMono mb).monotone h

theorem magVal_zero (mb : Nat) : magVal mb 0 = 0 := magVal_small (by positivity)

theorem magVal_inj {mb a b : Nat} (h : magVal mb a = magVal mb b) : a = b :=
  (magVal_strictMono mb).injective h

/-! ## `roundMag` -/

/-- exponent chosen by `roundMag` -/
def expo (mb : Nat) (q : ℚ) : Nat := Nat.log2 q.floor.toNat - mb

theorem roundMag_eq (mb : Nat) (q : ℚ) :
    roundMag mb q = expo mb q * 2 ^ mb + rne (q / 2 ^ expo mb q) := rfl

theorem expo_spec (mb : Nat) {q : ℚ} (h : 0 ≤ q) :
    q < 2 ^ (mb + 1 + expo mb q) ∧ (expo mb q = 0 ∨ (2:ℚ) ^ (mb + expo mb q) ≤ q) := by
  set F := q.floor.toNat with hF
  have h1 : (F:ℚ) ≤ q := floorNat_le h
  have h2 : q < (F:ℚ) + 1 := lt_floorNat h
  have hup : F < 2 ^ (F.log2 + 1) := Nat.lt_log2_self
  have hk : expo mb q = F.log2 - mb := rfl
  constructor
  · have : F + 1 ≤ 2 ^ (mb + 1 + expo mb q) := by
      rw [hk]
      calc F + 1 ≤ 2 ^ (F.log2 + 1) := hup
        _ ≤ _ := Nat.pow_le_pow_right (by norm_num) (by omega)
    have : (F:ℚ) + 1 ≤ 2 ^ (mb + 1 + expo mb q) := by exact_mod_cast this
    linarith
  · rcases Nat.eq_zero_or_pos (expo mb q) with h0 | h0
    · exact Or.inl h0
    · right
      have hF0 : F ≠ 0 := by
        intro h00; rw [hk, h00] at h0; simp at h0
      have : 2 ^ F.log2 ≤ F := Nat.log2_self_le hF0
      have e : mb + expo mb q = F.log2 := by omega
      rw [e]
      have : (2:ℚ) ^ F.log2 ≤ F := by exact_mod_cast this
      linarith

theorem expo_mono (mb : Nat) {p q : ℚ} (hp : 0 ≤ p) (h : p ≤ q) : expo mb p ≤ expo mb q := by
  have h1 := (expo_spec mb hp)
  have h2 := (expo_spec mb (le_trans hp h))
  by_contra hc
  have h3 : expo mb p ≠ 0 := by omega
  have h4 : (2:ℚ) ^ (mb + expo mb p) ≤ p := by rcases h1.2 with h | h; exact absurd h h3; exact h
  have : (2:ℚ) ^ (mb + 1 + expo mb q) ≤ 2 ^ (mb + expo mb p) :=
    pow_le_pow_right₀ (by norm_num) (by omega)
  linarith [h2.1]

theorem mant_bounds (mb : Nat) {q : ℚ} (h : 0 ≤ q) :
    rne (q / 2 ^ expo mb q) ≤ 2 ^ (mb+1) ∧ (expo mb q = 0 ∨ 2 ^ mb ≤ rne (q / 2 ^ expo mb q)) := by
  obtain ⟨h1, h2⟩ := expo_spec mb h
  set k := expo mb q
  have hp : (0:ℚ) < 2 ^ k := by positivity
  constructor
  · apply rne_le_of_le (by positivity)
    push_cast
    rw [div_le_iff₀ hp, ← pow_add]; exact h1.le
  · rcases h2 with h2 | h2
    · exact Or.inl h2
    · right
      apply le_rne_of_le
      push_cast
      rw [le_div_iff₀ hp, ← pow_add]; exact h2

theorem magVal_roundMag (mb : Nat) {q : ℚ} (h : 0 ≤ q) :
    magVal mb (roundMag mb q) = rne (q / 2 ^ expo mb q) * 2 ^ expo mb q := by
  obtain ⟨h1, h2⟩ := mant_bounds mb h
  rw [roundMag_eq]; exact magVal_enc h2 h1

theorem roundMag_mono (mb : Nat) {p q : ℚ} (hp : 0 ≤ p) (h : p ≤ q) : roundMag mb p ≤ roundMag mb q := by
  have hq := le_trans hp h
  have hk := expo_mono mb hp h
  rw [roundMag_eq, roundMag_eq]
  rcases Nat.lt_or_ge (expo mb p) (expo mb q) with hlt | hge
  · have h1 := (mant_bounds mb hp).1
    have h2 := (mant_bounds mb hq).2
    have h2 : 2 ^ mb ≤ rne (q / 2 ^ expo mb q) := by rcases h2 with h | h; omega; exact h
    have : (expo mb p + 1) * 2 ^ mb ≤ expo mb q * 2 ^ mb := Nat.mul_le_mul_right _ hlt
    rw [pow_succ] at h1
    nlinarith
  · have e : expo mb p = expo mb q := le_antisymm hk hge
    rw [e]
    have : rne (p / 2 ^ expo mb q) ≤ rne (q / 2 ^ expo mb q) := by
      apply rne_mono (by positivity)
      exact div_le_div_of_nonneg_right h (by positivity)
    omega

/-- absolute error of rounding, in least-subnormal units -/
theorem roundMag_err (mb : Nat) {q : ℚ} (h : 0 ≤ q) :
    |(magVal mb (roundMag mb q) : ℚ) - q| ≤ 2 ^ expo mb q / 2 := by
  rw [magVal_roundMag mb h]
  have hp : (0:ℚ) < 2 ^ expo mb q := by positivity
  have h1 := rne_err (q := q / 2 ^ expo mb q) (by positivity)
  push_cast
  have e : (rne (q / 2 ^ expo mb q) : ℚ) * 2 ^ expo mb q - q
      = ((rne (q / 2 ^ expo mb q) : ℚ) - q / 2 ^ expo mb q) * 2 ^ expo mb q := by
    field_simp
  rw [e, abs_mul, abs_of_pos hp]
  nlinarith

theorem expo_le (mb : Nat) {q : ℚ} (h : 0 ≤ q) : (2:ℚ) ^ expo mb q ≤ max 1 (q / 2 ^ mb) := by
  rcases (expo_spec mb h).2 with h0 | h0
  · rw [h0]; simp
  · apply le_max_of_le_right
    rw [le_div_iff₀ (by positivity), ← pow_add, add_comm]; exact h0

/-- relative/absolute error bound -/
theorem roundMag_err' (mb : Nat) {q : ℚ} (h : 0 ≤ q) :
    |(magVal mb (roundMag mb q) : ℚ) - q| ≤ max (1/2) (q / 2 ^ (mb+1)) := by
  refine (roundMag_err mb h).trans ?_
  have := expo_le mb h
  rcases le_max_iff.mp this with h1 | h1
  · apply le_max_of_le_left; linarith
  · apply le_max_of_le_right
    rw [pow_succ, ← div_div]; linarith

theorem expo_of_bounds {mb k : Nat} {q : ℚ} (h0 : 0 ≤ q) (h1 : q < 2 ^ (mb + 1 + k))
    (h2 : k = 0 ∨ (2:ℚ) ^ (mb + k) ≤ q) : expo mb q = k := by
  obtain ⟨g1, g2⟩ := expo_spec mb h0
  rcases lt_trichotomy (expo mb q) k with hlt | he | hgt
  · have h2 : (2:ℚ) ^ (mb + k) ≤ q := by rcases h2 with h | h; omega; exact h
    have : (2:ℚ) ^ (mb + 1 + expo mb q) ≤ 2 ^ (mb + k) := pow_le_pow_right₀ (by norm_num) (by omega)
    linarith
  · exact he
  · have g2 : (2:ℚ) ^ (mb + expo mb q) ≤ q := by rcases g2 with h | h; omega; exact h
    have : (2:ℚ) ^ (mb + 1 + k) ≤ 2 ^ (mb + expo mb q) := pow_le_pow_right₀ (by norm_num) (by omega)
    linarith

/-- representable values are fixed by rounding -/
theorem roundMag_magVal (mb b : Nat) : roundMag mb (magVal mb b : ℚ) = b := by
  obtain ⟨k, m, hb, hk, hm, hv⟩ := mag_decomp mb b
  have e : expo mb (magVal mb b : ℚ) = k := by
    apply expo_of_bounds (by positivity)
    · rw [hv]
      have : m * 2 ^ k < 2 ^ (mb + 1 + k) := by
        rw [pow_add]; exact Nat.mul_lt_mul_of_pos_right hm (by positivity)
      exact_mod_cast this
    · rcases hk with hk | hk
      · exact Or.inl hk
      · right; rw [hv]
        have : 2 ^ (mb + k) ≤ m * 2 ^ k := by rw [pow_add]; exact Nat.mul_le_mul_right _ hk
        exact_mod_cast this
  rw [roundMag_eq, e, hv]
  push_cast
  rw [mul_div_cancel_right₀ _ (by positivity), rne_nat, hb]

theorem roundMag_le_of_le {mb b : Nat} {q : ℚ} (h : 0 ≤ q) (hb : q ≤ magVal mb b) : roundMag mb q ≤ b := by
  have := roundMag_mono mb h hb; rwa [roundMag_magVal] at this

theorem le_roundMag_of_le {mb b : Nat} {q : ℚ} (hb : (magVal mb b : ℚ) ≤ q) : b ≤ roundMag mb q := by
  have := roundMag_mono mb (by positivity) hb; rwa [roundMag_magVal] at this

/-- rounding is to a nearest float -/
theorem roundMag_nearest (mb : Nat) {q : ℚ} (h : 0 ≤ q) (b : Nat) :
    |(magVal mb (roundMag mb q) : ℚ) - q| ≤ |(magVal mb b : ℚ) - q| := by
  have hp : (0:ℚ) < 2 ^ expo mb q := by positivity
  -- distance to any grid point
  have grid : ∀ n : ℕ, |(magVal mb (roundMag mb q) : ℚ) - q| ≤ |((n * 2 ^ expo mb q : ℕ) : ℚ) - q| := by
    intro n
    rw [magVal_roundMag mb h]
    have h1 := rne_nearest (q := q / 2 ^ expo mb q) (by positivity) n
    have e : ∀ c : ℕ, ((c * 2 ^ expo mb q : ℕ) : ℚ) - q = ((c:ℚ) - q / 2 ^ expo mb q) * 2 ^ expo mb q := by
      intro c; push_cast; field_simp
    rw [e, e, abs_mul, abs_mul, abs_of_pos hp]
    exact mul_le_mul_of_nonneg_right h1 hp.le
  obtain ⟨k, m, hb, hk, hm, hv⟩ := mag_decomp mb b
  rcases Nat.lt_or_ge k (expo mb q) with hlt | hge
  · -- b lies below the binade of q
    have hq : (2:ℚ) ^ (mb + expo mb q) ≤ q := by
      rcases (expo_spec mb h).2 with h0 | h0; omega; exact h0
    have hbv : (magVal mb b : ℚ) ≤ 2 ^ (mb + expo mb q) := by
      rw [hv]
      have : m * 2 ^ k ≤ 2 ^ (mb + expo mb q) := by
        calc m * 2 ^ k ≤ 2 ^ (mb+1) * 2 ^ k := Nat.mul_le_mul_right _ hm.le
          _ = 2 ^ (mb + 1 + k) := by rw [← pow_add]
          _ ≤ _ := Nat.pow_le_pow_right (by norm_num) (by omega)
      exact_mod_cast this
    refine (grid (2 ^ mb)).trans ?_
    have e : ((2 ^ mb * 2 ^ expo mb q : ℕ) : ℚ) = 2 ^ (mb + expo mb q) := by push_cast; rw [pow_add]
    rw [e, abs_sub_comm, abs_of_nonneg (by linarith), abs_sub_comm, abs_of_nonneg (by linarith)]
    linarith
  · obtain ⟨c, rfl⟩ := Nat.exists_eq_add_of_le hge
    have : magVal mb b = (m * 2 ^ c) * 2 ^ expo mb q := by rw [hv, pow_add]; ring
    rw [this]; exact grid _

/-- ties go to the even fraction -/
theorem roundMag_tie_even {mb : Nat} (hmb : 0 < mb) {q : ℚ} (h : 0 ≤ q) {b : Nat} (hne : b ≠ roundMag mb q)
    (ht : |(magVal mb b : ℚ) - q| = |(magVal mb (roundMag mb q) : ℚ) - q|) : roundMag mb q % 2 = 0 := by
  have hp : (0:ℚ) < 2 ^ expo mb q := by positivity
  obtain ⟨k, m, hb, hk, hm, hv⟩ := mag_decomp mb b
  have e : ∀ c : ℕ, ((c * 2 ^ expo mb q : ℕ) : ℚ) - q = ((c:ℚ) - q / 2 ^ expo mb q) * 2 ^ expo mb q := by
    intro c; push_cast; field_simp
  have hQ : 0 ≤ q / 2 ^ expo mb q := by positivity
  -- it suffices that the mantissa is even
  have key : rne (q / 2 ^ expo mb q) % 2 = 0 → roundMag mb q % 2 = 0 := by
    intro hh
    rw [roundMag_eq]
    have : 2 ^ mb % 2 = 0 := by
      obtain ⟨c, rfl⟩ := Nat.exists_eq_succ_of_ne_zero hmb.ne'
      rw [pow_succ]; simp
    have : (expo mb q * 2 ^ mb) % 2 = 0 := by rw [Nat.mul_mod, this]; simp
    omega
  have hvr := magVal_roundMag mb h
  rcases Nat.lt_or_ge k (expo mb q) with hlt | hge
  · -- the other candidate is below the binade, so both equal the binade start
    have hq : (2:ℚ) ^ (mb + expo mb q) ≤ q := by
      rcases (expo_spec mb h).2 with h0 | h0; omega; exact h0
    have hbv' : magVal mb b ≤ 2 ^ (mb + expo mb q) := by
      rw [hv]
      calc m * 2 ^ k ≤ 2 ^ (mb+1) * 2 ^ k := Nat.mul_le_mul_right _ hm.le
          _ = 2 ^ (mb + 1 + k) := by rw [← pow_add]
          _ ≤ _ := Nat.pow_le_pow_right (by norm_num) (by omega)
    have hbv : (magVal mb b : ℚ) ≤ 2 ^ (mb + expo mb q) := by exact_mod_cast hbv'
    have h1 := rne_nearest hQ (2 ^ mb)
    have h2 : |(magVal mb (roundMag mb q) : ℚ) - q| ≤ q - 2 ^ (mb + expo mb q) := by
      rw [hvr, e, abs_mul, abs_of_pos hp]
      calc _ ≤ |((2 ^ mb : ℕ):ℚ) - q / 2 ^ expo mb q| * 2 ^ expo mb q := mul_le_mul_of_nonneg_right h1 hp.le
        _ = |((2 ^ mb * 2 ^ expo mb q : ℕ) : ℚ) - q| := by rw [e, abs_mul, abs_of_pos hp]
        _ = q - 2 ^ (mb + expo mb q) := by
            have e : ((2 ^ mb * 2 ^ expo mb q : ℕ) : ℚ) = 2 ^ (mb + expo mb q) := by push_cast; rw [pow_add]
            rw [e, abs_sub_comm, abs_of_nonneg (by linarith)]
    rw [abs_sub_comm, abs_of_nonneg (by linarith)] at ht
    have hbe : (magVal mb b : ℚ) = 2 ^ (mb + expo mb q) := by linarith
    -- b is then the magnitude with k = expo, m = 2^mb
    have : magVal mb b = magVal mb (expo mb q * 2 ^ mb + 2 ^ mb) := by
      rw [magVal_enc (Or.inr le_rfl) (by rw [pow_succ]; omega), ← pow_add]
      exact_mod_cast hbe
    have hbb := magVal_inj this
    -- so b is a grid point; fall through to the grid case
    have hd : |((2 ^ mb : ℕ) : ℚ) - q / 2 ^ expo mb q| = |(rne (q / 2 ^ expo mb q) : ℚ) - q / 2 ^ expo mb q| := by
      have h3 : |((2 ^ mb * 2 ^ expo mb q : ℕ) : ℚ) - q| = |((rne (q / 2 ^ expo mb q) * 2 ^ expo mb q : ℕ) : ℚ) - q| := by
        rw [← hvr, ← ht]
        have e : ((2 ^ mb * 2 ^ expo mb q : ℕ) : ℚ) = 2 ^ (mb + expo mb q) := by push_cast; rw [pow_add]
        rw [e, hbe, abs_sub_comm, abs_of_nonneg (by linarith)]
      rw [e, e, abs_mul, abs_mul] at h3
      exact mul_right_cancel₀ (abs_pos.mpr hp.ne').ne' h3
    have hne' : rne (q / 2 ^ expo mb q) ≠ 2 ^ mb := by
      intro hh; apply hne; rw [hbb, roundMag_eq, hh]
    apply key
    apply rne_even hQ
    have h1 := rne_err hQ
    have h2 : (1:ℚ) ≤ |((2 ^ mb : ℕ):ℚ) - (rne (q / 2 ^ expo mb q) : ℚ)| := by
      have : (1:ℤ) ≤ |((2 ^ mb : ℕ):ℤ) - (rne (q / 2 ^ expo mb q) : ℤ)| := by
        apply Int.one_le_abs; omega
      exact_mod_cast this
    have h3 := abs_sub_le ((2 ^ mb : ℕ):ℚ) (q / 2 ^ expo mb q) (rne (q / 2 ^ expo mb q):ℚ)
    rw [abs_sub_comm (q / 2 ^ expo mb q)] at h3
    linarith
  · obtain ⟨c, rfl⟩ := Nat.exists_eq_add_of_le hge
    have hbv : magVal mb b = (m * 2 ^ c) * 2 ^ expo mb q := by rw [hv, pow_add]; ring
    have hne' : rne (q / 2 ^ expo mb q) ≠ m * 2 ^ c := by
      intro hh; apply hne; apply magVal_inj (mb := mb); rw [hbv, hvr, hh]
    rw [hbv, hvr, e, e, abs_mul, abs_mul] at ht
    have ht := mul_right_cancel₀ (abs_pos.mpr hp.ne').ne' ht
    apply key
    apply rne_even hQ
    have h1 := rne_err hQ
    have h2 : (1:ℚ) ≤ |((m * 2 ^ c : ℕ):ℚ) - (rne (q / 2 ^ expo mb q) : ℚ)| := by
      have : (1:ℤ) ≤ |((m * 2 ^ c : ℕ):ℤ) - (rne (q / 2 ^ expo mb q) : ℤ)| := by
        apply Int.one_le_abs; omega
      exact_mod_cast this
    have h3 := abs_sub_le ((m * 2 ^ c : ℕ):ℚ) (q / 2 ^ expo mb q) (rne (q / 2 ^ expo mb q):ℚ)
    rw [abs_sub_comm (q / 2 ^ expo mb q)] at h3
    linarith

end Verif
