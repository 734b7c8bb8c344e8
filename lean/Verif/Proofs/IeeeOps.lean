import Verif.Proofs.Ieee

/-! # The software operations satisfy the IEEE 754 specification -/

namespace Verif
open Verif.Ieee (Format decode signed Rounded Datum)

variable {f : Fmt}

/-- The datum of a float of the model. -/
def Flt.datum (x : Flt f) : Datum := if x.isNaN then .nan else if x.isInf then .inf x.neg else .fin x.neg x.absRat

theorem decode_datum [f.Good] {x : Flt f} (hv : x.Valid) : decode f.ieee x.toBits = x.datum := by
  unfold Flt.datum Flt.isNaN Flt.isInf
  rcases Nat.lt_trichotomy x.mag f.infMag with g | g | g
  · rw [decode_fin g, if_neg (by simp; omega), if_neg (by simp; omega)]
  · rw [decode_inf g, if_neg (by simp; omega), if_pos (by simpa using g)]
  · rw [decode_nan hv g, if_pos (by simpa using g)]

theorem valid_of_le' [f.Good] {s : Bool} {k : Nat} (h : k ≤ f.infMag) : (⟨s, k⟩ : Flt f).Valid := by
  have := infMag_lt_magLim (f := f)
  have : 0 < 2 ^ (f.mb - 1) := by positivity
  unfold Flt.Valid; simp only; omega

theorem nan_valid [f.Good] : (Flt.nan : Flt f).Valid := infMag_lt_magLim
theorem decode_nan' [f.Good] : decode f.ieee (Flt.nan : Flt f).toBits = .nan :=
  decode_nan nan_valid (by unfold Flt.nan; simp only; have : 0 < 2 ^ (f.mb - 1) := by positivity
                           omega)
theorem decode_inf' [f.Good] (s : Bool) : decode f.ieee (Flt.inf s : Flt f).toBits = .inf s := decode_inf rfl

theorem roundAbs_le (q : ℚ) : Flt.roundAbs f q ≤ f.infMag := min_le_left _ _

theorem absRat_zero_iff (x : Flt f) : x.absRat = 0 ↔ x.isZero = true := by
  unfold Flt.absRat Flt.isZero
  rw [decide_eq_true_iff, div_eq_zero_iff]
  constructor
  · rintro (h | h)
    · exact magVal_inj (mb := f.mb) (by rw [magVal_zero]; exact_mod_cast h)
    · exact absurd h (by positivity)
  · intro h; left; rw [h, magVal_zero]; norm_num

theorem signed_mul (s s' : Bool) (a b : ℚ) : signed s a * signed s' b = signed (s ^^ s') (a * b) := by
  cases s <;> cases s' <;> simp [signed]

theorem signed_div (s s' : Bool) (a b : ℚ) : signed s a / signed s' b = signed (s ^^ s') (a / b) := by
  cases s <;> cases s' <;> simp [signed, neg_div, div_neg]

theorem abs_signed {s : Bool} {a : ℚ} (h : 0 ≤ a) : |signed s a| = a := by
  cases s <;> simp [signed, abs_of_nonneg h]

theorem rounded_signed [f.Good] {s : Bool} {a : ℚ} (h : 0 ≤ a) :
    Rounded f.ieee (signed s a) s (⟨s, Flt.roundAbs f a⟩ : Flt f).toBits := by
  have := rounded_roundAbs (f := f) (r := signed s a) (s := s) (fun hne => by
    have : a ≠ 0 := by rintro rfl; apply hne; cases s <;> simp [signed]
    have : 0 < a := lt_of_le_of_ne h (Ne.symm this)
    cases s
    · simp only [signed, Bool.false_eq_true, if_false]; exact (decide_eq_false (not_lt.mpr h)).symm
    · simp only [signed, if_true]; exact (decide_eq_true (by linarith)).symm)
  rwa [abs_signed h] at this

theorem rounded_ofRat [f.Good] {r : ℚ} {z : Bool} :
    Rounded f.ieee r (if r = 0 then z else decide (r < 0)) (Flt.ofRat f r z).toBits := by
  unfold Flt.ofRat
  by_cases h : r = 0
  · subst h
    simp only [if_true]
    have := rounded_roundAbs (f := f) (r := 0) (s := z) (fun h => absurd rfl h)
    have h0 : Flt.roundAbs f |(0:ℚ)| = 0 := by
      unfold Flt.roundAbs
      rw [abs_zero, zero_mul]
      have := roundMag_magVal f.mb 0
      rw [magVal_zero] at this
      rw [show (0:ℚ) = ((0:ℕ):ℚ) by norm_num, this]; exact Nat.min_zero _
    rwa [h0] at this
  · rw [if_neg h, if_neg h]
    exact rounded_roundAbs (fun _ => rfl)

theorem ieee_mul [f.Good] {a b : Flt f} (ha : a.Valid) (hb : b.Valid) :
    Ieee.IsProduct f.ieee a.toBits b.toBits (Flt.mul a b).toBits := by
  unfold Ieee.IsProduct
  rw [decode_datum ha, decode_datum hb]
  unfold Flt.datum Flt.mul
  cases h1 : a.isNaN
  · cases h2 : b.isNaN
    · cases h3 : a.isInf
      · cases h4 : b.isInf
        · simp only [Bool.false_eq_true, if_false, Bool.or_self]
          rw [signed_mul]
          exact rounded_signed (mul_nonneg (absRat_nonneg _) (absRat_nonneg _))
        · have hbz : b.isZero = false := by
            unfold Flt.isInf Flt.isZero at *
            have := infMag_pos (f := f)
            simp at h4 ⊢; omega
          simp only [Bool.false_eq_true, if_false, if_true, Bool.or_self, Bool.or_true, hbz, Bool.or_false, absRat_zero_iff]
          split
          · exact decode_nan'
          · exact decode_inf' _
      · have haz : a.isZero = false := by
          unfold Flt.isInf Flt.isZero at *
          have := infMag_pos (f := f)
          simp at h3 ⊢; omega
        cases h4 : b.isInf
        · simp only [Bool.false_eq_true, if_false, if_true, Bool.or_self, Bool.true_or, haz, Bool.false_or, absRat_zero_iff]
          split
          · exact decode_nan'
          · exact decode_inf' _
        · have hbz : b.isZero = false := by
            unfold Flt.isInf Flt.isZero at *
            have := infMag_pos (f := f)
            simp at h4 ⊢; omega
          simp only [Bool.false_eq_true, if_false, if_true, Bool.or_self, Bool.true_or, haz, hbz]
          exact decode_inf' _
    · simp only [Bool.false_eq_true, if_false, if_true, Bool.or_true]
      cases h3 : a.isInf <;> simp only [Bool.false_eq_true, if_false, if_true] <;> exact decode_nan'
  · simp only [if_true, Bool.true_or]
    exact decode_nan'

/-- Addition, on data. -/
theorem sum_add [f.Good] {a b : Flt f} :
    Ieee.Sum f.ieee a.datum b.datum (Flt.add a b).toBits := by
  unfold Ieee.Sum
  unfold Flt.datum Flt.add
  cases h1 : a.isNaN
  · cases h2 : b.isNaN
    · cases h3 : a.isInf
      · cases h4 : b.isInf
        · simp only [Bool.false_eq_true, if_false, Bool.or_self, signed_absRat]
          exact rounded_ofRat
        · simp only [Bool.false_eq_true, if_false, if_true, Bool.or_self]
          exact decode_inf (by simpa [Flt.isInf] using h4)
      · cases h4 : b.isInf
        · simp only [Bool.false_eq_true, if_false, if_true, Bool.or_self, Bool.false_and]
          exact decode_inf (by simpa [Flt.isInf] using h3)
        · simp only [Bool.false_eq_true, if_false, if_true, Bool.or_self, Bool.true_and]
          cases hs : a.neg <;> cases hs' : b.neg <;> simp only [Bool.xor_self, Bool.false_eq_true, if_false, if_true, Bool.xor_true, Bool.true_xor, Bool.not_false, Bool.not_true, Bool.xor_false, Bool.false_xor, reduceCtorEq]
          · rw [← hs]; exact decode_inf (by simpa [Flt.isInf] using h3)
          · exact decode_nan'
          · exact decode_nan'
          · rw [← hs]; exact decode_inf (by simpa [Flt.isInf] using h3)
    · simp only [Bool.false_eq_true, if_false, if_true, Bool.or_true]
      cases h3 : a.isInf <;> simp only [Bool.false_eq_true, if_false, if_true] <;> exact decode_nan'
  · simp only [if_true, Bool.true_or]
    exact decode_nan'

theorem ieee_add [f.Good] {a b : Flt f} (ha : a.Valid) (hb : b.Valid) :
    Ieee.IsSum f.ieee a.toBits b.toBits (Flt.add a b).toBits := by
  unfold Ieee.IsSum
  rw [decode_datum ha, decode_datum hb]
  exact sum_add

theorem datum_negate (x : Flt f) : x.negate.datum = x.datum.opposite := by
  unfold Flt.datum
  have h1 : x.negate.isNaN = x.isNaN := rfl
  have h2 : x.negate.isInf = x.isInf := rfl
  have h3 : x.negate.absRat = x.absRat := rfl
  have h4 : x.negate.neg = !x.neg := rfl
  rw [h1, h2, h3, h4]
  cases x.isNaN <;> cases x.isInf <;> rfl

theorem ieee_sub [f.Good] {a b : Flt f} (ha : a.Valid) (hb : b.Valid) :
    Ieee.IsDifference f.ieee a.toBits b.toBits (Flt.sub a b).toBits := by
  unfold Ieee.IsDifference Flt.sub
  rw [decode_datum ha, decode_datum hb, ← datum_negate]
  exact sum_add

theorem ieee_div [f.Good] {a b : Flt f} (ha : a.Valid) (hb : b.Valid) :
    Ieee.IsQuotient f.ieee a.toBits b.toBits (Flt.div a b).toBits := by
  unfold Ieee.IsQuotient
  rw [decode_datum ha, decode_datum hb]
  unfold Flt.datum Flt.div
  cases h1 : a.isNaN
  · cases h2 : b.isNaN
    · cases h3 : a.isInf
      · cases h4 : b.isInf
        · simp only [Bool.false_eq_true, if_false, Bool.or_self, absRat_zero_iff]
          by_cases h5 : b.isZero = true
          · simp only [h5, if_true]
            by_cases h6 : a.isZero = true
            · simp only [h6, if_true]; exact decode_nan'
            · simp only [h6, if_false]; exact decode_inf' _
          · simp only [h5, if_false]
            rw [signed_div]
            exact rounded_signed (div_nonneg (absRat_nonneg _) (absRat_nonneg _))
        · simp only [Bool.false_eq_true, if_false, if_true, Bool.or_self]
          have := decode_fin (f := f) (x := ⟨a.neg ^^ b.neg, 0⟩) infMag_pos
          rw [this]
          congr 1
          unfold Flt.absRat; simp [magVal_zero]
      · cases h4 : b.isInf
        · simp only [Bool.false_eq_true, if_false, if_true, Bool.or_self]
          exact decode_inf' _
        · simp only [Bool.false_eq_true, if_false, if_true, Bool.or_self]
          exact decode_nan'
    · simp only [Bool.false_eq_true, if_false, if_true, Bool.or_true]
      cases h3 : a.isInf <;> simp only [Bool.false_eq_true, if_false, if_true] <;> exact decode_nan'
  · simp only [if_true, Bool.true_or]
    exact decode_nan'

theorem ieee_fma [f.Good] {a b c : Flt f} (ha : a.Valid) (hb : b.Valid) (hc : c.Valid) :
    Ieee.IsFma f.ieee a.toBits b.toBits c.toBits (Flt.fma a b c).toBits := by
  unfold Ieee.IsFma Ieee.exactProduct
  rw [decode_datum ha, decode_datum hb, decode_datum hc]
  unfold Flt.fma
  have hz : ∀ x : Flt f, x.isInf = true → x.isZero = false := fun x h => by
    unfold Flt.isInf Flt.isZero at *
    have := infMag_pos (f := f)
    simp at h ⊢; omega
  unfold Flt.datum
  cases h1 : a.isNaN
  · cases h2 : b.isNaN
    · cases h5 : c.isNaN
      · cases h3 : a.isInf
        · cases h4 : b.isInf
          · simp only [Bool.false_eq_true, if_false, Bool.or_self]
            cases h6 : c.isInf
            · simp only [Bool.false_eq_true, if_false, Ieee.Sum]
              have e : signed (a.neg ^^ b.neg) (a.absRat * b.absRat) = a.toRat * b.toRat := by
                rw [← signed_mul, signed_absRat, signed_absRat]
              rw [e, signed_absRat]
              exact rounded_ofRat
            · simp only [if_true, Ieee.Sum]
              exact decode_inf (by simpa [Flt.isInf] using h6)
          · simp only [Bool.false_eq_true, if_false, if_true, Bool.or_self, Bool.or_true, hz b h4, Bool.or_false, absRat_zero_iff]
            cases h7 : a.isZero
            · simp only [Bool.false_eq_true, if_false]
              cases h6 : c.isInf
              · simp only [Bool.false_eq_true, if_false, Bool.false_and, Ieee.Sum]; exact decode_inf' _
              · simp only [if_true, Bool.true_and, Ieee.Sum]
                cases hx : (a.neg ^^ b.neg) <;> cases hy : c.neg <;> simp only [Bool.xor_self, Bool.false_eq_true, if_false, if_true, Bool.xor_true, Bool.true_xor, Bool.not_false, Bool.not_true, Bool.xor_false, Bool.false_xor, reduceCtorEq]
                all_goals first | exact decode_nan' | exact decode_inf' _
            · simp only [if_true, Ieee.Sum]
              cases h6 : c.isInf <;> exact decode_nan'
        · cases h4 : b.isInf
          · simp only [Bool.false_eq_true, if_false, if_true, Bool.or_self, Bool.true_or, hz a h3, Bool.false_or, absRat_zero_iff]
            cases h7 : b.isZero
            · simp only [Bool.false_eq_true, if_false]
              cases h6 : c.isInf
              · simp only [Bool.false_eq_true, if_false, Bool.false_and, Ieee.Sum]; exact decode_inf' _
              · simp only [if_true, Bool.true_and, Ieee.Sum]
                cases hx : (a.neg ^^ b.neg) <;> cases hy : c.neg <;> simp only [Bool.xor_self, Bool.false_eq_true, if_false, if_true, Bool.xor_true, Bool.true_xor, Bool.not_false, Bool.not_true, Bool.xor_false, Bool.false_xor, reduceCtorEq]
                all_goals first | exact decode_nan' | exact decode_inf' _
            · simp only [if_true, Ieee.Sum]
              cases h6 : c.isInf <;> exact decode_nan'
          · simp only [Bool.false_eq_true, if_false, if_true, Bool.or_self, hz a h3, hz b h4]
            cases h6 : c.isInf
            · simp only [Bool.false_eq_true, if_false, Bool.false_and, Ieee.Sum]; exact decode_inf' _
            · simp only [if_true, Bool.true_and, Ieee.Sum]
              cases hx : (a.neg ^^ b.neg) <;> cases hy : c.neg <;> simp only [Bool.xor_self, Bool.false_eq_true, if_false, if_true, Bool.xor_true, Bool.true_xor, Bool.not_false, Bool.not_true, Bool.xor_false, Bool.false_xor, reduceCtorEq]
              all_goals first | exact decode_nan' | exact decode_inf' _
      · simp only [Bool.false_eq_true, if_false, if_true, Bool.or_true]
        have : ∀ d : Datum, Ieee.Sum f.ieee d .nan (Flt.nan : Flt f).toBits := fun d => by
          cases d <;> exact decode_nan'
        exact this _
    · simp only [Bool.false_eq_true, if_false, if_true, Bool.or_true, Bool.true_or]
      have : ∀ d d' : Datum, Ieee.Sum f.ieee (match d, (.nan : Datum) with
          | .fin s a, .fin s' a' => .fin (s ^^ s') (a * a')
          | .inf s, .inf s' => .inf (s ^^ s')
          | .inf s, .fin s' a => if a = 0 then .nan else .inf (s ^^ s')
          | .fin s a, .inf s' => if a = 0 then .nan else .inf (s ^^ s')
          | _, _ => .nan) d' (Flt.nan : Flt f).toBits := fun d d' => by
        cases d <;> cases d' <;> exact decode_nan'
      exact this _ _
  · simp only [if_true, Bool.true_or]
    have : ∀ d : Datum, Ieee.Sum f.ieee .nan d (Flt.nan : Flt f).toBits := fun d => by
      cases d <;> exact decode_nan'
    exact this _

theorem ieee_cvt {g : Fmt} [f.Good] [g.Good] {x : Flt f} (hx : x.Valid) :
    Ieee.IsConversion f.ieee g.ieee x.toBits (Flt.cvt g x).toBits := by
  unfold Ieee.IsConversion
  rw [decode_datum hx]
  unfold Flt.datum Flt.cvt
  cases h1 : x.isNaN
  · cases h2 : x.isInf
    · simp only [Bool.false_eq_true, if_false]
      exact rounded_signed (absRat_nonneg _)
    · simp only [Bool.false_eq_true, if_false, if_true]
      exact decode_inf' _
  · simp only [if_true]
    refine decode_nan ?_ ?_
    · exact infMag_lt_magLim
    · unfold Flt.nan; simp only; have : 0 < 2 ^ (g.mb - 1) := by positivity
      omega

theorem ieee_ofInt [f.Good] (i : ℤ) : Ieee.IsFromInt f.ieee i (Flt.ofInt f i).toBits := by
  unfold Ieee.IsFromInt Flt.ofInt
  have := rounded_ofRat (f := f) (r := (i:ℚ)) (z := false)
  have e : (if (i:ℚ) = 0 then false else decide ((i:ℚ) < 0)) = decide (i < 0) := by
    by_cases h : i = 0
    · subst h; rfl
    · rw [if_neg (by exact_mod_cast h)]; congr 1; exact propext (by exact_mod_cast Iff.rfl)
  rwa [e] at this

theorem ieee_lt [f.Good] {a b : Flt f} (ha : a.Valid) (hb : b.Valid) :
    Flt.lt a b = true ↔ (decode f.ieee a.toBits).less (decode f.ieee b.toBits) := by
  rw [decode_datum ha, decode_datum hb]
  unfold Flt.datum Flt.lt
  cases h1 : a.isNaN <;> cases h2 : b.isNaN <;> cases h3 : a.isInf <;> cases h4 : b.isInf <;>
    simp [Datum.less, signed_absRat]

theorem ieee_feq [f.Good] {a b : Flt f} (ha : a.Valid) (hb : b.Valid) :
    Flt.feq a b = true ↔ (decode f.ieee a.toBits).equal (decode f.ieee b.toBits) := by
  rw [decode_datum ha, decode_datum hb]
  unfold Flt.datum Flt.feq Flt.lt
  cases h1 : a.isNaN <;> cases h2 : b.isNaN <;> cases h3 : a.isInf <;> cases h4 : b.isInf <;>
    simp [Datum.equal, signed_absRat]
  · exact ⟨fun h => le_antisymm h.2 h.1, fun h => ⟨h.symm.le, h.le⟩⟩
  all_goals cases a.neg <;> cases b.neg <;> simp

theorem ieee_ge [f.Good] {a b : Flt f} (ha : a.Valid) (hb : b.Valid) :
    Flt.ge a b = true ↔ (decode f.ieee b.toBits).less (decode f.ieee a.toBits) ∨ (decode f.ieee b.toBits).equal (decode f.ieee a.toBits) := by
  rw [decode_datum ha, decode_datum hb]
  unfold Flt.datum Flt.ge Flt.lt
  cases h1 : a.isNaN <;> cases h2 : b.isNaN <;> cases h3 : a.isInf <;> cases h4 : b.isInf <;>
    simp [Datum.less, Datum.equal, signed_absRat]
  · exact le_iff_lt_or_eq
  all_goals cases a.neg <;> cases b.neg <;> simp

theorem round_cases [f.Good] {x : Flt f} (hx : x.Valid) {g : Flt f → Flt f} (hg : ∀ y : Flt f, y.isFin = false → g y = y)
    {P : Bool → ℚ → Prop} (hP : x.isFin = true → P x.neg x.absRat) :
    match decode f.ieee x.toBits with
    | .nan => decode f.ieee (g x).toBits = .nan
    | .inf s => decode f.ieee (g x).toBits = .inf s
    | .fin s a => P s a := by
  have hd := decode_datum hx
  rw [hd]
  unfold Flt.datum at hd ⊢
  cases h1 : x.isNaN
  · cases h2 : x.isInf
    · have h3 : x.isFin = true := by
        unfold Flt.isNaN Flt.isInf Flt.isFin at *
        simp at *; omega
      simp only [Bool.false_eq_true, if_false]
      exact hP h3
    · have h3 : x.isFin = false := by
        unfold Flt.isInf Flt.isFin at *
        simp at *; omega
      simp only [Bool.false_eq_true, if_false, if_true, hg x h3]
      exact decode_inf (by simpa [Flt.isInf] using h2)
  · have h3 : x.isFin = false := by
      unfold Flt.isNaN Flt.isFin at *
      simp at *; omega
    simp only [if_true, hg x h3]
    exact decode_nan hx (by simpa [Flt.isNaN] using h1)

theorem isFin_mag {x : Flt f} (h : x.isFin = true) : x.mag < f.infMag := by simpa [Flt.isFin] using h

theorem ieee_round [f.Good] {x : Flt f} (hx : x.Valid) : Ieee.IsRoundAway f.ieee x.toBits (Flt.round x).toBits := by
  unfold Ieee.IsRoundAway
  refine round_cases hx (g := Flt.round) (fun y hy => by unfold Flt.round; rw [hy]; rfl)
    (P := fun s a => ∃ k : Nat, decode f.ieee (Flt.round x).toBits = .fin s k ∧ (k : ℚ) - 1 / 2 ≤ a ∧ a < k + 1 / 2) (fun h3 => ?_)
  obtain ⟨r1, r2, r3⟩ := round_fin h3
  have hk : (0:ℤ) ≤ ⌊x.absRat + 1/2⌋ := Int.floor_nonneg.mpr (by have := absRat_nonneg x; linarith)
  have hc : ((⌊x.absRat + 1/2⌋.toNat : ℕ) : ℚ) = (⌊x.absRat + 1/2⌋ : ℤ) := by exact_mod_cast Int.toNat_of_nonneg hk
  refine ⟨⌊x.absRat + 1/2⌋.toNat, ?_, ?_⟩
  · rw [decode_fin (isFin_mag r1), r2, r3, hc]
  · rw [hc]
    have h4 := Int.floor_le (x.absRat + 1/2)
    have h5 := Int.lt_floor_add_one (x.absRat + 1/2)
    constructor <;> linarith

theorem ieee_trunc [f.Good] {x : Flt f} (hx : x.Valid) : Ieee.IsTrunc f.ieee x.toBits (Flt.trunc x).toBits := by
  unfold Ieee.IsTrunc
  refine round_cases hx (g := Flt.trunc) (fun y hy => by unfold Flt.trunc; rw [hy]; rfl)
    (P := fun s a => ∃ k : Nat, decode f.ieee (Flt.trunc x).toBits = .fin s k ∧ (k : ℚ) ≤ a ∧ a < k + 1) (fun h3 => ?_)
  obtain ⟨r1, r2, r3⟩ := trunc_fin h3
  have hk : (0:ℤ) ≤ ⌊x.absRat⌋ := Int.floor_nonneg.mpr (absRat_nonneg x)
  have hc : ((⌊x.absRat⌋.toNat : ℕ) : ℚ) = (⌊x.absRat⌋ : ℤ) := by exact_mod_cast Int.toNat_of_nonneg hk
  refine ⟨⌊x.absRat⌋.toNat, ?_, ?_⟩
  · rw [decode_fin (isFin_mag r1), r2, r3, hc]
  · rw [hc]; exact ⟨Int.floor_le _, Int.lt_floor_add_one _⟩

/-- The C++ conversion to an integer: the truncated value, if it can be represented. -/
theorem ieee_toInt [f.Good] {x : Flt f} (hx : x.Valid) {w : Nat} {t : ℤ} :
    Flt.toInt? w x = some t ↔ ∃ s a, decode f.ieee x.toBits = .fin s a ∧ ∃ k : Nat, (k : ℚ) ≤ a ∧ a < k + 1 ∧
      t = (if s then -(k : ℤ) else k) ∧ -(2 ^ (w - 1) : ℤ) ≤ t ∧ t < 2 ^ (w - 1) := by
  unfold Flt.toInt?
  by_cases h3 : x.isFin = true
  · rw [if_pos h3]
    have hk : (0:ℤ) ≤ ⌊x.absRat⌋ := Int.floor_nonneg.mpr (absRat_nonneg x)
    have hc : ((⌊x.absRat⌋.toNat : ℕ) : ℤ) = ⌊x.absRat⌋ := Int.toNat_of_nonneg hk
    have hcq : ((⌊x.absRat⌋.toNat : ℕ) : ℚ) = (⌊x.absRat⌋ : ℤ) := by exact_mod_cast hc
    have ht : x.truncInt = if x.neg then -⌊x.absRat⌋ else ⌊x.absRat⌋ := rfl
    constructor
    · intro h
      simp only at h
      split at h
      · next hr =>
        have he := Option.some.inj h
        refine ⟨_, _, decode_fin (isFin_mag h3), ⌊x.absRat⌋.toNat, by rw [hcq]; exact Int.floor_le _, by rw [hcq]; exact Int.lt_floor_add_one _, ?_, ?_⟩
        · rw [hc, ← he, ht]
        · rw [← he]; exact hr
      · cases h
    · rintro ⟨s, a, hd, k, h1, h2, h4, h5⟩
      rw [decode_fin (isFin_mag h3)] at hd
      cases hd
      have hf : ⌊x.absRat⌋ = (k:ℤ) := by rw [Int.floor_eq_iff]; push_cast; exact ⟨h1, h2⟩
      have : x.truncInt = t := by rw [ht, hf, h4]
      simp only [this]
      rw [if_pos h5]
  · rw [if_neg h3]
    constructor
    · intro h; cases h
    · rintro ⟨s, a, hd, _⟩
      have hnf : ¬ x.mag < f.infMag := fun h => h3 (by simpa [Flt.isFin] using h)
      rcases Nat.lt_trichotomy x.mag f.infMag with g | g | g
      · exact absurd g hnf
      · rw [decode_inf g] at hd; cases hd
      · rw [decode_nan hx g] at hd; cases hd

/-- Correct rounding has one result: two patterns of the format that are both the correctly rounded
result are the same pattern. -/
theorem rounded_unique [h : f.Good] {r : ℚ} {s : Bool} {x y : Flt f} (hx : x.Valid) (hy : y.Valid)
    (h1 : Rounded f.ieee r s x.toBits) (h2 : Rounded f.ieee r s y.toBits) : x = y := by
  have fin : ∀ {z : Flt f} {s a}, z.Valid → decode f.ieee z.toBits = .fin s a → z.mag < f.infMag ∧ z.neg = s ∧ z.absRat = a := by
    intro z s a hz hd
    rcases Nat.lt_trichotomy z.mag f.infMag with g | g | g
    · rw [decode_fin g] at hd; cases hd; exact ⟨g, rfl, rfl⟩
    · rw [decode_inf g] at hd; cases hd
    · rw [decode_nan hz g] at hd; cases hd
  have inf : ∀ {z : Flt f} {s}, z.Valid → decode f.ieee z.toBits = .inf s → z.mag = f.infMag ∧ z.neg = s := by
    intro z s hz hd
    rcases Nat.lt_trichotomy z.mag f.infMag with g | g | g
    · rw [decode_fin g] at hd; cases hd
    · rw [decode_inf g] at hd; cases hd; exact ⟨g, rfl⟩
    · rw [decode_nan hz g] at hd; cases hd
  have ext : ∀ {x y : Flt f}, x.neg = y.neg → x.mag = y.mag → x = y := by
    rintro ⟨_, _⟩ ⟨_, _⟩ h1 h2; simp only at h1 h2; rw [h1, h2]
  unfold Rounded at h1 h2
  split at h1
  · next hc =>
    rw [if_pos hc] at h2
    obtain ⟨a1, a2⟩ := inf hx h1
    obtain ⟨b1, b2⟩ := inf hy h2
    exact ext (a2.trans b2.symm) (a1.trans b1.symm)
  · next hc =>
    rw [if_neg hc] at h2
    obtain ⟨a, ha, na⟩ := h1
    obtain ⟨b, hb, nb⟩ := h2
    obtain ⟨a1, a2, a3⟩ := fin hx ha
    obtain ⟨b1, b2, b3⟩ := fin hy hb
    refine ext (a2.trans b2.symm) ?_
    -- two different magnitudes, both nearest and both even, have an odd one strictly between
    have key : ∀ {x y : Flt f} {a b : ℚ}, y.mag < f.infMag → x.neg = s → y.neg = s → x.absRat = a → y.absRat = b → x.mag < y.mag →
        x.toBits % 2 = 0 → |signed s a - r| = |signed s b - r| →
        (∀ c s' a', decode f.ieee c = .fin s' a' → |signed s a - r| ≤ |signed s' a' - r|) → y.toBits % 2 = 0 → False := by
      intro x y a b hyf xn yn xa ya hlt hx2 he hn hy2
      rw [toBits_mod_two] at hx2 hy2
      have hm : x.mag + 1 < y.mag := by omega
      let z : Flt f := ⟨s, x.mag + 1⟩
      have hz := decode_fin (f := f) (x := z) (show x.mag + 1 < f.infMag by omega)
      have hzn := hn _ _ _ hz
      have h1 : a < z.absRat := by rw [← xa]; exact absRat_lt_iff.mpr (show x.mag < x.mag + 1 by omega)
      have h2 : z.absRat < b := by rw [← ya]; exact absRat_lt_iff.mpr hm
      have hzs : z.neg = s := rfl
      rw [hzs] at hzn
      generalize z.absRat = c at *
      unfold signed at he hzn
      cases s <;> simp only [Bool.false_eq_true, if_false, if_true] at he hzn
      · rcases abs_cases (a - r) with ⟨e1, _⟩ | ⟨e1, _⟩ <;> rcases abs_cases (b - r) with ⟨e2, _⟩ | ⟨e2, _⟩ <;>
          rcases abs_cases (c - r) with ⟨e3, _⟩ | ⟨e3, _⟩ <;> rw [e1, e2] at he <;> rw [e1, e3] at hzn <;> linarith
      · rcases abs_cases (-a - r) with ⟨e1, _⟩ | ⟨e1, _⟩ <;> rcases abs_cases (-b - r) with ⟨e2, _⟩ | ⟨e2, _⟩ <;>
          rcases abs_cases (-c - r) with ⟨e3, _⟩ | ⟨e3, _⟩ <;> rw [e1, e2] at he <;> rw [e1, e3] at hzn <;> linarith
    have he : |signed s a - r| = |signed s b - r| := le_antisymm (na _ _ _ hb).1 (nb _ _ _ ha).1
    have hsd : x.mag ≠ y.mag → signed s b ≠ signed s a := by
      intro hne hs
      have : a = b := by cases s <;> simp only [signed, Bool.false_eq_true, if_false, if_true] at hs <;> linarith
      exact hne (absRat_inj (a3.trans (this.trans b3.symm)))
    by_contra hne
    have ex := (na _ _ _ hb).2 he (hsd hne)
    have ey := (nb _ _ _ ha).2 he.symm (fun h => hsd hne h.symm)
    rcases Nat.lt_or_gt_of_ne hne with hlt | hlt
    · exact key b1 a2 b2 a3 b3 hlt ex he (fun c s' a' hc => (na c s' a' hc).1) ey
    · exact key a1 b2 a2 b3 a3 hlt ey he.symm (fun c s' a' hc => (nb c s' a' hc).1) ex

theorem toBits_ofBits_mod_two [h : f.Good] (b : Nat) : (Flt.ofBits f b).toBits % 2 = b % 2 := by
  rw [toBits_mod_two]
  unfold Flt.ofBits Fmt.magLim
  simp only
  have h1 := h.mb1
  obtain ⟨k, hk⟩ : ∃ k, f.eb + f.mb = k + 1 := ⟨f.eb + f.mb - 1, by omega⟩
  rw [hk, pow_succ, mul_comm, Nat.mod_mul_right_mod]

theorem rounded_ofBits [f.Good] {r : ℚ} {s : Bool} {b : Nat} (h : Rounded f.ieee r s b) : Rounded f.ieee r s (Flt.ofBits f b).toBits := by
  unfold Rounded at h ⊢
  rw [← decode_ofBits, toBits_ofBits_mod_two]
  exact h

/-- All patterns that are the correctly rounded result encode the same datum. -/
theorem rounded_det [f.Good] {r : ℚ} {s : Bool} {b b' : Nat} (h : Rounded f.ieee r s b) (h' : Rounded f.ieee r s b') :
    decode f.ieee b = decode f.ieee b' := by
  have hv : ∀ b, (Flt.ofBits f b).Valid := fun b => Nat.mod_lt _ (by unfold Fmt.magLim; positivity)
  have := rounded_unique (hv b) (hv b') (rounded_ofBits h) (rounded_ofBits h')
  rw [decode_ofBits b, decode_ofBits b', this]

theorem product_det [f.Good] {x y y' z z' : Nat} (hy : decode f.ieee y = decode f.ieee y') (h : Ieee.IsProduct f.ieee x y z) (h' : Ieee.IsProduct f.ieee x y' z') :
    decode f.ieee z = decode f.ieee z' := by
  unfold Ieee.IsProduct at h h'
  rw [← hy] at h'
  cases h1 : decode f.ieee x <;> cases h2 : decode f.ieee y <;> rw [h1, h2] at h h' <;> dsimp only at h h'
  case fin.fin => exact rounded_det h h'
  case inf.fin => split at h <;> rename_i h0 <;> [rw [if_pos h0] at h'; rw [if_neg h0] at h'] <;> rw [h, h']
  case fin.inf => split at h <;> rename_i h0 <;> [rw [if_pos h0] at h'; rw [if_neg h0] at h'] <;> rw [h, h']
  all_goals rw [h, h']

theorem quotient_det [f.Good] {x y z z' : Nat} (h : Ieee.IsQuotient f.ieee x y z) (h' : Ieee.IsQuotient f.ieee x y z') :
    decode f.ieee z = decode f.ieee z' := by
  unfold Ieee.IsQuotient at h h'
  cases h1 : decode f.ieee x <;> cases h2 : decode f.ieee y <;> rw [h1, h2] at h h' <;> dsimp only at h h'
  case fin.fin =>
    split at h
    · rename_i h0
      rw [if_pos h0] at h'
      split at h <;> rename_i h3 <;> [rw [if_pos h3] at h'; rw [if_neg h3] at h'] <;> rw [h, h']
    · rename_i h0
      rw [if_neg h0] at h'
      exact rounded_det h h'
  all_goals rw [h, h']

theorem Sum_det [f.Good] {x y : Datum} {z z' : Nat} (h : Ieee.Sum f.ieee x y z) (h' : Ieee.Sum f.ieee x y z') :
    decode f.ieee z = decode f.ieee z' := by
  unfold Ieee.Sum at h h'
  cases x <;> cases y <;> dsimp only at h h'
  case fin.fin => exact rounded_det h h'
  case inf.inf => split at h <;> rename_i h0 <;> [rw [if_pos h0] at h'; rw [if_neg h0] at h'] <;> rw [h, h']
  all_goals rw [h, h']

theorem conversion_det {g : Fmt} [g.Good] {x z z' : Nat} (h : Ieee.IsConversion f.ieee g.ieee x z) (h' : Ieee.IsConversion f.ieee g.ieee x z') :
    decode g.ieee z = decode g.ieee z' := by
  unfold Ieee.IsConversion at h h'
  cases h1 : decode f.ieee x <;> rw [h1] at h h' <;> dsimp only at h h'
  case fin => exact rounded_det h h'
  all_goals rw [h, h']

end Verif
