import Verif.Proofs.Nearest

/-! # Codes of single elements, in terms of rational arithmetic -/

namespace Verif
open Simd

variable {f : Fmt}

theorem toRat_abs (x : Flt f) : |x.toRat| = x.absRat := by
  unfold Flt.toRat
  have := absRat_nonneg x
  split
  · rw [abs_neg, abs_of_nonneg this]
  · rw [abs_of_nonneg this]

theorem rha_toRat [f.Good] {x : Flt f} (h : x.isFin = true) : Flt.truncInt (Flt.round x) = Spec.rha x.toRat := by
  rw [truncInt_round h]
  unfold Spec.rha Flt.toRat
  have h0 := absRat_nonneg x
  cases x.neg
  · simp only [Bool.false_eq_true, if_false]
    rw [if_neg (by linarith)]
  · simp only [if_true, neg_neg]
    rcases eq_or_lt_of_le h0 with h1 | h1
    · rw [← h1]; norm_num
    · rw [if_pos (by linarith)]

theorem isFin_not_nan {x : Flt f} (h : x.isFin = true) : x.isNaN = false ∧ x.isInf = false := by
  simp [Flt.isFin, Flt.isNaN, Flt.isInf] at *; omega

theorem toInt?_fin {w : Nat} {x : Flt f} (h : x.isFin = true) :
    x.toInt? w = if -(2 ^ (w - 1) : ℤ) ≤ x.truncInt ∧ x.truncInt < 2 ^ (w - 1) then some x.truncInt else none := by
  unfold Flt.toInt?; rw [if_pos h]

theorem toInt?_round_some [f.Good] {w : Nat} {x : Flt f} {t : ℤ} :
    (Flt.round x).toInt? w = some t ↔ x.isFin = true ∧ t = Spec.rha x.toRat ∧ -(2 ^ (w - 1) : ℤ) ≤ t ∧ t < 2 ^ (w - 1) := by
  by_cases h : x.isFin = true
  · obtain ⟨h1, _, _⟩ := round_fin h
    rw [toInt?_fin h1, rha_toRat h]
    split
    · rename_i hr
      simp only [Option.some.injEq, h, true_and]
      exact ⟨fun e => ⟨e.symm, by rw [← e]; exact hr⟩, fun e => e.1.symm⟩
    · rename_i hr
      simp only [h, true_and, reduceCtorEq, false_iff]
      rintro ⟨rfl, h3⟩; exact hr h3
  · have : Flt.round x = x := by unfold Flt.round; rw [if_neg h]
    rw [this]
    unfold Flt.toInt?
    rw [if_neg h]; simp [h]

/-- When the scalar nearest step is defined, and its result. -/
theorem toIntAdd_round [f.Good] {w : Nat} {p : F32} {zp t : ℤ} :
    toIntAdd w (Flt.round p) zp = .ret t ↔ p.isFin = true ∧ t = Spec.rha p.toRat + zp ∧
      (-(2 ^ (w - 1) : ℤ) ≤ Spec.rha p.toRat ∧ Spec.rha p.toRat < 2 ^ (w - 1)) ∧ -(2 ^ (w - 1) : ℤ) ≤ t ∧ t < 2 ^ (w - 1) := by
  unfold toIntAdd
  cases h : (Flt.round p).toInt? w with
  | none =>
    constructor
    · intro h; cases h
    · rintro ⟨h1, rfl, h3, h4⟩
      have := (toInt?_round_some (x := p) (w := w) (t := Spec.rha p.toRat)).mpr ⟨h1, rfl, h3⟩
      rw [h] at this; cases this
  | some s =>
    obtain ⟨h1, rfl, h3⟩ := toInt?_round_some.mp h
    simp only
    split
    · rename_i hr
      constructor
      · intro e; injection e with e; subst e; exact ⟨h1, rfl, h3, hr⟩
      · rintro ⟨_, rfl, _⟩; rfl
    · rename_i hr
      constructor
      · intro e; cases e
      · rintro ⟨_, rfl, _, h5⟩; exact absurd h5 hr

/-- The integer part of quantization does not overflow the kernel's signed `w`-bit arithmetic. -/
abbrev SafeW := Spec.Fits

theorem toIntAdd_bind_ret {w qmax : Nat} {p : F32} {zp : ℤ} {q : Nat} :
    (toIntAdd w (Flt.round p) zp).bind (fun t => .ret (clampI qmax t)) = .ret q ↔
      SafeW w p zp ∧ q = clampI qmax (Spec.rha p.toRat + zp) := by
  rcases toIntAdd_cases w (Flt.round p) zp with ⟨t, h⟩ | h
  · rw [h]
    obtain ⟨h1, rfl, h3, h4⟩ := (toIntAdd_round (f := f32)).mp h
    simp only [Prog.ret_bind]
    constructor
    · intro e; injection e with e; exact ⟨⟨h1, h3, h4⟩, e.symm⟩
    · rintro ⟨_, rfl⟩; rfl
  · rw [h]
    constructor
    · intro e; cases e
    · rintro ⟨⟨h1, h3, h4⟩, rfl⟩
      have := (toIntAdd_round (f := f32) (w := w) (p := p) (zp := zp)).mpr ⟨h1, rfl, h3, h4⟩
      rw [h] at this; cases this

theorem qNearest32_ret {qmax : Nat} {v inv : F32} {zp : ℤ} {q : Nat} :
    qNearest32 qmax v inv zp = .ret q ↔ SafeW 32 (Flt.mul v inv) zp ∧ q = clampI qmax (Spec.rha (Flt.mul v inv).toRat + zp) :=
  toIntAdd_bind_ret
theorem qNearest64_ret {qmax : Nat} {v inv : F32} {zp : ℤ} {q : Nat} :
    qNearest64 qmax v inv zp = .ret q ↔ SafeW 64 (Flt.mul v inv) zp ∧ q = clampI qmax (Spec.rha (Flt.mul v inv).toRat + zp) :=
  toIntAdd_bind_ret

/-! ## The x86 vector path -/

theorem fhalf_fin : (fhalf).isFin = true := by decide
theorem fmhalf_fin : (fmhalf).isFin = true := by decide
theorem fhalf_toRat : fhalf.toRat = 1 / 2 := by decide +kernel
theorem fmhalf_toRat : fmhalf.toRat = -(1 / 2) := by decide +kernel
theorem f0_toRat : f0.toRat = 0 := by decide +kernel

theorem add_fin {a b : Flt f} (ha : a.isFin = true) (hb : b.isFin = true) :
    Flt.add a b = Flt.ofRat f (a.toRat + b.toRat) (a.neg && b.neg) := by
  obtain ⟨h1, h2⟩ := isFin_not_nan ha
  obtain ⟨h3, h4⟩ := isFin_not_nan hb
  unfold Flt.add; simp [h1, h2, h3, h4]

theorem lt_fin {a b : Flt f} (ha : a.isFin = true) (hb : b.isFin = true) : Flt.lt a b = decide (a.toRat < b.toRat) := by
  obtain ⟨h1, h2⟩ := isFin_not_nan ha
  obtain ⟨h3, h4⟩ := isFin_not_nan hb
  unfold Flt.lt; simp [h1, h2, h3, h4]

theorem ge_fin {a b : Flt f} (ha : a.isFin = true) (hb : b.isFin = true) : Flt.ge a b = decide (b.toRat ≤ a.toRat) := by
  obtain ⟨h1, h2⟩ := isFin_not_nan ha
  obtain ⟨h3, h4⟩ := isFin_not_nan hb
  unfold Flt.ge; rw [lt_fin ha hb]
  simp only [h1, h3, Bool.or_false, Bool.false_eq_true, if_false]
  rw [← decide_not]; congr 1; exact propext not_lt

/-- The sum whose truncation the vector code takes. -/
def vsum (p : F32) : F32 := Flt.add p (if Flt.ge p f0 then fhalf else fmhalf)

theorem vsum_eq {p : F32} (h : p.isFin = true) :
    vsum p = ⟨decide (p.toRat < 0), Flt.roundAbs f32 (p.absRat + 1 / 2)⟩ := by
  unfold vsum
  rw [ge_fin h (by decide), f0_toRat]
  have ha := absRat_nonneg p
  have habs := toRat_abs p
  by_cases h0 : p.toRat < 0
  · have e1 : p.toRat = - p.absRat := by rw [← habs, abs_of_neg h0]; ring
    rw [if_neg (by simpa using h0), add_fin h fmhalf_fin, fmhalf_toRat]
    unfold Flt.ofRat
    have h3 : p.toRat + -(1/2) = -(p.absRat + 1/2) := by rw [e1]; ring
    rw [h3, if_neg (by intro hc; linarith), abs_neg, abs_of_nonneg (by linarith)]
    simp only [h0, decide_true]
    congr 1
    exact decide_eq_true (by linarith)
  · have e1 : p.toRat = p.absRat := by rw [← habs, abs_of_nonneg (by linarith)]
    rw [if_pos (by simpa using h0), add_fin h fhalf_fin, fhalf_toRat]
    unfold Flt.ofRat
    rw [e1, if_neg (by intro hc; linarith), abs_of_nonneg (by linarith)]
    congr 1
    rw [decide_eq_false (by linarith), decide_eq_false (by linarith)]

theorem rha_eq (p : F32) : Spec.rha p.toRat = if p.toRat < 0 then -⌊p.absRat + 1/2⌋ else ⌊p.absRat + 1/2⌋ := by
  unfold Spec.rha
  have habs := toRat_abs p
  split
  · rename_i h; rw [abs_of_neg h] at habs; rw [habs]
  · rename_i h; rw [abs_of_nonneg (by linarith)] at habs; rw [habs]

/-- Signed version of a magnitude. -/
def sgn (b : Bool) (n : ℤ) : ℤ := if b then -n else n

theorem rha_sgn (p : F32) : Spec.rha p.toRat = sgn (decide (p.toRat < 0)) ⌊p.absRat + 1/2⌋ := by
  rw [rha_eq]; unfold sgn; simp

theorem cvttps1_fin {x : F32} (h : x.isFin = true) {t : ℤ} (ht : x.truncInt = t)
    (h1 : -(2 ^ 31 : ℤ) ≤ t) (h2 : t < 2 ^ 31) : cvttps1 x = t := by
  unfold cvttps1
  have : x.toInt? 32 = some t := by
    rw [toInt?_fin h, ht, if_pos ⟨by norm_num; omega, by norm_num; omega⟩]
  rw [this]

theorem cvttps1_vsum {p : F32} (h : p.isFin = true) (hf : fl f32 (p.absRat + 1/2) < 2 ^ 31) :
    cvttps1 (vsum p) = sgn (decide (p.toRat < 0)) ⌊fl f32 (p.absRat + 1 / 2)⌋ := by
  have hfin : (⟨decide (p.toRat < 0), Flt.roundAbs f32 (p.absRat + 1/2)⟩ : F32).isFin = true := by
    rw [isFin_mk, emax_f32]; refine hf.trans (by norm_num)
  have h0 := fl_nonneg (f := f32) (p.absRat + 1/2)
  have hfl0 : 0 ≤ ⌊fl f32 (p.absRat + 1/2)⌋ := Int.floor_nonneg.mpr h0
  have hfl1 : ⌊fl f32 (p.absRat + 1/2)⌋ < 2 ^ 31 := Int.floor_lt.mpr (by push_cast; exact hf)
  have ht : (⟨decide (p.toRat < 0), Flt.roundAbs f32 (p.absRat + 1/2)⟩ : F32).truncInt
      = sgn (decide (p.toRat < 0)) ⌊fl f32 (p.absRat + 1/2)⌋ := by
    unfold Flt.truncInt sgn; rw [absRat_mk, floor_eq']
  have : -(2 ^ 31 : ℤ) ≤ sgn (decide (p.toRat < 0)) ⌊fl f32 (p.absRat + 1/2)⌋ ∧
      sgn (decide (p.toRat < 0)) ⌊fl f32 (p.absRat + 1/2)⌋ < 2 ^ 31 := by
    unfold sgn; split <;> constructor <;> norm_num <;> omega
  rw [vsum_eq h]
  exact cvttps1_fin hfin ht this.1 this.2

theorem f32_mb : f32.mb = 23 := rfl

/-- Values from `2^24` on are unchanged by adding one half. -/
theorem fl_half_big {a : ℚ} (h : Rep f32 a) (h1 : 2 ^ 24 ≤ a) (h2 : a < 2 ^ f32.emax) : fl f32 (a + 1/2) = a := by
  have hlo : a ≤ fl f32 (a + 1/2) := le_fl (by linarith) h h2.le
  have hhi := (floor_fl_half_large h h2).2
  obtain ⟨n, hn⟩ := h.int_of_ge (j := 1) (by rw [f32_mb]; exact h1)
  have hrep : Rep f32 (fl f32 (a + 1/2)) := rep_absRat (⟨false, Flt.roundAbs f32 (a + 1/2)⟩ : F32)
  obtain ⟨m, hm⟩ := hrep.int_of_ge (j := 1) (by rw [f32_mb]; exact h1.trans hlo)
  have h3 : (m:ℚ) < n + 1 := by linarith
  have h4 : (n:ℚ) ≤ m := by linarith
  have : m = n := by
    have h5 : m < n + 1 := by exact_mod_cast h3
    have h6 : n ≤ m := by exact_mod_cast h4
    omega
  rw [hm, this, ← hn]

theorem wrap32_of {x : ℤ} (h : -(2 ^ 31 : ℤ) ≤ x ∧ x < 2 ^ 31) : wrap32 x = x := by
  unfold wrap32; apply Int.bmod_eq_of_le <;> omega

theorem clamp_big {qmax : Nat} {x : ℤ} (h : (qmax : ℤ) ≤ x) : clampI qmax x = qmax := by unfold clampI; omega
theorem clamp_neg {qmax : Nat} {x : ℤ} (h : x ≤ 0) : clampI qmax x = 0 := by unfold clampI; omega

/-- The x86 vector code equals the scalar formula: everything safe, except at the float just below
one half; for odd products in `[2^23, 2^24)` the difference is hidden by saturation when the zero
point is moderate. -/
theorem vcode_eq {qmax : Nat} (hq : qmax ≤ 255) {v inv : F32} {zp : ℤ} (hs : SafeW 32 (Flt.mul v inv) zp)
    (hne : |(Flt.mul v inv).toRat| ≠ Spec.predHalf)
    (hz : |(Flt.mul v inv).toRat| < 2 ^ 23 ∨ 2 ^ 24 ≤ |(Flt.mul v inv).toRat| ∨ |zp| ≤ 2 ^ 22) :
    vcode qmax inv zp v = clampI qmax (Spec.rha (Flt.mul v inv).toRat + zp) := by
  unfold vcode
  simp only
  change clampI qmax (wrap32 (cvttps1 (vsum (Flt.mul v inv)) + zp)) = _
  generalize Flt.mul v inv = p at *
  rw [toRat_abs] at hne hz
  obtain ⟨hfin, hr1, hr2⟩ := hs
  norm_num at hr1 hr2
  have hrep := rep_absRat p
  have ha0 := absRat_nonneg p
  have hae := isFin_iff.mp hfin
  -- the magnitude is at most 2^31
  have hf31 : ⌊p.absRat + 1/2⌋ ≤ 2 ^ 31 := by
    have e := rha_sgn p
    unfold sgn at e
    split at e <;> norm_num <;> omega
  have exact_case : ⌊fl f32 (p.absRat + 1/2)⌋ = ⌊p.absRat + 1/2⌋ →
      clampI qmax (wrap32 (cvttps1 (vsum p) + zp)) = clampI qmax (Spec.rha p.toRat + zp) := by
    intro e
    have hc : cvttps1 (vsum p) = Spec.rha p.toRat := by
      rcases lt_or_ge (fl f32 (p.absRat + 1/2)) (2 ^ 31) with h1 | h1
      · rw [cvttps1_vsum hfin h1, e, rha_sgn]
      · -- only -2^31
        have h2 : (2:ℤ) ^ 31 ≤ ⌊fl f32 (p.absRat + 1/2)⌋ := Int.le_floor.mpr (by push_cast; exact h1)
        have h3 : ⌊p.absRat + 1/2⌋ = 2 ^ 31 := by omega
        have hr := rha_sgn p
        rw [h3] at hr
        have hneg : p.toRat < 0 := by
          by_contra hc
          simp only [hc, decide_false, sgn, Bool.false_eq_true, if_false] at hr
          omega
        rw [hr]
        simp only [hneg, decide_true, sgn, if_true]
        -- the converted value: magnitude in [2^31, 2^31+1)
        rw [vsum_eq hfin]
        have hlt := Int.lt_floor_add_one (fl f32 (p.absRat + 1/2))
        rw [e, h3] at hlt
        push_cast at hlt
        have hfin' : (⟨decide (p.toRat < 0), Flt.roundAbs f32 (p.absRat + 1/2)⟩ : F32).isFin = true := by
          rw [isFin_mk, emax_f32]; refine hlt.trans (by norm_num)
        have ht : (⟨decide (p.toRat < 0), Flt.roundAbs f32 (p.absRat + 1/2)⟩ : F32).truncInt = -2 ^ 31 := by
          unfold Flt.truncInt; rw [absRat_mk, floor_eq', e, h3]; simp [hneg]
        exact cvttps1_fin hfin' ht (by norm_num) (by norm_num)
    rw [hc, wrap32_of (by norm_num; exact hr2)]
  rcases lt_or_ge p.absRat (2 ^ 23) with h23 | h23
  · apply exact_case
    rcases lt_or_ge p.absRat (1/2) with hh | hh
    · rw [floor_fl_half_small hrep hh (by rw [Spec.predHalf] at hne; simpa [f32] using hne)]
      symm; rw [Int.floor_eq_iff]; push_cast; constructor <;> linarith
    · exact floor_fl_half hrep hh (by simpa [f32] using h23)
  · rcases lt_or_ge p.absRat (2 ^ 24) with h24 | h24
    · -- saturated on both sides
      have hzp : |zp| ≤ 2 ^ 22 := by
        rcases hz with h | h | h
        · linarith
        · linarith
        · exact h
      have hzp' := abs_le.mp hzp
      obtain ⟨g1, g2⟩ := floor_fl_half_large hrep hae
      have g3 : fl f32 (p.absRat + 1/2) < 2 ^ 31 := by
        have : (2:ℚ) ^ 24 + 1 < 2 ^ 31 := by norm_num
        linarith
      have g4 : (2:ℤ) ^ 23 ≤ ⌊p.absRat⌋ := Int.le_floor.mpr (by push_cast; exact h23)
      have g5 : ⌊fl f32 (p.absRat + 1/2)⌋ ≤ 2 ^ 24 + 1 := by
        have : ⌊fl f32 (p.absRat + 1/2)⌋ < 2 ^ 24 + 1 + 1 := by
          rw [Int.floor_lt]; push_cast; linarith
        omega
      have g6 : (2:ℤ) ^ 23 ≤ ⌊p.absRat + 1/2⌋ := Int.le_floor.mpr (by push_cast; linarith)
      rw [cvttps1_vsum hfin g3, rha_sgn]
      unfold sgn
      norm_num at g4 g5 g6 hzp'
      by_cases hneg : p.toRat < 0
      · simp only [hneg, decide_true, if_true]
        rw [wrap32_of (by norm_num; omega), clamp_neg (by omega), clamp_neg (by omega)]
      · simp only [hneg, decide_false, Bool.false_eq_true, if_false]
        rw [wrap32_of (by norm_num; omega), clamp_big (by omega), clamp_big (by omega)]
    · apply exact_case
      rw [fl_half_big hrep h24 hae]
      obtain ⟨n, hn⟩ := hrep.int_of_ge (j := 0) (by norm_num [f32]; linarith)
      rw [hn]
      simp only [pow_zero, mul_one]
      rw [Int.floor_natCast]
      symm; rw [Int.floor_eq_iff]; push_cast; constructor <;> linarith

/-- NEON rounds correctly. -/
theorem ncode_eq {v inv : F32} {zp : ℤ} (hs : SafeW 32 (Flt.mul v inv) zp) :
    ncode inv zp v = clampI 255 (Spec.rha (Flt.mul v inv).toRat + zp) := by
  unfold ncode
  generalize Flt.mul v inv = p at *
  obtain ⟨hfin, hr1, hr2⟩ := hs
  norm_num at hr1 hr2
  obtain ⟨h1, h2⟩ := isFin_not_nan hfin
  unfold vcvta1
  simp only [h1, h2, Bool.false_eq_true, if_false]
  rw [rha_toRat hfin]
  have : max (-2 ^ 31) (min (2 ^ 31 - 1) (Spec.rha p.toRat)) = Spec.rha p.toRat := by norm_num; omega
  rw [this, wrap32_of (by norm_num; exact hr2)]

end Verif
