import Verif.Proofs.Codes

/-! # Stochastic rounding -/

namespace Verif
open Simd
variable {f : Fmt}

theorem fl_zero [f.Good] : fl f 0 = 0 := by
  have : Rep f 0 := ⟨0, by rw [magVal_zero]; simp⟩
  exact fl_rep this (by positivity)

theorem ofRat_absRat [f.Good] (q : ℚ) (z : Bool) : (Flt.ofRat f q z).absRat = fl f |q| := by
  unfold Flt.ofRat
  split
  · rename_i h; subst h
    rw [abs_zero, fl_zero]
    unfold Flt.absRat; rw [magVal_zero]; simp
  · exact absRat_mk _ _

theorem ofRat_toRat [f.Good] {q : ℚ} (hr : Rep f |q|) (hq : |q| < 2 ^ f.emax) (z : Bool) : (Flt.ofRat f q z).toRat = q := by
  have ha := ofRat_absRat (f := f) q z
  rw [fl_rep hr hq.le] at ha
  unfold Flt.toRat
  rw [ha]
  unfold Flt.ofRat
  by_cases h : q = 0
  · subst h; simp
  · rw [if_neg h]
    dsimp only
    by_cases hn : q < 0
    · rw [decide_eq_true hn, if_pos rfl, abs_of_neg hn]; ring
    · rw [decide_eq_false hn, if_neg (by simp), abs_of_nonneg (not_lt.mp hn)]

theorem ofRat_isFin [f.Good] {q : ℚ} (hr : Rep f |q|) (hq : |q| < 2 ^ f.emax) (z : Bool) : (Flt.ofRat f q z).isFin = true := by
  rw [isFin_iff, ofRat_absRat, fl_rep hr hq.le]; exact hq

theorem truncInt_rtz (p : Flt f) : p.truncInt = Spec.rtz p.toRat := by
  unfold Flt.truncInt Spec.rtz Flt.toRat
  have ha := absRat_nonneg p
  cases p.neg
  · simp only [Bool.false_eq_true, if_false]
    rw [if_neg (not_lt.mpr ha)]; rfl
  · simp only [if_true]
    rcases ha.lt_or_eq with h | h
    · rw [if_pos (by linarith), neg_neg]; rfl
    · rw [← h]; simp; rfl

theorem trunc_toRat [f.Good] {p : Flt f} (h : p.isFin = true) : (Flt.trunc p).toRat = Spec.rtz p.toRat := by
  obtain ⟨_, h2, h3⟩ := trunc_fin h
  rw [← truncInt_rtz]
  unfold Flt.toRat Flt.truncInt
  rw [h2, h3]
  cases p.neg
  · simp; rfl
  · simp; rfl

theorem rep_frac [f.Good] {a : ℚ} (h : Rep f a) : Rep f (a - ⌊a⌋) := by
  obtain ⟨k, m, hm, _, he⟩ := h.decomp
  rcases Nat.lt_or_ge k f.unit with hk | hk
  · have ea : a = (m : ℚ) / 2 ^ (f.unit - k) := by
      rw [eq_div_iff (by positivity)]
      have hp : (2:ℚ) ^ f.unit = 2 ^ (f.unit - k) * 2 ^ k := by rw [← pow_add]; congr 1; omega
      rw [hp] at he
      have : (0:ℚ) < 2 ^ k := by positivity
      nlinarith [mul_right_cancel₀ this.ne' (show a * 2 ^ (f.unit - k) * 2 ^ k = m * 2 ^ k by linarith)]
    have hfl : ⌊a⌋ = ((m / 2 ^ (f.unit - k) : ℕ) : ℤ) := by
      rw [ea, Int.floor_eq_iff]
      constructor
      · push_cast
        rw [le_div_iff₀ (by positivity)]
        exact_mod_cast Nat.div_mul_le_self m (2 ^ (f.unit - k))
      · push_cast
        rw [div_lt_iff₀ (by positivity)]
        have := Nat.lt_div_mul_add (a := m) (b := 2 ^ (f.unit - k)) (by positivity)
        rw [add_mul, one_mul]
        exact_mod_cast this
    have : a - ⌊a⌋ = ((m % 2 ^ (f.unit - k) : ℕ) : ℚ) / 2 ^ (f.unit - k) := by
      rw [hfl, ea, eq_div_iff (by positivity), sub_mul, div_mul_cancel₀ _ (by positivity)]
      have := Nat.div_add_mod m (2 ^ (f.unit - k))
      have h2 : (m : ℚ) = 2 ^ (f.unit - k) * ((m / 2 ^ (f.unit - k) : ℕ) : ℚ) + ((m % 2 ^ (f.unit - k) : ℕ) : ℚ) := by exact_mod_cast this.symm
      have h3 : (((m / 2 ^ (f.unit - k) : ℕ) : ℤ) : ℚ) = ((m / 2 ^ (f.unit - k) : ℕ) : ℚ) := by norm_cast
      rw [h3]
      linarith
    rw [this]
    exact rep_div ((Nat.mod_le _ _).trans hm.le) (by omega)
  · have ea : a = ((m * 2 ^ (k - f.unit) : ℕ) : ℚ) := by
      have hp : (2:ℚ) ^ k = 2 ^ (k - f.unit) * 2 ^ f.unit := by rw [← pow_add]; congr 1; omega
      rw [hp, ← mul_assoc] at he
      push_cast
      exact mul_right_cancel₀ (two_unit_pos (f := f)).ne' he
    have : a - ⌊a⌋ = 0 := by rw [ea, Int.floor_natCast]; push_cast; ring
    rw [this]; exact ⟨0, by rw [magVal_zero]; simp⟩

theorem sub_rtz_abs (p : Flt f) : |p.toRat - Spec.rtz p.toRat| = p.absRat - ⌊p.absRat⌋ := by
  rw [← truncInt_rtz]
  unfold Flt.truncInt Flt.toRat
  have h := Int.floor_le p.absRat
  cases p.neg
  · simp only [Bool.false_eq_true, if_false]
    exact abs_of_nonneg (by rw [floor_eq']; linarith)
  · simp only [if_true]
    rw [abs_of_nonpos]
    · rw [floor_eq']; push_cast; ring
    · rw [floor_eq']; push_cast; linarith

theorem truncInt_int [f.Good] {x : Flt f} {z : ℤ} (h : x.toRat = z) : x.truncInt = z := by
  rw [truncInt_rtz, h]
  unfold Spec.rtz
  split
  · rw [← Int.cast_neg, Int.floor_intCast]; ring
  · exact Int.floor_intCast _

theorem sround_abs (τ : ℚ) (hτ : 0 ≤ τ) (p : Flt f) (hp : p.isFin = true) [f.Good] :
    Rep f |((Spec.sround τ p.toRat : ℤ) : ℚ)| ∧ |((Spec.sround τ p.toRat : ℤ) : ℚ)| < 2 ^ f.emax ∧
      |((Spec.sround τ p.toRat : ℤ) : ℚ)| ≤ p.absRat + 1 := by
  have hrep := rep_absRat p
  have hlt := isFin_iff.mp hp
  have h0 := absRat_nonneg p
  have hfl := rep_floor hrep hlt (c := 0) le_rfl (by norm_num)
  rw [add_zero] at hfl
  have hf0 : 0 ≤ ⌊p.absRat⌋ := Int.floor_nonneg.mpr h0
  have hfle := Int.floor_le p.absRat
  have habs : |((Spec.rtz p.toRat : ℤ) : ℚ)| = ⌊p.absRat⌋ := by
    rw [← trunc_toRat hp, toRat_abs, (trunc_fin hp).2.1]
  unfold Spec.sround
  split
  · rename_i h
    rw [sub_rtz_abs] at h
    have hni : p.absRat < 2 ^ f.mb := by
      by_contra hc
      obtain ⟨k, hk⟩ := hrep.int_of_ge (j := 0) (by simpa using not_lt.mp hc)
      rw [pow_zero, mul_one] at hk
      rw [hk] at h
      simp at h
      linarith
    have e : |(((if p.toRat < 0 then Spec.rtz p.toRat - 1 else Spec.rtz p.toRat + 1 : ℤ)) : ℚ)| = ⌊p.absRat⌋ + 1 := by
      split
      · rename_i hneg
        have : ((Spec.rtz p.toRat : ℤ) : ℚ) ≤ 0 := by
          unfold Spec.rtz; rw [if_pos hneg]
          have : 0 ≤ ⌊-p.toRat⌋ := Int.floor_nonneg.mpr (by linarith)
          exact_mod_cast neg_nonpos.mpr this
        rw [abs_of_nonpos this] at habs
        push_cast
        rw [abs_of_nonpos (by linarith)]; linarith
      · rename_i hneg
        have : (0:ℚ) ≤ ((Spec.rtz p.toRat : ℤ) : ℚ) := by
          unfold Spec.rtz; rw [if_neg hneg]
          have : 0 ≤ ⌊p.toRat⌋ := Int.floor_nonneg.mpr (not_lt.mp hneg)
          exact_mod_cast this
        rw [abs_of_nonneg this] at habs
        push_cast
        rw [abs_of_nonneg (by linarith)]; linarith
    rw [e]
    obtain ⟨k, hk⟩ := Int.eq_ofNat_of_zero_le hf0
    have hk2 : k + 1 ≤ 2 ^ (f.mb + 1) := by
      have : (k : ℚ) < 2 ^ f.mb := by
        have : ((⌊p.absRat⌋ : ℤ) : ℚ) = k := by rw [hk]; norm_cast
        linarith
      have : k < 2 ^ f.mb := by exact_mod_cast this
      rw [pow_succ]; omega
    have e2 : ((⌊p.absRat⌋ : ℤ) : ℚ) + 1 = ((k + 1 : ℕ) : ℚ) := by rw [hk]; push_cast; ring
    refine ⟨by rw [e2]; exact rep_nat' hk2, ?_, by linarith⟩
    rw [e2]
    have : ((k + 1 : ℕ) : ℚ) ≤ 2 ^ (f.mb + 1) := by exact_mod_cast hk2
    have h3 : (2:ℚ) ^ (f.mb + 1) < 2 ^ f.emax := pow_lt_pow_right₀ (by norm_num) (by have := mb_lt_emax (f := f); omega)
    linarith
  · rw [habs]; exact ⟨hfl.1, hfl.2, by linarith⟩

/-- The rounding expression of the stochastic step, on any finite float `p`. -/
theorem stochAdj_of {p τ : F32} (hp : p.isFin = true) (hτ : τ.isFin = true) (hτ0 : 0 ≤ τ.toRat) :
    let r : F32 :=
      let dec := Flt.abs (Flt.sub p (Flt.trunc p))
      let adj := if Flt.lt τ dec then f1 else f0
      let adj := if Flt.lt p f0 then Flt.mul fm1 adj else adj
      Flt.add (Flt.trunc p) adj
    r.isFin = true ∧ r.toRat = Spec.sround τ.toRat p.toRat := by
  intro r
  obtain ⟨ht, ht2, ht3⟩ := trunc_fin hp
  have htr := trunc_toRat hp
  set t := Flt.trunc p with htdef
  have hneg : (Flt.negate t).isFin = true := ht
  have hnegv : (Flt.negate t).toRat = - t.toRat := by
    unfold Flt.toRat Flt.negate
    cases t.neg <;> simp [Flt.absRat]
  have hsub : Flt.sub p t = Flt.ofRat f32 (p.toRat - Spec.rtz p.toRat) (p.neg && (Flt.negate t).neg) := by
    unfold Flt.sub; rw [add_fin hp hneg, hnegv, htr, ← sub_eq_add_neg]
  have hfr : Rep f32 |p.toRat - Spec.rtz p.toRat| := by rw [sub_rtz_abs]; exact rep_frac (rep_absRat p)
  have hfr1 : |p.toRat - Spec.rtz p.toRat| < 2 ^ f32.emax := by
    rw [sub_rtz_abs]
    have := Int.lt_floor_add_one p.absRat
    have h2 : (1:ℚ) ≤ 2 ^ f32.emax := one_le_pow₀ (by norm_num)
    linarith
  have hdfin : (Flt.abs (Flt.sub p t)).isFin = true := by
    rw [hsub]; exact ofRat_isFin hfr hfr1 _
  have hd : (Flt.abs (Flt.sub p t)).toRat = |p.toRat - Spec.rtz p.toRat| := by
    have : (Flt.abs (Flt.sub p t)).toRat = (Flt.sub p t).absRat := rfl
    rw [this, hsub, ofRat_absRat, fl_rep hfr hfr1.le]
  have hl1 : Flt.lt τ (Flt.abs (Flt.sub p t)) = decide (τ.toRat < |p.toRat - Spec.rtz p.toRat|) := by rw [lt_fin hτ hdfin, hd]
  have hl2 : Flt.lt p f0 = decide (p.toRat < 0) := by rw [lt_fin hp (by decide), f0_toRat]
  have hm1 : Flt.mul fm1 f1 = fm1 := by decide +kernel
  have hm0 : Flt.mul fm1 f0 = ⟨true, 0⟩ := by decide +kernel
  have hf1 : f1.toRat = 1 := by decide +kernel
  have hfm1 : fm1.toRat = -1 := by decide +kernel
  have hz : (⟨true, 0⟩ : F32).toRat = 0 := by decide +kernel
  obtain ⟨hr1, hr2, _⟩ := sround_abs τ.toRat hτ0 p hp
  have fin : ∀ adj : F32, adj.isFin = true → t.toRat + adj.toRat = Spec.sround τ.toRat p.toRat →
      (Flt.add t adj).isFin = true ∧ (Flt.add t adj).toRat = Spec.sround τ.toRat p.toRat := by
    intro adj h1 h2
    rw [add_fin ht h1, h2]
    exact ⟨ofRat_isFin hr1 hr2 _, ofRat_toRat hr1 hr2 _⟩
  dsimp only [r]
  rw [← htdef, hl1, hl2]
  apply fin
  · by_cases h1 : τ.toRat < |p.toRat - Spec.rtz p.toRat| <;> by_cases h2 : p.toRat < 0
    · rw [decide_eq_true h1, decide_eq_true h2, if_pos rfl, if_pos rfl, hm1]; decide
    · rw [decide_eq_true h1, decide_eq_false h2, if_pos rfl, if_neg (by simp)]; decide
    · rw [decide_eq_false h1, decide_eq_true h2, if_pos rfl, if_neg (by simp), hm0]; decide
    · rw [decide_eq_false h1, decide_eq_false h2, if_neg (by simp), if_neg (by simp)]; decide
  · rw [htr]
    unfold Spec.sround
    by_cases h1 : τ.toRat < |p.toRat - Spec.rtz p.toRat| <;> by_cases h2 : p.toRat < 0
    · rw [decide_eq_true h1, decide_eq_true h2, if_pos rfl, if_pos rfl, hm1, hfm1, if_pos h1, if_pos h2]; push_cast; ring
    · rw [decide_eq_true h1, decide_eq_false h2, if_pos rfl, if_neg (by simp), hf1, if_pos h1, if_neg h2]; push_cast; ring
    · rw [decide_eq_false h1, decide_eq_true h2, if_pos rfl, if_neg (by simp), hm0, hz, if_neg h1]; ring
    · rw [decide_eq_false h1, decide_eq_false h2, if_neg (by simp), if_neg (by simp), f0_toRat, if_neg h1]; ring

theorem stochAdj_eq {x τ inv : F32} (hp : (Flt.mul x inv).isFin = true) (hτ : τ.isFin = true) (hτ0 : 0 ≤ τ.toRat) :
    (stochAdj x τ inv).isFin = true ∧ (stochAdj x τ inv).toRat = Spec.sround τ.toRat (Flt.mul x inv).toRat :=
  stochAdj_of hp hτ hτ0

/-- The stochastic scalar step computes the specified code. -/
theorem qStoch64_eq {qmax : Nat} {x τ inv : F32} {zp : ℤ} (hp : (Flt.mul x inv).isFin = true) (hτ : τ.isFin = true) (hτ0 : 0 ≤ τ.toRat)
    (hb : |(Flt.mul x inv).toRat| ≤ 2 ^ 62) (hz : -(2 ^ 31 : ℤ) ≤ zp ∧ zp < 2 ^ 31) :
    qStoch64 qmax x τ inv zp = .ret (clampI qmax (Spec.sround τ.toRat (Flt.mul x inv).toRat + zp)) := by
  obtain ⟨h1, h2⟩ := stochAdj_eq hp hτ hτ0
  obtain ⟨_, _, h3⟩ := sround_abs τ.toRat hτ0 _ hp
  rw [toRat_abs] at hb
  have h4 : |((Spec.sround τ.toRat (Flt.mul x inv).toRat : ℤ) : ℚ)| ≤ 2 ^ 62 + 1 := by linarith
  have h5 : |Spec.sround τ.toRat (Flt.mul x inv).toRat| ≤ 2 ^ 62 + 1 := by exact_mod_cast h4
  rw [abs_le] at h5
  generalize hs : Spec.sround τ.toRat (Flt.mul x inv).toRat = s at *
  unfold qStoch64 toIntAdd
  rw [toInt?_fin h1, truncInt_int h2, if_pos ⟨by norm_num; omega, by norm_num; omega⟩]
  simp only
  rw [if_pos ⟨by norm_num; omega, by norm_num; omega⟩]
  rfl

end Verif
