import Verif.Model.Rng
import Verif.Proofs.Order
import Mathlib.Data.Nat.Bitwise

/-! # The random threshold: range and error of the drawn value, the generator state -/

namespace Verif
open Spec

/-! ## The drawn value -/

theorem rep_div_pow {f : Fmt} {q : ℚ} {j : Nat} (h : Rep f q) (hq : (2:ℚ) ^ (f.mb + 1 + j) ≤ q * 2 ^ f.unit) : Rep f (q / 2 ^ j) := by
  obtain ⟨b, hb⟩ := h
  obtain ⟨k, m, e, hk, hm, hv⟩ := mag_decomp f.mb b
  have hj : j ≤ k := by
    by_contra hlt
    have h1 : (q * 2 ^ f.unit) < 2 ^ (f.mb + 1 + j) := by
      rw [hb, hv]
      have : m * 2 ^ k < 2 ^ (f.mb + 1) * 2 ^ j :=
        Nat.mul_lt_mul_of_lt_of_le hm (Nat.pow_le_pow_right (by norm_num) (by omega)) (by positivity)
      rw [pow_add]
      exact_mod_cast this
    linarith
  obtain ⟨b', hb'⟩ := rep_scaled (f := f) (k := k - j) hm.le
  refine ⟨b', ?_⟩
  rw [hb', div_mul_eq_mul_div, hb, hv]
  push_cast
  rw [div_eq_iff (by positivity), mul_assoc, ← pow_add, show k - j + j = k by omega]

theorem ofNat_f32 {w : Nat} (hw : w < 2 ^ 64) : (Flt.ofInt f32 w).isFin = true ∧ (Flt.ofInt f32 w).toRat = flr f32 w ∧ 0 ≤ flr f32 (w:ℚ) ∧
    |flr f32 (w:ℚ) - w| ≤ (w:ℚ) / 2 ^ 24 ∧ flr f32 (w:ℚ) ≤ 2 ^ 64 ∧ (0 < w → 1 ≤ flr f32 (w:ℚ)) := by
  have hf : (Flt.ofInt f32 (w:ℤ)).isFin = true := ofInt_fin32 (by rw [abs_of_nonneg (by positivity)]; exact_mod_cast hw.le)
  have e : (Flt.ofInt f32 (w:ℤ)).toRat = flr f32 w := by rw [ofInt_toRat]; rfl
  have hw0 : (0:ℚ) ≤ w := Nat.cast_nonneg _
  have hwl : (w:ℚ) ≤ 2 ^ 64 := by exact_mod_cast hw.le
  have hlt : fl f32 |(w:ℚ)| < 2 ^ f32.emax := by
    apply fl_fin (abs_nonneg _)
    rw [abs_of_nonneg hw0, emax_f32]
    exact hwl.trans (by norm_num)
  refine ⟨hf, e, ?_, ?_, ?_, ?_⟩
  · have := flr_mono (f := f32) hw0; rwa [flr_zero] at this
  · rcases Nat.eq_zero_or_pos w with h | h
    · subst h; rw [Nat.cast_zero, flr_zero]; norm_num
    · refine (flr_err hlt).trans ?_
      rw [abs_of_nonneg hw0]
      apply max_le
      · rw [unit_f32]
        have : (1:ℚ) ≤ w := by exact_mod_cast h
        calc (1:ℚ) / 2 ^ (149 + 1) ≤ 1 / 2 ^ 24 := by norm_num
          _ ≤ _ := div_le_div_of_nonneg_right this (by positivity)
      · exact le_of_eq rfl
  · refine flr_le hwl ?_ ?_
    · have := rep_nat (f := f32) (m := 1) (k := 64) (show 1 ≤ 2 ^ (23 + 1) by norm_num)
      rw [abs_of_nonneg (by positivity)]; simpa using this
    · rw [emax_f32, abs_of_nonneg (by positivity)]; norm_num
  · intro h
    refine le_flr (by exact_mod_cast h) ?_ ?_
    · have := rep_nat' (f := f32) (m := 1) (show 1 ≤ 2 ^ (23 + 1) by norm_num)
      rw [abs_of_nonneg (by norm_num)]; simpa using this
    · rw [emax_f32, abs_of_nonneg (by positivity)]; norm_num

theorem f1_val : f1.toRat = 1 ∧ f1.isFin = true := by decide +kernel
theorem f0_val : f0.toRat = 0 ∧ f0.isFin = true := by decide +kernel
theorem f2p64_val : f2p64.toRat = 2 ^ 64 ∧ f2p64.isFin = true := by decide +kernel
theorem fPred1_val : fPred1.toRat = 1 - 1 / 2 ^ 24 ∧ fPred1.isFin = true := by decide +kernel

/-- A finite float times one, plus zero. -/
theorem times_one {x : F32} (hx : x.isFin = true) : (Flt.mul x f1).isFin = true ∧ (Flt.mul x f1).toRat = x.toRat := by
  have e : (Flt.mul x f1).toRat = x.toRat := by
    rw [mul_toRat hx f1_val.2, f1_val.1, mul_one, flr_rep (rep_toRat x) (abs_lt_of_isFin hx).le]
  exact ⟨isFin_of_abs (by rw [e]; exact abs_lt_of_isFin hx), e⟩
theorem plus_zero {x : F32} (hx : x.isFin = true) : (Flt.add x f0).isFin = true ∧ (Flt.add x f0).toRat = x.toRat := by
  have e : (Flt.add x f0).toRat = x.toRat := by
    rw [add_toRat hx f0_val.2, f0_val.1, add_zero, flr_rep (rep_toRat x) (abs_lt_of_isFin hx).le]
  exact ⟨isFin_of_abs (by rw [e]; exact abs_lt_of_isFin hx), e⟩
theorem zero_plus {x : F32} (hx : x.isFin = true) : (Flt.add f0 x).isFin = true ∧ (Flt.add f0 x).toRat = x.toRat := by
  have e : (Flt.add f0 x).toRat = x.toRat := by
    rw [add_toRat f0_val.2 hx, f0_val.1, zero_add, flr_rep (rep_toRat x) (abs_lt_of_isFin hx).le]
  exact ⟨isFin_of_abs (by rw [e]; exact abs_lt_of_isFin hx), e⟩

theorem canonical_val {w : Nat} (hw : w < 2 ^ 64) : (canonical w).isFin = true ∧
    (canonical w).toRat = if flr f32 (w:ℚ) < 2 ^ 64 then flr f32 (w:ℚ) / 2 ^ 64 else 1 - 1 / 2 ^ 24 := by
  obtain ⟨h1, h2, h3, h4, h5, h6⟩ := ofNat_f32 hw
  obtain ⟨a1, a2⟩ := times_one h1
  obtain ⟨b1, b2⟩ := zero_plus a1
  have hs : (Flt.add f0 (Flt.mul (Flt.ofInt f32 (w:ℤ)) f1)).toRat = flr f32 w := by rw [b2, a2, h2]
  have hq : flr f32 (flr f32 (w:ℚ) / 2 ^ 64) = flr f32 (w:ℚ) / 2 ^ 64 := by
    apply flr_rep
    · rw [abs_of_nonneg (by positivity)]
      rcases Nat.eq_zero_or_pos w with h | h
      · subst h; rw [Nat.cast_zero, flr_zero]; simpa using rep_nat' (f := f32) (m := 0) (by norm_num)
      · apply rep_div_pow
        · have := rep_toRat (Flt.ofInt f32 (w:ℤ)); rwa [h2, abs_of_nonneg h3] at this
        · rw [unit_f32, show f32.mb = 23 from rfl]
          have := h6 h
          calc (2:ℚ) ^ (23 + 1 + 64) ≤ 1 * 2 ^ 149 := by norm_num
            _ ≤ _ := mul_le_mul_of_nonneg_right this (by positivity)
    · rw [abs_of_nonneg (by positivity), emax_f32, div_le_iff₀ (by positivity)]
      exact h5.trans (by norm_num)
  have hd : (Flt.div (Flt.add f0 (Flt.mul (Flt.ofInt f32 (w:ℤ)) f1)) f2p64).toRat = flr f32 (w:ℚ) / 2 ^ 64 := by
    rw [div_toRat b1 f2p64_val.2 (by rw [f2p64_val.1]; norm_num), hs, f2p64_val.1, hq]
  have hdf : (Flt.div (Flt.add f0 (Flt.mul (Flt.ofInt f32 (w:ℤ)) f1)) f2p64).isFin = true := by
    apply isFin_of_abs
    rw [hd, abs_of_nonneg (by positivity), emax_f32, div_lt_iff₀ (by positivity)]
    exact lt_of_le_of_lt h5 (by norm_num)
  have hg : Flt.ge (Flt.div (Flt.add f0 (Flt.mul (Flt.ofInt f32 (w:ℤ)) f1)) f2p64) f1 = decide (¬ flr f32 (w:ℚ) < 2 ^ 64) := by
    unfold Flt.ge
    rw [(isFin_not_nan hdf).1, (isFin_not_nan f1_val.2).1, lt_iff (isFin_not_nan hdf).1 (isFin_not_nan f1_val.2).1, hd, f1_val.1]
    simp only [Bool.or_self, Bool.false_eq_true, if_false]
    rw [← decide_not, decide_eq_decide, div_lt_one (by positivity)]
  unfold canonical
  simp only
  rw [hg]
  by_cases h : flr f32 (w:ℚ) < 2 ^ 64
  · rw [if_neg (by simp [h]), if_pos h]; exact ⟨hdf, hd⟩
  · rw [if_pos (by simp [h]), if_neg h]; exact ⟨fPred1_val.2, fPred1_val.1⟩

/-- Every drawn threshold is a finite float in `[0, 1)`, within 2^-24 of `w / 2^64`. -/
theorem threshold_val {w : Nat} (hw : w < 2 ^ 64) : (thresholdOf w).isFin = true ∧ 0 ≤ (thresholdOf w).toRat ∧ (thresholdOf w).toRat < 1 ∧
    |(thresholdOf w).toRat - (w:ℚ) / 2 ^ 64| ≤ 1 / 2 ^ 24 ∧
    (thresholdOf w).toRat = if flr f32 (w:ℚ) < 2 ^ 64 then flr f32 (w:ℚ) / 2 ^ 64 else 1 - 1 / 2 ^ 24 := by
  obtain ⟨h1, h2, h3, h4, h5, h6⟩ := ofNat_f32 hw
  obtain ⟨c1, c2⟩ := canonical_val hw
  have he : Flt.sub f1 f0 = f1 := by decide +kernel
  have ht : (thresholdOf w).isFin = true ∧ (thresholdOf w).toRat = (canonical w).toRat := by
    unfold thresholdOf
    rw [he]
    obtain ⟨a1, a2⟩ := times_one c1
    obtain ⟨b1, b2⟩ := plus_zero a1
    exact ⟨b1, b2.trans a2⟩
  have hwl : (w:ℚ) < 2 ^ 64 := by exact_mod_cast hw
  obtain ⟨l1, l2⟩ := abs_le.mp h4
  rw [ht.2, c2]
  refine ⟨ht.1, ?_, ?_, ?_, rfl⟩
  · split
    · positivity
    · norm_num
  · split
    · rename_i h; rwa [div_lt_one (by positivity)]
    · norm_num
  · split
    · rw [← sub_div, abs_div, abs_of_pos (show (0:ℚ) < 2 ^ 64 by positivity), div_le_iff₀ (by positivity)]
      refine h4.trans ?_
      rw [div_le_iff₀ (by positivity)]
      linarith
    · rename_i h
      rw [not_lt] at h
      have hlo : (1 - 1 / 2 ^ 24 : ℚ) ≤ (w:ℚ) / 2 ^ 64 := by
        rw [le_div_iff₀ (by positivity)]
        have : (2:ℚ) ^ 64 ≤ w + w / 2 ^ 24 := by linarith
        generalize (w:ℚ) = W at this
        norm_num at this ⊢
        linarith
      have hhi : (w:ℚ) / 2 ^ 64 < 1 := by rwa [div_lt_one (by positivity)]
      rw [abs_le]; constructor <;> linarith

/-! ## The generator -/

/-- A state of the generator: 312 words of 64 bits. -/
def Mt.Ok (g : Mt) : Prop := g.words.length = 312 ∧ ∀ v ∈ g.words, v < 2 ^ 64

theorem and_lt {a b n : Nat} (h : b < 2 ^ n) : a &&& b < 2 ^ n := Nat.and_lt_two_pow _ h

theorem mtTwist_lt {a b c : Nat} (hc : c < 2 ^ 64) : mtTwist a b c < 2 ^ 64 := by
  unfold mtTwist
  simp only
  apply Nat.xor_lt_two_pow
  · apply Nat.xor_lt_two_pow hc
    rw [Nat.shiftRight_eq_div_pow]
    refine lt_of_le_of_lt (Nat.div_le_self _ _) ?_
    exact Nat.or_lt_two_pow (Nat.and_lt_two_pow _ (by norm_num)) (Nat.and_lt_two_pow _ (by norm_num))
  · split <;> norm_num

theorem mtTemper_lt {z : Nat} (hz : z < 2 ^ 64) : mtTemper z < 2 ^ 64 := by
  unfold mtTemper
  simp only
  have s1 : z ^^^ ((z >>> 29) &&& 0x5555555555555555) < 2 ^ 64 := Nat.xor_lt_two_pow hz (Nat.and_lt_two_pow _ (by norm_num))
  have s2 := Nat.xor_lt_two_pow s1 (Nat.and_lt_two_pow ((z ^^^ ((z >>> 29) &&& 0x5555555555555555)) <<< 17 % 2 ^ 64) (show 0x71d67fffeda60000 < 2 ^ 64 by norm_num))
  have s3 := Nat.xor_lt_two_pow s2 (Nat.and_lt_two_pow (((z ^^^ ((z >>> 29) &&& 0x5555555555555555)) ^^^ (((z ^^^ ((z >>> 29) &&& 0x5555555555555555)) <<< 17 % 2 ^ 64) &&& 0x71d67fffeda60000)) <<< 37 % 2 ^ 64) (show 0xfff7eee000000000 < 2 ^ 64 by norm_num))
  apply Nat.xor_lt_two_pow s3
  rw [Nat.shiftRight_eq_div_pow]
  exact lt_of_le_of_lt (Nat.div_le_self _ _) s3

theorem mtSeedFrom_ok (k : Nat) : ∀ prev i, (mtSeedFrom prev i k).length = k ∧ ∀ v ∈ mtSeedFrom prev i k, v < 2 ^ 64 := by
  induction k with
  | zero => intro p i; exact ⟨rfl, by simp [mtSeedFrom]⟩
  | succ k ih =>
    intro p i
    obtain ⟨h1, h2⟩ := ih (mtSeedStep p i) (i + 1)
    refine ⟨by rw [mtSeedFrom, List.length_cons, h1], fun v hv => ?_⟩
    rw [mtSeedFrom, List.mem_cons] at hv
    rcases hv with rfl | hv
    · exact Nat.mod_lt _ (by norm_num)
    · exact h2 v hv

theorem Mt.init_ok (seed : Nat) : (Mt.init seed).Ok := by
  obtain ⟨h1, h2⟩ := mtSeedFrom_ok 311 (seed % 2 ^ 64) 1
  refine ⟨by unfold Mt.init mtSeed; rw [List.length_cons, h1], fun v hv => ?_⟩
  unfold Mt.init mtSeed at hv
  rw [List.mem_cons] at hv
  rcases hv with rfl | hv
  · exact Nat.mod_lt _ (by norm_num)
  · exact h2 v hv

theorem Mt.Ok.fresh {g : Mt} (h : g.Ok) : g.fresh < 2 ^ 64 := by
  apply mtTwist_lt
  have hl : 156 < g.words.length := by rw [h.1]; norm_num
  rw [List.getD_eq_getElem _ _ hl]
  exact h.2 _ (List.getElem_mem hl)

theorem Mt.Ok.next {g : Mt} (h : g.Ok) : g.next.Ok := by
  refine ⟨?_, fun v hv => ?_⟩
  · unfold Mt.next; simp only [List.length_append, List.length_tail, h.1, List.length_cons, List.length_nil]
  · unfold Mt.next at hv
    simp only [List.mem_append, List.mem_singleton] at hv
    rcases hv with hv | rfl
    · exact h.2 v (List.mem_of_mem_tail hv)
    · exact h.fresh

theorem Mt.Ok.out {g : Mt} (h : g.Ok) : g.out < 2 ^ 64 := mtTemper_lt h.fresh

theorem Mt.Ok.iter {g : Mt} (h : g.Ok) (k : Nat) : (Mt.next^[k] g).Ok := by
  induction k with
  | zero => exact h
  | succ k ih => rw [Function.iterate_succ_apply']; exact ih.next

/-! ## Tempering is a bijection -/

theorem xor_inj {f : Nat → Nat} (hf : ∀ a b, f (a ^^^ b) = f a ^^^ f b) (h0 : ∀ d, d < 2 ^ 64 → d = f d → d = 0) {a b : Nat} (ha : a < 2 ^ 64) (hb : b < 2 ^ 64)
    (h : a ^^^ f a = b ^^^ f b) : a = b := by
  have hd : a ^^^ b = f (a ^^^ b) := by
    rw [hf]
    have : a ^^^ b ^^^ (f a ^^^ f b) = 0 := by
      rw [show a ^^^ b ^^^ (f a ^^^ f b) = (a ^^^ f a) ^^^ (b ^^^ f b) by ac_rfl, h, Nat.xor_self]
    exact Nat.xor_eq_zero_iff.mp this
  have := h0 _ (Nat.xor_lt_two_pow ha hb) hd
  exact Nat.xor_eq_zero_iff.mp this

theorem shr_and_lin (s m a b : Nat) : ((a ^^^ b) >>> s) &&& m = ((a >>> s) &&& m) ^^^ ((b >>> s) &&& m) := by
  rw [Nat.shiftRight_xor_distrib, Nat.and_xor_distrib_right]
theorem shl_and_lin (s m a b : Nat) : ((a ^^^ b) <<< s % 2 ^ 64) &&& m = ((a <<< s % 2 ^ 64) &&& m) ^^^ ((b <<< s % 2 ^ 64) &&& m) := by
  rw [Nat.shiftLeft_xor_distrib, Nat.xor_mod_two_pow, Nat.and_xor_distrib_right]

theorem shr_fix {s m d : Nat} (hs : 0 < s) (h : d = (d >>> s) &&& m) : d = 0 := by
  have : d ≤ d / 2 ^ s := by
    conv_lhs => rw [h]
    rw [← Nat.shiftRight_eq_div_pow]
    exact Nat.and_le_left
  by_contra hd
  have h2 : 2 ^ 1 ≤ 2 ^ s := Nat.pow_le_pow_right (by norm_num) hs
  have := Nat.div_lt_self (Nat.pos_of_ne_zero hd) (show 1 < 2 ^ s by omega)
  omega
theorem shl_fix {s m d : Nat} (hs : 0 < s) (h : d = (d <<< s % 2 ^ 64) &&& m) : d = 0 := by
  apply Nat.eq_of_testBit_eq
  intro i
  rw [Nat.zero_testBit]
  induction i using Nat.strong_induction_on with
  | _ i ih =>
    rw [h, Nat.testBit_and, Nat.testBit_mod_two_pow, Nat.testBit_shiftLeft]
    by_cases hi : s ≤ i
    · rw [ih (i - s) (by omega)]; simp
    · simp [hi]

theorem mtTemper_inj {a b : Nat} (ha : a < 2 ^ 64) (hb : b < 2 ^ 64) (h : mtTemper a = mtTemper b) : a = b := by
  unfold mtTemper at h
  simp only at h
  have lt1 : ∀ {z : Nat}, z < 2 ^ 64 → z ^^^ ((z >>> 29) &&& 0x5555555555555555) < 2 ^ 64 := fun hz => Nat.xor_lt_two_pow hz (Nat.and_lt_two_pow _ (by norm_num))
  have lt2 : ∀ {z : Nat}, z < 2 ^ 64 → z ^^^ ((z <<< 17 % 2 ^ 64) &&& 0x71d67fffeda60000) < 2 ^ 64 := fun hz => Nat.xor_lt_two_pow hz (Nat.and_lt_two_pow _ (by norm_num))
  have lt3 : ∀ {z : Nat}, z < 2 ^ 64 → z ^^^ ((z <<< 37 % 2 ^ 64) &&& 0xfff7eee000000000) < 2 ^ 64 := fun hz => Nat.xor_lt_two_pow hz (Nat.and_lt_two_pow _ (by norm_num))
  refine xor_inj (shr_and_lin 29 0x5555555555555555) (fun d _ h => shr_fix (by norm_num) h) ha hb ?_
  refine xor_inj (shl_and_lin 17 0x71d67fffeda60000) (fun d _ h => shl_fix (by norm_num) h) (lt1 ha) (lt1 hb) ?_
  refine xor_inj (shl_and_lin 37 0xfff7eee000000000) (fun d _ h => shl_fix (by norm_num) h) (lt2 (lt1 ha)) (lt2 (lt1 hb)) ?_
  refine xor_inj (f := fun z => z >>> 43) (fun a b => Nat.shiftRight_xor_distrib) (fun d hd h => ?_) (lt3 (lt2 (lt1 ha))) (lt3 (lt2 (lt1 hb))) h
  refine shr_fix (s := 43) (m := 2 ^ 64 - 1) (by norm_num) ?_
  rw [Nat.and_two_pow_sub_one_eq_mod, Nat.mod_eq_of_lt (by rw [← h]; exact hd)]
  exact h

end Verif
