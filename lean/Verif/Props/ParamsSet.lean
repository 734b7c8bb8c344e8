import Verif.Props.Examples
import Verif.Props.Params

/-!
# What computed parameters depend on: C62
-/

namespace Verif.Props
open Spec

variable {isa isa' : Isa} {ft ft' : FT} {x x' : InBuf} {n n' : Nat} {blocks blocks' : List (Nat × Nat)} {dt : DType} {s s' : F32} {z z' : ℤ}

/-- C62. The parameters depend only on the *set* of values in the data: order, repetition, element
type (float32 or bf16), kernel set and split do not matter.  (On SSE4.2 if a least and a
greatest element are among those that count, see `C62_false_sse42`.) -/
theorem C62_set_of_values_partial (h : PArgs ft x n blocks dt) (h' : PArgs ft' x' n' blocks' dt) (hn : 0 < n) (hn' : 0 < n')
    (hf : AllFin ft x n) (hf' : AllFin ft' x' n') (hs : Sees isa ft x n blocks) (hs' : Sees isa' ft' x' n' blocks')
    (hv : values ft.dtype x.data n = values ft'.dtype x'.data n') :
    computeQuantConfigFromData isa ft x blocks dt = computeQuantConfigFromData isa' ft' x' blocks' dt := by
  obtain ⟨lo, hi, hr⟩ := range_exists (ft := ft) (x := x) hn
  have hr' : Range ft'.dtype x'.data n' lo hi := by unfold Range at hr ⊢; rwa [← hv]
  rw [C22_true_range_partial h hn hf hs hr, C22_true_range_partial h' hn' hf' hs' hr']

/-- C62, permuted data: reordering the elements does not change the parameters. -/
theorem C62_permutation_partial (σ : Equiv.Perm (Fin n)) (h : PArgs ft x n blocks dt) (h' : PArgs ft x' n blocks' dt) (hn : 0 < n)
    (hf : AllFin ft x n) (hs : Sees isa ft x n blocks) (hs' : Sees isa' ft x' n blocks')
    (hp : ∀ i : Fin n, elem ft.dtype x'.data 0 i = elem ft.dtype x.data 0 (σ i)) :
    computeQuantConfigFromData isa ft x blocks dt = computeQuantConfigFromData isa' ft x' blocks' dt := by
  refine C62_set_of_values_partial h h' hn hn hf ?_ hs hs' ?_
  · intro t ht; rw [show elem ft.dtype x'.data 0 t = _ from hp ⟨t, ht⟩]; exact hf _ (σ ⟨t, ht⟩).2
  · ext v; constructor
    · rintro ⟨t, ht, rfl⟩
      refine ⟨σ.symm ⟨t, ht⟩, Fin.is_lt _, ?_⟩
      rw [hp, Equiv.apply_symm_apply]
    · rintro ⟨t, ht, rfl⟩
      exact ⟨σ ⟨t, ht⟩, Fin.is_lt _, by rw [show elem ft.dtype x'.data 0 t = _ from hp ⟨t, ht⟩]⟩

/-- C62, more data inside the range: adding elements between the minimum and the maximum does not
change the parameters. -/
theorem C62_interior_data_partial (h : PArgs ft x n blocks dt) (h' : PArgs ft' x' n' blocks' dt) (hn : 0 < n) (hn' : 0 < n')
    (hf : AllFin ft x n) (hf' : AllFin ft' x' n') (hs : Sees isa ft x n blocks) (hs' : Sees isa' ft' x' n' blocks')
    (hsub : values ft.dtype x.data n ⊆ values ft'.dtype x'.data n')
    (hin : ∀ v ∈ values ft'.dtype x'.data n', ∃ a ∈ values ft.dtype x.data n, ∃ b ∈ values ft.dtype x.data n, a ≤ v ∧ v ≤ b) :
    computeQuantConfigFromData isa ft x blocks dt = computeQuantConfigFromData isa' ft' x' blocks' dt := by
  obtain ⟨lo, hi, hr⟩ := range_exists (ft := ft) (x := x) hn
  have hr' : Range ft'.dtype x'.data n' lo hi := by
    refine ⟨⟨hsub hr.1.1, fun v hv => ?_⟩, hsub hr.2.1, fun v hv => ?_⟩
    · obtain ⟨a, ha, _, _, h1, _⟩ := hin v hv; exact (hr.1.2 ha).trans h1
    · obtain ⟨_, _, b, hb, _, h1⟩ := hin v hv; exact h1.trans (hr.2.2 hb)
  rw [C22_true_range_partial h hn hf hs hr, C22_true_range_partial h' hn' hf' hs' hr']

theorem scale64_mono {bits : Nat} {lo hi lo' hi' : ℚ} (hb : dt.isQuant = true) (hbits : bits = dt.bits) (h : hi - lo ≤ hi' - lo') : scale64 bits lo hi ≤ scale64 bits lo' hi' := by
  have hQ := qmax_bounds hb
  have q1 : (3:ℚ) ≤ 2 ^ bits - 1 := by rw [hbits]; exact_mod_cast hQ.1
  unfold scale64
  simp only [r64_flr]
  exact flr_mono (div_le_div_of_nonneg_right (flr_mono h) (by linarith))

/-- C62, growing data: if the data is not constant, adding elements never makes the scale smaller. -/
theorem C62_scale_monotone_partial (h : PArgs ft x n blocks dt) (h' : PArgs ft' x' n' blocks' dt) (hn : 0 < n) (hn' : 0 < n')
    (hf : AllFin ft x n) (hf' : AllFin ft' x' n') (hs : Sees isa ft x n blocks) (hs' : Sees isa' ft' x' n' blocks')
    (hsub : values ft.dtype x.data n ⊆ values ft'.dtype x'.data n')
    (hne : ∃ a ∈ values ft.dtype x.data n, ∃ b ∈ values ft.dtype x.data n, a ≠ b)
    (e : computeQuantConfigFromData isa ft x blocks dt = .ret (s, z)) (e' : computeQuantConfigFromData isa' ft' x' blocks' dt = .ret (s', z')) :
    s.toRat ≤ s'.toRat := by
  obtain ⟨lo, hi, hr⟩ := range_exists (ft := ft) (x := x) hn
  obtain ⟨lo', hi', hr'⟩ := range_exists (ft := ft') (x := x') hn'
  rw [C22_true_range_partial h hn hf hs hr] at e
  rw [C22_true_range_partial h' hn' hf' hs' hr'] at e'
  obtain ⟨a, ha, b, hb, hab⟩ := hne
  have h1 : lo' ≤ lo := hr'.1.2 (hsub hr.1.1)
  have h2 : hi ≤ hi' := hr'.2.2 (hsub hr.2.1)
  have h3 : ¬ hi = lo := by
    intro e
    have := hr.1.2 ha; have := hr.2.2 ha; have := hr.1.2 hb; have := hr.2.2 hb
    exact hab (by linarith)
  have h4 : lo ≤ hi := hr.1.2 hr.2.1
  have h5 : ¬ hi' = lo' := by
    intro e; exact h3 (by linarith)
  unfold params at e e'
  rw [if_neg h3] at e
  rw [if_neg h5] at e'
  injection e with e; injection e' with e'
  have e := congrArg Prod.fst e
  have e' := congrArg Prod.fst e'
  simp only at e e'
  rw [← e, ← e', ofRat_flr, ofRat_flr]
  exact flr_mono (scale64_mono h.quant rfl (by linarith))

/-- C62, accuracy of the scale: when `(max - min)/(2^bits - 1)` is in the normal range of a float, the
step times the number of steps is the width of the data up to one float rounding. -/
theorem C62_scale_accurate_partial (h : PArgs ft x n blocks dt) (hn : 0 < n) (hf : AllFin ft x n) (hs : Sees isa ft x n blocks) {lo hi : ℚ}
    (hr : Range ft.dtype x.data n lo hi) (hw : (2 ^ dt.bits - 1) / 2 ^ 125 ≤ hi - lo)
    (e : computeQuantConfigFromData isa ft x blocks dt = .ret (s, z)) :
    |s.toRat * (2 ^ dt.bits - 1) - (hi - lo)| ≤ (hi - lo) * (1 / 2 ^ 24 + 1 / 2 ^ 50) := by
  rw [C22_true_range_partial h hn hf hs hr] at e
  have hQ := qmax_bounds h.quant
  have hQ1 : (3:ℚ) ≤ 2 ^ dt.bits - 1 := by exact_mod_cast hQ.1
  obtain ⟨⟨⟨a, ha, ea⟩, _⟩, ⟨b, hb, eb⟩, _⟩ := hr
  have hA := abs_lt.mp (abs_lt_of_isFin (hf a ha))
  have hB := abs_lt.mp (abs_lt_of_isFin (hf b hb))
  rw [emax_f32] at hA hB
  have hd2 : hi - lo ≤ 2 ^ 129 := by
    have : (2:ℚ) ^ 129 = 2 ^ 128 + 2 ^ 128 := by norm_num
    rw [this, ea, eb]; linarith [hA.1, hB.2]
  have hd0 : 1 / 2 ^ 125 ≤ hi - lo := le_trans (div_le_div_of_nonneg_right (by linarith) (by positivity)) hw
  have hd1 : 1 / 2 ^ 149 ≤ hi - lo := le_trans (by norm_num) hd0
  obtain ⟨_, b2, b3⟩ := scale64_bounds (bits := dt.bits) hQ hd1 hd2
  have hpos : 0 < hi - lo := lt_of_lt_of_le (by positivity) hd0
  have hne : ¬ hi = lo := by intro e; rw [e, sub_self] at hpos; exact lt_irrefl _ hpos
  unfold params at e
  rw [if_neg hne] at e
  injection e with e
  have e := congrArg Prod.fst e
  simp only at e
  rw [← e, ofRat_flr]
  set d := hi - lo with hd
  set Q := (2:ℚ) ^ dt.bits - 1 with hQdef
  set S := scale64 dt.bits lo hi with hS
  have hQ0 : 0 < Q := by linarith
  have hq1 : 1 / 2 ^ 125 ≤ d / Q := by
    rw [le_div_iff₀ hQ0, one_div_mul_eq_div]; exact hw
  have hq2 : d / Q ≤ 2 ^ 129 / 3 := div_le_div₀ (by positivity) hd2 (by norm_num) hQ1
  have hq0 : 0 < d / Q := lt_of_lt_of_le (by positivity) hq1
  have hS1 : 1 / 2 ^ 126 ≤ S := by
    refine le_trans ?_ b2
    calc (1:ℚ) / 2 ^ 126 ≤ 1 / 2 ^ 125 * (1 - 1 / 2 ^ 51) := by norm_num
      _ ≤ _ := mul_le_mul_of_nonneg_right hq1 (by norm_num)
  have hS0 : 0 < S := lt_of_lt_of_le (by positivity) hS1
  have hfin : (Flt.ofRat f32 S).isFin = true := ofRat32_fin' ⟨hS0.le, b3.trans (mul_le_mul_of_nonneg_right hq2 (by norm_num))⟩
  have hfl : fl f32 |S| < 2 ^ f32.emax := by
    have := abs_lt_of_isFin hfin
    rwa [ofRat_flr, abs_flr] at this
  have herr := flr_err hfl
  rw [abs_of_pos hS0, unit_f32, show f32.mb = 23 from rfl] at herr
  have herr : |flr f32 S - S| ≤ S / 2 ^ 24 := by
    refine herr.trans (max_le ?_ le_rfl)
    rw [le_div_iff₀ (by positivity)]
    refine le_trans ?_ hS1; norm_num
  have hSd : |S - d / Q| ≤ d / Q / 2 ^ 51 := by rw [abs_le]; constructor <;> linarith
  have hS3 : S ≤ d / Q * (1 + 1 / 2 ^ 51) := b3
  have htot : |flr f32 S - d / Q| ≤ d / Q * (1 / 2 ^ 24 + 1 / 2 ^ 50) := by
    calc |flr f32 S - d / Q| ≤ |flr f32 S - S| + |S - d / Q| := by
          have := abs_add_le (flr f32 S - S) (S - d / Q); rwa [sub_add_sub_cancel] at this
      _ ≤ d / Q * (1 + 1 / 2 ^ 51) / 2 ^ 24 + d / Q / 2 ^ 51 := add_le_add (herr.trans (div_le_div_of_nonneg_right hS3 (by positivity))) hSd
      _ ≤ d / Q * (1 / 2 ^ 24 + 1 / 2 ^ 50) := by
          have : d / Q * (1 + 1 / 2 ^ 51) / 2 ^ 24 + d / Q / 2 ^ 51 = d / Q * ((1 + 1 / 2 ^ 51) / 2 ^ 24 + 1 / 2 ^ 51) := by ring
          rw [this]; exact mul_le_mul_of_nonneg_left (by norm_num) hq0.le
  have : flr f32 S * Q - d = (flr f32 S - d / Q) * Q := by field_simp
  rw [this, abs_mul, abs_of_pos hQ0]
  calc _ ≤ d / Q * (1 / 2 ^ 24 + 1 / 2 ^ 50) * Q := mul_le_mul_of_nonneg_right htot hQ0.le
    _ = _ := by field_simp

/-- `C62_scale_accurate_partial` applied to a concrete case. -/
example := C62_scale_accurate_partial (isa := .avx512f) (ft := .f32) (x := Ex.many) (n := 70) (blocks := Ex.blocks) (dt := .uint8) (s := Ex.manyS)
    (z := 128) (h := by wit) (hn := by wit) (hf := by wit) (hs := by wit) (lo := (-25 / 4)) (hi := (25 / 4)) (hr := by wit) (hw := by wit)
    (e := retIs_iff (by decide +kernel))

/-- C62 is false on SSE4.2 with 16 or more floats: swapping two pairs of elements changes both
parameters. -/
theorem C62_false_sse42 : PArgs .f32 lane3 16 [(0, 16)] .uint8 ∧ PArgs .f32 lane0 16 [(0, 16)] .uint8 ∧ AllFin .f32 lane3 16 ∧ AllFin .f32 lane0 16 ∧
    (∀ i : Fin 16, elem .f32 lane0.data 0 i = elem .f32 lane3.data 0 (((Equiv.swap 0 3).trans (Equiv.swap 4 7) : Equiv.Perm (Fin 16)) i)) ∧
    computeQuantConfigFromData .sse42 .f32 lane3 [(0, 16)] .uint8 = .ret (f1, 127) ∧
    computeQuantConfigFromData .sse42 .f32 lane0 [(0, 16)] .uint8 = .ret (⟨false, 0x3f48c8c9⟩, 128) := by
  refine ⟨⟨rfl, by decide, rfl, by omega, rfl⟩, ⟨rfl, by decide, rfl, by omega, rfl⟩, ?_, ?_, by decide +kernel, retIs_iff (by decide +kernel), retIs_iff (by decide +kernel)⟩
  · unfold AllFin; decide +kernel
  · unfold AllFin; decide +kernel

/-- 1.0, -2.5, 3.0 as floats in another order, with a repetition; and with two values in between. -/
def xf1 : InBuf := Ex.buf (Ex.words32 [0x40400000, 0x3f800000, 0xc0200000, 0x3f800000])
def xf2 : InBuf := Ex.buf (Ex.words32 [0x40400000, 0x3f800000, 0xc0200000, 0x3e99999a, 0x40000000])

/-- The bf16 data 1.0, -2.5, 3.0 and `xf1` have the same values. -/
theorem xf1_ok : PArgs .bf16 Ex.xb 3 [(0, 3)] .uint4 ∧ PArgs .f32 xf1 4 [(0, 1), (1, 4)] .uint4 ∧ AllFin .bf16 Ex.xb 3 ∧ AllFin .f32 xf1 4 ∧
    Sees .sse42 .bf16 Ex.xb 3 [(0, 3)] ∧ Sees .avx2 .f32 xf1 4 [(0, 1), (1, 4)] ∧ values .bf16 Ex.xb.data 3 = values .f32 xf1.data 4 := by
  refine ⟨⟨rfl, by decide, rfl, by omega, rfl⟩, ⟨rfl, by decide, rfl, by omega, rfl, by omega, rfl⟩, ?_, ?_, ?_, ?_, ?_⟩
  · unfold AllFin; decide +kernel
  · unfold AllFin; decide +kernel
  · exact sees_small (dt := .uint4) ⟨rfl, by decide, rfl, by omega, rfl⟩ (by omega) (by intro _ b hb; simp only [List.mem_singleton] at hb; subst hb; decide)
  · exact sees_small (dt := .uint4) ⟨rfl, by decide, rfl, by omega, rfl, by omega, rfl⟩ (by omega) (fun h => by cases h)
  · have h1 : ∀ t, t < 3 → ∃ u, u < 4 ∧ (elem .bf16 Ex.xb.data 0 t).toRat = (elem .f32 xf1.data 0 u).toRat := by decide +kernel
    have h2 : ∀ t, t < 4 → ∃ u, u < 3 ∧ (elem .f32 xf1.data 0 t).toRat = (elem .bf16 Ex.xb.data 0 u).toRat := by decide +kernel
    ext v; constructor
    · rintro ⟨t, ht, rfl⟩; exact h1 t ht
    · rintro ⟨t, ht, rfl⟩; exact h2 t ht

/-- `xf2` extends `xf1` inside its range; `xf1` is not constant and its range is wide enough. -/
theorem xf2_ok : values .f32 xf1.data 4 ⊆ values .f32 xf2.data 5 ∧
    (∀ v ∈ values .f32 xf2.data 5, ∃ a ∈ values .f32 xf1.data 4, ∃ b ∈ values .f32 xf1.data 4, a ≤ v ∧ v ≤ b) ∧
    (∃ a ∈ values .f32 xf1.data 4, ∃ b ∈ values .f32 xf1.data 4, a ≠ b) ∧ ((2:ℚ) ^ 4 - 1) / 2 ^ 125 ≤ 3 - -5 / 2 := by
  have h1 : ∀ t, t < 4 → ∃ u, u < 5 ∧ (elem .f32 xf1.data 0 t).toRat = (elem .f32 xf2.data 0 u).toRat := by decide +kernel
  have h2 : ∀ t, t < 5 → (elem .f32 xf1.data 0 2).toRat ≤ (elem .f32 xf2.data 0 t).toRat ∧ (elem .f32 xf2.data 0 t).toRat ≤ (elem .f32 xf1.data 0 0).toRat := by decide +kernel
  refine ⟨?_, ?_, ⟨_, ⟨0, by decide, rfl⟩, _, ⟨1, by decide, rfl⟩, by decide +kernel⟩, by norm_num⟩
  · rintro v ⟨t, ht, rfl⟩; exact h1 t ht
  · rintro v ⟨t, ht, rfl⟩; exact ⟨_, ⟨2, by decide, rfl⟩, _, ⟨0, by decide, rfl⟩, h2 t ht⟩

/-- A permutation of the three bf16 values. -/
example : ∀ i : Fin 3, elem .bf16 (Ex.buf (Ex.words16 [0xc020, 0x3f80, 0x4040])).data 0 i = elem .bf16 Ex.xb.data 0 ((Equiv.swap 0 1 : Equiv.Perm (Fin 3)) i) := by
  decide +kernel

end Verif.Props
