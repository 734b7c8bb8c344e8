import Verif.Props.Pipeline
import Verif.Props.Symmetry

/-!
# Computed parameters of negated and of rescaled data: C104
-/

namespace Verif.Props
open Spec

section
variable {isa isa' : Isa} {ft ft' : FT} {x x' : InBuf} {n o o' : Nat} {blocks blocks' : List (Nat × Nat)} {dt : DType} {c c' : Ctx}
  {m0 m0' : Mem} {τ : F32} {mode : RoundMode} {lo hi : ℚ}

/-- A quotient of at most a few hundred steps, rounded to double. -/
theorem r64_near {q : ℚ} (h : |q| ≤ 2 ^ 9) : |r64 q - q| ≤ 1 / 2 ^ 40 := by
  rw [r64_flr]
  have hfin : fl f64 |q| < 2 ^ f64.emax := by
    apply fl_fin (abs_nonneg _)
    rw [emax_f64]
    exact h.trans (pow_le_pow_right₀ (by norm_num) (by norm_num))
  refine (flr_err hfin).trans (max_le ?_ ?_)
  · rw [unit_f64]
    rw [div_le_div_iff₀ (by positivity) (by positivity), one_mul, one_mul]; exact pow_le_pow_right₀ (by norm_num) (by norm_num)
  · rw [show f64.mb = 52 from rfl, div_le_iff₀ (by positivity)]
    exact h.trans (by norm_num)

theorem rha_nonneg_eq {q : ℚ} (h : 0 ≤ q) : rha q = ⌊q + 1 / 2⌋ := by unfold rha; rw [if_neg (by linarith)]

theorem rha_nonpos {q : ℚ} (h : q ≤ 0) : rha q ≤ 0 := by
  have := rha_neg (-q)
  rw [neg_neg] at this
  rw [this, rha_nonneg_eq (by linarith)]
  have : 0 ≤ ⌊-q + 1 / 2⌋ := Int.floor_nonneg.mpr (by linarith)
  omega

/-- The zero points of a range and of the mirrored range. -/
theorem zp_mirror {Q : ℤ} {a b : ℚ} {bits : Nat} (hQ : Q = 2 ^ bits - 1) (h3 : 3 ≤ Q) (h255 : Q ≤ 255) (hab : |a + b - Q| ≤ 1 / 2 ^ 30)
    {A B : ℚ} (hA : A = r64 a) (hB : B = r64 b) : |sat bits (rha A) + sat bits (rha B) - Q| ≤ 1 := by
  have q3 : (3:ℚ) ≤ Q := by exact_mod_cast h3
  have q255 : (Q:ℚ) ≤ 255 := by exact_mod_cast h255
  have hab' := abs_le.mp hab
  have e30 : (1:ℚ) / 2 ^ 30 ≤ 1 / 8 := by norm_num
  have e40 : (1:ℚ) / 2 ^ 40 ≤ 1 / 8 := by norm_num
  have one : ∀ {a b A B : ℚ}, a ≤ 0 → |a + b - Q| ≤ 1 / 2 ^ 30 → A = r64 a → B = r64 b → |sat bits (rha A) + sat bits (rha B) - Q| ≤ 1 := by
    intro a b A B ha hab hA hB
    have hab' := abs_le.mp hab
    have hA0 : A ≤ 0 := by rw [hA, r64_flr]; exact flr_nonpos ha
    have z1 : sat bits (rha A) = 0 := by
      have := rha_nonpos hA0
      unfold sat; omega
    have hB1 : (Q:ℚ) - 1 / 2 ≤ B := by
      have h1 : (Q:ℚ) - 1 / 8 ≤ b := by linarith [hab'.1]
      have h2 : r64 ((Q:ℚ) - 1 / 8) ≤ B := by rw [hB, r64_flr, r64_flr]; exact flr_mono h1
      have h3 := (abs_le.mp (r64_near (q := (Q:ℚ) - 1 / 8) (by rw [abs_le]; norm_num; constructor <;> linarith))).1
      linarith
    have z2 : Q ≤ rha B := by
      rw [rha_nonneg_eq (by linarith), Int.le_floor]; linarith
    rw [z1]
    unfold sat
    rw [← hQ, abs_le]; omega
  rcases le_total a 0 with ha | ha
  · exact one ha hab hA hB
  rcases le_total b 0 with hb | hb
  · have := one (a := b) (b := a) hb (by rwa [add_comm]) hB hA
    rwa [add_comm (sat bits (rha A))]
  · have na := abs_le.mp (r64_near (q := a) (by rw [abs_of_nonneg ha]; linarith [hab'.2]))
    have nb := abs_le.mp (r64_near (q := b) (by rw [abs_of_nonneg hb]; linarith [hab'.2]))
    rw [← hA] at na; rw [← hB] at nb
    have hA0 : 0 ≤ A := by rw [hA, r64_flr]; exact flr_nonneg ha
    have hB0 : 0 ≤ B := by rw [hB, r64_flr]; exact flr_nonneg hb
    rw [rha_nonneg_eq hA0, rha_nonneg_eq hB0]
    have fa := Int.floor_le (A + 1 / 2)
    have fa' := Int.lt_floor_add_one (A + 1 / 2)
    have fb := Int.floor_le (B + 1 / 2)
    have fb' := Int.lt_floor_add_one (B + 1 / 2)
    have ga : 0 ≤ ⌊A + 1 / 2⌋ := Int.floor_nonneg.mpr (by linarith)
    have gb : 0 ≤ ⌊B + 1 / 2⌋ := Int.floor_nonneg.mpr (by linarith)
    have ua : ⌊A + 1 / 2⌋ ≤ Q := by
      have : ⌊A + 1 / 2⌋ < Q + 1 := by rw [Int.floor_lt]; push_cast; linarith [na.2, hab'.2]
      omega
    have ub : ⌊B + 1 / 2⌋ ≤ Q := by
      have : ⌊B + 1 / 2⌋ < Q + 1 := by rw [Int.floor_lt]; push_cast; linarith [nb.2, hab'.2]
      omega
    have s1 : ((⌊A + 1 / 2⌋ + ⌊B + 1 / 2⌋ : ℤ) : ℚ) < ((Q + 2 : ℤ) : ℚ) := by push_cast; linarith [na.2, nb.2, hab'.2]
    have s2 : ((Q - 2 : ℤ) : ℚ) < ((⌊A + 1 / 2⌋ + ⌊B + 1 / 2⌋ : ℤ) : ℚ) := by push_cast; linarith [na.1, nb.1, hab'.1]
    have s1 : ⌊A + 1 / 2⌋ + ⌊B + 1 / 2⌋ < Q + 2 := by exact_mod_cast s1
    have s2 : Q - 2 < ⌊A + 1 / 2⌋ + ⌊B + 1 / 2⌋ := by exact_mod_cast s2
    unfold sat
    rw [← hQ, abs_le]; omega

theorem range_neg (hneg : ∀ i, i < n → (elem ft'.dtype x'.data 0 i).toRat = -(elem ft.dtype x.data 0 i).toRat) (hr : Range ft.dtype x.data n lo hi) :
    Range ft'.dtype x'.data n (-hi) (-lo) := by
  obtain ⟨⟨⟨a, ha, ea⟩, hlo⟩, ⟨b, hb, eb⟩, hhi⟩ := hr
  refine ⟨⟨⟨b, hb, by rw [hneg b hb, ← eb]⟩, ?_⟩, ⟨a, ha, by rw [hneg a ha, ← ea]⟩, ?_⟩
  · rintro v ⟨t, ht, rfl⟩
    rw [hneg t ht]; exact neg_le_neg (hhi ⟨t, ht, rfl⟩)
  · rintro v ⟨t, ht, rfl⟩
    rw [hneg t ht]; exact neg_le_neg (hlo ⟨t, ht, rfl⟩)

theorem range_width (hf : AllFin ft x n) (hr : Range ft.dtype x.data n lo hi) : hi - lo ≤ 2 ^ 129 ∧ (¬ hi = lo → 1 / 2 ^ 149 ≤ hi - lo) := by
  obtain ⟨⟨⟨a, ha, ea⟩, hlo⟩, ⟨b, hb, eb⟩, hhi⟩ := hr
  have hA := abs_lt.mp (abs_lt_of_isFin (hf a ha))
  have hB := abs_lt.mp (abs_lt_of_isFin (hf b hb))
  rw [emax_f32] at hA hB
  constructor
  · have : (2:ℚ) ^ 129 = 2 ^ 128 + 2 ^ 128 := by norm_num
    rw [this, ea, eb]; linarith [hA.1, hB.2]
  · intro hne
    have : lo ≤ hi := hlo ⟨b, hb, eb⟩
    have hlt : lo < hi := lt_of_le_of_ne this (fun e => hne e.symm)
    rw [ea, eb] at hlt ⊢
    have := toRat_sub_unit hlt
    rwa [unit_f32] at this

/-- C104, negation: the parameters computed from the negated data have the same scale, bit for bit, and the mirrored zero
point, up to one.  Any finite data (in range of zero or not, constant or not), any two kernels, splits and float types. -/
theorem C104_negated_params (h : PArgs ft x n blocks dt) (h' : PArgs ft' x' n blocks' dt) (hn : 0 < n) (hf : AllFin ft x n)
    (hs : Sees isa ft x n blocks) (hs' : Sees isa' ft' x' n blocks')
    (hneg : ∀ i, i < n → (elem ft'.dtype x'.data 0 i).toRat = -(elem ft.dtype x.data 0 i).toRat) :
    ∃ s z z', computeQuantConfigFromData isa ft x blocks dt = .ret (s, z) ∧ computeQuantConfigFromData isa' ft' x' blocks' dt = .ret (s, z') ∧
      |z + z' - (2 ^ dt.bits - 1)| ≤ 1 := by
  obtain ⟨lo, hi, hr⟩ := range_exists (ft := ft) (x := x) hn
  have hf' : AllFin ft' x' n := fun i hi => by
    apply isFin_of_abs
    rw [hneg i hi, abs_neg]; exact abs_lt_of_isFin (hf i hi)
  have e := C22_true_range_partial h hn hf hs hr
  have e' := C22_true_range_partial h' hn hf' hs' (range_neg hneg hr)
  have hQ := qmax_bounds h.quant
  obtain ⟨w1, w2⟩ := range_width hf hr
  by_cases hc : hi = lo
  · have p1 : params dt.bits lo hi = (⟨false, 0x3f800000⟩, (2 ^ dt.bits - 1) / 2) := by unfold params; rw [if_pos hc]
    have p2 : params dt.bits (-hi) (-lo) = (⟨false, 0x3f800000⟩, (2 ^ dt.bits - 1) / 2) := by unfold params; rw [if_pos (by rw [hc])]
    refine ⟨⟨false, 0x3f800000⟩, (2 ^ dt.bits - 1) / 2, (2 ^ dt.bits - 1) / 2, by rw [e, p1], by rw [e', p2], ?_⟩
    · clear e e' p1 p2
      generalize (2:ℤ) ^ dt.bits - 1 = Q at *
      rw [abs_le]; omega
  · obtain ⟨_, k1, k2⟩ := scale64_bounds (bits := dt.bits) hQ (w2 hc) w1
    have es : scale64 dt.bits (-hi) (-lo) = scale64 dt.bits lo hi := by unfold scale64; rw [show -lo - -hi = hi - lo by ring]
    have hc' : ¬ -lo = -hi := fun e => hc (neg_injective e).symm
    have p1 : params dt.bits lo hi = (Flt.ofRat f32 (scale64 dt.bits lo hi), sat dt.bits (rha (-(r64 (lo / scale64 dt.bits lo hi))))) := by
      unfold params; rw [if_neg hc]
    have p2 : params dt.bits (-hi) (-lo) = (Flt.ofRat f32 (scale64 dt.bits lo hi), sat dt.bits (rha (-(r64 (-hi / scale64 dt.bits lo hi))))) := by
      unfold params; rw [if_neg hc', es]
    refine ⟨_, _, _, by rw [e, p1], by rw [e', p2], ?_⟩
    · clear e e' p1 p2
      have hQ1 : (3:ℚ) ≤ 2 ^ dt.bits - 1 := by exact_mod_cast hQ.1
      have hQ2 : (2:ℚ) ^ dt.bits - 1 ≤ 255 := by exact_mod_cast hQ.2
      have hd := w2 hc
      set S := scale64 dt.bits lo hi with hS
      have hd0 : 0 < hi - lo := lt_of_lt_of_le (by positivity) hd
      have hdQ : 0 < (hi - lo) / (2 ^ dt.bits - 1) := div_pos hd0 (by linarith)
      have hS0 : 0 < S := lt_of_lt_of_le (mul_pos hdQ (by norm_num)) k1
      refine zp_mirror (a := -lo / S) (b := hi / S) rfl hQ.1 hQ.2 ?_ ?_ ?_
      · push_cast
        have e1 : -lo / S + hi / S - ((2:ℚ) ^ dt.bits - 1) = ((hi - lo) / (2 ^ dt.bits - 1) - S) / S * (2 ^ dt.bits - 1) := by
          have : (2:ℚ) ^ dt.bits - 1 ≠ 0 := by linarith
          field_simp
          ring
        rw [e1, abs_mul, abs_div, abs_of_pos hS0, abs_of_nonneg (by linarith : (0:ℚ) ≤ 2 ^ dt.bits - 1)]
        have h1 : |(hi - lo) / (2 ^ dt.bits - 1) - S| ≤ S / 2 ^ 50 := by
          set d := (hi - lo) / ((2:ℚ) ^ dt.bits - 1)
          have t1 : d * (1 - 1 / 2 ^ 51) = d - d / 2 ^ 51 := by ring
          have t2 : d * (1 + 1 / 2 ^ 51) = d + d / 2 ^ 51 := by ring
          rw [t1] at k1; rw [t2] at k2
          rw [abs_le]; constructor <;> linarith
        calc |(hi - lo) / (2 ^ dt.bits - 1) - S| / S * (2 ^ dt.bits - 1) ≤ 1 / 2 ^ 50 * 255 := by
              refine mul_le_mul ?_ hQ2 (by linarith) (by positivity)
              rw [div_le_iff₀ hS0]; linarith
          _ ≤ _ := by norm_num
      · rw [r64_flr, r64_flr, neg_div, flr_neg]
      · rw [r64_flr, r64_flr, neg_div, flr_neg, neg_neg]

theorem manyNeg_args : PArgs .f32 Ex.manyNeg 70 Ex.blocks .uint8 := ⟨rfl, by decide +kernel, rfl, by decide, rfl, by decide, rfl⟩
theorem many8_args : PArgs .f32 Ex.many8 70 Ex.blocks .uint8 := ⟨rfl, by decide +kernel, rfl, by decide, rfl, by decide, rfl⟩
theorem many8_fin : AllFin .f32 Ex.many8 70 := by unfold AllFin; decide +kernel

/-- `C104_negated_params` applied to a concrete case. -/
example := C104_negated_params (isa := .avx512f) (isa' := .neon) (ft := .f32) (ft' := .f32) (x := Ex.many) (x' := Ex.manyNeg) (n := 70) (blocks := Ex.blocks)
    (blocks' := Ex.blocks) (dt := .uint8) (h := by wit) (h' := manyNeg_args) (hn := by wit) (hf := by wit) (hs := by wit) (hs' := sees_small manyNeg_args (by decide) (fun h => (by cases h))) (hneg := by wit)

/-- -1.0 and 1.0; negated; and the constant tensor 1.0, 1.0 and its negation. -/
def pm : InBuf := Ex.buf (Ex.words32 [0xbf800000, 0x3f800000])
def mp : InBuf := Ex.buf (Ex.words32 [0x3f800000, 0xbf800000])
def pp : InBuf := Ex.buf (Ex.words32 [0x3f800000, 0x3f800000])
def mm : InBuf := Ex.buf (Ex.words32 [0xbf800000, 0xbf800000])

/-- The deviation of one in `C104_negated_params` is attained on both sides: -1, 1 and 1, -1 both get zero point 128 (the mirror image of 128 is 127),
and 1, 1 and -1, -1 both get 127 (the mirror image of 127 is 128). -/
theorem C104_mirror_sharp :
    computeQuantConfigFromData .portable .f32 pm [(0, 2)] .uint8 = .ret (⟨false, 0x3c008081⟩, 128) ∧
    computeQuantConfigFromData .portable .f32 mp [(0, 2)] .uint8 = .ret (⟨false, 0x3c008081⟩, 128) ∧
    computeQuantConfigFromData .portable .f32 pp [(0, 2)] .uint8 = .ret (f1, 127) ∧
    computeQuantConfigFromData .portable .f32 mm [(0, 2)] .uint8 = .ret (f1, 127) :=
  ⟨retIs_iff (by decide +kernel), retIs_iff (by decide +kernel), retIs_iff (by decide +kernel), retIs_iff (by decide +kernel)⟩

/-! ## Powers of two -/

theorem range_scale {e : Nat} (hv : ∀ i, i < n → (elem ft'.dtype x'.data 0 i).toRat = (elem ft.dtype x.data 0 i).toRat * 2 ^ e) (hr : Range ft.dtype x.data n lo hi) :
    Range ft'.dtype x'.data n (lo * 2 ^ e) (hi * 2 ^ e) := by
  have p : (0:ℚ) < 2 ^ e := by positivity
  obtain ⟨⟨⟨a, ha, ea⟩, hlo⟩, ⟨b, hb, eb⟩, hhi⟩ := hr
  refine ⟨⟨⟨a, ha, by rw [hv a ha, ← ea]⟩, ?_⟩, ⟨b, hb, by rw [hv b hb, ← eb]⟩, ?_⟩
  · rintro v ⟨t, ht, rfl⟩
    rw [hv t ht]; exact mul_le_mul_of_nonneg_right (hlo ⟨t, ht, rfl⟩) p.le
  · rintro v ⟨t, ht, rfl⟩
    rw [hv t ht]; exact mul_le_mul_of_nonneg_right (hhi ⟨t, ht, rfl⟩) p.le

theorem r64_scale {q : ℚ} {e : Nat} (h : 1 / 2 ^ 200 ≤ q) (h2 : q * 2 ^ e ≤ 2 ^ 200) : r64 (q * 2 ^ e) = r64 q * 2 ^ e := by
  have q0 : 0 ≤ q := le_trans (by positivity) h
  rw [r64_flr, r64_flr, flr_nonneg_eq q0, flr_nonneg_eq (by positivity)]
  apply fl_scale
  · rw [unit_f64, show f64.mb = 52 from rfl]
    refine le_trans ?_ (mul_le_mul_of_nonneg_right h (by positivity))
    rw [div_mul_eq_mul_div, one_mul, le_div_iff₀ (by positivity), ← pow_add]
    exact pow_le_pow_right₀ (by norm_num) (by norm_num)
  · apply fl_fin (by positivity)
    rw [emax_f64]
    exact h2.trans (pow_le_pow_right₀ (by norm_num) (by norm_num))

theorem scale64_scale {bits e : Nat} (hQ : (3:ℤ) ≤ 2 ^ bits - 1 ∧ (2:ℤ) ^ bits - 1 ≤ 255) (h1 : 1 / 2 ^ 149 ≤ hi - lo) (h2 : (hi - lo) * 2 ^ e ≤ 2 ^ 129) :
    scale64 bits (lo * 2 ^ e) (hi * 2 ^ e) = scale64 bits lo hi * 2 ^ e := by
  have q1 : (3:ℚ) ≤ 2 ^ bits - 1 := by exact_mod_cast hQ.1
  have q2 : (2:ℚ) ^ bits - 1 ≤ 255 := by exact_mod_cast hQ.2
  have p : (0:ℚ) < 2 ^ e := by positivity
  have p1 : (1:ℚ) ≤ 2 ^ e := one_le_pow₀ (by norm_num)
  have hd0 : 0 < hi - lo := lt_of_lt_of_le (by positivity) h1
  unfold scale64
  have e1 : hi * 2 ^ e - lo * 2 ^ e = (hi - lo) * 2 ^ e := by ring
  have k1 : 1 / 2 ^ 200 ≤ hi - lo := le_trans (by norm_num) h1
  rw [e1, r64_scale k1 (h2.trans (by norm_num))]
  set d := hi - lo
  have b2 : d ≤ 2 ^ 129 := le_trans (le_mul_of_one_le_right hd0.le p1) h2
  have hup : r64 d * 2 ^ e ≤ 2 ^ 130 := by
    rw [← r64_scale k1 (h2.trans (by norm_num)), r64_flr]
    refine flr_le (h2.trans (by norm_num)) ?_ ?_
    · have := rep_nat (f := f64) (m := 1) (k := 130) (by decide)
      rw [abs_of_nonneg (by positivity)]; simpa using this
    · rw [abs_of_nonneg (by positivity), emax_f64]; exact pow_le_pow_right₀ (by norm_num) (by norm_num)
  have hlow : 1 / 2 ^ 149 ≤ r64 d := by
    rw [r64_flr]
    refine le_flr h1 ?_ ?_
    · have := rep_div (f := f64) (m := 1) (k := 149) (by decide) (by decide)
      rw [abs_of_nonneg (by positivity)]; simpa using this
    · rw [abs_of_nonneg (by positivity), emax_f64]
      exact le_trans (by norm_num : (1:ℚ) / 2 ^ 149 ≤ 1) (one_le_pow₀ (by norm_num))
  rw [show r64 d * 2 ^ e / (2 ^ bits - 1) = r64 d / (2 ^ bits - 1) * 2 ^ e by ring]
  apply r64_scale
  · rw [le_div_iff₀ (by linarith)]
    refine le_trans ?_ hlow
    calc (1:ℚ) / 2 ^ 200 * (2 ^ bits - 1) ≤ 1 / 2 ^ 200 * 255 := mul_le_mul_of_nonneg_left q2 (by positivity)
      _ ≤ _ := by norm_num
  · rw [div_mul_eq_mul_div, div_le_iff₀ (by linarith)]
    refine hup.trans ?_
    calc (2:ℚ) ^ 130 ≤ 2 ^ 200 * 3 := by norm_num
      _ ≤ _ := mul_le_mul_of_nonneg_left q1 (by positivity)

/-- C104, powers of two: the parameters computed from the data multiplied by a power of two are the same zero point and the
scale multiplied by that power of two, exactly.  Any finite data whose width is at least `(2^bits - 1) / 2^125` (the scale is then a normal
float). -/
theorem C104_rescaled_params {e : Nat} (h : PArgs ft x n blocks dt) (h' : PArgs ft' x' n blocks' dt) (hf : AllFin ft x n) (hf' : AllFin ft' x' n)
    (hs : Sees isa ft x n blocks) (hs' : Sees isa' ft' x' n blocks') (hr : Range ft.dtype x.data n lo hi) (hw : (2 ^ dt.bits - 1) / 2 ^ 125 ≤ hi - lo)
    (hv : ∀ i, i < n → (elem ft'.dtype x'.data 0 i).toRat = (elem ft.dtype x.data 0 i).toRat * 2 ^ e) :
    ∃ s s' z, computeQuantConfigFromData isa ft x blocks dt = .ret (s, z) ∧ computeQuantConfigFromData isa' ft' x' blocks' dt = .ret (s', z) ∧
      s.isFin = true ∧ s'.isFin = true ∧ 1 / 2 ^ 126 ≤ s.toRat ∧ s'.toRat = s.toRat * 2 ^ e := by
  have hn : 0 < n := by obtain ⟨⟨t, ht, _⟩, _⟩ := hr.1; omega
  have hr' := range_scale hv hr
  have E := C22_true_range_partial h hn hf hs hr
  have E' := C22_true_range_partial h' hn hf' hs' hr'
  have hQ := qmax_bounds h.quant
  have hQ1 : (3:ℚ) ≤ 2 ^ dt.bits - 1 := by exact_mod_cast hQ.1
  have p : (0:ℚ) < 2 ^ e := by positivity
  have p1 : (1:ℚ) ≤ 2 ^ e := one_le_pow₀ (by norm_num)
  have hd0 : 1 / 2 ^ 125 ≤ hi - lo := le_trans (div_le_div_of_nonneg_right (by linarith) (by positivity)) hw
  have hpos : 0 < hi - lo := lt_of_lt_of_le (by positivity) hd0
  have hd1 : 1 / 2 ^ 149 ≤ hi - lo := le_trans (by norm_num) hd0
  have hd2 := (range_width hf hr).1
  have hd2' := (range_width hf' hr').1
  rw [← sub_mul] at hd2'
  obtain ⟨_, b2, b3⟩ := scale64_bounds (bits := dt.bits) hQ hd1 hd2
  have hne : ¬ hi = lo := by intro e; rw [e, sub_self] at hpos; exact lt_irrefl _ hpos
  have hne' : ¬ hi * 2 ^ e = lo * 2 ^ e := fun k => hne (mul_right_cancel₀ p.ne' k)
  have hS := scale64_scale hQ hd1 hd2'
  obtain ⟨_, c2, c3⟩ := scale64_bounds (bits := dt.bits) (lo := lo * 2 ^ e) (hi := hi * 2 ^ e) hQ
    (by rw [← sub_mul]; exact hd1.trans (le_mul_of_one_le_right hpos.le p1)) (by rw [← sub_mul]; exact hd2')
  rw [hS, ← sub_mul] at c3
  have p2 : params dt.bits lo hi = (Flt.ofRat f32 (scale64 dt.bits lo hi), sat dt.bits (rha (-(r64 (lo / scale64 dt.bits lo hi))))) := by
    unfold params; rw [if_neg hne]
  have p3 : params dt.bits (lo * 2 ^ e) (hi * 2 ^ e) = (Flt.ofRat f32 (scale64 dt.bits lo hi * 2 ^ e), sat dt.bits (rha (-(r64 (lo / scale64 dt.bits lo hi))))) := by
    unfold params; rw [if_neg hne', hS, mul_div_mul_right _ _ p.ne']
  refine ⟨_, _, _, by rw [E, p2], by rw [E', p3], ?_⟩
  clear E E' p2 p3
  set d := hi - lo with hd
  set Q := (2:ℚ) ^ dt.bits - 1 with hQdef
  set S := scale64 dt.bits lo hi
  have hQ0 : 0 < Q := by linarith
  have hq1 : 1 / 2 ^ 125 ≤ d / Q := by
    rw [le_div_iff₀ hQ0, one_div_mul_eq_div]; exact hw
  have hq2 : d / Q ≤ 2 ^ 129 / 3 := div_le_div₀ (by positivity) hd2 (by norm_num) hQ1
  have hq3 : d * 2 ^ e / Q ≤ 2 ^ 129 / 3 := div_le_div₀ (by positivity) hd2' (by norm_num) hQ1
  have hS1 : 1 / 2 ^ 126 ≤ S := by
    refine le_trans ?_ b2
    calc (1:ℚ) / 2 ^ 126 ≤ 1 / 2 ^ 125 * (1 - 1 / 2 ^ 51) := by norm_num
      _ ≤ _ := mul_le_mul_of_nonneg_right hq1 (by norm_num)
  have hS0 : 0 < S := lt_of_lt_of_le (by positivity) hS1
  have hfin : (Flt.ofRat f32 S).isFin = true := ofRat32_fin' ⟨hS0.le, b3.trans (mul_le_mul_of_nonneg_right hq2 (by norm_num))⟩
  have hfin' : (Flt.ofRat f32 (S * 2 ^ e)).isFin = true := ofRat32_fin' ⟨by positivity, c3.trans (mul_le_mul_of_nonneg_right hq3 (by norm_num))⟩
  refine ⟨hfin, hfin', ?_, ?_⟩
  · rw [ofRat_flr (f := f32) S false]
    refine le_flr hS1 ?_ ?_
    · have := rep_div (f := f32) (m := 1) (k := 126) (by decide) (by decide)
      rw [abs_of_nonneg (by positivity)]; simpa using this
    · rw [abs_of_nonneg (by positivity), emax_f32]
      norm_num
  · have hfl : fl f32 (S * 2 ^ e) < 2 ^ f32.emax := by
      have := abs_lt_of_isFin hfin'
      rwa [ofRat_flr, abs_flr, abs_of_pos (by positivity)] at this
    rw [ofRat_flr, ofRat_flr, flr_nonneg_eq hS0.le, flr_nonneg_eq (by positivity)]
    apply fl_scale _ hfl
    rw [unit_f32, show f32.mb = 23 from rfl]
    refine le_trans ?_ (mul_le_mul_of_nonneg_right hS1 (by positivity))
    norm_num

/-- `C104_rescaled_params` applied to a concrete case: `Ex.many8` is `Ex.many` times eight. -/
example := C104_rescaled_params (isa := .avx512f) (isa' := .neon) (ft := .f32) (ft' := .f32) (x := Ex.many) (x' := Ex.many8) (n := 70) (blocks := Ex.blocks)
    (blocks' := Ex.blocks) (dt := .uint8) (e := 3) (lo := -25 / 4) (hi := 25 / 4) (h := by wit) (h' := many8_args) (hf := by wit) (hf' := many8_fin) (hs := by wit) (hs' := sees_small many8_args (by decide) (fun h => (by cases h)))
    (hr := by wit) (hw := by wit) (hv := by wit)

theorem around_scale {e : Nat} (ha : Around ft x n lo hi) (hf' : AllFin ft' x' n) (hnar : (hi - lo) * 2 ^ e ≤ 2 ^ 94)
    (hv : ∀ i, i < n → (elem ft'.dtype x'.data 0 i).toRat = (elem ft.dtype x.data 0 i).toRat * 2 ^ e) : Around ft' x' n (lo * 2 ^ e) (hi * 2 ^ e) := by
  have p : (0:ℚ) < 2 ^ e := by positivity
  have p1 : (1:ℚ) ≤ 2 ^ e := one_le_pow₀ (by norm_num)
  refine ⟨hf', range_scale hv ha.range, ⟨mul_nonpos_of_nonpos_of_nonneg ha.zero.1 p.le, mul_nonneg ha.zero.2 p.le⟩, ?_, ?_⟩
  · rw [← sub_mul]; exact ha.wide.trans (le_mul_of_one_le_right ha.pos.le p1)
  · rw [← sub_mul]; exact hnar.trans (by norm_num)

/-- C104, whole workflow: computing parameters, quantizing and dequantizing the data multiplied by a power of two, on any
other machine with any other number of threads, gives the same codes and exactly the reconstructed floats multiplied by that power
of two.  Data around zero, nearest and stochastic rounding (x86 nearest exclusion as in C71). -/
theorem C104_rescaled_workflow {e : Nat} {c2 c2' : Ctx} {o2 o2' : Nat} {n0 n0' : Mem} (h : PArgs ft x n blocks dt) (h' : PArgs ft' x' n blocks' dt)
    (hs : Sees isa ft x n blocks) (hs' : Sees isa' ft' x' n blocks') (ha : Around ft x n lo hi) (hf' : AllFin ft' x' n) (hnar : (hi - lo) * 2 ^ e ≤ 2 ^ 94)
    (hv : ∀ i, i < n → (elem ft'.dtype x'.data 0 i).toRat = (elem ft.dtype x.data 0 i).toRat * 2 ^ e)
    (hq : QArgs c.threads x ft.dtype dt n) (hq' : QArgs c'.threads x' ft'.dtype dt n) (h2 : Sizes n c2.threads) (h2' : Sizes n c2'.threads) (hτ : Threshold mode τ) :
    ∃ s s' z, computeQuantConfigFromData isa ft x blocks dt = .ret (s, z) ∧ computeQuantConfigFromData isa' ft' x' blocks' dt = .ret (s', z) ∧
      (Plain c x ft.dtype dt n s z mode → Plain c' x' ft'.dtype dt n s' z mode →
      Always NoFault (quantize c x ft.dtype o (bytes dt.bits n) dt s z mode τ) (span o (bytes dt.bits n)) m0 (fun m =>
        Always NoFault (quantize c' x' ft'.dtype o' (bytes dt.bits n) dt s' z mode τ) (span o' (bytes dt.bits n)) m0' (fun m' =>
          (∀ i, i < n → code dt.bits m' o' i = code dt.bits m o i) ∧
          ∀ sz, bytes dt.bits n ≤ sz → Readable dt .f32 n sz →
            Always NoFault (dequantize c2 ⟨sz, fun a => m (o + a)⟩ (bytes dt.bits n) dt o2 (4 * n) .f32 s z .set) (span o2 (4 * n)) n0 (fun d =>
              Always NoFault (dequantize c2' ⟨sz, fun a => m' (o' + a)⟩ (bytes dt.bits n) dt o2' (4 * n) .f32 s' z .set) (span o2' (4 * n)) n0' (fun d' =>
                ∀ i, i < n → (f32At d' (o2' + 4 * i)).toRat = (f32At d (o2 + 4 * i)).toRat * 2 ^ e))))) := by
  have ha' := around_scale ha hf' hnar hv
  obtain ⟨s, z, E, f1', g1, g2, _, A, B, hc⟩ := computed_step h hs ha
  obtain ⟨s', z', E', f2', g1', g2', hnear', A', B', hc'⟩ := computed_step h' hs' ha'
  have hw : (2 ^ dt.bits - 1) / 2 ^ 125 ≤ hi - lo := by
    have hQ2 : (2:ℚ) ^ dt.bits - 1 ≤ 255 := by exact_mod_cast (qmax_bounds h.quant).2
    refine le_trans (div_le_div_of_nonneg_right hQ2 (by positivity)) (le_trans (by norm_num) ha.wide)
  obtain ⟨t, t', y, F, F', k1, k2, k3, k4⟩ := C104_rescaled_params h h' ha.fin hf' hs hs' ha.range hw hv
  rw [E] at F; rw [E'] at F'
  injection F with F; injection F' with F'
  obtain ⟨rfl, rfl⟩ := Prod.mk.inj F
  obtain ⟨rfl, rfl⟩ := Prod.mk.inj F'
  refine ⟨s, s', z', E, E', fun hx hx' => ?_⟩
  have hQ := qmax_bounds h.quant
  have hzp := hc.zp
  have hz32 : Zp32 z' := by unfold Zp32; norm_num; omega
  have hzs : ZpSub z' := by unfold ZpSub; norm_num; omega
  have hs94 : s'.toRat ≤ 2 ^ 94 := by
    have b := (abs_le.mp hnear').2
    have b3 : step dt (lo * 2 ^ e) (hi * 2 ^ e) ≤ 2 ^ 94 / 3 := by
      unfold step
      have hQ1 : (3:ℚ) ≤ 2 ^ dt.bits - 1 := by exact_mod_cast hQ.1
      refine div_le_div₀ (by positivity) ?_ (by norm_num) hQ1
      rw [← sub_mul]; exact hnar
    have b4 : step dt (lo * 2 ^ e) (hi * 2 ^ e) / 2 ^ 23 ≤ 2 ^ 94 / 3 / 2 ^ 23 := div_le_div_of_nonneg_right b3 (by positivity)
    have : (2:ℚ) ^ 94 / 3 + 2 ^ 94 / 3 / 2 ^ 23 ≤ 2 ^ 94 := by norm_num
    linarith
  refine (C73_quantize_units (m0' := m0') (o' := o') hq hq' f1' f2' g1 (g2'.trans (by norm_num)) k4 (fun i hi => ⟨hf' i hi, hv i hi⟩) hz32 (fun i hi => ?_) hx hx').mono (fun _ h => h)
    (fun m hm => hm.mono (fun _ h => h) (fun m' hm' => ⟨hm', fun sz hsz hrd => ?_⟩))
  · obtain ⟨r1, _, r2⟩ := hc.scaled h.quant ha.fin g1 g2 hi
    exact defined_of r1 r2 ⟨hzp.1, by omega⟩ hτ
  · refine C73_dequantize_units (x' := ⟨sz, fun a => m' (o' + a)⟩) ⟨h.quant, rfl, hsz, h2⟩ hrd ⟨h.quant, rfl, hsz, h2'⟩ hrd (fun i hi => ?_) hzs f1' f2' g1 hs94 k4
    have := hm' i hi
    unfold code at this ⊢
    simpa only [Nat.zero_add] using this

/-- `C104_rescaled_workflow` applied to a concrete case. -/
example := C104_rescaled_workflow (isa := .avx512f) (isa' := .neon) (ft := .f32) (ft' := .f32) (x := Ex.many) (x' := Ex.many8) (n := 70) (blocks := Ex.blocks)
    (blocks' := Ex.blocks) (dt := .uint8) (e := 3) (lo := -25 / 4) (hi := 25 / 4) (c := Ex.c1) (c' := Ex.c2) (c2 := Ex.c2) (c2' := Ex.c1) (o := 1000) (o' := 3000) (o2 := 5000) (o2' := 7000)
    (m0 := Ex.old) (m0' := Ex.old) (n0 := Ex.old) (n0' := Ex.old) (mode := .nearest) (τ := Ex.quarter)
    (h := by wit) (h' := many8_args) (hs := by wit) (hs' := sees_small many8_args (by decide) (fun h => (by cases h))) (ha := ⟨by wit, by wit, by norm_num, by norm_num, by norm_num⟩) (hf' := many8_fin) (hnar := by norm_num) (hv := by wit)
    (hq := by wit) (hq' := by wit) (h2 := by wit) (h2' := by wit) (hτ := by wit)

/-- The exclusion of `C104_rescaled_workflow` is met by this data on every kernel: no scaled value is plus or minus the float just below one half. -/
example : Plain Ex.c1 Ex.many .f32 .uint8 70 Ex.manyS 128 .nearest := Or.inr ⟨by decide, by decide +kernel⟩

end
end Verif.Props
