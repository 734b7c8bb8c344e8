import Verif.Props.Examples
import Verif.Props.Reduce

/-!
# The whole workflow, in terms of the data: C80

Parameters are computed from the data; no hypothesis about scale or zero point is left.
-/

namespace Verif.Props
open Spec

variable {isa : Isa} {ft : FT} {x : InBuf} {n : Nat} {blocks : List (Nat × Nat)} {dt : DType} {c c' : Ctx} {o o' : Nat} {m0 m0' : Mem}
  {τ : F32} {mode : RoundMode} {lo hi : ℚ}

/-- Data around zero: all finite, `lo` the least and `hi` the greatest value, `lo ≤ 0 ≤ hi`, and a width in `[2^-100, 2^100]`. -/
structure Around (ft : FT) (x : InBuf) (n : Nat) (lo hi : ℚ) : Prop where
  fin : AllFin ft x n
  range : Range ft.dtype x.data n lo hi
  zero : lo ≤ 0 ∧ 0 ≤ hi
  wide : 1 / 2 ^ 100 ≤ hi - lo
  narrow : hi - lo ≤ 2 ^ 100

/-- The step of an ideal grid of `2^bits` values over the range of the data. -/
def step (dt : DType) (lo hi : ℚ) : ℚ := (hi - lo) / (2 ^ dt.bits - 1)

theorem Around.pos (h : Around ft x n lo hi) : 0 < hi - lo := lt_of_lt_of_le (by positivity) h.wide

theorem Around.hn (h : Around ft x n lo hi) : 0 < n := by
  obtain ⟨⟨i, hi, _⟩, _⟩ := h.range.1
  omega

theorem step_bounds (hdt : dt.isQuant = true) (h : Around ft x n lo hi) : 1 / 2 ^ 108 ≤ step dt lo hi ∧ step dt lo hi ≤ 2 ^ 100 ∧ 0 < step dt lo hi := by
  have hQ := qmax_bounds hdt
  have hQ1 : (3:ℚ) ≤ 2 ^ dt.bits - 1 := by exact_mod_cast hQ.1
  have hQ2 : (2:ℚ) ^ dt.bits - 1 ≤ 255 := by exact_mod_cast hQ.2
  have hp := h.pos
  unfold step
  refine ⟨?_, ?_, div_pos hp (by linarith)⟩
  · rw [le_div_iff₀ (by linarith)]
    refine le_trans ?_ h.wide
    calc (1:ℚ) / 2 ^ 108 * (2 ^ dt.bits - 1) ≤ 1 / 2 ^ 108 * 255 := mul_le_mul_of_nonneg_left hQ2 (by positivity)
      _ ≤ _ := by norm_num
  · rw [div_le_iff₀ (by linarith)]
    refine h.narrow.trans ?_
    exact le_mul_of_one_le_right (by positivity) (by linarith)

/-- The computed parameters: scale one ideal step up to float rounding, and codes that cover the data. -/
theorem computed_step (h : PArgs ft x n blocks dt) (hs : Sees isa ft x n blocks) (ha : Around ft x n lo hi) :
    ∃ s z, computeQuantConfigFromData isa ft x blocks dt = .ret (s, z) ∧ s.isFin = true ∧ 1 / 2 ^ 126 ≤ s.toRat ∧ s.toRat ≤ 2 ^ 119 ∧
      |s.toRat - step dt lo hi| ≤ step dt lo hi / 2 ^ 23 ∧ ∃ A B, Covered ft x n dt s z A B := by
  obtain ⟨b1, b2, b3⟩ := step_bounds h.quant ha
  have hQ := qmax_bounds h.quant
  have hd1 : 1 / 2 ^ 149 ≤ hi - lo := le_trans (by norm_num) ha.wide
  have hd2 : hi - lo ≤ 2 ^ 129 := ha.narrow.trans (by norm_num)
  obtain ⟨_, k1, k2⟩ := scale64_bounds (bits := dt.bits) hQ hd1 hd2
  have hne : ¬ hi = lo := by have := ha.pos; intro e; rw [e] at this; linarith
  have he := C22_true_range_partial (isa := isa) h ha.hn ha.fin hs ha.range
  have e1 : (params dt.bits lo hi).1.toRat = flr f32 (scale64 dt.bits lo hi) := by
    unfold params; rw [if_neg hne]; exact ofRat_flr (f := f32) _ _
  change step dt lo hi * _ ≤ _ at k1
  change _ ≤ step dt lo hi * _ at k2
  set S := step dt lo hi
  have hS : |scale64 dt.bits lo hi| ≤ 2 ^ 127 := by
    rw [abs_of_nonneg (le_trans (mul_nonneg b3.le (by norm_num)) k1)]
    calc _ ≤ S * (1 + 1 / 2 ^ 51) := k2
      _ ≤ 2 ^ 100 * 2 := mul_le_mul b2 (by norm_num) (by norm_num) (by positivity)
      _ ≤ _ := by norm_num
  obtain ⟨f1', f2'⟩ := flr_sum hS
  have hsf : (params dt.bits lo hi).1.isFin = true := isFin_of_abs (by rw [e1]; exact f2')
  have hnear : |(params dt.bits lo hi).1.toRat - S| ≤ S / 2 ^ 23 := by
    rw [e1]
    have a1 : |scale64 dt.bits lo hi| ≤ S * (1 + 1 / 2 ^ 51) := by
      rw [abs_of_nonneg (le_trans (mul_nonneg b3.le (by norm_num)) k1)]; exact k2
    have a2 : (1:ℚ) / 2 ^ 150 ≤ S / 2 ^ 40 := by
      rw [le_div_iff₀ (by positivity)]
      exact le_trans (by norm_num) b1
    have a3 : |scale64 dt.bits lo hi| / 2 ^ 24 ≤ S * (1 + 1 / 2 ^ 51) / 2 ^ 24 := div_le_div_of_nonneg_right a1 (by positivity)
    rw [abs_le] at f1' ⊢
    have e51 : S * (1 + 1 / 2 ^ 51) = S + S / 2 ^ 51 := by ring
    have e51' : S * (1 - 1 / 2 ^ 51) = S - S / 2 ^ 51 := by ring
    have e24 : S * (1 + 1 / 2 ^ 51) / 2 ^ 24 = S / 2 ^ 24 + S / 2 ^ 75 := by ring
    rw [e51] at k2; rw [e51'] at k1; rw [e24] at a3
    have e3 : S / 2 ^ 24 + S / 2 ^ 75 + S / 2 ^ 40 + S / 2 ^ 51 ≤ S / 2 ^ 23 := by
      have : S / 2 ^ 24 + S / 2 ^ 75 + S / 2 ^ 40 + S / 2 ^ 51 = S * (1 / 2 ^ 24 + 1 / 2 ^ 75 + 1 / 2 ^ 40 + 1 / 2 ^ 51) := by ring
      rw [this]
      have h2 : S / 2 ^ 23 = S * (1 / 2 ^ 23) := by ring
      rw [h2]
      exact mul_le_mul_of_nonneg_left (by norm_num) b3.le
    constructor <;> linarith [f1'.1, f1'.2]
  have hn2 := abs_le.mp hnear
  have q1 : 1 / 2 ^ 126 ≤ (params dt.bits lo hi).1.toRat := by
    have h1 : S - S / 2 ^ 23 ≤ (params dt.bits lo hi).1.toRat := by linarith [hn2.1]
    have h2 : S * (1 / 2) ≤ S - S / 2 ^ 23 := by
      have : S - S / 2 ^ 23 = S * (1 - 1 / 2 ^ 23) := by ring
      rw [this]; exact mul_le_mul_of_nonneg_left (by norm_num) b3.le
    have h3 : (1:ℚ) / 2 ^ 126 ≤ 1 / 2 ^ 108 * (1 / 2) := by norm_num
    have h4 : (1:ℚ) / 2 ^ 108 * (1 / 2) ≤ S * (1 / 2) := mul_le_mul_of_nonneg_right b1 (by norm_num)
    linarith
  have q2 : (params dt.bits lo hi).1.toRat ≤ 2 ^ 119 := by
    have h1 : (params dt.bits lo hi).1.toRat ≤ S + S / 2 ^ 23 := by linarith [hn2.2]
    have h2 : S + S / 2 ^ 23 ≤ S * 2 := by
      have : S + S / 2 ^ 23 = S * (1 + 1 / 2 ^ 23) := by ring
      rw [this]; exact mul_le_mul_of_nonneg_left (by norm_num) b3.le
    have h3 : S * 2 ≤ 2 ^ 100 * 2 := mul_le_mul_of_nonneg_right b2 (by norm_num)
    have h4 : (2:ℚ) ^ 100 * 2 ≤ 2 ^ 119 := by norm_num
    linarith
  exact ⟨_, _, he, hsf, q1, q2, hnear, covered_computed h ha.hn ha.fin hs ha.range ha.zero he q1 q2⟩

/-- `y` is a finite float within `steps` ideal steps of `v` (up to 2^-11 of a step). -/
def Within (steps : ℚ) (dt : DType) (lo hi v : ℚ) (y : F32) : Prop :=
  y.isFin = true ∧ |y.toRat - v| ≤ step dt lo hi * (steps + 1 / 2 ^ 11)

/-- The same for a sum: the addition is rounded once more, hence `|v| / 2^24`. -/
def WithinSum (steps : ℚ) (dt : DType) (lo hi v : ℚ) (y : F32) : Prop :=
  y.isFin = true ∧ |y.toRat - v| ≤ step dt lo hi * (steps + 1 / 2 ^ 11) + |v| / 2 ^ 24

theorem tol_le : tol mode ≤ 1 := by cases mode <;> unfold tol <;> norm_num

theorem err_step {s : F32} (hS : 0 < step dt lo hi) (hs : |s.toRat - step dt lo hi| ≤ step dt lo hi / 2 ^ 23) :
    s.toRat * (tol mode + 1 / 2 ^ 12) ≤ step dt lo hi * (tol mode + 1 / 2 ^ 12 + 1 / 2 ^ 22) := by
  set S := step dt lo hi
  have h1 : s.toRat ≤ S + S / 2 ^ 23 := by linarith [(abs_le.mp hs).2]
  have h2 : 0 ≤ tol mode + 1 / 2 ^ 12 := by
    have := half_le_tol (mode := mode)
    have : (0:ℚ) ≤ 1 / 2 ^ 12 := by positivity
    linarith
  have h3 := tol_le (mode := mode)
  calc s.toRat * (tol mode + 1 / 2 ^ 12) ≤ (S + S / 2 ^ 23) * (tol mode + 1 / 2 ^ 12) := mul_le_mul_of_nonneg_right h1 h2
    _ = S * (tol mode + 1 / 2 ^ 12) + S * ((tol mode + 1 / 2 ^ 12) / 2 ^ 23) := by ring
    _ ≤ S * (tol mode + 1 / 2 ^ 12) + S * (1 / 2 ^ 22) := by
      have : (tol mode + 1 / 2 ^ 12) / 2 ^ 23 ≤ 1 / 2 ^ 22 := by
        rw [div_le_iff₀ (by positivity)]
        have : (1:ℚ) / 2 ^ 22 * 2 ^ 23 = 2 := by norm_num
        rw [this]
        have : (1:ℚ) / 2 ^ 12 ≤ 1 := by norm_num
        linarith
      have := mul_le_mul_of_nonneg_left this hS.le
      linarith
    _ = _ := by ring

theorem within_of {s y v : F32} (hS : 0 < step dt lo hi) (hs : |s.toRat - step dt lo hi| ≤ step dt lo hi / 2 ^ 23)
    (h : y.isFin = true ∧ |y.toRat - v.toRat| ≤ s.toRat * (tol mode + 1 / 2 ^ 12)) : Within (tol mode) dt lo hi v.toRat y := by
  refine ⟨h.1, h.2.trans ((err_step hS hs).trans ?_)⟩
  apply mul_le_mul_of_nonneg_left _ hS.le
  have : (1:ℚ) / 2 ^ 12 + 1 / 2 ^ 22 ≤ 1 / 2 ^ 11 := by norm_num
  linarith

theorem sum_of {s y : F32} {v : ℚ} (b1 : 1 / 2 ^ 108 ≤ step dt lo hi) (hS : 0 < step dt lo hi) (hs : |s.toRat - step dt lo hi| ≤ step dt lo hi / 2 ^ 23)
    (h : y.isFin = true ∧ |y.toRat - v| ≤ s.toRat * (tol mode + 1 / 2 ^ 12) + (|v| + s.toRat * (tol mode + 1 / 2 ^ 12)) / 2 ^ 24 + 1 / 2 ^ 150) :
    WithinSum (tol mode) dt lo hi v y := by
  refine ⟨h.1, h.2.trans ?_⟩
  have k := err_step (mode := mode) hS hs
  set S := step dt lo hi
  set E := s.toRat * (tol mode + 1 / 2 ^ 12)
  have k2 : S * (tol mode + 1 / 2 ^ 12 + 1 / 2 ^ 22) ≤ S * 2 := by
    apply mul_le_mul_of_nonneg_left _ hS.le
    have := tol_le (mode := mode)
    have : (1:ℚ) / 2 ^ 12 + 1 / 2 ^ 22 ≤ 1 := by norm_num
    linarith
  have k3 : (1:ℚ) / 2 ^ 150 ≤ S * (1 / 2 ^ 40) := by
    calc (1:ℚ) / 2 ^ 150 ≤ 1 / 2 ^ 108 * (1 / 2 ^ 40) := by norm_num
      _ ≤ _ := mul_le_mul_of_nonneg_right b1 (by positivity)
  have e1 : (|v| + E) / 2 ^ 24 = |v| / 2 ^ 24 + E * (1 / 2 ^ 24) := by ring
  have k4 : E * (1 / 2 ^ 24) ≤ S * 2 * (1 / 2 ^ 24) := mul_le_mul_of_nonneg_right (k.trans k2) (by positivity)
  rw [e1]
  have e2 : S * (tol mode + 1 / 2 ^ 11) - S * (tol mode + 1 / 2 ^ 12 + 1 / 2 ^ 22) = S * (1 / 2 ^ 11 - 1 / 2 ^ 12 - 1 / 2 ^ 22) := by ring
  have k5 : S * 2 * (1 / 2 ^ 24) + S * (1 / 2 ^ 40) ≤ S * (1 / 2 ^ 11 - 1 / 2 ^ 12 - 1 / 2 ^ 22) := by
    have : S * 2 * (1 / 2 ^ 24) + S * (1 / 2 ^ 40) = S * (2 * (1 / 2 ^ 24) + 1 / 2 ^ 40) := by ring
    rw [this]
    exact mul_le_mul_of_nonneg_left (by norm_num) hS.le
  linarith

theorem Around.abs (ha : Around ft x n lo hi) {i : Nat} (hi' : i < n) : |(elem ft.dtype x.data 0 i).toRat| ≤ hi - lo := by
  have g1 := ha.range.1.2 ⟨i, hi', rfl⟩
  have g2 := ha.range.2.2 ⟨i, hi', rfl⟩
  rw [abs_le]
  constructor <;> linarith [ha.zero.1, ha.zero.2]

theorem sum_fits {s : F32} {old : ℚ} (ha : Around ft x n lo hi) {i : Nat} (hi' : i < n) (hS : 0 < step dt lo hi) (b2 : step dt lo hi ≤ 2 ^ 100)
    (hs : |s.toRat - step dt lo hi| ≤ step dt lo hi / 2 ^ 23) (ho : |old| ≤ 2 ^ 120) :
    |old + (elem ft.dtype x.data 0 i).toRat| + s.toRat * (tol mode + 1 / 2 ^ 12) ≤ 2 ^ 127 := by
  have k := err_step (mode := mode) hS hs
  have k2 : step dt lo hi * (tol mode + 1 / 2 ^ 12 + 1 / 2 ^ 22) ≤ 2 ^ 100 * 2 := by
    refine mul_le_mul b2 ?_ ?_ (by positivity)
    · have := tol_le (mode := mode)
      have : (1:ℚ) / 2 ^ 12 + 1 / 2 ^ 22 ≤ 1 := by norm_num
      linarith
    · have := half_le_tol (mode := mode)
      have : (0:ℚ) ≤ 1 / 2 ^ 12 + 1 / 2 ^ 22 := by norm_num
      linarith
  have k3 := abs_add_le old (elem ft.dtype x.data 0 i).toRat
  have k4 := ha.abs hi'
  have k5 := ha.narrow
  have : (2:ℚ) ^ 120 + 2 ^ 100 + 2 ^ 100 * 2 ≤ 2 ^ 127 := by norm_num
  linarith

/-- C80. For finite data around zero: computing parameters succeeds, and with them quantizing (either rounding mode) and
dequantizing to float32 brings every element back within half a step (nearest) or one step (stochastic) of the ideal grid
over the data's range, up to 2^-11 of a step.  Any kernels, thread counts, schedules, threshold. -/
theorem C80_roundtrip (h : PArgs ft x n blocks dt) (hs : Sees isa ft x n blocks) (ha : Around ft x n lo hi)
    (hq : QArgs c.threads x ft.dtype dt n) (h' : Sizes n c'.threads) (hτ : Threshold mode τ) :
    ∃ s z, computeQuantConfigFromData isa ft x blocks dt = .ret (s, z) ∧
      Always NoFault (quantize c x ft.dtype o (bytes dt.bits n) dt s z mode τ) (span o (bytes dt.bits n)) m0 (fun m =>
        ∀ sz, bytes dt.bits n ≤ sz → Readable dt .f32 n sz →
          Always NoFault (dequantize c' ⟨sz, fun a => m (o + a)⟩ (bytes dt.bits n) dt o' (4 * n) .f32 s z .set) (span o' (4 * n)) m0' (fun m' =>
            ∀ i, i < n → Within (tol mode) dt lo hi (elem ft.dtype x.data 0 i).toRat (f32At m' (o' + 4 * i)))) := by
  obtain ⟨s, z, he, hsf, h1, h2, hn, A, B, hc⟩ := computed_step h hs ha
  have hS := (step_bounds h.quant ha).2.2
  refine ⟨s, z, he, (codes_near hc hq ha.fin h1 h2 hτ).mono (fun _ h => h) (fun m hm sz hsz hrd => ?_)⟩
  have hQ := qmax_bounds h.quant
  have hzp := hc.zp
  have hzs : ZpSub z := by unfold ZpSub; norm_num; omega
  refine (C09_dequantize_f32_formula (c := c') ⟨h.quant, rfl, hsz, h'⟩ hrd hzs).mono (fun _ h => h) (fun m' hm' i hi => ?_)
  rw [hm' i hi]
  have e : code dt.bits (fun a => m (o + a)) 0 i = code dt.bits m o i := code_shift _ _ _ _
  rw [show (InBuf.data ⟨sz, fun a => m (o + a)⟩) = fun a => m (o + a) from rfl, e]
  obtain ⟨k1, k2⟩ := hm i hi
  exact within_of hS hn (near_of k1 hsf h1 h2 k2)

/-- `C80_roundtrip` applied to a concrete case. -/
example := C80_roundtrip (isa := .avx512f) (ft := .f32) (x := Ex.many) (n := 70) (blocks := Ex.blocks) (dt := .uint8) (c := Ex.c1) (c' := Ex.c2)
    (o := 1000) (o' := 3000) (m0 := Ex.old) (m0' := Ex.old) (τ := Ex.quarter) (mode := .nearest) (lo := (-25 / 4)) (hi := (25 / 4)) (h := by wit)
    (hs := by wit) (ha := ⟨by wit, by wit, by norm_num, by norm_num, by norm_num⟩) (hq := by wit) (h' := by wit) (hτ := by wit)

/-- C80, accumulating: with reduce operation ADD the decoded values are added to what the buffer held (finite, up to 2^120),
with the error of the round trip plus one float32 rounding.  Elements of an incomplete last uint2 group excluded
(`C10_false_uint2_tail`). -/
theorem C80_accumulate (h : PArgs ft x n blocks dt) (hs : Sees isa ft x n blocks) (ha : Around ft x n lo hi)
    (hq : QArgs c.threads x ft.dtype dt n) (h' : Sizes n c'.threads) (hτ : Threshold mode τ) :
    ∃ s z, computeQuantConfigFromData isa ft x blocks dt = .ret (s, z) ∧
      Always NoFault (quantize c x ft.dtype o (bytes dt.bits n) dt s z mode τ) (span o (bytes dt.bits n)) m0 (fun m =>
        ∀ sz, bytes dt.bits n ≤ sz → Readable dt .f32 n sz →
          Always NoFault (dequantize c' ⟨sz, fun a => m (o + a)⟩ (bytes dt.bits n) dt o' (4 * n) .f32 s z .add) (span o' (4 * n)) m0' (fun m' =>
            ∀ i, i < n → (dt = .uint2 → i < n / 4 * 4) → (f32At m0' (o' + 4 * i)).isFin = true → |(f32At m0' (o' + 4 * i)).toRat| ≤ 2 ^ 120 →
              WithinSum (tol mode) dt lo hi ((f32At m0' (o' + 4 * i)).toRat + (elem ft.dtype x.data 0 i).toRat) (f32At m' (o' + 4 * i)))) := by
  obtain ⟨s, z, he, hsf, h1, h2, hn, A, B, hc⟩ := computed_step h hs ha
  obtain ⟨b1, b2, hS⟩ := step_bounds h.quant ha
  refine ⟨s, z, he, (codes_near hc hq ha.fin h1 h2 hτ).mono (fun _ h => h) (fun m hm sz hsz hrd => ?_)⟩
  have hQ := qmax_bounds h.quant
  have hzp := hc.zp
  have hzs : ZpSub z := by unfold ZpSub; norm_num; omega
  refine (C10_add_f32_partial (c := c') ⟨h.quant, rfl, hsz, h'⟩ hrd hzs).mono (fun _ h => h) (fun m' hm' i hi ht hof hob => ?_)
  obtain ⟨b, _, e⟩ := hm' i hi ht
  have ec : code dt.bits (fun a => m (o + a)) 0 i = code dt.bits m o i := code_shift _ _ _ _
  rw [show (InBuf.data ⟨sz, fun a => m (o + a)⟩) = fun a => m (o + a) from rfl, ec] at e
  rw [e]
  obtain ⟨k1, k2⟩ := hm i hi
  exact sum_of b1 hS hn (plus_near k1 hsf h1 h2 k2 hof (sum_fits ha hi hS b2 hn hob))

/-- `C80_accumulate` applied to a concrete case. -/
example := C80_accumulate (isa := .avx512f) (ft := .f32) (x := Ex.many) (n := 70) (blocks := Ex.blocks) (dt := .uint8) (c := Ex.c1) (c' := Ex.c2)
    (o := 1000) (o' := 3000) (m0 := Ex.old) (m0' := Ex.old) (τ := Ex.quarter) (mode := .nearest) (lo := (-25 / 4)) (hi := (25 / 4)) (h := by wit)
    (hs := by wit) (ha := ⟨by wit, by wit, by norm_num, by norm_num, by norm_num⟩) (hq := by wit) (h' := by wit) (hτ := by wit)

/-- C80, fused: quantize-and-dequantize in one call (float32) has the same guarantees, for both reduce operations; no tail is
excluded. -/
theorem C80_fused {op : ReduceOp} (h : PArgs .f32 x n blocks dt) (hs : Sees isa .f32 x n blocks) (ha : Around .f32 x n lo hi)
    (hq : QArgs c.threads x .f32 dt n) (hτ : Threshold mode τ)
    (hold : op = .add → ∀ i, i < n → (f32At m0 (o + 4 * i)).isFin = true ∧ |(f32At m0 (o + 4 * i)).toRat| ≤ 2 ^ 120) :
    ∃ s z, computeQuantConfigFromData isa .f32 x blocks dt = .ret (s, z) ∧
      Always NoFault (fused c x .f32 o (4 * n) dt s z mode op τ) (span o (4 * n)) m0 (fun m =>
        ∀ i, i < n → match (generalizing := false) op with
          | .set => Within (tol mode) dt lo hi (elem .f32 x.data 0 i).toRat (f32At m (o + 4 * i))
          | .add => WithinSum (tol mode) dt lo hi ((f32At m0 (o + 4 * i)).toRat + (elem .f32 x.data 0 i).toRat) (f32At m (o + 4 * i))) := by
  obtain ⟨s, z, he, hsf, h1, h2, hn, A, B, hc⟩ := computed_step h hs ha
  obtain ⟨b1, b2, hS⟩ := step_bounds h.quant ha
  have hQ := qmax_bounds h.quant
  have hzp := hc.zp
  have hzs : ZpSub z := by unfold ZpSub; norm_num; omega
  refine ⟨s, z, he, (C32_fused_f32_formula (op := op) hq hzs (fun i hi => ?_)).mono (fun _ h => h) (fun m hm i hi => ?_)⟩
  · obtain ⟨g1, _, g2⟩ := hc.scaled h.quant ha.fin h1 h2 hi
    exact defined_of g1 g2 ⟨hzp.1, by omega⟩ hτ
  rw [hm i hi]
  set r := rounded mode τ.toRat (scaled (elem .f32 x.data 0 i) s).toRat
  have h0 : 0 ≤ sat dt.bits (r + z) := by unfold sat; omega
  have hcast : (((sat dt.bits (r + z)).toNat : ℕ) : ℤ) = sat dt.bits (r + z) := Int.toNat_of_nonneg h0
  have k1 : |(((sat dt.bits (r + z)).toNat : ℕ) : ℤ) - z| ≤ 255 := by
    rw [hcast, abs_le]; unfold sat; omega
  have k2 : |((((sat dt.bits (r + z)).toNat : ℕ) : ℤ) - z : ℤ) - (elem FT.f32.dtype x.data 0 i).toRat / s.toRat| ≤ tol mode + 1 / 2 ^ 13 + 1 / 2 ^ 25 := by
    rw [hcast]
    exact rt_core_mode (e := tol mode) hc.zp half_le_tol hc.off hc.len (hc.quo i hi) (hc.scaled h.quant ha.fin h1 h2 hi).2.1 (rounded_tol hτ _)
  cases op
  · exact within_of hS hn (near_of k1 hsf h1 h2 k2)
  · obtain ⟨hof, hob⟩ := hold rfl i hi
    exact sum_of b1 hS hn (plus_near k1 hsf h1 h2 k2 hof (sum_fits ha hi hS b2 hn hob))

/-- `C80_fused` applied to a concrete case. -/
example := C80_fused (isa := .avx512f) (x := Ex.many) (n := 70) (blocks := Ex.blocks) (dt := .uint8) (c := Ex.c1) (o := 1000) (m0 := Ex.old)
    (τ := Ex.quarter) (mode := .nearest) (lo := (-25 / 4)) (hi := (25 / 4)) (op := .add) (h := by wit) (hs := by wit)
    (ha := ⟨by wit, by wit, by norm_num, by norm_num, by norm_num⟩) (hq := by wit) (hτ := by wit) (hold := by wit)

/-- Five float32 values from -2.5 to 100 and an AVX2 search over two blocks; and what they give: uint4 steps of 41/6. -/
example : PArgs .f32 Ex.xs 5 [(0, 2), (2, 5)] .uint4 ∧ Sees .avx2 .f32 Ex.xs 5 [(0, 2), (2, 5)] ∧ Around .f32 Ex.xs 5 (-5 / 2) 100 ∧
    QArgs 3 Ex.xs .f32 .uint4 5 ∧ Sizes 5 7 ∧ Threshold .stochastic Ex.quarter ∧ step .uint4 (-5 / 2) 100 = 41 / 6 := by
  have hv : ∀ t, t < 5 → -5 / 2 ≤ (elem .f32 Ex.xs.data 0 t).toRat ∧ (elem .f32 Ex.xs.data 0 t).toRat ≤ 100 := by decide +kernel
  have hp : PArgs .f32 Ex.xs 5 [(0, 2), (2, 5)] .uint4 := ⟨rfl, by decide, rfl, by omega, rfl, by omega, rfl⟩
  refine ⟨hp, sees_small hp (by omega) (fun h => by cases h), ⟨by unfold AllFin; decide +kernel, ⟨⟨⟨1, by norm_num, by decide +kernel⟩, ?_⟩, ⟨⟨4, by norm_num, by decide +kernel⟩, ?_⟩⟩, by norm_num, by norm_num, by norm_num⟩,
    ⟨rfl, rfl, rfl, by omega, by norm_num, by norm_num⟩, ⟨by omega, by norm_num, by norm_num⟩, ?_, ?_⟩
  · rintro _ ⟨t, ht, rfl⟩; exact (hv t ht).1
  · rintro _ ⟨t, ht, rfl⟩; exact (hv t ht).2
  · unfold Threshold; decide +kernel
  · unfold step; norm_num [DType.bits]

end Verif.Props
