import Verif.Props.Examples
import Verif.Model.Suite
import Verif.Props.PipelineBf16

/-!
# The project's own accuracy tests can never fail on their data: C82
-/

namespace Verif.Props
open Spec

variable {isa : Isa} {ft : FT} {x : InBuf} {n : Nat} {blocks : List (Nat × Nat)} {dt : DType} {c c' : Ctx} {o o' : Nat} {m0 m0' : Mem}
  {τ : F32} {mode : RoundMode} {lo hi : ℚ} {op : ReduceOp} {p : F32}

/-! ## The arithmetic of the checks -/

theorem abs_val {f : Fmt} (v : Flt f) : (Flt.abs v).toRat = |v.toRat| ∧ (Flt.abs v).isFin = v.isFin := by
  constructor
  · rw [toRat_abs]; rfl
  · rfl

theorem le_fin {f : Fmt} {a b : Flt f} (ha : a.isFin = true) (hb : b.isFin = true) (h : a.toRat ≤ b.toRat) : Flt.le a b = true := by
  unfold Flt.le Flt.ge
  rw [lt_fin hb ha, (isFin_not_nan ha).1, (isFin_not_nan hb).1]
  simp [not_lt.mpr h]

theorem dequant_passes {a y : F32} {D : ℚ} (ha : a.isFin = true) (hb : (testDiff ft y p).isFin = true) (hd : |a.toRat - (testDiff ft y p).toRat| ≤ D)
    (hD : D ≤ 4) (he : D + D / 2 ^ 24 + 1 / 2 ^ 150 ≤ (dequantEps dt).toRat) (hf : (dequantEps dt).isFin = true) : dequantCheck ft dt a y p = true := by
  obtain ⟨d1, d2⟩ := flr_sum (q := a.toRat - (testDiff ft y p).toRat) (hd.trans (hD.trans (by norm_num)))
  have e : (Flt.sub a (testDiff ft y p)).toRat = flr f32 (a.toRat - (testDiff ft y p).toRat) := sub_toRat ha hb
  have hf' : (Flt.sub a (testDiff ft y p)).isFin = true := isFin_of_abs (by rw [e]; exact d2)
  obtain ⟨v1, v2⟩ := abs_val (Flt.sub a (testDiff ft y p))
  obtain ⟨w1, w2⟩ := cvt64_fin (a := Flt.abs (Flt.sub a (testDiff ft y p))) (by rw [v2]; exact hf')
  refine le_fin w2 hf ?_
  rw [w1, v1, e]
  set q := a.toRat - (testDiff ft y p).toRat
  have h1 := abs_add_le (flr f32 q - q) q
  rw [sub_add_cancel] at h1
  have h2 : |q| / 2 ^ 24 ≤ D / 2 ^ 24 := div_le_div_of_nonneg_right hd (by positivity)
  linarith

theorem flr64_sum {q : ℚ} (h : |q| ≤ 4) : |flr f64 q - q| ≤ |q| / 2 ^ 24 + 1 / 2 ^ 150 ∧ |flr f64 q| < 2 ^ f64.emax := by
  have hfl : fl f64 |q| < 2 ^ f64.emax := by
    apply fl_fin (abs_nonneg _); rw [emax_f64]
    exact h.trans ((show (4:ℚ) ≤ 2 ^ 2 by norm_num).trans (pow_le_pow_right₀ (by norm_num) (by norm_num)))
  refine ⟨?_, by rw [abs_flr]; exact hfl⟩
  refine (flr_err hfl).trans (max_le ?_ ?_)
  · rw [unit_f64]
    have a1 : (1:ℚ) / 2 ^ (1074 + 1) ≤ 1 / 2 ^ 150 := one_div_le_one_div_of_le (by positivity) (pow_le_pow_right₀ (by norm_num) (by norm_num))
    have a2 : 0 ≤ |q| / 2 ^ 24 := by positivity
    linarith
  · have a1 : |q| / 2 ^ (f64.mb + 1) ≤ |q| / 2 ^ 24 := div_le_div_of_nonneg_left (abs_nonneg _) (by positivity) (pow_le_pow_right₀ (by norm_num) (by decide))
    have a2 : (0:ℚ) ≤ 1 / 2 ^ 150 := by positivity
    linarith

theorem requant_passes {a y : F32} {D : ℚ} (ha : a.isFin = true) (hb : (testDiff ft y p).isFin = true) (hd : |a.toRat - (testDiff ft y p).toRat| ≤ D)
    (hD : D ≤ 4) (he : D + D / 2 ^ 24 + 1 / 2 ^ 150 ≤ (requantEps dt).toRat) (hf : (requantEps dt).isFin = true) : requantCheck ft dt a y p = true := by
  obtain ⟨d1, d2⟩ := flr64_sum (q := a.toRat - (testDiff ft y p).toRat) (hd.trans hD)
  obtain ⟨a1, a2⟩ := cvt64_fin ha
  obtain ⟨b1, b2⟩ := cvt64_fin hb
  have e : (Flt.sub (Flt.cvt f64 a) (Flt.cvt f64 (testDiff ft y p))).toRat = flr f64 (a.toRat - (testDiff ft y p).toRat) := by
    rw [sub_toRat a2 b2, a1, b1]
  have hf' : (Flt.sub (Flt.cvt f64 a) (Flt.cvt f64 (testDiff ft y p))).isFin = true := isFin_of_abs (by rw [e]; exact d2)
  obtain ⟨v1, v2⟩ := abs_val (Flt.sub (Flt.cvt f64 a) (Flt.cvt f64 (testDiff ft y p)))
  refine le_fin (by rw [v2]; exact hf') hf ?_
  rw [v1, e]
  set q := a.toRat - (testDiff ft y p).toRat
  have h1 := abs_add_le (flr f64 q - q) q
  rw [sub_add_cancel] at h1
  have h2 : |q| / 2 ^ 24 ≤ D / 2 ^ 24 := div_le_div_of_nonneg_right hd (by positivity)
  linarith

/-- Relative error of one subtraction in the element type. -/
def unitErr : FT → ℚ
  | .f32 => 1 / 2 ^ 20
  | .bf16 => 1 / 254

theorem testDiff_near {y : F32} {v E : ℚ} (hy : y.isFin = true) (hp : p.isFin = true) (hE : |y.toRat - (p.toRat + v)| ≤ E) (hE2 : E ≤ 4) (hv : |v| ≤ 1) :
    (testDiff ft y p).isFin = true ∧ |v - (testDiff ft y p).toRat| ≤ E + (1 + E) * unitErr ft + 1 / 2 ^ 100 := by
  have e : (Flt.sub y p).toRat = flr f32 (y.toRat - p.toRat) := sub_toRat hy hp
  have hq : |y.toRat - p.toRat| ≤ 1 + E := by
    have h := abs_add_le (y.toRat - (p.toRat + v)) v
    rw [show y.toRat - (p.toRat + v) + v = y.toRat - p.toRat by ring] at h
    linarith
  have hE0 : 0 ≤ E := (abs_nonneg _).trans hE
  have tri : ∀ b : ℚ, |v - b| ≤ |b - (y.toRat - p.toRat)| + |y.toRat - (p.toRat + v)| := fun b => by
    have h := abs_add_le (b - (y.toRat - p.toRat)) (y.toRat - (p.toRat + v))
    rw [show b - (y.toRat - p.toRat) + (y.toRat - (p.toRat + v)) = b - v by ring, abs_sub_comm b] at h
    exact h
  cases ft
  · obtain ⟨d1, d2⟩ := flr_sum (q := y.toRat - p.toRat) (hq.trans (by norm_num; linarith))
    refine ⟨isFin_of_abs (by show |(Flt.sub y p).toRat| < _; rw [e]; exact d2), ?_⟩
    show |v - (Flt.sub y p).toRat| ≤ _
    refine (tri _).trans ?_
    rw [e]
    show _ ≤ E + (1 + E) * (1 / 2 ^ 20) + 1 / 2 ^ 100
    have h2 : |y.toRat - p.toRat| / 2 ^ 24 ≤ (1 + E) / 2 ^ 24 := div_le_div_of_nonneg_right hq (by positivity)
    have h3 : (1:ℚ) / 2 ^ 150 ≤ 1 / 2 ^ 100 := by norm_num
    have h4 : (1 + E) / 2 ^ 24 ≤ (1 + E) * (1 / 2 ^ 20) := by linarith
    linarith
  · have hs : y.toRat + p.negate.toRat = y.toRat - p.toRat := by rw [negate_toRat]; ring
    obtain ⟨g1, g2⟩ := sum16_near (u := y) (v := p.negate) hy (by rw [negate_isFin]; exact hp) (by rw [hs]; exact hq.trans (by norm_num; linarith))
    rw [hs] at g2
    refine ⟨g1, ?_⟩
    refine (tri _).trans ?_
    show _ ≤ E + (1 + E) * (1 / 254) + 1 / 2 ^ 100
    change |(testDiff .bf16 y p).toRat - (y.toRat - p.toRat)| ≤ _ at g2
    have h2 : |y.toRat - p.toRat| / 255 ≤ (1 + E) / 255 := div_le_div_of_nonneg_right hq (by positivity)
    have h3 : (1:ℚ) / 2 ^ 133 ≤ 1 / 2 ^ 100 := by norm_num
    linarith

/-! ## The tests -/

/-- Data like that of the tests: finite values in `[-1, 1]`, some `≤ 0` and some `≥ 0`, not all (nearly) equal. -/
structure TestData (ft : FT) (x : InBuf) (n : Nat) (lo hi : ℚ) : Prop where
  around : Around ft x n lo hi
  unit : -1 ≤ lo ∧ hi ≤ 1

/-- The output vector filled with `prev`: any value in `[-1, 1]` for ADD, `0` for SET. -/
structure Filled (ft : FT) (op : ReduceOp) (m : Mem) (o n : Nat) (prev : F32) : Prop where
  fill : ∀ i, i < n → elem ft.dtype m o i = prev
  fin : prev.isFin = true
  le : |prev.toRat| ≤ 1
  set : op = .set → prev.toRat = 0

/-- Bound on the error of an element, per type. -/
def worst (ft : FT) (dt : DType) : ℚ :=
  match ft with
  | .f32 => 2 / (2 ^ dt.bits - 1) * (1 + 1 / 2 ^ 11) + 1 / 2 ^ 23
  | .bf16 => 2 / (2 ^ dt.bits - 1) * (1 + 1 / 32) + 1 / 126 + 2 / 255

theorem TestData.step (h : TestData ft x n lo hi) (hdt : dt.isQuant = true) : step dt lo hi ≤ 2 / (2 ^ dt.bits - 1) := by
  have hQ1 : (3:ℚ) ≤ 2 ^ dt.bits - 1 := by exact_mod_cast (qmax_bounds hdt).1
  unfold Props.step
  exact div_le_div_of_nonneg_right (by linarith [h.unit.1, h.unit.2]) (by linarith)

theorem TestData.le (h : TestData ft x n lo hi) {i : Nat} (hi' : i < n) : |(elem ft.dtype x.data 0 i).toRat| ≤ 1 := by
  have g1 := h.around.range.1.2 ⟨i, hi', rfl⟩
  have g2 := h.around.range.2.2 ⟨i, hi', rfl⟩
  rw [abs_le]
  constructor <;> linarith [h.unit.1, h.unit.2]

theorem worst_f32 {y : F32} {v q : ℚ} (hS : 0 < step dt lo hi) (hst : step dt lo hi ≤ 2 / (2 ^ dt.bits - 1)) (hv : |q| ≤ 2)
    (h : |y.toRat - v| ≤ step dt lo hi * (tol mode + 1 / 2 ^ 11) + |q| / 2 ^ 24) : |y.toRat - v| ≤ worst .f32 dt := by
  refine h.trans ?_
  show _ ≤ 2 / (2 ^ dt.bits - 1) * (1 + 1 / 2 ^ 11) + 1 / 2 ^ 23
  have t1 := tol_le (mode := mode)
  have t0 := half_le_tol (mode := mode)
  have h1 : step dt lo hi * (tol mode + 1 / 2 ^ 11) ≤ 2 / (2 ^ dt.bits - 1) * (1 + 1 / 2 ^ 11) :=
    mul_le_mul hst (by linarith) (by norm_num; linarith) (hS.le.trans hst)
  linarith

theorem worst_bf16 {y : F32} {v q r : ℚ} (hS : 0 < step dt lo hi) (hst : step dt lo hi ≤ 2 / (2 ^ dt.bits - 1)) (hr : |r| ≤ 1) (hv : |q| ≤ 2)
    (h : |y.toRat - v| ≤ step dt lo hi * (tol mode + 1 / 32) + |r| / 126 + |q| / 255) : |y.toRat - v| ≤ worst .bf16 dt := by
  refine h.trans ?_
  show _ ≤ 2 / (2 ^ dt.bits - 1) * (1 + 1 / 32) + 1 / 126 + 2 / 255
  have t1 := tol_le (mode := mode)
  have t0 := half_le_tol (mode := mode)
  have h1 : step dt lo hi * (tol mode + 1 / 32) ≤ 2 / (2 ^ dt.bits - 1) * (1 + 1 / 32) :=
    mul_le_mul hst (by linarith) (by norm_num; linarith) (hS.le.trans hst)
  linarith

theorem dequantEps_val : (dequantEps .uint2).toRat = 2 ∧ (dequantEps .uint4).toRat = 13421773 / 2 ^ 26 ∧ (dequantEps .uint8).toRat = 3602879701896397 / 2 ^ 56 ∧
    (dequantEps .uint2).isFin = true ∧ (dequantEps .uint4).isFin = true ∧ (dequantEps .uint8).isFin = true := by decide +kernel

theorem requantEps_val : (requantEps .uint2).toRat = 11744051 / 2 ^ 24 ∧ (requantEps .uint4).toRat = 13421773 / 2 ^ 26 ∧ (requantEps .uint8).toRat = 13421773 / 2 ^ 27 ∧
    (requantEps .uint2).isFin = true ∧ (requantEps .uint4).isFin = true ∧ (requantEps .uint8).isFin = true := by decide +kernel

/-- Extra error tolerated for uint2 in test/dequant.cpp. -/
def extra : DType → ℚ
  | .uint2 => 1
  | _ => 0

theorem extra_nonneg : 0 ≤ extra dt := by cases dt <;> norm_num [extra]

theorem dequant_ok {a y : F32} (hdt : dt.isQuant = true) (ha : a.isFin = true) (ha1 : |a.toRat| ≤ 1) (hp : p.isFin = true) (hy : y.isFin = true)
    (h : |y.toRat - (p.toRat + a.toRat)| ≤ worst ft dt + extra dt) : dequantCheck ft dt a y p = true := by
  obtain ⟨e2, e4, e8, f2, f4, f8⟩ := dequantEps_val
  have hw : worst ft dt + extra dt ≤ 4 := by cases ft <;> cases dt <;> first | exact absurd hdt (by decide) | norm_num [worst, extra, DType.bits]
  obtain ⟨g1, g2⟩ := testDiff_near (ft := ft) hy hp h hw ha1
  refine dequant_passes ha g1 g2 ?_ ?_ ?_
  · cases ft <;> cases dt <;> first | exact absurd hdt (by decide) | norm_num [worst, extra, DType.bits, unitErr]
  · cases dt <;> first | exact absurd hdt (by decide) | skip
    · rw [e2]; cases ft <;> norm_num [worst, extra, DType.bits, unitErr]
    · rw [e4]; cases ft <;> norm_num [worst, extra, DType.bits, unitErr]
    · rw [e8]; cases ft <;> norm_num [worst, extra, DType.bits, unitErr]
  · cases dt <;> first | exact absurd hdt (by decide) | skip
    · exact f2
    · exact f4
    · exact f8

theorem requant_ok {a y : F32} (hdt : dt.isQuant = true) (hb : ft = .bf16 → dt ≠ .uint2) (ha : a.isFin = true) (ha1 : |a.toRat| ≤ 1) (hp : p.isFin = true) (hy : y.isFin = true)
    (h : |y.toRat - (p.toRat + a.toRat)| ≤ worst ft dt) : requantCheck ft dt a y p = true := by
  obtain ⟨e2, e4, e8, f2, f4, f8⟩ := requantEps_val
  have hw : worst ft dt ≤ 4 := by cases ft <;> cases dt <;> first | exact absurd hdt (by decide) | norm_num [worst, DType.bits]
  obtain ⟨g1, g2⟩ := testDiff_near (ft := ft) hy hp h hw ha1
  refine requant_passes ha g1 g2 ?_ ?_ ?_
  · cases ft <;> cases dt <;> first | exact absurd hdt (by decide) | norm_num [worst, DType.bits, unitErr]
  · cases dt <;> first | exact absurd hdt (by decide) | skip
    · rw [e2]
      cases ft
      · norm_num [worst, DType.bits, unitErr]
      · exact absurd rfl (hb rfl)
    · rw [e4]; cases ft <;> norm_num [worst, DType.bits, unitErr]
    · rw [e8]; cases ft <;> norm_num [worst, DType.bits, unitErr]
  · cases dt <;> first | exact absurd hdt (by decide) | skip
    · exact f2
    · exact f4
    · exact f8

/-- C82, test/requant.cpp: for every such tensor, of any size, on every kernel, thread count and schedule, rounding mode and
threshold, the scale is positive and finite and every element passes the check. -/
theorem C82_requantize_test (h : PArgs ft x n blocks dt) (hs : Sees isa ft x n blocks) (hd : TestData ft x n lo hi)
    (hq : QArgs c.threads x ft.dtype dt n) (hτ : Threshold mode τ) (hb : ft = .bf16 → dt ≠ .uint2) (hm : Filled ft op m0 o n p) :
    ∃ s z, computeQuantConfigFromData isa ft x blocks dt = .ret (s, z) ∧ 0 < s.toRat ∧ s.isFin = true ∧
      Always NoFault (fused c x ft.dtype o (ft.size * n) dt s z mode op τ) (span o (ft.size * n)) m0 (fun m =>
        ∀ i, i < n → requantCheck ft dt (elem ft.dtype x.data 0 i) (elem ft.dtype m o i) p = true) := by
  have ha := hd.around
  obtain ⟨s, z, he, hsf, h1, -⟩ := computed_step h hs ha
  have hS := (step_bounds h.quant ha).2.2
  have hst := hd.step h.quant
  have hs0 : 0 < s.toRat := lt_of_lt_of_le (by positivity) h1
  have h64 : step dt lo hi * (tol mode + 1 / 64) ≤ step dt lo hi * (tol mode + 1 / 32) := mul_le_mul_of_nonneg_left (by norm_num) hS.le
  refine ⟨s, z, he, hs0, hsf, ?_⟩
  have hp2 : ∀ i, i < n → |p.toRat + (elem ft.dtype x.data 0 i).toRat| ≤ 2 := fun i hi => by
    have := abs_add_le p.toRat (elem ft.dtype x.data 0 i).toRat
    have := hm.le; have := hd.le hi
    linarith
  cases ft
  · obtain ⟨s', z', he', H⟩ := C80_fused (op := op) (o := o) (m0 := m0) h hs ha hq hτ (fun _ i hi => by
      have : f32At m0 (o + 4 * i) = p := hm.fill i hi
      rw [this]; exact ⟨hm.fin, hm.le.trans (by norm_num)⟩)
    obtain ⟨rfl, rfl⟩ := Prod.mk.inj (Prog.ret.inj (he.symm.trans he'))
    refine H.mono (fun _ h => h) (fun m g i hi => requant_ok h.quant hb (ha.fin i hi) (hd.le hi) hm.fin (y := f32At m (o + 4 * i)) ?_ ?_) <;>
    have g := g i hi <;> cases op
    · exact g.1
    · exact g.1
    · rw [hm.set rfl, zero_add]
      refine worst_f32 (mode := mode) (q := 0) hS hst (by norm_num) (g.2.trans ?_)
      rw [abs_zero, zero_div, add_zero]
    · have e : f32At m0 (o + 4 * i) = p := hm.fill i hi
      simp only [e] at g
      exact worst_f32 hS hst (hp2 i hi) g.2
  · obtain ⟨s', z', he', H⟩ := C81_fused_bf16 (op := op) (o := o) (m0 := m0) h hs ha hq hτ (fun _ i hi => by
      have : bf16At m0 (o + 2 * i) = p := hm.fill i hi
      rw [this]; exact ⟨hm.fin, hm.le.trans (by norm_num)⟩)
    obtain ⟨rfl, rfl⟩ := Prod.mk.inj (Prog.ret.inj (he.symm.trans he'))
    refine H.mono (fun _ h => h) (fun m g i hi => requant_ok h.quant hb (ha.fin i hi) (hd.le hi) hm.fin (y := bf16At m (o + 2 * i)) ?_ ?_) <;>
    have g := g i hi <;> cases op
    · exact g.1
    · exact g.1
    · rw [hm.set rfl, zero_add]
      refine worst_bf16 (q := 0) (r := (elem FT.bf16.dtype x.data 0 i).toRat) (mode := mode) hS hst (hd.le hi) (by norm_num) (g.2.trans ?_)
      change _ * _ + |(elem FT.bf16.dtype x.data 0 i).toRat| / 127 ≤ _
      rw [abs_zero, zero_div, add_zero]
      have := abs_nonneg (elem FT.bf16.dtype x.data 0 i).toRat
      have := h64
      linarith
    · have e : bf16At m0 (o + 2 * i) = p := hm.fill i hi
      simp only [e] at g
      exact worst_bf16 hS hst (hd.le hi) (hp2 i hi) g.2

theorem grow {y q : ℚ} (h : |y - q| ≤ worst ft dt) : |y - q| ≤ worst ft dt + extra dt := by
  have := extra_nonneg (dt := dt); linarith

/-- C82, test/dequant.cpp: the same for quantize followed by dequantize.  For uint2 the tolerance 2.0 also accepts the
overwritten tail of an ADD (`C10_false_uint2_tail`): the test cannot see that defect. -/
theorem C82_dequantize_test (h : PArgs ft x n blocks dt) (hs : Sees isa ft x n blocks) (hd : TestData ft x n lo hi)
    (hq : QArgs c.threads x ft.dtype dt n) (h' : Sizes n c'.threads) (hτ : Threshold mode τ) (hm : Filled ft op m0' o' n p) :
    ∃ s z, computeQuantConfigFromData isa ft x blocks dt = .ret (s, z) ∧ 0 < s.toRat ∧ s.isFin = true ∧
      Always NoFault (quantize c x ft.dtype o (bytes dt.bits n) dt s z mode τ) (span o (bytes dt.bits n)) m0 (fun m =>
        ∀ sz, bytes dt.bits n ≤ sz → Readable dt ft.dtype n sz →
          Always NoFault (dequantize c' ⟨sz, fun a => m (o + a)⟩ (bytes dt.bits n) dt o' (ft.size * n) ft.dtype s z op) (span o' (ft.size * n)) m0' (fun m' =>
            ∀ i, i < n → dequantCheck ft dt (elem ft.dtype x.data 0 i) (elem ft.dtype m' o' i) p = true)) := by
  have ha := hd.around
  obtain ⟨s, z, he, hsf, h1, h2, hn, A, B, hc⟩ := computed_step h hs ha
  obtain ⟨b1, b2, hS⟩ := step_bounds h.quant ha
  have hst := hd.step h.quant
  have hs0 : 0 < s.toRat := lt_of_lt_of_le (by positivity) h1
  have h64 : step dt lo hi * (tol mode + 1 / 64) ≤ step dt lo hi * (tol mode + 1 / 32) := mul_le_mul_of_nonneg_left (by norm_num) hS.le
  refine ⟨s, z, he, hs0, hsf, ?_⟩
  have hp2 : ∀ i, i < n → |p.toRat + (elem ft.dtype x.data 0 i).toRat| ≤ 2 := fun i hi => by
    have := abs_add_le p.toRat (elem ft.dtype x.data 0 i).toRat
    have := hm.le; have := hd.le hi
    linarith
  cases ft
  · cases op
    · obtain ⟨s', z', he', H⟩ := C80_roundtrip (c := c) (c' := c') (o := o) (o' := o') (m0 := m0) (m0' := m0') (mode := mode) (τ := τ) h hs ha hq h' hτ
      obtain ⟨rfl, rfl⟩ := Prod.mk.inj (Prog.ret.inj (he.symm.trans he'))
      refine H.mono (fun _ h => h) (fun m g sz hsz hrd => (g sz hsz hrd).mono (fun _ h => h) (fun m' g i hi =>
        dequant_ok h.quant (ha.fin i hi) (hd.le hi) hm.fin (y := f32At m' (o' + 4 * i)) (g i hi).1 (grow ?_)))
      rw [hm.set rfl, zero_add]
      refine worst_f32 (mode := mode) (q := 0) hS hst (by norm_num) ((g i hi).2.trans ?_)
      rw [abs_zero, zero_div, add_zero]
    · refine (codes_near hc hq ha.fin h1 h2 hτ).mono (fun _ h => h) (fun m g sz hsz hrd => ?_)
      have hQ := qmax_bounds h.quant
      have hzp := hc.zp
      have hzs : ZpSub z := by unfold ZpSub; norm_num; omega
      refine (dequantize_vals (ft := .f32) (op := .add) (c := c') ⟨h.quant, rfl, hsz, h'⟩ hrd hzs).mono (fun _ h => h) (fun m' hm' i hi => ?_)
      have ec : code dt.bits (fun a => m (o + a)) 0 i = code dt.bits m o i := code_shift _ _ _ _
      obtain ⟨k1, k2⟩ := g i hi
      have eo : f32At m0' (o' + 4 * i) = p := hm.fill i hi
      obtain ⟨b, _, e⟩ := hm'.1 i hi
      rw [show (InBuf.data ⟨sz, fun a => m (o + a)⟩) = fun a => m (o + a) from rfl, ec, dqF_eq (dt := dt) hzs (code_lt256 h.quant _ _ _), eo] at e
      by_cases ht : dt = .uint2 ∧ n / 4 * 4 ≤ i
      · rw [if_pos ht] at e
        have e : f32At m' (o' + 4 * i) = dequant s z (code dt.bits m o i) := e
        obtain ⟨g1, g2⟩ := within_of (mode := mode) hS hn (near_of k1 hsf h1 h2 k2)
        refine dequant_ok h.quant (ha.fin i hi) (hd.le hi) hm.fin (y := f32At m' (o' + 4 * i)) (by rw [e]; exact g1) ?_
        rw [e]
        have hx : extra dt = 1 := by rw [ht.1]; rfl
        have w := worst_f32 (mode := mode) (q := 0) hS hst (by norm_num) (g2.trans (by rw [abs_zero, zero_div, add_zero]))
        have tr := abs_sub ((Flt.mul (Flt.ofInt f32 (((code dt.bits m o i : ℕ) : ℤ) - z)) s).toRat - (elem FT.f32.dtype x.data 0 i).toRat) p.toRat
        rw [hx]
        have e2 : (dequant s z (code dt.bits m o i)).toRat - (p.toRat + (elem FT.f32.dtype x.data 0 i).toRat) =
            (Flt.mul (Flt.ofInt f32 (((code dt.bits m o i : ℕ) : ℤ) - z)) s).toRat - (elem FT.f32.dtype x.data 0 i).toRat - p.toRat := by
          unfold dequant; ring
        rw [e2]
        have := hm.le
        linarith
      · rw [if_neg ht] at e
        have e : f32At m' (o' + 4 * i) = plus b p s z (code dt.bits m o i) := e
        obtain ⟨g1, g2⟩ := sum_of (mode := mode) b1 hS hn (plus_near (b := b) k1 hsf h1 h2 k2 hm.fin (sum_fits ha hi hS b2 hn (hm.le.trans (by norm_num))))
        refine dequant_ok h.quant (ha.fin i hi) (hd.le hi) hm.fin (y := f32At m' (o' + 4 * i)) (by rw [e]; exact g1) (grow ?_)
        rw [e]
        exact worst_f32 hS hst (hp2 i hi) g2
  · cases op
    · obtain ⟨s', z', he', H⟩ := C81_roundtrip_bf16 (c := c) (c' := c') (o := o) (o' := o') (m0 := m0) (m0' := m0') (mode := mode) (τ := τ) h hs ha hq h' hτ
      obtain ⟨rfl, rfl⟩ := Prod.mk.inj (Prog.ret.inj (he.symm.trans he'))
      refine H.mono (fun _ h => h) (fun m g sz hsz _ => (g sz hsz).mono (fun _ h => h) (fun m' g i hi =>
        dequant_ok h.quant (ha.fin i hi) (hd.le hi) hm.fin (y := bf16At m' (o' + 2 * i)) (g i hi).1 (grow ?_)))
      rw [hm.set rfl, zero_add]
      refine worst_bf16 (q := 0) (r := (elem FT.bf16.dtype x.data 0 i).toRat) (mode := mode) hS hst (hd.le hi) (by norm_num) ((g i hi).2.trans ?_)
      rw [abs_zero, zero_div, add_zero]
      have := abs_nonneg (elem FT.bf16.dtype x.data 0 i).toRat
      have := h64
      linarith
    · obtain ⟨s', z', he', H⟩ := C81_accumulate_bf16 (c := c) (c' := c') (o := o) (o' := o') (m0 := m0) (m0' := m0') (mode := mode) (τ := τ) h hs ha hq h' hτ
      obtain ⟨rfl, rfl⟩ := Prod.mk.inj (Prog.ret.inj (he.symm.trans he'))
      refine H.mono (fun _ h => h) (fun m g sz hsz _ => (g sz hsz).mono (fun _ h => h) (fun m' g i hi => ?_))
      have e : bf16At m0' (o' + 2 * i) = p := hm.fill i hi
      have g := g i hi
      rw [e] at g
      have g := g hm.fin (hm.le.trans (by norm_num))
      exact dequant_ok h.quant (ha.fin i hi) (hd.le hi) hm.fin (y := bf16At m' (o' + 2 * i)) g.1 (grow (worst_bf16 hS hst (hd.le hi) (hp2 i hi) g.2))

/-- The values 0.5, -1, 0.25, 1, 0 and a vector filled with 0.1f. -/
def suiteData : InBuf := Ex.buf (Ex.words32 [0x3f000000, 0xbf800000, 0x3e800000, 0x3f800000, 0])
def suiteFill : Mem := (Ex.buf (Ex.words32 [0x3dcccccd, 0x3dcccccd, 0x3dcccccd, 0x3dcccccd, 0x3dcccccd])).data

theorem suite_ok : PArgs .f32 suiteData 5 [(0, 2), (2, 5)] .uint2 ∧ Sees .sse42 .f32 suiteData 5 [(0, 2), (2, 5)] ∧ TestData .f32 suiteData 5 (-1) 1 ∧
    QArgs 4 suiteData .f32 .uint2 5 ∧ Sizes 5 4 ∧ Threshold .stochastic Ex.quarter ∧ Filled .f32 .add suiteFill 0 5 Ex.tenth := by
  have hv : ∀ t, t < 5 → -1 ≤ (elem .f32 suiteData.data 0 t).toRat ∧ (elem .f32 suiteData.data 0 t).toRat ≤ 1 := by decide +kernel
  refine ⟨⟨rfl, by decide, rfl, by omega, rfl, by omega, rfl⟩, ?_, ⟨⟨by unfold AllFin; decide +kernel, ⟨⟨⟨1, by norm_num, by decide +kernel⟩, ?_⟩, ⟨⟨3, by norm_num, by decide +kernel⟩, ?_⟩⟩, by norm_num, by norm_num, by norm_num⟩, by norm_num⟩,
    ⟨rfl, rfl, rfl, by omega, by norm_num, by norm_num⟩, ⟨by omega, by norm_num, by norm_num⟩, ?_, ⟨by decide +kernel, by decide +kernel, by decide +kernel, (fun h => by cases h)⟩⟩
  · refine sees_small (dt := .uint2) ⟨rfl, by decide, rfl, by omega, rfl, by omega, rfl⟩ (by omega) ?_
    intro _ b hb
    simp only [List.mem_cons, List.not_mem_nil, or_false] at hb
    rcases hb with rfl | rfl <;> decide
  · rintro _ ⟨t, ht, rfl⟩; exact (hv t ht).1
  · rintro _ ⟨t, ht, rfl⟩; exact (hv t ht).2
  · unfold Threshold; decide +kernel

/-- The data 0.5, 1: no element is `≤ 0`. -/
def oneSided : InBuf := Ex.buf (Ex.words32 [0x3f000000, 0x3f800000])

/-- `1/510` rounded to float32: the scale computed for `oneSided`. -/
def oneScale : F32 := ⟨false, 0x3b008081⟩

/-- C82, the condition on the signs is needed: the test of test/dequant.cpp fails on the tensor `0.5, 1` (whose values the test's
generator can produce): the larger element comes back as 0.5. -/
theorem C82_false_one_sided :
    computeQuantConfigFromData .portable .f32 oneSided [(0, 2)] .uint8 = .ret (oneScale, 0) ∧
    Always NoFault (quantize ⟨.portable, 1, .none⟩ oneSided .f32 64 2 .uint8 oneScale 0 .nearest f0) (span 64 2) Ex.old (fun m => m 64 = 255 ∧ m 65 = 255) ∧
    Always NoFault (dequantize ⟨.portable, 1, .none⟩ (Ex.buf [255, 255]) 2 .uint8 64 8 .f32 oneScale 0 .set) (span 64 8) (fun _ => 0) (fun m =>
      dequantCheck .f32 .uint8 (elem .f32 oneSided.data 0 1) (elem .f32 m 64 1) f0 = false) := by
  refine ⟨?_, ?_, ?_⟩
  · exact (retIs_iff (by decide +kernel))
  · refine (quantize_result (dtOut := .uint8) (n := 2) (l := [255, 255]) ⟨rfl, rfl, rfl, sz 2 1⟩ (by decide +kernel)).mono (fun _ h => h) (fun m hm => ?_)
    have hm : [m 64, m 65] = [255, 255] := hm
    simp only [List.cons.injEq, and_true] at hm
    exact hm
  · refine (dequantize_result (c := ⟨.portable, 1, .none⟩) (n := 2) (o := 64) (scale := oneScale) (zp := 0) (op := .set) (m0 := fun _ => 0)
      (l := [0, 0, 0, 0x3f, 0, 0, 0, 0x3f]) ⟨rfl, rfl, by decide, sz 2 1⟩ (by unfold Readable; decide) (by decide +kernel)).mono (fun _ h => h) (fun m hm => ?_)
    have hm : [m 64, m 65, m 66, m 67, m 68, m 69, m 70, m 71] = [0, 0, 0, 0x3f, 0, 0, 0, 0x3f] := hm
    simp only [List.cons.injEq, and_true] at hm
    have e : elem .f32 m 64 1 = Ex.half := by
      show f32At m 68 = _
      unfold f32At
      simp only [Nat.reduceAdd, hm]
      decide +kernel
    rw [e]
    decide +kernel

/-- `C82_requantize_test` applied to a concrete case. -/
example := C82_requantize_test (isa := .sse42) (ft := .f32) (x := suiteData) (n := 5) (blocks := [(0, 2), (2, 5)]) (dt := .uint2)
    (c := ⟨.avx2, 4, .none⟩) (o := 0) (m0 := suiteFill) (τ := Ex.quarter) (mode := .stochastic) (lo := (-1)) (hi := 1) (op := .add) (p := Ex.tenth)
    (h := suite_ok.1) (hs := suite_ok.2.1) (hd := suite_ok.2.2.1) (hq := suite_ok.2.2.2.1) (hτ := suite_ok.2.2.2.2.2.1) (hb := by wit)
    (hm := suite_ok.2.2.2.2.2.2)

/-- `C82_dequantize_test` applied to a concrete case. -/
example := C82_dequantize_test (isa := .sse42) (ft := .f32) (x := suiteData) (n := 5) (blocks := [(0, 2), (2, 5)]) (dt := .uint2)
    (c := ⟨.avx2, 4, .none⟩) (c' := ⟨.avx2, 4, .none⟩) (o := 0) (o' := 0) (m0 := suiteFill) (m0' := suiteFill) (τ := Ex.quarter) (mode := .stochastic)
    (lo := (-1)) (hi := 1) (op := .add) (p := Ex.tenth) (h := suite_ok.1) (hs := suite_ok.2.1) (hd := suite_ok.2.2.1) (hq := suite_ok.2.2.2.1)
    (h' := suite_ok.2.2.2.2.1) (hτ := suite_ok.2.2.2.2.2.1) (hm := suite_ok.2.2.2.2.2.2)

end Verif.Props
