import Verif.Props.Symmetry
import Verif.Props.Isolate
import Verif.Props.Workflow

/-!
# Scales that are not positive and finite: C108
-/

namespace Verif.Props
open Spec

theorem add_notFin {a b : F32} (h : a.isFin = false) : (Flt.add a b).isFin = false := by
  have hn : (Flt.nan : F32).isFin = false := by decide
  have hni : a.isNaN = true ∨ a.isInf = true := by
    simp only [Flt.isFin, Flt.isNaN, Flt.isInf, decide_eq_true_eq, decide_eq_false_iff_not] at *; omega
  unfold Flt.add
  by_cases h1 : a.isNaN = true
  · rw [h1]; simpa using hn
  · have h2 := hni.resolve_left h1
    rw [Bool.not_eq_true] at h1
    rw [h1, h2]
    simp only [Bool.false_or, if_true]
    split
    · exact hn
    · split
      · exact hn
      · exact h

theorem mul_notFin {a b : F32} (h : b.isFin = false) : (Flt.mul a b).isFin = false := by
  have hn : (Flt.nan : F32).isFin = false := by decide
  have hi : ∀ s, (Flt.inf s : F32).isFin = false := by decide
  have hni : b.isNaN = true ∨ b.isInf = true := by
    simp only [Flt.isFin, Flt.isNaN, Flt.isInf, decide_eq_true_eq, decide_eq_false_iff_not] at *; omega
  unfold Flt.mul
  rcases hni with h1 | h1 <;> rw [h1] <;> simp only [Bool.or_true, if_true]
  · exact hn
  · split
    · exact hn
    · split
      · exact hn
      · exact hi _

theorem invScale_unusable {s : F32} (h : s.isZero = true ∨ s.isNaN = true) : (invScale s).isFin = false := by
  have hn : (Flt.nan : F32).isFin = false := by decide
  have hi : ∀ b, (Flt.inf b : F32).isFin = false := by decide
  unfold invScale Flt.div
  by_cases h1 : s.isNaN = true
  · rw [h1]; simpa using hn
  · have h2 := h.resolve_right h1
    have h3 : s.isInf = false := by
      have : s.mag = 0 := by simpa [Flt.isZero] using h2
      unfold Flt.isInf; rw [this]; decide
    rw [Bool.not_eq_true] at h1
    rw [h1, h2, h3]
    have a1 : f1.isNaN = false := by decide
    have a2 : f1.isInf = false := by decide
    have a3 : f1.isZero = false := by decide
    rw [a1, a2, a3]
    simpa using hi _

theorem scaled_unusable {s v : F32} (h : s.isZero = true ∨ s.isNaN = true) : (scaled v s).isFin = false := mul_notFin (invScale_unusable h)

theorem stochAdj_notFin {v τ inv : F32} (h : (Flt.mul v inv).isFin = false) : (stochAdj v τ inv).isFin = false := by
  have ht : (Flt.trunc (Flt.mul v inv)).isFin = false := by unfold Flt.trunc; rw [h]; simpa using h
  exact add_notFin ht

theorem qStoch64_notFin {qmax : Nat} {v τ inv : F32} {zp : ℤ} (h : (Flt.mul v inv).isFin = false) : qStoch64 qmax v τ inv zp = .fail .ub := by
  have : (stochAdj v τ inv).toInt? 64 = none := by unfold Flt.toInt?; rw [stochAdj_notFin h]; rfl
  unfold qStoch64 toIntAdd
  rw [this]; rfl

theorem scalarStep_notFin {ft : FT} {dt : DType} {mode : RoundMode} {scale τ : F32} {zp : ℤ} {v : F32} {q : Nat}
    (h : (Flt.mul v (invScale scale)).isFin = false) (hr : scalarStep ft dt mode scale τ zp v = .ret q) : False := by
  have k32 : ∀ {m z}, qNearest32 m v (invScale scale) z = .ret q → False := fun e => by
    have := (qNearest32_ret.mp e).1.1; rw [h] at this; cases this
  have k64 : ∀ {m z}, qNearest64 m v (invScale scale) z = .ret q → False := fun e => by
    have := (qNearest64_ret.mp e).1.1; rw [h] at this; cases this
  unfold scalarStep at hr
  split at hr
  · exact k64 hr
  · exact k32 hr
  · rw [qStoch64_notFin h] at hr; cases hr

section
variable {c c' : Ctx} {x x' : InBuf} {dtIn dtIn' dtOut dt : DType} {n o o' : Nat} {scale scale' τ : F32} {zp : ℤ} {mode : RoundMode} {m0 m0' : Mem}

/-- The kernels that convert every element with scalar code: portable builds, stochastic rounding everywhere, float32 to uint2 everywhere, and on NEON everything but
float32 to uint8. -/
def ScalarOnly (isa : Isa) (dtIn dtOut : DType) (mode : RoundMode) : Prop :=
  isa = .portable ∨ mode = .stochastic ∨ (dtIn = .f32 ∧ dtOut = .uint2) ∨ (isa = .neon ∧ ¬ (dtIn = .f32 ∧ dtOut = .uint8))

/-- C108. A zero or NaN scale is accepted, and in the scalar kernels quantizing even one element with it, of whatever value, is undefined behaviour (a conversion of an infinity or NaN to an
integer): no execution, in any schedule, gets to the end. -/
theorem C108_unusable_scale_undefined_partial (h : QArgs c.threads x dtIn dtOut n) (hn : 0 < n) (hs : scale.isZero = true ∨ scale.isNaN = true)
    (hk : ScalarOnly c.isa dtIn dtOut mode) :
    Always OnlyUb (quantize c x dtIn o (bytes dtOut.bits n) dtOut scale zp mode τ) (span o (bytes dtOut.bits n)) m0 (fun _ => False) := by
  obtain ⟨js, e, _, g⟩ := quantize_ub (o := o) (scale := scale) (τ := τ) (zp := zp) (mode := mode) h m0
  refine ⟨js, e, g.safe, g.raceFree, g.progress, g.bounded, fun k d hr hdn => ?_⟩
  obtain ⟨⟨h1, _⟩, _⟩ := g.post k d hr hdn
  obtain ⟨ft, rfl, hc⟩ := h1 0 hn
  rcases hc with hc | ⟨hm, hu, hc⟩
  · exact scalarStep_notFin (mul_notFin (invScale_unusable hs)) hc
  · rcases hk with hk | hk | ⟨a, b⟩ | ⟨a, b⟩
    · rcases hc with ⟨p, _⟩ | ⟨p, _⟩
      · exact p hk
      · rw [hk] at p; cases p
    · rw [hm] at hk; cases hk
    · refine hu ⟨?_, b⟩
      cases ft
      · rfl
      · cases a
    · rcases hc with ⟨_, p, _⟩ | ⟨_, p, q, _⟩
      · exact p a
      · exact b ⟨by rw [p]; rfl, q⟩

/-- `C108_unusable_scale_undefined_partial` applied to a concrete case (stochastic rounding on AVX-512, scale zero). -/
example := C108_unusable_scale_undefined_partial (c := Ex.c1) (x := Ex.many) (dtIn := .f32) (dtOut := .uint8) (n := 70) (o := 1000) (scale := f0) (τ := Ex.quarter)
    (zp := 64) (mode := .stochastic) (m0 := Ex.old) (h := by wit) (hn := by decide) (hs := Or.inl (by decide)) (hk := Or.inr (Or.inl rfl))

/-- C108. On the x86 kernels with nearest rounding, a call with a zero or NaN scale either runs into undefined behaviour or ends with one and the same code for all elements, whatever the data:
0, or the top code if the zero point is negative. -/
theorem C108_unusable_scale_x86_partial (h : QArgs c.threads x dtIn dtOut n) (hz : |zp| ≤ 2 ^ 22) (hk : c.isa ≠ .neon) (hu : ¬ (dtIn = .f32 ∧ dtOut = .uint2))
    (hs : scale.isZero = true ∨ scale.isNaN = true) :
    Always OnlyUb (quantize c x dtIn o (bytes dtOut.bits n) dtOut scale zp .nearest τ) (span o (bytes dtOut.bits n)) m0
      (fun m => ∀ i, i < n → code dtOut.bits m o i = if zp < 0 then 2 ^ dtOut.bits - 1 else 0) := by
  refine (C59_x86_code_of_bad_element h hz hk hu).mono (fun _ h => h) (fun m hm i hi => (hm i hi (fun hf => ?_)).2)
  have := hf.1
  rw [scaled_unusable hs] at this; cases this

/-- `C108_unusable_scale_x86_partial` applied to a concrete case. -/
example := C108_unusable_scale_x86_partial (c := Ex.c1) (x := Ex.many) (dtIn := .f32) (dtOut := .uint8) (n := 70) (o := 1000) (scale := Flt.nan) (τ := Ex.quarter)
    (zp := 64) (m0 := Ex.old) (h := by wit) (hz := by wit) (hk := by wit) (hu := by wit) (hs := Or.inr (by decide))

theorem invScale_neg (hf : scale.isFin = true) (hf' : scale'.isFin = true) (h0 : scale.toRat ≠ 0) (hs : scale'.toRat = -scale.toRat) :
    (invScale scale').toRat = -(invScale scale).toRat := by
  have e : (invScale scale).toRat = flr f32 (f1.toRat / scale.toRat) := div_toRat (by decide) hf h0
  have e' : (invScale scale').toRat = flr f32 (f1.toRat / scale'.toRat) := div_toRat (by decide) hf' (by rw [hs]; exact neg_ne_zero.mpr h0)
  rw [e, e', hs, div_neg, flr_neg]

/-- C108. A negative scale is accepted and means what it says: quantizing with scale `-s` gives the codes of the negated tensor with scale `s` (same zero point, both modes, any two
configurations). -/
theorem C108_negative_scale_quantize_partial (h : QArgs c.threads x dtIn dtOut n) (h' : QArgs c'.threads x' dtIn' dtOut n)
    (hn : ∀ i, i < n → (elem dtIn' x'.data 0 i).toRat = -(elem dtIn x.data 0 i).toRat)
    (hf : scale.isFin = true) (hf' : scale'.isFin = true) (h0 : scale.toRat ≠ 0) (hs : scale'.toRat = -scale.toRat) (hz : Zp32 zp)
    (hd : ∀ i, i < n → Defined mode τ (scaled (elem dtIn x.data 0 i) scale) zp)
    (hd' : ∀ i, i < n → Defined mode τ (scaled (elem dtIn' x'.data 0 i) scale') zp)
    (hx : Plain c x dtIn dtOut n scale zp mode) (hx' : Plain c' x' dtIn' dtOut n scale' zp mode) :
    Always NoFault (quantize c x dtIn o (bytes dtOut.bits n) dtOut scale zp mode τ) (span o (bytes dtOut.bits n)) m0 (fun m =>
      Always NoFault (quantize c' x' dtIn' o' (bytes dtOut.bits n) dtOut scale' zp mode τ) (span o' (bytes dtOut.bits n)) m0' (fun m' =>
        ∀ i, i < n → code dtOut.bits m' o' i = code dtOut.bits m o i)) := by
  refine (quantize_exact h hz hd hx).mono (fun _ h => h) (fun m hm => ?_)
  refine (quantize_exact h' hz hd' hx').mono (fun _ h => h) (fun m' hm' i hi => ?_)
  have e : (scaled (elem dtIn' x'.data 0 i) scale').toRat = (scaled (elem dtIn x.data 0 i) scale).toRat := by
    rw [scaled_toRat (defined_fin (hd i hi)), scaled_toRat (defined_fin (hd' i hi)), hn i hi, invScale_neg hf hf' h0 hs, neg_mul_neg]
  have := (hm' i hi).trans ((by rw [e] : _ = _).trans (hm i hi).symm)
  exact_mod_cast this

/-- -0.1 -/
def mtenth : F32 := ⟨true, Ex.tenth.mag⟩

/-- `C108_negative_scale_quantize_partial` applied to a concrete case. -/
example := C108_negative_scale_quantize_partial (c := Ex.c1) (c' := Ex.c2) (x := Ex.many) (x' := Ex.manyNeg) (dtIn := .f32) (dtIn' := .f32) (dtOut := .uint8) (n := 70)
    (o := 1000) (o' := 3000) (scale := Ex.tenth) (scale' := mtenth) (τ := Ex.quarter) (zp := 64) (mode := .nearest) (m0 := Ex.old) (m0' := Ex.old) (h := by wit)
    (h' := by wit) (hn := by wit) (hf := by decide) (hf' := by decide) (h0 := by decide +kernel) (hs := by decide +kernel) (hz := by wit) (hd := by wit) (hd' := by decide +kernel)
    (hx := Or.inr ⟨by decide, by decide +kernel⟩) (hx' := Or.inr ⟨by decide, by decide +kernel⟩)

/-- C108. Dequantizing with scale `-s` gives the negated values (float32, SET). -/
theorem C108_negative_scale_dequantize_partial (h : DArgs c.threads x dt .f32 n) (hr : Readable dt .f32 n x.size) (h' : Sizes n c'.threads) (hz : ZpSub zp)
    (hf : scale.isFin = true) (hf' : scale'.isFin = true) (hs : scale'.toRat = -scale.toRat) :
    Always NoFault (dequantize c x (bytes dt.bits n) dt o (4 * n) .f32 scale zp .set) (span o (4 * n)) m0 (fun m =>
      Always NoFault (dequantize c' x (bytes dt.bits n) dt o' (4 * n) .f32 scale' zp .set) (span o' (4 * n)) m0' (fun m' =>
        ∀ i, i < n → (f32At m' (o' + 4 * i)).toRat = -(f32At m (o + 4 * i)).toRat)) := by
  refine (C09_dequantize_f32_formula h hr hz).mono (fun _ h => h) (fun m hm => ?_)
  refine (C09_dequantize_f32_formula (c := c') ⟨h.inQuant, h.outFloat, h.size, h'⟩ hr hz).mono (fun _ h => h) (fun m' hm' i hi => ?_)
  rw [hm i hi, hm' i hi]
  have hq := code_lt256 h.inQuant x.data 0 i
  rw [(dequant_toRat hf hz hq).1, (dequant_toRat hf' hz hq).1, hs, mul_neg, flr_neg]

/-- `C108_negative_scale_dequantize_partial` applied to a concrete case. -/
example := C108_negative_scale_dequantize_partial (c := Ex.c1) (c' := Ex.c2) (x := Ex.codes) (dt := .uint4) (n := 139) (o := 1000) (o' := 3000)
    (scale := Ex.tenth) (scale' := mtenth) (zp := 7) (m0 := Ex.old) (m0' := Ex.old) (h := by wit) (hr := by wit) (h' := by wit)
    (hz := by wit) (hf := by decide) (hf' := by decide) (hs := by decide +kernel)

end

/-- C108 is false as a claim that such scales are rejected: quantizing sixteen elements (each 1e10) with scale zero or NaN is accepted, is undefined behaviour on the portable kernels and (scale zero) writes eight
zero bytes on AVX-512; with scale -1 the call succeeds. -/
theorem C108_false_rejected :
    Ex.result (quantize ⟨.portable, 1, .none⟩ bigs .f32 64 8 .uint4 f0 7 .nearest f0) 64 8 Ex.old = .error .ub ∧
    Ex.result (quantize ⟨.portable, 1, .none⟩ bigs .f32 64 8 .uint4 Flt.nan 7 .nearest f0) 64 8 Ex.old = .error .ub ∧
    Always NoFault (quantize ⟨.avx512f, 1, .none⟩ bigs .f32 64 8 .uint4 f0 7 .nearest f0) (span 64 8) Ex.old (fun m => ∀ i, i < 16 → code 4 m 64 i = 0) ∧
    Always NoFault (quantize ⟨.portable, 1, .none⟩ (Ex.buf (Ex.words32 [0x3f800000, 0x40000000])) .f32 64 1 .uint4 fm1 7 .nearest f0) (span 64 1) Ex.old
      (fun m => code 4 m 64 0 = 6 ∧ code 4 m 64 1 = 5) := by
  refine ⟨by decide +kernel, by decide +kernel, ?_, ?_⟩
  · refine (quantize_result (dtOut := .uint4) (n := 16) (l := List.replicate 8 0) ⟨rfl, rfl, rfl, sz 16 1⟩ (by decide +kernel)).mono (fun _ h => h) (fun m hm i hi => ?_)
    have hm : [m 64, m 65, m 66, m 67, m 68, m 69, m 70, m 71] = [0, 0, 0, 0, 0, 0, 0, 0] := hm
    simp only [List.cons.injEq, and_true] at hm
    obtain ⟨h0, h1, h2, h3, h4, h5, h6, h7⟩ := hm
    unfold code
    interval_cases i <;> simp [h0, h1, h2, h3, h4, h5, h6, h7]
  · refine (quantize_result (dtOut := .uint4) (n := 2) (l := [0x56]) ⟨rfl, rfl, rfl, sz 2 1⟩ (by decide +kernel)).mono (fun _ h => h) (fun m hm => ?_)
    have hm : [m 64] = [0x56] := hm
    simp only [List.cons.injEq, and_true] at hm
    unfold code
    simp [hm]

end Verif.Props
