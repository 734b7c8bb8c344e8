import Verif.Props.Examples
import Verif.Props.QuantNeg
import Verif.Proofs.QuantMain

/-! # C59: elements that cannot be quantized -/

namespace Verif.Props
open Spec Simd

theorem wrap32_low {x : ℤ} (h : -6442450944 ≤ x ∧ x < -2147483648) : wrap32 x = x + 4294967296 := by
  unfold wrap32
  have e : Int.bmod x (2 ^ 32) = Int.bmod (x + (4294967296 : Nat)) 4294967296 := (Int.add_bmod_right ..).symm
  rw [e]
  apply Int.bmod_eq_of_le <;> omega

theorem wrap32_high {x : ℤ} (h : 2147483648 ≤ x ∧ x < 6442450944) : wrap32 x = x - 4294967296 := by
  unfold wrap32
  have e : Int.bmod x (2 ^ 32) = Int.bmod (x - 4294967296) 4294967296 := by
    have := Int.add_bmod_right (x - 4294967296) 4294967296
    rwa [show x - 4294967296 + ((4294967296 : Nat) : ℤ) = x by omega] at this
  rw [e]
  apply Int.bmod_eq_of_le <;> omega

/-- The indefinite value `0x80000000` plus a moderate zero point. -/
theorem clamp_indef {qmax : Nat} (hq : qmax ≤ 255) {zp : ℤ} (hz : -4194304 ≤ zp ∧ zp ≤ 4194304) :
    clampI qmax (wrap32 (-2147483648 + zp)) = if zp < 0 then qmax else 0 := by
  split
  · rw [wrap32_low (by omega), clamp_big (by omega)]
  · rw [wrap32_of (by norm_num; omega), clamp_neg (by omega)]

/-- An overflowing sum of an in-range value and a moderate zero point. -/
theorem clamp_over {qmax : Nat} (hq : qmax ≤ 255) {zp r : ℤ} (hz : -4194304 ≤ zp ∧ zp ≤ 4194304) (hr : -2147483648 ≤ r ∧ r < 2147483648)
    (hs : ¬ (-2147483648 ≤ r + zp ∧ r + zp < 2147483648)) :
    clampI qmax (wrap32 (r + zp)) = if zp < 0 then qmax else 0 := by
  split
  · rw [wrap32_low (by omega), clamp_big (by omega)]
  · rw [wrap32_high (by omega), clamp_neg (by omega)]

theorem fits32 {p : F32} {zp : ℤ} (h1 : p.isFin = true) (h2 : -2147483648 ≤ rha p.toRat ∧ rha p.toRat < 2147483648)
    (h3 : -2147483648 ≤ rha p.toRat + zp ∧ rha p.toRat + zp < 2147483648) : Fits 32 p zp :=
  ⟨h1, by norm_num; exact h2, by norm_num; exact h3⟩

/-- Adding one half to a NaN or an infinity. -/
theorem vsum_notFin {p : F32} (hfin : p.isFin = false) : (vsum p).isFin = false := by
  unfold vsum
  have hni : p.isNaN = true ∨ p.isInf = true := by
    simp only [Flt.isFin, Flt.isNaN, Flt.isInf, decide_eq_true_eq, decide_eq_false_iff_not] at *; omega
  have hn : (Flt.nan : F32).isFin = false := by decide
  have hb : ∀ b : Bool, (if b then fhalf else fmhalf).isNaN = false ∧ (if b then fhalf else fmhalf).isInf = false := by decide
  generalize Flt.ge p f0 = b
  obtain ⟨b1, b2⟩ := hb b
  unfold Flt.add
  rw [b1, b2]
  by_cases h' : p.isNaN = true
  · rw [h']; simpa using hn
  · have h := hni.resolve_left h'
    rw [Bool.not_eq_true] at h'
    rw [h', h]
    simpa using hfin

theorem cvttps1_notFin {p : F32} (hfin : p.isFin = false) : cvttps1 p = -2147483648 := by
  unfold cvttps1 Flt.toInt?
  rw [hfin]; rfl

/-- Out-of-range conversions give the indefinite value. -/
theorem cvttps1_big {x : F32} (hf : x.isFin = true) (h : 2147483648 ≤ ⌊x.absRat⌋) : cvttps1 x = -2147483648 := by
  unfold cvttps1
  rw [toInt?_fin hf]
  unfold Flt.truncInt
  rw [floor_eq']
  generalize ⌊x.absRat⌋ = k at *
  cases x.neg
  · simp only [Bool.false_eq_true, if_false]
    rw [if_neg (by norm_num; omega)]
    norm_num
  · simp only [if_true]
    by_cases hk : k = 2147483648
    · subst hk; rw [if_pos (by norm_num)]
    · rw [if_neg (by norm_num; omega)]
      norm_num

/-- A large magnitude is unchanged by adding one half. -/
theorem vsum_big {p : F32} (hf : p.isFin = true) (h : (2:ℚ) ^ 24 ≤ p.absRat) : vsum p = ⟨decide (p.toRat < 0), Flt.roundAbs f32 (p.absRat + 1 / 2)⟩ ∧
    fl f32 (p.absRat + 1 / 2) = p.absRat ∧ ⌊p.absRat + 1 / 2⌋ = ⌊p.absRat⌋ := by
  have hrep := rep_absRat p
  refine ⟨vsum_eq hf, fl_half_big hrep h (isFin_iff.mp hf), ?_⟩
  obtain ⟨n, hn⟩ := hrep.int_of_ge (j := 0) (by rw [f32_mb]; norm_num at h ⊢; linarith)
  rw [hn, pow_zero, mul_one, Int.floor_natCast, Int.floor_eq_iff]
  push_cast
  constructor <;> linarith

/-- What the x86 vector code does with a scaled value outside the defined range. -/
theorem vcode_bad {qmax : Nat} (hq : qmax ≤ 255) {v inv : F32} {zp : ℤ} (hz : -4194304 ≤ zp ∧ zp ≤ 4194304) (hs : ¬ Fits 32 (Flt.mul v inv) zp) :
    vcode qmax inv zp v = if zp < 0 then qmax else 0 := by
  show clampI qmax (wrap32 (cvttps1 (vsum (Flt.mul v inv)) + zp)) = _
  generalize Flt.mul v inv = p at *
  by_cases hfin : p.isFin = true
  · have ha0 := absRat_nonneg p
    have hsg := rha_sgn p
    have h0 : 0 ≤ ⌊p.absRat + 1/2⌋ := Int.floor_nonneg.mpr (by linarith)
    have hbig : 1073741824 ≤ ⌊p.absRat + 1/2⌋ := by
      by_contra hc
      apply hs
      unfold sgn at hsg
      split at hsg <;> exact fits32 hfin (by omega) (by omega)
    have h24 : (2:ℚ) ^ 24 ≤ p.absRat := by
      have := Int.le_floor.mp hbig
      push_cast at this
      norm_num
      linarith
    obtain ⟨e1, e2, e3⟩ := vsum_big hfin h24
    rcases lt_or_ge (fl f32 (p.absRat + 1/2)) (2 ^ 31) with h1 | h1
    · have hc := cvttps1_vsum hfin h1
      rw [e2, ← e3, ← rha_sgn] at hc
      have h2 : ⌊p.absRat⌋ < 2 ^ 31 := Int.floor_lt.mpr (by push_cast; rw [← e2]; exact h1)
      norm_num at h2
      have hr : -2147483648 ≤ rha p.toRat ∧ rha p.toRat < 2147483648 := by
        unfold sgn at hsg
        split at hsg <;> omega
      rw [hc]
      exact clamp_over hq hz hr (fun hh => hs (fits32 hfin hr hh))
    · have hx : cvttps1 (vsum p) = -2147483648 := by
        rw [e1]
        apply cvttps1_big
        · rw [isFin_mk, e2]; exact isFin_iff.mp hfin
        · rw [absRat_mk]
          exact Int.le_floor.mpr (by push_cast; norm_num at h1; exact h1)
      rw [hx]
      exact clamp_indef hq hz
  · rw [Bool.not_eq_true] at hfin
    rw [cvttps1_notFin (vsum_notFin hfin)]
    exact clamp_indef hq hz

section
variable {c : Ctx} {x : InBuf} {dtIn dtOut : DType} {n o : Nat} {scale τ : F32} {zp : ℤ} {mode : RoundMode} {m0 : Mem}

/-- C59. A tensor may contain anything (NaN, infinities, values far out of range): in every finished
execution each element whose own arithmetic is defined still has the code of the formula (C06, C07,
C17); it is not disturbed by its neighbours, in the same byte, vector register or slice. -/
theorem C59_bad_elements_isolated (h : QArgs c.threads x dtIn dtOut n) (hz : |zp| ≤ 2 ^ 22) :
    Always OnlyUb (quantize c x dtIn o (bytes dtOut.bits n) dtOut scale zp mode τ) (span o (bytes dtOut.bits n)) m0
      (fun m => ∀ i, i < n → Defined mode τ (scaled (elem dtIn x.data 0 i) scale) zp →
        (code dtOut.bits m o i : ℤ) = sat dtOut.bits (rounded mode τ.toRat (scaled (elem dtIn x.data 0 i) scale).toRat + zp) ∨
        (¬ ExactKernel c.isa dtIn dtOut mode ∧ |(scaled (elem dtIn x.data 0 i) scale).toRat| = predHalf ∧
          (code dtOut.bits m o i : ℤ) = sat dtOut.bits ((if (scaled (elem dtIn x.data 0 i) scale).toRat < 0 then -1 else 1) + zp))) := by
  obtain ⟨js, e, _, g⟩ := quantize_ub (o := o) (scale := scale) (τ := τ) (zp := zp) (mode := mode) h m0
  refine ⟨js, e, g.safe, g.raceFree, g.progress, g.bounded, fun k d hr hdn => ?_⟩
  obtain ⟨⟨h1, _⟩, _⟩ := g.post k d hr hdn
  intro i hi hd
  obtain ⟨ft, rfl, hc⟩ := h1 i hi
  have hz32 : Zp32 zp := by have := abs_le.mp hz; norm_num at this; unfold Zp32; norm_num; omega
  exact elemCode_val h.outQuant hz32 hd (Or.inr hz) hc

/-- `C59_bad_elements_isolated` applied to a concrete case. -/
example := C59_bad_elements_isolated (c := Ex.c1) (x := Ex.many) (dtIn := .f32) (dtOut := .uint8) (n := 70) (o := 1000) (scale := Ex.tenth)
    (τ := Ex.quarter) (zp := 64) (mode := .nearest) (m0 := Ex.old) (h := by wit) (hz := by wit)

/-- C59. The code of an element that cannot be quantized (nearest rounding): on the x86 kernels the
bottom code, or the top code if the zero point is negative, whatever the sign of the element.  (On
the portable kernels, and in the scalar tail of a slice, the element is undefined behaviour and the
execution does not finish.) -/
theorem C59_x86_code_of_bad_element (h : QArgs c.threads x dtIn dtOut n) (hz : |zp| ≤ 2 ^ 22)
    (hk : c.isa ≠ .neon) (hu : ¬ (dtIn = .f32 ∧ dtOut = .uint2)) :
    Always OnlyUb (quantize c x dtIn o (bytes dtOut.bits n) dtOut scale zp .nearest τ) (span o (bytes dtOut.bits n)) m0
      (fun m => ∀ i, i < n → ¬ Fits 32 (scaled (elem dtIn x.data 0 i) scale) zp →
        c.isa ≠ .portable ∧ code dtOut.bits m o i = if zp < 0 then 2 ^ dtOut.bits - 1 else 0) := by
  obtain ⟨js, e, _, g⟩ := quantize_ub (o := o) (scale := scale) (τ := τ) (zp := zp) (mode := .nearest) h m0
  refine ⟨js, e, g.safe, g.raceFree, g.progress, g.bounded, fun k d hr hdn => ?_⟩
  obtain ⟨⟨h1, _⟩, _⟩ := g.post k d hr hdn
  intro i hi hbad
  have hz32 : Zp32 zp := by have := abs_le.mp hz; norm_num at this; unfold Zp32; norm_num; omega
  obtain ⟨ft, rfl, hc⟩ := h1 i hi
  rcases hc with hc | ⟨_, _, ⟨hp, _, hc⟩ | ⟨hn, _⟩⟩
  · exfalso
    have ho := h.outQuant
    have : qNearest32 dtOut.qmax (elem ft.dtype x.data 0 i) (invScale scale) (wrap32 zp) = .ret (code dtOut.bits d.mem o i) := by
      cases ft <;> cases dtOut <;> simp only [DType.isQuant, Bool.false_eq_true] at ho <;> first | exact absurd ⟨rfl, rfl⟩ hu | exact hc
    rw [wrap32_of hz32] at this
    exact hbad (qNearest32_ret.mp this).1
  · refine ⟨hp, ?_⟩
    have hz4 : -4194304 ≤ zp ∧ zp ≤ 4194304 := by have := abs_le.mp hz; norm_num at this; exact this
    have hb : ¬ Fits 32 (Flt.mul (elem ft.dtype x.data 0 i) (invScale scale)) zp := hbad
    rw [hc, wrap32_of hz32, vcode_bad qmax_le hz4 hb, qmax_eq h.outQuant]
  · exact absurd hn hk

/-- `C59_x86_code_of_bad_element` applied to a concrete case. -/
example := C59_x86_code_of_bad_element (c := Ex.c1) (x := Ex.many) (dtIn := .f32) (dtOut := .uint8) (n := 70) (o := 1000) (scale := Ex.tenth)
    (τ := Ex.quarter) (zp := 64) (m0 := Ex.old) (h := by wit) (hz := by wit) (hk := by wit) (hu := by wit)

/-- C59. On NEON (f32 to uint8) a NaN gets the code of zero: the zero point. -/
theorem C59_neon_nan_is_zero_point (h : QArgs c.threads x .f32 .uint8 n) (hz : |zp| ≤ 2 ^ 22) (hk : c.isa = .neon) :
    Always OnlyUb (quantize c x .f32 o (bytes 8 n) .uint8 scale zp .nearest τ) (span o (bytes 8 n)) m0
      (fun m => ∀ i, i < n → (scaled (elem .f32 x.data 0 i) scale).isNaN = true → (code 8 m o i : ℤ) = sat 8 zp) := by
  obtain ⟨js, e, _, g⟩ := quantize_ub (o := o) (scale := scale) (τ := τ) (zp := zp) (mode := .nearest) h m0
  refine ⟨js, e, g.safe, g.raceFree, g.progress, g.bounded, fun k d hr hdn => ?_⟩
  obtain ⟨⟨h1, _⟩, _⟩ := g.post k d hr hdn
  intro i hi hbad
  have hz32 : Zp32 zp := by have := abs_le.mp hz; norm_num at this; unfold Zp32; norm_num; omega
  obtain ⟨ft, hft, hc⟩ := h1 i hi
  have hnf : ¬ Fits 32 (scaled (elem .f32 x.data 0 i) scale) zp := by
    rintro ⟨hf, _⟩
    rw [(isFin_not_nan hf).1] at hbad; cases hbad
  cases ft
  · rcases hc with hc | ⟨_, _, ⟨_, hn, _⟩ | ⟨_, _, _, hc⟩⟩
    · exfalso
      have : qNearest32 255 (elem .f32 x.data 0 i) (invScale scale) (wrap32 zp) = .ret (code DType.uint8.bits d.mem o i) := hc
      rw [wrap32_of hz32] at this
      exact hnf (qNearest32_ret.mp this).1
    · exact absurd hk hn
    · change ((code DType.uint8.bits d.mem o i : ℕ) : ℤ) = sat 8 zp
      rw [hc]
      unfold ncode vcvta1
      have hb : (Flt.mul (elem .f32 x.data 0 i) (invScale scale)).isNaN = true := hbad
      rw [hb, if_pos rfl, wrap32_of hz32, zero_add, wrap32_of hz32]
      exact clampI_sat (dt := .uint8) rfl zp
  · cases hft

/-- `C59_neon_nan_is_zero_point` applied to a concrete case. -/
example := C59_neon_nan_is_zero_point (c := ⟨.neon, 3, .none⟩) (x := Ex.many) (n := 70) (o := 1000) (scale := Ex.tenth) (τ := Ex.quarter) (zp := 64)
    (m0 := Ex.old) (h := by wit) (hz := by wit) (hk := by wit)

end

/-- 1.0, NaN, +inf, 2.0, -inf, 1e10, then ten times 3.0. -/
def bad16 : InBuf := Ex.buf (Ex.words32 ([0x3f800000, 0x7fc00000, 0x7f800000, 0x40000000, 0xff800000, 0x501502f9] ++ List.replicate 10 0x40400000))

/-- C59 applies: with NaN, infinities and 1e10 among the elements, the SSE4.2 and AVX-512 kernels finish
without any fault; the bad elements get code 0 (zero point 5), or the top code (zero point -1), and the
good neighbours in the same bytes their own codes. -/
theorem C59_occurs :
    Always NoFault (quantize ⟨.sse42, 1, .none⟩ bad16 .f32 64 16 .uint8 f1 5 .nearest f0) (span 64 16) Ex.old
      (fun m => (List.range 16).map (fun j => m (64 + j)) = [6, 0, 0, 7, 0, 0] ++ List.replicate 10 8) ∧
    Always NoFault (quantize ⟨.avx512f, 1, .none⟩ bad16 .f32 64 8 .uint4 f1 5 .nearest f0) (span 64 8) Ex.old
      (fun m => (List.range 8).map (fun j => m (64 + j)) = [6, 0x70, 0] ++ List.replicate 5 0x88) ∧
    Always NoFault (quantize ⟨.sse42, 1, .none⟩ bad16 .f32 64 16 .uint8 f1 (-1) .nearest f0) (span 64 16) Ex.old
      (fun m => (List.range 16).map (fun j => m (64 + j)) = [0, 255, 255, 1, 255, 255] ++ List.replicate 10 2) := by
  have h8 : QArgs 1 bad16 .f32 .uint8 16 := ⟨rfl, rfl, rfl, sz 16 1⟩
  have h4 : QArgs 1 bad16 .f32 .uint4 16 := ⟨rfl, rfl, rfl, sz 16 1⟩
  refine ⟨?_, ?_, ?_⟩
  · exact quantize_result (c := ⟨.sse42, 1, .none⟩) (dtOut := .uint8) (n := 16) (l := [6, 0, 0, 7, 0, 0] ++ List.replicate 10 8) h8 (by decide +kernel)
  · exact quantize_result (c := ⟨.avx512f, 1, .none⟩) (dtOut := .uint4) (n := 16) (l := [6, 0x70, 0] ++ List.replicate 5 0x88) h4 (by decide +kernel)
  · exact quantize_result (c := ⟨.sse42, 1, .none⟩) (dtOut := .uint8) (n := 16) (l := [0, 255, 255, 1, 255, 255] ++ List.replicate 10 2) h8 (by decide +kernel)

end Verif.Props
