import Verif.Props.Examples
import Verif.Props.Witness
import Verif.Props.Params
import Verif.Props.Isolate
import Verif.Props.Dequant
import Verif.Proofs.ParamsInf

/-!
# Parameters computed from data with infinities: C89

`compute_quant_config` (src/piquant.cpp:222-259) divides by the scale without looking at it: with `r_min = -inf` the zero point is NaN and the
conversion to `std::int64_t` undefined (src/piquant.cpp:257); with `r_max = inf` the scale is infinite and passes the check in
`compute_quant_config_from_data` (src/piquant.cpp:378).
-/

namespace Verif.Props
open Spec

section
variable {isa : Isa} {ft : FT} {x : InBuf} {n : Nat} {blocks : List (Nat × Nat)} {dt : DType} {c : Ctx} {o : Nat} {m0 : Mem} {τ : F32}

/-- No NaN among the first `n` elements. -/
def NoNan (ft : FT) (x : InBuf) (n : Nat) : Prop := ∀ t, t < n → (elem ft.dtype x.data 0 t).isNaN = false

/-- C89. An element that is minus infinity: undefined behaviour on every kernel set. -/
theorem C89_minus_infinity_undefined_partial (h : PArgs ft x n blocks dt) (hf : NoNan ft x n) (hs : SseSmall isa ft blocks) {t : Nat}
    (ht : t < n) (et : elem ft.dtype x.data 0 t = Flt.inf true) :
    computeQuantConfigFromData isa ft x blocks dt = .fail .ub :=
  config_ninf h.quant h.size (fun t ht => by rw [elem_spec]; exact hf t ht) h.split
    (fun hi b hb => by
      have := hs hi b hb
      cases ft <;> exact this) ht (by rw [elem_spec]; exact et)

/-- C89. An element that is plus infinity, none that is minus infinity: scale infinity and zero point 0. -/
theorem C89_plus_infinity_scale_partial (h : PArgs ft x n blocks dt) (hf : NoNan ft x n) (hs : SseSmall isa ft blocks) {t : Nat}
    (ht : t < n) (et : elem ft.dtype x.data 0 t = Flt.inf false)
    (hm : ∀ t, t < n → elem ft.dtype x.data 0 t ≠ Flt.inf true) :
    computeQuantConfigFromData isa ft x blocks dt = .ret (Flt.inf false, 0) :=
  config_pinf h.quant h.size (fun t ht => by rw [elem_spec]; exact hf t ht) h.split
    (fun hi b hb => by
      have := hs hi b hb
      cases ft <;> exact this) ht (by rw [elem_spec]; exact et)
    (fun t ht => by rw [elem_spec]; exact hm t ht)

theorem scaled_inf {y : F32} (h : y.isFin = true) : (scaled y (Flt.inf false)).isFin = true ∧ (scaled y (Flt.inf false)).toRat = 0 := by
  have e1 : invScale (Flt.inf false) = ⟨false, 0⟩ := by decide +kernel
  have e2 : (⟨false, 0⟩ : F32).isFin = true := by decide
  have e3 : (⟨false, 0⟩ : F32).toRat = 0 := by decide +kernel
  have e : (scaled y (Flt.inf false)).toRat = 0 := by
    rw [show (scaled y (Flt.inf false)).toRat = flr f32 (y.toRat * (invScale (Flt.inf false)).toRat) from mul_toRat h (by decide +kernel), e1, e3, mul_zero, flr_zero]
  refine ⟨isFin_of_abs ?_, e⟩
  rw [e]; norm_num

/-- C89. What these parameters do: every finite element is quantized to code 0, in both rounding modes. -/
theorem C89_infinite_scale_codes (h : QArgs c.threads x ft.dtype dt n) {mode : RoundMode} (hτ : τ.isFin = true ∧ 0 ≤ τ.toRat) :
    Always OnlyUb (quantize c x ft.dtype o (bytes dt.bits n) dt (Flt.inf false) 0 mode τ) (span o (bytes dt.bits n)) m0
      (fun m => ∀ i, i < n → (elem ft.dtype x.data 0 i).isFin = true → code dt.bits m o i = 0) := by
  refine (C59_bad_elements_isolated h (by norm_num)).mono (fun _ h => h) (fun m hm i hi hfin => ?_)
  obtain ⟨e1, e2⟩ := scaled_inf hfin
  have r0 : rha 0 = 0 := by unfold rha; norm_num
  have hd : Defined mode τ (scaled (elem ft.dtype x.data 0 i) (Flt.inf false)) 0 := by
    cases mode
    · refine ⟨e1, ?_⟩
      rw [e2, r0]; norm_num
    · refine ⟨e1, ?_, hτ⟩
      rw [e2]; norm_num
  have hr : rounded mode τ.toRat 0 = 0 := by
    cases mode
    · exact r0
    · have : ¬ τ.toRat < 0 := not_lt.mpr hτ.2
      show sround τ.toRat 0 = 0
      unfold sround rtz; simp [this]
  rcases hm i hi hd with g | ⟨_, g, _⟩
  · rw [e2, hr] at g
    have hQ : (1:ℤ) ≤ 2 ^ dt.bits := one_le_pow₀ (by norm_num)
    unfold sat at g
    generalize (2:ℤ) ^ dt.bits = B at *
    omega
  · rw [e2] at g; exact absurd g (by norm_num [predHalf])

/-- C89. ... and code 0 is dequantized to NaN. -/
theorem C89_infinite_scale_nan (h : DArgs c.threads x dt .f32 n) (hr : Readable dt .f32 n x.size) :
    Always NoFault (dequantize c x (bytes dt.bits n) dt o (4 * n) .f32 (Flt.inf false) 0 .set) (span o (4 * n)) m0
      (fun m => ∀ i, i < n → code dt.bits x.data 0 i = 0 → (f32At m (o + 4 * i)).isNaN = true) := by
  refine (C09_dequantize_f32_formula h hr (by unfold ZpSub; norm_num)).mono (fun _ h => h) (fun m hm i hi h0 => ?_)
  rw [hm i hi, h0]
  decide +kernel

end

/-- 1, 2, plus infinity, 3; and the same with minus infinity. -/
def withInf : InBuf := Ex.buf (Ex.words32 [0x3f800000, 0x40000000, 0x7f800000, 0x40400000])
def withNinf : InBuf := Ex.buf (Ex.words32 [0x3f800000, 0x40000000, 0xff800000, 0x40400000])

/-- `C89_minus_infinity_undefined_partial` applied to a concrete case. -/
example : computeQuantConfigFromData .avx512f .f32 withNinf [(0, 1), (1, 4)] .uint8 = .fail .ub :=
  C89_minus_infinity_undefined_partial (n := 4) (blocks := [(0, 1), (1, 4)]) ⟨rfl, by decide +kernel, rfl, by omega, rfl, by omega, rfl⟩ (by unfold NoNan; decide +kernel) (fun h => by cases h)
    (t := 2) (by omega) (by decide +kernel)
/-- `C89_plus_infinity_scale_partial` applied to a concrete case. -/
theorem withInf_params : computeQuantConfigFromData .avx512f .f32 withInf [(0, 1), (1, 4)] .uint8 = .ret (Flt.inf false, 0) :=
  C89_plus_infinity_scale_partial (n := 4) (blocks := [(0, 1), (1, 4)]) ⟨rfl, by decide +kernel, rfl, by omega, rfl, by omega, rfl⟩ (by unfold NoNan; decide +kernel) (fun h => by cases h)
    (t := 2) (by omega) (by decide +kernel) (by decide +kernel)
/-- `C89_infinite_scale_codes` applied to a concrete case. -/
example := C89_infinite_scale_codes (c := Ex.c1) (x := Ex.many) (ft := .f32) (dt := .uint8) (n := 70) (o := 1000) (τ := Ex.quarter) (mode := .nearest) (m0 := Ex.old)
  (h := by wit) (hτ := by wit)
/-- `C89_infinite_scale_nan` applied to a concrete case. -/
example := C89_infinite_scale_nan (c := Ex.c1) (x := Ex.codes) (dt := .uint8) (n := 70) (o := 1000) (m0 := Ex.old) (h := by wit) (hr := by wit)

/-- The claim that data with infinities is rejected or gets usable parameters is false: one minus infinity is undefined behaviour, one plus infinity
gives an infinite scale, which is returned. -/
theorem C89_false_rejected : computeQuantConfigFromData .portable .f32 withNinf [(0, 4)] .uint8 = .fail .ub ∧
    computeQuantConfigFromData .portable .f32 withInf [(0, 4)] .uint8 = .ret (Flt.inf false, 0) :=
  ⟨failIs_iff (by decide +kernel), retIs_iff (by decide +kernel)⟩

end Verif.Props
