import Verif.Props.Examples
import Verif.Proofs.NaiveBf16
import Verif.Props.Symmetry
import Verif.Props.QuantNeg

/-!
# Agreement with the project's reference implementation (test/naive.hpp): C79

`quantizeNaive` is the sequential code the unit tests compare the library with.
-/

namespace Verif.Props
open Spec

section
variable {c : Ctx} {x : InBuf} {ft : FT} {dt : DType} {n o o' : Nat} {scale τ : F32} {zp : ℤ} {m0 m0' : Mem} {left : Bool} {g : Xs}

/-- The reference, run alone, ends; element `i` of its output satisfies `P i`, the padding bits are zero and nothing outside
its span is written. -/
def Reference (left : Bool) (ft : FT) (dt : DType) (mode : RoundMode) (x : InBuf) (o n : Nat) (scale : F32) (zp : ℤ) (g : Xs) (m0 : Mem)
    (Q : Mem → Prop) : Prop :=
  ∃ g' m, (quantizeNaive left ft dt mode x o n scale zp g).run (span o (bytes dt.bits n)) m0 = .ok (g', m) ∧
    (∀ a, ¬ (o ≤ a ∧ a < o + bytes dt.bits n) → m a = m0 a) ∧ Q m

theorem Reference.mono {mode : RoundMode} {Q Q' : Mem → Prop} (h : Reference left ft dt mode x o n scale zp g m0 Q) (hq : ∀ m, Q m → Q' m) :
    Reference left ft dt mode x o n scale zp g m0 Q' := by
  obtain ⟨g', m, h1, h2, h3⟩ := h
  exact ⟨g', m, h1, h2, hq m h3⟩

theorem reference_of {mode : RoundMode} {P : Nat → Nat → Prop} (hdt : dt = .uint4 ∨ dt = .uint8)
    (hQ : ∀ i, i < n → ∀ g, ∃ q g', naiveQ ft dt mode x (invScale scale) zp i g = .ret (q, g') ∧ P i q ∧ q ≤ dt.qmax) :
    Reference left ft dt mode x o n scale zp g m0 (fun m => (∀ i, i < n → P i (code dt.bits m o i)) ∧
      (∀ t, dt.bits * n ≤ t → t < 8 * bytes dt.bits n → bit m o t = 0) ∧ (∀ j, j < bytes dt.bits n → m (o + j) < 256)) := by
  have hq : dt.isQuant = true := by rcases hdt with rfl | rfl <;> rfl
  obtain ⟨g', m, h1, h2, h3⟩ := (quantizeNaive_triple (E := NoFault) (left := left) (g := g) (m0 := m0) (w := span o (bytes dt.bits n)) hdt
    (le_refl o) (le_refl _) hQ).ok (Inv.zero _ _ _)
  exact ⟨g', m, h1, h2, okPack_spec hq h3⟩

theorem clampI_le (q : Nat) (z : ℤ) : clampI q z ≤ q := by unfold clampI; omega

theorem elem_bound (h : QArgs c.threads x ft.dtype dt n) {i : Nat} (hi : i < n) : ft.size * i + ft.size ≤ x.size := by
  have e : ft.dtype.stride = ft.size := by cases ft <;> rfl
  rw [h.size, e]
  calc ft.size * i + ft.size = ft.size * (i + 1) := by ring
    _ ≤ _ := Nat.mul_le_mul_left _ (by omega)

theorem fits64 {p : F32} (h : Fits 32 p zp) : Fits 64 p zp := by
  obtain ⟨a, ⟨b1, b2⟩, c1, c2⟩ := h
  refine ⟨a, ⟨?_, ?_⟩, ?_, ?_⟩ <;> norm_num at b1 b2 c1 c2 ⊢ <;> omega

theorem reference_nearest (hdt : dt = .uint4 ∨ dt = .uint8) (h : QArgs c.threads x ft.dtype dt n)
    (hd : ∀ i, i < n → Fits 32 (scaled (elem ft.dtype x.data 0 i) scale) zp) :
    Reference left ft dt .nearest x o n scale zp g m0 (fun m => (∀ i, i < n → (code dt.bits m o i : ℤ) = sat dt.bits (rha (scaled (elem ft.dtype x.data 0 i) scale).toRat + zp)) ∧
      (∀ t, dt.bits * n ≤ t → t < 8 * bytes dt.bits n → bit m o t = 0) ∧ (∀ j, j < bytes dt.bits n → m (o + j) < 256)) := by
  have hq : dt.isQuant = true := by rcases hdt with rfl | rfl <;> rfl
  refine reference_of hdt (P := fun i q => (q : ℤ) = sat dt.bits (rha (scaled (elem ft.dtype x.data 0 i) scale).toRat + zp)) (fun i hi g => ?_)
  have hd' : Fits 64 (Flt.mul (x.elem ft 0 i) (invScale scale)) zp := by
    rw [elem_spec]; exact fits64 (hd i hi)
  refine ⟨_, _, naiveQ_nearest (elem_bound h hi) hd', ?_, clampI_le _ _⟩
  rw [clampI_sat hq, elem_spec]; rfl

/-- C79, nearest rounding: the library and the reference write the same bytes, whatever the kernels, thread count, schedule
and evaluation order (x86 kernels: no scaled value is plus or minus the float below one half). -/
theorem C79_nearest_partial (hdt : dt = .uint4 ∨ dt = .uint8) (h : QArgs c.threads x ft.dtype dt n) (hz : Zp32 zp)
    (hd : ∀ i, i < n → Fits 32 (scaled (elem ft.dtype x.data 0 i) scale) zp) (hx : Plain c x ft.dtype dt n scale zp .nearest) :
    Always NoFault (quantize c x ft.dtype o (bytes dt.bits n) dt scale zp .nearest τ) (span o (bytes dt.bits n)) m0 (fun m =>
      Reference left ft dt .nearest x o' n scale zp g m0' (fun m' => ∀ j, j < bytes dt.bits n → m (o + j) = m' (o' + j))) := by
  have hq : dt.isQuant = true := by rcases hdt with rfl | rfl <;> rfl
  refine (quantize_vals (mode := .nearest) h hz hd (hx.imp (fun h => h) (fun h => h.1))).mono (fun _ h => h) (fun m hm => ?_)
  obtain ⟨a1, a2, a3⟩ := hm
  refine (reference_nearest hdt h hd).mono (fun m' hm' => ?_)
  obtain ⟨b1, b2, b3⟩ := hm'
  refine pack_ext hq (fun i hi => ?_) a2 b2 a3 b3
  have e : (code dt.bits m o i : ℤ) = code dt.bits m' o' i := by
    rw [b1 i hi]
    rcases a1 i hi with k | ⟨k1, k2, _⟩
    · exact k
    · rcases hx with hx | ⟨_, hx⟩
      · exact absurd hx k1
      · exact absurd k2 (hx i hi)
  exact_mod_cast e

/-- `C79_nearest_partial` applied to a concrete case. -/
example := C79_nearest_partial (c := Ex.c1) (x := Ex.many) (ft := .f32) (dt := .uint8) (n := 70) (o := 1000) (o' := 3000) (scale := Ex.tenth)
    (τ := Ex.quarter) (zp := 64) (m0 := Ex.old) (m0' := Ex.old) (left := true) (g := .start) (hdt := by wit) (h := by wit) (hz := by wit)
    (hd := by wit) (hx := Or.inr ⟨by decide, by decide +kernel⟩)

/-- C79, nearest rounding, any data: codes differ by at most one. -/
theorem C79_nearest_close (hdt : dt = .uint4 ∨ dt = .uint8) (h : QArgs c.threads x ft.dtype dt n) (hz : |zp| ≤ 2 ^ 22)
    (hd : ∀ i, i < n → Fits 32 (scaled (elem ft.dtype x.data 0 i) scale) zp) :
    Always NoFault (quantize c x ft.dtype o (bytes dt.bits n) dt scale zp .nearest τ) (span o (bytes dt.bits n)) m0 (fun m =>
      Reference left ft dt .nearest x o' n scale zp g m0' (fun m' =>
        ∀ i, i < n → |(code dt.bits m o i : ℤ) - code dt.bits m' o' i| ≤ 1)) := by
  have hz' : Zp32 zp := by have := abs_le.mp hz; norm_num at this; constructor <;> norm_num <;> omega
  refine (quantize_vals (mode := .nearest) h hz' hd (Or.inr hz)).mono (fun _ h => h) (fun m hm => ?_)
  refine (reference_nearest hdt h hd).mono (fun m' hm' i hi => ?_)
  rw [hm'.1 i hi]
  rcases hm.1 i hi with k | ⟨_, k2, k3⟩
  · rw [k]
    show |sat dt.bits (rha _ + zp) - sat dt.bits (rha _ + zp)| ≤ 1
    rw [sub_self]; simp
  · rw [k3]
    have e : rha (scaled (elem ft.dtype x.data 0 i) scale).toRat = 0 := by
      apply rha_near
      rw [Int.cast_zero, sub_zero, k2]
      unfold predHalf; norm_num
    rw [e]
    apply sat_near
    split <;> norm_num

/-- `C79_nearest_close` applied to a concrete case. -/
example := C79_nearest_close (c := Ex.c1) (x := Ex.many) (ft := .f32) (dt := .uint8) (n := 70) (o := 1000) (o' := 3000) (scale := Ex.tenth)
    (τ := Ex.quarter) (zp := 64) (m0 := Ex.old) (m0' := Ex.old) (left := true) (g := .start) (hdt := by wit) (h := by wit) (hz := by wit)
    (hd := by wit)

/-- C79, stochastic rounding of float32 data: whatever the library's threshold and the state of the reference's generator,
codes differ by at most one. -/
theorem C79_stochastic_partial (hdt : dt = .uint4 ∨ dt = .uint8) (h : QArgs c.threads x .f32 dt n) (hz : Zp32 zp)
    (hd : ∀ i, i < n → Defined .stochastic τ (scaled (elem .f32 x.data 0 i) scale) zp) :
    Always NoFault (quantize c x .f32 o (bytes dt.bits n) dt scale zp .stochastic τ) (span o (bytes dt.bits n)) m0 (fun m =>
      Reference left .f32 dt .stochastic x o' n scale zp g m0' (fun m' =>
        ∀ i, i < n → |(code dt.bits m o i : ℤ) - code dt.bits m' o' i| ≤ 1)) := by
  have hq : dt.isQuant = true := by rcases hdt with rfl | rfl <;> rfl
  refine (quantize_exact h hz hd (Or.inl (Or.inr (Or.inr (Or.inl rfl))))).mono (fun _ h => h) (fun m hm => ?_)
  refine (reference_of (ft := .f32) hdt (P := fun i q => |(code dt.bits m o i : ℤ) - q| ≤ 1) (fun i hi g => ?_)).mono (fun m' hm' => hm'.1)
  obtain ⟨d1, d2, d3, d4⟩ := hd i hi
  have e : naiveProd .f32 x i (invScale scale) = scaled (elem .f32 x.data 0 i) scale := by
    have := elem_spec x .f32 i
    rw [show elem .f32 x.data 0 i = x.elem .f32 0 i from this.symm]
    unfold naiveProd InBuf.elem scaled invScale
    rw [Nat.zero_add]; rfl
  refine ⟨_, _, naiveQ_stochastic (ft := .f32) (elem_bound (ft := .f32) h hi) (by rw [e]; exact d1) (by rw [e]; exact d2) hz, ?_, clampI_le _ _⟩
  obtain ⟨k, _, _, hk⟩ := g.canonical_eq
  have h0 : 0 ≤ g.canonical.toRat := by
    have : (0:ℚ) ≤ k := Nat.cast_nonneg k
    rw [hk]; exact div_nonneg (by linarith) (pow_nonneg (by norm_num) _)
  rw [clampI_sat hq, hm i hi, e]
  refine sat_near ?_
  show |sround τ.toRat _ + zp - (sround g.canonical.toRat _ + zp)| ≤ 1
  rw [add_sub_add_right_eq_sub]
  exact sround_near1 d4 h0

/-- `C79_stochastic_partial` applied to a concrete case. -/
example := C79_stochastic_partial (c := Ex.c1) (x := Ex.many) (dt := .uint8) (n := 70) (o := 1000) (o' := 3000) (scale := Ex.tenth) (τ := Ex.quarter)
    (zp := 64) (m0 := Ex.old) (m0' := Ex.old) (left := true) (g := .start) (hdt := by wit) (h := by wit) (hz := by wit) (hd := by wit)

/-- C79, stochastic rounding of bf16 data: codes differ by at most two (scaled values up to 100, scale in `[2^-125, 2^125]`). -/
theorem C79_stochastic_bf16_partial (hdt : dt = .uint4 ∨ dt = .uint8) (h : QArgs c.threads x .bf16 dt n) (hz : Zp32 zp)
    (hf : scale.isFin = true) (h1 : 1 / 2 ^ 125 ≤ scale.toRat) (h2 : scale.toRat ≤ 2 ^ 125) (hv : ∀ i, i < n → (elem .bf16 x.data 0 i).isFin = true)
    (hb : ∀ i, i < n → |(scaled (elem .bf16 x.data 0 i) scale).toRat| ≤ 100)
    (hd : ∀ i, i < n → Defined .stochastic τ (scaled (elem .bf16 x.data 0 i) scale) zp) :
    Always NoFault (quantize c x .bf16 o (bytes dt.bits n) dt scale zp .stochastic τ) (span o (bytes dt.bits n)) m0 (fun m =>
      Reference left .bf16 dt .stochastic x o' n scale zp g m0' (fun m' =>
        ∀ i, i < n → |(code dt.bits m o i : ℤ) - code dt.bits m' o' i| ≤ 2)) := by
  have hq : dt.isQuant = true := by rcases hdt with rfl | rfl <;> rfl
  refine (quantize_exact h hz hd (Or.inl (Or.inr (Or.inr (Or.inl rfl))))).mono (fun _ h => h) (fun m hm => ?_)
  refine (reference_of (ft := .bf16) hdt (P := fun i q => |(code dt.bits m o i : ℤ) - q| ≤ 2) (fun i hi g => ?_)).mono (fun m' hm' => hm'.1)
  obtain ⟨d1, d2, d3, d4⟩ := hd i hi
  obtain ⟨i1, i2, i3⟩ := invScale_fin hf (le_trans (by norm_num) h1)
  have hs : 0 < scale.toRat := lt_of_lt_of_le (by positivity) h1
  have j1 : 1 / 2 ^ 126 ≤ (invScale scale).toRat := by
    rw [i2]
    have r : Rep f32 ((1:ℚ) / 2 ^ 126) := by
      have := rep_div (f := f32) (m := 1) (k := 126) (by decide) (by decide)
      simpa using this
    have k1 : (1:ℚ) / 2 ^ 126 ≤ 1 / scale.toRat := by
      rw [div_le_div_iff₀ (by positivity) hs, one_mul, one_mul]
      exact h2.trans (by norm_num)
    have k2 : (1:ℚ) / 2 ^ 126 ≤ 2 ^ f32.emax := le_trans (by norm_num : (1:ℚ) / 2 ^ 126 ≤ 1) (one_le_pow₀ (by norm_num))
    exact le_fl k1 r k2
  have j2 : (invScale scale).toRat ≤ 2 ^ 126 := by
    rw [i2]
    have r : Rep f32 ((2:ℚ) ^ 126) := by
      have := rep_nat (f := f32) (m := 1) (k := 126) (by decide)
      simpa using this
    refine fl_le (by positivity) ?_ r
    rw [div_le_iff₀ hs]
    calc (1:ℚ) ≤ 2 ^ 126 * (1 / 2 ^ 125) := by norm_num
      _ ≤ _ := mul_le_mul_of_nonneg_left h1 (by positivity)
  have es : elem .bf16 x.data 0 i = bf16ToF32 (x.u16 (2 * i)) := by
    have := elem_spec x .bf16 i
    rw [show elem .bf16 x.data 0 i = x.elem .bf16 0 i from this.symm]
    show bf16ToF32 (x.u16 (0 + 2 * i)) = _
    rw [Nat.zero_add]
  have hv' := hv i hi
  have hb' := hb i hi
  rw [es] at hv' hb' d1
  obtain ⟨p1, p2⟩ := naiveProd_bf16_near (inv := invScale scale) hv' i1 j1 j2 d1 hb'
  have p3 : |(naiveProd .bf16 x i (invScale scale)).toRat| ≤ 2 ^ 62 := by
    have := abs_sub_abs_le_abs_sub (naiveProd .bf16 x i (invScale scale)).toRat (scaled (bf16ToF32 (x.u16 (2 * i))) scale).toRat
    have p2' : |(naiveProd .bf16 x i (invScale scale)).toRat - (scaled (bf16ToF32 (x.u16 (2 * i))) scale).toRat| < 1 := p2
    have : (101:ℚ) ≤ 2 ^ 62 := by norm_num
    linarith
  refine ⟨_, _, naiveQ_stochastic (ft := .bf16) (elem_bound (ft := .bf16) h hi) p1 p3 hz, ?_, clampI_le _ _⟩
  obtain ⟨k, _, _, hk⟩ := g.canonical_eq
  have h0 : 0 ≤ g.canonical.toRat := by
    have : (0:ℚ) ≤ k := Nat.cast_nonneg k
    rw [hk]; exact div_nonneg (by linarith) (pow_nonneg (by norm_num) _)
  rw [clampI_sat hq, hm i hi, es]
  refine sat_near ?_
  show |sround τ.toRat _ + zp - (sround g.canonical.toRat _ + zp)| ≤ 2
  rw [add_sub_add_right_eq_sub]
  exact sround_near2 d4 h0 p2

/-- `C79_stochastic_bf16_partial` applied to a concrete case. -/
example := C79_stochastic_bf16_partial (c := Ex.c1) (x := Ex.manyB) (dt := .uint8) (n := 70) (o := 1000) (o' := 3000) (scale := Ex.tenth)
    (τ := Ex.quarter) (zp := 64) (m0 := Ex.old) (m0' := Ex.old) (left := true) (g := .start) (hdt := by wit) (h := by wit) (hz := by wit)
    (hf := by wit) (h1 := by wit) (h2 := by wit) (hv := by wit) (hb := by wit) (hd := by wit)

end

/-- One bf16 element, 0.5859375. -/
def refX : InBuf := Ex.buf [0x16, 0x3f]
/-- The scale 0.117..., in the range the project's test draws from. -/
def refScale : F32 := ⟨false, 0x3df00c4a⟩
/-- The float below one, the largest threshold the library can draw. -/
def refTau : F32 := ⟨false, 0x3f7fffff⟩
/-- The generator of the reference after nine draws from its initial state. -/
def refGen : Xs := Xs.next^[9] Xs.start

/-- The bytes a run of the reference leaves in its span, or the fault it ends with. -/
def Ex.refBytes (left : Bool) (ft : FT) (dt : DType) (mode : RoundMode) (x : InBuf) (o n : Nat) (scale : F32) (zp : ℤ) (g : Xs) (m0 : Mem) :
    Except Fault (List Nat) :=
  match (quantizeNaive left ft dt mode x o n scale zp g).run (span o (bytes dt.bits n)) m0 with
  | .ok (_, m) => .ok ((List.range (bytes dt.bits n)).map (fun j => m (o + j)))
  | .error e => .error e

theorem reference_eval {left : Bool} {ft : FT} {dt : DType} {mode : RoundMode} {x : InBuf} {o n : Nat} {scale : F32} {zp : ℤ} {g : Xs} {m0 : Mem} {l : List Nat}
    (h : Ex.refBytes left ft dt mode x o n scale zp g m0 = .ok l) :
    Reference left ft dt mode x o n scale zp g m0 (fun m => (List.range (bytes dt.bits n)).map (fun j => m (o + j)) = l) := by
  unfold Ex.refBytes at h
  split at h
  next g' m hr =>
    refine ⟨g', m, hr, fun a ha => ?_, by injection h⟩
    refine run_frame _ hr _ ?_
    exact Bool.eq_false_iff.mpr (fun h => ha (by
      have h' : (decide (o ≤ a) && decide (a < o + bytes dt.bits n)) = true := h
      rw [Bool.and_eq_true] at h'
      exact ⟨of_decide_eq_true h'.1, of_decide_eq_true h'.2⟩))
  next => cases h

/-- C79 is false for stochastic rounding of bf16 data: the reference multiplies in bf16, and its code differs from the
library's by two, more than the tolerance of one in test/quant.cpp:17. -/
theorem C79_false_bf16_stochastic :
    Always NoFault (quantize ⟨.portable, 1, .none⟩ refX .bf16 64 (bytes 8 1) .uint8 refScale 0 .stochastic refTau) (span 64 (bytes 8 1)) Ex.old (fun m =>
      Reference true .bf16 .uint8 .stochastic refX 64 1 refScale 0 refGen Ex.old (fun m' =>
        code 8 m 64 0 = 4 ∧ code 8 m' 64 0 = 6)) := by
  have hargs : QArgs 1 refX .bf16 .uint8 1 := ⟨rfl, rfl, rfl, sz 1 1⟩
  refine (quantize_result (dtOut := .uint8) (n := 1) (l := [4]) hargs (by decide +kernel)).mono (fun _ h => h) (fun m hm => ?_)
  refine (reference_eval (l := [6]) (by decide +kernel)).mono (fun m' hm' => ?_)
  have a : [m 64] = [4] := hm
  have b : [m' 64] = [6] := hm'
  simp only [List.cons.injEq, and_true] at a b
  simp [code, a, b]

/-- C79 excludes uint2 outputs: for them the reference writes one byte per element although four elements share a byte, so it
runs past the end of the buffer (the project's uint2 tests are commented out, test/quant.cpp:185-188). -/
theorem C79_uint2_reference_overruns :
    Ex.refBytes true .f32 .uint2 .nearest (Ex.buf (Ex.words32 [0x3f800000, 0x3f800000])) 64 2 f1 0 Xs.start Ex.old = .error .oobWrite := by
  decide +kernel

/-! ## The hypotheses are met -/

example : (∀ i, i < 5 → Fits 32 (scaled (elem .f32 Ex.xs.data 0 i) Ex.tenth) 3) ∧
    Plain ⟨.avx512f, 2, .none⟩ Ex.xs .f32 .uint8 5 Ex.tenth 3 .nearest ∧
    Ex.refBytes true .f32 .uint8 .nearest Ex.xs 64 5 Ex.tenth 3 Xs.start Ex.old = .ok [13, 0, 6, 81, 255] := by
  refine ⟨by decide +kernel, Or.inr ⟨by norm_num, by decide +kernel⟩, by decide +kernel⟩

example : (∀ i, i < 5 → Defined .stochastic Ex.quarter (scaled (elem .f32 Ex.xs.data 0 i) Ex.tenth) 3) := by decide +kernel

example : (1:ℚ) / 2 ^ 125 ≤ Ex.tenth.toRat ∧ Ex.tenth.toRat ≤ 2 ^ 125 ∧ (∀ i, i < 3 → (elem .bf16 Ex.xb.data 0 i).isFin = true) ∧
    (∀ i, i < 3 → |(scaled (elem .bf16 Ex.xb.data 0 i) Ex.tenth).toRat| ≤ 100) ∧
    (∀ i, i < 3 → Defined .stochastic Ex.quarter (scaled (elem .bf16 Ex.xb.data 0 i) Ex.tenth) 3) := by
  refine ⟨by decide +kernel, by decide +kernel, by decide +kernel, by decide +kernel, by decide +kernel⟩

end Verif.Props
