import Verif.Props.Examples
import Verif.Props.RoundTrip
import Verif.Proofs.RoundTrip2

/-!
# Fake quantization and stochastic round trips: C54, C55, C56
-/

namespace Verif.Props
open Spec

variable {isa : Isa} {ft : FT} {x : InBuf} {n : Nat} {blocks : List (Nat × Nat)} {dt : DType} {c c' : Ctx} {o o' : Nat} {m0 m0' : Mem}
  {s τ τ' : F32} {z : ℤ} {mode : RoundMode}

/-- Half a step for nearest rounding, one step for stochastic rounding. -/
def tol : RoundMode → ℚ
  | .nearest => 1 / 2
  | .stochastic => 1

/-- `y` is finite and within the tolerance of `x`. -/
def CloseIn (mode : RoundMode) (s x y : F32) : Prop := y.isFin = true ∧ |y.toRat - x.toRat| ≤ s.toRat * (tol mode + 1 / 2 ^ 12)

/-- Every element lies between the values of the smallest and of the largest code. -/
def InRange (ft : FT) (x : InBuf) (n : Nat) (dt : DType) (s : F32) (z : ℤ) : Prop :=
  ∀ i, i < n → ((0 - z : ℤ) : ℚ) * s.toRat ≤ (elem ft.dtype x.data 0 i).toRat ∧ (elem ft.dtype x.data 0 i).toRat ≤ ((2 ^ dt.bits - 1 - z : ℤ) : ℚ) * s.toRat

/-- A threshold the library can draw: in `[0, 1)`; only looked at by stochastic calls. -/
def Threshold (mode : RoundMode) (τ : F32) : Prop := mode = .stochastic → τ.isFin = true ∧ 0 ≤ τ.toRat

/-- What both round trips need: quotients in a range covered by the codes. -/
structure Covered (ft : FT) (x : InBuf) (n : Nat) (dt : DType) (s : F32) (z : ℤ) (A B : ℚ) : Prop where
  zp : 0 ≤ z ∧ z ≤ 2 ^ dt.bits - 1
  off : |(z:ℚ) - A| ≤ 1 / 2 + 1 / 2 ^ 40 + 1 / 2 ^ 14
  len : A + B ≤ (2:ℚ) ^ dt.bits - 1 + 1 / 2 ^ 14
  quo : ∀ i, i < n → -A ≤ (elem ft.dtype x.data 0 i).toRat / s.toRat ∧ (elem ft.dtype x.data 0 i).toRat / s.toRat ≤ B

theorem Covered.abs {A B : ℚ} (h : Covered ft x n dt s z A B) (hdt : dt.isQuant = true) {i : Nat} (hi : i < n) :
    |(elem ft.dtype x.data 0 i).toRat / s.toRat| ≤ 256 := by
  have hQ := qmax_bounds hdt
  have hQ2 : (2:ℚ) ^ dt.bits - 1 ≤ 255 := by exact_mod_cast hQ.2
  obtain ⟨g1, g2⟩ := h.quo i hi
  have g3 := abs_le.mp h.off
  have g4 := h.len
  have z0 : (0:ℚ) ≤ z := by exact_mod_cast h.zp.1
  have z1 : (z:ℚ) ≤ 2 ^ dt.bits - 1 := by exact_mod_cast h.zp.2
  have e14 : (1:ℚ) / 2 ^ 14 ≤ 1 / 8 := by norm_num
  have e40 : (1:ℚ) / 2 ^ 40 ≤ 1 / 8 := by norm_num
  rw [abs_le]; constructor <;> linarith [g3.1, g3.2]

/-- Chosen parameters. -/
theorem covered_inRange (hz : 0 ≤ z ∧ z ≤ 2 ^ dt.bits - 1) (hs : 0 < s.toRat) (hx : InRange ft x n dt s z) :
    Covered ft x n dt s z z (2 ^ dt.bits - 1 - z) := by
  refine ⟨hz, by rw [sub_self, abs_zero]; norm_num, ?_, fun i hi => ?_⟩
  · have : (0:ℚ) ≤ 1 / 2 ^ 14 := by norm_num
    linarith
  · obtain ⟨g1, g2⟩ := hx i hi
    push_cast at g1 g2
    constructor
    · rw [le_div_iff₀ hs]; linarith
    · rw [div_le_iff₀ hs]; linarith

/-- Computed parameters, data around zero. -/
theorem covered_computed (h : PArgs ft x n blocks dt) (hn : 0 < n) (hf : AllFin ft x n) (hs : Sees isa ft x n blocks) {lo hi : ℚ}
    (hr : Range ft.dtype x.data n lo hi) (h0 : lo ≤ 0 ∧ 0 ≤ hi) (he : computeQuantConfigFromData isa ft x blocks dt = .ret (s, z))
    (h1 : 1 / 2 ^ 126 ≤ s.toRat) (h2 : s.toRat ≤ 2 ^ 119) : ∃ A B, Covered ft x n dt s z A B := by
  have hspos : 0 < s.toRat := lt_of_lt_of_le (by positivity) h1
  have h2' : s.toRat ≤ 2 ^ 126 := h2.trans (by norm_num)
  have hQ := qmax_bounds h.quant
  have hzr : 0 ≤ z ∧ z ≤ 2 ^ dt.bits - 1 := by
    have := C20_zero_point_in_range h.quant he
    exact ⟨this.1, this.2.1⟩
  rw [C22_true_range_partial h hn hf hs hr] at he
  injection he with he
  obtain ⟨⟨⟨a, ha, ea⟩, hlo⟩, ⟨b, hb, eb⟩, hhi⟩ := hr
  have hx : ∀ i, i < n → lo ≤ (elem ft.dtype x.data 0 i).toRat ∧ (elem ft.dtype x.data 0 i).toRat ≤ hi := fun i hi =>
    ⟨hlo ⟨i, hi, rfl⟩, hhi ⟨i, hi, rfl⟩⟩
  by_cases hc : hi = lo
  · refine ⟨z, 2 ^ dt.bits - 1 - z, covered_inRange hzr hspos (fun i hi' => ?_)⟩
    have e : (elem ft.dtype x.data 0 i).toRat = 0 := by have := hx i hi'; linarith
    have z0 : (0:ℚ) ≤ z := by exact_mod_cast hzr.1
    have z1 : (z:ℚ) ≤ 2 ^ dt.bits - 1 := by exact_mod_cast hzr.2
    rw [e]; push_cast
    constructor
    · have := mul_nonneg z0 hspos.le; linarith
    · exact mul_nonneg (by linarith) hspos.le
  · have hlt : lo < hi := lt_of_le_of_ne (h0.1.trans h0.2) (Ne.symm hc)
    have hA := abs_lt.mp (abs_lt_of_isFin (hf a ha))
    have hB := abs_lt.mp (abs_lt_of_isFin (hf b hb))
    rw [emax_f32] at hA hB
    have hd2 : hi - lo ≤ 2 ^ 129 := by
      have : (2:ℚ) ^ 129 = 2 ^ 128 + 2 ^ 128 := by norm_num
      rw [this, ea, eb]; linarith [hA.1, hB.2]
    have hd1 : 1 / 2 ^ 149 ≤ hi - lo := by
      have hlt := hlt
      rw [ea, eb] at hlt ⊢
      have := toRat_sub_unit hlt
      rwa [unit_f32] at this
    obtain ⟨_, p1, p2⟩ := params_near hQ hd1 hd2 h0 he h1 h2'
    refine ⟨-lo / s.toRat, hi / s.toRat, hzr, p1, ?_, fun i hi' => ?_⟩
    · have e : -lo / s.toRat + hi / s.toRat = (hi - lo) / s.toRat := by ring
      rw [e]; linarith [(abs_le.mp p2).2]
    · obtain ⟨g1, g2⟩ := hx i hi'
      constructor
      · rw [neg_div, neg_neg]; exact div_le_div_of_nonneg_right g1 hspos.le
      · exact div_le_div_of_nonneg_right g2 hspos.le

/-- The scaled value is moderate. -/
theorem Covered.scaled {A B : ℚ} (h : Covered ft x n dt s z A B) (hdt : dt.isQuant = true) (hf : AllFin ft x n)
    (h1 : 1 / 2 ^ 126 ≤ s.toRat) (h2 : s.toRat ≤ 2 ^ 119) {i : Nat} (hi : i < n) :
    (scaled (elem ft.dtype x.data 0 i) s).isFin = true ∧ |(scaled (elem ft.dtype x.data 0 i) s).toRat - (elem ft.dtype x.data 0 i).toRat / s.toRat| ≤ 1 / 2 ^ 14 ∧
      |(scaled (elem ft.dtype x.data 0 i) s).toRat| ≤ 2 ^ 30 := by
  have hspos : 0 < s.toRat := lt_of_lt_of_le (by positivity) h1
  have hsf : s.isFin = true := isFin_of_abs (by
    rw [abs_of_pos hspos, emax_f32]; exact lt_of_le_of_lt h2 (by norm_num))
  have g := h.abs hdt hi
  obtain ⟨k1, k2⟩ := scaled_near (hf i hi) hsf h1 (h2.trans (by norm_num)) g
  refine ⟨k1, k2, ?_⟩
  rw [abs_le] at k2 g ⊢
  constructor <;> norm_num at k2 ⊢ <;> linarith

/-- Every mode is defined on moderate values. -/
theorem defined_of {p : F32} (h1 : p.isFin = true) (h2 : |p.toRat| ≤ 2 ^ 30) (hz : 0 ≤ z ∧ z ≤ 255) (hτ : Threshold mode τ) : Defined mode τ p z := by
  cases mode
  · have h3 := rha_err p.toRat
    rw [abs_le] at h2 h3
    have h4 : (rha p.toRat : ℚ) ≤ ((2 ^ 30 + 1 : ℤ) : ℚ) := by push_cast; linarith
    have h5 : ((-2 ^ 30 - 1 : ℤ) : ℚ) ≤ (rha p.toRat : ℚ) := by push_cast; linarith
    have h4 : rha p.toRat ≤ 2 ^ 30 + 1 := by exact_mod_cast h4
    have h5 : -2 ^ 30 - 1 ≤ rha p.toRat := by exact_mod_cast h5
    refine ⟨h1, ?_, ?_⟩ <;> norm_num at h4 h5 ⊢ <;> omega
  · exact ⟨h1, h2.trans (by norm_num), hτ rfl⟩

theorem rounded_tol (hτ : Threshold mode τ) (p : ℚ) : |(rounded mode τ.toRat p : ℚ) - p| ≤ tol mode + 1 / 2 ^ 25 := by
  cases mode
  · exact (rha_err p).trans (by unfold tol; norm_num)
  · exact (err_of_bounds (sround_bounds (hτ rfl).2)).trans (by unfold tol; norm_num)

theorem half_le_tol : 1 / 2 ≤ tol mode := by cases mode <;> unfold tol <;> norm_num

/-- Numerical core of C55 and C56. -/
theorem Covered.close {A B : ℚ} (h : Covered ft x n dt s z A B) (hdt : dt.isQuant = true) (hf : AllFin ft x n)
    (h1 : 1 / 2 ^ 126 ≤ s.toRat) (h2 : s.toRat ≤ 2 ^ 119) {i : Nat} (hi : i < n) {r : ℤ}
    (hr : |(r:ℚ) - (Spec.scaled (elem ft.dtype x.data 0 i) s).toRat| ≤ tol mode + 1 / 2 ^ 25) :
    CloseIn mode s (elem ft.dtype x.data 0 i) (dequant s z (sat dt.bits (r + z)).toNat) := by
  have hspos : 0 < s.toRat := lt_of_lt_of_le (by positivity) h1
  have hsf : s.isFin = true := isFin_of_abs (by
    rw [abs_of_pos hspos, emax_f32]; exact lt_of_le_of_lt h2 (by norm_num))
  have hQ := qmax_bounds hdt
  have hzp := h.zp
  have hk : |sat dt.bits (r + z) - z| ≤ 255 := by
    rw [abs_le]; unfold sat; omega
  have h0 : 0 ≤ sat dt.bits (r + z) := by unfold sat; omega
  have := rt_core_mode (e := tol mode) h.zp half_le_tol h.off h.len (h.quo i hi) (h.scaled hdt hf h1 h2 hi).2.1 hr
  unfold dequant
  rw [Int.toNat_of_nonneg h0]
  exact near_of hk hsf h1 h2 this

/-! ## C55 -/

theorem fused_close {A B : ℚ} (h : Covered ft x n dt s z A B) (hft : ft = .f32) (hq : QArgs c.threads x ft.dtype dt n) (hf : AllFin ft x n)
    (h1 : 1 / 2 ^ 126 ≤ s.toRat) (h2 : s.toRat ≤ 2 ^ 119) (hτ : Threshold mode τ) :
    Always NoFault (fused c x .f32 o (4 * n) dt s z mode .set τ) (span o (4 * n)) m0 (fun m =>
      ∀ i, i < n → CloseIn mode s (elem .f32 x.data 0 i) (f32At m (o + 4 * i))) := by
  subst hft
  have hQ := qmax_bounds hq.outQuant
  have hzp := h.zp
  have hzs : ZpSub z := by unfold ZpSub; norm_num; omega
  refine (C32_fused_f32_formula (op := .set) hq hzs (fun i hi => ?_)).mono (fun _ h => h) (fun m hm i hi => ?_)
  · obtain ⟨g1, _, g2⟩ := h.scaled hq.outQuant hf h1 h2 hi
    exact defined_of g1 g2 ⟨hzp.1, by omega⟩ hτ
  · have e := hm i hi
    rw [e]
    show CloseIn mode s _ (dequant s z (sat dt.bits (rounded mode τ.toRat (scaled (elem .f32 x.data 0 i) s).toRat + z)).toNat)
    exact h.close hq.outQuant hf h1 h2 hi (rounded_tol hτ _)

/-- C55. Fake quantization (the fused call, float32, SET) with any scale in `[2^-126, 2^119]` and any
zero point that is a code: every element inside the representable range moves by at most half a step
(nearest) or one step (stochastic), up to `2^-12` of a step. -/
theorem C55_fused_error (hq : QArgs c.threads x .f32 dt n) (hf : AllFin .f32 x n)
    (hz : 0 ≤ z ∧ z ≤ 2 ^ dt.bits - 1) (h1 : 1 / 2 ^ 126 ≤ s.toRat) (h2 : s.toRat ≤ 2 ^ 119) (hx : InRange .f32 x n dt s z) (hτ : Threshold mode τ) :
    Always NoFault (fused c x .f32 o (4 * n) dt s z mode .set τ) (span o (4 * n)) m0 (fun m =>
      ∀ i, i < n → CloseIn mode s (elem .f32 x.data 0 i) (f32At m (o + 4 * i))) :=
  fused_close (covered_inRange (ft := .f32) hz (lt_of_lt_of_le (by positivity) h1) hx) rfl hq hf h1 h2 hτ

/-- `C55_fused_error` applied to a concrete case. -/
example := C55_fused_error (x := Ex.many) (n := 70) (dt := .uint8) (c := Ex.c1) (o := 1000) (m0 := Ex.old) (s := Ex.tenth) (τ := Ex.quarter) (z := 64)
    (mode := .stochastic) (hq := by wit) (hf := by wit) (hz := by wit) (h1 := by wit) (h2 := by wit) (hx := by wit) (hτ := by wit)

/-- C55 with parameters computed from the data, for data around zero (SSE4.2 searches that miss an extreme
excluded, see C22). -/
theorem C55_fused_error_computed (h : PArgs .f32 x n blocks dt) (hn : 0 < n) (hf : AllFin .f32 x n) (hs : Sees isa .f32 x n blocks) {lo hi : ℚ}
    (hr : Range .f32 x.data n lo hi) (h0 : lo ≤ 0 ∧ 0 ≤ hi) (he : computeQuantConfigFromData isa .f32 x blocks dt = .ret (s, z))
    (h1 : 1 / 2 ^ 126 ≤ s.toRat) (h2 : s.toRat ≤ 2 ^ 119) (hq : QArgs c.threads x .f32 dt n) (hτ : Threshold mode τ) :
    Always NoFault (fused c x .f32 o (4 * n) dt s z mode .set τ) (span o (4 * n)) m0 (fun m =>
      ∀ i, i < n → CloseIn mode s (elem .f32 x.data 0 i) (f32At m (o + 4 * i))) := by
  obtain ⟨A, B, hc⟩ := covered_computed (ft := .f32) h hn hf hs hr h0 he h1 h2
  exact fused_close hc rfl hq hf h1 h2 hτ

/-- `C55_fused_error_computed` applied to a concrete case. -/
example := C55_fused_error_computed (isa := .avx512f) (x := Ex.many) (n := 70) (blocks := Ex.blocks) (dt := .uint8) (c := Ex.c1) (o := 1000)
    (m0 := Ex.old) (s := Ex.manyS) (τ := Ex.quarter) (z := 128) (mode := .stochastic) (h := by wit) (hn := by wit) (hf := by wit) (hs := by wit)
    (lo := (-25 / 4)) (hi := (25 / 4)) (hr := by wit) (h0 := by wit) (he := retIs_iff (by decide +kernel)) (h1 := by wit) (h2 := by wit) (hq := by wit)
    (hτ := by wit)

/-! ## C56 -/

theorem stoch_close {A B : ℚ} (h : Covered ft x n dt s z A B) (hq : QArgs c.threads x ft.dtype dt n) (hf : AllFin ft x n) (h' : Sizes n c'.threads)
    (h1 : 1 / 2 ^ 126 ≤ s.toRat) (h2 : s.toRat ≤ 2 ^ 119) (hτ : Threshold .stochastic τ) :
    Always NoFault (quantize c x ft.dtype o (bytes dt.bits n) dt s z .stochastic τ) (span o (bytes dt.bits n)) m0 (fun m =>
      ∀ sz, bytes dt.bits n ≤ sz → Readable dt .f32 n sz →
        Always NoFault (dequantize c' ⟨sz, fun a => m (o + a)⟩ (bytes dt.bits n) dt o' (4 * n) .f32 s z .set) (span o' (4 * n)) m0' (fun m' =>
          ∀ i, i < n → CloseIn .stochastic s (elem ft.dtype x.data 0 i) (f32At m' (o' + 4 * i)))) := by
  have hdt := hq.outQuant
  have hQ := qmax_bounds hdt
  have hzp := h.zp
  have hzs : ZpSub z := by unfold ZpSub; norm_num; omega
  have hz32 : Zp32 z := by unfold Zp32; norm_num; omega
  have hx : ExactKernel c.isa ft.dtype dt .stochastic := Or.inr (Or.inr (Or.inl rfl))
  refine (quantize_vals (mode := .stochastic) hq hz32 (fun i hi => ?_) (Or.inl hx)).mono (fun _ h => h) (fun m hm sz hsz hrd => ?_)
  · obtain ⟨g1, _, g2⟩ := h.scaled hdt hf h1 h2 hi
    exact defined_of g1 g2 ⟨hzp.1, by omega⟩ hτ
  refine (C09_dequantize_f32_formula (c := c') ⟨hdt, rfl, hsz, h'⟩ hrd hzs).mono (fun _ h => h) (fun m' hm' i hi => ?_)
  rw [hm' i hi]
  have e : code dt.bits (fun a => m (o + a)) 0 i = code dt.bits m o i := code_shift _ _ _ _
  rw [show (InBuf.data ⟨sz, fun a => m (o + a)⟩) = fun a => m (o + a) from rfl, e]
  have g : (code dt.bits m o i : ℤ) = sat dt.bits (rounded .stochastic τ.toRat (scaled (elem ft.dtype x.data 0 i) s).toRat + z) :=
    (hm.1 i hi).resolve_right (fun h => h.1 hx)
  have g2 : code dt.bits m o i = (sat dt.bits (rounded .stochastic τ.toRat (scaled (elem ft.dtype x.data 0 i) s).toRat + z)).toNat := by
    rw [← g, Int.toNat_natCast]
  rw [g2]
  exact h.close hdt hf h1 h2 hi (rounded_tol hτ _)

/-- C56. Stochastic quantization followed by dequantization to float32 (any kernels, thread counts,
schedules): every element inside the representable range comes back within one step. -/
theorem C56_stochastic_roundtrip (hq : QArgs c.threads x ft.dtype dt n) (h' : Sizes n c'.threads) (hf : AllFin ft x n)
    (hz : 0 ≤ z ∧ z ≤ 2 ^ dt.bits - 1) (h1 : 1 / 2 ^ 126 ≤ s.toRat) (h2 : s.toRat ≤ 2 ^ 119) (hx : InRange ft x n dt s z) (hτ : Threshold .stochastic τ) :
    Always NoFault (quantize c x ft.dtype o (bytes dt.bits n) dt s z .stochastic τ) (span o (bytes dt.bits n)) m0 (fun m =>
      ∀ sz, bytes dt.bits n ≤ sz → Readable dt .f32 n sz →
        Always NoFault (dequantize c' ⟨sz, fun a => m (o + a)⟩ (bytes dt.bits n) dt o' (4 * n) .f32 s z .set) (span o' (4 * n)) m0' (fun m' =>
          ∀ i, i < n → CloseIn .stochastic s (elem ft.dtype x.data 0 i) (f32At m' (o' + 4 * i)))) :=
  stoch_close (covered_inRange hz (lt_of_lt_of_le (by positivity) h1) hx) hq hf h' h1 h2 hτ

/-- `C56_stochastic_roundtrip` applied to a concrete case. -/
example := C56_stochastic_roundtrip (ft := .f32) (x := Ex.many) (n := 70) (dt := .uint8) (c := Ex.c1) (c' := Ex.c2) (o := 1000) (o' := 3000)
    (m0 := Ex.old) (m0' := Ex.old) (s := Ex.tenth) (τ := Ex.quarter) (z := 64) (hq := by wit) (h' := by wit) (hf := by wit) (hz := by wit)
    (h1 := by wit) (h2 := by wit) (hx := by wit) (hτ := by wit)

/-- C56 with parameters computed from the data, for data around zero (SSE4.2 searches that miss an extreme
excluded, see C22). -/
theorem C56_stochastic_roundtrip_computed (h : PArgs ft x n blocks dt) (hn : 0 < n) (hf : AllFin ft x n) (hs : Sees isa ft x n blocks) {lo hi : ℚ}
    (hr : Range ft.dtype x.data n lo hi) (h0 : lo ≤ 0 ∧ 0 ≤ hi) (he : computeQuantConfigFromData isa ft x blocks dt = .ret (s, z))
    (h1 : 1 / 2 ^ 126 ≤ s.toRat) (h2 : s.toRat ≤ 2 ^ 119) (hq : QArgs c.threads x ft.dtype dt n) (h' : Sizes n c'.threads) (hτ : Threshold .stochastic τ) :
    Always NoFault (quantize c x ft.dtype o (bytes dt.bits n) dt s z .stochastic τ) (span o (bytes dt.bits n)) m0 (fun m =>
      ∀ sz, bytes dt.bits n ≤ sz → Readable dt .f32 n sz →
        Always NoFault (dequantize c' ⟨sz, fun a => m (o + a)⟩ (bytes dt.bits n) dt o' (4 * n) .f32 s z .set) (span o' (4 * n)) m0' (fun m' =>
          ∀ i, i < n → CloseIn .stochastic s (elem ft.dtype x.data 0 i) (f32At m' (o' + 4 * i)))) := by
  obtain ⟨A, B, hc⟩ := covered_computed h hn hf hs hr h0 he h1 h2
  exact stoch_close hc hq hf h' h1 h2 hτ

/-- `C56_stochastic_roundtrip_computed` applied to a concrete case. -/
example := C56_stochastic_roundtrip_computed (isa := .avx512f) (ft := .f32) (x := Ex.many) (n := 70) (blocks := Ex.blocks) (dt := .uint8) (c := Ex.c1)
    (c' := Ex.c2) (o := 1000) (o' := 3000) (m0 := Ex.old) (m0' := Ex.old) (s := Ex.manyS) (τ := Ex.quarter) (z := 128) (h := by wit) (hn := by wit)
    (hf := by wit) (hs := by wit) (lo := (-25 / 4)) (hi := (25 / 4)) (hr := by wit) (h0 := by wit) (he := retIs_iff (by decide +kernel)) (h1 := by wit)
    (h2 := by wit) (hq := by wit) (h' := by wit) (hτ := by wit)

/-! ## C54 -/

/-- C54. Fake quantization is idempotent: running the fused call (float32, SET, any mode; any scale in
`[2^-126, 2^119]`, any zero point that is a code; any data on which it is defined, saturating or not), and
then running it again on its own result with nearest rounding, returns the same floats.
Contexts, thread counts, schedules and addresses of the two calls may differ. -/
theorem C54_fused_idempotent (hq : QArgs c.threads x .f32 dt n) (h' : Sizes n c'.threads)
    (hz : 0 ≤ z ∧ z ≤ 2 ^ dt.bits - 1) (h1 : 1 / 2 ^ 126 ≤ s.toRat) (h2 : s.toRat ≤ 2 ^ 119)
    (hd : ∀ i, i < n → Defined mode τ (scaled (elem .f32 x.data 0 i) s) z) :
    Always NoFault (fused c x .f32 o (4 * n) dt s z mode .set τ) (span o (4 * n)) m0 (fun m =>
      Always NoFault (fused c' ⟨4 * n, fun a => m (o + a)⟩ .f32 o' (4 * n) dt s z .nearest .set τ') (span o' (4 * n)) m0' (fun m' =>
        ∀ i, i < n → f32At m' (o' + 4 * i) = f32At m (o + 4 * i))) := by
  have hspos : 0 < s.toRat := lt_of_lt_of_le (by positivity) h1
  have hsf : s.isFin = true := isFin_of_abs (by
    rw [abs_of_pos hspos, emax_f32]; exact lt_of_le_of_lt h2 (by norm_num))
  have hQ := qmax_bounds hq.outQuant
  have hzs : ZpSub z := by unfold ZpSub; norm_num; omega
  refine (C32_fused_f32_formula (op := .set) hq hzs hd).mono (fun _ h => h) (fun m hm => ?_)
  have key : ∀ i, i < n → ∃ k : ℕ, (k:ℤ) ≤ 2 ^ dt.bits - 1 ∧ f32At m (o + 4 * i) = dequant s z k := fun i hi => by
    refine ⟨_, ?_, hm i hi⟩
    rw [Int.toNat_of_nonneg (by unfold sat; omega)]
    unfold sat; omega
  have e : ∀ i, elem .f32 (fun a => m (o + a)) 0 i = f32At m (o + 4 * i) := fun i => by
    show f32At (fun a => m (o + a)) (0 + 4 * i) = _
    rw [f32At_shift, Nat.zero_add]
  have near : ∀ i, i < n → ∃ k : ℕ, (k:ℤ) ≤ 2 ^ dt.bits - 1 ∧ f32At m (o + 4 * i) = dequant s z k ∧ (scaled (f32At m (o + 4 * i)) s).isFin = true ∧
      rha (scaled (f32At m (o + 4 * i)) s).toRat = k - z := fun i hi => by
    obtain ⟨k, k1, k2⟩ := key i hi
    have hk : |(k:ℤ) - z| ≤ 255 := by rw [abs_le]; omega
    obtain ⟨r1, r2⟩ := rescaled_near hk hsf h1 h2
    have k3 : f32At m (o + 4 * i) = Flt.mul (Flt.ofInt f32 ((k:ℤ) - z)) s := k2
    refine ⟨k, k1, k2, by rw [k3]; exact r1, ?_⟩
    rw [k3]
    exact rha_near (lt_of_le_of_lt r2 (by norm_num))
  have hd' : ∀ i, i < n → Defined .nearest τ' (scaled (elem .f32 (InBuf.data ⟨4 * n, fun a => m (o + a)⟩) 0 i) s) z := fun i hi => by
    show Defined .nearest τ' (scaled (elem .f32 (fun a => m (o + a)) 0 i) s) z
    rw [e]
    obtain ⟨k, k1, _, k3, k4⟩ := near i hi
    refine ⟨k3, ?_, ?_⟩ <;> rw [k4] <;> norm_num <;> omega
  refine (C32_fused_f32_formula (c := c') (x := ⟨4 * n, fun a => m (o + a)⟩) (op := .set) (τ := τ') ⟨rfl, hq.outQuant, rfl, h'⟩ hzs hd').mono (fun _ h => h) (fun m' hm' i hi => ?_)
  obtain ⟨k, k1, k2, k3, k4⟩ := near i hi
  have g := hm' i hi
  have e' : elem .f32 (InBuf.data ⟨4 * n, fun a => m (o + a)⟩) 0 i = f32At m (o + 4 * i) := e i
  rw [e'] at g
  have g : f32At m' (o' + 4 * i) = dequant s z (sat dt.bits (rha (scaled (f32At m (o + 4 * i)) s).toRat + z)).toNat := g
  rw [g, k4, sub_add_cancel, sat_id (by positivity) k1, Int.toNat_natCast, k2]

/-- `C54_fused_idempotent` applied to a concrete case. -/
example := C54_fused_idempotent (x := Ex.many) (n := 70) (dt := .uint8) (c := Ex.c1) (c' := Ex.c2) (o := 1000) (o' := 3000) (m0 := Ex.old)
    (m0' := Ex.old) (s := Ex.tenth) (τ := Ex.quarter) (τ' := Ex.half) (z := 64) (mode := .nearest) (hq := by wit) (h' := by wit) (hz := by wit)
    (h1 := by wit) (h2 := by wit) (hd := by wit)

/-- The hypotheses of C54, C55 and C56 on 1, -2.5, 0.3, 7.75, 100 with scale 0.5 and zero point 10, and
on saturating data (scale 0.1, uint4, zero point 3), for both modes. -/
example : QArgs 3 Ex.xs .f32 .uint8 5 ∧ AllFin .f32 Ex.xs 5 ∧ 1 / 2 ^ 126 ≤ Ex.half.toRat ∧ Ex.half.toRat ≤ 2 ^ 119 ∧ InRange .f32 Ex.xs 5 .uint8 Ex.half 10 ∧
    Threshold .stochastic Ex.quarter ∧ QArgs 3 Ex.xs .f32 .uint4 5 ∧ 1 / 2 ^ 126 ≤ Ex.tenth.toRat ∧ Ex.tenth.toRat ≤ 2 ^ 119 ∧
    (∀ i, i < 5 → Defined .nearest f0 (scaled (elem .f32 Ex.xs.data 0 i) Ex.tenth) 3) ∧
    ∀ i, i < 5 → Defined .stochastic Ex.quarter (scaled (elem .f32 Ex.xs.data 0 i) Ex.tenth) 3 := by
  refine ⟨⟨rfl, rfl, rfl, by omega, by norm_num, by norm_num⟩, ?_, by decide +kernel, by decide +kernel, ?_, fun _ => by decide +kernel,
    ⟨rfl, rfl, rfl, by omega, by norm_num, by norm_num⟩, by decide +kernel, by decide +kernel, by decide +kernel, by decide +kernel⟩
  · unfold AllFin; decide +kernel
  · unfold InRange
    show ∀ i, i < 5 → ((0 - 10 : ℤ) : ℚ) * Ex.half.toRat ≤ (elem .f32 Ex.xs.data 0 i).toRat ∧ (elem .f32 Ex.xs.data 0 i).toRat ≤ ((2 ^ 8 - 1 - 10 : ℤ) : ℚ) * Ex.half.toRat
    decide +kernel

/-- C54 does not extend to stochastic rounding: the value of code 13 for scale 0.1f (bits 0x3fa66667) is a
grid point, but its scaled value is not exactly 13; with threshold 0 the stochastic fused call moves it to the value
of code 14. -/
theorem C54_false_stochastic :
    Always NoFault (fused ⟨.portable, 1, .none⟩ (Ex.buf (Ex.words32 [0x3fa66667])) .f32 64 4 .uint4 Ex.tenth 0 .nearest .set f0) (span 64 4) Ex.old
      (fun m => f32At m 64 = dequant Ex.tenth 0 13 ∧ (dequant Ex.tenth 0 13).toBits = 0x3fa66667) ∧
    Always NoFault (fused ⟨.portable, 1, .none⟩ (Ex.buf (Ex.words32 [0x3fa66667])) .f32 64 4 .uint4 Ex.tenth 0 .stochastic .set f0) (span 64 4) Ex.old
      (fun m => f32At m 64 = dequant Ex.tenth 0 14) := by
  constructor
  · refine (fused_result (c := ⟨.portable, 1, .none⟩) (dtOut := .uint4) (n := 1) (o := 64) (m0 := Ex.old) (l := [0x67, 0x66, 0xa6, 0x3f]) ⟨rfl, rfl, rfl, sz 1 1⟩ (by decide +kernel)).mono (fun _ h => h) (fun m hm => ?_)
    have hm : [m 64, m 65, m 66, m 67] = [0x67, 0x66, 0xa6, 0x3f] := hm
    simp only [List.cons.injEq, and_true] at hm
    refine ⟨?_, by decide +kernel⟩
    unfold f32At; rw [hm.1, hm.2.1, hm.2.2.1, hm.2.2.2]; decide +kernel
  · refine (fused_result (c := ⟨.portable, 1, .none⟩) (dtOut := .uint4) (n := 1) (o := 64) (m0 := Ex.old) (l := [0x33, 0x33, 0xb3, 0x3f]) ⟨rfl, rfl, rfl, sz 1 1⟩ (by decide +kernel)).mono (fun _ h => h) (fun m hm => ?_)
    have hm : [m 64, m 65, m 66, m 67] = [0x33, 0x33, 0xb3, 0x3f] := hm
    simp only [List.cons.injEq, and_true] at hm
    unfold f32At; rw [hm.1, hm.2.1, hm.2.2.1, hm.2.2.2]; decide +kernel

end Verif.Props
