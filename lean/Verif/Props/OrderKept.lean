import Verif.Props.Pipeline
import Verif.Props.PipelineBf16
import Verif.Props.Symmetry

/-!
# What survives a round trip: sign and order: C105
-/

namespace Verif.Props
open Spec

section
variable {isa : Isa} {ft : FT} {x : InBuf} {n o o' : Nat} {blocks : List (Nat × Nat)} {dt dtIn : DType} {c c' : Ctx}
  {m0 m0' : Mem} {s τ : F32} {z : ℤ} {mode : RoundMode} {lo hi : ℚ}

theorem rounded_nonneg {t p : ℚ} (hp : 0 ≤ p) : 0 ≤ rounded mode t p := by
  cases mode
  · show 0 ≤ rha p
    unfold rha; rw [if_neg (by linarith)]
    exact Int.floor_nonneg.mpr (by linarith)
  · show 0 ≤ sround t p
    have h0 : 0 ≤ rtz p := by unfold rtz; rw [if_neg (by linarith)]; exact Int.floor_nonneg.mpr hp
    unfold sround
    split
    · rw [if_neg (by linarith)]; omega
    · exact h0

theorem rounded_nonpos {t p : ℚ} (ht : mode = .stochastic → 0 ≤ t) (hp : p ≤ 0) : rounded mode t p ≤ 0 := by
  have h1 := rounded_neg (mode := mode) ht (-p)
  rw [neg_neg] at h1
  have h2 := rounded_nonneg (mode := mode) (t := t) (p := -p) (by linarith)
  omega

/-- C105, sign: with any zero point in the code range, quantizing (either mode) and dequantizing to float32 never turns a non-negative
element into a negative one or the other way round; in particular zero comes back as zero.  Every kernel, also on the elements where the
x86 kernels round differently (C08). -/
theorem C105_sign_kept (hq : QArgs c.threads x dtIn dt n) (h' : Sizes n c'.threads) (hz : 0 ≤ z ∧ z ≤ 2 ^ dt.bits - 1)
    (hf : s.isFin = true) (h0 : 0 < s.toRat) (hd : ∀ i, i < n → Defined mode τ (scaled (elem dtIn x.data 0 i) s) z) :
    Always NoFault (quantize c x dtIn o (bytes dt.bits n) dt s z mode τ) (span o (bytes dt.bits n)) m0 (fun m =>
      ∀ sz, bytes dt.bits n ≤ sz → Readable dt .f32 n sz →
        Always NoFault (dequantize c' ⟨sz, fun a => m (o + a)⟩ (bytes dt.bits n) dt o' (4 * n) .f32 s z .set) (span o' (4 * n)) m0' (fun m' =>
          ∀ i, i < n → (0 ≤ (elem dtIn x.data 0 i).toRat → 0 ≤ (f32At m' (o' + 4 * i)).toRat) ∧
            ((elem dtIn x.data 0 i).toRat ≤ 0 → (f32At m' (o' + 4 * i)).toRat ≤ 0))) := by
  have hdt := hq.outQuant
  have hQ := qmax_bounds hdt
  have hz32 : Zp32 z := by unfold Zp32; norm_num; omega
  have hzs : ZpSub z := by unfold ZpSub; norm_num; omega
  refine (quantize_vals hq hz32 hd (Or.inr (by rw [abs_of_nonneg hz.1]; norm_num; omega))).mono (fun _ h => h) (fun m hm sz hsz hrd => ?_)
  refine (C09_dequantize_f32_formula ⟨hdt, rfl, hsz, h'⟩ hrd hzs).mono (fun _ h => h) (fun m' hm' i hi => ?_)
  have ec : code dt.bits (fun a => m (o + a)) 0 i = code dt.bits m o i := by unfold code; simp only [Nat.zero_add]
  rw [hm' i hi, ec]
  have hq256 : code dt.bits m o i < 256 := code_lt256 hdt m o i
  rw [(dequant_toRat hf hzs hq256).1]
  have hv := hm.1 i hi
  set q := code dt.bits m o i
  have inv0 : 0 ≤ (invScale s).toRat := by
    have e : (invScale s).toRat = flr f32 (f1.toRat / s.toRat) := div_toRat (by decide) hf h0.ne'
    have e1 : f1.toRat = 1 := by decide +kernel
    rw [e, e1]; exact flr_nonneg (by positivity)
  have ep := scaled_toRat (defined_fin (hd i hi))
  have hτ := defined_tau (hd i hi)
  set p := (scaled (elem dtIn x.data 0 i) s).toRat
  constructor
  · intro hx
    have hp : 0 ≤ p := by rw [ep]; exact flr_nonneg (mul_nonneg hx inv0)
    have hq : z ≤ q := by
      rcases hv with g | ⟨_, _, g⟩
      · rw [g]; have := rounded_nonneg (mode := mode) (t := τ.toRat) hp; unfold sat; omega
      · rw [g, if_neg (by linarith)]; unfold sat; omega
    apply flr_nonneg
    refine mul_nonneg (flr_nonneg ?_) h0.le
    exact_mod_cast (by omega : (0:ℤ) ≤ (q:ℤ) - z)
  · intro hx
    have hp : p ≤ 0 := by rw [ep]; exact flr_nonpos (mul_nonpos_of_nonpos_of_nonneg hx inv0)
    have hq : q ≤ z := by
      rcases hv with g | ⟨_, g2, g⟩
      · rw [g]; have := rounded_nonpos (mode := mode) hτ hp; unfold sat; omega
      · have hp' : p < 0 := by
          rcases lt_or_eq_of_le hp with h | h
          · exact h
          · exfalso; rw [h, abs_zero] at g2; unfold predHalf at g2; norm_num at g2
        rw [g, if_pos hp']; unfold sat; omega
    apply flr_nonpos
    refine mul_nonpos_of_nonpos_of_nonneg (flr_nonpos ?_) h0.le
    exact_mod_cast (by omega : (q:ℤ) - z ≤ (0:ℤ))

/-- `C105_sign_kept` applied to a concrete case. -/
example := C105_sign_kept (c := Ex.c1) (c' := Ex.c2) (x := Ex.many) (dtIn := .f32) (dt := .uint8) (n := 70) (o := 1000) (o' := 3000) (s := Ex.tenth) (τ := Ex.quarter)
    (z := 64) (mode := .nearest) (m0 := Ex.old) (m0' := Ex.old) (hq := by wit) (h' := by wit) (hz := by wit) (hf := by wit) (h0 := by wit) (hd := by wit)

/-- C105, order: with the parameters computed from the data, two elements more than one step of the ideal grid apart (nearest), or more than two
(stochastic), up to 2^-10 of a step, are still strictly ordered after quantizing and dequantizing to float32.  So an element that
exceeds all others by that margin is still the only largest one.  Every kernel, thread count, schedule and threshold. -/
theorem C105_order_kept (h : PArgs ft x n blocks dt) (hs : Sees isa ft x n blocks) (ha : Around ft x n lo hi)
    (hq : QArgs c.threads x ft.dtype dt n) (h' : Sizes n c'.threads) (hτ : Threshold mode τ) :
    ∃ s z, computeQuantConfigFromData isa ft x blocks dt = .ret (s, z) ∧
      Always NoFault (quantize c x ft.dtype o (bytes dt.bits n) dt s z mode τ) (span o (bytes dt.bits n)) m0 (fun m =>
        ∀ sz, bytes dt.bits n ≤ sz → Readable dt .f32 n sz →
          Always NoFault (dequantize c' ⟨sz, fun a => m (o + a)⟩ (bytes dt.bits n) dt o' (4 * n) .f32 s z .set) (span o' (4 * n)) m0' (fun m' =>
            ∀ i j, i < n → j < n →
              (elem ft.dtype x.data 0 i).toRat + (2 * tol mode + 1 / 2 ^ 10) * step dt lo hi < (elem ft.dtype x.data 0 j).toRat →
              (f32At m' (o' + 4 * i)).toRat < (f32At m' (o' + 4 * j)).toRat)) := by
  obtain ⟨s, z, he, hA⟩ := C80_roundtrip (c := c) (c' := c') (o := o) (o' := o') (m0 := m0) (m0' := m0') (mode := mode) (τ := τ) h hs ha hq h' hτ
  refine ⟨s, z, he, hA.mono (fun _ h => h) (fun m hm sz hsz hrd => (hm sz hsz hrd).mono (fun _ h => h) (fun m' hm' i j hi' hj hij => ?_))⟩
  have e1 := (abs_le.mp (hm' i hi').2).2
  have e2 := (abs_le.mp (hm' j hj).2).1
  have e3 : (2 * tol mode + 1 / 2 ^ 10) * step dt lo hi = step dt lo hi * (tol mode + 1 / 2 ^ 11) + step dt lo hi * (tol mode + 1 / 2 ^ 11) := by ring
  linarith

/-- `C105_order_kept` applied to a concrete case. -/
example := C105_order_kept (isa := .avx512f) (ft := .f32) (x := Ex.many) (n := 70) (blocks := Ex.blocks) (dt := .uint8) (lo := -25 / 4) (hi := 25 / 4) (c := Ex.c1) (c' := Ex.c2)
    (o := 1000) (o' := 3000) (m0 := Ex.old) (m0' := Ex.old) (mode := .stochastic) (τ := Ex.quarter) (h := by wit) (hs := by wit)
    (ha := ⟨by wit, by wit, by norm_num, by norm_num, by norm_num⟩) (hq := by wit) (h' := by wit) (hτ := by wit)

/-- C105, order with bfloat16 results: as `C105_order_kept`, with 1/32 of a step and the resolution of bfloat16 at the two elements added to the margin. -/
theorem C105_order_kept_bf16 (h : PArgs ft x n blocks dt) (hs : Sees isa ft x n blocks) (ha : Around ft x n lo hi)
    (hq : QArgs c.threads x ft.dtype dt n) (h' : Sizes n c'.threads) (hτ : Threshold mode τ) :
    ∃ s z, computeQuantConfigFromData isa ft x blocks dt = .ret (s, z) ∧
      Always NoFault (quantize c x ft.dtype o (bytes dt.bits n) dt s z mode τ) (span o (bytes dt.bits n)) m0 (fun m =>
        ∀ sz, bytes dt.bits n ≤ sz →
          Always NoFault (dequantize c' ⟨sz, fun a => m (o + a)⟩ (bytes dt.bits n) dt o' (2 * n) .bf16 s z .set) (span o' (2 * n)) m0' (fun m' =>
            ∀ i j, i < n → j < n →
              (elem ft.dtype x.data 0 i).toRat + (2 * tol mode + 1 / 32) * step dt lo hi + (|(elem ft.dtype x.data 0 i).toRat| + |(elem ft.dtype x.data 0 j).toRat|) / 127 <
                (elem ft.dtype x.data 0 j).toRat →
              (bf16At m' (o' + 2 * i)).toRat < (bf16At m' (o' + 2 * j)).toRat)) := by
  obtain ⟨s, z, he, hA⟩ := C81_roundtrip_bf16 (c := c) (c' := c') (o := o) (o' := o') (m0 := m0) (m0' := m0') (mode := mode) (τ := τ) h hs ha hq h' hτ
  refine ⟨s, z, he, hA.mono (fun _ h => h) (fun m hm sz hsz => (hm sz hsz).mono (fun _ h => h) (fun m' hm' i j hi' hj hij => ?_))⟩
  have e1 := (abs_le.mp (hm' i hi').2).2
  have e2 := (abs_le.mp (hm' j hj).2).1
  have e3 : (2 * tol mode + 1 / 32) * step dt lo hi = step dt lo hi * (tol mode + 1 / 64) + step dt lo hi * (tol mode + 1 / 64) := by ring
  have e4 : (|(elem ft.dtype x.data 0 i).toRat| + |(elem ft.dtype x.data 0 j).toRat|) / 127 = |(elem ft.dtype x.data 0 i).toRat| / 127 + |(elem ft.dtype x.data 0 j).toRat| / 127 := by ring
  linarith

/-- `C105_order_kept_bf16` applied to a concrete case. -/
example := C105_order_kept_bf16 (isa := .avx512f) (ft := .f32) (x := Ex.many) (n := 70) (blocks := Ex.blocks) (dt := .uint8) (lo := -25 / 4) (hi := 25 / 4) (c := Ex.c1) (c' := Ex.c2)
    (o := 1000) (o' := 3000) (m0 := Ex.old) (m0' := Ex.old) (mode := .stochastic) (τ := Ex.quarter) (h := by wit) (hs := by wit)
    (ha := ⟨by wit, by wit, by norm_num, by norm_num, by norm_num⟩) (hq := by wit) (h' := by wit) (hτ := by wit)

/-- -8, 7, -0.9375, 0.9375: a grid of step 1 for uint4. -/
def apart : InBuf := Ex.buf (Ex.words32 [0xc1000000, 0x40e00000, 0xbf700000, 0x3f700000])
/-- The same with -0.46875, 0.46875. -/
def apart2 : InBuf := Ex.buf (Ex.words32 [0xc1000000, 0x40e00000, 0xbef00000, 0x3ef00000])

/-- The margins of `C105_order_kept` cannot be reduced much: stochastic rounding gives two elements 1.875 steps apart the same code (threshold 0.96875), nearest rounding
two elements 0.9375 steps apart; the parameters (scale 1, zero point 8) are those computed from the data. -/
theorem C105_margin_needed :
    computeQuantConfigFromData .portable .f32 apart [(0, 4)] .uint4 = .ret (f1, 8) ∧ computeQuantConfigFromData .portable .f32 apart2 [(0, 4)] .uint4 = .ret (f1, 8) ∧
    (elem .f32 apart.data 0 3).toRat - (elem .f32 apart.data 0 2).toRat = 15 / 8 ∧ (elem .f32 apart2.data 0 3).toRat - (elem .f32 apart2.data 0 2).toRat = 15 / 16 ∧
    Always NoFault (quantize ⟨.portable, 1, .none⟩ apart .f32 64 2 .uint4 f1 8 .stochastic ⟨false, 0x3f780000⟩) (span 64 2) Ex.old (fun m => code 4 m 64 2 = code 4 m 64 3) ∧
    Always NoFault (quantize ⟨.portable, 1, .none⟩ apart2 .f32 64 2 .uint4 f1 8 .nearest f0) (span 64 2) Ex.old (fun m => code 4 m 64 2 = code 4 m 64 3) := by
  refine ⟨retIs_iff (by decide +kernel), retIs_iff (by decide +kernel), by decide +kernel, by decide +kernel, ?_, ?_⟩
  · refine (quantize_result (dtOut := .uint4) (n := 4) (l := [0xF0, 0x88]) ⟨rfl, rfl, rfl, sz 4 1⟩ (by decide +kernel)).mono (fun _ h => h) (fun m hm => ?_)
    have hm : [m 64, m 65] = [0xF0, 0x88] := hm
    simp only [List.cons.injEq, and_true] at hm
    unfold code
    rw [show 64 + 4 * 2 / 8 = 65 by norm_num, hm.2]; norm_num
  · refine (quantize_result (dtOut := .uint4) (n := 4) (l := [0xF0, 0x88]) ⟨rfl, rfl, rfl, sz 4 1⟩ (by decide +kernel)).mono (fun _ h => h) (fun m hm => ?_)
    have hm : [m 64, m 65] = [0xF0, 0x88] := hm
    simp only [List.cons.injEq, and_true] at hm
    unfold code
    rw [show 64 + 4 * 2 / 8 = 65 by norm_num, hm.2]; norm_num

end
end Verif.Props
