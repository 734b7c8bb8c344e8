import Verif.Proofs.DequantMain
import Verif.Proofs.Arith

/-! # Values computed by the dequantize kernels, in specification terms -/

namespace Verif
open Spec Simd

theorem wrap32_zpSub {zp : ℤ} (h : ZpSub zp) : wrap32 zp = zp := wrap32_id (by unfold ZpSub at h; unfold inI32; omega)

theorem dqRange_of {dt : DType} {ft : FT} {zp : ℤ} {q : Nat} (h : ZpSub zp) (hq : q < 256) : DqRange dt ft zp q := by
  have hw := wrap32_zpSub h
  unfold ZpSub at h
  unfold DqRange
  split
  · unfold inI64; omega
  · trivial
  · rw [hw]; unfold inI32; omega

theorem dqMul_eq {scale : F32} {zp : ℤ} {q : Nat} (h : ZpSub zp) (hq : q < 256) : dqMul scale zp q = dequant scale zp q := by
  unfold dqMul dequant
  rw [wrap32_id (by unfold ZpSub at h; unfold inI32; omega)]

theorem dqMulT_eq {b : Bool} {scale : F32} {zp : ℤ} {q : Nat} (h : ZpSub zp) (hq : q < 256) :
    dqMulT b scale zp q = Term.prod b (Flt.ofInt f32 (q - zp)) scale := by
  unfold dqMulT
  rw [wrap32_id (by unfold ZpSub at h; unfold inI32; omega)]

theorem dqF_eq {b : Bool} {dt : DType} {scale : F32} {zp : ℤ} {q : Nat} (h : ZpSub zp) (hq : q < 256) :
    dqF b dt scale zp q = Term.prod b (Flt.ofInt f32 (q - zp)) scale := by
  unfold dqF
  split
  · rfl
  · rw [wrap32_zpSub h]; exact dqMulT_eq h hq

/-- The result of storing or adding a product, in specification terms. -/
theorem opF_spec {b : Bool} {op : ReduceOp} {old scale : F32} {zp : ℤ} {q : Nat} :
    opF op old (Term.prod b (Flt.ofInt f32 (q - zp)) scale) = store op b old scale zp q := by
  cases op <;> rfl

theorem sub_ofInt {q : Nat} {zp : ℤ} (hq : q < 256) (hz : |zp| ≤ 2 ^ 24) : Flt.sub (Flt.ofInt f32 q) (Flt.ofInt f32 zp) = Flt.ofInt f32 (q - zp) := by
  have hq' : |(q:ℤ)| ≤ 2 ^ (f32.mb + 1) := by rw [abs_of_nonneg (by positivity)]; show (q:ℤ) ≤ 2 ^ 24; norm_num; omega
  obtain ⟨e1, f1⟩ := ofInt_exact (f := f32) (z := (q:ℤ)) hq'
  obtain ⟨e2, f2⟩ := ofInt_exact (f := f32) (z := zp) hz
  unfold Flt.sub
  rw [add_fin f1 (by rw [negate_isFin]; exact f2), negate_toRat, e1, e2]
  have hneg : (Flt.ofInt f32 (q:ℤ)).neg = false := by
    unfold Flt.ofInt Flt.ofRat
    split
    · rfl
    · simp
  rw [hneg, Bool.false_and]
  unfold Flt.ofInt
  congr 1
  push_cast; ring

theorem dqB_eq {dt : DType} {scale : F32} {zp : ℤ} {q : Nat} (h : ZpSub zp) (hq : q < 256) (h2 : dt = .uint2 → |zp| ≤ 2 ^ 24) :
    dqB dt scale zp q = dequant scale zp q := by
  unfold dqB
  rw [wrap32_zpSub h]
  split
  · unfold dqStepU2Bf16 dequant
    rw [sub_ofInt hq (h2 rfl)]
  · exact dqMul_eq h hq

theorem code_lt256 {dt : DType} (hdt : dt.isQuant = true) (m : Mem) (o i : Nat) : code dt.bits m o i < 256 := by
  unfold code
  have h1 := Nat.mod_lt (m (o + dt.bits * i / 8) / 2 ^ (dt.bits * i % 8)) (Nat.two_pow_pos dt.bits)
  have h2 : 2 ^ dt.bits ≤ 256 := by cases dt <;> simp [DType.isQuant] at hdt <;> decide
  omega

theorem code_le {dt : DType} (m : Mem) (o i : Nat) : code dt.bits m o i ≤ 2 ^ dt.bits - 1 := by
  unfold code
  have h1 := Nat.mod_lt (m (o + dt.bits * i / 8) / 2 ^ (dt.bits * i % 8)) (Nat.two_pow_pos dt.bits)
  omega

/-! ## NaN results -/

theorem mul_nan {f : Fmt} {a b : Flt f} (h : (Flt.mul a b).isNaN = true) : Flt.mul a b = Flt.nan := by
  unfold Flt.mul at h ⊢
  split
  · rfl
  · rename_i h1; rw [if_neg h1] at h
    split
    · rename_i h2; rw [if_pos h2] at h
      split
      · rfl
      · rename_i h3; rw [if_neg h3] at h; simp [Flt.inf, Flt.isNaN] at h
    · rename_i h2; rw [if_neg h2] at h
      simp [Flt.isNaN, Flt.roundAbs] at h

theorem ofRat_nan {f : Fmt} {q : ℚ} {z : Bool} : (Flt.ofRat f q z).isNaN = false := by
  unfold Flt.ofRat
  split <;> simp [Flt.isNaN, Flt.roundAbs]

theorem add_nan {f : Fmt} {a b : Flt f} (h : (Flt.add a b).isNaN = true) : Flt.add a b = Flt.nan := by
  unfold Flt.add at h ⊢
  split
  · rfl
  · rename_i h1; rw [if_neg h1] at h
    have h1' : a.isNaN = false ∧ b.isNaN = false := by simpa using h1
    split
    · rename_i h2; rw [if_pos h2] at h
      split
      · rfl
      · rename_i h3; rw [if_neg h3, h1'.1] at h; cases h
    · rename_i h2; rw [if_neg h2] at h
      split
      · rename_i h3; rw [if_pos h3, h1'.2] at h; cases h
      · rename_i h3; rw [if_neg h3, ofRat_nan] at h; cases h

theorem fma_nan {f : Fmt} {a b c : Flt f} (h : (Flt.fma a b c).isNaN = true) : Flt.fma a b c = Flt.nan := by
  unfold Flt.fma at h ⊢
  split
  · rfl
  · rename_i h1; rw [if_neg h1] at h
    split
    · rename_i h2; rw [if_pos h2] at h
      split
      · rfl
      · rename_i h3; rw [if_neg h3] at h
        split
        · rfl
        · rename_i h4; rw [if_neg h4] at h; simp [Flt.inf, Flt.isNaN] at h
    · rename_i h2; rw [if_neg h2] at h
      split
      · rename_i h3; rw [if_pos h3] at h
        simp at h1
        rw [h1.2] at h; cases h
      · rename_i h3; rw [if_neg h3, ofRat_nan] at h; cases h

theorem Term.prod_nan {b : Bool} {d s old : F32} (h : ((Term.prod b d s).plus old).isNaN = true) : (Term.prod b d s).plus old = Flt.nan := by
  cases b
  · exact add_nan h
  · exact fma_nan h

theorem dqV_nan (b : Bool) (dt : DType) (scale : F32) (zp : ℤ) (q : Nat) (old : F32) (h : ((dqV b dt scale zp q).plus old).isNaN = true) :
    (dqV b dt scale zp q).plus old = Flt.nan := by
  unfold dqV at h ⊢
  split at h
  · exact Term.prod_nan h
  · exact add_nan h

/-! ## The vector bf16 conversions -/

/-- `w` is what a bf16 conversion that flushes denormals makes of `v`. -/
def Flushed (v : F32) (w : Nat) : Prop := |v.toRat| < 1 / 2 ^ 126 ∧ w % 32768 = 0

theorem cvtB_spec {isa : Isa} {v : F32} (hv : v.Valid) (hn : v.isNaN = true → v = Flt.nan) :
    IsBf16Of v (cvtB isa v) ∨ (isa = .avx512bf16 ∧ v.isFin = true ∧ Flushed v (cvtB isa v)) := by
  have hlt := toBits_lt hv
  have hb : v.toBits % 2147483648 = v.mag := by
    have h' : v.mag < 2147483648 := by rw [← magLim_f32]; exact hv
    rw [toBits_eq]; split <;> omega
  by_cases hnan : v.isNaN = true
  · left
    rw [hn hnan]
    unfold IsBf16Of
    rw [if_pos (by decide)]
    unfold cvtB
    split <;> decide
  · have hm : v.mag ≤ 2139095040 := by
      have : ¬ f32.infMag < v.mag := by simpa [Flt.isNaN] using hnan
      rw [infMag_f32] at this; omega
    have key : IsBf16Of v (f32ToBf16Bits v.toBits) := isBf16Of_f32ToBf16 hv
    unfold cvtB
    split
    · rename_i hi
      by_cases hd : v.mag = 0 ∨ 8388608 ≤ v.mag
      · left; rw [cvtnepsBits_eq (by rw [hb]; exact hd) hlt]; exact key
      · right
        rw [not_or, not_le] at hd
        refine ⟨hi, ?_, ?_, ?_⟩
        · unfold Flt.isFin; rw [decide_eq_true_eq, infMag_f32]; omega
        · rw [toRat_abs]
          unfold Flt.absRat
          rw [unit_f32, show f32.mb = 23 from rfl, magVal_small (by norm_num; omega), div_lt_div_iff₀ (by positivity) (by positivity)]
          have : (v.mag : ℚ) < 8388608 := by exact_mod_cast hd.2
          have e : (2:ℚ) ^ 149 = 8388608 * 2 ^ 126 := by norm_num
          rw [e, one_mul]
          exact mul_lt_mul_of_pos_right this (by positivity)
        · unfold cvtnepsBits
          simp only
          have e1 : (v.toBits >>> 23) &&& 0xff = 0 := by
            rw [show (0xff : Nat) = 2 ^ 8 - 1 by norm_num, Nat.and_two_pow_sub_one_eq_mod, Nat.shiftRight_eq_div_pow]
            norm_num; omega
          rw [e1, if_neg (fun h => absurd h.1 (by decide)), if_pos rfl]
          omega
    · left; rw [cvtPsBf16Bits_eq (by rw [hb]; exact hm) hlt]; exact key

theorem bf16ToF32_spec (m : Mem) (a : Nat) : bf16ToF32 (u16At m a) = bf16At m a := by
  unfold bf16ToF32 bf16At
  congr 1
  have : u16At m a < 65536 := by unfold u16At; omega
  omega

theorem bf16ToF32_word {w : Nat} (h : w < 65536) : bf16ToF32 w = Flt.ofBits f32 (65536 * w) := by
  unfold bf16ToF32
  congr 1; omega

theorem f32ToBf16_lt {v : F32} : f32ToBf16 v < 65536 := bf16Bits_lt

end Verif
