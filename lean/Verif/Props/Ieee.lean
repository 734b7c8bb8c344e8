import Verif.Props.Examples
import Verif.Proofs.IeeeOps
import Verif.Props.Dequant2
import Verif.Props.Quant
import Verif.Props.Params
import Verif.Props.Bf16Arith

/-!
# C86: what calls write, as IEEE 754 bit patterns

The other properties speak about floats through the software floats of the model (`Flt.mul`, `Flt.ofRat`, …).  Here the
results of the calls are stated as relations between the bit patterns in memory, using only SpecIeee.lean.
-/

namespace Verif.Props
open Verif Verif.Spec Verif.Ieee

/-- The 32-bit word at byte address `a` (little endian). -/
def u32At (m : Mem) (a : Nat) : Nat :=
  m a % 256 + 256 * (m (a + 1) % 256) + 65536 * (m (a + 2) % 256) + 16777216 * (m (a + 3) % 256)

theorem u32At_lt (m : Mem) (a : Nat) : u32At m a < 2 ^ 32 := by
  unfold u32At
  have := Nat.mod_lt (m a) (show 0 < 256 by omega)
  have := Nat.mod_lt (m (a + 1)) (show 0 < 256 by omega)
  have := Nat.mod_lt (m (a + 2)) (show 0 < 256 by omega)
  have := Nat.mod_lt (m (a + 3)) (show 0 < 256 by omega)
  omega

theorem toBits_ofBits {w : Nat} (h : w < 2 ^ 32) : (Flt.ofBits f32 w).toBits = w := by
  have e : f32.magLim = 2147483648 := by decide
  unfold Flt.ofBits Flt.toBits
  simp only [e, decide_eq_true_eq]
  split <;> omega

theorem f32At_bits (m : Mem) (a : Nat) : (f32At m a).toBits = u32At m a := toBits_ofBits (u32At_lt m a)

section
variable {c : Ctx} {x : InBuf} {dtIn dtOut dt : DType} {o n sb : Nat} {zp : ℤ} {m0 : Mem} {τ : F32}

/-- The two steps of a dequantized value: the integer, then the product. -/
theorem ieee_dequant (hs : sb < 2 ^ 32) (zp : ℤ) (q : Nat) :
    ∃ d, d < 2 ^ 32 ∧ IsFromInt binary32 (q - zp) d ∧ IsProduct binary32 d sb (dequant (Flt.ofBits f32 sb) zp q).toBits := by
  have h1 : (Flt.ofInt f32 (q - zp)).Valid := valid_ofRat _ _
  refine ⟨(Flt.ofInt f32 (q - zp)).toBits, toBits_lt h1, ieee_ofInt (f := f32) _, ?_⟩
  have := ieee_mul (f := f32) h1 (valid_ofBits sb)
  rw [toBits_ofBits hs] at this
  exact this

/-- C86. dequantize, float32, SET, for every bit pattern of the scale (zero, subnormal, infinite and NaN scales included): the word
stored is `float(code - zero_point) * scale`, both steps as defined by IEEE 754. -/
theorem C86_dequantize_f32 (hs : sb < 2 ^ 32) (h : DArgs c.threads x dtIn .f32 n) (hr : Readable dtIn .f32 n x.size) (hz : ZpSub zp) :
    Always NoFault (dequantize c x (bytes dtIn.bits n) dtIn o (4 * n) .f32 (Flt.ofBits f32 sb) zp .set) (span o (4 * n)) m0
      (fun m => ∀ i, i < n → ∃ d, IsFromInt binary32 (code dtIn.bits x.data 0 i - zp) d ∧ IsProduct binary32 d sb (u32At m (o + 4 * i))) := by
  refine (C09_dequantize_f32_formula h hr hz).mono (fun _ h => h) (fun m hm i hi => ?_)
  obtain ⟨d, _, h1, h2⟩ := ieee_dequant hs zp (code dtIn.bits x.data 0 i)
  rw [← hm i hi, f32At_bits] at h2
  exact ⟨d, h1, h2⟩

/-- `C86_dequantize_f32` applied to a concrete case. -/
example := C86_dequantize_f32 (c := Ex.c1) (x := Ex.codes) (dtIn := .uint4) (o := 1000) (n := 139) (sb := 0x3dcccccd) (zp := 7) (m0 := Ex.old)
    (hs := by wit) (h := by wit) (hr := by wit) (hz := by wit)

/-- An integer of at most 24 bits is a float. -/
theorem ofInt_small {k : ℤ} (hk : |k| ≤ 2 ^ 24) : (Flt.ofInt f32 k).isFin = true ∧ (Flt.ofInt f32 k).toRat = k ∧ (Flt.ofInt f32 k).neg = decide (k < 0) := by
  obtain ⟨h1, h2⟩ := ofInt_exact (f := f32) hk
  refine ⟨h2, h1, ?_⟩
  unfold Flt.ofInt Flt.ofRat
  by_cases h : k = 0
  · subst h; rfl
  · rw [if_neg (by exact_mod_cast h)]
    simp only [Int.cast_lt_zero]

/-- C86, in one step: with a finite scale and `|code - zero_point|` of at most 24 bits the word stored is the *exact* product
`(code - zero_point) * scale`, rounded once, to nearest, ties to even; overflow gives an infinity. -/
theorem C86_dequantize_f32_one_rounding (hs : sb < 2 ^ 32) {s : Bool} {a : ℚ} (hd : decode binary32 sb = .fin s a)
    (h : DArgs c.threads x dtIn .f32 n) (hr : Readable dtIn .f32 n x.size) (hz : |zp| ≤ 2 ^ 24 - 256) :
    Always NoFault (dequantize c x (bytes dtIn.bits n) dtIn o (4 * n) .f32 (Flt.ofBits f32 sb) zp .set) (span o (4 * n)) m0
      (fun m => ∀ i, i < n → Ieee.Rounded binary32 (((code dtIn.bits x.data 0 i : ℤ) - zp : ℤ) * signed s a)
        (decide ((code dtIn.bits x.data 0 i : ℤ) < zp) ^^ s) (u32At m (o + 4 * i))) := by
  have hzs : ZpSub zp := by have := abs_le.mp hz; unfold ZpSub; norm_num at this ⊢; omega
  refine (C09_dequantize_f32_formula h hr hzs).mono (fun _ h => h) (fun m hm i hi => ?_)
  have hk : |(code dtIn.bits x.data 0 i : ℤ) - zp| ≤ 2 ^ 24 := by
    have := code_lt256 h.inQuant x.data 0 i
    have := abs_le.mp hz
    rw [abs_le]; norm_num at this ⊢; omega
  obtain ⟨k1, k2, k3⟩ := ofInt_small hk
  have h1 := ieee_mul (f := f32) (a := Flt.ofInt f32 ((code dtIn.bits x.data 0 i : ℤ) - zp)) (b := Flt.ofBits f32 sb) (valid_ofRat _ _) (valid_ofBits sb)
  rw [toBits_ofBits hs] at h1
  have e1 := decode_fin (f := f32) (isFin_mag k1)
  unfold IsProduct at h1
  rw [e1, show decode f32.ieee sb = .fin s a from hd] at h1
  dsimp only at h1
  rw [signed_absRat, k2, k3] at h1
  have e : u32At m (o + 4 * i) = (Flt.mul (Flt.ofInt f32 ((code dtIn.bits x.data 0 i : ℤ) - zp)) (Flt.ofBits f32 sb)).toBits := by
    rw [← f32At_bits, hm i hi]; rfl
  rw [e]
  have e2 : decide ((code dtIn.bits x.data 0 i : ℤ) < zp) = decide ((code dtIn.bits x.data 0 i : ℤ) - zp < 0) := by
    congr 1; exact propext (by omega)
  rw [e2]
  exact h1

/-- `C86_dequantize_f32_one_rounding` applied to a concrete case. -/
example := C86_dequantize_f32_one_rounding (c := Ex.c1) (x := Ex.codes) (dtIn := .uint4) (o := 1000) (n := 139) (sb := 0x3f000000) (zp := 7)
    (m0 := Ex.old) (hs := by wit) (s := false) (a := (1 / 2)) (hd := by norm_num [Ieee.decode, Ieee.ofFields, Ieee.binary32, Ieee.Format.bias])
    (h := by wit) (hr := by wit) (hz := by wit)

/-- C86. ADD: the sum of the old word and the dequantized value, or (if the compiler contracts) the fused multiply-add, as defined by
IEEE 754; for the last `n % 4` elements of a uint2 call the dequantized value alone (the defect of C10). -/
theorem C86_dequantize_add_f32 (hs : sb < 2 ^ 32) (h : DArgs c.threads x dtIn .f32 n) (hr : Readable dtIn .f32 n x.size) (hz : ZpSub zp) :
    Always NoFault (dequantize c x (bytes dtIn.bits n) dtIn o (4 * n) .f32 (Flt.ofBits f32 sb) zp .add) (span o (4 * n)) m0
      (fun m => ∀ i, i < n → ∃ d, IsFromInt binary32 (code dtIn.bits x.data 0 i - zp) d ∧
        if dtIn = .uint2 ∧ n / 4 * 4 ≤ i then IsProduct binary32 d sb (u32At m (o + 4 * i))
        else (∃ p, IsProduct binary32 d sb p ∧ Ieee.IsSum binary32 (u32At m0 (o + 4 * i)) p (u32At m (o + 4 * i))) ∨
          IsFma binary32 d sb (u32At m0 (o + 4 * i)) (u32At m (o + 4 * i))) := by
  refine (dequantize_vals (ft := .f32) (op := .add) h hr hz).mono (fun _ h => h) (fun m hm i hi => ?_)
  have hv : (Flt.ofInt f32 (code dtIn.bits x.data 0 i - zp)).Valid := valid_ofRat _ _
  refine ⟨_, ieee_ofInt (f := f32) _, ?_⟩
  have hold : (f32At m0 (o + 4 * i)).Valid := valid_ofBits _
  have hmul := ieee_mul (f := f32) hv (valid_ofBits sb)
  rw [toBits_ofBits hs] at hmul
  have := hm.1 i hi
  unfold DqOut at this
  simp only at this
  obtain ⟨b, _, this⟩ := this
  rw [dqF_eq (dt := dtIn) hz (code_lt256 h.inQuant _ _ _)] at this
  by_cases hc : dtIn = .uint2 ∧ n / 4 * 4 ≤ i
  · rw [if_pos hc] at this ⊢
    rw [← f32At_bits m, this]
    exact hmul
  · rw [if_neg hc] at this ⊢
    cases b
    · left
      refine ⟨_, hmul, ?_⟩
      have h1 := ieee_add (f := f32) hold (valid_mul (Flt.ofInt f32 (code dtIn.bits x.data 0 i - zp)) (Flt.ofBits f32 sb))
      rw [f32At_bits] at h1
      rw [← f32At_bits m, this]
      exact h1
    · right
      have h1 := ieee_fma (f := f32) hv (valid_ofBits sb) hold
      rw [f32At_bits, toBits_ofBits hs] at h1
      rw [← f32At_bits m, this]
      exact h1

/-- `C86_dequantize_add_f32` applied to a concrete case. -/
example := C86_dequantize_add_f32 (c := Ex.c1) (x := Ex.codes) (dtIn := .uint4) (o := 1000) (n := 139) (sb := 0x3dcccccd) (zp := 7) (m0 := Ex.old)
    (hs := by wit) (h := by wit) (hr := by wit) (hz := by wit)

theorem ieee_isBf16Of {v : F32} {w : Nat} (hv : v.Valid) (h : IsBf16Of v w) : IsConversion binary32 bfloat16 v.toBits w := by
  unfold IsBf16Of at h
  split at h
  · next hn =>
    unfold IsConversion
    have e : decode binary32 v.toBits = .nan := decode_nan (f := f32) hv (by simpa [Flt.isNaN] using hn)
    rw [e]
    show decode bf16.ieee w = .nan
    rw [decode_ofBits (f := bf16)]
    exact decode_nan (f := bf16) (Nat.mod_lt _ (by decide)) (by simpa [Flt.isNaN] using h.1)
  · rw [h]; exact ieee_cvt (f := f32) (g := bf16) hv

/-- `v` is the value of code `q` before it is stored as a bf16: `float(q - zero_point) * scale`, or on AVX-512 for uint4 and uint2
(`fused`) the fused multiply-add `float(q) * scale + (-float(zero_point) * scale)`. -/
def IsValue (fused : Bool) (sb : Nat) (zp : ℤ) (q v : Nat) : Prop :=
  (∃ d, IsFromInt binary32 (q - zp) d ∧ IsProduct binary32 d sb v) ∨
  (fused = true ∧ ∃ d z b, IsFromInt binary32 q d ∧ IsFromInt binary32 zp z ∧
    (∃ z', decode binary32 z' = (decode binary32 z).opposite ∧ IsProduct binary32 z' sb b) ∧ IsFma binary32 d sb b v)

/-- The AVX-512 kernel sets. -/
def avx512 (isa : Isa) : Bool := isa == .avx512f || isa == .avx512bf16

/-- `w` is `v` converted to bf16; the AVX-512-BF16 instruction may flush a denormal to zero. -/
def IsStored (isa : Isa) (v w : Nat) : Prop :=
  IsConversion binary32 bfloat16 v w ∨
  (isa = .avx512bf16 ∧ w % 32768 = 0 ∧ ∃ s a, decode binary32 v = .fin s a ∧ a < 1 / 2 ^ 126)

theorem ieee_fmaDequant (hs : sb < 2 ^ 32) (zp : ℤ) (q : Nat) : IsValue true sb zp q (fmaDequant (Flt.ofBits f32 sb) zp q).toBits := by
  right
  have hq : (Flt.ofInt f32 (q : ℤ)).Valid := valid_ofRat _ _
  have hz : (Flt.ofInt f32 zp).Valid := valid_ofRat _ _
  have hz' : (Flt.negate (Flt.ofInt f32 zp)).Valid := hz
  refine ⟨rfl, (Flt.ofInt f32 (q : ℤ)).toBits, (Flt.ofInt f32 zp).toBits, (Flt.mul (Flt.negate (Flt.ofInt f32 zp)) (Flt.ofBits f32 sb)).toBits,
    ieee_ofInt (f := f32) _, ieee_ofInt (f := f32) _, ⟨(Flt.negate (Flt.ofInt f32 zp)).toBits, ?_, ?_⟩, ?_⟩
  · show decode f32.ieee _ = (decode f32.ieee _).opposite
    rw [decode_datum hz, decode_datum hz', datum_negate]
  · have := ieee_mul (f := f32) hz' (valid_ofBits sb)
    rw [toBits_ofBits hs] at this
    exact this
  · have := ieee_fma (f := f32) hq (valid_ofBits sb) (valid_mul (Flt.negate (Flt.ofInt f32 zp)) (Flt.ofBits f32 sb))
    rw [toBits_ofBits hs] at this
    exact this

theorem isStored_of {isa : Isa} {v : F32} {w : Nat} (hv : v.Valid)
    (h : IsBf16Of v w ∨ (isa = .avx512bf16 ∧ v.isFin = true ∧ |v.toRat| < 1 / 2 ^ 126 ∧ w % 32768 = 0)) : IsStored isa v.toBits w := by
  rcases h with h | ⟨h1, h2, h3, h4⟩
  · exact Or.inl (ieee_isBf16Of hv h)
  · refine Or.inr ⟨h1, h4, _, _, decode_fin (f := f32) (isFin_mag h2), ?_⟩
    rwa [toRat_abs] at h3

/-- C86. dequantize, bf16, SET, every kernel set: the value of the code (IEEE operations on floats) converted to bf16. -/
theorem C86_dequantize_bf16 (hs : sb < 2 ^ 32) (h : DArgs c.threads x dtIn .bf16 n) (hz : ZpSub zp) (h2 : dtIn = .uint2 → |zp| ≤ 2 ^ 24) :
    Always NoFault (dequantize c x (bytes dtIn.bits n) dtIn o (2 * n) .bf16 (Flt.ofBits f32 sb) zp .set) (span o (2 * n)) m0
      (fun m => ∀ i, i < n → ∃ v, IsValue (avx512 c.isa && dtIn != .uint8) sb zp (code dtIn.bits x.data 0 i) v ∧ IsStored c.isa v (u16At m (o + 2 * i))) := by
  refine (C09_dequantize_bf16_any_kernel_partial h hz h2).mono (fun _ h => h) (fun m hm i hi => ?_)
  obtain ⟨v, hv, hw⟩ := hm i hi
  rcases hv with rfl | ⟨ha, hb, rfl⟩
  · obtain ⟨d, _, h1, h2⟩ := ieee_dequant hs zp (code dtIn.bits x.data 0 i)
    exact ⟨_, Or.inl ⟨d, h1, h2⟩, isStored_of (valid_mul _ _) hw⟩
  · refine ⟨_, ?_, isStored_of (valid_fma _ _ _) hw⟩
    have : (avx512 c.isa && dtIn != .uint8) = true := by
      unfold avx512
      rcases ha with ha | ha <;> rw [ha] <;> cases dtIn <;> first | rfl | exact absurd rfl hb
    rw [this]
    exact ieee_fmaDequant hs zp _

/-- `C86_dequantize_bf16` applied to a concrete case. -/
example := C86_dequantize_bf16 (c := Ex.c1) (x := Ex.codes) (dtIn := .uint4) (o := 1000) (n := 139) (sb := 0x3dcccccd) (zp := 7) (m0 := Ex.old)
    (hs := by wit) (h := by wit) (hz := by wit) (h2 := by wit)

/-- C86. ... and on every kernel set without AVX-512 it is `bfloat16(float(code - zero_point) * scale)`. -/
theorem C86_dequantize_bf16_plain (hs : sb < 2 ^ 32) (h : DArgs c.threads x dtIn .bf16 n) (hz : ZpSub zp) (h2 : dtIn = .uint2 → |zp| ≤ 2 ^ 24)
    (hi : avx512 c.isa = false) :
    Always NoFault (dequantize c x (bytes dtIn.bits n) dtIn o (2 * n) .bf16 (Flt.ofBits f32 sb) zp .set) (span o (2 * n)) m0
      (fun m => ∀ i, i < n → ∃ d p, IsFromInt binary32 (code dtIn.bits x.data 0 i - zp) d ∧ IsProduct binary32 d sb p ∧
        IsConversion binary32 bfloat16 p (u16At m (o + 2 * i))) := by
  refine (C09_dequantize_bf16_formula h hz h2 ?_).mono (fun _ h => h) (fun m hm i hi => ?_)
  · constructor <;> intro hc <;> rw [hc] at hi <;> cases hi
  · obtain ⟨d, _, h1, h2⟩ := ieee_dequant hs zp (code dtIn.bits x.data 0 i)
    exact ⟨d, _, h1, h2, ieee_isBf16Of (valid_mul _ _) (hm i hi)⟩

/-- `C86_dequantize_bf16_plain` applied to a concrete case. -/
example := C86_dequantize_bf16_plain (c := Ex.c3) (x := Ex.codes) (dtIn := .uint4) (o := 1000) (n := 139) (sb := 0x3dcccccd) (zp := 7) (m0 := Ex.old)
    (hs := by wit) (h := by wit) (hz := by wit) (h2 := by wit) (hi := by wit)

/-- A bf16 word is the upper half of the float with the same datum. -/
theorem decode_upper {w : Nat} : decode binary32 (65536 * w) = decode bfloat16 w := by
  show ofFields binary32 _ _ _ = ofFields bfloat16 _ _ _
  have e1 : 65536 * w / 2 ^ (binary32.w + binary32.t) % 2 = w / 2 ^ (bfloat16.w + bfloat16.t) % 2 := by
    show 65536 * w / 2147483648 % 2 = w / 32768 % 2; omega
  have e2 : 65536 * w / 2 ^ binary32.t % 2 ^ binary32.w = w / 2 ^ bfloat16.t % 2 ^ bfloat16.w := by
    show 65536 * w / 8388608 % 256 = w / 128 % 256; omega
  have e3 : 65536 * w % 2 ^ binary32.t = 65536 * (w % 2 ^ bfloat16.t) := by
    show 65536 * w % 8388608 = 65536 * (w % 128); omega
  rw [e1, e2, e3]
  generalize w / 2 ^ bfloat16.t % 2 ^ bfloat16.w = E
  generalize w % 2 ^ bfloat16.t = T
  generalize decide (w / 2 ^ (bfloat16.w + bfloat16.t) % 2 = 1) = s
  unfold ofFields
  have hT : ((65536 * T : ℕ) : ℚ) / 2 ^ binary32.t = (T : ℚ) / 2 ^ bfloat16.t := by
    show ((65536 * T : ℕ) : ℚ) / 2 ^ 23 = (T : ℚ) / 2 ^ 7
    push_cast; ring
  have hz : (65536 * T = 0) = (T = 0) := propext (by omega)
  have hw : binary32.w = bfloat16.w := rfl
  have hb : binary32.bias = bfloat16.bias := rfl
  simp only [hT, hz, hw, hb]

theorem bf16At_bits (m : Mem) (a : Nat) : (bf16At m a).toBits = 65536 * u16At m a := by
  refine toBits_ofBits ?_
  have := Nat.mod_lt (m a) (show 0 < 256 by omega)
  have := Nat.mod_lt (m (a + 1)) (show 0 < 256 by omega)
  unfold u16At; omega

/-- C86. dequantize, bf16, ADD.  On the scalar path the value is converted to bf16, widened, added to the (widened) old element and
converted again; the AVX-512 kernels add in float before the one conversion (for uint8 contracted or not, for uint4 and uint2 to the
fused value). -/
theorem C86_dequantize_add_bf16 (hs : sb < 2 ^ 32) (h : DArgs c.threads x dtIn .bf16 n) (hz : ZpSub zp) (h2 : dtIn = .uint2 → |zp| ≤ 2 ^ 24) :
    Always NoFault (dequantize c x (bytes dtIn.bits n) dtIn o (2 * n) .bf16 (Flt.ofBits f32 sb) zp .add) (span o (2 * n)) m0
      (fun m => ∀ i, i < n →
        (∃ v d e s, IsValue false sb zp (code dtIn.bits x.data 0 i) v ∧ IsConversion binary32 bfloat16 v d ∧ decode binary32 e = decode bfloat16 d ∧
          Ieee.IsSum binary32 (65536 * u16At m0 (o + 2 * i)) e s ∧ IsConversion binary32 bfloat16 s (u16At m (o + 2 * i))) ∨
        (avx512 c.isa = true ∧ ∃ s, IsStored c.isa s (u16At m (o + 2 * i)) ∧
          if dtIn = .uint8 then
            (∃ v, IsValue false sb zp (code dtIn.bits x.data 0 i) v ∧ Ieee.IsSum binary32 (65536 * u16At m0 (o + 2 * i)) v s) ∨
            (∃ d, IsFromInt binary32 (code dtIn.bits x.data 0 i - zp) d ∧ IsFma binary32 d sb (65536 * u16At m0 (o + 2 * i)) s)
          else ∃ v, IsValue true sb zp (code dtIn.bits x.data 0 i) v ∧ Ieee.IsSum binary32 v (65536 * u16At m0 (o + 2 * i)) s)) := by
  refine (C10_add_bf16 h hz h2).mono (fun _ h => h) (fun m hm i hi => ?_)
  have hold : (bf16At m0 (o + 2 * i)).Valid := valid_ofBits _
  obtain ⟨d0, _, hd1, hd2⟩ := ieee_dequant hs zp (code dtIn.bits x.data 0 i)
  rcases hm i hi with ⟨d, g1, g2⟩ | ⟨ha, s, hsum, hst⟩
  · left
    refine ⟨_, d, (Flt.ofBits f32 (65536 * d)).toBits, _, Or.inl ⟨d0, hd1, hd2⟩, ieee_isBf16Of (valid_mul _ _) g1, ?_, ?_, ieee_isBf16Of (valid_add _ _) g2⟩
    · show decode f32.ieee _ = _
      rw [← decode_ofBits (f := f32)]
      exact decode_upper
    · have := ieee_add (f := f32) hold (valid_ofBits (65536 * d))
      rw [bf16At_bits] at this
      exact this
  · right
    have hav : avx512 c.isa = true := by unfold avx512; rcases ha with ha | ha <;> rw [ha] <;> rfl
    have hsv : s.Valid := by
      rcases hsum with ⟨_, rfl⟩ | ⟨_, rfl⟩
      · unfold plus; split
        · exact valid_fma _ _ _
        · exact valid_add _ _
      · exact valid_add _ _
    refine ⟨hav, s.toBits, isStored_of hsv ?_, ?_⟩
    · rcases hst with g | ⟨g1, g2, g3⟩
      · exact Or.inl g
      · refine Or.inr ⟨g1, isFin_of_abs (lt_of_lt_of_le g2 ?_), g2, g3⟩
        rw [emax_f32]; norm_num
    · rcases hsum with ⟨rfl, rfl⟩ | ⟨hne, rfl⟩
      · rw [if_pos rfl]
        unfold plus
        split
        · right
          refine ⟨_, ieee_ofInt (f := f32) _, ?_⟩
          have := ieee_fma (f := f32) (a := Flt.ofInt f32 (code DType.uint8.bits x.data 0 i - zp)) (valid_ofRat _ _) (valid_ofBits sb) hold
          rw [bf16At_bits, toBits_ofBits hs] at this
          exact this
        · left
          refine ⟨_, Or.inl ⟨d0, hd1, hd2⟩, ?_⟩
          have := ieee_add (f := f32) hold (valid_mul (Flt.ofInt f32 (code DType.uint8.bits x.data 0 i - zp)) (Flt.ofBits f32 sb))
          rw [bf16At_bits] at this
          exact this
      · rw [if_neg hne]
        refine ⟨_, ieee_fmaDequant hs zp _, ?_⟩
        have := ieee_add (f := f32) (a := fmaDequant (Flt.ofBits f32 sb) zp (code dtIn.bits x.data 0 i)) (valid_fma _ _ _) hold
        rw [bf16At_bits] at this
        exact this

/-- `C86_dequantize_add_bf16` applied to a concrete case. -/
example := C86_dequantize_add_bf16 (c := Ex.c1) (x := Ex.codes) (dtIn := .uint4) (o := 1000) (n := 139) (sb := 0x3dcccccd) (zp := 7) (m0 := Ex.old)
    (hs := by wit) (h := by wit) (hz := by wit) (h2 := by wit)

/-- The bit pattern of input element `i`, as a float. -/
def inputWord (dt : DType) (m : Mem) (i : Nat) : Nat :=
  match dt with
  | .f32 => u32At m (4 * i)
  | _ => 65536 * u16At m (2 * i)

theorem u16At_lt16 (m : Mem) (a : Nat) : u16At m a < 65536 := by
  unfold u16At
  have := Nat.mod_lt (m a) (show 0 < 256 by omega)
  have := Nat.mod_lt (m (a + 1)) (show 0 < 256 by omega)
  omega

theorem inputWord_elem (dt : DType) (m : Mem) (i : Nat) : (elem dt m 0 i).toBits = inputWord dt m i := by
  have hb : ∀ a, (bf16At m (0 + 2 * a)).toBits = 65536 * u16At m (2 * a) := fun a => by
    rw [Nat.zero_add]; exact toBits_ofBits (by have := u16At_lt16 m (2 * a); omega)
  cases dt
  · show (f32At m (0 + 4 * i)).toBits = u32At m (4 * i)
    rw [Nat.zero_add, f32At_bits]
  all_goals exact hb i

theorem valid_div (a b : F32) : (Flt.div a b).Valid := by
  unfold Flt.div
  split
  · exact valid_nan
  · split
    · split
      · exact valid_nan
      · exact valid_inf _
    · split
      · exact valid_of_le (Nat.zero_le _)
      · split
        · split
          · exact valid_nan
          · exact valid_inf _
        · exact valid_of_le (min_le_left _ _)

/-- `p` is `x * (1/scale)`, both operations as defined by IEEE 754, for the words `x` and `sb`. -/
def IsScaled (sb x p : Nat) : Prop := ∃ inv, IsQuotient binary32 0x3f800000 sb inv ∧ IsProduct binary32 x inv p

theorem ieee_scaled (hs : sb < 2 ^ 32) {e : F32} (he : e.Valid) : IsScaled sb e.toBits (scaled e (Flt.ofBits f32 sb)).toBits := by
  have h1 : (⟨false, 0x3f800000⟩ : F32).Valid := valid_of_le (by decide)
  refine ⟨(Flt.div ⟨false, 0x3f800000⟩ (Flt.ofBits f32 sb)).toBits, ?_, ?_⟩
  · have := ieee_div (f := f32) h1 (valid_ofBits sb)
    rw [toBits_ofBits hs] at this
    exact this
  · exact ieee_mul (f := f32) he (valid_div _ _)

/-- The scaled value is determined by the words. -/
theorem scaled_det {x p p' : Nat} (h : IsScaled sb x p) (h' : IsScaled sb x p') : decode binary32 p = decode binary32 p' := by
  obtain ⟨i, h1, h2⟩ := h
  obtain ⟨i', h1', h2'⟩ := h'
  exact product_det (f := f32) (quotient_det (f := f32) h1 h1') h2 h2'

/-- The number `v` leaves room for rounding and the zero point in the integers the code uses. -/
def Room (mode : RoundMode) (v : ℚ) (zp : ℤ) : Prop :=
  match mode with
  | .nearest => -(2 ^ 31 : ℤ) ≤ rha v ∧ rha v < 2 ^ 31 ∧ -(2 ^ 31 : ℤ) ≤ rha v + zp ∧ rha v + zp < 2 ^ 31
  | .stochastic => |v| ≤ 2 ^ 62

/-- C86. quantize: with `p` the IEEE product of the element and the IEEE reciprocal of the scale, the code is `p` rounded to an integer
(nearest, halves away from zero; or stochastically with the threshold `t` drawn for the call) plus the zero point, saturated.  The one
exception is that of C07: on the x86 vector kernels the float just below one half rounds away from zero.  The hypothesis asks that the
scaled values are numbers that leave room for this. -/
theorem C86_quantize {mode : RoundMode} {tb : Nat} {t : ℚ} (hs : sb < 2 ^ 32) (ht : decode binary32 tb = .fin false t)
    (h : QArgs c.threads x dtIn dtOut n) (hz : Zp32 zp) (hx : ExactKernel c.isa dtIn dtOut mode ∨ |zp| ≤ 2 ^ 22)
    (hd : ∀ i, i < n → ∃ p s a, IsScaled sb (inputWord dtIn x.data i) p ∧ decode binary32 p = .fin s a ∧ Room mode (signed s a) zp) :
    Always NoFault (quantize c x dtIn o (bytes dtOut.bits n) dtOut (Flt.ofBits f32 sb) zp mode (Flt.ofBits f32 tb)) (span o (bytes dtOut.bits n)) m0
      (fun m => ∀ i p s a, i < n → IsScaled sb (inputWord dtIn x.data i) p → decode binary32 p = .fin s a →
        (code dtOut.bits m o i : ℤ) = sat dtOut.bits (rounded mode t (signed s a) + zp) ∨
        (¬ ExactKernel c.isa dtIn dtOut mode ∧ |signed s a| = predHalf ∧
          (code dtOut.bits m o i : ℤ) = sat dtOut.bits ((if signed s a < 0 then -1 else 1) + zp))) := by
  have hv : ∀ i, (elem dtIn x.data 0 i).Valid := fun i => by cases dtIn <;> exact valid_ofBits _
  have hsc : ∀ i, IsScaled sb (inputWord dtIn x.data i) (scaled (elem dtIn x.data 0 i) (Flt.ofBits f32 sb)).toBits := fun i => by
    rw [← inputWord_elem]; exact ieee_scaled hs (hv i)
  have hfin : ∀ i p s a, IsScaled sb (inputWord dtIn x.data i) p → decode binary32 p = .fin s a →
      (scaled (elem dtIn x.data 0 i) (Flt.ofBits f32 sb)).isFin = true ∧ signed s a = (scaled (elem dtIn x.data 0 i) (Flt.ofBits f32 sb)).toRat := by
    intro i p s a hp hda
    rw [scaled_det hp (hsc i)] at hda
    obtain ⟨g1, g2, g3⟩ := of_decode_fin (f := f32) hda
    have e : Flt.ofBits f32 (scaled (elem dtIn x.data 0 i) (Flt.ofBits f32 sb)).toBits = scaled (elem dtIn x.data 0 i) (Flt.ofBits f32 sb) :=
      ofBits_toBits (valid_mul _ _)
    rw [e] at g1 g2 g3
    exact ⟨by simpa [Flt.isFin] using g1, by rw [g2, g3, signed_absRat]⟩
  obtain ⟨t1, t2, t3⟩ := of_decode_fin (f := f32) (show decode f32.ieee tb = .fin false t from ht)
  have hτf : (Flt.ofBits f32 tb).isFin = true := by simpa [Flt.isFin] using t1
  have hτ : (Flt.ofBits f32 tb).toRat = t := by rw [← signed_absRat, ← t2, ← t3]; rfl
  have hτ0 : 0 ≤ (Flt.ofBits f32 tb).toRat := by rw [hτ, t3]; exact absRat_nonneg _
  have hF : ∀ i, i < n → Defined mode (Flt.ofBits f32 tb) (scaled (elem dtIn x.data 0 i) (Flt.ofBits f32 sb)) zp := fun i hi => by
    obtain ⟨p, s, a, h0, h1, h2⟩ := hd i hi
    obtain ⟨g1, g2⟩ := hfin i p s a h0 h1
    rw [g2] at h2
    cases mode
    · exact ⟨g1, ⟨h2.1, h2.2.1⟩, h2.2.2⟩
    · exact ⟨g1, h2, hτf, hτ0⟩
  refine (quantize_vals h hz hF hx).mono (fun _ h => h) (fun m hm i p s a hi hp h1 => ?_)
  rw [(hfin i p s a hp h1).2]
  have := hm.1 i hi
  rw [hτ] at this
  exact this

/-- C86, nearest rounding on the kernels that round exactly: no exception. -/
theorem C86_quantize_nearest (hs : sb < 2 ^ 32) (h : QArgs c.threads x dtIn dtOut n) (hk : ExactKernel c.isa dtIn dtOut .nearest) (hz : Zp32 zp)
    (hd : ∀ i, i < n → ∃ p s a, IsScaled sb (inputWord dtIn x.data i) p ∧ decode binary32 p = .fin s a ∧ Room .nearest (signed s a) zp) :
    Always NoFault (quantize c x dtIn o (bytes dtOut.bits n) dtOut (Flt.ofBits f32 sb) zp .nearest (Flt.ofBits f32 0)) (span o (bytes dtOut.bits n)) m0
      (fun m => ∀ i p s a, i < n → IsScaled sb (inputWord dtIn x.data i) p → decode binary32 p = .fin s a →
        (code dtOut.bits m o i : ℤ) = sat dtOut.bits (rha (signed s a) + zp)) := by
  have h0 : decode binary32 0 = .fin false 0 := by
    have := decode_fin (f := f32) (x := ⟨false, 0⟩) (by decide)
    have e : (⟨false, 0⟩ : F32).absRat = 0 := (absRat_zero_iff _).mpr rfl
    rw [e] at this; exact this
  refine (C86_quantize hs h0 h hz (Or.inl hk) hd).mono (fun _ h => h) (fun m hm i p s a hi hp h1 => ?_)
  rcases hm i p s a hi hp h1 with g | ⟨g, _⟩
  · exact g
  · exact absurd hk g

end

/-! ## The arithmetic of the model

Every operation the model takes on floats, in every format (`f32`, `f64`, `bf16`), is the IEEE 754 operation on the encodings. -/

/-- C86. `+ - * /` and the fused multiply-add. -/
theorem C86_arithmetic {f : Fmt} [f.Good] {a b c : Flt f} (ha : a.Valid) (hb : b.Valid) (hc : c.Valid) :
    Ieee.IsSum f.ieee a.toBits b.toBits (Flt.add a b).toBits ∧ IsDifference f.ieee a.toBits b.toBits (Flt.sub a b).toBits ∧
    IsProduct f.ieee a.toBits b.toBits (Flt.mul a b).toBits ∧ IsQuotient f.ieee a.toBits b.toBits (Flt.div a b).toBits ∧
    IsFma f.ieee a.toBits b.toBits c.toBits (Flt.fma a b c).toBits :=
  ⟨ieee_add ha hb, ieee_sub ha hb, ieee_mul ha hb, ieee_div ha hb, ieee_fma ha hb hc⟩

/-- `C86_arithmetic` applied to a concrete case. -/
example := C86_arithmetic (f := f32) (a := Ex.tenth) (b := Ex.half) (c := Ex.quarter) (ha := by unfold Flt.Valid; decide)
    (hb := by unfold Flt.Valid; decide) (hc := by unfold Flt.Valid; decide)

/-- C86. Comparisons. -/
theorem C86_comparisons {f : Fmt} [f.Good] {a b : Flt f} (ha : a.Valid) (hb : b.Valid) :
    (Flt.lt a b = true ↔ (decode f.ieee a.toBits).less (decode f.ieee b.toBits)) ∧
    (Flt.gt a b = true ↔ (decode f.ieee b.toBits).less (decode f.ieee a.toBits)) ∧
    (Flt.feq a b = true ↔ (decode f.ieee a.toBits).equal (decode f.ieee b.toBits)) ∧
    (Flt.ge a b = true ↔ (decode f.ieee b.toBits).less (decode f.ieee a.toBits) ∨ (decode f.ieee b.toBits).equal (decode f.ieee a.toBits)) :=
  ⟨ieee_lt ha hb, ieee_lt hb ha, ieee_feq ha hb, ieee_ge ha hb⟩

/-- `C86_comparisons` applied to a concrete case. -/
example := C86_comparisons (f := f32) (a := Ex.tenth) (b := Ex.half) (ha := by unfold Flt.Valid; decide) (hb := by unfold Flt.Valid; decide)

/-- C86. Conversions: between formats, from integers, to integers (undefined, `none`, exactly when the truncated value cannot be
represented), `std::round` and `std::trunc`. -/
theorem C86_conversions {f g : Fmt} [f.Good] [g.Good] {x : Flt f} (hx : x.Valid) (i : ℤ) (w : Nat) (t : ℤ) :
    IsConversion f.ieee g.ieee x.toBits (Flt.cvt g x).toBits ∧ IsFromInt f.ieee i (Flt.ofInt f i).toBits ∧
    IsRoundAway f.ieee x.toBits (Flt.round x).toBits ∧ IsTrunc f.ieee x.toBits (Flt.trunc x).toBits ∧
    (Flt.toInt? w x = some t ↔ ∃ s a, decode f.ieee x.toBits = .fin s a ∧ ∃ k : Nat, (k : ℚ) ≤ a ∧ a < k + 1 ∧
      t = (if s then -(k : ℤ) else k) ∧ -(2 ^ (w - 1) : ℤ) ≤ t ∧ t < 2 ^ (w - 1)) :=
  ⟨ieee_cvt hx, ieee_ofInt i, ieee_round hx, ieee_trunc hx, ieee_toInt hx⟩

/-- `C86_conversions` applied to a concrete case. -/
example := C86_conversions (f := f32) (g := f64) (x := Ex.tenth) (hx := by unfold Flt.Valid; decide) (i := 7) (w := 32) (t := 3)

/-- C86. The specification leaves no choice: a format has one correctly rounded result. -/
theorem C86_rounding_unique {f : Fmt} [f.Good] {r : ℚ} {s : Bool} {x y : Flt f} (hx : x.Valid) (hy : y.Valid)
    (h1 : Ieee.Rounded f.ieee r s x.toBits) (h2 : Ieee.Rounded f.ieee r s y.toBits) : x = y := rounded_unique hx hy h1 h2

/-- C86. ... and the operations one result datum each (bit patterns may differ only among NaNs). -/
theorem C86_results_unique {f g : Fmt} [f.Good] [g.Good] {x y c z z' : Nat} :
    (Ieee.IsSum f.ieee x y z → Ieee.IsSum f.ieee x y z' → decode f.ieee z = decode f.ieee z') ∧
    (IsDifference f.ieee x y z → IsDifference f.ieee x y z' → decode f.ieee z = decode f.ieee z') ∧
    (IsProduct f.ieee x y z → IsProduct f.ieee x y z' → decode f.ieee z = decode f.ieee z') ∧
    (IsQuotient f.ieee x y z → IsQuotient f.ieee x y z' → decode f.ieee z = decode f.ieee z') ∧
    (IsFma f.ieee x y c z → IsFma f.ieee x y c z' → decode f.ieee z = decode f.ieee z') ∧
    (IsConversion f.ieee g.ieee x z → IsConversion f.ieee g.ieee x z' → decode g.ieee z = decode g.ieee z') :=
  ⟨Sum_det, Sum_det, product_det rfl, quotient_det, Sum_det, conversion_det⟩

/-- C86. The operators of the bf16 class (C65) are the IEEE operations of the format bfloat16. -/
theorem C86_bf16_operators {a b : Nat} (ha : a < 65536) (hb : b < 65536) :
    Ieee.IsSum bfloat16 a b (bf16Add a b) ∧ IsDifference bfloat16 a b (bf16Sub a b) ∧
    IsProduct bfloat16 a b (bf16Mul a b) ∧ IsQuotient bfloat16 a b (bf16Div a b) := by
  have e : ∀ w, w < 65536 → (Flt.ofBits bf16 w).toBits = w := fun w hw => by
    have e : bf16.magLim = 32768 := by decide
    unfold Flt.ofBits Flt.toBits
    simp only [e, decide_eq_true_eq]
    split <;> omega
  have v : ∀ w, (Flt.ofBits bf16 w).Valid := fun w => Nat.mod_lt _ (by decide)
  rw [add_ieee ha hb, sub_ieee ha hb, mul_ieee ha hb, div_ieee ha hb]
  have h1 := ieee_add (f := bf16) (v a) (v b)
  have h2 := ieee_sub (f := bf16) (v a) (v b)
  have h3 := ieee_mul (f := bf16) (v a) (v b)
  have h4 := ieee_div (f := bf16) (v a) (v b)
  rw [e a ha, e b hb] at h1 h2 h3 h4
  exact ⟨h1, h2, h3, h4⟩

/-- `C86_bf16_operators` applied to a concrete case. -/
example := C86_bf16_operators (a := 0x3dcd) (b := 0xc0c8) (ha := by wit) (hb := by wit)

/-! ## computed parameters -/

/-- The word `b` is `r` correctly rounded, and encodes the number `v`. -/
def Rounds (F : Format) (r : ℚ) (b : Nat) (v : ℚ) : Prop :=
  Ieee.Rounded F r (decide (r < 0)) b ∧ ∃ s a, decode F b = .fin s a ∧ v = signed s a

theorem rounds_r64 {r : ℚ} (h : |r| ≤ 2 ^ 500) : Rounds binary64 r (Flt.ofRat f64 r).toBits (r64 r) := by
  have hfin : (Flt.ofRat f64 r).isFin = true := by
    apply isFin_of_abs
    rw [ofRat_flr, abs_flr]
    have hr := rep_nat (f := f64) (m := 1) (k := 500) (by decide)
    refine lt_of_le_of_lt (fl_le (abs_nonneg r) (by rw [Nat.cast_one, one_mul]; exact h) hr) ?_
    rw [Nat.cast_one, one_mul]
    exact pow_lt_pow_right₀ (by norm_num) (by decide)
  constructor
  · have := rounded_ofRat (f := f64) (r := r) (z := false)
    have e : (if r = 0 then false else decide (r < 0)) = decide (r < 0) := by
      split
      · next h => subst h; rfl
      · rfl
    rwa [e] at this
  · exact ⟨_, _, decode_fin (f := f64) (isFin_mag hfin), (signed_absRat _).symm⟩

/-- C86. Computed parameters of finite data that is not constant, with extremes that count: the scale and zero point come out of four
IEEE operations on doubles, `d = max - min`, `s = d / (2^bits - 1)`, the conversion of `s` to float, and `w = min / s`; the zero point is
`-w` rounded to the nearest integer, saturated. -/
theorem C86_parameters {isa : Isa} {ft : FT} {x : InBuf} {n : Nat} {blocks : List (Nat × Nat)} {dt : DType}
    (h : PArgs ft x n blocks dt) (hn : 0 < n) (hf : AllFin ft x n) (hs : Sees isa ft x n blocks) {lo hi : ℚ}
    (hr : Range ft.dtype x.data n lo hi) (hne : lo < hi) :
    ∃ scale z, computeQuantConfigFromData isa ft x blocks dt = .ret (scale, z) ∧
      ∃ wd d ws s ww w, Rounds binary64 (hi - lo) wd d ∧ Rounds binary64 (d / (2 ^ dt.bits - 1)) ws s ∧
        IsConversion binary64 binary32 ws scale.toBits ∧ Rounds binary64 (lo / s) ww w ∧ z = sat dt.bits (rha (-w)) := by
  refine ⟨(params dt.bits lo hi).1, (params dt.bits lo hi).2, C22_true_range_partial h hn hf hs hr, ?_⟩
  have hQ := qmax_bounds h.quant
  have hQ1 : (3:ℚ) ≤ 2 ^ dt.bits - 1 := by exact_mod_cast hQ.1
  have hQ2 : (2:ℚ) ^ dt.bits - 1 ≤ 255 := by exact_mod_cast hQ.2
  obtain ⟨⟨⟨a, ha, ea⟩, _⟩, ⟨b, hb, eb⟩, _⟩ := hr
  have hA := abs_lt.mp (abs_lt_of_isFin (hf a ha))
  have hB := abs_lt.mp (abs_lt_of_isFin (hf b hb))
  rw [emax_f32] at hA hB
  have hd2 : hi - lo ≤ 2 ^ 129 := by
    have : (2:ℚ) ^ 129 = 2 ^ 128 + 2 ^ 128 := by norm_num
    rw [this, ea, eb]; linarith [hA.1, hB.2]
  have hd1 : 1 / 2 ^ 149 ≤ hi - lo := by
    rw [ea, eb] at hne ⊢
    have := toRat_sub_unit hne
    rwa [unit_f32] at this
  obtain ⟨b1, b2, b3⟩ := scale64_bounds (bits := dt.bits) hQ hd1 hd2
  have hspos : 1 / 2 ^ 160 ≤ scale64 dt.bits lo hi := by
    refine le_trans ?_ b2
    have : (1:ℚ) / 2 ^ 149 / 255 ≤ (hi - lo) / (2 ^ dt.bits - 1) := div_le_div₀ (le_trans (by positivity) hd1) hd1 (by linarith) hQ2
    calc (1:ℚ) / 2 ^ 160 ≤ 1 / 2 ^ 149 / 255 * (1 - 1 / 2 ^ 51) := by norm_num
      _ ≤ _ := mul_le_mul_of_nonneg_right this (by norm_num)
  have hs0 : 0 < scale64 dt.bits lo hi := lt_of_lt_of_le (by positivity) hspos
  refine ⟨_, r64 (hi - lo), (Flt.ofRat f64 (r64 (hi - lo) / (2 ^ dt.bits - 1))).toBits, scale64 dt.bits lo hi, _, r64 (lo / scale64 dt.bits lo hi), rounds_r64 ?_, rounds_r64 ?_, ?_, rounds_r64 ?_, ?_⟩
  · rw [abs_of_nonneg (by linarith)]
    exact hd2.trans (pow_le_pow_right₀ (by norm_num) (by norm_num))
  · rw [abs_div, abs_of_pos (show (0:ℚ) < 2 ^ dt.bits - 1 by linarith)]
    refine (div_le_self (abs_nonneg _) (by linarith)).trans (b1.trans (pow_le_pow_right₀ (by norm_num) (by norm_num)))
  · have e : params dt.bits lo hi = (Flt.ofRat f32 (scale64 dt.bits lo hi), sat dt.bits (rha (-(r64 (lo / scale64 dt.bits lo hi))))) := by
      unfold params; rw [if_neg hne.ne']
    rw [e]
    have hpos : scale64 dt.bits lo hi ≠ 0 := hs0.ne'
    obtain ⟨_, s', a', g1, g2⟩ := rounds_r64 (r := r64 (hi - lo) / (2 ^ dt.bits - 1)) (by
      rw [abs_div, abs_of_pos (show (0:ℚ) < 2 ^ dt.bits - 1 by linarith)]
      exact (div_le_self (abs_nonneg _) (by linarith)).trans (b1.trans (pow_le_pow_right₀ (by norm_num) (by norm_num))))
    unfold IsConversion
    rw [g1]
    simp only
    have g3 : signed s' a' = scale64 dt.bits lo hi := g2.symm
    rw [g3]
    have h4 := rounded_ofRat (f := f32) (r := scale64 dt.bits lo hi) (z := false)
    rw [if_neg hpos] at h4
    have hsgn : s' = decide (scale64 dt.bits lo hi < 0) := by
      rw [decide_eq_false (not_lt.mpr hs0.le)]
      cases s'
      · rfl
      · obtain ⟨_, _, h5⟩ := of_decode_fin (f := f64) g1
        have : 0 ≤ a' := by rw [h5]; exact absRat_nonneg _
        simp only [signed, if_true] at g3
        linarith
    rw [hsgn]
    exact h4
  · rw [abs_div, abs_of_pos hs0, div_le_iff₀ hs0]
    have : |lo| ≤ 2 ^ 128 := by rw [ea, abs_le]; exact ⟨hA.1.le, hA.2.le⟩
    refine this.trans ?_
    have e500 : (2:ℚ) ^ 500 * (1 / 2 ^ 160) = 2 ^ 340 := by
      rw [show (500:ℕ) = 340 + 160 from rfl, pow_add, mul_one_div, mul_div_assoc, div_self (by positivity), mul_one]
    calc (2:ℚ) ^ 128 ≤ 2 ^ 500 * (1 / 2 ^ 160) := by
          rw [e500]; exact pow_le_pow_right₀ (by norm_num) (by norm_num)
      _ ≤ _ := mul_le_mul_of_nonneg_left hspos (by positivity)
  · unfold params; rw [if_neg hne.ne']

/-- `C86_parameters` applied to a concrete case. -/
example := C86_parameters (isa := .avx512f) (ft := .f32) (x := Ex.many) (n := 70) (blocks := Ex.blocks) (dt := .uint8) (h := by wit) (hn := by wit)
    (hf := by wit) (hs := by wit) (lo := (-25 / 4)) (hi := (25 / 4)) (hr := by wit) (hne := by wit)

/-! ## The hypotheses are met -/

/-- Some encodings: 1.0f, 0.5f, the least subnormal, the largest finite float, infinity, a NaN, 1.0 as a double. -/
example : decode binary32 0x3f800000 = .fin false 1 ∧ decode binary32 0xbf000000 = .fin true (1 / 2) ∧
    decode binary32 1 = .fin false (1 / 2 ^ 149) ∧ decode binary32 0x7f7fffff = .fin false (2 ^ 128 - 2 ^ 104) ∧
    decode binary32 0xff800000 = .inf true ∧ decode binary32 0x7fc00000 = .nan ∧ decode binary64 0x3ff0000000000000 = .fin false 1 := by
  refine ⟨?_, ?_, ?_, ?_, ?_, ?_, ?_⟩ <;> norm_num [decode, ofFields, binary32, binary64, Format.bias] <;> decide

/-- A dequantize call with scale 0.5 meeting the hypotheses. -/
example : DArgs 2 (Ex.buf [0x1B, 0xE4]) .uint4 .f32 4 ∧ Readable .uint4 .f32 4 2 ∧ |(8 : ℤ)| ≤ 2 ^ 24 - 256 ∧
    decode binary32 0x3f000000 = .fin false (1 / 2) := by
  refine ⟨⟨rfl, rfl, by decide, by decide, by norm_num, by norm_num⟩, by unfold Readable; decide, by norm_num, ?_⟩
  norm_num [decode, ofFields, binary32, Format.bias]

/-- A quantize call (scale 0.5, the five floats of `Ex.xs`) meeting the hypothesis of `C86_quantize_nearest`. -/
theorem xs_room : ∀ i, i < 5 → ∃ p s a, IsScaled 0x3f000000 (inputWord .f32 Ex.xs.data i) p ∧ decode binary32 p = .fin s a ∧
      Room .nearest (signed s a) 8 := by
  intro i hi
  have hF : Fits 32 (scaled (elem .f32 Ex.xs.data 0 i) (Flt.ofBits f32 0x3f000000)) 8 := by
    revert i; decide +kernel
  obtain ⟨h1, ⟨h2, h3⟩, h4, h5⟩ := hF
  refine ⟨_, _, _, ?_, decode_fin (f := f32) (isFin_mag h1), ?_⟩
  · rw [← inputWord_elem]; exact ieee_scaled (by norm_num) (valid_ofBits _)
  · rw [signed_absRat]; exact ⟨h2, h3, h4, h5⟩

end Verif.Props
